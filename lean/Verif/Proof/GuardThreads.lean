import Verif.Spec.GuardThreads
namespace Verif.Gd
open Verif.Ex (Exn)

/-- The variables are set iff the thread is in a section; each section remembers whether there was one
around it. -/
def Good : Bool → List Sec → Prop
  | on, [] => on = false
  | on, s :: rest => on = true ∧ Good s.saved rest

theorem panicRun_good (eq : Nat → Nat → Bool) (e : Exn) : ∀ (l : List Sec) (on : Bool), Good on l →
    Good (panicRun eq e on l).2.1 (panicRun eq e on l).2.2
  | [], on, h => h
  | s :: rest, on, h => by
    unfold panicRun
    split
    · exact h.2
    · exact panicRun_good eq e rest s.saved h.2

/-- Thread `t` in the whole system and alone. -/
structure Sim (t : Nat) (y z : Sys) : Prop where
  th : y.th t = z.th t
  obs : seenBy t y = seenBy t z
  only : ∀ u, u ≠ t → z.th u = []
  good : ∀ u, (∀ v, v ≠ u → y.th v = []) → Good y.on (y.th u)
  gz : Good z.on (z.th t)

theorem seenBy_append (t : Nat) (y : Sys) (o : List (Nat × List Nat × Option Bool)) (on : Bool) (th : Nat → List Sec) :
    seenBy t ⟨on, th, y.obs ++ o⟩ = seenBy t y ++ o.filter (fun o => o.1 == t) := by
  simp [seenBy]

theorem good_idle {on : Bool} (h : Good on []) : on = false := h

theorem Sim.step_other {eq : Nat → Nat → Bool} {t : Nat} {y z : Sys} (h : Sim t y z) (o : Op) (ho : o.tid ≠ t)
    (hs : ∀ u, u ≠ o.tid → y.th u = []) : Sim t (step eq y o) z := by
  have hg := h.good o.tid hs
  have hth : ∀ u l, (y.set u l).th = fun v => if v = u then l else y.th v := fun _ _ => rfl
  have key : ∀ (l : List Sec) (on : Bool) (ob : List (Nat × List Nat × Option Bool)), Good on l →
      ob.filter (fun o => o.1 == t) = [] →
      Sim t { y.set o.tid l with on := on, obs := y.obs ++ ob } z := by
    intro l on ob hgl hob
    refine ⟨?_, ?_, h.only, ?_, h.gz⟩
    · show (if t = o.tid then l else y.th t) = _
      rw [if_neg (Ne.symm ho)]; exact h.th
    · rw [seenBy_append, hob, List.append_nil]; exact h.obs
    · intro u hu
      show Good on (if u = o.tid then l else y.th u)
      by_cases hc : u = o.tid
      · rw [if_pos hc]; exact hgl
      · rw [if_neg hc]
        have hl : l = [] := by
          have := hu o.tid (Ne.symm hc)
          simpa [hth] using this
        rw [hs u hc]
        rw [hl] at hgl
        exact hgl
  have key0 : ∀ (l : List Sec) (on : Bool), Good on l → Sim t { y.set o.tid l with on := on } z := by
    intro l on hgl
    have := key l on [] hgl rfl
    rw [List.append_nil] at this
    exact this
  cases o with
  | enter u => exact key0 _ true ⟨rfl, hg⟩
  | exit u =>
    simp only [step]
    cases hu : y.th u with
    | nil => exact h
    | cons s rest =>
      dsimp only
      have hg' : Good y.on (y.th u) := hg
      rw [hu] at hg'
      have hne : u ≠ t := ho
      exact key rest s.saved [(u, s.defers.map D.id, some true)] hg'.2 (by simp [hne])
  | defer u d =>
    simp only [step]
    cases hu : y.th u with
    | nil => exact h
    | cons s rest =>
      dsimp only
      have hg' : Good y.on (y.th u) := hg
      rw [hu] at hg'
      exact key0 _ y.on ⟨hg'.1, hg'.2⟩
  | malloc u p =>
    simp only [step]
    cases hu : y.th u with
    | nil => exact h
    | cons s rest =>
      dsimp only
      have hg' : Good y.on (y.th u) := hg
      rw [hu] at hg'
      exact key0 _ y.on ⟨hg'.1, hg'.2⟩
  | panic u e =>
    have hne : u ≠ t := ho
    exact key _ _ [(u, (panicRun eq e y.on (y.th u)).1)] (panicRun_good eq e _ _ hg) (by simp [hne])

theorem Good.unique : ∀ {l : List Sec} {a b : Bool}, Good a l → Good b l → a = b
  | [], _, _, h, h' => h.trans h'.symm
  | _ :: _, _, _, h, h' => h.1.trans h'.1.symm

theorem Sim.step_same {eq : Nat → Nat → Bool} {t : Nat} {y z : Sys} (h : Sim t y z) (o : Op) (ho : o.tid = t)
    (hs : ∀ u, u ≠ o.tid → y.th u = []) : Sim t (step eq y o) (step eq z o) := by
  rw [ho] at hs
  have hg := h.good t hs
  have hon : y.on = z.on := Good.unique hg (by rw [h.th]; exact h.gz)
  have key : ∀ (l : List Sec) (on : Bool) (ob : List (Nat × List Nat × Option Bool)), Good on l →
      Sim t { y.set t l with on := on, obs := y.obs ++ ob } { z.set t l with on := on, obs := z.obs ++ ob } := by
    intro l on ob hgl
    refine ⟨?_, ?_, ?_, ?_, ?_⟩
    · show (if t = t then l else y.th t) = (if t = t then l else z.th t)
      rw [if_pos rfl, if_pos rfl]
    · rw [seenBy_append, seenBy_append, h.obs]
    · intro u hu
      show (if u = t then l else z.th u) = []
      rw [if_neg hu]; exact h.only u hu
    · intro u hu
      show Good on (if u = t then l else y.th u)
      by_cases hc : u = t
      · rw [if_pos hc]; exact hgl
      · rw [if_neg hc, hs u hc]
        have hl : l = [] := by
          have := hu t (Ne.symm hc)
          simpa [Sys.set] using this
        rw [hl] at hgl
        exact hgl
    · show Good on (if t = t then l else z.th t)
      rw [if_pos rfl]; exact hgl
  have key0 : ∀ (l : List Sec) (on : Bool), Good on l → Sim t { y.set t l with on := on } { z.set t l with on := on } := by
    intro l on hgl
    have := key l on [] hgl
    rw [List.append_nil, List.append_nil] at this
    exact this
  cases o with
  | enter u =>
    subst ho
    simp only [step]
    dsimp only [Op.tid] at *
    rw [← h.th, ← hon]
    exact key0 _ true ⟨rfl, hg⟩
  | exit u =>
    subst ho
    simp only [step]
    dsimp only [Op.tid] at *
    rw [← h.th]
    cases hu : y.th u with
    | nil => exact h
    | cons s rest => rw [hu] at hg; exact key rest s.saved _ hg.2
  | defer u d =>
    subst ho
    simp only [step]
    dsimp only [Op.tid] at *
    rw [← h.th]
    cases hu : y.th u with
    | nil => exact h
    | cons s rest =>
      rw [hu] at hg
      have := key0 ({ s with defers := d :: s.defers } :: rest) y.on ⟨hg.1, hg.2⟩
      rw [hon] at this
      have hy : ({ y.set u ({ s with defers := d :: s.defers } :: rest) with on := z.on } : Sys) = y.set u ({ s with defers := d :: s.defers } :: rest) := by
        rw [← hon]; rfl
      rw [hy] at this
      exact this
  | malloc u p =>
    subst ho
    simp only [step]
    dsimp only [Op.tid] at *
    rw [← h.th]
    cases hu : y.th u with
    | nil => exact h
    | cons s rest =>
      rw [hu] at hg
      have := key0 ({ s with defers := ⟨p, none, none⟩ :: s.defers, mem := true } :: rest) y.on ⟨hg.1, hg.2⟩
      rw [hon] at this
      have hy : ({ y.set u ({ s with defers := ⟨p, none, none⟩ :: s.defers, mem := true } :: rest) with on := z.on } : Sys) =
          y.set u ({ s with defers := ⟨p, none, none⟩ :: s.defers, mem := true } :: rest) := by
        rw [← hon]; rfl
      rw [hy] at this
      exact this
  | panic u e =>
    subst ho
    simp only [step]
    dsimp only [Op.tid] at *
    rw [← h.th, ← hon]
    exact key _ _ _ (panicRun_good eq e _ _ hg)

theorem Sim.run {eq : Nat → Nat → Bool} {t : Nat} : ∀ (h : List Op) (y z : Sys), Sim t y z → Serial eq y h →
    Sim t (runSys eq y h) (runSys eq z (h.filter fun o => o.tid == t))
  | [], _, _, hsim, _ => hsim
  | o :: h, y, z, hsim, hs => by
    by_cases ho : o.tid = t
    · rw [List.filter_cons_of_pos (by simp [ho])]
      exact Sim.run h _ _ (hsim.step_same o ho hs.1) hs.2
    · rw [List.filter_cons_of_neg (by simp [ho])]
      exact Sim.run h _ _ (hsim.step_other o ho hs.1) hs.2

end Verif.Gd
