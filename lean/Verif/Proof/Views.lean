import Verif.Spec.Views
/-!
# Views are disjoint, so that a page has one
-/
namespace Verif.Vs
open Verif.Mm

def Apart (u v : View) : Prop := ∀ p, ¬ (u.has p = true ∧ v.has p = true)

structure WF (s : Space) : Prop where
  apart : s.Pairwise Apart
  pos : ∀ v ∈ s, 0 < v.pages

theorem has_iff {v : View} {p : Nat} : v.has p = true ↔ v.base ≤ p ∧ p < v.base + v.pages := by
  simp [View.has]

theorem WF.unique {s : Space} (w : WF s) {u v : View} {p : Nat} (hu : u ∈ s) (hv : v ∈ s) (pu : u.has p = true) (pv : v.has p = true) : u = v := by
  obtain ⟨a, b⟩ := w
  clear b
  induction s with
  | nil => cases hu
  | cons x s ih =>
    rw [List.pairwise_cons] at a
    rcases List.mem_cons.1 hu with rfl | hu'
    · rcases List.mem_cons.1 hv with rfl | hv'
      · rfl
      · exact absurd ⟨pu, pv⟩ (a.1 v hv' p)
    · rcases List.mem_cons.1 hv with rfl | hv'
      · exact absurd ⟨pv, pu⟩ (a.1 u hu' p)
      · exact ih hu' hv' a.2

theorem find_has {s : Space} (w : WF s) {v : View} {p : Nat} (hv : v ∈ s) (pv : v.has p = true) : s.find? (·.has p) = some v := by
  cases h : s.find? (·.has p) with
  | none => exact absurd pv (by simpa using List.find?_eq_none.1 h v hv)
  | some u => rw [w.unique (List.mem_of_find?_eq_some h) hv (by simpa using List.find?_some h) pv]

theorem rights_has {s : Space} (w : WF s) {v : View} {p : Nat} (hv : v ∈ s) (pv : v.has p = true) : rights s p = some (v.now p) := by
  unfold rights; rw [find_has w hv pv]; rfl

theorem rights_none {s : Space} {p : Nat} : rights s p = none ↔ ∀ v ∈ s, v.has p = false := by
  unfold rights
  rw [Option.map_eq_none_iff, List.find?_eq_none]
  simp

theorem rights_some {s : Space} {p : Nat} {r : Rights} (h : rights s p = some r) : ∃ v ∈ s, v.has p = true ∧ v.now p = r := by
  unfold rights at h
  cases e : s.find? (·.has p) with
  | none => rw [e] at h; cases h
  | some v =>
    rw [e] at h
    exact ⟨v, List.mem_of_find?_eq_some e, by simpa using List.find?_some e, by simpa using h⟩

/-! ## Protections -/

theorem grants_view : ∀ prot : Prot, wide prot ≠ PROT_EXEC → protPage (wide prot) ≠ 0 → Grants prot (viewRights (protFile (wide prot))) := by
  unfold Grants; decide

theorem grants_page : ∀ (prot : Prot) (r : Rights), pageRights (protPage (wide prot)) = some r → Grants prot r := by
  have : ∀ prot : Prot, ((pageRights (protPage (wide prot))).all fun r =>
      (!prot.getLsbD 0 || r.r) && r.w == prot.getLsbD 1 && r.x == prot.getLsbD 2) = true := by decide
  intro prot r h
  have := this prot
  rw [h] at this
  simp only [Option.all_some, Bool.and_eq_true, beq_iff_eq] at this
  refine ⟨fun e => ?_, this.1.2, this.2⟩
  have h := this.1.1
  rw [e] at h
  exact h

/-! ## `mmap` -/

theorem clear_has {s : Space} {a n : Nat} (h : clear s a n = true) {v : View} (hv : v ∈ s) {p : Nat} (hp : inRange a n p) : v.has p = false := by
  have := List.all_eq_true.1 h v hv
  simp only [Bool.or_eq_true, decide_eq_true_eq] at this
  have : ¬ v.has p = true := fun e => by have := has_iff.1 e; unfold inRange at hp; omega
  simpa using this

theorem cons_wf {s : Space} (w : WF s) {v : View} (hn : 0 < v.pages) (h : clear s v.base v.pages = true) : WF (v :: s) := by
  refine ⟨List.pairwise_cons.2 ⟨fun u hu p e => ?_, w.apart⟩, fun u hu => ?_⟩
  · rw [clear_has h hu (has_iff.1 e.1)] at e
    exact absurd e.2 (by simp)
  · rcases List.mem_cons.1 hu with rfl | hu
    · exact hn
    · exact w.pos u hu

theorem rights_cons (s : Space) (v : View) (p : Nat) : rights (v :: s) p = if v.has p = true then some (v.now p) else rights s p := by
  unfold rights
  rw [List.find?_cons]
  cases v.has p <;> rfl

/-! ## `munmap` -/

theorem names_has {s : Space} (w : WF s) {inside : Bool} {a : Nat} {v : View} (hv : v ∈ s) (h : names inside a v = true) : v.has a = true := by
  simp only [names, Bool.or_eq_true, beq_iff_eq, Bool.and_eq_true] at h
  rcases h with h | h
  · exact has_iff.2 ⟨by omega, by have := w.pos v hv; omega⟩
  · exact h.2

theorem erase_wf {s : Space} (w : WF s) (f : View → Bool) : WF (s.eraseP f) :=
  ⟨w.apart.sublist List.eraseP_sublist, fun v hv => w.pos v (List.mem_of_mem_eraseP hv)⟩

theorem erase_mem {s : Space} (w : WF s) {inside : Bool} {a : Nat} {v : View} (hv : v ∈ s) (h : names inside a v = true) {u : View} :
    u ∈ s.eraseP (names inside a) ↔ u ∈ s ∧ ¬ names inside a u = true := by
  have uniq : ∀ u ∈ s, names inside a u = true → u = v := fun u hu e => w.unique hu hv (names_has w hu e) (names_has w hv h)
  refine ⟨fun e => ⟨List.mem_of_mem_eraseP e, fun hn => ?_⟩, fun e => (List.mem_eraseP_of_neg e.2).2 e.1⟩
  obtain ⟨x, l1, l2, _, hx, hs, he⟩ := List.exists_of_eraseP hv h
  rw [he] at e
  have hu : u ∈ s := by rw [hs]; rcases List.mem_append.1 e with e | e <;> simp [e]
  have e1 := uniq u hu hn
  have e2 := uniq x (by rw [hs]; simp) hx
  subst e1
  subst e2
  have ap := w.apart
  rw [hs, List.pairwise_append, List.pairwise_cons] at ap
  have hp := names_has w hv h
  rcases List.mem_append.1 e with e | e
  · exact ap.2.2 x e x (by simp) a ⟨hp, hp⟩
  · exact ap.2.1.1 x e a ⟨hp, hp⟩

theorem rights_erase {s : Space} (w : WF s) {inside : Bool} {a : Nat} {v : View} (hv : v ∈ s) (h : names inside a v = true) (p : Nat) :
    rights (s.eraseP (names inside a)) p = if v.has p = true then none else rights s p := by
  by_cases e : v.has p = true
  · rw [if_pos e]
    refine rights_none.2 fun u hu => ?_
    have := (erase_mem w hv h).1 hu
    cases hp : u.has p with
    | false => rfl
    | true => exact absurd (w.unique this.1 hv hp e ▸ h) this.2
  · rw [if_neg e]
    cases hr : rights s p with
    | none => exact rights_none.2 fun u hu => rights_none.1 hr u (List.mem_of_mem_eraseP hu)
    | some r =>
      obtain ⟨u, hu, pu, ru⟩ := rights_some hr
      have hn : ¬ names inside a u = true := fun hn => e (w.unique hu hv (names_has w hu hn) (names_has w hv h) ▸ pu)
      rw [rights_has (erase_wf w _) ((erase_mem w hv h).2 ⟨hu, hn⟩) pu, ru]

/-! ## `mprotect` -/

def mark (a n : Nat) (r : Rights) (v : View) : View := if covers a n v then v.set a n r else v

theorem mark_has (a n : Nat) (r : Rights) (v : View) (p : Nat) : (mark a n r v).has p = v.has p := by
  unfold mark; split <;> rfl

theorem mark_wf {s : Space} (w : WF s) (a n : Nat) (r : Rights) : WF (s.map (mark a n r)) := by
  refine ⟨List.pairwise_map.2 (w.apart.imp fun {u v} h p => by rw [mark_has, mark_has]; exact h p), fun v hv => ?_⟩
  obtain ⟨u, hu, rfl⟩ := List.mem_map.1 hv
  have := w.pos u hu
  unfold mark; split <;> exact this

theorem rights_mark {s : Space} (w : WF s) {a n : Nat} (r : Rights) {v : View} (hn : n ≠ 0) (hv : v ∈ s) (hc : covers a n v = true) (p : Nat) :
    rights (s.map (mark a n r)) p = if inRange a n p then some r else rights s p := by
  simp only [covers, Bool.and_eq_true, decide_eq_true_eq] at hc
  have hva : v.has a = true := has_iff.2 (by omega)
  by_cases e : inRange a n p
  · rw [if_pos e]
    have hvp : v.has p = true := has_iff.2 (by unfold inRange at e; omega)
    rw [rights_has (mark_wf w a n r) (List.mem_map.2 ⟨v, hv, rfl⟩) (by rw [mark_has]; exact hvp)]
    have : covers a n v = true := by simp [covers]; omega
    unfold inRange at e
    simp [mark, this, View.set, e]
  · rw [if_neg e]
    cases hr : rights s p with
    | none =>
      refine rights_none.2 fun u hu => ?_
      obtain ⟨x, hx, rfl⟩ := List.mem_map.1 hu
      rw [mark_has]; exact rights_none.1 hr x hx
    | some q =>
      obtain ⟨u, hu, pu, ru⟩ := rights_some hr
      rw [rights_has (mark_wf w a n r) (List.mem_map.2 ⟨u, hu, rfl⟩) (by rw [mark_has]; exact pu), ← ru]
      unfold mark inRange at *
      split
      · simp [View.set, e]
      · rfl

/-! ## A call -/

theorem same_some {s : Space} {m : Pages} (h : Same s m) (p : Nat) : m p = none ↔ rights s p = none := by
  have := h p
  cases e1 : rights s p <;> cases e2 : m p <;> simp [e1, e2] at this ⊢

theorem step_wf {s : Space} (w : WF s) (inside : Bool) (k : Option Nat) (o : Op) : WF (step inside k o s).2 := by
  cases o with
  | mmap a n prot fixed =>
    simp only [step, mmap]
    repeat' split
    all_goals first | exact w | skip
    rename_i h _ _ _ _ hc
    exact cons_wf w (by simp at h ⊢; omega) hc
  | munmap a n =>
    simp only [step, munmap]
    split
    · exact erase_wf w _
    · exact w
  | mprotect a n prot =>
    simp only [step, mprotect]
    repeat' split
    all_goals first | exact w | exact mark_wf w a n _

theorem step_same {s : Space} {m : Pages} (w : WF s) (h : Same s m) (inside : Bool) (k : Option Nat) (o : Op) (hw : Whole inside o s) :
    Allowed o (step inside k o s).1 m ∧ Same (step inside k o s).2 (posix o (step inside k o s).1 m) := by
  cases o with
  | mmap a n prot fixed =>
    simp only [step, mmap]
    by_cases h1 : n = 0 ∨ wide prot = PROT_EXEC
    · rw [if_pos h1]; exact ⟨trivial, h⟩
    rw [if_neg h1]
    by_cases h2 : protPage (wide prot) = 0
    · rw [if_pos h2]; exact ⟨trivial, h⟩
    rw [if_neg h2]
    rcases hb : (if fixed then some a else k) with _ | base
    · exact ⟨trivial, h⟩
    dsimp only
    by_cases hc : clear s base n = true
    · rw [if_pos hc]
      refine ⟨?_, fun p => ?_⟩
      · show if fixed then base = a else ∀ p, inRange base n p → m p = none
        cases fixed with
        | true => simp at hb; simp [hb]
        | false => exact fun p hp => (same_some h p).2 (rights_none.2 fun v hv => clear_has hc hv hp)
      · have e : (View.has ⟨base, n, viewRights (protFile (wide prot)), fun _ => viewRights (protFile (wide prot))⟩ p = true) ↔ inRange base n p := has_iff
        rw [rights_cons]
        by_cases hp : inRange base n p
        · rw [if_pos (e.2 hp)]
          have : posix (.mmap a n prot fixed) (.at base) m p = some prot := if_pos hp
          rw [this]
          exact grants_view prot (fun x => h1 (.inr x)) h2
        · rw [if_neg (fun x => hp (e.1 x))]
          have : posix (.mmap a n prot fixed) (.at base) m p = m p := if_neg hp
          rw [this]
          exact h p
    · rw [if_neg hc]; exact ⟨trivial, h⟩
  | munmap a n =>
    obtain ⟨v, hv, hn, he⟩ := hw
    have hany : s.any (names inside a) = true := List.any_eq_true.2 ⟨v, hv, hn⟩
    simp only [step, munmap, hany, if_true]
    refine ⟨trivial, fun p => ?_⟩
    rw [rights_erase w hv hn]
    have hp := h p
    by_cases e : v.has p = true
    · rw [if_pos e]
      have : posix (.munmap a n) .ok m p = none := if_pos ((he p).1 e).1
      rw [this]; trivial
    · rw [if_neg e]
      by_cases hi : inRange a n p
      · have hr : rights s p = none := by
          cases hr : rights s p with
          | none => rfl
          | some r => exact absurd ((he p).2 ⟨hi, by simp [hr]⟩) e
        have : posix (.munmap a n) .ok m p = none := if_pos hi
        rw [this, hr]; trivial
      · have : posix (.munmap a n) .ok m p = m p := if_neg hi
        rw [this]; exact hp
  | mprotect a n prot =>
    simp only [step, mprotect]
    rcases hr : pageRights (protPage (wide prot)) with _ | r
    · exact ⟨trivial, h⟩
    dsimp only
    by_cases c : n ≠ 0 ∧ s.any (fun v => covers a n v && within r v.most) = true
    · rw [if_pos c]
      obtain ⟨v, hv, hc⟩ := List.any_eq_true.1 c.2
      rw [Bool.and_eq_true] at hc
      have hc := hc.1
      refine ⟨fun p hp => ?_, fun p => ?_⟩
      · rw [Ne, same_some h, rights_none]
        intro x
        have := x v hv
        simp only [covers, Bool.and_eq_true, decide_eq_true_eq] at hc
        have h2 : v.has p = true := has_iff.2 (by unfold inRange at hp; omega)
        rw [h2] at this; cases this
      · have := rights_mark w r c.1 hv hc p
        unfold mark at this
        rw [this]
        by_cases hi : inRange a n p
        · have e : posix (.mprotect a n prot) .ok m p = some prot := if_pos hi
          rw [e, if_pos hi]
          exact grants_page prot r hr
        · have e : posix (.mprotect a n prot) .ok m p = m p := if_neg hi
          rw [e, if_neg hi]
          exact h p
    · rw [if_neg c]; exact ⟨trivial, h⟩

theorem whole_of {s : Space} {m : Pages} (w : WF s) (h : Same s m) (inside : Bool) (a n : Nat) (hn : 0 < n)
    (g : Allowed (.munmap a n) (munmap inside a n s).1 m ∧ Same (munmap inside a n s).2 (posix (.munmap a n) (munmap inside a n s).1 m)) :
    Whole inside (.munmap a n) s := by
  unfold munmap at g
  by_cases hany : s.any (names inside a) = true
  · simp only [hany, if_true] at g
    obtain ⟨v, hv, hnm⟩ := List.any_eq_true.1 hany
    refine ⟨v, hv, hnm, fun p => ?_⟩
    have gp := g.2 p
    rw [rights_erase w hv hnm] at gp
    constructor
    · intro e
      rw [if_pos e] at gp
      have hr := rights_has w hv e
      refine ⟨?_, by simp [hr]⟩
      refine Decidable.byContradiction fun hi => ?_
      have e1 : posix (.munmap a n) .ok m p = m p := if_neg hi
      rw [e1] at gp
      cases hm : m p with
      | none => rw [(same_some h p).1 hm] at hr; cases hr
      | some x => rw [hm] at gp; exact gp
    · rintro ⟨hi, hs⟩
      refine Decidable.byContradiction fun e => ?_
      rw [if_neg e] at gp
      have e1 : posix (.munmap a n) .ok m p = none := if_pos hi
      rw [e1] at gp
      cases hr : rights s p with
      | none => simp [hr] at hs
      | some x => rw [hr] at gp; exact gp
  · simp only [hany] at g
    have := g.1
    have : n = 0 := this
    omega

theorem run_same (inside : Bool) (os : List (Op × Option Nat)) {s : Space} {m : Pages} (w : WF s) (h : Same s m) (hw : AllWhole inside os s) :
    AllAllowed ((os.map (·.1)).zip (run inside os s).1) m ∧
      Same (run inside os s).2 (posixRun ((os.map (·.1)).zip (run inside os s).1) m) := by
  induction os generalizing s m with
  | nil => exact ⟨trivial, h⟩
  | cons x os ih =>
    obtain ⟨o, k⟩ := x
    have st := step_same w h inside k o hw.1
    have r := ih (step_wf w inside k o) st.2 hw.2
    exact ⟨⟨st.1, r.1⟩, r.2⟩

theorem run_wf (inside : Bool) (os : List (Op × Option Nat)) {s : Space} (w : WF s) : WF (run inside os s).2 := by
  induction os generalizing s with
  | nil => exact w
  | cons x os ih => exact ih (step_wf w inside x.2 x.1)

theorem nil_wf : WF [] := ⟨.nil, fun _ h => by cases h⟩

end Verif.Vs
