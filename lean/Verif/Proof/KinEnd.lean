import Verif.Proof.Kin
/-!
# Patient histories can be brought to an end
-/
namespace Verif.Kn
open Spec

/-- Threads and who started them, after any history. -/
structure Tree (s : Sys) : Prop where
  pos : 0 < s.next
  par : ∀ c, 0 < c → c < s.next → s.parent c < c
  live : ∀ c, c < s.next → s.pc c ≠ .none
  fresh : ∀ c, s.next ≤ c → s.pc c = .none

theorem Tree.init : Tree Kn.init where
  pos := Nat.one_pos
  par c h1 h2 := by exact absurd (show c < 1 from h2) (by omega)
  live c h := by
    have h' : c < 1 := h
    simp only [Kn.init]
    rw [if_pos (by omega)]; simp
  fresh c hc := by
    have hc' : 1 ≤ c := hc
    simp only [Kn.init]
    rw [if_neg (by omega)]

theorem Tree.started {s : Sys} (i : Tree s) (t : Nat) (ht : s.pc t ≠ .none) : t < s.next := by
  rcases Nat.lt_or_ge t s.next with h | h
  · exact h
  · exact absurd (i.fresh t h) ht

theorem Tree.move {s s' : Sys} (i : Tree s) (t : Nat) (q : Pc) (ht : s.pc t ≠ .none) (hq : q ≠ .none) (h1 : s'.pc = fn s.pc t q) (h2 : s'.next = s.next)
    (h3 : s'.parent = s.parent) : Tree s' where
  pos := by rw [h2]; exact i.pos
  par c h0 hc := by rw [h3]; rw [h2] at hc; exact i.par c h0 hc
  live c hc := by
    rw [h2] at hc; rw [h1]; simp only [fn]
    split
    · exact hq
    · exact i.live c hc
  fresh c hc := by
    rw [h2] at hc; rw [h1]; simp only [fn]
    rw [if_neg (by have := i.started t ht; omega)]
    exact i.fresh c hc

/-- Steps still to come. -/
def Pc.rank : Pc → Nat
  | .none => 0 | .begin => 8 | .body => 7 | .lock => 6 | .store => 5 | .unlock => 4 | .done => 3 | .destroy => 2 | .exit => 1 | .over => 0

/-- A step moves its thread on, and no other. -/
theorem step_eff (s : Sys) (t : Nat) (x : Bool) (hn : s.pc t ≠ .none) (ho : s.pc t ≠ .over) :
    ∃ s' q, act s (.step t x) = some s' ∧ s'.next = s.next ∧ s'.parent = s.parent ∧ s'.pc = fn s.pc t q ∧ q ≠ .none ∧ q.rank < (s.pc t).rank := by
  cases hp : s.pc t with
  | none => exact absurd hp hn
  | over => exact absurd hp ho
  | begin => exact ⟨{ s.useScope t with pc := fn s.pc t .body }, .body, by simp only [act, hp], rfl, rfl, rfl, by simp, by simp [Pc.rank]⟩
  | body =>
    by_cases h0 : t = 0
    · exact ⟨{ s with pc := fn s.pc t .destroy }, .destroy, by simp only [act, hp]; rw [if_pos h0], rfl, rfl, rfl, by simp, by simp [Pc.rank]⟩
    · cases x with
      | true => exact ⟨{ s.useScope t with pc := fn s.pc t .lock }, .lock, by simp only [act, hp]; rw [if_neg h0]; simp, rfl, rfl, rfl, by simp, by simp [Pc.rank]⟩
      | false => exact ⟨{ s with pc := fn s.pc t .lock }, .lock, by simp only [act, hp]; rw [if_neg h0]; simp, rfl, rfl, rfl, by simp, by simp [Pc.rank]⟩
  | lock => exact ⟨{ s.useProm t with pc := fn s.pc t .store }, .store, by simp only [act, hp], rfl, rfl, rfl, by simp, by simp [Pc.rank]⟩
  | store => exact ⟨{ s.useScope t with pc := fn s.pc t .unlock }, .unlock, by simp only [act, hp], rfl, rfl, rfl, by simp, by simp [Pc.rank]⟩
  | unlock => exact ⟨{ s.useProm t with pc := fn s.pc t .done }, .done, by simp only [act, hp], rfl, rfl, rfl, by simp, by simp [Pc.rank]⟩
  | done => exact ⟨{ s.useProm t with pc := fn s.pc t .destroy, flag := fn s.flag t true }, .destroy, by simp only [act, hp], rfl, rfl, rfl, by simp, by simp [Pc.rank]⟩
  | destroy =>
    refine ⟨{ s.clean t with pc := fn s.pc t .exit }, .exit, by simp only [act, hp], ?_, ?_, rfl, by simp, by simp [Pc.rank]⟩
    · exact clean_next s t
    · exact clean_parent s t
  | exit => exact ⟨{ s with pc := fn s.pc t .over, gone := fn s.gone t true }, .over, by simp only [act, hp], rfl, rfl, rfl, by simp, by simp [Pc.rank]⟩

theorem act_tree {s s' : Sys} {a : Act} (i : Tree s) (h : act s a = some s') : Tree s' := by
  cases a with
  | async t =>
    simp only [act] at h
    split at h <;> simp at h
    next hb =>
    rw [← h]
    have ht := i.started t (by rw [hb]; simp)
    refine ⟨Nat.succ_pos _, fun c h0 hc => ?_, fun c hc => ?_, fun c hc => ?_⟩
    · have hc' : c < s.next + 1 := hc
      simp only [fn]
      split
      · omega
      · exact i.par c h0 (by omega)
    · have hc' : c < s.next + 1 := hc
      simp only [fn]
      split
      · simp
      · exact i.live c (by omega)
    · have hc' : s.next + 1 ≤ c := hc
      simp only [fn]
      rw [if_neg (by omega)]
      exact i.fresh c (by omega)
  | poll t c =>
    simp only [act] at h
    split at h <;> simp at h
    rw [← h]
    exact ⟨i.pos, i.par, i.live, i.fresh⟩
  | release t =>
    simp only [act] at h
    split at h <;> simp at h
    rw [← h]
    exact ⟨by rw [clean_next]; exact i.pos, by rw [clean_next, clean_parent]; exact i.par, by rw [clean_next, clean_pc]; exact i.live,
      by rw [clean_next, clean_pc]; exact i.fresh⟩
  | step t x =>
    have hn : s.pc t ≠ .none := by intro k; simp [act, k] at h
    have ho : s.pc t ≠ .over := by intro k; simp [act, k] at h
    obtain ⟨s'', q, e, h1, h2, h3, h4, -⟩ := step_eff s t x hn ho
    rw [h] at e
    cases e
    exact i.move t q hn h4 h3 h1 h2

theorem acts_tree : ∀ (h : List Act) (s s' : Sys), Tree s → acts h s = some s' → Tree s'
  | [], s, s', i, e => by simp only [acts, Option.some.injEq] at e; rw [← e]; exact i
  | a :: l, s, s', i, e => by
    simp only [acts] at e
    split at e
    · simp at e
    · rw [Option.bind_eq_some_iff] at e
      obtain ⟨z, k1, k2⟩ := e
      exact acts_tree l z s' (act_tree i k1) k2

theorem acts_parent : ∀ (h : List Act) (s s' : Sys), acts h s = some s' → ∀ c, c < s.next → s'.parent c = s.parent c
  | [], s, s', e, c, _ => by simp only [acts, Option.some.injEq] at e; rw [e]
  | a :: l, s, s', e, c, hc => by
    simp only [acts] at e
    split at e
    · simp at e
    · rw [Option.bind_eq_some_iff] at e
      obtain ⟨z, k1, k2⟩ := e
      have d := act_did k1
      rw [acts_parent l z s' k2 c (Nat.lt_of_lt_of_le hc d.next), d.parent c hc]

theorem Spec.Knows.mono {h h' : List Act} {t c : Nat} (k : Knows h t c) : Knows (h ++ h') t c := by
  cases k with
  | @looked h₁ h₂ s₁ _ _ e hf => rw [List.append_assoc, List.cons_append]; exact .looked e hf

/-- At a release the thread knew. -/
theorem patient_release {h : List Act} (p : Patient h) : ∀ h₁ h₂ t s₁, h = h₁ ++ .release t :: h₂ → acts h₁ init = some s₁ →
    ∀ c, 0 < c → c < s₁.next → s₁.parent c = t → Knows h₁ t c := by
  induction p with
  | nil => intro h₁ h₂ t s₁ e; simp at e
  | @snoc h a s p e hr _ _ ih =>
    intro h₁ h₂ t s₁ e1 e2 c h0 hc hp
    rcases List.eq_nil_or_concat h₂ with rfl | ⟨l, b, rfl⟩
    · obtain ⟨rfl, k⟩ := List.append_inj' e1 rfl
      rw [e] at e2
      cases e2
      exact hr t (by simpa using k) c h0 hc hp
    · have e3 : h ++ [a] = (h₁ ++ .release t :: l) ++ [b] := by rw [e1]; simp
      obtain ⟨k, -⟩ := List.append_inj' e3 rfl
      exact ih h₁ l t s₁ k e2 c h0 hc hp

/-- A patient history and where it leads. -/
structure Go (h : List Act) (s : Sys) : Prop where
  pat : Patient h
  run : acts h init = some s

theorem Go.tree {h : List Act} {s : Sys} (g : Go h s) : Tree s := acts_tree h _ s Tree.init g.run

theorem Go.inv {h : List Act} {s : Sys} (g : Go h s) : Inv h s := patient_inv g.pat s g.run

theorem Go.runs {h : List Act} {s s' : Sys} {a : Act} (g : Go h s) (h0 : s.pc 0 ≠ .over) (e : act s a = some s') : acts (h ++ [a]) init = some s' := by
  rw [acts_append, g.run, Option.bind_some]
  simp only [acts]
  rw [if_neg h0, e]; rfl

/-- The thread looks at what it started, one after the other. -/
theorem Go.looks {h : List Act} {s : Sys} (g : Go h s) (t : Nat) (hb : s.pc t = .body) (h0 : s.pc 0 ≠ .over)
    (hf : ∀ c, 0 < c → c < s.next → s.parent c = t → s.flag c = true) (n : Nat) (hn : n ≤ s.next) :
    ∃ h', Go (h ++ h') s ∧ ∀ c, 0 < c → c < n → s.parent c = t → Knows (h ++ h') t c := by
  induction n with
  | zero => exact ⟨[], by simpa using g, fun c _ hc => by omega⟩
  | succ n ih =>
    obtain ⟨h', g', k⟩ := ih (by omega)
    by_cases hc : (0 < n ∧ s.parent n = t) ∧ ¬ Knows (h ++ h') t n
    · obtain ⟨⟨h0n, hpn⟩, hk⟩ := hc
      have ea : act s (.poll t n) = some (s.useProm n) := by
        simp only [act]
        rw [if_pos ⟨hb, by omega, h0n, hpn⟩]
      have er := g'.runs h0 ea
      have pp : Patient (h ++ h' ++ [.poll t n]) := by
        refine .snoc g'.pat g'.run (fun _ q => by cases q) (fun _ _ q => by cases q) (fun t' c' q => ?_)
        cases q
        rintro ⟨h₁, h₂, s₁, k1, k2, k3⟩
        apply hk
        have : s₁.parent n = t := by
          have e := g'.run
          rw [k1, acts_append, k2, Option.bind_some] at e
          rw [← acts_parent _ _ _ e n k3]; exact hpn
        rw [k1]
        exact (patient_release g'.pat h₁ h₂ t s₁ k1 k2 n h0n k3 this).mono
      have es : s.useProm n = s := by
        have b1 := (patient_inv pp _ er).ok
        have b2 := g'.inv.ok
        simp only [Sys.useProm] at b1 ⊢
        rw [b1]
        cases s
        simp only at b2
        rw [b2]
      rw [es] at er
      refine ⟨h' ++ [.poll t n], ⟨by rw [← List.append_assoc]; exact pp, by rw [← List.append_assoc]; exact er⟩, fun c hc0 hcn hcp => ?_⟩
      rw [← List.append_assoc]
      rcases Nat.lt_or_ge c n with hl | hl
      · exact (k c hc0 hl hcp).mono
      · have : c = n := by omega
        subst this
        exact .looked g'.run (hf c hc0 (by omega) hcp)
    · refine ⟨h', g', fun c hc0 hcn hcp => ?_⟩
      rcases Nat.lt_or_ge c n with hl | hl
      · exact k c hc0 hl hcp
      · have : c = n := by omega
        subst this
        exact Classical.byContradiction fun hk => hc ⟨⟨hc0, hcp⟩, hk⟩

/-- A thread whose own threads are over comes to its end. -/
theorem Go.ends {h : List Act} {s : Sys} (g : Go h s) (t : Nat) (hn : s.pc t ≠ .none) (h0 : s.pc 0 ≠ .over)
    (hf : ∀ c, 0 < c → c < s.next → s.parent c = t → s.flag c = true) :
    ∃ h' s', Go (h ++ h') s' ∧ s'.pc t = .over ∧ s'.next = s.next ∧ ∀ u, u ≠ t → s'.pc u = s.pc u := by
  generalize hr : (s.pc t).rank = r
  induction r using Nat.strongRecOn generalizing h s with
  | ind r ih =>
    by_cases ho : s.pc t = .over
    · exact ⟨[], s, by simpa using g, ho, rfl, fun _ _ => rfl⟩
    · obtain ⟨h1, g1, k1⟩ : ∃ h1, Go (h ++ h1) s ∧ (s.pc t = .body → ∀ c, 0 < c → c < s.next → s.parent c = t → Knows (h ++ h1) t c) := by
        by_cases hb : s.pc t = .body
        · obtain ⟨h1, g1, k⟩ := g.looks t hb h0 hf s.next (Nat.le_refl _)
          exact ⟨h1, g1, fun _ => k⟩
        · exact ⟨[], by simpa using g, fun k => absurd k hb⟩
      obtain ⟨s2, q, e2, en, ep, epc, hq, hrank⟩ := step_eff s t false hn ho
      have g2 : Go (h ++ h1 ++ [.step t false]) s2 :=
        ⟨.snoc g1.pat g1.run (fun _ k => by cases k) (fun _ _ k hb => by cases k; exact k1 hb) (fun _ _ k => by cases k), g1.runs h0 e2⟩
      have hpt : s2.pc t = q := by rw [epc]; simp [fn]
      by_cases hqo : q = .over
      · refine ⟨h1 ++ [.step t false], s2, by rw [← List.append_assoc]; exact g2, by rw [hpt, hqo], en, fun u hu => by rw [epc]; simp [fn, hu]⟩
      · have h02 : s2.pc 0 ≠ .over := by
          rw [epc]; simp only [fn]
          split
          · exact hqo
          · exact h0
        obtain ⟨h3, s3, g3, k3, n3, u3⟩ := ih q.rank (by omega) g2 (by rw [hpt]; exact hq) h02
          (fun c hc0 hcn hcp => act_flag e2 c (hf c hc0 (by rw [← en]; exact hcn) (by rw [← ep]; exact hcp))) (by rw [hpt])
        refine ⟨h1 ++ [.step t false] ++ h3, s3, by simpa [List.append_assoc] using g3, k3, by rw [n3, en], fun u hu => ?_⟩
        rw [u3 u hu, epc]; simp [fn, hu]

/-- All threads, the youngest first. -/
theorem Go.all {h : List Act} {s : Sys} (g : Go h s) (h0 : s.pc 0 ≠ .over) (k : Nat) (hk : k ≤ s.next) :
    ∃ h' s', Go (h ++ h') s' ∧ s'.next = s.next ∧ (k < s.next → s'.pc 0 ≠ .over) ∧ ∀ u, s.next - k ≤ u → u < s.next → s'.pc u = .over := by
  induction k with
  | zero => exact ⟨[], s, by simpa using g, rfl, fun _ => h0, fun u h1 h2 => by omega⟩
  | succ k ih =>
    obtain ⟨h1, s1, g1, n1, m1, o1⟩ := ih (by omega)
    have T := g1.tree
    have I := g1.inv
    obtain ⟨h2, s2, g2, k2, n2, u2⟩ := g1.ends (s.next - (k + 1)) (T.live _ (by omega)) (m1 (by omega)) (fun c hc0 hcn hcp => by
      have := T.par c hc0 hcn
      exact I.late c hc0 hcn (.inr (.inr (o1 c (by omega) (by omega)))))
    refine ⟨h1 ++ h2, s2, by rw [← List.append_assoc]; exact g2, by rw [n2, n1], fun hl => ?_, fun u hu1 hu2 => ?_⟩
    · rw [u2 0 (by omega)]; exact m1 (by omega)
    · by_cases hu : u = s.next - (k + 1)
      · rw [hu]; exact k2
      · rw [u2 u hu]; exact o1 u (by omega) hu2

end Verif.Kn
