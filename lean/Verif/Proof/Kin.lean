import Verif.Spec.Kin
/-!
# The invariant of patient histories
-/
namespace Verif.Kn
open Spec

theorem acts_append : ∀ (h₁ h₂ : List Act) (s : Sys), acts (h₁ ++ h₂) s = (acts h₁ s).bind (acts h₂)
  | [], _, _ => by simp [acts]
  | a :: h, h₂, s => by
    simp only [List.cons_append, acts]
    split
    · rfl
    · cases act s a with
      | none => rfl
      | some x => simp only [Option.bind_some]; exact acts_append h h₂ x

theorem clean_flag (s : Sys) (t : Nat) : (s.clean t).flag = s.flag := by unfold Sys.clean; split <;> rfl
theorem clean_pc (s : Sys) (t : Nat) : (s.clean t).pc = s.pc := by unfold Sys.clean; split <;> rfl
theorem clean_next (s : Sys) (t : Nat) : (s.clean t).next = s.next := by unfold Sys.clean; split <;> rfl
theorem clean_parent (s : Sys) (t : Nat) : (s.clean t).parent = s.parent := by unfold Sys.clean; split <;> rfl
theorem clean_gone (s : Sys) (t : Nat) : (s.clean t).gone = s.gone := by unfold Sys.clean; split <;> rfl

theorem act_flag {s s' : Sys} {a : Act} (h : act s a = some s') (c : Nat) (hc : s.flag c = true) : s'.flag c = true := by
  cases a with
  | async t => simp only [act] at h; split at h <;> simp at h; rw [← h]; exact hc
  | poll t c => simp only [act] at h; split at h <;> simp at h; rw [← h]; exact hc
  | release t => simp only [act] at h; split at h <;> simp at h; rw [← h, clean_flag]; exact hc
  | step t x =>
    simp only [act] at h
    split at h
    case h_9 => simp at h; rw [← h]; show (s.clean t).flag c = true; rw [clean_flag]; exact hc
    case h_8 => simp at h; rw [← h]; simp only [fn]; split <;> simp [hc]
    case h_4 =>
      split at h
      · simp at h; rw [← h]; exact hc
      · split at h <;> (simp at h; rw [← h]; exact hc)
    all_goals first | (simp at h; done) | (simp at h; rw [← h]; exact hc)

theorem acts_flag : ∀ (h : List Act) (s s' : Sys), acts h s = some s' → ∀ c, s.flag c = true → s'.flag c = true
  | [], s, s', h, c, hc => by simp only [acts, Option.some.injEq] at h; rw [← h]; exact hc
  | a :: h, s, s', e, c, hc => by
    simp only [acts] at e
    split at e
    · simp at e
    · rw [Option.bind_eq_some_iff] at e
      obtain ⟨x, e1, e2⟩ := e
      exact acts_flag h x s' e2 c (act_flag e1 c hc)

theorem Spec.Knows.flag {h : List Act} {t c : Nat} {s : Sys} (k : Knows h t c) (e : acts h init = some s) : s.flag c = true := by
  cases k with
  | @looked h₁ h₂ s₁ _ _ e1 hf =>
    rw [acts_append, e1, Option.bind_some] at e
    exact acts_flag _ _ _ e c hf

/-- What holds after a patient history. -/
structure Inv (h : List Act) (s : Sys) : Prop where
  ok : s.bad = false
  pos : 0 < s.next
  fresh : ∀ c, s.next ≤ c → s.pc c = .none
  older : ∀ c, 0 < c → c < s.next → s.parent c < s.next
  kids : ∀ t c, c ∈ s.kids t → 0 < c ∧ c < s.next ∧ s.parent c = t ∧ s.prom c = true
  flags : ∀ c, s.flag c = true → s.pc c = .destroy ∨ s.pc c = .exit ∨ s.pc c = .over
  early : ∀ c, 0 < c → c < s.next → s.flag c = false → s.prom c = true ∧ s.pc (s.parent c) = .body
  late : ∀ c, 0 < c → c < s.next → s.pc c = .destroy ∨ s.pc c = .exit ∨ s.pc c = .over → s.flag c = true
  gone : ∀ t, s.gone t = true → s.pc t = .over
  main : s.pc 0 = .body ∨ s.pc 0 = .destroy ∨ s.pc 0 = .exit ∨ s.pc 0 = .over
  lost : ∀ c, 0 < c → c < s.next → s.prom c = false → (s.pc (s.parent c) = .exit ∨ s.pc (s.parent c) = .over) ∨
    ∃ h₁ h₂ s₁, h = h₁ ++ .release (s.parent c) :: h₂ ∧ acts h₁ init = some s₁ ∧ c < s₁.next

theorem Inv.init : Inv [] Kn.init where
  ok := rfl
  pos := Nat.one_pos
  fresh c hc := by
    have hc' : 1 ≤ c := hc
    simp only [Kn.init]
    rw [if_neg (by omega)]
  older c h1 h2 := by exact absurd (show c < 1 from h2) (by omega)
  kids t c h := by cases h
  flags c h := by cases h
  early c h1 h2 := by exact absurd (show c < 1 from h2) (by omega)
  late c h1 h2 := by exact absurd (show c < 1 from h2) (by omega)
  gone t h := by cases h
  main := .inl rfl
  lost c h1 h2 := by exact absurd (show c < 1 from h2) (by omega)

/-- A history grows. -/
theorem grows {h : List Act} {a : Act} {t c : Nat} (k : ∃ h₁ h₂ s₁, h = h₁ ++ .release t :: h₂ ∧ acts h₁ Kn.init = some s₁ ∧ c < s₁.next) :
    ∃ h₁ h₂ s₁, h ++ [a] = h₁ ++ .release t :: h₂ ∧ acts h₁ Kn.init = some s₁ ∧ c < s₁.next := by
  obtain ⟨h₁, h₂, s₁, e, r⟩ := k
  exact ⟨h₁, h₂ ++ [a], s₁, by rw [e]; simp, r⟩

/-- A thread goes on from `p` to `q`, having used no memory that was given back. -/
theorem Inv.move {h : List Act} {s s' : Sys} {a : Act} (i : Inv h s) (t : Nat) (q : Pc) (ht : t < s.next) (hp : s.pc t ≠ .destroy ∧ s.pc t ≠ .exit ∧ s.pc t ≠ .over ∧ s.pc t ≠ .none)
    (hq : q ≠ .destroy ∧ q ≠ .exit ∧ q ≠ .over) (hk : s.pc t = .body → q ≠ .body → ∀ c, 0 < c → c < s.next → s.parent c = t → s.flag c = true)
    (h0 : 0 < t ∨ q = .body) (hb : s'.bad = false) (e1 : s'.pc = fn s.pc t q) (e2 : s'.parent = s.parent) (e3 : s'.next = s.next) (e4 : s'.prom = s.prom) (e5 : s'.flag = s.flag) (e6 : s'.kids = s.kids)
    (e7 : s'.gone = s.gone) : Inv (h ++ [a]) s' where
  ok := hb
  pos := e3 ▸ i.pos
  fresh c hc := by
    rw [e3] at hc
    rw [e1]
    simp only [fn]
    rw [if_neg (by omega)]
    exact i.fresh c hc
  older c h1 h2 := by rw [e2, e3] at *; exact i.older c h1 h2
  kids u c hc := by rw [e6] at hc; rw [e2, e3, e4]; exact i.kids u c hc
  flags c hc := by
    rw [e5] at hc
    rw [e1]
    have hf := i.flags c hc
    simp only [fn]
    split
    · next e => subst e; rcases hf with h | h | h <;> simp [h] at hp
    · exact hf
  early c h1 h2 h3 := by
    rw [e3] at h2
    rw [e5] at h3
    obtain ⟨g1, g2⟩ := i.early c h1 h2 h3
    rw [e4, e2, e1]
    refine ⟨g1, ?_⟩
    simp only [fn]
    split
    · next e =>
      apply Classical.byContradiction
      intro hn
      rw [e] at g2
      have := hk g2 hn c h1 h2 e
      rw [h3] at this
      cases this
    · exact g2
  late c h1 h2 h3 := by
    rw [e3] at h2
    rw [e1] at h3
    rw [e5]
    simp only [fn] at h3
    split at h3
    · next e => rcases h3 with h | h | h <;> simp [h] at hq
    · exact i.late c h1 h2 h3
  gone u hu := by
    rw [e7] at hu
    have := i.gone u hu
    rw [e1]
    simp only [fn]
    split
    · next e => subst e; exact absurd this hp.2.2.1
    · exact this
  main := by
    rw [e1]
    simp only [fn]
    split
    · next e => exact .inl (h0.resolve_left (by omega))
    · exact i.main
  lost c h1 h2 h3 := by
    rw [e3] at h2
    rw [e4] at h3
    rw [e1, e2]
    rcases i.lost c h1 h2 h3 with hl | hl
    · refine .inl ?_
      simp only [fn]
      split
      · next e => rw [e] at hl; rcases hl with h | h <;> simp [h] at hp
      · exact hl
    · exact .inr (grows hl)

/-- Cleaning a scope all of whose threads are over. -/
theorem clean_prom (s : Sys) (t c : Nat) : (s.clean t).prom c = if s.armed t = true ∧ c ∈ s.kids t then false else s.prom c := by
  unfold Sys.clean
  by_cases h : s.armed t = true <;> simp [h]

theorem clean_kids (s : Sys) (t u c : Nat) (h : c ∈ (s.clean t).kids u) : c ∈ s.kids u ∧ ¬ (s.armed t = true ∧ u = t) := by
  unfold Sys.clean at h
  split at h
  · next ha =>
    simp only [fn] at h
    split at h
    · simp at h
    · next hu => exact ⟨h, fun k => hu k.2⟩
  · next ha => exact ⟨h, fun k => ha k.1⟩

theorem Inv.clean_bad {h : List Act} {s : Sys} (i : Inv h s) (t : Nat) : (s.clean t).bad = false := by
  unfold Sys.clean
  split
  · have : ((s.kids t).any fun c => !s.prom c) = false := by
      rw [List.any_eq_false]
      intro c hc
      simp [(i.kids t c hc).2.2.2]
    simp [i.ok, this]
  · exact i.ok

/-- The scope of `t` is cleaned; then `t` is at `q`. -/
theorem Inv.cleaned {h : List Act} {s s' : Sys} {a : Act} (i : Inv h s) (t : Nat) (q : Pc) (ht : t < s.next)
    (hk : ∀ c, 0 < c → c < s.next → s.parent c = t → s.flag c = true)
    (hpq : (s.pc t = .body ∧ q = .body ∧ a = .release t ∧ acts h Kn.init = some s) ∨ (s.pc t = .destroy ∧ q = .exit))
    (hb : s'.bad = (s.clean t).bad) (e1 : s'.pc = fn s.pc t q) (e2 : s'.parent = s.parent) (e3 : s'.next = s.next) (e4 : s'.prom = (s.clean t).prom) (e5 : s'.flag = s.flag)
    (e6 : s'.kids = (s.clean t).kids) (e7 : s'.gone = s.gone) : Inv (h ++ [a]) s' where
  ok := hb.trans (i.clean_bad t)
  pos := e3 ▸ i.pos
  fresh c hc := by
    rw [e3] at hc
    rw [e1]
    simp only [fn]
    rw [if_neg (by omega)]
    exact i.fresh c hc
  older c h1 h2 := by rw [e2, e3] at *; exact i.older c h1 h2
  kids u c hc := by
    rw [e6] at hc
    obtain ⟨g1, g2⟩ := clean_kids s t u c hc
    obtain ⟨k1, k2, k3, k4⟩ := i.kids u c g1
    rw [e2, e3, e4, clean_prom]
    refine ⟨k1, k2, k3, ?_⟩
    rw [if_neg]
    · exact k4
    · rintro ⟨m1, m2⟩
      exact g2 ⟨m1, k3.symm.trans (i.kids t c m2).2.2.1⟩
  flags c hc := by
    rw [e5] at hc
    rw [e1]
    have hf := i.flags c hc
    simp only [fn]
    split
    · next e =>
      subst e
      rcases hpq with ⟨p1, -⟩ | ⟨-, p2⟩
      · rcases hf with h | h | h <;> simp [h] at p1
      · exact .inr (.inl p2)
    · exact hf
  early c h1 h2 h3 := by
    rw [e3] at h2
    rw [e5] at h3
    obtain ⟨g1, g2⟩ := i.early c h1 h2 h3
    have hne : s.parent c ≠ t := by
      intro e
      have := hk c h1 h2 e
      rw [h3] at this
      cases this
    rw [e4, e2, e1, clean_prom]
    constructor
    · rw [if_neg]
      · exact g1
      · rintro ⟨-, m2⟩
        exact hne (i.kids t c m2).2.2.1
    · simp only [fn]
      rw [if_neg hne]
      exact g2
  late c h1 h2 h3 := by
    rw [e3] at h2
    rw [e1] at h3
    rw [e5]
    simp only [fn] at h3
    split at h3
    · next e =>
      subst e
      rcases hpq with ⟨-, p2, -⟩ | ⟨p1, -⟩
      · rw [p2] at h3; simp at h3
      · exact i.late c h1 h2 (.inl p1)
    · exact i.late c h1 h2 h3
  gone u hu := by
    rw [e7] at hu
    have := i.gone u hu
    rw [e1]
    simp only [fn]
    split
    · next e =>
      subst e
      rcases hpq with ⟨p1, -⟩ | ⟨p1, -⟩ <;> (rw [this] at p1; cases p1)
    · exact this
  main := by
    rw [e1]
    simp only [fn]
    split
    · rcases hpq with ⟨-, p, -⟩ | ⟨-, p⟩ <;> simp [p]
    · exact i.main
  lost c h1 h2 h3 := by
    rw [e3] at h2
    rw [e4, clean_prom] at h3
    rw [e1, e2]
    by_cases hm : s.armed t = true ∧ c ∈ s.kids t
    · have hpar := (i.kids t c hm.2).2.2.1
      rw [hpar]
      rcases hpq with ⟨-, -, p3, p4⟩ | ⟨-, p2⟩
      · exact .inr ⟨h, [], s, by rw [p3], p4, h2⟩
      · exact .inl (.inl (by simp [fn, p2]))
    · rw [if_neg hm] at h3
      rcases i.lost c h1 h2 h3 with hl | hl
      · refine .inl ?_
        simp only [fn]
        split
        · next e =>
          rw [e] at hl
          rcases hpq with ⟨p1, -⟩ | ⟨p1, -⟩ <;> rcases hl with h | h <;> (rw [h] at p1; cases p1)
        · exact hl
      · exact .inr (grows hl)

theorem fn_self {β : Type} (f : Nat → β) (a : Nat) : fn f a (f a) = f := by
  funext x
  simp only [fn]
  split
  · next e => rw [e]
  · rfl

theorem Inv.started {h : List Act} {s : Sys} (i : Inv h s) (t : Nat) (ht : s.pc t ≠ .none) : t < s.next := by
  apply Nat.lt_of_not_le
  intro hn
  exact ht (i.fresh t hn)

/-- A thread that is not yet through with its promise has it, and its creator. -/
theorem Inv.has {h : List Act} {s : Sys} (i : Inv h s) (t : Nat) (h0 : 0 < t) (hn : s.pc t ≠ .none) (hp : s.pc t ≠ .destroy ∧ s.pc t ≠ .exit ∧ s.pc t ≠ .over) :
    s.prom t = true ∧ s.gone (s.parent t) = false := by
  have hf : s.flag t = false := by
    cases hf : s.flag t with
    | false => rfl
    | true => rcases i.flags t hf with h | h | h <;> simp [h] at hp
  obtain ⟨g1, g2⟩ := i.early t h0 (i.started t hn) hf
  refine ⟨g1, ?_⟩
  cases hg : s.gone (s.parent t) with
  | false => rfl
  | true => rw [i.gone _ hg] at g2; cases g2

/-- The last use of the promise, or the main thread's `exit`. -/
theorem Inv.ends {h : List Act} {s s' : Sys} {a : Act} (i : Inv h s) (t : Nat) (ht : t < s.next)
    (hk : ∀ c, 0 < c → c < s.next → s.parent c = t → s.flag c = true) (hp : s.pc t = .done ∨ (s.pc t = .body ∧ t = 0))
    (hb : s'.bad = false) (e1 : s'.pc = fn s.pc t .destroy) (e2 : s'.parent = s.parent) (e3 : s'.next = s.next) (e4 : s'.prom = s.prom)
    (e5 : ∀ c, s'.flag c = true ↔ s.flag c = true ∨ (c = t ∧ 0 < t)) (e6 : s'.kids = s.kids) (e7 : s'.gone = s.gone) : Inv (h ++ [a]) s' where
  ok := hb
  pos := e3 ▸ i.pos
  fresh c hc := by
    rw [e3] at hc
    rw [e1]
    simp only [fn]
    rw [if_neg (by omega)]
    exact i.fresh c hc
  older c h1 h2 := by rw [e2, e3] at *; exact i.older c h1 h2
  kids u c hc := by rw [e6] at hc; rw [e2, e3, e4]; exact i.kids u c hc
  flags c hc := by
    rw [e1]
    simp only [fn]
    split
    · exact .inl rfl
    · next e =>
      rcases (e5 c).mp hc with h | h
      · exact i.flags c h
      · exact absurd h.1 e
  early c h1 h2 h3 := by
    rw [e3] at h2
    have h3' : s.flag c = false := by
      cases hf : s.flag c with
      | false => rfl
      | true => rw [(e5 c).mpr (.inl hf)] at h3; cases h3
    obtain ⟨g1, g2⟩ := i.early c h1 h2 h3'
    have hne : s.parent c ≠ t := by
      intro e
      have := hk c h1 h2 e
      rw [h3'] at this
      cases this
    rw [e4, e2, e1]
    refine ⟨g1, ?_⟩
    simp only [fn]
    rw [if_neg hne]
    exact g2
  late c h1 h2 h3 := by
    rw [e3] at h2
    rw [e1] at h3
    simp only [fn] at h3
    split at h3
    · next e => subst e; exact (e5 c).mpr (.inr ⟨rfl, h1⟩)
    · exact (e5 c).mpr (.inl (i.late c h1 h2 h3))
  gone u hu := by
    rw [e7] at hu
    have := i.gone u hu
    rw [e1]
    simp only [fn]
    split
    · next e => subst e; rcases hp with h | ⟨h, -⟩ <;> (rw [this] at h; cases h)
    · exact this
  main := by
    rw [e1]
    simp only [fn]
    split
    · exact .inr (.inl rfl)
    · exact i.main
  lost c h1 h2 h3 := by
    rw [e3] at h2
    rw [e4] at h3
    rw [e1, e2]
    rcases i.lost c h1 h2 h3 with hl | hl
    · refine .inl ?_
      simp only [fn]
      split
      · next e => rw [e] at hl; rcases hl with h | h <;> rcases hp with k | ⟨k, -⟩ <;> (rw [h] at k; cases k)
      · exact hl
    · exact .inr (grows hl)

/-- The thread's storage ends. -/
theorem Inv.exits {h : List Act} {s s' : Sys} {a : Act} (i : Inv h s) (t : Nat) (ht : t < s.next) (hp : s.pc t = .exit)
    (hb : s'.bad = false) (e1 : s'.pc = fn s.pc t .over) (e2 : s'.parent = s.parent) (e3 : s'.next = s.next) (e4 : s'.prom = s.prom)
    (e5 : s'.flag = s.flag) (e6 : s'.kids = s.kids) (e7 : s'.gone = fn s.gone t true) : Inv (h ++ [a]) s' where
  ok := hb
  pos := e3 ▸ i.pos
  fresh c hc := by
    rw [e3] at hc
    rw [e1]
    simp only [fn]
    rw [if_neg (by omega)]
    exact i.fresh c hc
  older c h1 h2 := by rw [e2, e3] at *; exact i.older c h1 h2
  kids u c hc := by rw [e6] at hc; rw [e2, e3, e4]; exact i.kids u c hc
  flags c hc := by
    rw [e5] at hc
    rw [e1]
    simp only [fn]
    split
    · exact .inr (.inr rfl)
    · exact i.flags c hc
  early c h1 h2 h3 := by
    rw [e3] at h2
    rw [e5] at h3
    obtain ⟨g1, g2⟩ := i.early c h1 h2 h3
    rw [e4, e2, e1]
    refine ⟨g1, ?_⟩
    simp only [fn]
    split
    · next e => rw [e, hp] at g2; cases g2
    · exact g2
  late c h1 h2 h3 := by
    rw [e3] at h2
    rw [e1] at h3
    rw [e5]
    simp only [fn] at h3
    split at h3
    · next e => subst e; exact i.late c h1 h2 (.inr (.inl hp))
    · exact i.late c h1 h2 h3
  gone u hu := by
    rw [e7] at hu
    rw [e1]
    simp only [fn] at hu ⊢
    split
    · rfl
    · next e => rw [if_neg e] at hu; exact i.gone u hu
  main := by
    rw [e1]
    simp only [fn]
    split
    · exact .inr (.inr (.inr rfl))
    · exact i.main
  lost c h1 h2 h3 := by
    rw [e3] at h2
    rw [e4] at h3
    rw [e1, e2]
    rcases i.lost c h1 h2 h3 with hl | hl
    · refine .inl ?_
      simp only [fn]
      split
      · exact .inr rfl
      · exact hl
    · exact .inr (grows hl)

/-- A thread is started. -/
theorem Inv.starts {h : List Act} {s : Sys} {a : Act} (i : Inv h s) (t : Nat) (hp : s.pc t = .body) :
    Inv (h ++ [a]) { s with pc := fn s.pc s.next .begin, parent := fn s.parent s.next t, next := s.next + 1, prom := fn s.prom s.next true, kids := fn s.kids t (s.next :: s.kids t) } := by
  have ht : t < s.next := i.started t (by rw [hp]; simp)
  have hpar : ∀ c, 0 < c → c < s.next → fn s.parent s.next t c = s.parent c := fun c _ h => by simp only [fn]; rw [if_neg (by omega)]
  constructor
  case ok => exact i.ok
  case pos => exact Nat.succ_pos _
  case fresh =>
    intro c hc
    have hc' : s.next + 1 ≤ c := hc
    simp only [fn]
    rw [if_neg (by omega)]
    exact i.fresh c (by omega)
  case older =>
    intro c h1 h2
    have h2' : c < s.next + 1 := h2
    simp only [fn]
    split
    · omega
    · exact Nat.lt_succ_of_lt (i.older c h1 (by omega))
  case kids =>
    intro u c hc
    have old : c ∈ s.kids u → 0 < c ∧ c < s.next + 1 ∧ fn s.parent s.next t c = u ∧ fn s.prom s.next true c = true := by
      intro hm
      obtain ⟨k1, k2, k3, k4⟩ := i.kids u c hm
      refine ⟨k1, by omega, (hpar c k1 k2).trans k3, ?_⟩
      simp only [fn]
      split
      · rfl
      · exact k4
    simp only [fn] at hc
    split at hc
    · next e =>
      subst e
      rcases List.mem_cons.mp hc with e | hm
      · subst e
        exact ⟨i.pos, Nat.lt_succ_self _, by simp [fn], by simp [fn]⟩
      · exact old hm
    · exact old hc
  case flags =>
    intro c hc
    have hf := i.flags c hc
    simp only [fn]
    split
    · next e => rw [e, i.fresh _ (Nat.le_refl _)] at hf; simp at hf
    · exact hf
  case early =>
    intro c h1 h2 h3
    have h2' : c < s.next + 1 := h2
    by_cases e : c = s.next
    · subst e
      refine ⟨by simp [fn], ?_⟩
      show fn s.pc s.next .begin (fn s.parent s.next t s.next) = .body
      have : fn s.parent s.next t s.next = t := by simp [fn]
      rw [this]
      simp only [fn]
      rw [if_neg (by omega)]
      exact hp
    · have h2'' : c < s.next := by omega
      obtain ⟨g1, g2⟩ := i.early c h1 h2'' h3
      refine ⟨by simp [fn, e, g1], ?_⟩
      show fn s.pc s.next .begin (fn s.parent s.next t c) = .body
      rw [hpar c h1 h2'']
      simp only [fn]
      rw [if_neg (by have := i.older c h1 h2''; omega)]
      exact g2
  case late =>
    intro c h1 h2 h3
    have h2' : c < s.next + 1 := h2
    simp only [fn] at h3
    split at h3
    · simp at h3
    · exact i.late c h1 (by omega) h3
  case gone =>
    intro u hu
    have := i.gone u hu
    simp only [fn]
    split
    · next e => rw [e, i.fresh _ (Nat.le_refl _)] at this; cases this
    · exact this
  case main =>
    simp only [fn]
    rw [if_neg (by have := i.pos; omega)]
    exact i.main
  case lost =>
    intro c h1 h2 h3
    have h2' : c < s.next + 1 := h2
    simp only [fn] at h3
    split at h3
    · cases h3
    · next e =>
      have h2'' : c < s.next := by omega
      show ((fn s.pc s.next .begin (fn s.parent s.next t c) = .exit ∨ fn s.pc s.next .begin (fn s.parent s.next t c) = .over) ∨
        ∃ h₁ h₂ s₁, h ++ [a] = h₁ ++ .release (fn s.parent s.next t c) :: h₂ ∧ acts h₁ Kn.init = some s₁ ∧ c < s₁.next)
      rw [hpar c h1 h2'']
      rcases i.lost c h1 h2'' h3 with hl | hl
      · refine .inl ?_
        simp only [fn]
        rw [if_neg (by have := i.older c h1 h2''; omega)]
        exact hl
      · exact .inr (grows hl)

/-- After a patient history. -/
theorem patient_inv {h : List Act} (p : Patient h) : ∀ s, acts h Kn.init = some s → Inv h s := by
  induction p with
  | nil => intro s e; simp only [acts, Option.some.injEq] at e; rw [← e]; exact .init
  | @snoc h a s _ e r1 r2 r3 ih =>
    intro s' e'
    have i := ih s e
    rw [acts_append, e, Option.bind_some] at e'
    simp only [acts] at e'
    split at e'
    · simp at e'
    · rw [Option.bind_eq_some_iff] at e'
      obtain ⟨x, e1, e2⟩ := e'
      simp only [Option.some.injEq] at e2
      subst e2
      cases a with
      | async t =>
        simp only [act] at e1
        split at e1
        · next hp =>
          simp only [Option.some.injEq] at e1
          rw [← e1]
          exact i.starts t hp
        · simp at e1
      | poll t c =>
        simp only [act] at e1
        split at e1
        · next hp =>
          obtain ⟨p1, p2, p3, p4⟩ := hp
          simp only [Option.some.injEq] at e1
          have hprom : s.prom c = true := by
            cases hq : s.prom c with
            | true => rfl
            | false =>
              rcases i.lost c p3 p2 hq with hl | hl
              · rw [p4, p1] at hl; simp at hl
              · rw [p4] at hl; exact absurd hl (r3 t c rfl)
          have hs := (i.started t (by rw [p1]; simp))
          exact i.move t .body hs (by simp [p1]) (by simp) (fun _ h => absurd rfl h) (.inr rfl) (by rw [← e1]; simp [Sys.useProm, i.ok, hprom])
            (by rw [← e1]; show s.pc = fn s.pc t .body; rw [← p1, fn_self]) (by rw [← e1]; rfl) (by rw [← e1]; rfl) (by rw [← e1]; rfl) (by rw [← e1]; rfl) (by rw [← e1]; rfl)
            (by rw [← e1]; rfl)
        · simp at e1
      | release t =>
        simp only [act] at e1
        split at e1
        · next hp =>
          simp only [Option.some.injEq] at e1
          have hk := fun c a b d => (r1 t rfl c a b d).flag e
          exact i.cleaned t .body (i.started t (by rw [hp]; simp)) hk (.inl ⟨hp, rfl, rfl, e⟩) (by rw [← e1])
            (by rw [← e1, clean_pc, ← hp, fn_self]) (by rw [← e1, clean_parent]) (by rw [← e1, clean_next]) (by rw [← e1]) (by rw [← e1, clean_flag]) (by rw [← e1])
            (by rw [← e1, clean_gone])
        · simp at e1
      | step t x =>
        have hk : s.pc t = .body → ∀ c, 0 < c → c < s.next → s.parent c = t → s.flag c = true := fun hb c a b d => (r2 t x rfl hb c a b d).flag e
        have hk' : s.pc t ≠ .body → ∀ c, 0 < c → c < s.next → s.parent c = t → s.flag c = true := by
          intro hb c a b d
          cases hf : s.flag c with
          | true => rfl
          | false => have := (i.early c a b hf).2; rw [d] at this; exact absurd this hb
        have h0 : (s.pc t = .begin ∨ s.pc t = .lock ∨ s.pc t = .store ∨ s.pc t = .unlock ∨ s.pc t = .done) → 0 < t := by
          intro hp
          apply Nat.pos_of_ne_zero
          intro hz
          rw [hz] at hp
          rcases i.main with m | m | m | m <;> rw [m] at hp <;> simp at hp
        simp only [act] at e1
        split at e1
        · simp at e1
        · simp at e1
        · next hp =>
          simp only [Option.some.injEq] at e1
          obtain ⟨g1, g2⟩ := i.has t (h0 (by simp [hp])) (by rw [hp]; simp) (by simp [hp])
          rw [← e1]
          exact i.move t .body (i.started t (by rw [hp]; simp)) (by simp [hp]) (by simp) (fun h => by rw [hp] at h; cases h) (.inr rfl)
            (by simp [Sys.useScope, i.ok, g1, g2]) rfl rfl rfl rfl rfl rfl rfl
        · next hp =>
          split at e1
          · next hz =>
            simp only [Option.some.injEq] at e1
            rw [← e1]
            exact i.ends t (i.started t (by rw [hp]; simp)) (hk hp) (.inr ⟨hp, hz⟩) i.ok rfl rfl rfl rfl
              (by intro c; simp [hz]) rfl rfl
          · next hz =>
            obtain ⟨g1, g2⟩ := i.has t (by omega) (by rw [hp]; simp) (by simp [hp])
            split at e1
            · simp only [Option.some.injEq] at e1
              rw [← e1]
              exact i.move t .lock (i.started t (by rw [hp]; simp)) (by simp [hp]) (by simp) (fun h _ => hk h) (.inl (by omega))
                (by simp [Sys.useScope, i.ok, g1, g2]) rfl rfl rfl rfl rfl rfl rfl
            · simp only [Option.some.injEq] at e1
              rw [← e1]
              exact i.move t .lock (i.started t (by rw [hp]; simp)) (by simp [hp]) (by simp) (fun h _ => hk h) (.inl (by omega))
                i.ok rfl rfl rfl rfl rfl rfl rfl
        · next hp =>
          simp only [Option.some.injEq] at e1
          obtain ⟨g1, g2⟩ := i.has t (h0 (by simp [hp])) (by rw [hp]; simp) (by simp [hp])
          rw [← e1]
          exact i.move t .store (i.started t (by rw [hp]; simp)) (by simp [hp]) (by simp) (fun h => by rw [hp] at h; cases h) (.inl (h0 (by simp [hp])))
            (by simp [Sys.useProm, i.ok, g1]) rfl rfl rfl rfl rfl rfl rfl
        · next hp =>
          simp only [Option.some.injEq] at e1
          obtain ⟨g1, g2⟩ := i.has t (h0 (by simp [hp])) (by rw [hp]; simp) (by simp [hp])
          rw [← e1]
          exact i.move t .unlock (i.started t (by rw [hp]; simp)) (by simp [hp]) (by simp) (fun h => by rw [hp] at h; cases h) (.inl (h0 (by simp [hp])))
            (by simp [Sys.useScope, i.ok, g1, g2]) rfl rfl rfl rfl rfl rfl rfl
        · next hp =>
          simp only [Option.some.injEq] at e1
          obtain ⟨g1, g2⟩ := i.has t (h0 (by simp [hp])) (by rw [hp]; simp) (by simp [hp])
          rw [← e1]
          exact i.move t .done (i.started t (by rw [hp]; simp)) (by simp [hp]) (by simp) (fun h => by rw [hp] at h; cases h) (.inl (h0 (by simp [hp])))
            (by simp [Sys.useProm, i.ok, g1]) rfl rfl rfl rfl rfl rfl rfl
        · next hp =>
          simp only [Option.some.injEq] at e1
          have ht0 := h0 (by simp [hp])
          obtain ⟨g1, g2⟩ := i.has t ht0 (by rw [hp]; simp) (by simp [hp])
          rw [← e1]
          refine i.ends t (i.started t (by rw [hp]; simp)) (hk' (by rw [hp]; simp)) (.inl hp) (by simp [Sys.useProm, i.ok, g1]) rfl rfl rfl rfl ?_ rfl rfl
          intro c
          show fn s.flag t true c = true ↔ _
          simp only [fn]
          split
          · next e => simp [e, ht0]
          · next e => simp [e]
        · next hp =>
          simp only [Option.some.injEq] at e1
          rw [← e1]
          exact i.cleaned t .exit (i.started t (by rw [hp]; simp)) (hk' (by rw [hp]; simp)) (.inr ⟨hp, rfl⟩) rfl rfl
            (clean_parent s t) (clean_next s t) rfl (clean_flag s t) rfl (clean_gone s t)
        · next hp =>
          simp only [Option.some.injEq] at e1
          rw [← e1]
          exact i.exits t (i.started t (by rw [hp]; simp)) hp i.ok rfl rfl rfl rfl rfl rfl rfl

/-! ## Any history -/

/-- An act was done: what it did to each part. -/
structure Did (s s' : Sys) (a : Act) : Prop where
  next : s.next ≤ s'.next
  prom : ∀ c, c < s.next → s.prom c = false → s'.prom c = false
  parent : ∀ c, c < s.next → s'.parent c = s.parent c
  bad : s.bad = true → s'.bad = true
  flag : ∀ c, s'.flag c = true → s.flag c = true ∨ s.prom c = true ∨ s'.bad = true
  armed : ∀ t, s.armed t = false → s'.armed t = false

theorem clean_armed (s : Sys) (t u : Nat) : (s.clean t).armed u = if u = t then false else s.armed u := by
  unfold Sys.clean
  split
  · rfl
  · next h =>
    split
    · next e => rw [e]; simpa using h
    · rfl

theorem clean_bad_mono (s : Sys) (t : Nat) (h : s.bad = true) : (s.clean t).bad = true := by
  unfold Sys.clean
  split
  · simp [h]
  · exact h

theorem clean_prom_false (s : Sys) (t c : Nat) (h : s.prom c = false) : (s.clean t).prom c = false := by
  rw [clean_prom]
  split
  · rfl
  · exact h

theorem act_did {s s' : Sys} {a : Act} (h : act s a = some s') : Did s s' a := by
  cases a with
  | async t =>
    simp only [act] at h
    split at h <;> simp at h
    rw [← h]
    refine ⟨Nat.le_succ _, fun c hc hp => ?_, fun c hc => ?_, id, fun c h => .inl h, fun _ h => h⟩
    · simp only [fn]; rw [if_neg (by omega)]; exact hp
    · simp only [fn]; rw [if_neg (by omega)]
  | poll t c =>
    simp only [act] at h
    split at h <;> simp at h
    rw [← h]
    exact ⟨Nat.le_refl _, fun c _ hp => hp, fun _ _ => rfl, fun h => by simp [Sys.useProm, h], fun c h => .inl h, fun _ h => h⟩
  | release t =>
    simp only [act] at h
    split at h <;> simp at h
    rw [← h]
    exact ⟨by rw [clean_next]; exact Nat.le_refl _, fun c _ hp => clean_prom_false _ _ _ hp, fun _ _ => by rw [clean_parent], clean_bad_mono _ _,
      fun c h => .inl (by rwa [clean_flag] at h), fun u h => by rw [clean_armed]; split <;> simp [h]⟩
  | step t x =>
    simp only [act] at h
    split at h
    case h_9 =>
      simp at h
      rw [← h]
      exact ⟨by show s.next ≤ (s.clean t).next; rw [clean_next]; exact Nat.le_refl _, fun c _ hp => clean_prom_false _ _ _ hp, fun _ _ => by show (s.clean t).parent _ = _; rw [clean_parent], clean_bad_mono _ _,
        fun c h => .inl (by have h' : (s.clean t).flag c = true := h; rwa [clean_flag] at h'), fun u h => by show (s.clean t).armed u = false; rw [clean_armed]; split <;> simp [h]⟩
    case h_8 =>
      simp at h
      rw [← h]
      refine ⟨Nat.le_refl _, fun c _ hp => hp, fun _ _ => rfl, fun h => by simp [Sys.useProm, h], fun c h => ?_, fun _ h => h⟩
      have h' : fn s.flag t true c = true := h
      simp only [fn] at h'
      split at h'
      · next e =>
        subst e
        cases hp : s.prom c with
        | true => exact .inr (.inl rfl)
        | false => exact .inr (.inr (by simp [Sys.useProm, hp]))
      · exact .inl h'
    case h_4 =>
      split at h
      · simp at h; rw [← h]; exact ⟨Nat.le_refl _, fun c _ hp => hp, fun _ _ => rfl, fun h => h, fun c h => .inl h, fun _ h => h⟩
      · split at h <;>
        (simp at h; rw [← h]; exact ⟨Nat.le_refl _, fun c _ hp => hp, fun _ _ => rfl, fun h => by simp [Sys.useScope, h], fun c h => .inl h, fun _ h => h⟩)
    all_goals first
      | (simp at h; done)
      | (simp at h; rw [← h]; exact ⟨Nat.le_refl _, fun c _ hp => hp, fun _ _ => rfl, fun h => by simp [Sys.useScope, Sys.useProm, h], fun c h => .inl h, fun _ h => h⟩)

/-- What holds after any history. -/
structure Reach (h : List Act) (s : Sys) : Prop where
  pos : 0 < s.next
  fresh : ∀ c, s.next ≤ c → s.pc c = .none
  kids : ∀ t c, c ∈ s.kids t → 0 < c ∧ c < s.next ∧ s.parent c = t
  all : ∀ t, s.armed t = true → ∀ c, 0 < c → c < s.next → s.parent c = t → c ∈ s.kids t
  armed : ∀ t, s.armed t = false → .release t ∈ h ∨ s.pc t = .exit ∨ s.pc t = .over

theorem Reach.started {h : List Act} {s : Sys} (i : Reach h s) (t : Nat) (ht : s.pc t ≠ .none) : t < s.next := by
  rcases Nat.lt_or_ge t s.next with h | h
  · exact h
  · exact absurd (i.fresh t h) ht

/-- One thread goes on and nothing else changes that matters here. -/
theorem Reach.move {h : List Act} {s s' : Sys} {a : Act} (i : Reach h s) (t : Nat) (q : Pc) (ht : t < s.next) (hq : (s.pc t ≠ .exit ∧ s.pc t ≠ .over) ∨ q = .over)
    (e1 : s'.pc = fn s.pc t q) (e2 : s'.parent = s.parent) (e3 : s'.next = s.next) (e4 : s'.kids = s.kids) (e5 : s'.armed = s.armed) : Reach (h ++ [a]) s' where
  pos := e3 ▸ i.pos
  fresh c hc := by
    rw [e3] at hc
    rw [e1]
    simp only [fn]
    rw [if_neg (by omega)]
    exact i.fresh c hc
  kids u c hc := by rw [e4] at hc; rw [e2, e3]; exact i.kids u c hc
  all u hu c h1 h2 h3 := by rw [e5] at hu; rw [e3] at h2; rw [e2] at h3; rw [e4]; exact i.all u hu c h1 h2 h3
  armed u hu := by
    rw [e5] at hu
    rcases i.armed u hu with hm | hm
    · exact .inl (List.mem_append.mpr (.inl hm))
    · rw [e1]
      simp only [fn]
      split
      · next e =>
        subst e
        rcases hq with ⟨a1, a2⟩ | a1
        · rcases hm with hm | hm
          · exact absurd hm a1
          · exact absurd hm a2
        · exact .inr (.inr a1)
      · exact .inr hm

/-- A scope is released. -/
theorem Reach.cleaned {h : List Act} {s s' : Sys} {a : Act} (i : Reach h s) (t : Nat) (q : Pc) (ht : t < s.next) (hq : a = .release t ∨ q = .exit)
    (e1 : s'.pc = fn s.pc t q) (hp : s.pc t ≠ .exit ∧ s.pc t ≠ .over) (e2 : s'.parent = s.parent) (e3 : s'.next = s.next) (e4 : s'.kids = (s.clean t).kids) (e5 : s'.armed = (s.clean t).armed) : Reach (h ++ [a]) s' where
  pos := e3 ▸ i.pos
  fresh c hc := by
    rw [e3] at hc
    rw [e1]
    simp only [fn]
    rw [if_neg (by omega)]
    exact i.fresh c hc
  kids u c hc := by rw [e4] at hc; rw [e2, e3]; exact i.kids u c (clean_kids _ _ _ _ hc).1
  all u hu c h1 h2 h3 := by
    rw [e5, clean_armed] at hu
    split at hu
    · cases hu
    · next e =>
      rw [e3] at h2
      rw [e2] at h3
      rw [e4]
      have := i.all u hu c h1 h2 h3
      unfold Sys.clean
      split
      · show c ∈ fn s.kids t [] u
        simp only [fn]
        rw [if_neg e]
        exact this
      · exact this
  armed u hu := by
    rw [e5, clean_armed] at hu
    rw [e1]
    simp only [fn]
    split
    · next e =>
      subst e
      rcases hq with hq | hq
      · exact .inl (by rw [hq]; simp)
      · exact .inr (.inl hq)
    · next e =>
      rw [if_neg e] at hu
      rcases i.armed u hu with hm | hm
      · exact .inl (List.mem_append.mpr (.inl hm))
      · exact .inr hm

theorem Reach.starts {h : List Act} {s : Sys} {a : Act} (i : Reach h s) (t : Nat) (ht : t < s.next) :
    Reach (h ++ [a]) { s with pc := fn s.pc s.next .begin, parent := fn s.parent s.next t, next := s.next + 1, prom := fn s.prom s.next true, kids := fn s.kids t (s.next :: s.kids t) } := by
  have hpar : ∀ c, c < s.next → fn s.parent s.next t c = s.parent c := fun c h => by simp only [fn]; rw [if_neg (by omega)]
  constructor
  case pos => exact Nat.succ_pos _
  case fresh =>
    intro c hc
    have hc' : s.next + 1 ≤ c := hc
    simp only [fn]
    rw [if_neg (by omega)]
    exact i.fresh c (by omega)
  case kids =>
    intro u c hc
    have old : c ∈ s.kids u → 0 < c ∧ c < s.next + 1 ∧ fn s.parent s.next t c = u := by
      intro hm
      obtain ⟨k1, k2, k3⟩ := i.kids u c hm
      exact ⟨k1, by omega, (hpar c k2).trans k3⟩
    simp only [fn] at hc
    split at hc
    · next e =>
      subst e
      rcases List.mem_cons.mp hc with e | hm
      · subst e
        exact ⟨i.pos, Nat.lt_succ_self _, by simp [fn]⟩
      · exact old hm
    · exact old hc
  case all =>
    intro u hu c h1 h2 h3
    have h2' : c < s.next + 1 := h2
    have h3' : fn s.parent s.next t c = u := h3
    show c ∈ fn s.kids t (s.next :: s.kids t) u
    by_cases e : c = s.next
    · subst e
      have : t = u := by simpa [fn] using h3'
      simp [fn, this]
    · have := i.all u hu c h1 (by omega) ((hpar c (by omega)).symm.trans h3')
      simp only [fn]
      split
      · next e => rw [← e]; exact List.mem_cons_of_mem _ this
      · exact this
  case armed =>
    intro u hu
    rcases i.armed u hu with hm | hm
    · exact .inl (List.mem_append.mpr (.inl hm))
    · refine .inr ?_
      simp only [fn]
      split
      · next e => rw [e, i.fresh _ (Nat.le_refl _)] at hm; simp at hm
      · exact hm

theorem Reach.init : Reach [] Kn.init where
  pos := Nat.one_pos
  fresh c hc := by
    have hc' : 1 ≤ c := hc
    simp only [Kn.init]
    rw [if_neg (by omega)]
  kids t c h := by cases h
  all t _ c h1 h2 := by exact absurd (show c < 1 from h2) (by omega)
  armed t h := by cases h

theorem reach_act {h : List Act} {s s' : Sys} {a : Act} (i : Reach h s) (e1 : act s a = some s') : Reach (h ++ [a]) s' := by
  cases a with
  | async t =>
    simp only [act] at e1
    split at e1
    · next hp =>
      simp only [Option.some.injEq] at e1
      rw [← e1]
      exact i.starts t (i.started t (by rw [hp]; simp))
    · simp at e1
  | poll t c =>
    simp only [act] at e1
    split at e1
    · next hp =>
      simp only [Option.some.injEq] at e1
      rw [← e1]
      exact i.move t .body (i.started t (by rw [hp.1]; simp)) (.inl (by simp [hp.1])) (by show s.pc = fn s.pc t .body; rw [← hp.1, fn_self]) rfl rfl rfl rfl
    · simp at e1
  | release t =>
    simp only [act] at e1
    split at e1
    · next hp =>
      simp only [Option.some.injEq] at e1
      rw [← e1]
      exact i.cleaned t .body (i.started t (by rw [hp]; simp)) (.inl rfl) (by rw [clean_pc, ← hp, fn_self]) (by simp [hp]) (clean_parent s t) (clean_next s t) rfl rfl
    · simp at e1
  | step t x =>
    simp only [act] at e1
    split at e1
    case h_9 hp =>
      simp only [Option.some.injEq] at e1
      rw [← e1]
      exact i.cleaned t .exit (i.started t (by rw [hp]; simp)) (.inr rfl) rfl (by simp [hp]) (clean_parent s t) (clean_next s t) rfl rfl
    case h_10 hp =>
      simp only [Option.some.injEq] at e1
      rw [← e1]
      exact i.move t .over (i.started t (by rw [hp]; simp)) (.inr rfl) rfl rfl rfl rfl rfl
    case h_4 hp =>
      split at e1
      · simp only [Option.some.injEq] at e1
        rw [← e1]
        exact i.move t .destroy (i.started t (by rw [hp]; simp)) (.inl (by simp [hp])) rfl rfl rfl rfl rfl
      · split at e1 <;>
        (simp only [Option.some.injEq] at e1
         rw [← e1]
         exact i.move t .lock (i.started t (by rw [hp]; simp)) (.inl (by simp [hp])) rfl rfl rfl rfl rfl)
    all_goals first
      | (simp at e1; done)
      | (rename_i hp
         simp only [Option.some.injEq] at e1
         rw [← e1]
         exact i.move t _ (i.started t (by rw [hp]; simp)) (.inl (by simp [hp])) rfl rfl rfl rfl rfl)

theorem reach_acts : ∀ (h' h : List Act) (s s' : Sys), Reach h s → acts h' s = some s' → Reach (h ++ h') s'
  | [], h, s, s', i, e => by simp only [acts, Option.some.injEq] at e; rw [← e]; simpa using i
  | a :: h', h, s, s', i, e => by
    simp only [acts] at e
    split at e
    · simp at e
    · rw [Option.bind_eq_some_iff] at e
      obtain ⟨x, e1, e2⟩ := e
      have := reach_acts h' (h ++ [a]) x s' (reach_act i e1) e2
      simpa using this

theorem reach {h : List Act} {s : Sys} (e : acts h Kn.init = some s) : Reach h s := by
  simpa using reach_acts h [] Kn.init s .init e

theorem bad_mono : ∀ (h : List Act) (s s' : Sys), acts h s = some s' → s.bad = true → s'.bad = true
  | [], s, s', e, hb => by simp only [acts, Option.some.injEq] at e; rw [← e]; exact hb
  | a :: h, s, s', e, hb => by
    simp only [acts] at e
    split at e
    · simp at e
    · rw [Option.bind_eq_some_iff] at e
      obtain ⟨x, e1, e2⟩ := e
      exact bad_mono h x s' e2 ((act_did e1).bad hb)

/-- A promise given back before its function was over. -/
theorem lost_used : ∀ (h : List Act) (s s' : Sys) (c t : Nat), acts h s = some s' → c < s.next → s.prom c = false → s.flag c = false →
    s'.flag c = true ∨ .poll t c ∈ h → s'.bad = true
  | [], s, s', c, t, e, _, _, hf, hu => by
    simp only [acts, Option.some.injEq] at e
    rcases hu with hu | hu
    · rw [← e, hf] at hu; cases hu
    · cases hu
  | a :: h, s, s', c, t, e, hc, hp, hf, hu => by
    simp only [acts] at e
    split at e
    · simp at e
    · rw [Option.bind_eq_some_iff] at e
      obtain ⟨x, e1, e2⟩ := e
      have d := act_did e1
      cases hx : x.bad with
      | true => exact bad_mono h x s' e2 hx
      | false =>
        refine lost_used h x s' c t e2 (Nat.lt_of_lt_of_le hc d.next) (d.prom c hc hp) ?_ ?_
        · cases hg : x.flag c with
          | false => rfl
          | true =>
            rcases d.flag c hg with k | k | k
            · rw [hf] at k; cases k
            · rw [hp] at k; cases k
            · rw [hx] at k; cases k
        · rcases hu with hu | hu
          · exact .inl hu
          · rcases List.mem_cons.mp hu with ea | hu
            · exfalso
              rw [← ea] at e1
              simp only [act] at e1
              split at e1
              · simp only [Option.some.injEq] at e1
                rw [← e1] at hx
                simp [Sys.useProm, hp] at hx
              · simp at e1
            · exact .inr hu

/-- A promise no scope holds is never given back. -/
theorem kept : ∀ (h' h : List Act) (s s' : Sys) (c : Nat), Reach h s → acts h' s = some s' → 0 < c → c < s.next → s.prom c = true → s.armed (s.parent c) = false →
    s'.prom c = true
  | [], h, s, s', c, _, e, _, _, hp, _ => by simp only [acts, Option.some.injEq] at e; rw [← e]; exact hp
  | a :: h', h, s, s', c, i, e, h0, hc, hp, ha => by
    simp only [acts] at e
    split at e
    · simp at e
    · rw [Option.bind_eq_some_iff] at e
      obtain ⟨x, e1, e2⟩ := e
      have d := act_did e1
      have hcl : ∀ u, (s.clean u).prom c = true := by
        intro u
        rw [clean_prom, if_neg, hp]
        rintro ⟨k1, k2⟩
        rw [(i.kids u c k2).2.2, k1] at ha
        cases ha
      refine kept h' (h ++ [a]) x s' c (reach_act i e1) e2 h0 (Nat.lt_of_lt_of_le hc d.next) ?_ (by rw [d.parent c hc]; exact d.armed _ ha)
      cases a with
      | async t =>
        simp only [act] at e1
        split at e1 <;> simp at e1
        rw [← e1]
        simp only [fn]
        split
        · rfl
        · exact hp
      | poll t c =>
        simp only [act] at e1
        split at e1 <;> simp at e1
        rw [← e1]
        exact hp
      | release t =>
        simp only [act] at e1
        split at e1 <;> simp at e1
        rw [← e1]
        exact hcl t
      | step t x =>
        simp only [act] at e1
        split at e1
        case h_9 => simp at e1; rw [← e1]; exact hcl t
        case h_4 =>
          split at e1
          · simp at e1; rw [← e1]; exact hp
          · split at e1 <;> (simp at e1; rw [← e1]; exact hp)
        all_goals first | (simp at e1; done) | (simp at e1; rw [← e1]; exact hp)

end Verif.Kn
