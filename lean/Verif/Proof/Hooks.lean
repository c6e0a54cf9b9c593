import Verif.Spec.Hooks
/-!
# Attached data in tame programs
-/
namespace Verif.Hk
open Spec

theorem after_append (a b : List Ev) (st : List (List Nat)) : after (a ++ b) st = after b (after a st) := by
  simp [after, List.foldl_append]

theorem after_cons (e : Ev) (b : List Ev) (st : List (List Nat)) : after (e :: b) st = after b (step st e) := rfl

theorem honest_nil (st : List (List Nat)) : Honest [] st := by
  intro t₁ t₂ d h
  have := congrArg List.length h
  simp at this

theorem honest_cons (e : Ev) (l : List Ev) (st : List (List Nat)) : Honest (e :: l) st ↔ (∀ d, e = .got d → ∃ a r, st = (d :: a) :: r) ∧ Honest l (step st e) := by
  constructor
  · intro h
    refine ⟨fun d hd => ?_, fun t₁ t₂ d he => ?_⟩
    · exact h [] l d (by rw [hd]; rfl)
    · exact h (e :: t₁) t₂ d (by rw [he]; rfl)
  · rintro ⟨h1, h2⟩ t₁ t₂ d he
    cases t₁ with
    | nil =>
      simp only [List.nil_append, List.cons.injEq] at he
      exact h1 d he.1
    | cons x t₁ =>
      simp only [List.cons_append, List.cons.injEq] at he
      obtain ⟨rfl, he⟩ := he
      exact h2 t₁ t₂ d he

theorem honest_append : ∀ (a b : List Ev) (st : List (List Nat)), Honest (a ++ b) st ↔ Honest a st ∧ Honest b (after a st)
  | [], b, st => by simp [honest_nil, after]
  | e :: a, b, st => by
    rw [List.cons_append, honest_cons, honest_cons, honest_append a b, after_cons]
    exact and_assoc.symm

/-- What is attached, next to the context. -/
def Rel (l : Lv) (c : Ctx) (a : List Nat) : Prop :=
  match l with
  | .plain => c.prev = c.data ∧ ∃ r, a = c.data :: r
  | .set => ∃ r, a = c.data :: r
  | .swapped => ∃ r, a = c.data :: c.prev :: r
  | .lost => a ≠ []

theorem Rel.ne {l : Lv} {c : Ctx} {a : List Nat} (h : Rel l c a) : a ≠ [] := by
  cases l with
  | plain => obtain ⟨_, r, e⟩ := h; simp [e]
  | set => obtain ⟨r, e⟩ := h; simp [e]
  | swapped => obtain ⟨r, e⟩ := h; simp [e]
  | lost => exact h

theorem attach_ne (a : List Nat) (o : Op) (h : a ≠ []) : attach a o ≠ [] := by
  cases o with
  | data d => simp [attach]
  | swap d => simp [attach]
  | reset =>
    simp only [attach]
    split
    · simp
    · exact h
  | unwind b => exact h

/-- Quiet: neither `got` nor contexts. -/
theorem ops_after : ∀ (f : List Op) (a : List Nat) (r : List (List Nat)), a ≠ [] → Honest (f.map .op) (a :: r) ∧ ∃ a', a' ≠ [] ∧ after (f.map .op) (a :: r) = a' :: r
  | [], a, r, h => ⟨honest_nil _, a, h, rfl⟩
  | o :: f, a, r, h => by
    obtain ⟨k1, a', k2, k3⟩ := ops_after f (attach a o) r (attach_ne a o h)
    refine ⟨?_, a', k2, ?_⟩
    · rw [List.map_cons, honest_cons]
      exact ⟨fun d e => (by cases e), k1⟩
    · rw [List.map_cons, after_cons]
      exact k3

theorem setUp_after (w : World) (s : St) (e : Nat) (c : Ctx) (a : List Nat) (r : List (List Nat)) (h : a ≠ []) :
    Honest (setUp w s e c).1 (a :: r) ∧ ∃ a', a' ≠ [] ∧ after (setUp w s e c).1 (a :: r) = a' :: r := by
  simp only [setUp]
  split
  · next n f _ =>
    obtain ⟨k1, k2⟩ := ops_after f a r h
    exact ⟨(honest_cons _ _ _).mpr ⟨fun d e => (by cases e), k1⟩, k2⟩
  · exact ⟨honest_nil _, a, h, rfl⟩
  · exact ⟨honest_nil _, a, h, rfl⟩

theorem unwindStack_quiet (w : World) (s : St) (c : Ctx) (st : List (List Nat)) : Honest [unwindStack w s c] st ∧ after [unwindStack w s c] st = st := by
  have : ∀ e : Ev, (∀ d, e ≠ .got d) → step st e = st → Honest [e] st ∧ after [e] st = st := by
    intro e h1 h2
    refine ⟨(honest_cons _ _ _).mpr ⟨fun d hd => absurd hd (h1 d), honest_nil _⟩, ?_⟩
    rw [after_cons, h2]
    rfl
  simp only [unwindStack]
  split
  · split
    · exact this _ (fun d h => by cases h) rfl
    · exact this _ (fun d h => by cases h) rfl
    · split <;> exact this _ (fun d h => by cases h) rfl
  · exact this _ (fun d h => by cases h) rfl

theorem throwIn_after (w : World) (s : St) (e : Nat) (a : List Nat) (r : List (List Nat)) (h : a ≠ []) :
    Honest (throwIn w s e).1 (a :: r) ∧ ∃ a', a' ≠ [] ∧ after (throwIn w s e).1 (a :: r) = a' :: r := by
  obtain ⟨k1, a', k2, k3⟩ := setUp_after w s e { s.ctx with isUnwind := false } a r h
  obtain ⟨q1, q2⟩ := unwindStack_quiet w s (setUp w s e { s.ctx with isUnwind := false }).2 (a' :: r)
  simp only [throwIn]
  rw [honest_append, after_append, k3]
  exact ⟨⟨k1, q1⟩, a', k2, q2⟩

theorem op_rel {l : Lv} {c : Ctx} {a : List Nat} {o : Op} {k : Prog} (t : Tame l (.op o k)) (h : Rel l c a) : ∃ l', Tame l' k ∧ Rel l' (c.op o) (attach a o) := by
  cases o with
  | data d =>
    simp only [Tame] at t
    refine ⟨_, t, ?_⟩
    split
    · next e =>
      subst e
      obtain ⟨r, e⟩ := h
      exact ⟨r, by simp [attach, Ctx.op, e]⟩
    · next e => exact ⟨a.tail, by simp [attach, Ctx.op]⟩
  | swap d =>
    simp only [Tame] at t
    refine ⟨_, t.2, ?_⟩
    rcases t.1 with e | e <;> subst e
    · obtain ⟨_, r, e⟩ := h
      exact ⟨r, by simp [attach, Ctx.op, e]⟩
    · obtain ⟨r, e⟩ := h
      exact ⟨r, by simp [attach, Ctx.op, e]⟩
  | reset =>
    simp only [Tame] at t
    refine ⟨_, t.2, ?_⟩
    obtain ⟨e, -⟩ := t
    subst e
    obtain ⟨r, e⟩ := h
    exact ⟨rfl, r, by simp [attach, Ctx.op, e]⟩
  | unwind b =>
    simp only [Tame] at t
    refine ⟨l, t, ?_⟩
    cases l <;> exact h

/-- The induction. -/
theorem run_tame (w : World) : ∀ (p : Prog) (l : Lv) (s : St) (a : List Nat) (r : List (List Nat)), Tame l p → Rel l s.ctx a →
    Honest (run w p s).1 (a :: r) ∧ ((run w p s).2.2 ≠ .dead → ∃ a', a' ≠ [] ∧ after (run w p s).1 (a :: r) = a' :: r)
  | .done, l, s, a, r, _, h => ⟨honest_nil _, fun _ => ⟨a, h.ne, rfl⟩⟩
  | .op o k, l, s, a, r, t, h => by
    obtain ⟨l', t', h'⟩ := op_rel t h
    obtain ⟨k1, k2⟩ := run_tame w k l' { s with ctx := s.ctx.op o } (attach a o) r t' h'
    simp only [run]
    rw [honest_cons, after_cons]
    exact ⟨⟨fun d e => (by cases e), k1⟩, k2⟩
  | .get k, l, s, a, r, t, h => by
    simp only [Tame] at t
    obtain ⟨k1, k2⟩ := run_tame w k l s a r t.2 h
    simp only [run]
    rw [honest_cons, after_cons]
    refine ⟨⟨fun d e => ?_, k1⟩, k2⟩
    cases e
    cases l with
    | plain => obtain ⟨_, x, e⟩ := h; exact ⟨x, r, by rw [e]⟩
    | set => obtain ⟨x, e⟩ := h; exact ⟨x, r, by rw [e]⟩
    | swapped => obtain ⟨x, e⟩ := h; exact ⟨_, r, by rw [e]⟩
    | lost => exact absurd rfl t.1
  | .hooks u v k, l, s, a, r, t, h => by
    simp only [Tame] at t
    exact run_tame w k l { s with setup := u, unwind := v } a r t h
  | .throw e, l, s, a, r, _, h => by
    obtain ⟨k1, k2⟩ := throwIn_after w s e a r h.ne
    exact ⟨k1, fun _ => k2⟩
  | .block g b hd k, l, s, a, r, t, h => by
    simp only [Tame] at t
    obtain ⟨t1, t2, t3⟩ := t
    have ib := run_tame w b .set { s with ctx := g, base := false } [g.data] (a :: r) t1 ⟨[], rfl⟩
    have ih := fun s' a' (ha : a' ≠ []) => run_tame w hd .lost s' a' (a :: r) t2 ha
    have ik := fun s' (hs : s'.ctx = s.ctx) => run_tame w k l s' a r t3 (hs ▸ h)
    simp only [run]
    obtain ⟨b1, b2⟩ := ib
    revert b1 b2
    generalize run w b { s with ctx := g, base := false } = R
    obtain ⟨tr, s1, o⟩ := R
    intro b1 b2
    cases o with
    | dead =>
      simp only
      exact ⟨(honest_cons _ _ _).mpr ⟨fun d e => (by cases e), b1⟩, fun hne => absurd rfl hne⟩
    | ok =>
      simp only
      obtain ⟨a', n', e'⟩ := b2 (by simp)
      obtain ⟨k1, k2⟩ := ik { s1 with ctx := s.ctx, base := s.base } rfl
      have e'' : after tr (step (a :: r) (.enter g.data)) = a' :: a :: r := e'
      refine ⟨?_, fun hne => ?_⟩
      · rw [List.cons_append, honest_cons, honest_append, honest_cons, e'']
        exact ⟨fun d e => (by cases e), b1, fun d e => (by cases e), k1⟩
      · rw [List.cons_append, after_cons, after_append, after_cons, e'']
        exact k2 hne
    | thrown x =>
      simp only
      obtain ⟨a', n', e'⟩ := b2 (by simp)
      have e'' : after tr (step (a :: r) (.enter g.data)) = a' :: a :: r := e'
      obtain ⟨h1, h2⟩ := ih s1 a' n'
      revert h1 h2
      generalize run w hd s1 = U
      obtain ⟨tu, s2, u⟩ := U
      intro h1 h2
      cases u with
      | dead =>
        simp only
        refine ⟨?_, fun hne => absurd rfl hne⟩
        rw [List.cons_append, honest_cons, honest_append, e'']
        exact ⟨fun d e => (by cases e), b1, h1⟩
      | ok =>
        simp only
        obtain ⟨a2, n2, e2⟩ := h2 (by simp)
        obtain ⟨k1, k2⟩ := ik { s2 with ctx := s.ctx, base := s.base } rfl
        refine ⟨?_, fun hne => ?_⟩
        · rw [List.cons_append, List.cons_append, honest_cons, honest_append, honest_append, honest_cons, after_append, e'', e2]
          exact ⟨fun d e => (by cases e), ⟨b1, h1⟩, fun d e => (by cases e), k1⟩
        · rw [List.cons_append, List.cons_append, after_cons, after_append, after_append, after_cons, e'', e2]
          exact k2 hne
      | thrown y =>
        simp only
        obtain ⟨a2, n2, e2⟩ := h2 (by simp)
        obtain ⟨k1, k2⟩ := throwIn_after w { s2 with ctx := s.ctx, base := s.base } y a r h.ne
        refine ⟨?_, fun hne => ?_⟩
        · rw [List.cons_append, List.cons_append, honest_cons, honest_append, honest_append, honest_cons, after_append, e'', e2]
          exact ⟨fun d e => (by cases e), ⟨b1, h1⟩, fun d e => (by cases e), k1⟩
        · rw [List.cons_append, List.cons_append, after_cons, after_append, after_append, after_cons, e'', e2]
          exact k2
  | .guard ad g hn b k, l, s, a, r, t, h => by
    simp only [Tame] at t
    obtain ⟨rfl, t1, t3⟩ := t
    have ib := run_tame w b .set (inside ad g) [g.data] (a :: r) t1 ⟨[], rfl⟩
    have ho : Rel .plain (outside s).ctx a := by
      obtain ⟨p, x, e⟩ := h
      exact ⟨rfl, x, by rw [e]; simp [outside, p]⟩
    have ik := run_tame w k .plain (outside s) a r t3 ho
    simp only [run]
    obtain ⟨b1, b2⟩ := ib
    revert b1 b2
    generalize run w b (inside ad g) = R
    obtain ⟨tr, s1, o⟩ := R
    intro b1 b2
    have fin : ∀ (q : List Ev × St × Out), o ≠ .dead → Honest q.1 (a :: r) → (q.2.2 ≠ .dead → ∃ a', a' ≠ [] ∧ after q.1 (a :: r) = a' :: r) →
        Honest (.enter g.data :: tr ++ .freed ad :: .leave :: q.1) (a :: r) ∧
        (q.2.2 ≠ .dead → ∃ a', a' ≠ [] ∧ after (.enter g.data :: tr ++ .freed ad :: .leave :: q.1) (a :: r) = a' :: r) := by
      intro q hd q1 q2
      obtain ⟨a', n', e'⟩ := b2 hd
      have e'' : after tr (step (a :: r) (.enter g.data)) = a' :: a :: r := e'
      refine ⟨?_, fun hne => ?_⟩
      · rw [List.cons_append, honest_cons, honest_append, honest_cons, honest_cons, e'']
        exact ⟨fun d e => (by cases e), b1, fun d e => (by cases e), fun d e => (by cases e), q1⟩
      · rw [List.cons_append, after_cons, after_append, after_cons, after_cons, e'']
        exact q2 hne
    cases o with
    | dead =>
      simp only
      exact ⟨(honest_cons _ _ _).mpr ⟨fun d e => (by cases e), b1⟩, fun hne => absurd rfl hne⟩
    | ok =>
      simp only
      exact fin (run w k (outside s)) (by simp) ik.1 ik.2
    | thrown x =>
      simp only
      cases hn with
      | true => exact fin (run w k (outside s)) (by simp) ik.1 ik.2
      | false =>
        obtain ⟨k1, k2⟩ := throwIn_after w (outside s) x a r h.ne
        exact fin (throwIn w (outside s) x) (by simp) k1 (fun _ => k2)

/-! ## Functions of the program's own -/

theorem run_inside (w : World) : ∀ (p : Prog) (s : St), NoHooks p → s.setup = .guard → s.unwind = .free →
    (∀ e ∈ (run w p s).1, ¬ Own e) ∧ (run w p s).2.1.setup = .guard ∧ (run w p s).2.1.unwind = .free := by
  have thr : ∀ (s : St) (x : Nat), s.setup = .guard → s.unwind = .free →
      (∀ e ∈ (throwIn w s x).1, ¬ Own e) ∧ (throwIn w s x).2.1.setup = .guard ∧ (throwIn w s x).2.1.unwind = .free := by
    intro s x h1 h2
    refine ⟨fun e he => ?_, h1, h2⟩
    simp only [throwIn, setUp, h1, unwindStack, h2, List.nil_append, List.mem_singleton] at he
    subst he
    split <;> simp [Own]
  intro p
  induction p with
  | done => intro s _ h1 h2; exact ⟨fun e he => by simp [run] at he, h1, h2⟩
  | op o k ih =>
    intro s n h1 h2
    obtain ⟨k1, k2⟩ := ih { s with ctx := s.ctx.op o } n h1 h2
    refine ⟨fun e he => ?_, k2⟩
    rcases List.mem_cons.mp he with rfl | he
    · simp [Own]
    · exact k1 e he
  | get k ih =>
    intro s n h1 h2
    obtain ⟨k1, k2⟩ := ih s n h1 h2
    refine ⟨fun e he => ?_, k2⟩
    rcases List.mem_cons.mp he with rfl | he
    · simp [Own]
    · exact k1 e he
  | hooks a b k ih => intro s n; exact absurd n (by simp [NoHooks])
  | throw e => intro s _ h1 h2; exact thr s e h1 h2
  | block g b h k ib ih ik =>
    intro s n h1 h2
    obtain ⟨n1, n2, n3⟩ := n
    obtain ⟨b1, b2, b3⟩ := ib { s with ctx := g, base := false } n1 h1 h2
    simp only [run]
    revert b1 b2 b3
    generalize run w b { s with ctx := g, base := false } = R
    obtain ⟨tr, s1, o⟩ := R
    intro b1 b2 b3
    have fin : ∀ (t : List Ev) (q : List Ev × St × Out), (∀ e ∈ t, ¬ Own e) → ((∀ e ∈ q.1, ¬ Own e) ∧ q.2.1.setup = .guard ∧ q.2.1.unwind = .free) →
        (∀ e ∈ .enter g.data :: t ++ .leave :: q.1, ¬ Own e) ∧ q.2.1.setup = .guard ∧ q.2.1.unwind = .free := by
      intro t q ht hq
      refine ⟨fun e he => ?_, hq.2⟩
      simp only [List.cons_append, List.mem_cons, List.mem_append] at he
      rcases he with rfl | he | rfl | he
      · simp [Own]
      · exact ht e he
      · simp [Own]
      · exact hq.1 e he
    cases o with
    | dead =>
      simp only
      refine ⟨fun e he => ?_, b2, b3⟩
      rcases List.mem_cons.mp he with rfl | he
      · simp [Own]
      · exact b1 e he
    | ok => exact fin tr _ b1 (ik { s1 with ctx := s.ctx, base := s.base } n3 b2 b3)
    | thrown x =>
      simp only
      obtain ⟨u1, u2, u3⟩ := ih s1 n2 b2 b3
      revert u1 u2 u3
      generalize run w h s1 = U
      obtain ⟨tu, s2, u⟩ := U
      intro u1 u2 u3
      have htu : ∀ e ∈ tr ++ tu, ¬ Own e := fun e he => (List.mem_append.mp he).elim (b1 e) (u1 e)
      cases u with
      | dead =>
        simp only
        refine ⟨fun e he => ?_, u2, u3⟩
        rcases List.mem_cons.mp he with rfl | he
        · simp [Own]
        · exact htu e he
      | ok =>
        have := fin (tr ++ tu) _ htu (ik { s2 with ctx := s.ctx, base := s.base } n3 u2 u3)
        simpa only [List.cons_append, List.append_assoc] using this
      | thrown y =>
        have := fin (tr ++ tu) _ htu (thr { s2 with ctx := s.ctx, base := s.base } y u2 u3)
        simpa only [List.cons_append, List.append_assoc] using this
  | guard a g hn b k ib ik =>
    intro s n h1 h2
    obtain ⟨n1, n3⟩ := n
    obtain ⟨b1, b2, b3⟩ := ib (inside a g) n1 rfl rfl
    simp only [run]
    revert b1 b2 b3
    generalize run w b (inside a g) = R
    obtain ⟨tr, s1, o⟩ := R
    intro b1 b2 b3
    have fin : ∀ (q : List Ev × St × Out), ((∀ e ∈ q.1, ¬ Own e) ∧ q.2.1.setup = .guard ∧ q.2.1.unwind = .free) →
        (∀ e ∈ .enter g.data :: tr ++ .freed a :: .leave :: q.1, ¬ Own e) ∧ q.2.1.setup = .guard ∧ q.2.1.unwind = .free := by
      intro q hq
      refine ⟨fun e he => ?_, hq.2⟩
      simp only [List.cons_append, List.mem_cons, List.mem_append] at he
      rcases he with rfl | he | rfl | rfl | he
      · simp [Own]
      · exact b1 e he
      · simp [Own]
      · simp [Own]
      · exact hq.1 e he
    cases o with
    | dead =>
      simp only
      refine ⟨fun e he => ?_, b2, b3⟩
      rcases List.mem_cons.mp he with rfl | he
      · simp [Own]
      · exact b1 e he
    | ok => exact fin _ (ik (outside s) n3 h1 h2)
    | thrown x =>
      simp only
      split
      · exact fin _ (ik (outside s) n3 h1 h2)
      · exact fin _ (thr (outside s) x h1 h2)

end Verif.Hk
