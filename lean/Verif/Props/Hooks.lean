import Verif.Proof.Hooks
/-!
# C101: functions called on a throw, and the data attached to a context

English: what a program attaches to the current exception context with `ex_data_set` or `ex_swap_set` is what `ex_data_get` gives there, until something else is attached or the swap is taken back
with `ex_swap_reset`, whatever blocks and guarded sections are run and whatever is thrown in between.  A setup function and an unwind function the program installs are called once for a throw
outside guarded sections, the second with what the first attached; guarded sections put them back.
-/
namespace Verif.Props
open Verif Verif.Hk Verif.Hk.Spec

/-- The full statement about attached data. -/
def C101_Full : Prop := ∀ (w : World) (p : Prog), Honest (run w p (start w)).1 [[w.scope]]

private def Hk.w : World := { scope := 100, prot := fun a => a == 100 }
private def Hk.g : Ctx := { data := 7, prev := 8, isUnwind := true, isGuarded := true, isRaii := true }

/-- False: something is attached, an empty guarded section runs, and it is no longer attached. -/
theorem C101_full_false : ¬ C101_Full := fun h => by
  obtain ⟨a, r, e⟩ := h Hk.w (.op (.data 5) (.guard 200 Hk.g false .done (.get .done))) [.op (.data 5), .enter 7, .freed 200, .leave] [] 100 rfl
  have := congrArg (fun l => l.head?.bind List.head?) e
  simp [after, step, attach] at this

/-- What holds: all programs that begin a section only while nothing is attached, take back each swap before the next, and in a handler attach before they ask. -/
theorem C101_tame_partial (w : World) (p : Prog) (t : Tame .plain p) : Honest (run w p (start w)).1 [[w.scope]] :=
  (run_tame w p .plain (start w) [w.scope] [] t ⟨rfl, [], rfl⟩).1

/-- A section in which a block throws, two swaps taken back, a program's own functions. -/
private def Hk.p : Prog :=
  .guard 200 Hk.g true (.op (.data 1) (.block Hk.g (.throw 3) (.op (.data 2) (.get .done)) (.get (.throw 4))))
    (.op (.swap 5) (.get (.op .reset (.get (.op (.swap 6) (.op (.data 7) (.get (.op .reset (.get (.hooks (.user 1 [.swap 9, .unwind true]) (.user 2) (.block Hk.g (.throw 8) .done .done)))))))))))

example : Tame .plain Hk.p ∧ (run Hk.w Hk.p (start Hk.w)).1 =
    [.enter 7, .op (.data 1), .enter 7, .walked, .op (.data 2), .got 2, .leave, .got 1, .walked, .freed 200, .leave, .op (.swap 5), .got 5, .op .reset, .got 100, .op (.swap 6), .op (.data 7),
      .got 7, .op .reset, .got 100, .enter 7, .setup 1 8, .op (.swap 9), .op (.unwind true), .unwind 2 9, .leave] := by
  refine ⟨?_, by decide +kernel⟩
  simp [Hk.p, Tame]

/-- After every guarded section that lets the program go on, what is attached is what was before the last swap (or the thread's scope), whatever was attached since and whatever the section did. -/
theorem C101_section (w : World) (a : Nat) (g : Ctx) (hn : Bool) (b : Prog) (s : St) (h : (run w (.guard a g hn b (.get .done)) s).2.2 = .ok) :
    ∃ t, (run w (.guard a g hn b (.get .done)) s).1 = t ++ [.got s.ctx.prev] := by
  simp only [run] at h ⊢
  revert h
  generalize run w b (inside a g) = R
  obtain ⟨tr, s1, o⟩ := R
  intro h
  cases o with
  | dead => simp at h
  | ok => exact ⟨.enter g.data :: tr ++ [.freed a, .leave], by simp [outside]⟩
  | thrown x =>
    cases hn with
    | true => exact ⟨.enter g.data :: tr ++ [.freed a, .leave], by simp [outside]⟩
    | false =>
      simp only [Bool.false_eq_true, if_false, throwIn] at h
      split at h <;> simp at h

/-- So what `ex_data_set` attached is lost, unless it is what was there before the last swap. -/
theorem C101_lost (w : World) (a : Nat) (g : Ctx) (hn : Bool) (b : Prog) (s : St) (d : Nat) (hd : d ≠ s.ctx.prev) (r : List (List Nat)) (x : List Nat)
    (h : (run w (.op (.data d) (.guard a g hn b (.get .done))) s).2.2 = .ok) (t : Tame .set b) :
    ¬ Honest (run w (.op (.data d) (.guard a g hn b (.get .done))) s).1 ((s.ctx.data :: x) :: r) := by
  intro hh
  have e : ∃ tr y, (run w (.op (.data d) (.guard a g hn b (.get .done))) s).1 = (.op (.data d) :: .enter g.data :: tr ++ [.freed a, .leave]) ++ .got s.ctx.prev :: [] ∧
      after tr ([g.data] :: (d :: x) :: r) = y :: (d :: x) :: r := by
    obtain ⟨-, bt⟩ := run_tame w b .set (inside a g) [g.data] ((d :: x) :: r) t ⟨[], rfl⟩
    simp only [run] at h ⊢
    revert h bt
    generalize run w b (inside a g) = R
    obtain ⟨tr, s1, o⟩ := R
    intro h bt
    cases o with
    | dead => simp at h
    | ok => obtain ⟨y, -, ey⟩ := bt (by simp); exact ⟨tr, y, by simp [outside, Ctx.op], ey⟩
    | thrown z =>
      cases hn with
      | true => obtain ⟨y, -, ey⟩ := bt (by simp); exact ⟨tr, y, by simp [outside, Ctx.op], ey⟩
      | false =>
        simp only [Bool.false_eq_true, if_false, throwIn] at h
        split at h <;> simp at h
  obtain ⟨tr, y, e1, e2⟩ := e
  obtain ⟨q, v, e3⟩ := hh _ _ _ e1
  rw [after_append] at e3
  have e4 : after (.op (.data d) :: .enter g.data :: tr) ((s.ctx.data :: x) :: r) = y :: (d :: x) :: r := e2
  rw [e4] at e3
  simp only [after, List.foldl, step, List.tail_cons, List.cons.injEq] at e3
  exact hd e3.1.1

example : (run Hk.w (.op (.data 5) (.guard 200 Hk.g false (.op (.data 6) .done) (.get .done))) (start Hk.w)).2.2 = .ok ∧ (5 : Nat) ≠ (start Hk.w).ctx.prev ∧ Tame .set (.op (.data 6) .done) :=
  ⟨by decide +kernel, by decide, by simp [Tame]⟩

/-- In a handler the thread's scope is attached (if the context knows of it and no functions are installed), not what the block attached. -/
theorem C101_handler (w : World) (g : Ctx) (s : St) (d e : Nat) (hg : g.isRaii = true) (hs : s.setup = .none) :
    ∃ x, (run w (.block g (.op (.data d) (.throw e)) (.get .done) .done) s).1 = [.enter g.data, .op (.data d), x, .got w.scope, .leave] := by
  refine ⟨unwindStack w { s with ctx := { g with data := d }, base := false } { g with data := w.scope, prev := d, isUnwind := w.prot w.scope }, ?_⟩
  simp [run, throwIn, setUp, hs, Ctx.op, hg, unwindStack]

example : Hk.g.isRaii = true ∧ (start Hk.w).setup = .none := ⟨rfl, rfl⟩

/-- Two swaps, each taken back: the first one's data is still attached. -/
theorem C101_nested (c : Ctx) (d₁ d₂ : Nat) : ((((c.op (.swap d₁)).op (.swap d₂)).op .reset).op .reset).data = d₁ := rfl

/-- The first use of the thread's scope attaches the scope to the current context, whatever was there. -/
theorem C101_init (w : World) (c : Ctx) (d : Nat) : (firstInit w (c.op (.data d))).data = w.scope := rfl

/-- A throw where the program's own functions are installed: the setup function once, with the exception, then the unwind function once, with what the setup function attached. -/
theorem C101_own (w : World) (s : St) (e n u d : Nat) (hs : s.setup = .user n [.swap d, .unwind true]) (hu : s.unwind = .user u) :
    (throwIn w s e).1 = [.setup n e, .op (.swap d), .op (.unwind true), .unwind u d] := by
  simp [throwIn, setUp, hs, unwindStack, hu, Ctx.op]

/-- Whatever the setup function does, it is called once, first; the unwind function is called at most once, and if the flag is left unset the protected pointers are released instead. -/
theorem C101_own_once (w : World) (s : St) (e n u : Nat) (f : List Op) (hs : s.setup = .user n f) (hu : s.unwind = .user u) :
    ∃ x, (throwIn w s e).1 = .setup n e :: f.map .op ++ [x] ∧ (x = .walked ∨ ∃ d, x = .unwind u d) := by
  refine ⟨_, by simp only [throwIn, setUp, hs]; rfl, ?_⟩
  simp only [unwindStack, hu]
  split
  · exact .inr ⟨_, rfl⟩
  · exact .inl rfl

/-- And it is not called for a setup function that does not ask for it, whatever the context held before. -/
theorem C101_own_flag (w : World) (s : St) (e n : Nat) (f : List Op) (hs : s.setup = .user n f) (hf : ∀ b, .unwind b ∉ f) :
    (throwIn w s e).1 = .setup n e :: f.map .op ++ [.walked] := by
  have k : ∀ (f : List Op) (c : Ctx), (∀ b, .unwind b ∉ f) → c.isUnwind = false → (f.foldl Ctx.op c).isUnwind = false := by
    intro f
    induction f with
    | nil => intro c _ h; exact h
    | cons o f ih =>
      intro c hf h
      refine ih (c.op o) (fun b hb => hf b (List.mem_cons_of_mem _ hb)) ?_
      cases o with
      | unwind b => exact absurd (List.mem_cons_self) (hf b)
      | data d => exact h
      | swap d => exact h
      | reset => exact h
  simp [throwIn, setUp, hs, unwindStack, k f _ hf]

example : ∃ s : St, s.setup = .user 1 [.swap 3] ∧ s.unwind = .user 2 ∧ s.ctx.isUnwind = true :=
  ⟨{ ctx := Hk.g, base := false, arena := 0, setup := .user 1 [.swap 3], unwind := .user 2 }, rfl, rfl, rfl⟩

/-- After a guarded section, however it ends and whatever it installs, the functions and the enclosing section are what they were. -/
theorem C101_restored (w : World) (a : Nat) (g : Ctx) (hn : Bool) (b : Prog) (s s' : St) (tr : List Ev) (o : Out)
    (h : run w (.guard a g hn b .done) s = (tr, s', o)) (ho : o ≠ .dead) : s'.setup = s.setup ∧ s'.unwind = s.unwind ∧ s'.arena = s.arena ∧ s'.base = s.base := by
  simp only [run] at h
  revert h
  generalize run w b (inside a g) = R
  obtain ⟨t, s1, u⟩ := R
  intro h
  cases u with
  | dead => simp only [Prod.mk.injEq] at h; exact absurd h.2.2.symm ho
  | ok => simp only [Prod.mk.injEq] at h; rw [← h.2.1]; exact ⟨rfl, rfl, rfl, rfl⟩
  | thrown x =>
    cases hn with
    | true => simp only [if_true, Prod.mk.injEq] at h; rw [← h.2.1]; exact ⟨rfl, rfl, rfl, rfl⟩
    | false =>
      simp only [Bool.false_eq_true, if_false, throwIn, Prod.mk.injEq] at h
      rw [← h.2.1]
      exact ⟨rfl, rfl, rfl, rfl⟩

/-- In a section the program's own functions are not called, unless the section installs them; an exception that leaves it calls each once, after the section is over. -/
theorem C101_inside (w : World) (a : Nat) (g : Ctx) (hn : Bool) (b : Prog) (s s' : St) (tr : List Ev) (o : Out) (n u d : Nat) (nb : NoHooks b)
    (hs : s.setup = .user n [.swap d, .unwind true]) (hu : s.unwind = .user u) (h : run w (.guard a g hn b .done) s = (tr, s', o)) :
    (∀ e ∈ tr, ¬ Own e) ∨ ∃ t e, tr = t ++ [.leave, .setup n e, .op (.swap d), .op (.unwind true), .unwind u d] ∧ ∀ x ∈ t, ¬ Own x := by
  obtain ⟨k1, -, -⟩ := run_inside w b (inside a g) nb rfl rfl
  simp only [run] at h
  revert h k1
  generalize run w b (inside a g) = R
  obtain ⟨t, s1, u'⟩ := R
  intro h k1
  have q : ∀ l : List Ev, (∀ e ∈ l, ¬ Own e) → ∀ e ∈ .enter g.data :: t ++ l, ¬ Own e := by
    intro l hl e he
    simp only [List.cons_append, List.mem_cons, List.mem_append] at he
    rcases he with rfl | he | he
    · simp [Own]
    · exact k1 e he
    · exact hl e he
  have q2 : ∀ e ∈ ([.freed a, .leave] : List Ev), ¬ Own e := by
    intro e he
    simp only [List.mem_cons, List.not_mem_nil, or_false] at he
    rcases he with rfl | rfl <;> simp [Own]
  cases u' with
  | dead =>
    simp only [Prod.mk.injEq] at h
    rw [← h.1]
    exact .inl (by simpa using q [] (by simp))
  | ok =>
    simp only [Prod.mk.injEq] at h
    rw [← h.1]
    exact .inl (q _ q2)
  | thrown x =>
    cases hn with
    | true =>
      simp only [if_true, Prod.mk.injEq] at h
      rw [← h.1]
      exact .inl (q _ q2)
    | false =>
      simp only [Bool.false_eq_true, if_false, Prod.mk.injEq] at h
      refine .inr ⟨.enter g.data :: t ++ [.freed a], x, ?_, q _ (fun e he => q2 e (by simp at he; simp [he]))⟩
      rw [← h.1, C101_own w (outside s) x n u d hs hu]
      simp

example : ∃ s : St, s.setup = .user 1 [.swap 9, .unwind true] ∧ s.unwind = .user 2 ∧
    (run Hk.w (.guard 200 Hk.g false (.throw 4) .done) s).1 = [.enter 7, .walked, .freed 200, .leave, .setup 1 4, .op (.swap 9), .op (.unwind true), .unwind 2 9] :=
  ⟨{ ctx := Hk.g, base := false, arena := 0, setup := .user 1 [.swap 9, .unwind true], unwind := .user 2 }, rfl, rfl, by decide +kernel⟩

end Verif.Props
