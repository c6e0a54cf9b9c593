import Verif.Proof.CatchIf
/-!
# C67, C68: `catch_if` with `caught(E)`; recovery functions of the thread's scope
-/
namespace Verif.Props
open Verif Verif.Ci

/-- `caught(n)` should accept the error with this string and no other. -/
def sameName (n m : Name) : Bool := decide (n = m)

mutual
/-- Nothing is registered with, or taken from, the thread's scope. -/
def free : Stmt → Bool
  | .recover _ | .hold _ => false
  | .seq a b => free a && free b
  | .tryIf body arms fin => free body && freeA arms && free fin
  | _ => true
def freeA : Arms → Bool
  | .other s => free s
  | .arm _ s rest => free s && freeA rest
end

/-- The property: whatever the program, the first arm asking for the error thrown handles it, and an error no arm asks
for goes on. -/
def C67_Full : Prop := ∀ (junk : Nat → Bool) (n : Nat) (s : Stmt), free s = true →
  Meets (run junk (n + 2) s) (eval sameName none s)

/-- The exception the process died of. -/
def diedOf : Out → Option Exn
  | .dead e _ => some e
  | _ => none

/-- In a thread that has not called `raii_init`, the first `caught` dereferences NULL (as in
`examples/try_catch_if.c:10-17`), unless the uninitialised flag of the context happens to be set. -/
theorem C67_no_scope (junk : Nat → Bool) (hj : junk 1 = false) (n : Nat) (a b : Name) (s : Stmt) (rest : Arms) (fin : Stmt) :
    ∃ st, run junk (n + 2) (.tryIf (.throw a) (.arm b s rest) fin) = .wild st := by
  simp [run, exec, tryBlock, enterTry, throwE, unwindSet, unwindStack, isUnwind, start, St.setCtx, region, execA, caught,
    Out.andThen, hj]

theorem C67_full_false : ¬ C67_Full := by
  intro h
  obtain ⟨st, hs⟩ := C67_no_scope (fun _ => false) rfl 0 [1] [1] .skip (.other .skip) .skip
  have := h (fun _ => false) 0 (.tryIf (.throw [1]) (.arm [1] .skip (.other .skip)) .skip) rfl
  rw [hs] at this
  have hr : (eval sameName none (.tryIf (.throw [1]) (.arm [1] .skip (.other .skip)) .skip)).r = .done := by decide
  unfold Meets at this
  rw [hr] at this
  obtain ⟨_, h, _⟩ := this
  cases h

/-- What holds: after `raii_init`, with the flag of every context happening to be clear, for every program that throws
with `throw(E)`, holds no memory in the thread's scope and does not throw from the last `else`, with names that
`is_str_eq` tells apart.  Missing: everything else, see the theorems around. -/
theorem C67_arms_partial (junk : Nat → Bool) (hj : ∀ i, junk i = false) (n : Nat) (s : Stmt) (hm : s.mild sameName)
    (hc : s.clear) : Meets (run junk (n + 2) (.seq .init s)) (eval sameName none s) := by
  have hag : ∀ k ∈ s.asked, ∀ m ∈ s.thrown, sameName k m = eqName k m := fun k hk m hm =>
    (eqName_clear (hc k hk).1 ((hc k hk).2 m hm)).symm
  rw [(eval_same sameName eqName s.thrown s none hag (fun _ h => h) hm).1]
  exact run_meets hj s (mild_same sameName eqName s.thrown s hag (fun _ h => h) hm)

/-- With any names: `caught(n)` accepts what `is_str_eq` accepts. -/
theorem C67_exact (junk : Nat → Bool) (hj : ∀ i, junk i = false) (n : Nat) (s : Stmt) (hm : s.mild eqName) :
    Meets (run junk (n + 2) (.seq .init s)) (eval eqName none s) := run_meets hj s hm

/-- The program of `examples/try_catch_if.c`, with a second block around it and a deferred function. -/
def sample : Stmt :=
  .seq (.recover ⟨9, some [1]⟩)
    (.tryIf (.tryIf (.throw [3, 4]) (.arm [1] (.mark 1) (.arm [3, 4] (.seq .message (.throw [2])) (.other (.mark 2)))) (.mark 3))
      (.arm [5] (.mark 4) (.arm [2] (.mark 5) (.other .skip))) .skip)

example : sample.mild sameName ∧ sample.clear ∧
    (eval sameName none sample).whole = [.msg (some [3, 4]), .mark 3, .mark 5, .ran 9] ∧
    (eval sameName none sample).r = .done := by
  refine ⟨?_, ?_, by decide, by decide⟩
  · simp [sample, Stmt.mild, Arms.mild, eval]
  · simp [sample, Stmt.clear, Stmt.asked, Arms.asked, Stmt.thrown, Arms.thrown]

/-- An arm asking for a name of 8 bytes (`sig_term`, `sig_kill`, …), or for the beginning of the name thrown, handles an
exception it does not name. -/
theorem C67_names (junk : Nat → Bool) (hj : ∀ i, junk i = false) (n : Nat) (a b : Name) (h : b.length = 8 ∨ b <+: a) :
    ∃ st, run junk (n + 2) (.seq .init (.tryIf (.throw a) (.arm b (.mark 1) (.other .skip)) .skip)) = .ok st ∧
      st.trace = [.mark 1] := by
  have hab : eqName b a = true := by
    unfold eqName
    rcases h with h | h
    · simp [h]
    · rw [List.isPrefixOf_iff_prefix.2 h]; simp
  have := C67_exact junk hj n (.tryIf (.throw a) (.arm b (.mark 1) (.other .skip)) .skip)
    (by simp [Stmt.mild, Arms.mild, eval])
  simpa [Meets, eval, evalA, Exn.key, hab, Val.both, Val.whole] using this

example : "sig_term".toUTF8.toList.length = 8 := by decide +kernel

/-- Where nothing was thrown, `caught(n)` is false and changes nothing. -/
theorem C67_nothing_thrown (n : Name) (st : St) (sc : Scope) (hs : st.scope = some sc) (he : sc.err = none) (hx : (st.ctxs st.cur).exn = none) :
    caught n st = some (false, st) := by
  simp [caught, caughtBy, hs, he, hx]

/-- A thread that has used its scope. -/
example : ∃ sc, (raiiInit start).scope = some sc ∧ sc.err = none ∧ ((raiiInit start).ctxs (raiiInit start).cur).exn = none := ⟨_, rfl, rfl, rfl⟩

/-- An error noted by the thread's scope stays there: if the scope was first used inside a block that threw `a` and
handled it, a later block that throws `b` does not get it handled by the arm for `b`. -/
theorem C67_stale (junk : Nat → Bool) (hj : ∀ i, junk i = false) (n : Nat) (a b : Name) (h : eqName b a = false)
    (o : Out) (ho : o = run junk (n + 2) (.seq (.tryIf (.seq .init (.throw a)) (.arm a .skip (.other .skip)) .skip)
        (.tryIf (.throw b) (.arm b (.mark 1) (.other (.mark 2))) .skip))) :
    diedOf o = some ⟨b, none⟩ ∧ o.st.trace = [.mark 2] := by
  simp [ho, run, exec, tryBlock, enterTry, throwE, unwindSet, unwindStack, isUnwind, start, St.setCtx, region, execA, caught,
      caughtBy, Exn.key, raiiInit, markCaught, post, endTry, Out.andThen, hj, eqName_refl, h, deferredFree, runList, St.log,
      diedOf, Out.st]

/-- The same after a proper `raii_init`, when the uninitialised flag of the first block happens to be set. -/
theorem C67_junk (junk : Nat → Bool) (h1 : junk 1 = true) (h2 : junk 2 = false) (n : Nat) (a b : Name)
    (h : eqName b a = false)
    (o : Out) (ho : o = run junk (n + 2) (.seq .init (.seq (.tryIf (.throw a) (.arm a .skip (.other .skip)) .skip)
        (.tryIf (.throw b) (.arm b (.mark 1) (.other (.mark 2))) .skip)))) :
    diedOf o = some ⟨b, none⟩ ∧ o.st.trace = [.mark 2] := by
  simp [ho, run, exec, tryBlock, enterTry, throwE, unwindSet, unwindStack, isUnwind, start, St.setCtx, region, execA, caught,
      caughtBy, Exn.key, raiiInit, markCaught, post, endTry, Out.andThen, h1, h2, eqName_refl, h, deferredFree, runList, St.log,
      diedOf, Out.st]

example : eqName "bad_alloc".toUTF8.toList "out_of_memory".toUTF8.toList = false := by decide +kernel

/-- A panic is not known by its message but as `panic`: an arm asking for the message does not handle it, and
`raii_message()` does not tell it. -/
theorem C67_panic (junk : Nat → Bool) (hj : ∀ i, junk i = false) (n : Nat) (m : Name)
    (h : eqName m panicName = false)
    (o : Out) (ho : o = run junk (n + 2) (.seq .init (.tryIf (.panic m) (.arm m (.mark 1) (.other .message)) .skip))) :
    diedOf o = some ⟨panicName, some m⟩ ∧ o.st.trace = [.msg (some panicName)] ∧
    eval sameName none (.tryIf (.panic m) (.arm m (.mark 1) (.other .message)) .skip) = ⟨[.mark 1], [], .done⟩ := by
  simp [ho, run, exec, tryBlock, enterTry, throwE, unwindSet, unwindStack, isUnwind, start, St.setCtx, region, execA, caught,
      caughtBy, Exn.key, raiiInit, post, endTry, Out.andThen, hj, h, deferredFree, runList, St.log,
      diedOf, Out.st, eval, evalA, sameName, Val.both]

example : panicName = "panic".toUTF8.toList ∧ eqName [52] panicName = false := by decide +kernel

/-- Throwing from the last `else` starts the handler again, for ever. -/
theorem C67_else_throws (junk : Nat → Bool) (hj : ∀ i, junk i = false) (n : Nat) (a b : Name) (fin : Stmt) :
    ∃ st, run junk n (.seq .init (.tryIf (.throw a) (.other (.throw b)) fin)) = .running st := by
  obtain ⟨rest, hrest⟩ : ∃ rest : St → Out, rest = fun s =>
      (if (s.ctxs 1).state = 1 then execA junk n (.other (.throw b)) s else .ok s).andThen (post (exec junk n fin) 1) := ⟨_, rfl⟩
  have loop : ∀ (k : Nat) (st : St), st.cur = 1 → (st.ctxs 1).isRaii = false →
      ∃ st', region 1 rest k 1 st = .running st' := by
    intro k
    induction k with
    | zero => intro st _ _; exact ⟨st, rfl⟩
    | succ k ih =>
      intro st hc hr
      have hstep : rest (st.setCtx 1 { st.ctxs 1 with state := 1 }) =
          .jump 1 1 ((st.setCtx 1 { st.ctxs 1 with state := 1 }).setCtx 1 { st.ctxs 1 with state := 1, exn := some ⟨b, none⟩ }) := by
        simp [hrest, execA, exec, throwE, unwindSet, unwindStack, isUnwind, St.setCtx, Out.andThen, hc, hr]
      rw [region, hstep]
      dsimp only
      rw [if_pos rfl]
      exact ih _ hc (by simp [hr])
  obtain ⟨st', h⟩ := loop n ((enterTry junk (raiiInit start)).setCtx 1 ⟨0, 0, some ⟨a, none⟩, false⟩) rfl (by simp)
  refine ⟨st', ?_⟩
  have hx : exec junk n (.seq .init (.tryIf (.throw a) (.other (.throw b)) fin)) start = .running st' := by
    rw [← h, hrest]
    simp [exec, tryBlock, enterTry, throwE, unwindSet, unwindStack, isUnwind, start, St.setCtx, raiiInit, Out.andThen, hj]
  unfold run
  rw [hx]

/-! ## C68 -/

/-- The property: an error that a function registered with `raii_recover` marks as handled does not end the process. -/
def C68_Full : Prop := ∀ (junk : Nat → Bool) (n id : Nat) (s : Stmt) (e : Exn), free s = true →
  (eval sameName none s).r = .thrown e →
  diedOf (run junk (n + 2) (.seq .init (.seq (.recover ⟨id, some e.key⟩) s))) = none

/-- Outside every block a throw ends the process, whatever has been registered and whatever it marks. -/
theorem C68_root (e : Exn) (st : St) (hc : st.cur = 0) : diedOf (throwE e st) = some e := by
  have hp : ∀ (d : D) (st : St), (perform d st).cur = st.cur := by
    intro d st
    unfold perform
    dsimp only
    cases d.recovers with
    | none => rfl
    | some n =>
      dsimp only
      unfold caught
      cases (st.log (.ran d.id)).scope with
      | none => rfl
      | some sc => dsimp only; split <;> (rename_i h; split at h <;> cases h <;> rfl)
  have hl : ∀ (ds : List D) (st : St), (runList ds st).cur = st.cur := by
    intro ds
    induction ds with
    | nil => intro st; rfl
    | cons d ds ih => intro st; rw [runList, ih, hp]
  have hd : ∀ st, (deferredFree st).cur = st.cur := by
    intro st
    unfold deferredFree
    split
    · rfl
    · split
      · exact hl _ _
      · rfl
  have hi : ∀ st, (raiiInit st).cur = st.cur := by
    intro st; unfold raiiInit; split <;> rfl
  have hu : ∀ st, (unwindSet e st).cur = st.cur := by
    intro st; unfold unwindSet; split
    · exact hi _
    · rfl
  have hw : ∀ st, (unwindStack st).cur = st.cur := by
    intro st; unfold unwindStack; split
    · exact hd _
    · rfl
  unfold throwE
  dsimp only
  rw [if_pos (by rw [hw, hu]; exact hc)]
  rfl

theorem C68_full_false : ¬ C68_Full := by
  intro h
  have h1 := h (fun _ => false) 0 1 (.throw [1]) ⟨[1], none⟩ rfl rfl
  rw [show run (fun _ => false) (0 + 2) (.seq .init (.seq (.recover ⟨1, some (Exn.key ⟨[1], none⟩)⟩) (.throw [1]))) =
    throwE ⟨[1], none⟩ { raiiInit start with scope := some ⟨none, [⟨1, some [1]⟩], true, false⟩ } from rfl,
    C68_root _ _ rfl] at h1
  cases h1

/-- With memory held by the thread's scope, in the block where the scope was first used: the function runs, marks the
error handled, and the block's own handlers are skipped, whatever they are; the error goes on. -/
theorem C68_handler_skipped (junk : Nat → Bool) (n i k : Nat) (a : Name) (arms : Arms)
    (o : Out) (ho : o = run junk (n + 2) (.tryIf
      (.seq .init (.seq (.hold i) (.seq (.recover ⟨k, some a⟩) (.throw a)))) arms (.mark 3))) :
    diedOf o = some ⟨a, none⟩ ∧ o.st.trace = [.ran k, .ran i, .mark 3] := by
  simp [ho, run, exec, tryBlock, enterTry, throwE, unwindSet, unwindStack, isUnwind, start, St.setCtx, region, caught,
      caughtBy, Exn.key, raiiInit, markCaught, post, endTry, Out.andThen, eqName_refl, deferredFree, runList, perform, St.log,
      diedOf, Out.st]

/-- Without memory held the function does not run when something is thrown, only at the end of the program - once, the
newest first - when the error has been handled or has ended the process.  Missing: that it can handle the error. -/
theorem C68_runs_partial (junk : Nat → Bool) (hj : ∀ i, junk i = false) (n : Nat) (s : Stmt) (hm : s.mild eqName) :
    (run junk (n + 2) (.seq .init s)).st.trace = (eval eqName none s).t ++ (eval eqName none s).d.map (.ran ·.id) ∧
    ∀ e, diedOf (run junk (n + 2) (.seq .init s)) = some e ↔ (eval eqName none s).r = .thrown e := by
  have h := run_meets (n := n) hj s hm
  unfold Meets at h
  rcases hr : (eval eqName none s).r with _ | e'
  · rw [hr] at h
    obtain ⟨st, h1, h2⟩ := h
    rw [h1]
    exact ⟨h2, by simp [diedOf]⟩
  · rw [hr] at h
    obtain ⟨st, h1, h2⟩ := h
    rw [h1]
    exact ⟨h2, by simp [diedOf]⟩

example : (sample.mild eqName) ∧ (eval eqName none sample).d = [⟨9, some [1]⟩] := by
  refine ⟨?_, by decide⟩
  simp [sample, Stmt.mild, Arms.mild, eval]

/-- Registering a function before `raii_init` dereferences NULL. -/
theorem C68_no_scope (junk : Nat → Bool) (n : Nat) (d : D) (s : Stmt) :
    ∃ st, run junk n (.seq (.recover d) s) = .wild st := by
  simp [run, exec, start, Out.andThen]

end Verif.Props
