import Verif.Proof.Except
/-!
# C27 – C31: exceptions

Programs are those of `Verif.Model.Except`; `Stmt.wf` excludes `return` (or `goto`) out of a `try`
block and `rethrow` outside a handler.  `passes` bounds how often the text of one block is looked at
again after a jump; two suffice, and every theorem holds for any larger number.
-/
namespace Verif.Props
open Verif Verif.Ex

/-- C27, C29 (whole programs): a thread running a program performs exactly the actions the program
means, and the process ends with an exception exactly when the program throws one no block handles —
with that exception.  Otherwise the root context is current again. -/
theorem C27_program (w : World) (hw : w.calm) (raii : Bool) (n : Nat) (s : Stmt) (hs : s.wf false false = true) :
    let o := exec w (n + 2) 0 s (start raii)
    marks o.st.trace = (eval none s).1 ∧ o.st.cur = 0 ∧
    ((eval none s).2 = .done ∧ o = .ok o.st ∨ ∃ e, (eval none s).2 = .thrown e ∧ o = .dead e o.st) := by
  have h := (exec_ref hw n s false false 0 none (start raii) hs Nat.zero_lt_one rfl (by simp)).ends
  refine ⟨by simpa [start, marks] using h.1, h.2.1, ?_⟩
  have hne := eval_ne_returned s false none hs
  have he := h.2.2
  cases hr : (eval none s).2 with
  | done => rw [hr] at he; exact .inl ⟨rfl, he⟩
  | returned => exact absurd hr hne
  | thrown e =>
    rw [hr] at he
    exact .inr ⟨e, rfl, he.2⟩

/-- C27: if the body of a block throws `e`, the first handler accepting `e` runs, with `e` as the
exception it may rethrow, and no other: the block's actions are those of the body and of that handler. -/
theorem C27_first_handler (w : World) (hw : w.calm) (n self : Nat) (st : St) (hst : st.ready)
    (body : Stmt) (pre post : List (Pat × Stmt)) (p : Pat) (s : Stmt) (t : List Nat) (e : Exn)
    (hwf : (Stmt.tryCatch body (.ofList (pre ++ (p, s) :: post))).wf false false = true)
    (hb : eval none body = (t, .thrown e)) (hpre : ∀ q ∈ pre, ¬ q.1.accepts e) (hp : p.accepts e) :
    let o := exec w (n + 2) self (.tryCatch body (.ofList (pre ++ (p, s) :: post))) st
    marks o.st.trace = marks st.trace ++ t ++ (eval (some e) s).1 ∧ Ends st o (eval (some e) s).2 := by
  have h := (exec_ref hw n _ false false self none st hwf hst.1 hst.2 (by simp)).ends
  rw [eval] at h
  simp only [hb, evalH_ofList e pre p s post hpre hp] at h
  exact ⟨by rw [h.1]; simp, h.2.2⟩

/-- C27: if no handler accepts the exception none runs; if the body does not throw none runs. -/
theorem C27_no_handler (w : World) (hw : w.calm) (n self : Nat) (st : St) (hst : st.ready)
    (body : Stmt) (hs : List (Pat × Stmt)) (t : List Nat) (r : Res)
    (hwf : (Stmt.tryCatch body (.ofList hs)).wf false false = true)
    (hb : eval none body = (t, r)) (hn : ∀ e, r = .thrown e → ∀ q ∈ hs, ¬ q.1.accepts e) :
    let o := exec w (n + 2) self (.tryCatch body (.ofList hs)) st
    marks o.st.trace = marks st.trace ++ t ∧ Ends st o r := by
  have h := (exec_ref hw n _ false false self none st hwf hst.1 hst.2 (by simp)).ends
  rw [eval] at h
  simp only [hb] at h
  cases r with
  | done => exact ⟨h.1, h.2.2⟩
  | returned => exact ⟨h.1, h.2.2⟩
  | thrown e =>
    simp only [evalH_none e hs (hn e rfl)] at h
    exact ⟨by rw [h.1]; simp, h.2.2⟩

/-- A release function that throws ends the process there: nothing else of the program runs. -/
theorem C27_release_throws (w : World) (e : Exn) (st : St) (p : Nat) (ps : List Nat)
    (hu : (st.ctxs st.cur).unstack = false) (hr : (st.ctxs st.cur).isRaii = false)
    (hs : (st.ctxs st.cur).stack = p :: ps) (hl : (st.nodes p).linked = true)
    (hv : st.vars (st.nodes p).var ≠ 0) (ht : w.relThrows (st.nodes p).func (st.vars (st.nodes p).var) = true) :
    ∃ st', throwE w e st = .dead e st' ∧
      st'.trace = st.trace ++ [.released (st.nodes p).func (st.vars (st.nodes p).var)] := by
  unfold throwE unwindStack
  simp only [hu, hr, setCtx_same, Bool.false_eq_true, if_false, Bool.and_self]
  rw [hs]
  unfold unwindLoop
  simp only [St.setCtx, hl, not_true_eq_false, if_false, St.log, ht, if_true]
  rw [if_neg (Ne.symm hv), if_pos hv]
  exact ⟨_, rfl, rfl⟩

/-- C28: the `finally` section runs exactly once, after the body and the handler and before anything
else, whatever the block does: with `finally { n }` where the action `n` is not in the body or the
handlers, the block's actions are those of the block without `finally` followed by `n`, and it ends as
that block would. -/
theorem C28_finally_once (w : World) (hw : w.calm) (n self : Nat) (st : St) (hst : st.ready)
    (body : Stmt) (hs : Handlers) (k : Nat) (hwf : (Stmt.tryCatch body hs).wf false false = true)
    (hk : k ∉ (Stmt.tryCatch body hs).acts) :
    let r := eval none (.tryCatch body hs)
    let o := exec w (n + 2) self (.tryFinally body hs (.mark k)) st
    marks o.st.trace = marks st.trace ++ r.1 ++ [k] ∧ k ∉ r.1 ∧ Ends st o r.2 := by
  have hwf' : (Stmt.tryFinally body hs (.mark k)).wf false false = true := by
    simpa [Stmt.wf] using hwf
  have h := (exec_ref hw n _ false false self none st hwf' hst.1 hst.2 (by simp)).ends
  refine ⟨?_, fun hm => hk (eval_acts _ _ _ hm), ?_⟩
  · rw [h.1]; simp [eval]
  · have h3 := h.2.2
    simpa [eval] using h3

/-- C28 (any `finally` section): its actions come after those of body and handlers, and what it throws
replaces how the block would have ended. -/
theorem C28_finally_any (w : World) (hw : w.calm) (n self : Nat) (st : St) (hst : st.ready)
    (body fin : Stmt) (hs : Handlers) (hwf : (Stmt.tryFinally body hs fin).wf false false = true) :
    let r := eval none (.tryCatch body hs)
    let f := eval none fin
    let o := exec w (n + 2) self (.tryFinally body hs fin) st
    marks o.st.trace = marks st.trace ++ r.1 ++ f.1 ∧
    Ends st o (match f.2 with | .done => r.2 | x => x) := by
  have h := (exec_ref hw n _ false false self none st hwf hst.1 hst.2 (by simp)).ends
  refine ⟨?_, ?_⟩
  · rw [h.1]; simp [eval]
  · have h3 := h.2.2
    simp only [eval] at h3 ⊢
    cases hf : (eval none fin).2 <;> rw [hf] at h3 <;> exact h3

/-- C29: an exception the block does not handle, one rethrown, or one thrown by a handler or by
`finally` reaches the handler that was current when the block was entered, with every field (name,
file, line, function, message) as thrown; and if that is the thread's root the process terminates
with it.  The enclosing contexts are otherwise as they were. -/
theorem C29_propagates (w : World) (hw : w.calm) (n self : Nat) (st : St) (hst : st.ready)
    (s : Stmt) (e : Exn) (hwf : s.wf false false = true) (he : (eval none s).2 = .thrown e) :
    let o := exec w (n + 2) self s st
    (o.st.ctxs st.cur).exn = e ∧
    (st.cur = 0 → o = .dead e o.st) ∧
    (st.cur ≠ 0 → o = .jump st.cur ((st.ctxs st.cur).state ||| 1) o.st) ∧
    ∀ d, d < st.fresh → d ≠ st.cur → o.st.ctxs d = st.ctxs d := by
  have hr := exec_ref hw n s false false self none st hwf hst.1 hst.2 (by simp)
  have h3 := hr.ends.2.2
  rw [he] at h3
  obtain ⟨h4, h5⟩ := h3
  refine ⟨h4, fun hz => ?_, fun hz => ?_, hr.others⟩
  · rw [if_pos hz] at h5; exact h5
  · rw [if_neg hz] at h5; exact h5

/-- C29: which exception that is, for the three cases of the claim. -/
theorem C29_which (body s : Stmt) (pre post : List (Pat × Stmt)) (p : Pat) (t : List Nat) (e e' : Exn)
    (hb : eval none body = (t, .thrown e)) (hpre : ∀ q ∈ pre, ¬ q.1.accepts e) :
    (eval none (.tryCatch body (.ofList pre))).2 = .thrown e ∧
    (p.accepts e → (eval none (.tryCatch body (.ofList (pre ++ (p, .seq s .rethrow) :: post)))).2 =
      match (eval (some e) s).2 with | .done => .thrown e | x => x) ∧
    (p.accepts e → (eval none (.tryCatch body (.ofList (pre ++ (p, .throw e') :: post)))).2 = .thrown e') := by
  refine ⟨?_, fun hp => ?_, fun hp => ?_⟩
  · rw [eval]; simp only [hb, evalH_none e pre hpre]
  · rw [eval]
    simp only [hb, evalH_ofList e pre p _ post hpre hp]
    rw [eval]
    rcases eval (some e) s with ⟨t', _ | _ | _⟩ <;> rfl
  · rw [eval]
    simp only [hb, evalH_ofList e pre p _ post hpre hp]
    rfl

/-! C30 -/

/-- C30 in full: whatever the program. -/
def C30_Full : Prop :=
  ∀ (w : World), w.calm → ∀ (n self : Nat) (st : St), st.ready → ∀ (body : Stmt) (hs : Handlers),
    (exec w (n + 2) self (.tryCatch body hs) st).st.cur = st.cur

/-- A world without surprises. -/
def plainWorld : World := ⟨fun _ => rootCtx false, false, fun _ _ => false, false⟩

theorem plainWorld_calm : plainWorld.calm := ⟨fun _ _ => rfl, rfl⟩

/-- C30 in full is false: `return` out of a `try` block leaves the context of the block current, in
a function that has returned. -/
theorem C30_full_false : ¬ C30_Full := by
  intro h
  have := h plainWorld plainWorld_calm 0 0 (start false) ⟨by decide, rfl⟩ .ret .nil
  exact absurd this (by decide)

/-- The consequence: a later throw jumps into the context of the function that has returned, not to
the enclosing block. -/
theorem C30_dangling :
    exec plainWorld 2 0 (.seq (.call (.tryCatch .ret .nil)) (.throw ⟨7, 0, 0, 0, none⟩)) (start false) =
      .jump 1 1 (exec plainWorld 2 0 (.seq (.call (.tryCatch .ret .nil)) (.throw ⟨7, 0, 0, 0, none⟩)) (start false)).st := by
  rfl

/-- C30 without `return` out of a block (what is missing: blocks left by `return`, `break` or `goto`):
however the block is left, the current handler is the one current when it was entered. -/
theorem C30_balanced_partial (w : World) (hw : w.calm) (n self : Nat) (st : St) (hst : st.ready)
    (s : Stmt) (hwf : s.wf false false = true) :
    let o := exec w (n + 2) self s st
    o.st.cur = st.cur ∧ ∀ d, d < st.fresh → d ≠ st.cur → o.st.ctxs d = st.ctxs d := by
  have hr := exec_ref hw n s false false self none st hwf hst.1 hst.2 (by simp)
  exact ⟨hr.ends.2.1, hr.others⟩

/-! C31 -/

/-- C31 in full: any legal use of `protected` and `unprotected` in a block, then a throw. -/
def C31_Full : Prop :=
  ∀ (w : World), w.calm → ∀ (n : Nat) (st : St) (os : List POp) (e : Exn), st.ready →
    Legal POp.legal ⟨[], st.vars⟩ os →
    (exec w n st.fresh (progOf os (.throw e)) (enterTry w st)).st.trace =
      st.trace ++ (Prot.run ⟨[], st.vars⟩ os).releases

def exn7 : Exn := ⟨7, 0, 0, 0, none⟩

/-- C31 in full is false: a NULL pointer protected last hides the ones before it. -/
theorem C31_full_false : ¬ C31_Full := by
  intro h
  have := h plainWorld plainWorld_calm 2 (start false) [.assign 1 100, .protect 1 1 5, .protect 2 2 5] exn7
    ⟨by decide, rfl⟩ (by refine ⟨?_, ?_, ?_, ?_⟩ <;> simp [Legal, POp.legal, POp.step])
  exact absurd this (by decide)

/-- Two neighbouring pointers of equal value stop the release at the second. -/
theorem C31_equal_values :
    (exec plainWorld 2 1 (progOf [.assign 1 100, .assign 2 200, .protect 1 1 5, .protect 2 2 6, .assign 2 200,
      .protect 3 2 7] (.throw exn7)) (enterTry plainWorld (start false))).st.trace = [.released 7 200] := by
  decide

/-- Unprotecting an older pointer also drops the newer ones. -/
theorem C31_unprotect_older :
    (exec plainWorld 2 1 (progOf [.assign 1 100, .assign 2 200, .protect 1 1 5, .protect 2 2 6, .unprotect 1]
      (.throw exn7)) (enterTry plainWorld (start false))).st.trace = [] := by
  decide

/-- The context of a `try` block does not initialise the flag that says whether a scope is to be
cleaned instead: with the wrong leftover value protected pointers are not released. -/
theorem C31_uninitialised :
    (exec ⟨fun _ => rootCtx true, true, fun _ _ => false, false⟩ 2 1 (progOf [.assign 1 100, .protect 1 1 5]
      (.throw exn7)) (enterTry ⟨fun _ => rootCtx true, true, fun _ _ => false, false⟩ (start true))).st.trace = [.cleaned] := by
  decide

/-- C31 for a block whose pointers, when the exception is thrown, are non-NULL and differ from their
neighbours, unprotected newest first, with the uninitialised flag clear (or no memory held by the
thread's scope): exactly the protected pointers are released, once, newest first, none can be released
again by a later throw, and neither the contexts nor the pointers of enclosing blocks are touched.
Missing: NULL values, equal neighbours, and unprotecting in another order, for which it fails. -/
theorem C31_released_partial (w : World) (hw : w.calm) (n : Nat) (st : St) (os : List POp) (e : Exn)
    (hl : Legal POp.lifo ⟨[], st.vars⟩ os)
    (hj : ¬ ((w.junk st.fresh).isRaii = true ∧ w.scopeProtected = true))
    (hnz : ∀ q ∈ (Prot.run ⟨[], st.vars⟩ os).live, (Prot.run ⟨[], st.vars⟩ os).vars q.2.1 ≠ 0)
    (had : ∀ a b q q', (Prot.run ⟨[], st.vars⟩ os).live = a ++ q :: q' :: b →
      (Prot.run ⟨[], st.vars⟩ os).vars q.2.1 ≠ (Prot.run ⟨[], st.vars⟩ os).vars q'.2.1) :
    let o := exec w n st.fresh (progOf os (.throw e)) (enterTry w st)
    o.st.trace = st.trace ++ (Prot.run ⟨[], st.vars⟩ os).releases ∧
    (o.st.ctxs st.fresh).stack = [] ∧
    (∀ d, d ≠ st.fresh → o.st.ctxs d = st.ctxs d) ∧
    (∀ p, (∀ v f, POp.protect p v f ∉ os) → o.st.nodes p = st.nodes p) := by
  obtain ⟨s1, i1, i2, i3, i4, i5, i6, i7, i8, i9, i10⟩ := progOf_chain (w := w) (n := n) (self := st.fresh)
    (.throw e) os ⟨[], st.vars⟩ (enterTry w st) hl rfl (by simp [enterTry, St.setCtx]) trivial
  have hcur : (enterTry w st).cur = st.fresh := rfl
  rw [hcur] at i3 i5 i8 i9
  dsimp only
  rw [i1, exec]
  rw [← i2] at hnz had
  have hu : ((enterTry w st).ctxs st.fresh).unstack = false := by simp [enterTry, St.setCtx]
  have hi : ((enterTry w st).ctxs st.fresh).isRaii = (w.junk st.fresh).isRaii := by simp [enterTry, St.setCtx]
  obtain ⟨t1, t2, t3, t4⟩ := throwE_chain hw e s1 (Prot.run ⟨[], st.vars⟩ os).live
    (by rw [i5, i9]; exact hu) (by rw [i5, i9]; exact fun h => hj ⟨hi ▸ h.1, h.2⟩) (by rw [i5]; exact i3) i4 hnz had
  rw [i5] at t2 t3
  refine ⟨?_, t2, ?_, ?_⟩
  · rw [t1, i7]
    show st.trace ++ _ = _
    congr 1
    unfold Prot.releases
    rw [← i2]
    generalize (Prot.run ⟨[], st.vars⟩ os).live = l at hnz
    clear had i3 i4 i9 t1 t4
    induction l with
    | nil => rfl
    | cons q l ih =>
      rw [List.filterMap_cons, if_neg (hnz q List.mem_cons_self), List.map_cons]
      simp only
      rw [ih fun q' hq => hnz q' (List.mem_cons_of_mem _ hq)]
  · intro d hd
    rw [t3 d hd, i8 d hd]
    show (St.setCtx _ _ _).ctxs d = _
    rw [setCtx_ne _ _ hd]
  · intro p hp
    rw [t4 p ?_, i10 p hp]
    · rfl
    · suffices hs : ∀ (os : List POp) (a : Prot), (∀ v f, POp.protect p v f ∉ os) → p ∉ a.live.map Prod.fst →
          p ∉ (a.run os).live.map Prod.fst from hs os _ hp (by simp)
      intro os
      induction os with
      | nil => intro a _ h; exact h
      | cons o os ih =>
        intro a ho ha
        refine ih (o.step a) (fun v f h => ho v f (List.mem_cons_of_mem _ h)) ?_
        cases o with
        | protect q v f =>
          simp only [POp.step, List.map_cons, List.mem_cons, not_or]
          exact ⟨by rintro rfl; exact ho v f List.mem_cons_self, ha⟩
        | unprotect q =>
          intro hm
          simp only [POp.step, List.mem_map, List.mem_filter] at hm
          obtain ⟨x, ⟨hx, -⟩, rfl⟩ := hm
          exact ha (List.mem_map_of_mem hx)
        | assign v x => exact ha

/-! Non-trivial cases meeting the hypotheses. -/

/-- Two nested blocks, three handlers, a rethrow and two `finally`s. -/
def demo : Stmt :=
  .tryFinally
    (.tryFinally (.seq (.mark 1) (.throw ⟨7, 1, 2, 3, some 4⟩))
      (.ofList [(.name 8, .mark 2), (.name 7, .seq (.mark 3) .rethrow), (.any, .mark 4)]) (.mark 5))
    (.ofList [(.any, .mark 6)]) (.mark 7)

example : demo.wf false false = true := by decide
example : eval none demo = ([1, 3, 5, 6, 7], .done) := by decide
example : marks (exec plainWorld 2 0 demo (start false)).st.trace = [1, 3, 5, 6, 7] := by decide
example : (start false).ready := ⟨by decide, rfl⟩
example : eval none (.seq (.mark 1) (.throw exn7)) = ([1], .thrown exn7) ∧ ¬ (Pat.name 8).accepts exn7 ∧
    (Pat.name 7).accepts exn7 := by simp [eval, Pat.accepts, exn7]
example : ∃ os : List POp, Legal POp.lifo ⟨[], (start false).vars⟩ os ∧
    (Prot.run ⟨[], (start false).vars⟩ os).releases = [.released 6 200, .released 5 100] :=
  ⟨[.assign 1 100, .assign 2 200, .protect 1 1 5, .protect 3 1 5, .unprotect 3, .protect 2 2 6],
   by refine ⟨?_, ?_, ?_, ?_, ?_, ?_, ?_⟩ <;> simp [Legal, POp.lifo, POp.step], by decide⟩

end Verif.Props
