import Verif.Proof.Seh
import Verif.Props.Search
/-!
# C65: try blocks on Windows

A handler `catch(X)` runs exactly for exceptions named `X`; others go on to the next block around; nothing is lost.
-/
namespace Verif.Props
open Verif Verif.Seh

/-- C65 in full: whatever new contexts happen to hold, a program does what it should. -/
def C65_Full : Prop := ∀ (junk : Nat → Msg × BitVec 32) (p : Prog), p.sensible false = true → Meets (Seh.run junk p) p

/-- What new contexts hold if the stack is full of zeros. -/
private def zeros (_ : Nat) : Msg × BitVec 32 := (.null, 0)

private theorem zeros_ok : JunkOk zeros := fun _ => by unfold zeros; decide +kernel

/-- The comparison of names in memory, `is_str_eq` (`src/raii.c:742-744`). -/
theorem C65_eq (m : Mem) (a b : Nat) (s t : Name) (hs : CStr m a s) (ht : CStr m b t) (fuel : Nat)
    (hf : s.length / 8 < fuel) : isStrEq m (some a) (some b) fuel = some (eqName s t) := by
  obtain ⟨r, h1, h2⟩ := (C02_is_str_eq_exact m fuel).2.2 a b s t hs ht hf
  rw [h1]
  congr 1
  rw [Bool.eq_iff_iff, h2]
  simp [eqName]

example : isStrEq (memOf 0 ("ab".toUTF8.toList ++ [0] ++ "abc".toUTF8.toList ++ [0])) (some 0) (some 3) 9 =
    some (eqName "ab".toUTF8.toList "abc".toUTF8.toList) :=
  C65_eq _ 0 3 _ _ (by unfold CStr; decide +kernel) (by unfold CStr; decide +kernel) 9 (by decide +kernel)

/-- Every try block installs the table again: nothing changes. -/
theorem C65_setup : sehRows.foldl (fun t p => setRow p.1 p.2 t) table = table := by decide +kernel

/-- C65, proved part: every exception is one that the innermost block is for, by its exact name, or a signal or fault
under `catch_any`; handlers are left by exceptions only through `rethrow` in a `catch(X)`, the block around being for
`X` too.  Missing: everything else, see below. -/
theorem C65_mild_partial (junk : Nat → Msg × BitVec 32) (hj : JunkOk junk) (p : Prog) (hm : p.mild .top = true) :
    Meets (Seh.run junk p) p := by
  obtain ⟨r, s', h1, h2⟩ := mild_ok hj p .top none [] start hm ⟨rfl, by decide⟩
  unfold Meets Seh.run
  rw [h1]
  cases he : (sem none p).2 with
  | exn n => rw [he] at h2; exact h2.elim
  | done =>
    rw [he] at h2
    obtain ⟨rfl, hs, -⟩ := h2
    dsimp only
    rw [hs.trace]
    rfl

/-- A block that passes on what it caught, a fault, a signal, and a try block in a handler. -/
private def mildProg : Prog :=
  .seq (.tryCatch (.seq (.say 1) (.tryCatch (.throw (str "logic_error")) (.one (str "logic_error")) (.seq (.say 2) .rethrow) 3))
      (.one (str "logic_error")) (.tryCatch (.fault 0xC0000094) .any (.say 4) 5) 6)
    (.tryCatch (.raise 15 (str "sig_term")) .any (.say 7) 8)

example : Seh.run zeros mildProg = (.done, [.said 1, .caught (.str (str "logic_error")), .said 2, .fin 3,
    .caught (.str (str "logic_error")), .caught (.str (str "divide_by_zero")), .said 4, .fin 5, .fin 6,
    .caught (.str (str "sig_term")), .said 7, .fin 8]) := by
  rw [C65_mild_partial zeros zeros_ok mildProg (by decide +kernel)]
  decide +kernel

/-- A throw outside all blocks ends the process. -/
theorem C65_uncaught (junk : Nat → Msg × BitVec 32) (hj : JunkOk junk) (p : Prog) (hm : p.mild .top = true) (e : Name) :
    Meets (Seh.run junk (.seq p (.throw e))) (.seq p (.throw e)) := by
  obtain ⟨r, s', h1, h2⟩ := mild_ok hj p .top none [] start hm ⟨rfl, by decide⟩
  unfold Meets Seh.run
  cases he : sem none p with
  | mk t x =>
    rw [he] at h2
    cases x with
    | exn n => exact h2.elim
    | done =>
      obtain ⟨rfl, hs, -⟩ := h2
      have hc : s'.cur = 0 := hs.cur
      simp only [exec, h1, sem, he, exThrow, hc, if_true, Exit.toEnd]
      rw [hs.trace]
      simp [start]

example : Seh.run zeros (.seq (.say 1) (.throw (str "logic_error"))) = (.terminated, [.said 1]) :=
  C65_uncaught zeros zeros_ok (.say 1) rfl _

/-- For which `throw(E)` the handler of `catch(X)` runs, exactly: `E` has 8 bytes, or `X` begins with `E` or with
`panic`.  Any other exception is lost: the program goes on behind the block, wherever the block is. -/
theorem C65_match (junk : Nat → Msg × BitVec 32) (e x : Name) (m k : Nat) (live : List Nat) (s : S) (h0 : s.fresh ≠ 0) :
    ∃ s', exec table junk (.tryCatch (.throw e) (.one x) (.say m) k) live s = (.normal, s') ∧ s'.cur = s.cur ∧
      s'.trace = s.trace ++
        if e.length = 8 ∨ e <+: x ∨ str "panic" <+: x then [.caught (.str e), .said m, .fin k] else [.fin k] := by
  have hf : (catchSeh table s.got x panicCode ⟨some (str "panic"), .str e, .try, false, (junk s.fresh).2, s.cur⟩).1 = .execute ∧
      (catchSeh table s.got x panicCode ⟨some (str "panic"), .str e, .try, false, (junk s.fresh).2, s.cur⟩).2.next = s.cur ∧
      if e.length = 8 ∨ e <+: x ∨ str "panic" <+: x then
        (catchSeh table s.got x panicCode ⟨some (str "panic"), .str e, .try, false, (junk s.fresh).2, s.cur⟩).2.state = .throw ∧
        (catchSeh table s.got x panicCode ⟨some (str "panic"), .str e, .try, false, (junk s.fresh).2, s.cur⟩).2.err = .str e
      else (catchSeh table s.got x panicCode ⟨some (str "panic"), .str e, .try, false, (junk s.fresh).2, s.cur⟩).2.state = .try := by
    obtain ⟨r, hr, hm⟩ := find_first (q := fun r => r.seh == panicCode || (junk s.fresh).2 == r.seh || eqOpt (some (str "panic")) x)
      (fun r _ h => by simp [h])
    have hp : eqOpt (some (str "panic")) x = (str "panic").isPrefixOf x := by
      have : (str "panic").length = 5 := by decide +kernel
      simp [eqOpt, eqName, this]
    unfold catchSeh
    rw [if_neg (fun h => by cases h.2), if_neg (fun h => by cases h.1)]
    simp only [eqMsg]
    by_cases hc : e.length = 8 ∨ e <+: x ∨ str "panic" <+: x
    · rw [if_neg, hr, if_pos hc]
      · exact ⟨rfl, rfl, rfl, rfl⟩
      · rintro ⟨h1, h2⟩
        rw [hp] at h2
        simp only [eqName, Bool.or_eq_false_iff, beq_eq_false_iff_ne] at h1
        rcases hc with hc | hc | hc
        · exact h1.1 hc
        · rw [List.isPrefixOf_iff_prefix.2 hc] at h1; cases h1.2
        · rw [List.isPrefixOf_iff_prefix.2 hc] at h2; cases h2
    · rw [if_pos, if_neg hc]
      · exact ⟨rfl, rfl, rfl⟩
      · rw [hp]
        constructor
        · simp only [eqName, Bool.or_eq_false_iff, beq_eq_false_iff_ne]
          refine ⟨fun h => hc (.inl h), ?_⟩
          rw [Bool.eq_false_iff]
          exact fun h => hc (.inr (.inl (List.isPrefixOf_iff_prefix.1 h)))
        · rw [Bool.eq_false_iff]
          exact fun h => hc (.inr (.inr (List.isPrefixOf_iff_prefix.1 h)))
  generalize hy : catchSeh table s.got x panicCode ⟨some (str "panic"), .str e, .try, false, (junk s.fresh).2, s.cur⟩ = y at hf
  have hset : (S.setCtx { s.setCtx s.fresh ⟨none, (junk s.fresh).1, .try, false, (junk s.fresh).2, s.cur⟩ with
        cur := s.fresh, fresh := s.fresh + 1 } s.fresh
        { S.ctxs { s.setCtx s.fresh ⟨none, (junk s.fresh).1, .try, false, (junk s.fresh).2, s.cur⟩ with
            cur := s.fresh, fresh := s.fresh + 1 } s.fresh with ex := some (str "panic"), panic := .str e }).ctxs s.fresh =
      ⟨some (str "panic"), .str e, .try, false, (junk s.fresh).2, s.cur⟩ := by
    simp [S.setCtx]
  have hth := exThrow_live (live := s.fresh :: live)
    (s := { s.setCtx s.fresh ⟨none, (junk s.fresh).1, .try, false, (junk s.fresh).2, s.cur⟩ with
        cur := s.fresh, fresh := s.fresh + 1 }) (q := s.fresh) rfl h0 List.mem_cons_self (some (str "panic")) (.str e)
  generalize hs2 : (S.setCtx { s.setCtx s.fresh ⟨none, (junk s.fresh).1, .try, false, (junk s.fresh).2, s.cur⟩ with
        cur := s.fresh, fresh := s.fresh + 1 } s.fresh
        { S.ctxs { s.setCtx s.fresh ⟨none, (junk s.fresh).1, .try, false, (junk s.fresh).2, s.cur⟩ with
            cur := s.fresh, fresh := s.fresh + 1 } s.fresh with ex := some (str "panic"), panic := .str e }) = s2 at hth hset
  have hcur : s2.cur = s.fresh := by rw [← hs2]; rfl
  have hgot : s2.got = s.got := by rw [← hs2]; rfl
  have htr : s2.trace = s.trace := by rw [← hs2]; rfl
  simp only [exec, hth, hcur, Catch.filter, hset, hgot, hy, hf.1]
  rw [if_pos (.inr List.mem_cons_self)]
  by_cases hc : e.length = 8 ∨ e <+: x ∨ str "panic" <+: x
  · rw [if_pos hc] at hf ⊢
    simp only [setCtx_same, hf.2.2.1, if_true]
    obtain ⟨s', f1, f2, f3, f4, f5⟩ := finish_normal (live := live) (i := s.fresh) (k := k)
      (s := (((s2.setCtx s.fresh y.2).setCtx s.fresh { y.2 with state := .catch }).add (.caught y.2.err)).add (.said m))
      (by show ((S.setCtx _ s.fresh _).ctxs s.fresh).state.thrown = false; rw [setCtx_same]; rfl)
    refine ⟨s', f1, ?_, ?_⟩
    · rw [f3]
      show ((S.setCtx _ s.fresh _).ctxs s.fresh).next = _
      rw [setCtx_same]
      exact hf.2.1
    · rw [f2]
      show s2.trace ++ [.caught y.2.err] ++ [.said m] ++ [.fin k] = _
      rw [htr, hf.2.2.2]
      simp
  · rw [if_neg hc] at hf ⊢
    simp only [setCtx_same, hf.2.2]
    obtain ⟨s', f1, f2, f3, f4, f5⟩ := finish_normal (live := live) (i := s.fresh) (k := k) (s := s2.setCtx s.fresh y.2)
      (by rw [setCtx_same, hf.2.2]; rfl)
    refine ⟨s', f1, ?_, ?_⟩
    · rw [f3, setCtx_same]; exact hf.2.1
    · rw [f2]
      show s2.trace ++ _ = _
      rw [htr]

example : ∃ s', exec table zeros (.tryCatch (.throw (str "overflow")) (.one (str "logic_error")) (.say 1) 2) [] start =
      (.normal, s') ∧ s'.cur = 0 ∧ s'.trace = [.caught (.str (str "overflow")), .said 1, .fin 2] := by
  have := C65_match zeros (str "overflow") (str "logic_error") 1 2 [] start (by decide)
  rwa [if_pos (by decide +kernel)] at this

/-- An exception thrown in a handler never gets to a handler, nor does it end the program: the block around takes it
for handled, and the handler's own `finally` is skipped. -/
theorem C65_handler_throw (junk : Nat → Msg × BitVec 32) (e e2 : Name) (m k1 k2 : Nat) :
    Seh.run junk (.tryCatch (.tryCatch (.throw e) .any (.throw e2) k1) .any (.say m) k2) =
      (.done, [.caught (.str e), .fin k2]) := by
  simp [Seh.run, exec, Catch.filter, catchFilter, exThrow, finish, S.setCtx, S.add, start, Ctx.err, State.thrown]

/-- `rethrow` in the handler of a `catch_any` is lost in the same way, if the context held a negative number. -/
theorem C65_rethrow_any (junk : Nat → Msg × BitVec 32) (h : (junk 2).2.toInt < 0) (e : Name) (m k1 k2 : Nat) :
    Seh.run junk (.tryCatch (.tryCatch (.throw e) .any .rethrow k1) .any (.say m) k2) =
      (.done, [.caught (.str e), .fin k2]) := by
  have h' : ¬ -1 < (junk 2).2.toInt := by omega
  simp [Seh.run, exec, Catch.filter, catchFilter, exThrow, finish, S.setCtx, S.add, start, Ctx.err, State.thrown, h']

example : Seh.run (fun _ => (.null, -1)) (.tryCatch (.tryCatch (.throw (str "logic_error")) .any .rethrow 1) .any (.say 2) 3) =
    (.done, [.caught (.str (str "logic_error")), .fin 3]) :=
  C65_rethrow_any _ (by decide) _ _ _ _

/-- ... and works if it held another. -/
theorem C65_rethrow_any_works (junk : Nat → Msg × BitVec 32) (h : 0 ≤ (junk 2).2.toInt) (e : Name) (m k1 k2 : Nat) :
    Meets (Seh.run junk (.tryCatch (.tryCatch (.throw e) .any .rethrow k1) .any (.say m) k2))
      (.tryCatch (.tryCatch (.throw e) .any .rethrow k1) .any (.say m) k2) := by
  have h' : -1 < (junk 2).2.toInt := by omega
  simp [Meets, sem, Catch.accepts, Exit.toEnd, Seh.run, exec, Catch.filter, catchFilter, exThrow, finish, S.setCtx, S.add,
    start, Ctx.err, State.thrown, State.orThrow, h']

example : Seh.run zeros (.tryCatch (.tryCatch (.throw (str "logic_error")) .any .rethrow 1) .any (.say 2) 3) =
    (.done, [.caught (.str (str "logic_error")), .fin 1, .caught (.str (str "logic_error")), .said 2, .fin 3]) := by
  rw [C65_rethrow_any_works zeros (by decide)]
  decide +kernel

/-- A fault in the block of a `catch(X)`: with a null pointer in the new context no handler runs and the fault is lost;
with another value the handler runs, whatever `X` is. -/
theorem C65_fault (junk : Nat → Msg × BitVec 32) (code : BitVec 32) (n : Name) (hn : faultName code = some n) (x : Name)
    (m k : Nat) :
    Seh.run junk (.tryCatch (.fault code) (.one x) (.say m) k) =
      (.done, if (junk 1).1 = .null then [.fin k] else [.caught (.str n), .said m, .fin k]) := by
  have hm : code.msb = true := by
    unfold faultName at hn
    split at hn <;> first | rfl | cases hn
  have hf : table.find? (fun r => r.seh == code) = some ⟨some n, code⟩ := by
    unfold faultName at hn
    split at hn <;> first | (cases hn; decide +kernel) | cases hn
  cases hj : (junk 1).1 <;>
    simp [Seh.run, exec, Catch.filter, catchSeh, eqOpt, finish, S.setCtx, S.add, start, Ctx.err, State.thrown, hj, hm, hf]

example : Seh.run (fun _ => (.junk, 0)) (.tryCatch (.fault 0xC0000094) (.one (str "sig_int")) (.say 1) 2) =
    (.done, [.caught (.str (str "divide_by_zero")), .said 1, .fin 2]) := by
  rw [C65_fault _ 0xC0000094 (str "divide_by_zero") rfl]
  rfl

/-- A signal in the block of a `catch` for it: the handler is told of another one, `sig_segv`. -/
theorem C65_signal_name (junk : Nat → Msg × BitVec 32) (sig : BitVec 32) (n : Name) (m k : Nat) :
    Seh.run junk (.tryCatch (.raise sig n) (.one n) (.say m) k) =
      (.done, [.caught (.str (str "sig_segv")), .said m, .fin k]) := by
  have hf : table.find? (fun _ => true) = some ⟨some (str "sig_segv"), 0xC0000005⟩ := by decide +kernel
  have hm : panicCode.msb = true := by decide
  simp [Seh.run, exec, exThrow, Catch.filter, catchSeh, eqOpt, eqMsg, eqName_self, finish, S.setCtx, S.add, start, Ctx.err,
    State.thrown, hf, hm]

/-- Signals under `catch` for another name are lost. -/
theorem C65_signal_lost (junk : Nat → Msg × BitVec 32) (sig : BitVec 32) (n x : Name) (h : eqName n x = false) (m k : Nat) :
    Seh.run junk (.tryCatch (.raise sig n) (.one x) (.say m) k) = (.done, [.fin k]) := by
  simp [Seh.run, exec, exThrow, Catch.filter, catchSeh, eqOpt, h, finish, S.setCtx, S.add, start, State.thrown]

example : Seh.run zeros (.tryCatch (.raise 8 (str "sig_fpe")) (.one (str "sig_int")) (.say 1) 2) = (.done, [.fin 2]) :=
  C65_signal_lost _ _ _ _ (by decide +kernel) _ _

/-- An exception that the inner block is not for does not get to the
outer one. -/
theorem C65_lost (junk : Nat → Msg × BitVec 32) (e x : Name) (h : ¬ (e.length = 8 ∨ e <+: x ∨ str "panic" <+: x))
    (m1 k1 m2 k2 : Nat) :
    Seh.run junk (.tryCatch (.tryCatch (.throw e) (.one x) (.say m1) k1) .any (.say m2) k2) =
      (.done, [.fin k1, .fin k2]) := by
  have hp : (str "panic").length ≠ 8 := by decide +kernel
  have h1 : eqName e x = false := by
    rw [Bool.eq_false_iff]
    intro h'
    simp only [eqName, Bool.or_eq_true, beq_iff_eq, List.isPrefixOf_iff_prefix] at h'
    exact h (h'.elim .inl fun h' => .inr (.inl h'))
  have h2 : eqName (str "panic") x = false := by
    rw [Bool.eq_false_iff]
    intro h'
    simp only [eqName, Bool.or_eq_true, beq_iff_eq, List.isPrefixOf_iff_prefix] at h'
    exact h (h'.elim (fun h' => (hp h').elim) fun h' => .inr (.inr h'))
  simp [Seh.run, exec, exThrow, Catch.filter, catchSeh, eqOpt, eqMsg, h1, h2, finish, S.setCtx, S.add, start, State.thrown]

example : Seh.run zeros (.tryCatch (.tryCatch (.throw (str "logic_error")) (.one (str "range_error")) (.say 1) 2) .any (.say 3) 4) =
    (.done, [.fin 2, .fin 4]) :=
  C65_lost _ _ _ (by decide +kernel) _ _ _ _

theorem C65_full_false : ¬ C65_Full := by
  intro h
  have := h zeros (.tryCatch (.tryCatch (.throw (str "logic_error")) (.one (str "range_error")) (.say 1) 2) .any (.say 3) 4) rfl
  revert this
  unfold Meets
  decide +kernel

end Verif.Props
