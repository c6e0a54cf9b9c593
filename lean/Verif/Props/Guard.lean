import Verif.Proof.Guard
import Verif.Props.Search
/-!
# C32, C33, C52: guarded sections

Programs are those of `Verif.Model.Guard`; their meaning is `eval`.  `passes` bounds how often the text
of one block is looked at again after a jump; two suffice, and the theorems hold for any larger number.
-/
namespace Verif.Props
open Verif Verif.Gd
open Verif.Ex (Exn)

/-- A panic with this message. -/
def panic7 : Exn := ⟨1, 2, 3, 4, some 7⟩

/-! ## C32 -/

/-- C32 in full: whatever functions do with sections, deferrals and memory (`legal`; deferred functions
do not panic themselves; memory and recovery are not mixed, see C33), every section left runs its
deferrals once, newest first, and the surrounding section and handler are restored. -/
def C32_Full : Prop := ∀ (eq : Nat → Nat → Bool) (n : Nat) (s : Stmt), s.legal false false true = true →
  s.calm → s.unmixed = true → Meets (run eq (n + 2) s) (eval eq true (.call s))

/-- A section holding memory catches an exception in an inner `try` block, then defers 2. -/
def tryInside : Stmt :=
  .guard (.seq (.malloc 1) (.seq (.tryAny (.throw panic7) .skip) (.seq (.defer ⟨2, none, none⟩) (.mark 3))))

/-- `_return` out of a section inside another section of the same function. -/
def returnNested : Stmt :=
  .guard (.seq (.defer ⟨1, none, none⟩) (.guard (.seq (.defer ⟨2, none, none⟩) .greturn)))

/-- In `tryInside` the block is freed as soon as the exception is thrown, while the section still uses it,
and the function deferred afterwards is never called. -/
theorem C32_try_inside (eq : Nat → Nat → Bool) : (run eq 2 tryInside).st.trace = [.ran 1, .mark 3] ∧
    (eval eq true (.call tryInside)).t = [.mark 3, .ran 2, .ran 1] := ⟨rfl, by
  simp [tryInside, eval, D.ev]⟩

/-- In `returnNested` the outer section's function is never called, and its (dead) scope and handler stay
installed. -/
theorem C32_return_nested (eq : Nat → Nat → Bool) : (run eq 2 returnNested).st.trace = [.ran 2] ∧
    (run eq 2 returnNested).st.arena = some 1 ∧ (run eq 2 returnNested).st.guardOn = true ∧
    (run eq 2 returnNested).st.cur = 1 ∧
    (eval eq true (.call returnNested)).t = [.ran 2, .ran 1] := ⟨rfl, rfl, rfl, rfl, by
  simp [returnNested, eval, D.ev]⟩

/-- C32 in full is false, for either reason. -/
theorem C32_full_false : ¬ C32_Full := by
  intro h
  have h1 := (h (· == ·) 0 tryInside rfl ⟨trivial, ⟨trivial, trivial⟩, rfl, trivial⟩ rfl).1
  rw [(C32_try_inside _).1, (C32_try_inside _).2] at h1
  exact absurd h1 (by decide)

theorem C32_full_false_by_return : ¬ C32_Full := by
  intro h
  have h1 := (h (· == ·) 0 returnNested rfl ⟨rfl, rfl, trivial⟩ rfl).1
  rw [(C32_return_nested _).1, (C32_return_nested _).2.2.2.2] at h1
  exact absurd h1 (by decide)

/-- C32, proved part: a section is left by falling off its end, `break`, `_return` or a panic, sections
are nested in any way, within a function and across calls; then the thread performs exactly the actions the
program means — in particular each section's deferrals and frees, once, newest first — and ends
outside all sections.  Missing: `_return` crossing two sections or a `try` block of a function, and sections
that both hold memory and enter `try` blocks. -/
theorem C32_deferrals_partial (eq : Nat → Nat → Bool) (n : Nat) (s : Stmt) (hw : s.wf false false true = true)
    (hc : s.calm) (hs : s.separate = true) : Meets (run eq (n + 2) s) (eval eq false (.call s)) :=
  run_meets n s hw hc hs

example : (Stmt.guard (.seq (.defer ⟨1, none, none⟩) (.seq (.malloc 2) (.seq
    (.guard (.seq (.defer ⟨3, none, none⟩) .brk)) (.seq (.call (.guard (.seq (.malloc 4) .greturn))) (.throw panic7)))))).separate = true ∧
    (eval (· == ·) false (.guard (.seq (.defer ⟨1, none, none⟩) (.seq (.malloc 2) (.seq
    (.guard (.seq (.defer ⟨3, none, none⟩) .brk)) (.seq (.call (.guard (.seq (.malloc 4) .greturn))) (.throw panic7))))))).t
     = [.ran 3, .ran 4, .ran 2, .ran 1] := by decide

/-- C32, one section: whatever way its body ends, what it deferred runs right after, newest first. -/
theorem C32_section_partial (eq : Nat → Nat → Bool) (n : Nat) (body : Stmt)
    (hw : body.wf true true true = true) (hc : body.calm) (hs : (Stmt.guard body).separate = true) :
    (run eq (n + 2) (.guard body)).st.trace = (eval eq false body).t ++ (eval eq false body).ds.map D.ev :=
  (run_meets n (.guard body) hw hc hs).1

/-! ## C33 -/

/-- C33 in full: a panic stops at the section where a deferred function names its message, and at no other. -/
def C33_Full : Prop := ∀ (tbl : Table) (n : Nat) (s : Stmt), s.wf false false true = true → s.calm →
  s.separate = true → Meets (run (strEq tbl) (n + 2) s) (eval (sameStr tbl) true (.call s))

/-- The comparison `_recover` uses, on strings in memory: `is_str_eq` (`src/raii.c:742-744`). -/
theorem C33_strEq (m : Mem) (a b : Nat) (tbl : Table) (x y : Nat) (hx : CStr m a (tbl x)) (hy : CStr m b (tbl y))
    (fuel : Nat) (hf : (tbl x).length / 8 < fuel) :
    ∃ r, simdStrcmp m a b fuel = some r ∧ (r = 0 ↔ strEq tbl x y = true) := by
  obtain ⟨r, h1, h2⟩ := C02_strcmp_zero_exact m a b _ _ hx hy fuel hf
  exact ⟨r, h1, h2.trans (by simp [strEq])⟩

/-- A section that holds memory, defers a function recovering message 7, and panics with it. -/
def recoverWithMemory : Stmt := .guard (.seq (.malloc 1) (.seq (.defer ⟨2, some 7, none⟩) (.throw panic7)))

/-- The panic goes on: the process ends. -/
theorem C33_memory (tbl : Table) : ∃ st, run (strEq tbl) 2 recoverWithMemory = .dead panic7 st ∧
    st.trace = [.ran 2, .ran 1] := by
  have h := run_meets (eq := strEq tbl) 0 recoverWithMemory rfl ⟨trivial, rfl, trivial⟩ rfl
  have ht : (eval (strEq tbl) false (.call recoverWithMemory)).r = .thrown panic7 := by
    simp [recoverWithMemory, eval]
  have hr : (eval (strEq tbl) false (.call recoverWithMemory)).t = [.ran 2, .ran 1] := by
    simp [recoverWithMemory, eval, D.ev]
  rcases h.2.2.2.2 with h1 | ⟨e, h1, h2⟩
  · rw [ht] at h1; cases h1.1
  · rw [ht] at h1
    cases h1
    exact ⟨_, h2, h.1.trans hr⟩

theorem C33_full_false : ¬ C33_Full := by
  intro h
  have h1 := (h (fun _ => []) 0 recoverWithMemory rfl ⟨trivial, rfl, trivial⟩ rfl).2.2.2.2
  obtain ⟨st, h2, -⟩ := C33_memory (fun _ => [])
  have h2' : run (strEq fun _ => []) (0 + 2) recoverWithMemory = .dead panic7 st := h2
  rw [h2'] at h1
  rcases h1 with ⟨-, h1⟩ | ⟨e, h1, -⟩
  · cases h1
  · simp [recoverWithMemory, eval, recovered, sameStr, panic7] at h1

/-- A section deferring a function that names message 6, and panicking with message 7. -/
def recoverOther : Stmt := .guard (.seq (.defer ⟨2, some 6, none⟩) (.throw panic7))

/-- If message 6 has 8 bytes or is a prefix of message 7, that panic is recovered although its message
is another one. -/
theorem C33_wrong_message (tbl : Table) (h : (tbl 6).length = 8 ∨ tbl 6 <+: tbl 7) :
    ∃ st, run (strEq tbl) 2 recoverOther = .ok st := by
  have hm := run_meets (eq := strEq tbl) 0 recoverOther rfl ⟨rfl, trivial⟩ rfl
  have heq : strEq tbl 6 7 = true := by
    simpa [strEq] using h
  have hr : (eval (strEq tbl) false (.call recoverOther)).r = .done := by
    simp [recoverOther, eval, recovered, panic7, key, heq]
  rcases hm.2.2.2.2 with h1 | ⟨e, h1, h2⟩
  · exact ⟨_, h1.2⟩
  · rw [hr] at h1; cases h1

example : ∃ st, run (strEq fun n => if n = 6 then "overflow".toUTF8.toList else "out of memory".toUTF8.toList) 2 recoverOther = .ok st :=
  C33_wrong_message _ (.inl (by decide +kernel))

theorem C33_full_false_by_message : ¬ C33_Full := by
  intro h
  have h1 := (h (fun n => if n = 6 then [] else [1]) 0 recoverOther rfl ⟨rfl, trivial⟩ rfl).2.2.2.2
  obtain ⟨st, h2⟩ := C33_wrong_message (fun n => if n = 6 then [] else [1]) (.inr ⟨[1], rfl⟩)
  have h2' : run (strEq fun n => if n = 6 then [] else [1]) (0 + 2) recoverOther = .ok st := h2
  rw [h2'] at h1
  rcases h1 with ⟨h1, -⟩ | ⟨e, h1, h3⟩
  · simp [recoverOther, eval, recovered, sameStr, panic7, key] at h1
  · cases h3

/-- C33, proved part: if no section both holds memory and recovers, no message has 8 bytes and none is a
proper prefix of another, panics stop exactly where they are recovered.  Missing: the two cases above. -/
theorem C33_recover_partial (tbl : Table) (htbl : ∀ a b, (tbl a).length ≠ 8 ∧ (tbl a <+: tbl b → tbl a = tbl b))
    (n : Nat) (s : Stmt) (hw : s.wf false false true = true) (hc : s.calm) (hs : s.separate = true)
    (hu : s.unmixed = true) : Meets (run (strEq tbl) (n + 2) s) (eval (sameStr tbl) true (.call s)) := by
  rw [eval_unmixed (.call s) hu, ← strEq_same htbl]
  exact run_meets n s hw hc hs

example : (∀ a b : Nat, (if a = 7 then [1, 2] else [3, 4, 5] : List UInt8).length ≠ 8 ∧
    ((if a = 7 then [1, 2] else [3, 4, 5] : List UInt8) <+: (if b = 7 then [1, 2] else [3, 4, 5]) →
     (if a = 7 then [1, 2] else [3, 4, 5] : List UInt8) = (if b = 7 then [1, 2] else [3, 4, 5]))) := by
  intro a b
  by_cases ha : a = 7 <;> by_cases hb : b = 7 <;> simp [ha, hb]

/-- C33, one section holding no memory: it stops the panic iff a function it deferred names a string
`is_str_eq` to the message. -/
theorem C33_section_partial (eq : Nat → Nat → Bool) (n : Nat) (body : Stmt) (e : Exn)
    (hw : body.wf true true true = true) (hc : body.calm) (hs : (Stmt.guard body).separate = true)
    (hb : (eval eq false body).r = .thrown e) (hm : (eval eq false body).m = false) :
    (∃ st, run eq (n + 2) (.guard body) = .ok st) ↔
      ∃ d ∈ (eval eq false body).ds, ∃ m, d.recovers = some m ∧ eq m (key e) = true := by
  have h := run_meets (eq := eq) n (.guard body) hw hc hs
  have hrec : recovered eq (eval eq false body).ds e = true ↔
      ∃ d ∈ (eval eq false body).ds, ∃ m, d.recovers = some m ∧ eq m (key e) = true := by
    unfold recovered
    rw [List.any_eq_true]
    simp only [Option.any_eq_true]
  rw [← hrec]
  have hr : (eval eq false (.call (.guard body))).r =
      if recovered eq (eval eq false body).ds e = true then .done else .thrown e := by
    simp only [eval, hb, hm]
    cases recovered eq (eval eq false body).ds e <;> simp
  rcases h.2.2.2.2 with ⟨h1, h2⟩ | ⟨e', h1, h2⟩
  · rw [hr] at h1
    refine ⟨fun _ => ?_, fun _ => ⟨_, h2⟩⟩
    by_cases hx : recovered eq (eval eq false body).ds e = true
    · exact hx
    · rw [if_neg hx] at h1; cases h1
  · rw [hr] at h1
    refine ⟨fun ⟨st, hst⟩ => ?_, fun hx => ?_⟩
    · rw [h2] at hst; cases hst
    · rw [if_pos hx] at h1; cases h1

example : ∃ st, run (strEq fun _ => [1]) 2 (.guard (.seq (.defer ⟨2, some 7, none⟩) (.throw panic7))) = .ok st :=
  (C33_section_partial _ 0 (.seq (.defer ⟨2, some 7, none⟩) (.throw panic7)) panic7 rfl ⟨rfl, trivial⟩ rfl rfl rfl).2
    ⟨⟨2, some 7, none⟩, by simp [eval], 7, rfl, rfl⟩

/-! ## C52: a deferred function that panics -/

/-- The body of a section that defers the panicking function `d`. -/
def panicsOnExit (d : D) : Stmt := .guard (.defer d)

/-- C52 in full: if a deferred function panics, the section is still left. -/
def C52_Full : Prop := ∀ (eq : Nat → Nat → Bool) (d : D), ∃ n, ∀ st, run eq n (panicsOnExit d) ≠ .running st


/-- A section holding no memory whose deferred function panics is never left: the panic jumps back into
the section's own handler, which runs the same function again, for ever. -/
theorem C52_loops (eq : Nat → Nat → Bool) (d : D) (e : Exn) (hd : d.throws = some e) (hr : d.recovers = none)
    (n : Nat) : ∃ st, run eq n (panicsOnExit d) = .running st := by
  have h : Stuck d ((enterGuard start).setSc 1 { (enterGuard start).scopes 1 with defers := [d] }) :=
    ⟨rfl, rfl, rfl, rfl, rfl, rfl, rfl⟩
  obtain ⟨v, st', h1, h2, h3⟩ := h.free (eq := eq) hd hr
  subst h2
  obtain ⟨st'', h4⟩ := Stuck.loops (eq := eq) hd hr ⟨1, none, false⟩ rfl n st' h3
  refine ⟨st'', ?_⟩
  show (match exec eq n ⟨0, none, false⟩ (.guard (.defer d)) start with | .ret st => .ok st | o => o : Out) = _
  have : exec eq n ⟨0, none, false⟩ (.guard (.defer d)) start = .running st'' := by
    unfold exec
    dsimp only
    have : exec eq n ⟨start.fresh, start.arena, start.guardOn⟩ (.defer d) (enterGuard start) =
      .ok ((enterGuard start).setSc 1 { (enterGuard start).scopes 1 with defers := [d] }) := rfl
    rw [this]
    dsimp only [Out.andThen]
    have hj : deferredFree eq (throwE eq) 1 ((enterGuard start).setSc 1 { (enterGuard start).scopes 1 with defers := [d] }) = .jump 1 1 st' := by
      rw [h1]; exact congrArg (Out.jump 1 · st') (show (0 ||| 1 : Nat) = 1 by decide)
    have hs : start.fresh = 1 := rfl
    rw [hs, hj]
    exact h4
  rw [this]

theorem C52_full_false : ¬ C52_Full := by
  intro h
  obtain ⟨n, hn⟩ := h (· == ·) ⟨1, none, some panic7⟩
  obtain ⟨st, h1⟩ := C52_loops (· == ·) ⟨1, none, some panic7⟩ panic7 rfl rfl n
  exact hn st h1

/-- C52, proved part: if no deferred function panics every program ends (and as C32 says).  Missing: any
guarantee when one does. -/
theorem C52_terminates_partial (eq : Nat → Nat → Bool) (n : Nat) (s : Stmt) (hw : s.wf false false true = true)
    (hc : s.calm) (hs : s.separate = true) : ∀ st, run eq (n + 2) s ≠ .running st := by
  intro st h
  have hm := (run_meets (eq := eq) n s hw hc hs).2.2.2.2
  rw [h] at hm
  rcases hm with ⟨-, h1⟩ | ⟨e, -, h1⟩ <;> cases h1

/-- With memory in the section the process ends instead: the panic releases the scope, which runs the
function again, whose panic finds the unwinding in progress. -/
theorem C52_memory (eq : Nat → Nat → Bool) (n : Nat) : ∃ st,
    run eq n (.guard (.seq (.malloc 1) (.defer ⟨2, none, some panic7⟩))) = .dead panic7 st ∧ st.trace = [.ran 2, .ran 2] := by
  cases n with
  | zero => exact ⟨_, rfl, rfl⟩
  | succ n => exact ⟨_, rfl, rfl⟩

end Verif.Props
