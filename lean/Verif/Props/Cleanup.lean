import Verif.Spec.Cleanup
/-!
# C95 — clean-up routines

The routine given to `pthread_cleanup_push` runs when the matching `pthread_cleanup_pop` is reached with an argument other than 0, or when the thread exits before; then all that
are pushed run, the last first.  None runs otherwise, none runs twice.
-/
namespace Verif.Props
open Verif Verif.Cu

/-- **C95**, full: the three implementations, for programs that POSIX defines. -/
def C95_Full : Prop := ∀ p : Prog, p.ok = true → runSeh p = posix p [] ∧ runCxx p = posix p [] ∧ runC p = posix p []

/-- Which tests an implementation needs to get right: for the arguments that occur in `p`. -/
def Right (test : Exec → Bool → Bool) : Prog → Prop
  | .seq p q => Right test p ∧ Right test q
  | .cleanup _ e body => test e false = e.value ∧ test e true = true ∧ Right test body
  | .call p => Right test p
  | _ => True

theorem leaves_out (p : Prog) (hl : p.leaves = false) (pushed : List Nat) : (posix p pushed).2 ≠ .leave := by
  induction p generalizing pushed with
  | act n => simp [posix]
  | seq p q ihp ihq =>
    simp only [Prog.leaves, Bool.or_eq_false_iff] at hl
    have h1 := ihp hl.1 pushed
    simp only [posix]
    rcases h : posix p pushed with ⟨t, o⟩
    rw [h] at h1
    cases o with
    | normal => exact ihq hl.2 pushed
    | exit => simp
    | leave => exact absurd rfl h1
  | cleanup r e body ih =>
    have h1 := ih hl (r :: pushed)
    simp only [posix]
    rcases h : posix body (r :: pushed) with ⟨t, o⟩
    rw [h] at h1
    cases o with
    | normal => simp
    | exit => simp
    | leave => exact absurd rfl h1
  | exit => simp [posix]
  | leave => simp [Prog.leaves] at hl
  | call p ih =>
    simp only [posix]
    rcases h : posix p pushed with ⟨t, o⟩
    cases o <;> simp

/-- A structured implementation runs on exit what is pushed inside; POSIX's semantics what is pushed outside as well. -/
theorem structured_eq (test : Exec → Bool → Bool) (p : Prog) (hok : p.ok = true) (hr : Right test p) (pushed : List Nat) :
    posix p pushed = ((structured test p).1 ++ (if (structured test p).2 = .exit then pushed.map .ran else []), (structured test p).2) := by
  induction p generalizing pushed with
  | act n => simp [posix, structured]
  | seq p q ihp ihq =>
    simp only [Prog.ok, Bool.and_eq_true] at hok
    have h1 := ihp hok.1 hr.1 pushed
    have h2 := ihq hok.2 hr.2 pushed
    simp only [posix, structured]
    obtain ⟨t, o, h⟩ : ∃ t o, structured test p = (t, o) := ⟨_, _, rfl⟩
    rw [h] at h1
    simp only [h]
    rw [h1]
    cases o with
    | normal => simp [h2]
    | exit => simp
    | leave => simp
  | cleanup r e body ih =>
    simp only [Prog.ok, Bool.and_eq_true, Bool.not_eq_true'] at hok
    have h1 := ih hok.1 hr.2.2 (r :: pushed)
    have hl := leaves_out body hok.2 (r :: pushed)
    simp only [posix, structured]
    obtain ⟨t, o, h⟩ : ∃ t o, structured test body = (t, o) := ⟨_, _, rfl⟩
    rw [h] at h1
    simp only [h]
    rw [h1] at hl ⊢
    cases o with
    | normal =>
      simp [hr.1]
    | exit =>
      have e1 : ((Out.exit : Out) != .normal) = true := by decide
      simp [e1, hr.2.1]
    | leave => exact absurd rfl hl
  | exit => simp [posix, structured]
  | leave => simp [posix, structured]
  | call p ih =>
    have h1 := ih hok hr pushed
    simp only [posix, structured]
    obtain ⟨t, o, h⟩ : ∃ t o, structured test p = (t, o) := ⟨_, _, rfl⟩
    rw [h] at h1
    simp only [h]
    rw [h1]
    cases o <;> simp

theorem right_cxx (p : Prog) : Right cxxTest p := by
  induction p with
  | act n => trivial
  | seq p q ihp ihq => exact ⟨ihp, ihq⟩
  | cleanup r e body ih => exact ⟨rfl, rfl, ih⟩
  | exit => trivial
  | leave => trivial
  | call p ih => exact ih

theorem right_seh (p : Prog) (h : p.plain = true) : Right sehTest p := by
  induction p with
  | act n => trivial
  | seq p q ihp ihq =>
    simp only [Prog.plain, Bool.and_eq_true] at h
    exact ⟨ihp h.1, ihq h.2⟩
  | cleanup r e body ih =>
    simp only [Prog.plain, Bool.and_eq_true] at h
    refine ⟨?_, ?_, ih h.2⟩
    · cases e <;> simp [sehTest, Exec.value]
    · cases e with
      | val b => simp [sehTest]
      | cond a b c =>
        have := h.1
        simp only [Exec.plain] at this
        cases a <;> cases b <;> simp_all [sehTest]
  | exit => trivial
  | leave => trivial
  | call p ih => exact ih h

/-- **C95**, in C++: all programs that POSIX defines. -/
theorem C95_cxx (p : Prog) (hok : p.ok = true) : runCxx p = posix p [] := by
  rw [structured_eq cxxTest p hok (right_cxx p) []]
  simp [runCxx]

/-- **C95**, with SEH: if the arguments of `pthread_cleanup_pop` need no parentheses.  Missing: arguments `a ? b : c` where `b` is 0 (`C95_seh_cond`). -/
theorem C95_seh_partial (p : Prog) (hok : p.ok = true) (hp : p.plain = true) : runSeh p = posix p [] := by
  rw [structured_eq sehTest p hok (right_seh p hp) []]
  simp [runSeh]

/-- **C95**, with SEH, if the thread does not exit: all arguments of `pthread_cleanup_pop`. -/
theorem C95_seh_straight (p : Prog) (h : p.straight = true) : runSeh p = posix p [] ∧ (runSeh p).2 = .normal := by
  have key : ∀ pushed, structured sehTest p = posix p pushed ∧ (structured sehTest p).2 = .normal := by
    induction p with
    | act n => intro _; exact ⟨rfl, rfl⟩
    | seq p q ihp ihq =>
      intro pushed
      simp only [Prog.straight, Bool.and_eq_true] at h
      obtain ⟨a1, a2⟩ := ihp h.1 pushed
      obtain ⟨b1, b2⟩ := ihq h.2 pushed
      simp only [structured, posix, ← a1, ← b1]
      obtain ⟨t, o, e⟩ : ∃ t o, structured sehTest p = (t, o) := ⟨_, _, rfl⟩
      rw [e] at a2
      dsimp only at a2
      subst a2
      simp only [e]
      exact ⟨trivial, b2⟩
    | cleanup r e body ih =>
      intro pushed
      obtain ⟨a1, a2⟩ := ih h (r :: pushed)
      simp only [structured, posix, ← a1]
      obtain ⟨t, o, e'⟩ : ∃ t o, structured sehTest body = (t, o) := ⟨_, _, rfl⟩
      rw [e'] at a2
      dsimp only at a2
      subst a2
      simp only [e']
      refine ⟨?_, trivial⟩
      cases e with
      | val b => cases b <;> simp [sehTest, Exec.value]
      | cond a b c => cases a <;> cases b <;> cases c <;> simp [sehTest, Exec.value]
    | exit => simp [Prog.straight] at h
    | leave => simp [Prog.straight] at h
    | call p ih =>
      intro pushed
      obtain ⟨a1, a2⟩ := ih h pushed
      simp only [structured, posix, ← a1]
      obtain ⟨t, o, e⟩ : ∃ t o, structured sehTest p = (t, o) := ⟨_, _, rfl⟩
      rw [e] at a2
      dsimp only at a2
      subst a2
      simp only [e]
      exact ⟨by simp, by simp⟩
  exact key []

example : runSeh (.cleanup 1 (.cond true true false) (.cleanup 2 (.cond true false true) (.act 7))) = ([.act 7, .ran 1], .normal) := by decide

theorem bury_all (pushed : List Nat) : bury pushed.length (pushed.map .live) = pushed.map .live := by
  simp [bury]

/-- In C the list holds what is pushed. -/
theorem inC_eq (p : Prog) (hok : p.ok = true) (pushed : List Nat) :
    (inC p (pushed.map .live)).1 = (posix p pushed).1 ∧ (inC p (pushed.map .live)).2.1 = (posix p pushed).2 ∧
    ((posix p pushed).2 ≠ .exit → (inC p (pushed.map .live)).2.2 = pushed.map .live) := by
  induction p generalizing pushed with
  | act n => exact ⟨rfl, rfl, fun _ => rfl⟩
  | seq p q ihp ihq =>
    simp only [Prog.ok, Bool.and_eq_true] at hok
    obtain ⟨a1, a2, a3⟩ := ihp hok.1 pushed
    obtain ⟨b1, b2, b3⟩ := ihq hok.2 pushed
    simp only [inC, posix]
    rcases h : inC p (pushed.map .live) with ⟨t, o, l⟩
    rcases h' : posix p pushed with ⟨t', o'⟩
    rw [h, h'] at a1 a2 a3
    dsimp only at a1 a2 a3
    subst a1 a2
    cases o with
    | normal =>
      have e := a3 (by decide)
      subst e
      exact ⟨by simp [b1], b2, b3⟩
    | exit => exact ⟨rfl, rfl, fun hh => absurd rfl hh⟩
    | leave => exact ⟨rfl, rfl, a3⟩
  | cleanup r e body ih =>
    simp only [Prog.ok, Bool.and_eq_true, Bool.not_eq_true'] at hok
    obtain ⟨a1, a2, a3⟩ := ih hok.1 (r :: pushed)
    have hl := leaves_out body hok.2 (r :: pushed)
    simp only [inC, posix]
    rw [List.map_cons] at a1 a2 a3
    rcases h : inC body (.live r :: pushed.map .live) with ⟨t, o, l⟩
    rcases h' : posix body (r :: pushed) with ⟨t', o'⟩
    rw [h, h'] at a1 a2 a3
    rw [h'] at hl
    dsimp only at a1 a2 a3 hl
    subst a1 a2
    cases o with
    | normal =>
      have e := a3 (by decide)
      subst e
      exact ⟨rfl, rfl, fun _ => rfl⟩
    | exit => exact ⟨rfl, rfl, fun hh => absurd rfl hh⟩
    | leave => exact absurd rfl hl
  | exit =>
    refine ⟨?_, rfl, fun hh => absurd rfl hh⟩
    simp [inC, posix, Entry.run, Function.comp_def]
  | leave => exact ⟨rfl, rfl, fun _ => rfl⟩
  | call p ih =>
    obtain ⟨a1, a2, a3⟩ := ih hok pushed
    simp only [inC, posix]
    rcases h : inC p (pushed.map .live) with ⟨t, o, l⟩
    rcases h' : posix p pushed with ⟨t', o'⟩
    rw [h, h'] at a1 a2 a3
    dsimp only at a1 a2 a3
    subst a1 a2
    cases o with
    | normal =>
      have e := a3 (by decide)
      subst e
      exact ⟨rfl, rfl, fun _ => by simpa using bury_all pushed⟩
    | exit => exact ⟨rfl, rfl, fun hh => absurd rfl hh⟩
    | leave =>
      have e := a3 (by decide)
      subst e
      exact ⟨rfl, rfl, fun _ => by simpa using bury_all pushed⟩

/-- **C95**, in C: all programs that POSIX defines. -/
theorem C95_c (p : Prog) (hok : p.ok = true) : runC p = posix p [] := by
  obtain ⟨h1, h2, -⟩ := inC_eq p hok []
  exact Prod.ext h1 h2

/-- Two blocks, one inside the other, the inner one popped; then the thread exits inside a function. -/
def cleanupDemo : Prog :=
  .cleanup 1 (.val false) (.seq (.cleanup 2 (.val true) (.act 10)) (.seq (.cleanup 3 (.val false) (.act 11)) (.call (.cleanup 4 (.val false) (.seq .exit (.act 12))))))

example : cleanupDemo.ok = true ∧ cleanupDemo.plain = true ∧ posix cleanupDemo [] = ([.act 10, .ran 2, .act 11, .ran 4, .ran 1], .exit) ∧
    runC cleanupDemo = ([.act 10, .ran 2, .act 11, .ran 4, .ran 1], .exit) := by decide

/-- How often routine `r` runs. -/
def runs (r : Nat) (t : List Event) : Nat := t.count (.ran r)

/-- How often it is pushed in the program. -/
def pushedIn (r : Nat) : Prog → Nat
  | .seq p q => pushedIn r p + pushedIn r q
  | .cleanup r' _ body => (if r' = r then 1 else 0) + pushedIn r body
  | .call p => pushedIn r p
  | _ => 0

/-- POSIX's semantics does what the English says, besides: no routine runs more often than it is pushed. -/
theorem C95_once (p : Prog) (r : Nat) (pushed : List Nat) :
    Props.runs r (posix p pushed).1 ≤ pushedIn r p + pushed.count r ∧
    ((posix p pushed).2 ≠ .exit → Props.runs r (posix p pushed).1 ≤ pushedIn r p) := by
  induction p generalizing pushed with
  | act n => simp [posix, Props.runs, pushedIn]
  | seq p q ihp ihq =>
    have h1 := ihp pushed
    have h2 := ihq pushed
    simp only [posix, pushedIn, Props.runs] at *
    rcases h : posix p pushed with ⟨t, o⟩
    rw [h] at h1
    cases o with
    | normal =>
      have h1 := h1.2 (by simp)
      dsimp only at h1 h2 ⊢
      rw [List.count_append]
      exact ⟨by omega, fun hh => by have := h2.2 hh; omega⟩
    | exit => exact ⟨by have := h1.1; dsimp only at this ⊢; omega, fun hh => absurd rfl hh⟩
    | leave => exact ⟨by have := h1.1; dsimp only at this ⊢; omega, fun hh => by have := h1.2 hh; dsimp only at this ⊢; omega⟩
  | cleanup r' e body ih =>
    have h1 := ih (r' :: pushed)
    simp only [posix, pushedIn, Props.runs] at *
    rcases h : posix body (r' :: pushed) with ⟨t, o⟩
    rw [h] at h1
    have hc : (r' :: pushed).count r = pushed.count r + if r' = r then 1 else 0 := by
      rw [List.count_cons]
      simp
    cases o with
    | normal =>
      have h1 := h1.2 (by simp)
      have he : List.count (Event.ran r) (if e.value = true then [.ran r'] else []) ≤ if r' = r then 1 else 0 := by
        cases e.value
        · simp
        · by_cases hr : r' = r
          · simp [hr]
          · simp [hr]
      dsimp only at h1 ⊢
      rw [List.count_append]
      exact ⟨by omega, fun _ => by omega⟩
    | exit => exact ⟨by have := h1.1; dsimp only at this ⊢; omega, fun hh => absurd rfl hh⟩
    | leave => exact ⟨by have := h1.2 (by simp); dsimp only at this ⊢; omega, fun _ => by have := h1.2 (by simp); dsimp only at this ⊢; omega⟩
  | exit =>
    simp only [posix, pushedIn, Props.runs]
    refine ⟨?_, fun hh => absurd rfl hh⟩
    have : (pushed.map Event.ran).count (.ran r) = pushed.count r := by
      induction pushed with
      | nil => rfl
      | cons a l ih => rw [List.map_cons, List.count_cons, List.count_cons, ih]; simp
    omega
  | leave => simp [posix, Props.runs]
  | call p ih =>
    have h1 := ih pushed
    simp only [posix, pushedIn, Props.runs] at *
    rcases h : posix p pushed with ⟨t, o⟩
    rw [h] at h1
    cases o with
    | normal => exact ⟨h1.1, h1.2⟩
    | exit => exact ⟨h1.1, fun hh => absurd rfl hh⟩
    | leave => exact ⟨h1.1, fun _ => h1.2 (by simp)⟩

/-- The thread's exit runs all that are pushed, the last first, whatever the blocks. -/
theorem C95_exit (rs : List Nat) (e : Exec) :
    posix (rs.foldr (fun r p => .cleanup r e p) .exit) [] = (rs.reverse.map .ran, .exit) := by
  have : ∀ (rs pushed : List Nat), posix (rs.foldr (fun r p => .cleanup r e p) .exit) pushed = ((rs.reverse ++ pushed).map .ran, .exit) := by
    intro rs
    induction rs with
    | nil => intro pushed; rfl
    | cons r rs ih =>
      intro pushed
      rw [List.foldr_cons, posix, ih]
      simp
  simpa using this rs []

/-- With SEH, if the argument is `a ? b : c`, a routine may not run although the thread exits. -/
theorem C95_seh_cond (r : Nat) (c : Bool) : runSeh (.cleanup r (.cond true false c) .exit) = ([], .exit) ∧
    posix (.cleanup r (.cond true false c) .exit) [] = ([.ran r], .exit) := by
  constructor
  · simp [runSeh, structured, sehTest]
  · simp [posix]

theorem C95_full_false : ¬ C95_Full := by
  intro h
  have := (h (.cleanup 0 (.cond true false false) .exit) (by decide)).1
  exact absurd this (by decide)

/-- Leaving a block by `return`, by a jump or by an exception, which POSIX does not define: SEH and C++ run the routine, ... -/
theorem C95_leave (r : Nat) (b : Bool) (p : Prog) (h : (structured sehTest p).2 = .leave) (h' : (structured cxxTest p).2 = .leave) :
    (runSeh (.cleanup r (.val b) p)).1 = (structured sehTest p).1 ++ [.ran r] ∧ (runCxx (.cleanup r (.val b) p)).1 = (structured cxxTest p).1 ++ [.ran r] := by
  constructor
  · have e : ((structured sehTest p).2 != .normal) = true := by rw [h]; decide
    simp [runSeh, structured, e, sehTest]
  · have e : ((structured cxxTest p).2 != .normal) = true := by rw [h']; decide
    simp [runCxx, structured, e, cxxTest]

example : (structured sehTest (.seq (.act 1) .leave)).2 = .leave ∧ (structured cxxTest (.seq (.act 1) .leave)).2 = .leave := by decide

/-- ... in C the entry stays in the list: the next `pthread_cleanup_pop` of the caller finds it in place of the caller's, whose routine does not run. -/
theorem C95_c_leave (r r' : Nat) (b : Bool) :
    runC (.cleanup r (.val true) (.call (.cleanup r' (.val b) .leave))) = ([.wild], .normal) ∧
    runCxx (.cleanup r (.val true) (.call (.cleanup r' (.val b) .leave))) = ([.ran r', .ran r], .normal) := by
  constructor
  · rfl
  · simp [runCxx, structured, cxxTest, Exec.value]

end Verif.Props
