import Verif.Proof.ExceptTls
import Verif.Proof.TlsPair
/-!
# C85: exceptions where thread-local storage is emulated
-/
namespace Verif.Props
open Verif Verif.Ex

/-- C85 in full: built for compilers without thread-local storage, a program performs the actions it means, and ends by an exception exactly when it throws
one no block handles; a thread that asks for its scope or its context gets a scope or a context, always its own, whatever keys existed before. -/
def C85_Full : Prop :=
  (∀ (w : World) (raii : Bool) (n : Nat) (s : Stmt), w.emulated = true → (∀ f x, w.relThrows f x = false) → s.wf false false = true →
    marks (exec w (n + 2) 0 s (start raii)).st.trace = (eval none s).1 ∧
    ((eval none s).2 = .done → ∃ st, exec w (n + 2) 0 s (start raii) = .ok st)) ∧
  ∀ (keys : Nat) (held : Nat → Nat → Option Nat) (h : List (Nat × Et.Op)), 
    (∀ x ∈ ((Et.start keys held).run h).2, Et.Right x.2.1 x.2.2) ∧ Et.Own ((Et.start keys held).run h).2

/-- A world with emulated thread-local storage. -/
def tccWorld : World := ⟨fun _ => rootCtx false, false, fun _ _ => false, true⟩

/-- `try { throw(E); } catch_any { 1; } end_try; 2;`. -/
def caughtProgram (e : Exn) : Stmt := .seq (.tryCatch (.throw e) (.cons .any (.mark 1) .nil)) (.mark 2)

/-- C85, refuted by every program that catches an exception: neither the handler nor what follows runs. -/
theorem C85_catch_false (raii : Bool) (n : Nat) (e : Exn) :
    eval none (caughtProgram e) = ([1, 2], .done) ∧ ∃ st, exec tccWorld (n + 1) 0 (caughtProgram e) (start raii) = .dead e st ∧ marks st.trace = [] := by
  refine ⟨rfl, ?_⟩
  obtain ⟨st', h1, h2⟩ := exec_up (w := tccWorld) rfl n (caughtProgram e) false 0 (start raii) rfl Nat.zero_lt_one rfl
  exact ⟨st', h2, h1⟩

theorem C85_full_false : ¬ C85_Full := by
  intro h
  obtain ⟨st, hs⟩ := (h.1 tccWorld false 0 (caughtProgram ⟨7, 0, 0, 0, none⟩) rfl (fun _ _ => rfl) rfl).2 rfl
  obtain ⟨_, st', h1, _⟩ := C85_catch_false false 1 ⟨7, 0, 0, 0, none⟩
  rw [hs] at h1; cases h1

/-- C85, refuted in general: in such a build every program ends with the first exception it throws, inside or outside a `try` block: it performs the
actions before that, and no handler, no `finally` part and nothing after the block runs. -/
theorem C85_first_throw_ends (w : World) (hw : w.emulated = true) (raii : Bool) (n : Nat) (s : Stmt) (hs : s.wf false false = true) (e : Exn)
    (he : (upTo s).2 = .thrown e) :
    ∃ st, exec w (n + 1) 0 s (start raii) = .dead e st ∧ marks st.trace = (upTo s).1 := by
  obtain ⟨st', h1, h2⟩ := exec_up hw n s false 0 (start raii) hs Nat.zero_lt_one rfl
  rw [he] at h2
  exact ⟨st', h2, h1⟩

/-- Not vacuous: `3; try { call { 1; throw(E); } } catch_any { 4; } finally { 5; } end_try; 6;` ends after 3 and 1. -/
example : let s : Stmt := .seq (.mark 3) (.seq (.tryFinally (.call (.seq (.mark 1) (.throw ⟨7, 0, 0, 0, none⟩))) (.cons .any (.mark 4) .nil) (.mark 5)) (.mark 6))
    s.wf false false = true ∧ upTo s = ([3, 1], .thrown ⟨7, 0, 0, 0, none⟩) ∧ eval none s = ([3, 1, 4, 5, 6], .done) := by decide

/-- C85, partial: a program that throws nothing performs its actions and comes to its end.  Missing: programs that throw, for which it is false. -/
theorem C85_no_throw_partial (w : World) (hw : w.emulated = true) (raii : Bool) (n : Nat) (s : Stmt) (hs : s.wf false false = true)
    (hn : ∀ e, (upTo s).2 ≠ .thrown e) :
    ∃ st, exec w (n + 1) 0 s (start raii) = .ok st ∧ marks st.trace = (eval none s).1 := by
  obtain ⟨st', h1, h2⟩ := exec_up hw n s false 0 (start raii) hs Nat.zero_lt_one rfl
  have hr := up_ne_returned s false hs
  have hd : (upTo s).2 = .done := by
    cases h : (upTo s).2 with
    | done => rfl
    | thrown e => exact absurd h (hn e)
    | returned => exact absurd h hr
  rw [hd] at h2
  exact ⟨st', h2.1, by rw [h1, upTo_eval s none hn (wf_true s false hs)]; rfl⟩

/-- Not vacuous: the body of a block does not throw. -/
example : let s : Stmt := .seq (.tryFinally (.call (.seq (.mark 1) .ret)) (.cons .any (.mark 4) .nil) (.mark 5)) (.mark 6)
    s.wf false false = true ∧ (∀ e, (upTo s).2 ≠ .thrown e) ∧ (eval none s).1 = [1, 5, 6] :=
  ⟨rfl, nofun, rfl⟩

/-- C85, refuted: whatever a program with one thread does, if no key existed before, its scope and its exception context are the same object: the second
variable's key is never made, and the first one's is taken for it.  Inside a `try` block the thread's scope is the block's context. -/
theorem C85_same_object (held : Nat → Nat → Option Nat) (h : List Et.Op) :
    let s := ((Et.start 0 held).run (h.map fun o => (0, o))).1
    s.raiiLocal 0 = s.exLocal 0 := by
  exact (Et.Same.run h (Et.start_same held) (fun h => absurd rfl h)).eq 0

/-- Not vacuous: the program uses its scope, and in a `try` block again. -/
example : ((Et.start 0 fun _ _ => none).run [(0, .scope), (0, .context), (0, .enter), (0, .scope)]).2 =
    [(0, .scope, some (.scope 0)), (0, .context, some (.scope 0)), (0, .enter, some (.scope 0)), (0, .scope, some (.frame 1))] := by decide

theorem C85_objects_false : ¬ ∀ (keys : Nat) (held : Nat → Nat → Option Nat) (h : List (Nat × Et.Op)),
    ∀ x ∈ ((Et.start keys held).run h).2, Et.Right x.2.1 x.2.2 := by
  intro h
  have := h 0 (fun _ _ => none) [(0, .scope), (0, .context)] (0, .context, some (.scope 0)) (by decide)
  exact this

/-- C85, refuted: what another library keeps under key 0 is taken for the thread's scope. -/
theorem C85_foreign_false (keys : Nat) (hk : 0 < keys) (held : Nat → Nat → Option Nat) (t n : Nat) (h0 : held t 0 = some n) :
    ((Et.start keys held).run [(t, .scope)]).2 = [(t, .scope, some (.foreign n))] := by
  have : (Et.start keys held).raiiLocal t = some (.foreign n) := by
    show (if 0 < keys then (if 0 < keys then (held t 0).map Et.Obj.foreign else none) else none) = _
    rw [if_pos hk, if_pos hk, h0]; rfl
  simp only [Et.St.run, Et.St.step, Et.St.raiiInit, this]

/-- C85, partial: if something else has taken key 0 and keeps NULL there, each thread gets scopes and contexts, always its own, for all histories of all threads.
Missing: all other programs. -/
theorem C85_objects_partial (keys : Nat) (hk : 0 < keys) (held : Nat → Nat → Option Nat) (h0 : ∀ t, held t 0 = none) (h : List (Nat × Et.Op)) :
    (∀ x ∈ ((Et.start keys held).run h).2, Et.Right x.2.1 x.2.2) ∧ Et.Own ((Et.start keys held).run h).2 :=
  ⟨Et.Sep.run h (Et.start_sep keys hk held h0), Et.run_own h (Et.start_sep keys hk held h0) (Et.start_apart keys held h0)⟩

/-- Not vacuous. -/
example : ((Et.start 1 fun _ _ => none).run [(0, .scope), (0, .context), (0, .enter), (1, .enter), (0, .scope)]).2 =
    [(0, .scope, some (.scope 0)), (0, .context, some (.ctx 1)), (0, .enter, some (.ctx 1)), (1, .enter, some (.ctx 3)), (0, .scope, some (.scope 0))] := by decide

end Verif.Props
