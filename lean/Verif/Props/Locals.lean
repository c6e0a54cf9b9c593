import Verif.Proof.Locals
/-!
# C106: local variables in and after blocks

English: a handler, a `finally` part and the code after a block see every local variable with the value assigned to it last, whatever was thrown from wherever.
-/
namespace Verif.Props
open Verif Verif.Loc Verif.Loc.Spec

/-- The full statement. -/
def C106_Full : Prop := ∀ (d : Decl) (i : Nat → Int) (h : List Ev) (st : St), run d (init i) h = some st → ∀ x, st.env x = some (latest i h x)

private def plain : Decl := ⟨fun _ => false, fun _ => 0⟩

/-- False: `int n = 0; try { n = 1; throw(e); } catch_any { … n … }`. -/
theorem C106_full_false : ¬ C106_Full := fun h => by
  have := h plain (fun _ => 0) [.enter 0, .assign 0 1, .jump 0] _ rfl 0
  revert this
  decide

/-- What holds, exactly: a variable is indeterminate if it is not `volatile`, was changed in a block of its function before a throw came back there, and was not assigned since;
otherwise it has the value assigned last. -/
theorem C106_exact_partial (d : Decl) (i : Nat → Int) (h : List Ev) (st : St) (hr : run d (init i) h = some st) (x : Nat) :
    (Lost d h x → st.env x = none) ∧ (¬ Lost d h x → st.env x = some (latest i h x)) := by
  have v := inv_run h (inv_init d i) hr
  exact ⟨v.lost x, v.kept x⟩

/-- `volatile` is enough. -/
theorem C106_volatile (d : Decl) (i : Nat → Int) (h : List Ev) (st : St) (hr : run d (init i) h = some st) (x : Nat) (hx : d.vol x = true) :
    st.env x = some (latest i h x) :=
  (C106_exact_partial d i h st hr x).2 fun q => by rw [q.1] at hx; cases hx

/-- Without it, a variable is safe if it is assigned only while no block of its function is open, in particular if it is initialised and then left alone. -/
theorem C106_outside (d : Decl) (i : Nat → Int) (h : List Ev) (st : St) (hr : run d (init i) h = some st) (x : Nat)
    (hx : ∀ t v, h[t]? = some (.assign x v) → ∀ o ∈ opens 0 [] (h.take t), o.2 ≠ d.own x) : st.env x = some (latest i h x) := by
  refine (C106_exact_partial d i h st hr x).2 fun ⟨_, s, t, t', k, v, h1, h2, h3, h4, h5, _⟩ => ?_
  have hm := List.mem_of_getElem? h3
  have : (s, d.own x) ∈ opens 0 [] (h.take t) := by
    have hl : t' ≤ h.length := Nat.le_of_lt (lt_of_get h5)
    exact still_open h s (d.own x) t h1 t' (Nat.le_of_lt h2) hl hm
  exact hx t v h4 _ this rfl

/-- So is a variable of a function that calls the one with the block, even if it is assigned there through a pointer. -/
theorem C106_callers (d : Decl) (i : Nat → Int) (h : List Ev) (st : St) (hr : run d (init i) h = some st) (x : Nat) (hx : .enter (d.own x) ∉ h) :
    st.env x = some (latest i h x) := by
  refine C106_outside d i h st hr x fun t v _ o ho e => ?_
  have := opened h 0 [] (fun _ z => by cases z) t o ho
  rw [e] at this
  exact hx this

/-- Variables 1 (`volatile`) and 2, 3 of call 0; variable 4 of its caller 9.  A block in a block; the inner throw comes back to the outer block. -/
private def mixed : Decl := ⟨fun x => x = 1, fun x => if x = 4 then 9 else 0⟩
private def mixedRun : List Ev := [.assign 3 30, .enter 0, .assign 1 10, .assign 2 20, .enter 0, .assign 1 11, .assign 4 40, .jump 1]

example : (run mixed (init fun _ => 0) mixedRun).map (fun st => (List.range 5).map st.env) = some [some 0, some 11, none, some 30, some 40] := by decide

/-- Coming back to the inner block only, variable 2 is safe: it was changed before that was entered. -/
example : (run mixed (init fun _ => 0) [.enter 0, .assign 2 20, .enter 0, .assign 1 11, .jump 0]).map (fun st => (List.range 5).map st.env) =
    some [some 0, some 11, some 20, some 0, some 0] := by decide

/-- `thrd_raii_wrapper`, `src/future.c:70-91`: the function has returned `v`, which was assigned to `res` in the guarded section; a function it has deferred throws.  The value
the promise gets after the section is indeterminate, whatever `v` is. -/
theorem C106_worker (v : Int) : (run plain (init fun _ => 0) [.assign 0 0, .enter 0, .assign 0 v, .jump 0, .leave]).map (fun st => st.env 0) = some none := by
  simp [run, step, init, plain]

/-- If the function itself throws, it is the null pointer it was initialised with. -/
example : (run plain (init fun _ => 7) [.assign 0 0, .enter 0, .jump 0, .leave]).map (fun st => st.env 0) = some (some 0) := by decide

end Verif.Props
