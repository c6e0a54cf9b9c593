/-!
# Local variables and blocks

`ex_try` (`include/exception.h:220-235, 297-312`), and with it `try` and `guard` (`include/raii.h:531-544, 606`), saves the place with `setjmp`; a throw comes back to it with `longjmp`
(`src/except.c`, `ex_throw`).  C (7.13.2.1) leaves a local variable of the function that called `setjmp` indeterminate if it is not `volatile` and was changed in between.  The macros do nothing
about that.

Modelled: what a thread does with the variables of its functions, whatever it does else.  Which block a throw comes back to is C29; here the jump names it.  Simplified: a variable
that is assigned counts as changed even if the value is the same; fields of structures are variables.
-/
namespace Verif.Loc

/-- How a variable was declared: `volatile` or not, and in which call of a function. -/
structure Decl where
  vol : Nat → Bool
  own : Nat → Nat

inductive Ev
  /-- A call `f` of a function enters a block: `setjmp` returns 0. -/
  | enter (f : Nat)
  /-- The innermost block is left. -/
  | leave
  /-- A variable is assigned, by its function or through a pointer. -/
  | assign (x : Nat) (v : Int)
  /-- `longjmp` to the block with `k` open blocks inside; it is still open, until its `finally` or its end. -/
  | jump (k : Nat)
deriving DecidableEq

/-- An open block: the call that has entered it, the variables changed since. -/
structure Frame where
  f : Nat
  dirty : List Nat

/-- `none`: indeterminate. -/
structure St where
  env : Nat → Option Int
  stk : List Frame

def init (v : Nat → Int) : St := ⟨fun x => some (v x), []⟩

/-- `none`: there is no such block. -/
def step (d : Decl) (st : St) : Ev → Option St
  | .enter f => some { st with stk := ⟨f, []⟩ :: st.stk }
  | .leave => match st.stk with
    | [] => none
    | _ :: r => some { st with stk := r }
  | .assign x v => some ⟨fun y => if y = x then some v else st.env y, st.stk.map fun b => { b with dirty := x :: b.dirty }⟩
  | .jump k => match st.stk.drop k with
    | [] => none
    | b :: r => some ⟨fun x => if d.vol x = false ∧ d.own x = b.f ∧ x ∈ b.dirty then none else st.env x, b :: r⟩

def run (d : Decl) (st : St) : List Ev → Option St
  | [] => some st
  | e :: r => (step d st e).bind fun st => run d st r

end Verif.Loc
