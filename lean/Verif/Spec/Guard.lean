import Verif.Model.Guard
/-!
# What guarded sections mean

Exceptions and deferrals as values: no contexts, no jumps, no scopes.
-/
namespace Verif.Gd
open Verif.Ex (Exn)

/-- How a statement ends. -/
inductive Res
  | done
  | broke
  | returned
  | thrown (e : Exn)
  deriving DecidableEq

/-- What a statement amounts to: the observable actions, the deferrals it registered with the
surrounding section (newest first), whether it obtained memory from it, and how it ends. -/
structure R where
  t : List Ev
  ds : List D
  m : Bool
  r : Res
  deriving DecidableEq

def D.ev (d : D) : Ev := .ran d.id

/-- Some deferred function asks to recover this exception: it names the exception's message.  `eq` says
which strings count as the same. -/
def recovered (eq : Nat → Nat → Bool) (ds : List D) (e : Exn) : Bool :=
  ds.any fun d => d.recovers.any fun m => eq m (key e)

/-- The meaning of programs.  Leaving a section runs its deferrals, newest first, whatever the reason;
a panic stops there if one of them recovers it.  With `ideal = false`, not if the section holds memory. -/
def eval (eq : Nat → Nat → Bool) (ideal : Bool) : Stmt → R
  | .skip => ⟨[], [], false, .done⟩
  | .mark n => ⟨[.mark n], [], false, .done⟩
  | .seq a b =>
    let x := eval eq ideal a
    if x.r = .done then
      let y := eval eq ideal b
      ⟨x.t ++ y.t, y.ds ++ x.ds, x.m || y.m, y.r⟩
    else x
  | .throw e => ⟨[], [], false, .thrown e⟩
  | .call s =>
    let x := eval eq ideal s
    ⟨x.t, [], false, if x.r = .returned then .done else x.r⟩
  | .tryAny body h =>
    let x := eval eq ideal body
    match x.r with
    | .thrown _ =>
      let y := eval eq ideal h
      ⟨x.t ++ y.t, y.ds ++ x.ds, x.m || y.m, y.r⟩
    | _ => x
  | .guard body =>
    let x := eval eq ideal body
    ⟨x.t ++ x.ds.map D.ev, [], false,
      match x.r with
      | .done | .broke => .done
      | .returned => .returned
      | .thrown e => if recovered eq x.ds e && (ideal || !x.m) then .done else .thrown e⟩
  | .defer d => ⟨[], [d], false, .done⟩
  | .malloc p => ⟨[], [⟨p, none, none⟩], true, .done⟩
  | .brk => ⟨[], [], false, .broke⟩
  | .greturn => ⟨[], [], false, .returned⟩

/-- Programs as the macros require them.  `g`: inside a section; `b`: `break` leaves that section
(no `try` in between); `r`: `_return` leaves no block of this function but that section. -/
def Stmt.wf (g b r : Bool) : Stmt → Bool
  | .seq x y => x.wf g b r && y.wf g b r
  | .call s => s.wf false false true
  | .tryAny x y => x.wf g false false && y.wf g false false
  | .guard x => x.wf true true (r && !g)
  | .defer _ | .malloc _ => g
  | .brk => g && b
  | .greturn => g && r
  | _ => true

/-- The same, with `_return` allowed to leave any number of sections of its function. -/
def Stmt.legal (g b r : Bool) : Stmt → Bool
  | .seq x y => x.legal g b r && y.legal g b r
  | .call s => s.legal false false true
  | .tryAny x y => x.legal g false false && y.legal g false false
  | .guard x => x.legal true true r
  | .defer _ | .malloc _ => g
  | .brk => g && b
  | .greturn => g && r
  | _ => true

/-- The messages of a program; a string literal is a number in this table. -/
abbrev Table := Nat → List UInt8

/-- `is_str_eq` (`src/raii.c:742-744`) on the strings of the table, by `C02_strcmp_zero_exact`: equal if the
first has 8 bytes or is a prefix of the second. -/
def strEq (tbl : Table) (a b : Nat) : Bool := (tbl a).length == 8 || (tbl a).isPrefixOf (tbl b)

/-- Are they the same string? -/
def sameStr (tbl : Table) (a b : Nat) : Bool := tbl a == tbl b

/-- A thread running a function outside all sections did what `x` says, left every section, and the
process ended with an exception exactly if one got out. -/
def Meets (o : Out) (x : R) : Prop :=
  o.st.trace = x.t ∧ o.st.arena = none ∧ o.st.guardOn = false ∧ o.st.cur = 0 ∧
  (x.r = .done ∧ o = .ok o.st ∨ ∃ e, x.r = .thrown e ∧ o = .dead e o.st)

/-- A thread that enters no section until it calls the function with body `s`. -/
def run (eq : Nat → Nat → Bool) (passes : Nat) (s : Stmt) : Out := exec eq passes ⟨0, none, false⟩ (.call s) start

/-- Deferred functions do not throw. -/
def Stmt.calm : Stmt → Prop
  | .seq x y | .tryAny x y => x.calm ∧ y.calm
  | .call s | .guard s => s.calm
  | .defer d => d.throws = none
  | _ => True

/-- Obtains memory from the surrounding section. -/
def Stmt.mallocs : Stmt → Bool
  | .seq x y | .tryAny x y => x.mallocs || y.mallocs
  | .malloc _ => true
  | _ => false

/-- Enters a `try` block, not counting those inside a nested section. -/
def Stmt.tries : Stmt → Bool
  | .seq x y => x.tries || y.tries
  | .tryAny _ _ => true
  | .call s => s.tries
  | _ => false

/-- Registers a recovering function with the surrounding section. -/
def Stmt.recovers : Stmt → Bool
  | .seq x y | .tryAny x y => x.recovers || y.recovers
  | .defer d => d.recovers.isSome
  | _ => false

/-- No section both holds memory and enters a `try` block. -/
def Stmt.separate : Stmt → Bool
  | .seq x y | .tryAny x y => x.separate && y.separate
  | .call s => s.separate
  | .guard s => s.separate && !(s.mallocs && s.tries)
  | _ => true

/-- No section both holds memory and recovers. -/
def Stmt.unmixed : Stmt → Bool
  | .seq x y | .tryAny x y => x.unmixed && y.unmixed
  | .call s => s.unmixed
  | .guard s => s.unmixed && !(s.mallocs && s.recovers)
  | _ => true

end Verif.Gd
