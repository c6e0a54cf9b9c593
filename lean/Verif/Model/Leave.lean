/-!
# The value a guarded section returns: `_return(value)`, `unguarded(result)`

`include/raii.h:516-524`, `547-558`.  Both are text: the expression is put behind the calls that run the deferred functions and release the memory, and `_return` is
several statements without braces.

Simplifications: one section; variables and blocks hold a number; a deferred function assigns to a variable or to a block, or frees a block (that of `_malloc`); no
exceptions, which are in `Verif.Model.Guard`.
-/
namespace Verif.Lv

inductive Exp
  | const (n : Nat)
  | var (i : Nat)
  /-- `*p` for the block `p`. -/
  | load (p : Nat)
  | add (a b : Exp)
  deriving DecidableEq, Repr

/-- What a deferred function does. -/
inductive Act
  | set (i n : Nat)
  | poke (p n : Nat)
  | free (p : Nat)
  deriving DecidableEq, Repr

/-- Variables, blocks (`none`: not allocated), deferred functions, the newest first. -/
structure St where
  vars : Nat → Nat
  blk : Nat → Option Nat
  defers : List Act

/-- `none`: memory is used that is not allocated. -/
def Exp.eval (s : St) : Exp → Option Nat
  | .const n => some n
  | .var i => some (s.vars i)
  | .load p => s.blk p
  | .add a b =>
    match a.eval s, b.eval s with
    | some x, some y => some (x + y)
    | _, _ => none

def Act.run (s : St) : Act → St
  | .set i n => { s with vars := fun j => if j = i then n else s.vars j }
  | .poke p n => { s with blk := fun q => if q = p then (s.blk p).map (fun _ => n) else s.blk q }
  | .free p => { s with blk := fun q => if q = p then none else s.blk q }

inductive Stmt
  | assign (i : Nat) (e : Exp)
  /-- `p = _malloc(...)`, which then holds `n`. -/
  | alloc (p n : Nat)
  /-- `_defer(...)`. -/
  | defer (a : Act)
  /-- `_return(e);` -/
  | ret (e : Exp)
  /-- `if (c) { _return(e); }` -/
  | ifBlock (c e : Exp)
  /-- `if (c) _return(e);` -/
  | ifPlain (c e : Exp)
  deriving DecidableEq, Repr

/-- What the function returns (`none`: undefined), the deferred functions that have run in this order, and those left. -/
structure Result where
  value : Option Nat
  ran : List Act
  left : List Act
  deriving DecidableEq, Repr

/-- The deferred functions run, `src/raii.c:395-428`; then the expression is evaluated. -/
def leave (e : Exp) (s : St) : Result := ⟨e.eval (s.defers.foldl Act.run s), s.defers, []⟩

/-- `if (c) raii_delete(scope); guard_reset(...); ex_update(...); if (...) ...; return e;` when `c` is 0. -/
def skipped (e : Exp) (s : St) : Result := ⟨e.eval s, [], s.defers⟩

/-- The body of a section and the value given to `unguarded`. -/
def run (fin : Exp) : List Stmt → St → Result
  | [], s => leave fin s
  | .assign i e :: l, s =>
    match e.eval s with
    | some n => run fin l { s with vars := fun j => if j = i then n else s.vars j }
    | none => ⟨none, [], s.defers⟩
  | .alloc p n :: l, s => run fin l { s with blk := fun q => if q = p then some n else s.blk q, defers := .free p :: s.defers }
  | .defer a :: l, s => run fin l { s with defers := a :: s.defers }
  | .ret e :: _, s => leave e s
  | .ifBlock c e :: l, s =>
    match c.eval s with
    | none => ⟨none, [], s.defers⟩
    | some 0 => run fin l s
    | some _ => leave e s
  | .ifPlain c e :: _, s =>
    match c.eval s with
    | none => ⟨none, [], s.defers⟩
    | some 0 => skipped e s
    | some _ => leave e s

end Verif.Lv
