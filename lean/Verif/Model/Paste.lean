/-!
# Operands of the atomic macros

`atomic_store(obj, desired)` is defined as `c89atomic_store_64((atomic_ullong *)obj, (c89atomic_uint64)desired)`, and so are the others of
`include/catomic.h:2177-2302, 2623-2625, 2638-2798`: a cast is written in front of the operand, without parentheses.  The compiler sees the tokens of
the operand after the cast.

Modelled: operands without side effects, the arithmetic of C on two's complement integers (`int` has 32 bits), undefined behaviour as `none`.
-/
namespace Verif.Paste

inductive Size
  | b8 | b16 | b32 | b64
deriving DecidableEq

/-- An integer type. -/
structure Ty where
  size : Size
  signed : Bool
deriving DecidableEq

/-- Its bits. -/
def Ty.w (t : Ty) : Nat := match t.size with
  | .b8 => 8
  | .b16 => 16
  | .b32 => 32
  | .b64 => 64

def int : Ty := ⟨.b32, true⟩

/-- The operators whose result is determined, modulo 2^w, by the operands modulo 2^w, and division. -/
inductive Op
  | add | sub | mul | and | or | xor | div
deriving DecidableEq

/-- Expressions, with the parentheses of the text. -/
inductive Expr
  | const (t : Ty) (n : Int)
  | var (i : Nat)
  | paren (e : Expr)
  | neg (e : Expr)
  | cast (t : Ty) (e : Expr)
  | bin (op : Op) (l r : Expr)
  | lt (l r : Expr)
  | land (l r : Expr)
  | cond (c a b : Expr)

inductive Tok
  | const (t : Ty) (n : Int)
  | var (i : Nat)
  | open
  | close
  | cast (t : Ty)
  | minus
  | op (o : Op)
  | lt
  | land
  | query
  | colon

/-- How tightly an operator binds; `neg` and casts have 11. -/
def Op.level : Op → Nat
  | .add | .sub => 9
  | .mul | .div => 10
  | .and => 5
  | .xor => 4
  | .or => 3

/-- C's grammar of expressions: the tokens are an expression of the level, with this tree.  The token of a binary `-` is written `op sub`. -/
inductive Reads : Nat → List Tok → Expr → Prop
  | const (t n) : Reads 12 [.const t n] (.const t n)
  | var (i) : Reads 12 [.var i] (.var i)
  | paren {ts e} : Reads 0 ts e → Reads 12 (.open :: (ts ++ [.close])) (.paren e)
  | neg {ts e} : Reads 11 ts e → Reads 11 (.minus :: ts) (.neg e)
  | cast {ts e} (t) : Reads 11 ts e → Reads 11 (.cast t :: ts) (.cast t e)
  | bin {ls rs l r} (op : Op) : Reads op.level ls l → Reads (op.level + 1) rs r → Reads op.level (ls ++ (.op op :: rs)) (.bin op l r)
  | lt {ls rs l r} : Reads 7 ls l → Reads 8 rs r → Reads 7 (ls ++ (.lt :: rs)) (.lt l r)
  | land {ls rs l r} : Reads 2 ls l → Reads 3 rs r → Reads 2 (ls ++ (.land :: rs)) (.land l r)
  | cond {cs xs ys c a b} : Reads 1 cs c → Reads 0 xs a → Reads 0 ys b → Reads 0 (cs ++ (.query :: (xs ++ (.colon :: ys)))) (.cond c a b)
  | up {n ts e} : n < 12 → Reads (n + 1) ts e → Reads n ts e

/-- What the macro makes of its operand, `catomic.h:2738`: the cast goes to the first operand of the expression. -/
def castHead (t : Ty) : Expr → Expr
  | .bin op l r => .bin op (castHead t l) r
  | .lt l r => .lt (castHead t l) r
  | .land l r => .land (castHead t l) r
  | .cond c a b => .cond (castHead t c) a b
  | e => .cast t e

/-- Conversion of a number to a type. -/
def conv (t : Ty) (n : Int) : Int :=
  if t.signed then (n + 2 ^ (t.w - 1)) % 2 ^ t.w - 2 ^ (t.w - 1) else n % 2 ^ t.w

/-- Integer promotion. -/
def promote (t : Ty) : Ty := if t.w < 32 then int else t

/-- The usual arithmetic conversions. -/
def usual (a b : Ty) : Ty :=
  let p := promote a
  let q := promote b
  if p.w = q.w then ⟨p.size, p.signed && q.signed⟩ else if p.w < q.w then q else p

/-- The type of an expression; `v i` is the type and the value of variable `i`. -/
def Expr.ty (v : Nat → Ty × Int) : Expr → Ty
  | .const t _ => t
  | .var i => (v i).1
  | .paren e => e.ty v
  | .neg e => promote (e.ty v)
  | .cast t _ => t
  | .bin _ l r => usual (l.ty v) (r.ty v)
  | .lt _ _ => int
  | .land _ _ => int
  | .cond _ a b => usual (a.ty v) (b.ty v)

/-- A result of type `t`: overflow of a signed type is undefined. -/
def result (t : Ty) (n : Int) : Option Int :=
  if t.signed then if conv t n = n then some n else none else some (conv t n)

/-- An operator, on operands that were converted to the common type.  No result of the operators on bits overflows. -/
def Op.apply (t : Ty) (x y : Int) : Op → Option Int
  | .add => result t (x + y)
  | .sub => result t (x - y)
  | .mul => result t (x * y)
  | .and => result t (BitVec.ofInt 64 x &&& BitVec.ofInt 64 y).toInt
  | .or => result t (BitVec.ofInt 64 x ||| BitVec.ofInt 64 y).toInt
  | .xor => result t (BitVec.ofInt 64 x ^^^ BitVec.ofInt 64 y).toInt
  | .div => if y = 0 then none else result t (x.tdiv y)

def Expr.eval (v : Nat → Ty × Int) : Expr → Option Int
  | .const t n => some (conv t n)
  | .var i => some (conv (v i).1 (v i).2)
  | .paren e => e.eval v
  | .neg e => (e.eval v).bind fun x => result (promote (e.ty v)) (-x)
  | .cast t e => (e.eval v).map (conv t)
  | .bin op l r => (l.eval v).bind fun x => (r.eval v).bind fun y =>
      let t := usual (l.ty v) (r.ty v)
      op.apply t (conv t x) (conv t y)
  | .lt l r => (l.eval v).bind fun x => (r.eval v).bind fun y =>
      let t := usual (l.ty v) (r.ty v)
      some (if conv t x < conv t y then 1 else 0)
  | .land l r => (l.eval v).bind fun x => if x = 0 then some 0 else (r.eval v).map fun y => if y = 0 then 0 else 1
  | .cond c a b => (c.eval v).bind fun x => (if x = 0 then b.eval v else a.eval v).map (conv (usual (a.ty v) (b.ty v)))

/-- The number the function called by the macro gets: its parameter has the type of the cast. -/
def passed (t : Ty) (e : Expr) (v : Nat → Ty × Int) : Option Int := ((castHead t e).eval v).map (conv t)

/-- A pointer or a number with terms added to and subtracted from it, `p + i - j`: the terms of a pointer are counted in objects of `size` bytes, those of a number
in units. -/
def sum (size : Int) (base : Int) (terms : List (Bool × Int)) : Int :=
  terms.foldl (fun s x => if x.1 then s + size * x.2 else s - size * x.2) base

/-- The same behind `(atomic_ullong *)`, `catomic.h:2761` (`arg` of `atomic_fetch_or`), `catomic.h:2735-2798` (`obj`): the first operand is a pointer to objects
of 8 bytes. -/
def sumPasted (base : Int) (terms : List (Bool × Int)) : Int := sum 8 base terms

end Verif.Paste
