/-!
# Argument packs: `args_for`, `get_args`, `args_in`, `args_free`

64-bit little-endian Linux.  A slot is the first eight bytes of a `values_type`; the slots come from
`calloc` and are zero.  `va_arg` of a type the argument does not have, or after the last argument, is
undefined behaviour.  Memory does not run out.
-/
namespace Verif.Pk

/-- 64-bit words. -/
abbrev W := BitVec 64

/-- An argument as passed; strings with their length. -/
inductive Arg
  | long (w : W)
  | size (w : W)
  | u32 (w : BitVec 32)
  | i32 (w : BitVec 32)
  | i64 (w : W)
  /-- A `char`, promoted. -/
  | chr (w : BitVec 32)
  | str (p : W) (len : Nat)
  | arr (p : W)
  | fn (p : W)
  | dbl (bits : W)
  | ptr (p : W)
  deriving DecidableEq

/-- The pointer, if it is one. -/
def Arg.pointer : Arg → Option W
  | .str p _ | .arr p | .fn p | .ptr p => some p
  | _ => none

/-- `sizeof(raii_values_t)`: 256 + 8 + 8. -/
def valueSize : Nat := 272

/-- The slots, and the copies made through pointers stored in them (to, from); or undefined behaviour. -/
inductive Out
  | ok (slots : List W) (copies : List (W × W))
  | wild
  deriving DecidableEq

def Out.cons (w : W) (cs : List (W × W)) : Out → Out
  | .ok ws ds => .ok (w :: ws) (cs ++ ds)
  | .wild => .wild

/-- `src/raii.c:655-661`, the `default` case, also reached from `case 'p'` (`src/raii.c:652-654`, no `break`); `object`
is what the slot holds.  `memcpy(object, p, 8)`. -/
def fallback (object : W) (k : List Arg → Out) : List Arg → Out
  | a :: as =>
    match a.pointer with
    | some p => if object = 0 ∨ p = 0 then .wild else (k as).cons object [(object, p)]
    | none => .wild
  | [] => .wild

/-- The loop `src/raii.c:602-663` of `raii_args_ex`. -/
def pack : List Char → List Arg → Out
  | [], _ => .ok [] []
  | 'l' :: d, .long w :: as => (pack d as).cons w []
  | 'z' :: d, .size w :: as => (pack d as).cons w []
  | 'u' :: d, .u32 w :: as => (pack d as).cons (w.setWidth 64) []
  | 'i' :: d, .i32 w :: as => (pack d as).cons (w.setWidth 64) []
  | 'd' :: d, .i64 w :: as => (pack d as).cons w []
  | 'c' :: d, .chr w :: as => (pack d as).cons ((w.setWidth 8).setWidth 64) []
  | 's' :: d, .str p len :: as =>
    -- longer strings are copied to where the slot points: NULL
    if valueSize < len then .wild else (pack d as).cons p []
  | 'a' :: d, .arr p :: as => (pack d as).cons p []
  | 'x' :: d, .fn p :: as => (pack d as).cons p []
  | 'f' :: d, .dbl b :: as => (pack d as).cons b []
  | 'p' :: d, a :: as =>
    match a.pointer with
    | some p => fallback p (pack d) as
    | none => .wild
  | c :: d, as => if c ∈ ['l', 'z', 'u', 'i', 'd', 'c', 's', 'a', 'x', 'f', 'p'] then .wild else fallback 0 (pack d) as

/-- `src/raii.c:587-591` `args_in`; `none`: NULL is dereferenced. -/
def argsIn (slots : List W) (index : Nat) : Option W := slots[index]?

/-- `src/raii.c:583-585` `get_args`: the `int` becomes a `size_t`. -/
def getArgs (slots : List W) (item : BitVec 32) : Option W := argsIn slots (item.signExtend 64).toNat

/-- Reading the member of `values_type` that belongs to the format character, as a number: `s_long`,
`max_size`, `u_int`, `integer`, `long_long`, `schar`, the pointers, the bits of `precision`. -/
def member (c : Char) (w : W) : Int :=
  match c with
  | 'l' | 'd' => w.toInt
  | 'u' => (w.setWidth 32).toNat
  | 'i' => (w.setWidth 32).toInt
  | 'c' => (w.setWidth 8).toInt
  | _ => w.toNat

/-! ## Releasing -/

/-- Packs and scopes.  `set p`: `defer_set`; `ctx p`: the scope the pack was made for, if any; `defers s`: the
packs whose release is deferred in scope `s`, newest first; `freed`: the packs given to `free`, in order. -/
structure St where
  set : Nat → Bool
  ctx : Nat → Option Nat
  defers : Nat → List Nat
  freed : List Nat

/-- `src/raii.c:565-577` `raii_get_args`, the bookkeeping; scope 0 is the thread's own (`raii_init()`). -/
def getDefer (scope : Option Nat) (p : Nat) (st : St) : St :=
  if st.set p then st
  else
    let s := match scope with
      | some s => s
      | none => (st.ctx p).getD 0
    { st with set := fun q => if q = p then true else st.set q
              defers := fun t => if t = s then p :: st.defers t else st.defers t }

/-- Leaving scope `s`: the deferred `args_free` (`src/raii.c:557-563`) are called. -/
def leave (s : Nat) (st : St) : St :=
  { st with defers := fun t => if t = s then [] else st.defers t, freed := st.freed ++ st.defers s }

end Verif.Pk
