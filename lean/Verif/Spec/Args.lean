import Verif.Model.Args
/-!
# What argument packs promise
-/
namespace Verif.Pk

/-- The argument fits the format character; a `char` is a `char`. -/
def fits : Char → Arg → Prop
  | 'l', .long _ | 'z', .size _ | 'u', .u32 _ | 'i', .i32 _ | 'd', .i64 _ | 's', .str _ _ | 'a', .arr _ | 'x', .fn _
  | 'f', .dbl _ | 'p', .ptr _ => True
  | 'c', .chr w => -128 ≤ w.toInt ∧ w.toInt < 128
  | _, _ => False

/-- Arguments that match a format. -/
def Fit : List Char → List Arg → Prop
  | [], [] => True
  | c :: d, a :: as => fits c a ∧ Fit d as
  | _, _ => False

/-- The value passed, as a number: an integer, an address, the bits of a `double`. -/
def Arg.value : Arg → Int
  | .long w | .i64 w => w.toInt
  | .i32 w | .chr w => w.toInt
  | .u32 w => w.toNat
  | .size w | .str w _ | .arr w | .fn w | .dbl w | .ptr w => w.toNat

/-- Strings of at most `valueSize` bytes. -/
def Arg.short : Arg → Prop
  | .str _ len => len ≤ 272
  | _ => True

/-- Using packs. -/
inductive Op
  /-- `raii_get_args(scope, p, _)`, `get_args(p, _)`. -/
  | get (scope : Option Nat) (p : Nat)
  | leave (s : Nat)

def step (st : St) : Op → St
  | .get sc p => getDefer sc p st
  | .leave s => leave s st

def run (st : St) (h : List Op) : St := h.foldl step st

/-- Nothing happened yet. -/
def start (ctx : Nat → Option Nat) : St := ⟨fun _ => false, ctx, fun _ => [], []⟩

/-- Is it a use of the pack? -/
def Op.used (p : Nat) : Op → Bool
  | .get _ q => q == p
  | _ => false

/-- The scope that is to release the pack: the one named, else the one it was made for, else the thread's own. -/
def releaser (ctx : Nat → Option Nat) (scope : Option Nat) (p : Nat) : Nat :=
  match scope, ctx p with
  | some s, _ => s
  | none, some s => s
  | none, none => 0

end Verif.Pk
