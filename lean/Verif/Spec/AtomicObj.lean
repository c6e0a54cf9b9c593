import Verif.Model.AtomicObj
/-!
# An operation on an object concerns that object
-/
namespace Verif.Ao

/-- Nothing outside the `n` bytes at `a` changes. -/
def OnlyAt (a n : Nat) (m m' : Mem) : Prop := ∀ b, ¬ (a ≤ b ∧ b < a + n) → m' b = m b

/-- Modulo `256 ^ n`, as an integer. -/
def same (n : Nat) (x y : Int) : Prop := (x - y) % (256 ^ n : Nat) = 0

/-- What an operation on an `n`-byte object that held `x` is to leave there: `y`. -/
def Means (n : Nat) : Op → Nat → Nat → Prop
  | .load, x, y => y = x
  | .store v, _, y => same n y v
  | .exchange v, _, y => same n y v
  | .fetchAdd v, x, y => same n y (x + v)
  | .fetchSub v, x, y => same n y (x - v)
  | .fetchOr v, x, y => y = x ||| (v % (256 ^ n : Nat)).toNat
  | .fetchXor v, x, y => y = x ^^^ (v % (256 ^ n : Nat)).toNat
  | .fetchAnd v, x, y => y = x &&& (v % (256 ^ n : Nat)).toNat

end Verif.Ao
