/-!
# Specifications for memory searches and C strings
-/
namespace Verif

/-- `j` is the offset of the first byte equal to `c` among the `n` bytes at `s`. -/
def IsFirst (m : Nat → UInt8) (s n : Nat) (c : UInt8) (j : Nat) : Prop :=
  j < n ∧ m (s + j) = c ∧ ∀ i < j, m (s + i) ≠ c

/-- `j` is the offset of the last byte equal to `c` among the `n` bytes at `s`. -/
def IsLast (m : Nat → UInt8) (s n : Nat) (c : UInt8) (j : Nat) : Prop :=
  j < n ∧ m (s + j) = c ∧ ∀ i, j < i → i < n → m (s + i) ≠ c

/-- `c` is not among the `n` bytes at `s`. -/
def Absent (m : Nat → UInt8) (s n : Nat) (c : UInt8) : Prop := ∀ i < n, m (s + i) ≠ c

/-- Memory at `p` holds the C string whose bytes are `s` (none of them NUL), terminated. -/
def CStr (m : Nat → UInt8) (p : Nat) (s : List UInt8) : Prop :=
  (∀ b ∈ s, b ≠ 0) ∧ (∀ i (h : i < s.length), m (p + i) = s[i]) ∧ m (p + s.length) = 0

/-- What ISO C says `strcmp` computes on two strings (terminators excluded from the lists):
the difference of the first two bytes that differ, a missing byte being the terminator 0. -/
def strcmpSpec : List UInt8 → List UInt8 → Int
  | [], [] => 0
  | [], y :: _ => -(y.toNat : Int)
  | x :: _, [] => x.toNat
  | x :: xs, y :: ys => if x = y then strcmpSpec xs ys else (x.toNat : Int) - y.toNat

end Verif
