/-!
# Specifications for number texts
-/
namespace Verif

/-- `b` is an ASCII decimal digit. -/
def IsDigit (b : UInt8) : Prop := 48 ≤ b.toNat ∧ b.toNat ≤ 57

/-- Value of a string of decimal digits. -/
def decVal (s : List UInt8) : Nat := s.foldl (fun a b => 10 * a + (b.toNat - 48)) 0

/-- Value of an ASCII hexadecimal digit of either case. -/
def hexDigit (b : UInt8) : Option Nat :=
  if 48 ≤ b.toNat ∧ b.toNat ≤ 57 then some (b.toNat - 48)
  else if 65 ≤ b.toNat ∧ b.toNat ≤ 70 then some (b.toNat - 55)
  else if 97 ≤ b.toNat ∧ b.toNat ≤ 102 then some (b.toNat - 87)
  else none

/-- Value of a string of hexadecimal digits. -/
def hexVal (s : List UInt8) : Nat := s.foldl (fun a b => 16 * a + (hexDigit b).getD 0) 0

/-- The bytes `s` lie in memory at `p` (no terminator required). -/
def Holds (m : Nat → UInt8) (p : Nat) (s : List UInt8) : Prop :=
  ∀ i (h : i < s.length), m (p + i) = s[i]

/-- `t` is the canonical decimal text of `n`: digits, of value `n`, without leading zeros. -/
def IsNatText (t : List UInt8) (n : Nat) : Prop :=
  t ≠ [] ∧ (∀ b ∈ t, IsDigit b) ∧ decVal t = n ∧ (t.head? = some 48 → t = [48])

/-- `t` is the canonical decimal text of the integer `x` (`-` in front of negatives). -/
def IsIntText (t : List UInt8) (x : Int) : Prop :=
  (0 ≤ x ∧ IsNatText t x.toNat) ∨ (x < 0 ∧ ∃ u, t = 45 :: u ∧ IsNatText u (-x).toNat)

/-- The last `N` decimal digits of `x`, zero padded on the left: `%0Nu` when `x < 10^N`. -/
def padText (N x : Nat) : List UInt8 :=
  (List.range N).map fun i => UInt8.ofNat (48 + x / 10 ^ (N - 1 - i) % 10)

end Verif
