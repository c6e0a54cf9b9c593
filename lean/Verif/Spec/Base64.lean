/-!
# Specification of base64 (RFC 4648, section 4)
-/
namespace Verif

/-- RFC 4648 table 1: the character of a 6-bit value. -/
def b64char (v : Nat) : UInt8 :=
  if v < 26 then UInt8.ofNat (65 + v)              -- A-Z
  else if v < 52 then UInt8.ofNat (97 + (v - 26))  -- a-z
  else if v < 62 then UInt8.ofNat (48 + (v - 52))  -- 0-9
  else if v = 62 then 43 else 47                   -- + /

/-- RFC 4648 section 4: 24-bit groups become four 6-bit digits, most significant first; a final
group of 1 or 2 bytes is extended with zero bits and padded with `=`. -/
def rfc4648 : List UInt8 → List UInt8
  | a :: b :: c :: rest =>
    let n := (a.toNat * 256 + b.toNat) * 256 + c.toNat
    b64char (n / 2 ^ 18) :: b64char (n / 2 ^ 12 % 64) :: b64char (n / 2 ^ 6 % 64) ::
      b64char (n % 64) :: rfc4648 rest
  | [a, b] =>
    let n := (a.toNat * 256 + b.toNat) * 4
    [b64char (n / 2 ^ 12), b64char (n / 2 ^ 6 % 64), b64char (n % 64), 61]
  | [a] =>
    let n := a.toNat * 16
    [b64char (n / 2 ^ 6), b64char (n % 64), 61, 61]
  | [] => []

/-- A character of the base64 alphabet. -/
def IsB64Char (b : UInt8) : Prop := ∃ v < 64, b = b64char v

end Verif
