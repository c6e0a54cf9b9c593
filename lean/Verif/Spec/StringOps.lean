/-!
# Specifications of the string operations
-/
namespace Verif

/-- `pat` occurs in `text` at offset `i`. -/
def OccursAt (text pat : List UInt8) (i : Nat) : Prop := ∃ a b, text = a ++ pat ++ b ∧ a.length = i

/-- `i` is the least offset at which `pat` occurs in `text`. -/
def FirstOccurrence (text pat : List UInt8) (i : Nat) : Prop :=
  OccursAt text pat i ∧ ∀ j < i, ¬ OccursAt text pat j

/-- `ts` are the pieces of `s` between successive (leftmost, non-overlapping) occurrences of `d`. -/
inductive IsSplit (d : List UInt8) : List UInt8 → List (List UInt8) → Prop
  | last {s} : (∀ i, ¬ OccursAt s d i) → IsSplit d s [s]
  | cut {t rest ts} : FirstOccurrence (t ++ d ++ rest) d t.length → IsSplit d rest ts →
      IsSplit d (t ++ d ++ rest) (t :: ts)

/-- `joinWith d [t₁, …, tₙ] = t₁ ++ d ++ t₂ ++ … ++ d ++ tₙ`. -/
def joinWith (d : List UInt8) : List (List UInt8) → List UInt8
  | [] => []
  | [t] => t
  | t :: ts => t ++ d ++ joinWith d ts

end Verif
