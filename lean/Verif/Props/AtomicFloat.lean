import Verif.Spec.AtomicFloat
/-!
# C60: adding to an atomic floating-point number
-/
namespace Verif.Props
open Verif Verif.At Verif.Af

/-- **C60, in full.**  Adding to (subtracting from) a finite number a finite number, where the result is a
number of that format, leaves the result, and returns the old number. -/
def C60_Full : Prop := ∀ (f : Fmt) (old x r : BitVec f.width) (a b : Int),
  value f old.toNat = some a → value f x.toNat = some b →
  (value f r.toNat = some (a + b) →
    value f (FOp.run (.fetchAdd x) old).1.toNat = some (a + b) ∧ (FOp.run (.fetchAdd x) old).2.val = old) ∧
  (value f r.toNat = some (a - b) →
    value f (FOp.run (.fetchSub x) old).1.toNat = some (a - b) ∧ (FOp.run (.fetchSub x) old).2.val = old)

/-- The bits of 1 and 2, and what they stand for. -/
example : value .f32 0x3F800000 = some (2 ^ 149) ∧ value .f32 0x40000000 = some (2 ^ 150) := by decide +kernel

/-- `c89atomic_fetch_add_f32(&x, 1)` where `x` is 1: `x` is then 2^127. -/
theorem C60_one_and_one :
    value .f32 (FOp.run (f := .f32) (.fetchAdd 0x3F800000) 0x3F800000).1.toNat = some (2 ^ 149 * 2 ^ 127) := by
  decide +kernel

/-- `c89atomic_fetch_sub_f32(&x, 1)` where `x` is 3: `x` is then 1.5 · 2^-126, less than any useful number. -/
theorem C60_three_less_one :
    value .f32 (FOp.run (f := .f32) (.fetchSub 0x3F800000) 0x40400000).1.toNat = some (2 ^ 23 + 2 ^ 22) := by
  decide +kernel

theorem C60_full_false : ¬ C60_Full := by
  intro h
  have := ((h .f32 0x3F800000 0x3F800000 0x40000000 (2 ^ 149) (2 ^ 149) (by decide +kernel) (by decide +kernel)).1
    (by decide +kernel)).1
  rw [C60_one_and_one] at this
  revert this
  decide

theorem value_small (f : Fmt) (x : Nat) (h : x < 2 ^ (f.frac + 1)) : value f x = some (x : Int) := by
  have hp : (0 : Nat) < 2 ^ f.frac := Nat.pow_pos (by decide)
  have h1 : x / 2 ^ (f.exp + f.frac) = 0 := Nat.div_eq_of_lt (Nat.lt_of_lt_of_le h
    (Nat.pow_le_pow_right (by decide) (by cases f <;> decide)))
  have h2 : x / 2 ^ f.frac < 2 := by
    rw [Nat.div_lt_iff_lt_mul hp]; rw [Nat.pow_succ] at h; omega
  have he : x / 2 ^ f.frac % 2 ^ f.exp = x / 2 ^ f.frac := Nat.mod_eq_of_lt (Nat.lt_of_lt_of_le h2 (by cases f <;> decide))
  have hdm := Nat.div_add_mod x (2 ^ f.frac)
  unfold value
  dsimp only
  rw [he, h1, if_neg (by
    have : 2 < 2 ^ f.exp - 1 := by cases f <;> decide
    omega), if_neg (by decide)]
  by_cases hz : x / 2 ^ f.frac = 0
  · rw [if_pos hz]
    rw [hz] at hdm
    congr 2
    omega
  · have : x / 2 ^ f.frac = 1 := by omega
    rw [if_neg hz, this]
    rw [this] at hdm
    congr 2
    omega

/-- **C60 for numbers close to 0**: where neither number is negative and the result is less than twice the
smallest normal number, the bits *are* the number, and the operations are right.  Missing: all others. -/
theorem C60_tiny_partial (f : Fmt) (old x : BitVec f.width) :
    (old.toNat + x.toNat < 2 ^ (f.frac + 1) → ∃ a b : Int, value f old.toNat = some a ∧ value f x.toNat = some b ∧
      value f (FOp.run (.fetchAdd x) old).1.toNat = some (a + b)) ∧
    (old.toNat < 2 ^ (f.frac + 1) → x.toNat ≤ old.toNat → ∃ a b : Int, value f old.toNat = some a ∧
      value f x.toNat = some b ∧ value f (FOp.run (.fetchSub x) old).1.toNat = some (a - b)) := by
  have hw : 2 ^ (f.frac + 1) ≤ 2 ^ f.width := Nat.pow_le_pow_right (by decide) (by cases f <;> decide)
  constructor
  · intro h
    refine ⟨_, _, value_small f _ (by omega), value_small f _ (by omega), ?_⟩
    simp only [FOp.run, FOp.bits, Op.meaning, BitVec.toNat_add]
    rw [Nat.mod_eq_of_lt (by omega), value_small f _ h, Int.natCast_add]
  · intro h hle
    refine ⟨_, _, value_small f _ (by omega), value_small f _ (by omega), ?_⟩
    simp only [FOp.run, FOp.bits, Op.meaning]
    rw [BitVec.toNat_sub_of_le (by rw [BitVec.le_def]; exact hle), value_small f _ (by omega), Int.natCast_sub hle]

example : (0x00000003#(Fmt.width .f32)).toNat + (0x007FFFFF#(Fmt.width .f32)).toNat < 2 ^ (Fmt.frac .f32 + 1) := by
  decide +kernel

/-- **Adding nothing** (`+0`) changes nothing. -/
theorem C60_zero (f : Fmt) (old : BitVec f.width) :
    (FOp.run (.fetchAdd 0) old).1 = old ∧ (FOp.run (.fetchSub 0) old).1 = old := by
  constructor <;> simp [FOp.run, FOp.bits, Op.meaning]

/-- **Adding `-0` changes the sign** of whatever number is there. -/
theorem C60_minus_zero (f : Fmt) (old x : BitVec f.width) (hx : x.toNat = 2 ^ (f.exp + f.frac)) (a : Int)
    (ha : value f old.toNat = some a) :
    value f x.toNat = some 0 ∧ value f (FOp.run (.fetchAdd x) old).1.toNat = some (-a) := by
  have hww : 2 ^ f.width = 2 * 2 ^ (f.exp + f.frac) := by
    rw [Fmt.width, show 1 + f.exp + f.frac = (f.exp + f.frac) + 1 by omega, Nat.pow_succ]; omega
  have hsplit : 2 ^ (f.exp + f.frac) = 2 ^ f.frac * 2 ^ f.exp := by rw [Nat.pow_add, Nat.mul_comm]
  have hP : 0 < 2 ^ (f.exp + f.frac) := Nat.pow_pos (by decide)
  have hp : 0 < 2 ^ f.frac := Nat.pow_pos (by decide)
  constructor
  · rw [hx]
    cases f <;> decide +kernel
  · simp only [FOp.run, FOp.bits, Op.meaning, BitVec.toNat_add]
    rw [hx, hww]
    have hlt := old.isLt
    rw [hww] at hlt
    -- the new bits are the old ones with the sign flipped
    have key : ∀ y, (y = old.toNat + 2 ^ (f.exp + f.frac) ∨ y + 2 ^ (f.exp + f.frac) = old.toNat) →
        y < 2 * 2 ^ (f.exp + f.frac) → value f y = some (-a) := by
      intro y hy hylt
      have hm : y % 2 ^ f.frac = old.toNat % 2 ^ f.frac := by
        rcases hy with rfl | hy
        · rw [hsplit, Nat.add_mul_mod_self_left]
        · rw [← hy, hsplit, Nat.add_mul_mod_self_left]
      have he : y / 2 ^ f.frac % 2 ^ f.exp = old.toNat / 2 ^ f.frac % 2 ^ f.exp := by
        rcases hy with rfl | hy
        · rw [hsplit, Nat.add_mul_div_left _ _ hp, Nat.add_mod_right]
        · rw [← hy, hsplit, Nat.add_mul_div_left _ _ hp, Nat.add_mod_right]
      have hs : (y / 2 ^ (f.exp + f.frac) % 2 = 1) = ¬ (old.toNat / 2 ^ (f.exp + f.frac) % 2 = 1) := by
        rcases hy with rfl | hy
        · rw [Nat.add_div_right _ hP, Nat.div_eq_of_lt (a := old.toNat) (by omega)]
          decide
        · rw [← hy, Nat.add_div_right _ hP, Nat.div_eq_of_lt (a := y) (by omega)]
          decide
      unfold value at ha ⊢
      dsimp only at ha ⊢
      rw [hm, he]
      split at ha
      · contradiction
      · rename_i hne
        rw [if_neg hne]
        simp only [hs]
        by_cases hn : old.toNat / 2 ^ (f.exp + f.frac) % 2 = 1
        · rw [if_pos hn] at ha
          rw [if_neg (by simpa using hn)]
          injection ha with ha
          rw [← ha, Int.neg_neg]
        · rw [if_neg hn] at ha
          rw [if_pos hn]
          injection ha with ha
          rw [← ha]
    have hd := Nat.div_add_mod (old.toNat + 2 ^ (f.exp + f.frac)) (2 * 2 ^ (f.exp + f.frac))
    have hml := Nat.mod_lt (old.toNat + 2 ^ (f.exp + f.frac)) (show 0 < 2 * 2 ^ (f.exp + f.frac) by omega)
    refine key _ ?_ hml
    by_cases hh : old.toNat < 2 ^ (f.exp + f.frac)
    · left; exact Nat.mod_eq_of_lt (by omega)
    · right
      rw [Nat.mod_eq_sub_mod (by omega), Nat.mod_eq_of_lt (by omega)]
      omega

example : (0x80000000#(Fmt.width .f32)).toNat = 2 ^ (Fmt.exp .f32 + Fmt.frac .f32) ∧
    value .f32 0xC0490FDB = (value .f32 0x40490FDB).map (- ·) := by decide +kernel

/-- **Storing, loading, exchanging** move the bits unharmed, and every operation but a store returns the
old bits; the comparison is of bits: `0` and `-0` differ. -/
theorem C60_moves (f : Fmt) (old x e d : BitVec f.width) :
    (FOp.run (.store x) old).1 = x ∧ FOp.run .load old = (old, ⟨old, true⟩) ∧
    FOp.run (.exchange x) old = (x, ⟨old, true⟩) ∧ (FOp.run (.fetchAdd x) old).2.val = old ∧
    (FOp.run (.fetchSub x) old).2.val = old ∧
    FOp.run (.compareExchange e d) old = (if old = e then (d, ⟨e, true⟩) else (old, ⟨old, false⟩)) ∧
    value f (FOp.run .clear old).1.toNat = some 0 := by
  refine ⟨rfl, rfl, rfl, rfl, rfl, rfl, ?_⟩
  show value f (0 : BitVec f.width).toNat = some 0
  cases f <;> decide +kernel

theorem C60_zeros_differ : value .f32 0 = value .f32 0x80000000 ∧
    (FOp.run (f := .f32) (.compareExchange 0x80000000 7) 0).2.flag = false := by decide +kernel

/-- The formats are those of `float` and `double`: 32 and 64 bits, and the patterns of 1, -2 and infinity are what they are in IEEE 754. -/
theorem C60_formats : Fmt.width .f32 = 32 ∧ Fmt.width .f64 = 64 ∧
    value .f32 0x3F800000 = some (2 ^ 149) ∧ value .f64 0x3FF0000000000000 = some (2 ^ 1074) ∧
    value .f32 0xC0000000 = some (-2 ^ 150) ∧ value .f64 0xC000000000000000 = some (-2 ^ 1075) ∧
    value .f32 0x7F800000 = none ∧ value .f64 0x7FF0000000000000 = none := by decide +kernel

end Verif.Props
