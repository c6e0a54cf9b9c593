import Verif.Spec.Signed
/-!
# Bits of signed numbers
-/
namespace Verif.Sg
open Spec

theorem fits {w : Nat} (v : BitVec w) : Fits w v.toInt := ⟨BitVec.le_toInt v, BitVec.toInt_lt⟩

theorem ofInt_self {w : Nat} (hw : 1 < w) {n : Int} (h : Fits w n) : (BitVec.ofInt w n).toInt = n := BitVec.toInt_ofInt_eq_self (by omega) h.1 h.2

theorem bit {w : Nat} (_ : 0 < w) (v : BitVec w) (i : Nat) : Bit v.toInt i ↔ (if i < w then v.getLsbD i else v.msb) = true := by
  unfold Bit
  rw [BitVec.toInt_eq_msb_cond]
  have hlt := v.isLt
  have hg : v.getLsbD i = true ↔ v.toNat / 2 ^ i % 2 = 1 := by
    rw [BitVec.getLsbD, Nat.testBit_eq_decide_div_mod_eq]
    simp
  have hp : ((2 : Int) ^ i) = ((2 ^ i : Nat) : Int) := by simp
  have hpos : (0 : Int) < ((2 ^ i : Nat) : Int) := by exact_mod_cast Nat.two_pow_pos i
  by_cases hi : i < w
  · rw [if_pos hi, hg]
    have hw2 : (2 ^ w : Nat) = 2 ^ i * (2 * 2 ^ (w - i - 1)) := by
      rw [show w = i + ((w - i - 1) + 1) by omega, Nat.pow_add, Nat.pow_succ]
      simp only [show i + (w - i - 1 + 1) - i - 1 = w - i - 1 by omega, Nat.mul_comm]
    have e1 : ((v.toNat : Int)) / ((2 ^ i : Nat) : Int) = ((v.toNat / 2 ^ i : Nat) : Int) := by simp
    split
    · rw [hw2, hp, Int.natCast_mul, Int.sub_mul_ediv_left _ _ (by omega), e1]
      generalize v.toNat / 2 ^ i = a
      generalize 2 ^ (w - i - 1) = c
      omega
    · rw [hp, e1]
      omega
  · rw [if_neg hi]
    have hle : 2 ^ w ≤ 2 ^ i := Nat.pow_le_pow_right (by omega) (by omega)
    rw [hp]
    cases hm : v.msb with
    | true =>
      have hm' : 2 ^ w ≤ 2 * v.toNat := by
        have := BitVec.msb_eq_true_iff_two_mul_ge.mp hm
        omega
      have : ((v.toNat : Int) - ((2 ^ w : Nat) : Int)) / ((2 ^ i : Nat) : Int) = -1 := by
        have q := Int.add_mul_ediv_right ((v.toNat : Int) - ((2 ^ w : Nat) : Int)) 1 (c := ((2 ^ i : Nat) : Int)) (by omega)
        rw [Int.ediv_eq_zero_of_lt (by omega) (by omega)] at q
        omega
      simp only [if_true]
      rw [this]
      decide
    | false =>
      have : ((v.toNat : Int)) / ((2 ^ i : Nat) : Int) = 0 := Int.ediv_eq_zero_of_lt (by omega) (by omega)
      simp only [Bool.false_eq_true, if_false]
      rw [this]
      decide

/-- Numbers that fit and agree modulo `2 ^ w` are the same. -/
theorem fits_unique {w : Nat} (hw : 1 < w) {a b k : Int} (ha : Fits w a) (hb : Fits w b) (h : a = b + k * 2 ^ w) : a = b := by
  have e1 := ofInt_self hw ha
  have e2 := ofInt_self hw hb
  rw [← e1, ← e2, BitVec.toInt_inj]
  apply BitVec.eq_of_toNat_eq
  rw [BitVec.toNat_ofInt, BitVec.toNat_ofInt, h]
  have : ((2 : Int) ^ w) = ((2 ^ w : Nat) : Int) := by simp
  rw [this, Int.add_mul_emod_self_right]

/-- Numbers that fit and have the same bits are the same. -/
theorem bits_unique {w : Nat} (hw : 1 < w) {a b : Int} (ha : Fits w a) (hb : Fits w b) (h : ∀ i, Bit a i ↔ Bit b i) : a = b := by
  have e1 := ofInt_self hw ha
  have e2 := ofInt_self hw hb
  rw [← e1, ← e2, BitVec.toInt_inj]
  apply BitVec.eq_of_getLsbD_eq
  intro i hi
  have := h i
  rw [← e1, ← e2, bit (by omega), bit (by omega), if_pos hi, if_pos hi] at this
  exact Bool.eq_iff_iff.mpr this

theorem wrap {w : Nat} (v : BitVec w) (z : Int) (h : v.toInt = z.bmod (2 ^ w)) : ∃ k : Int, v.toInt = z + k * 2 ^ w := by
  have e := Int.bmod_emod (x := z) (m := 2 ^ w)
  refine ⟨(v.toInt - z) / 2 ^ w, ?_⟩
  have hd : ((2 : Int) ^ w) ∣ v.toInt - z := by
    apply Int.dvd_of_emod_eq_zero
    rw [h]
    have : ((2 : Int) ^ w) = ((2 ^ w : Nat) : Int) := by simp
    rw [this]
    exact Int.emod_eq_emod_iff_emod_sub_eq_zero.mp e
  rw [Int.ediv_mul_cancel hd]
  omega

end Verif.Sg
