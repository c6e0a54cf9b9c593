import Verif.Proof.Signed
/-!
# C104: atomic operations on signed objects

English: an atomic operation on a signed object does to the number the object holds what its name says: additions and subtractions are exact if the result fits and wrap around otherwise, the operations on bits
act on two's complement, comparison compares numbers; what is returned is the number the object held.
-/
namespace Verif.Props
open Verif Verif.Sg Verif.Sg.Spec

/-- The full statement. -/
def C104_Full : Prop := ∀ (b : Build) (w : Nat), 1 < w → ∀ (op : SOp), ArgsFit w op → ∀ v : BitVec w,
  Meets w op v.toInt (op.run b w v).1.toInt (op.run b w v).2.1 (op.run b w v).2.2

/-- False: tcc, 32 bits, 65536 plus 1 returns 0. -/
theorem C104_full_false : ¬ C104_Full := fun h => by
  have := (h .tcc 32 (by decide) (.fetchAdd 1) (by simp [ArgsFit, Fits]) 65536#32).2.1
  revert this
  decide

/-- What holds: everything, except for the number `fetch_add` returns with tcc on other processors than x86, 32 bits. -/
theorem C104_signed_partial (b : Build) (w : Nat) (hw : 1 < w) (op : SOp) (hb : b = .tcc → w = 32 → ∀ y, op ≠ .fetchAdd y) (ha : ArgsFit w op) (v : BitVec w) :
    Meets w op v.toInt (op.run b w v).1.toInt (op.run b w v).2.1 (op.run b w v).2.2 := by
  have hw0 : 0 < w := by omega
  refine ⟨fits _, ?_⟩
  cases op with
  | fetchAdd y =>
    refine ⟨?_, ?_⟩
    · show (addResult b v).toInt = v.toInt
      unfold addResult
      split
      · rfl
      · rw [if_neg (fun e => hb rfl e y rfl)]
    · show ∃ k : Int, (v + BitVec.ofInt w y).toInt = v.toInt + y + k * 2 ^ w
      apply wrap
      rw [BitVec.toInt_add, ofInt_self hw ha]
  | fetchSub y =>
    refine ⟨rfl, ?_⟩
    show ∃ k : Int, (v - BitVec.ofInt w y).toInt = v.toInt - y + k * 2 ^ w
    apply wrap
    rw [BitVec.toInt_sub, ofInt_self hw ha]
  | fetchAnd y =>
    refine ⟨rfl, fun i => ?_⟩
    show Bit (v &&& BitVec.ofInt w y).toInt i ↔ _
    have : Bit y i ↔ Bit (BitVec.ofInt w y).toInt i := by rw [ofInt_self hw ha]
    rw [this, bit hw0, bit hw0, bit hw0]
    split <;> simp
  | fetchOr y =>
    refine ⟨rfl, fun i => ?_⟩
    show Bit (v ||| BitVec.ofInt w y).toInt i ↔ _
    have : Bit y i ↔ Bit (BitVec.ofInt w y).toInt i := by rw [ofInt_self hw ha]
    rw [this, bit hw0, bit hw0, bit hw0]
    split <;> simp
  | fetchXor y =>
    refine ⟨rfl, fun i => ?_⟩
    show Bit (v ^^^ BitVec.ofInt w y).toInt i ↔ _
    have : Bit y i ↔ Bit (BitVec.ofInt w y).toInt i := by rw [ofInt_self hw ha]
    rw [this, bit hw0, bit hw0, bit hw0]
    split
    · rw [BitVec.getLsbD_xor]
      cases v.getLsbD i <;> cases (BitVec.ofInt w y).getLsbD i <;> simp
    · rw [BitVec.msb_xor]
      cases v.msb <;> cases (BitVec.ofInt w y).msb <;> simp
  | exchange y => exact ⟨rfl, ofInt_self hw ha⟩
  | store y => exact ofInt_self hw ha
  | testAndSet =>
    refine ⟨rfl, ?_⟩
    show (1#w).toInt = 1
    have := ofInt_self hw (n := 1) ⟨by
      have : (0 : Int) < 2 ^ (w - 1) := Int.pow_pos (by decide)
      omega, by
      rw [show w - 1 = (w - 2) + 1 by omega, Int.pow_succ]
      have : (0 : Int) < 2 ^ (w - 2) := Int.pow_pos (by decide)
      omega⟩
    rwa [show BitVec.ofInt w 1 = 1#w by simp] at this
  | clear => exact BitVec.toInt_zero
  | load => exact ⟨rfl, rfl⟩
  | compareExchange e d =>
    have hv : v = BitVec.ofInt w e ↔ v.toInt = e := by rw [← BitVec.toInt_inj, ofInt_self hw ha.1]
    simp only [SOp.run]
    constructor
    · intro h
      rw [if_pos (hv.mpr h)]
      exact ⟨rfl, ofInt_self hw ha.2, ofInt_self hw ha.1⟩
    · intro h
      rw [if_neg (fun q => h (hv.mp q))]
      exact ⟨rfl, rfl, rfl⟩

/-- -3 and 5 in 8 bits. -/
example : ((SOp.fetchAnd 5).run .std 8 (BitVec.ofInt 8 (-3))).1.toInt = 5 ∧ ((SOp.fetchAdd 127).run .std 8 (BitVec.ofInt 8 5)).1.toInt = -124 ∧
    ((SOp.compareExchange (-3) 7).run .std 8 (BitVec.ofInt 8 (-3))) = (7#8, -3, true) := by decide

/-- This says all: what the object holds afterwards is determined, and what is returned by the operations that return something. -/
theorem C104_determined (w : Nat) (hw : 1 < w) (op : SOp) (ha : ArgsFit w op) (x x₁ x₂ r₁ r₂ : Int) (f₁ f₂ : Bool) (h₁ : Meets w op x x₁ r₁ f₁) (h₂ : Meets w op x x₂ r₂ f₂) :
    x₁ = x₂ ∧ ((∀ y, op ≠ .store y) → op ≠ .clear → r₁ = r₂) := by
  obtain ⟨k1, g1⟩ := h₁
  obtain ⟨k2, g2⟩ := h₂
  have two : ∀ z k k' : Int, x₁ = z + k * 2 ^ w → x₂ = z + k' * 2 ^ w → x₁ = x₂ := fun z k k' e1 e2 => fits_unique hw (k := k - k') k1 k2 (by rw [Int.sub_mul]; omega)
  cases op with
  | fetchAdd y => obtain ⟨rfl, k, e1⟩ := g1; obtain ⟨rfl, k', e2⟩ := g2; exact ⟨two _ k k' e1 e2, fun _ _ => rfl⟩
  | fetchSub y => obtain ⟨rfl, k, e1⟩ := g1; obtain ⟨rfl, k', e2⟩ := g2; exact ⟨two _ k k' e1 e2, fun _ _ => rfl⟩
  | fetchAnd y | fetchOr y | fetchXor y =>
    exact ⟨bits_unique hw k1 k2 (fun i => (g1.2 i).trans (g2.2 i).symm), fun _ _ => g1.1.trans g2.1.symm⟩
  | exchange y | testAndSet | load => exact ⟨g1.2.trans g2.2.symm, fun _ _ => g1.1.trans g2.1.symm⟩
  | store y => exact ⟨g1.trans g2.symm, fun h => absurd rfl (h y)⟩
  | clear => exact ⟨g1.trans g2.symm, fun _ h => absurd rfl h⟩
  | compareExchange e d =>
    by_cases h : x = e
    · obtain ⟨-, a, c⟩ := g1.1 h; obtain ⟨-, a', c'⟩ := g2.1 h; exact ⟨a.trans a'.symm, fun _ _ => c.trans c'.symm⟩
    · obtain ⟨-, a, c⟩ := g1.2 h; obtain ⟨-, a', c'⟩ := g2.2 h; exact ⟨a.trans a'.symm, fun _ _ => c.trans c'.symm⟩

/-- In particular sums that fit are exact. -/
theorem C104_exact (b : Build) (w : Nat) (hw : 1 < w) (y : Int) (hy : Fits w y) (v : BitVec w) :
    (Fits w (v.toInt + y) → ((SOp.fetchAdd y).run b w v).1.toInt = v.toInt + y) ∧ (Fits w (v.toInt - y) → ((SOp.fetchSub y).run b w v).1.toInt = v.toInt - y) := by
  constructor
  · intro h
    obtain ⟨k, e⟩ := wrap (v + BitVec.ofInt w y) (v.toInt + y) (by rw [BitVec.toInt_add, ofInt_self hw hy])
    exact fits_unique hw (fits _) h e
  · intro h
    obtain ⟨k, e⟩ := wrap (v - BitVec.ofInt w y) (v.toInt - y) (by rw [BitVec.toInt_sub, ofInt_self hw hy])
    exact fits_unique hw (fits _) h e

example : Fits 32 ((BitVec.ofInt 32 (-7)).toInt + 9) ∧ ((SOp.fetchAdd 9).run .tcc 32 (BitVec.ofInt 32 (-7))).1.toInt = 2 := by
  refine ⟨?_, by decide⟩
  simp [Fits]

/-- With tcc on other processors than x86 the 32-bit `fetch_add` returns the old number exactly if it is one of the first 65536. -/
theorem C104_tcc_add (y : Int) (v : BitVec 32) : ((SOp.fetchAdd y).run .tcc 32 v).2.1 = v.toInt ↔ 0 ≤ v.toInt ∧ v.toInt < 65536 := by
  simp only [SOp.run, addResult, if_true]
  have hlt := v.isLt
  have e : (BitVec.setWidth 32 (BitVec.setWidth 16 v)).toNat = v.toNat % 65536 := by simp [BitVec.toNat_setWidth]; omega
  rw [BitVec.toInt_eq_toNat_cond, BitVec.toInt_eq_toNat_cond, e]
  split <;> split <;> omega

example : ((SOp.fetchAdd 1).run .tcc 32 (BitVec.ofInt 32 (-1))).2.1 = 65535 := by decide

end Verif.Props
