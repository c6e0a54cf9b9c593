import Verif.Spec.Word
namespace Verif.Wv
open Spec

theorem encL_length (k n : Nat) : (encL k n).length = k := by
  induction k generalizing n with
  | zero => rfl
  | succ k ih => simp [encL, ih]

theorem enc_length (m : Mach) (k n : Nat) : (enc m k n).length = k := by unfold enc; split <;> simp [encL_length]

theorem decL_encL (k n : Nat) : decL (encL k n) = n % 256 ^ k := by
  induction k generalizing n with
  | zero => simp [encL, decL, Nat.mod_one]
  | succ k ih =>
    have e : (UInt8.ofNat (n % 256)).toNat = n % 256 := by simp
    simp only [encL, decL, ih, e]
    rw [Nat.pow_succ, Nat.mul_comm (256 ^ k), Nat.mod_mul]

theorem take_encL (w k n : Nat) (h : w ≤ k) : (encL k n).take w = encL w n := by
  induction w generalizing k n with
  | zero => rfl
  | succ w ih =>
    cases k with
    | zero => omega
    | succ k => simp only [encL, List.take_succ_cons, ih k _ (by omega)]

theorem drop_encL (j k n : Nat) : (encL (k + j) n).drop j = encL k (n / 256 ^ j) := by
  induction j generalizing n with
  | zero => simp
  | succ j ih =>
    rw [show k + (j + 1) = (k + j) + 1 by omega]
    simp only [encL, List.drop_succ_cons, ih]
    rw [Nat.div_div_eq_div_mul, Nat.pow_succ, Nat.mul_comm]

theorem decL_append (a b : List UInt8) : decL (a ++ b) = decL a + 256 ^ a.length * decL b := by
  induction a with
  | nil => simp [decL]
  | cons c a ih =>
    simp only [List.cons_append, decL, ih, List.length_cons, Nat.pow_succ]
    rw [Nat.mul_add, Nat.mul_comm (256 ^ a.length) 256]
    simp only [Nat.mul_assoc, Nat.add_assoc]

theorem decL_zeros (n : Nat) : decL (List.replicate n 0) = 0 := by
  induction n with
  | zero => rfl
  | succ n ih => simp [List.replicate_succ, decL, ih]

/-- A number kept in as many bytes as are read. -/
theorem dec_enc (m : Mach) (k n : Nat) : dec m (enc m k n) = n % 256 ^ k := by
  unfold dec enc
  split <;> simp [decL_encL]

theorem take_enc_append (m : Mach) (k n : Nat) (r : List UInt8) : (enc m k n ++ r).take k = enc m k n :=
  List.take_left' (enc_length m k n)

/-- Read back in its own type. -/
theorem read_own (m : Mach) (t : Ty) (ht : Ty.Real t) (x : Int) (hx : Ty.Has t x) (r : List UInt8) :
    t.read m (enc m t.width (x % 256 ^ t.width).toNat ++ r) = x := by
  unfold Ty.read
  rw [take_enc_append, dec_enc]
  unfold Ty.Has at hx
  rcases ht with h | h | h | h <;> rw [h] at hx ⊢ <;> cases hs : t.signed <;> simp [hs] at hx ⊢ <;> (try split) <;> omega

/-- The lowest bytes come first. -/
theorem dec_little {m : Mach} (hm : m.big = false) (w k n : Nat) (r : List UInt8) (h : w ≤ k) :
    dec m ((enc m k n ++ r).take w) = n % 256 ^ w := by
  unfold dec enc
  simp only [hm, Bool.false_eq_true, if_false]
  rw [List.take_append_of_le_length (by rw [encL_length]; exact h), take_encL _ _ _ h, decL_encL]

/-- The highest bytes come first. -/
theorem dec_big {m : Mach} (hm : m.big = true) (w j n : Nat) (r : List UInt8) :
    dec m ((enc m (w + j) n ++ r).take w) = n / 256 ^ j % 256 ^ w := by
  unfold dec enc
  simp only [hm, if_true]
  rw [List.take_append_of_le_length (by simp [encL_length])]
  have : ((encL (w + j) n).reverse.take w).reverse = (encL (w + j) n).drop j := by
    rw [List.take_reverse, List.reverse_reverse, encL_length]
    congr 1; omega
  rw [this, drop_encL, decL_encL]

end Verif.Wv
