import Verif.Spec.Endian
/-!
# C77: byte order and differences of times
-/
namespace Verif.Props
open Verif Verif.En

namespace C77

theorem swap16 (x : BitVec 16) : (ntohs false x).toNat = x.toNat % 256 * 256 + x.toNat / 256 := by
  have hx := x.isLt
  have h : x <<< 8 ||| x >>> 8 = x <<< 8 + x >>> 8 := by
    symm
    apply BitVec.add_eq_or_of_and_eq_zero
    apply BitVec.eq_of_getLsbD_eq
    intro i hi
    simp only [BitVec.getLsbD_and, BitVec.getLsbD_shiftLeft, BitVec.getLsbD_ushiftRight, BitVec.getLsbD_zero]
    by_cases c : i < 8
    · simp [c]
    · have : x.getLsbD (8 + i) = false := BitVec.getLsbD_of_ge _ _ (by omega)
      simp [this]
  simp only [ntohs, Bool.false_eq_true, if_false, h]
  rw [BitVec.toNat_add, BitVec.toNat_shiftLeft, BitVec.toNat_ushiftRight, Nat.shiftLeft_eq, Nat.shiftRight_eq_div_pow]
  omega

theorem or_add {w : Nat} (a b : BitVec w) (h : ∀ i, i < w → (a.getLsbD i && b.getLsbD i) = false) : a ||| b = a + b := by
  symm
  apply BitVec.add_eq_or_of_and_eq_zero
  apply BitVec.eq_of_getLsbD_eq
  intro i hi
  rw [BitVec.getLsbD_and, h i hi, BitVec.getLsbD_zero]

theorem mask (i : Nat) : (0xFF00 : BitVec 32).getLsbD i = (decide (8 ≤ i) && decide (i < 16)) := by
  by_cases c : i < 32
  · have : ∀ i : Fin 32, (0xFF00 : BitVec 32).getLsbD i.val = (decide (8 ≤ i.val) && decide (i.val < 16)) := by decide
    exact this ⟨i, c⟩
  · rw [BitVec.getLsbD_of_ge _ _ (by omega)]
    have : ¬ i < 16 := by omega
    simp [this]

theorem maskNat (y : BitVec 32) : (y &&& (0xFF00 : BitVec 32)).toNat = y.toNat / 256 % 256 * 256 := by
  have h : y &&& (0xFF00 : BitVec 32) = ((y >>> 8).setWidth 8).setWidth 32 <<< 8 := by
    apply BitVec.eq_of_getLsbD_eq
    intro i hi
    rw [BitVec.getLsbD_and, mask, BitVec.getLsbD_shiftLeft, BitVec.getLsbD_setWidth, BitVec.getLsbD_setWidth, BitVec.getLsbD_ushiftRight]
    by_cases a : i < 8
    · simp [a]
      omega
    · have e : 8 + (i - 8) = i := by omega
      rw [e]
      by_cases b : i < 16
      · have : i - 8 < 8 := by omega
        have : i - 8 < 32 := by omega
        have : 8 ≤ i := by omega
        simp [*]
      · have : ¬ i - 8 < 8 := by omega
        simp [*]
  have hy := y.isLt
  rw [h, BitVec.toNat_shiftLeft, BitVec.toNat_setWidth, BitVec.toNat_setWidth, BitVec.toNat_ushiftRight, Nat.shiftLeft_eq, Nat.shiftRight_eq_div_pow]
  omega

theorem bytes (n : Nat) (h : n < 2 ^ 32) : ∃ a b c d, a < 256 ∧ b < 256 ∧ c < 256 ∧ d < 256 ∧ n = a + 256 * b + 2 ^ 16 * c + 2 ^ 24 * d :=
  ⟨n % 256, n / 256 % 256, n / 2 ^ 16 % 256, n / 2 ^ 24, by omega, by omega, by omega, by omega, by omega⟩

theorem swap32 (x : BitVec 32) (a b c d : Nat) (ha : a < 256) (hb : b < 256) (hc : c < 256) (hd : d < 256) (h : x.toNat = a + 256 * b + 2 ^ 16 * c + 2 ^ 24 * d) :
    (ntohl false x).toNat = d + 256 * c + 2 ^ 16 * b + 2 ^ 24 * a := by
  have m : ∀ i, (0xFF00 : BitVec 32).getLsbD i = (decide (8 ≤ i) && decide (i < 16)) := mask
  have e : ntohl false x = x <<< 24 + (x &&& (0xFF00 : BitVec 32)) <<< 8 + (x >>> 8 &&& (0xFF00 : BitVec 32)) + x >>> 24 := by
    simp only [ntohl, Bool.false_eq_true, if_false]
    rw [or_add, or_add, or_add]
    · intro i hi
      simp only [BitVec.getLsbD_shiftLeft, BitVec.getLsbD_and, m]
      by_cases c : i < 24
      · simp [c]
      · have : ¬ i - 8 < 16 := by omega
        simp [this]
    · intro i hi
      simp only [BitVec.getLsbD_or, BitVec.getLsbD_shiftLeft, BitVec.getLsbD_and, m]
      by_cases c : i < 16
      · have : i < 24 := by omega
        have : ¬ 8 ≤ i - 8 := by omega
        simp [*]
      · simp [c]
    · intro i hi
      by_cases c : i < 8
      · simp only [BitVec.getLsbD_or, BitVec.getLsbD_shiftLeft, BitVec.getLsbD_and, m]
        have : i < 24 := by omega
        have : ¬ 8 ≤ i := by omega
        simp [*]
      · rw [BitVec.getLsbD_ushiftRight, BitVec.getLsbD_of_ge _ _ (by omega : 32 ≤ 24 + i), Bool.and_false]
  have e1 : (x <<< 24).toNat = 2 ^ 24 * a := by
    rw [BitVec.toNat_shiftLeft, Nat.shiftLeft_eq, h]; omega
  have e2 : ((x &&& (0xFF00 : BitVec 32)) <<< 8).toNat = 2 ^ 16 * b := by
    rw [BitVec.toNat_shiftLeft, Nat.shiftLeft_eq, maskNat, h]; omega
  have e3 : (x >>> 8 &&& (0xFF00 : BitVec 32)).toNat = 256 * c := by
    rw [maskNat, BitVec.toNat_ushiftRight, Nat.shiftRight_eq_div_pow, h]; omega
  have e4 : (x >>> 24).toNat = d := by
    rw [BitVec.toNat_ushiftRight, Nat.shiftRight_eq_div_pow, h]; omega
  rw [e, BitVec.toNat_add, BitVec.toNat_add, BitVec.toNat_add, e1, e2, e3, e4]
  omega

theorem swap64 (x : BitVec 64) :
    (ntohll false x).toNat = (ntohl false (x.setWidth 32)).toNat * 2 ^ 32 + (ntohl false ((x >>> 32).setWidth 32)).toNat := by
  have w : (x &&& (0xFFFFFFFF : BitVec 64)).setWidth 32 = x.setWidth 32 := by
    apply BitVec.eq_of_toNat_eq
    rw [BitVec.toNat_setWidth, BitVec.toNat_setWidth, BitVec.toNat_and, show (0xFFFFFFFF : BitVec 64).toNat = 2 ^ 32 - 1 from rfl, Nat.and_two_pow_sub_one_eq_mod, Nat.mod_mod]
  have n : ¬ (1 = ntohl false 1) := by decide
  simp only [ntohll, if_neg n, w]
  rw [or_add]
  · rw [BitVec.toNat_add, BitVec.toNat_shiftLeft, BitVec.toNat_setWidth, BitVec.toNat_setWidth, Nat.shiftLeft_eq]
    have h1 := (ntohl false (x.setWidth 32)).isLt
    have h2 := (ntohl false ((x >>> 32).setWidth 32)).isLt
    omega
  · intro i hi
    rw [BitVec.getLsbD_shiftLeft, BitVec.getLsbD_setWidth, BitVec.getLsbD_setWidth]
    by_cases c : i < 32
    · simp [c]
    · rw [BitVec.getLsbD_of_ge (ntohl false ((x >>> 32).setWidth 32)) i (by omega)]
      simp

theorem mem2 (big : Bool) (v : Nat) : Spec.memory big 2 v = if big then [v / 256 % 256, v % 256] else [v % 256, v / 256 % 256] := by
  cases big <;> simp [Spec.memory, List.range, List.range.loop]

theorem mem4 (big : Bool) (v : Nat) : Spec.memory big 4 v =
    if big then [v / 2 ^ 24 % 256, v / 2 ^ 16 % 256, v / 256 % 256, v % 256] else [v % 256, v / 256 % 256, v / 2 ^ 16 % 256, v / 2 ^ 24 % 256] := by
  cases big <;> simp [Spec.memory, List.range, List.range.loop]

theorem mem4' (big : Bool) (a b c d : Nat) (ha : a < 256) (hb : b < 256) (hc : c < 256) (hd : d < 256) :
    Spec.memory big 4 (a + 256 * b + 2 ^ 16 * c + 2 ^ 24 * d) = if big then [d, c, b, a] else [a, b, c, d] := by
  rw [mem4]
  have e1 : (a + 256 * b + 2 ^ 16 * c + 2 ^ 24 * d) / 256 = b + 256 * c + 2 ^ 16 * d := by omega
  have e2 : (a + 256 * b + 2 ^ 16 * c + 2 ^ 24 * d) / 2 ^ 16 = c + 256 * d := by omega
  have e3 : (a + 256 * b + 2 ^ 16 * c + 2 ^ 24 * d) / 2 ^ 24 = d := by omega
  have f0 : (a + 256 * b + 2 ^ 16 * c + 2 ^ 24 * d) % 256 = a := by omega
  have f1 : (b + 256 * c + 2 ^ 16 * d) % 256 = b := by omega
  have f2 : (c + 256 * d) % 256 = c := by omega
  rw [e1, e2, e3, f0, f1, f2, Nat.mod_eq_of_lt hd]

theorem one (c : BitVec 64) : ntohll true c = c := rfl

theorem mem8 (big : Bool) (v : Nat) : Spec.memory big 8 v =
    if big then Spec.memory true 4 (v / 2 ^ 32) ++ Spec.memory true 4 (v % 2 ^ 32) else Spec.memory false 4 (v % 2 ^ 32) ++ Spec.memory false 4 (v / 2 ^ 32) := by
  cases big <;> simp only [Spec.memory, List.range, List.range.loop, List.map_cons, List.map_nil, List.cons_append, List.nil_append, Bool.false_eq_true, if_false, if_true,
    List.cons.injEq, and_true] <;> refine ⟨?_, ?_, ?_, ?_, ?_, ?_, ?_, ?_⟩ <;> omega

end C77

/-- Written to memory, a converted number has its high byte first on every machine. -/
theorem C77_big_first (big : Bool) (a : BitVec 16) (b : BitVec 32) (c : BitVec 64) :
    Spec.memory big 2 (htobe16 big a).toNat = Spec.memory true 2 a.toNat ∧
    Spec.memory big 4 (htobe32 big b).toNat = Spec.memory true 4 b.toNat ∧
    Spec.memory big 8 (htobe64 big c).toNat = Spec.memory true 8 c.toNat := by
  have h32 : ∀ b : BitVec 32, Spec.memory false 4 (ntohl false b).toNat = Spec.memory true 4 b.toNat := by
    intro b
    have hb := b.isLt
    obtain ⟨p, q, r, s, hp, hq, hr, hs, e⟩ := C77.bytes _ hb
    rw [C77.swap32 b p q r s hp hq hr hs e, e, C77.mem4' _ _ _ _ _ hs hr hq hp, C77.mem4' _ _ _ _ _ hp hq hr hs]
    rfl
  cases big with
  | true =>
    exact ⟨by simp [htobe16, ntohs], by simp [htobe32, ntohl], by rw [htobe64, C77.one]⟩
  | false =>
    refine ⟨?_, h32 b, ?_⟩
    · have ha := a.isLt
      have e : (a.toNat % 256 * 256 + a.toNat / 256) / 256 = a.toNat % 256 := by omega
      rw [C77.mem2, C77.mem2, htobe16, C77.swap16, e]
      simp only [Bool.false_eq_true, if_false, if_true, List.cons.injEq, and_true]
      refine ⟨?_, ?_⟩ <;> omega
    · have hc := c.isLt
      rw [C77.mem8, C77.mem8, htobe64, C77.swap64]
      have l1 := (ntohl false (c.setWidth 32)).isLt
      have l2 := (ntohl false ((c >>> 32).setWidth 32)).isLt
      have e1 : ((ntohl false (c.setWidth 32)).toNat * 2 ^ 32 + (ntohl false ((c >>> 32).setWidth 32)).toNat) % 2 ^ 32 = (ntohl false ((c >>> 32).setWidth 32)).toNat := by omega
      have e2 : ((ntohl false (c.setWidth 32)).toNat * 2 ^ 32 + (ntohl false ((c >>> 32).setWidth 32)).toNat) / 2 ^ 32 = (ntohl false (c.setWidth 32)).toNat := by omega
      rw [e1, e2, h32, h32]
      simp only [Bool.false_eq_true, if_false, if_true, BitVec.toNat_setWidth, BitVec.toNat_ushiftRight, Nat.shiftRight_eq_div_pow]
      rw [Nat.mod_eq_of_lt (by omega : c.toNat / 2 ^ 32 < 2 ^ 32)]

example : Spec.memory false 4 (htobe32 false 0x01020304).toNat = [1, 2, 3, 4] ∧ Spec.memory false 8 (htobe64 false 0x0102030405060708).toNat = [1, 2, 3, 4, 5, 6, 7, 8] := by decide +kernel

/-- Reading back what was converted gives the number. -/
theorem C77_inverse (big : Bool) (a : BitVec 16) (b : BitVec 32) (c : BitVec 64) :
    be16toh big (htobe16 big a) = a ∧ be32toh big (htobe32 big b) = b ∧ be64toh big (htobe64 big c) = c := by
  have h32 : ∀ b : BitVec 32, ntohl false (ntohl false b) = b := by
    intro b
    have hb := b.isLt
    apply BitVec.eq_of_toNat_eq
    obtain ⟨p, q, r, s, hp, hq, hr, hs, e⟩ := C77.bytes _ hb
    rw [C77.swap32 (ntohl false b) s r q p hs hr hq hp (C77.swap32 b p q r s hp hq hr hs e), e]
  cases big with
  | true =>
    exact ⟨rfl, rfl, by rw [htobe64, be64toh, C77.one, C77.one]⟩
  | false =>
    refine ⟨?_, h32 b, ?_⟩
    · apply BitVec.eq_of_toNat_eq
      have := a.isLt
      rw [be16toh, htobe16, C77.swap16, C77.swap16]
      omega
    · apply BitVec.eq_of_toNat_eq
      have hc := c.isLt
      have l1 := (ntohl false (c.setWidth 32)).isLt
      have l2 := (ntohl false ((c >>> 32).setWidth 32)).isLt
      have e1 : (ntohll false c).setWidth 32 = ntohl false ((c >>> 32).setWidth 32) := by
        apply BitVec.eq_of_toNat_eq
        rw [BitVec.toNat_setWidth, C77.swap64]
        omega
      have e2 : (ntohll false c >>> 32).setWidth 32 = ntohl false (c.setWidth 32) := by
        apply BitVec.eq_of_toNat_eq
        rw [BitVec.toNat_setWidth, BitVec.toNat_ushiftRight, C77.swap64, Nat.shiftRight_eq_div_pow]
        omega
      rw [be64toh, htobe64, C77.swap64, e1, e2, h32, h32, BitVec.toNat_setWidth, BitVec.toNat_setWidth, BitVec.toNat_ushiftRight, Nat.shiftRight_eq_div_pow]
      omega

/-- The difference of two normal times is exact and normal whenever its seconds fit (`n`: bits of `long`), whichever of the pointers are equal, and nothing else changes. -/
theorem C77_difference (n : Nat) (hn : 32 ≤ n) (m : Nat → TV) (t u v : Nat) (ht : Spec.Normal (m t)) (hu : Spec.Normal (m u))
    (hlo : -(2 : Int) ^ (n - 1) < (m t).sec - (m u).sec) (hhi : (m t).sec - (m u).sec < (2 : Int) ^ (n - 1)) :
    ∃ m', timersub n m t u v = some m' ∧ Spec.micros (m' v) = Spec.micros (m t) - Spec.micros (m u) ∧ Spec.Normal (m' v) ∧ ∀ q, q ≠ v → m' q = m q := by
  obtain ⟨t1, t2⟩ := ht
  obtain ⟨u1, u2⟩ := hu
  have big : (2 : Int) ^ 31 ≤ (2 : Int) ^ (n - 1) := by
    have := Nat.pow_le_pow_right (show 0 < 2 by decide) (show 31 ≤ n - 1 by omega)
    exact_mod_cast this
  have fits : ∀ x : Int, -(2 : Int) ^ (n - 1) ≤ x → x < (2 : Int) ^ (n - 1) → long n x = some x := fun x h1 h2 => if_pos ⟨h1, h2⟩
  have su : ∀ (m : Nat → TV) (p q : Nat) (x : Int), (setSec m p x q).usec = (m q).usec := by
    intro m p q x
    unfold setSec
    split
    · next h => rw [h]
    · rfl
  have us : ∀ (m : Nat → TV) (p q : Nat) (x : Int), (setUsec m p x q).sec = (m q).sec := by
    intro m p q x
    unfold setUsec
    split
    · next h => rw [h]
    · rfl
  have ss : ∀ (m : Nat → TV) (p : Nat) (x : Int), (setSec m p x p).sec = x := by intro m p x; simp [setSec]
  have uu : ∀ (m : Nat → TV) (p : Nat) (x : Int), (setUsec m p x p).usec = x := by intro m p x; simp [setUsec]
  have os : ∀ (m : Nat → TV) (p q : Nat) (x : Int), q ≠ p → setSec m p x q = m q := by intro m p q x h; simp [setSec, h]
  have ou : ∀ (m : Nat → TV) (p q : Nat) (x : Int), q ≠ p → setUsec m p x q = m q := by intro m p q x h; simp [setUsec, h]
  simp only [timersub]
  rw [fits _ (by omega) hhi]
  simp only [Option.bind_eq_bind, Option.bind_some, su]
  rw [fits _ (by omega) (by omega)]
  simp only [Option.bind_some, uu]
  split
  · next hneg =>
    rw [us, ss, fits _ (by omega) (by omega)]
    simp only [Option.bind_some]
    rw [fits _ (by omega) (by omega)]
    refine ⟨_, rfl, ?_, ⟨?_, ?_⟩, ?_⟩
    · simp only [Spec.micros, us, uu, ss]; omega
    · rw [uu]; omega
    · rw [uu]; omega
    · intro q hq
      rw [ou _ _ _ _ hq, os _ _ _ _ hq, ou _ _ _ _ hq, os _ _ _ _ hq]
  · next hpos =>
    refine ⟨_, rfl, ?_, ⟨?_, ?_⟩, ?_⟩
    · simp only [Spec.micros, us, uu, ss]; omega
    · rw [uu]; omega
    · rw [uu]; omega
    · intro q hq
      rw [ou _ _ _ _ hq, os _ _ _ _ hq]

/-- Five seconds and a half less two and seven tenths, stored in the first. -/
example : (timersub 32 (fun p => if p = 0 then ⟨5, 500000⟩ else ⟨2, 700000⟩) 0 1 0).map (· 0) = some ⟨2, 800000⟩ := by decide

/-- The same for `timespecsub`: the difference of two normal times is exact and normal whenever its seconds fit (`n`: bits of `long`), whichever of the pointers are equal, and nothing else changes. -/
theorem C77_difference_nanos (n : Nat) (hn : 32 ≤ n) (m : Nat → TV) (t u v : Nat) (ht : Spec.NormalNs (m t)) (hu : Spec.NormalNs (m u))
    (hlo : -(2 : Int) ^ (n - 1) < (m t).sec - (m u).sec) (hhi : (m t).sec - (m u).sec < (2 : Int) ^ (n - 1)) :
    ∃ m', timespecsub n m t u v = some m' ∧ Spec.nanos (m' v) = Spec.nanos (m t) - Spec.nanos (m u) ∧ Spec.NormalNs (m' v) ∧ ∀ q, q ≠ v → m' q = m q := by
  obtain ⟨t1, t2⟩ := ht
  obtain ⟨u1, u2⟩ := hu
  have big : (2 : Int) ^ 31 ≤ (2 : Int) ^ (n - 1) := by
    have := Nat.pow_le_pow_right (show 0 < 2 by decide) (show 31 ≤ n - 1 by omega)
    exact_mod_cast this
  have fits : ∀ x : Int, -(2 : Int) ^ (n - 1) ≤ x → x < (2 : Int) ^ (n - 1) → long n x = some x := fun x h1 h2 => if_pos ⟨h1, h2⟩
  have su : ∀ (m : Nat → TV) (p q : Nat) (x : Int), (setSec m p x q).usec = (m q).usec := by
    intro m p q x
    unfold setSec
    split
    · next h => rw [h]
    · rfl
  have us : ∀ (m : Nat → TV) (p q : Nat) (x : Int), (setUsec m p x q).sec = (m q).sec := by
    intro m p q x
    unfold setUsec
    split
    · next h => rw [h]
    · rfl
  have ss : ∀ (m : Nat → TV) (p : Nat) (x : Int), (setSec m p x p).sec = x := by intro m p x; simp [setSec]
  have uu : ∀ (m : Nat → TV) (p : Nat) (x : Int), (setUsec m p x p).usec = x := by intro m p x; simp [setUsec]
  have os : ∀ (m : Nat → TV) (p q : Nat) (x : Int), q ≠ p → setSec m p x q = m q := by intro m p q x h; simp [setSec, h]
  have ou : ∀ (m : Nat → TV) (p q : Nat) (x : Int), q ≠ p → setUsec m p x q = m q := by intro m p q x h; simp [setUsec, h]
  simp only [timespecsub]
  rw [fits _ (by omega) hhi]
  simp only [Option.bind_eq_bind, Option.bind_some, su]
  rw [fits _ (by omega) (by omega)]
  simp only [Option.bind_some, uu]
  split
  · next hneg =>
    rw [us, ss, fits _ (by omega) (by omega)]
    simp only [Option.bind_some]
    rw [fits _ (by omega) (by omega)]
    refine ⟨_, rfl, ?_, ⟨?_, ?_⟩, ?_⟩
    · simp only [Spec.nanos, us, uu, ss]; omega
    · rw [uu]; omega
    · rw [uu]; omega
    · intro q hq
      rw [ou _ _ _ _ hq, os _ _ _ _ hq, ou _ _ _ _ hq, os _ _ _ _ hq]
  · next hpos =>
    refine ⟨_, rfl, ?_, ⟨?_, ?_⟩, ?_⟩
    · simp only [Spec.nanos, us, uu, ss]; omega
    · rw [uu]; omega
    · rw [uu]; omega
    · intro q hq
      rw [ou _ _ _ _ hq, os _ _ _ _ hq]

/-- Five seconds and a half less two and seven tenths, stored in the first. -/
example : (timespecsub 32 (fun p => if p = 0 then ⟨5, 500000000⟩ else ⟨2, 700000000⟩) 0 1 0).map (· 0) = some ⟨2, 800000000⟩ := by decide

end Verif.Props
