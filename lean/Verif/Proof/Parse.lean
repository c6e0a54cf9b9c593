import Verif.Proof.StrScan
import Verif.Model.Digits
import Verif.Spec.Numbers
/-!
# Decimal and hexadecimal parsing
-/
namespace Verif

theorem bytes_append (m : Mem) (p a b : Nat) : m.bytes p (a + b) = m.bytes p a ++ m.bytes (p + a) b := by
  rw [Mem.bytes_eq_map, Mem.bytes_eq_map, Mem.bytes_eq_map, List.range_add, List.map_append, List.map_map]
  congr 1
  apply List.map_congr_left
  intro i _
  simp [Nat.add_assoc]

theorem le_replicate_zero (n : Nat) : le (List.replicate n 0) = 0 := by
  induction n with
  | zero => rfl
  | succ n ih => rw [List.replicate_succ, le, ih]

theorem applyLen_eq (m : Mem) (s len : Nat) (junk : W) (h : len ≤ 8) :
    applyLen (cast64 m s) len junk = wordOf (List.replicate (8 - len) 0 ++ m.bytes s len) := by
  unfold applyLen
  by_cases h0 : len = 0
  · subst h0
    simp [Mem.bytes]
    decide
  · rw [if_pos (by omega), BitVec.and_allOnes]
    unfold shlC
    rw [if_pos (by omega), cast64_eq]
    apply BitVec.eq_of_toNat_eq
    have hb : Bytes (List.replicate (8 - len) 0 ++ m.bytes s len) := by
      intro b hb
      rcases List.mem_append.1 hb with h | h
      · rw [List.eq_of_mem_replicate h]; decide
      · exact Mem.bytes_Bytes _ _ _ _ h
    rw [BitVec.toNat_shiftLeft, toNat_wordOf (Mem.bytes_Bytes _ _ _) (Mem.bytes_length _ _ _),
      toNat_wordOf hb (by simp [Mem.bytes_length]; omega)]
    have h8 : m.bytes s 8 = m.bytes s len ++ m.bytes (s + len) (8 - len) := by
      rw [← bytes_append]; congr 1; omega
    rw [h8, le_append, le_append, le_replicate_zero, Mem.bytes_length, Nat.shiftLeft_eq,
      List.length_replicate]
    have e1 : 2 ^ (64 - len * 8) = 256 ^ (8 - len) := by
      rw [show (256 : Nat) = 2 ^ 8 by decide, ← Nat.pow_mul]; congr 1; omega
    have e2 : 256 ^ len * 256 ^ (8 - len) = 2 ^ 64 := by
      rw [← Nat.pow_add, show len + (8 - len) = 8 by omega]
    have hlt : le (m.bytes s len) < 256 ^ len := by
      have := le_lt (Mem.bytes_Bytes m s len); rwa [Mem.bytes_length] at this
    rw [e1]
    generalize le (m.bytes s len) = A at hlt ⊢
    generalize le (m.bytes (s + len) (8 - len)) = B
    generalize hP : 256 ^ len = P at e2 hlt ⊢
    generalize hQ : 256 ^ (8 - len) = Q at e2 ⊢
    have hQ0 : 0 < Q := by rw [← hQ]; exact Nat.pow_pos (by decide)
    have e3 : (A + P * B) * Q = A * Q + 2 ^ 64 * B := by
      rw [← e2, Nat.add_mul, Nat.mul_right_comm]
    have e4 : A * Q < 2 ^ 64 := by
      rw [← e2]; exact Nat.mul_lt_mul_of_pos_right hlt hQ0
    rw [e3, Nat.add_mul_mod_self_left, Nat.mod_eq_of_lt e4, Nat.zero_add, Nat.mul_comm]

/-! ### the three multiply-shift stages -/

theorem wordOf_toNat8 (a0 a1 a2 a3 a4 a5 a6 a7 : Nat) (h : Bytes [a0, a1, a2, a3, a4, a5, a6, a7]) :
    (wordOf [a0, a1, a2, a3, a4, a5, a6, a7]).toNat =
      a0 + 256 * (a1 + 256 * (a2 + 256 * (a3 + 256 * (a4 + 256 * (a5 + 256 * (a6 + 256 * a7)))))) := by
  rw [toNat_wordOf h rfl]; simp [le]

theorem bytes8 {a0 a1 a2 a3 a4 a5 a6 a7 : Nat} (h0 : a0 < 256) (h1 : a1 < 256) (h2 : a2 < 256)
    (h3 : a3 < 256) (h4 : a4 < 256) (h5 : a5 < 256) (h6 : a6 < 256) (h7 : a7 < 256) :
    Bytes [a0, a1, a2, a3, a4, a5, a6, a7] := by
  intro b hb
  simp only [List.mem_cons, List.not_mem_nil, or_false] at hb
  rcases hb with h|h|h|h|h|h|h|h <;> omega

/-- `& 0x00ff…`, `& 0x0000ffff…` as byte lists. -/
theorem maskFF : (0x00ff00ff00ff00ff#64 : W) = wordOf [255, 0, 255, 0, 255, 0, 255, 0] := by decide
theorem maskFFFF : (0x0000ffff0000ffff#64 : W) = wordOf [255, 255, 0, 0, 255, 255, 0, 0] := by decide
theorem mask0F : (0x0f0f0f0f0f0f0f0f#64 : W) = wordOf (List.replicate 8 15) := by decide
theorem mask40 : (0x4040404040404040#64 : W) = wordOf (List.replicate 8 64) := by decide

theorem and_maskFF {a0 a1 a2 a3 a4 a5 a6 a7 : Nat} (h : Bytes [a0, a1, a2, a3, a4, a5, a6, a7]) :
    wordOf [a0, a1, a2, a3, a4, a5, a6, a7] &&& 0x00ff00ff00ff00ff#64 = wordOf [a0, 0, a2, 0, a4, 0, a6, 0] := by
  rw [maskFF, wordOf_and h (bytes8 (by decide) (by decide) (by decide) (by decide) (by decide) (by decide)
    (by decide) (by decide)) rfl rfl]
  have h255 : ∀ x < 256, x &&& 255 = x := by decide +kernel
  simp only [List.zipWith, Nat.and_zero]
  rw [h255 a0 (h _ (by simp)), h255 a2 (h _ (by simp)), h255 a4 (h _ (by simp)), h255 a6 (h _ (by simp))]

theorem and_maskFFFF {a0 a1 a2 a3 a4 a5 a6 a7 : Nat} (h : Bytes [a0, a1, a2, a3, a4, a5, a6, a7]) :
    wordOf [a0, a1, a2, a3, a4, a5, a6, a7] &&& 0x0000ffff0000ffff#64 = wordOf [a0, a1, 0, 0, a4, a5, 0, 0] := by
  rw [maskFFFF, wordOf_and h (bytes8 (by decide) (by decide) (by decide) (by decide) (by decide) (by decide)
    (by decide) (by decide)) rfl rfl]
  have h255 : ∀ x < 256, x &&& 255 = x := by decide +kernel
  simp only [List.zipWith, Nat.and_zero]
  rw [h255 a0 (h _ (by simp)), h255 a1 (h _ (by simp)), h255 a4 (h _ (by simp)), h255 a5 (h _ (by simp))]

theorem mod_div_of {X : Nat} (q y r B : Nat) (h : X = 2 ^ 64 * q + (B * y + r)) (hr : r < B)
    (hlt : B * y + r < 2 ^ 64) : X % 2 ^ 64 / B = y := by
  rw [h, Nat.mul_add_mod, Nat.mod_eq_of_lt hlt, Nat.mul_add_div (by omega), Nat.div_eq_of_lt hr]
  rfl

theorem dec_stage1 (d0 d1 d2 d3 d4 d5 d6 d7 : Nat) (h0 : d0 < 10) (h1 : d1 < 10) (h2 : d2 < 10)
    (h3 : d3 < 10) (h4 : d4 < 10) (h5 : d5 < 10) (h6 : d6 < 10) (h7 : d7 < 10) :
    (wordOf [d0, d1, d2, d3, d4, d5, d6, d7] * ((1#64 <<< 8) * 10#64 + 1#64)) >>> 8
      = wordOf [10 * d0 + d1, 10 * d1 + d2, 10 * d2 + d3, 10 * d3 + d4, 10 * d4 + d5, 10 * d5 + d6,
        10 * d6 + d7, 0] := by
  apply BitVec.eq_of_toNat_eq
  rw [wordOf_toNat8 _ _ _ _ _ _ _ _ (bytes8 (by omega) (by omega) (by omega) (by omega)
      (by omega) (by omega) (by omega) (by omega)), BitVec.toNat_ushiftRight, BitVec.toNat_mul,
    wordOf_toNat8 _ _ _ _ _ _ _ _ (bytes8 (by omega) (by omega) (by omega) (by omega)
      (by omega) (by omega) (by omega) (by omega)),
    show ((1#64 <<< 8) * 10#64 + 1#64).toNat = 2561 by decide, Nat.shiftRight_eq_div_pow]
  exact mod_div_of (10 * d7) _ d0 256 (by omega) (by omega) (by omega)

theorem dec_stage2 (e0 e1 e2 e3 p0 q0 p1 q1 p2 q2 : Nat) (h0 : e0 < 100) (h1 : e1 < 100)
    (h2 : e2 < 100) (h3 : e3 < 100) (f0 : p0 + 256 * q0 = 100 * e0 + e1)
    (f1 : p1 + 256 * q1 = 100 * e1 + e2) (f2 : p2 + 256 * q2 = 100 * e2 + e3)
    (g0 : p0 < 256) (g1 : p1 < 256) (g2 : p2 < 256) :
    (wordOf [e0, 0, e1, 0, e2, 0, e3, 0] * ((1#64 <<< 16) * 100#64 + 1#64)) >>> 16
      = wordOf [p0, q0, p1, q1, p2, q2, 0, 0] := by
  apply BitVec.eq_of_toNat_eq
  rw [wordOf_toNat8 _ _ _ _ _ _ _ _ (bytes8 (by omega) (by omega) (by omega) (by omega)
      (by omega) (by omega) (by omega) (by omega)), BitVec.toNat_ushiftRight, BitVec.toNat_mul,
    wordOf_toNat8 _ _ _ _ _ _ _ _ (bytes8 (by omega) (by omega) (by omega) (by omega)
      (by omega) (by omega) (by omega) (by omega)),
    show ((1#64 <<< 16) * 100#64 + 1#64).toNat = 6553601 by decide, Nat.shiftRight_eq_div_pow]
  exact mod_div_of (100 * e3) _ e0 65536 (by omega) (by omega) (by omega)

theorem dec_stage3 (a b p0 q0 p2 q2 : Nat) (ha : a < 10000) (hb : b < 10000)
    (f0 : p0 + 256 * q0 = a) (f2 : p2 + 256 * q2 = b) (g0 : p0 < 256) (g2 : p2 < 256) :
    ((wordOf [p0, q0, 0, 0, p2, q2, 0, 0] * ((1#64 <<< 32) * 10000#64 + 1#64)) >>> 32).toNat
      = 10000 * a + b := by
  rw [BitVec.toNat_ushiftRight, BitVec.toNat_mul,
    wordOf_toNat8 _ _ _ _ _ _ _ _ (bytes8 (by omega) (by omega) (by omega) (by omega)
      (by omega) (by omega) (by omega) (by omega)),
    show ((1#64 <<< 32) * 10000#64 + 1#64).toNat = 42949672960001 by decide,
    Nat.shiftRight_eq_div_pow]
  exact mod_div_of (10000 * b) _ a 4294967296 (by omega) (by omega) (by omega)

/-- Decimal: the value of eight digits, through the three stages. -/
theorem dec_stages (d0 d1 d2 d3 d4 d5 d6 d7 : Nat) (h0 : d0 < 10) (h1 : d1 < 10) (h2 : d2 < 10)
    (h3 : d3 < 10) (h4 : d4 < 10) (h5 : d5 < 10) (h6 : d6 < 10) (h7 : d7 < 10) :
    let x := (wordOf [d0, d1, d2, d3, d4, d5, d6, d7] * ((1#64 <<< 8) * 10#64 + 1#64)) >>> 8
    let x := ((x &&& 0x00ff00ff00ff00ff#64) * ((1#64 <<< 16) * 100#64 + 1#64)) >>> 16
    let x := ((x &&& 0x0000ffff0000ffff#64) * ((1#64 <<< 32) * 10000#64 + 1#64)) >>> 32
    x.toNat = 10000000 * d0 + 1000000 * d1 + 100000 * d2 + 10000 * d3 + 1000 * d4 + 100 * d5
      + 10 * d6 + d7 := by
  simp only
  rw [dec_stage1 _ _ _ _ _ _ _ _ h0 h1 h2 h3 h4 h5 h6 h7, and_maskFF (bytes8 (by omega) (by omega) (by omega) (by omega)
      (by omega) (by omega) (by omega) (by omega))]
  obtain ⟨e0, he0⟩ : ∃ e, e = 10 * d0 + d1 := ⟨_, rfl⟩
  obtain ⟨e1, he1⟩ : ∃ e, e = 10 * d2 + d3 := ⟨_, rfl⟩
  obtain ⟨e2, he2⟩ : ∃ e, e = 10 * d4 + d5 := ⟨_, rfl⟩
  obtain ⟨e3, he3⟩ : ∃ e, e = 10 * d6 + d7 := ⟨_, rfl⟩
  rw [← he0, ← he1, ← he2, ← he3]
  have hb0 : e0 < 100 := by omega
  have hb1 : e1 < 100 := by omega
  have hb2 : e2 < 100 := by omega
  have hb3 : e3 < 100 := by omega
  rw [dec_stage2 e0 e1 e2 e3 _ _ _ _ _ _ hb0 hb1 hb2 hb3 (Nat.mod_add_div _ 256)
    (Nat.mod_add_div _ 256) (Nat.mod_add_div _ 256) (Nat.mod_lt _ (by decide))
    (Nat.mod_lt _ (by decide)) (Nat.mod_lt _ (by decide)), and_maskFFFF (bytes8 (by omega) (by omega) (by omega) (by omega)
      (by omega) (by omega) (by omega) (by omega)),
    dec_stage3 (100 * e0 + e1) (100 * e2 + e3) _ _ _ _ (by omega) (by omega)
      (Nat.mod_add_div _ 256) (Nat.mod_add_div _ 256) (Nat.mod_lt _ (by decide))
      (Nat.mod_lt _ (by decide))]
  omega

/-- Hexadecimal: the same. -/
theorem hex_stages (d0 d1 d2 d3 d4 d5 d6 d7 : Nat) (h0 : d0 < 16) (h1 : d1 < 16) (h2 : d2 < 16)
    (h3 : d3 < 16) (h4 : d4 < 16) (h5 : d5 < 16) (h6 : d6 < 16) (h7 : d7 < 16) :
    let x := (wordOf [d0, d1, d2, d3, d4, d5, d6, d7] * ((1#64 <<< 12) + 1#64)) >>> 8
    let x := ((x &&& 0x00ff00ff00ff00ff#64) * ((1#64 <<< 24) + 1#64)) >>> 16
    let x := ((x &&& 0x0000ffff0000ffff#64) * ((1#64 <<< 48) + 1#64)) >>> 32
    x.toNat = 0x10000000 * d0 + 0x1000000 * d1 + 0x100000 * d2 + 0x10000 * d3 + 0x1000 * d4
      + 0x100 * d5 + 0x10 * d6 + d7 := by
  have s1 : (wordOf [d0, d1, d2, d3, d4, d5, d6, d7] * ((1#64 <<< 12) + 1#64)) >>> 8
      = wordOf [16 * d0 + d1, 16 * d1 + d2, 16 * d2 + d3, 16 * d3 + d4, 16 * d4 + d5, 16 * d5 + d6,
        16 * d6 + d7, 0] := by
    apply BitVec.eq_of_toNat_eq
    rw [wordOf_toNat8 _ _ _ _ _ _ _ _ (bytes8 (by omega) (by omega) (by omega) (by omega)
      (by omega) (by omega) (by omega) (by omega)), BitVec.toNat_ushiftRight, BitVec.toNat_mul,
      wordOf_toNat8 _ _ _ _ _ _ _ _ (bytes8 (by omega) (by omega) (by omega) (by omega)
      (by omega) (by omega) (by omega) (by omega)),
      show ((1#64 <<< 12) + 1#64).toNat = 4097 by decide, Nat.shiftRight_eq_div_pow]
    exact mod_div_of (16 * d7) _ d0 256 (by omega) (by omega) (by omega)
  have s2 : (wordOf [16 * d0 + d1, 0, 16 * d2 + d3, 0, 16 * d4 + d5, 0, 16 * d6 + d7, 0]
      * ((1#64 <<< 24) + 1#64)) >>> 16
      = wordOf [16 * d2 + d3, 16 * d0 + d1, 16 * d4 + d5, 16 * d2 + d3, 16 * d6 + d7, 16 * d4 + d5,
        0, 0] := by
    apply BitVec.eq_of_toNat_eq
    rw [wordOf_toNat8 _ _ _ _ _ _ _ _ (bytes8 (by omega) (by omega) (by omega) (by omega)
      (by omega) (by omega) (by omega) (by omega)), BitVec.toNat_ushiftRight, BitVec.toNat_mul,
      wordOf_toNat8 _ _ _ _ _ _ _ _ (bytes8 (by omega) (by omega) (by omega) (by omega)
      (by omega) (by omega) (by omega) (by omega)),
      show ((1#64 <<< 24) + 1#64).toNat = 16777217 by decide, Nat.shiftRight_eq_div_pow]
    exact mod_div_of (256 * (16 * d6 + d7)) _ (16 * d0 + d1) 65536 (by omega) (by omega) (by omega)
  simp only
  rw [s1, and_maskFF (bytes8 (by omega) (by omega) (by omega) (by omega)
      (by omega) (by omega) (by omega) (by omega)), s2, and_maskFFFF (bytes8 (by omega) (by omega)
      (by omega) (by omega) (by omega) (by omega) (by omega) (by omega)), BitVec.toNat_ushiftRight,
      BitVec.toNat_mul,
      wordOf_toNat8 _ _ _ _ _ _ _ _ (bytes8 (by omega) (by omega) (by omega) (by omega)
      (by omega) (by omega) (by omega) (by omega)),
      show ((1#64 <<< 48) + 1#64).toNat = 281474976710657 by decide, Nat.shiftRight_eq_div_pow]
  exact mod_div_of (65536 * (256 * (16 * d4 + d5) + (16 * d6 + d7))) _ (256 * (16 * d0 + d1) + (16 * d2 + d3)) 4294967296 (by omega) (by omega) (by omega)

theorem Holds.bytes {m : Mem} {p : Nat} {t : List UInt8} (h : Holds m p t) :
    m.bytes p t.length = t.map UInt8.toNat := by
  apply List.ext_getElem
  · simp [Mem.bytes_length]
  · intro i h1 h2
    rw [Mem.bytes_getElem, List.getElem_map, h i (by simpa using h2)]

theorem list8 {l : List Nat} (h : l.length = 8) :
    ∃ d0 d1 d2 d3 d4 d5 d6 d7, l = [d0, d1, d2, d3, d4, d5, d6, d7] := by
  match l, h with
  | [d0, d1, d2, d3, d4, d5, d6, d7], _ => exact ⟨_, _, _, _, _, _, _, _, rfl⟩

/-- Value of digits most significant first, in base `b`. -/
def digVal (b : Nat) (l : List Nat) : Nat := l.foldl (fun a d => b * a + d) 0

theorem digVal_pad (b k : Nat) (l : List Nat) : digVal b (List.replicate k 0 ++ l) = digVal b l := by
  unfold digVal
  induction k with
  | zero => rfl
  | succ k ih => rw [List.replicate_succ, List.cons_append, List.foldl_cons]; simpa using ih

theorem foldl_digits (b : Nat) (l : List Nat) (a : Nat) :
    l.foldl (fun a d => b * a + d) a = a * b ^ l.length + digVal b l := by
  unfold digVal
  induction l generalizing a with
  | nil => simp
  | cons d l ih =>
    rw [List.foldl_cons, ih, List.foldl_cons, ih (b * 0 + d), List.length_cons, Nat.pow_succ]
    simp only [Nat.mul_zero, Nat.zero_add, Nat.add_mul]
    rw [Nat.mul_comm b a, Nat.mul_assoc, Nat.mul_comm b]
    omega

theorem digVal_append (b : Nat) (l₁ l₂ : List Nat) :
    digVal b (l₁ ++ l₂) = digVal b l₁ * b ^ l₂.length + digVal b l₂ := by
  conv => lhs; unfold digVal
  rw [List.foldl_append, foldl_digits]
  rfl

theorem digVal_lt {b : Nat} (l : List Nat) (h : ∀ d ∈ l, d < b) : digVal b l < b ^ l.length := by
  induction l with
  | nil => simp [digVal]
  | cons d l ih =>
    have h1 : digVal b (d :: l) = d * b ^ l.length + digVal b l := by
      have := digVal_append b [d] l
      simpa [digVal] using this
    have hd := h d List.mem_cons_self
    have hl := ih (fun x hx => h x (List.mem_cons_of_mem _ hx))
    rw [h1, List.length_cons, Nat.pow_succ, Nat.mul_comm (b ^ l.length)]
    calc d * b ^ l.length + digVal b l < d * b ^ l.length + b ^ l.length := by omega
      _ = (d + 1) * b ^ l.length := by rw [Nat.add_mul, Nat.one_mul]
      _ ≤ b * b ^ l.length := Nat.mul_le_mul_right _ hd

theorem decVal_eq (t : List UInt8) : decVal t = digVal 10 (t.map fun b => b.toNat - 48) := by
  unfold decVal digVal
  rw [List.foldl_map]

theorem hexVal_eq (t : List UInt8) : hexVal t = digVal 16 (t.map fun b => (hexDigit b).getD 0) := by
  unfold hexVal digVal
  rw [List.foldl_map]

theorem byte_digit_and : ∀ b < 256, 48 ≤ b → b ≤ 57 → b &&& 15 = b - 48 := by decide +kernel

theorem decVal_lt (t : List UInt8) (h : ∀ b ∈ t, IsDigit b) : decVal t < 10 ^ t.length := by
  rw [decVal_eq]
  have := digVal_lt (b := 10) (t.map fun b => b.toNat - 48) (by
    intro d hd
    obtain ⟨b, hb, rfl⟩ := List.mem_map.1 hd
    have := h b hb
    unfold IsDigit at this; omega)
  simpa using this

theorem decVal_append (t u : List UInt8) : decVal (t ++ u) = decVal t * 10 ^ u.length + decVal u := by
  rw [decVal_eq, List.map_append, digVal_append, decVal_eq, decVal_eq]; simp

theorem hexVal_append (t u : List UInt8) : hexVal (t ++ u) = hexVal t * 16 ^ u.length + hexVal u := by
  rw [hexVal_eq, List.map_append, digVal_append, hexVal_eq, hexVal_eq]; simp

theorem zip8 {f : Nat → Nat → Nat} {c : Nat} {l : List Nat} (hl : l.length = 8) :
    List.zipWith f l (List.replicate 8 c) = l.map (fun x => f x c) := by
  rw [← hl, zipWith_replicate_right]

theorem atou8_spec (m : Mem) (s : Nat) (t : List UInt8) (h : Holds m s t) (hl : t.length ≤ 8)
    (hd : ∀ b ∈ t, IsDigit b) (junk : W) : (atou8 m s t.length junk).toNat = decVal t := by
  have hlt := decVal_lt t hd
  have h8 : (10 : Nat) ^ t.length ≤ 10 ^ 8 := Nat.pow_le_pow_right (by decide) hl
  have hB : Bytes (List.replicate (8 - t.length) 0 ++ t.map UInt8.toNat) := by
    intro b hb
    rcases List.mem_append.1 hb with h | h
    · rw [List.eq_of_mem_replicate h]; decide
    · obtain ⟨c, _, rfl⟩ := List.mem_map.1 h; exact UInt8.toNat_lt c
  have hL : (List.replicate (8 - t.length) 0 ++ t.map UInt8.toNat).length = 8 := by simp; omega
  have hand : List.zipWith (· &&& ·) (List.replicate (8 - t.length) 0 ++ t.map UInt8.toNat)
      (List.replicate 8 15) = List.replicate (8 - t.length) 0 ++ t.map (fun b : UInt8 => b.toNat - 48) := by
    rw [zip8 hL, List.map_append, List.map_replicate, List.map_map]
    congr 1
    apply List.map_congr_left
    intro b hb
    have := hd b hb
    exact byte_digit_and _ (UInt8.toNat_lt b) this.1 this.2
  unfold atou8
  simp only
  rw [applyLen_eq m s t.length junk hl, h.bytes, mask0F, wordOf_and hB (Bytes.replicate (by decide)) hL
    (by simp), hand]
  have hL2 : (List.replicate (8 - t.length) 0 ++ t.map (fun b : UInt8 => b.toNat - 48)).length = 8 := by
    simp; omega
  have hv : digVal 10 (List.replicate (8 - t.length) 0 ++ t.map (fun b : UInt8 => b.toNat - 48)) = decVal t := by
    rw [digVal_pad, decVal_eq]
  have hdig : ∀ d ∈ List.replicate (8 - t.length) 0 ++ t.map (fun b : UInt8 => b.toNat - 48), d < 10 := by
    intro d hd'
    rcases List.mem_append.1 hd' with h | h
    · rw [List.eq_of_mem_replicate h]; decide
    · obtain ⟨c, hc, rfl⟩ := List.mem_map.1 h
      have := hd c hc; unfold IsDigit at this; omega
  generalize List.replicate (8 - t.length) 0 ++ t.map (fun b : UInt8 => b.toNat - 48) = D at hL2 hv hdig ⊢
  obtain ⟨d0, d1, d2, d3, d4, d5, d6, d7, rfl⟩ := list8 hL2
  have := dec_stages d0 d1 d2 d3 d4 d5 d6 d7 (hdig _ (by simp)) (hdig _ (by simp))
    (hdig _ (by simp)) (hdig _ (by simp)) (hdig _ (by simp)) (hdig _ (by simp))
    (hdig _ (by simp)) (hdig _ (by simp))
  simp only at this
  rw [BitVec.toNat_setWidth, this, ← hv]
  simp only [digVal, List.foldl] at hv ⊢
  omega

theorem hexDigit_byte : ∀ b : Nat, b < 256 → ∀ d, hexDigit (UInt8.ofNat b) = some d →
    (b + 9 * ((b &&& 64) / 64)) < 256 ∧ (b + 9 * ((b &&& 64) / 64)) &&& 15 = d ∧ d < 16 := by
  decide +kernel

/-- Shifting a word whose lanes are multiples of 64 right by 6, then multiplying by 9. -/
theorem wordOf_shr6_mul9 (l : List Nat) (hl : l.length = 8) (h : ∀ x ∈ l, x ≤ 1) :
    (wordOf (l.map (64 * ·)) >>> 6) * 9#64 = wordOf (l.map (9 * ·)) := by
  obtain ⟨d0, d1, d2, d3, d4, d5, d6, d7, rfl⟩ := list8 hl
  have h0 := h d0 (by simp)
  have h1 := h d1 (by simp)
  have h2 := h d2 (by simp)
  have h3 := h d3 (by simp)
  have h4 := h d4 (by simp)
  have h5 := h d5 (by simp)
  have h6 := h d6 (by simp)
  have h7 := h d7 (by simp)
  clear h hl
  simp only [List.map]
  apply BitVec.eq_of_toNat_eq
  rw [BitVec.toNat_mul, BitVec.toNat_ushiftRight, wordOf_toNat8 _ _ _ _ _ _ _ _ (bytes8 (by omega)
    (by omega) (by omega) (by omega) (by omega) (by omega) (by omega) (by omega)),
    wordOf_toNat8 _ _ _ _ _ _ _ _ (bytes8 (by omega)
    (by omega) (by omega) (by omega) (by omega) (by omega) (by omega) (by omega)),
    show (9#64).toNat = 9 by decide, Nat.shiftRight_eq_div_pow]
  omega

theorem htou8_spec (m : Mem) (s : Nat) (t : List UInt8) (h : Holds m s t) (hl : t.length ≤ 8)
    (hd : ∀ b ∈ t, (hexDigit b).isSome) (junk : W) : (htou8 m s t.length junk).toNat = hexVal t := by
  have hB : Bytes (List.replicate (8 - t.length) 0 ++ t.map UInt8.toNat) := by
    intro b hb
    rcases List.mem_append.1 hb with h | h
    · rw [List.eq_of_mem_replicate h]; decide
    · obtain ⟨c, _, rfl⟩ := List.mem_map.1 h; exact UInt8.toNat_lt c
  have hL : (List.replicate (8 - t.length) 0 ++ t.map UInt8.toNat).length = 8 := by simp; omega
  have hdig : ∀ b ∈ t, (b.toNat + 9 * ((b.toNat &&& 64) / 64)) < 256 ∧
      (b.toNat + 9 * ((b.toNat &&& 64) / 64)) &&& 15 = (hexDigit b).getD 0 ∧ (hexDigit b).getD 0 < 16 := by
    intro b hb
    obtain ⟨d, hd'⟩ := Option.isSome_iff_exists.1 (hd b hb)
    have := hexDigit_byte b.toNat (UInt8.toNat_lt b) d (by simpa using hd')
    rw [hd']; exact this
  have h64 : ∀ x < 256, x &&& 64 = 64 * ((x &&& 64) / 64) ∧ (x &&& 64) / 64 ≤ 1 := by decide +kernel
  -- name the input lanes
  generalize hI : List.replicate (8 - t.length) 0 ++ t.map UInt8.toNat = I at hB hL
  have e1 : wordOf I &&& 0x4040404040404040#64 = wordOf ((I.map fun x => (x &&& 64) / 64).map (64 * ·)) := by
    rw [mask40, wordOf_and hB (Bytes.replicate (by decide)) hL (by simp), zip8 hL, List.map_map]
    congr 1
    apply List.map_congr_left
    intro x hx
    exact (h64 x (hB x hx)).1
  have e2 : wordOf I + ((wordOf I &&& 0x4040404040404040#64) >>> 6) * 9#64
      = wordOf (I.map fun x => x + 9 * ((x &&& 64) / 64)) := by
    rw [e1, wordOf_shr6_mul9 _ (by simpa using hL) (by
      intro y hy
      obtain ⟨x, hx, rfl⟩ := List.mem_map.1 hy
      exact (h64 x (hB x hx)).2), wordOf_add hL (by simpa using hL), List.map_map]
    congr 1
    apply List.ext_getElem
    · simp
    · intro i h1 h2
      simp
  have hB3 : Bytes (I.map fun x => x + 9 * ((x &&& 64) / 64)) := by
    intro y hy
    obtain ⟨x, hx, rfl⟩ := List.mem_map.1 hy
    rw [← hI] at hx
    rcases List.mem_append.1 hx with h | h
    · rw [List.eq_of_mem_replicate h]; decide
    · obtain ⟨b, hb, rfl⟩ := List.mem_map.1 h
      exact (hdig b hb).1
  have e3 : (I.map fun x => x + 9 * ((x &&& 64) / 64)).map (· &&& 15)
      = List.replicate (8 - t.length) 0 ++ t.map (fun b : UInt8 => (hexDigit b).getD 0) := by
    rw [← hI, List.map_append, List.map_append, List.map_replicate, List.map_replicate,
      List.map_map, List.map_map]
    congr 1
    apply List.map_congr_left
    intro b hb
    exact (hdig b hb).2.1
  unfold htou8
  simp only
  rw [applyLen_eq m s t.length junk hl, h.bytes, hI, e2, mask0F,
    wordOf_and hB3 (Bytes.replicate (by decide)) (by simpa using hL) (by simp),
    zip8 (by simpa using hL), e3]
  have hL2 : (List.replicate (8 - t.length) 0 ++ t.map (fun b : UInt8 => (hexDigit b).getD 0)).length = 8 := by
    simp; omega
  have hv : digVal 16 (List.replicate (8 - t.length) 0 ++ t.map (fun b : UInt8 => (hexDigit b).getD 0))
      = hexVal t := by
    rw [digVal_pad, hexVal_eq]
  have hdg : ∀ d ∈ List.replicate (8 - t.length) 0 ++ t.map (fun b : UInt8 => (hexDigit b).getD 0), d < 16 := by
    intro d hd'
    rcases List.mem_append.1 hd' with h | h
    · rw [List.eq_of_mem_replicate h]; decide
    · obtain ⟨c, hc, rfl⟩ := List.mem_map.1 h
      exact (hdig c hc).2.2
  clear e3
  generalize List.replicate (8 - t.length) 0 ++ t.map (fun b : UInt8 => (hexDigit b).getD 0) = D at hL2 hv hdg ⊢
  obtain ⟨d0, d1, d2, d3, d4, d5, d6, d7, rfl⟩ := list8 hL2
  have hlt := digVal_lt (b := 16) _ hdg
  have := hex_stages d0 d1 d2 d3 d4 d5 d6 d7 (hdg _ (by simp)) (hdg _ (by simp))
    (hdg _ (by simp)) (hdg _ (by simp)) (hdg _ (by simp)) (hdg _ (by simp))
    (hdg _ (by simp)) (hdg _ (by simp))
  simp only at this
  rw [BitVec.toNat_setWidth, this, ← hv]
  simp only [digVal, List.foldl, List.length] at hlt ⊢
  omega

theorem Holds.split {m : Mem} {p : Nat} {t u : List UInt8} (h : Holds m p (t ++ u)) :
    Holds m p t ∧ Holds m (p + t.length) u := by
  constructor
  · intro i hi
    rw [h i (by simp; omega), List.getElem_append_left hi]
  · intro i hi
    have := h (t.length + i) (by simp; omega)
    rw [Nat.add_assoc, this, List.getElem_append_right (by omega)]
    simp

theorem simdAtou_spec (m : Mem) (s : Nat) (t : List UInt8) (h : Holds m s t) (hl : t.length ≤ 23)
    (hd : ∀ b ∈ t, IsDigit b) (junk : W) :
    simdAtou m s t.length junk = BitVec.ofNat 64 (decVal t) := by
  have to64 : ∀ (v : BitVec 32), v.setWidth 64 = BitVec.ofNat 64 v.toNat := by
    intro v; rw [BitVec.ofNat_toNat]
  unfold simdAtou
  by_cases h8 : t.length > 8
  · rw [if_pos h8]
    simp only
    -- head block
    have ht : t = t.take (t.length % 8) ++ t.drop (t.length % 8) := (List.take_append_drop _ _).symm
    have hL1 : (t.take (t.length % 8)).length = t.length % 8 := by
      rw [List.length_take]; omega
    have hL2 : (t.drop (t.length % 8)).length = t.length - t.length % 8 := by simp
    have hsp := Holds.split (ht ▸ h : Holds m s (t.take (t.length % 8) ++ t.drop (t.length % 8)))
    rw [hL1] at hsp
    have hd1 : ∀ b ∈ t.take (t.length % 8), IsDigit b := fun b hb => hd b (List.mem_of_mem_take hb)
    have hd2 : ∀ b ∈ t.drop (t.length % 8), IsDigit b := fun b hb => hd b (List.mem_of_mem_drop hb)
    have a1 := atou8_spec m s _ hsp.1 (by omega) hd1 junk
    rw [hL1] at a1
    have hv : decVal t = decVal (t.take (t.length % 8)) * 10 ^ (t.length - t.length % 8)
        + decVal (t.drop (t.length % 8)) := by
      conv => lhs; rw [ht]
      rw [decVal_append, hL2]
    by_cases h16 : t.length - t.length % 8 > 8
    · rw [if_pos h16]
      have hlen16 : t.length - t.length % 8 = 16 := by omega
      generalize hu : t.drop (t.length % 8) = u at hsp hd2 hL2 hv
      have hu16 : u.length = 16 := by omega
      have hut : u = u.take 8 ++ u.drop 8 := (List.take_append_drop _ _).symm
      have hsp2 := Holds.split (hut ▸ hsp.2 : Holds m _ (u.take 8 ++ u.drop 8))
      have hl8 : (u.take 8).length = 8 := by rw [List.length_take]; omega
      have hr8 : (u.drop 8).length = 8 := by rw [List.length_drop]; omega
      rw [hl8] at hsp2
      have a2 := atou8_spec m _ _ hsp2.1 (by omega) (fun b hb => hd2 b (List.mem_of_mem_take hb)) junk
      have a3 := atou8_spec m _ _ hsp2.2 (by omega) (fun b hb => hd2 b (List.mem_of_mem_drop hb)) junk
      rw [hl8] at a2
      rw [hr8] at a3
      have hv2 : decVal u = decVal (u.take 8) * 10 ^ 8 + decVal (u.drop 8) := by
        conv => lhs; rw [hut]
        rw [decVal_append, hr8]
      rw [hlen16, show 16 - 8 = 8 by decide, to64, to64, to64, a1, a2, a3, hv, hv2, hlen16,
        show (100000000#64 : W) = BitVec.ofNat 64 100000000 by rfl]
      rw [← BitVec.ofNat_mul, ← BitVec.ofNat_add, ← BitVec.ofNat_mul, ← BitVec.ofNat_add]
      refine congrArg (BitVec.ofNat 64) ?_
      omega
    · rw [if_neg h16]
      have hlen8 : t.length - t.length % 8 = 8 := by omega
      have a2 := atou8_spec m _ _ hsp.2 (by omega) hd2 junk
      rw [hL2, hlen8] at a2
      rw [hlen8, to64, to64, a1, a2, hv, hlen8,
        show (100000000#64 : W) = BitVec.ofNat 64 100000000 by rfl,
        ← BitVec.ofNat_mul, ← BitVec.ofNat_add]
  · rw [if_neg h8, to64, atou8_spec m s t h (by omega) hd junk]

theorem simdHtou_spec (m : Mem) (s : Nat) (t : List UInt8) (h : Holds m s t) (hl : t.length ≤ 16)
    (hd : ∀ b ∈ t, (hexDigit b).isSome) (junk : W) :
    simdHtou m s t.length junk = BitVec.ofNat 64 (hexVal t) := by
  have to64 : ∀ (v : BitVec 32), v.setWidth 64 = BitVec.ofNat 64 v.toNat := by
    intro v; rw [BitVec.ofNat_toNat]
  unfold simdHtou
  by_cases h8 : t.length > 8
  · rw [if_pos h8]
    simp only
    have ht : t = t.take (t.length - 8) ++ t.drop (t.length - 8) := (List.take_append_drop _ _).symm
    have hL1 : (t.take (t.length - 8)).length = t.length - 8 := by
      rw [List.length_take]; omega
    have hL2 : (t.drop (t.length - 8)).length = 8 := by simp; omega
    have hsp := Holds.split (ht ▸ h : Holds m s (t.take (t.length - 8) ++ t.drop (t.length - 8)))
    rw [hL1] at hsp
    have a1 := htou8_spec m s _ hsp.1 (by omega) (fun b hb => hd b (List.mem_of_mem_take hb)) junk
    have a2 := htou8_spec m _ _ hsp.2 (by omega) (fun b hb => hd b (List.mem_of_mem_drop hb)) junk
    rw [hL1] at a1
    rw [hL2] at a2
    have hv : hexVal t = hexVal (t.take (t.length - 8)) * 16 ^ 8 + hexVal (t.drop (t.length - 8)) := by
      conv => lhs; rw [ht]
      rw [hexVal_append, hL2]
    rw [show t.length - (t.length - 8) = 8 by omega, to64, to64, a1, a2, hv]
    apply BitVec.eq_of_toNat_eq
    simp only [BitVec.toNat_add, BitVec.toNat_shiftLeft, BitVec.toNat_ofNat, Nat.shiftLeft_eq]
    omega
  · rw [if_neg h8, to64, htou8_spec m s t h (by omega) hd junk]

end Verif
