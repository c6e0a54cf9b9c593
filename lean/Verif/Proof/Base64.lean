import Verif.Model.Base64
import Verif.Spec.Base64
import Verif.Proof.Parse
import Verif.Proof.StrScan
/-!
# Base64: helper lemmas
-/
namespace Verif

theorem putAll_ok : ∀ (vs b : List UInt8) (pos : Nat), pos + vs.length ≤ b.length →
    putAll b pos vs = some (b.take pos ++ vs ++ b.drop (pos + vs.length)) := by
  intro vs
  induction vs with
  | nil => intro b pos h; simp [putAll]
  | cons v vs ih =>
    intro b pos h
    simp only [List.length_cons] at h
    have h1 : put b pos v = some (b.set pos v) := by unfold put; rw [if_pos (by omega)]
    rw [putAll, h1, Option.bind_some, ih _ _ (by rw [List.length_set]; omega)]
    congr 1
    have e : (b.set pos v).take (pos + 1) = b.take pos ++ [v] := by
      rw [List.take_succ_eq_append_getElem (by rw [List.length_set]; omega)]
      rw [List.take_set_of_le (Nat.le_refl _), List.getElem_set_self]
    have e2 : (b.set pos v).drop (pos + 1 + vs.length) = b.drop (pos + (vs.length + 1)) := by
      rw [List.drop_set_of_lt (by omega)]
      congr 1; omega
    rw [e, e2]
    simp

theorem putAll_fault : ∀ (vs b : List UInt8) (pos : Nat), b.length < pos + vs.length → vs ≠ [] →
    putAll b pos vs = none := by
  intro vs
  induction vs with
  | nil => intro b pos _ h; exact absurd rfl h
  | cons v vs ih =>
    intro b pos h _
    simp only [List.length_cons] at h
    rw [putAll]
    unfold put
    by_cases h1 : pos < b.length
    · rw [if_pos h1, Option.bind_some]
      exact ih _ _ (by rw [List.length_set]; omega) (by rintro rfl; simp at h; omega)
    · rw [if_neg h1]; rfl

theorem encTab_eq : ∀ v < 64, encTab v = b64char v := by decide

theorem or_lanes (x y k : Nat) (h : y < 2 ^ k) : x <<< k ||| y = x * 2 ^ k + y := by
  rw [Nat.shiftLeft_eq, Nat.mul_comm, Nat.two_pow_add_eq_or_of_lt h]

theorem and_3 (x : Nat) : x &&& 0x03 = x % 4 := Nat.and_two_pow_sub_one_eq_mod x 2
theorem and_15 (x : Nat) : x &&& 0x0f = x % 16 := Nat.and_two_pow_sub_one_eq_mod x 4
theorem and_63 (x : Nat) : x &&& 0x3f = x % 64 := Nat.and_two_pow_sub_one_eq_mod x 6
theorem shr2 (x : Nat) : x >>> 2 = x / 4 := Nat.shiftRight_eq_div_pow x 2
theorem shr4 (x : Nat) : x >>> 4 = x / 16 := Nat.shiftRight_eq_div_pow x 4
theorem shr6 (x : Nat) : x >>> 6 = x / 64 := Nat.shiftRight_eq_div_pow x 6

theorem lane1 (a b : Nat) (hb : b < 256) : ((a &&& 0x03) <<< 4) ||| (b >>> 4) = a % 4 * 16 + b / 16 := by
  rw [and_3, shr4, or_lanes _ _ 4 (by omega)]
theorem lane2 (a b : Nat) (hb : b < 256) : ((a &&& 0x0f) <<< 2) ||| (b >>> 6) = a % 16 * 4 + b / 64 := by
  rw [and_15, shr6, or_lanes _ _ 2 (by omega)]

theorem rfc4648_len : ∀ s : List UInt8, (rfc4648 s).length = 4 * ((s.length + 2) / 3)
  | [] => by simp [rfc4648]
  | [_] => by simp [rfc4648]
  | [_, _] => by simp [rfc4648]
  | a :: b :: c :: rest => by
    simp only [rfc4648, List.length_cons, rfc4648_len rest]; omega

theorem encLoop_spec (m : Mem) : ∀ (s : List UInt8) (b pos : Nat) (out : List UInt8), Holds m b s →
    pos + (rfc4648 s).length + 1 = out.length →
    encLoop m s.length b pos out = .ok (out.take pos ++ rfc4648 s ++ [0])
  | [], b, pos, out, h, hl => by
    simp only [rfc4648, List.length_nil] at hl
    simp only [List.length_nil, encLoop]
    rw [putAll_ok _ _ _ (by simp; omega)]
    simp only [List.length_singleton, rfc4648, List.append_nil]
    rw [List.drop_of_length_le (by omega), List.append_nil]
  | [x], b, pos, out, h, hl => by
    simp only [rfc4648, List.length_cons, List.length_nil] at hl
    simp only [List.length_singleton, encLoop]
    rw [putAll_ok _ _ _ (by simp; omega)]
    have h0 : m b = x := by have := h 0 (by simp); simpa using this
    simp only [List.length_cons, List.length_nil]
    rw [List.drop_of_length_le (by omega), List.append_nil, h0]
    have hx := UInt8.toNat_lt x
    rw [shr2, and_3, Nat.shiftLeft_eq, encTab_eq _ (by omega), encTab_eq _ (by omega)]
    simp only [rfc4648]
    rw [show x.toNat / 4 = x.toNat * 16 / 2 ^ 6 by omega,
      show x.toNat % 4 * 2 ^ 4 = x.toNat * 16 % 64 by omega]
    simp
  | [x, y], b, pos, out, h, hl => by
    simp only [rfc4648, List.length_cons, List.length_nil] at hl
    simp only [List.length_cons, List.length_nil, encLoop]
    rw [putAll_ok _ _ _ (by simp; omega)]
    have h0 : m b = x := by have := h 0 (by simp); simpa using this
    have h1 : m (b + 1) = y := by have := h 1 (by simp); simpa using this
    simp only [List.length_cons, List.length_nil]
    rw [List.drop_of_length_le (by omega), List.append_nil, h0, h1]
    have hx := UInt8.toNat_lt x
    have hy := UInt8.toNat_lt y
    rw [shr2, lane1 _ _ (by omega), and_15, Nat.shiftLeft_eq, encTab_eq _ (by omega),
      encTab_eq _ (by omega), encTab_eq _ (by omega)]
    simp only [rfc4648]
    rw [show x.toNat / 4 = (x.toNat * 256 + y.toNat) * 4 / 2 ^ 12 by omega,
      show x.toNat % 4 * 16 + y.toNat / 16 = (x.toNat * 256 + y.toNat) * 4 / 2 ^ 6 % 64 by omega,
      show y.toNat % 16 * 2 ^ 2 = (x.toNat * 256 + y.toNat) * 4 % 64 by omega]
    simp
  | x :: y :: z :: rest, b, pos, out, h, hl => by
    simp only [rfc4648, List.length_cons] at hl
    have h0 : m b = x := by have := h 0 (by simp); simpa using this
    have h1 : m (b + 1) = y := by have := h 1 (by simp); simpa using this
    have h2 : m (b + 2) = z := by have := h 2 (by simp); simpa using this
    have hr : Holds m (b + 3) rest := by
      intro i hi
      have := h (i + 3) (by simp; omega)
      rw [show b + 3 + i = b + (i + 3) by omega, this]; rfl
    simp only [List.length_cons, encLoop]
    rw [putAll_ok _ _ _ (by simp; omega)]
    have hx := UInt8.toNat_lt x
    have hy := UInt8.toNat_lt y
    have hz := UInt8.toNat_lt z
    simp only [List.length_cons, List.length_nil]
    rw [encLoop_spec m rest _ _ _ hr (by simp; omega), h0, h1, h2]
    rw [shr2, lane1 _ _ (by omega), lane2 _ _ (by omega), and_63, encTab_eq _ (by omega),
      encTab_eq _ (by omega), encTab_eq _ (by omega), encTab_eq _ (by omega)]
    simp only [rfc4648]
    rw [show x.toNat / 4 = ((x.toNat * 256 + y.toNat) * 256 + z.toNat) / 2 ^ 18 by omega,
      show x.toNat % 4 * 16 + y.toNat / 16
        = ((x.toNat * 256 + y.toNat) * 256 + z.toNat) / 2 ^ 12 % 64 by omega,
      show y.toNat % 16 * 4 + z.toNat / 64
        = ((x.toNat * 256 + y.toNat) * 256 + z.toNat) / 2 ^ 6 % 64 by omega,
      show z.toNat % 64 = ((x.toNat * 256 + y.toNat) * 256 + z.toNat) % 64 by omega]
    congr 1
    have hlen : (out.take pos).length = pos := by rw [List.length_take]; omega
    rw [List.take_append_of_le_length (by simp [hlen]), List.take_of_length_le (by simp [hlen])]
    simp

/-- The size computation of the encoder (all `size_t` lengths). -/
theorem base64Len_toNat (n : Nat) (h : n < 2 ^ 64) :
    (base64Len (BitVec.ofNat 64 n)).toNat = ((4 * n % 2 ^ 64) / 3 + 3) % 2 ^ 32 / 4 * 4 := by
  unfold base64Len
  simp only [BitVec.toNat_and, BitVec.toNat_add, BitVec.toNat_udiv, BitVec.toNat_mul,
    BitVec.toNat_ofNat]
  rw [Nat.mod_eq_of_lt h, Nat.mod_eq_of_lt (a := 4) (by decide), Nat.mod_eq_of_lt (a := 3) (by decide)]
  generalize hx : 4 * n % 2 ^ 64 / 3 = x
  have hx2 : x < 2 ^ 63 := by omega
  rw [Nat.mod_eq_of_lt (a := x + 3) (by omega)]
  generalize x + 3 = y
  -- y &&& 0xfffffffc
  have e : y &&& (0xfffffffc % 2 ^ 64) = (y / 4 &&& (2 ^ 30 - 1)) * 4 := by
    apply Nat.eq_of_testBit_eq
    intro i
    rw [Nat.testBit_and, show (0xfffffffc % 2 ^ 64 : Nat) = (2 ^ 30 - 1) * 2 ^ 2 by decide,
      show (4 : Nat) = 2 ^ 2 by rfl, Nat.testBit_mul_two_pow, Nat.testBit_mul_two_pow,
      Nat.testBit_and, Nat.testBit_div_two_pow]
    by_cases hi : 2 ≤ i
    · simp [hi]
    · simp [hi]
  rw [e, Nat.and_two_pow_sub_one_eq_mod]
  omega

/-! ### Decoding -/

theorem decTab_b64char : ∀ v < 64, decTab (b64char v) = UInt8.ofNat v ∧ b64char v ≠ 61 ∧
    b64char v ≠ 0 := by decide +kernel

theorem u8_of_lt {v : Nat} (h : v < 64) : (UInt8.ofNat v).toNat = v := by
  rw [UInt8.toNat_ofNat']; omega

theorem decTab_pad : decTab 61 = 0 := by decide +kernel

theorem dlane0 (a b : Nat) (hb : b < 64) : (a <<< 2) ||| (b >>> 4) = a * 4 + b / 16 := by
  rw [shr4, or_lanes _ _ 2 (by omega)]
theorem dlane1 (a b : Nat) (hb : b < 64) : (a <<< 4) ||| (b >>> 2) = a * 16 + b / 4 := by
  rw [shr2, or_lanes _ _ 4 (by omega)]
theorem dlane2 (a b : Nat) (hb : b < 64) : (a <<< 6) ||| b = a * 64 + b := by
  rw [or_lanes _ _ 6 (by omega)]

/-- One full block of four valid characters. -/
theorem decLoop_block (m : Mem) (src n i : Nat) (block : Nat → UInt8) (pos : Nat)
    (out : List UInt8) (c0 c1 c2 c3 : UInt8) (v0 v1 v2 v3 : Nat)
    (h0 : m (src + i) = c0) (h1 : m (src + (i + 1)) = c1) (h2 : m (src + (i + 1 + 1)) = c2)
    (h3 : m (src + (i + 1 + 1 + 1)) = c3)
    (d0 : decTab c0 = UInt8.ofNat v0) (d1 : decTab c1 = UInt8.ofNat v1)
    (d2 : decTab c2 = UInt8.ofNat v2) (d3 : decTab c3 = UInt8.ofNat v3)
    (l0 : v0 < 64) (l1 : v1 < 64) (l2 : v2 < 64) (l3 : v3 < 64)
    (p0 : c0 ≠ 61) (p1 : c1 ≠ 61) (hout : pos + 3 ≤ out.length) :
    ∃ block', decLoop m src (n + 4) i block 0 0 pos out =
      (let pad := (if c2 = 61 then 1 else 0) + (if c3 = 61 then 1 else 0)
       let out := out.take pos ++ [UInt8.ofNat (v0 * 4 + v1 / 16), UInt8.ofNat (v1 * 16 + v2 / 4),
        UInt8.ofNat (v2 * 64 + v3)] ++ out.drop (pos + 3)
       if pad ≠ 0 then
         if pad = 1 ∨ pad = 2 then
              match putAll out (pos + 3 - pad) [0] with
              | none => .fault
              | some out => .ok out
            else .null
          else decLoop m src n (i + 4) block' 0 pad (pos + 3) out) := by
  have nv : ∀ v, v < 64 → UInt8.ofNat v ≠ 0x80 := by decide +kernel
  refine ⟨fun k => if k = 3 then UInt8.ofNat v3 else if k = 2 then UInt8.ofNat v2 else
    if k = 1 then UInt8.ofNat v1 else if k = 0 then UInt8.ofNat v0 else block k, ?_⟩
  conv => lhs; unfold decLoop
  simp only [h0, d0, if_neg (nv _ l0), if_neg p0]
  rw [if_neg (by decide)]
  conv => lhs; unfold decLoop
  simp only [h1, d1, if_neg (nv _ l1), if_neg p1]
  rw [if_neg (by decide)]
  conv => lhs; unfold decLoop
  simp only [h2, d2, if_neg (nv _ l2)]
  rw [if_neg (by decide)]
  conv => lhs; unfold decLoop
  simp only [h3, d3, if_neg (nv _ l3)]
  simp only [Nat.zero_add, Nat.reduceAdd, if_true, if_neg (show ¬ (0 : Nat) = 3 by decide),
    if_neg (show ¬ (0 : Nat) = 2 by decide), if_neg (show ¬ (0 : Nat) = 1 by decide),
    if_neg (show ¬ (1 : Nat) = 3 by decide), if_neg (show ¬ (1 : Nat) = 2 by decide),
    if_neg (show ¬ (2 : Nat) = 3 by decide), u8_of_lt l0, u8_of_lt l1, u8_of_lt l2, u8_of_lt l3]
  rw [putAll_ok _ _ _ (by simp; omega)]
  simp only [dlane0 _ _ l1, dlane1 _ _ l2, dlane2 _ _ l3, List.length_cons, List.length_nil]
  have e : (if c3 = 61 then (if c2 = 61 then 1 else 0) + 1 else if c2 = 61 then 1 else 0 : Nat)
      = (if c2 = 61 then 1 else 0) + (if c3 = 61 then 1 else 0) := by
    by_cases hc : c3 = 61 <;> simp [hc]
  rw [e]
  rfl

theorem u8_ofNat_eq {n : Nat} {x : UInt8} (h : n % 256 = x.toNat) : UInt8.ofNat n = x := by
  apply UInt8.toNat_inj.1
  rw [UInt8.toNat_ofNat', ← h]

theorem take_block (o : List UInt8) (pos : Nat) (v : List UInt8) (h : pos ≤ o.length) (k : Nat) :
    (o.take pos ++ v).take (pos + k) = o.take pos ++ v.take k := by
  rw [List.take_append, List.take_of_length_le (by simp; omega), List.length_take,
    Nat.min_eq_left h, Nat.add_sub_cancel_left]

theorem decLoop_spec (m : Mem) (src : Nat) : ∀ (s : List UInt8) (i : Nat) (block : Nat → UInt8)
    (pos : Nat) (out : List UInt8), Holds m (src + i) (rfc4648 s) →
    pos + 3 * ((s.length + 2) / 3) + 1 ≤ out.length →
    ∃ r, decLoop m src (rfc4648 s).length i block 0 0 pos out = .ok r ∧ r.length = out.length ∧
      r.take (pos + s.length + 1) = out.take pos ++ s ++ [0]
  | [], i, block, pos, out, h, hl => by
    simp only [rfc4648, List.length_nil, decLoop]
    simp only [List.length_nil] at hl
    rw [putAll_ok _ _ _ (by simp; omega)]
    refine ⟨_, rfl, by simp; omega, ?_⟩
    rw [List.append_assoc, Nat.add_zero, take_block _ _ _ (by omega)]
    simp
  | [x], i, block, pos, out, h, hl => by
    simp only [List.length_cons, List.length_nil] at hl
    have hx := UInt8.toNat_lt x
    have ha := decTab_b64char (x.toNat * 16 / 2 ^ 6) (by omega)
    have hb := decTab_b64char (x.toNat * 16 % 64) (by omega)
    simp only [rfc4648, List.length_cons, List.length_nil] at h ⊢
    obtain ⟨b', hb'⟩ := decLoop_block m src 0 i block pos out _ _ 61 61 _ _ 0 0
      (h 0 (by simp)) (by have := h 1 (by simp); rwa [Nat.add_assoc] at this)
      (by have := h 2 (by simp); rwa [Nat.add_assoc] at this)
      (by have := h 3 (by simp); rwa [Nat.add_assoc] at this)
      ha.1 hb.1 decTab_pad decTab_pad (by omega) (by omega) (by omega) (by omega)
      ha.2.1 hb.2.1 (by omega)
    rw [Nat.zero_add] at hb'
    rw [hb']
    simp only [if_true]
    rw [if_pos (by decide), if_pos (by decide), putAll_ok _ _ _ (by simp; omega)]
    refine ⟨_, rfl, by simp; omega, ?_⟩
    rw [u8_ofNat_eq (n := x.toNat * 16 / 2 ^ 6 * 4 + x.toNat * 16 % 64 / 16) (x := x) (by omega)]
    have e1 : pos + 3 - (1 + 1) = pos + 1 := by omega
    rw [e1, List.append_assoc (out.take pos), take_block _ _ _ (by omega)]
    rw [List.append_assoc, List.append_assoc (out.take pos), List.length_singleton,
      Nat.add_assoc pos 1 1, take_block _ _ _ (by omega)]
    simp
  | [x, y], i, block, pos, out, h, hl => by
    simp only [List.length_cons, List.length_nil] at hl
    have hx := UInt8.toNat_lt x
    have hy := UInt8.toNat_lt y
    have ha := decTab_b64char ((x.toNat * 256 + y.toNat) * 4 / 2 ^ 12) (by omega)
    have hb := decTab_b64char ((x.toNat * 256 + y.toNat) * 4 / 2 ^ 6 % 64) (by omega)
    have hc := decTab_b64char ((x.toNat * 256 + y.toNat) * 4 % 64) (by omega)
    simp only [rfc4648, List.length_cons, List.length_nil] at h ⊢
    obtain ⟨b', hb'⟩ := decLoop_block m src 0 i block pos out _ _ _ 61 _ _ _ 0
      (h 0 (by simp)) (by have := h 1 (by simp); rwa [Nat.add_assoc] at this)
      (by have := h 2 (by simp); rwa [Nat.add_assoc] at this)
      (by have := h 3 (by simp); rwa [Nat.add_assoc] at this)
      ha.1 hb.1 hc.1 decTab_pad (by omega) (by omega) (by omega) (by omega)
      ha.2.1 hb.2.1 (by omega)
    rw [Nat.zero_add] at hb'
    rw [hb']
    have hc2 : ¬ b64char ((x.toNat * 256 + y.toNat) * 4 % 64) = 61 := hc.2.1
    simp only [if_neg hc2, if_true]
    rw [if_pos (by decide), if_pos (by decide), putAll_ok _ _ _ (by simp; omega)]
    refine ⟨_, rfl, by simp; omega, ?_⟩
    rw [u8_ofNat_eq (n := (x.toNat * 256 + y.toNat) * 4 / 2 ^ 12 * 4 + _ / 16) (x := x) (by omega)]
    rw [u8_ofNat_eq (n := (x.toNat * 256 + y.toNat) * 4 / 2 ^ 6 % 64 * 16 + _ / 4) (x := y) (by omega)]
    have e1 : pos + 3 - (0 + 1) = pos + 2 := by omega
    rw [e1, List.append_assoc (out.take pos), take_block _ _ _ (by omega)]
    rw [List.append_assoc, List.append_assoc (out.take pos),
      show pos + (0 + 1 + 1) + 1 = pos + 3 by omega, take_block _ _ _ (by omega)]
    simp
  | x :: y :: z :: rest, i, block, pos, out, h, hl => by
    simp only [List.length_cons] at hl
    have hx := UInt8.toNat_lt x
    have hy := UInt8.toNat_lt y
    have hz := UInt8.toNat_lt z
    have ha := decTab_b64char (((x.toNat * 256 + y.toNat) * 256 + z.toNat) / 2 ^ 18) (by omega)
    have hb := decTab_b64char (((x.toNat * 256 + y.toNat) * 256 + z.toNat) / 2 ^ 12 % 64) (by omega)
    have hc := decTab_b64char (((x.toNat * 256 + y.toNat) * 256 + z.toNat) / 2 ^ 6 % 64) (by omega)
    have hd := decTab_b64char (((x.toNat * 256 + y.toNat) * 256 + z.toNat) % 64) (by omega)
    simp only [rfc4648, List.length_cons] at h ⊢
    obtain ⟨b', hb'⟩ := decLoop_block m src (rfc4648 rest).length i block pos out _ _ _ _ _ _ _ _
      (h 0 (by simp)) (by have := h 1 (by simp); rwa [Nat.add_assoc] at this)
      (by have := h 2 (by simp); rwa [Nat.add_assoc] at this)
      (by have := h 3 (by simp); rwa [Nat.add_assoc] at this)
      ha.1 hb.1 hc.1 hd.1 (by omega) (by omega) (by omega) (by omega)
      ha.2.1 hb.2.1 (by omega)
    rw [hb']
    have hc2 : ¬ b64char (((x.toNat * 256 + y.toNat) * 256 + z.toNat) / 2 ^ 6 % 64) = 61 := hc.2.1
    have hd2 : ¬ b64char (((x.toNat * 256 + y.toNat) * 256 + z.toNat) % 64) = 61 := hd.2.1
    simp only [if_neg hc2, if_neg hd2]
    rw [if_neg (by decide)]
    rw [u8_ofNat_eq (n := _ / 2 ^ 18 * 4 + _ / 16) (x := x) (by omega)]
    rw [u8_ofNat_eq (n := _ / 2 ^ 12 % 64 * 16 + _ / 4) (x := y) (by omega)]
    rw [u8_ofNat_eq (n := _ / 2 ^ 6 % 64 * 64 + _ % 64) (x := z) (by omega)]
    obtain ⟨r, r1, r2, r3⟩ := decLoop_spec m src rest (i + 4) b' (pos + 3)
      (out.take pos ++ [x, y, z] ++ out.drop (pos + 3))
      (by
        intro j hj
        have := h (j + 4) (by simp; omega)
        rw [show src + (i + 4) + j = src + i + (j + 4) by omega, this]
        rfl)
      (by simp; omega)
    refine ⟨r, r1, by rw [r2]; simp; omega, ?_⟩
    rw [show pos + (rest.length + 1 + 1 + 1) + 1 = pos + 3 + rest.length + 1 by omega, r3]
    rw [List.append_assoc (out.take pos), take_block _ _ _ (by omega)]
    simp

/-- Bounds: the decoder stays inside its block, whatever the text. -/
theorem decLoop_inbounds (m : Mem) (src : Nat) : ∀ (n i : Nat) (block : Nat → UInt8)
    (count pad pos : Nat) (out : List UInt8), count < 4 →
    pos + 3 * ((count + countValid m src i n) / 4) + 1 ≤ out.length →
    decLoop m src n i block count pad pos out = .null ∨
      ∃ r, decLoop m src n i block count pad pos out = .ok r ∧ r.length = out.length ∧ 0 ∈ r := by
  intro n
  induction n with
  | zero =>
    intro i block count pad pos out hc hl
    right
    simp only [countValid] at hl
    simp only [decLoop]
    rw [putAll_ok _ _ _ (by simp; omega)]
    refine ⟨_, rfl, by simp; omega, by simp⟩
  | succ n ih =>
    intro i block count pad pos out hc hl
    rw [decLoop]
    simp only [countValid] at hl
    by_cases hv : decTab (m (src + i)) = 0x80
    · simp only [hv, if_true]
      rw [if_neg (by simp [hv]), Nat.zero_add] at hl
      exact ih _ _ _ _ _ _ hc hl
    · simp only [if_neg hv]
      rw [if_pos hv] at hl
      by_cases h4 : count + 1 = 4
      · simp only [if_pos h4]
        rw [putAll_ok _ _ _ (by simp; omega)]
        simp only [List.length_cons, List.length_nil]
        generalize hp : (if m (src + i) = 61 then pad + 1 else pad) = pad'
        by_cases hpad : pad' ≠ 0
        · rw [if_pos hpad]
          by_cases h12 : pad' = 1 ∨ pad' = 2
          · rw [if_pos h12, putAll_ok _ _ _ (by simp; omega)]
            right
            exact ⟨_, rfl, by simp; omega, by simp⟩
          · rw [if_neg h12]; exact Or.inl rfl
        · rw [if_neg hpad]
          have key : ∀ (o : List UInt8) (bl : Nat → UInt8), o.length = out.length →
              (decLoop m src n (i + 1) bl 0 pad' (pos + 3) o = .null ∨
                ∃ r, decLoop m src n (i + 1) bl 0 pad' (pos + 3) o = .ok r ∧
                  r.length = out.length ∧ 0 ∈ r) := by
            intro o bl ho
            have := ih (i + 1) bl 0 pad' (pos + 3) o (by omega) (by omega)
            rwa [ho] at this
          exact key _ _ (by simp; omega)
      · simp only [if_neg h4]
        exact ih _ _ _ _ _ _ (by omega) (by omega)

theorem countValid_all (m : Mem) (src : Nat) : ∀ (t : List UInt8) (i : Nat), Holds m (src + i) t →
    (∀ b ∈ t, decTab b ≠ 0x80) → countValid m src i t.length = t.length := by
  intro t
  induction t with
  | nil => intro i _ _; rfl
  | cons x t ih =>
    intro i h hv
    have h0 : m (src + i) = x := by have := h 0 (by simp); simpa using this
    simp only [List.length_cons, countValid]
    rw [h0, if_pos (hv x (by simp)), ih (i + 1) (fun j hj => by
      have := h (j + 1) (by simp; omega)
      rw [show src + (i + 1) + j = src + i + (j + 1) by omega, this]; rfl)
      (fun b hb => hv b (by simp [hb]))]
    omega

theorem rfc4648_chars : ∀ (s : List UInt8), ∀ b ∈ rfc4648 s, IsB64Char b ∨ b = 61
  | [], b, h => by simp [rfc4648] at h
  | [x], b, h => by
    have hx := UInt8.toNat_lt x
    simp only [rfc4648, List.mem_cons, List.not_mem_nil, or_false] at h
    rcases h with h | h | h | h
    · exact Or.inl ⟨_, by omega, h⟩
    · exact Or.inl ⟨_, by omega, h⟩
    · exact Or.inr h
    · exact Or.inr h
  | [x, y], b, h => by
    have hx := UInt8.toNat_lt x
    have hy := UInt8.toNat_lt y
    simp only [rfc4648, List.mem_cons, List.not_mem_nil, or_false] at h
    rcases h with h | h | h | h
    · exact Or.inl ⟨_, by omega, h⟩
    · exact Or.inl ⟨_, by omega, h⟩
    · exact Or.inl ⟨_, by omega, h⟩
    · exact Or.inr h
  | x :: y :: z :: rest, b, h => by
    have hx := UInt8.toNat_lt x
    have hy := UInt8.toNat_lt y
    have hz := UInt8.toNat_lt z
    simp only [rfc4648, List.mem_cons] at h
    rcases h with h | h | h | h | h
    · exact Or.inl ⟨_, by omega, h⟩
    · exact Or.inl ⟨_, by omega, h⟩
    · exact Or.inl ⟨_, by omega, h⟩
    · exact Or.inl ⟨_, by omega, h⟩
    · exact rfc4648_chars rest b h

theorem decTab_valid (b : UInt8) : decTab b ≠ 0x80 ↔ IsB64Char b ∨ b = 61 := by
  have key : ∀ n < 256, decTab (UInt8.ofNat n) ≠ 0x80 →
      ((∃ v < 64, UInt8.ofNat n = b64char v) ∨ UInt8.ofNat n = 61) := by decide +kernel
  constructor
  · intro h
    have := key b.toNat (UInt8.toNat_lt b)
    simp only [UInt8.ofNat_toNat] at this
    exact this h
  · rintro (⟨v, hv, rfl⟩ | rfl)
    · rw [(decTab_b64char v hv).1]
      have nv : ∀ v, v < 64 → UInt8.ofNat v ≠ 0x80 := by decide +kernel
      exact nv v hv
    · decide +kernel

theorem isBase64Loop_iff (m : Mem) (src : Nat) : ∀ (t : List UInt8) (i : Nat), Holds m (src + i) t →
    (isBase64Loop m src i t.length = true ↔ ∀ b ∈ t, decTab b ≠ 0x80) := by
  intro t
  induction t with
  | nil => intro i _; simp [isBase64Loop]
  | cons x t ih =>
    intro i h
    have h0 : m (src + i) = x := by have := h 0 (by simp); simpa using this
    have := ih (i + 1) (fun j hj => by
      have := h (j + 1) (by simp; omega)
      rw [show src + (i + 1) + j = src + i + (j + 1) by omega, this]; rfl)
    simp only [List.length_cons, isBase64Loop, h0]
    by_cases hx : decTab x = 0x80
    · simp [hx]
    · rw [if_neg hx, this]; simp [hx]

end Verif
