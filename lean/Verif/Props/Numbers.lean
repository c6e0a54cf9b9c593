import Verif.Proof.Format
import Mathlib.Data.Rat.Defs
import Mathlib.Tactic.FieldSimp
import Mathlib.Tactic.Linarith
import Mathlib.Tactic.Ring
import Mathlib.Data.Rat.Cast.Order
/-!
# C06–C11: number parsing and formatting
-/
namespace Verif.Props
open Verif

/-! ## C06 -/

/-- **C06, unsigned.** The value of every string of up to 23 decimal digits, modulo `2^64`
(documented limit: 20).  `junk` is whatever an undefined shift by 64 yields. -/
theorem C06_atou (m : Mem) (s : Nat) (t : List UInt8) (h : Holds m s t) (hl : t.length ≤ 23)
    (hd : ∀ b ∈ t, IsDigit b) (junk : W) :
    (simdAtou m s t.length junk).toNat = decVal t % 2 ^ 64 := by
  rw [simdAtou_spec m s t h hl hd junk, BitVec.toNat_ofNat]

/-- The value itself whenever it fits. -/
theorem C06_atou_fits (m : Mem) (s : Nat) (t : List UInt8) (h : Holds m s t) (hl : t.length ≤ 23)
    (hd : ∀ b ∈ t, IsDigit b) (hv : decVal t < 2 ^ 64) (junk : W) :
    (simdAtou m s t.length junk).toNat = decVal t := by
  rw [C06_atou m s t h hl hd junk, Nat.mod_eq_of_lt hv]

/-- 8-byte primitive. -/
theorem C06_atou8 (m : Mem) (s : Nat) (t : List UInt8) (h : Holds m s t) (hl : t.length ≤ 8)
    (hd : ∀ b ∈ t, IsDigit b) (junk : W) : (atou8 m s t.length junk).toNat = decVal t :=
  atou8_spec m s t h hl hd junk

theorem digit_not_sign {b : UInt8} (h : IsDigit b) : b ≠ 45 ∧ b ≠ 43 := by
  constructor <;> rintro rfl <;> exact absurd h (by unfold IsDigit; decide)

/-- **C06, signed.** An optional sign and up to 23 digits whose value without the sign fits an `int64_t`: all numbers of the type but the least one
(`C06_full_false`). -/
theorem C06_atoi_partial (m : Mem) (s : Nat) (sg ds : List UInt8) (hsg : sg = [] ∨ sg = [45] ∨ sg = [43])
    (h : Holds m s (sg ++ ds)) (hl : ds.length ≤ 23) (hd : ∀ b ∈ ds, IsDigit b)
    (hv : decVal ds < 2 ^ 63) (junk : W) :
    ∃ r, simdAtoi m s (sg ++ ds).length junk = some r ∧
      r.toInt = if sg = [45] then -(decVal ds : Int) else decVal ds := by
  have hsp := h.split
  have key := simdAtou_spec m _ ds hsp.2 hl hd junk
  have hpos : (BitVec.ofNat 64 (decVal ds)).toInt = (decVal ds : Int) := by
    rw [BitVec.toInt_eq_toNat_of_lt (by rw [BitVec.toNat_ofNat]; omega), BitVec.toNat_ofNat,
      Nat.mod_eq_of_lt (by omega)]
  have hmin : BitVec.ofNat 64 (decVal ds) ≠ BitVec.intMin 64 := by
    intro he
    rw [he] at hpos
    have : (BitVec.intMin 64).toInt = -2 ^ 63 := by decide
    omega
  rcases hsg with rfl | rfl | rfl
  · simp only [List.nil_append] at h ⊢
    have hns : ¬ (ds.length ≠ 0 ∧ m s = 45) ∧ ¬ (ds.length ≠ 0 ∧ (m s = 45 ∨ m s = 43)) := by
      have : ∀ (_ : ds.length ≠ 0), m s ≠ 45 ∧ m s ≠ 43 := by
        intro hne
        have h0 := h 0 (by omega)
        rw [Nat.add_zero] at h0
        rw [h0]
        exact digit_not_sign (hd _ (List.getElem_mem _))
      refine ⟨fun hh => (this hh.1).1 hh.2, fun hh => ?_⟩
      rcases hh.2 with h1 | h1
      · exact (this hh.1).1 h1
      · exact (this hh.1).2 h1
    unfold simdAtoi
    simp only [if_neg hns.1, if_neg hns.2]
    simp only [List.length_nil, Nat.add_zero] at key
    exact ⟨_, rfl, by rw [key, hpos]; simp⟩
  · have h0 : m s = 45 := by have := h 0 (by simp); simpa using this
    unfold simdAtoi
    simp only [List.cons_append, List.nil_append, List.length_cons, h0]
    simp only [List.length_cons, List.length_nil, Nat.zero_add] at key
    simp only [ne_eq, Nat.add_one_ne_zero, not_false_eq_true, true_and, true_or, if_true,
      Nat.add_sub_cancel, key, if_neg hmin]
    refine ⟨_, rfl, ?_⟩
    rw [BitVec.toInt_neg, hpos, Int.bmod_eq_of_le (by omega) (by omega)]
  · have h0 : m s = 43 := by have := h 0 (by simp); simpa using this
    have e : (43 : UInt8) ≠ 45 := by decide
    unfold simdAtoi
    simp only [List.cons_append, List.nil_append, List.length_cons, h0]
    simp only [List.length_cons, List.length_nil, Nat.zero_add] at key
    simp only [ne_eq, Nat.add_one_ne_zero, not_false_eq_true, true_and, or_true, if_true,
      Nat.add_sub_cancel, key, if_neg e]
    refine ⟨_, rfl, ?_⟩
    rw [hpos, if_neg (by simp)]

/-- **C06, signed.** After a minus sign, undefined exactly for the digits of `2^63` (modulo `2^64`): the least number of an `int64_t` cannot be read. -/
theorem C06_atoi_least (m : Mem) (s : Nat) (ds : List UInt8) (h : Holds m s ([45] ++ ds)) (hl : ds.length ≤ 23) (hd : ∀ b ∈ ds, IsDigit b) (junk : W) :
    simdAtoi m s ([45] ++ ds).length junk = none ↔ decVal ds % 2 ^ 64 = 2 ^ 63 := by
  have key := simdAtou_spec m _ ds h.split.2 hl hd junk
  have h0 : m s = 45 := by have := h 0 (by simp); simpa using this
  unfold simdAtoi
  simp only [List.cons_append, List.nil_append, List.length_cons, h0]
  simp only [List.length_cons, List.length_nil, Nat.zero_add] at key
  simp only [ne_eq, Nat.add_one_ne_zero, not_false_eq_true, true_and, true_or, if_true, Nat.add_sub_cancel, key]
  have e : BitVec.ofNat 64 (decVal ds) = BitVec.intMin 64 ↔ decVal ds % 2 ^ 64 = 2 ^ 63 := by
    rw [← BitVec.toNat_inj, BitVec.toNat_ofNat]
    have : (BitVec.intMin 64).toNat = 2 ^ 63 := by decide
    rw [this]
  rw [← e]
  split <;> simp_all

/-- The least number as text. -/
example : let m : Mem := fun a => ("-9223372036854775808".toUTF8.toList).getD a 0
    Holds m 0 ([45] ++ "9223372036854775808".toUTF8.toList) ∧ simdAtoi m 0 20 0 = none := by
  unfold Holds; decide +kernel

/-- **C06.** The full statement: unsigned numbers modulo `2^64`, and every number that fits an `int64_t`. -/
def C06_Full : Prop :=
  (∀ (m : Mem) (s : Nat) (t : List UInt8), Holds m s t → t.length ≤ 20 → (∀ b ∈ t, IsDigit b) → ∀ junk : W, (simdAtou m s t.length junk).toNat = decVal t % 2 ^ 64) ∧
  (∀ (m : Mem) (s : Nat) (sg ds : List UInt8), (sg = [] ∨ sg = [45] ∨ sg = [43]) → Holds m s (sg ++ ds) → (sg ++ ds).length ≤ 20 → (∀ b ∈ ds, IsDigit b) →
    decVal ds < 2 ^ 63 + (if sg = [45] then 1 else 0) → ∀ junk : W,
    ∃ r, simdAtoi m s (sg ++ ds).length junk = some r ∧ r.toInt = if sg = [45] then -(decVal ds : Int) else decVal ds)

/-- False: the least number of an `int64_t` is negated after it was read as a positive one (`src/swar.c:344-346`), which is undefined. -/
theorem C06_full_false : ¬ C06_Full := by
  intro ⟨_, h⟩
  obtain ⟨r, hr, -⟩ := h (fun a => ("-9223372036854775808".toUTF8.toList).getD a 0) 0 [45] "9223372036854775808".toUTF8.toList (.inr (.inl rfl))
    (by unfold Holds; decide +kernel) (by decide +kernel) (by unfold IsDigit; decide +kernel) (by decide +kernel) 0
  have : simdAtoi (fun a => ("-9223372036854775808".toUTF8.toList).getD a 0) 0 ([45] ++ "9223372036854775808".toUTF8.toList).length 0 = none := by decide +kernel
  rw [this] at hr
  cases hr

/-- "-12345678901" followed by more digits in memory. -/
def mNum : Mem := fun a => ("xx-12345678901999".toUTF8.toList).getD a 0
example : Holds mNum 2 ([45] ++ "12345678901".toUTF8.toList) ∧
    (∀ b ∈ "12345678901".toUTF8.toList, IsDigit b) ∧ decVal "12345678901".toUTF8.toList < 2 ^ 63 ∧
    simdAtoi mNum 2 12 0xdeadbeef#64 = some (BitVec.ofInt 64 (-12345678901)) := by
  unfold Holds IsDigit; decide +kernel

/-! ## C07 -/

/-- **C07.** Up to 16 hexadecimal digits, either case. -/
theorem C07_htou (m : Mem) (s : Nat) (t : List UInt8) (h : Holds m s t) (hl : t.length ≤ 16)
    (hd : ∀ b ∈ t, (hexDigit b).isSome) (junk : W) :
    (simdHtou m s t.length junk).toNat = hexVal t := by
  rw [simdHtou_spec m s t h hl hd junk, BitVec.toNat_ofNat, Nat.mod_eq_of_lt]
  have := digVal_lt (b := 16) (t.map fun b => (hexDigit b).getD 0) (by
    intro d hd'
    obtain ⟨b, hb, rfl⟩ := List.mem_map.1 hd'
    obtain ⟨d, hd2⟩ := Option.isSome_iff_exists.1 (hd b hb)
    have := hexDigit_byte b.toNat (UInt8.toNat_lt b) d (by simpa using hd2)
    rw [hd2]; exact this.2.2)
  rw [← hexVal_eq, List.length_map] at this
  have h2 : (16 : Nat) ^ t.length ≤ 16 ^ 16 := Nat.pow_le_pow_right (by decide) hl
  omega

example : Holds (fun a => ("DeadBEEF01f".toUTF8.toList).getD a 0) 0 "DeadBEEF01f".toUTF8.toList ∧
    (∀ b ∈ "DeadBEEF01f".toUTF8.toList, (hexDigit b).isSome) ∧
    hexVal "DeadBEEF01f".toUTF8.toList = 0xdeadbeef01f := by
  unfold Holds; decide +kernel

/-! ## C08 -/

/-- What a formatting call must leave behind: the canonical text of `x` and NUL at `buf`, the
length returned, and nothing changed outside `buf[0..n)`. -/
def Formats (m : Mem) (x : Int) (buf n : Nat) (r : Option (Mem × Nat)) : Prop :=
  ∃ m' t, r = some (m', t.length) ∧ IsIntText t x ∧ Holds m' buf (t ++ [0]) ∧
    ∀ a, a < buf ∨ buf + n ≤ a → m' a = m a

/-- The full property C08. -/
def C08_Full : Prop := ∀ (m : Mem) (x : W) (buf : Nat) (stack : Nat → UInt8),
  Formats m x.toInt buf 22 (simdItoa m x buf stack)

theorem intText_of {x : Int} {u : List UInt8} (h : IsNatText u x.natAbs) :
    IsIntText ((if x < 0 then [45] else []) ++ u) x := by
  by_cases hx : x < 0
  · right
    refine ⟨hx, u, by rw [if_pos hx]; rfl, ?_⟩
    rwa [show (-x).toNat = x.natAbs by omega]
  · left
    refine ⟨by omega, ?_⟩
    rw [if_neg hx, List.nil_append, show x.toNat = x.natAbs by omega]; exact h

theorem toInt_setWidth32 {x : W} (h1 : -2 ^ 31 ≤ x.toInt) (h2 : x.toInt < 2 ^ 31) :
    (x.setWidth 32).toInt = x.toInt := by
  rw [BitVec.toInt_setWidth]
  have : ((x.toNat : Int)).bmod (2 ^ 32) = (x.toInt).bmod (2 ^ 32) := by
    rw [BitVec.toInt_eq_toNat_bmod]
    have : (2 ^ 64 : Nat) = 2 ^ 32 * 2 ^ 32 := by decide
    rw [this, Int.bmod_bmod_of_dvd (Dvd.intro _ rfl)]
  rw [this, Int.bmod_eq_of_le (by omega) (by omega)]

/-- **C08 (partial).** Every `x` with `-2^31 < x < 2^31` is formatted exactly; at most 21 bytes of
the buffer are touched, whatever the over-read of the stack yields.
Missing: values outside that range (see `C08_exact`, `C08_wrong`). -/
theorem C08_itoa_partial (m : Mem) (x : W) (buf : Nat) (stack : Nat → UInt8)
    (h1 : -2 ^ 31 < x.toInt) (h2 : x.toInt < 2 ^ 31) :
    Formats m x.toInt buf 21 (simdItoa m x buf stack) := by
  have e := toInt_setWidth32 (x := x) (by omega) h2
  have hne : x.setWidth 32 ≠ BitVec.intMin 32 := by
    intro he
    rw [he] at e
    have : (BitVec.intMin 32).toInt = -2 ^ 31 := by decide
    omega
  obtain ⟨m', u, h3, h4, h5, h6⟩ := simdItoa_spec m x buf stack hne
  rw [e] at h4
  exact ⟨m', _, h3, intText_of h4, h5, h6⟩

/-- Non-vacuity. -/
example : (-2 : Int) ^ 31 < (BitVec.ofInt 64 (-2147483647)).toInt ∧
    (BitVec.ofInt 64 (-2147483647)).toInt < 2 ^ 31 := by decide

/-- **What is written in general**: the sign of `x` and the magnitude of its low 32 bits read as an
`int` (defined unless those are `INT_MIN`). -/
theorem C08_exact (m : Mem) (x : W) (buf : Nat) (stack : Nat → UInt8) :
    (x.setWidth 32 = BitVec.intMin 32 → simdItoa m x buf stack = none) ∧
    (x.setWidth 32 ≠ BitVec.intMin 32 →
      ∃ m' u, simdItoa m x buf stack
          = some (m', ((if x.toInt < 0 then [45] else []) ++ u : List UInt8).length) ∧
        IsNatText u (x.setWidth 32).toInt.natAbs ∧
        Holds m' buf ((if x.toInt < 0 then [45] else []) ++ u ++ [0])) := by
  constructor
  · intro h
    unfold simdItoa
    simp only [if_pos h]
  · intro h
    obtain ⟨m', u, h1, h2, h3, _⟩ := simdItoa_spec m x buf stack h
    exact ⟨m', u, h1, h2, h3⟩

theorem Holds_unique {m : Mem} {p : Nat} {t u : List UInt8} (h : Holds m p t) (h' : Holds m p u)
    (hl : t.length = u.length) : t = u := by
  apply List.ext_getElem hl
  intro i h1 h2
  rw [← h i h1, h' i h2]

/-- **C08 fails for every other value**: if `x ≤ -2^31` or `2^31 ≤ x` the call is undefined or the
text is not that of `x`. -/
theorem C08_wrong (m : Mem) (x : W) (buf n : Nat) (stack : Nat → UInt8)
    (hx : x.toInt ≤ -2 ^ 31 ∨ 2 ^ 31 ≤ x.toInt) :
    ¬ Formats m x.toInt buf n (simdItoa m x buf stack) := by
  rintro ⟨m', t, h1, h2, h3, _⟩
  by_cases hmin : x.setWidth 32 = BitVec.intMin 32
  · rw [(C08_exact m x buf stack).1 hmin] at h1; cases h1
  · obtain ⟨m'', u, g1, g2, g3⟩ := (C08_exact m x buf stack).2 hmin
    rw [g1] at h1
    simp only [Option.some.injEq, Prod.mk.injEq] at h1
    obtain ⟨rfl, hl⟩ := h1
    have ht := Holds_unique h3 g3 (by simp only [List.length_append] at hl ⊢; omega)
    have ht' := List.append_cancel_right ht
    subst ht'
    have hlt : (x.setWidth 32).toInt < 2 ^ 31 := BitVec.toInt_lt
    have hge : -2 ^ 31 ≤ (x.setWidth 32).toInt := BitVec.le_toInt _
    have hne : (x.setWidth 32).toInt ≠ -2 ^ 31 := by
      intro he
      apply hmin
      apply BitVec.eq_of_toInt_eq
      rw [he]; decide
    by_cases hn : x.toInt < 0
    · simp only [if_pos hn] at h2
      rcases h2 with ⟨h, _⟩ | ⟨_, v, hv, hv2⟩
      · omega
      · simp only [List.cons_append, List.nil_append, List.cons.injEq, true_and] at hv
        subst hv
        have := g2.unique hv2
        omega
    · simp only [if_neg hn, List.nil_append] at h2
      rcases h2 with ⟨_, h⟩ | ⟨h, _⟩
      · have := g2.unique h
        omega
      · omega

theorem C08_full_false : ¬ C08_Full := fun h =>
  C08_wrong (fun _ => 0) (BitVec.ofInt 64 4294967297) 0 22 (fun _ => 0) (by decide)
    (h (fun _ => 0) (BitVec.ofInt 64 4294967297) 0 (fun _ => 0))

/-- `itoa8` is exact for up to 8 digits and touches 10 bytes of the buffer. -/
theorem C08_itoa8 (m : Mem) (x : BitVec 32) (buf : Nat) (h : x.toInt.natAbs < 10 ^ 8) :
    Formats m x.toInt buf 10 (itoa8 m x buf) := by
  obtain ⟨m', u, h1, h2, h3, h4⟩ := itoa8_spec m x buf h
  exact ⟨m', _, h1, intText_of h2, h3, h4⟩

/-! ## C09 -/

/-- The full property C09. -/
def C09_Full : Prop := ∀ (m : Mem) (x : W) (buf : Nat) (stack : Nat → UInt8) (junk : W),
  ∃ m' n, simdItoa m x buf stack = some (m', n) ∧ simdAtoi m' buf n junk = some x

/-- **C09 (partial).** Round trip for `-2^31 < x < 2^31`. Missing: the other values. -/
theorem C09_roundtrip_partial (m : Mem) (x : W) (buf : Nat) (stack : Nat → UInt8) (junk : W)
    (h1 : -2 ^ 31 < x.toInt) (h2 : x.toInt < 2 ^ 31) :
    ∃ m' n, simdItoa m x buf stack = some (m', n) ∧ simdAtoi m' buf n junk = some x := by
  obtain ⟨m', t, g1, g2, g3, _⟩ := C08_itoa_partial m x buf stack h1 h2
  have g4 := g3.split.1
  refine ⟨m', t.length, g1, ?_⟩
  have key : ∀ (sg ds : List UInt8) (n : Nat), t = sg ++ ds → (sg = [] ∨ sg = [45]) →
      IsNatText ds n → n < 2 ^ 31 → x.toInt = (if sg = [45] then -(n : Int) else n) →
      simdAtoi m' buf t.length junk = some x := by
    intro sg ds n hsplit hsg hnt hlt hval
    obtain ⟨r, r1, r2⟩ := C06_atoi_partial m' buf sg ds (by rcases hsg with h | h <;> simp [h])
      (hsplit ▸ g4) (Nat.le_trans (hnt.length_le (k := 10) (by omega) (by decide)) (by decide))
      hnt.2.1 (by rw [hnt.2.2.1]; omega) junk
    rw [hsplit, r1]
    congr 1
    apply BitVec.eq_of_toInt_eq
    rw [r2, hval, hnt.2.2.1]
  rcases g2 with ⟨hx, hu⟩ | ⟨hx, u, rfl, hu⟩
  · exact key [] t _ rfl (Or.inl rfl) hu (by omega) (by simp; omega)
  · exact key [45] u _ rfl (Or.inr rfl) hu (by omega) (by simp; omega)

/-- **C09, exactly when it holds.** -/
theorem C09_roundtrip_iff (m : Mem) (x : W) (buf : Nat) (stack : Nat → UInt8) (junk : W) :
    (∃ m' n, simdItoa m x buf stack = some (m', n) ∧ simdAtoi m' buf n junk = some x) ↔
      -2 ^ 31 < x.toInt ∧ x.toInt < 2 ^ 31 := by
  refine ⟨?_, fun h => C09_roundtrip_partial m x buf stack junk h.1 h.2⟩
  rintro ⟨m', n, h1, h2⟩
  by_cases hmin : x.setWidth 32 = BitVec.intMin 32
  · rw [(C08_exact m x buf stack).1 hmin] at h1; cases h1
  · obtain ⟨m'', u, g1, g2, g3⟩ := (C08_exact m x buf stack).2 hmin
    rw [g1] at h1
    simp only [Option.some.injEq, Prod.mk.injEq] at h1
    obtain ⟨rfl, rfl⟩ := h1
    have hlt : (x.setWidth 32).toInt < 2 ^ 31 := BitVec.toInt_lt
    have hge : -2 ^ 31 ≤ (x.setWidth 32).toInt := BitVec.le_toInt _
    have hne : (x.setWidth 32).toInt ≠ -2 ^ 31 := by
      intro he
      apply hmin
      apply BitVec.eq_of_toInt_eq
      rw [he]; decide
    obtain ⟨r, r1, r2⟩ := C06_atoi_partial m'' buf (if x.toInt < 0 then [45] else []) u
      (by by_cases h : x.toInt < 0 <;> simp [h]) g3.split.1
      (Nat.le_trans (g2.length_le (k := 10) (by omega) (by decide)) (by decide)) g2.2.1
      (by rw [g2.2.2.1]; omega) junk
    rw [h2] at r1
    cases r1
    rw [g2.2.2.1] at r2
    by_cases h : x.toInt < 0
    · simp only [if_pos h, if_true] at r2; omega
    · simp only [if_neg h, reduceCtorEq, if_false] at r2; omega

theorem C09_full_false : ¬ C09_Full := by
  intro h
  obtain ⟨m', n, h1, _⟩ := h (fun _ => 0) (BitVec.ofInt 64 2147483648) 0 (fun _ => 0) 0
  rw [(C08_exact _ _ _ _).1 (by decide)] at h1
  cases h1

/-! ## C10 -/

/-- **C10.** For widths 1 to 20 and every `x`: the last `N` digits, zero padded, NUL; nothing outside
`s[0 .. max(8*ceil(N/8), N+1))` is touched. -/
theorem C10_utoap (m : Mem) (N x s : Nat) (h1 : 1 ≤ N) (h20 : N ≤ 20) :
    Holds (utoap m N x s) s (padText N x ++ [0]) ∧
    ∀ a, a < s ∨ s + max (8 * ((N + 7) / 8)) (N + 1) ≤ a → utoap m N x s a = m a :=
  utoap_spec m N x s h1 h20

/-- `utoap(13, 9876543210987)`. -/
example : padText 13 1234567890123 = "1234567890123".toUTF8.toList ∧
    padText 5 42 = "00042".toUTF8.toList ∧
    (List.range 14).map (utoap (fun _ => 7) 13 1234567890123 100 <| 100 + ·)
      = "1234567890123".toUTF8.toList ++ [0] := by decide +kernel

/-- `padText` is the standard notion: digits whose value is `x mod 10^N`. -/
theorem C10_padText_value (N x : Nat) :
    (∀ b ∈ padText N x, IsDigit b) ∧ decVal (padText N x) = x % 10 ^ N := by
  constructor
  · intro b hb
    unfold padText at hb
    obtain ⟨i, _, rfl⟩ := List.mem_map.1 hb
    unfold IsDigit; rw [UInt8.toNat_ofNat']; omega
  · induction N with
    | zero => simp [padText, decVal, Nat.mod_one]
    | succ N ih =>
      rw [Nat.add_comm, padText_append, decVal_append, ih, padText_length]
      have : decVal (padText 1 (x / 10 ^ N)) = x / 10 ^ N % 10 := by
        simp only [padText, List.range, List.range.loop, List.map, decVal, List.foldl,
          UInt8.toNat_ofNat']
        simp; omega
      rw [this, Nat.add_comm 1 N, Nat.pow_succ, Nat.mod_mul]
      rw [Nat.mul_comm]; omega

/-! ## C11 -/

/-- The rational number a `Dec` denotes. -/
def Dec.val (d : Dec) : ℚ := d.ip + d.dp / 10 ^ d.e

/-- The number written as `sign I . F`. -/
def textVal (neg : Bool) (I F : List UInt8) : ℚ :=
  (if neg then -1 else 1) * ((decVal I : ℚ) + decVal F / 10 ^ F.length)

/-- `_copySign` gives the *opposite* of the documented sign. -/
theorem C11_copySign_reversed (src dst : W) :
    copySign src dst = if src.toInt < 0 then dst else -dst := by
  unfold copySign
  by_cases h : src.toInt < 0
  · rw [if_pos h]
    have : src.sshiftRight 63 = BitVec.allOnes 64 := by
      apply BitVec.eq_of_getLsbD_eq
      intro i hi
      have hm : src.msb = true := by rw [BitVec.msb_eq_toInt]; simpa using h
      rw [BitVec.getLsbD_sshiftRight]
      simp only [BitVec.getLsbD_allOnes, hi, decide_true]
      by_cases h0 : i = 0
      · subst h0; rw [BitVec.msb_eq_getLsbD_last] at hm; simpa using hm
      · rw [if_neg (by omega)]; simp [hm]; omega
    simp [this]
  · rw [if_neg h]
    have : src.sshiftRight 63 = 0#64 := by
      apply BitVec.eq_of_getLsbD_eq
      intro i hi
      have hm : src.msb = false := by rw [BitVec.msb_eq_toInt]; simpa using h
      rw [BitVec.getLsbD_sshiftRight]
      simp only [BitVec.getLsbD_zero]
      by_cases h0 : i = 0
      · subst h0; rw [BitVec.msb_eq_getLsbD_last] at hm; simpa using hm
      · rw [if_neg (by omega)]; simp [hm]
    simp only [this]
    have e : ~~~(0#64 : W) = BitVec.allOnes 64 := by decide
    rw [e, BitVec.xor_allOnes]
    apply BitVec.eq_of_toNat_eq
    rw [BitVec.toNat_not, BitVec.toNat_neg, BitVec.toNat_add, BitVec.toNat_allOnes]
    have := dst.isLt
    omega

/-- **C11, exactly what is computed** for a text `[-]I.F` of more than 8 characters (shorter texts
never find their dot, C03): the fraction is divided by 10 once too often and gets the wrong sign. -/
theorem C11_atod_exact (m : Mem) (s : Nat) (neg : Bool) (I F : List UInt8) (fuel : Nat) (junk : W)
    (h : Holds m s ((if neg then [45] else []) ++ I ++ [46] ++ F))
    (hI : ∀ b ∈ I, IsDigit b) (hF : ∀ b ∈ F, IsDigit b)
    (hlen : 8 < ((if neg then [45] else []) ++ I ++ [46] ++ F).length)
    (hIl : I.length ≤ 20) (hIv : decVal I < 2 ^ 63) (hFl : F.length < 20) (hFv : decVal F < 2 ^ 63)
    (hf : ((if neg then [45] else []) ++ I ++ [46] ++ F).length ≤ fuel) :
    ∃ d, simdAtod m s ((if neg then [45] else []) ++ I ++ [46] ++ F).length junk fuel = some d ∧
      d.ip = (if neg then -(decVal I : Int) else decVal I) ∧
      d.dp = (if d.ip < 0 then (decVal F : Int) else -(decVal F : Int)) ∧
      d.e = F.length + 1 := by
  have dig128 : ∀ b, IsDigit b → b.toNat < 128 ∧ b ≠ 46 := by
    intro b hb
    refine ⟨by unfold IsDigit at hb; omega, ?_⟩
    rintro rfl
    exact absurd hb (by unfold IsDigit; decide)
  -- the signed integer part
  obtain ⟨sg, hsg⟩ : ∃ sg : List UInt8, sg = if neg then [45] else [] := ⟨_, rfl⟩
  rw [← hsg] at h hlen hf ⊢
  have hsgl : sg.length ≤ 1 := by rw [hsg]; cases neg <;> simp
  have hsg128 : ∀ b ∈ sg, b.toNat < 128 ∧ b ≠ 46 := by
    intro b hb
    rw [hsg] at hb
    cases neg with
    | false => simp at hb
    | true => simp only [if_true, List.mem_singleton] at hb; subst hb; decide
  have hall : ∀ b ∈ sg ++ I, b.toNat < 128 ∧ b ≠ 46 := by
    intro b hb
    rcases List.mem_append.1 hb with hb | hb
    · exact hsg128 b hb
    · exact dig128 b (hI b hb)
  have hsplit : Holds m s ((sg ++ I) ++ ([46] ++ F)) := by simpa using h
  have h1 := hsplit.split
  have h2 := h1.2.split
  have hdot : m (s + (sg ++ I).length) = 46 := by
    have := h2.1 0 (by simp); simpa using this
  have hfirst : IsFirst m s (sg ++ I ++ [46] ++ F).length 46 (sg ++ I).length := by
    refine ⟨by simp, hdot, ?_⟩
    intro i hi
    rw [h1.1 i hi]
    exact (hall _ (List.getElem_mem _)).2
  have hprint : PrintMem true m s (sg ++ I ++ [46] ++ F).length 46 := by
    intro _
    refine ⟨?_, by decide⟩
    intro i hi
    rw [h i hi]
    have hmem : ∀ b ∈ sg ++ I ++ [46] ++ F, b.toNat < 128 := by
      intro b hb
      rcases List.mem_append.1 hb with hb | hb
      · rcases List.mem_append.1 hb with hb | hb
        · exact (hall b hb).1
        · simp only [List.mem_singleton] at hb; subst hb; decide
      · exact (dig128 b (hF b hb)).1
    exact hmem _ (List.getElem_mem _)
  have hp : pmemchr m s (sg ++ I ++ [46] ++ F).length 46 fuel
      = some (BitVec.ofNat 32 (sg ++ I).length) :=
    memchr'_long_found m true false s _ 46 fuel hprint hlen hf hfirst
  have hsmall : (sg ++ I).length ≤ 21 := by simp; omega
  have htn : (BitVec.ofNat 32 (sg ++ I).length).toNat = (sg ++ I).length := by
    rw [BitVec.toNat_ofNat, Nat.mod_eq_of_lt (by omega)]
  have hne : BitVec.ofNat 32 (sg ++ I).length ≠ -1#32 := by
    intro he
    rw [he] at htn
    have : (-1#32).toNat = 4294967295 := by decide
    omega
  obtain ⟨r, r1, r2⟩ := C06_atoi_partial m s sg I (by rw [hsg]; cases neg <;> simp) h1.1 (by omega) hI hIv junk
  have hFh : Holds m (s + (sg ++ I).length + 1) F := by
    have := h2.2; simpa using this
  have hlen' : (BitVec.ofNat 32 (sg ++ I ++ [46] ++ F).length
      - (BitVec.ofNat 32 (sg ++ I).length + 1#32)).toNat = F.length := by
    have e1 : (sg ++ I ++ [46] ++ F).length = (sg ++ I).length + 1 + F.length := by
      simp; omega
    rw [e1]
    have e2 : BitVec.ofNat 32 ((sg ++ I).length + 1 + F.length)
        - (BitVec.ofNat 32 (sg ++ I).length + 1#32) = BitVec.ofNat 32 F.length := by
      rw [show (1#32 : BitVec 32) = BitVec.ofNat 32 1 by rfl, ← BitVec.ofNat_add,
        BitVec.ofNat_add ((sg ++ I).length + 1), BitVec.add_comm, BitVec.add_sub_cancel]
    rw [e2, BitVec.toNat_ofNat, Nat.mod_eq_of_lt (by omega)]
  have hFu := simdAtou_spec m _ F hFh (by omega) hF junk
  unfold simdAtod
  simp only [hp, if_neg hne, htn, r1, hlen', if_pos hFl, hFu]
  refine ⟨_, rfl, ?_, ?_, rfl⟩
  · simp only [r2, hsg]
    cases neg <;> simp
  · simp only [C11_copySign_reversed]
    have hpos : (BitVec.ofNat 64 (decVal F)).toInt = (decVal F : Int) := by
      rw [BitVec.toInt_eq_toNat_of_lt (by rw [BitVec.toNat_ofNat]; omega), BitVec.toNat_ofNat,
        Nat.mod_eq_of_lt (by omega)]
    by_cases hn : r.toInt < 0
    · simp only [if_pos hn, hpos]
    · simp only [if_neg hn, BitVec.toInt_neg, hpos]
      rw [Int.bmod_eq_of_le (by omega) (by omega)]

/-- **C11 (partial).** The result is right if and only if the fraction digits are all zero.
Missing (false): every other text. -/
theorem C11_atod_right_iff_partial (m : Mem) (s : Nat) (neg : Bool) (I F : List UInt8) (fuel : Nat)
    (junk : W)
    (h : Holds m s ((if neg then [45] else []) ++ I ++ [46] ++ F))
    (hI : ∀ b ∈ I, IsDigit b) (hF : ∀ b ∈ F, IsDigit b)
    (hlen : 8 < ((if neg then [45] else []) ++ I ++ [46] ++ F).length)
    (hIl : I.length ≤ 20) (hIv : decVal I < 2 ^ 63) (hFl : F.length < 20) (hFv : decVal F < 2 ^ 63)
    (hf : ((if neg then [45] else []) ++ I ++ [46] ++ F).length ≤ fuel) :
    ∃ d, simdAtod m s ((if neg then [45] else []) ++ I ++ [46] ++ F).length junk fuel = some d ∧
      (Dec.val d = textVal neg I F ↔ decVal F = 0) := by
  obtain ⟨d, h1, h2, h3, h4⟩ := C11_atod_exact m s neg I F fuel junk h hI hF hlen hIl hIv hFl hFv hf
  refine ⟨d, h1, ?_⟩
  unfold Dec.val textVal
  rw [h3, h4]
  have hpow : (0 : ℚ) < 10 ^ F.length := by positivity
  have hF0 : (0 : ℚ) ≤ decVal F := by positivity
  have hcast : decVal F = 0 ↔ (decVal F : ℚ) = 0 := by simp
  rw [hcast, pow_succ]
  have hx : (decVal F : ℚ) / (10 ^ F.length * 10) = (decVal F / 10 ^ F.length) / 10 := by
    field_simp
  have hz : (decVal F : ℚ) / 10 ^ F.length = 0 ↔ (decVal F : ℚ) = 0 := by
    constructor
    · intro hh; rcases div_eq_zero_iff.1 hh with h | h
      · exact h
      · exact absurd h (ne_of_gt hpow)
    · intro hh; rw [hh]; simp
  rw [← hz]
  by_cases hneg : d.ip < 0
  · rw [if_pos hneg]
    cases neg with
    | false => simp only [Bool.false_eq_true, if_false] at h2; omega
    | true =>
      simp only [if_true] at h2 ⊢
      rw [h2]
      push_cast
      rw [hx]
      constructor
      · intro hh; linarith
      · intro hh; rw [hh]; ring
  · rw [if_neg hneg]
    push_cast
    rw [neg_div, hx, h2]
    cases neg with
    | false =>
      simp only [Bool.false_eq_true, if_false]
      push_cast
      constructor
      · intro hh; linarith
      · intro hh; rw [hh]; ring
    | true =>
      simp only [if_true] at h2 ⊢
      push_cast
      constructor
      · intro hh; linarith
      · intro hh; rw [hh]; ring

/-- Non-vacuity: `simd_atod("1234567.25", 10)` is `1234567 - 0.025`. -/
example : simdAtod (fun a => ("1234567.25".toUTF8.toList).getD a 0) 0 10 0#64 10
    = some ⟨1234567, -25, 3⟩ := by decide +kernel

/-- A text of digits without a dot, of more than 8 characters, is read as that integer. -/
theorem C11_atod_integer (m : Mem) (s : Nat) (neg : Bool) (I : List UInt8) (fuel : Nat) (junk : W)
    (h : Holds m s ((if neg then [45] else []) ++ I)) (hI : ∀ b ∈ I, IsDigit b)
    (hlen : 8 < ((if neg then [45] else []) ++ I).length) (hIl : I.length ≤ 20) (hIv : decVal I < 2 ^ 63)
    (hf : ((if neg then [45] else []) ++ I).length ≤ fuel) :
    ∃ d, simdAtod m s ((if neg then [45] else []) ++ I).length junk fuel = some d ∧
      Dec.val d = if neg then -(decVal I : ℚ) else decVal I := by
  have hall : ∀ b ∈ (if neg then [45] else []) ++ I, b.toNat < 128 ∧ b ≠ 46 := by
    intro b hb
    rcases List.mem_append.1 hb with hb | hb
    · cases neg with
      | false => simp at hb
      | true => simp only [if_true, List.mem_singleton] at hb; subst hb; decide
    · have := hI b hb
      refine ⟨by unfold IsDigit at this; omega, ?_⟩
      rintro rfl
      exact absurd this (by unfold IsDigit; decide)
  have hp : pmemchr m s ((if neg then [45] else []) ++ I).length 46 fuel = some (-1#32) := by
    refine memchr'_long_absent m true s _ 46 fuel ?_ hlen hf ?_
    · intro _
      refine ⟨fun i hi => ?_, by decide⟩
      rw [h i hi]
      exact (hall _ (List.getElem_mem _)).1
    · intro i hi
      rw [h i hi]
      exact (hall _ (List.getElem_mem _)).2
  obtain ⟨r, r1, r2⟩ := C06_atoi_partial m s (if neg then [45] else []) I (by cases neg <;> simp) h (by omega) hI hIv junk
  refine ⟨⟨r.toInt, 0, 0⟩, ?_, ?_⟩
  · unfold simdAtod
    rw [hp]
    dsimp only
    rw [if_pos rfl, r1]
    rfl
  · unfold Dec.val
    rw [r2]
    cases neg <;> simp

example : simdAtod (fun a => ("-123456789".toUTF8.toList).getD a 0) 0 10 0#64 10
    = some ⟨-123456789, 0, 0⟩ := by decide +kernel

/-- The full property C11 (in exact arithmetic; the floating point rounding is not modelled). -/
def C11_Full : Prop := ∀ (m : Mem) (s : Nat) (neg : Bool) (I F : List UInt8) (junk : W) (fuel : Nat),
  Holds m s ((if neg then [45] else []) ++ I ++ [46] ++ F) →
  (∀ b ∈ I, IsDigit b) → (∀ b ∈ F, IsDigit b) → 0 < I.length → 0 < F.length →
  I.length ≤ 18 → F.length ≤ 18 →
  ((if neg then [45] else []) ++ I ++ [46] ++ F).length ≤ fuel → ∃ d,
    simdAtod m s ((if neg then [45] else []) ++ I ++ [46] ++ F).length junk fuel = some d ∧
    Dec.val d = textVal neg I F

theorem C11_full_false : ¬ C11_Full := by
  intro h
  have hh : Holds (fun a => ("1234567.25".toUTF8.toList).getD a 0) 0
      ((if false = true then [45] else []) ++ [49, 50, 51, 52, 53, 54, 55] ++ [46] ++ [50, 53]) := by
    unfold Holds; decide +kernel
  have hI : ∀ b ∈ ([49, 50, 51, 52, 53, 54, 55] : List UInt8), IsDigit b := by
    unfold IsDigit; decide
  have hF : ∀ b ∈ ([50, 53] : List UInt8), IsDigit b := by unfold IsDigit; decide
  obtain ⟨d, h1, h2⟩ := h _ 0 false [49, 50, 51, 52, 53, 54, 55] [50, 53] 0 10 hh hI hF
    (by decide) (by decide) (by decide) (by decide) (by decide)
  obtain ⟨d', h1', h2'⟩ := C11_atod_right_iff_partial _ 0 false [49, 50, 51, 52, 53, 54, 55] [50, 53]
    10 0 hh hI hF (by decide) (by decide) (by decide) (by decide) (by decide) (by decide)
  rw [h1] at h1'
  cases h1'
  exact absurd (h2'.1 h2) (by decide)

end Verif.Props
