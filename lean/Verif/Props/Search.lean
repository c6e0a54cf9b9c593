import Verif.Proof.StrScan
/-!
# C01–C05: string length, comparison, byte searches
-/
namespace Verif.Props
open Verif

/-- A memory holding the bytes `l` at address `p`, `fill` elsewhere. -/
def memOf (p : Nat) (l : List UInt8) (fill : UInt8 := 0) : Mem :=
  fun a => if p ≤ a then l.getD (a - p) fill else fill

/-! ## C01 -/

/-- **C01.** `simd_strlen` returns the length of the string, and each byte it reads shares an
aligned 8-byte word with a byte of the string or with its terminator. -/
theorem C01_strlen (m : Mem) (p : Nat) (s : List UInt8) (h : CStr m p s) (fuel : Nat)
    (hf : s.length / 8 < fuel) :
    (simdStrlen m p fuel).result = some s.length ∧
    ∀ r ∈ (simdStrlen m p fuel).reads, ∃ q, p ≤ q ∧ q ≤ p + s.length ∧ r / 8 = q / 8 := by
  obtain ⟨h1, h2⟩ := simdStrlen_spec h fuel hf
  refine ⟨h1, fun r hr => ?_⟩
  obtain ⟨h3, h4⟩ := h2 r hr
  by_cases hle : r ≤ p + s.length
  · exact ⟨r, h3, hle, rfl⟩
  · exact ⟨p + s.length, by omega, Nat.le_refl _, by omega⟩

/-- Non-vacuity: "hello, world" at the odd address 13, surrounded by `0x80` bytes (the value
that makes the zero test's carries interesting). -/
example : CStr (memOf 13 ("hello, world".toUTF8.toList ++ [0]) 0x80) 13 "hello, world".toUTF8.toList ∧
    ("hello, world".toUTF8.toList).length / 8 < 4 := by
  unfold CStr; decide +kernel

/-! ## C02 -/

/-- The full property C02: comparison of C strings returns 0 exactly on equal strings. -/
def C02_Full : Prop := ∀ (m : Mem) (a b : Nat) (s t : List UInt8), CStr m a s → CStr m b t →
  ∀ fuel, s.length / 8 < fuel → ∃ r, simdStrcmp m a b fuel = some r ∧ (r = 0 ↔ s = t)

theorem strcmp_zero_iff {m : Mem} {a b : Nat} {s t : List UInt8} (hs : CStr m a s)
    (ht : CStr m b t) : strcmpLen m a b s.length = 0 ↔ s.length = 8 ∨ s <+: t := by
  by_cases h8 : s.length = 8
  · simp [h8, strcmpLen_eight]
  · rw [prefix_iff_bytes hs ht]
    rcases prefix_or_diff m a b s.length with h | ⟨d, hd, hne, heq⟩
    · simp only [strcmpLen_equal m a b _ hs.nz h, h8, false_or, true_iff]; exact h
    · rw [strcmpLen_diff m a b _ d h8 hs.nz hd hne heq]
      constructor
      · intro h
        exact absurd (UInt8.toNat_inj.mp (by omega)) hne
      · rintro (h | h)
        · exact absurd h h8
        · exact absurd (h d hd) hne

/-- **C02 (exact characterisation).** `simd_strcmp(a,b)` is 0 iff the first string has exactly 8
bytes or is a prefix of the second. -/
theorem C02_strcmp_zero_exact (m : Mem) (a b : Nat) (s t : List UInt8) (hs : CStr m a s)
    (ht : CStr m b t) (fuel : Nat) (hf : s.length / 8 < fuel) :
    ∃ r, simdStrcmp m a b fuel = some r ∧ (r = 0 ↔ s.length = 8 ∨ s <+: t) := by
  refine ⟨strcmpLen m a b s.length, ?_, strcmp_zero_iff hs ht⟩
  unfold simdStrcmp
  rw [(simdStrlen_spec hs fuel hf).1]; rfl

/-- **C02 (partial).** What holds: if the first string is not 8 bytes long and is not a *proper*
prefix of the second, the result is exactly ISO C's.  Missing: 8-byte first strings and proper
prefixes, where the result is 0 although the strings differ (`C02_full_false`). -/
theorem C02_strcmp_partial (m : Mem) (a b : Nat) (s t : List UInt8) (hs : CStr m a s)
    (ht : CStr m b t) (fuel : Nat) (hf : s.length / 8 < fuel)
    (h8 : s.length ≠ 8) (hpre : s <+: t → s = t) :
    simdStrcmp m a b fuel = some (strcmpSpec s t) := by
  unfold simdStrcmp
  rw [(simdStrlen_spec hs fuel hf).1, Option.map_some]
  congr 1
  rcases prefix_or_diff m a b s.length with h | ⟨d, hd, hne, heq⟩
  · have := hpre ((prefix_iff_bytes hs ht).2 h)
    subst this
    rw [strcmpLen_equal m a b _ hs.nz h, strcmpSpec_self]
  · rw [strcmpLen_diff m a b _ d h8 hs.nz hd hne heq, strcmpSpec_diff hs ht hd hne heq]

/-- The hypotheses of `C02_strcmp_partial` hold for every pair of equal length ≠ 8. -/
theorem C02_strcmp_sameLength (m : Mem) (a b : Nat) (s t : List UInt8) (hs : CStr m a s)
    (ht : CStr m b t) (fuel : Nat) (hf : s.length / 8 < fuel)
    (h8 : s.length ≠ 8) (hlen : s.length = t.length) :
    simdStrcmp m a b fuel = some (strcmpSpec s t) :=
  C02_strcmp_partial m a b s t hs ht fuel hf h8 (fun h => h.eq_of_length hlen)

/-- "abcdefghij" against "abcdefgXij" at unaligned addresses. -/
def mCmp : Mem := memOf 3 ("abcdefghij".toUTF8.toList ++ [0] ++ "abcdefgXij".toUTF8.toList ++ [0]) 0xff
example : CStr mCmp 3 "abcdefghij".toUTF8.toList ∧ CStr mCmp 14 "abcdefgXij".toUTF8.toList ∧
    simdStrcmp mCmp 3 14 9 = some (104 - 88) := by
  unfold CStr; decide +kernel

/-- **C02 is false**: `simd_strcmp("abcdefgh", "x") == 0`, and also
`simd_strcmp("ab", "abc") == 0`. -/
theorem C02_full_false : ¬ C02_Full := by
  intro h
  obtain ⟨r, h1, h2⟩ := h (memOf 0 ("ab".toUTF8.toList ++ [0] ++ "abc".toUTF8.toList ++ [0])) 0 3
    "ab".toUTF8.toList "abc".toUTF8.toList (by unfold CStr; decide +kernel)
    (by unfold CStr; decide +kernel) 9 (by decide +kernel)
  have hr : simdStrcmp (memOf 0 ("ab".toUTF8.toList ++ [0] ++ "abc".toUTF8.toList ++ [0])) 0 3 9
    = some 0 := by decide +kernel
  rw [hr] at h1
  cases h1
  exact absurd (h2.1 rfl) (by decide +kernel)

/-- `is_str_eq` on non-NULL strings; NULL on either side is unequal. -/
theorem C02_is_str_eq_exact (m : Mem) (fuel : Nat) :
    (∀ b, isStrEq m none b fuel = some false) ∧ (∀ a, isStrEq m a none fuel = some false) ∧
    ∀ a b s t, CStr m a s → CStr m b t → s.length / 8 < fuel →
      ∃ r, isStrEq m (some a) (some b) fuel = some r ∧ (r = true ↔ s.length = 8 ∨ s <+: t) := by
  refine ⟨fun b => rfl, fun a => by cases a <;> rfl, ?_⟩
  intro a b s t hs ht hf
  refine ⟨strcmpLen m a b s.length == 0, ?_, ?_⟩
  · unfold isStrEq simdStrcmp
    simp only [(simdStrlen_spec hs fuel hf).1]; rfl
  · rw [beq_iff_eq, strcmp_zero_iff hs ht]

/-- `is_str_empty(s)` holds exactly for the empty string and for every string of 8 bytes. -/
theorem C02_is_str_empty_exact (m : Mem) (a e : Nat) (s : List UInt8) (hs : CStr m a s)
    (he : CStr m e []) (fuel : Nat) (hf : s.length / 8 < fuel) :
    ∃ r, isStrEmpty m (some a) e fuel = some r ∧ (r = true ↔ s = [] ∨ s.length = 8) := by
  obtain ⟨r, h1, h2⟩ := (C02_is_str_eq_exact m fuel).2.2 a e s [] hs he hf
  refine ⟨r, h1, h2.trans ?_⟩
  rw [List.prefix_nil, Or.comm]

example : isStrEmpty (memOf 0 ("12345678".toUTF8.toList ++ [0, 0])) (some 0) 9 9 = some true ∧
    isStrEmpty (memOf 0 ("1234567".toUTF8.toList ++ [0, 0])) (some 0) 8 9 = some false := by
  decide +kernel

/-! ## C03 -/

/-- The address a byte search must return: the first match, or NULL (address 0) if none. -/
def MemchrOk (m : Mem) (s n : Nat) (c : UInt8) (r : Nat) : Prop :=
  (∀ j, IsFirst m s n c j → r = s + j) ∧ (Absent m s n c → r = 0)

/-- The full property C03. -/
def C03_Full : Prop := ∀ (m : Mem) (s n : Nat) (c : UInt8), 0 < s → n < 2 ^ 32 →
  ∃ fuel r, simdMemchr m s c n fuel = some r ∧ MemchrOk m s n c r

/-- **C03 (partial).** Buffers of more than 8 bytes: the first occurrence is returned, whatever
lies outside the buffer.  Missing: NULL for an absent byte, and buffers of up to 8 bytes
(see the theorems below). -/
theorem C03_memchr_long_partial (m : Mem) (s n : Nat) (c : UInt8) (fuel j : Nat)
    (hn : 8 < n) (h32 : n < 2 ^ 32) (hf : n ≤ fuel) (hj : IsFirst m s n c j) :
    simdMemchr m s c n fuel = some (s + j) := by
  unfold simdMemchr
  rw [memchr'_long_found m false false s n c fuel (by intro h; cases h) hn hf hj, Option.map_some,
    BitVec.toNat_ofNat, Nat.mod_eq_of_lt (by have := hj.1; omega)]

/-- Same for the 7-bit variant `pmemchr` and the "known present" variants. -/
theorem C03_memchr_variants (m : Mem) (s n : Nat) (c : UInt8) (fuel j : Nat)
    (hn : 8 < n) (hf : n ≤ fuel) (hj : IsFirst m s n c j) :
    memchrk m s n c fuel = some (BitVec.ofNat 32 j) ∧
    ((∀ i < n, (m (s + i)).toNat < 128) → c.toNat < 128 →
      pmemchr m s n c fuel = some (BitVec.ofNat 32 j) ∧
      pmemchrk m s n c fuel = some (BitVec.ofNat 32 j)) :=
  ⟨memchr'_long_found m false true s n c fuel (by intro h; cases h) hn hf hj,
   fun h1 h2 => ⟨memchr'_long_found m true false s n c fuel (fun _ => ⟨h1, h2⟩) hn hf hj,
    memchr'_long_found m true true s n c fuel (fun _ => ⟨h1, h2⟩) hn hf hj⟩⟩

/-- An absent byte in a buffer of more than 8 bytes yields `s + 2^32 - 1`, not NULL. -/
theorem C03_memchr_absent_not_null (m : Mem) (s n : Nat) (c : UInt8) (fuel : Nat)
    (hn : 8 < n) (hf : n ≤ fuel) (ha : Absent m s n c) :
    simdMemchr m s c n fuel = some (s + 4294967295) := by
  unfold simdMemchr
  simp only [memchr'_long_absent m false s n c fuel (by intro h; cases h) hn hf ha, Option.map_some]
  have : (-1#32).toNat = 4294967295 := by decide
  rw [this]

/-- For more than 8 bytes the answer depends on the buffer only. -/
theorem C03_memchr_noninterference (m m' : Mem) (s n : Nat) (c : UInt8) (fuel : Nat)
    (hn : 8 < n) (hf : n ≤ fuel) (heq : ∀ i < n, m (s + i) = m' (s + i)) :
    simdMemchr m s c n fuel = simdMemchr m' s c n fuel := by
  unfold simdMemchr
  refine congrArg (Option.map _) ?_
  by_cases h : ∃ i < n, m (s + i) = c
  · obtain ⟨j, hj⟩ := exists_first m s n c h
    have hj' : IsFirst m' s n c j := ⟨hj.1, by rw [← heq j hj.1]; exact hj.2.1, fun i hi => by
      rw [← heq i (by have := hj.1; omega)]; exact hj.2.2 i hi⟩
    rw [memchr'_long_found m false false s n c fuel (by intro h; cases h) hn hf hj,
      memchr'_long_found m' false false s n c fuel (by intro h; cases h) hn hf hj']
  · have ha : Absent m s n c := fun i hi he => h ⟨i, hi, he⟩
    have ha' : Absent m' s n c := fun i hi he => h ⟨i, hi, by rw [heq i hi]; exact he⟩
    rw [memchr'_long_absent m false s n c fuel (by intro h; cases h) hn hf ha,
      memchr'_long_absent m' false s n c fuel (by intro h; cases h) hn hf ha']

/-- Exactly 8 bytes: right whenever the byte is present. -/
theorem C03_memchr_eight_found (m : Mem) (s : Nat) (c : UInt8) (fuel j : Nat)
    (hj : IsFirst m s 8 c j) : simdMemchr m s c 8 fuel = some (s + j) := by
  unfold simdMemchr
  rw [memchr'_eight_found m false false s c fuel (by intro h; cases h) hj, Option.map_some,
    BitVec.toNat_ofNat, Nat.mod_eq_of_lt (by have := hj.1; omega)]

/-- **C03 fails for every buffer of 1 to 7 bytes that contains the byte** (non-NUL needle):
whatever is returned, it is not an address inside the buffer. -/
theorem C03_memchr_short_wrong (m : Mem) (s n : Nat) (c : UInt8) (fuel r : Nat)
    (h0 : 0 < n) (hn : n < 8) (hc : c ≠ 0) (hfu : fuel < 2 ^ 20)
    (hr : simdMemchr m s c n fuel = some r) : s + n ≤ r := by
  unfold simdMemchr at hr
  cases hm : memchr' m false false s n c fuel with
  | none => rw [hm] at hr; cases hr
  | some v =>
    rw [hm] at hr
    simp only [Option.map_some, Option.some.injEq] at hr
    have := memchr'_short_never m s n c fuel h0 hn hc false v hm hfu
    omega

/-- A 12-byte buffer containing 'g' at offset 6 and 10, followed by more 'g's. -/
example : IsFirst (memOf 5 "abcdefghijgl".toUTF8.toList 103) 5 12 103 6 ∧
    simdMemchr (memOf 5 "abcdefghijgl".toUTF8.toList 103) 5 103 12 12 = some 11 := by
  unfold IsFirst; decide +kernel

/-- "abc" searched for 'b', followed by a 'b' further on: a position outside is returned. -/
example : simdMemchr (memOf 5 "abcxxbxx".toUTF8.toList 0) 5 98 3 12 = some 10 := by decide +kernel

theorem memchrLoop_no_match (m : Mem) (pr : Bool) (s stop : Nat) (c : UInt8) (hm : ∀ a, m a ≠ c) :
    ∀ (fuel p : Nat), stop ≤ p → memchrLoop m pr false s stop c fuel p = none := by
  intro fuel
  induction fuel with
  | zero => intros; rfl
  | succ f ih =>
    intro p hp
    rw [memchrLoop]
    have hh : hasbyte (cast64 m p) c = false := (hasbyte_cast_false m p c).2 (fun i _ => hm _)
    have hne : (p + 8 == stop) = false := by rw [beq_eq_false_iff_ne]; omega
    rw [hh, hne, if_neg (by simp), if_neg (by simp)]
    exact ih _ (by omega)

/-- An 8-byte buffer that lacks the byte: the end is stepped over and the search runs on through
memory; it does not return as long as no match is met. -/
theorem C03_memchr_eight_absent_diverges (m : Mem) (s : Nat) (c : UInt8) (fuel : Nat)
    (hm : ∀ a, m a ≠ c) : simdMemchr m s c 8 fuel = none := by
  unfold simdMemchr memchr'
  have hh : hasbyte (cast64 m s) c = false := (hasbyte_cast_false m s c).2 (fun i _ => hm _)
  simp only [firstWord_long m s 8 c (by omega), hh]
  rw [if_neg (by simp), memchrLoop_no_match m false s (s + 8) c hm _ _ (by show s + 8 ≤ s + partLen 8; exact Nat.le_refl _)]
  rfl

/-- **C03 is false.** (12 bytes without the needle: not NULL.) -/
theorem C03_full_false : ¬ C03_Full := by
  intro h
  obtain ⟨fuel, r, h1, h2⟩ := h (fun _ => 0) 1 8 1 (by decide) (by decide)
  rw [C03_memchr_eight_absent_diverges (fun _ => 0) 1 1 fuel (fun _ => by decide)] at h1
  cases h1

/-! ## C04 -/

/-- **C04 (partial): the offset before the final `- 3`.**  For more than 8 bytes, nothing equal to
`c` in the 8 bytes after the buffer, and a last occurrence at offset ≥ 8, `_memrchr` yields that
offset.  Missing: everything else; and `simd_memrchr` then subtracts 3. -/
theorem C04_memrchr_offset_partial (m : Int → UInt8) (s : Int) (n : Nat) (c : UInt8)
    (fuel j : Nat) (hn : 8 < n) (hf : n ≤ fuel)
    (hafter : Absent (fun i => m (s + i)) n 8 c)
    (hj : IsLast (fun i => m (s + i)) 0 n c j) (hj8 : 8 ≤ j) :
    memrchr' m false false s n c fuel = some (BitVec.ofNat 32 j) := by
  refine (memrchr'_long m s n c fuel hn hf ?_).1 j hj8 hj.1 (by simpa using hj.2.1)
    (fun i h1 h2 => by simpa using hj.2.2 i h1 h2)
  intro i h1 h2
  have := hafter (i - n) (by omega)
  rwa [show n + (i - n) = i by omega] at this

/-- **C04 fails on all of these**: the pointer returned is 3 bytes below the last occurrence. -/
theorem C04_memrchr_wrong (m : Int → UInt8) (s : Int) (n : Nat) (c : UInt8)
    (fuel j : Nat) (hn : 8 < n) (h32 : n < 2 ^ 32) (hf : n ≤ fuel)
    (hafter : Absent (fun i => m (s + i)) n 8 c)
    (hj : IsLast (fun i => m (s + i)) 0 n c j) (hj8 : 8 ≤ j) :
    simdMemrchr m s c n fuel = some (s + j - 3) := by
  unfold simdMemrchr
  rw [C04_memrchr_offset_partial m s n c fuel j hn hf hafter hj hj8, Option.map_some,
    BitVec.toNat_ofNat, Nat.mod_eq_of_lt (by have := hj.1; omega)]

/-- An occurrence in the first 8 bytes only (or none at all) is reported as `s + 2^32 - 4`. -/
theorem C04_memrchr_first_block_missed (m : Int → UInt8) (s : Int) (n : Nat) (c : UInt8)
    (fuel : Nat) (hn : 8 < n) (hf : n ≤ fuel)
    (hafter : Absent (fun i => m (s + i)) n 8 c)
    (hno : ∀ i : Nat, 8 ≤ i → i < n → m (s + i) ≠ c) :
    simdMemrchr m s c n fuel = some (s + (2 ^ 32 - 1) - 3) := by
  unfold simdMemrchr
  rw [(memrchr'_long m s n c fuel hn hf (by
    intro i h1 h2
    have := hafter (i - n) (by omega)
    rwa [show n + (i - n) = i by omega] at this)).2 hno]
  rfl

/-- The full property C04 (Linux semantics of `countl_zero`). -/
def C04_Full : Prop := ∀ (m : Int → UInt8) (s : Int) (n : Nat) (c : UInt8), n < 2 ^ 32 → 0 < s →
  ∃ fuel r, simdMemrchr m s c n fuel = some r ∧
    (∀ j : Nat, IsLast (fun i => m (s + i)) 0 n c j → r = s + j) ∧
    (Absent (fun i => m (s + i)) 0 n c → r = 0)

def mR : Int → UInt8 := fun a => if a = 12 then 7 else 0

example : Absent (fun i => mR (1 + i)) 16 8 7 ∧ IsLast (fun i => mR (1 + i)) 0 16 7 11 ∧
    simdMemrchr mR 1 7 16 16 = some 9 := by
  refine ⟨by unfold Absent; decide, ⟨by decide, by decide, ?_⟩, by decide +kernel⟩
  intro i h1 h2
  have : (1 : Int) + ((0 + i : Nat) : Int) ≠ 12 := by omega
  simp only [mR]
  rw [if_neg this]; decide

theorem memrchrLoop_fuel (m : Int → UInt8) (s : Int) (c : UInt8) (r : BitVec 32) :
    ∀ (f1 f2 : Nat) (p : Int), f1 ≤ f2 → memrchrLoop m false false s c f1 p = some r →
    memrchrLoop m false false s c f2 p = some r := by
  intro f1
  induction f1 with
  | zero => intro f2 p _ h; cases h
  | succ f ih =>
    intro f2 p hle h
    obtain ⟨g, rfl⟩ : ∃ g, f2 = g + 1 := ⟨f2 - 1, by omega⟩
    rw [memrchrLoop] at h ⊢
    split at h
    · rename_i hh; rw [if_pos hh]; exact h
    · rename_i hh; rw [if_neg hh]
      split at h
      · rename_i h2; rw [if_pos h2]; exact h
      · rename_i h2; rw [if_neg h2]; exact ih g _ (by omega) h

/-- **C04 is false.** -/
theorem C04_full_false : ¬ C04_Full := by
  intro h
  obtain ⟨fuel, r, h1, h2, _⟩ := h mR 1 16 7 (by decide) (by decide)
  have hl : IsLast (fun i => mR (1 + i)) 0 16 7 11 := by
    refine ⟨by decide, by decide, ?_⟩
    intro i h1 h2
    have : (1 : Int) + ((0 + i : Nat) : Int) ≠ 12 := by omega
    simp only [mR]
    rw [if_neg this]; decide
  have hr := h2 11 hl
  have hmono : simdMemrchr mR 1 7 16 (fuel + 16) = some r := by
    unfold simdMemrchr memrchr' at h1 ⊢
    simp only at h1 ⊢
    split at h1
    · rename_i hh; rw [if_pos hh]; exact h1
    · rename_i hh; rw [if_neg hh]
      cases hv : memrchrLoop mR false false 1 7 fuel (1 + ((16 : Nat) : Int) - (partLen 16 : Int)) with
      | none => rw [hv] at h1; cases h1
      | some v =>
        rw [hv] at h1
        rw [memrchrLoop_fuel mR 1 7 v fuel (fuel + 16) _ (by omega) hv]; exact h1
  rw [C04_memrchr_wrong mR 1 16 7 (fuel + 16) 11 (by decide) (by decide) (by omega)
    (by unfold Absent; decide) hl (by decide)] at hmono
  simp only [Option.some.injEq] at hmono
  omega

/-! ## C05 -/

/-- **C05, zero test.** -/
theorem C05_haszero (m : Mem) (p : Nat) :
    haszero (cast64 m p) = true ↔ ∃ i < 8, m (p + i) = 0 := haszero_cast m p

/-- **C05, byte test.** -/
theorem C05_hasbyte (m : Mem) (p : Nat) (c : UInt8) :
    hasbyte (cast64 m p) c = true ↔ ∃ i < 8, m (p + i) = c := hasbyte_cast m p c

/-- **C05, the eight block searches.** For every 8-byte block and byte: the forward variants give
the first index, the reverse variants the last; without the "known to exist" option an absent
byte gives `(uint32_t)-1`.  The `Printable` variants require 7-bit bytes. -/
theorem C05_memchr8 (m : Mem) (p : Nat) (c : UInt8) (printable : Bool)
    (hpr : printable = true → (∀ i < 8, (m (p + i)).toNat < 128) ∧ c.toNat < 128) :
    (∀ known j, IsFirst m p 8 c j →
      memchr8X printable known false (cast64 m p) c = some (BitVec.ofNat 32 j)) ∧
    (∀ known j, IsLast m p 8 c j →
      memchr8X printable known true (cast64 m p) c = some (BitVec.ofNat 32 j)) ∧
    (∀ reverse, Absent m p 8 c →
      memchr8X printable false reverse (cast64 m p) c = some (-1#32)) :=
  ⟨fun known _ h => memchr8X_first m p c printable known hpr h,
   fun known _ h => memchr8X_last m p c printable known hpr h,
   fun reverse h => memchr8X_none m p c printable reverse hpr h⟩

/-- The 7-bit hypothesis is necessary: with a byte ≥ 0x80 beside it the printable variant
misses/misplaces. -/
theorem C05_printable_needs_ascii :
    ∃ (m : Mem) (c : UInt8), IsFirst m 0 8 c 2 ∧
      memchr8X true true false (cast64 m 0) c ≠ some (BitVec.ofNat 32 2) := by
  refine ⟨memOf 0 [0, 0xff, 0x41, 0, 0, 0, 0, 0], 0x41, ?_, ?_⟩
  · unfold IsFirst; decide +kernel
  · decide +kernel

/-- "aXbXcdef": first 'X' at 1, last at 3. -/
example : IsFirst (memOf 9 "aXbXcdef".toUTF8.toList) 9 8 88 1 ∧
    memchr8X true true true (cast64 (memOf 9 "aXbXcdef".toUTF8.toList) 9) 88 = some 3#32 ∧
    memchr8X false false false (cast64 (memOf 9 "aXbXcdef".toUTF8.toList) 9) 0x7a = some (-1#32) := by
  unfold IsFirst; decide +kernel

end Verif.Props
