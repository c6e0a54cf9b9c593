import Verif.Proof.Strings
import Verif.Props.Search
/-!
# C16–C19, C51: splitting, concatenation, replacement, position, duplication
-/
namespace Verif.Props
open Verif

/-! ## C16 -/

/-- What splitting `s` at `d` must return: for the (unique) pieces `ts` of `s`, a NULL-terminated
array of `ts.length` pointers, pointer `k` leading to token `k` and its terminator inside the block,
and the number of tokens. -/
def SplitOk (s d : List UInt8) (r : SplitRet) : Prop :=
  ∃ ts ptrs block, IsSplit d s ts ∧ r = .ok ptrs block (BitVec.ofNat 32 ts.length) ∧
    ptrs.length = ts.length + 1 ∧ ptrs[ts.length]? = some none ∧
    block.length = s.length + 1 ∧
    ∀ k (h : k < ts.length), ∃ off, ptrs[k]? = some (some off) ∧
      (block.drop off).take (ts[k].length + 1) = ts[k] ++ [0]

/-- `IsSplit` means what the property says: joining gives the string back, no token contains the
delimiter, and the pieces are determined. -/
theorem C16_spec_meaning {s d : List UInt8} {ts : List (List UInt8)} (h : IsSplit d s ts)
    (hd : d ≠ []) : joinWith d ts = s ∧ (∀ t ∈ ts, ∀ i, ¬ OccursAt t d i) ∧
      ∀ us, IsSplit d s us → us = ts :=
  ⟨h.join, h.tokens_free hd, fun _ hu => hu.unique h⟩

/-- The full property C16. -/
def C16_Full : Prop := ∀ (m : Mem) (p empty q : Nat) (s d : List UInt8), CStr m p s → CStr m q d →
  CStr m empty [] → s ≠ [] → d ≠ [] → ∀ fuel, s.length + d.length + 1 ≤ fuel →
  SplitOk s d (strSplit m p empty (some q) fuel)

theorem splitCore_ok (s d : List UInt8) (hd : d ≠ []) (hz : ∀ b ∈ s, b ≠ 0) (fuel : Nat)
    (hf : s.length + 1 ≤ fuel) : SplitOk s d (splitCore s d fuel) := by
  obtain ⟨ts, h1, h2⟩ := exists_split d hd s.length s (Nat.le_refl _)
  have hpos := List.length_pos_iff.2 h1.ne_nil
  have hdp := List.length_pos_iff.2 hd
  have htl : d.tail.length + 1 = d.length := by rw [List.length_tail]; omega
  have hbl : (joinWith (0 :: d.tail) ts).length = s.length := by
    have e1 := joinWith_length (0 :: d.tail) ts h1.ne_nil
    have e2 := joinWith_length d ts h1.ne_nil
    rw [h1.join] at e2
    rw [e1, e2, List.length_cons, htl]
  unfold splitCore
  rw [splitCount_spec h1 fuel 1 (by omega), show 1 + ts.length - 1 = ts.length by omega]
  simp only
  have hcut : (if ts.length > 1 then splitCut d (ts.length + 1) fuel 0 [some 0] (s ++ [0])
      else some (some ([some 0], s ++ [0])))
      = some (some ((tokOffs d.length 0 ts).map some, joinWith (0 :: d.tail) ts ++ [0])) := by
    obtain ⟨t, us, rfl⟩ := List.exists_cons_of_ne_nil h1.ne_nil
    by_cases h : us.length + 1 > 1
    · rw [if_pos (by simpa using h)]
      have := splitCut_spec h1 hd ((t :: us).length + 1) fuel [] [some 0] hz (by omega) (by simp)
      simp only [List.length_nil, List.nil_append] at this
      rw [this]
      simp [tokOffs]
    · rw [if_neg (by simpa using h)]
      have : us = [] := List.eq_nil_of_length_eq_zero (by omega)
      subst this
      have := h1.join
      simp only [joinWith] at this
      simp [tokOffs, joinWith, this]
  rw [hcut]
  simp only
  rw [if_pos (by rw [List.length_map, tokOffs_length]; omega)]
  refine ⟨ts, _, _, h1, rfl, by simp [tokOffs_length], ?_, by simp [hbl], ?_⟩
  · rw [List.getElem?_append_right (by simp [tokOffs_length])]
    simp [tokOffs_length]
  · intro k hk
    obtain ⟨off, o1, o2⟩ := tokOffs_token d.tail ts [] k hk
    rw [htl] at o1
    refine ⟨off, ?_, by simpa using o2⟩
    rw [List.getElem?_append_left (by simp [tokOffs_length, hk]), List.getElem?_map]
    simp only [List.length_nil] at o1
    rw [o1]; rfl

/-- **C16 (partial).** Splitting is lossless for every non-empty string *that is not 8 bytes long*.
Missing (false): strings of length 8, see `C16_eight`. -/
theorem C16_split_partial (m : Mem) (p empty q : Nat) (s d : List UInt8) (hs : CStr m p s)
    (hd : CStr m q d) (he : CStr m empty []) (hne : s ≠ []) (hdn : d ≠ []) (h8 : s.length ≠ 8)
    (fuel : Nat) (hf : s.length + d.length + 1 ≤ fuel) :
    SplitOk s d (strSplit m p empty (some q) fuel) := by
  unfold strSplit
  have heq : isStrEq m (some p) (some empty) fuel = some false := by
    obtain ⟨r, r1, r2⟩ := C02_is_str_empty_exact m p empty s hs he fuel (by omega)
    unfold isStrEmpty at r1
    rw [r1]
    cases r with
    | false => rfl
    | true => exact absurd (r2.1 rfl) (by simp [hne, h8])
  rw [heq]
  simp only
  rw [(simdStrlen_spec hs fuel (by omega)).1, (simdStrlen_spec hd fuel (by omega)).1]
  simp only [Option.map_some, sub_eq hs.2.1, sub_eq hd.2.1]
  exact splitCore_ok s d hdn hs.1 fuel (by omega)

/-- The default delimiter is one blank. -/
theorem C16_split_default_partial (m : Mem) (p empty : Nat) (s : List UInt8) (hs : CStr m p s)
    (he : CStr m empty []) (hne : s ≠ []) (h8 : s.length ≠ 8)
    (fuel : Nat) (hf : s.length + 1 ≤ fuel) :
    SplitOk s [32] (strSplit m p empty none fuel) := by
  unfold strSplit
  have heq : isStrEq m (some p) (some empty) fuel = some false := by
    obtain ⟨r, r1, r2⟩ := C02_is_str_empty_exact m p empty s hs he fuel (by omega)
    unfold isStrEmpty at r1
    rw [r1]
    cases r with
    | false => rfl
    | true => exact absurd (r2.1 rfl) (by simp [hne, h8])
  rw [heq]
  simp only
  rw [(simdStrlen_spec hs fuel (by omega)).1]
  simp only [sub_eq hs.2.1]
  exact splitCore_ok s [32] (by simp) hs.1 fuel (by omega)

/-- **Every 8-byte string is refused**: `str_split("a,b,c,de", ",")` returns `NULL`. -/
theorem C16_eight (m : Mem) (p empty : Nat) (q : Option Nat) (s : List UInt8) (hs : CStr m p s)
    (he : CStr m empty []) (h8 : s.length = 8) (fuel : Nat) (hf : 1 < fuel) :
    strSplit m p empty q fuel = .null := by
  unfold strSplit
  obtain ⟨r, r1, r2⟩ := C02_is_str_empty_exact m p empty s hs he fuel (by omega)
  unfold isStrEmpty at r1
  rw [r1, r2.2 (by simp [h8])]

def mSplit : Mem := memOf 3 ("ab--c----d".toUTF8.toList ++ [0] ++ "--".toUTF8.toList ++ [0] ++
  "a,b,c,de".toUTF8.toList ++ [0]) 0xff

/-- Non-vacuity: `str_split("ab--c----d", "--")` has four tokens, one of them empty. -/
example : CStr mSplit 3 "ab--c----d".toUTF8.toList ∧ CStr mSplit 14 "--".toUTF8.toList ∧
    CStr mSplit 16 [] ∧ strSplit mSplit 3 16 (some 14) 13
      = .ok [some 0, some 4, some 7, some 9, none]
        ([97, 98, 0, 45, 99, 0, 45, 0, 45, 100, 0]) 4#32 := by
  unfold CStr; decide +kernel

theorem C16_full_false : ¬ C16_Full := by
  intro h
  obtain ⟨ts, ptrs, block, _, h2, _⟩ := h mSplit 17 16 14 "a,b,c,de".toUTF8.toList "--".toUTF8.toList
    (by unfold CStr; decide +kernel) (by unfold CStr; decide +kernel) (by unfold CStr; decide +kernel)
    (by decide +kernel) (by decide +kernel) 11 (by decide +kernel)
  rw [C16_eight mSplit 17 16 (some 14) "a,b,c,de".toUTF8.toList (by unfold CStr; decide +kernel)
    (by unfold CStr; decide +kernel) (by decide +kernel) 11 (by decide)] at h2
  cases h2

/-! ## C17 -/

/-- **C17.** The result block is exactly the concatenation and one terminator. -/
theorem C17_concat (m : Mem) (args : List Nat) (ss : List (List UInt8)) (fuel : Nat)
    (hl : args.length = ss.length)
    (h : ∀ k (h : k < args.length) (h' : k < ss.length),
      CStr m args[k] ss[k] ∧ ss[k].length / 8 < fuel)
    (hsize : ss.flatten.length + 1 < 2 ^ 64) :
    strConcat m args fuel = .ok (ss.flatten ++ [0]) := by
  unfold strConcat
  have h1 := concatSize_spec m fuel args ss hl h 0
  rw [Nat.zero_add] at h1
  rw [show (0 : W) = BitVec.ofNat 64 0 by rfl, h1]
  simp only
  have e : (BitVec.ofNat 64 ss.flatten.length + 1#64).toNat = ss.flatten.length + 1 := by
    rw [BitVec.toNat_add, BitVec.toNat_ofNat, BitVec.toNat_ofNat, Nat.mod_eq_of_lt (a := 1) (by decide),
      Nat.mod_eq_of_lt (a := ss.flatten.length) (by omega), Nat.mod_eq_of_lt hsize]
  rw [e, concatCopy_spec m fuel args ss hl h 0 _ (by simp only [List.length_replicate]; omega)
    (by simpa using hsize)]
  simp only [List.take_zero, List.nil_append, Nat.zero_add, List.drop_replicate]
  rw [Nat.add_sub_cancel_left]; rfl

/-- Non-vacuity: three strings, one empty, one passed twice. -/
example : (∀ k (_ : k < [3, 6, 7, 3].length) (_ : k < [[97, 98], [], [99], [97, 98]].length),
      CStr (memOf 3 [97, 98, 0, 0, 99, 0]) [3, 6, 7, 3][k] ([[97, 98], [], [99], [97, 98]] : List (List UInt8))[k]) ∧
    strConcat (memOf 3 [97, 98, 0, 0, 99, 0]) [3, 6, 7, 3] 2 = .ok [97, 98, 99, 97, 98, 0] := by
  unfold CStr; decide +kernel

/-! ## C18 -/

/-- **C18.** For a non-empty needle that occurs, the result block is exactly the pieces between its
occurrences joined by the replacement, and a terminator; `NULL` if it does not occur. -/
theorem C18_replace (m : Mem) (p q w : Nat) (h n r : List UInt8) (hh : CStr m p h) (hn : CStr m q n)
    (hr : CStr m w r) (hne : n ≠ []) (fuel : Nat)
    (hf : h.length + n.length + r.length + 1 ≤ fuel) (hsz : h.length < 2 ^ 64) :
    ((∀ i, ¬ OccursAt h n i) → strReplace m (some p) (some q) (some w) fuel = .null) ∧
    (∀ ts, IsSplit n h ts → 1 < ts.length → (joinWith r ts).length + 1 < 2 ^ 64 →
      strReplace m (some p) (some q) (some w) fuel = .ok (joinWith r ts ++ [0])) := by
  have hlen : ∀ ts, IsSplit n h ts → ts.length ≤ h.length + 1 := by
    intro ts hts
    obtain ⟨us, h1, h2⟩ := exists_split n hne h.length h (Nat.le_refl _)
    rw [hts.unique h1]; exact h2
  have hcount : ∀ ts, IsSplit n h ts → replaceCount h n fuel 0 0
      = some (BitVec.ofNat 64 h.length, BitVec.ofNat 64 (ts.length - 1)) := by
    intro ts hts
    have := replaceCount_spec hne hts.scan fuel [] 0 (by simpa using hsz) (by omega)
    simp only [List.nil_append, List.length_nil, Nat.zero_add] at this
    exact this
  have hred : strReplace m (some p) (some q) (some w) fuel = replaceCore h n r fuel := by
    unfold strReplace
    simp only
    rw [(simdStrlen_spec hh fuel (by omega)).1, (simdStrlen_spec hn fuel (by omega)).1,
      (simdStrlen_spec hr fuel (by omega)).1]
    simp only [sub_eq hh.2.1, sub_eq hn.2.1, sub_eq hr.2.1]
  rw [hred]
  unfold replaceCore
  constructor
  · intro hno
    rw [hcount [h] (.last hno)]
    rfl
  · intro ts hts h1 hs2
    rw [hcount ts hts]
    simp only
    have hl := hlen ts hts
    have hc : BitVec.ofNat 64 (ts.length - 1) ≠ 0 := by
      intro he
      have := congrArg BitVec.toNat he
      rw [BitVec.toNat_ofNat, Nat.mod_eq_of_lt (by omega)] at this
      simp at this; omega
    rw [if_neg hc, replace_size r hts]
    have e : (BitVec.ofNat 64 (joinWith r ts).length + 1#64).toNat = (joinWith r ts).length + 1 := by
      rw [BitVec.toNat_add, BitVec.toNat_ofNat, BitVec.toNat_ofNat,
        Nat.mod_eq_of_lt (a := 1) (by decide),
        Nat.mod_eq_of_lt (a := (joinWith r ts).length) (by omega), Nat.mod_eq_of_lt hs2]
    rw [e, replaceBuild_spec hne r hts.scan fuel 0 _ (by simp) (by omega)]
    simp

/-- The pieces always exist, and there are at least two exactly when the needle occurs. -/
theorem C18_pieces (h n : List UInt8) (hne : n ≠ []) :
    ∃ ts, IsSplit n h ts ∧ (1 < ts.length ↔ ∃ i, OccursAt h n i) := by
  rcases split_or h n with hno | ⟨a, r, rfl, hf⟩
  · exact ⟨[h], .last hno, by simp; exact hno⟩
  · obtain ⟨us, h1, _⟩ := exists_split n hne r.length r (Nat.le_refl _)
    have := List.length_pos_iff.2 h1.ne_nil
    refine ⟨a :: us, .cut hf h1, ?_⟩
    simp only [List.length_cons]
    exact ⟨fun _ => ⟨_, hf.1⟩, fun _ => by omega⟩

/-- Non-vacuity: `str_replace("xaaay", "aa", "bcd")`, overlapping candidates. -/
example : strReplace (memOf 1 ("xaaay".toUTF8.toList ++ [0] ++ "aa".toUTF8.toList ++ [0] ++
      "bcd".toUTF8.toList ++ [0])) (some 1) (some 7) (some 10) 11
    = .ok ("xbcday".toUTF8.toList ++ [0]) := by decide +kernel

/-- An empty needle is a precondition: the counting loop never ends. -/
theorem C18_empty_needle_diverges (x : UInt8) (h r : List UInt8) (fuel : Nat) :
    replaceCore (x :: h) [] r fuel = .running := by
  have : ∀ fuel cnt, replaceCount (x :: h) [] fuel 0 cnt = none := by
    intro fuel
    induction fuel with
    | zero => intro cnt; rfl
    | succ fuel ih =>
      intro cnt
      rw [replaceCount, if_pos (by simp), if_pos (by simp)]
      have e : (0 : W) + (BitVec.ofNat 64 ([] : List UInt8).length - 1#64) + 1#64 = 0 := by decide
      rw [e]; exact ih _
  unfold replaceCore
  rw [this]

/-! ## C19 -/

/-- **C19.** `strpos` returns the least index at which the pattern occurs (as an `int`), `-1` if
there is none; `is_str_in` tells whether it occurs.  Texts below 2 GiB. -/
theorem C19_strpos (m : Mem) (p q : Nat) (t pat : List UInt8) (ht : CStr m p t) (hp : CStr m q pat)
    (fuel : Nat) (hf : t.length + pat.length < fuel) (hsz : t.length < 2 ^ 31) :
    (∀ j, FirstOccurrence t pat j →
      ∃ r, strpos m p q fuel = some r ∧ r.toInt = j ∧ isStrIn m p q fuel = some true) ∧
    ((∀ i, ¬ OccursAt t pat i) →
      ∃ r, strpos m p q fuel = some r ∧ r.toInt = -1 ∧ isStrIn m p q fuel = some false) := by
  have hs : strpos m p q fuel = if pat.length > t.length then some (-1#32)
      else some (strposLoop m p q pat.length (t.length - pat.length + 1) 0) := by
    unfold strpos
    rw [(simdStrlen_spec ht fuel (by omega)).1, (simdStrlen_spec hp fuel (by omega)).1]
  have hm1 : (-1#32).toInt = -1 := by decide
  constructor
  · intro j hj
    have hle := occursAt_iff.1 hj.1
    have hlen : pat.length ≤ t.length - j := by
      have := hle.2.length_le; rw [List.length_drop] at this; exact this
    rw [if_neg (by omega), strposLoop_found ht hp hj _ 0 (by omega) (by omega) (by omega)] at hs
    have hv : (BitVec.ofNat 32 j).toInt = j := by
      rw [BitVec.toInt_eq_toNat_of_lt (by rw [BitVec.toNat_ofNat]; omega), BitVec.toNat_ofNat]; omega
    refine ⟨_, hs, hv, ?_⟩
    unfold isStrIn
    rw [hs, Option.map_some, hv]
    simp
  · intro hno
    have hs' : strpos m p q fuel = some (-1#32) := by
      rw [hs]
      by_cases h : pat.length > t.length
      · rw [if_pos h]
      · rw [if_neg h, strposLoop_absent ht hp hno _ 0 (by omega)]
    refine ⟨_, hs', hm1, ?_⟩
    unfold isStrIn
    rw [hs', Option.map_some, hm1]
    rfl

/-- Every text falls in one of the two cases. -/
theorem C19_total (t pat : List UInt8) :
    (∃ j, FirstOccurrence t pat j) ∨ ∀ i, ¬ OccursAt t pat i := by
  rcases split_or t pat with h | ⟨a, _, _, h⟩
  · exact Or.inr h
  · exact Or.inl ⟨_, h⟩

/-- Why the 2 GiB limit is needed: any first occurrence at `j ≥ 2^31` is reported modulo `2^32`;
for `2^31 ≤ j < 2^32` that is negative, "not found". -/
theorem C19_beyond_2GiB (m : Mem) (p q : Nat) (t pat : List UInt8) (ht : CStr m p t)
    (hp : CStr m q pat) (fuel : Nat) (hf : t.length + pat.length < fuel) (j : Nat)
    (hj : FirstOccurrence t pat j) (h31 : 2 ^ 31 ≤ j) (h32 : j < 2 ^ 32) :
    isStrIn m p q fuel = some false := by
  have hle := occursAt_iff.1 hj.1
  have hlen : pat.length ≤ t.length - j := by
    have := hle.2.length_le; rw [List.length_drop] at this; exact this
  unfold isStrIn strpos
  rw [(simdStrlen_spec ht fuel (by omega)).1, (simdStrlen_spec hp fuel (by omega)).1]
  simp only
  rw [if_neg (by omega), strposLoop_found ht hp hj _ 0 (by omega) (by omega) (by omega),
    Option.map_some]
  congr 1
  rw [BitVec.toInt_eq_toNat_cond, BitVec.toNat_ofNat, Nat.mod_eq_of_lt h32]
  rw [if_neg (by omega)]
  simp; omega

/-- Non-vacuity. -/
example : CStr (memOf 3 ("xabaabc".toUTF8.toList ++ [0] ++ "ab".toUTF8.toList ++ [0]) 0xff) 3 "xabaabc".toUTF8.toList ∧
    CStr (memOf 3 ("xabaabc".toUTF8.toList ++ [0] ++ "ab".toUTF8.toList ++ [0]) 0xff) 11 "ab".toUTF8.toList ∧
    strpos (memOf 3 ("xabaabc".toUTF8.toList ++ [0] ++ "ab".toUTF8.toList ++ [0]) 0xff) 3 11 10 = some 1#32 := by
  unfold CStr; decide +kernel

/-! ## C51 -/

/-- **C51.** `str_memdup`/`raii_memdup` return exactly the bytes asked for and a terminator. -/
theorem C51_memdup (m : Mem) (src : Nat) (s : List UInt8) (h : Holds m src s)
    (hs : s.length + 1 < 2 ^ 64) :
    strMemdup m src (BitVec.ofNat 64 s.length) = .ok (s ++ [0]) := by
  have e0 : (BitVec.ofNat 64 s.length).toNat = s.length := by
    rw [BitVec.toNat_ofNat, Nat.mod_eq_of_lt (by omega)]
  have e : (BitVec.ofNat 64 s.length + 1#64).toNat = s.length + 1 := by
    rw [BitVec.toNat_add, e0, BitVec.toNat_ofNat, Nat.mod_eq_of_lt (a := 1) (by decide),
      Nat.mod_eq_of_lt hs]
  unfold strMemdup
  rw [e, e0, sub_eq h, putAll_ok _ _ _ (by simp)]
  simp

example : Holds (memOf 3 [1, 0, 2, 9]) 3 [1, 0, 2] ∧
    strMemdup (memOf 3 [1, 0, 2, 9]) 3 3#64 = .ok [1, 0, 2, 0] := by
  unfold Holds; decide +kernel

/-- `str_copy` with an explicit non-zero length copies exactly that many bytes, with length 0 the
whole string without its terminator; the rest of the destination keeps its contents. -/
theorem C51_copy (m : Mem) (dst : List UInt8) (src : Nat) (s : List UInt8) (fuel : Nat) :
    (s ≠ [] → Holds m src s → s.length ≤ dst.length →
      strCopy m dst src s.length fuel = .ok (s ++ dst.drop s.length)) ∧
    (CStr m src s → s.length / 8 < fuel → s.length ≤ dst.length →
      strCopy m dst src 0 fuel = .ok (s ++ dst.drop s.length)) := by
  constructor
  · intro h1 h2 h3
    have hp := List.length_pos_iff.2 h1
    unfold strCopy
    rw [if_pos (by omega)]
    simp only [sub_eq h2]
    rw [putAll_ok _ _ _ (by omega)]
    simp
  · intro h1 h2 h3
    unfold strCopy
    rw [if_neg (by simp), (simdStrlen_spec h1 fuel h2).1]
    simp only [sub_eq h1.2.1]
    rw [putAll_ok _ _ _ (by omega)]
    simp

end Verif.Props
