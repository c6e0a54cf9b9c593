import Verif.Spec.Shim
/-!
# Formatted text (C109) and large files (C110) with the headers for Windows
-/
namespace Verif.Props
open Verif Verif.Ws

/-- **C109.**  `snprintf` behaves as POSIX says, for every text, every size and every memory of at least that size. -/
def C109_Full : Prop := ∀ (m s : List UInt8) (n : Nat), n ≤ m.length → (∀ c ∈ s, c ≠ 0) → Ws.snprintf m n s = Spec.snprintf m n s

private theorem put_eq {m d : List UInt8} (h : d.length ≤ m.length) : put m d = some (d ++ m.drop d.length) := if_pos h

/-- **C109.**  Exactly: it does if, and only if, the text is shorter than the memory (or there is neither). -/
theorem C109_exact_partial (m s : List UInt8) (n : Nat) (hn : n ≤ m.length) (hs : ∀ c ∈ s, c ≠ 0) :
    Ws.snprintf m n s = Spec.snprintf m n s ↔ s.length < n ∨ (n = 0 ∧ s = []) := by
  unfold Ws.snprintf Spec.snprintf
  by_cases h : s.length < n
  · have e : s.take (n - 1) = s := List.take_of_length_le (by omega)
    rw [if_pos h, if_neg (show ¬ n = 0 by omega), e, if_pos (show s.length ≤ n by omega)]
    simp [h]
  · rw [if_neg h, put_eq (by simp; omega)]
    by_cases h0 : n = 0
    · subst h0
      cases s with
      | nil => simp [put]
      | cons c s => simp [put]; omega
    · simp only [h, false_or, h0, if_false, false_and, iff_false]
      rw [put_eq (by simp; omega)]
      simp only [Option.map_some, Option.some.injEq, Prod.mk.injEq]
      rintro ⟨h1, h2⟩
      have h3 : s.length = n := by
        by_cases h3 : s.length ≤ n
        · omega
        · rw [if_neg h3] at h2; omega
      have e1 : s.take n = s := List.take_of_length_le (by omega)
      rw [e1] at h1
      have h4 := congrArg (fun l : List UInt8 => l[n - 1]?) h1
      have l1 : (s.take (n - 1)).length = n - 1 := by simp; omega
      rw [List.getElem?_append_left (by omega), List.getElem?_append_left (by simp; omega), List.getElem?_append_right (by omega), l1,
        Nat.sub_self] at h4
      simp only [List.getElem?_cons_zero] at h4
      exact hs 0 (List.mem_of_getElem? h4) rfl

/-- **C109.**  So it does not: eight letters into eight bytes. -/
theorem C109_full_false : ¬ C109_Full := by
  intro h
  have := (C109_exact_partial (List.replicate 8 7) (List.replicate 8 65) 8 (by decide) (by decide)).mp (h _ _ _ (by decide) (by decide))
  exact absurd this (by decide)

private theorem cstr_append (s m : List UInt8) (hs : ∀ c ∈ s, c ≠ 0) : Spec.cstr (s ++ m) = (Spec.cstr m).map (s ++ ·) := by
  induction s with
  | nil => cases h : Spec.cstr m <;> simp [h]
  | cons c s ih =>
    have hc : c ≠ 0 := hs c (by simp)
    simp only [List.cons_append, Spec.cstr, if_neg hc, ih (fun d hd => hs d (by simp [hd])), Option.map_map]
    rfl

/-- **C109.**  What stands in the memory then, as a string: if the text is shorter than the memory, the text. -/
theorem C109_string (m s : List UInt8) (n : Nat) (hn : n ≤ m.length) (hs : ∀ c ∈ s, c ≠ 0) (h : s.length < n) :
    ∃ m', Ws.snprintf m n s = some (m', (s.length : Int)) ∧ Spec.cstr m' = some s ∧ m'.length = m.length := by
  refine ⟨s ++ [0] ++ m.drop (s.length + 1), ?_, ?_, ?_⟩
  · unfold Ws.snprintf
    rw [if_pos h, put_eq (by simp; omega), if_pos (by omega)]; simp
  · rw [List.append_assoc, cstr_append s _ hs]; simp [Spec.cstr]
  · simp; omega

/-- **C109.**  And if not: the first `n` bytes of the text and after them whatever the memory behind held, to its first 0; if it holds none,
a reader runs beyond the memory.  This is always so for memory of exactly `n` bytes. -/
theorem C109_runs_on (m s : List UInt8) (n : Nat) (hn : n ≤ m.length) (hs : ∀ c ∈ s, c ≠ 0) (h : n ≤ s.length) :
    ∃ m', (Ws.snprintf m n s).map Prod.fst = some m' ∧ Spec.cstr m' = (Spec.cstr (m.drop n)).map (s.take n ++ ·) ∧
      (m.length = n → Spec.cstr m' = none) := by
  have hl : (s.take n).length = n := by simp; omega
  have k : Spec.cstr (s.take n ++ m.drop n) = (Spec.cstr (m.drop n)).map (s.take n ++ ·) :=
    cstr_append _ _ (fun c hc => hs c (List.mem_of_mem_take hc))
  refine ⟨s.take n ++ m.drop n, ?_, k, fun e => ?_⟩
  · unfold Ws.snprintf
    rw [if_neg (show ¬ s.length < n by omega), put_eq (by omega), hl]; simp
  · rw [k, ← e, List.drop_length]; rfl

/-- **C109.**  Measuring first does not work: with no memory the result is -1 for every text but the empty one, so that `malloc(result + 1)` asks for nothing. -/
theorem C109_measure (m s : List UInt8) (hs : s ≠ []) : Ws.snprintf m 0 s = some (m, -1) ∧ Spec.snprintf m 0 s = some (m, (s.length : Int)) := by
  cases s with
  | nil => exact absurd rfl hs
  | cons c s => exact ⟨by simp [Ws.snprintf, put], by simp [Spec.snprintf, put]⟩

/-- **C109.**  At least nothing is written outside: the call succeeds for memory of `n` bytes, and what lies behind them stays. -/
theorem C109_inside (m s : List UInt8) (n : Nat) (hn : n ≤ m.length) : ∃ m' r, Ws.snprintf m n s = some (m', r) ∧ m'.length = m.length ∧
    m'.drop n = m.drop n := by
  unfold Ws.snprintf
  by_cases h : s.length < n
  · rw [if_pos h, put_eq (by simp; omega)]
    refine ⟨_, _, rfl, by simp; omega, ?_⟩
    rw [List.drop_append, List.drop_of_length_le (by simp; omega), List.nil_append, List.drop_drop]
    congr 1; simp; omega
  · rw [if_neg h, put_eq (by simp; omega)]
    have hl : (s.take n).length = n := by simp; omega
    refine ⟨_, _, rfl, by simp; omega, ?_⟩
    rw [List.drop_append, List.drop_of_length_le (by omega), List.nil_append, hl, Nat.sub_self]; rfl

/-- Five letters into six bytes of eight: the text and its end; into four: four letters, and the reader goes on. -/
example : Ws.snprintf [1, 2, 3, 4, 5, 6, 7, 0] 6 [65, 66, 67, 68, 69] = some ([65, 66, 67, 68, 69, 0, 7, 0], 5) ∧
    Ws.snprintf [1, 2, 3, 4, 5, 6, 7, 0] 4 [65, 66, 67, 68, 69] = some ([65, 66, 67, 68, 5, 6, 7, 0], -1) ∧
    Spec.cstr [65, 66, 67, 68, 5, 6, 7, 0] = some [65, 66, 67, 68, 5, 6, 7] := by decide

/-! ## Large files -/

/-- **C110.**  `lseek` and `ftruncate` do with every file what POSIX says, for all offsets and lengths, one after another. -/
def C110_Full : Prop := ∀ (big : File → Int → File × Int) (f : File) (h : List Op), Ws.ops big f h = Spec.ops f h

private theorem toLong_small {x : Int} (h : -2 ^ 31 ≤ x) (h' : x < 2 ^ 31) : toLong x = x := by unfold toLong; omega

private theorem toLong_range (x : Int) : -2 ^ 31 ≤ toLong x ∧ toLong x < 2 ^ 31 := by unfold toLong; omega

private theorem resize_cut (d : List UInt8) (n : Nat) : resize d n = Spec.cut d n := by
  apply List.ext_getElem?
  intro i
  unfold resize Spec.cut
  by_cases hi : i < n
  · rw [List.getElem?_map, List.getElem?_range hi]
    by_cases hd : i < d.length
    · rw [List.getElem?_append_left (by simp; omega), List.getElem?_take_of_lt hi]
      simp [List.getD, List.getElem?_eq_getElem hd]
    · rw [List.getElem?_append_right (by simp; omega), List.getElem?_replicate]
      simp only [List.length_take]
      rw [if_pos (by omega)]
      simp [List.getD, List.getElem?_eq_none (Nat.le_of_not_lt hd)]
  · rw [List.getElem?_eq_none (by simp; omega), List.getElem?_eq_none (by simp; omega)]

private theorem base_origin (f : File) (w : Whence) : base f w = Spec.origin f w := by cases w <;> rfl

private theorem cut_length (d : List UInt8) (n : Nat) : (Spec.cut d n).length = n := by simp [Spec.cut]

/-- **C110.**  `ftruncate` with a length of 0 or more is right if, and only if, the length is below 2^31. -/
theorem C110_truncate_exact (f : File) (len : Int) (h : 0 ≤ len) : Ws.ftruncate f len = Spec.ftruncate f len ↔ len < 2 ^ 31 := by
  constructor
  · intro e
    unfold Ws.ftruncate Spec.ftruncate at e
    rw [if_neg (show ¬ len < 0 by omega)] at e
    split at e
    · have := congrArg Prod.snd e
      simp at this
    · next hn =>
      have := congrArg (fun x : File × Int => x.1.data.length) e
      simp only [resize_cut, cut_length] at this
      have := toLong_range len
      omega
  · intro e
    unfold Ws.ftruncate Spec.ftruncate
    rw [toLong_small (by omega) e, resize_cut]

/-- **C110.**  A length that is 2^32 too large cuts the file as if it were not, and says that all went well. -/
theorem C110_cut (f : File) (len : Int) (h : 0 ≤ len) (h' : len < 2 ^ 31) :
    Ws.ftruncate f (len + 2 ^ 32) = ({ f with data := Spec.cut f.data len.toNat }, 0) := by
  have e : toLong (len + 2 ^ 32) = len := by unfold toLong; omega
  unfold Ws.ftruncate
  rw [e, if_neg (by omega), resize_cut]

/-- **C110.**  Going to a position from the start of a file is right if, and only if, it is below 2^31. -/
theorem C110_seek_exact (big : File → Int → File × Int) (f : File) (off : Int) (h : 0 ≤ off) :
    Ws.lseek big f off .set = Spec.lseek f off .set ↔ off < 2 ^ 31 := by
  have := toLong_range off
  constructor
  · intro e
    have e2 := congrArg Prod.snd e
    unfold Ws.lseek Spec.lseek base Spec.origin at e2
    simp only [Int.zero_add] at e2
    rw [if_neg (show ¬ off < 0 by omega)] at e2
    split at e2
    · simp only [] at e2; omega
    · rw [if_pos (by omega)] at e2
      simp only [] at e2; omega
  · intro e
    unfold Ws.lseek Spec.lseek base Spec.origin
    rw [toLong_small (by omega) e]
    simp only [Int.zero_add]
    rw [if_neg (by omega), if_pos e, if_neg (by omega)]

/-- **C110.**  With small files all is right: as long as the offsets and the positions stay below 2^31, in any history. -/
theorem C110_small_partial (big : File → Int → File × Int) (h : List Op) : ∀ f : File, Spec.Small f h → Ws.ops big f h = Spec.ops f h := by
  induction h with
  | nil => intro f _; rfl
  | cons o r ih =>
    intro f hs
    have e : Ws.op big f o = Spec.op f o := by
      cases o with
      | seek off w =>
        obtain ⟨⟨h1, h2, h3⟩, _⟩ := hs
        simp only [Ws.op, Spec.op, Ws.lseek, Spec.lseek]
        rw [toLong_small h1 h2, base_origin]
        split
        · rfl
        · first | rfl | rw [if_pos h3]
      | trunc len =>
        obtain ⟨⟨h1, h2⟩, _⟩ := hs
        simp only [Ws.op, Spec.op, Ws.ftruncate, Spec.ftruncate]
        rw [toLong_small h1 h2, resize_cut]
    simp only [Ws.ops, Spec.ops]
    rw [e, ih _ hs.2]

/-- **C110.**  But not with large ones. -/
theorem C110_full_false : ¬ C110_Full := by
  intro h
  have := h (fun f _ => (f, -1)) ⟨[], 0⟩ [.seek (2 ^ 32) .set]
  exact absurd (congrArg Prod.fst this) (by decide)

/-- A file of three bytes: to its end and one further, back by two, cut to one byte, to before its start. -/
example : let h : List Op := [.seek 1 .fin, .seek (-2) .cur, .trunc 1, .seek (-2) .fin, .trunc 4]
    Spec.Small ⟨[1, 2, 3], 0⟩ h ∧ Spec.ops ⟨[1, 2, 3], 0⟩ h = ([4, 2, 0, -1, 0], ⟨[1, 0, 0, 0], 2⟩) := by
  refine ⟨?_, by decide⟩
  simp [Spec.Small, Spec.op, Spec.lseek, Spec.ftruncate, Spec.origin, Spec.cut]

end Verif.Props
