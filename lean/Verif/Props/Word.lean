import Verif.Proof.Word
/-!
# Values to and from the functions of threads (C111)
-/
namespace Verif.Props
open Verif Verif.Wv Verif.Wv.Spec

/-- **C111.**  On every machine and for integers of every type: the function of a thread gets the value passed to it with its address, and
`thrd_get` gives the value that the function returned with `thrd_value`; no memory is read but that of the value passed. -/
def C111_Full : Prop := ∀ (m : Mach), Mach.Real m → ∀ (t u : Ty), Ty.Real t → Ty.Real u → ∀ x y : Int, Ty.Has t x → Ty.Has u y →
  ∀ mem : List UInt8, Holds m t x mem → getArg m t mem = .value x ∧ getResult m u mem y = .value y

/-- **C111.**  The argument: right exactly if the memory from the value on can be read for 256 bytes, on every machine, for every type. -/
theorem C111_arg_exact (m : Mach) (t : Ty) (ht : Ty.Real t) (x : Int) (hx : Ty.Has t x) (mem : List UInt8) (h : Holds m t x mem) :
    (getArg m t mem = .value x ↔ 256 ≤ mem.length) ∧ (getArg m t mem = .over ↔ mem.length < 256) := by
  obtain ⟨r, rfl⟩ := h
  unfold getArg
  rw [read_own m t ht x hx r]
  have h256 : unionSize = 256 := rfl
  by_cases k : (enc m t.width (x % 256 ^ t.width).toNat ++ r).length < unionSize
  · rw [if_pos k]; exact ⟨⟨(fun e => by cases e), fun e => by omega⟩, ⟨fun _ => by omega, fun _ => rfl⟩⟩
  · rw [if_neg k]; exact ⟨⟨fun _ => by omega, fun _ => rfl⟩, ⟨(fun e => by cases e), fun e => by omega⟩⟩

/-- **C111.**  The full statement is false: the value is read beyond its end. -/
theorem C111_full_false : ¬ C111_Full := by
  intro h
  have := (h ⟨false, 8⟩ (.inr rfl) ⟨4, true⟩ ⟨4, true⟩ (.inr (.inr (.inl rfl))) (.inr (.inr (.inl rfl))) 7 7 (by simp [Ty.Has]) (by simp [Ty.Has])
    (enc ⟨false, 8⟩ 4 7) ⟨[], by simp⟩).1
  exact absurd this (by decide)

/-- **C111.**  And it is false of the value returned, however much memory can be read: 0 cannot be returned, on any machine, in any type. -/
theorem C111_zero (m : Mach) (u : Ty) (mem : List UInt8) (hl : 12 ≤ mem.length) : getResult m u mem 0 = .null := by
  unfold getResult isArgs
  rw [if_neg (by omega), if_neg (show ¬ mem.length < 12 by omega)]
  split
  · next e => split at e <;> cases e
  · simp [thrdValue]

/-- The argument is not taken for one made by `args_for`. -/
private theorem plain_result {m : Mach} {u : Ty} {mem : List UInt8} {y : Int} (ha : isArgs m mem = some false) (hz : thrdValue m y ≠ 0) :
    getResult m u mem y = .value (u.read m (enc m m.ptr (thrdValue m y) ++ List.replicate (unionSize - m.ptr) 0)) := by
  unfold getResult
  rw [ha]
  simp [hz]

private theorem null_result {m : Mach} {u : Ty} {mem : List UInt8} {y : Int} (ha : isArgs m mem = some false) (hz : thrdValue m y = 0) :
    getResult m u mem y = .null := by
  unfold getResult
  rw [ha]
  simp [hz]

/-- **C111.**  Where the lowest byte comes first: every value but 0 is returned right, in types no wider than a pointer. -/
theorem C111_little_partial (m : Mach) (hm : Mach.Real m) (hb : m.big = false) (u : Ty) (hu : Ty.Real u) (hw : u.width ≤ m.ptr) (y : Int)
    (hy : Ty.Has u y) (mem : List UInt8) (ha : isArgs m mem = some false) : getResult m u mem y = .value y ↔ y ≠ 0 := by
  by_cases hz : thrdValue m y = 0
  · rw [null_result ha hz]
    constructor
    · intro e; cases e
    · intro hn
      exfalso
      unfold thrdValue at hz
      unfold Ty.Has at hy
      rcases hm with h | h <;> rcases hu with h' | h' | h' | h' <;> rw [h] at hz hw <;> rw [h'] at hy hw <;> split at hy <;> omega
  · rw [plain_result ha hz]
    have hn : y ≠ 0 := by rintro rfl; exact hz (by simp [thrdValue])
    simp only [hn, ne_eq, not_false_eq_true, iff_true, Out.value.injEq]
    unfold Ty.read
    rw [dec_little hb _ _ _ _ hw]
    unfold thrdValue
    unfold Ty.Has at hy
    rcases hm with h | h <;> rcases hu with h' | h' | h' | h' <;> rw [h] at hw ⊢ <;> rw [h'] at hy hw ⊢ <;> cases hs : u.signed <;>
      simp [hs] at hy ⊢ <;> (try split) <;> omega

/-- **C111.**  Where the highest byte comes first, in types narrower than a pointer: only -1 is. -/
theorem C111_big_exact (m : Mach) (hm : Mach.Real m) (hb : m.big = true) (u : Ty) (hu : Ty.Real u) (hw : u.width < m.ptr) (y : Int)
    (hy : Ty.Has u y) (mem : List UInt8) (ha : isArgs m mem = some false) : getResult m u mem y = .value y ↔ y = -1 := by
  by_cases hz : thrdValue m y = 0
  · rw [null_result ha hz]
    constructor
    · intro e; cases e
    · rintro rfl
      exfalso
      unfold thrdValue at hz
      rcases hm with h | h <;> rw [h] at hz <;> omega
  · rw [plain_result ha hz]
    simp only [Out.value.injEq]
    unfold Ty.read
    have e := dec_big hb u.width (m.ptr - u.width) (thrdValue m y) (List.replicate (unionSize - m.ptr) 0)
    rw [show u.width + (m.ptr - u.width) = m.ptr by omega] at e
    rw [e]
    have hp : (thrdValue m y : Int) = y % 256 ^ m.ptr :=
      Int.toNat_of_nonneg (Int.emod_nonneg _ (by rcases hm with h | h <;> rw [h] <;> decide))
    clear e
    generalize thrdValue m y = p at hz hp ⊢
    unfold Ty.Has at hy
    have hp' : (0 ≤ y ∧ (p : Int) = y) ∨ (y < 0 ∧ (p : Int) = y + 256 ^ m.ptr) := by
      rcases hm with h | h <;> rcases hu with h' | h' | h' | h' <;> rw [h] at hw hp ⊢ <;> rw [h'] at hy hw <;> split at hy <;> omega
    clear hp
    rcases hp' with ⟨h0, hp⟩ | ⟨h0, hp⟩ <;>
    rcases hm with h | h <;> rcases hu with h' | h' | h' | h' <;> (try rw [h] at hp) <;> rw [h] at hw ⊢ <;> rw [h'] at hy hw ⊢ <;>
      first
      | omega
      | (cases hs : u.signed <;>
          simp only [hs, Bool.false_eq_true, if_false, if_true, false_and, true_and, Nat.reduceSub, Nat.reducePow] at hy ⊢ <;>
          (try split) <;> omega)

/-- **C111.**  In types as wide as a pointer every value but 0 is, on every machine. -/
theorem C111_word_partial (m : Mach) (hm : Mach.Real m) (u : Ty) (hw : u.width = m.ptr) (y : Int)
    (hy : Ty.Has u y) (mem : List UInt8) (ha : isArgs m mem = some false) : getResult m u mem y = .value y ↔ y ≠ 0 := by
  have hu : Ty.Real u := by unfold Ty.Real; rcases hm with h | h <;> omega
  by_cases hz : thrdValue m y = 0
  · rw [null_result ha hz]
    constructor
    · intro e; cases e
    · intro hn
      exfalso
      unfold thrdValue at hz
      unfold Ty.Has at hy
      rw [hw] at hy
      rcases hm with h | h <;> rw [h] at hz hy <;> split at hy <;> omega
  · rw [plain_result ha hz]
    have hn : y ≠ 0 := by rintro rfl; exact hz (by simp [thrdValue])
    simp only [hn, ne_eq, not_false_eq_true, iff_true, Out.value.injEq]
    have e := read_own m u hu y hy (List.replicate (unionSize - m.ptr) 0)
    rw [hw] at e
    exact e

/-- **C111.**  `long long` on a machine with pointers of 32 bits, lowest byte first: right from 1 to 2^32 - 1. -/
theorem C111_wide_exact (m : Mach) (hm : m.ptr = 4) (hb : m.big = false) (u : Ty) (hu : u.width = 8) (y : Int) (hy : Ty.Has u y)
    (mem : List UInt8) (ha : isArgs m mem = some false) : getResult m u mem y = .value y ↔ 0 < y ∧ y < 2 ^ 32 := by
  by_cases hz : thrdValue m y = 0
  · rw [null_result ha hz]
    constructor
    · intro e; cases e
    · intro hn
      exfalso
      unfold thrdValue at hz
      rw [hm] at hz; omega
  · rw [plain_result ha hz]
    simp only [Out.value.injEq]
    have e : dec m ((enc m m.ptr (thrdValue m y) ++ List.replicate (unionSize - m.ptr) 0).take u.width) = thrdValue m y % 256 ^ 4 := by
      rw [hu, hm, List.take_append, enc_length, List.take_of_length_le (by rw [enc_length]; omega)]
      unfold dec enc
      simp only [hb, Bool.false_eq_true, if_false]
      rw [List.take_replicate, decL_append, decL_zeros, decL_encL]; simp
    unfold Ty.read
    rw [e, hu]
    unfold thrdValue at hz ⊢
    unfold Ty.Has at hy
    rw [hm] at hz ⊢
    rw [hu] at hy
    cases hs : u.signed <;> simp [hs] at hy ⊢ <;> (try split) <;> omega

/-- **C111.**  The same with the highest byte first: no value is. -/
theorem C111_wide_big (m : Mach) (hm : m.ptr = 4) (hb : m.big = true) (u : Ty) (hu : u.width = 8) (y : Int)
    (mem : List UInt8) (ha : isArgs m mem = some false) : getResult m u mem y ≠ .value y := by
  by_cases hz : thrdValue m y = 0
  · rw [null_result ha hz]
    intro e; cases e
  · rw [plain_result ha hz]
    simp only [ne_eq, Out.value.injEq]
    have e : dec m ((enc m m.ptr (thrdValue m y) ++ List.replicate (unionSize - m.ptr) 0).take u.width) = 256 ^ 4 * (thrdValue m y % 256 ^ 4) := by
      rw [hu, hm, List.take_append, enc_length, List.take_of_length_le (by rw [enc_length]; omega), List.take_replicate]
      unfold dec enc
      simp only [hb, if_true]
      rw [List.reverse_append, List.reverse_replicate, List.reverse_reverse, decL_append, decL_zeros, decL_encL, List.length_replicate]
      simp [unionSize]
    unfold Ty.read
    rw [e, hu]
    have hp : (thrdValue m y : Int) = y % 256 ^ 4 := by
      unfold thrdValue
      rw [hm]; exact Int.toNat_of_nonneg (Int.emod_nonneg _ (by decide))
    clear e
    generalize thrdValue m y = p at hz hp ⊢
    cases hs : u.signed <;> simp only [hs, Bool.false_eq_true, if_false, if_true, false_and, true_and] <;> (try split) <;> omega

/-- **C111.**  The argument's value matters for the result: if it is the `int` 43 (the tag of `args_for`) and the third word from it on is not
0, no value at all can be returned: the number returned is followed as a pointer. -/
theorem C111_forty_three (m : Mach) (u : Ty) (mem : List UInt8) (hl : 12 ≤ mem.length) (h : Holds m ⟨4, true⟩ 43 mem)
    (h8 : dec m ((mem.drop 8).take 4) ≠ 0) (y : Int) : getResult m u mem y = .null ∨ getResult m u mem y = .wild := by
  have e : isArgs m mem = some true := by
    obtain ⟨r, hr⟩ := h
    have e4 : dec m (mem.take 4) = tagArgs := by
      rw [hr]
      show dec m ((enc m 4 _ ++ r).take 4) = tagArgs
      rw [take_enc_append, dec_enc]; decide
    unfold isArgs
    rw [if_neg (by omega), if_pos e4, if_neg (by omega)]
    simp [h8]
  unfold getResult
  rw [e]
  simp only []
  by_cases hz : thrdValue m y = 0
  · left; rw [if_pos hz]
  · right; rw [if_neg hz]; rfl

/-- **C111.**  No other `int` does this: the argument is plain. -/
theorem C111_plain (m : Mach) (x : Int) (hx : Ty.Has ⟨4, true⟩ x) (hn : x ≠ 43) (mem : List UInt8) (h : Holds m ⟨4, true⟩ x mem) :
    isArgs m mem = some false := by
  obtain ⟨r, rfl⟩ := h
  unfold isArgs
  rw [if_neg (by rw [List.length_append, enc_length]; show ¬ 4 + _ < 4; omega), if_neg]
  show ¬ dec m ((enc m 4 _ ++ r).take 4) = tagArgs
  rw [take_enc_append, dec_enc]
  simp [Ty.Has] at hx
  simp only [tagArgs]
  omega

/-- **C111.**  An argument of fewer than four bytes is read beyond its end when the function has returned. -/
theorem C111_short (m : Mach) (u : Ty) (mem : List UInt8) (hl : mem.length < 4) (y : Int) : getResult m u mem y = .over := by
  unfold getResult isArgs
  rw [if_pos hl]

/-- The example of the documentation, `is_prime(194232491)`, on a machine with the lowest byte first, and with the highest: true comes back as true there, as
false here. -/
example : let mem := fun m => enc m 4 194232491 ++ List.replicate 300 9
    Holds ⟨false, 8⟩ ⟨4, true⟩ 194232491 (mem ⟨false, 8⟩) ∧
    getArg ⟨false, 8⟩ ⟨4, true⟩ (mem ⟨false, 8⟩) = .value 194232491 ∧ getResult ⟨false, 8⟩ ⟨1, false⟩ (mem ⟨false, 8⟩) 1 = .value 1 ∧
    getArg ⟨true, 8⟩ ⟨4, true⟩ (mem ⟨true, 8⟩) = .value 194232491 ∧ getResult ⟨true, 8⟩ ⟨1, false⟩ (mem ⟨true, 8⟩) 1 = .value 0 := by
  refine ⟨⟨_, rfl⟩, ?_, ?_, ?_, ?_⟩ <;> decide +kernel

/-- 43 with something behind it. -/
example : getResult ⟨false, 8⟩ ⟨1, false⟩ (enc ⟨false, 8⟩ 4 43 ++ List.replicate 300 9) 1 = .wild := by decide +kernel

end Verif.Props
