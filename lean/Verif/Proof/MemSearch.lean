import Verif.Proof.Swar
import Verif.Model.MemSearch
import Verif.Spec.Strings
/-!
# Facts about the memory searches
-/
namespace Verif

/-- When the "printable" block search may be used: bytes and needle are 7-bit. -/
def PrintOk (pr : Bool) (l : List Nat) (c : UInt8) : Prop :=
  pr = true → (∀ b ∈ l, b < 128) ∧ c.toNat < 128

theorem PrintOk.xor {pr : Bool} {l : List Nat} {c : UInt8} (h : PrintOk pr l c) :
    pr = true → ∀ b ∈ l, b ^^^ c.toNat ≤ 128 := by
  intro hp b hb
  have h1 := (h hp).1 b hb
  have h2 := (h hp).2
  have := Nat.xor_lt_two_pow (n := 7) h1 h2
  omega

theorem mem_bytes8 (m : Mem) (p : Nat) (c : UInt8) :
    c.toNat ∈ m.bytes p 8 ↔ ∃ i < 8, m (p + i) = c := by
  rw [List.mem_iff_getElem]
  constructor
  · rintro ⟨i, hi, he⟩
    rw [Mem.bytes_getElem] at he
    rw [Mem.bytes_length] at hi
    exact ⟨i, hi, UInt8.toNat_inj.mp he⟩
  · rintro ⟨i, hi, he⟩
    exact ⟨i, by rw [Mem.bytes_length]; exact hi, by rw [Mem.bytes_getElem, he]⟩

theorem hasbyte_cast (m : Mem) (p : Nat) (c : UInt8) :
    hasbyte (cast64 m p) c = true ↔ ∃ i < 8, m (p + i) = c := by
  rw [cast64_eq, hasbyte_wordOf (Mem.bytes_Bytes _ _ _) (Mem.bytes_length _ _ _), mem_bytes8]

theorem hasbyte_cast_false (m : Mem) (p : Nat) (c : UInt8) :
    hasbyte (cast64 m p) c = false ↔ ∀ i < 8, m (p + i) ≠ c := by
  rw [Bool.eq_false_iff, Ne, hasbyte_cast]; simp

theorem haszero_cast (m : Mem) (p : Nat) :
    haszero (cast64 m p) = true ↔ ∃ i < 8, m (p + i) = 0 := by
  rw [cast64_eq, haszero_wordOf (Mem.bytes_Bytes _ _ _) (Mem.bytes_length _ _ _)]
  exact mem_bytes8 m p 0

theorem ofInt_natDiv (k : Nat) : BitVec.ofInt 32 (Int.tdiv ((8 * k + 7 : Nat) : Int) 8) = BitVec.ofNat 32 k := by
  have : Int.tdiv ((8 * k + 7 : Nat) : Int) 8 = (k : Int) := by
    have h : ((8 : Nat) : Int) = 8 := rfl
    rw [← h, ← Int.ofNat_tdiv]; congr 1; omega
  rw [this]; exact BitVec.ofInt_natCast _ _

/-- lanes version of the forward search, found -/
theorem memchr8X_fwd_found {l : List Nat} (h : Bytes l) (hl : l.length = 8) {pr ex : Bool} {c : UInt8}
    (hpr : PrintOk pr l c) {k : Nat} (hk : k < 8) (hc : l.getD k 0 = c.toNat)
    (hlt : ∀ j < k, l.getD j 0 ≠ c.toNat) :
    memchr8X pr ex false (wordOf l) c = some (BitVec.ofNat 32 k) := by
  unfold memchr8X
  rw [memchr8Flags_wordOf h hl pr c hpr.xor]
  have hz := countrZero_flag_some hl hk hc hlt
  cases ex with
  | true =>
    simp only [Bool.not_false, if_true, hz]
    exact congrArg some (ofInt_natDiv k)
  | false =>
    simp only [Bool.false_eq_true, if_false, Bool.not_false, if_true, countrIndex, hz]
    congr 1
    have : Int.tdiv (((8 * k + 7 + 1 : Nat) : Int) - 8) 8 = (k : Int) := by
      have e : (((8 * k + 7 + 1 : Nat) : Int) - 8) = 8 * (k : Int) := by omega
      rw [e]; exact Int.mul_tdiv_cancel_left _ (by decide)
    rw [this]; exact BitVec.ofInt_natCast _ _

theorem memchr8X_fwd_absent {l : List Nat} (h : Bytes l) (hl : l.length = 8) {pr : Bool} {c : UInt8}
    (hpr : PrintOk pr l c) (hlt : ∀ j < 8, l.getD j 0 ≠ c.toNat) :
    memchr8X pr false false (wordOf l) c = some (-1#32) := by
  unfold memchr8X
  rw [memchr8Flags_wordOf h hl pr c hpr.xor]
  simp only [Bool.false_eq_true, if_false, Bool.not_false, if_true, countrIndex,
    countrZero_flag_none hl hlt]
  decide

theorem memchr8X_known_absent {l : List Nat} (h : Bytes l) (hl : l.length = 8) {pr : Bool} {c : UInt8}
    (hpr : PrintOk pr l c) (hlt : ∀ j < 8, l.getD j 0 ≠ c.toNat) :
    memchr8X pr true false (wordOf l) c = none := by
  unfold memchr8X
  rw [memchr8Flags_wordOf h hl pr c hpr.xor]
  simp only [Bool.not_false, if_true, countrZero_flag_none hl hlt]
  rfl

theorem memchr8X_rev_found {l : List Nat} (h : Bytes l) (hl : l.length = 8) {pr ex : Bool} {c : UInt8}
    (hpr : PrintOk pr l c) {k : Nat} (hk : k < 8) (hc : l.getD k 0 = c.toNat)
    (hgt : ∀ j, k < j → j < 8 → l.getD j 0 ≠ c.toNat) :
    memchr8X pr ex true (wordOf l) c = some (BitVec.ofNat 32 k) := by
  unfold memchr8X
  rw [memchr8Flags_wordOf h hl pr c hpr.xor]
  cases ex with
  | true =>
    simp only [Bool.not_true, Bool.false_eq_true, if_false, if_true,
      countlZero_flag_some hl hk hc hgt]
    show some (BitVec.ofInt 32 (7 - Int.tdiv ((56 - 8 * k : Nat) : Int) 8)) = _
    congr 1
    have : (7 - Int.tdiv ((56 - 8 * k : Nat) : Int) 8) = (k : Int) := by
      have e : ((56 - 8 * k : Nat) : Int) = 8 * (7 - (k : Int)) := by omega
      rw [e, Int.mul_tdiv_cancel_left _ (by decide)]; omega
    rw [this]; exact BitVec.ofInt_natCast _ _
  | false =>
    simp only [Bool.not_true, Bool.false_eq_true, if_false,
      countlZero_flag_or_some hl hk hc hgt]
    show some (BitVec.ofInt 32 (7 - Int.tdiv (((56 - 8 * k : Nat) : Int) + 1) 8)) = _
    congr 1
    have : (7 - Int.tdiv (((56 - 8 * k : Nat) : Int) + 1) 8) = (k : Int) := by
      have e : (((56 - 8 * k : Nat) : Int) + 1) = ((8 * (7 - k) + 1 : Nat) : Int) := by omega
      have h8 : ((8 : Nat) : Int) = 8 := rfl
      rw [e, ← h8, ← Int.ofNat_tdiv]; omega
    rw [this]; exact BitVec.ofInt_natCast _ _

theorem memchr8X_rev_absent {l : List Nat} (h : Bytes l) (hl : l.length = 8) {pr : Bool} {c : UInt8}
    (hpr : PrintOk pr l c) (hlt : ∀ j < 8, l.getD j 0 ≠ c.toNat) :
    memchr8X pr false true (wordOf l) c = some (-1#32) := by
  unfold memchr8X
  rw [memchr8Flags_wordOf h hl pr c hpr.xor]
  simp only [Bool.not_true, Bool.false_eq_true, if_false,
      countlZero_flag_or_none hl hlt]
  decide

/-- 7-bit condition for memory. -/
def PrintMem (pr : Bool) (m : Mem) (p n : Nat) (c : UInt8) : Prop :=
  pr = true → (∀ i < n, (m (p + i)).toNat < 128) ∧ c.toNat < 128

theorem PrintMem.ok {pr : Bool} {m : Mem} {p : Nat} {c : UInt8} (h : PrintMem pr m p 8 c) :
    PrintOk pr (m.bytes p 8) c := by
  intro hp
  refine ⟨?_, (h hp).2⟩
  intro b hb
  obtain ⟨i, hi, rfl⟩ := List.getElem_of_mem hb
  rw [Mem.bytes_getElem]
  rw [Mem.bytes_length] at hi
  exact (h hp).1 i hi

theorem memchr8X_first (m : Mem) (p : Nat) (c : UInt8) (pr ex : Bool) (hpr : PrintMem pr m p 8 c)
    {k : Nat} (h : IsFirst m p 8 c k) :
    memchr8X pr ex false (cast64 m p) c = some (BitVec.ofNat 32 k) := by
  rw [cast64_eq]
  apply memchr8X_fwd_found (Mem.bytes_Bytes _ _ _) (Mem.bytes_length _ _ _) hpr.ok h.1
  · rw [Mem.bytes_getD _ _ _ _ h.1, h.2.1]
  · intro j hj he
    rw [Mem.bytes_getD _ _ _ _ (by have := h.1; omega)] at he
    exact h.2.2 j hj (UInt8.toNat_inj.mp he)

theorem memchr8X_last (m : Mem) (p : Nat) (c : UInt8) (pr ex : Bool) (hpr : PrintMem pr m p 8 c)
    {k : Nat} (h : IsLast m p 8 c k) :
    memchr8X pr ex true (cast64 m p) c = some (BitVec.ofNat 32 k) := by
  rw [cast64_eq]
  apply memchr8X_rev_found (Mem.bytes_Bytes _ _ _) (Mem.bytes_length _ _ _) hpr.ok h.1
  · rw [Mem.bytes_getD _ _ _ _ h.1, h.2.1]
  · intro j hj hj8 he
    rw [Mem.bytes_getD _ _ _ _ hj8] at he
    exact h.2.2 j hj hj8 (UInt8.toNat_inj.mp he)

theorem memchr8X_none (m : Mem) (p : Nat) (c : UInt8) (pr rev : Bool) (hpr : PrintMem pr m p 8 c)
    (h : Absent m p 8 c) : memchr8X pr false rev (cast64 m p) c = some (-1#32) := by
  have : ∀ j < 8, (m.bytes p 8).getD j 0 ≠ c.toNat := by
    intro j hj he
    rw [Mem.bytes_getD _ _ _ _ hj] at he
    exact h j hj (UInt8.toNat_inj.mp he)
  rw [cast64_eq]
  cases rev
  · exact memchr8X_fwd_absent (Mem.bytes_Bytes _ _ _) (Mem.bytes_length _ _ _) hpr.ok this
  · exact memchr8X_rev_absent (Mem.bytes_Bytes _ _ _) (Mem.bytes_length _ _ _) hpr.ok this

/-- Least offset at which a byte occurs. -/
theorem exists_first (m : Mem) (p n : Nat) (c : UInt8) (h : ∃ i < n, m (p + i) = c) :
    ∃ j, IsFirst m p n c j := by
  induction n with
  | zero => obtain ⟨i, hi, _⟩ := h; omega
  | succ n ih =>
    by_cases hn : ∃ i < n, m (p + i) = c
    · obtain ⟨j, h1, h2, h3⟩ := ih hn
      exact ⟨j, by omega, h2, h3⟩
    · obtain ⟨i, hi, he⟩ := h
      have : i = n := by
        refine Classical.byContradiction fun hne => hn ⟨i, by omega, he⟩
      subst this
      exact ⟨i, by omega, he, fun j hj he' => hn ⟨j, hj, he'⟩⟩

/-! ### `_memchr` on buffers longer than 8 -/

theorem memchrLoop_spec (m : Mem) (pr known : Bool) (s stop : Nat) (c : UInt8)
    (hpr : pr = true → (∀ a, s ≤ a → a < stop → (m a).toNat < 128) ∧ c.toNat < 128)
    (k : Nat) : ∀ (fuel p : Nat), k ≤ fuel → s ≤ p → p + 8 * k = stop → 0 < k →
    (∀ j, IsFirst m p (8 * k) c j →
      memchrLoop m pr known s stop c fuel p = some (BitVec.ofNat 32 (p - s + j))) ∧
    (Absent m p (8 * k) c → known = false → memchrLoop m pr known s stop c fuel p = some (-1#32)) := by
  induction k with
  | zero => intro _ _ _ _ _ h; omega
  | succ k ih =>
    intro fuel p hf hsp hstop _
    obtain ⟨fuel, rfl⟩ : ∃ f, fuel = f + 1 := ⟨fuel - 1, by omega⟩
    have hprp : PrintMem pr m p 8 c := fun hp =>
      ⟨fun i hi => (hpr hp).1 _ (by omega) (by omega), (hpr hp).2⟩
    constructor
    · intro j hj
      rw [memchrLoop]
      by_cases hb : j < 8
      · have hh : hasbyte (cast64 m p) c = true := (hasbyte_cast m p c).2 ⟨j, hb, hj.2.1⟩
        rw [if_pos hh, memchr8X_first m p c pr true hprp ⟨hb, hj.2⟩]
        simp [BitVec.ofNat_add]
      · have hh : hasbyte (cast64 m p) c = false := (hasbyte_cast_false m p c).2
          (fun i hi => hj.2.2 i (by omega))
        rw [hh, if_neg (by simp)]
        have hk : 0 < k := by have := hj.1; omega
        have hne : (p + 8 == stop) = false := by rw [beq_eq_false_iff_ne]; omega
        rw [hne]
        simp only [Bool.and_false, Bool.false_eq_true, if_false]
        have h2 := (ih fuel (p + 8) (by omega) (by omega) (by omega) hk).1 (j - 8) (by
          refine ⟨by have := hj.1; omega, ?_, ?_⟩
          · rw [← hj.2.1]; congr 1; omega
          · intro i hi
            have := hj.2.2 (i + 8) (by omega)
            rwa [show p + 8 + i = p + (i + 8) by omega])
        rw [h2]; congr 2; omega
    · intro ha hkn
      rw [memchrLoop]
      have hh : hasbyte (cast64 m p) c = false := (hasbyte_cast_false m p c).2
        (fun i hi => ha i (by omega))
      rw [hh, if_neg (by simp)]
      by_cases hk : k = 0
      · subst hk
        have : (p + 8 == stop) = true := by rw [beq_iff_eq]; omega
        rw [this, hkn]; simp
      · have hne : (p + 8 == stop) = false := by rw [beq_eq_false_iff_ne]; omega
        rw [hne]
        simp only [Bool.and_false, Bool.false_eq_true, if_false]
        exact (ih fuel (p + 8) (by omega) (by omega) (by omega) (by omega)).2 (by
          intro i hi
          have := ha (i + 8) (by omega)
          rwa [show p + 8 + i = p + (i + 8) by omega]) hkn

theorem firstWord_long (m : Mem) (p len : Nat) (c : UInt8) (h : 8 ≤ len) :
    firstWord m p len c = cast64 m p := by
  unfold firstWord partMask
  rw [if_neg (by omega)]
  simp
  exact BitVec.and_allOnes

theorem memchr'_long_found (m : Mem) (pr known : Bool) (s len : Nat) (c : UInt8) (fuel : Nat)
    (hpr : PrintMem pr m s len c)
    (hlen : 8 < len) (hf : len ≤ fuel) {j : Nat} (hj : IsFirst m s len c j) :
    memchr' m pr known s len c fuel = some (BitVec.ofNat 32 j) := by
  unfold memchr'
  simp only [firstWord_long m s len c (by omega)]
  have hprs : PrintMem pr m s 8 c := fun hp => ⟨fun i hi => (hpr hp).1 i (by omega), (hpr hp).2⟩
  by_cases hb : j < 8
  · have hh : hasbyte (cast64 m s) c = true := (hasbyte_cast m s c).2 ⟨j, hb, hj.2.1⟩
    rw [if_pos hh, memchr8X_first m s c pr true hprs ⟨hb, hj.2⟩]
  · have hh : hasbyte (cast64 m s) c = false := (hasbyte_cast_false m s c).2
      (fun i hi => hj.2.2 i (by omega))
    rw [hh, if_neg (by simp)]
    have hjl := hj.1
    have hp1 : partLen len ≤ 8 ∧ (len - partLen len) % 8 = 0 ∧ 0 < partLen len := by
      unfold partLen; split <;> omega
    have := (memchrLoop_spec m pr known s (s + len) c
      (fun hp => ⟨fun a h1 h2 => by
        have := (hpr hp).1 (a - s) (by omega)
        rwa [show s + (a - s) = a by omega] at this, (hpr hp).2⟩)
      ((len - partLen len) / 8) fuel (s + partLen len) (by omega) (by omega) (by omega)
      (by omega)).1 (j - partLen len) (by
        refine ⟨by omega, ?_, ?_⟩
        · rw [← hj.2.1]; congr 1; omega
        · intro i hi
          have := hj.2.2 (i + partLen len) (by omega)
          rwa [show s + partLen len + i = s + (i + partLen len) by omega])
    rw [this]; congr 2; omega

theorem memchr'_long_absent (m : Mem) (pr : Bool) (s len : Nat) (c : UInt8) (fuel : Nat)
    (hpr : PrintMem pr m s len c)
    (hlen : 8 < len) (hf : len ≤ fuel) (ha : Absent m s len c) :
    memchr' m pr false s len c fuel = some (-1#32) := by
  unfold memchr'
  simp only [firstWord_long m s len c (by omega)]
  have hh : hasbyte (cast64 m s) c = false := (hasbyte_cast_false m s c).2
      (fun i hi => ha i (by omega))
  rw [hh, if_neg (by simp)]
  have hp1 : partLen len ≤ 8 ∧ (len - partLen len) % 8 = 0 ∧ 0 < partLen len := by
    unfold partLen; split <;> omega
  exact (memchrLoop_spec m pr false s (s + len) c
    (fun hp => ⟨fun a h1 h2 => by
        have := (hpr hp).1 (a - s) (by omega)
        rwa [show s + (a - s) = a by omega] at this, (hpr hp).2⟩)
    ((len - partLen len) / 8) fuel (s + partLen len) (by omega) (by omega) (by omega)
    (by omega)).2 (by
      intro i hi
      have := ha (i + partLen len) (by omega)
      rwa [show s + partLen len + i = s + (i + partLen len) by omega]) rfl

theorem memchr'_eight_found (m : Mem) (pr known : Bool) (s : Nat) (c : UInt8) (fuel : Nat)
    (hpr : PrintMem pr m s 8 c) {j : Nat} (hj : IsFirst m s 8 c j) :
    memchr' m pr known s 8 c fuel = some (BitVec.ofNat 32 j) := by
  unfold memchr'
  simp only [firstWord_long m s 8 c (by omega)]
  have hh : hasbyte (cast64 m s) c = true := (hasbyte_cast m s c).2 ⟨j, hj.1, hj.2.1⟩
  rw [if_pos hh, memchr8X_first m s c pr true hpr hj]

/-! ### `_memchr` on shorter buffers -/

theorem partMask_short (len : Nat) (h0 : 0 < len) (h : len < 8) :
    partMask len = wordOf (List.replicate len 255 ++ List.replicate (8 - len) 0) := by
  match len, h0, h with
  | 1, _, _ => decide
  | 2, _, _ => decide
  | 3, _, _ => decide
  | 4, _, _ => decide
  | 5, _, _ => decide
  | 6, _, _ => decide
  | 7, _, _ => decide

/-- The bytes of the masked first word on a short buffer. -/
def maskedBytes (m : Mem) (p len : Nat) (c : UInt8) : List Nat :=
  (List.range 8).map fun i =>
    if i < len then (m (p + i)).toNat &&& (255 - c.toNat) else (m (p + i)).toNat

theorem maskedBytes_Bytes (m : Mem) (p len : Nat) (c : UInt8) : Bytes (maskedBytes m p len c) := by
  intro b hb
  obtain ⟨i, _, rfl⟩ := List.mem_map.mp hb
  have := UInt8.toNat_lt (m (p + i))
  split
  · exact byte_and this
  · exact this

theorem Mem.bytes_eq_map (m : Mem) (p n : Nat) :
    m.bytes p n = (List.range n).map fun i => (m (p + i)).toNat := by
  apply List.ext_getElem
  · simp [Mem.bytes_length]
  · intro i h1 h2
    rw [Mem.bytes_getElem]; simp

theorem firstWord_short (m : Mem) (p len : Nat) (c : UInt8) (h0 : 0 < len) (h : len < 8) :
    firstWord m p len c = wordOf (maskedBytes m p len c) := by
  have hc := UInt8.toNat_lt c
  unfold firstWord
  rw [partMask_short len h0 h, extend_eq, cast64_eq]
  have hb1 : Bytes (List.replicate len 255 ++ List.replicate (8 - len) 0) := by
    intro b hb
    rcases List.mem_append.mp hb with h | h <;> rw [List.eq_of_mem_replicate h] <;> decide
  have hl1 : (List.replicate len 255 ++ List.replicate (8 - len) 0).length = 8 := by
    simp; omega
  rw [wordOf_and hb1 (Bytes.replicate hc) hl1 (by simp)]
  have hb2 := zipWith_Bytes (f := (· &&& ·)) (fun _ _ h _ => byte_and h) hb1
    (Bytes.replicate (n := 8) hc)
  have hl2 : (List.zipWith (· &&& ·) (List.replicate len 255 ++ List.replicate (8 - len) 0)
    (List.replicate 8 c.toNat)).length = 8 := by simp; omega
  rw [wordOf_not hb2 hl2, wordOf_and (Mem.bytes_Bytes _ _ _) (hb2.map (by intros; omega))
    (Mem.bytes_length _ _ _) (by simp; omega)]
  congr 1
  apply List.ext_getElem
  · simp [Mem.bytes_length, maskedBytes]; omega
  · intro i h1 h2
    simp only [maskedBytes, List.length_map, List.length_range] at h2
    simp only [List.getElem_zipWith, List.getElem_map, maskedBytes, List.getElem_range,
      Mem.bytes_getElem, List.getElem_replicate]
    have hx := UInt8.toNat_lt (m (p + i))
    have h255 : ∀ x < 256, x &&& 255 = x := by decide +kernel
    by_cases hi : i < len
    · rw [List.getElem_append_left (by simpa using hi), List.getElem_replicate, if_pos hi]
      congr 2
      rw [Nat.and_comm]; exact h255 _ hc
    · rw [List.getElem_append_right (by simpa using hi), List.getElem_replicate, if_neg hi]
      simp only [Nat.zero_and]
      exact h255 _ hx

theorem least_nat {P : Nat → Prop} : ∀ n, P n → ∃ k, k ≤ n ∧ P k ∧ ∀ j < k, ¬ P j := by
  intro n
  induction n using Nat.strongRecOn with
  | ind n ih =>
    intro h
    by_cases hex : ∃ j < n, P j
    · obtain ⟨j, hj, hp⟩ := hex
      obtain ⟨k, h1, h2, h3⟩ := ih j hj hp
      exact ⟨k, by omega, h2, h3⟩
    · exact ⟨n, Nat.le_refl _, h, fun j hj hp => hex ⟨j, hj, hp⟩⟩

theorem and_not_self : ∀ c < 256, ∀ x < 256, x &&& (255 - c) = c → c = 0 := by
  intro c hc x hx h
  apply Nat.eq_of_testBit_eq
  intro i
  rw [Nat.zero_testBit]
  cases hb : c.testBit i with
  | false => rfl
  | true =>
    have h1 : (x &&& (255 - c)).testBit i = true := by rw [h, hb]
    rw [Nat.testBit_and, Bool.and_eq_true] at h1
    have e : 255 - c = 2 ^ 8 - (c + 1) := by omega
    rw [e, Nat.testBit_two_pow_sub_succ hc] at h1
    simp [hb] at h1

/-- On a buffer of 1 to 7 bytes and a non-NUL needle, a found position is never inside the
buffer. -/
theorem memchr'_short_never (m : Mem) (s len : Nat) (c : UInt8) (fuel : Nat)
    (h0 : 0 < len) (h : len < 8) (hc : c ≠ 0) (known : Bool)
    (r : BitVec 32) (hr : memchr' m false known s len c fuel = some r) (hfu : fuel < 2 ^ 20) :
    len ≤ r.toNat := by
  have hc0 : c.toNat ≠ 0 := fun h => hc (UInt8.toNat_inj.mp (by simpa using h))
  have hcl := UInt8.toNat_lt c
  unfold memchr' at hr
  simp only [firstWord_short m s len c h0 h] at hr
  have hbm := maskedBytes_Bytes m s len c
  have hlm : (maskedBytes m s len c).length = 8 := by simp [maskedBytes]
  have hpok : PrintOk false (maskedBytes m s len c) c := by intro h; cases h
  have hget : ∀ j < 8, (maskedBytes m s len c).getD j 0
      = if j < len then (m (s + j)).toNat &&& (255 - c.toNat) else (m (s + j)).toNat := by
    intro j hj
    simp [maskedBytes, List.getD_eq_getElem?_getD, hj]
  by_cases hh : hasbyte (wordOf (maskedBytes m s len c)) c = true
  · rw [if_pos hh] at hr
    rw [hasbyte_wordOf hbm hlm] at hh
    -- least position
    have hex : ∃ k, k < 8 ∧ (maskedBytes m s len c).getD k 0 = c.toNat ∧
        ∀ j < k, (maskedBytes m s len c).getD j 0 ≠ c.toNat := by
      obtain ⟨i, hi, he⟩ := List.getElem_of_mem hh
      have hm : (maskedBytes m s len c).getD i 0 = c.toNat := by
        rw [List.getD_eq_getElem?_getD, List.getElem?_eq_getElem hi]; simpa using he
      obtain ⟨k, hk0, hk1, hk2⟩ :=
        least_nat (P := fun k => (maskedBytes m s len c).getD k 0 = c.toNat) i hm
      exact ⟨k, by omega, hk1, hk2⟩
    obtain ⟨k, hk, hkc, hkl⟩ := hex
    rw [memchr8X_fwd_found hbm hlm hpok hk hkc hkl] at hr
    cases hr
    have : len ≤ k := by
      refine Classical.byContradiction fun hn => ?_
      rw [hget k hk, if_pos (by omega)] at hkc
      exact hc0 (and_not_self _ hcl _ (UInt8.toNat_lt _) hkc)
    simp only [BitVec.toNat_ofNat]
    omega
  · rw [Bool.not_eq_true] at hh
    rw [hh, if_neg (by simp)] at hr
    have hpl : partLen len = len := by unfold partLen; rw [if_pos (by omega)]; omega
    rw [hpl] at hr
    -- the loop never returns an offset below its start
    have loop : ∀ (fuel p : Nat), s + len ≤ p → p + 8 * fuel < s + 2 ^ 31 →
        memchrLoop m false known s (s + len) c fuel p = some r → len ≤ r.toNat := by
      intro fuel
      induction fuel with
      | zero => intro p _ _ h; simp [memchrLoop] at h
      | succ f ih =>
        intro p hp hb hr
        rw [memchrLoop] at hr
        by_cases hh : hasbyte (cast64 m p) c = true
        · rw [if_pos hh] at hr
          obtain ⟨j, hj⟩ := exists_first m p 8 c ((hasbyte_cast m p c).1 hh)
          rw [memchr8X_first m p c false true (by intro h; cases h) hj] at hr
          simp only [Option.map_some, Option.some.injEq] at hr
          rw [← hr, ← BitVec.ofNat_add, BitVec.toNat_ofNat]
          have := hj.1
          rw [Nat.mod_eq_of_lt (by omega)]
          omega
        · rw [Bool.not_eq_true] at hh
          rw [hh, if_neg (by simp)] at hr
          have hne : (p + 8 == s + len) = false := by rw [beq_eq_false_iff_ne]; omega
          rw [hne] at hr
          simp only [Bool.and_false, Bool.false_eq_true, if_false] at hr
          exact ih (p + 8) (by omega) (by omega) hr
    exact loop fuel (s + len) (by omega) (by omega) hr

end Verif
