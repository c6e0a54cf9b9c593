import Verif.Model.SwarWin
import Verif.Proof.StrScan
/-!
# Facts about the per-platform bit counts and reverse searches
-/
namespace Verif

theorem find?_range_iff {n k : Nat} {p : Nat → Bool} :
    (List.range n).find? p = some k ↔ k < n ∧ p k = true ∧ ∀ j < k, p j = false := by
  constructor
  · intro h
    rw [List.find?_range_eq_some] at h
    obtain ⟨h1, h2, h3⟩ := h
    exact ⟨by simpa using h2, h1, fun j hj => by simpa using h3 j hj⟩
  · rintro ⟨h1, h2, h3⟩
    exact find?_range_some h1 h2 h3

/-- The highest set bit, as a range of values. -/
theorem top_bit {x k : Nat} (hx : x < 2 ^ 64) :
    (k < 64 ∧ x.testBit k = true ∧ ∀ j, k < j → j < 64 → x.testBit j = false) ↔
      2 ^ k ≤ x ∧ x < 2 ^ (k + 1) := by
  constructor
  · rintro ⟨_, h2, h3⟩
    refine ⟨Nat.ge_two_pow_of_testBit h2, Nat.lt_pow_two_of_testBit _ fun i hi => ?_⟩
    by_cases h : i < 64
    · exact h3 i (by omega) h
    · exact Nat.testBit_lt_two_pow (Nat.lt_of_lt_of_le hx (Nat.pow_le_pow_right (by decide) (by omega)))
  · rintro ⟨h1, h2⟩
    refine ⟨?_, ?_, ?_⟩
    · exact (Nat.pow_lt_pow_iff_right (by decide)).1 (Nat.lt_of_le_of_lt h1 hx)
    · obtain ⟨i, hi, ht⟩ := Nat.exists_ge_and_testBit_of_ge_two_pow h1
      by_cases h : i = k
      · rwa [← h]
      · rw [Nat.testBit_lt_two_pow (Nat.lt_of_lt_of_le h2
          (Nat.pow_le_pow_right (by decide) (by omega)))] at ht
        cases ht
    · intro j hj _
      exact Nat.testBit_lt_two_pow (Nat.lt_of_lt_of_le h2
          (Nat.pow_le_pow_right (by decide) (by omega)))

theorem countl_win_iff (x : W) (k : Nat) :
    countl true x = some k ↔ 2 ^ k ≤ x.toNat ∧ x.toNat < 2 ^ (k + 1) := by
  rw [← top_bit x.isLt]
  simp only [countl, if_true, Option.map_eq_some_iff]
  constructor
  · rintro ⟨a, h, rfl⟩
    rw [find?_range_iff] at h
    obtain ⟨h1, h2, h3⟩ := h
    refine ⟨by omega, h2, fun j h4 h5 => ?_⟩
    have := h3 (63 - j) (by omega)
    rwa [show 63 - (63 - j) = j by omega] at this
  · rintro ⟨h1, h2, h3⟩
    refine ⟨63 - k, ?_, by omega⟩
    rw [find?_range_iff]
    refine ⟨by omega, ?_, fun j hj => ?_⟩
    · rw [show 63 - (63 - k) = k by omega]; exact h2
    · exact h3 _ (by omega) (by omega)

theorem countl_unix_iff (x : W) (k : Nat) :
    countl false x = some k ↔ k < 64 ∧ 2 ^ (63 - k) ≤ x.toNat ∧ x.toNat < 2 ^ (64 - k) := by
  simp only [countl, Bool.false_eq_true, if_false, countlZero]
  rw [find?_range_iff]
  constructor
  · rintro ⟨h1, h2, h3⟩
    rw [BitVec.getMsbD_eq_getLsbD] at h2
    simp only [h1, decide_true, Bool.true_and] at h2
    have := (top_bit (k := 63 - k) x.isLt).1 ⟨by omega, h2, fun j h4 h5 => by
      have := h3 (63 - j) (by omega)
      rw [BitVec.getMsbD_eq_getLsbD, show 64 - 1 - (63 - j) = j by omega] at this
      show x.getLsbD j = false
      simpa [show 63 - j < 64 by omega] using this⟩
    rw [show 63 - k + 1 = 64 - k by omega] at this
    exact ⟨h1, this⟩
  · rintro ⟨h1, h2⟩
    rw [show 64 - k = 63 - k + 1 by omega] at h2
    obtain ⟨_, h3, h4⟩ := (top_bit x.isLt).2 h2
    refine ⟨h1, ?_, fun j hj => ?_⟩
    · rw [BitVec.getMsbD_eq_getLsbD]
      simp only [h1, decide_true, Bool.true_and]; exact h3
    · rw [BitVec.getMsbD_eq_getLsbD]
      have : x.getLsbD (64 - 1 - j) = false := h4 _ (by omega) (by omega)
      rw [this, Bool.and_false]

/-- The two counts add up to 63. -/
theorem countl_swap {x : W} {k : Nat} (h : countl false x = some k) :
    countl true x = some (63 - k) := by
  rw [countl_unix_iff] at h
  rw [countl_win_iff, show 63 - k + 1 = 64 - k by omega]
  exact h.2

theorem countr_iff (win : Bool) (x : W) (k : Nat) :
    countr win x = some k ↔ 2 ^ k ∣ x.toNat ∧ x.toNat / 2 ^ k % 2 = 1 := by
  have e : countr win x = (List.range 64).find? (fun i => x.getLsbD i) := by
    cases win <;> rfl
  rw [e, find?_range_iff]
  have hx := x.isLt
  constructor
  · rintro ⟨_, h2, h3⟩
    refine ⟨?_, ?_⟩
    · apply Nat.dvd_of_mod_eq_zero
      apply Nat.eq_of_testBit_eq
      intro i
      rw [Nat.testBit_mod_two_pow, Nat.zero_testBit]
      by_cases h : i < k
      · rw [show x.toNat.testBit i = false from h3 i h, Bool.and_false]
      · simp [h]
    · have : x.toNat.testBit k = true := h2
      simpa [Nat.testBit_eq_decide_div_mod_eq] using this
  · rintro ⟨h1, h2⟩
    have hk : k < 64 := by
      apply Classical.byContradiction
      intro hk
      have : x.toNat / 2 ^ k = 0 := Nat.div_eq_of_lt (Nat.lt_of_lt_of_le hx
        (Nat.pow_le_pow_right (by decide) (by omega)))
      omega
    refine ⟨hk, ?_, fun j hj => ?_⟩
    · show x.toNat.testBit k = true
      simpa [Nat.testBit_eq_decide_div_mod_eq] using h2
    · show x.toNat.testBit j = false
      obtain ⟨q, hq⟩ := h1
      rw [hq, Nat.testBit_two_pow_mul]
      simp; omega

theorem memchr8R_unix (pr ex : Bool) (x : W) (c : UInt8) :
    memchr8R false pr ex x c = memchr8X pr ex true x c := by
  cases ex <;> rfl

theorem memrchrLoopR_unix (m : Int → UInt8) (pr known : Bool) (s : Int) (c : UInt8) :
    ∀ (fuel : Nat) (p : Int),
      memrchrLoopR false m pr known s c fuel p = memrchrLoop m pr known s c fuel p := by
  intro fuel
  induction fuel with
  | zero => intro p; rfl
  | succ f ih => intro p; rw [memrchrLoopR, memrchrLoop, memchr8R_unix, ih]

theorem memrchrR_unix (m : Int → UInt8) (pr known : Bool) (s : Int) (len : Nat) (c : UInt8)
    (fuel : Nat) : memrchrR false m pr known s len c fuel = memrchr' m pr known s len c fuel := by
  unfold memrchrR memrchr'
  simp only [memchr8R_unix, memrchrLoopR_unix]

/-! ### The reverse block search, on Windows -/

theorem memchr8R_win_found {l : List Nat} (h : Bytes l) (hl : l.length = 8) {pr : Bool} {c : UInt8}
    (hpr : PrintOk pr l c) {k : Nat} (hk : k < 8) (hc : l.getD k 0 = c.toNat)
    (hgt : ∀ j, k < j → j < 8 → l.getD j 0 ≠ c.toNat) :
    memchr8R true pr true (wordOf l) c = some (BitVec.ofNat 32 (7 - k)) ∧
    memchr8R true pr false (wordOf l) c = some (BitVec.ofInt 32 (6 - k)) := by
  unfold memchr8R
  rw [memchr8Flags_wordOf h hl pr c hpr.xor]
  have e1 := countl_swap (show countl false (wordOf (flagLanes c.toNat l)) = some (56 - 8 * k) from
    countlZero_flag_some hl hk hc hgt)
  have e2 := countl_swap (show countl false (wordOf (flagLanes c.toNat l) ||| 1#64)
    = some (56 - 8 * k) from countlZero_flag_or_some hl hk hc hgt)
  rw [show 63 - (56 - 8 * k) = 8 * k + 7 by omega] at e1 e2
  refine ⟨?_, ?_⟩
  · simp only [if_true, e1]
    show some (BitVec.ofInt 32 (7 - Int.tdiv ((8 * k + 7 : Nat) : Int) 8)) = _
    have : (7 - Int.tdiv ((8 * k + 7 : Nat) : Int) 8) = ((7 - k : Nat) : Int) := by
      have h8 : ((8 : Nat) : Int) = 8 := rfl
      rw [← h8, ← Int.ofNat_tdiv]; omega
    rw [this]; exact congrArg some (BitVec.ofInt_natCast _ _)
  · simp only [Bool.false_eq_true, if_false, e2]
    show some (BitVec.ofInt 32 (7 - Int.tdiv (((8 * k + 7 : Nat) : Int) + 1) 8)) = _
    have : (7 - Int.tdiv (((8 * k + 7 : Nat) : Int) + 1) 8) = 6 - (k : Int) := by
      have e : ((8 * k + 7 : Nat) : Int) + 1 = 8 * ((k : Int) + 1) := by omega
      rw [e, Int.mul_tdiv_cancel_left _ (by decide)]; omega
    rw [this]

theorem memchr8R_win_absent {l : List Nat} (h : Bytes l) (hl : l.length = 8) {pr : Bool} {c : UInt8}
    (hpr : PrintOk pr l c) (hlt : ∀ j < 8, l.getD j 0 ≠ c.toNat) :
    memchr8R true pr false (wordOf l) c = some 7#32 := by
  unfold memchr8R
  rw [memchr8Flags_wordOf h hl pr c hpr.xor]
  have e := countl_swap (show countl false (wordOf (flagLanes c.toNat l) ||| 1#64) = some 63 from
    countlZero_flag_or_none hl hlt)
  simp only [Bool.false_eq_true, if_false, e]
  decide

theorem memchr8R_win_last (m : Mem) (p : Nat) (c : UInt8) (pr : Bool) (hpr : PrintMem pr m p 8 c)
    {k : Nat} (h : IsLast m p 8 c k) :
    memchr8R true pr true (cast64 m p) c = some (BitVec.ofNat 32 (7 - k)) ∧
    memchr8R true pr false (cast64 m p) c = some (BitVec.ofInt 32 (6 - k)) := by
  rw [cast64_eq]
  apply memchr8R_win_found (Mem.bytes_Bytes _ _ _) (Mem.bytes_length _ _ _) hpr.ok h.1
  · rw [Mem.bytes_getD _ _ _ _ h.1, h.2.1]
  · intro j hj hj8 he
    rw [Mem.bytes_getD _ _ _ _ hj8] at he
    exact h.2.2 j hj hj8 (UInt8.toNat_inj.mp he)

theorem memchr8R_win_none (m : Mem) (p : Nat) (c : UInt8) (pr : Bool) (hpr : PrintMem pr m p 8 c)
    (h : Absent m p 8 c) : memchr8R true pr false (cast64 m p) c = some 7#32 := by
  rw [cast64_eq]
  refine memchr8R_win_absent (Mem.bytes_Bytes _ _ _) (Mem.bytes_length _ _ _) hpr.ok ?_
  intro j hj he
  rw [Mem.bytes_getD _ _ _ _ hj] at he
  exact h j hj (UInt8.toNat_inj.mp he)

theorem exists_lastI {m : Int → UInt8} {p : Int} {c : UInt8} :
    ∀ n : Nat, (∃ i : Nat, i < n ∧ m (p + i) = c) →
      ∃ k : Nat, k < n ∧ m (p + k) = c ∧ ∀ j : Nat, k < j → j < n → m (p + j) ≠ c := by
  intro n
  induction n with
  | zero => rintro ⟨i, hi, _⟩; omega
  | succ n ih =>
    intro h
    by_cases hn : m (p + n) = c
    · exact ⟨n, by omega, hn, fun j h1 h2 => by omega⟩
    · obtain ⟨i, hi, he⟩ := h
      have hin : i ≠ n := by rintro rfl; exact hn he
      obtain ⟨k, h1, h2, h3⟩ := ih ⟨i, by omega, he⟩
      refine ⟨k, by omega, h2, fun j h4 h5 => ?_⟩
      by_cases hj : j = n
      · rw [hj]; exact hn
      · exact h3 j h4 (by omega)

/-- A word that holds the byte: the two platforms give mirrored indices. -/
theorem memchr8R_mirror (m : Int → UInt8) (p : Int) (c : UInt8)
    (hb : hasbyte (castI m p) c = true) :
    ∃ k < 8, memchr8R false false true (castI m p) c = some (BitVec.ofNat 32 k) ∧
      memchr8R true false true (castI m p) c = some (BitVec.ofNat 32 (7 - k)) := by
  obtain ⟨k, h1, h2, h3⟩ := exists_lastI 8 ((hasbyte_castI m p c).1 hb)
  refine ⟨k, h1, ?_, ?_⟩
  · rw [memchr8R_unix]; exact memchr8X_lastI m p c true h1 h2 h3
  · rw [castI_eq]
    refine (memchr8R_win_last _ _ _ _ (by intro h; cases h) ⟨h1, ?_, ?_⟩).1
    · simpa using h2
    · intro j h4 h5; simpa using h3 j h4 h5

/-- Index `k` in a block that starts at a multiple of 8, and its mirror image. -/
theorem mirror_xor (q : Int) {k : Nat} (hk : k < 8) :
    BitVec.ofInt 32 (8 * q) + BitVec.ofNat 32 (7 - k)
      = (BitVec.ofInt 32 (8 * q) + BitVec.ofNat 32 k) ^^^ 7#32 := by
  have e : BitVec.ofInt 32 (8 * q) = BitVec.ofInt 32 q <<< 3 := by
    rw [BitVec.shiftLeft_eq_mul_twoPow, Int.mul_comm, BitVec.ofInt_mul]; rfl
  rw [e]
  generalize BitVec.ofInt 32 q = w
  have h0 : ∀ v : BitVec 32, v < 8#32 → w <<< 3 + v = w <<< 3 ||| v := by
    intro v hv
    apply BitVec.add_eq_or_of_and_eq_zero
    apply BitVec.eq_of_getLsbD_eq
    intro i hi
    rw [BitVec.getLsbD_and, BitVec.getLsbD_shiftLeft, BitVec.getLsbD_zero]
    by_cases h3 : i < 3
    · simp [h3]
    · have : v.getLsbD i = false := by
        apply Nat.testBit_lt_two_pow
        have hv' : v.toNat < 8 := hv
        exact Nat.lt_of_lt_of_le hv' (Nat.pow_le_pow_right (n := 2) (i := 3) (by decide) (by omega))
      rw [this, Bool.and_false]
  rw [h0 _ (by rw [BitVec.lt_def]; simp; omega), h0 _ (by rw [BitVec.lt_def]; simp; omega)]
  have hx : BitVec.ofNat 32 (7 - k) = BitVec.ofNat 32 k ^^^ 7#32 := by
    rcases (by omega : k = 0 ∨ k = 1 ∨ k = 2 ∨ k = 3 ∨ k = 4 ∨ k = 5 ∨ k = 6 ∨ k = 7) with
      rfl | rfl | rfl | rfl | rfl | rfl | rfl | rfl <;> decide
  rw [hx]
  apply BitVec.eq_of_getLsbD_eq
  intro i hi
  simp only [BitVec.getLsbD_or, BitVec.getLsbD_xor, BitVec.getLsbD_shiftLeft]
  by_cases h3 : i < 3
  · simp [h3]
  · have : (7#32).getLsbD i = false :=
      Nat.testBit_lt_two_pow (Nat.lt_of_lt_of_le (by decide : 7 < 2 ^ 3)
        (Nat.pow_le_pow_right (by decide) (by omega)))
    rw [this]; simp

/-- What the loop returns on Windows, from what it returns elsewhere. -/
def Mirrored (r r' : Option (BitVec 32)) : Prop :=
  (r = none ∧ r' = none) ∨ (r = some (-1#32) ∧ r' = some (-1#32)) ∨
    ∃ j, r = some j ∧ r' = some (j ^^^ 7#32)

theorem block_mirrored (m : Int → UInt8) (s p : Int) (c : UInt8)
    (hb : hasbyte (castI m p) c = true) (hq : (8 : Int) ∣ p - s) :
    ∃ j, (memchr8R false false true (castI m p) c).map (BitVec.ofInt 32 (p - s) + ·) = some j ∧
      (memchr8R true false true (castI m p) c).map (BitVec.ofInt 32 (p - s) + ·)
        = some (j ^^^ 7#32) := by
  obtain ⟨k, hk, h1, h2⟩ := memchr8R_mirror m p c hb
  obtain ⟨q, hq⟩ := hq
  refine ⟨_, by rw [h1, Option.map_some], ?_⟩
  rw [h2, Option.map_some, hq, mirror_xor q hk]

theorem loop_mirrored (m : Int → UInt8) (known : Bool) (s : Int) (c : UInt8) :
    ∀ (fuel : Nat) (p : Int), (8 : Int) ∣ p - s →
      Mirrored (memrchrLoopR false m false known s c fuel p)
        (memrchrLoopR true m false known s c fuel p) := by
  intro fuel
  induction fuel with
  | zero => intro p _; exact Or.inl ⟨rfl, rfl⟩
  | succ f ih =>
    intro p hp
    rw [memrchrLoopR, memrchrLoopR]
    by_cases hb : hasbyte (castI m p) c = true
    · rw [if_pos hb, if_pos hb]
      exact Or.inr (Or.inr (block_mirrored m s p c hb hp))
    · rw [if_neg hb, if_neg hb]
      split
      · exact Or.inr (Or.inl ⟨rfl, rfl⟩)
      · exact ih _ (by omega)

/-! ### `memrchrk`: the byte is known to occur -/

theorem memchr8X_lastP (m : Int → UInt8) (p : Int) (c : UInt8) (pr : Bool) {k : Nat}
    (hpr : pr = true → (∀ i : Nat, i < 8 → (m (p + i)).toNat < 128) ∧ c.toNat < 128)
    (hk : k < 8) (hc : m (p + k) = c) (hgt : ∀ j : Nat, k < j → j < 8 → m (p + j) ≠ c) :
    memchr8X pr true true (castI m p) c = some (BitVec.ofNat 32 k) := by
  rw [castI_eq]
  apply memchr8X_last _ _ _ _ _ (by intro h; exact ⟨fun i hi => by simpa using (hpr h).1 i hi, (hpr h).2⟩)
  refine ⟨hk, by simpa using hc, ?_⟩
  intro j h1 h2; simpa using hgt j h1 h2

theorem memrchrLoop_known (m : Int → UInt8) (pr : Bool) (s : Int) (c : UInt8) :
    ∀ (k fuel j : Nat), k < fuel → j < 8 * k + 8 → m (s + j) = c →
      (∀ i : Nat, j < i → i < 8 * k + 8 → m (s + i) ≠ c) →
      (pr = true → (∀ i : Nat, i < 8 * k + 8 → (m (s + i)).toNat < 128) ∧ c.toNat < 128) →
      memrchrLoop m pr true s c fuel (s + (8 * k : Nat)) = some (BitVec.ofNat 32 j) := by
  intro k
  induction k with
  | zero =>
    intro fuel j hf hj hc hgt hpr
    obtain ⟨fuel, rfl⟩ : ∃ f, fuel = f + 1 := ⟨fuel - 1, by omega⟩
    rw [memrchrLoop]
    have e0 : s + ((8 * 0 : Nat) : Int) = s := by omega
    rw [e0, if_pos ((hasbyte_castI _ _ _).2 ⟨j, by omega, hc⟩),
      memchr8X_lastP m s c pr (fun h => ⟨fun i hi => (hpr h).1 i (by omega), (hpr h).2⟩)
        (by omega : j < 8) hc (fun i h1 h2 => hgt i h1 (by omega))]
    rw [Option.map_some, Int.sub_self]
    simp
  | succ k ih =>
    intro fuel j hf hj hc hgt hpr
    obtain ⟨fuel, rfl⟩ : ∃ f, fuel = f + 1 := ⟨fuel - 1, by omega⟩
    rw [memrchrLoop]
    have e : ∀ i : Nat, s + ((8 * (k + 1) : Nat) : Int) + (i : Int)
        = s + ((8 * (k + 1) + i : Nat) : Int) := by intro i; omega
    by_cases hb : 8 * (k + 1) ≤ j
    · have hj' : 8 * (k + 1) + (j - 8 * (k + 1)) = j := by omega
      rw [if_pos ((hasbyte_castI _ _ _).2 ⟨j - 8 * (k + 1), by omega, by rw [e, hj']; exact hc⟩),
        memchr8X_lastP m _ c pr (k := j - 8 * (k + 1))
          (fun h => ⟨fun i hi => by rw [e]; exact (hpr h).1 _ (by omega), (hpr h).2⟩) (by omega)
          (by rw [e, hj']; exact hc)
          (by intro i h3 h4; rw [e]; exact hgt _ (by omega) (by omega))]
      have : s + ((8 * (k + 1) : Nat) : Int) - s = ((8 * (k + 1) : Nat) : Int) := by omega
      rw [this, Option.map_some, BitVec.ofInt_natCast, ← BitVec.ofNat_add, hj']
    · have hh : hasbyte (castI m (s + ((8 * (k + 1) : Nat) : Int))) c = false := by
        rw [Bool.eq_false_iff, Ne, hasbyte_castI]
        rintro ⟨i, hi, he⟩
        rw [e] at he
        exact hgt _ (by omega) (by omega) he
      rw [hh, if_neg (by simp)]
      simp only [Bool.not_true, Bool.false_and, Bool.false_eq_true, if_false]
      have e2 : s + ((8 * (k + 1) : Nat) : Int) - 8 = s + ((8 * k : Nat) : Int) := by omega
      rw [e2]
      exact ih fuel j (by omega) (by omega) hc (fun i h3 h4 => hgt i h3 (by omega))
        (fun h => ⟨fun i hi => (hpr h).1 i (by omega), (hpr h).2⟩)

/-- The masked word after the buffer does not hold the byte if the 8 bytes there do not. -/
theorem first_absent (m : Int → UInt8) (p : Int) (n : Nat) (c : UInt8) (h0 : 0 < n)
    (h : ∀ i : Nat, i < 8 → m (p + i) ≠ c) :
    hasbyte (castI m p &&& ~~~(partMask n &&& extend c)) c = false := by
  have e : castI m p &&& ~~~(partMask n &&& extend c)
      = firstWord (fun i => m (p + (i : Int))) 0 n c := by
    unfold firstWord; rw [castI_eq]
  rw [e]
  by_cases hn : 8 ≤ n
  · rw [firstWord_long _ _ _ _ hn, hasbyte_cast_false]
    intro i hi; simpa using h i hi
  · rw [firstWord_short _ _ _ _ h0 (by omega), Bool.eq_false_iff, Ne,
      hasbyte_wordOf (maskedBytes_Bytes _ _ _ _) (by simp [maskedBytes])]
    intro hm
    obtain ⟨i, hi, he⟩ := List.mem_map.mp hm
    rw [List.mem_range] at hi
    have hne : (m (p + i)).toNat ≠ c.toNat := fun he => h i hi (UInt8.toNat_inj.mp he)
    simp only [Nat.zero_add] at he
    split at he
    · have hc0 := and_not_self _ (UInt8.toNat_lt c) _ (UInt8.toNat_lt _) he
      rw [hc0] at he hne
      have h255 : ∀ x < 256, x &&& (255 - 0) = x := by decide +kernel
      rw [h255 _ (UInt8.toNat_lt _)] at he
      exact hne he
    · exact hne he

theorem memrchr'_known (m : Int → UInt8) (pr : Bool) (s : Int) (n : Nat) (c : UInt8)
    (fuel j : Nat) (hf : n ≤ fuel) (hafter : ∀ i : Nat, i < 8 → m (s + n + i) ≠ c)
    (hpr : pr = true → (∀ i : Nat, i < n + 8 → (m (s + i)).toNat < 128) ∧ c.toNat < 128)
    (hj : j < n) (hc : m (s + j) = c) (hgt : ∀ i : Nat, j < i → i < n → m (s + i) ≠ c) :
    memrchr' m pr true s n c fuel = some (BitVec.ofNat 32 j) := by
  have hp1 : partLen n ≤ 8 ∧ (n - partLen n) % 8 = 0 ∧ 0 < partLen n ∧ partLen n ≤ n := by
    unfold partLen; split <;> omega
  obtain ⟨k, hk⟩ : ∃ k, n - partLen n = 8 * k := ⟨(n - partLen n) / 8, by omega⟩
  have hp : s + (n : Int) - (partLen n : Int) = s + ((8 * k : Nat) : Int) := by omega
  unfold memrchr'
  simp only [first_absent m (s + n) n c (by omega) hafter, hp]
  simp only [Bool.false_eq_true, if_false]
  refine memrchrLoop_known m pr s c k fuel j (by omega) (by omega) hc ?_
    (fun h => ⟨fun i hi => (hpr h).1 i (by omega), (hpr h).2⟩)
  intro i h1 h2
  by_cases hi : i < n
  · exact hgt i h1 hi
  · have := hafter (i - n) (by omega)
    rwa [show s + (n : Int) + ((i - n : Nat) : Int) = s + (i : Int) by omega] at this

theorem memrchr_mirrored (m : Int → UInt8) (known : Bool) (s : Int) (n : Nat) (c : UInt8)
    (fuel : Nat) (hn : 0 < n) (hafter : ∀ i : Nat, i < 8 → m (s + n + i) ≠ c) :
    Mirrored (memrchrR false m false known s n c fuel) (memrchrR true m false known s n c fuel) := by
  unfold memrchrR
  simp only [first_absent m (s + n) n c hn hafter, Bool.false_eq_true, if_false]
  apply loop_mirrored
  unfold partLen
  split <;> omega

end Verif
