import Verif.Proof.MemSearch
/-!
# `simd_strlen`, `simd_strcmp`, `_memrchr`
-/
namespace Verif

theorem strlenTest_eq (x : W) : strlenTest x = haszero x := by
  have h1 : himagic = ~~~cA := by decide
  have h2 : lomagic = cL := by decide
  unfold strlenTest haszero
  rw [h1, h2]

theorem firstZeroIn_some {m : Mem} {p i : Nat} (hi : i < 8) (h0 : m (p + i) = 0)
    (hlt : ∀ j < i, m (p + j) ≠ 0) : firstZeroIn m p = some i := by
  unfold firstZeroIn
  apply find?_range_some hi
  · simp [h0]
  · intro j hj; simp [hlt j hj]

theorem mem_wordAddrs {p r : Nat} : r ∈ wordAddrs p ↔ p ≤ r ∧ r < p + 8 := by
  unfold wordAddrs
  simp only [List.mem_map, List.mem_range]
  constructor
  · rintro ⟨i, hi, rfl⟩; omega
  · rintro ⟨h1, h2⟩; exact ⟨r - p, by omega, by omega⟩

theorem strlenWords_spec (m : Mem) (str n : Nat) (h0 : m (str + n) = 0)
    (hnz : ∀ i < n, m (str + i) ≠ 0) :
    ∀ (fuel p : Nat), str ≤ p → p ≤ str + n → p % 8 = 0 → (str + n - p) / 8 < fuel →
      (strlenWords m str fuel p).result = some n ∧
      ∀ r ∈ (strlenWords m str fuel p).reads, p ≤ r ∧ r / 8 ≤ (str + n) / 8 := by
  intro fuel
  induction fuel with
  | zero => intro p _ _ _ h; omega
  | succ f ih =>
    intro p h1 h2 h3 h4
    rw [strlenWords]
    simp only [strlenTest_eq]
    by_cases hz : haszero (cast64 m p) = true
    · rw [if_pos hz]
      obtain ⟨i, hi, hi0⟩ := (haszero_cast m p).1 hz
      have hlow : str + n - p ≤ i := by
        refine Classical.byContradiction fun hn => ?_
        have := hnz (p + i - str) (by omega)
        rw [show str + (p + i - str) = p + i by omega] at this
        exact this hi0
      have hlt : str + n - p < 8 := by omega
      rw [firstZeroIn_some hlt (by rw [show p + (str + n - p) = str + n by omega]; exact h0)
        (fun j hj => by
          have := hnz (p + j - str) (by omega)
          rwa [show str + (p + j - str) = p + j by omega] at this)]
      refine ⟨by simp; omega, ?_⟩
      intro r hr
      have := mem_wordAddrs.1 hr
      omega
    · rw [if_neg hz]
      have hge : p + 8 ≤ str + n := by
        refine Classical.byContradiction fun hn => hz ((haszero_cast m p).2
          ⟨str + n - p, by omega, ?_⟩)
        rw [show p + (str + n - p) = str + n by omega]; exact h0
      obtain ⟨g1, g2⟩ := ih (p + 8) (by omega) hge (by omega) (by omega)
      refine ⟨g1, ?_⟩
      intro r hr
      rcases List.mem_append.1 hr with h | h
      · have := mem_wordAddrs.1 h; omega
      · have := g2 r h; omega

theorem strlenPrologue_spec (m : Mem) (str n fuel : Nat) (h0 : m (str + n) = 0)
    (hnz : ∀ i < n, m (str + i) ≠ 0) (hf : n / 8 < fuel) :
    ∀ (k p : Nat), str ≤ p → p ≤ str + n → (8 - p % 8) % 8 ≤ k →
      (strlenPrologue m str fuel k p).result = some n ∧
      ∀ r ∈ (strlenPrologue m str fuel k p).reads, p ≤ r ∧ r / 8 ≤ (str + n) / 8 := by
  intro k
  induction k with
  | zero =>
    intro p h1 h2 h3
    rw [strlenPrologue]
    exact strlenWords_spec m str n h0 hnz fuel p h1 h2 (by omega) (by omega)
  | succ k ih =>
    intro p h1 h2 h3
    rw [strlenPrologue]
    by_cases ha : p % 8 ≠ 0
    · rw [if_pos ha]
      by_cases hz : m p = 0
      · rw [if_pos hz]
        have hp : p = str + n := by
          refine Classical.byContradiction fun hn => ?_
          have := hnz (p - str) (by omega)
          rw [show str + (p - str) = p by omega] at this
          exact this hz
        refine ⟨by simp; omega, ?_⟩
        intro r hr
        simp only [List.mem_singleton] at hr
        omega
      · rw [if_neg hz]
        have hlt : p < str + n := by
          refine Classical.byContradiction fun hn => hz ?_
          rw [show p = str + n by omega]; exact h0
        obtain ⟨g1, g2⟩ := ih (p + 1) (by omega) (by omega) (by omega)
        refine ⟨g1, ?_⟩
        intro r hr
        rcases List.mem_cons.1 hr with h | h
        · omega
        · have := g2 r h; omega
    · rw [if_neg ha]
      exact strlenWords_spec m str n h0 hnz fuel p h1 h2 (by omega) (by omega)

theorem CStr.nz {m : Mem} {p : Nat} {s : List UInt8} (h : CStr m p s) :
    ∀ i < s.length, m (p + i) ≠ 0 := by
  intro i hi
  rw [h.2.1 i hi]
  exact h.1 _ (List.getElem_mem hi)

theorem simdStrlen_spec {m : Mem} {p : Nat} {s : List UInt8} (h : CStr m p s) (fuel : Nat)
    (hf : s.length / 8 < fuel) : (simdStrlen m p fuel).result = some s.length ∧
    ∀ r ∈ (simdStrlen m p fuel).reads, p ≤ r ∧ r / 8 ≤ (p + s.length) / 8 :=
  strlenPrologue_spec m p s.length fuel h.2.2 h.nz hf 7 p (Nat.le_refl _) (by omega) (by omega)

/-! ### strcmp -/

theorem u8_xor_ne {x y : UInt8} : x ^^^ y ≠ 0 ↔ x ≠ y := by
  constructor
  · intro h he; exact h (by rw [he]; exact UInt8.xor_self)
  · intro h he; exact h (UInt8.xor_eq_zero_iff.mp he)

theorem diffFrom_none (m : Mem) (a b : Nat) (z : Bool) : ∀ (k pos : Nat),
    (∀ i, pos ≤ i → i < pos + k → m (a + i) = m (b + i) ∧ (z = true → m (a + i) ≠ 0)) →
    diffFrom m a b z k pos = none := by
  intro k
  induction k with
  | zero => intros; rfl
  | succ k ih =>
    intro pos h
    rw [diffFrom]
    have h1 := h pos (by omega) (by omega)
    rw [if_neg, ih (pos + 1) (fun i h2 h3 => h i (by omega) (by omega))]
    rintro (hx | ⟨hz, hx | hx⟩)
    · exact (u8_xor_ne.1 hx) h1.1
    · exact h1.2 hz hx
    · exact h1.2 hz (h1.1 ▸ hx)

theorem diffFrom_some (m : Mem) (a b : Nat) (z : Bool) (d : Nat) (hd : m (a + d) ≠ m (b + d)) :
    ∀ (k pos : Nat), pos ≤ d → d < pos + k →
    (∀ i, pos ≤ i → i < d → m (a + i) = m (b + i) ∧ (z = true → m (a + i) ≠ 0)) →
    diffFrom m a b z k pos = some (((m (a + d)).toNat : Int) - (m (b + d)).toNat) := by
  intro k
  induction k with
  | zero => intros; omega
  | succ k ih =>
    intro pos h1 h2 h
    rw [diffFrom]
    by_cases hp : pos = d
    · subst hp; rw [if_pos (Or.inl (u8_xor_ne.2 hd))]
    · have h3 := h pos (by omega) (by omega)
      rw [if_neg, ih (pos + 1) (by omega) (by omega) (fun i h2 h3 => h i (by omega) (by omega))]
      rintro (hx | ⟨hz, hx | hx⟩)
      · exact (u8_xor_ne.1 hx) h3.1
      · exact h3.2 hz hx
      · exact h3.2 hz (h3.1 ▸ hx)

theorem cast64_xor_zero (m : Mem) (p q : Nat) :
    cast64 m p ^^^ cast64 m q = 0 ↔ ∀ i < 8, m (p + i) = m (q + i) := by
  have hx : (cast64 m p ^^^ cast64 m q = 0) ↔ cast64 m p = cast64 m q := BitVec.xor_eq_zero_iff
  rw [hx, cast64_eq, cast64_eq]
  constructor
  · intro h i hi
    have := (wordOf_inj (Mem.bytes_Bytes _ _ _) (Mem.bytes_Bytes _ _ _) (Mem.bytes_length _ _ _)
      (Mem.bytes_length _ _ _)).1 h
    have h2 : (m.bytes p 8).getD i 0 = (m.bytes q 8).getD i 0 := by rw [this]
    rw [Mem.bytes_getD _ _ _ _ hi, Mem.bytes_getD _ _ _ _ hi] at h2
    exact UInt8.toNat_inj.mp h2
  · intro h
    congr 1
    rw [Mem.bytes_eq_map, Mem.bytes_eq_map]
    apply List.map_congr_left
    intro i hi
    rw [h i (List.mem_range.1 hi)]

theorem strcmpBlocks_none (m : Mem) (a b len : Nat) (hnz : ∀ i < len, m (a + i) ≠ 0)
    (heq : ∀ i < len, m (a + i) = m (b + i)) :
    ∀ k blk, strcmpBlocks m a b len k blk = none := by
  intro k
  induction k with
  | zero => intros; rfl
  | succ k ih =>
    intro blk
    rw [strcmpBlocks, ih, diffFrom_none]
    · simp
    · intro i _ h2
      exact ⟨heq i (by omega), fun _ => hnz i (by omega)⟩

theorem strcmpBlocks_some (m : Mem) (a b len d : Nat) (hnz : ∀ i < len, m (a + i) ≠ 0)
    (hd : d < len) (hne : m (a + d) ≠ m (b + d)) (heq : ∀ i < d, m (a + i) = m (b + i)) :
    ∀ k blk, 8 * blk ≤ d → d < 8 * (blk + k) →
    strcmpBlocks m a b len k blk = some (((m (a + d)).toNat : Int) - (m (b + d)).toNat) := by
  intro k
  induction k with
  | zero => intros; omega
  | succ k ih =>
    intro blk h1 h2
    rw [strcmpBlocks]
    by_cases hx : cast64 m (a + 8 * blk) ^^^ cast64 m (b + 8 * blk) ≠ 0
    · rw [if_pos hx, diffFrom_some m a b true d hne _ _ (by omega) (by omega)]
      intro i _ hi
      exact ⟨heq i hi, fun _ => hnz i (by omega)⟩
    · rw [if_neg hx]
      apply ih
      · have : ¬ (d < 8 * blk + 8) := by
          intro hlt
          apply hne
          have := (cast64_xor_zero m _ _).1 (Decidable.not_not.1 hx) (d - 8 * blk) (by omega)
          rwa [show a + 8 * blk + (d - 8 * blk) = a + d by omega,
            show b + 8 * blk + (d - 8 * blk) = b + d by omega] at this
        omega
      · omega

theorem strcmpLen_eight (m : Mem) (a b : Nat) : strcmpLen m a b 8 = 0 := rfl

theorem strcmpLen_equal (m : Mem) (a b len : Nat) (hnz : ∀ i < len, m (a + i) ≠ 0)
    (heq : ∀ i < len, m (a + i) = m (b + i)) : strcmpLen m a b len = 0 := by
  unfold strcmpLen
  simp only [strcmpBlocks_none m a b len hnz heq]
  rw [diffFrom_none]
  · rfl
  · intro i h1 h2
    exact ⟨heq i (by omega), fun h => by cases h⟩

theorem strcmpLen_diff (m : Mem) (a b len d : Nat) (h8 : len ≠ 8) (hnz : ∀ i < len, m (a + i) ≠ 0)
    (hd : d < len) (hne : m (a + d) ≠ m (b + d)) (heq : ∀ i < d, m (a + i) = m (b + i)) :
    strcmpLen m a b len = ((m (a + d)).toNat : Int) - (m (b + d)).toNat := by
  unfold strcmpLen
  by_cases hl : len ≤ 8
  · simp only [if_pos hl, strcmpBlocks]
    have : (len / 8 + 1 - 1) * 8 = 0 := by omega
    rw [this, diffFrom_some m a b false d hne _ _ (by omega) (by omega)]
    · rfl
    · intro i _ hi
      exact ⟨heq i hi, fun h => by cases h⟩
  · simp only [if_neg hl]
    rw [strcmpBlocks_some m a b len d hnz hd hne heq _ _ (by omega) (by omega)]

/-- Either the first string is a prefix of the second or there is a first difference. -/
theorem prefix_or_diff (m : Mem) (a b len : Nat) :
    (∀ i < len, m (a + i) = m (b + i)) ∨
    ∃ d < len, m (a + d) ≠ m (b + d) ∧ ∀ i < d, m (a + i) = m (b + i) := by
  by_cases h : ∀ i < len, m (a + i) = m (b + i)
  · exact Or.inl h
  · refine Or.inr ?_
    have : ∃ i, i < len ∧ m (a + i) ≠ m (b + i) := by
      refine Classical.byContradiction fun hn => h fun i hi => ?_
      exact Classical.byContradiction fun hne => hn ⟨i, hi, hne⟩
    obtain ⟨i, hi, hne⟩ := this
    obtain ⟨k, h1, h2, h3⟩ := least_nat (P := fun k => m (a + k) ≠ m (b + k)) i hne
    exact ⟨k, by omega, h2, fun j hj => Classical.byContradiction fun hn => h3 j hj hn⟩

theorem prefix_iff_bytes {m : Mem} {a b : Nat} {s t : List UInt8} (hs : CStr m a s)
    (ht : CStr m b t) : s <+: t ↔ ∀ i < s.length, m (a + i) = m (b + i) := by
  constructor
  · rintro ⟨u, rfl⟩ i hi
    rw [hs.2.1 i hi, ht.2.1 i (by simp; omega)]
    simp [List.getElem_append_left hi]
  · intro h
    have hlen : s.length ≤ t.length := by
      refine Classical.byContradiction fun hn => ?_
      have h1 := h t.length (by omega)
      rw [ht.2.2] at h1
      exact hs.nz t.length (by omega) h1
    refine List.prefix_iff_eq_take.2 ?_
    apply List.ext_getElem
    · simp; omega
    · intro i h1 h2
      have := h i h1
      rw [hs.2.1 i h1, ht.2.1 i (by omega)] at this
      rw [List.getElem_take, this]

theorem strcmpSpec_append (u s t : List UInt8) : strcmpSpec (u ++ s) (u ++ t) = strcmpSpec s t := by
  induction u with
  | nil => rfl
  | cons x u ih => simp [strcmpSpec, ih]

theorem strcmpSpec_diff {m : Mem} {a b : Nat} {s t : List UInt8} (hs : CStr m a s)
    (ht : CStr m b t) {d : Nat} (hd : d < s.length) (hne : m (a + d) ≠ m (b + d))
    (heq : ∀ i < d, m (a + i) = m (b + i)) :
    strcmpSpec s t = ((m (a + d)).toNat : Int) - (m (b + d)).toNat := by
  have hdt : d ≤ t.length := by
    refine Classical.byContradiction fun hn => ?_
    have h1 := heq t.length (by omega)
    rw [ht.2.2] at h1
    exact hs.nz t.length (by omega) h1
  have hpre : s.take d = t.take d := by
    apply List.ext_getElem
    · simp; omega
    · intro i h1 h2
      simp only [List.length_take] at h1 h2
      have := heq i (by omega)
      rw [hs.2.1 i (by omega), ht.2.1 i (by omega)] at this
      rw [List.getElem_take, List.getElem_take, this]
  rw [← List.take_append_drop d s, ← List.take_append_drop d t, hpre, strcmpSpec_append]
  rw [List.drop_eq_getElem_cons hd]
  have hsd := hs.2.1 d hd
  by_cases hlt : d < t.length
  · rw [List.drop_eq_getElem_cons hlt, strcmpSpec]
    have htd := ht.2.1 d hlt
    rw [hsd, htd] at hne ⊢
    rw [if_neg hne]
  · have : d = t.length := by omega
    subst this
    rw [List.drop_length, strcmpSpec, hsd, ht.2.2]
    simp

theorem strcmpSpec_self (s : List UInt8) : strcmpSpec s s = 0 := by
  induction s with
  | nil => rfl
  | cons x s ih => simp [strcmpSpec, ih]

/-! ### `_memrchr` -/

theorem castI_eq (m : Int → UInt8) (p : Int) : castI m p = cast64 (fun i => m (p + (i : Int))) 0 := by
  unfold castI cast64
  rw [Mem.bytes_eq_map]
  simp

theorem hasbyte_castI (m : Int → UInt8) (p : Int) (c : UInt8) :
    hasbyte (castI m p) c = true ↔ ∃ i : Nat, i < 8 ∧ m (p + i) = c := by
  rw [castI_eq, hasbyte_cast]; simp

theorem memchr8X_lastI (m : Int → UInt8) (p : Int) (c : UInt8) (ex : Bool) {k : Nat}
    (hk : k < 8) (hc : m (p + k) = c) (hgt : ∀ j : Nat, k < j → j < 8 → m (p + j) ≠ c) :
    memchr8X false ex true (castI m p) c = some (BitVec.ofNat 32 k) := by
  rw [castI_eq]
  apply memchr8X_last _ _ _ _ _ (by intro h; cases h)
  refine ⟨hk, ?_, ?_⟩
  · simpa using hc
  · intro j h1 h2; simpa using hgt j h1 h2

/-- The loop: from the block at offset `8*(k+1)`, finds the last occurrence at an offset
`≥ 8`. -/
theorem memrchrLoop_found (m : Int → UInt8) (s : Int) (c : UInt8) :
    ∀ (k fuel : Nat) (j : Nat), k < fuel → 8 ≤ j → j < 8 * (k + 1) + 8 → m (s + j) = c →
      (∀ i : Nat, j < i → i < 8 * (k + 1) + 8 → m (s + i) ≠ c) →
      memrchrLoop m false false s c fuel (s + (8 * (k + 1) : Nat)) = some (BitVec.ofNat 32 j) := by
  intro k
  induction k with
  | zero =>
    intro fuel j hf h1 h2 hc hgt
    obtain ⟨fuel, rfl⟩ : ∃ f, fuel = f + 1 := ⟨fuel - 1, by omega⟩
    rw [memrchrLoop]
    have e : ∀ i : Nat, s + ((8 * (0 + 1) : Nat) : Int) + (i : Int) = s + ((8 + i : Nat) : Int) := by
      intro i; omega
    have hh : hasbyte (castI m (s + ((8 * (0 + 1) : Nat) : Int))) c = true :=
      (hasbyte_castI _ _ _).2 ⟨j - 8, by omega, by rw [e, show 8 + (j - 8) = j by omega]; exact hc⟩
    rw [if_pos hh, memchr8X_lastI m _ c true (k := j - 8) (by omega)
      (by rw [e, show 8 + (j - 8) = j by omega]; exact hc)
      (by intro i h3 h4; rw [e]; exact hgt _ (by omega) (by omega))]
    have : s + ((8 * (0 + 1) : Nat) : Int) - s = ((8 : Nat) : Int) := by omega
    rw [this, Option.map_some, BitVec.ofInt_natCast, ← BitVec.ofNat_add]
    congr 2; omega
  | succ k ih =>
    intro fuel j hf h1 h2 hc hgt
    obtain ⟨fuel, rfl⟩ : ∃ f, fuel = f + 1 := ⟨fuel - 1, by omega⟩
    rw [memrchrLoop]
    have e : ∀ i : Nat, s + ((8 * (k + 1 + 1) : Nat) : Int) + (i : Int)
        = s + ((8 * (k + 2) + i : Nat) : Int) := by
      intro i; omega
    by_cases hb : 8 * (k + 2) ≤ j
    · have hj : 8 * (k + 2) + (j - 8 * (k + 2)) = j := by omega
      have hh : hasbyte (castI m (s + ((8 * (k + 1 + 1) : Nat) : Int))) c = true :=
        (hasbyte_castI _ _ _).2 ⟨j - 8 * (k + 2), by omega, by rw [e, hj]; exact hc⟩
      rw [if_pos hh, memchr8X_lastI m _ c true (k := j - 8 * (k + 2)) (by omega)
        (by rw [e, hj]; exact hc)
        (by intro i h3 h4; rw [e]; exact hgt _ (by omega) (by omega))]
      have : s + ((8 * (k + 1 + 1) : Nat) : Int) - s = ((8 * (k + 2) : Nat) : Int) := by omega
      rw [this, Option.map_some, BitVec.ofInt_natCast, ← BitVec.ofNat_add]
      congr 2
    · have hh : hasbyte (castI m (s + ((8 * (k + 1 + 1) : Nat) : Int))) c = false := by
        rw [Bool.eq_false_iff, Ne, hasbyte_castI]
        rintro ⟨i, hi, he⟩
        rw [e] at he
        exact hgt _ (by omega) (by omega) he
      rw [hh, if_neg (by simp)]
      have hne : (s + ((8 * (k + 1 + 1) : Nat) : Int) - 8 == s) = false := by
        rw [beq_eq_false_iff_ne]; omega
      rw [hne]
      simp only [Bool.and_false, Bool.false_eq_true, if_false]
      have e2 : s + ((8 * (k + 1 + 1) : Nat) : Int) - 8 = s + ((8 * (k + 1) : Nat) : Int) := by omega
      rw [e2]
      exact ih fuel j (by omega) h1 (by omega) hc (fun i h3 h4 => hgt i h3 (by omega))

theorem memrchrLoop_absent (m : Int → UInt8) (s : Int) (c : UInt8) :
    ∀ (k fuel : Nat), k < fuel → (∀ i : Nat, 8 ≤ i → i < 8 * (k + 1) + 8 → m (s + i) ≠ c) →
      memrchrLoop m false false s c fuel (s + (8 * (k + 1) : Nat)) = some (-1#32) := by
  intro k
  induction k with
  | zero =>
    intro fuel hf hgt
    obtain ⟨fuel, rfl⟩ : ∃ f, fuel = f + 1 := ⟨fuel - 1, by omega⟩
    rw [memrchrLoop]
    have hh : hasbyte (castI m (s + ((8 * (0 + 1) : Nat) : Int))) c = false := by
      rw [Bool.eq_false_iff, Ne, hasbyte_castI]
      rintro ⟨i, hi, he⟩
      rw [show s + ((8 * (0 + 1) : Nat) : Int) + (i : Int) = s + ((8 + i : Nat) : Int) by omega] at he
      exact hgt _ (by omega) (by omega) he
    rw [hh, if_neg (by simp)]
    have hne : (s + ((8 * (0 + 1) : Nat) : Int) - 8 == s) = true := by
      rw [beq_iff_eq]; omega
    rw [hne]; rfl
  | succ k ih =>
    intro fuel hf hgt
    obtain ⟨fuel, rfl⟩ : ∃ f, fuel = f + 1 := ⟨fuel - 1, by omega⟩
    rw [memrchrLoop]
    have hh : hasbyte (castI m (s + ((8 * (k + 1 + 1) : Nat) : Int))) c = false := by
      rw [Bool.eq_false_iff, Ne, hasbyte_castI]
      rintro ⟨i, hi, he⟩
      rw [show s + ((8 * (k + 1 + 1) : Nat) : Int) + (i : Int) = s + ((8 * (k + 2) + i : Nat) : Int)
        by omega] at he
      exact hgt _ (by omega) (by omega) he
    rw [hh, if_neg (by simp)]
    have hne : (s + ((8 * (k + 1 + 1) : Nat) : Int) - 8 == s) = false := by
      rw [beq_eq_false_iff_ne]; omega
    rw [hne]
    simp only [Bool.and_false, Bool.false_eq_true, if_false]
    have e2 : s + ((8 * (k + 1 + 1) : Nat) : Int) - 8 = s + ((8 * (k + 1) : Nat) : Int) := by omega
    rw [e2]
    exact ih fuel (by omega) (fun i h3 h4 => hgt i h3 (by omega))

/-- `_memrchr`, more than 8 bytes, nothing in the 8 bytes after the buffer. -/
theorem memrchr'_long (m : Int → UInt8) (s : Int) (n : Nat) (c : UInt8) (fuel : Nat)
    (hn : 8 < n) (hf : n ≤ fuel) (hafter : ∀ i : Nat, n ≤ i → i < n + 8 → m (s + i) ≠ c) :
    (∀ j : Nat, 8 ≤ j → j < n → m (s + j) = c → (∀ i : Nat, j < i → i < n → m (s + i) ≠ c) →
      memrchr' m false false s n c fuel = some (BitVec.ofNat 32 j)) ∧
    ((∀ i : Nat, 8 ≤ i → i < n → m (s + i) ≠ c) →
      memrchr' m false false s n c fuel = some (-1#32)) := by
  have hp1 : partLen n ≤ 8 ∧ (n - partLen n) % 8 = 0 ∧ 0 < partLen n := by
    unfold partLen; split <;> omega
  have hmask : castI m (s + n) &&& ~~~(partMask n &&& extend c) = castI m (s + n) := by
    unfold partMask
    rw [if_neg (by omega)]
    simp
    exact BitVec.and_allOnes
  have hfirst : hasbyte (castI m (s + n)) c = false := by
    rw [Bool.eq_false_iff, Ne, hasbyte_castI]
    rintro ⟨i, hi, he⟩
    rw [show s + (n : Int) + (i : Int) = s + ((n + i : Nat) : Int) by omega] at he
    exact hafter _ (by omega) (by omega) he
  obtain ⟨k, hk⟩ : ∃ k, n - partLen n = 8 * (k + 1) := ⟨(n - partLen n) / 8 - 1, by omega⟩
  have hp : s + (n : Int) - (partLen n : Int) = s + ((8 * (k + 1) : Nat) : Int) := by omega
  have hred : memrchr' m false false s n c fuel
      = memrchrLoop m false false s c fuel (s + ((8 * (k + 1) : Nat) : Int)) := by
    unfold memrchr'
    simp only [hmask, hfirst, hp]
    simp
  rw [hred]
  refine ⟨fun j h1 h2 h3 h4 => ?_, fun h => ?_⟩
  · apply memrchrLoop_found m s c k fuel j (by omega) h1 (by omega) h3
    intro i h5 h6
    by_cases hi : i < n
    · exact h4 i h5 hi
    · exact hafter i (by omega) (by omega)
  · apply memrchrLoop_absent m s c k fuel (by omega)
    intro i h5 h6
    by_cases hi : i < n
    · exact h i h5 hi
    · exact hafter i (by omega) (by omega)

end Verif
