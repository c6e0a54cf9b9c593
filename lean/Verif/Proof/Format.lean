import Verif.Proof.Parse
/-!
# Decimal formatting
-/
namespace Verif

/-! ### memory writes -/

theorem write_in {m : Mem} {p : Nat} {l : List UInt8} {a : Nat} (h1 : p ≤ a) (h2 : a < p + l.length) :
    m.write p l a = l[a - p]'(by omega) := by
  unfold Mem.write
  rw [if_pos ⟨h1, h2⟩, List.getD_eq_getElem?_getD, List.getElem?_eq_getElem (by omega)]; rfl

theorem write_out {m : Mem} {p : Nat} {l : List UInt8} {a : Nat} (h : a < p ∨ p + l.length ≤ a) :
    m.write p l a = m a := by
  unfold Mem.write
  rw [if_neg (by omega)]

theorem holds_write (m : Mem) (p : Nat) (l : List UInt8) : Holds (m.write p l) p l := by
  intro i hi
  rw [write_in (by omega) (by omega)]
  congr 1; omega

theorem Holds.append {m : Mem} {p : Nat} {t u : List UInt8} (h : Holds m p t)
    (h2 : Holds m (p + t.length) u) : Holds m p (t ++ u) := by
  intro i hi
  by_cases hlt : i < t.length
  · rw [List.getElem_append_left hlt, h i hlt]
  · rw [List.getElem_append_right (by omega)]
    have := h2 (i - t.length) (by simp at hi; omega)
    rwa [show p + t.length + (i - t.length) = p + i by omega] at this

theorem Holds.write_out {m : Mem} {p : Nat} {t : List UInt8} (h : Holds m p t) {q : Nat}
    {l : List UInt8} (hd : p + t.length ≤ q ∨ q + l.length ≤ p) : Holds (m.write q l) p t := by
  intro i hi
  rw [Verif.write_out (by omega), h i hi]

/-! ### pairs of digits -/

theorem utoa2p_spec : ∀ x < 100, (utoa2p x).toNat = (48 + x / 10) + 256 * (48 + x % 10) := by
  decide +kernel

/-- Two digits. -/
def two (x : Nat) : List UInt8 := [UInt8.ofNat (48 + x / 10), UInt8.ofNat (48 + x % 10)]

/-- The word holding the bytes `l` (at most 8), zero padded. -/
def wOf (l : List UInt8) : W := BitVec.ofNat 64 (le (l.map UInt8.toNat))

theorem map_toNat_Bytes (l : List UInt8) : Bytes (l.map UInt8.toNat) := by
  intro b hb
  obtain ⟨c, _, rfl⟩ := List.mem_map.1 hb
  exact UInt8.toNat_lt c

theorem le_lt' (l : List UInt8) (h : l.length ≤ 8) : le (l.map UInt8.toNat) < 2 ^ 64 := by
  have h1 := le_lt (map_toNat_Bytes l)
  have h2 : (256 : Nat) ^ (l.map UInt8.toNat).length ≤ 256 ^ 8 :=
    Nat.pow_le_pow_right (by decide) (by simpa using h)
  have : (256 : Nat) ^ 8 = 2 ^ 64 := by decide
  omega

theorem wOf_toNat (l : List UInt8) (h : l.length ≤ 8) : (wOf l).toNat = le (l.map UInt8.toNat) := by
  unfold wOf
  rw [BitVec.toNat_ofNat, Nat.mod_eq_of_lt (le_lt' l h)]

theorem two_toNat {x : Nat} (h : x < 100) : (two x).map UInt8.toNat = [48 + x / 10, 48 + x % 10] := by
  unfold two
  simp only [List.map, UInt8.toNat_ofNat']
  congr 1
  · omega
  · congr 1; omega

theorem utoa2p_wOf {x : Nat} (h : x < 100) : (utoa2p x).setWidth 64 = wOf (two x) := by
  apply BitVec.eq_of_toNat_eq
  rw [wOf_toNat _ (by simp [two]), two_toNat h, BitVec.toNat_setWidth, utoa2p_spec x h]
  simp only [le]
  omega

theorem shl16_or {x : Nat} (hx : x < 100) (l : List UInt8) (h : l.length ≤ 6) :
    (wOf l <<< 16) ||| (utoa2p x).setWidth 64 = wOf (two x ++ l) := by
  apply BitVec.eq_of_toNat_eq
  rw [utoa2p_wOf hx, BitVec.toNat_or, BitVec.toNat_shiftLeft, wOf_toNat _ (by omega),
    wOf_toNat _ (by simp [two]), wOf_toNat _ (by simp [two]; omega), List.map_append, two_toNat hx]
  have h1 := le_lt (map_toNat_Bytes l)
  have h2 : (256 : Nat) ^ (l.map UInt8.toNat).length ≤ 256 ^ 6 :=
    Nat.pow_le_pow_right (by decide) (by simpa using h)
  have h3 : (256 : Nat) ^ 6 = 2 ^ 48 := by decide
  rw [Nat.shiftLeft_eq, Nat.mod_eq_of_lt (by omega)]
  simp only [le, List.cons_append, List.nil_append]
  rw [Nat.mul_comm, ← Nat.two_pow_add_eq_or_of_lt (i := 16) (by omega)]
  omega

theorem wOf_shr8 (b : UInt8) (l : List UInt8) (h : l.length ≤ 7) :
    wOf (b :: l) >>> 8 = wOf l := by
  apply BitVec.eq_of_toNat_eq
  rw [BitVec.toNat_ushiftRight, wOf_toNat _ (by simp; omega), wOf_toNat _ (by omega),
    List.map_cons, le, Nat.shiftRight_eq_div_pow]
  have := UInt8.toNat_lt b
  omega

theorem wordBytes_wOf (l : List UInt8) (n : Nat) (h : l.length ≤ n) (hn : n ≤ 8) :
    wordBytes (wOf l) n = l ++ List.replicate (n - l.length) 0 := by
  apply List.ext_getElem
  · simp [wordBytes]; omega
  · intro i h1 h2
    simp only [wordBytes, List.length_map, List.length_range] at h1
    simp only [wordBytes, List.getElem_map, List.getElem_range, wordByte]
    apply UInt8.toNat_inj.mp
    have hg := le_getByte (map_toNat_Bytes l) i
    rw [wOf_toNat _ (by omega), UInt8.toNat_ofNat', show 2 ^ 8 = 256 by decide, hg]
    by_cases hi : i < l.length
    · rw [List.getElem_append_left hi]
      simp [List.getD_eq_getElem?_getD, hi]
    · rw [List.getElem_append_right (by omega)]
      simp [List.getD_eq_getElem?_getD, hi]

theorem pairBytes_eq {x : Nat} (h : x < 100) : pairBytes x = two x := by
  unfold pairBytes
  rw [utoa2p_wOf h, wordBytes_wOf _ _ (by simp [two]) (by decide)]
  simp [two]

/-! ### canonical texts -/

theorem two_digits {x : Nat} (h : x < 100) : ∀ b ∈ two x, IsDigit b := by
  intro b hb
  unfold two at hb
  unfold IsDigit
  simp only [List.mem_cons, List.not_mem_nil, or_false] at hb
  rcases hb with rfl | rfl <;> rw [UInt8.toNat_ofNat'] <;> omega

theorem decVal_two {x : Nat} (h : x < 100) : decVal (two x) = x := by
  unfold decVal two
  simp only [List.foldl, UInt8.toNat_ofNat']
  omega

theorem itoaLoop_spec : ∀ (x : Nat) (acc : List UInt8),
    ∃ t, itoaLoop x acc = t ++ acc ∧ IsNatText t x := by
  intro x
  induction x using Nat.strongRecOn with
  | ind x ih =>
    intro acc
    rw [itoaLoop]
    by_cases h : x ≥ 100
    · rw [if_pos h]
      obtain ⟨t, h1, h2, h3, h4, h5⟩ := ih (x / 100) (by omega) (pairBytes (x % 100) ++ acc)
      refine ⟨t ++ two (x % 100), ?_, ?_⟩
      · rw [h1, pairBytes_eq (by omega), List.append_assoc]
      · refine ⟨by simp [h2], ?_, ?_, ?_⟩
        · intro b hb
          rcases List.mem_append.1 hb with h | h
          · exact h3 b h
          · exact two_digits (by omega) b h
        · rw [decVal_append, h4, decVal_two (by omega)]
          simp [two]; omega
        · intro hh
          have : t.head? = some 48 := by
            cases t with
            | nil => exact absurd rfl h2
            | cons b t => simpa using hh
          rw [h5 this] at h4
          have h0 : decVal [48] = 0 := by decide
          omega
    · rw [if_neg h]
      simp only [pairBytes_eq (show x < 100 by omega)]
      by_cases h10 : x < 10
      · rw [if_pos h10]
        refine ⟨[UInt8.ofNat (48 + x % 10)], by simp [two], by simp, ?_, ?_, ?_⟩
        · intro b hb
          simp only [List.mem_singleton] at hb
          subst hb
          unfold IsDigit; rw [UInt8.toNat_ofNat']; omega
        · simp only [decVal, List.foldl, UInt8.toNat_ofNat']; omega
        · intro hh; simp only [List.head?] at hh; simpa using hh
      · rw [if_neg h10]
        refine ⟨two x, rfl, by simp [two], two_digits (by omega), decVal_two (by omega), ?_⟩
        intro hh
        simp only [two, List.head?_cons, Option.some.injEq] at hh
        have := congrArg UInt8.toNat hh
        rw [UInt8.toNat_ofNat'] at this
        have h48 : (48 : UInt8).toNat = 48 := by decide
        omega

theorem IsNatText.length_le {t : List UInt8} {n k : Nat} (h : IsNatText t n) (hk : n < 10 ^ k)
    (h1 : 1 ≤ k) : t.length ≤ k := by
  obtain ⟨h2, h3, h4, h5⟩ := h
  match t, h2 with
  | b :: u, _ =>
    by_cases hb : b = 48
    · have := h5 (by rw [hb]; rfl)
      rw [this]; simpa using h1
    · have hd := h3 b List.mem_cons_self
      have hv : decVal (b :: u) = (b.toNat - 48) * 10 ^ u.length + decVal u := by
        have := decVal_append [b] u
        simpa [decVal] using this
      have hpos : 1 ≤ b.toNat - 48 := by
        unfold IsDigit at hd
        have : b.toNat ≠ 48 := fun h => hb (UInt8.toNat_inj.mp (by simpa using h))
        omega
      have hle : 10 ^ u.length ≤ (b.toNat - 48) * 10 ^ u.length := Nat.le_mul_of_pos_left _ hpos
      have hlt : 10 ^ u.length < 10 ^ k := by omega
      have := (Nat.pow_lt_pow_iff_right (by decide)).1 hlt
      simp only [List.length_cons]; omega

theorem IsNatText.unique {t : List UInt8} {n k : Nat} (h : IsNatText t n) (h' : IsNatText t k) :
    n = k := by rw [← h.2.2.1, ← h'.2.2.1]

/-- The text that `simd_itoa` leaves in the buffer. -/
theorem simdItoa_spec (m : Mem) (x : W) (buf : Nat) (stack : Nat → UInt8)
    (h : x.setWidth 32 ≠ BitVec.intMin 32) :
    ∃ m' u, simdItoa m x buf stack
        = some (m', ((if x.toInt < 0 then [45] else []) ++ u : List UInt8).length) ∧
      IsNatText u (x.setWidth 32).toInt.natAbs ∧
      Holds m' buf ((if x.toInt < 0 then [45] else []) ++ u ++ [0]) ∧
      ∀ a, a < buf ∨ buf + 21 ≤ a → m' a = m a := by
  obtain ⟨u, hu1, hu2⟩ := itoaLoop_spec (x.setWidth 32).toInt.natAbs []
  rw [List.append_nil] at hu1
  have hlen : u.length ≤ 10 := by
    apply hu2.length_le _ (by decide)
    have h1 : (x.setWidth 32).toInt < 2 ^ 31 := BitVec.toInt_lt
    have h2 : -2 ^ 31 ≤ (x.setWidth 32).toInt := BitVec.le_toInt _
    omega
  unfold simdItoa
  simp only [if_neg h, hu1]
  by_cases hn : x.toInt < 0
  · simp only [if_pos hn]
    refine ⟨_, u, by rw [show ([45] ++ u : List UInt8).length = u.length + 1 by simp], hu2, ?_, ?_⟩
    · intro i hi
      simp only [List.append_assoc, List.length_append, List.length_cons, List.length_nil] at hi
      by_cases h0 : i = 0
      · subst h0
        rw [write_out (by omega), write_out (by omega), write_in (by omega) (by simp)]
        simp
      · by_cases hl : i = u.length + 1
        · subst hl
          rw [write_in (by omega) (by simp; omega)]
          simp
        · rw [write_out (by omega), write_in (by omega) (by simp; omega)]
          simp only [List.append_assoc]
          rw [List.getElem_append_left (by omega), List.getElem_append_right (by simp; omega),
            List.getElem_append_left (by simp; omega)]
          congr 1
          simp; omega
    · intro a ha
      rw [write_out (by simp; omega), write_out (by simp; omega), write_out (by simp; omega)]
  · simp only [if_neg hn]
    refine ⟨_, u, by rw [List.nil_append], hu2, ?_, ?_⟩
    · intro i hi
      simp only [List.nil_append, List.length_append, List.length_cons, List.length_nil] at hi
      by_cases hl : i = u.length
      · subst hl
        rw [write_in (by omega) (by simp)]
        simp
      · rw [write_out (by omega), write_in (by omega) (by simp; omega)]
        simp only [List.nil_append]
        rw [List.getElem_append_left (by omega), List.getElem_append_left (by omega)]
        congr 1
        omega
    · intro a ha
      rw [write_out (by simp; omega), write_out (by simp; omega), write_out (by simp; omega)]

/-! ### `itoa8` -/

theorem itoa8Loop_spec : ∀ (x : Nat) (acc : List UInt8), acc.length ≤ 6 → acc.length % 2 = 0 →
    x < 10 ^ (8 - acc.length) →
    ∃ x' acc', itoa8Loop x acc.length (wOf acc) = (x', acc'.length, wOf acc') ∧ x' < 100 ∧
      acc'.length ≤ 6 ∧ itoaLoop x acc = itoaLoop x' acc' := by
  intro x
  induction x using Nat.strongRecOn with
  | ind x ih =>
    intro acc ha hev hx
    rw [itoa8Loop]
    by_cases h : x ≥ 100
    · rw [if_pos h, shl16_or (by omega) acc ha]
      have h6 : acc.length < 6 := by
        refine Classical.byContradiction fun hn => ?_
        have : acc.length = 6 := by omega
        rw [this] at hx; omega
      have hpow : 10 ^ (8 - acc.length) = 10 ^ (8 - (acc.length + 2)) * 100 := by
        rw [show (100 : Nat) = 10 ^ 2 by decide, ← Nat.pow_add]; congr 1; omega
      obtain ⟨x', acc', h1, h2, h3, h4⟩ := ih (x / 100) (by omega) (two (x % 100) ++ acc)
        (by simp [two]; omega) (by simp [two]; omega)
        (by simp only [two, List.length_append, List.length_cons, List.length_nil]
            rw [show 0 + 1 + 1 + acc.length = acc.length + 2 by omega]
            rw [hpow] at hx; omega)
      refine ⟨x', acc', ?_, h2, h3, ?_⟩
      · rw [← h1]; congr 1
      · rw [← h4]
        conv => lhs; rw [itoaLoop, if_pos h, pairBytes_eq (by omega)]
    · rw [if_neg h]
      exact ⟨x, acc, rfl, by omega, ha, rfl⟩

theorem itoa8_spec (m : Mem) (x : BitVec 32) (buf : Nat) (h : x.toInt.natAbs < 10 ^ 8) :
    ∃ m' u, itoa8 m x buf = some (m', ((if x.toInt < 0 then [45] else []) ++ u : List UInt8).length) ∧
      IsNatText u x.toInt.natAbs ∧
      Holds m' buf ((if x.toInt < 0 then [45] else []) ++ u ++ [0]) ∧
      ∀ a, a < buf ∨ buf + 10 ≤ a → m' a = m a := by
  have hmin : x ≠ BitVec.intMin 32 := by
    intro he; rw [he] at h
    exact absurd h (by decide)
  obtain ⟨t, ht1, ht2⟩ := itoaLoop_spec x.toInt.natAbs []
  obtain ⟨x', acc', h1, h2, h3, h4⟩ := itoa8Loop_spec x.toInt.natAbs [] (by simp) (by simp) (by simpa using h)
  have hz : (wOf []) = 0#64 := by decide
  rw [hz, List.length_nil] at h1
  have hlen : t.length ≤ 8 := ht2.length_le h (by decide)
  have hfin : itoaLoop x' acc' = if x' < 10 then (two x' ++ acc').tail else two x' ++ acc' := by
    rw [itoaLoop, if_neg (by omega), pairBytes_eq h2]
  rw [List.append_nil] at ht1
  have htxt : (if x' < 10 then (two x' ++ acc').tail else two x' ++ acc') = t := by
    rw [← hfin, ← h4, ht1]
  -- the word and the count
  have hword : ((wOf acc' <<< 16) ||| (utoa2p x').setWidth 64) >>> (if x' < 10 then 8 else 0) = wOf t := by
    rw [shl16_or h2 acc' h3, ← htxt]
    by_cases h10 : x' < 10
    · simp only [if_pos h10, two, List.cons_append, List.nil_append, List.tail_cons]
      exact wOf_shr8 _ _ (by simp; omega)
    · simp only [if_neg h10]; exact BitVec.ushiftRight_zero _
  have hn : (if x' < 10 then acc'.length + 2 - 1 else acc'.length + 2) = t.length := by
    rw [← htxt]
    by_cases h10 : x' < 10
    · simp [if_pos h10, two]
    · simp [if_neg h10, two]
  unfold itoa8
  simp only [if_neg hmin, h1, hword, hn, wordBytes_wOf t 8 hlen (by decide)]
  by_cases hneg : x.toInt < 0
  · simp only [if_pos hneg]
    refine ⟨_, t, by rw [show ([45] ++ t : List UInt8).length = t.length + 1 by simp], ht2, ?_, ?_⟩
    · intro i hi
      simp only [List.append_assoc, List.length_append, List.length_cons, List.length_nil] at hi
      by_cases h0 : i = 0
      · subst h0
        rw [write_out (by omega), write_out (by omega), write_in (by omega) (by simp)]
        simp
      · by_cases hl : i = t.length + 1
        · subst hl
          rw [write_in (by omega) (by simp; omega)]
          simp
        · rw [write_out (by omega), write_in (by omega) (by simp; omega)]
          simp only [List.append_assoc]
          rw [List.getElem_append_left (by omega), List.getElem_append_right (by simp; omega),
            List.getElem_append_left (by simp; omega)]
          congr 1
          simp; omega
    · intro a ha
      rw [write_out (by simp; omega), write_out (by simp; omega), write_out (by simp; omega)]
  · simp only [if_neg hneg]
    refine ⟨_, t, by rw [List.nil_append], ht2, ?_, ?_⟩
    · intro i hi
      simp only [List.nil_append, List.length_append, List.length_cons, List.length_nil] at hi
      by_cases hl : i = t.length
      · subst hl
        rw [write_in (by omega) (by simp)]
        simp
      · rw [write_out (by omega), write_in (by omega) (by simp; omega)]
        simp only [List.nil_append]
        rw [List.getElem_append_left (by omega), List.getElem_append_left (by omega)]
        congr 1
        omega
    · intro a ha
      rw [write_out (by simp; omega), write_out (by simp; omega), write_out (by simp; omega)]

/-! ### `utoap` -/

theorem padText_length (N x : Nat) : (padText N x).length = N := by simp [padText]

theorem padText_append (a b x : Nat) : padText (a + b) x = padText a (x / 10 ^ b) ++ padText b x := by
  apply List.ext_getElem
  · simp [padText]
  · intro i h1 h2
    simp only [padText_length] at h1
    by_cases hi : i < a
    · rw [List.getElem_append_left (by simpa [padText] using hi)]
      simp only [padText, List.getElem_map, List.getElem_range]
      rw [Nat.div_div_eq_div_mul, ← Nat.pow_add]
      congr 5; omega
    · rw [List.getElem_append_right (by simpa [padText] using hi)]
      simp only [padText, List.getElem_map, List.getElem_range, List.length_map, List.length_range]
      congr 5; omega

theorem padText_two (x : Nat) : padText 2 x = two (x % 100) := by
  simp only [padText, two, List.range, List.range.loop, List.map]
  have h1 : x / 10 ^ (2 - 1 - 0) % 10 = x % 100 / 10 := by simp; omega
  have h2 : x / 10 ^ (2 - 1 - 1) % 10 = x % 100 % 10 := by simp
  rw [h1, h2]

theorem utoapLoop_spec (X : Nat) : ∀ (k j : Nat), 1 ≤ j → 2 * (j + k) ≤ 8 →
    utoapLoop k (X / 100 ^ (j - 1)) (wOf (padText (2 * j) X))
      = (X / 100 ^ (j + k - 1), wOf (padText (2 * (j + k)) X)) := by
  intro k
  induction k with
  | zero => intro j h1 h2; rfl
  | succ k ih =>
    intro j h1 h2
    rw [utoapLoop]
    have e1 : X / 100 ^ (j - 1) / 100 = X / 100 ^ j := by
      rw [Nat.div_div_eq_div_mul, ← Nat.pow_succ]; congr 2; omega
    simp only [e1]
    rw [shl16_or (Nat.mod_lt _ (by decide)) _ (by rw [padText_length]; omega)]
    have e2 : two (X / 100 ^ j % 100) ++ padText (2 * j) X = padText (2 * (j + 1)) X := by
      rw [show 2 * (j + 1) = 2 + 2 * j by omega, padText_append, padText_two, Nat.pow_mul]
    rw [e2]
    have := ih (j + 1) (by omega) (by omega)
    rw [show j + 1 - 1 = j by omega] at this
    rw [this]
    congr 3 <;> omega

/-- `_utoap`: what is written and returned. -/
theorem utoap8_spec (m : Mem) (N x s : Nat) (h1 : 1 ≤ N) (h8 : N ≤ 8) :
    utoap8 m N x s = (m.write s (padText N x ++ List.replicate (8 - N) 0), x / 100 ^ ((N - 1) / 2)) := by
  unfold utoap8
  have hloop := utoapLoop_spec x ((N - 1) / 2) 1 (by omega) (by omega)
  rw [show (1 - 1) = 0 by rfl, Nat.pow_zero, Nat.div_one] at hloop
  have e0 : (utoa2p (x % 100)).setWidth 64 = wOf (padText (2 * 1) x) := by
    rw [utoa2p_wOf (Nat.mod_lt _ (by decide))]
    rw [show 2 * 1 = 2 by rfl, padText_two]
  simp only [e0, hloop]
  have e3 : wOf (padText (2 * (1 + (N - 1) / 2)) x) >>> (N % 2 * 8) = wOf (padText N x) := by
    by_cases hodd : N % 2 = 1
    · have : 2 * (1 + (N - 1) / 2) = 1 + N := by omega
      rw [this, hodd, padText_append]
      have h1' : ∃ b, padText 1 (x / 10 ^ N) = [b] := ⟨_, rfl⟩
      obtain ⟨b, hb⟩ := h1'
      rw [hb, List.cons_append, List.nil_append, Nat.one_mul, wOf_shr8 _ _ (by
        rw [padText_length]; omega)]
    · have : 2 * (1 + (N - 1) / 2) = N := by omega
      rw [this, show N % 2 = 0 by omega, Nat.zero_mul]
      exact BitVec.ushiftRight_zero _
  rw [e3, wordBytes_wOf _ _ (by rw [padText_length]; exact h8) (by decide), padText_length]
  congr 3
  omega

theorem holds_prefix {m : Mem} {p : Nat} {t u : List UInt8} (h : Holds m p (t ++ u)) : Holds m p t :=
  h.split.1

theorem utoap_spec (m : Mem) (N x s : Nat) (h1 : 1 ≤ N) (h20 : N ≤ 20) :
    Holds (utoap m N x s) s (padText N x ++ [0]) ∧
    ∀ a, a < s ∨ s + max (8 * ((N + 7) / 8)) (N + 1) ≤ a → utoap m N x s a = m a := by
  unfold utoap
  by_cases h8 : N ≤ 8
  · simp only [if_pos h8, utoap8_spec m N x s h1 h8]
    refine ⟨Holds.append ?_ ?_, ?_⟩
    · apply Holds.write_out (holds_prefix (holds_write _ _ _))
      rw [padText_length]; omega
    · rw [padText_length]; exact holds_write _ _ _
    · intro a ha
      rw [write_out (by simp; omega), write_out (by simp [padText_length]; omega)]
  · by_cases h16 : N ≤ 16
    · simp only [if_neg h8, if_pos h16, utoap8_spec m (N - 8) x (s + 8) (by omega) (by omega)]
      have hx : x / 100 ^ ((N - 8 - 1) / 2) / (if N % 2 = 1 then 10 else 100) = x / 10 ^ (N - 8) := by
        rw [show (100 : Nat) ^ ((N - 8 - 1) / 2) = 10 ^ (2 * ((N - 8 - 1) / 2)) by rw [Nat.pow_mul]]
        by_cases ho : N % 2 = 1
        · rw [if_pos ho, Nat.div_div_eq_div_mul, ← Nat.pow_succ]; congr 2; omega
        · rw [if_neg ho, Nat.div_div_eq_div_mul, show (100 : Nat) = 10 ^ 2 by decide, ← Nat.pow_add]
          congr 2; omega
      rw [hx, utoap8_spec _ 8 _ s (by decide) (by decide)]
      have hp : padText N x = padText 8 (x / 10 ^ (N - 8)) ++ padText (N - 8) x := by
        rw [← padText_append]; congr 1; omega
      rw [hp]
      simp only [Nat.sub_self, List.replicate_zero, List.append_nil]
      refine ⟨Holds.append (Holds.append ?_ ?_) ?_, ?_⟩
      · apply Holds.write_out (holds_write _ _ _)
        rw [padText_length]; omega
      · rw [padText_length]
        apply Holds.write_out
        · apply Holds.write_out (holds_prefix (holds_write _ _ _))
          simp only [padText_length]; omega
        · simp only [padText_length]; omega
      · rw [List.length_append, padText_length, padText_length, show 8 + (N - 8) = N by omega]
        exact holds_write _ _ _
      · intro a ha
        rw [write_out (by simp; omega), write_out (by simp [padText_length]; omega),
          write_out (by simp [padText_length]; omega)]
    · simp only [if_neg h8, if_neg h16, utoap8_spec m (N - 16) x (s + 16) (by omega) (by omega)]
      have hx : x / 100 ^ ((N - 16 - 1) / 2) / (if N % 2 = 1 then 10 else 100) = x / 10 ^ (N - 16) := by
        rw [show (100 : Nat) ^ ((N - 16 - 1) / 2) = 10 ^ (2 * ((N - 16 - 1) / 2)) by rw [Nat.pow_mul]]
        by_cases ho : N % 2 = 1
        · rw [if_pos ho, Nat.div_div_eq_div_mul, ← Nat.pow_succ]; congr 2; omega
        · rw [if_neg ho, Nat.div_div_eq_div_mul, show (100 : Nat) = 10 ^ 2 by decide, ← Nat.pow_add]
          congr 2; omega
      rw [hx, utoap8_spec _ 8 _ (s + 8) (by decide) (by decide)]
      simp only
      have hx2 : x / 10 ^ (N - 16) / 100 ^ ((8 - 1) / 2) / 100 = x / 10 ^ (N - 8) := by
        rw [Nat.div_div_eq_div_mul, Nat.div_div_eq_div_mul]
        rw [show (100 : Nat) ^ ((8 - 1) / 2) = 10 ^ 6 by decide,
          show (10 ^ 6 * 100 : Nat) = 10 ^ 8 by decide, ← Nat.pow_add]
        congr 2; omega
      rw [hx2, utoap8_spec _ 8 _ s (by decide) (by decide)]
      have hp : padText N x = padText 8 (x / 10 ^ (N - 8)) ++ (padText 8 (x / 10 ^ (N - 16)) ++
          padText (N - 16) x) := by
        rw [← padText_append, ← show 10 ^ (8 + (N - 16)) = 10 ^ (N - 8) by congr 1; omega,
          ← padText_append]
        congr 1; omega
      rw [hp]
      simp only [Nat.sub_self, List.replicate_zero, List.append_nil]
      refine ⟨Holds.append (Holds.append ?_ (Holds.append ?_ ?_)) ?_, ?_⟩
      · apply Holds.write_out (holds_write _ _ _)
        rw [padText_length]; omega
      · rw [padText_length]
        apply Holds.write_out
        · apply Holds.write_out (holds_write _ _ _)
          simp only [padText_length]; omega
        · simp only [padText_length]; omega
      · rw [padText_length, padText_length]
        apply Holds.write_out
        · apply Holds.write_out
          · apply Holds.write_out (holds_prefix (holds_write _ _ _))
            simp only [padText_length]; omega
          · simp only [padText_length]; omega
        · simp only [padText_length]; omega
      · simp only [List.length_append, padText_length]
        rw [show 8 + (8 + (N - 16)) = N by omega]
        exact holds_write _ _ _
      · intro a ha
        rw [write_out (by simp; omega), write_out (by simp [padText_length]; omega),
          write_out (by simp [padText_length]; omega), write_out (by simp [padText_length]; omega)]

end Verif
