import Verif.Proof.Lanes
/-!
# The SWAR tests are exact
-/
namespace Verif

/-! ### `haszero` -/

/-- Subtracting 1 from every lane when no lane is zero: no borrow. -/
theorem le_sub_ones : ∀ {l : List Nat}, (∀ b ∈ l, b ≠ 0) →
    le l = le (l.map (· - 1)) + le (List.replicate l.length 1)
  | [], _ => by simp [le]
  | a :: l, h => by
    have h1 := le_sub_ones (l := l) (fun b hb => h b (List.mem_cons_of_mem _ hb))
    have h2 := h a (List.mem_cons_self)
    simp only [le, List.map_cons, List.length_cons, List.replicate_succ]
    omega

theorem byte_flag_nz : ∀ b < 256, b ≠ 0 → ((b - 1) &&& (255 - b)) &&& 0x80 = 0 := by decide +kernel

theorem le_eq_zero : ∀ {l : List Nat}, le l = 0 ↔ ∀ b ∈ l, b = 0
  | [] => by simp [le]
  | a :: l => by
    have := le_eq_zero (l := l)
    simp only [le, List.mem_cons, forall_eq_or_imp]
    rw [← this]; omega

theorem haszero_wordOf {l : List Nat} (h : Bytes l) (hl : l.length = 8) :
    haszero (wordOf l) = true ↔ 0 ∈ l := by
  constructor
  · intro hz
    refine Classical.byContradiction fun hn => ?_
    have hnz : ∀ b ∈ l, b ≠ 0 := fun b hb h0 => hn (h0 ▸ hb)
    have hsub : wordOf l - cL = wordOf (l.map (· - 1)) := by
      have : wordOf l = wordOf (l.map (· - 1)) + cL := by
        rw [cL_eq]; simp only [wordOf]
        rw [← BitVec.ofNat_add, le_sub_ones hnz, hl]
      rw [this, BitVec.add_sub_cancel]
    have hA : ~~~cA = wordOf (List.replicate 8 0x80) := by decide
    have hb1 : Bytes (l.map (· - 1)) := h.map (by intros; omega)
    have hb2 : Bytes (l.map (255 - ·)) := h.map (by intros; omega)
    have hl1 : (l.map (· - 1)).length = 8 := by simp [hl]
    have hl2 : (l.map (255 - ·)).length = 8 := by simp [hl]
    unfold haszero at hz
    rw [hsub, wordOf_not h hl, hA, wordOf_and hb1 hb2 hl1 hl2] at hz
    rw [wordOf_and (zipWith_Bytes (fun _ _ h _ => byte_and h) hb1 hb2)
      (Bytes.replicate (by decide)) (by simp [hl]) (by simp)] at hz
    apply (bne_iff_ne.mp hz)
    have : le (List.zipWith (· &&& ·) (List.zipWith (· &&& ·) (l.map (· - 1)) (l.map (255 - ·)))
        (List.replicate 8 0x80)) = 0 := by
      rw [le_eq_zero]
      intro b hb
      obtain ⟨i, hi, rfl⟩ := List.getElem_of_mem hb
      simp only [List.getElem_zipWith, List.getElem_map, List.getElem_replicate]
      have hi' : i < l.length := by simp at hi; omega
      exact byte_flag_nz _ (h _ (List.getElem_mem hi')) (hnz _ (List.getElem_mem hi'))
    simp only [wordOf, this]
    rfl
  · intro h0
    -- split at the first zero
    obtain ⟨pre, post, hsplit, hpre⟩ : ∃ pre post, l = pre ++ 0 :: post ∧ ∀ b ∈ pre, b ≠ 0 := by
      clear h hl
      induction l with
      | nil => cases h0
      | cons a l ih =>
        by_cases ha : a = 0
        · exact ⟨[], l, by simp [ha], by simp⟩
        · obtain ⟨pre, post, e, hp⟩ := ih (by
            cases h0 with
            | head => exact absurd rfl ha
            | tail _ h => exact h)
          refine ⟨a :: pre, post, by simp [e], ?_⟩
          intro b hb; cases hb with
          | head => exact ha
          | tail _ hb => exact hp _ hb
    have hk : pre.length + post.length = 7 := by
      have := congrArg List.length hsplit; simp [hl] at this; omega
    -- the flagged bit
    have hbit : (wordOf l - cL).toNat.testBit (8 * pre.length + 7) = true := by
      have e1 : le l = le pre + 256 ^ pre.length * (256 * le post) := by
        rw [hsplit, le_append]; simp [le]
      have e2 : le (List.replicate 8 1) = le (List.replicate pre.length 1)
          + 256 ^ pre.length * (1 + 256 * le (List.replicate post.length 1)) := by
        have : List.replicate 8 1 = List.replicate pre.length 1 ++ 1 :: List.replicate post.length 1 := by
          rw [← List.replicate_succ, List.replicate_append_replicate]; congr 1; omega
        rw [this, le_append]; simp [le]
      have hs := le_sub_ones hpre
      have hpost := le_lt (Bytes.replicate (n := post.length) (c := 1) (by decide))
      rw [List.length_replicate] at hpost
      have hprelt : le (pre.map (· - 1)) < 256 ^ pre.length := by
        have hb : Bytes pre := fun b hb => h b (by rw [hsplit]; exact List.mem_append_left _ hb)
        have := le_lt (hb.map (f := (· - 1)) (by intros; omega))
        simpa using this
      have hpow : (256 : Nat) ^ 8 = 256 ^ pre.length * (256 * 256 ^ post.length) := by
        rw [← Nat.pow_succ', ← Nat.pow_add]; congr 1; omega
      have e3 : (wordOf l - cL).toNat
          = (2 ^ 64 - le (List.replicate 8 1) + le l) % 2 ^ 64 := by
        rw [BitVec.toNat_sub, toNat_wordOf h hl, cL_eq,
          toNat_wordOf (Bytes.replicate (by decide)) (by simp)]
      rw [e3, Nat.testBit_mod_two_pow]
      have hlt : 8 * pre.length + 7 < 64 := by omega
      simp only [hlt, decide_true, Bool.true_and]
      -- regroup
      obtain ⟨z, hz⟩ : ∃ z, 256 ^ post.length + le post = z + 1 + le (List.replicate post.length 1) :=
        ⟨256 ^ post.length + le post - 1 - le (List.replicate post.length 1), by omega⟩
      have e4 : 2 ^ 64 - le (List.replicate 8 1) + le l
          = 256 ^ pre.length * (255 + 256 * z) + le (pre.map (· - 1)) := by
        have h64 : (2 : Nat) ^ 64 = 256 ^ 8 := by decide
        rw [h64, hpow, e1, e2, hs]
        have hz' : 256 * 256 ^ post.length + 256 * le post
            = 255 + 256 * z + (1 + 256 * le (List.replicate post.length 1)) := by omega
        have := congrArg (256 ^ pre.length * ·) hz'
        simp only [Nat.mul_add] at this ⊢
        have hge : 256 ^ pre.length * (256 * 256 ^ post.length) = 256 ^ 8 := hpow.symm
        have hlt8 := le_lt (Bytes.replicate (n := 8) (c := 1) (by decide))
        rw [List.length_replicate, e2, Nat.mul_add, ← hge] at hlt8
        omega
      rw [e4]
      have hpw : (256 : Nat) ^ pre.length = 2 ^ (8 * pre.length) := by
        rw [Nat.pow_mul]
      rw [hpw, Nat.testBit_two_pow_mul_add _ (by rwa [← hpw])]
      rw [if_neg (by omega)]
      have : 8 * pre.length + 7 - 8 * pre.length = 7 := by omega
      rw [this, lane_testBit (by decide), if_pos (by decide)]
      decide
    have hbit2 : (wordOf l).getLsbD (8 * pre.length + 7) = false := by
      rw [wordOf_getLsbD h hl]
      have : (8 * pre.length + 7) / 8 = pre.length := by omega
      rw [this, hsplit]
      simp
    have hbit3 : (~~~cA).getLsbD (8 * pre.length + 7) = true := by
      have hA : ~~~cA = wordOf (List.replicate 8 0x80) := by decide
      rw [hA, wordOf_getLsbD (Bytes.replicate (by decide)) (by simp)]
      have h1 : (8 * pre.length + 7) / 8 = pre.length := by omega
      have h2 : (8 * pre.length + 7) % 8 = 7 := by omega
      rw [h1, h2, List.getD_eq_getElem?_getD, List.getElem?_replicate, if_pos (by omega)]
      decide
    unfold haszero
    rw [bne_iff_ne]
    intro hz
    have := congrArg (fun w : W => w.getLsbD (8 * pre.length + 7)) hz
    simp only [BitVec.getLsbD_and, BitVec.getLsbD_not, hbit2] at this
    have h64 : 8 * pre.length + 7 < 64 := by omega
    have hbit' : (wordOf l - cL).getLsbD (8 * pre.length + 7) = true := hbit
    rw [hbit'] at this
    have h3 := hbit3
    rw [BitVec.getLsbD_not] at h3
    simp_all

theorem xor_eq_zero' {a b : Nat} : a ^^^ b = 0 ↔ a = b := by
  constructor
  · intro h
    have : a ^^^ b ^^^ b = 0 ^^^ b := by rw [h]
    simpa [Nat.xor_assoc] using this
  · rintro rfl; simp

theorem hasbyte_wordOf {l : List Nat} (h : Bytes l) (hl : l.length = 8) (c : UInt8) :
    hasbyte (wordOf l) c = true ↔ c.toNat ∈ l := by
  unfold hasbyte
  rw [extend_eq, wordOf_xor h (Bytes.replicate (UInt8.toNat_lt _)) hl (by simp)]
  have e : List.zipWith (· ^^^ ·) l (List.replicate 8 c.toNat) = l.map (· ^^^ c.toNat) := by
    rw [← hl, zipWith_replicate_right]
  rw [e, haszero_wordOf (h.map (fun b hb => byte_xor hb (UInt8.toNat_lt _))) (by simp [hl])]
  rw [List.mem_map]
  constructor
  · rintro ⟨b, hb, h0⟩
    rw [xor_eq_zero'] at h0
    exact h0 ▸ hb
  · intro hc; exact ⟨_, hc, by simp⟩

/-! ### `_memchr8` flags -/

/-- Flag lanes: 0x80 where the byte is `c`. -/
def flagLanes (c : Nat) (l : List Nat) : List Nat := l.map fun b => if b = c then 0x80 else 0

theorem flagLanes_Bytes (c : Nat) (l : List Nat) : Bytes (flagLanes c l) := by
  intro b hb
  obtain ⟨a, _, rfl⟩ := List.mem_map.mp hb
  split <;> decide

theorem byte_flag_binary : ∀ b < 256,
    (255 - (((b &&& 0x7f) + 0x7f) ||| b)) &&& 0x80 = if b = 0 then 0x80 else 0 := by decide +kernel
theorem byte_flag_printable : ∀ b ≤ 128,
    (255 - (b + 0x7f)) &&& 0x80 = if b = 0 then 0x80 else 0 := by decide +kernel
theorem byte_and7f : ∀ b < 256, (b &&& 0x7f) + 0x7f < 256 := by decide +kernel

theorem memchr8Flags_wordOf {l : List Nat} (h : Bytes l) (hl : l.length = 8) (pr : Bool) (c : UInt8)
    (hpr : pr = true → ∀ b ∈ l, b ^^^ c.toNat ≤ 128) :
    memchr8Flags pr (wordOf l) c = wordOf (flagLanes c.toNat l) := by
  have hA : ~~~cA = wordOf (List.replicate 8 0x80) := by decide
  have hx : wordOf l ^^^ extend c = wordOf (l.map (· ^^^ c.toNat)) := by
    rw [extend_eq, wordOf_xor h (Bytes.replicate (UInt8.toNat_lt _)) hl (by simp)]
    rw [← hl, zipWith_replicate_right]
  have hb : Bytes (l.map (· ^^^ c.toNat)) := h.map (fun b hb => byte_xor hb (UInt8.toNat_lt _))
  have hlen : (l.map (· ^^^ c.toNat)).length = 8 := by simp [hl]
  have hmap : ∀ (m : List Nat) (_ : Bytes m) (_ : m.length = 8) (f : Nat → Nat → Nat) (k : Nat),
      List.zipWith f m (List.replicate 8 k) = m.map (f · k) := by
    intro m _ hm f k; rw [← hm, zipWith_replicate_right]
  unfold memchr8Flags
  simp only [hx]
  cases pr with
  | true =>
    simp only [if_true]
    rw [cA_eq, wordOf_add hlen (by simp), hmap _ hb hlen, ← cA_eq, hA]
    have hb2 : Bytes ((l.map (· ^^^ c.toNat)).map (· + 0x7f)) := by
      intro x hx
      rw [List.map_map] at hx
      obtain ⟨a, ha, rfl⟩ := List.mem_map.mp hx
      have := hpr rfl a ha
      simp only [Function.comp]; omega
    have hb3 := hb2.map (f := (255 - ·)) (by intros; omega)
    rw [wordOf_not hb2 (by simp [hl]), wordOf_and hb3 (Bytes.replicate (by decide)) (by simp [hl]) (by simp)]
    rw [hmap _ hb3 (by simp [hl])]
    congr 1
    simp only [flagLanes, List.map_map]
    apply List.map_congr_left
    intro b hbl
    simp only [Function.comp]
    rw [byte_flag_printable _ (hpr rfl b hbl)]
    simp only [xor_eq_zero']
  | false =>
    simp only [Bool.false_eq_true, if_false]
    rw [cA_eq, wordOf_and hb (Bytes.replicate (by decide)) hlen (by simp), hmap _ hb hlen]
    rw [wordOf_add (by simp [hl]) (by simp)]
    rw [hmap _ (hb.map (fun b h => byte_and h)) (by simp [hl])]
    have hb2 : Bytes (((l.map (· ^^^ c.toNat)).map (· &&& 0x7f)).map (· + 0x7f)) := by
      rw [List.map_map]
      exact hb.map (fun b h => byte_and7f b h)
    rw [wordOf_or hb2 hb (by simp [hl]) hlen, ← cA_eq, hA]
    have hb3 := zipWith_Bytes (f := (· ||| ·)) (fun _ _ => byte_or) hb2 hb
    have hl3 : (List.zipWith (· ||| ·) (((l.map (· ^^^ c.toNat)).map (· &&& 0x7f)).map (· + 0x7f))
      (l.map (· ^^^ c.toNat))).length = 8 := by simp [hl]
    have hb4 := hb3.map (f := (255 - ·)) (by intros; omega)
    rw [wordOf_not hb3 hl3, wordOf_and hb4 (Bytes.replicate (by decide)) (by simp [hl]) (by simp)]
    rw [hmap _ hb4 (by simp [hl])]
    congr 1
    apply List.ext_getElem
    · simp [flagLanes, hl]
    · intro i h1 h2
      have hi : i < l.length := by simp [flagLanes] at h2; omega
      simp only [flagLanes, List.getElem_map, List.getElem_zipWith]
      rw [byte_flag_binary _ (byte_xor (h _ (List.getElem_mem hi)) (UInt8.toNat_lt _))]
      simp only [xor_eq_zero']

/-! ### counting zeros of flag words -/

theorem flagLanes_getD (c : Nat) (l : List Nat) (i : Nat) (hi : i < l.length) :
    (flagLanes c l).getD i 0 = if l.getD i 0 = c then 0x80 else 0 := by
  simp [flagLanes, List.getD_eq_getElem?_getD, hi]

theorem testBit_80 : ∀ i < 8, (0x80 : Nat).testBit i = decide (i = 7) := by decide

theorem flag_getLsbD {l : List Nat} (hl : l.length = 8) (c i : Nat) (hi : i < 64) :
    (wordOf (flagLanes c l)).getLsbD i = (decide (i % 8 = 7) && decide (l.getD (i / 8) 0 = c)) := by
  rw [wordOf_getLsbD (flagLanes_Bytes _ _) (by simp [flagLanes, hl]),
    flagLanes_getD _ _ _ (by omega)]
  split
  · next h => rw [testBit_80 _ (by omega), h]; simp
  · next h =>
    have hd : decide (l.getD (i / 8) 0 = c) = false := decide_eq_false h
    rw [hd]; simp

/-- `find?` over `List.range` is the least witness. -/
theorem find?_range_some {p : Nat → Bool} {n k : Nat} (hk : k < n) (hp : p k = true)
    (hlt : ∀ j < k, p j = false) : (List.range n).find? p = some k := by
  rw [List.find?_range_eq_some]
  refine ⟨hp, by simpa using hk, ?_⟩
  intro j hj; simp [hlt j hj]

theorem find?_range_none {p : Nat → Bool} {n : Nat}
    (h : ∀ j < n, p j = false) : (List.range n).find? p = none := by
  rw [List.find?_range_eq_none]; intro j hj; simp [h j hj]

theorem countrZero_flag_some {l : List Nat} (hl : l.length = 8) {c k : Nat} (hk : k < 8)
    (hc : l.getD k 0 = c) (hlt : ∀ j < k, l.getD j 0 ≠ c) :
    countrZero (wordOf (flagLanes c l)) = some (8 * k + 7) := by
  apply find?_range_some (by omega)
  · rw [flag_getLsbD hl _ _ (by omega)]
    have h1 : (8 * k + 7) / 8 = k := by omega
    have h2 : (8 * k + 7) % 8 = 7 := by omega
    rw [h1, h2]; simp only [hc, decide_true, Bool.and_self]
  · intro j hj
    rw [flag_getLsbD hl _ _ (by omega)]
    by_cases h7 : j % 8 = 7
    · have : j / 8 < k := by omega
      simp only [hlt _ this, decide_false, Bool.and_false]
    · simp only [h7, decide_false, Bool.false_and]

theorem countrZero_flag_none {l : List Nat} (hl : l.length = 8) {c : Nat}
    (hlt : ∀ j < 8, l.getD j 0 ≠ c) : countrZero (wordOf (flagLanes c l)) = none := by
  apply find?_range_none
  intro j hj
  rw [flag_getLsbD hl _ _ (by omega)]
  simp only [hlt _ (show j / 8 < 8 by omega), decide_false, Bool.and_false]

theorem countlZero_of {x : W} {k : Nat} (hk : k < 64) (hp : x.getLsbD k = true)
    (hgt : ∀ j, k < j → j < 64 → x.getLsbD j = false) : countlZero x = some (63 - k) := by
  apply find?_range_some (by omega)
  · rw [BitVec.getMsbD_eq_getLsbD]
    have : 64 - 1 - (63 - k) = k := by omega
    rw [this]; simp [hp]; omega
  · intro j hj
    rw [BitVec.getMsbD_eq_getLsbD]
    rw [hgt _ (by omega) (by omega)]; simp

theorem countlZero_flag_some {l : List Nat} (hl : l.length = 8) {c k : Nat} (hk : k < 8)
    (hc : l.getD k 0 = c) (hgt : ∀ j, k < j → j < 8 → l.getD j 0 ≠ c) :
    countlZero (wordOf (flagLanes c l)) = some (56 - 8 * k) := by
  have := countlZero_of (x := wordOf (flagLanes c l)) (k := 8 * k + 7) (by omega) (by
    rw [flag_getLsbD hl _ _ (by omega)]
    have h1 : (8 * k + 7) / 8 = k := by omega
    have h2 : (8 * k + 7) % 8 = 7 := by omega
    rw [h1, h2]; simp only [hc, decide_true, Bool.and_self]) (by
    intro j h1 h2
    rw [flag_getLsbD hl _ _ (by omega)]
    by_cases h7 : j % 8 = 7
    · simp only [hgt (j / 8) (by omega) (by omega), decide_false, Bool.and_false]
    · simp only [h7, decide_false, Bool.false_and])
  rw [this]; congr 1; omega

theorem countlZero_flag_or_some {l : List Nat} (hl : l.length = 8) {c k : Nat} (hk : k < 8)
    (hc : l.getD k 0 = c) (hgt : ∀ j, k < j → j < 8 → l.getD j 0 ≠ c) :
    countlZero (wordOf (flagLanes c l) ||| 1#64) = some (56 - 8 * k) := by
  have := countlZero_of (x := wordOf (flagLanes c l) ||| 1#64) (k := 8 * k + 7) (by omega) (by
    rw [BitVec.getLsbD_or, flag_getLsbD hl _ _ (by omega)]
    have h1 : (8 * k + 7) / 8 = k := by omega
    have h2 : (8 * k + 7) % 8 = 7 := by omega
    rw [h1, h2]; simp only [hc, decide_true, Bool.and_self, Bool.true_or]) (by
    intro j h1 h2
    rw [BitVec.getLsbD_or, flag_getLsbD hl _ _ (by omega)]
    have hj0 : (1#64).getLsbD j = false := by
      rw [BitVec.getLsbD_one]; simp; omega
    rw [hj0]
    by_cases h7 : j % 8 = 7
    · simp only [hgt (j / 8) (by omega) (by omega), decide_false, Bool.and_false, Bool.or_false]
    · simp only [h7, decide_false, Bool.false_and, Bool.or_false])
  rw [this]; congr 1; omega

theorem countlZero_flag_or_none {l : List Nat} (hl : l.length = 8) {c : Nat}
    (hlt : ∀ j < 8, l.getD j 0 ≠ c) :
    countlZero (wordOf (flagLanes c l) ||| 1#64) = some 63 := by
  apply countlZero_of (k := 0) (by omega)
  · rw [BitVec.getLsbD_or]; simp
  · intro j h1 h2
    rw [BitVec.getLsbD_or, flag_getLsbD hl _ _ (by omega)]
    have hj0 : (1#64).getLsbD j = false := by
      rw [BitVec.getLsbD_one]; simp; omega
    rw [hj0]
    simp only [hlt _ (show j / 8 < 8 by omega), decide_false, Bool.and_false, Bool.or_false]

end Verif
