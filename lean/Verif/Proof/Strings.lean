import Verif.Model.Strings
import Verif.Spec.StringOps
import Verif.Proof.Base64
/-!
# String operations: helper lemmas
-/
namespace Verif

theorem sub_length (m : Mem) (p n : Nat) : (m.sub p n).length = n := by simp [Mem.sub]

theorem sub_eq {m : Mem} {p : Nat} {s : List UInt8} (h : Holds m p s) : m.sub p s.length = s := by
  apply List.ext_getElem (sub_length _ _ _)
  intro i h1 h2
  simp only [Mem.sub, List.getElem_map, List.getElem_range]
  exact h i h2

theorem occursAt_iff {t p : List UInt8} {i : Nat} :
    OccursAt t p i ↔ i ≤ t.length ∧ p <+: t.drop i := by
  constructor
  · rintro ⟨a, b, rfl, rfl⟩
    refine ⟨by simp, b, ?_⟩
    simp
  · rintro ⟨h, b, hb⟩
    refine ⟨t.take i, b, ?_, by simp; omega⟩
    rw [List.append_assoc, hb, List.take_append_drop]

theorem occursAt_cons {x : UInt8} {t p : List UInt8} {i : Nat} :
    OccursAt (x :: t) p (i + 1) ↔ OccursAt t p i := by
  rw [occursAt_iff, occursAt_iff]; simp

theorem occursAt_zero {t p : List UInt8} : OccursAt t p 0 ↔ p <+: t := by
  rw [occursAt_iff]; simp

theorem strstr_some {h n : List UInt8} {i : Nat} : strstr h n = some i ↔ FirstOccurrence h n i := by
  unfold strstr
  rw [List.find?_range_eq_some]
  simp only [List.isPrefixOf_iff_prefix, Bool.not_eq_eq_eq_not, Bool.not_true, List.mem_range]
  unfold FirstOccurrence
  constructor
  · rintro ⟨h1, h2, h3⟩
    refine ⟨occursAt_iff.2 ⟨by omega, h1⟩, fun j hj hh => ?_⟩
    have := h3 j hj
    rw [← Bool.not_eq_true, List.isPrefixOf_iff_prefix] at this
    exact this (occursAt_iff.1 hh).2
  · rintro ⟨h1, h2⟩
    have h1 := occursAt_iff.1 h1
    refine ⟨h1.2, by omega, fun j hj => ?_⟩
    rw [← Bool.not_eq_true, List.isPrefixOf_iff_prefix]
    exact fun hh => h2 j hj (occursAt_iff.2 ⟨by omega, hh⟩)

theorem strstr_none {h n : List UInt8} : strstr h n = none ↔ ∀ i, ¬ OccursAt h n i := by
  unfold strstr
  rw [List.find?_eq_none]
  simp only [List.mem_range, List.isPrefixOf_iff_prefix]
  constructor
  · intro hh i hi
    have := occursAt_iff.1 hi
    exact hh i (by omega) this.2
  · intro hh i hi hp
    exact hh i (occursAt_iff.2 ⟨by omega, hp⟩)

theorem split_or (h n : List UInt8) :
    (∀ i, ¬ OccursAt h n i) ∨ ∃ a r, h = a ++ n ++ r ∧ FirstOccurrence h n a.length := by
  cases hs : strstr h n with
  | none => exact Or.inl (strstr_none.1 hs)
  | some i =>
    right
    have hf := strstr_some.1 hs
    obtain ⟨a, b, hab, hl⟩ := hf.1
    exact ⟨a, b, hab, hl ▸ hf⟩

theorem exists_split (d : List UInt8) (hd : d ≠ []) : ∀ (n : Nat) (s : List UInt8), s.length ≤ n →
    ∃ ts, IsSplit d s ts ∧ ts.length ≤ s.length + 1 := by
  intro n
  induction n with
  | zero =>
    intro s hs
    have : s = [] := List.eq_nil_of_length_eq_zero (by omega)
    subst this
    refine ⟨[[]], .last (fun i hi => ?_), by simp⟩
    have := occursAt_iff.1 hi
    simp at this
    exact hd this.2
  | succ n ih =>
    intro s hs
    rcases split_or s d with h | ⟨a, r, rfl, h⟩
    · exact ⟨[s], .last h, by simp⟩
    · have hp : 0 < d.length := List.length_pos_iff.2 hd
      simp only [List.length_append] at hs
      obtain ⟨ts, h1, h2⟩ := ih r (by omega)
      refine ⟨a :: ts, .cut h h1, ?_⟩
      simp only [List.length_append, List.length_cons]; omega

theorem IsSplit.ne_nil {d s : List UInt8} {ts : List (List UInt8)} (h : IsSplit d s ts) : ts ≠ [] := by
  cases h <;> simp

theorem joinWith_cons {d t : List UInt8} {ts : List (List UInt8)} (h : ts ≠ []) :
    joinWith d (t :: ts) = t ++ d ++ joinWith d ts := by
  cases ts with
  | nil => exact absurd rfl h
  | cons u us => rfl

theorem IsSplit.join {d s : List UInt8} {ts : List (List UInt8)} (h : IsSplit d s ts) :
    joinWith d ts = s := by
  induction h with
  | last => rfl
  | cut _ h2 ih => rw [joinWith_cons h2.ne_nil, ih]

theorem IsSplit.tokens_free {d s : List UInt8} {ts : List (List UInt8)} (h : IsSplit d s ts)
    (hd : d ≠ []) : ∀ t ∈ ts, ∀ i, ¬ OccursAt t d i := by
  induction h with
  | last h => intro t ht; simp only [List.mem_singleton] at ht; subst ht; exact h
  | @cut t rest ts hf _ ih =>
    intro u hu
    rcases List.mem_cons.1 hu with rfl | hu
    · rintro i ⟨a, b, hab, rfl⟩
      have hp : 0 < d.length := List.length_pos_iff.2 hd
      have hl := congrArg List.length hab
      simp only [List.length_append] at hl
      exact hf.2 a.length (by omega) ⟨a, b ++ d ++ rest, by rw [hab]; simp, rfl⟩
    · exact ih u hu

theorem IsSplit.unique {d s : List UInt8} {ts us : List (List UInt8)} (h : IsSplit d s ts)
    (h' : IsSplit d s us) : ts = us := by
  induction h generalizing us with
  | @last s h =>
    generalize hs : s = s' at h'
    cases h' with
    | last => rfl
    | cut hf _ => subst hs; exact absurd hf.1 (h _)
  | @cut t rest ts hf _ ih =>
    generalize hs : t ++ d ++ rest = s' at h'
    cases h' with
    | last h => exact absurd (hs ▸ hf.1) (h _)
    | @cut t' rest' ts' hf' h2 =>
      have hl : t.length = t'.length := by
        rw [hs] at hf
        rcases Nat.lt_trichotomy t.length t'.length with h | h | h
        · exact absurd hf.1 (hf'.2 _ h)
        · exact h
        · exact absurd hf'.1 (hf.2 _ h)
      have e := List.append_inj (List.append_assoc t d rest ▸ List.append_assoc t' d rest' ▸ hs) hl
      have e2 := List.append_inj_right e.2 rfl
      rw [e.1, ih (e2 ▸ h2)]

theorem IsSplit.nz {d s : List UInt8} {ts : List (List UInt8)} (h : IsSplit d s ts)
    (hz : ∀ b ∈ s, b ≠ 0) : ∀ t ∈ ts, ∀ b ∈ t, b ≠ 0 := by
  induction h with
  | last h => intro t ht; simp only [List.mem_singleton] at ht; subst ht; exact hz
  | @cut t rest ts hf _ ih =>
    intro u hu
    rcases List.mem_cons.1 hu with rfl | hu
    · exact fun b hb => hz b (by simp [hb])
    · exact ih (fun b hb => hz b (by simp [hb])) u hu

theorem splitCount_spec {d s : List UInt8} {ts : List (List UInt8)} (h : IsSplit d s ts) :
    ∀ (fuel nb : Nat), ts.length ≤ fuel → splitCount d fuel s nb = some (nb + ts.length - 1) := by
  induction h with
  | last h =>
    intro fuel nb hf
    cases fuel with
    | zero => simp at hf
    | succ fuel => rw [splitCount, strstr_none.2 h]; simp
  | @cut t rest ts hf h2 ih =>
    intro fuel nb hfu
    cases fuel with
    | zero => simp at hfu
    | succ fuel =>
      rw [splitCount, strstr_some.2 hf]
      simp only
      have e : (t ++ d ++ rest).drop (t.length + d.length) = rest := by
        rw [← List.length_append, List.drop_left]
      simp only [List.length_cons] at hfu ⊢
      rw [e, ih fuel (nb + 1) (by omega)]
      congr 1; omega

/-- Offsets of the tokens when the first starts at `p` and delimiters have length `dl`. -/
def tokOffs (dl : Nat) : Nat → List (List UInt8) → List Nat
  | _, [] => []
  | p, t :: ts => p :: tokOffs dl (p + t.length + dl) ts

theorem tokOffs_length (dl : Nat) : ∀ (ts : List (List UInt8)) (p : Nat),
    (tokOffs dl p ts).length = ts.length := by
  intro ts
  induction ts with
  | nil => intro p; rfl
  | cons t ts ih => intro p; simp [tokOffs, ih]

theorem cstrAt_block (pre s post : List UInt8) (hz : ∀ b ∈ s, b ≠ 0) :
    cstrAt (pre ++ s ++ 0 :: post) pre.length = s := by
  unfold cstrAt
  rw [List.append_assoc, List.drop_left, List.takeWhile_append_of_pos (by simpa using hz)]
  simp

theorem splitCut_spec {d s : List UInt8} {ts : List (List UInt8)} (h : IsSplit d s ts) (hd : d ≠ [])
    (nslots : Nat) : ∀ (fuel : Nat) (pre : List UInt8) (ptrs : List (Option Nat)),
    (∀ b ∈ s, b ≠ 0) → ts.length ≤ fuel → ptrs.length + ts.length - 1 ≤ nslots →
    splitCut d nslots fuel pre.length ptrs (pre ++ s ++ [0]) =
      some (some (ptrs ++ ((tokOffs d.length pre.length ts).tail.map some),
        pre ++ joinWith (0 :: d.tail) ts ++ [0])) := by
  induction h with
  | last h =>
    intro fuel pre ptrs hz hf hn
    cases fuel with
    | zero => simp at hf
    | succ fuel =>
      rw [splitCut, cstrAt_block _ _ _ hz, strstr_none.2 h]
      simp [tokOffs, joinWith]
  | @cut t rest ts hf h2 ih =>
    intro fuel pre ptrs hz hfu hn
    have hts := List.length_pos_iff.2 h2.ne_nil
    cases fuel with
    | zero => simp at hfu
    | succ fuel =>
      rw [splitCut, cstrAt_block _ _ _ hz, strstr_some.2 hf]
      simp only [List.length_cons] at hfu hn ⊢
      obtain ⟨x, d', rfl⟩ := List.exists_cons_of_ne_nil hd
      have hput : put (pre ++ (t ++ x :: d' ++ rest) ++ [0]) (pre.length + t.length) 0
          = some ((pre ++ t ++ 0 :: d') ++ rest ++ [0]) := by
        unfold put
        rw [if_pos (by simp), ← List.length_append]
        congr 1
        have e : pre ++ (t ++ x :: d' ++ rest) ++ [0] = (pre ++ t) ++ x :: (d' ++ rest ++ [0]) := by simp
        rw [e, List.set_append_right _ _ (Nat.le_refl _), Nat.sub_self, List.set_cons_zero]
        simp
      rw [hput]
      simp only
      have hlt : ptrs.length < nslots := by omega
      rw [if_pos hlt]
      have e1 : pre.length + t.length + (d'.length + 1) = (pre ++ t ++ 0 :: d').length := by
        simp [Nat.add_assoc]
      have := ih fuel (pre ++ t ++ 0 :: d') (ptrs ++ [some (pre ++ t ++ 0 :: d').length])
        (fun b hb => hz b (by simp [hb])) (by omega) (by simp; omega)
      simp only [List.length_cons] at this ⊢
      rw [e1, this]
      obtain ⟨u, us, rfl⟩ := List.exists_cons_of_ne_nil h2.ne_nil
      simp only [tokOffs, List.tail_cons, List.map_cons, joinWith_cons (List.cons_ne_nil _ _)]
      rw [e1]
      simp

/-- Each token is NUL-terminated at its offset. -/
theorem tokOffs_token (d0 : List UInt8) : ∀ (ts : List (List UInt8)) (pre : List UInt8) (k : Nat)
    (hk : k < ts.length), ∃ off, (tokOffs (d0.length + 1) pre.length ts)[k]? = some off ∧
      ((pre ++ joinWith (0 :: d0) ts ++ [0]).drop off).take (ts[k].length + 1) = ts[k] ++ [0] := by
  intro ts
  induction ts with
  | nil => intro pre k hk; simp at hk
  | cons t ts ih =>
    intro pre k hk
    cases k with
    | zero =>
      refine ⟨pre.length, by simp [tokOffs], ?_⟩
      rw [List.append_assoc, List.drop_left]
      cases ts with
      | nil =>
        simp only [joinWith, List.getElem_cons_zero]
        rw [List.take_of_length_le (by simp)]
      | cons u us =>
        rw [joinWith_cons (List.cons_ne_nil _ _)]
        simp only [List.getElem_cons_zero, List.append_assoc, List.cons_append]
        rw [List.take_append, List.take_of_length_le (by omega)]
        simp
    | succ k =>
      simp only [List.length_cons] at hk
      have hne : ts ≠ [] := by rintro rfl; simp at hk
      obtain ⟨off, h1, h2⟩ := ih (pre ++ t ++ 0 :: d0) k (by omega)
      have e : pre.length + t.length + (d0.length + 1) = (pre ++ t ++ 0 :: d0).length := by
        simp [Nat.add_assoc]
      refine ⟨off, ?_, ?_⟩
      · simp only [tokOffs, List.getElem?_cons_succ]
        rw [e]; exact h1
      · simp only [List.getElem_cons_succ]
        rw [← h2, joinWith_cons hne]
        simp

/-! ### Replacement -/

/-- Character by character view of a split. -/
inductive ScanTo (n : List UInt8) : List UInt8 → List (List UInt8) → Prop
  | nil : ScanTo n [] [[]]
  | char {x h t ts} : ¬ n <+: x :: h → ScanTo n h (t :: ts) → ScanTo n (x :: h) ((x :: t) :: ts)
  | hit {h ts} : ScanTo n h ts → ScanTo n (n ++ h) ([] :: ts)

theorem ScanTo.ne_nil {n h : List UInt8} {ts : List (List UInt8)} (hs : ScanTo n h ts) : ts ≠ [] := by
  cases hs <;> simp

theorem scan_of_absent {n : List UInt8} : ∀ (h : List UInt8), (∀ i, ¬ OccursAt h n i) →
    ScanTo n h [h] := by
  intro h
  induction h with
  | nil => intro _; exact .nil
  | cons x h ih =>
    intro hh
    exact .char (fun hp => hh 0 (occursAt_zero.2 hp)) (ih fun i hi => hh (i + 1) (occursAt_cons.2 hi))

theorem scan_of_first {n rest : List UInt8} {ts : List (List UInt8)} (hr : ScanTo n rest ts) :
    ∀ (a : List UInt8), FirstOccurrence (a ++ n ++ rest) n a.length →
      ScanTo n (a ++ n ++ rest) (a :: ts) := by
  intro a
  induction a with
  | nil => intro _; exact .hit hr
  | cons x a ih =>
    intro hf
    refine .char (fun hp => hf.2 0 (by simp) (occursAt_zero.2 hp)) (ih ?_)
    refine ⟨⟨a, rest, rfl, rfl⟩, fun j hj hh => hf.2 (j + 1) (by simp; omega) (occursAt_cons.2 hh)⟩

theorem IsSplit.scan {n h : List UInt8} {ts : List (List UInt8)} (hs : IsSplit n h ts) :
    ScanTo n h ts := by
  induction hs with
  | last h => exact scan_of_absent _ h
  | cut hf _ ih => exact scan_of_first ih _ hf

theorem replaceCount_spec {n : List UInt8} (hn : n ≠ []) {h : List UInt8} {ts : List (List UInt8)}
    (hs : ScanTo n h ts) : ∀ (fuel : Nat) (pre : List UInt8) (cnt : Nat),
    (pre ++ h).length < 2 ^ 64 → h.length < fuel →
    replaceCount (pre ++ h) n fuel (BitVec.ofNat 64 pre.length) (BitVec.ofNat 64 cnt) =
      some (BitVec.ofNat 64 (pre ++ h).length, BitVec.ofNat 64 (cnt + ts.length - 1)) := by
  induction hs with
  | nil =>
    intro fuel pre cnt hl hf
    cases fuel with
    | zero => simp at hf
    | succ fuel =>
      simp only [List.append_nil] at hl ⊢
      rw [replaceCount, if_neg (by rw [BitVec.toNat_ofNat, Nat.mod_eq_of_lt hl]; omega)]
      simp
  | @char x h t ts hp hs ih =>
    intro fuel pre cnt hl hf
    cases fuel with
    | zero => simp at hf
    | succ fuel =>
      have e : (BitVec.ofNat 64 pre.length).toNat = pre.length := by
        rw [BitVec.toNat_ofNat, Nat.mod_eq_of_lt]
        simp only [List.length_append] at hl; omega
      simp only [List.length_cons] at hf
      rw [replaceCount, if_pos (by rw [e]; simp), e, List.drop_left]
      rw [if_neg (by rw [List.isPrefixOf_iff_prefix]; exact hp)]
      have := ih fuel (pre ++ [x]) cnt (by simpa using hl) (by omega)
      simp only [List.append_assoc, List.singleton_append] at this
      rw [← BitVec.ofNat_add, show pre.length + 1 = (pre ++ [x]).length by simp, this]
      simp
  | @hit h ts hs ih =>
    intro fuel pre cnt hl hf
    cases fuel with
    | zero => simp at hf
    | succ fuel =>
      have hpos := List.length_pos_iff.2 hn
      have hts := List.length_pos_iff.2 hs.ne_nil
      have e : (BitVec.ofNat 64 pre.length).toNat = pre.length := by
        rw [BitVec.toNat_ofNat, Nat.mod_eq_of_lt]
        simp only [List.length_append] at hl; omega
      simp only [List.length_append] at hf
      rw [replaceCount, if_pos (by rw [e]; simp; omega), e, List.drop_left]
      rw [if_pos (by rw [List.isPrefixOf_iff_prefix]; exact List.prefix_append _ _)]
      have := ih fuel (pre ++ n) (cnt + 1) (by simpa using hl) (by omega)
      simp only [List.append_assoc] at this
      have e2 : BitVec.ofNat 64 pre.length + (BitVec.ofNat 64 n.length - 1#64) + 1#64
          = BitVec.ofNat 64 (pre ++ n).length := by
        rw [BitVec.add_assoc, BitVec.sub_add_cancel, ← BitVec.ofNat_add, List.length_append]
      rw [e2, ← BitVec.ofNat_add, this]
      simp only [List.length_cons]
      congr 3
      omega

theorem replaceBuild_spec {n : List UInt8} (hn : n ≠ []) (r : List UInt8) {h : List UInt8}
    {ts : List (List UInt8)} (hs : ScanTo n h ts) : ∀ (fuel i : Nat) (res : List UInt8),
    i + (joinWith r ts).length + 1 = res.length → h.length < fuel →
    replaceBuild n r fuel h i res = .ok (res.take i ++ joinWith r ts ++ [0]) := by
  induction hs with
  | nil =>
    intro fuel i res hl hf
    cases fuel with
    | zero => simp at hf
    | succ fuel =>
      simp only [joinWith, List.length_nil] at hl
      rw [replaceBuild, putAll_ok _ _ _ (by simp; omega)]
      simp only [List.length_singleton, joinWith]
      rw [List.drop_of_length_le (by omega)]
      simp
  | @char x h t ts hp hs ih =>
    intro fuel i res hl hf
    cases fuel with
    | zero => simp at hf
    | succ fuel =>
      have hj : joinWith r ((x :: t) :: ts) = x :: joinWith r (t :: ts) := by
        cases ts <;> rfl
      rw [hj] at hl ⊢
      simp only [List.length_cons] at hl hf
      rw [replaceBuild, if_neg (by rw [List.isPrefixOf_iff_prefix]; exact hp),
        putAll_ok _ _ _ (by simp; omega)]
      simp only
      rw [ih fuel (i + 1) _ (by simp; omega) (by omega), List.append_assoc (res.take i),
        take_block _ _ _ (by omega)]
      simp
  | @hit h ts hs ih =>
    intro fuel i res hl hf
    cases fuel with
    | zero => simp at hf
    | succ fuel =>
      have hpos := List.length_pos_iff.2 hn
      rw [joinWith_cons hs.ne_nil] at hl ⊢
      simp only [List.length_append, List.length_nil] at hl hf
      obtain ⟨x, n', rfl⟩ := List.exists_cons_of_ne_nil hn
      rw [List.cons_append, replaceBuild, ← List.cons_append,
        if_pos (by rw [List.isPrefixOf_iff_prefix]; exact List.prefix_append _ _),
        putAll_ok _ _ _ (by omega)]
      simp only
      rw [List.drop_left, ih fuel (i + r.length) _ (by simp; omega) (by omega),
        List.append_assoc (res.take i), take_block _ _ _ (by omega)]
      simp

theorem joinWith_length (d : List UInt8) : ∀ (ts : List (List UInt8)), ts ≠ [] →
    (joinWith d ts).length = (ts.map List.length).sum + (ts.length - 1) * d.length := by
  intro ts
  induction ts with
  | nil => intro h; exact absurd rfl h
  | cons t ts ih =>
    intro _
    by_cases h : ts = []
    · subst h; simp [joinWith]
    · have := List.length_pos_iff.2 h
      rw [joinWith_cons h]
      simp only [List.length_append, ih h, List.map_cons, List.sum_cons, List.length_cons]
      obtain ⟨k, hk⟩ : ∃ k, ts.length = k + 1 := ⟨ts.length - 1, by omega⟩
      rw [hk]
      simp only [Nat.add_sub_cancel, Nat.add_mul, Nat.one_mul]
      omega

/-- The allocated size of `str_replace_ex`. -/
theorem replace_size {n h : List UInt8} (r : List UInt8) {ts : List (List UInt8)}
    (hs : IsSplit n h ts) :
    BitVec.ofNat 64 h.length + BitVec.ofNat 64 (ts.length - 1) *
      (BitVec.ofNat 64 r.length - BitVec.ofNat 64 n.length)
      = BitVec.ofNat 64 (joinWith r ts).length := by
  have h1 := joinWith_length n ts hs.ne_nil
  have h2 := joinWith_length r ts hs.ne_nil
  rw [hs.join] at h1
  rw [h1, h2]
  rw [BitVec.ofNat_add, BitVec.ofNat_add, BitVec.ofNat_mul, BitVec.ofNat_mul]
  grind

/-! ### Concatenation -/

theorem concatSize_spec (m : Mem) (fuel : Nat) : ∀ (args : List Nat) (ss : List (List UInt8)),
    args.length = ss.length →
    (∀ k (h : k < args.length) (h' : k < ss.length), CStr m args[k] ss[k] ∧ ss[k].length / 8 < fuel) →
    ∀ acc : Nat, concatSize m fuel args (BitVec.ofNat 64 acc)
      = some (BitVec.ofNat 64 (acc + ss.flatten.length)) := by
  intro args
  induction args with
  | nil =>
    intro ss hl _ acc
    have : ss = [] := List.eq_nil_of_length_eq_zero (by simpa using hl.symm)
    subst this
    simp [concatSize]
  | cons p ps ih =>
    intro ss hl h acc
    cases ss with
    | nil => simp at hl
    | cons s ss =>
      have h0 := h 0 (by simp) (by simp)
      simp only [List.getElem_cons_zero] at h0
      rw [concatSize, (simdStrlen_spec h0.1 fuel h0.2).1]
      simp only
      rw [← BitVec.ofNat_add, ih ss (by simpa using hl) (fun k hk hk' => by
        have := h (k + 1) (by simp; omega) (by simp; omega); simpa using this)]
      simp [Nat.add_assoc]

theorem concatCopy_spec (m : Mem) (fuel : Nat) : ∀ (args : List Nat) (ss : List (List UInt8)),
    args.length = ss.length →
    (∀ k (h : k < args.length) (h' : k < ss.length), CStr m args[k] ss[k] ∧ ss[k].length / 8 < fuel) →
    ∀ (off : Nat) (res : List UInt8), off + ss.flatten.length ≤ res.length → res.length < 2 ^ 64 →
    concatCopy m fuel args (BitVec.ofNat 64 off) res
      = .ok (res.take off ++ ss.flatten ++ res.drop (off + ss.flatten.length)) := by
  intro args
  induction args with
  | nil =>
    intro ss hl _ off res h1 h2
    have : ss = [] := List.eq_nil_of_length_eq_zero (by simpa using hl.symm)
    subst this
    simp [concatCopy]
  | cons p ps ih =>
    intro ss hl h off res h1 h2
    cases ss with
    | nil => simp at hl
    | cons s ss =>
      have h0 := h 0 (by simp) (by simp)
      simp only [List.getElem_cons_zero] at h0
      simp only [List.flatten_cons, List.length_append] at h1
      have e : (BitVec.ofNat 64 off).toNat = off := by
        rw [BitVec.toNat_ofNat, Nat.mod_eq_of_lt (by omega)]
      rw [concatCopy, (simdStrlen_spec h0.1 fuel h0.2).1]
      simp only
      rw [e, sub_eq h0.1.2.1, putAll_ok _ _ _ (by omega)]
      simp only
      rw [← BitVec.ofNat_add, ih ss (by simpa using hl) (fun k hk hk' => by
        have := h (k + 1) (by simp; omega) (by simp; omega); simpa using this) _ _
        (by simp only [List.length_append, List.length_take, List.length_drop]; omega)
        (by simp only [List.length_append, List.length_take, List.length_drop]; omega)]
      rw [List.append_assoc (res.take off), take_block _ _ _ (by omega)]
      congr 1
      have e3 : (res.take off ++ (s ++ res.drop (off + s.length))).drop
          (off + s.length + ss.flatten.length) = res.drop (off + (s.length + ss.flatten.length)) := by
        rw [← List.append_assoc, List.drop_append, List.drop_of_length_le (by simp; omega)]
        simp only [List.length_append, List.length_take, List.nil_append, List.drop_drop]
        congr 1; omega
      rw [e3]
      simp

/-! ### strpos -/

theorem strposInner_iff (m : Mem) (text pat : Nat) : ∀ (k d e : Nat),
    strposInner m text pat k d e = true ↔ ∀ i < k, m (pat + (d + i)) = m (text + (e + i)) := by
  intro k
  induction k with
  | zero => intro d e; simp [strposInner]
  | succ k ih =>
    intro d e
    rw [strposInner]
    by_cases h : m (pat + d) = m (text + e)
    · rw [if_pos h, ih]
      constructor
      · intro hh i hi
        cases i with
        | zero => simpa using h
        | succ i => have := hh i (by omega); rw [show d + (i + 1) = d + 1 + i by omega,
                      show e + (i + 1) = e + 1 + i by omega]; exact this
      · intro hh i hi
        have := hh (i + 1) (by omega)
        rw [show d + (i + 1) = d + 1 + i by omega, show e + (i + 1) = e + 1 + i by omega] at this
        exact this
    · rw [if_neg h]
      constructor
      · intro hh; cases hh
      · intro hh; exact absurd (by have := hh 0 (by omega); simpa using this) h

theorem strposInner_occurs {m : Mem} {text pat : Nat} {t p : List UInt8} (ht : CStr m text t)
    (hp : CStr m pat p) (c : Nat) (hc : c + p.length ≤ t.length) :
    strposInner m text pat p.length 0 c = true ↔ OccursAt t p c := by
  rw [strposInner_iff, occursAt_iff]
  have hb : ∀ i (h : i < p.length), (m (pat + (0 + i)) = m (text + (c + i)) ↔ p[i] = t[c + i]) := by
    intro i hi
    rw [Nat.zero_add, hp.2.1 i hi, ht.2.1 (c + i) (by omega)]
  constructor
  · intro h
    refine ⟨by omega, t.drop (c + p.length), ?_⟩
    have : p = (t.drop c).take p.length := by
      apply List.ext_getElem (by simp; omega)
      intro i h1 h2
      rw [List.getElem_take, List.getElem_drop]
      exact (hb i h1).1 (h i h1)
    conv => lhs; lhs; rw [this]
    rw [← List.drop_drop, List.take_append_drop]
  · rintro ⟨_, r, hr⟩ i hi
    rw [hb i hi]
    have : (t.drop c)[i]'(by simp; omega) = p[i] := by
      have : (p ++ r)[i]'(by simp; omega) = p[i] := List.getElem_append_left hi
      rw [← this]; congr 1; exact hr.symm
    rw [← this, List.getElem_drop]

theorem strposLoop_found {m : Mem} {text pat : Nat} {t p : List UInt8} (ht : CStr m text t)
    (hp : CStr m pat p) {j : Nat} (hj : FirstOccurrence t p j) :
    ∀ (k c : Nat), c ≤ j → j < c + k → c + k + p.length = t.length + 1 →
      strposLoop m text pat p.length k c = BitVec.ofNat 32 j := by
  intro k
  induction k with
  | zero => intro c h1 h2; omega
  | succ k ih =>
    intro c h1 h2 h3
    rw [strposLoop]
    by_cases h : c = j
    · subst h
      rw [if_pos ((strposInner_occurs ht hp c (by omega)).2 hj.1)]
    · rw [if_neg (fun hh => hj.2 c (by omega) ((strposInner_occurs ht hp c (by omega)).1 hh))]
      exact ih (c + 1) (by omega) (by omega) (by omega)

theorem strposLoop_absent {m : Mem} {text pat : Nat} {t p : List UInt8} (ht : CStr m text t)
    (hp : CStr m pat p) (hno : ∀ i, ¬ OccursAt t p i) :
    ∀ (k c : Nat), c + k + p.length = t.length + 1 →
      strposLoop m text pat p.length k c = -1#32 := by
  intro k
  induction k with
  | zero => intro c _; rfl
  | succ k ih =>
    intro c h3
    rw [strposLoop, if_neg (fun hh => hno c ((strposInner_occurs ht hp c (by omega)).1 hh))]
    exact ih (c + 1) (by omega)

end Verif
