import Verif.Spec.Tls
/-!
# Thread-local variables: proofs
-/
namespace Verif.Tl

theorem native {s : N} {past : List (Nat × Op)}
    (hb : ∀ t v, s.buffer t v = (lastWrite t v past).getD 0) (hu : ∀ t v, s.tls t v = used t v past)
    (h : List (Nat × Op)) : runWith N.step s h = expectedAll past h := by
  induction h generalizing s past with
  | nil => rfl
  | cons o h ih =>
    obtain ⟨t, op⟩ := o
    rw [runWith, expectedAll]
    have gb : ∀ v, (s.get t v).buffer = s.buffer := by intro v; unfold N.get; split <;> rfl
    have gt : ∀ v t' v', (s.get t v).tls t' v' = ((t == t' && v == v') || s.tls t' v') := by
      intro v t' v'
      unfold N.get
      split
      · by_cases e : t = t' ∧ v = v'
        · obtain ⟨rfl, rfl⟩ := e; simp_all
        · have : (t == t' && v == v') = false := by simpa using e
          simp [this]
      · by_cases e : t = t' ∧ v = v'
        · obtain ⟨rfl, rfl⟩ := e; simp
        · have h1 : (t == t' && v == v') = false := by simpa using e
          have h2 : ¬ (t' = t ∧ v' = v) := fun ⟨a, b⟩ => e ⟨a.symm, b.symm⟩
          simp [h1, h2]
    cases op with
    | write v x =>
      congr 1
      refine ih (fun t' v' => ?_) (fun t' v' => ?_)
      · simp only [N.step, lastWrite, gb, hb]
        by_cases e : t = t' ∧ v = v'
        · obtain ⟨rfl, rfl⟩ := e; simp
        · have h2 : ¬ (t' = t ∧ v' = v) := fun ⟨a, b⟩ => e ⟨a.symm, b.symm⟩
          simp [e, h2]
      · simp only [N.step, used, gt, hu]
    | read v =>
      have e1 : (N.step s t (.read v)).2 = expected past t (.read v) := by
        simp only [N.step, expected, gb, hb]
      rw [e1]
      congr 1
      refine ih (fun t' v' => ?_) (fun t' v' => ?_)
      · simp only [N.step, lastWrite, gb, hb]
      · simp only [N.step, used, gt, hu]
    | isEmpty v =>
      have e1 : (N.step s t (.isEmpty v)).2 = expected past t (.isEmpty v) := by
        simp only [N.step, expected, hu]
      rw [e1]
      congr 1
      exact ih hb hu

/-- The emulated state after the history `past`. -/
structure EI (s : E) (past : List (Nat × Op)) : Prop where
  made : ∀ v, s.made v = everUsed v past
  key_lt : ∀ v, s.made v = true → s.key v < s.keys
  key_inj : ∀ v v', s.made v = true → s.made v' = true → s.key v = s.key v' → v = v'
  slot : ∀ t v, s.made v = true → (s.slot t (s.key v)).isSome = used t v past
  slot_keys : ∀ t k, (s.slot t k).isSome = true → k < s.keys
  slot_blocks : ∀ t k b, s.slot t k = some b → b < s.blocks
  slot_inj : ∀ t k t' k' b, s.slot t k = some b → s.slot t' k' = some b → t = t' ∧ k = k'
  heap : ∀ t v b x, s.made v = true → s.slot t (s.key v) = some b → lastWrite t v past = some x → s.heap b = x

theorem EI.start : EI E.start [] where
  made _ := rfl
  key_lt _ h := by cases h
  key_inj _ _ h := by cases h
  slot _ _ h := by cases h
  slot_keys _ _ h := by cases h
  slot_blocks _ _ _ h := by cases h
  slot_inj _ _ _ _ _ h := by cases h
  heap _ _ _ _ h := by cases h

theorem used_ever {t v : Nat} {past : List (Nat × Op)} (h : used t v past = true) : everUsed v past = true := by
  induction past with
  | nil => cases h
  | cons o past ih =>
    obtain ⟨t', op⟩ := o
    cases op with
    | write v' x =>
      simp only [used, Bool.or_eq_true, Bool.and_eq_true] at h
      simp only [everUsed, Bool.or_eq_true]
      rcases h with h | h
      · exact .inl h.2
      · exact .inr (ih h)
    | read v' =>
      simp only [used, Bool.or_eq_true, Bool.and_eq_true] at h
      simp only [everUsed, Bool.or_eq_true]
      rcases h with h | h
      · exact .inl h.2
      · exact .inr (ih h)
    | isEmpty v' => exact ih h

theorem lastWrite_used {t v x : Nat} {past : List (Nat × Op)} (h : lastWrite t v past = some x) :
    used t v past = true := by
  induction past with
  | nil => cases h
  | cons o past ih =>
    obtain ⟨t', op⟩ := o
    cases op with
    | write v' y =>
      simp only [lastWrite] at h
      simp only [used, Bool.or_eq_true]
      split at h
      · rename_i e; left; simp [e.1, e.2]
      · exact .inr (ih h)
    | read v' =>
      simp only [used, Bool.or_eq_true]
      exact .inr (ih h)
    | isEmpty v' => exact ih h

/-- The variable is set up, if it was not. -/
theorem EI.setup {s : E} {past : List (Nat × Op)} (h : EI s past) (v : Nat) :
    ∃ s1, (if s.made v then s else (s.mark v).create v) = s1 ∧ s1.made v = true ∧
      (∀ v', s1.made v' = (v == v' || everUsed v' past)) ∧ s1.heap = s.heap ∧ s1.blocks = s.blocks ∧ s1.slot = s.slot ∧
      (∀ v', s1.made v' = true → s1.key v' < s1.keys) ∧
      (∀ v' v'', s1.made v' = true → s1.made v'' = true → s1.key v' = s1.key v'' → v' = v'') ∧
      (∀ t v', s1.made v' = true → (s1.slot t (s1.key v')).isSome = used t v' past) ∧
      (∀ t k, (s1.slot t k).isSome = true → k < s1.keys) ∧
      (∀ t v' b x, s1.made v' = true → s1.slot t (s1.key v') = some b → lastWrite t v' past = some x → s1.heap b = x) := by
  refine ⟨_, rfl, ?_⟩
  by_cases hm : s.made v = true
  · rw [if_pos hm]
    refine ⟨hm, ?_, rfl, rfl, rfl, h.key_lt, h.key_inj, h.slot, h.slot_keys, h.heap⟩
    intro v'
    rw [h.made]
    by_cases e : v = v'
    · subst e; rw [h.made] at hm; simp [hm]
    · simp [e]
  · rw [if_neg hm]
    have hm' : s.made v = false := by simpa using hm
    have made' : ∀ v', (v == v' || s.made v') = true ↔ v' = v ∨ s.made v' = true := by
      intro v'; rw [Bool.or_eq_true, beq_iff_eq]; exact ⟨Or.imp_left Eq.symm, Or.imp_left Eq.symm⟩
    have e1 : ∀ v', ((s.mark v).create v).made v' = (v == v' || s.made v') := by
      intro v'
      simp only [E.mark, E.create]
      by_cases e : v' = v
      · simp [e]
      · simp [e, Ne.symm e]
    have e2 : ∀ v', ((s.mark v).create v).key v' = if v' = v then s.keys else s.key v' := fun _ => rfl
    have e3 : ((s.mark v).create v).keys = s.keys + 1 := rfl
    have e4 : ((s.mark v).create v).slot = s.slot := rfl
    have hunused : ∀ t, used t v past = false := by
      intro t
      cases hu : used t v past with
      | false => rfl
      | true => rw [h.made, used_ever hu] at hm'; cases hm'
    have hnone : ∀ t, s.slot t s.keys = none := by
      intro t
      cases hs : s.slot t s.keys with
      | none => rfl
      | some b => have := h.slot_keys t s.keys (by rw [hs]; rfl); omega
    refine ⟨by rw [e1]; simp, fun v' => by rw [e1, h.made], rfl, rfl, rfl, ?_, ?_, ?_, ?_, ?_⟩
    · intro v' h'
      rw [e1, made'] at h'
      rw [e2, e3]
      split
      · omega
      · rename_i hne
        rcases h' with h' | h'
        · exact absurd h' hne
        · have := h.key_lt v' h'; omega
    · intro v' v'' h' h'' hk
      rw [e1, made'] at h' h''
      rw [e2, e2] at hk
      split at hk <;> split at hk
      · rename_i a b; rw [a, b]
      · rename_i a b
        rcases h'' with h'' | h''
        · exact absurd h'' b
        · have := h.key_lt v'' h''; omega
      · rename_i a b
        rcases h' with h' | h'
        · exact absurd h' a
        · have := h.key_lt v' h'; omega
      · rename_i a b
        rcases h' with h' | h'
        · exact absurd h' a
        · rcases h'' with h'' | h''
          · exact absurd h'' b
          · exact h.key_inj v' v'' h' h'' hk
    · intro t v' h'
      rw [e1, made'] at h'
      rw [e2, e4]
      split
      · rename_i e; subst e; rw [hnone, hunused]; rfl
      · rename_i hne
        rcases h' with h' | h'
        · exact absurd h' hne
        · exact h.slot t v' h'
    · intro t k hk
      have := h.slot_keys t k hk
      rw [e3]; omega
    · intro t v' b x h' hs hw
      rw [e1, made'] at h'
      rw [e2, e4] at hs
      split at hs
      · rw [hnone] at hs; cases hs
      · rename_i hne
        rcases h' with h' | h'
        · exact absurd h' hne
        · exact h.heap t v' b x h' hs hw

/-- After `var()` the thread has a block of its own, the one it had if it had one. -/
theorem EI.get {s : E} {past : List (Nat × Op)} (h : EI s past) (junk : Nat → Nat) (t v : Nat) :
    ∃ s' b, s.get junk t v = (s', some b) ∧ s'.made v = true ∧ s'.slot t (s'.key v) = some b ∧
      (∀ v', s'.made v' = (v == v' || everUsed v' past)) ∧
      (∀ v', s'.made v' = true → s'.key v' < s'.keys) ∧
      (∀ v' v'', s'.made v' = true → s'.made v'' = true → s'.key v' = s'.key v'' → v' = v'') ∧
      (∀ t' v', s'.made v' = true → (s'.slot t' (s'.key v')).isSome = ((t == t' && v == v') || used t' v' past)) ∧
      (∀ t' k, (s'.slot t' k).isSome = true → k < s'.keys) ∧
      (∀ t' k b', s'.slot t' k = some b' → b' < s'.blocks) ∧
      (∀ t1 k1 t2 k2 b', s'.slot t1 k1 = some b' → s'.slot t2 k2 = some b' → t1 = t2 ∧ k1 = k2) ∧
      (∀ t' v' b' x, s'.made v' = true → s'.slot t' (s'.key v') = some b' → lastWrite t' v' past = some x →
        s'.heap b' = x) := by
  obtain ⟨s1, e0, hm, hmade, hheap, hblocks, hslot, hkl, hki, hsl, hsk, hhp⟩ := h.setup v
  unfold E.get
  rw [e0]
  unfold E.fetch E.tssGet
  rw [if_pos (hkl v hm)]
  have hsb : ∀ t k b, s1.slot t k = some b → b < s1.blocks := by
    intro t k b; rw [hslot, hblocks]; exact h.slot_blocks t k b
  have hsi : ∀ t k t' k' b, s1.slot t k = some b → s1.slot t' k' = some b → t = t' ∧ k = k' := by
    intro t k t' k' b; rw [hslot]; exact h.slot_inj t k t' k' b
  have huse : ∀ t' v' (b : Nat), s1.slot t (s1.key v) = some b →
      ((t == t' && v == v') || used t' v' past) = used t' v' past := by
    intro t' v' b hb
    by_cases e : t = t' ∧ v = v'
    · obtain ⟨rfl, rfl⟩ := e
      have := hsl t v hm
      rw [hb] at this
      simp [← this]
    · have : (t == t' && v == v') = false := by simpa using e
      simp [this]
  cases hs : s1.slot t (s1.key v) with
  | some b =>
    refine ⟨s1, b, rfl, hm, hs, hmade, hkl, hki, ?_, hsk, hsb, hsi, hhp⟩
    intro t' v' h'
    rw [huse t' v' b hs]
    exact hsl t' v' h'
  | none =>
    dsimp only
    rw [if_pos (hkl v hm)]
    refine ⟨_, s1.blocks, rfl, hm, by simp, hmade, hkl, hki, ?_, ?_, ?_, ?_, ?_⟩
    · intro t' v' h'
      dsimp only at h' ⊢
      by_cases e : t' = t ∧ s1.key v' = s1.key v
      · obtain ⟨rfl, ek⟩ := e
        have := hki v' v h' hm ek
        subst this
        simp
      · rw [if_neg e, hsl t' v' h']
        have : (t == t' && v == v') = false := by
          rw [Bool.eq_false_iff]
          intro hh
          simp only [Bool.and_eq_true, beq_iff_eq] at hh
          obtain ⟨rfl, rfl⟩ := hh
          exact e ⟨rfl, rfl⟩
        simp [this]
    · intro t' k hk
      dsimp only at hk ⊢
      split at hk
      · rename_i e; rw [e.2]; exact hkl v hm
      · exact hsk t' k hk
    · intro t' k b' hk
      dsimp only at hk ⊢
      split at hk
      · injection hk with hk; omega
      · have := hsb t' k b' hk; omega
    · intro t1 k1 t2 k2 b' h1 h2
      dsimp only at h1 h2
      split at h1 <;> split at h2
      · rename_i a b; exact ⟨a.1.trans b.1.symm, a.2.trans b.2.symm⟩
      · injection h1 with h1
        have := hsb t2 k2 b' h2; omega
      · injection h2 with h2
        have := hsb t1 k1 b' h1; omega
      · exact hsi t1 k1 t2 k2 b' h1 h2
    · intro t' v' b' x h' hk hw
      dsimp only at h' hk ⊢
      split at hk
      · rename_i e
        obtain ⟨rfl, ek⟩ := e
        have := hki v' v h' hm ek
        subst this
        have hu := hsl t' v' hm
        rw [hs, lastWrite_used hw] at hu
        cases hu
      · have := hsb t' (s1.key v') b' hk
        rw [if_neg (by omega)]
        exact hhp t' v' b' x h' hk hw

theorem emulated {s : E} {past : List (Nat × Op)} (hi : EI s past) (junk : Nat → Nat) (h : List (Nat × Op))
    (hc : careful past h) : runWith (E.step junk) s h = expectedAll past h := by
  induction h generalizing s past with
  | nil => rfl
  | cons o h ih =>
    obtain ⟨t, op⟩ := o
    rw [runWith, expectedAll]
    obtain ⟨hc1, hc2⟩ := hc
    cases op with
    | write v x =>
      obtain ⟨s', b, e, hm, hsl, hmade, hkl, hki, hs, hsk, hsb, hsi, hh⟩ := hi.get junk t v
      have e1 : E.step junk s t (.write v x) =
          ({ s' with heap := fun b' => if b' = b then x else s'.heap b' }, .done) := by
        simp only [E.step, e]
      rw [e1]
      dsimp only
      congr 1
      refine ih ?_ hc2
      refine ⟨fun v' => hmade v', hkl, hki, fun t' v' h' => hs t' v' h', hsk, hsb, hsi, ?_⟩
      intro t' v' b' y h' hb hw
      dsimp only at h' hb ⊢
      simp only [lastWrite] at hw
      split at hw
      · rename_i e'
        obtain ⟨rfl, rfl⟩ := e'
        rw [hsl] at hb
        injection hb with hb
        injection hw with hw
        rw [if_pos hb.symm, hw]
      · rename_i e'
        have : b' ≠ b := by
          rintro rfl
          obtain ⟨e2, e3⟩ := hsi _ _ _ _ _ hb hsl
          exact e' ⟨e2.symm, (hki v' v h' hm e3).symm⟩
        rw [if_neg this]
        exact hh t' v' b' y h' hb hw
    | read v =>
      obtain ⟨s', b, e, hm, hsl, hmade, hkl, hki, hs, hsk, hsb, hsi, hh⟩ := hi.get junk t v
      have e1 : E.step junk s t (.read v) = (s', .val (s'.heap b)) := by
        simp only [E.step, e]
      rw [e1]
      dsimp only
      obtain ⟨y, hy⟩ := Option.isSome_iff_exists.mp hc1
      have e2 : expected past t (.read v) = .val (s'.heap b) := by
        simp only [expected, hy, Option.getD_some, hh t v b y hm hsl hy]
      rw [e2]
      congr 1
      refine ih ?_ hc2
      exact ⟨fun v' => hmade v', hkl, hki, fun t' v' h' => hs t' v' h', hsk, hsb, hsi,
        fun t' v' b' y h' hb hw => hh t' v' b' y h' hb hw⟩
    | isEmpty v =>
      have hm : s.made v = true := by rw [hi.made]; exact hc1
      have e1 : E.step junk s t (.isEmpty v) = (s, expected past t (.isEmpty v)) := by
        have := hi.slot t v hm
        simp only [E.step, expected, E.tssGet, if_pos (hi.key_lt v hm), ← this]
        cases s.slot t (s.key v) <;> rfl
      rw [e1]
      dsimp only
      congr 1
      exact ih ⟨hi.made, hi.key_lt, hi.key_inj, hi.slot, hi.slot_keys, hi.slot_blocks, hi.slot_inj, hi.heap⟩ hc2

end Verif.Tl
