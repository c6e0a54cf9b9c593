import Verif.Spec.Queue
namespace Verif.Bq
open Loc

/-! ## Chains -/

def endLoc (l : Loc) : List Nat → Loc
  | [] => l
  | x :: xs => endLoc (el x) xs

/-- The links from `l` through `a`. -/
def Pre (m : Mem) (l : Loc) : List Nat → Prop
  | [] => True
  | x :: xs => m.next l = some x ∧ m.back (el x) = l ∧ Pre m (el x) xs

/-- The links from `l` through `xs` to the end. -/
def Chain (m : Mem) (l : Loc) : List Nat → Prop
  | [] => m.next l = none
  | x :: xs => m.next l = some x ∧ m.back (el x) = l ∧ Chain m (el x) xs

theorem endLoc_append (a b : List Nat) : ∀ l, endLoc l (a ++ b) = endLoc (endLoc l a) b := by
  induction a with
  | nil => intro l; rfl
  | cons x a ih => intro l; exact ih _

theorem endLoc_cases (a : List Nat) : ∀ l, endLoc l a = l ∨ ∃ x ∈ a, endLoc l a = el x := by
  induction a with
  | nil => intro l; exact .inl rfl
  | cons x a ih =>
    intro l
    rcases ih (el x) with h | ⟨y, hy, h⟩
    · exact .inr ⟨x, List.mem_cons_self, h⟩
    · exact .inr ⟨y, List.mem_cons_of_mem _ hy, h⟩

theorem endLoc_cons_mem (x : Nat) (a : List Nat) (l : Loc) : ∃ y ∈ x :: a, endLoc l (x :: a) = el y := by
  rcases endLoc_cases a (el x) with h | ⟨y, hy, h⟩
  · exact ⟨x, List.mem_cons_self, h⟩
  · exact ⟨y, List.mem_cons_of_mem _ hy, h⟩

theorem chain_append {m : Mem} (a b : List Nat) : ∀ {l : Loc}, Chain m l (a ++ b) ↔ Pre m l a ∧ Chain m (endLoc l a) b := by
  induction a with
  | nil => intro l; simp [Pre, endLoc]
  | cons x a ih => intro l; simp only [List.cons_append, Chain, Pre, endLoc, ih, and_assoc]

theorem pre_append {m : Mem} (a b : List Nat) : ∀ {l : Loc}, Pre m l (a ++ b) ↔ Pre m l a ∧ Pre m (endLoc l a) b := by
  induction a with
  | nil => intro l; simp [Pre, endLoc]
  | cons x a ih => intro l; simp only [List.cons_append, Pre, endLoc, ih, and_assoc]

theorem chain_congr {m m' : Mem} (xs : List Nat) : ∀ {l : Loc}, m'.next l = m.next l →
    (∀ x ∈ xs, m'.next (el x) = m.next (el x) ∧ m'.back (el x) = m.back (el x)) → Chain m l xs → Chain m' l xs := by
  induction xs with
  | nil => intro l h1 _ h; exact h1.trans h
  | cons x xs ih =>
    intro l h1 h2 h
    exact ⟨h1.trans h.1, (h2 x List.mem_cons_self).2.trans h.2.1,
      ih (h2 x List.mem_cons_self).1 (fun y hy => h2 y (List.mem_cons_of_mem _ hy)) h.2.2⟩

/-- The last link is not part of `Pre`. -/
theorem pre_congr {m m' : Mem} (a : List Nat) : ∀ {l : Loc}, (a.map el).Nodup → l ∉ a.map el →
    (l ≠ endLoc l a → m'.next l = m.next l) →
    (∀ x ∈ a, el x ≠ endLoc l a → m'.next (el x) = m.next (el x)) →
    (∀ x ∈ a, m'.back (el x) = m.back (el x)) → Pre m l a → Pre m' l a := by
  induction a with
  | nil => intro l _ _ _ _ _ _; trivial
  | cons x a ih =>
    intro l hn hl h1 h2 h3 h
    have hne : l ≠ endLoc l (x :: a) := by
      obtain ⟨y, hy, e⟩ := endLoc_cons_mem x a l
      intro h'
      exact hl (by rw [h', e]; exact List.mem_map_of_mem hy)
    rw [List.map_cons, List.nodup_cons] at hn
    refine ⟨(h1 hne).trans h.1, (h3 x List.mem_cons_self).trans h.2.1, ih hn.2 hn.1 ?_ ?_ ?_ h.2.2⟩
    · intro h'
      exact h2 x List.mem_cons_self h'
    · intro y hy h'
      exact h2 y (List.mem_cons_of_mem _ hy) h'
    · intro y hy
      exact h3 y (List.mem_cons_of_mem _ hy)

/-- The word that points back to the end of a prefix: that of the next element or of the head. -/
def backSlot (h : Nat) (b : List Nat) : Loc :=
  match b with
  | y :: _ => el y
  | [] => hd h

/-- A tail queue represents the sequences. -/
structure RepT (m : Mem) (σ : Seqs) : Prop where
  chain : ∀ h xs, σ h = some xs → Chain m (hd h) xs
  last : ∀ h xs, σ h = some xs → m.back (hd h) = endLoc (hd h) xs
  nodup : ∀ h xs, σ h = some xs → xs.Nodup
  disj : ∀ h h' xs xs' x, σ h = some xs → σ h' = some xs' → x ∈ xs → x ∈ xs' → h = h'

theorem put_same (σ : Seqs) (h : Nat) (xs : List Nat) : σ.put h xs h = some xs := by simp [Seqs.put]

theorem put_other (σ : Seqs) {h k : Nat} (xs : List Nat) (hk : k ≠ h) : σ.put h xs k = σ k := by simp [Seqs.put, hk]

/-- One list changes. -/
theorem RepT.change {m m' : Mem} {σ : Seqs} {h : Nat} {xs xs' : List Nat} (R : RepT m σ) (hσ : ∀ ys, σ h = some ys → ys = xs)
    (hc : Chain m' (hd h) xs') (hl : m'.back (hd h) = endLoc (hd h) xs') (hnd : xs'.Nodup)
    (hf : ∀ x ∈ xs', (∃ ys, σ h = some ys ∧ x ∈ ys) ∨ σ.free x)
    (hh : ∀ k, k ≠ h → m'.next (hd k) = m.next (hd k) ∧ m'.back (hd k) = m.back (hd k))
    (he : ∀ y, y ∉ xs → y ∉ xs' → m'.next (el y) = m.next (el y) ∧ m'.back (el y) = m.back (el y))
    (hx : ∀ x ∈ xs, ∀ k ys, k ≠ h → σ k = some ys → x ∉ ys) :
    RepT m' (σ.put h xs') := by
  have away : ∀ k ys, k ≠ h → σ k = some ys → ∀ y ∈ ys, y ∉ xs ∧ y ∉ xs' := by
    intro k ys hk hy y hm
    refine ⟨fun h1 => hx y h1 k ys hk hy hm, fun h1 => ?_⟩
    rcases hf y h1 with ⟨zs, hz, hz'⟩ | hfr
    · exact hk (R.disj k h ys zs y hy hz hm hz')
    · exact hfr k ys hy hm
  refine ⟨fun k ys hy => ?_, fun k ys hy => ?_, fun k ys hy => ?_, fun k k' ys ys' x hy hy' m1 m2 => ?_⟩
  · by_cases hk : k = h
    · subst hk; rw [put_same] at hy; cases hy; exact hc
    · rw [put_other _ _ hk] at hy
      exact chain_congr ys (hh k hk).1 (fun y hm => he y (away k ys hk hy y hm).1 (away k ys hk hy y hm).2) (R.chain k ys hy)
  · by_cases hk : k = h
    · subst hk; rw [put_same] at hy; cases hy; exact hl
    · rw [put_other _ _ hk] at hy
      rw [(hh k hk).2]
      exact R.last k ys hy
  · by_cases hk : k = h
    · subst hk; rw [put_same] at hy; cases hy; exact hnd
    · rw [put_other _ _ hk] at hy
      exact R.nodup k ys hy
  · by_cases hk : k = h
    · by_cases hk' : k' = h
      · rw [hk, hk']
      · subst hk
        rw [put_same] at hy; cases hy
        rw [put_other _ _ hk'] at hy'
        exact absurd m1 (away k' ys' hk' hy' x m2).2
    · by_cases hk' : k' = h
      · subst hk'
        rw [put_same] at hy'; cases hy'
        rw [put_other _ _ hk] at hy
        exact absurd m2 (away k ys hk hy x m1).2
      · rw [put_other _ _ hk] at hy
        rw [put_other _ _ hk'] at hy'
        exact R.disj k k' ys ys' x hy hy' m1 m2

/-- Replacing the middle of a list. -/
theorem RepT.splice {m m' : Mem} {σ : Seqs} {h : Nat} (a mid mid' b : List Nat) (R : RepT m σ) (hσ : σ h = some (a ++ mid ++ b))
    (hnd : mid'.Nodup) (hf : ∀ x ∈ mid', x ∈ mid ∨ σ.free x)
    (hmid : Pre m' (endLoc (hd h) a) mid')
    (hnext : m'.next (endLoc (endLoc (hd h) a) mid') = b.head?)
    (hback : m'.back (backSlot h b) = endLoc (endLoc (hd h) a) mid')
    (hn : ∀ l, l ≠ endLoc (hd h) a → l ∉ mid.map el → l ∉ mid'.map el → m'.next l = m.next l)
    (hb : ∀ l, l ≠ backSlot h b → l ∉ mid.map el → l ∉ mid'.map el → m'.back l = m.back l) :
    RepT m' (σ.put h (a ++ mid' ++ b)) := by
  have hnod := R.nodup h _ hσ
  have hch := R.chain h _ hσ
  have hlast := R.last h _ hσ
  rw [List.append_assoc] at hch hnod
  rw [chain_append] at hch
  have hch2 := (chain_append mid b).mp hch.2
  obtain ⟨na, nmb, dab⟩ := List.nodup_append.mp hnod
  obtain ⟨nm, nb, dmb⟩ := List.nodup_append.mp nmb
  have inA : ∀ x ∈ a, x ∉ mid' := fun x hx h' => by
    rcases hf x h' with h1 | h1
    · exact dab x hx x (List.mem_append_left _ h1) rfl
    · exact h1 h _ hσ (by simp [hx])
  have inB : ∀ x ∈ b, x ∉ mid' := fun x hx h' => by
    rcases hf x h' with h1 | h1
    · exact dmb x h1 x hx rfl
    · exact h1 h _ hσ (by simp [hx])
  have mapmem : ∀ (x : Nat) (l : List Nat), el x ∈ l.map el ↔ x ∈ l := fun x l => by simp
  have hdmem : ∀ (k : Nat) (l : List Nat), hd k ∉ l.map el := fun k l => by simp
  have ndmap : ∀ l : List Nat, l.Nodup → (l.map el).Nodup := fun l hl =>
    List.pairwise_map.mpr (List.Pairwise.imp (fun hne h => hne (by simpa using h)) hl)
  have pa : Pre m' (hd h) a := by
    refine pre_congr a (ndmap a na) (hdmem h a) (fun h' => hn _ h' (hdmem _ _) (hdmem _ _)) (fun x hx h' => ?_) (fun x hx => ?_) hch.1
    · exact hn _ h' (by rw [mapmem]; exact fun h1 => dab x hx x (List.mem_append_left _ h1) rfl) (by rw [mapmem]; exact inA x hx)
    · refine hb _ ?_ (by rw [mapmem]; exact fun h1 => dab x hx x (List.mem_append_left _ h1) rfl) (by rw [mapmem]; exact inA x hx)
      cases b with
      | nil => simp [backSlot]
      | cons y b => simp only [backSlot, ne_eq, el.injEq]; exact fun h' => dab x hx y (by simp) h'
  have endB : ∀ x ∈ b, el x ≠ endLoc (hd h) a := fun x hx h' => by
    rcases endLoc_cases a (hd h) with h1 | ⟨y, hy, h1⟩
    · rw [h1] at h'; cases h'
    · rw [h1] at h'; cases h'; exact dab x hy x (List.mem_append_right _ hx) rfl
  have notMid : ∀ x ∈ b, el x ∉ mid.map el := fun x hx => by rw [mapmem]; exact fun h1 => dmb x h1 x hx rfl
  have notMid' : ∀ x ∈ b, el x ∉ mid'.map el := fun x hx => by rw [mapmem]; exact inB x hx
  have cb : Chain m' (endLoc (endLoc (hd h) a) mid') b := by
    cases b with
    | nil => exact hnext
    | cons y b =>
      refine ⟨hnext, hback, ?_⟩
      refine chain_congr b (hn _ (endB y (by simp)) (notMid y (by simp)) (notMid' y (by simp))) (fun x hx => ⟨?_, ?_⟩) hch2.2.2.2
      · exact hn _ (endB x (by simp [hx])) (notMid x (by simp [hx])) (notMid' x (by simp [hx]))
      · refine hb _ ?_ (notMid x (by simp [hx])) (notMid' x (by simp [hx]))
        simp only [backSlot, ne_eq, el.injEq]
        intro h'
        subst h'
        exact (List.nodup_cons.mp nb).1 hx
  refine R.change (xs := a ++ mid ++ b) (fun ys hy => by rw [hσ] at hy; cases hy; rfl) ?_ ?_ ?_ ?_ ?_ ?_ ?_
  · rw [List.append_assoc, chain_append, chain_append]
    exact ⟨pa, hmid, cb⟩
  · rw [endLoc_append, endLoc_append]
    cases b with
    | nil => exact hback
    | cons y b =>
      rw [hb _ (by simp [backSlot]) (hdmem _ _) (hdmem _ _), hlast, endLoc_append]
      rfl
  · rw [List.append_assoc, List.nodup_append]
    refine ⟨na, List.nodup_append.mpr ⟨hnd, nb, fun x hx y hy e => ?_⟩, fun x hx y hy e => ?_⟩
    · subst e; exact inB x hy hx
    · subst e
      rcases List.mem_append.mp hy with h' | h'
      · exact inA x hx h'
      · exact dab x hx x (List.mem_append_right _ h') rfl
  · intro x hx
    rcases List.mem_append.mp hx with h1 | h1
    · rcases List.mem_append.mp h1 with h2 | h2
      · exact .inl ⟨_, hσ, by simp [h2]⟩
      · rcases hf x h2 with h3 | h3
        · exact .inl ⟨_, hσ, by simp [h3]⟩
        · exact .inr h3
    · exact .inl ⟨_, hσ, by simp [h1]⟩
  · intro k hk
    refine ⟨hn _ ?_ (hdmem _ _) (hdmem _ _), hb _ ?_ (hdmem _ _) (hdmem _ _)⟩
    · rcases endLoc_cases a (hd h) with h1 | ⟨y, hy, h1⟩
      · rw [h1]; simpa using hk
      · rw [h1]; simp
    · cases b with
      | nil => simpa [backSlot] using hk
      | cons y b => simp [backSlot]
  · intro y h1 h2
    have n1 : el y ∉ mid.map el := by rw [mapmem]; exact fun h' => h1 (by simp [h'])
    have n2 : el y ∉ mid'.map el := by rw [mapmem]; exact fun h' => h2 (by simp [h'])
    refine ⟨hn _ ?_ n1 n2, hb _ ?_ n1 n2⟩
    · rcases endLoc_cases a (hd h) with h3 | ⟨z, hz, h3⟩
      · rw [h3]; simp
      · rw [h3]; simp only [ne_eq, el.injEq]; rintro rfl; exact h1 (by simp [hz])
    · cases b with
      | nil => simp [backSlot]
      | cons z b => simp only [backSlot, ne_eq, el.injEq]; rintro rfl; exact h1 (by simp)
  · intro x hx k ys hk hy hm
    exact hk (R.disj k h ys _ x hy hσ hm hx)

/-- The pointers at a place in the list. -/
theorem RepT.at {m : Mem} {σ : Seqs} {h : Nat} {a b : List Nat} (R : RepT m σ) (hσ : σ h = some (a ++ b)) :
    m.next (endLoc (hd h) a) = b.head? ∧ m.back (backSlot h b) = endLoc (hd h) a := by
  have hc := ((chain_append a b).mp (R.chain h _ hσ)).2
  cases b with
  | nil => exact ⟨hc, by have := R.last h _ hσ; rwa [List.append_nil] at this⟩
  | cons y b => exact ⟨hc.1, hc.2.1⟩

theorem endLoc_snoc (l : Loc) (a : List Nat) (x : Nat) : endLoc l (a ++ [x]) = el x := by rw [endLoc_append]; rfl

theorem endLoc_free {σ : Seqs} {h e : Nat} {a b : List Nat} (hσ : σ h = some (a ++ b)) (hf : σ.free e) : endLoc (hd h) a ≠ el e := by
  rcases endLoc_cases a (hd h) with h1 | ⟨y, hy, h1⟩
  · rw [h1]; simp
  · rw [h1]; simp only [ne_eq, el.injEq]; rintro rfl; exact hf h _ hσ (by simp [hy])

theorem backSlot_free {σ : Seqs} {h e : Nat} {a b : List Nat} (hσ : σ h = some (a ++ b)) (hf : σ.free e) : backSlot h b ≠ el e := by
  cases b with
  | nil => simp [backSlot]
  | cons y b => simp only [backSlot, ne_eq, el.injEq]; rintro rfl; exact hf h _ hσ (by simp)

theorem backOrLast_eq (m : Mem) (b : List Nat) (h : Nat) (l : Loc) : m.backOrLast b.head? h l l = m.setBack (backSlot h b) l := by
  cases b <;> rfl

/-- Inserting `e` at a place, in a memory that has the right pointers. -/
theorem RepT.insert {m m' : Mem} {σ : Seqs} {h e : Nat} (a b : List Nat) (R : RepT m σ) (hσ : σ h = some (a ++ b)) (hf : σ.free e)
    (hn : ∀ l, m'.next l = if l = endLoc (hd h) a then some e else if l = el e then b.head? else m.next l)
    (hb : ∀ l, m'.back l = if l = el e then endLoc (hd h) a else if l = backSlot h b then el e else m.back l) :
    RepT m' (σ.put h (a ++ e :: b)) := by
  have h1 := endLoc_free hσ hf
  have h2 := backSlot_free hσ hf
  have := RepT.splice (m' := m') a [] [e] b R (by simpa using hσ) (by simp) (fun x hx => .inr (by simp at hx; rw [hx]; exact hf))
    ⟨by rw [hn, if_pos rfl], by rw [hb, if_pos rfl], trivial⟩
    (by show m'.next (el e) = _; rw [hn, if_neg (Ne.symm h1), if_pos rfl])
    (by show _ = el e; rw [hb, if_neg h2, if_pos rfl])
    (fun l n1 _ n3 => by rw [hn, if_neg n1, if_neg (by simpa using n3)])
    (fun l n1 _ n3 => by rw [hb, if_neg (by simpa using n3), if_neg n1])
  simpa using this

theorem RepT.insertHead {m : Mem} {σ : Seqs} {h e : Nat} {xs : List Nat} (R : RepT m σ) (hσ : σ h = some xs) (hf : σ.free e) :
    RepT (tailqInsertHead h e m) (σ.put h (e :: xs)) := by
  have h0 := R.at (a := []) (b := xs) hσ
  have e1 : m.next (hd h) = xs.head? := h0.1
  have h2 := backSlot_free (a := []) (b := xs) hσ hf
  refine RepT.insert [] xs R hσ hf (fun l => ?_) (fun l => ?_) <;>
  · unfold tailqInsertHead
    simp only [Mem.setNext, reduceCtorEq, if_false, e1, endLoc]
    rw [backOrLast_eq]
    simp only [Mem.setBack]
    try rfl

theorem RepT.insertTail {m : Mem} {σ : Seqs} {h e : Nat} {xs : List Nat} (R : RepT m σ) (hσ : σ h = some xs) (hf : σ.free e) :
    RepT (tailqInsertTail h e m) (σ.put h (xs ++ [e])) := by
  have hs : σ h = some (xs ++ []) := by simpa using hσ
  have h0 := R.last h xs hσ
  refine RepT.insert xs [] R hs hf (fun l => ?_) (fun l => ?_)
  · unfold tailqInsertTail
    simp only [Mem.setNext, Mem.setBack, reduceCtorEq, if_false, h0, List.head?_nil]
  · unfold tailqInsertTail
    simp only [Mem.setNext, Mem.setBack, reduceCtorEq, if_false, h0, backSlot]
    by_cases h1 : l = hd h
    · subst h1; simp
    · simp [h1]

theorem RepT.insertAfter {m : Mem} {σ : Seqs} {h s e : Nat} {a b : List Nat} (R : RepT m σ) (hσ : σ h = some (a ++ s :: b))
    (hf : σ.free e) : RepT (tailqInsertAfter h s e m) (σ.put h (a ++ s :: e :: b)) := by
  have hs : σ h = some ((a ++ [s]) ++ b) := by simpa using hσ
  have h0 := R.at hs
  rw [endLoc_snoc] at h0
  have := RepT.insert (m' := tailqInsertAfter h s e m) (a ++ [s]) b R hs hf
    (fun l => by
      unfold tailqInsertAfter
      simp only [Mem.setNext, if_pos, h0.1, endLoc_snoc]
      rw [backOrLast_eq]
      simp only [Mem.setBack])
    (fun l => by
      unfold tailqInsertAfter
      simp only [Mem.setNext, if_pos, h0.1, endLoc_snoc]
      rw [backOrLast_eq]
      simp only [Mem.setBack])
  simpa using this

theorem RepT.insertBefore {m : Mem} {σ : Seqs} {h s e : Nat} {a b : List Nat} (R : RepT m σ) (hσ : σ h = some (a ++ s :: b))
    (hf : σ.free e) : RepT (tailqInsertBefore s e m) (σ.put h (a ++ e :: s :: b)) := by
  have h0 := R.at hσ
  have h2 := backSlot_free hσ hf
  simp only [backSlot] at h0 h2
  have hne : s ≠ e := by simpa using h2
  refine RepT.insert a (s :: b) R hσ hf (fun l => ?_) (fun l => ?_)
  · unfold tailqInsertBefore
    simp only [Mem.setNext, Mem.setBack, if_neg h2, h0.2, List.head?_cons]
  · unfold tailqInsertBefore
    simp only [Mem.setNext, Mem.setBack, if_neg h2, h0.2, backSlot]
    by_cases h1 : l = el s
    · subst h1; simp [hne]
    · simp [h1]

theorem nodup_parts {h s : Nat} {a b : List Nat} (hn : (a ++ s :: b).Nodup) : endLoc (hd h) a ≠ el s ∧ backSlot h b ≠ el s := by
  obtain ⟨_, nb, d⟩ := List.nodup_append.mp hn
  constructor
  · rcases endLoc_cases a (hd h) with h1 | ⟨y, hy, h1⟩
    · rw [h1]; simp
    · rw [h1]; simp only [ne_eq, el.injEq]; rintro rfl; exact d y hy y (by simp) rfl
  · cases b with
    | nil => simp [backSlot]
    | cons y b => simp only [backSlot, ne_eq, el.injEq]; rintro rfl; exact (List.nodup_cons.mp nb).1 (by simp)

theorem tailqRemove_eq {m : Mem} {σ : Seqs} {h s : Nat} {a b : List Nat} (R : RepT m σ) (hσ : σ h = some (a ++ s :: b)) :
    tailqRemove h s m = (m.setBack (backSlot h b) (endLoc (hd h) a)).setNext (endLoc (hd h) a) b.head? := by
  have h0 := R.at hσ
  have hs : σ h = some ((a ++ [s]) ++ b) := by simpa using hσ
  have h1 := R.at hs
  rw [endLoc_snoc] at h1
  simp only [backSlot] at h0
  obtain ⟨n1, n2⟩ := nodup_parts (h := h) (R.nodup h _ hσ)
  unfold tailqRemove
  rw [h1.1, h0.2, backOrLast_eq]
  simp only [Mem.setBack, Mem.setNext, if_neg (Ne.symm n2), h0.2, h1.1]

theorem RepT.remove {m : Mem} {σ : Seqs} {h s : Nat} {a b : List Nat} (R : RepT m σ) (hσ : σ h = some (a ++ s :: b)) :
    RepT (tailqRemove h s m) (σ.put h (a ++ b)) := by
  have hm := tailqRemove_eq R hσ
  have := RepT.splice (m' := tailqRemove h s m) a [s] [] b R (by simpa using hσ) (by simp) (fun x hx => by simp at hx)
    trivial
    (by rw [hm]; simp [Mem.setNext, endLoc])
    (by rw [hm]; simp [Mem.setNext, Mem.setBack, endLoc])
    (fun l k1 _ _ => by rw [hm]; simp [Mem.setNext, Mem.setBack, k1])
    (fun l k1 _ _ => by rw [hm]; simp [Mem.setNext, Mem.setBack, k1])
  simpa using this

theorem RepT.replace {m : Mem} {σ : Seqs} {h s e : Nat} {a b : List Nat} (R : RepT m σ) (hσ : σ h = some (a ++ s :: b))
    (hf : σ.free e) : RepT (tailqReplace h s e m) (σ.put h (a ++ e :: b)) := by
  have h0 := R.at hσ
  have hs : σ h = some ((a ++ [s]) ++ b) := by simpa using hσ
  have h1 := R.at hs
  rw [endLoc_snoc] at h1
  simp only [backSlot] at h0
  obtain ⟨n1, n2⟩ := nodup_parts (h := h) (R.nodup h _ hσ)
  have h2 := endLoc_free hσ hf
  have h3 := backSlot_free hs hf
  have hne : el s ≠ el e := by have := backSlot_free hσ hf; simpa [backSlot] using this
  have hm : tailqReplace h s e m = (((m.setNext (el e) b.head?).setBack (backSlot h b) (el e)).setBack (el e) (endLoc (hd h) a)).setNext
      (endLoc (hd h) a) (some e) := by
    unfold tailqReplace
    rw [h1.1]
    dsimp only
    have : (m.setNext (el e) b.head?).next (el e) = b.head? := by simp [Mem.setNext]
    rw [this, backOrLast_eq]
    simp only [Mem.setBack, Mem.setNext, if_neg (Ne.symm n2), h0.2, if_true]
  have := RepT.splice (m' := tailqReplace h s e m) a [s] [e] b R (by simpa using hσ) (by simp)
    (fun x hx => .inr (by simp at hx; rw [hx]; exact hf))
    ⟨by rw [hm]; simp [Mem.setNext], by rw [hm]; simp [Mem.setNext, Mem.setBack], trivial⟩
    (by rw [hm]; simp [Mem.setNext, Mem.setBack, endLoc, Ne.symm h2])
    (by rw [hm]; simp [Mem.setNext, Mem.setBack, endLoc, h3])
    (fun l k1 _ k3 => by rw [hm]; simp at k3; simp [Mem.setNext, Mem.setBack, k1, k3])
    (fun l k1 _ k3 => by rw [hm]; simp at k3; simp [Mem.setNext, Mem.setBack, k1, k3])
  simpa using this

theorem RepT.init {m : Mem} {σ : Seqs} (h : Nat) (R : RepT m σ) : RepT (tailqInit h m) (σ.put h []) := by
  refine R.change (xs := (σ h).getD []) (fun ys hy => by rw [hy]; rfl) (by simp [Chain, tailqInit, Mem.setNext, Mem.setBack])
    (by simp [tailqInit, Mem.setBack, endLoc]) (by simp) (by simp) (fun k hk => by simp [tailqInit, Mem.setBack, Mem.setNext, hk])
    (fun y _ _ => by simp [tailqInit, Mem.setBack, Mem.setNext]) ?_
  intro x hx k ys hk hy hm
  cases e : σ h with
  | none => rw [e] at hx; cases hx
  | some zs => rw [e] at hx; exact hk (R.disj k h ys zs x hy e hm hx)

theorem RepT.concat {m : Mem} {σ : Seqs} {h1 h2 : Nat} {xs ys : List Nat} (hne : h1 ≠ h2) (R : RepT m σ) (s1 : σ h1 = some xs)
    (s2 : σ h2 = some ys) : RepT (tailqConcat h1 h2 m) ((σ.put h1 (xs ++ ys)).put h2 []) := by
  have c2 := R.chain h2 ys s2
  have l1 := R.last h1 xs s1
  have l2 := R.last h2 ys s2
  cases ys with
  | nil =>
    have hm : tailqConcat h1 h2 m = m := by unfold tailqConcat; rw [show m.next (hd h2) = none from c2]
    rw [hm]
    have : (σ.put h1 (xs ++ [])).put h2 [] = σ := by
      funext k
      unfold Seqs.put
      by_cases e2 : k = h2
      · rw [if_pos e2, e2, s2]
      · rw [if_neg e2]
        by_cases e1 : k = h1
        · rw [if_pos e1, e1, s1, List.append_nil]
        · rw [if_neg e1]
    rw [this]
    exact R
  | cons f ys =>
    have hE : ∀ y ∈ f :: ys, endLoc (hd h1) xs ≠ el y := fun y hy => by
      rcases endLoc_cases xs (hd h1) with h | ⟨z, hz, h⟩
      · rw [h]; simp
      · rw [h]; simp only [ne_eq, el.injEq]; rintro rfl; exact hne (R.disj h1 h2 _ _ z s1 s2 hz hy)
    have hE2 : endLoc (hd h1) xs ≠ hd h2 := by
      rcases endLoc_cases xs (hd h1) with h | ⟨z, hz, h⟩
      · rw [h]; simpa using hne
      · rw [h]; simp
    have hm : tailqConcat h1 h2 m = (((((m.setNext (endLoc (hd h1) xs) (some f)).setBack (el f) (endLoc (hd h1) xs)).setBack (hd h1)
        (endLoc (hd h2) (f :: ys))).setNext (hd h2) none).setBack (hd h2) (hd h2)) := by
      unfold tailqConcat
      rw [c2.1]
      simp only [Mem.setNext, Mem.setBack, tailqInit, l1, reduceCtorEq, if_false, l2]
    have n1 := R.nodup h1 xs s1
    have n2 := R.nodup h2 _ s2
    have mapmem : ∀ (x : Nat) (l : List Nat), el x ∈ l.map el ↔ x ∈ l := fun x l => by simp
    have ndmap : ∀ l : List Nat, l.Nodup → (l.map el).Nodup := fun l hl =>
      List.pairwise_map.mpr (List.Pairwise.imp (fun hne h => hne (by simpa using h)) hl)
    have p1 : Pre (tailqConcat h1 h2 m) (hd h1) xs := by
      have hp : Pre m (hd h1) xs := ((chain_append xs []).mp (by simpa using R.chain h1 xs s1)).1
      rw [hm]
      refine pre_congr xs (ndmap xs n1) (by simp) (fun h => ?_) (fun x hx h => ?_) (fun x hx => ?_) hp
      · simp [Mem.setNext, Mem.setBack, h, hne]
      · simp [Mem.setNext, Mem.setBack, h]
      · have : x ≠ f := by rintro rfl; exact hne (R.disj h1 h2 _ _ x s1 s2 hx (by simp))
        simp [Mem.setNext, Mem.setBack, this]
    have c : Chain (tailqConcat h1 h2 m) (endLoc (hd h1) xs) (f :: ys) := by
      rw [hm]
      refine ⟨by simp [Mem.setNext, Mem.setBack, hE2], by simp [Mem.setNext, Mem.setBack], ?_⟩
      refine chain_congr ys ?_ (fun y hy => ⟨?_, ?_⟩) c2.2.2
      · simp [Mem.setNext, Mem.setBack, Ne.symm (hE f (by simp))]
      · simp [Mem.setNext, Mem.setBack, Ne.symm (hE y (by simp [hy]))]
      · have : y ≠ f := by rintro rfl; exact (List.nodup_cons.mp n2).1 hy
        simp [Mem.setNext, Mem.setBack, this]
    have away : ∀ k zs, k ≠ h1 → k ≠ h2 → σ k = some zs → ∀ z ∈ zs, z ∉ xs ∧ z ∉ f :: ys := fun k zs k1 k2 hz z hm =>
      ⟨fun h => k1 (R.disj k h1 _ _ z hz s1 hm h), fun h => k2 (R.disj k h2 _ _ z hz s2 hm h)⟩
    have get1 : ((σ.put h1 (xs ++ f :: ys)).put h2 []) h1 = some (xs ++ f :: ys) := by rw [put_other _ _ hne, put_same]
    have get2 : ((σ.put h1 (xs ++ f :: ys)).put h2 []) h2 = some [] := put_same ..
    have getk : ∀ k, k ≠ h1 → k ≠ h2 → ((σ.put h1 (xs ++ f :: ys)).put h2 []) k = σ k := fun k k1 k2 => by
      rw [put_other _ _ k2, put_other _ _ k1]
    refine ⟨fun k zs hz => ?_, fun k zs hz => ?_, fun k zs hz => ?_, fun k k' zs zs' x hz hz' m1 m2 => ?_⟩
    · by_cases k2 : k = h2
      · subst k2; rw [get2] at hz; cases hz
        rw [hm]; simp [Chain, Mem.setNext, Mem.setBack]
      · by_cases k1 : k = h1
        · subst k1; rw [get1] at hz; cases hz
          exact (chain_append _ _).mpr ⟨p1, c⟩
        · rw [getk k k1 k2] at hz
          have hk : hd k ≠ endLoc (hd h1) xs := by
            rcases endLoc_cases xs (hd h1) with h | ⟨z, _, h⟩
            · rw [h]; simpa using k1
            · rw [h]; simp
          refine chain_congr zs ?_ (fun z hz' => ?_) (R.chain k zs hz)
          · rw [hm]; simp [Mem.setNext, Mem.setBack, k2, hk]
          · have hzE : el z ≠ endLoc (hd h1) xs := by
              rcases endLoc_cases xs (hd h1) with h | ⟨w, hw, h⟩
              · rw [h]; simp
              · rw [h]; simp only [ne_eq, el.injEq]; rintro rfl; exact (away k zs k1 k2 hz z hz').1 hw
            have hzf : z ≠ f := by rintro rfl; exact (away k zs k1 k2 hz z hz').2 (by simp)
            rw [hm]; simp [Mem.setNext, Mem.setBack, hzE, hzf]
    · by_cases k2 : k = h2
      · subst k2; rw [get2] at hz; cases hz
        rw [hm]; simp [endLoc, Mem.setBack]
      · by_cases k1 : k = h1
        · subst k1; rw [get1] at hz; cases hz
          rw [hm, endLoc_append]; simp [endLoc, Mem.setBack, Mem.setNext, hne]
        · rw [getk k k1 k2] at hz
          rw [← R.last k zs hz, hm]; simp [Mem.setBack, Mem.setNext, k1, k2]
    · by_cases k2 : k = h2
      · subst k2; rw [get2] at hz; cases hz; simp
      · by_cases k1 : k = h1
        · subst k1; rw [get1] at hz; cases hz
          exact List.nodup_append.mpr ⟨n1, n2, fun x hx y hy e => by subst e; exact hne (R.disj k h2 _ _ x s1 s2 hx hy)⟩
        · rw [getk k k1 k2] at hz; exact R.nodup k zs hz
    · have nz : ∀ k zs x, ((σ.put h1 (xs ++ f :: ys)).put h2 []) k = some zs → x ∈ zs → k ≠ h2 := by
        rintro k zs x hz hx rfl
        rw [get2] at hz; cases hz; cases hx
      have k2 := nz k zs x hz m1
      have k2' := nz k' zs' x hz' m2
      by_cases k1 : k = h1
      · by_cases k1' : k' = h1
        · rw [k1, k1']
        · subst k1; rw [get1] at hz; cases hz
          rw [getk k' k1' k2'] at hz'
          rcases List.mem_append.mp m1 with h | h
          · exact absurd h (away k' zs' k1' k2' hz' x m2).1
          · exact absurd h (away k' zs' k1' k2' hz' x m2).2
      · by_cases k1' : k' = h1
        · subst k1'; rw [get1] at hz'; cases hz'
          rw [getk k k1 k2] at hz
          rcases List.mem_append.mp m2 with h | h
          · exact absurd h (away k zs k1 k2 hz x m1).1
          · exact absurd h (away k zs k1 k2 hz x m1).2
        · rw [getk k k1 k2] at hz
          rw [getk k' k1' k2'] at hz'
          exact R.disj k k' zs zs' x hz hz' m1 m2

/-! ## The other kinds

They do what the tail queue does, without one or both of the words behind the `next` pointers. -/

def Kind.dbl : Kind → Bool
  | .list | .tailq => true
  | _ => false

def Kind.tailed : Kind → Bool
  | .simpleq | .tailq => true
  | _ => false

/-- The memories agree where the kind has words. -/
structure Sim (k : Kind) (m t : Mem) : Prop where
  next : m.next = t.next
  dbl : k.dbl = true → ∀ e, m.back (el e) = t.back (el e)
  tailed : k.tailed = true → ∀ h, m.back (hd h) = t.back (hd h)

/-- The memory represents the sequences: it can be completed to a tail queue that does. -/
def Rep (k : Kind) (m : Mem) (σ : Seqs) : Prop := ∃ t, Sim k m t ∧ RepT t σ

theorem insertAfter_split {s e : Nat} {a b : List Nat} (h : s ∉ a) : insertAfter s e (a ++ s :: b) = a ++ s :: e :: b := by
  induction a with
  | nil => simp [insertAfter]
  | cons x a ih =>
    simp only [List.mem_cons, not_or] at h
    simp [insertAfter, Ne.symm h.1, ih h.2]

theorem insertBefore_split {s e : Nat} {a b : List Nat} (h : s ∉ a) : insertBefore s e (a ++ s :: b) = a ++ e :: s :: b := by
  induction a with
  | nil => simp [insertBefore]
  | cons x a ih =>
    simp only [List.mem_cons, not_or] at h
    simp [insertBefore, Ne.symm h.1, ih h.2]

theorem removeAfter_split {s y : Nat} {a b : List Nat} (h : s ∉ a) : removeAfter s (a ++ s :: y :: b) = a ++ s :: b := by
  induction a with
  | nil => simp [removeAfter]
  | cons x a ih =>
    simp only [List.mem_cons, not_or] at h
    cases a with
    | nil => simp [removeAfter, Ne.symm h.1]
    | cons z a =>
      have := ih h.2
      simp only [List.cons_append] at this ⊢
      simp [removeAfter, Ne.symm h.1, this]

theorem replace_split {s e : Nat} {a b : List Nat} (h : s ∉ a) (h' : s ∉ b) :
    (a ++ s :: b).map (fun x => if x = s then e else x) = a ++ e :: b := by
  have : ∀ l : List Nat, s ∉ l → l.map (fun x => if x = s then e else x) = l := by
    intro l hl
    induction l with
    | nil => rfl
    | cons x l ih =>
      simp only [List.mem_cons, not_or] at hl
      simp [Ne.symm hl.1, ih hl.2]
  simp [this a h, this b h']

theorem erase_split {s : Nat} {a b : List Nat} (h : s ∉ a) : (a ++ s :: b).erase s = a ++ b := by
  rw [List.erase_append_right _ h]; simp

theorem split_mem {s : Nat} {xs : List Nat} (h : s ∈ xs) (hn : xs.Nodup) : ∃ a b, xs = a ++ s :: b ∧ s ∉ a ∧ s ∉ b := by
  obtain ⟨a, b, rfl⟩ := List.append_of_mem h
  obtain ⟨_, nb, d⟩ := List.nodup_append.mp hn
  exact ⟨a, b, rfl, fun h' => d s h' s (by simp) rfl, (List.nodup_cons.mp nb).1⟩

theorem mem_ext {m t : Mem} (h1 : ∀ l, m.next l = t.next l) (h2 : ∀ l, m.back l = t.back l) : m = t := by
  cases m; cases t
  simp only [Mem.mk.injEq]
  exact ⟨funext h1, funext h2⟩

theorem sim_elim {k : Kind} {m t : Mem} (h : Sim k m t) : ∃ b, m = ⟨t.next, b⟩ ∧ (k.dbl = true → ∀ e, b (el e) = t.back (el e)) ∧
    (k.tailed = true → ∀ h, b (hd h) = t.back (hd h)) := by
  obtain ⟨h1, h2, h3⟩ := h
  cases m
  simp only at h1
  subst h1
  exact ⟨_, rfl, h2, h3⟩

section
variable {m t : Mem}

theorem sim_list_init (h : Nat) (S : Sim .list m t) : Sim .list (listInit h m) (tailqInit h t) := by
  obtain ⟨b, rfl, hb, -⟩ := sim_elim S
  have hb := hb rfl
  refine ⟨?_, fun _ e => ?_, fun h => by cases h⟩
  · rfl
  · simp [listInit, tailqInit, Mem.setNext, Mem.setBack, hb]

theorem sim_list_insertHead (h e : Nat) (S : Sim .list m t) : Sim .list (listInsertHead h e m) (tailqInsertHead h e t) := by
  obtain ⟨b, rfl, hb, -⟩ := sim_elim S
  have hb := hb rfl
  cases hx : t.next (hd h) with
  | none => refine ⟨?_, fun _ e => ?_, fun h => by cases h⟩ <;>
      simp [listInsertHead, tailqInsertHead, Mem.setNext, Mem.setBack, Mem.backOf, Mem.backOrLast, hb, hx]
  | some y => refine ⟨?_, fun _ e => ?_, fun h => by cases h⟩ <;>
      simp [listInsertHead, tailqInsertHead, Mem.setNext, Mem.setBack, Mem.backOf, Mem.backOrLast, hb, hx]

theorem sim_list_insertAfter (h s e : Nat) (hne : s ≠ e) (S : Sim .list m t) : Sim .list (listInsertAfter s e m) (tailqInsertAfter h s e t) := by
  obtain ⟨b, rfl, hb, -⟩ := sim_elim S
  have hb := hb rfl
  cases hx : t.next (el s) with
  | none => refine ⟨?_, fun _ e => ?_, fun h => by cases h⟩ <;>
      simp [listInsertAfter, tailqInsertAfter, Mem.setNext, Mem.setBack, Mem.backOf, Mem.backOrLast, hb, hx, hne]
  | some y => refine ⟨?_, fun _ e => ?_, fun h => by cases h⟩ <;>
      simp [listInsertAfter, tailqInsertAfter, Mem.setNext, Mem.setBack, Mem.backOf, Mem.backOrLast, hb, hx, hne]

theorem sim_list_insertBefore (s e : Nat) (S : Sim .list m t) : Sim .list (listInsertBefore s e m) (tailqInsertBefore s e t) := by
  obtain ⟨b, rfl, hb, -⟩ := sim_elim S
  have hb := hb rfl
  refine ⟨?_, fun _ e => ?_, fun h => by cases h⟩ <;>
    simp [listInsertBefore, tailqInsertBefore, Mem.setNext, Mem.setBack, hb]

theorem sim_list_remove (h e : Nat) (S : Sim .list m t) : Sim .list (listRemove e m) (tailqRemove h e t) := by
  obtain ⟨b, rfl, hb, -⟩ := sim_elim S
  have hb := hb rfl
  cases hx : t.next (el e) with
  | none => refine ⟨?_, fun _ e => ?_, fun h => by cases h⟩ <;>
      simp [listRemove, tailqRemove, Mem.setNext, Mem.setBack, Mem.backOf, Mem.backOrLast, hb, hx]
  | some y => refine ⟨?_, fun _ e => ?_, fun h => by cases h⟩ <;>
      simp [listRemove, tailqRemove, Mem.setNext, Mem.setBack, Mem.backOf, Mem.backOrLast, hb, hx]

theorem sim_list_replace (h e e2 : Nat) (S : Sim .list m t) : Sim .list (listReplace e e2 m) (tailqReplace h e e2 t) := by
  obtain ⟨b, rfl, hb, -⟩ := sim_elim S
  have hb := hb rfl
  cases hx : t.next (el e) with
  | none => refine ⟨?_, fun _ e => ?_, fun h => by cases h⟩ <;>
      simp [listReplace, tailqReplace, Mem.setNext, Mem.setBack, Mem.backOf, Mem.backOrLast, hb, hx]
  | some y => refine ⟨?_, fun _ e => ?_, fun h => by cases h⟩ <;>
      simp [listReplace, tailqReplace, Mem.setNext, Mem.setBack, Mem.backOf, Mem.backOrLast, hb, hx]

theorem sim_slist_init (h : Nat) (S : Sim .slist m t) : Sim .slist (slistInit h m) (tailqInit h t) := by
  obtain ⟨b, rfl, -, -⟩ := sim_elim S
  exact ⟨rfl, fun h => (by cases h), fun h => (by cases h)⟩

theorem sim_slist_insertHead (h e : Nat) (S : Sim .slist m t) : Sim .slist (slistInsertHead h e m) (tailqInsertHead h e t) := by
  obtain ⟨b, rfl, -, -⟩ := sim_elim S
  refine ⟨?_, fun h => (by cases h), fun h => (by cases h)⟩
  cases hx : t.next (hd h) <;> simp [slistInsertHead, tailqInsertHead, Mem.setNext, Mem.setBack, Mem.backOrLast, hx]

theorem sim_slist_insertAfter (h s e : Nat) (S : Sim .slist m t) : Sim .slist (slistInsertAfter s e m) (tailqInsertAfter h s e t) := by
  obtain ⟨b, rfl, -, -⟩ := sim_elim S
  refine ⟨?_, fun h => (by cases h), fun h => (by cases h)⟩
  cases hx : t.next (el s) <;> simp [slistInsertAfter, tailqInsertAfter, Mem.setNext, Mem.setBack, Mem.backOrLast, hx]

theorem sim_simpleq_init (h : Nat) (S : Sim .simpleq m t) : Sim .simpleq (simpleqInit h m) (tailqInit h t) := by
  obtain ⟨b, rfl, -, ht⟩ := sim_elim S
  have ht := ht rfl
  refine ⟨rfl, fun h => (by cases h), fun _ k => ?_⟩
  simp [simpleqInit, tailqInit, Mem.setNext, Mem.setBack, ht]

theorem sim_simpleq_insertHead (h e : Nat) (S : Sim .simpleq m t) : Sim .simpleq (simpleqInsertHead h e m) (tailqInsertHead h e t) := by
  obtain ⟨b, rfl, -, ht⟩ := sim_elim S
  have ht := ht rfl
  cases hx : t.next (hd h) with
  | none => refine ⟨?_, fun h => (by cases h), fun _ k => ?_⟩ <;>
      simp [simpleqInsertHead, tailqInsertHead, Mem.setNext, Mem.setBack, Mem.lastIf, Mem.backOrLast, ht, hx]
  | some y => refine ⟨?_, fun h => (by cases h), fun _ k => ?_⟩ <;>
      simp [simpleqInsertHead, tailqInsertHead, Mem.setNext, Mem.setBack, Mem.lastIf, Mem.backOrLast, ht, hx]

theorem sim_simpleq_insertTail (h e : Nat) (S : Sim .simpleq m t) : Sim .simpleq (simpleqInsertTail h e m) (tailqInsertTail h e t) := by
  obtain ⟨b, rfl, -, ht⟩ := sim_elim S
  have ht := ht rfl
  refine ⟨?_, fun h => (by cases h), fun _ k => ?_⟩ <;>
    simp [simpleqInsertTail, tailqInsertTail, Mem.setNext, Mem.setBack, ht]

theorem sim_simpleq_insertAfter (h s e : Nat) (S : Sim .simpleq m t) :
    Sim .simpleq (simpleqInsertAfter h s e m) (tailqInsertAfter h s e t) := by
  obtain ⟨b, rfl, -, ht⟩ := sim_elim S
  have ht := ht rfl
  cases hx : t.next (el s) with
  | none => refine ⟨?_, fun h => (by cases h), fun _ k => ?_⟩ <;>
      simp [simpleqInsertAfter, tailqInsertAfter, Mem.setNext, Mem.setBack, Mem.lastIf, Mem.backOrLast, ht, hx]
  | some y => refine ⟨?_, fun h => (by cases h), fun _ k => ?_⟩ <;>
      simp [simpleqInsertAfter, tailqInsertAfter, Mem.setNext, Mem.setBack, Mem.lastIf, Mem.backOrLast, ht, hx]

theorem sim_simpleq_concat (h1 h2 : Nat) (hne : h1 ≠ h2) (S : Sim .simpleq m t) : Sim .simpleq (simpleqConcat h1 h2 m) (tailqConcat h1 h2 t) := by
  obtain ⟨b, rfl, -, ht⟩ := sim_elim S
  have ht := ht rfl
  cases hx : t.next (hd h2) with
  | none => refine ⟨?_, fun h => (by cases h), fun _ k => ?_⟩ <;>
      simp [simpleqConcat, tailqConcat, hx, ht]
  | some y =>
    refine ⟨?_, fun h => (by cases h), fun _ k => ?_⟩ <;>
      simp [simpleqConcat, tailqConcat, simpleqInit, tailqInit, Mem.setNext, Mem.setBack, hx, ht]

theorem sim_simpleq_remove {σ : Seqs} {h s : Nat} {a b : List Nat} (S : Sim .simpleq m t) (R : RepT t σ) (hσ : σ h = some (a ++ s :: b)) :
    Sim .simpleq (let m := m.setNext (endLoc (hd h) a) (m.next (el s)); m.lastIf (m.next (endLoc (hd h) a)) h (endLoc (hd h) a))
      (tailqRemove h s t) := by
  obtain ⟨c, rfl, -, ht⟩ := sim_elim S
  have ht := ht rfl
  have hx : t.next (el s) = b.head? := by
    have := (R.at (a := a ++ [s]) (b := b) (by simpa using hσ)).1
    rwa [endLoc_snoc] at this
  rw [tailqRemove_eq R hσ]
  cases b with
  | nil => refine ⟨?_, fun h => (by cases h), fun _ k => ?_⟩ <;> simp [Mem.setNext, Mem.setBack, Mem.lastIf, backSlot, ht, hx]
  | cons y b => refine ⟨?_, fun h => (by cases h), fun _ k => ?_⟩ <;> simp [Mem.setNext, Mem.setBack, Mem.lastIf, backSlot, ht, hx]

theorem sim_slist_remove {σ : Seqs} {h s : Nat} {a b : List Nat} (S : Sim .slist m t) (R : RepT t σ) (hσ : σ h = some (a ++ s :: b)) :
    Sim .slist (m.setNext (endLoc (hd h) a) (m.next (el s))) (tailqRemove h s t) := by
  obtain ⟨c, rfl, -, -⟩ := sim_elim S
  have hx : t.next (el s) = b.head? := by
    have := (R.at (a := a ++ [s]) (b := b) (by simpa using hσ)).1
    rwa [endLoc_snoc] at this
  rw [tailqRemove_eq R hσ]
  refine ⟨?_, fun h => (by cases h), fun h => (by cases h)⟩
  simp [Mem.setNext, Mem.setBack, hx]

theorem slistUnlink_eq {e : Nat} {b : List Nat} {m : Mem} : ∀ (p : List Nat) (c : Nat) (l : Loc) (fuel : Nat), Chain m l (p ++ c :: e :: b) → e ∉ p → e ≠ c →
    p.length < fuel → slistUnlink e fuel (p ++ c :: e :: b).head? m = .ok (m.setNext (el c) (m.next (el e))) := by
  intro p
  induction p with
  | nil =>
    intro c l fuel hc _ _ hf
    cases fuel with
    | zero => cases hf
    | succ n =>
      show slistUnlink e (n + 1) (some c) m = _
      unfold slistUnlink
      rw [if_neg (by rw [hc.2.2.1]; simp)]
  | cons x p ih =>
    intro c l fuel hc hp hne hf
    cases fuel with
    | zero => cases hf
    | succ n =>
      show slistUnlink e (n + 1) (some x) m = _
      unfold slistUnlink
      have hn : m.next (el x) = (p ++ c :: e :: b).head? := by
        have h3 : Chain m (el x) (p ++ c :: e :: b) := hc.2.2
        cases p with
        | nil => exact h3.1
        | cons y p => exact h3.1
      have hx : (p ++ c :: e :: b).head? ≠ some e := by
        cases p with
        | nil => simpa using Ne.symm hne
        | cons y p => simp only [List.mem_cons, not_or] at hp; simpa using Ne.symm hp.2.1
      rw [hn, if_pos hx]
      exact ih c (el x) n hc.2.2 (fun h => hp (List.mem_cons_of_mem _ h)) hne (by simp at hf; omega)

end

theorem slistUnlink_next {m t : Mem} (hm : m.next = t.next) {e c : Nat} : ∀ (n : Nat) (v : Option Nat),
    slistUnlink e n v t = .ok (t.setNext (el c) (t.next (el e))) → slistUnlink e n v m = .ok (m.setNext (el c) (m.next (el e))) := by
  intro n
  induction n with
  | zero => intro v h; cases h
  | succ n ih =>
    intro v h
    cases v with
    | none => cases h
    | some d =>
      simp only [slistUnlink] at h ⊢
      rw [hm]
      split
      · next hd => rw [if_pos hd] at h; rw [← hm] at h ⊢; exact (by rw [hm] at h ⊢; have := ih _ h; rwa [hm] at this)
      · next hd =>
        rw [if_neg hd] at h
        simp only [R.ok.injEq] at h
        have hn := congrArg Mem.next h
        congr 1
        refine mem_ext (fun l => ?_) (fun l => rfl)
        have := congrFun hn l
        simp only [Mem.setNext, hm] at this ⊢
        exact this

/-- One macro. -/
theorem Rep.exec {fuel : Nat} {k : Kind} {m : Mem} {σ : Seqs} {o : Op} (H : Rep k m σ) (ho : offers k o = true) (hl : o.legal σ)
    (hf : ∀ h xs, σ h = some xs → xs.length < fuel) : ∃ m', exec fuel k o m = .ok m' ∧ Rep k m' (o.apply σ) := by
  obtain ⟨t, S, R⟩ := H
  have eqt : k = .tailq → m = t := fun hk => by
    subst hk
    refine mem_ext (fun l => by rw [S.next]) fun l => ?_
    cases l with
    | hd h => exact S.tailed rfl h
    | el e => exact S.dbl rfl e
  cases o with
  | init h =>
    cases k with
    | slist => exact ⟨_, rfl, _, sim_slist_init h S, R.init h⟩
    | list => exact ⟨_, rfl, _, sim_list_init h S, R.init h⟩
    | simpleq => exact ⟨_, rfl, _, sim_simpleq_init h S, R.init h⟩
    | tailq => rw [eqt rfl]; exact ⟨_, rfl, _, ⟨rfl, fun _ _ => rfl, fun _ _ => rfl⟩, R.init h⟩
  | insertHead h e =>
    obtain ⟨⟨xs, hx⟩, hfr⟩ := hl
    have R' := R.insertHead hx hfr
    simp only [Op.apply, hx, Option.getD_some]
    cases k with
    | slist => exact ⟨_, rfl, _, sim_slist_insertHead h e S, R'⟩
    | list => exact ⟨_, rfl, _, sim_list_insertHead h e S, R'⟩
    | simpleq => exact ⟨_, rfl, _, sim_simpleq_insertHead h e S, R'⟩
    | tailq => rw [eqt rfl]; exact ⟨_, rfl, _, ⟨rfl, fun _ _ => rfl, fun _ _ => rfl⟩, R'⟩
  | insertTail h e =>
    obtain ⟨⟨xs, hx⟩, hfr⟩ := hl
    have R' := R.insertTail hx hfr
    simp only [Op.apply, hx, Option.getD_some]
    cases k with
    | slist => cases ho
    | list => cases ho
    | simpleq => exact ⟨_, rfl, _, sim_simpleq_insertTail h e S, R'⟩
    | tailq => rw [eqt rfl]; exact ⟨_, rfl, _, ⟨rfl, fun _ _ => rfl, fun _ _ => rfl⟩, R'⟩
  | insertAfter h s e =>
    obtain ⟨⟨xs, hx, hm⟩, hfr⟩ := hl
    have hne : s ≠ e := by rintro rfl; exact hfr h xs hx hm
    obtain ⟨a, b, rfl, na, nb⟩ := split_mem hm (R.nodup h xs hx)
    have R' := R.insertAfter hx hfr
    simp only [Op.apply, hx, Option.getD_some, insertAfter_split na]
    cases k with
    | slist => exact ⟨_, rfl, _, sim_slist_insertAfter h s e S, R'⟩
    | list => exact ⟨_, rfl, _, sim_list_insertAfter h s e hne S, R'⟩
    | simpleq => exact ⟨_, rfl, _, sim_simpleq_insertAfter h s e S, R'⟩
    | tailq => rw [eqt rfl]; exact ⟨_, rfl, _, ⟨rfl, fun _ _ => rfl, fun _ _ => rfl⟩, R'⟩
  | insertBefore h s e =>
    obtain ⟨⟨xs, hx, hm⟩, hfr⟩ := hl
    obtain ⟨a, b, rfl, na, nb⟩ := split_mem hm (R.nodup h xs hx)
    have R' := R.insertBefore hx hfr
    simp only [Op.apply, hx, Option.getD_some, insertBefore_split na]
    cases k with
    | slist => cases ho
    | list => exact ⟨_, rfl, _, sim_list_insertBefore s e S, R'⟩
    | simpleq => cases ho
    | tailq => rw [eqt rfl]; exact ⟨_, rfl, _, ⟨rfl, fun _ _ => rfl, fun _ _ => rfl⟩, R'⟩
  | removeHead h =>
    obtain ⟨x, xs, hx⟩ := hl
    have R' := R.remove (a := []) hx
    have hn : m.next (hd h) = some x := by rw [S.next]; exact (R.at (a := []) hx).1
    simp only [Op.apply, hx, Option.getD_some, List.tail_cons]
    cases k with
    | slist =>
      refine ⟨m.setNext (hd h) (m.next (el x)), ?_, _, sim_slist_remove (a := []) S R hx, R'⟩
      show slistRemoveHead h m = _
      unfold slistRemoveHead
      rw [hn]
    | list => cases ho
    | simpleq =>
      refine ⟨_, ?_, _, sim_simpleq_remove (a := []) S R hx, R'⟩
      show simpleqRemoveHead h m = _
      unfold simpleqRemoveHead
      rw [hn]
      rfl
    | tailq => cases ho
  | removeAfter h s =>
    obtain ⟨a, y, b, hx⟩ := hl
    have hx' : σ h = some ((a ++ [s]) ++ y :: b) := by simpa using hx
    have R' := R.remove hx'
    have na : s ∉ a := by
      obtain ⟨_, _, d⟩ := List.nodup_append.mp (R.nodup h _ hx)
      exact fun h' => d s h' s (by simp) rfl
    have hn : m.next (el s) = some y := by
      rw [S.next]
      have := (R.at hx').1
      rwa [endLoc_snoc] at this
    simp only [Op.apply, hx, Option.getD_some, removeAfter_split na]
    rw [show a ++ s :: b = (a ++ [s]) ++ b by simp]
    cases k with
    | slist =>
      refine ⟨m.setNext (el s) (m.next (el y)), ?_, _, ?_, R'⟩
      · show slistRemoveAfter s m = _
        unfold slistRemoveAfter
        rw [hn]
      · have := sim_slist_remove S R hx'
        rwa [endLoc_snoc] at this
    | list => cases ho
    | simpleq =>
      have hs := sim_simpleq_remove S R hx'
      rw [endLoc_snoc] at hs
      refine ⟨_, ?_, _, hs, R'⟩
      show simpleqRemoveAfter h s m = _
      unfold simpleqRemoveAfter
      rw [hn]
    | tailq => cases ho
  | remove h e =>
    obtain ⟨xs, hx, hm⟩ := hl
    obtain ⟨a, b, rfl, na, nb⟩ := split_mem hm (R.nodup h xs hx)
    have R' := R.remove hx
    simp only [Op.apply, hx, Option.getD_some, erase_split na]
    cases k with
    | slist =>
      refine ⟨m.setNext (endLoc (hd h) a) (m.next (el e)), ?_, _, sim_slist_remove S R hx, R'⟩
      show slistRemove fuel h e m = _
      unfold slistRemove
      rcases List.eq_nil_or_concat a with rfl | ⟨p, c, rfl⟩
      · have hn : m.next (hd h) = some e := by rw [S.next]; exact (R.at (a := []) hx).1
        rw [if_pos hn]
        unfold slistRemoveHead
        rw [hn]
        rfl
      · rw [List.concat_eq_append] at *
        have hx2 : σ h = some (p ++ c :: e :: b) := by simpa using hx
        have hn : m.next (hd h) = (p ++ c :: e :: b).head? := by rw [S.next]; exact (R.at (a := []) hx2).1
        have hne : (p ++ c :: e :: b).head? ≠ some e := by
          simp only [List.mem_append, List.mem_singleton, not_or] at na
          cases p with
          | nil => simpa using Ne.symm na.2
          | cons z p => simp only [List.mem_cons, not_or] at na; simpa using Ne.symm na.1.1
        rw [hn, if_neg hne, endLoc_snoc]
        simp only [List.mem_append, List.mem_singleton, not_or] at na
        have hlen := hf h _ hx
        have ht : Chain t (hd h) (p ++ c :: e :: b) := R.chain h _ hx2
        have := slistUnlink_eq (m := t) p c (hd h) fuel ht na.1 na.2 (by simp at hlen; omega)
        exact slistUnlink_next S.next _ _ this
    | list => exact ⟨_, rfl, _, sim_list_remove h e S, R'⟩
    | simpleq => cases ho
    | tailq => rw [eqt rfl]; exact ⟨_, rfl, _, ⟨rfl, fun _ _ => rfl, fun _ _ => rfl⟩, R'⟩
  | replace h e e2 =>
    obtain ⟨⟨xs, hx, hm⟩, hfr⟩ := hl
    obtain ⟨a, b, rfl, na, nb⟩ := split_mem hm (R.nodup h xs hx)
    have R' := R.replace hx hfr
    simp only [Op.apply, hx, Option.getD_some, replace_split na nb]
    cases k with
    | slist => cases ho
    | list => exact ⟨_, rfl, _, sim_list_replace h e e2 S, R'⟩
    | simpleq => cases ho
    | tailq => rw [eqt rfl]; exact ⟨_, rfl, _, ⟨rfl, fun _ _ => rfl, fun _ _ => rfl⟩, R'⟩
  | concat h1 h2 =>
    obtain ⟨hne, ⟨xs, hx⟩, ⟨ys, hy⟩⟩ := hl
    have R' := R.concat hne hx hy
    simp only [Op.apply, hx, hy, Option.getD_some]
    cases k with
    | slist => cases ho
    | list => cases ho
    | simpleq => exact ⟨_, rfl, _, sim_simpleq_concat h1 h2 hne S, R'⟩
    | tailq => rw [eqt rfl]; exact ⟨_, rfl, _, ⟨rfl, fun _ _ => rfl, fun _ _ => rfl⟩, R'⟩

theorem Rep.run {fuel : Nat} {k : Kind} (os : List Op) : ∀ {m : Mem} {σ : Seqs}, Rep k m σ → Legal fuel k σ os →
    ∃ m', run fuel k os m = .ok m' ∧ Rep k m' (applyAll σ os) := by
  induction os with
  | nil => intro m σ H _; exact ⟨m, rfl, H⟩
  | cons o os ih =>
    intro m σ H hl
    obtain ⟨h1, h2, h3, h4⟩ := hl
    obtain ⟨m', e, H'⟩ := H.exec h1 h2 h3
    obtain ⟨m'', e', H''⟩ := ih H' h4
    refine ⟨m'', ?_, H''⟩
    show (match Bq.exec fuel k o m with | .ok m => Bq.run fuel k os m | r => r) = _
    rw [e]
    exact e'

theorem Rep.nothing (k : Kind) (m : Mem) : Rep k m nothing :=
  ⟨m, ⟨rfl, fun _ _ => rfl, fun _ _ => rfl⟩, ⟨fun _ _ h => (by cases h), fun _ _ h => (by cases h), fun _ _ h => (by cases h),
    fun _ _ _ _ _ h => (by cases h)⟩⟩

/-! ## Traversal -/

theorem walk_chain {m : Mem} (xs : List Nat) : ∀ {l : Loc} {fuel : Nat}, Chain m l xs → xs.length < fuel → walk m fuel (m.next l) = some xs := by
  induction xs with
  | nil =>
    intro l fuel hc hf
    cases fuel with
    | zero => cases hf
    | succ n => rw [show m.next l = none from hc]; rfl
  | cons x xs ih =>
    intro l fuel hc hf
    cases fuel with
    | zero => cases hf
    | succ n =>
      rw [hc.1]
      show (walk m n (m.next (el x))).map (x :: ·) = _
      rw [ih hc.2.2 (by simp at hf; omega)]
      rfl

theorem walk_next {m t : Mem} (h : m.next = t.next) (n : Nat) : ∀ v, walk m n v = walk t n v := by
  induction n with
  | zero => intro v; rfl
  | succ n ih =>
    intro v
    cases v with
    | none => rfl
    | some e => simp only [walk, ih, h]

theorem Rep.walk {k : Kind} {m : Mem} {σ : Seqs} {h : Nat} {xs : List Nat} {fuel : Nat} (H : Rep k m σ) (hx : σ h = some xs)
    (hf : xs.length < fuel) : walk m fuel (m.next (hd h)) = some xs := by
  obtain ⟨t, S, R⟩ := H
  rw [walk_next S.next, S.next]
  exact walk_chain xs (R.chain h xs hx) hf

theorem RepT.prev {m : Mem} {σ : Seqs} {h s : Nat} {a b : List Nat} (R : RepT m σ) (hx : σ h = some (a ++ s :: b)) :
    tailqPrev s m = a.getLast? := by
  unfold tailqPrev
  have h0 : m.back (el s) = endLoc (hd h) a := (R.at hx).2
  rw [h0]
  rcases List.eq_nil_or_concat a with rfl | ⟨p, c, rfl⟩
  · show m.next (m.back (hd h)) = none
    rw [R.last h _ hx]
    exact (R.at (a := [] ++ s :: b) (b := []) (by simpa using hx)).1
  · rw [List.concat_eq_append] at *
    rw [endLoc_snoc]
    have hx' : σ h = some (p ++ c :: (s :: b)) := by simpa using hx
    have h1 : m.back (el c) = endLoc (hd h) p := (R.at hx').2
    rw [h1, (R.at hx').1]
    simp

theorem RepT.tailLast {m : Mem} {σ : Seqs} {h : Nat} {xs : List Nat} (R : RepT m σ) (hx : σ h = some xs) : tailqLast h m = xs.getLast? := by
  unfold tailqLast
  rw [R.last h xs hx]
  rcases List.eq_nil_or_concat xs with rfl | ⟨p, c, rfl⟩
  · show m.next (m.back (hd h)) = none
    rw [R.last h _ hx]
    exact (R.at (a := []) (b := []) hx).1
  · rw [List.concat_eq_append] at *
    rw [endLoc_snoc]
    have h1 : m.back (el c) = endLoc (hd h) p := (R.at hx).2
    rw [h1, (R.at hx).1]
    simp

theorem RepT.walkBack {m : Mem} {σ : Seqs} {h : Nat} (R : RepT m σ) : ∀ (n : Nat) (a b : List Nat) (fuel : Nat), a.length = n → σ h = some (a ++ b) →
    a.length < fuel → walkBack m fuel a.getLast? = some a.reverse := by
  intro n
  induction n with
  | zero =>
    intro a b fuel ha _ hf
    cases a with
    | cons => cases ha
    | nil =>
      cases fuel with
      | zero => cases hf
      | succ n => rfl
  | succ n ih =>
    intro a b fuel ha hx hf
    rcases List.eq_nil_or_concat a with rfl | ⟨p, c, rfl⟩
    · cases ha
    · rw [List.concat_eq_append] at *
      cases fuel with
      | zero => cases hf
      | succ f =>
        have hx' : σ h = some (p ++ c :: b) := by simpa using hx
        rw [List.getLast?_concat]
        show (Bq.walkBack m f (tailqPrev c m)).map (c :: ·) = _
        rw [R.prev hx', ih p (c :: b) f (by simp at ha; omega) hx' (by simp at hf; omega)]
        simp

theorem before_none {s : Nat} (b : List Nat) : s ∉ b.tail → before s b = none := by
  induction b with
  | nil => intro _; rfl
  | cons y b ih =>
    cases b with
    | nil => intro _; rfl
    | cons z b =>
      intro h
      simp only [List.tail_cons, List.mem_cons, not_or] at h
      rw [before, if_neg (Ne.symm h.1)]
      exact ih h.2

theorem before_split {s : Nat} (a b : List Nat) (na : s ∉ a) (nb : s ∉ b) : before s (a ++ s :: b) = a.getLast? := by
  induction a with
  | nil => exact before_none _ nb
  | cons x a ih =>
    simp only [List.mem_cons, not_or] at na
    cases a with
    | nil => simp [before]
    | cons y a =>
      simp only [List.mem_cons, not_or] at na
      have : before s (x :: y :: (a ++ s :: b)) = before s (y :: (a ++ s :: b)) := by
        rw [before, if_neg (Ne.symm na.2.1)]
      simp only [List.cons_append] at ih ⊢
      rw [this, ih (by simp [na])]
      simp

theorem after_split {s : Nat} (a b : List Nat) (na : s ∉ a) : after s (a ++ s :: b) = b.head? := by
  induction a with
  | nil => simp [after]
  | cons x a ih =>
    simp only [List.mem_cons, not_or] at na
    rw [List.cons_append, after, if_neg (Ne.symm na.1)]
    exact ih na.2

theorem Rep.shows {k : Kind} {m : Mem} {σ : Seqs} (H : Rep k m σ) : Shows k m σ := by
  have H' := H
  obtain ⟨t, S, R⟩ := H
  have eqt : k = .tailq → m = t := fun hk => by
    subst hk
    refine mem_ext (fun l => by rw [S.next]) fun l => ?_
    cases l with
    | hd h => exact S.tailed rfl h
    | el e => exact S.dbl rfl e
  refine ⟨fun h xs hx => ?_, fun h xs e hx he => ?_, fun h xs n hx hn => H'.walk hx hn, fun hk h xs hx => ?_, fun hk h xs e hx he => ?_,
    fun hk h xs n hx hn => ?_⟩
  · rw [S.next]; exact (R.at (a := []) hx).1
  · obtain ⟨a, b, rfl, na, nb⟩ := split_mem he (R.nodup h xs hx)
    rw [after_split a b na, S.next]
    have := (R.at (a := a ++ [e]) (b := b) (by simpa using hx)).1
    rwa [endLoc_snoc] at this
  · rw [eqt hk]; exact R.tailLast hx
  · obtain ⟨a, b, rfl, na, nb⟩ := split_mem he (R.nodup h xs hx)
    rw [before_split a b na nb, eqt hk]
    exact R.prev hx
  · rw [eqt hk, R.tailLast hx]
    exact R.walkBack xs.length xs [] n rfl (by simpa using hx) hn

theorem Rep.behaves {k : Kind} {m : Mem} {σ : Seqs} (H : Rep k m σ) : Behaves k m σ := by
  intro fuel os hl
  obtain ⟨m', e, H'⟩ := H.run os hl
  exact ⟨m', e, H'.shows⟩

/-! ## Loops that remove -/

theorem Rep.spoil {k : Kind} {m m' : Mem} {σ : Seqs} {e : Nat} (H : Rep k m σ) (hf : σ.free e)
    (hs : ∀ l, l ≠ el e → m'.next l = m.next l ∧ m'.back l = m.back l) : Rep k m' σ := by
  obtain ⟨t, S, R⟩ := H
  refine ⟨⟨fun l => m'.next l, fun l => if l = el e then m'.back l else t.back l⟩, ⟨rfl, fun hd x => ?_, fun hd h => ?_⟩, ?_⟩
  · show m'.back (el x) = if el x = el e then m'.back (el x) else t.back (el x)
    split
    · rfl
    · next h => rw [(hs _ h).2]; exact S.dbl hd x
  · show m'.back (.hd h) = if Loc.hd h = el e then m'.back (.hd h) else t.back (.hd h)
    rw [if_neg (by simp), (hs _ (by simp)).2]
    exact S.tailed hd h
  · refine ⟨fun h xs hx => ?_, fun h xs hx => ?_, R.nodup, R.disj⟩
    · refine chain_congr xs ?_ (fun x hm => ?_) (R.chain h xs hx)
      · show m'.next _ = _
        rw [(hs _ (by simp)).1, S.next]
      · have hne : el x ≠ el e := by
          intro h'
          simp only [el.injEq] at h'
          subst h'
          exact hf h xs hx hm
        refine ⟨?_, ?_⟩
        · show m'.next _ = _
          rw [(hs _ hne).1, S.next]
        · show (if el x = el e then _ else t.back (el x)) = _
          rw [if_neg hne]
    · show (if Loc.hd h = el e then m'.back (.hd h) else t.back (.hd h)) = _
      rw [if_neg (by simp)]
      exact R.last h xs hx

theorem put_put (σ : Seqs) (h : Nat) (xs ys : List Nat) : (σ.put h xs).put h ys = σ.put h ys := by
  funext k; simp only [Seqs.put]; split <;> rfl

theorem Rep.removing {fuel : Nat} {k : Kind} {h : Nat} {p : Nat → Bool} {spoil : Nat → Mem → Mem} {m : Mem} {σ : Seqs} {a b : List Nat} {x : Nat}
    (hk : offers k (.remove h 0) = true) (hsp : Spoils spoil) (H : Rep k m (σ.put h (a ++ x :: b)))
    (hf : ∀ h' xs, (σ.put h (a ++ x :: b)) h' = some xs → xs.length < fuel) :
    ∃ m', Bq.removing fuel k h p spoil x m = .ok m' ∧ Rep k m' (σ.put h (a ++ [x].filter (fun y => !p y) ++ b)) := by
  unfold Bq.removing
  by_cases hp : p x = true
  · rw [if_pos hp]
    have hnd : (a ++ x :: b).Nodup := by
      obtain ⟨t, S, R⟩ := H
      exact R.nodup h _ (put_same _ _ _)
    have nab : x ∉ a ∧ x ∉ b := by
      obtain ⟨_, nb, d⟩ := List.nodup_append.mp hnd
      exact ⟨fun h' => d x h' x (by simp) rfl, (List.nodup_cons.mp nb).1⟩
    have hal : (Op.remove h x).legal (σ.put h (a ++ x :: b)) := ⟨_, put_same _ _ _, by simp⟩
    obtain ⟨m', e, H'⟩ := H.exec (o := .remove h x) (by revert hk; cases k <;> exact id) hal hf
    rw [e]
    refine ⟨_, rfl, ?_⟩
    have hap : (Op.remove h x).apply (σ.put h (a ++ x :: b)) = σ.put h (a ++ [x].filter (fun y => !p y) ++ b) := by
      simp only [Op.apply, put_same, Option.getD_some, put_put, erase_split nab.1]
      simp [hp]
    rw [hap] at H'
    refine H'.spoil (e := x) (fun h' xs hx hm => ?_) (fun l hl => hsp x m' l hl)
    by_cases hh : h' = h
    · subst hh
      rw [put_same] at hx
      cases hx
      simp [hp, nab] at hm
    · rw [put_other _ _ hh] at hx
      obtain ⟨t, S, R⟩ := H
      exact hh (R.disj h' h xs _ x (by rw [put_other _ _ hh]; exact hx) (put_same _ _ _) hm (by simp))
  · rw [if_neg hp]
    refine ⟨m, rfl, ?_⟩
    have : (a ++ [x].filter (fun y => !p y) ++ b) = a ++ x :: b := by simp [hp]
    rw [this]
    exact H

theorem Rep.walkSafe {fuel : Nat} {k : Kind} {h : Nat} {p : Nat → Bool} {spoil : Nat → Mem → Mem} {σ : Seqs}
    (hk : offers k (.remove h 0) = true) (hsp : Spoils spoil) (hf : ∀ h' xs, h' ≠ h → σ h' = some xs → xs.length < fuel) (b : List Nat) :
    ∀ (a : List Nat) (m : Mem) (n : Nat), Rep k m (σ.put h (a ++ b)) → (a ++ b).length < fuel → b.length < n →
    ∃ m', Bq.walkSafe (Bq.removing fuel k h p spoil) n b.head? m = some (b, m') ∧ Rep k m' (σ.put h (a ++ b.filter fun y => !p y)) := by
  induction b with
  | nil =>
    intro a m n H _ hn
    cases n with
    | zero => cases hn
    | succ n => exact ⟨m, rfl, by simpa using H⟩
  | cons x b ih =>
    intro a m n H hl hn
    cases n with
    | zero => cases hn
    | succ n =>
      have hnd : (a ++ x :: b).Nodup := by
        obtain ⟨t, S, R⟩ := H
        exact R.nodup h _ (put_same _ _ _)
      have na : x ∉ a := by
        obtain ⟨_, nb, d⟩ := List.nodup_append.mp hnd
        exact fun h' => d x h' x (by simp) rfl
      obtain ⟨m', e, H'⟩ := H.removing (p := p) hk hsp (by
        intro h' xs hx
        by_cases hh : h' = h
        · subst hh; rw [put_same] at hx; cases hx; exact hl
        · rw [put_other _ _ hh] at hx; exact hf h' xs hh hx)
      have hnx : m.next (el x) = b.head? := by
        rw [H.shows.follow h _ x (put_same _ _ _) (by simp), after_split a b na]
      obtain ⟨m'', e', H''⟩ := ih (a ++ [x].filter (fun y => !p y)) m' n H' (by
        have : ([x].filter (fun y => !p y)).length ≤ 1 := List.length_filter_le _ _
        simp only [List.length_append, List.length_cons] at hl ⊢
        omega) (by simp at hn; omega)
      refine ⟨m'', ?_, ?_⟩
      · simp only [List.head?_cons, Bq.walkSafe, e]
        rw [hnx, e']
        rfl
      · have : a ++ (x :: b).filter (fun y => !p y) = a ++ [x].filter (fun y => !p y) ++ b.filter (fun y => !p y) := by
          rw [List.append_assoc, ← List.filter_append, List.singleton_append]
        rw [this]
        exact H''

theorem Rep.walkBackSafe {fuel : Nat} {h : Nat} {p : Nat → Bool} {spoil : Nat → Mem → Mem} {σ : Seqs}
    (hsp : Spoils spoil) (hf : ∀ h' xs, h' ≠ h → σ h' = some xs → xs.length < fuel) : ∀ (k : Nat) (a b : List Nat) (m : Mem) (n : Nat),
    a.length = k → Rep .tailq m (σ.put h (a ++ b)) → (a ++ b).length < fuel → a.length < n →
    ∃ m', Bq.walkBackSafe (Bq.removing fuel .tailq h p spoil) n a.getLast? m = some (a.reverse, m') ∧
      Rep .tailq m' (σ.put h (a.filter (fun y => !p y) ++ b)) := by
  intro k
  induction k with
  | zero =>
    intro a b m n ha H _ hn
    cases a with
    | cons => cases ha
    | nil =>
      cases n with
      | zero => cases hn
      | succ n => exact ⟨m, rfl, by simpa using H⟩
  | succ k ih =>
    intro a b m n ha H hl hn
    rcases List.eq_nil_or_concat a with rfl | ⟨a, x, rfl⟩
    · cases ha
    rw [List.concat_eq_append] at *
    cases n with
    | zero => cases hn
    | succ n =>
      have e0 : (a ++ [x]) ++ b = a ++ x :: b := by simp
      rw [e0] at H hl
      have hnd : (a ++ x :: b).Nodup := by
        obtain ⟨t, S, R⟩ := H
        exact R.nodup h _ (put_same _ _ _)
      have nab : x ∉ a ∧ x ∉ b := by
        obtain ⟨_, nb, d⟩ := List.nodup_append.mp hnd
        exact ⟨fun h' => d x h' x (by simp) rfl, (List.nodup_cons.mp nb).1⟩
      obtain ⟨m', e, H'⟩ := H.removing (p := p) (k := .tailq) rfl hsp (by
        intro h' xs hx
        by_cases hh : h' = h
        · subst hh; rw [put_same] at hx; cases hx; exact hl
        · rw [put_other _ _ hh] at hx; exact hf h' xs hh hx)
      have hnx : tailqPrev x m = a.getLast? := by
        rw [H.shows.precede rfl h _ x (put_same _ _ _) (by simp), before_split a b nab.1 nab.2]
      rw [List.append_assoc] at H'
      obtain ⟨m'', e', H''⟩ := ih a ([x].filter (fun y => !p y) ++ b) m' n (by simp at ha; omega) H' (by
        have : ([x].filter (fun y => !p y)).length ≤ 1 := List.length_filter_le _ _
        simp only [List.length_append, List.length_cons] at hl ⊢
        omega) (by simp at hn; omega)
      refine ⟨m'', ?_, ?_⟩
      · rw [List.getLast?_concat]
        simp only [Bq.walkBackSafe, e]
        rw [hnx, e']
        simp
      · rw [List.filter_append, List.append_assoc]
        exact H''

/-! ## Deciding whether a history is legal -/

def lists (B : Nat) (σ : Seqs) : List (List Nat) := (List.range B).filterMap σ

def Op.legalB (B : Nat) (σ : Seqs) : Op → Bool
  | .init h => decide (h < B)
  | .insertHead h e | .insertTail h e => (σ h).isSome && (lists B σ).all fun xs => !xs.contains e
  | .insertAfter h s e | .insertBefore h s e | .replace h s e =>
    (σ h).any (fun xs => xs.contains s) && (lists B σ).all fun xs => !xs.contains e
  | .removeHead h => (σ h).any fun xs => !xs.isEmpty
  | .removeAfter _ _ => false
  | .remove h e => (σ h).any fun xs => xs.contains e
  | .concat h1 h2 => decide (h1 ≠ h2) && (σ h1).isSome && (σ h2).isSome

def legalB (B fuel : Nat) (k : Kind) : Seqs → List Op → Bool
  | _, [] => true
  | σ, o :: os => offers k o && o.legalB B σ && ((lists B σ).all fun xs => decide (xs.length < fuel)) && legalB B fuel k (o.apply σ) os

theorem mem_lists {B : Nat} {σ : Seqs} (hB : ∀ h, B ≤ h → σ h = none) {h : Nat} {xs : List Nat} (hx : σ h = some xs) : xs ∈ lists B σ := by
  refine List.mem_filterMap.mpr ⟨h, List.mem_range.mpr ?_, hx⟩
  by_cases hh : B ≤ h
  · rw [hB h hh] at hx; cases hx
  · omega

theorem Op.legal_of {B : Nat} {σ : Seqs} (hB : ∀ h, B ≤ h → σ h = none) {o : Op} (h : o.legalB B σ = true) : o.legal σ := by
  have free : ∀ e, ((lists B σ).all fun xs => !xs.contains e) = true → σ.free e := by
    intro e he h xs hx hm
    have := List.all_eq_true.mp he xs (mem_lists hB hx)
    simp [hm] at this
  cases o <;> simp only [Op.legalB, Op.legal, Bool.and_eq_true, Option.isSome_iff_exists, Option.any_eq_true, List.contains_iff_mem,
    decide_eq_true_eq] at h ⊢
  case insertHead => exact ⟨h.1, free _ h.2⟩
  case insertTail => exact ⟨h.1, free _ h.2⟩
  case insertAfter => exact ⟨h.1, free _ h.2⟩
  case insertBefore => exact ⟨h.1, free _ h.2⟩
  case replace => exact ⟨h.1, free _ h.2⟩
  case removeHead =>
    obtain ⟨xs, h1, h2⟩ := h
    cases xs with
    | nil => cases h2
    | cons x xs => exact ⟨x, xs, h1⟩
  case removeAfter => cases h
  case remove => exact h
  case concat => exact ⟨h.1.1, h.1.2, h.2⟩

theorem Legal.of {B fuel : Nat} {k : Kind} (os : List Op) : ∀ {σ : Seqs}, (∀ h, B ≤ h → σ h = none) → legalB B fuel k σ os = true → Legal fuel k σ os := by
  induction os with
  | nil => intro _ _ _; trivial
  | cons o os ih =>
    intro σ hB h
    simp only [legalB, Bool.and_eq_true] at h
    obtain ⟨⟨⟨h1, h2⟩, h3⟩, h4⟩ := h
    have hl := Op.legal_of hB h2
    refine ⟨h1, hl, fun j xs hx => ?_, ih ?_ h4⟩
    · simpa using List.all_eq_true.mp h3 xs (mem_lists hB hx)
    · intro j hj
      have hn := hB j hj
      have ne : ∀ i xs, σ i = some xs → j ≠ i := fun i xs hi e => by subst e; rw [hn] at hi; cases hi
      cases o with
      | init i =>
        have : i < B := by simpa [Op.legalB] using h2
        simp only [Op.apply, Seqs.put]
        rw [if_neg (by omega)]
        exact hn
      | insertHead i e | insertTail i e => obtain ⟨⟨xs, hx⟩, _⟩ := hl; simp only [Op.apply, Seqs.put, ne i _ hx, if_false]; exact hn
      | insertAfter i s e | insertBefore i s e | replace i s e => obtain ⟨⟨xs, hx, _⟩, _⟩ := hl; simp only [Op.apply, Seqs.put, ne i _ hx, if_false]; exact hn
      | removeHead i => obtain ⟨x, xs, hx⟩ := hl; simp only [Op.apply, Seqs.put, ne i _ hx, if_false]; exact hn
      | removeAfter i s => obtain ⟨a, y, b, hx⟩ := hl; simp only [Op.apply, Seqs.put, ne i _ hx, if_false]; exact hn
      | remove i e => obtain ⟨xs, hx, _⟩ := hl; simp only [Op.apply, Seqs.put, ne i _ hx, if_false]; exact hn
      | concat i i2 =>
        obtain ⟨_, ⟨xs, hx⟩, ⟨ys, hy⟩⟩ := hl
        simp only [Op.apply, Seqs.put, ne i _ hx, ne i2 _ hy, if_false]; exact hn

end Verif.Bq
