import Verif.Spec.Getopt
namespace Verif.Go

/-! ## Exchanging -/

theorem swap_eq (pre M post : List Str) (x y : Str) {i j : Nat} (hi : i = pre.length) (hj : j = pre.length + 1 + M.length) :
    swap (pre ++ x :: (M ++ y :: post)) i j = some (pre ++ y :: (M ++ x :: post)) := by
  subst hi hj
  unfold swap
  have h1 : (pre ++ x :: (M ++ y :: post))[pre.length]? = some x := by simp
  have h2 : (pre ++ x :: (M ++ y :: post))[pre.length + 1 + M.length]? = some y := by
    rw [List.getElem?_append_right (by omega)]
    rw [show pre.length + 1 + M.length - pre.length = M.length + 1 by omega]
    simp
  rw [h1, h2]
  simp only [Option.some.injEq]
  rw [List.set_append_right (h := Nat.le_refl _), Nat.sub_self, List.set_cons_zero,
    List.set_append_right (h := by omega), show pre.length + 1 + M.length - pre.length = M.length + 1 by omega, List.set_cons_succ,
    List.set_append_right (h := Nat.le_refl _), Nat.sub_self, List.set_cons_zero]

theorem swaps_eq (X : List Str) : ∀ (pre M Y post : List Str) {i j n : Nat}, i = pre.length → n = X.length → n = Y.length →
    j = pre.length + X.length + M.length →
    swaps (pre ++ X ++ M ++ Y ++ post) i j n = some (pre ++ Y ++ M ++ X ++ post) := by
  induction X with
  | nil =>
    intro pre M Y post i j n _ hn hy _
    have : Y = [] := List.eq_nil_of_length_eq_zero (by simp at hn; omega)
    subst this hn
    simp [swaps]
  | cons x X ih =>
    intro pre M Y post i j n hi hn hy hj
    cases Y with
    | nil => simp at hn hy; omega
    | cons y Y =>
      obtain ⟨n, rfl⟩ : ∃ k, n = k + 1 := ⟨X.length, hn⟩
      unfold swaps
      have := swap_eq pre (X ++ M) (Y ++ post) x y (j := j) hi (by rw [hj]; simp; omega)
      rw [show pre ++ (x :: X) ++ M ++ (y :: Y) ++ post = pre ++ x :: ((X ++ M) ++ y :: (Y ++ post)) by simp, this, Option.bind_some,
        show pre ++ y :: (X ++ M ++ x :: (Y ++ post)) = (pre ++ [y]) ++ X ++ (M ++ [x]) ++ Y ++ post by simp,
        ih (pre ++ [y]) (M ++ [x]) Y post (by rw [hi]; simp) (by simpa using hn) (by simpa using hy) (by rw [hj]; simp; omega)]
      simp

/-- The loop of `exchange` exchanges two neighbouring segments. -/
theorem exchangeLoop_eq (n : Nat) : ∀ (pre A B post : List Str) {b m t : Nat}, b = pre.length → m = pre.length + A.length →
    t = pre.length + A.length + B.length → A.length + B.length ≤ n →
    exchangeLoop n (pre ++ A ++ B ++ post) b m t = some (pre ++ B ++ A ++ post) := by
  induction n with
  | zero =>
    intro pre A B post b m t _ _ _ hn
    have h1 : A = [] := List.eq_nil_of_length_eq_zero (by omega)
    have h2 : B = [] := List.eq_nil_of_length_eq_zero (by omega)
    subst h1 h2
    simp [exchangeLoop]
  | succ n ih =>
    intro pre A B post b m t hb hm ht hn
    unfold exchangeLoop
    split
    · rename_i hc
      split
      · rename_i hl
        -- the lower one is the shorter
        obtain ⟨B1, B2, rfl, hB⟩ : ∃ B1 B2, B = B1 ++ B2 ∧ B2.length = A.length :=
          ⟨B.take (B.length - A.length), B.drop (B.length - A.length), (List.take_append_drop _ _).symm, by rw [List.length_drop]; omega⟩
        rw [List.length_append] at ht hn
        have hs := swaps_eq A pre B1 B2 post (i := b) (j := t - (m - b)) (n := m - b) hb (by omega) (by omega) (by omega)
        rw [show pre ++ A ++ (B1 ++ B2) ++ post = pre ++ A ++ B1 ++ B2 ++ post by simp, hs, Option.bind_some,
          show pre ++ B2 ++ B1 ++ A ++ post = pre ++ B2 ++ B1 ++ (A ++ post) by simp,
          ih pre B2 B1 (A ++ post) hb (by omega) (by omega) (by omega)]
        simp
      · rename_i hl
        obtain ⟨A1, A2, rfl, hA⟩ : ∃ A1 A2, A = A1 ++ A2 ∧ A1.length = B.length :=
          ⟨A.take B.length, A.drop B.length, (List.take_append_drop _ _).symm, by rw [List.length_take]; omega⟩
        rw [List.length_append] at ht hn hm
        have hs := swaps_eq A1 pre A2 B post (i := b) (j := m) (n := t - m) hb (by omega) (by omega) (by omega)
        rw [show pre ++ (A1 ++ A2) ++ B ++ post = pre ++ A1 ++ A2 ++ B ++ post by simp, hs, Option.bind_some,
          ih (pre ++ B) A2 A1 post (by simp; omega) (by simp; omega) (by simp; omega) (by omega)]
        simp
    · rename_i hc
      have : A = [] ∨ B = [] := by
        rcases Nat.eq_zero_or_pos A.length with h | h
        · exact .inl (List.eq_nil_of_length_eq_zero h)
        · exact .inr (List.eq_nil_of_length_eq_zero (by omega))
      rcases this with h | h <;> subst h <;> simp

theorem exchange_eq (s : St) (pre A B post : List Str) (ha : s.argv = pre ++ A ++ B ++ post) (h1 : s.first = pre.length)
    (h2 : s.last = pre.length + A.length) (h3 : s.optind = pre.length + A.length + B.length) :
    exchange s = some { s with argv := pre ++ B ++ A ++ post, first := pre.length + B.length, last := s.optind } := by
  unfold exchange
  rw [ha, exchangeLoop_eq _ pre A B post h1 h2 h3 (by omega), Option.map_some, h1, show s.optind - s.last = B.length by omega]

/-- Exchanging never changes which words there are. -/
theorem swap_perm {l l' : List Str} {i j : Nat} (h : swap l i j = some l') : l'.Perm l ∧ (0 < i → 0 < j → l'.head? = l.head?) := by
  unfold swap at h
  split at h
  · rename_i a b ha hb
    cases h
    obtain ⟨hi, rfl⟩ := List.getElem?_eq_some_iff.mp ha
    obtain ⟨hj, rfl⟩ := List.getElem?_eq_some_iff.mp hb
    refine ⟨List.set_set_perm hi hj, fun h1 h2 => ?_⟩
    cases l with
    | nil => rfl
    | cons x r =>
      obtain ⟨i, rfl⟩ : ∃ k, i = k + 1 := ⟨i - 1, by omega⟩
      obtain ⟨j, rfl⟩ : ∃ k, j = k + 1 := ⟨j - 1, by omega⟩
      rfl
  · cases h

theorem swaps_perm (n : Nat) : ∀ {l l' : List Str} {i j : Nat}, swaps l i j n = some l' → l'.Perm l ∧ (0 < i → 0 < j → l'.head? = l.head?) := by
  induction n with
  | zero => intro l l' i j h; cases h; exact ⟨List.Perm.refl _, fun _ _ => rfl⟩
  | succ n ih =>
    intro l l' i j h
    unfold swaps at h
    rw [Option.bind_eq_some_iff] at h
    obtain ⟨l1, h1, h2⟩ := h
    obtain ⟨p1, q1⟩ := swap_perm h1
    obtain ⟨p2, q2⟩ := ih h2
    exact ⟨p2.trans p1, fun a b => (q2 (by omega) (by omega)).trans (q1 a b)⟩

theorem exchangeLoop_perm (n : Nat) : ∀ {l l' : List Str} {b m t : Nat}, exchangeLoop n l b m t = some l' →
    l'.Perm l ∧ (0 < b → l'.head? = l.head?) := by
  induction n with
  | zero => intro l l' b m t h; cases h; exact ⟨List.Perm.refl _, fun _ => rfl⟩
  | succ n ih =>
    intro l l' b m t h
    unfold exchangeLoop at h
    split at h
    · split at h <;> rw [Option.bind_eq_some_iff] at h <;> obtain ⟨l1, h1, h2⟩ := h <;>
        obtain ⟨p1, q1⟩ := swaps_perm _ h1 <;> obtain ⟨p2, q2⟩ := ih h2
      · exact ⟨p2.trans p1, fun a => (q2 a).trans (q1 a (by omega))⟩
      · exact ⟨p2.trans p1, fun a => (q2 (by omega)).trans (q1 a (by omega))⟩
    · cases h; exact ⟨List.Perm.refl _, fun _ => rfl⟩

theorem exchange_perm {s s' : St} (h : exchange s = some s') :
    s'.argv.Perm s.argv ∧ (0 < s.first → s'.argv.head? = s.argv.head?) ∧ s'.optind = s.optind ∧ s.first ≤ s'.first := by
  unfold exchange at h
  rw [Option.map_eq_some_iff] at h
  obtain ⟨l, h1, rfl⟩ := h
  obtain ⟨p, q⟩ := exchangeLoop_perm _ h1
  exact ⟨p, q, rfl, Nat.le_add_right _ _⟩

/-- The words stay the same, and so does the first. -/
structure Same (s s' : St) : Prop where
  perm : s'.argv.Perm s.argv
  head : s'.argv.head? = s.argv.head?
  first : 0 < s'.first
  optind : 0 < s'.optind
  inited : s'.inited = s.inited

theorem Same.trans {a b c : St} (h : Same a b) (k : Same b c) : Same a c :=
  ⟨k.perm.trans h.perm, k.head.trans h.head, k.first, k.optind, k.inited.trans h.inited⟩

theorem Same.rfl' {s : St} (h1 : 0 < s.first) (h2 : 0 < s.optind) : Same s s := ⟨List.Perm.refl _, rfl, h1, h2, rfl⟩

theorem exchange_same {s s' : St} (h : exchange s = some s') (h1 : 0 < s.first) (h2 : 0 < s.optind) : Same s s' := by
  obtain ⟨p, q, r, t⟩ := exchange_perm h
  refine ⟨p, q h1, by omega, by omega, ?_⟩
  unfold exchange at h
  rw [Option.map_eq_some_iff] at h
  obtain ⟨l, _, rfl⟩ := h
  rfl

theorem skip_ge (l : List Str) : ∀ i, i ≤ skip l i := by
  induction l with
  | nil => exact fun i => Nat.le_refl _
  | cons a l ih =>
    intro i
    unfold skip
    split
    · exact Nat.le_trans (Nat.le_succ _) (ih _)
    · exact Nat.le_refl _

theorem settle_same {s s' : St} (h : settle s = some s') (h1 : 0 < s.first) (h2 : 0 < s.optind) : Same s s' := by
  have hc : Same s (clamp s) := ⟨List.Perm.refl _, rfl, by simp only [clamp]; split <;> omega, h2, rfl⟩
  unfold settle at h
  split at h
  · rw [Option.map_eq_some_iff] at h
    obtain ⟨s1, hm, rfl⟩ := h
    have hs1 : Same (clamp s) s1 := by
      unfold moveBack at hm
      split at hm
      · exact exchange_same hm hc.first hc.optind
      · split at hm <;> cases hm
        · exact ⟨List.Perm.refl _, rfl, h2, h2, rfl⟩
        · exact Same.rfl' hc.first hc.optind
    exact (hc.trans hs1).trans ⟨List.Perm.refl _, rfl, hs1.first, Nat.lt_of_lt_of_le hs1.optind (skip_ge _ _), rfl⟩
  · cases h; exact hc

theorem dashes_same {s s' : St} (h : dashes s = some s') (h1 : 0 < s.first) (h2 : 0 < s.optind) : Same s s' := by
  unfold dashes at h
  split at h
  · split at h
    · cases h
    · rename_i a ha
      split at h
      · unfold endOptions at h
        rw [Option.map_eq_some_iff] at h
        obtain ⟨s1, hm, rfl⟩ := h
        have hs1 : Same s s1 := by
          split at hm
          · have := exchange_same hm h1 (Nat.succ_pos _)
            exact ⟨this.perm, this.head, this.first, this.optind, this.inited⟩
          · split at hm <;> cases hm
            · exact ⟨List.Perm.refl _, rfl, Nat.succ_pos _, Nat.succ_pos _, rfl⟩
            · exact ⟨List.Perm.refl _, rfl, h1, Nat.succ_pos _, rfl⟩
        have hl : 0 < s1.argv.length := by
          rw [hs1.perm.length_eq]
          have := (List.getElem?_eq_some_iff.mp ha).1
          omega
        exact ⟨hs1.perm, hs1.head, hs1.first, hl, hs1.inited⟩
      · cases h; exact Same.rfl' h1 h2
  · cases h; exact Same.rfl' h1 h2

theorem short_same {opts : Str} {c : Nat} {rest : Str} {s s' : St} {o : Out} (h : short opts c rest s = some (o, s')) (h1 : 0 < s.first)
    (h2 : 0 < s.optind) : Same s s' := by
  have key : ∀ s2 : St, s2.argv = s.argv → s2.first = s.first → s.optind ≤ s2.optind → s2.inited = s.inited → Same s s2 :=
    fun s2 a b c d => ⟨by rw [a], by rw [a], by omega, by omega, d⟩
  unfold short at h
  dsimp only at h
  repeat' split at h
  all_goals first | (cases h; done) | (cases h; refine key _ rfl rfl ?_ rfl; dsimp only; (repeat' split) <;> omega)

theorem element_same {opts : Str} {s s' : St} {o : Out} (h : element opts s = some (o, s')) (h1 : 0 < s.first) (h2 : 0 < s.optind) :
    Same s s' := by
  unfold element at h
  split at h
  · cases h
    split
    · exact ⟨List.Perm.refl _, rfl, h1, h1, rfl⟩
    · exact Same.rfl' h1 h2
  · split at h
    · cases h
    · split at h
      · split at h <;> cases h
        · exact Same.rfl' h1 h2
        · exact ⟨List.Perm.refl _, rfl, h1, Nat.succ_pos _, rfl⟩
      · split at h
        · exact short_same h h1 h2
        · cases h

theorem scan_same {opts : Str} {s s' : St} {o : Out} (h : scan opts s = some (o, s')) (h1 : 0 < s.first) (h2 : 0 < s.optind) : Same s s' := by
  unfold scan at h
  split at h
  · exact short_same h h1 h2
  · rw [Option.bind_eq_some_iff] at h
    obtain ⟨a, ha, h⟩ := h
    rw [Option.bind_eq_some_iff] at h
    obtain ⟨b, hb, h⟩ := h
    have s1 := settle_same ha h1 h2
    have s2 := dashes_same hb s1.first s1.optind
    exact (s1.trans s2).trans (element_same h s2.first s2.optind)

theorem begin_same (posix : Bool) (opts : Str) (s : St) (h : s.inited = true → 0 < s.first) :
    let b := (begin posix opts s).1
    b.argv = s.argv ∧ 0 < b.first ∧ 0 < b.optind ∧ b.inited = true := by
  dsimp only
  unfold begin
  split
  · unfold setUp
    dsimp only
    repeat' split
    all_goals first | exact ⟨rfl, Nat.one_pos, Nat.one_pos, rfl⟩ | exact ⟨rfl, by dsimp only; (try split) <;> omega, by dsimp only; (try split) <;> omega, rfl⟩
  · rename_i hn
    have : s.inited = true := by
      cases hi : s.inited
      · exact absurd (.inr hi) hn
      · rfl
    exact ⟨rfl, h this, Nat.pos_of_ne_zero fun e => hn (.inl e), this⟩

/-- One call, whatever the state. -/
theorem getopt_same {posix : Bool} {opts : Str} {s s' : St} {o : Out} (h : getopt posix opts s = some (o, s')) (hi : s.inited = true → 0 < s.first) :
    s'.argv.Perm s.argv ∧ s'.argv.head? = s.argv.head? ∧ (s'.inited = true → 0 < s'.first) := by
  unfold getopt at h
  split at h
  · cases h; exact ⟨List.Perm.refl _, rfl, hi⟩
  · obtain ⟨b1, b2, b3, b4⟩ := begin_same posix opts s hi
    have := scan_same h b2 b3
    exact ⟨by rw [← b1]; exact this.perm, by rw [← b1]; exact this.head, fun _ => this.first⟩

end Verif.Go
