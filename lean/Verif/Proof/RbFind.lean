import Verif.Proof.RbOps

/-! Searching, and what the order makes of it. -/
namespace Verif.Rb

theorem post_append (k₁ k₂ : Ctx) : post (k₁ ++ k₂) = post k₁ ++ post k₂ := by
  induction k₁ with
  | nil => rfl
  | cons f k ih => simp only [List.cons_append, post]; split <;> simp [ih]

theorem pre_append (k₁ k₂ : Ctx) : pre (k₁ ++ k₂) = pre k₂ ++ pre k₁ := by
  induction k₁ with
  | nil => simp [pre]
  | cons f k ih => simp only [List.cons_append, pre]; split <;> simp [ih]

theorem plug_ino (k : Ctx) (t : T) : (plug k t).ino = pre k ++ (t.ino ++ post k) := by
  induction k generalizing t with
  | nil => simp [plug, pre, post]
  | cons f k ih =>
    rw [plug, ih]
    unfold fill
    simp only [pre, post]
    split <;> simp [T.ino]

/-- The elements on the way are where the comparison says. -/
def Went (cmp : Nat → Nat → Int) (e : Nat) (k : Ctx) : Prop := ∀ f ∈ k, if f.left = true then cmp e f.x < 0 else cmp e f.x > 0

/-- What the search comes to. -/
theorem descend_ok {h₀ F xs h} (cmp : Nat → Nat → Int) (e : Nat) (t : T) : ∀ {k N lt}, Z h₀ F xs h k t → t.ht + 1 ≤ N → (∀ f r, k = f :: r → f.left = lt) →
    (∃ y ∈ t.ino, cmp e y = 0 ∧ descend cmp e N h t.id (par k) lt = some (y, y, false) ∧ ∀ res, nfind cmp e N h t.id res = some y) ∨
    (∃ k₁ lt', plug k₁ .nil = t ∧ Went cmp e k₁ ∧ descend cmp e N h t.id (par k) lt = some (0, par (k₁ ++ k), lt') ∧
      (∀ f r, k₁ ++ k = f :: r → f.left = lt') ∧ ∀ res, nfind cmp e N h t.id res = some ((post k₁).headD res)) := by
  induction t with
  | nil =>
    intro k N lt H hN hlt
    obtain ⟨N, rfl⟩ : ∃ M, N = M + 1 := ⟨N - 1, by omega⟩
    exact Or.inr ⟨[], lt, rfl, by simp [Went], by simp [descend], hlt, by simp [nfind, post]⟩
  | node l x c r hl hr =>
    intro k N lt H hN hlt
    obtain ⟨N, rfl⟩ : ∃ M, N = M + 1 := ⟨N - 1, by omega⟩
    have h0 : x ≠ 0 := H.ne0
    have hht : (T.node l x c r).ht = Nat.max l.ht r.ht + 1 := rfl
    have hl' : l.ht ≤ Nat.max l.ht r.ht := Nat.le_max_left _ _
    have hr' : r.ht ≤ Nat.max l.ht r.ht := Nat.le_max_right _ _
    by_cases c1 : cmp e x < 0
    · rcases hl (lt := true) (N := N) H.downL (by omega) (by rintro f r ⟨⟩; rfl) with ⟨y, hy, q1, q2, q3⟩ | ⟨k₁, lt', q1, q2, q3, q4, q5⟩
      · exact Or.inl ⟨y, by simp [T.ino, hy], q1, by simp [descend, h0, c1, H.left]; exact q2, fun res => by simp [nfind, h0, c1, H.left, q3]⟩
      · refine Or.inr ⟨k₁ ++ [⟨true, x, c, r⟩], lt', ?_, ?_, ?_, ?_, fun res => ?_⟩
        · rw [plug_append, q1]; simp [plug, fill]
        · intro f hf
          rcases List.mem_append.1 hf with hf | hf
          · exact q2 f hf
          · simp at hf; simpa [hf] using c1
        · simp [descend, h0, c1, H.left]; exact q3
        · simpa using q4
        · simp only [nfind, T.id_node, h0, if_false, c1, if_true, H.left, Option.bind_eq_bind, Option.bind_some, q5, post_append, post]
          cases post k₁ <;> simp
    · by_cases c2 : cmp e x > 0
      · rcases hr (lt := false) (N := N) H.downR (by omega) (by rintro f r ⟨⟩; rfl) with ⟨y, hy, q1, q2, q3⟩ | ⟨k₁, lt', q1, q2, q3, q4, q5⟩
        · exact Or.inl ⟨y, by simp [T.ino, hy], q1, by simp [descend, h0, c1, c2, H.right]; exact q2, fun res => by simp [nfind, h0, c1, c2, H.right, q3]⟩
        · refine Or.inr ⟨k₁ ++ [⟨false, x, c, l⟩], lt', ?_, ?_, ?_, ?_, fun res => ?_⟩
          · rw [plug_append, q1]; simp [plug, fill]
          · intro f hf
            rcases List.mem_append.1 hf with hf | hf
            · exact q2 f hf
            · simp at hf; simpa [hf] using c2
          · simp [descend, h0, c1, c2, H.right]; exact q3
          · simpa using q4
          · simp [nfind, h0, c1, c2, H.right, q5, post_append, post]
      · refine Or.inl ⟨x, by simp [T.ino], by omega, by simp [descend, h0, c1, c2], fun res => by simp [nfind, h0, c1, c2]⟩

theorem find_descend (cmp : Nat → Nat → Int) (e : Nat) (h : Heap) : ∀ N t p lt, find cmp e N h t = (descend cmp e N h t p lt).map (·.1) := by
  intro N
  induction N with
  | zero => intro t p lt; rfl
  | succ N ih =>
    intro t p lt
    simp only [find, descend]
    split
    · rfl
    · split
      · cases h.left t <;> simp [ih _ t true]
      · split
        · cases h.right t <;> simp [ih _ t false]
        · rfl

/-! `RB_NEXT` and `RB_PREV` -/

theorem upRight_ok {h₀ F xs h} (k : Ctx) : ∀ {t N}, Z h₀ F xs h k t → t.id ≠ 0 → k.length + 1 ≤ N → upRight N h t.id = some ((post k).headD 0) := by
  induction k with
  | nil =>
    intro t N H ht hN
    obtain ⟨N, rfl⟩ : ∃ M, N = M + 1 := ⟨N - 1, by omega⟩
    cases t with
    | nil => simp at ht
    | node l x c r => simp [upRight, H.parent, par, post]
  | cons f k ih =>
    intro t N H ht hN
    obtain ⟨N, rfl⟩ : ∃ M, N = M + 1 := ⟨N - 1, by omega⟩
    have hp : h.parent t.id = some f.x := by
      cases t with
      | nil => simp at ht
      | node l x c r => exact H.parent
    obtain ⟨b0, b1, b2, b3, b4, b5, b6⟩ := H.ctx
    have hr : h.right f.x = some (if f.left then f.s.id else t.id) := by simp only [Heap.right, if_neg b0, b4]
    have := ih H.up (N := N) (by rw [fill_id]; exact b0) (by simp at hN; omega)
    rw [fill_id] at this
    cases hf : f.left
    · simp [upRight, hp, b0, hr, hf, this, post]
    · have hs : f.s.id ≠ t.id := by
        obtain ⟨fl, x, c, s⟩ := f
        simp only at hf; subst hf
        exact H.upL.ne_sibL ht
      simp [upRight, hp, b0, hr, hf, Ne.symm hs, post]

theorem upLeft_ok {h₀ F xs h} (k : Ctx) : ∀ {t N}, Z h₀ F xs h k t → t.id ≠ 0 → k.length + 1 ≤ N → upLeft N h t.id = some ((pre k).reverse.headD 0) := by
  induction k with
  | nil =>
    intro t N H ht hN
    obtain ⟨N, rfl⟩ : ∃ M, N = M + 1 := ⟨N - 1, by omega⟩
    cases t with
    | nil => simp at ht
    | node l x c r => simp [upLeft, H.parent, par, pre]
  | cons f k ih =>
    intro t N H ht hN
    obtain ⟨N, rfl⟩ : ∃ M, N = M + 1 := ⟨N - 1, by omega⟩
    have hp : h.parent t.id = some f.x := by
      cases t with
      | nil => simp at ht
      | node l x c r => exact H.parent
    obtain ⟨b0, b1, b2, b3, b4, b5, b6⟩ := H.ctx
    have hr : h.left f.x = some (if f.left then t.id else f.s.id) := by simp only [Heap.left, if_neg b0, b3]
    have := ih H.up (N := N) (by rw [fill_id]; exact b0) (by simp at hN; omega)
    rw [fill_id] at this
    cases hf : f.left
    · have hs : f.s.id ≠ t.id := by
        obtain ⟨fl, x, c, s⟩ := f
        simp only at hf; subst hf
        exact H.upR.ne_sibR ht
      simp [upLeft, hp, b0, hr, hf, Ne.symm hs, pre]
    · simp [upLeft, hp, b0, hr, hf, this, pre]

theorem leftmost_ok {h₀ F xs h} (l : T) : ∀ {k x c r N}, Z h₀ F xs h k (.node l x c r) → l.ht + 1 ≤ N → leftmost N h x = some ((l.ino ++ [x]).headD 0) := by
  induction l with
  | nil =>
    intro k x c r N H hN
    obtain ⟨N, rfl⟩ : ∃ M, N = M + 1 := ⟨N - 1, by omega⟩
    simp [leftmost, H.left, T.ino]
  | node a y d b ih _ =>
    intro k x c r N H hN
    obtain ⟨N, rfl⟩ : ∃ M, N = M + 1 := ⟨N - 1, by omega⟩
    have hht : (T.node a y d b).ht = Nat.max a.ht b.ht + 1 := rfl
    have hl' : a.ht ≤ Nat.max a.ht b.ht := Nat.le_max_left _ _
    have := ih H.downL (N := N) (by omega)
    simp only [leftmost, H.left, T.id_node, Option.bind_eq_bind, Option.bind_some, H.downL.ne0, if_false, this, T.ino]
    cases a.ino <;> simp

theorem rightmost_ok {h₀ F xs h} (r : T) : ∀ {k x c l N}, Z h₀ F xs h k (.node l x c r) → r.ht + 1 ≤ N → rightmost N h x = some ((x :: r.ino).reverse.headD 0) := by
  induction r with
  | nil =>
    intro k x c r N H hN
    obtain ⟨N, rfl⟩ : ∃ M, N = M + 1 := ⟨N - 1, by omega⟩
    simp [rightmost, H.right, T.ino]
  | node a y d b _ ih =>
    intro k x c r N H hN
    obtain ⟨N, rfl⟩ : ∃ M, N = M + 1 := ⟨N - 1, by omega⟩
    have hht : (T.node a y d b).ht = Nat.max a.ht b.ht + 1 := rfl
    have hl' : b.ht ≤ Nat.max a.ht b.ht := Nat.le_max_right _ _
    have := ih H.downR (N := N) (by omega)
    simp only [rightmost, H.right, T.id_node, Option.bind_eq_bind, Option.bind_some, H.downR.ne0, if_false, this, T.ino]
    simp only [List.reverse_cons, List.reverse_append]
    cases b.ino.reverse <;> simp

theorem next_ok {h₀ F xs h k l x c r} {N : Nat} (H : Z h₀ F xs h k (.node l x c r)) (hN : k.length + (T.node l x c r).ht ≤ N) :
    next N h x = some ((r.ino ++ post k).headD 0) := by
  have hht : (T.node l x c r).ht = Nat.max l.ht r.ht + 1 := rfl
  have hr' : r.ht ≤ Nat.max l.ht r.ht := Nat.le_max_right _ _
  cases r with
  | nil =>
    have hu := upRight_ok k H (N := N) H.ne0 (by omega)
    simp only [T.id_node] at hu
    simp only [next, H.right, T.id_nil, Option.bind_eq_bind, Option.bind_some, H.parent, T.ino, List.nil_append]
    simp only [ne_eq, not_true_eq_false, if_false]
    split
    · exact hu
    · rename_i hp
      cases k with
      | nil => simp [par] at hp
      | cons f k =>
        obtain ⟨b0, b1, b2, b3, b4, b5, b6⟩ := H.ctx
        have hl : h.left f.x = some (if f.left then x else f.s.id) := by simp only [Heap.left, if_neg b0, b3, T.id_node]
        rw [par_cons, hl]
        cases hf : f.left
        · have hs : f.s.id ≠ x := by
            obtain ⟨fl, y, c, s⟩ := f
            simp only at hf; subst hf
            exact H.upR.ne_sibR H.ne0
          simpa [Ne.symm hs] using hu
        · simp [post, hf]
  | node a y d b =>
    have hht2 : (T.node a y d b).ht = Nat.max a.ht b.ht + 1 := rfl
    have hl' : a.ht ≤ Nat.max a.ht b.ht := Nat.le_max_left _ _
    have := leftmost_ok a H.downR (N := N) (by omega)
    simp only [next, H.right, T.id_node, Option.bind_eq_bind, Option.bind_some, T.ino, ne_eq, H.downR.ne0, not_false_eq_true, if_true, this]
    cases a.ino <;> simp

theorem prev_ok {h₀ F xs h k l x c r} {N : Nat} (H : Z h₀ F xs h k (.node l x c r)) (hN : k.length + (T.node l x c r).ht ≤ N) :
    prev N h x = some ((pre k ++ l.ino).reverse.headD 0) := by
  have hht : (T.node l x c r).ht = Nat.max l.ht r.ht + 1 := rfl
  have hr' : l.ht ≤ Nat.max l.ht r.ht := Nat.le_max_left _ _
  cases l with
  | nil =>
    have hu := upLeft_ok k H (N := N) H.ne0 (by omega)
    simp only [T.id_node] at hu
    simp only [prev, H.left, T.id_nil, Option.bind_eq_bind, Option.bind_some, H.parent, T.ino, List.append_nil]
    simp only [ne_eq, not_true_eq_false, if_false]
    split
    · exact hu
    · rename_i hp
      cases k with
      | nil => simp [par] at hp
      | cons f k =>
        obtain ⟨b0, b1, b2, b3, b4, b5, b6⟩ := H.ctx
        have hl : h.right f.x = some (if f.left then f.s.id else x) := by simp only [Heap.right, if_neg b0, b4, T.id_node]
        rw [par_cons, hl]
        cases hf : f.left
        · simp [pre, hf]
        · have hs : f.s.id ≠ x := by
            obtain ⟨fl, y, c, s⟩ := f
            simp only at hf; subst hf
            exact H.upL.ne_sibL H.ne0
          simpa [Ne.symm hs] using hu
  | node a y d b =>
    have hht2 : (T.node a y d b).ht = Nat.max a.ht b.ht + 1 := rfl
    have hl' : b.ht ≤ Nat.max a.ht b.ht := Nat.le_max_right _ _
    have := rightmost_ok b H.downL (N := N) (by omega)
    simp only [prev, H.left, T.id_node, Option.bind_eq_bind, Option.bind_some, T.ino, ne_eq, H.downL.ne0, not_false_eq_true, if_true, this]
    simp only [List.reverse_append, List.reverse_cons, List.append_assoc]
    cases b.ino.reverse <;> simp

theorem min_ok {h₀ F xs h} (t : T) : ∀ {k N p}, Z h₀ F xs h k t → t.ht + 1 ≤ N → minmax true N h t.id p = some (t.ino.headD p) := by
  induction t with
  | nil =>
    intro k N p H hN
    obtain ⟨N, rfl⟩ : ∃ M, N = M + 1 := ⟨N - 1, by omega⟩
    simp [minmax, T.ino]
  | node l x c r ih _ =>
    intro k N p H hN
    obtain ⟨N, rfl⟩ : ∃ M, N = M + 1 := ⟨N - 1, by omega⟩
    have hht : (T.node l x c r).ht = Nat.max l.ht r.ht + 1 := rfl
    have hl' : l.ht ≤ Nat.max l.ht r.ht := Nat.le_max_left _ _
    simp only [minmax, T.id_node, H.ne0, if_false, if_true, H.left, Option.bind_eq_bind, Option.bind_some, ih H.downL (N := N) (p := x) (by omega), T.ino]
    cases l.ino <;> simp

theorem max_ok {h₀ F xs h} (t : T) : ∀ {k N p}, Z h₀ F xs h k t → t.ht + 1 ≤ N → minmax false N h t.id p = some (t.ino.reverse.headD p) := by
  induction t with
  | nil =>
    intro k N p H hN
    obtain ⟨N, rfl⟩ : ∃ M, N = M + 1 := ⟨N - 1, by omega⟩
    simp [minmax, T.ino]
  | node l x c r _ ih =>
    intro k N p H hN
    obtain ⟨N, rfl⟩ : ∃ M, N = M + 1 := ⟨N - 1, by omega⟩
    have hht : (T.node l x c r).ht = Nat.max l.ht r.ht + 1 := rfl
    have hl' : r.ht ≤ Nat.max l.ht r.ht := Nat.le_max_right _ _
    simp only [minmax, T.id_node, H.ne0, if_false, Bool.false_eq_true, H.right, Option.bind_eq_bind, Option.bind_some, ih H.downR (N := N) (p := x) (by omega), T.ino]
    simp only [List.reverse_append, List.reverse_cons, List.append_assoc]
    cases r.ino.reverse <;> simp

/-! The order -/

theorem Order.zero {cmp} (O : Order cmp) {a b : Nat} (h : cmp a b = 0) : cmp b a = 0 := by
  have := O.swap a b; have := O.swap b a; omega

theorem Order.lt_le {cmp} (O : Order cmp) {a b c : Nat} (h1 : cmp a b < 0) (h2 : cmp b c ≤ 0) : cmp a c < 0 := by
  have h3 := O.trans a b c (by omega) h2
  have s1 := O.swap a b; have s2 := O.swap a c; have s3 := O.swap c a; have s4 := O.swap c b; have s5 := O.swap b c
  by_cases q : cmp a c = 0
  · have := O.trans c a b (by have := O.zero q; omega) (by omega)
    have := O.trans b c a h2 (by have := O.zero q; omega)
    omega
  · omega

theorem Order.le_lt {cmp} (O : Order cmp) {a b c : Nat} (h1 : cmp a b ≤ 0) (h2 : cmp b c < 0) : cmp a c < 0 := by
  have h3 := O.trans a b c h1 (by omega)
  have s1 := O.swap a b; have s2 := O.swap a c; have s3 := O.swap c a; have s4 := O.swap c b; have s5 := O.swap b c
  by_cases q : cmp a c = 0
  · have := O.trans c a b (by have := O.zero q; omega) h1
    omega
  · omega

def Sorted (cmp : Nat → Nat → Int) (xs : List Nat) : Prop := xs.Pairwise fun a b => cmp a b < 0

theorem went_order {cmp e} (O : Order cmp) (k : Ctx) (W : Went cmp e k) (S : Sorted cmp (pre k ++ post k)) :
    (∀ z ∈ pre k, cmp e z > 0) ∧ (∀ z ∈ post k, cmp e z < 0) := by
  induction k with
  | nil => simp [pre, post]
  | cons f k ih =>
    have W1 := W f (by simp)
    have W2 : Went cmp e k := fun g hg => W g (by simp [hg])
    cases hf : f.left
    · simp only [hf, Bool.false_eq_true, if_false, pre, post] at *
      have S2 : Sorted cmp (pre k ++ post k) := by
        unfold Sorted at *
        simp only [List.pairwise_append, List.mem_append] at *
        grind
      obtain ⟨i1, i2⟩ := ih W2 S2
      refine ⟨fun z hz => ?_, i2⟩
      simp only [List.mem_append, List.mem_singleton] at hz
      rcases hz with hz | hz | rfl
      · exact i1 z hz
      · have : cmp z f.x < 0 := by
          unfold Sorted at S
          simp only [List.pairwise_append, List.mem_append, List.mem_singleton] at S
          grind
        have h1 := (O.swap f.x e).2 W1
        have := O.lt_le this (by omega : cmp f.x e ≤ 0)
        exact (O.swap z e).1 this
      · exact W1
    · simp only [hf, if_true, pre, post] at *
      have S2 : Sorted cmp (pre k ++ post k) := by
        unfold Sorted at *
        simp only [List.pairwise_append, List.pairwise_cons, List.mem_append, List.mem_cons] at *
        grind
      obtain ⟨i1, i2⟩ := ih W2 S2
      refine ⟨i1, fun z hz => ?_⟩
      simp only [List.mem_append, List.mem_cons] at hz
      rcases hz with rfl | hz | hz
      · exact W1
      · have : cmp f.x z < 0 := by
          unfold Sorted at S
          simp only [List.pairwise_append, List.pairwise_cons, List.mem_append, List.mem_cons] at S
          grind
        exact O.lt_le W1 (by omega)
      · exact i2 z hz

end Verif.Rb
