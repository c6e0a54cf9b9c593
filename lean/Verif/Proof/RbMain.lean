import Verif.Proof.RbFind

/-! The tree is the ordered list of its members. -/
namespace Verif.Rb

/-! More rounds do not change a result. -/

theorem bind_mono {α β : Type} {x y : Option α} {f g : α → Option β} {b : β} (h : x.bind f = some b) (hx : ∀ a, x = some a → y = some a)
    (hf : ∀ a, f a = some b → g a = some b) : y.bind g = some b := by
  cases x with
  | none => cases h
  | some a => rw [hx a rfl]; exact hf a h

theorem ite_mono {α : Type} {c : Prop} [Decidable c] {a a' b b' : Option α} {v : α} (H : (if c then a else b) = some v)
    (h1 : a = some v → a' = some v) (h2 : b = some v → b' = some v) : (if c then a' else b') = some v := by
  split
  · rename_i hc; rw [if_pos hc] at H; exact h1 H
  · rename_i hc; rw [if_neg hc] at H; exact h2 H

theorem leftmost_mono {h : Heap} : ∀ {n x a}, leftmost n h x = some a → leftmost (n + 1) h x = some a := by
  intro n
  induction n with
  | zero => intro x a h; cases h
  | succ n ih =>
    intro x a H
    rw [leftmost] at H ⊢
    exact bind_mono H (fun _ h => h) fun l H => ite_mono H (fun h => h) ih

theorem rightmost_mono {h : Heap} : ∀ {n x a}, rightmost n h x = some a → rightmost (n + 1) h x = some a := by
  intro n
  induction n with
  | zero => intro x a h; cases h
  | succ n ih =>
    intro x a H
    rw [rightmost] at H ⊢
    exact bind_mono H (fun _ h => h) fun l H => ite_mono H (fun h => h) ih

theorem climb_mono {h : Heap} : ∀ {n x a}, climb n h x = some a → climb (n + 1) h x = some a := by
  intro n
  induction n with
  | zero => intro x a h; cases h
  | succ n ih =>
    intro x a H
    rw [climb] at H ⊢
    exact bind_mono H (fun _ h => h) fun l H => ite_mono H (fun h => h) ih

theorem upRight_mono {h : Heap} : ∀ {n x a}, upRight n h x = some a → upRight (n + 1) h x = some a := by
  intro n
  induction n with
  | zero => intro x a h; cases h
  | succ n ih =>
    intro x a H
    rw [upRight] at H ⊢
    exact bind_mono H (fun _ h => h) fun l H => ite_mono H (fun h => h) fun H => bind_mono H (fun _ h => h) fun l H => ite_mono H ih fun h => h

theorem upLeft_mono {h : Heap} : ∀ {n x a}, upLeft n h x = some a → upLeft (n + 1) h x = some a := by
  intro n
  induction n with
  | zero => intro x a h; cases h
  | succ n ih =>
    intro x a H
    rw [upLeft] at H ⊢
    exact bind_mono H (fun _ h => h) fun l H => ite_mono H (fun h => h) fun H => bind_mono H (fun _ h => h) fun l H => ite_mono H ih fun h => h

theorem minmax_mono {neg : Bool} {h : Heap} : ∀ {n x p a}, minmax neg n h x p = some a → minmax neg (n + 1) h x p = some a := by
  intro n
  induction n with
  | zero => intro x p a h; cases h
  | succ n ih =>
    intro x p a H
    rw [minmax] at H ⊢
    exact ite_mono H (fun h => h) fun H => ite_mono H (fun H => bind_mono H (fun _ h => h) fun l H => ih H) fun H => bind_mono H (fun _ h => h) fun l H => ih H

theorem descend_mono {cmp e} {h : Heap} : ∀ {n x p lt a}, descend cmp e n h x p lt = some a → descend cmp e (n + 1) h x p lt = some a := by
  intro n
  induction n with
  | zero => intro x p lt a h; cases h
  | succ n ih =>
    intro x p lt a H
    rw [descend] at H ⊢
    exact ite_mono H (fun h => h) fun H => ite_mono H (fun H => bind_mono H (fun _ h => h) fun l H => ih H) fun H => ite_mono H (fun H => bind_mono H (fun _ h => h) fun l H => ih H) fun h => h

theorem nfind_mono {cmp e} {h : Heap} : ∀ {n x p a}, nfind cmp e n h x p = some a → nfind cmp e (n + 1) h x p = some a := by
  intro n
  induction n with
  | zero => intro x p a h; cases h
  | succ n ih =>
    intro x p a H
    rw [nfind] at H ⊢
    exact ite_mono H (fun h => h) fun H => ite_mono H (fun H => bind_mono H (fun _ h => h) fun l H => ih H) fun H => ite_mono H (fun H => bind_mono H (fun _ h => h) fun l H => ih H) fun h => h

theorem insertColor_mono : ∀ {n h x a}, insertColor n h x = some a → insertColor (n + 1) h x = some a := by
  intro n
  induction n with
  | zero => intro h x a H; cases H
  | succ n ih =>
    intro h x a H
    rw [insertColor] at H ⊢
    exact bind_mono H (fun _ h => h) fun p H => ite_mono H (fun H => bind_mono H (fun _ h => h) fun g H => bind_mono H (fun _ h => h) fun gl H => bind_mono H (fun _ h => h) fun q H => ih H) fun h => h

theorem removeColor_mono : ∀ {n h p x a}, removeColor n h p x = some a → removeColor (n + 1) h p x = some a := by
  intro n
  induction n with
  | zero => intro h p x a H; cases H
  | succ n ih =>
    intro h p x a H
    rw [removeColor] at H ⊢
    refine ite_mono H (fun H => bind_mono H (fun _ h => h) fun g H => bind_mono H (fun _ h => h) fun q H => ?_) fun h => h
    obtain ⟨h', o⟩ := q
    cases o with
    | next p' x' => exact ih H
    | done => exact H

theorem removeTwo_mono {n h x a} (H : removeTwo n h x = some a) : removeTwo (n + 1) h x = some a := by
  refine bind_mono H (fun _ h => h) fun f H => ?_
  refine bind_mono H (fun _ h => leftmost_mono h) fun e H => ?_
  refine bind_mono H (fun _ h => h) fun c H => ?_
  refine bind_mono H (fun _ h => h) fun p H => ?_
  refine bind_mono H (fun _ h => h) fun co H => ?_
  refine bind_mono H (fun _ h => h) fun h' H => ?_
  refine bind_mono H (fun _ h => h) fun pe H => ?_
  refine bind_mono H (fun _ h => h) fun h'' H => ?_
  refine bind_mono H (fun _ h => ?_) fun h'' H => H
  exact ite_mono h (fun h => h) fun h => climb_mono h

theorem remove_mono {n h x a} (H : remove n h x = some a) : remove (n + 1) h x = some a := by
  refine bind_mono H (fun _ h => h) fun l H => ?_
  refine bind_mono H (fun _ h => h) fun r H => ?_
  refine bind_mono H (fun _ h => ?_) fun q H => ite_mono H (fun h => h) fun h => removeColor_mono h
  exact ite_mono h (fun h => h) fun h => ite_mono h (fun h => h) removeTwo_mono

theorem insert_mono {cmp n h x a} (H : insert cmp n h x = some a) : insert cmp (n + 1) h x = some a := by
  refine bind_mono H (fun _ h => descend_mono h) fun q H => ?_
  refine ite_mono H (fun H => ?_) fun h => h
  refine bind_mono H (fun _ h => h) fun h' H => ?_
  exact bind_mono H (fun _ h => insertColor_mono h) fun h' H => H

theorem call_mono1 {cmp n h op a} (H : Op.call cmp n h op = some a) : Op.call cmp (n + 1) h op = some a := by
  cases op <;> simp only [Op.call] at H ⊢
  case insert e => exact insert_mono H
  all_goals
    rw [Option.map_eq_some_iff] at H ⊢
    obtain ⟨b, h1, h2⟩ := H
    refine ⟨b, ?_, h2⟩
  case remove => exact remove_mono h1
  case find e =>
    rw [find_descend cmp e h _ _ 0 false] at h1 ⊢
    rw [Option.map_eq_some_iff] at h1 ⊢
    obtain ⟨q, h3, h4⟩ := h1
    exact ⟨q, descend_mono h3, h4⟩
  case nfind => exact nfind_mono h1
  case min => exact minmax_mono h1
  case max => exact minmax_mono h1
  case next e =>
    exact bind_mono h1 (fun _ h => h) fun r h1 => ite_mono h1 leftmost_mono fun h1 => bind_mono h1 (fun _ h => h) fun p h1 => ite_mono h1 upRight_mono fun h1 =>
      bind_mono h1 (fun _ h => h) fun q h1 => ite_mono h1 (fun h => h) upRight_mono
  case prev e =>
    exact bind_mono h1 (fun _ h => h) fun r h1 => ite_mono h1 rightmost_mono fun h1 => bind_mono h1 (fun _ h => h) fun p h1 => ite_mono h1 upLeft_mono fun h1 =>
      bind_mono h1 (fun _ h => h) fun q h1 => ite_mono h1 (fun h => h) upLeft_mono

theorem call_mono {cmp n m h op a} (hm : n ≤ m) (H : Op.call cmp n h op = some a) : Op.call cmp m h op = some a := by
  induction hm with
  | refl => exact H
  | step _ ih => exact call_mono1 ih

/-! The invariant -/

structure Inv (cmp : Nat → Nat → Int) (h : Heap) (xs : List Nat) : Prop where
  sorted : Sorted cmp xs
  tree : ∃ t, Z h xs xs h [] t ∧ RBT t

theorem Z.rebase {h₀ F xs h k t} (H : Z h₀ F xs h k t) (F' : List Nat) (hF : ∀ z ∈ xs, z ∈ F') : Z h F' xs h k t :=
  ⟨H.rep, H.ctx, H.ino, H.nodup, hF, fun _ _ => ⟨rfl, rfl, rfl, rfl⟩⟩

theorem first_split {a b : List Nat} {y : Nat} {P : Nat → Bool} (ha : ∀ z ∈ a, P z = false) (hy : P y = true) : first (a ++ y :: b) P = y := by
  have : (a ++ y :: b).find? P = some y := by
    rw [List.find?_append, List.find?_eq_none.2 (by intro z hz; simp [ha z hz])]
    simp [hy]
  simp [first, this]

theorem first_none {a : List Nat} {P : Nat → Bool} (ha : ∀ z ∈ a, P z = false) : first a P = 0 := by
  simp [first, List.find?_eq_none.2 (by intro z hz; simp [ha z hz] : ∀ z ∈ a, ¬P z = true)]

theorem first_drop {a b : List Nat} {P : Nat → Bool} (ha : ∀ z ∈ a, P z = false) (hb : ∀ z ∈ b, P z = true) : first (a ++ b) P = b.headD 0 := by
  cases b with
  | nil => simpa using first_none ha
  | cons y b => exact first_split ha (hb y (by simp))

theorem Sorted.split {cmp} {a b : List Nat} {y : Nat} (S : Sorted cmp (a ++ y :: b)) :
    (∀ z ∈ a, cmp z y < 0) ∧ (∀ z ∈ b, cmp y z < 0) ∧ Sorted cmp a ∧ Sorted cmp b ∧ (∀ z ∈ a, ∀ w ∈ b, cmp z w < 0) := by
  unfold Sorted at *
  simp only [List.pairwise_append, List.pairwise_cons, List.mem_cons] at S
  grind

theorem Order.refl {cmp} (O : Order cmp) (a : Nat) : cmp a a = 0 := by
  have := O.swap a a; omega

theorem Inv.step {cmp h xs op} {n : Nat} (O : Order cmp) (I : Inv cmp h xs) (ha : Op.allowed xs op) (hn : 2 * Nat.log2 (xs.length + 1) + 2 ≤ n) :
    ∃ h', Op.call cmp n h op = some (Op.answer cmp xs op, h') ∧ Inv cmp h' (Op.after cmp xs op) ∧
      ∀ z, z ∉ xs → op ≠ .insert z → Same h h' z := by
  obtain ⟨S, t, H, R⟩ := I
  have hino : t.ino = xs := by have := H.ino; simpa [pre, post] using this
  have hsz : t.size = xs.length := by rw [← hino, size_ino]
  have hht := R.ht
  rw [hsz] at hht
  have hroot : h.root = t.id := H.ctx
  have keep : ∀ v, v = Op.answer cmp xs op → Op.after cmp xs op = xs → Op.call cmp n h op = some (v, h) →
      ∃ h', Op.call cmp n h op = some (Op.answer cmp xs op, h') ∧ Inv cmp h' (Op.after cmp xs op) ∧ ∀ z, z ∉ xs → op ≠ .insert z → Same h h' z := by
    intro v h1 h2 h3
    exact ⟨h, by rw [h3, h1], by rw [h2]; exact ⟨S, t, H, R⟩, fun _ _ _ => ⟨rfl, rfl, rfl, rfl⟩⟩
  have search : ∀ e, (∃ a y b, xs = a ++ y :: b ∧ cmp e y = 0 ∧ (∀ z ∈ a, cmp e z > 0) ∧ (∀ z ∈ b, cmp e z < 0) ∧ descend cmp e n h h.root 0 false = some (y, y, false) ∧ nfind cmp e n h h.root 0 = some y) ∨
      (∃ k lt, t = plug k .nil ∧ xs = pre k ++ post k ∧ (∀ z ∈ pre k, cmp e z > 0) ∧ (∀ z ∈ post k, cmp e z < 0) ∧ descend cmp e n h h.root 0 false = some (0, par k, lt) ∧
        (∀ f r, k = f :: r → f.left = lt) ∧ nfind cmp e n h h.root 0 = some ((post k).headD 0)) := by
    intro e
    rw [hroot]
    rcases descend_ok cmp e t H (N := n) (lt := false) (by omega) (by simp) with ⟨y, hy, q1, q2, q3⟩ | ⟨k, lt, q1, q2, q3, q4, q5⟩
    · rw [hino] at hy
      obtain ⟨a, b, rfl⟩ := List.append_of_mem hy
      obtain ⟨s1, s2, -⟩ := S.split
      refine Or.inl ⟨a, y, b, rfl, q1, fun z hz => ?_, fun z hz => O.le_lt (by omega) (s2 z hz), q2, q3 0⟩
      have hz0 := O.zero q1
      have := O.lt_le (s1 z hz) (c := e) (by omega)
      exact (O.swap z e).1 this
    · have hx : xs = pre k ++ post k := by rw [← hino, ← q1, plug_ino]; simp [T.ino]
      obtain ⟨w1, w2⟩ := went_order O k q2 (hx ▸ S)
      exact Or.inr ⟨k, lt, q1.symm, hx, w1, w2, by simpa [par] using q3, by simpa using q4, q5 0⟩
  cases op with
  | insert e =>
    rcases search e with ⟨a, y, b, q1, q2, q3, q4, q5, -⟩ | ⟨k, lt, q0, q1, q3, q4, q5, q6, -⟩
    · have hy : y ≠ 0 := by
        have hm : y ∈ xs := by simp [q1]
        rw [← hino] at hm
        exact H.rep.ne0 y hm
      refine keep y ?_ ?_ ?_
      · simp only [Op.answer]
        rw [q1]
        exact (first_split (fun z hz => by have := q3 z hz; simp; omega) (by simp [q2])).symm
      · have : xs.any (fun y => decide (cmp e y = 0)) = true := by simp [q1, q2]
        simp [Op.after, this]
      · simp [Op.call, insert, q5, hy]
    · have he : e ∉ xs := by
        intro q
        have hr := O.refl e
        rw [q1, List.mem_append] at q
        rcases q with q | q
        · have := q3 e q; omega
        · have := q4 e q; omega
      rw [q0] at H
      have H0 := (H.rebase (e :: xs) (fun z hz => List.mem_cons_of_mem _ hz)).unplug
      simp only [List.append_nil] at H0
      obtain ⟨h1, e1, H1⟩ := H0.attach (lt := lt) ha he (by simp) q6
      have Sp : Split k .nil := by simpa using (Split.of_rbt (q0 ▸ R)).unplug
      obtain ⟨m, hb, hc⟩ := Sp.bh
      have hl := ht_plug k .nil
      rw [← q0] at hl
      have hm0 : m = 0 := hb
      obtain ⟨h2, e2, t', H2, R2⟩ := insertColor_ok n (k := k) (l := .nil) (r := .nil) (n := m) ⟨H1, ⟨trivial, trivial, fun _ => ⟨rfl, rfl⟩⟩, by simp [BH, hm0], hc, Sp.crr⟩
        (Or.inl (by omega))
      have hany : xs.any (fun y => decide (cmp e y = 0)) = false := by
        rw [List.any_eq_false]
        intro z hz
        rw [q1, List.mem_append] at hz
        rcases hz with hz | hz
        · have := q3 z hz; simp; omega
        · have := q4 z hz; simp; omega
      have hafter : Op.after cmp xs (.insert e) = pre k ++ e :: post k := by
        have f1 : (pre k).filter (fun z => decide (cmp z e < 0)) = pre k := List.filter_eq_self.2 fun z hz => by
          have := (O.swap z e).2 (q3 z hz); simp [this]
        have f2 : (post k).filter (fun z => decide (cmp z e < 0)) = [] := List.filter_eq_nil_iff.2 fun z hz => by
          have := q4 z hz; have := O.swap z e; simp; omega
        have f3 : (pre k).filter (fun z => decide (cmp e z < 0)) = [] := List.filter_eq_nil_iff.2 fun z hz => by
          have := q3 z hz; simp; omega
        have f4 : (post k).filter (fun z => decide (cmp e z < 0)) = post k := List.filter_eq_self.2 fun z hz => by
          have := q4 z hz; simp [this]
        simp only [Op.after, hany, Bool.false_eq_true, if_false]
        rw [q1, List.filter_append, List.filter_append, f1, f2, f3, f4]
        simp
      have hS : Sorted cmp (pre k ++ e :: post k) := by
        have := q1 ▸ S
        unfold Sorted at this ⊢
        simp only [List.pairwise_append, List.pairwise_cons, List.mem_cons] at this ⊢
        refine ⟨this.1, ⟨fun z hz => q4 z hz, this.2.1⟩, fun z hz w hw => ?_⟩
        rcases hw with rfl | hw
        · exact (O.swap z w).2 (q3 z hz)
        · exact this.2.2 z hz w hw
      refine ⟨h2, ?_, ?_, fun z hz hz' => ?_⟩
      · have : Op.answer cmp xs (.insert e) = 0 := first_none (by simpa using List.any_eq_false.1 hany)
        rw [this]
        simp [Op.call, insert, q5, e1, e2]
      · rw [hafter]
        exact ⟨hS, t', H2.rebase _ fun _ h => h, R2⟩
      · exact H2.frame z (by simp only [List.mem_cons, not_or]; exact ⟨fun q => hz' (by rw [q]), hz⟩)
  | remove e =>
    obtain ⟨h', t', e1, H1, R1⟩ := remove_ok H R ha (N := n) (by omega)
    refine ⟨h', by simp [Op.call, e1, Op.answer], ⟨?_, t', H1.rebase _ fun _ h => h, R1⟩, fun z hz _ => H1.frame z hz⟩
    exact S.sublist List.erase_sublist
  | find e =>
    rcases search e with ⟨a, y, b, q1, q2, q3, q4, q5, -⟩ | ⟨k, lt, q0, q1, q3, q4, q5, q6, -⟩
    · refine keep y ?_ rfl (by simp [Op.call, find_descend cmp e h _ _ 0 false, q5])
      simp only [Op.answer]
      rw [q1]
      exact (first_split (fun z hz => by have := q3 z hz; simp; omega) (by simp [q2])).symm
    · refine keep 0 ?_ rfl (by simp [Op.call, find_descend cmp e h _ _ 0 false, q5])
      simp only [Op.answer]
      refine (first_none fun z hz => ?_).symm
      rw [q1, List.mem_append] at hz
      rcases hz with hz | hz
      · have := q3 z hz; simp; omega
      · have := q4 z hz; simp; omega
  | nfind e =>
    rcases search e with ⟨a, y, b, q1, q2, q3, q4, -, q5⟩ | ⟨k, lt, q0, q1, q3, q4, -, -, q5⟩
    · refine keep y ?_ rfl (by simp [Op.call, q5])
      simp only [Op.answer]
      rw [q1]
      exact (first_split (fun z hz => by have := q3 z hz; simp; omega) (by simp [q2])).symm
    · refine keep ((post k).headD 0) ?_ rfl (by simp [Op.call, q5])
      simp only [Op.answer]
      rw [q1]
      exact (first_drop (fun z hz => by have := q3 z hz; simp; omega) (fun z hz => by have := q4 z hz; simp; omega)).symm
  | next e =>
    obtain ⟨k, l, c, r, q1, H1⟩ := H.locate ha
    have hp := ht_plug k (.node l e c r)
    rw [← q1] at hp
    have hx : xs = (pre k ++ l.ino) ++ e :: (r.ino ++ post k) := by rw [← H1.ino]; simp [T.ino]
    obtain ⟨s1, s2, -⟩ := (hx ▸ S).split
    refine keep ((r.ino ++ post k).headD 0) ?_ rfl (by simp only [Op.call, next_ok H1 (N := n) (by omega)]; rfl)
    simp only [Op.answer]
    rw [hx, List.append_cons]
    refine (first_drop (fun z hz => ?_) (fun z hz => by have := s2 z hz; simp; omega)).symm
    rw [List.mem_append, List.mem_singleton] at hz
    rcases hz with hz | rfl
    · have := s1 z hz; have := O.swap z e; simp; omega
    · have := O.refl z; simp; omega
  | prev e =>
    obtain ⟨k, l, c, r, q1, H1⟩ := H.locate ha
    have hp := ht_plug k (.node l e c r)
    rw [← q1] at hp
    have hx : xs = (pre k ++ l.ino) ++ e :: (r.ino ++ post k) := by rw [← H1.ino]; simp [T.ino]
    obtain ⟨s1, s2, -⟩ := (hx ▸ S).split
    refine keep ((pre k ++ l.ino).reverse.headD 0) ?_ rfl (by simp only [Op.call, prev_ok H1 (N := n) (by omega)]; rfl)
    simp only [Op.answer]
    rw [hx, List.reverse_append (as := pre k ++ l.ino)]
    refine (first_drop (fun z hz => ?_) (fun z hz => by have := s1 z (List.mem_reverse.1 hz); simp; omega)).symm
    rw [List.mem_reverse, List.mem_cons] at hz
    rcases hz with rfl | hz
    · have := O.refl z; simp; omega
    · have := s2 z hz; have := O.swap e z; have := O.swap z e; simp; omega
  | min =>
    refine keep (xs.headD 0) ?_ rfl ?_
    · simp only [Op.answer]
      have := first_drop (a := []) (b := xs) (P := fun _ => true) (by simp) (by simp)
      simpa using this.symm
    · simp only [Op.call, min, hroot, min_ok t H (N := n) (p := 0) (by omega), hino]; rfl
  | max =>
    refine keep (xs.reverse.headD 0) ?_ rfl ?_
    · simp only [Op.answer]
      have := first_drop (a := []) (b := xs.reverse) (P := fun _ => true) (by simp) (by simp)
      simpa using this.symm
    · simp only [Op.call, max, hroot, max_ok t H (N := n) (p := 0) (by omega), hino]; rfl

theorem Reach.inv {cmp h xs} (O : Order cmp) (R : Reach cmp h xs) : Inv cmp h xs := by
  induction R with
  | init h =>
    exact ⟨List.Pairwise.nil, .nil, ⟨trivial, rfl, rfl, List.nodup_nil, by simp, fun _ _ => ⟨rfl, rfl, rfl, rfl⟩⟩, trivial, rfl, 0, rfl⟩
  | @call h h' xs op n a _ ha hc ih =>
    obtain ⟨h'', e, I, -⟩ := ih.step O ha (n := n + (2 * Nat.log2 (xs.length + 1) + 2)) (by omega)
    have := call_mono (m := n + (2 * Nat.log2 (xs.length + 1) + 2)) (by omega) hc
    rw [e] at this
    cases this
    exact I

theorem way_ht {h : Heap} {t : T} {p x : Nat} {ys : List Nat} (H : Rep h t p) (W : Way h x ys) (hx : t.id = x) : ys.length ≤ t.ht := by
  induction W generalizing t p with
  | last x h0 =>
    cases t with
    | nil => exact absurd hx.symm h0
    | node l y c r => simp [T.ht]
  | @left x ys h0 _ ih =>
    cases t with
    | nil => exact absurd hx.symm h0
    | node l y c r =>
      simp only [T.id_node] at hx
      subst hx
      obtain ⟨-, a1, a2, -, -, a5, a6⟩ := H
      have := ih a5 a1.symm
      have hht : (T.node l y c r).ht = Nat.max l.ht r.ht + 1 := rfl
      have hl' : l.ht ≤ Nat.max l.ht r.ht := Nat.le_max_left _ _
      simp only [List.length_cons]; omega
  | @right x ys h0 _ ih =>
    cases t with
    | nil => exact absurd hx.symm h0
    | node l y c r =>
      simp only [T.id_node] at hx
      subst hx
      obtain ⟨-, a1, a2, -, -, a5, a6⟩ := H
      have := ih a6 a2.symm
      have hht : (T.node l y c r).ht = Nat.max l.ht r.ht + 1 := rfl
      have hl' : r.ht ≤ Nat.max l.ht r.ht := Nat.le_max_right _ _
      simp only [List.length_cons]; omega

theorem BH.down {h : Heap} {t : T} {p n m x : Nat} (H : Rep h t p) (B : BH t n) (D : Down h x m) (hx : t.id = x) : m = n := by
  induction D generalizing t p n with
  | out =>
    cases t with
    | nil => exact B.symm
    | node l y c r => exact absurd hx H.1
  | @left x m h0 _ ih =>
    cases t with
    | nil => exact absurd hx.symm h0
    | node l y c r =>
      simp only [T.id_node] at hx
      subst hx
      obtain ⟨-, a1, a2, -, a4, a5, a6⟩ := H
      rw [BH] at B
      rw [a4]
      split <;> rename_i hc
      · rw [if_pos hc] at B; exact ih a5 B.1 a1.symm
      · rw [if_neg hc] at B
        obtain ⟨q, rfl, b1, b2⟩ := B
        rw [ih a5 b1 a1.symm]
  | @right x m h0 _ ih =>
    cases t with
    | nil => exact absurd hx.symm h0
    | node l y c r =>
      simp only [T.id_node] at hx
      subst hx
      obtain ⟨-, a1, a2, -, a4, a5, a6⟩ := H
      rw [BH] at B
      rw [a4]
      split <;> rename_i hc
      · rw [if_pos hc] at B; exact ih a6 B.2 a2.symm
      · rw [if_neg hc] at B
        obtain ⟨q, rfl, b1, b2⟩ := B
        rw [ih a6 b2 a2.symm]

theorem Rep.isRed {h : Heap} {t : T} {p : Nat} (H : Rep h t p) : (t.id ≠ 0 ∧ h.red t.id = true) → t.red = true := by
  cases t with
  | nil => intro q; exact absurd rfl q.1
  | node l y c r => intro q; rw [← q.2]; exact H.2.2.2.2.1.symm

theorem RR.child {h : Heap} {t : T} {p x : Nat} (H : Rep h t p) (R : RR t) (hx : x ∈ t.ino) (hr : h.red x = true) :
    ¬ (h.l x ≠ 0 ∧ h.red (h.l x) = true) ∧ ¬ (h.r x ≠ 0 ∧ h.red (h.r x) = true) := by
  induction t generalizing p with
  | nil => simp [T.ino] at hx
  | node l y c r ihl ihr =>
    obtain ⟨a0, a1, a2, -, a4, a5, a6⟩ := H
    simp only [T.ino, List.mem_append, List.mem_cons] at hx
    rcases hx with hx | rfl | hx
    · exact ihl a5 R.1 hx
    · obtain ⟨r1, r2⟩ := R.2.2 (by rw [← a4]; exact hr)
      rw [a1, a2]
      exact ⟨fun q => (by rw [a5.isRed q] at r1; cases r1), fun q => (by rw [a6.isRed q] at r2; cases r2)⟩
    · exact ihr a6 R.2.1 hx

theorem next_answer {cmp} (O : Order cmp) {a b : List Nat} {x : Nat} (S : Sorted cmp (a ++ x :: b)) : Op.answer cmp (a ++ x :: b) (.next x) = b.headD 0 := by
  obtain ⟨s1, s2, -⟩ := S.split
  simp only [Op.answer]
  rw [List.append_cons]
  refine first_drop (fun z hz => ?_) (fun z hz => by have := s2 z hz; simp; omega)
  rw [List.mem_append, List.mem_singleton] at hz
  rcases hz with hz | rfl
  · have := s1 z hz; have := O.swap z x; simp; omega
  · have := O.refl z; simp; omega

theorem prev_answer {cmp} (O : Order cmp) {a b : List Nat} {x : Nat} (S : Sorted cmp (a ++ x :: b)) : Op.answer cmp (a ++ x :: b) (.prev x) = a.reverse.headD 0 := by
  obtain ⟨s1, s2, -⟩ := S.split
  simp only [Op.answer]
  rw [List.reverse_append]
  refine first_drop (fun z hz => ?_) (fun z hz => by have := s1 z (List.mem_reverse.1 hz); simp; omega)
  rw [List.mem_reverse, List.mem_cons] at hz
  rcases hz with rfl | hz
  · have := O.refl z; simp; omega
  · have := s2 z hz; have := O.swap x z; have := O.swap z x; simp; omega

theorem Inv.ne0 {cmp h xs x} (I : Inv cmp h xs) (hx : x ∈ xs) : x ≠ 0 := by
  obtain ⟨t, H, -⟩ := I.tree
  have hino : t.ino = xs := by have := H.ino; simpa [pre, post] using this
  exact H.rep.ne0 x (by rw [hino]; exact hx)

theorem Inv.next {cmp h a b x} {n : Nat} (O : Order cmp) (I : Inv cmp h (a ++ x :: b)) (hn : 2 * Nat.log2 ((a ++ x :: b).length + 1) + 2 ≤ n) :
    Rb.next n h x = some (b.headD 0) := by
  obtain ⟨h', e, -⟩ := I.step O (op := .next x) (by simp [Op.allowed]) hn
  rw [next_answer O I.sorted, Op.call] at e
  cases q : Rb.next n h x with
  | none => rw [q] at e; cases e
  | some v => rw [q] at e; cases e; rfl

theorem Inv.prev {cmp h a b x} {n : Nat} (O : Order cmp) (I : Inv cmp h (a ++ x :: b)) (hn : 2 * Nat.log2 ((a ++ x :: b).length + 1) + 2 ≤ n) :
    Rb.prev n h x = some (a.reverse.headD 0) := by
  obtain ⟨h', e, -⟩ := I.step O (op := .prev x) (by simp [Op.allowed]) hn
  rw [prev_answer O I.sorted, Op.call] at e
  cases q : Rb.prev n h x with
  | none => rw [q] at e; cases e
  | some v => rw [q] at e; cases e; rfl

theorem forEach_ok {cmp h} {n : Nat} (O : Order cmp) : ∀ (b a : List Nat) (m : Nat), Inv cmp h (a ++ b) → 2 * Nat.log2 ((a ++ b).length + 1) + 2 ≤ n → b.length + 1 ≤ m →
    forEach n m h (b.headD 0) = some b := by
  intro b
  induction b with
  | nil =>
    intro a m _ _ hm
    obtain ⟨m, rfl⟩ := Nat.exists_eq_add_of_lt hm
    simp [forEach]
  | cons x b ih =>
    intro a m I hn hm
    obtain ⟨m, rfl⟩ := Nat.exists_eq_add_of_lt hm
    have hx := I.ne0 (x := x) (by simp)
    have e := I.next O hn
    have := ih (a ++ [x]) (b.length + 1 + m) (by simpa using I) (by simpa using hn) (by omega)
    simp only [List.length_cons, List.headD_cons]
    rw [show b.length + 1 + m + 1 = (b.length + 1 + m) + 1 from rfl, forEach]
    simp only [hx, if_false, e, Option.bind_eq_bind, Option.bind_some, this]

theorem forEachReverse_ok {cmp h} {n : Nat} (O : Order cmp) : ∀ (a b : List Nat) (m : Nat), Inv cmp h (a.reverse ++ b) → 2 * Nat.log2 ((a.reverse ++ b).length + 1) + 2 ≤ n → a.length + 1 ≤ m →
    forEachReverse n m h (a.headD 0) = some a := by
  intro a
  induction a with
  | nil =>
    intro b m _ _ hm
    obtain ⟨m, rfl⟩ := Nat.exists_eq_add_of_lt hm
    simp [forEachReverse]
  | cons x a ih =>
    intro b m I hn hm
    obtain ⟨m, rfl⟩ := Nat.exists_eq_add_of_lt hm
    have hx := I.ne0 (x := x) (by simp)
    have hl : (x :: a).reverse ++ b = a.reverse ++ x :: b := by simp
    rw [hl] at I hn
    have e := I.prev O hn
    have := ih (x :: b) (a.length + 1 + m) I hn (by omega)
    simp only [List.length_cons, List.headD_cons]
    rw [show a.length + 1 + m + 1 = (a.length + 1 + m) + 1 from rfl, forEachReverse]
    rw [List.reverse_reverse] at e
    simp only [hx, if_false, e, Option.bind_eq_bind, Option.bind_some, this]

theorem log2_mono {a b : Nat} (h : a ≤ b) : Nat.log2 a ≤ Nat.log2 b := by
  by_cases ha : a = 0
  · subst ha; simp
  · exact (Nat.le_log2 (by omega)).2 (Nat.le_trans (Nat.log2_self_le ha) h)

theorem forEachSafe_ok {cmp} {n : Nat} {drop : Nat → Bool} (O : Order cmp) : ∀ (b a : List Nat) (h : Heap) (m : Nat), Reach cmp h (a ++ b) → 2 * Nat.log2 ((a ++ b).length + 1) + 2 ≤ n → b.length + 1 ≤ m →
    ∃ h', forEachSafe n drop m h (b.headD 0) = some (b, h') ∧ Reach cmp h' (a ++ b.filter (fun x => !drop x)) := by
  intro b
  induction b with
  | nil =>
    intro a h m R _ hm
    obtain ⟨m, rfl⟩ := Nat.exists_eq_add_of_lt hm
    exact ⟨h, by simp [forEachSafe], by simpa using R⟩
  | cons x b ih =>
    intro a h m R hn hm
    obtain ⟨m, rfl⟩ := Nat.exists_eq_add_of_lt hm
    have I := R.inv O
    have hx := I.ne0 (x := x) (by simp)
    have e := I.next O hn
    simp only [List.length_cons, List.headD_cons]
    rw [show b.length + 1 + m + 1 = (b.length + 1 + m) + 1 from rfl, forEachSafe]
    simp only [hx, if_false, e, Option.bind_eq_bind, Option.bind_some, removeIf]
    cases hd : drop x
    · obtain ⟨h', e', R'⟩ := ih (a ++ [x]) h (b.length + 1 + m) (by simpa using R) (by simpa using hn) (by omega)
      refine ⟨h', ?_, by simpa [hd] using R'⟩
      simp only [Bool.false_eq_true, if_false, Option.bind_some, e']
    · obtain ⟨h1, e1, -⟩ := I.step O (op := .remove x) (by simp [Op.allowed]) hn
      have R1 := R.call (op := .remove x) (by simp [Op.allowed]) e1
      have he : Op.after cmp (a ++ x :: b) (.remove x) = a ++ b := by
        have ha : x ∉ a := fun q => by have := I.sorted.split.1 x q; have := O.refl x; omega
        simp only [Op.after, List.erase_append_right _ ha, List.erase_cons_head]
      rw [he] at R1
      have e1' : remove n h x = some h1 := by
        rw [Op.call] at e1
        cases q : remove n h x with
        | none => rw [q] at e1; cases e1
        | some v => rw [q] at e1; cases e1; rfl
      have hl : Nat.log2 ((a ++ b).length + 1) ≤ Nat.log2 ((a ++ x :: b).length + 1) := log2_mono (by simp)
      obtain ⟨h', e', R'⟩ := ih a h1 (b.length + 1 + m) R1 (by omega) (by omega)
      refine ⟨h', ?_, by simpa [hd] using R'⟩
      simp only [if_true, e1', Option.bind_some, e']

end Verif.Rb
