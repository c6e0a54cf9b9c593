import Verif.Proof.SplayCost
import Verif.Spec.SplayCost

/-! The potential over a history of calls. -/
namespace Verif.Spl
open Verif.Rb (Order Sorted first)

theorem Rep.uniq {h : Heap} : ∀ {t t' : T}, Rep h t → Rep h t' → t.id = t'.id → t = t' := by
  intro t
  induction t with
  | nil =>
    intro t' _ H' e
    cases t' with
    | nil => rfl
    | node l x r => exact absurd e.symm H'.1
  | node l x r il ir =>
    intro t' H H' e
    cases t' with
    | nil => exact absurd e H.1
    | node l' x' r' =>
      simp only [T.id_node] at e
      subst e
      obtain ⟨-, a1, a2, a3, a4⟩ := H
      obtain ⟨-, b1, b2, b3, b4⟩ := H'
      rw [il a3 b3 (a1.symm.trans b1), ir a4 b4 (a2.symm.trans b2)]

theorem splay_more {cmp n m nd h e v} (hm : n ≤ m) (H : splay cmp n nd h e = some v) : splay cmp m nd h e = some v := by
  induction hm with
  | refl => exact H
  | step _ ih => exact splay_mono ih

theorem search_res {cmp} (O : Order cmp) {e nd : Nat} {xs : List Nat} {h : Heap} {t : T} (H : Tr h t xs) (ht : t ≠ .nil) (S : Sorted cmp xs) (n0 : nd ≠ 0) (hn : nd ∉ xs) :
    ∃ k s A z B h', splay cmp k nd h e = some h' ∧ Res (cmp e) s t (.node A z B) k ∧ Tr h' (.node A z B) xs ∧ Out h h' nd xs ∧ Near cmp e z A B := by
  obtain ⟨k, s, A, z, B, h', e1, r, H1, O1⟩ := splay_res (cmp := cmp) (e := e) H ht (Sorted.nodup O S) n0 hn
  cases t with
  | nil => exact absurd rfl ht
  | node a x b =>
    obtain ⟨h2, a', x', b', e2, H2, -, N⟩ := splay_ok (e := e) (n := k + xs.length) O H S n0 hn (by omega)
    have := splay_more (m := k + xs.length) (by omega) e1
    rw [e2] at this
    cases this
    have := H1.rep.uniq H2.rep (H1.root.symm.trans H2.root)
    cases this
    exact ⟨k, s, A, z, B, h', e1, r, H1, O1, N⟩

theorem Inv.spend {cmp h xs op t} {nd : Nat} (O : Order cmp) (S : Sorted cmp xs) (H : Tr h t xs) (ha : Op.allowed xs op) (hop : op.isNext = false) (n0 : nd ≠ 0) (hnd : nd ∉ xs) :
    ∃ k a h' t', Op.call cmp k nd h op = some (a, h') ∧ Tr h' t' (Op.after cmp xs op) ∧ (k : ℝ) + t'.pot ≤ t.pot + 6 * lg (xs.length + 2) := by
  have hd := Sorted.nodup O S
  have big : 1 ≤ lg (xs.length + 2) := lg_ge (by omega)
  cases t with
  | nil =>
    have hx : xs = [] := H.ino.symm
    have hr : h.root = 0 := H.root
    subst hx
    have triv : ∀ v, Op.after cmp [] op = [] → Op.call cmp 0 nd h op = some (v, h) →
      ∃ k a h' t', Op.call cmp k nd h op = some (a, h') ∧ Tr h' t' (Op.after cmp [] op) ∧ (k : ℝ) + t'.pot ≤ T.nil.pot + 6 * lg (List.length ([] : List Nat) + 2) := by
      intro v h2 h3
      exact ⟨0, v, h, .nil, h3, by rw [h2]; exact H, by simp only [T.pot, Nat.cast_zero] at *; linarith⟩
    cases op with
    | insert e =>
      have e0 : e ≠ 0 := ha
      refine ⟨0, 0, { h with root := e, l := upd h.l e 0, r := upd h.r e 0 }, .node .nil e .nil, ?_, ⟨⟨e0, ?_, ?_, trivial, trivial⟩, rfl, ?_⟩, ?_⟩
      · simp [Op.call, Spl.insert, hr, Spl.clear, Heap.setLeft, Heap.setRight, e0]
      · simp [upd]
      · simp [upd]
      · simp [Op.after]
      · simp [T.pot, T.wt, lg_two]
    | remove e => exact triv 0 rfl (by simp [Op.call, Spl.remove, hr])
    | find e => exact triv 0 rfl (by simp [Op.call, Spl.find, hr])
    | next e => cases hop
    | min => exact triv 0 rfl (by simp [Op.call, Spl.min, hr])
    | max => exact triv 0 rfl (by simp [Op.call, Spl.max, hr])
  | node a0 y0 b0 =>
    generalize ht : T.node a0 y0 b0 = t at H
    have tn : t ≠ .nil := by rw [← ht]; exact T.noConfusion
    have r0 : h.root ≠ 0 := by subst ht; rw [H.root]; exact H.rep.1
    have wt : t.wt = xs.length + 1 := by rw [T.wt_ino, H.ino]
    have lw : lg t.wt ≤ lg (xs.length + 2) := lg_mono t.wt_pos (by omega)
    cases op with
    | insert e =>
      have e0 : e ≠ 0 := ha
      obtain ⟨k, s, a, x, b, h', e1, r, H1, O1, N⟩ := search_res (e := e) O H tn S n0 hnd
      have hx : xs = a.ino ++ x :: b.ino := H1.ino.symm
      have hr1 : h'.root = x := H1.root
      have x0 : x ≠ 0 := H1.rep.1
      have am := r.amort.1
      have hw := r.wt
      simp only [T.wt] at hw
      have wa := a.wt_pos
      have wb := b.wt_pos
      obtain ⟨-, l1, l2, ra, rb⟩ := H1.rep
      rcases N.cases O (hx ▸ S) with ⟨c, cA, cB⟩ | ⟨c, cA, cB⟩ | ⟨c, cA, cB⟩
      · obtain ⟨p1, p2, -⟩ := present cA cB c
        rw [← hx] at p1 p2
        refine ⟨k, x, h', .node a x b, ?_, ?_, by linarith⟩
        · simp [Op.call, Spl.insert, r0, e1, insertAt, hr1, x0, c]
        · simp only [Op.after, p2, if_true]; exact H1
      · obtain ⟨p1, p2, -, p3, p4⟩ := absent O cA cB
        rw [← hx] at p1 p2 p3 p4
        have hxe : x ≠ e := fun q => p4 (by rw [hx, q]; simp)
        have hsub : ∀ z, z ∈ a.ino ∨ z ∈ b.ino → z ≠ e ∧ z ≠ x := by
          intro z hz
          refine ⟨fun q => p4 (by rw [hx, ← q]; simp; grind), fun q => ?_⟩
          subst q
          rw [hx] at hd
          simp [List.nodup_append] at hd
          grind
        refine ⟨k, 0, { root := e, l := upd (upd h'.l e a.id) x 0, r := upd h'.r e x }, .node a e (.node .nil x b), ?_, ⟨⟨e0, ?_, ?_, ra.congr ?_, x0, ?_, ?_, trivial, rb.congr ?_⟩, rfl, ?_⟩, ?_⟩
        · simp [Op.call, Spl.insert, r0, e1, insertAt, hr1, x0, c, Heap.left, Heap.setLeft, Heap.setRight, e0, l1]
        · simp [upd, Ne.symm hxe]
        · simp [upd]
        · intro z hz; simp [upd, hsub z (Or.inl hz)]
        · simp [upd]
        · simp [upd, hxe, l2]
        · intro z hz; simp [upd, hsub z (Or.inr hz)]
        · simp only [Op.after, p2, Bool.false_eq_true, if_false, p3]; simp
        · have g1 := lg_mono (a := 1 + b.wt) (b := a.wt + b.wt) (by omega) (by omega)
          have g2 : lg (a.wt + (1 + b.wt)) = lg (xs.length + 2) := by congr 1; omega
          simp only [T.pot, T.wt] at am ⊢
          linarith
      · have hx' : xs = (a.ino ++ [x]) ++ b.ino := by simp [hx]
        obtain ⟨p1, p2, -, p3, p4⟩ := absent O cA cB
        rw [← hx'] at p1 p2 p3 p4
        have hxe : x ≠ e := fun q => p4 (by rw [hx, q]; simp)
        have hsub : ∀ z, z ∈ a.ino ∨ z ∈ b.ino → z ≠ e ∧ z ≠ x := by
          intro z hz
          refine ⟨fun q => p4 (by rw [hx, ← q]; simp; grind), fun q => ?_⟩
          subst q
          rw [hx] at hd
          simp [List.nodup_append] at hd
          grind
        have c1 : ¬ cmp e x < 0 := by omega
        refine ⟨k, 0, { root := e, l := upd h'.l e x, r := upd (upd h'.r e b.id) x 0 }, .node (.node a x .nil) e b, ?_, ⟨⟨e0, ?_, ?_, ⟨x0, ?_, ?_, ra.congr ?_, trivial⟩, rb.congr ?_⟩, rfl, ?_⟩, ?_⟩
        · simp [Op.call, Spl.insert, r0, e1, insertAt, hr1, x0, c, c1, Heap.right, Heap.setLeft, Heap.setRight, e0, l2]
        · simp [upd]
        · simp [upd, Ne.symm hxe]
        · simp [upd, hxe, l1]
        · simp [upd]
        · intro z hz; simp [upd, hsub z (Or.inl hz)]
        · intro z hz; simp [upd, hsub z (Or.inr hz)]
        · simp only [Op.after, p2, Bool.false_eq_true, if_false, p3]; simp
        · have g1 := lg_mono (a := a.wt + 1) (b := a.wt + b.wt) (by omega) (by omega)
          have g2 : lg (a.wt + 1 + b.wt) = lg (xs.length + 2) := by congr 1; omega
          simp only [T.pot, T.wt] at am ⊢
          linarith
    | remove e =>
      obtain ⟨k, s, a, x, b, h', e1, r, H1, O1, N⟩ := search_res (e := e) O H tn S n0 hnd
      have hx : xs = a.ino ++ x :: b.ino := H1.ino.symm
      have hr1 : h'.root = x := H1.root
      have x0 : x ≠ 0 := H1.rep.1
      have am := r.amort.1
      have hw := r.wt
      simp only [T.wt] at hw
      have wa := a.wt_pos
      have wb := b.wt_pos
      obtain ⟨-, l1, l2, ra, rb⟩ := H1.rep
      rcases N.cases O (hx ▸ S) with ⟨c, cA, cB⟩ | c
      · obtain ⟨-, p2, p3⟩ := present cA cB c
        rw [← hx] at p2 p3
        obtain ⟨-, -, Sa, -⟩ := (hx ▸ S).split
        cases a with
        | nil =>
          simp at l1
          refine ⟨k, e, { h' with root := b.id }, b, ?_, ⟨rb.congr (by intro z _; exact ⟨rfl, rfl⟩), rfl, ?_⟩, ?_⟩
          · simp [Op.call, Spl.remove, r0, e1, hr1, x0, c, removeRoot, Heap.left, Heap.right, l1, l2]
          · simp only [Op.after, p3]; simp
          · have := lg_nonneg (a := 1 + b.wt) (by omega)
            simp only [T.pot, T.wt] at am
            linarith
        | node a1 y a2 =>
          have y0 : y ≠ 0 := ra.1
          have Ha : Tr { h' with root := y } (.node a1 y a2) (T.node a1 y a2).ino := ⟨ra.congr (by intro z _; exact ⟨rfl, rfl⟩), rfl, rfl⟩
          obtain ⟨k2, s2, a', x', b', h2, e2, r2, H2, O2, N⟩ := search_res (e := e) (nd := nd) O Ha T.noConfusion Sa n0 (fun q => hnd (by rw [hx]; exact List.mem_append_left _ q))
          obtain ⟨y0', m1, m2, ra', rb'⟩ := H2.rep
          have hb : b' = .nil := by
            have hc : cmp e x' > 0 := cA x' (by rw [← H2.ino]; simp)
            rcases N with N | ⟨N, -⟩ | ⟨-, N⟩
            · omega
            · omega
            · cases b' with
              | nil => rfl
              | node l w r =>
                have q1 := N w (by simp)
                have q2 := cA w (by rw [← H2.ino]; simp)
                omega
          subst hb
          have hr2 : h2.root = x' := H2.root
          have mem2 : ∀ z ∈ a'.ino ++ [x'], z ∈ (T.node a1 y a2).ino := by intro z hz; rw [← H2.ino]; simpa using hz
          have dis : ∀ z ∈ b.ino, z ∉ (T.node a1 y a2).ino ∧ z ≠ nd := by
            intro z hz
            refine ⟨fun q => ?_, fun q => hnd (by rw [hx, ← q]; simp [hz])⟩
            have h1 := cA z q
            have h2 := cB z hz
            omega
          have e1' := splay_more (m := k + k2) (by omega) e1
          have e2' := splay_more (m := k + k2) (by omega) e2
          refine ⟨k + k2, e, { h2 with r := upd h2.r x' b.id }, .node a' x' b, ?_, ⟨⟨y0', m1, ?_, ra'.congr ?_, rb.congr fun z hz => ?_⟩, hr2, ?_⟩, ?_⟩
          · simp at l1
            simp [Op.call, Spl.remove, r0, e1', hr1, x0, c, removeRoot, Heap.left, Heap.right, l1, l2, y0, e2', Heap.setRight, hr2, y0']
          · simp [upd]
          · intro z hz
            have : z ≠ x' := by
              rintro rfl
              have := Sorted.nodup O Sa
              rw [← H2.ino] at this
              simp [List.nodup_append] at this
              grind
            simp [upd, this]
          · obtain ⟨d1, d2⟩ := dis z hz
            have := O2 z d2 d1
            have hzx : z ≠ x' := by rintro rfl; exact d1 (mem2 z (by simp))
            simpa [upd, hzx] using this
          · simp only [Op.after, p3]
            rw [← H2.ino]; simp
          · have am2 := r2.amort.1
            have hw2 := r2.wt
            have := a'.wt_pos
            generalize T.node a1 y a2 = a at *
            simp only [T.pot, T.wt] at am am2 hw2
            simp only [T.pot, Nat.cast_add]
            have g1 := lg_mono (a := a'.wt + b.wt) (b := xs.length + 2) (by omega) (by omega)
            have g2 := lg_mono (a := a.wt) (b := a.wt + b.wt) (by omega) (by omega)
            rw [hw2] at am2
            rw [hw] at am g2
            linarith
      · have hne : cmp e x ≠ 0 := by rcases c with c | c <;> omega
        obtain ⟨p2, p3⟩ : (xs.any fun y => decide (cmp e y = 0)) = false ∧ xs.filter (fun y => decide (cmp e y ≠ 0)) = xs := by
          rcases c with ⟨-, cA, cB⟩ | ⟨-, cA, cB⟩
          · obtain ⟨-, p2, p3, -⟩ := absent O cA cB
            rw [← hx] at p2 p3
            exact ⟨p2, p3⟩
          · obtain ⟨-, p2, p3, -⟩ := absent O cA cB
            rw [← (by simp [hx] : xs = (a.ino ++ [x]) ++ b.ino)] at p2 p3
            exact ⟨p2, p3⟩
        refine ⟨k, 0, h', .node a x b, ?_, ?_, by linarith⟩
        · simp [Op.call, Spl.remove, r0, e1, hr1, x0, hne]
        · simp only [Op.after, p3]
          exact H1
    | find e =>
      obtain ⟨k, s, a, x, b, h', e1, r, H1, O1, N⟩ := search_res (e := e) O H tn S n0 hnd
      have am := r.amort.1
      have hr1 : h'.root = x := H1.root
      have x0 : x ≠ 0 := H1.rep.1
      by_cases c : cmp e x = 0
      · exact ⟨k, x, h', _, by simp [Op.call, Spl.find, r0, e1, hr1, x0, c], H1, by linarith⟩
      · exact ⟨k, 0, h', _, by simp [Op.call, Spl.find, r0, e1, hr1, x0, c], H1, by linarith⟩
    | next e => cases hop
    | min =>
      obtain ⟨k, s, A, z, B, h', e1, r, H1, -⟩ := splay_res (cmp := fun _ _ => if true = true then -1 else 1) (e := 0) H tn hd n0 hnd
      have am := r.amort.1
      rw [← minmax_eq] at e1
      exact ⟨k, h'.root, h', _, by simp [Op.call, Spl.min, r0, e1], H1, by linarith⟩
    | max =>
      obtain ⟨k, s, A, z, B, h', e1, r, H1, -⟩ := splay_res (cmp := fun _ _ => if false = true then -1 else 1) (e := 0) H tn hd n0 hnd
      have am := r.amort.1
      rw [← minmax_eq] at e1
      exact ⟨k, h'.root, h', _, by simp [Op.call, Spl.max, r0, e1], H1, by linarith⟩

theorem Takes.le {cmp nd h op k a h' k' v} (H : Op.Takes cmp nd h op k a h') (e : op.call cmp k' nd h = some v) : k ≤ k' ∧ v = (a, h') := by
  have hk : k ≤ k' := by
    rcases Nat.lt_or_ge k' k with q | q
    · rw [H.2 k' q] at e; cases e
    · exact q
  have := call_mono hk H.1
  rw [e] at this
  exact ⟨hk, by cases this; rfl⟩

theorem after_length {cmp} (O : Order cmp) (xs) (op : Op) : (op.after cmp xs).length ≤ xs.length + (if op.isInsert then 1 else 0) := by
  cases op <;> simp only [Op.after, Op.isInsert, if_true, Bool.false_eq_true, if_false, Nat.add_zero, Nat.le_refl]
  case insert e =>
    split
    · omega
    · have : ∀ ys : List Nat, (ys.filter fun z => decide (cmp z e < 0)).length + (ys.filter fun z => decide (cmp e z < 0)).length ≤ ys.length := by
        intro ys
        induction ys with
        | nil => simp
        | cons y ys ih =>
          have := O.swap y e
          by_cases c1 : cmp y e < 0
          · have c2 : ¬ cmp e y < 0 := by omega
            simp [c1, c2]; omega
          · by_cases c2 : cmp e y < 0 <;> simp [c1, c2] <;> omega
      have := this xs
      simp only [List.length_append, List.length_cons]
      omega
  case remove e => exact List.length_filter_le _ _

/-- The number of elements on the way down by left links. -/
def T.ld : T → ℕ
  | .nil => 0
  | .node l _ _ => l.ld + 1

/-- The way down to the least element is at most twice as long as splaying it takes. -/
theorem Res.depth {c s t r k} (H : Res c s t r k) : (∀ z ∈ t.ino, c z ≤ 0) → (∀ z ∈ t.ino.tail, c z < 0) → t.ld ≤ 2 * k := by
  induction H with
  | @stop a x b h =>
    intro _ h2
    cases a with
    | nil => simp [T.ld]
    | node l w r =>
      have : x ∈ (T.node (T.node l w r) x b).ino.tail := by
        rw [T.ino_node, List.tail_append_of_ne_nil (by simp)]
        simp
      have := h2 x this
      omega
  | stopL h => intro _ _; simp [T.ld]
  | @stopR a x h => intro h1 _; have := h1 x (by simp); omega
  | zigL h h' => intro _ _; simp [T.ld]
  | @zigR x y a d h => intro h1 _; have := h1 x (by simp); omega
  | @zzR s x y a d t A z B k h _ _ _ => intro h1 _; have := h1 x (by simp); omega
  | @linkR s x a t A z B k h _ _ _ _ => intro h1 _; have := h1 x (by simp); omega
  | @zzL s x y b d t A z B k _ _ H ih =>
    intro h1 h2
    cases t with
    | nil => cases H
    | node l w r =>
      have := ih (fun z hz => h1 z (by simp at hz ⊢; grind)) fun z hz => h2 z (by
        rw [T.ino_node, T.ino_node, List.append_assoc, List.tail_append_of_ne_nil (by simp)]
        exact List.mem_append_left _ hz)
      simp only [T.ld] at this ⊢
      omega
  | @linkL s x t b A z B k _ _ _ H ih =>
    intro h1 h2
    cases t with
    | nil => cases H
    | node l w r =>
      have := ih (fun z hz => h1 z (by simp at hz ⊢; grind)) fun z hz => h2 z (by
        rw [T.ino_node, List.tail_append_of_ne_nil (by simp)]
        exact List.mem_append_left _ hz)
      simp only [T.ld] at this ⊢
      omega

theorem leftmost_ld {h : Heap} : ∀ (t : T) (l : T) (x : Nat) (r : T), t = .node l x r → Rep h t → leftmost t.ld h x = some (t.ino.headD 0) ∧ ∀ j < t.ld, leftmost j h x = none := by
  intro t
  induction t with
  | nil => intro l x r e; cases e
  | node l x r il _ =>
    intro l' x' r' e H
    cases e
    obtain ⟨a0, a1, -, a3, -⟩ := H
    cases l with
    | nil =>
      simp at a1
      refine ⟨by simp [T.ld, leftmost, Heap.left, a0, a1], fun j hj => ?_⟩
      obtain rfl : j = 0 := by simp [T.ld] at hj; omega
      rfl
    | node l2 y r2 =>
      have y0 := a3.1
      obtain ⟨i1, i2⟩ := il l2 y r2 rfl a3
      simp at a1
      refine ⟨?_, fun j hj => ?_⟩
      · rw [T.ld, leftmost]
        simp [Heap.left, a0, a1, y0, i1]
      · cases j with
        | zero => rfl
        | succ j =>
          rw [T.ld] at hj
          rw [leftmost]
          simp [Heap.left, a0, a1, y0, i2 j (by omega)]

theorem leftmost_more {h : Heap} {n m x a} (hm : n ≤ m) (H : leftmost n h x = some a) : leftmost m h x = some a := by
  induction hm with
  | refl => exact H
  | step _ ih => exact leftmost_mono ih

/-- `SPLAY_NEXT` of a member: what it leaves, and what it walked. -/
theorem next_res {cmp h xs t} {e nd : Nat} (O : Order cmp) (S : Sorted cmp xs) (H : Tr h t xs) (he : e ∈ xs) (n0 : nd ≠ 0) (hnd : nd ∉ xs) :
    ∃ k s A B h', Res (cmp e) s t (.node A e B) k ∧ Tr h' (.node A e B) xs ∧ (Op.next e).call cmp (k + B.ld) nd h = some (B.ino.headD 0, h') ∧
      ∀ j < B.ld, (Op.next e).call cmp j nd h = none := by
  have tn : t ≠ .nil := by rintro rfl; rw [← H.ino] at he; simp at he
  obtain ⟨k, s, A, x, B, h', e1, r, H1, O1, N⟩ := search_res (e := e) O H tn S n0 hnd
  have hx : xs = A.ino ++ x :: B.ino := H1.ino.symm
  have hex : e = x := by
    have hre := O.refl e
    rw [hx, List.mem_append, List.mem_cons] at he
    rcases N.cases O (hx ▸ S) with ⟨c, cA, cB⟩ | ⟨c, cA, cB⟩ | ⟨c, cA, cB⟩
    · rcases he with hm | hm | hm
      · have := cA e hm; omega
      · exact hm
      · have := cB e hm; omega
    · rcases he with hm | hm | hm
      · have := cA e hm; omega
      · exact hm
      · have := cB e (by simp [hm]); omega
    · rcases he with hm | hm | hm
      · have := cA e (by simp [hm]); omega
      · exact hm
      · have := cB e hm; omega
  subst hex
  obtain ⟨x0, l1, l2, ra, rb⟩ := H1.rep
  have e1' := splay_more (m := k + B.ld) (by omega) e1
  refine ⟨k, s, A, B, h', r, H1, ?_, fun j hj => ?_⟩
  · simp only [Op.call, Spl.next, e1', Heap.right, x0, if_false, Option.bind_eq_bind, Option.bind_some, l2]
    cases B with
    | nil => simp
    | node l w q =>
      have := leftmost_more (m := k + (T.node l w q).ld) (by omega) (leftmost_ld (T.node l w q) l w q rfl rb).1
      simp only [T.id_node, rb.1, if_false, this, Option.bind_some]
  · cases hs : splay cmp j nd h e with
    | none => simp [Op.call, Spl.next, hs]
    | some h2 =>
      have := splay_more (m := j + k) (by omega) hs
      rw [splay_more (m := j + k) (by omega) e1] at this
      cases this
      cases B with
      | nil => simp [T.ld] at hj
      | node l w q =>
        have := (leftmost_ld (T.node l w q) l w q rfl rb).2 j hj
        simp only [Op.call, Spl.next, hs, Heap.right, x0, if_false, Option.bind_eq_bind, Option.bind_some, l2, T.id_node, rb.1, this, Option.bind_none]

theorem Visit.pot {cmp xs h x h' j c} (O : Order cmp) (S : Sorted cmp xs) (V : Visit cmp xs h x h' j c) : ∀ {t}, Tr h t xs → (x = 0 ∨ x ∈ xs) →
    ∃ t', Tr h' t' xs ∧ (x = 0 → t' = t ∧ c = 0 ∧ j = 0) ∧
      (x ≠ 0 → ∃ k s A B, Res (cmp x) s t (.node A x B) k ∧ (c : ℝ) + 2 * k + 3 * t'.pot ≤ 3 * t.pot + 9 * j * lg (xs.length + 2)) := by
  induction V with
  | done h => intro t H _; exact ⟨t, H, fun _ => ⟨rfl, rfl, rfl⟩, fun q => absurd rfl q⟩
  | @step h h1 h' x y k nd j c x0 n0 hnd ht V ih =>
    intro t H hx
    have hx : x ∈ xs := hx.resolve_left x0
    obtain ⟨k1, s, A, B, h2, r, H2, e, -⟩ := next_res O S H hx n0 hnd
    obtain ⟨hk, e2⟩ := Takes.le ht e
    cases e2
    have am := r.amort.1
    have lw : lg t.wt ≤ lg (xs.length + 2) := lg_mono t.wt_pos (by rw [T.wt_ino, H.ino]; omega)
    have hk' : (k : ℝ) ≤ k1 + B.ld := by exact_mod_cast hk
    have hxs : xs = A.ino ++ x :: B.ino := H2.ino.symm
    have hy : B.ino.headD 0 = 0 ∨ B.ino.headD 0 ∈ xs := by
      cases hB : B.ino with
      | nil => exact Or.inl rfl
      | cons z zs => exact Or.inr (by rw [hxs, hB]; simp)
    obtain ⟨t', Ht', z0, z1⟩ := ih H2 hy
    refine ⟨t', Ht', fun q => absurd q x0, fun _ => ⟨k1, s, A, B, r, ?_⟩⟩
    by_cases y0 : B.ino.headD 0 = 0
    · have hB : B = .nil := by
        cases B with
        | nil => rfl
        | node l w r' =>
          have hn := H2.rep.2.2.2.2.ne0
          cases hB : (T.node l w r').ino with
          | nil => simp at hB
          | cons z zs => rw [hB] at y0; exact absurd y0 (hn z (by rw [hB]; simp))
      subst hB
      obtain ⟨rfl, rfl, rfl⟩ := z0 y0
      simp only [T.ld, Nat.cast_zero, add_zero, zero_add, Nat.cast_one, mul_one] at hk' ⊢
      linarith
    · obtain ⟨k2, s2, A2, B2, r2, hp⟩ := z1 y0
      have hd : B.ld ≤ 2 * k2 := by
        cases hB : B.ino with
        | nil => rw [hB] at y0; exact absurd rfl y0
        | cons z zs =>
          obtain ⟨s1, s2', -, Sb, -⟩ := (hxs ▸ S).split
          rw [hB] at s2' Sb
          have hyz : B.ino.headD 0 = z := by rw [hB]; rfl
          rw [hyz] at r2
          have c1 : cmp z x > 0 := (O.swap x z).1 (s2' z (by simp))
          have c2 : ∀ w ∈ zs, cmp z w < 0 := by
            have := Sb
            unfold Sorted at this
            exact (List.pairwise_cons.1 this).1
          have c3 : ∀ w ∈ B.ino, cmp z w ≤ 0 := by
            intro w hw
            rw [hB] at hw
            rcases List.mem_cons.1 hw with rfl | hw
            · have := O.refl w; omega
            · have := c2 w hw; omega
          have c4 : ∀ w ∈ B.ino.tail, cmp z w < 0 := by rw [hB]; exact c2
          generalize hg : T.node A2 z B2 = g at r2
          generalize hg2 : T.node A x B = g2 at r2
          cases r2 with
          | stop h => cases hg2; omega
          | stopL h => cases hg2; omega
          | stopR h => cases hg2; simp at hB
          | zigL h => cases hg2; omega
          | @zigR _ v _ _ h h' => cases hg2; have := c3 v (by simp); omega
          | zzL h => cases hg2; omega
          | @zzR _ _ v _ _ _ _ _ _ _ h h' => cases hg2; have := c3 v (by simp); omega
          | linkL h => cases hg2; omega
          | linkR h _ _ r3 => cases hg2; have := r3.depth c3 c4; omega
      have hd' : (B.ld : ℝ) ≤ 2 * k2 := by exact_mod_cast hd
      push_cast
      linarith

theorem Visit.reach {cmp xs h x h' j c} (O : Order cmp) (V : Visit cmp xs h x h' j c) : Reach cmp h xs → (x = 0 ∨ x ∈ xs) → Reach cmp h' xs := by
  induction V with
  | done h => intro R _; exact R
  | @step h h1 h' x y k nd j c x0 n0 hnd ht V ih =>
    intro R hx
    have hx : x ∈ xs := hx.resolve_left x0
    have R1 := R.call (op := .next x) hx n0 hnd ht.1
    refine ih R1 ?_
    obtain ⟨S, t, H⟩ := R.inv O
    obtain ⟨k1, s, A, B, h2, r, H2, e, -⟩ := next_res O S H hx n0 hnd
    obtain ⟨hk, e2⟩ := Takes.le ht e
    cases e2
    cases hB : B.ino with
    | nil => exact Or.inl rfl
    | cons z zs => exact Or.inr (by rw [← H2.ino]; simp [hB])

theorem min_mem {cmp h xs} {nd k x h1} (O : Order cmp) (R : Reach cmp h xs) (n0 : nd ≠ 0) (hnd : nd ∉ xs) (H : Op.min.call cmp k nd h = some (x, h1)) : x = 0 ∨ x ∈ xs := by
  obtain ⟨h', e, -⟩ := (R.inv O).step (op := .min) O trivial n0 hnd (n := k + (xs.length + 1)) (by omega)
  rw [call_mono (by omega) H] at e
  cases e
  have f1 := Rb.first_drop (a := []) (b := xs) (P := fun _ => true) (by simp) (by simp)
  rw [List.nil_append] at f1
  simp only [Op.answer, f1]
  cases xs with
  | nil => exact Or.inl rfl
  | cons z zs => exact Or.inr (by simp)

theorem Spent.reach {cmp ok h xs m n c} (O : Order cmp) (H : Spent cmp ok h xs m n c) : Reach cmp h xs := by
  induction H with
  | init h => exact .init h
  | call _ _ ha n0 hnd ht ih => exact ih.call ha n0 hnd ht.1
  | visit _ n0 hnd ht V ih => exact V.reach O (ih.call (op := .min) trivial n0 hnd ht.1) (min_mem O ih n0 hnd ht.1)

theorem Spent.pot {cmp ok h xs m n c} (O : Order cmp) (hok : ∀ op, ok op = true → op.isNext = false) (H : Spent cmp ok h xs m n c) :
    xs.length ≤ n ∧ ∃ t, Tr h t xs ∧ (c : ℝ) + 3 * t.pot ≤ 18 * (m + n : ℕ) * lg (n + 2) := by
  induction H with
  | init h => exact ⟨Nat.le_refl _, .nil, ⟨trivial, rfl, rfl⟩, by simp [T.pot]⟩
  | @call h h' xs m n c op k nd a H ho ha n0 hnd ht ih =>
    obtain ⟨hl, t, Ht, hp⟩ := ih
    obtain ⟨k', a', h'', t', e, Ht', hp'⟩ := Inv.spend O ((H.reach O).inv O).sorted Ht ha (hok op ho) n0 hnd
    obtain ⟨hk, e2⟩ := Takes.le ht e
    cases e2
    refine ⟨?_, t', Ht', ?_⟩
    · have := after_length O xs op
      split at this <;> rename_i q <;> simp only [q, if_true, Bool.false_eq_true, if_false] <;> omega
    · have hk' : (k : ℝ) ≤ k' := by exact_mod_cast hk
      have k0 : (0 : ℝ) ≤ k := Nat.cast_nonneg k
      have g1 := lg_mono (a := xs.length + 2) (b := n + 2) (by omega) (by omega)
      have g2 := lg_mono (a := n + 2) (b := n + 1 + 2) (by omega) (by omega)
      have g0 := lg_nonneg (a := n + 2) (by omega)
      have key : (c + k : ℝ) + 3 * t'.pot ≤ 18 * ((m : ℝ) + n + 1) * lg (n + 2) := by
        push_cast at hp
        linarith
      cases hi : op.isInsert
      · simp only [Bool.false_eq_true, if_false, Nat.cast_add, Nat.cast_one]
        calc _ ≤ _ := key
          _ = _ := by ring
      · simp only [if_true, Nat.cast_add, Nat.cast_one]
        calc _ ≤ _ := key
          _ ≤ 18 * ((m : ℝ) + n + 1) * lg (n + 1 + 2) := by
            refine mul_le_mul_of_nonneg_left g2 ?_
            positivity
          _ = _ := by ring
  | @visit h h1 h' xs m n c k nd x j c' H n0 hnd ht V ih =>
    obtain ⟨hl, t, Ht, hp⟩ := ih
    have R := H.reach O
    have S := (R.inv O).sorted
    obtain ⟨k', a', h'', t1, e, Ht1, hp1⟩ := Inv.spend (op := .min) O S Ht trivial rfl n0 hnd
    obtain ⟨hk, e2⟩ := Takes.le ht e
    cases e2
    have hx := min_mem O R n0 hnd ht.1
    obtain ⟨t', Ht', z0, z1⟩ := V.pot O S Ht1 hx
    refine ⟨hl, t', Ht', ?_⟩
    have hk' : (k : ℝ) ≤ k' := by exact_mod_cast hk
    have k0 : (0 : ℝ) ≤ k := Nat.cast_nonneg k
    have j0 : (0 : ℝ) ≤ j := Nat.cast_nonneg j
    have g1 := lg_mono (a := xs.length + 2) (b := n + 2) (by omega) (by omega)
    have g0 := lg_nonneg (a := n + 2) (by omega)
    have key : (c' : ℝ) + 3 * t'.pot ≤ 3 * t1.pot + 9 * j * lg (xs.length + 2) := by
      by_cases x0 : x = 0
      · obtain ⟨rfl, rfl, rfl⟩ := z0 x0
        simp
      · obtain ⟨k1, s, A, B, -, q⟩ := z1 x0
        have : (0 : ℝ) ≤ k1 := Nat.cast_nonneg k1
        linarith
    have key2 : 9 * (j : ℝ) * lg (xs.length + 2) ≤ 18 * (j : ℝ) * lg (n + 2) := by
      have : 9 * (j : ℝ) * lg (xs.length + 2) ≤ 9 * (j : ℝ) * lg (n + 2) := mul_le_mul_of_nonneg_left g1 (by positivity)
      have : 0 ≤ (j : ℝ) * lg (n + 2) := mul_nonneg j0 g0
      linarith
    push_cast at hp ⊢
    linarith

theorem lg_log2 (n : ℕ) : lg (n + 2) ≤ 2 * Nat.log2 (n + 2) := by
  have h1 : (n + 2) < 2 ^ (Nat.log2 (n + 2) + 1) := Nat.lt_log2_self
  have h2 : 1 ≤ Nat.log2 (n + 2) := (Nat.le_log2 (by omega)).2 (by omega)
  have h3 : lg (n + 2) ≤ lg (2 ^ (Nat.log2 (n + 2) + 1)) := lg_mono (by omega) (by omega)
  have h4 : lg (2 ^ (Nat.log2 (n + 2) + 1)) = (Nat.log2 (n + 2) + 1 : ℕ) := by
    simp only [lg, Nat.cast_pow, Nat.cast_ofNat]
    rw [Real.logb_pow, Real.logb_self_eq_one (by norm_num)]; ring
  rw [h4] at h3
  have : ((Nat.log2 (n + 2) + 1 : ℕ) : ℝ) ≤ 2 * Nat.log2 (n + 2) := by exact_mod_cast (by omega)
  linarith

theorem Spent.bound {cmp ok h xs m n c} (O : Order cmp) (hok : ∀ op, ok op = true → op.isNext = false) (H : Spent cmp ok h xs m n c) :
    c ≤ 36 * (m + n) * Nat.log2 (n + 2) := by
  obtain ⟨-, t, -, hp⟩ := H.pot O hok
  have := t.pot_nonneg
  have g := lg_log2 n
  have : (c : ℝ) ≤ (36 * (m + n) * Nat.log2 (n + 2) : ℕ) := by
    push_cast
    push_cast at hp
    have : 18 * ((m : ℝ) + n) * lg (n + 2) ≤ 18 * ((m : ℝ) + n) * (2 * Nat.log2 (n + 2)) := mul_le_mul_of_nonneg_left g (by positivity)
    linarith
  exact_mod_cast this

theorem Visit.count {cmp xs h x h' j c} (O : Order cmp) (V : Visit cmp xs h x h' j c) : Reach cmp h xs → ∀ a b, xs = a ++ b → x = b.headD 0 → j = b.length := by
  induction V with
  | done h =>
    intro R a b e q
    obtain ⟨S, t, H⟩ := R.inv O
    cases b with
    | nil => rfl
    | cons z zs => exact absurd q.symm (H.rep.ne0 z (by rw [H.ino, e]; simp))
  | @step h h1 h' x y k nd j c x0 n0 hnd ht V ih =>
    intro R a b e q
    cases b with
    | nil => exact absurd q x0
    | cons z zs =>
      obtain rfl : x = z := q
      have hx : x ∈ xs := by rw [e]; simp
      have R1 := R.call (op := .next x) hx n0 hnd ht.1
      obtain ⟨S, t, H⟩ := R.inv O
      obtain ⟨k1, s, A, B, h2, r, H2, e1, -⟩ := next_res O S H hx n0 hnd
      obtain ⟨hk, e2⟩ := Takes.le ht e1
      cases e2
      have e3 : A.ino ++ x :: B.ino = a ++ x :: zs := H2.ino.trans e
      have hd := Sorted.nodup O S
      rw [← H2.ino] at hd
      have hzs : B.ino = zs := by
        have h1 : x ∉ A.ino := by
          intro q
          simp [List.nodup_append] at hd
          grind
        have h2 : x ∉ a := by
          have hd2 := Sorted.nodup O S
          rw [e] at hd2
          intro q
          simp [List.nodup_append] at hd2
          grind
        have := congrArg (List.dropWhile (fun w => w != x)) e3
        rw [List.dropWhile_append_of_pos (by intro w hw; simp; rintro rfl; exact h1 hw), List.dropWhile_append_of_pos (by intro w hw; simp; rintro rfl; exact h2 hw)] at this
        simpa using this
      have := ih R1 (A.ino ++ [x]) B.ino (by simp [← H2.ino, T.ino_node]) rfl
      rw [this, hzs]
      rfl

theorem T.pot_le (t : T) : t.pot ≤ t.ino.length * lg t.wt := by
  induction t with
  | nil => simp [T.pot]
  | node l x r il ir =>
    have := l.wt_pos
    have := r.wt_pos
    have g1 := lg_mono (a := l.wt) (b := l.wt + r.wt) (by omega) (by omega)
    have g2 := lg_mono (a := r.wt) (b := l.wt + r.wt) (by omega) (by omega)
    have h1 : (l.ino.length : ℝ) * lg l.wt ≤ l.ino.length * lg (l.wt + r.wt) := mul_le_mul_of_nonneg_left g1 (Nat.cast_nonneg _)
    have h2 : (r.ino.length : ℝ) * lg r.wt ≤ r.ino.length * lg (l.wt + r.wt) := mul_le_mul_of_nonneg_left g2 (Nat.cast_nonneg _)
    simp only [T.pot, T.wt, T.ino_node, List.length_append, List.length_cons, Nat.cast_add, Nat.cast_one]
    linarith

theorem Visit.bound {cmp xs h h1 h' k nd x j c} (O : Order cmp) (R : Reach cmp h xs) (n0 : nd ≠ 0) (hnd : nd ∉ xs) (ht : Op.min.Takes cmp nd h k x h1) (V : Visit cmp xs h1 x h' j c) :
    j = xs.length ∧ k + c ≤ 36 * (xs.length + 1) * Nat.log2 (xs.length + 2) := by
  obtain ⟨S, t, Ht⟩ := R.inv O
  have hx := min_mem O R n0 hnd ht.1
  have R1 := R.call (op := .min) trivial n0 hnd ht.1
  have hj : j = xs.length := by
    refine V.count O R1 [] xs rfl ?_
    obtain ⟨h', e, -⟩ := (R.inv O).step (op := .min) O trivial n0 hnd (n := k + (xs.length + 1)) (by omega)
    rw [call_mono (by omega) ht.1] at e
    cases e
    have f1 := Rb.first_drop (a := []) (b := xs) (P := fun _ => true) (by simp) (by simp)
    rw [List.nil_append] at f1
    simp only [Op.answer, f1]
  refine ⟨hj, ?_⟩
  obtain ⟨k', a', h'', t1, e, Ht1, hp1⟩ := Inv.spend (op := .min) O S Ht trivial rfl n0 hnd
  obtain ⟨hk, e2⟩ := Takes.le ht e
  cases e2
  obtain ⟨t', Ht', z0, z1⟩ := V.pot O S Ht1 hx
  have hk' : (k : ℝ) ≤ k' := by exact_mod_cast hk
  have k0 : (0 : ℝ) ≤ k := Nat.cast_nonneg k
  have key : (c : ℝ) + 3 * t'.pot ≤ 3 * t1.pot + 9 * j * lg (xs.length + 2) := by
    by_cases x0 : x = 0
    · obtain ⟨rfl, rfl, rfl⟩ := z0 x0
      simp
    · obtain ⟨k1, s, A, B, -, q⟩ := z1 x0
      have : (0 : ℝ) ≤ k1 := Nat.cast_nonneg k1
      linarith
  have p0 := t'.pot_nonneg
  have p1 := t.pot_le
  rw [Ht.ino] at p1
  have lw : lg t.wt ≤ lg (xs.length + 2) := lg_mono t.wt_pos (by rw [T.wt_ino, Ht.ino]; omega)
  have p2 : (xs.length : ℝ) * lg t.wt ≤ xs.length * lg (xs.length + 2) := mul_le_mul_of_nonneg_left lw (Nat.cast_nonneg _)
  have g := lg_log2 xs.length
  have g0 := lg_nonneg (a := xs.length + 2) (by omega)
  rw [hj] at key
  have hm : 0 ≤ (xs.length : ℝ) * lg (xs.length + 2) := mul_nonneg (Nat.cast_nonneg _) g0
  have : (k : ℝ) + c ≤ 18 * (xs.length + 1) * lg (xs.length + 2) := by linarith
  have : (k : ℝ) + c ≤ 18 * (xs.length + 1) * (2 * Nat.log2 (xs.length + 2)) := this.trans (mul_le_mul_of_nonneg_left g (by positivity))
  have : ((k + c : ℕ) : ℝ) ≤ (36 * (xs.length + 1) * Nat.log2 (xs.length + 2) : ℕ) := by push_cast; linarith
  exact_mod_cast this

end Verif.Spl
