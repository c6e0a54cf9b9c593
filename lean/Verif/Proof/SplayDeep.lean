import Verif.Proof.SplayBalance

/-! A tree in which `SPLAY_NEXT` of the least element walks down half of the elements, again and again. -/
namespace Verif.Spl
open Verif.Rb (Order Sorted first)

/-- A call that may be made takes some number of rounds. -/
theorem takes {cmp h xs op} {nd : Nat} (O : Order cmp) (R : Reach cmp h xs) (ha : Op.allowed xs op) (n0 : nd ≠ 0) (hnd : nd ∉ xs) : ∃ k a h', op.Takes cmp nd h k a h' := by
  obtain ⟨h', e, -⟩ := (R.inv O).step O ha n0 hnd (Nat.le_refl _)
  have : ∀ n, (op.call cmp n nd h).isSome → ∃ k, (op.call cmp k nd h).isSome ∧ ∀ j < k, op.call cmp j nd h = none := by
    intro n
    induction n with
    | zero => intro q; exact ⟨0, q, fun j hj => absurd hj (Nat.not_lt_zero j)⟩
    | succ n ih =>
      intro q
      by_cases c : (op.call cmp n nd h).isSome
      · exact ih c
      · refine ⟨n + 1, q, fun j hj => ?_⟩
        cases hv : op.call cmp j nd h with
        | none => rfl
        | some v => exact absurd (by rw [call_mono (by omega) hv]; rfl) c
  obtain ⟨k, q, m⟩ := this _ (by rw [e]; rfl)
  obtain ⟨⟨a, h2⟩, e2⟩ := Option.isSome_iff_exists.1 q
  exact ⟨k, a, h2, e2, m⟩

theorem visits {cmp} {nd : Nat} (O : Order cmp) (n0 : nd ≠ 0) : ∀ (b a : List Nat) (h : Heap), Reach cmp h (a ++ b) → nd ∉ a ++ b → ∃ h' c, Visit cmp (a ++ b) h (b.headD 0) h' b.length c := by
  intro b
  induction b with
  | nil => intro a h _ _; exact ⟨h, 0, .done h⟩
  | cons x b ih =>
    intro a h R hnd
    have I := R.inv O
    obtain ⟨t, Ht⟩ := I.tree
    have x0 : x ≠ 0 := Ht.rep.ne0 x (by rw [Ht.ino]; simp)
    obtain ⟨k, y, h1, T⟩ := takes (op := .next x) O R (by simp [Op.allowed]) n0 hnd
    have R1 := R.call (op := .next x) (by simp [Op.allowed]) n0 hnd T.1
    have hans : y = b.headD 0 := by
      obtain ⟨h2, e, -⟩ := I.step O (op := .next x) (by simp [Op.allowed]) n0 hnd (n := k + ((a ++ x :: b).length + 1)) (by omega)
      rw [call_mono (by omega) T.1] at e
      cases e
      exact Rb.next_answer O I.sorted
    subst hans
    obtain ⟨h', c, V⟩ := ih (a ++ [x]) h1 (by simpa [Op.after] using R1) (by simpa using hnd)
    exact ⟨h', _, .step x0 n0 hnd T (by simpa using V)⟩

def path : Nat → T
  | 0 => .nil
  | n + 1 => .node (path n) (n + 1) .nil

theorem path_ino : ∀ n, (path n).ino = List.range' 1 n := by
  intro n
  induction n with
  | zero => rfl
  | succ n ih => rw [path, T.ino_node, ih, List.range'_concat]; simp; omega

/-- `SPLAY_INSERT` of an element above all others. -/
theorem insert_top {cmp h xs t} {e nd : Nat} (O : Order cmp) (S : Sorted cmp xs) (H : Tr h t xs) (ht : t = .nil ∨ ∃ a x, t = .node a x .nil) (e0 : e ≠ 0) (he : ∀ z ∈ xs, cmp e z > 0)
    (n0 : nd ≠ 0) (hnd : nd ∉ xs) : ∃ k h', (Op.insert e).call cmp k nd h = some (0, h') ∧ Tr h' (.node t e .nil) (xs ++ [e]) := by
  rcases ht with rfl | ⟨a, x, rfl⟩
  · have hx : xs = [] := H.ino.symm
    have hr : h.root = 0 := H.root
    subst hx
    exact ⟨0, { h with root := e, l := upd h.l e 0, r := upd h.r e 0 }, by simp [Op.call, Spl.insert, hr, Spl.clear, Heap.setLeft, Heap.setRight, e0],
      ⟨e0, by simp [upd], by simp [upd], trivial, trivial⟩, rfl, rfl⟩
  · have r0 : h.root ≠ 0 := by rw [H.root]; exact H.rep.1
    obtain ⟨k, s, A, z, B, h', e1, r, H1, O1⟩ := splay_res (cmp := cmp) (e := e) H T.noConfusion (Sorted.nodup O S) n0 hnd
    have c : cmp e x > 0 := he x (by rw [← H.ino]; simp)
    obtain ⟨rfl, rfl, rfl⟩ : A = a ∧ z = x ∧ B = .nil := by
      cases r with
      | stop h => exact ⟨rfl, rfl, rfl⟩
      | stopL h => omega
      | stopR h => exact ⟨rfl, rfl, rfl⟩
      | zigL h => omega
      | zzL h => omega
      | linkL h => omega
      | linkR h _ _ r => cases r
    have hx : xs = A.ino ++ [z] := H1.ino.symm
    have hne : ∀ w ∈ xs, w ≠ e := by rintro w hw rfl; have := he w hw; have := O.refl w; omega
    have hze : z ≠ e := hne z (by simp [hx])
    have hd := Sorted.nodup O S
    have hsub : ∀ w ∈ A.ino, w ≠ e ∧ w ≠ z := by
      intro w hw
      refine ⟨hne w (by simp [hx, hw]), ?_⟩
      rintro rfl
      rw [hx] at hd
      simp [List.nodup_append] at hd
      exact hd.2 w hw rfl
    have hr1 : h'.root = z := H1.root
    obtain ⟨z0, l1, l2, ra, -⟩ := H1.rep
    simp at l2
    have c1 : ¬ cmp e z < 0 := by omega
    refine ⟨k, { root := e, l := upd h'.l e z, r := upd (upd h'.r e 0) z 0 }, ?_, ⟨e0, ?_, ?_, ⟨z0, ?_, ?_, ra.congr ?_, trivial⟩, trivial⟩, rfl, ?_⟩
    · simp [Op.call, Spl.insert, r0, e1, insertAt, hr1, z0, c, c1, Heap.right, Heap.setLeft, Heap.setRight, e0, l2]
    · simp [upd]
    · simp [upd, Ne.symm hze]
    · simp [upd, hze, l1]
    · simp [upd]
    · intro w hw; simp [upd, hsub w hw]
    · simp [hx]

def byVal (a b : Nat) : Int := (a : Int) - b

theorem byVal_order : Order byVal := ⟨fun a b => by unfold byVal; omega, fun a b c => by unfold byVal; omega⟩

theorem path_spent {ok} (hok : ∀ e, ok (.insert e) = true) (h₀ : Heap) : ∀ n, ∃ h c, Spent byVal ok h (List.range' 1 n) 0 n c ∧ Tr h (path n) (List.range' 1 n) := by
  intro n
  induction n with
  | zero => exact ⟨h₀.init, 0, .init h₀, trivial, rfl, rfl⟩
  | succ n ih =>
    obtain ⟨h, c, H, Ht⟩ := ih
    have R := H.reach byVal_order
    have hnd : n + 2 ∉ List.range' 1 n := by simp; omega
    have ha : Op.allowed (List.range' 1 n) (.insert (n + 1)) := by simp [Op.allowed]
    have hgt : ∀ z ∈ List.range' 1 n, byVal (n + 1) z > 0 := by
      intro z hz
      simp only [List.mem_range'_1] at hz
      unfold byVal; omega
    obtain ⟨k, a, h', T⟩ := takes byVal_order R ha (by omega : n + 2 ≠ 0) hnd
    obtain ⟨k', h'', e, Ht'⟩ := insert_top (e := n + 1) (nd := n + 2) byVal_order (R.inv byVal_order).sorted Ht
      (by cases n with
        | zero => exact Or.inl rfl
        | succ n => exact Or.inr ⟨_, _, rfl⟩) (by omega) hgt (by omega) hnd
    obtain ⟨-, e2⟩ := Takes.le T e
    cases e2
    have H' := H.call (op := .insert (n + 1)) (hok _) ha (by omega) hnd T
    have hafter : Op.after byVal (List.range' 1 n) (.insert (n + 1)) = List.range' 1 (n + 1) := by
      obtain ⟨-, p2, -, p3, -⟩ := absent (B := []) byVal_order hgt (by simp)
      simp only [List.append_nil] at p2 p3
      simp only [Op.after, p2, Bool.false_eq_true, if_false, p3]
      rw [List.range'_concat]; simp; omega
    rw [hafter] at H'
    refine ⟨h', _, H', ?_⟩
    have : List.range' 1 n ++ [n + 1] = List.range' 1 (n + 1) := by rw [List.range'_concat]; simp; omega
    rw [this] at Ht'
    exact Ht'

/-- Splaying the least element of a path leaves half of it as a path. -/
theorem path_res {c : Nat → Int} (hc : ∀ x, c x < 0) {s t r k} (H : Res c s t r k) : ∀ n, t = path n → ∃ z R, r = .node .nil z R ∧ n ≤ 2 * R.ld + 1 := by
  induction H with
  | @stop a x b h => have := hc x; omega
  | @stopR a x h => have := hc x; omega
  | @zigR x y a d h => have := hc x; omega
  | @zzR s x y a d t A z B k h _ _ _ => have := hc x; omega
  | @linkR s x a t A z B k h _ _ _ _ => have := hc x; omega
  | @linkL s x t b A z B k h h2 _ _ _ => exact absurd (hc _) h2
  | @stopL x b h =>
    intro n e
    refine ⟨x, b, rfl, ?_⟩
    cases n with
    | zero => cases e
    | succ n =>
      cases n with
      | zero => omega
      | succ n => cases e
  | @zigL x y b d h h' =>
    intro n e
    refine ⟨y, .node d x b, rfl, ?_⟩
    simp only [T.ld]
    rcases n with _ | _ | _ | n
    · cases e
    · cases e
    · omega
    · cases e
  | @zzL s x y b d t A z B k _ _ _ ih =>
    intro n e
    rcases n with _ | _ | n
    · cases e
    · cases e
    · simp only [path, T.node.injEq] at e
      obtain ⟨z', R, q, hl⟩ := ih n e.1.1
      cases q
      exact ⟨z, _, rfl, by simp only [T.ld]; omega⟩

theorem next_again {z : Nat} {R : T} : ∀ (M : Nat) {h xs m n c}, Spent byVal (fun _ => true) h xs m n c → Tr h (.node .nil z R) xs →
    ∃ h' c', Spent byVal (fun _ => true) h' xs (m + M) n c' ∧ c + M * R.ld ≤ c' := by
  intro M
  induction M with
  | zero => intro h xs m n c H _; exact ⟨h, c, H, by omega⟩
  | succ M ih =>
    intro h xs m n c H Ht
    have Rc := H.reach byVal_order
    have S := (Rc.inv byVal_order).sorted
    have hz : z ∈ xs := by rw [← Ht.ino]; simp
    obtain ⟨nd, n0, hnd⟩ : ∃ nd, nd ≠ 0 ∧ nd ∉ xs := by
      refine ⟨xs.sum + 1, by omega, fun q => ?_⟩
      have := List.le_sum_of_mem q
      omega
    obtain ⟨k, s, A, B, h1, r, H1, e, f⟩ := next_res byVal_order S Ht hz n0 hnd
    obtain ⟨rfl, rfl⟩ : A = .nil ∧ B = R := by
      have c : byVal z z = 0 := byVal_order.refl z
      cases r with
      | stop h => exact ⟨rfl, rfl⟩
      | stopL h => exact ⟨rfl, rfl⟩
      | stopR h => exact ⟨rfl, rfl⟩
      | zigR h => omega
      | zzR h => omega
      | linkL h => omega
      | linkR h => omega
    obtain ⟨k', a, h2, T⟩ := takes (op := .next z) byVal_order Rc hz n0 hnd
    obtain ⟨hk, e2⟩ := Takes.le T e
    cases e2
    have hge : B.ld ≤ k' := by
      rcases Nat.lt_or_ge k' B.ld with q | q
      · have := T.1; rw [f k' q] at this; cases this
      · exact q
    have H2 := H.call (op := .next z) rfl hz n0 hnd T
    obtain ⟨h', c', H3, hc⟩ := ih H2 H1
    refine ⟨h', c', by simpa [Op.isInsert, Op.after, Nat.add_assoc, Nat.add_comm 1 M] using H3, ?_⟩
    rw [Nat.add_mul]
    omega

/-- `n` inserts, one `SPLAY_MIN`, then `M` times `SPLAY_NEXT` of the least element. -/
theorem walks (h₀ : Heap) (n M : Nat) (hn : 1 ≤ n) : ∃ h c, Spent byVal (fun _ => true) h (List.range' 1 n) (1 + M) n c ∧ M * ((n - 1) / 2) ≤ c := by
  obtain ⟨h, c, H, Ht⟩ := path_spent (ok := fun _ => true) (fun _ => rfl) h₀ n
  have Rc := H.reach byVal_order
  have S := (Rc.inv byVal_order).sorted
  have hnd : n + 1 ∉ List.range' 1 n := by simp; omega
  have tn : path n ≠ .nil := by cases n with
    | zero => omega
    | succ n => exact T.noConfusion
  have r0 : h.root ≠ 0 := by
    rw [Ht.root]
    cases n with
    | zero => omega
    | succ n => simp [path]
  obtain ⟨k, s, A, z, B, h', e1, r, H1, -⟩ := splay_res (cmp := fun _ _ => if true = true then -1 else 1) (e := 0) Ht tn (Sorted.nodup byVal_order S) (by omega : n + 1 ≠ 0) hnd
  rw [← minmax_eq] at e1
  have e : Op.min.call byVal k (n + 1) h = some (h'.root, h') := by simp [Op.call, Spl.min, r0, e1]
  obtain ⟨z', R, q, hl⟩ := path_res (by intro x; simp) r n rfl
  cases q
  obtain ⟨k', a, h2, T⟩ := takes (op := .min) byVal_order Rc trivial (by omega : n + 1 ≠ 0) hnd
  obtain ⟨-, e2⟩ := Takes.le T e
  cases e2
  have H2 := H.call (op := .min) rfl trivial (by omega) hnd T
  obtain ⟨h3, c', H3, hc⟩ := next_again M H2 H1
  refine ⟨h3, c', by simpa [Op.isInsert, Op.after] using H3, ?_⟩
  have : M * ((n - 1) / 2) ≤ M * B.ld := Nat.mul_le_mul_left _ (by omega)
  omega

theorem two_pow_ge (K : Nat) : ∀ p, 8 * K + 8 ≤ p → p * (8 * K + 8) ≤ 2 ^ p := by
  have sq : ∀ p, 4 ≤ p → p * p ≤ 2 ^ p := by
    intro p hp
    induction p, hp using Nat.le_induction with
    | base => decide
    | succ p hp ih => rw [Nat.pow_succ]; nlinarith
  intro p hp
  have := sq p (by omega)
  nlinarith

theorem unbounded (K : Nat) (h₀ : Heap) : ∃ h xs m n c, Spent byVal (fun _ => true) h xs m n c ∧ K * ((m + n) * Nat.log2 (n + 2)) < c := by
  have hp := two_pow_ge K (8 * K + 8) (Nat.le_refl _)
  generalize hP : 8 * K + 8 = p at hp
  have hN : (2 ^ p - 2) + 2 = 2 ^ p := by
    have : p * p ≥ 64 := by nlinarith
    omega
  have hlog : Nat.log2 (2 ^ p - 2 + 2) = p := by rw [hN]; exact Nat.log2_two_pow
  have hd : K * p + 1 ≤ (2 ^ p - 2 - 1) / 2 := by
    have : p * p = 8 * (K * p) + 8 * p := by rw [← hP]; ring
    omega
  generalize 2 ^ p - 2 = n at *
  obtain ⟨h, c, H, hc⟩ := walks h₀ n (K * ((1 + n) * p) + 1) (by omega)
  refine ⟨h, _, _, _, c, H, ?_⟩
  rw [hlog]
  have : (K * ((1 + n) * p) + 1) * (K * p + 1) ≤ (K * ((1 + n) * p) + 1) * ((n - 1) / 2) := Nat.mul_le_mul_left _ hd
  have e1 : K * ((1 + (K * ((1 + n) * p) + 1) + n) * p) = (K * ((1 + n) * p) + 1) * (K * p) + K * ((1 + n) * p) := by ring
  rw [Nat.mul_add, Nat.mul_one] at this
  omega

end Verif.Spl
