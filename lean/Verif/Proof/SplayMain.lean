import Verif.Proof.SplayHeap
import Verif.Proof.RbMain
import Verif.Spec.Splay

/-! `SPLAY` and the operations on it. -/
namespace Verif.Spl
open Verif.Rb (first Order Sorted bind_mono ite_mono first_split first_none first_drop)

theorem Sorted.nodup {cmp} (O : Order cmp) {xs : List Nat} (S : Sorted cmp xs) : xs.Nodup := by
  refine List.Pairwise.imp (fun {a b} hab e => ?_) S
  subst e
  have := O.refl a
  omega

structure Tr (h : Heap) (t : T) (xs : List Nat) : Prop where
  rep : Rep h t
  root : h.root = t.id
  ino : t.ino = xs

def Out (h₀ h : Heap) (nd : Nat) (xs : List Nat) : Prop := ∀ z, z ≠ nd → z ∉ xs → h.l z = h₀.l z ∧ h.r z = h₀.r z

structure Sides (cmp : Nat → Nat → Int) (e : Nat) (L R : Spine) : Prop where
  lo : ∀ z ∈ inoL L, cmp e z > 0
  hi : ∀ z ∈ inoR R, cmp e z < 0

/-- Where the loop stops. -/
def Stop (cmp : Nat → Nat → Int) (e x : Nat) (a b : T) : Prop := cmp e x = 0 ∨ (cmp e x < 0 ∧ a = .nil) ∨ (cmp e x > 0 ∧ b = .nil)

theorem Order.gt_lt {cmp} (O : Order cmp) {e x z : Nat} (h1 : cmp e x > 0) (h2 : cmp z x < 0) : cmp e z > 0 := by
  have := O.lt_le h2 (c := e) (by have := (O.swap x e).2 h1; omega)
  exact (O.swap z e).1 this

theorem splayLoop_ok {cmp} (O : Order cmp) {e nd : Nat} {xs : List Nat} {h₀ : Heap} (S : Sorted cmp xs) : ∀ (n : Nat) (h : Heap) (L R : Spine) (p q : Nat) (a : T) (x : Nat) (b : T),
    Z h₀ nd xs h L p (.node a x b) R q → Sides cmp e L R → (T.node a x b).ino.length ≤ n →
    ∃ h' L' p' a' x' b' R' q', splayLoop cmp e n h p q = some (h', p', q') ∧ Z h₀ nd xs h' L' p' (.node a' x' b') R' q' ∧ Sides cmp e L' R' ∧ Stop cmp e x' a' b' := by
  intro n
  induction n with
  | zero => intro h L R p q a x b H _ hn; simp at hn
  | succ n ih =>
    intro h L R p q a x b H D hn
    have x0 := H.rep.1
    have hroot : h.root = x := H.root
    have hx := H.ino ▸ S
    have hs : (∀ z ∈ a.ino, cmp z x < 0) ∧ (∀ z ∈ b.ino, cmp x z < 0) := by
      unfold Sorted at hx
      simp only [T.ino_node, List.pairwise_append, List.pairwise_cons, List.mem_append, List.mem_cons] at hx
      grind
    rw [splayLoop]
    rw [hroot, if_neg x0]
    by_cases c1 : cmp e x < 0
    · rw [if_pos c1]
      cases a with
      | nil =>
        refine ⟨h, L, p, .nil, x, b, R, q, ?_, H, D, Or.inr (Or.inl ⟨c1, rfl⟩)⟩
        have : h.l x = 0 := H.rep.2.1
        simp [roundLeft, Heap.left, hroot, x0, this]
      | node a1 y a2 =>
        have e1 : h.l x = y := H.rep.2.1
        have y0 : y ≠ 0 := H.rep.2.2.2.1.1
        by_cases c2 : cmp e y < 0
        · obtain ⟨h1, r1, H1⟩ := H.rotR
          have root1 : h1.root = y := H1.root
          have l1 : h1.l y = a1.id := H1.rep.2.1
          have hy : ∀ z ∈ (T.node a2 x b).ino, cmp y z < 0 := by
            unfold Sorted at hx
            simp only [T.ino_node, List.pairwise_append, List.pairwise_cons, List.mem_append, List.mem_cons] at hx
            simp only [T.ino_node, List.mem_append, List.mem_cons]
            grind
          cases a1 with
          | nil =>
            refine ⟨h1, L, p, .nil, y, .node a2 x b, R, q, ?_, H1, D, Or.inr (Or.inl ⟨c2, rfl⟩)⟩
            simp at l1
            simp [roundLeft, Heap.left, hroot, x0, e1, y0, c2, r1, root1, l1]
          | node a3 w a4 =>
            obtain ⟨h2, r2, H2⟩ := H1.linkL
            have w0 : w ≠ 0 := H1.rep.2.2.2.1.1
            have D2 : Sides cmp e L ((y, .node a2 x b) :: R) := ⟨D.lo, fun z hz => by
              simp only [inoR_cons, List.cons_append, List.mem_cons, List.mem_append] at hz
              rcases hz with rfl | hz | hz
              · exact c2
              · exact O.lt_le c2 (by have := hy z hz; omega)
              · exact D.hi z hz⟩
            obtain ⟨h', L', p', a', x', b', R', q', e', r'⟩ := ih h2 L _ p y a3 w a4 H2 D2 (by simp at hn ⊢; omega)
            refine ⟨h', L', p', a', x', b', R', q', ?_, r'⟩
            simp at l1
            simp [roundLeft, Heap.left, hroot, x0, e1, y0, c2, r1, root1, l1, w0, r2, e']
        · obtain ⟨h2, r2, H2⟩ := H.linkL
          have D2 : Sides cmp e L ((x, b) :: R) := ⟨D.lo, fun z hz => by
            simp only [inoR_cons, List.cons_append, List.mem_cons, List.mem_append] at hz
            rcases hz with rfl | hz | hz
            · exact c1
            · exact O.lt_le c1 (by have := hs.2 z hz; omega)
            · exact D.hi z hz⟩
          obtain ⟨h', L', p', a', x', b', R', q', e', r'⟩ := ih h2 L _ p x a1 y a2 H2 D2 (by simp at hn ⊢; omega)
          refine ⟨h', L', p', a', x', b', R', q', ?_, r'⟩
          simp [roundLeft, Heap.left, hroot, x0, e1, y0, c2, r2, e']
    · rw [if_neg c1]
      by_cases c3 : cmp e x > 0
      · rw [if_pos c3]
        cases b with
        | nil =>
          refine ⟨h, L, p, a, x, .nil, R, q, ?_, H, D, Or.inr (Or.inr ⟨c3, rfl⟩)⟩
          have : h.r x = 0 := H.rep.2.2.1
          simp [roundRight, Heap.right, hroot, x0, this]
        | node b1 y b2 =>
          have e1 : h.r x = y := H.rep.2.2.1
          have y0 : y ≠ 0 := H.rep.2.2.2.2.1
          by_cases c2 : cmp e y > 0
          · obtain ⟨h1, r1, H1⟩ := H.rotL
            have root1 : h1.root = y := H1.root
            have l1 : h1.r y = b2.id := H1.rep.2.2.1
            have hy : ∀ z ∈ (T.node a x b1).ino, cmp z y < 0 := by
              unfold Sorted at hx
              simp only [T.ino_node, List.pairwise_append, List.pairwise_cons, List.mem_append, List.mem_cons] at hx
              simp only [T.ino_node, List.mem_append, List.mem_cons]
              grind
            cases b2 with
            | nil =>
              refine ⟨h1, L, p, .node a x b1, y, .nil, R, q, ?_, H1, D, Or.inr (Or.inr ⟨c2, rfl⟩)⟩
              simp at l1
              simp [roundRight, Heap.right, hroot, x0, e1, y0, c2, r1, root1, l1]
            | node b3 w b4 =>
              obtain ⟨h2, r2, H2⟩ := H1.linkR
              have w0 : w ≠ 0 := H1.rep.2.2.2.2.1
              have D2 : Sides cmp e ((y, .node a x b1) :: L) R := ⟨fun z hz => by
                simp only [inoL_cons, List.mem_append, List.mem_singleton] at hz
                rcases hz with hz | hz | rfl
                · exact D.lo z hz
                · exact Order.gt_lt O c2 (hy z hz)
                · exact c2, D.hi⟩
              obtain ⟨h', L', p', a', x', b', R', q', e', r'⟩ := ih h2 _ R y q b3 w b4 H2 D2 (by simp at hn ⊢; omega)
              refine ⟨h', L', p', a', x', b', R', q', ?_, r'⟩
              simp at l1
              simp [roundRight, Heap.right, hroot, x0, e1, y0, c2, r1, root1, l1, w0, r2, e']
          · obtain ⟨h2, r2, H2⟩ := H.linkR
            have D2 : Sides cmp e ((x, a) :: L) R := ⟨fun z hz => by
              simp only [inoL_cons, List.mem_append, List.mem_singleton] at hz
              rcases hz with hz | hz | rfl
              · exact D.lo z hz
              · exact Order.gt_lt O c3 (hs.1 z hz)
              · exact c3, D.hi⟩
            obtain ⟨h', L', p', a', x', b', R', q', e', r'⟩ := ih h2 _ R x q b1 y b2 H2 D2 (by simp at hn ⊢; omega)
            refine ⟨h', L', p', a', x', b', R', q', ?_, r'⟩
            simp [roundRight, Heap.right, hroot, x0, e1, y0, c2, r2, e']
      · exact ⟨h, L, p, a, x, b, R, q, by rw [if_neg c3], H, D, Or.inl (by omega)⟩

theorem Tr.clear {h t xs} {nd : Nat} (H : Tr h t xs) (hd : xs.Nodup) (n0 : nd ≠ 0) (hn : nd ∉ xs) :
    ∃ h', Spl.clear h nd = some h' ∧ Z h nd xs h' [] nd t [] nd := by
  refine ⟨{ h with l := upd h.l nd 0, r := upd h.r nd 0 }, by simp [Spl.clear, Heap.setLeft, Heap.setRight, n0], ⟨H.rep.congr fun z hz => ?_, H.root, rfl, rfl, by simp [H.ino], by simp [hn, hd], n0, fun z h1 _ => by simp [upd, h1]⟩⟩
  have : z ≠ nd := by rintro rfl; exact hn (H.ino ▸ hz)
  simp [upd, this]

theorem Z.tr {h₀ nd xs h t} (H : Z h₀ nd xs h [] nd t [] nd) : Tr h t xs ∧ Out h₀ h nd xs :=
  ⟨⟨H.rep, H.root, by have := H.ino; simpa using this⟩, H.frame⟩

/-- What `SPLAY` leaves at the root. -/
def Near (cmp : Nat → Nat → Int) (e x : Nat) (a b : T) : Prop :=
  cmp e x = 0 ∨ (cmp e x < 0 ∧ ∀ z ∈ a.ino, cmp e z > 0) ∨ (cmp e x > 0 ∧ ∀ z ∈ b.ino, cmp e z < 0)

theorem splay_ok {cmp} (O : Order cmp) {e nd n : Nat} {xs : List Nat} {h : Heap} {a : T} {x : Nat} {b : T} (H : Tr h (.node a x b) xs) (S : Sorted cmp xs) (n0 : nd ≠ 0) (hn : nd ∉ xs) (hN : xs.length ≤ n) :
    ∃ h' a' x' b', splay cmp n nd h e = some h' ∧ Tr h' (.node a' x' b') xs ∧ Out h h' nd xs ∧ Near cmp e x' a' b' := by
  obtain ⟨h1, e1, H1⟩ := H.clear (Sorted.nodup O S) n0 hn
  obtain ⟨h2, L, p, a', x', b', R, q, e2, H2, D, St⟩ := splayLoop_ok (e := e) O S n h1 [] [] nd nd a x b H1 ⟨by simp, by simp⟩ (by rw [H.ino]; exact hN)
  obtain ⟨h3, e3, H3⟩ := H2.assemble
  obtain ⟨T3, O3⟩ := H3.tr
  refine ⟨h3, _, x', _, ?_, T3, O3, ?_⟩
  · simp [splay, e1, e2, e3]
  · rcases St with c | ⟨c, rfl⟩ | ⟨c, rfl⟩
    · exact Or.inl c
    · refine Or.inr (Or.inl ⟨c, fun z hz => ?_⟩)
      rw [fillL_ino] at hz
      exact D.lo z (by simpa using hz)
    · refine Or.inr (Or.inr ⟨c, fun z hz => ?_⟩)
      rw [fillR_ino] at hz
      exact D.hi z (by simpa using hz)

theorem minLoop_ok {nd : Nat} {xs : List Nat} {h₀ : Heap} : ∀ (n : Nat) (h : Heap) (R : Spine) (q : Nat) (a : T) (x : Nat) (b : T),
    Z h₀ nd xs h [] nd (.node a x b) R q → (T.node a x b).ino.length ≤ n →
    ∃ h' x' b' R' q', minmaxLoop true n h nd q = some (h', nd, q') ∧ Z h₀ nd xs h' [] nd (.node .nil x' b') R' q' := by
  intro n
  induction n with
  | zero => intro h R q a x b H hn; simp at hn
  | succ n ih =>
    intro h R q a x b H hn
    have x0 := H.rep.1
    have hroot : h.root = x := H.root
    rw [minmaxLoop, if_pos rfl]
    cases a with
    | nil =>
      have : h.l x = 0 := H.rep.2.1
      exact ⟨h, x, b, R, q, by simp [roundLeft, Heap.left, hroot, x0, this], H⟩
    | node a1 y a2 =>
      have e1 : h.l x = y := H.rep.2.1
      have y0 : y ≠ 0 := H.rep.2.2.2.1.1
      obtain ⟨h1, r1, H1⟩ := H.rotR
      have root1 : h1.root = y := H1.root
      have l1 : h1.l y = a1.id := H1.rep.2.1
      cases a1 with
      | nil =>
        simp at l1
        exact ⟨h1, y, .node a2 x b, R, q, by simp [roundLeft, Heap.left, hroot, x0, e1, y0, r1, root1, l1], H1⟩
      | node a3 w a4 =>
        obtain ⟨h2, r2, H2⟩ := H1.linkL
        have w0 : w ≠ 0 := H1.rep.2.2.2.1.1
        obtain ⟨h', x', b', R', q', e', r'⟩ := ih h2 _ y a3 w a4 H2 (by simp at hn ⊢; omega)
        simp at l1
        exact ⟨h', x', b', R', q', by simp [roundLeft, Heap.left, hroot, x0, e1, y0, r1, root1, l1, w0, r2, e'], r'⟩

theorem maxLoop_ok {nd : Nat} {xs : List Nat} {h₀ : Heap} : ∀ (n : Nat) (h : Heap) (L : Spine) (p : Nat) (a : T) (x : Nat) (b : T),
    Z h₀ nd xs h L p (.node a x b) [] nd → (T.node a x b).ino.length ≤ n →
    ∃ h' a' x' L' p', minmaxLoop false n h p nd = some (h', p', nd) ∧ Z h₀ nd xs h' L' p' (.node a' x' .nil) [] nd := by
  intro n
  induction n with
  | zero => intro h R q a x b H hn; simp at hn
  | succ n ih =>
    intro h R q a x b H hn
    have x0 := H.rep.1
    have hroot : h.root = x := H.root
    rw [minmaxLoop, if_neg (by simp)]
    cases b with
    | nil =>
      have : h.r x = 0 := H.rep.2.2.1
      exact ⟨h, a, x, R, q, by simp [roundRight, Heap.right, hroot, x0, this], H⟩
    | node b1 y b2 =>
      have e1 : h.r x = y := H.rep.2.2.1
      have y0 : y ≠ 0 := H.rep.2.2.2.2.1
      obtain ⟨h1, r1, H1⟩ := H.rotL
      have root1 : h1.root = y := H1.root
      have l1 : h1.r y = b2.id := H1.rep.2.2.1
      cases b2 with
      | nil =>
        simp at l1
        exact ⟨h1, .node a x b1, y, R, q, by simp [roundRight, Heap.right, hroot, x0, e1, y0, r1, root1, l1], H1⟩
      | node a3 w a4 =>
        obtain ⟨h2, r2, H2⟩ := H1.linkR
        have w0 : w ≠ 0 := H1.rep.2.2.2.2.1
        obtain ⟨h', x', b', R', q', e', r'⟩ := ih h2 _ y a3 w a4 H2 (by simp at hn ⊢; omega)
        simp at l1
        exact ⟨h', x', b', R', q', by simp [roundRight, Heap.right, hroot, x0, e1, y0, r1, root1, l1, w0, r2, e'], r'⟩

theorem min_ok {nd n : Nat} {xs : List Nat} {h : Heap} {a : T} {x : Nat} {b : T} (H : Tr h (.node a x b) xs) (hd : xs.Nodup) (n0 : nd ≠ 0) (hn : nd ∉ xs) (hN : xs.length ≤ n) :
    ∃ h' t, minmax true n nd h = some h' ∧ Tr h' t xs ∧ Out h h' nd xs ∧ h'.root = xs.headD 0 := by
  obtain ⟨h1, e1, H1⟩ := H.clear hd n0 hn
  obtain ⟨h2, x', b', R, q, e2, H2⟩ := minLoop_ok n h1 [] nd a x b H1 (by rw [H.ino]; exact hN)
  obtain ⟨h3, e3, H3⟩ := H2.assemble
  obtain ⟨T3, O3⟩ := H3.tr
  refine ⟨h3, _, by simp [minmax, e1, e2, e3], T3, O3, ?_⟩
  rw [T3.root, ← T3.ino]
  simp [fillL_ino]

theorem max_ok {nd n : Nat} {xs : List Nat} {h : Heap} {a : T} {x : Nat} {b : T} (H : Tr h (.node a x b) xs) (hd : xs.Nodup) (n0 : nd ≠ 0) (hn : nd ∉ xs) (hN : xs.length ≤ n) :
    ∃ h' t, minmax false n nd h = some h' ∧ Tr h' t xs ∧ Out h h' nd xs ∧ h'.root = xs.reverse.headD 0 := by
  obtain ⟨h1, e1, H1⟩ := H.clear hd n0 hn
  obtain ⟨h2, a', x', R, q, e2, H2⟩ := maxLoop_ok n h1 [] nd a x b H1 (by rw [H.ino]; exact hN)
  obtain ⟨h3, e3, H3⟩ := H2.assemble
  obtain ⟨T3, O3⟩ := H3.tr
  refine ⟨h3, _, by simp [minmax, e1, e2, e3], T3, O3, ?_⟩
  rw [T3.root, ← T3.ino]
  simp [fillR_ino]

theorem leftmost_ok {h : Heap} : ∀ (t : T) (l : T) (x : Nat) (r : T) (n : Nat), t = .node l x r → Rep h t → t.ino.length ≤ n → leftmost n h x = some (t.ino.headD 0) := by
  intro t
  induction t with
  | nil => intro l x r n e; cases e
  | node l x r il _ =>
    intro l' x' r' n e H hn
    cases e
    obtain ⟨n, rfl⟩ : ∃ m, n = m + 1 := ⟨n - 1, by simp at hn; omega⟩
    obtain ⟨a0, a1, -, a3, -⟩ := H
    rw [leftmost]
    cases l with
    | nil => simp at a1; simp [Heap.left, a0, a1]
    | node l2 y r2 =>
      have y0 := a3.1
      have := il l2 y r2 n rfl a3 (by simp at hn ⊢; omega)
      simp at a1
      simp [Heap.left, a0, a1, y0, this]

structure Inv (cmp : Nat → Nat → Int) (h : Heap) (xs : List Nat) : Prop where
  sorted : Sorted cmp xs
  tree : ∃ t, Tr h t xs

theorem around {cmp} (O : Order cmp) {A B : List Nat} {e y : Nat} (S : Sorted cmp (A ++ y :: B)) (h : cmp e y = 0) : (∀ z ∈ A, cmp e z > 0) ∧ (∀ z ∈ B, cmp e z < 0) := by
  obtain ⟨s1, s2, -⟩ := S.split
  refine ⟨fun z hz => ?_, fun z hz => O.le_lt (by omega) (s2 z hz)⟩
  have h0 := O.zero h
  have := O.lt_le (s1 z hz) (c := e) (by omega)
  exact (O.swap z e).1 this

theorem present {cmp : Nat → Nat → Int} {A B : List Nat} {e y : Nat} (hA : ∀ z ∈ A, cmp e z > 0) (hB : ∀ z ∈ B, cmp e z < 0) (h : cmp e y = 0) :
    first (A ++ y :: B) (fun y => decide (cmp e y = 0)) = y ∧ ((A ++ y :: B).any fun y => decide (cmp e y = 0)) = true ∧ (A ++ y :: B).filter (fun y => decide (cmp e y ≠ 0)) = A ++ B := by
  refine ⟨first_split (fun z hz => by have := hA z hz; simp; omega) (by simp [h]), by simp [h], ?_⟩
  have f1 : A.filter (fun z => decide (cmp e z ≠ 0)) = A := List.filter_eq_self.2 fun z hz => by have := hA z hz; simp; omega
  have f2 : B.filter (fun z => decide (cmp e z ≠ 0)) = B := List.filter_eq_self.2 fun z hz => by have := hB z hz; simp; omega
  rw [List.filter_append, f1, List.filter_cons_of_neg (by simp [h]), f2]

theorem absent {cmp} (O : Order cmp) {A B : List Nat} {e : Nat} (hA : ∀ z ∈ A, cmp e z > 0) (hB : ∀ z ∈ B, cmp e z < 0) :
    first (A ++ B) (fun y => decide (cmp e y = 0)) = 0 ∧ ((A ++ B).any fun y => decide (cmp e y = 0)) = false ∧ (A ++ B).filter (fun y => decide (cmp e y ≠ 0)) = A ++ B ∧
      (A ++ B).filter (fun z => decide (cmp z e < 0)) ++ e :: (A ++ B).filter (fun z => decide (cmp e z < 0)) = A ++ e :: B ∧ e ∉ A ++ B := by
  have hne : ∀ z ∈ A ++ B, cmp e z ≠ 0 := by
    intro z hz
    rw [List.mem_append] at hz
    rcases hz with hz | hz
    · have := hA z hz; omega
    · have := hB z hz; omega
  refine ⟨first_none fun z hz => by simp [hne z hz], ?_, List.filter_eq_self.2 fun z hz => by simp [hne z hz], ?_, fun q => hne e q (O.refl e)⟩
  · rw [List.any_eq_false]; intro z hz; simp [hne z hz]
  · have f1 : A.filter (fun z => decide (cmp z e < 0)) = A := List.filter_eq_self.2 fun z hz => by
      have := (O.swap z e).2 (hA z hz); simp [this]
    have f2 : B.filter (fun z => decide (cmp z e < 0)) = [] := List.filter_eq_nil_iff.2 fun z hz => by
      have := hB z hz; have := O.swap z e; simp; omega
    have f3 : A.filter (fun z => decide (cmp e z < 0)) = [] := List.filter_eq_nil_iff.2 fun z hz => by
      have := hA z hz; simp; omega
    have f4 : B.filter (fun z => decide (cmp e z < 0)) = B := List.filter_eq_self.2 fun z hz => by
      have := hB z hz; simp [this]
    rw [List.filter_append, List.filter_append, f1, f2, f3, f4]
    simp

theorem sorted_insert {cmp} (O : Order cmp) {A B : List Nat} {e : Nat} (S : Sorted cmp (A ++ B)) (hA : ∀ z ∈ A, cmp e z > 0) (hB : ∀ z ∈ B, cmp e z < 0) : Sorted cmp (A ++ e :: B) := by
  unfold Sorted at S ⊢
  simp only [List.pairwise_append, List.pairwise_cons, List.mem_cons] at S ⊢
  refine ⟨S.1, ⟨fun z hz => hB z hz, S.2.1⟩, fun z hz w hw => ?_⟩
  rcases hw with rfl | hw
  · exact (O.swap z w).2 (hA z hz)
  · exact S.2.2 z hz w hw

/-- The three places `SPLAY` can leave the root in. -/
theorem Near.cases {cmp} (O : Order cmp) {e x : Nat} {a b : T} (N : Near cmp e x a b) (S : Sorted cmp (a.ino ++ x :: b.ino)) :
    (cmp e x = 0 ∧ (∀ z ∈ a.ino, cmp e z > 0) ∧ (∀ z ∈ b.ino, cmp e z < 0)) ∨
    (cmp e x < 0 ∧ (∀ z ∈ a.ino, cmp e z > 0) ∧ (∀ z ∈ x :: b.ino, cmp e z < 0)) ∨
    (cmp e x > 0 ∧ (∀ z ∈ a.ino ++ [x], cmp e z > 0) ∧ (∀ z ∈ b.ino, cmp e z < 0)) := by
  obtain ⟨s1, s2, -⟩ := S.split
  rcases N with c | ⟨c, h⟩ | ⟨c, h⟩
  · exact Or.inl ⟨c, around O S c⟩
  · refine Or.inr (Or.inl ⟨c, h, fun z hz => ?_⟩)
    rcases List.mem_cons.1 hz with rfl | hz
    · exact c
    · exact O.lt_le c (by have := s2 z hz; omega)
  · refine Or.inr (Or.inr ⟨c, fun z hz => ?_, h⟩)
    rw [List.mem_append, List.mem_singleton] at hz
    rcases hz with hz | rfl
    · exact Order.gt_lt O c (s1 z hz)
    · exact c

theorem ino_nil {t : T} (h : t.ino = []) : t = .nil := by
  cases t with
  | nil => rfl
  | node l x r => simp at h

theorem Inv.step {cmp h xs op} {n nd : Nat} (O : Order cmp) (I : Inv cmp h xs) (ha : Op.allowed xs op) (n0 : nd ≠ 0) (hnd : nd ∉ xs) (hN : xs.length + 1 ≤ n) :
    ∃ h', Op.call cmp n nd h op = some (Op.answer cmp xs op, h') ∧ Inv cmp h' (Op.after cmp xs op) ∧
      ∀ z, z ∉ xs → z ≠ nd → op ≠ .insert z → h'.l z = h.l z ∧ h'.r z = h.r z := by
  obtain ⟨S, t, H⟩ := I
  have hd := Sorted.nodup O S
  cases t with
  | nil =>
    have hx : xs = [] := H.ino.symm
    have hr : h.root = 0 := H.root
    subst hx
    have triv : ∀ v, v = Op.answer cmp [] op → Op.after cmp [] op = [] → Op.call cmp n nd h op = some (v, h) →
      ∃ h', Op.call cmp n nd h op = some (Op.answer cmp [] op, h') ∧ Inv cmp h' (Op.after cmp [] op) ∧ ∀ z, z ∉ ([] : List Nat) → z ≠ nd → op ≠ .insert z → h'.l z = h.l z ∧ h'.r z = h.r z := by
      intro v h1 h2 h3
      exact ⟨h, by rw [h3, h1], by rw [h2]; exact ⟨S, _, H⟩, fun _ _ _ _ => ⟨rfl, rfl⟩⟩
    cases op with
    | insert e =>
      have e0 : e ≠ 0 := ha
      refine ⟨{ h with root := e, l := upd h.l e 0, r := upd h.r e 0 }, ?_, ⟨?_, .node .nil e .nil, ⟨⟨e0, ?_, ?_, trivial, trivial⟩, rfl, ?_⟩⟩, fun z _ _ hz => ?_⟩
      · simp [Op.call, Spl.insert, hr, Spl.clear, Heap.setLeft, Heap.setRight, e0, Op.answer, first]
      · simp [Op.after, Sorted]
      · simp [upd]
      · simp [upd]
      · simp [Op.after]
      · have : z ≠ e := fun q => hz (by rw [q])
        simp [upd, this]
    | remove e => exact triv 0 (by simp [Op.answer]) rfl (by simp [Op.call, Spl.remove, hr])
    | find e => exact triv 0 (by simp [Op.answer, first]) rfl (by simp [Op.call, Spl.find, hr])
    | next e => simp [Op.allowed] at ha
    | min => exact triv 0 (by simp [Op.answer, first]) rfl (by simp [Op.call, Spl.min, hr])
    | max => exact triv 0 (by simp [Op.answer, first]) rfl (by simp [Op.call, Spl.max, hr])
  | node a x b =>
    have r0 : h.root ≠ 0 := by rw [H.root]; exact H.rep.1
    have search : ∀ e, ∃ h' a x b, splay cmp n nd h e = some h' ∧ Tr h' (.node a x b) xs ∧ Out h h' nd xs ∧ xs = a.ino ++ x :: b.ino ∧ h'.root = x ∧ x ≠ 0 ∧
      ((cmp e x = 0 ∧ (∀ z ∈ a.ino, cmp e z > 0) ∧ (∀ z ∈ b.ino, cmp e z < 0)) ∨
      (cmp e x < 0 ∧ (∀ z ∈ a.ino, cmp e z > 0) ∧ (∀ z ∈ x :: b.ino, cmp e z < 0)) ∨
      (cmp e x > 0 ∧ (∀ z ∈ a.ino ++ [x], cmp e z > 0) ∧ (∀ z ∈ b.ino, cmp e z < 0))) := by
      intro e
      obtain ⟨h', a', x', b', e1, H1, O1, N⟩ := splay_ok (e := e) (n := n) O H S n0 hnd (by omega)
      have hx : xs = a'.ino ++ x' :: b'.ino := H1.ino.symm
      exact ⟨h', a', x', b', e1, H1, O1, hx, H1.root, H1.rep.1, N.cases O (hx ▸ S)⟩
    cases op with
    | insert e =>
      have e0 : e ≠ 0 := ha
      obtain ⟨h', a, x, b, e1, H1, O1, hx, hr1, x0, c⟩ := search e
      obtain ⟨-, l1, l2, ra, rb⟩ := H1.rep
      rcases c with ⟨c, cA, cB⟩ | ⟨c, cA, cB⟩ | ⟨c, cA, cB⟩
      · obtain ⟨p1, p2, -⟩ := present cA cB c
        rw [← hx] at p1 p2
        refine ⟨h', ?_, ⟨?_, .node a x b, ?_⟩, fun z hz hz' _ => O1 z hz' hz⟩
        · simp only [Op.answer, p1]
          simp [Op.call, Spl.insert, r0, e1, insertAt, hr1, x0, c]
        · simp only [Op.after, p2, if_true]; exact S
        · simp only [Op.after, p2, if_true]; exact H1
      · obtain ⟨p1, p2, -, p3, p4⟩ := absent O cA cB
        rw [← hx] at p1 p2 p3 p4
        have hxe : x ≠ e := fun q => p4 (by rw [hx, q]; simp)
        have hsub : ∀ z, z ∈ a.ino ∨ z ∈ b.ino → z ≠ e ∧ z ≠ x := by
          intro z hz
          refine ⟨fun q => p4 (by rw [hx, ← q]; simp; grind), fun q => ?_⟩
          subst q
          rw [hx] at hd
          simp [List.nodup_append] at hd
          grind
        refine ⟨{ root := e, l := upd (upd h'.l e a.id) x 0, r := upd h'.r e x }, ?_, ⟨?_, .node a e (.node .nil x b), ⟨⟨e0, ?_, ?_, ra.congr ?_, x0, ?_, ?_, trivial, rb.congr ?_⟩, rfl, ?_⟩⟩, fun z hz hz' hze => ?_⟩
        · simp only [Op.answer, p1]
          simp [Op.call, Spl.insert, r0, e1, insertAt, hr1, x0, c, Heap.left, Heap.setLeft, Heap.setRight, e0, l1]
        · simp only [Op.after, p2, Bool.false_eq_true, if_false, p3]
          exact sorted_insert O (hx ▸ S) cA cB
        · simp [upd, Ne.symm hxe]
        · simp [upd]
        · intro z hz; simp [upd, hsub z (Or.inl hz)]
        · simp [upd]
        · simp [upd, hxe, l2]
        · intro z hz; simp [upd, hsub z (Or.inr hz)]
        · simp only [Op.after, p2, Bool.false_eq_true, if_false, p3]; simp
        · have h1 : z ≠ e := fun q => hze (by rw [q])
          have h2 : z ≠ x := fun q => hz (by rw [hx, q]; simp)
          simpa [upd, h1, h2] using O1 z hz' hz
      · have hx' : xs = (a.ino ++ [x]) ++ b.ino := by simp [hx]
        obtain ⟨p1, p2, -, p3, p4⟩ := absent O cA cB
        rw [← hx'] at p1 p2 p3 p4
        have hxe : x ≠ e := fun q => p4 (by rw [hx, q]; simp)
        have hsub : ∀ z, z ∈ a.ino ∨ z ∈ b.ino → z ≠ e ∧ z ≠ x := by
          intro z hz
          refine ⟨fun q => p4 (by rw [hx, ← q]; simp; grind), fun q => ?_⟩
          subst q
          rw [hx] at hd
          simp [List.nodup_append] at hd
          grind
        have c1 : ¬ cmp e x < 0 := by omega
        refine ⟨{ root := e, l := upd h'.l e x, r := upd (upd h'.r e b.id) x 0 }, ?_, ⟨?_, .node (.node a x .nil) e b, ⟨⟨e0, ?_, ?_, ⟨x0, ?_, ?_, ra.congr ?_, trivial⟩, rb.congr ?_⟩, rfl, ?_⟩⟩, fun z hz hz' hze => ?_⟩
        · simp only [Op.answer, p1]
          simp [Op.call, Spl.insert, r0, e1, insertAt, hr1, x0, c, c1, Heap.right, Heap.setLeft, Heap.setRight, e0, l2]
        · simp only [Op.after, p2, Bool.false_eq_true, if_false, p3]
          exact sorted_insert O (hx' ▸ S) cA cB
        · simp [upd]
        · simp [upd, Ne.symm hxe]
        · simp [upd, hxe, l1]
        · simp [upd]
        · intro z hz; simp [upd, hsub z (Or.inl hz)]
        · intro z hz; simp [upd, hsub z (Or.inr hz)]
        · simp only [Op.after, p2, Bool.false_eq_true, if_false, p3]; simp
        · have h1 : z ≠ e := fun q => hze (by rw [q])
          have h2 : z ≠ x := fun q => hz (by rw [hx, q]; simp)
          simpa [upd, h1, h2] using O1 z hz' hz
    | remove e =>
      obtain ⟨h', a, x, b, e1, H1, O1, hx, hr1, x0, c⟩ := search e
      obtain ⟨-, l1, l2, ra, rb⟩ := H1.rep
      rcases c with ⟨c, cA, cB⟩ | c
      · obtain ⟨-, p2, p3⟩ := present cA cB c
        rw [← hx] at p2 p3
        have SA : Sorted cmp (a.ino ++ b.ino) := p3 ▸ List.Pairwise.sublist List.filter_sublist S
        obtain ⟨-, -, Sa, -⟩ := (hx ▸ S).split
        cases a with
        | nil =>
          simp at l1
          refine ⟨{ h' with root := b.id }, ?_, ⟨?_, b, ⟨rb.congr (by intro z _; exact ⟨rfl, rfl⟩), rfl, ?_⟩⟩, fun z hz hz' _ => O1 z hz' hz⟩
          · simp only [Op.answer, p2, if_true]
            simp [Op.call, Spl.remove, r0, e1, hr1, x0, c, removeRoot, Heap.left, Heap.right, l1, l2]
          · simp only [Op.after, p3]; exact SA
          · simp only [Op.after, p3]; simp
        | node a1 y a2 =>
          have y0 : y ≠ 0 := ra.1
          have Ha : Tr { h' with root := y } (.node a1 y a2) (T.node a1 y a2).ino := ⟨ra.congr (by intro z _; exact ⟨rfl, rfl⟩), rfl, rfl⟩
          obtain ⟨h2, a', x', b', e2, H2, O2, N⟩ := splay_ok (e := e) (n := n) (nd := nd) O Ha Sa n0 (fun q => hnd (by rw [hx]; exact List.mem_append_left _ q)) (by rw [hx] at hN; simp at hN ⊢; omega)
          obtain ⟨y0', m1, m2, ra', rb'⟩ := H2.rep
          have hb : b' = .nil := by
            have hc : cmp e x' > 0 := cA x' (by rw [← H2.ino]; simp)
            rcases N with N | ⟨N, -⟩ | ⟨-, N⟩
            · omega
            · omega
            · cases b' with
              | nil => rfl
              | node l w r =>
                have q1 := N w (by simp)
                have q2 := cA w (by rw [← H2.ino]; simp)
                omega
          subst hb
          have hr2 : h2.root = x' := H2.root
          have mem2 : ∀ z ∈ a'.ino ++ [x'], z ∈ (T.node a1 y a2).ino := by intro z hz; rw [← H2.ino]; simpa using hz
          have dis : ∀ z ∈ b.ino, z ∉ (T.node a1 y a2).ino ∧ z ≠ nd := by
            intro z hz
            refine ⟨fun q => ?_, fun q => hnd (by rw [hx, ← q]; simp [hz])⟩
            have h1 := cA z q
            have h2 := cB z hz
            omega
          refine ⟨{ h2 with r := upd h2.r x' b.id }, ?_, ⟨?_, .node a' x' b, ⟨⟨y0', m1, ?_, ra'.congr ?_, rb.congr fun z hz => ?_⟩, hr2, ?_⟩⟩, fun z hz hz' _ => ?_⟩
          · simp only [Op.answer, p2, if_true]
            simp at l1
            simp [Op.call, Spl.remove, r0, e1, hr1, x0, c, removeRoot, Heap.left, Heap.right, l1, l2, y0, e2, Heap.setRight, hr2, y0']
          · simp only [Op.after, p3]; exact SA
          · simp [upd]
          · intro z hz
            have : z ≠ x' := by
              rintro rfl
              have := Sorted.nodup O Sa
              rw [← H2.ino] at this
              simp [List.nodup_append] at this
              grind
            simp [upd, this]
          · obtain ⟨d1, d2⟩ := dis z hz
            have := O2 z d2 d1
            have hzx : z ≠ x' := by rintro rfl; exact d1 (mem2 z (by simp))
            simpa [upd, hzx] using this
          · simp only [Op.after, p3]
            rw [← H2.ino]; simp
          · have q1 : z ∉ (T.node a1 y a2).ino := fun q => hz (by rw [hx]; exact List.mem_append_left _ q)
            have q2 : z ≠ x' := fun q => q1 (mem2 z (by simp [q]))
            have o1 := O1 z hz' hz
            have o2 := O2 z hz' q1
            simp only [] at o2
            simp [upd, q2, o2, o1]
      · have hne : cmp e x ≠ 0 := by rcases c with c | c <;> omega
        obtain ⟨p2, p3⟩ : (xs.any fun y => decide (cmp e y = 0)) = false ∧ xs.filter (fun y => decide (cmp e y ≠ 0)) = xs := by
          rcases c with ⟨-, cA, cB⟩ | ⟨-, cA, cB⟩
          · obtain ⟨-, p2, p3, -⟩ := absent O cA cB
            rw [← hx] at p2 p3
            exact ⟨p2, p3⟩
          · obtain ⟨-, p2, p3, -⟩ := absent O cA cB
            rw [← (by simp [hx] : xs = (a.ino ++ [x]) ++ b.ino)] at p2 p3
            exact ⟨p2, p3⟩
        refine ⟨h', ?_, ?_, fun z hz hz' _ => O1 z hz' hz⟩
        · simp only [Op.answer, p2, Bool.false_eq_true, if_false]
          simp [Op.call, Spl.remove, r0, e1, hr1, x0, hne]
        · simp only [Op.after, p3]
          exact ⟨S, _, H1⟩
    | find e =>
      obtain ⟨h', a, x, b, e1, H1, O1, hx, hr1, x0, c⟩ := search e
      refine ⟨h', ?_, ⟨S, _, H1⟩, fun z hz hz' _ => O1 z hz' hz⟩
      rcases c with ⟨c, cA, cB⟩ | ⟨c, cA, cB⟩ | ⟨c, cA, cB⟩
      · obtain ⟨p1, -⟩ := present cA cB c
        rw [← hx] at p1
        simp only [Op.answer, p1]
        simp [Op.call, Spl.find, r0, e1, hr1, x0, c]
      · obtain ⟨p1, -⟩ := absent O cA cB
        rw [← hx] at p1
        simp only [Op.answer, p1]
        have : cmp e x ≠ 0 := by omega
        simp [Op.call, Spl.find, r0, e1, hr1, x0, this]
      · obtain ⟨p1, -⟩ := absent O cA cB
        rw [← (by simp [hx] : xs = (a.ino ++ [x]) ++ b.ino)] at p1
        simp only [Op.answer, p1]
        have : cmp e x ≠ 0 := by omega
        simp [Op.call, Spl.find, r0, e1, hr1, x0, this]
    | next e =>
      have hm : e ∈ xs := ha
      obtain ⟨h', a, x, b, e1, H1, O1, hx, hr1, x0, c⟩ := search e
      refine ⟨h', ?_, ⟨S, _, H1⟩, fun z hz hz' _ => O1 z hz' hz⟩
      have hex : e = x := by
        have hre := O.refl e
        rw [hx, List.mem_append, List.mem_cons] at hm
        rcases c with ⟨c, cA, cB⟩ | ⟨c, cA, cB⟩ | ⟨c, cA, cB⟩
        · rcases hm with hm | hm | hm
          · have := cA e hm; omega
          · exact hm
          · have := cB e hm; omega
        · rcases hm with hm | hm | hm
          · have := cA e hm; omega
          · exact hm
          · have := cB e (by simp [hm]); omega
        · rcases hm with hm | hm | hm
          · have := cA e (by simp [hm]); omega
          · exact hm
          · have := cB e hm; omega
      subst hex
      obtain ⟨-, l1, l2, ra, rb⟩ := H1.rep
      have hans : Op.answer cmp xs (.next e) = b.ino.headD 0 := by
        have := Rb.next_answer O (hx ▸ S)
        rw [hx]
        exact this
      rw [hans]
      simp only [Op.call, Spl.next, e1, Heap.right, x0, if_false, Option.bind_eq_bind, Option.bind_some, l2]
      cases b with
      | nil => simp
      | node l w r =>
        have hl : (T.node l w r).ino.length ≤ n := by rw [hx] at hN; simp at hN ⊢; omega
        have := leftmost_ok (T.node l w r) l w r n rfl rb hl
        simp only [T.id_node, rb.1, if_false, this, Option.bind_some]
    | min =>
      obtain ⟨h', t, e1, H1, O1, hr⟩ := min_ok (n := n) H hd n0 hnd (by omega)
      refine ⟨h', ?_, ⟨S, _, H1⟩, fun z hz hz' _ => O1 z hz' hz⟩
      have f1 := first_drop (a := []) (b := xs) (P := fun _ => true) (by simp) (by simp)
      rw [List.nil_append] at f1
      simp only [Op.answer, f1]
      simp [Op.call, Spl.min, r0, e1, hr]
    | max =>
      obtain ⟨h', t, e1, H1, O1, hr⟩ := max_ok (n := n) H hd n0 hnd (by omega)
      refine ⟨h', ?_, ⟨S, _, H1⟩, fun z hz hz' _ => O1 z hz' hz⟩
      have f1 := first_drop (a := []) (b := xs.reverse) (P := fun _ => true) (by simp) (by simp)
      rw [List.nil_append] at f1
      simp only [Op.answer, f1]
      simp [Op.call, Spl.max, r0, e1, hr]

/-! More rounds do not change a result. -/

theorem splayLoop_mono {cmp e} : ∀ {n h p q v}, splayLoop cmp e n h p q = some v → splayLoop cmp e (n + 1) h p q = some v := by
  intro n
  induction n with
  | zero => intro h p q v H; cases H
  | succ n ih =>
    intro h p q v H
    rw [splayLoop] at H ⊢
    exact ite_mono H (fun h => h) fun H => ite_mono H (fun H => bind_mono H (fun _ h => h) fun l H => ite_mono H (fun H => ih H) fun h => h)
      fun H => ite_mono H (fun H => bind_mono H (fun _ h => h) fun l H => ite_mono H (fun H => ih H) fun h => h) fun h => h

theorem minmaxLoop_mono {neg} : ∀ {n h p q v}, minmaxLoop neg n h p q = some v → minmaxLoop neg (n + 1) h p q = some v := by
  intro n
  induction n with
  | zero => intro h p q v H; cases H
  | succ n ih =>
    intro h p q v H
    rw [minmaxLoop] at H ⊢
    exact ite_mono H (fun H => bind_mono H (fun _ h => h) fun l H => ite_mono H (fun H => ih H) fun h => h)
      fun H => bind_mono H (fun _ h => h) fun l H => ite_mono H (fun H => ih H) fun h => h

theorem splay_mono {cmp n nd h e v} (H : splay cmp n nd h e = some v) : splay cmp (n + 1) nd h e = some v :=
  bind_mono H (fun _ h => h) fun _ H => bind_mono H (fun _ h => splayLoop_mono h) fun _ h => h

theorem minmax_mono {neg n nd h v} (H : minmax neg n nd h = some v) : minmax neg (n + 1) nd h = some v :=
  bind_mono H (fun _ h => h) fun _ H => bind_mono H (fun _ h => minmaxLoop_mono h) fun _ h => h

theorem leftmost_mono {h : Heap} : ∀ {n x a}, leftmost n h x = some a → leftmost (n + 1) h x = some a := by
  intro n
  induction n with
  | zero => intro x a h; cases h
  | succ n ih =>
    intro x a H
    rw [leftmost] at H ⊢
    exact bind_mono H (fun _ h => h) fun l H => ite_mono H (fun h => h) ih

theorem call_mono1 {cmp n nd h op a} (H : Op.call cmp n nd h op = some a) : Op.call cmp (n + 1) nd h op = some a := by
  cases op <;> simp only [Op.call] at H ⊢
  case insert e => exact ite_mono H (fun h => h) fun H => bind_mono H (fun _ h => splay_mono h) fun _ h => h
  case remove e => exact ite_mono H (fun h => h) fun H => bind_mono H (fun _ h => splay_mono h) fun _ H => ite_mono H (fun h => h) fun H => ite_mono H (fun H => bind_mono H (fun _ H =>
      bind_mono H (fun _ h => h) fun _ H => bind_mono H (fun _ h => h) fun _ H => ite_mono H (fun h => h) fun H => bind_mono H (fun _ h => splay_mono h) fun _ h => h) fun _ h => h) fun h => h
  case find e => exact ite_mono H (fun h => h) fun H => bind_mono H (fun _ h => splay_mono h) fun _ h => h
  case next e => exact bind_mono H (fun _ h => splay_mono h) fun _ H => bind_mono H (fun _ h => h) fun _ H => ite_mono H (fun h => h) fun H => bind_mono H (fun _ h => leftmost_mono h) fun _ h => h
  case min =>
    refine ite_mono H (fun h => h) fun H => ?_
    rw [Option.map_eq_some_iff] at H ⊢
    obtain ⟨b, h1, h2⟩ := H
    exact ⟨b, minmax_mono h1, h2⟩
  case max =>
    refine ite_mono H (fun h => h) fun H => ?_
    rw [Option.map_eq_some_iff] at H ⊢
    obtain ⟨b, h1, h2⟩ := H
    exact ⟨b, minmax_mono h1, h2⟩

theorem call_mono {cmp n m nd h op a} (hm : n ≤ m) (H : Op.call cmp n nd h op = some a) : Op.call cmp m nd h op = some a := by
  induction hm with
  | refl => exact H
  | step _ ih => exact call_mono1 ih

theorem Reach.inv {cmp h xs} (O : Order cmp) (R : Reach cmp h xs) : Inv cmp h xs := by
  induction R with
  | init h => exact ⟨List.Pairwise.nil, .nil, trivial, rfl, rfl⟩
  | @call h h' xs op n nd a _ ha n0 hnd hc ih =>
    obtain ⟨h'', e, I, -⟩ := ih.step O ha n0 hnd (n := n + (xs.length + 1)) (by omega)
    have := call_mono (m := n + (xs.length + 1)) (by omega) hc
    rw [e] at this
    cases this
    exact I

theorem Rep.inorder {h : Heap} : ∀ {t : T}, Rep h t → Inorder h t.id t.ino := by
  intro t
  induction t with
  | nil => intro _; exact .nil
  | node l x r il ir =>
    intro H
    obtain ⟨a0, a1, a2, a3, a4⟩ := H
    exact .node a0 (a1 ▸ il a3) (a2 ▸ ir a4)

theorem forEach_ok {cmp} {n nd : Nat} (O : Order cmp) : ∀ (b a : List Nat) (h : Heap) (m : Nat), Reach cmp h (a ++ b) → nd ≠ 0 → nd ∉ a ++ b → (a ++ b).length + 1 ≤ n → b.length + 1 ≤ m →
    ∃ h', forEach cmp n nd m h (b.headD 0) = some (b, h') ∧ Reach cmp h' (a ++ b) := by
  intro b
  induction b with
  | nil =>
    intro a h m R _ _ _ hm
    obtain ⟨m, rfl⟩ := Nat.exists_eq_add_of_lt hm
    exact ⟨h, by simp [forEach], R⟩
  | cons x b ih =>
    intro a h m R n0 hnd hn hm
    obtain ⟨m, rfl⟩ := Nat.exists_eq_add_of_lt hm
    have I := R.inv O
    obtain ⟨t, Ht⟩ := I.tree
    have x0 : x ≠ 0 := Ht.rep.ne0 x (by rw [Ht.ino]; simp)
    obtain ⟨h1, e1, -⟩ := I.step O (op := .next x) (by simp [Op.allowed]) n0 hnd hn
    have R1 := R.call (op := .next x) (by simp [Op.allowed]) n0 hnd e1
    have hans : Op.answer cmp (a ++ x :: b) (.next x) = b.headD 0 := Rb.next_answer O I.sorted
    rw [hans, Op.call] at e1
    obtain ⟨h', e', R'⟩ := ih (a ++ [x]) h1 (b.length + 1 + m) (by simpa [Op.after] using R1) n0 (by simpa using hnd) (by simpa using hn) (by omega)
    refine ⟨h', ?_, by simpa using R'⟩
    simp only [List.length_cons, List.headD_cons]
    rw [show b.length + 1 + m + 1 = (b.length + 1 + m) + 1 from rfl, forEach]
    simp only [x0, if_false, e1, Option.bind_eq_bind, Option.bind_some, e']

end Verif.Spl
