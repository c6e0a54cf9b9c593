import Verif.Proof.SplayMain

/-! What one `SPLAY` makes of a tree, and in how many rounds. -/
namespace Verif.Spl
open Verif.Rb (Order Sorted)

/-- `Res c s t r k`: splaying `t` towards the place `c` points to takes `k` rounds and makes `r`; `s` is the side of a first round that only links. -/
inductive Res (c : Nat → Int) : Option Bool → T → T → Nat → Prop
  | stop {a x b} : c x = 0 → Res c none (.node a x b) (.node a x b) 1
  | stopL {x b} : c x < 0 → Res c none (.node .nil x b) (.node .nil x b) 1
  | stopR {a x} : c x > 0 → Res c none (.node a x .nil) (.node a x .nil) 1
  | zigL {x y b d} : c x < 0 → c y < 0 → Res c none (.node (.node .nil y d) x b) (.node .nil y (.node d x b)) 1
  | zigR {x y a d} : c x > 0 → c y > 0 → Res c none (.node a x (.node d y .nil)) (.node (.node a x d) y .nil) 1
  | zzL {s x y b d t A z B k} : c x < 0 → c y < 0 → Res c s t (.node A z B) k → Res c none (.node (.node t y d) x b) (.node A z (.node B y (.node d x b))) (k + 1)
  | zzR {s x y a d t A z B k} : c x > 0 → c y > 0 → Res c s t (.node A z B) k → Res c none (.node a x (.node d y t)) (.node (.node (.node a x d) y A) z B) (k + 1)
  | linkL {s x t b A z B k} : c x < 0 → ¬ c t.id < 0 → s ≠ some true → Res c s t (.node A z B) k → Res c (some true) (.node t x b) (.node A z (.node B x b)) (k + 1)
  | linkR {s x a t A z B k} : c x > 0 → ¬ c t.id > 0 → s ≠ some false → Res c s t (.node A z B) k → Res c (some false) (.node a x t) (.node (.node a x A) z B) (k + 1)

theorem Res.kind {c s t r k} (H : Res c s t r k) : (s = some true → c t.id < 0) ∧ (s = some false → c t.id > 0) := by
  cases H <;> simp_all

theorem splayLoop_res {cmp : Nat → Nat → Int} {e nd : Nat} {xs : List Nat} {h₀ : Heap} : ∀ (n : Nat) (h : Heap) (L R : Spine) (p q : Nat) (a : T) (x : Nat) (b : T),
    Z h₀ nd xs h L p (.node a x b) R q → (T.node a x b).ino.length ≤ n →
    ∃ k s A B h' L' p' a' z b' R' q', splayLoop cmp e k h p q = some (h', p', q') ∧ Z h₀ nd xs h' L' p' (.node a' z b') R' q' ∧
      Res (cmp e) s (.node a x b) (.node A z B) k ∧ fillL L' a' = fillL L A ∧ fillR R' b' = fillR R B := by
  intro n
  induction n with
  | zero => intro h L R p q a x b H hn; simp at hn
  | succ n ih =>
    intro h L R p q a x b H hn
    have x0 := H.rep.1
    have hroot : h.root = x := H.root
    by_cases c1 : cmp e x < 0
    · cases a with
      | nil =>
        refine ⟨1, _, .nil, b, h, L, p, .nil, x, b, R, q, ?_, H, .stopL c1, rfl, rfl⟩
        have : h.l x = 0 := H.rep.2.1
        simp [splayLoop, roundLeft, Heap.left, hroot, x0, this, c1]
      | node a1 y a2 =>
        have e1 : h.l x = y := H.rep.2.1
        have y0 : y ≠ 0 := H.rep.2.2.2.1.1
        by_cases c2 : cmp e y < 0
        · obtain ⟨h1, r1, H1⟩ := H.rotR
          have root1 : h1.root = y := H1.root
          have l1 : h1.l y = a1.id := H1.rep.2.1
          cases a1 with
          | nil =>
            refine ⟨1, _, .nil, .node a2 x b, h1, L, p, .nil, y, .node a2 x b, R, q, ?_, H1, .zigL c1 c2, rfl, rfl⟩
            simp at l1
            simp [splayLoop, c1, roundLeft, Heap.left, hroot, x0, e1, y0, c2, r1, root1, l1]
          | node a3 w a4 =>
            obtain ⟨h2, r2, H2⟩ := H1.linkL
            have w0 : w ≠ 0 := H1.rep.2.2.2.1.1
            obtain ⟨k, s, A, B, h', L', p', a', z, b', R', q', e', H', r', f1, f2⟩ := ih h2 L _ p y a3 w a4 H2 (by simp at hn ⊢; omega)
            refine ⟨k + 1, _, _, _, h', L', p', a', z, b', R', q', ?_, H', .zzL c1 c2 r', f1, f2⟩
            simp at l1
            simp [splayLoop, c1, roundLeft, Heap.left, hroot, x0, e1, y0, c2, r1, root1, l1, w0, r2, e']
        · obtain ⟨h2, r2, H2⟩ := H.linkL
          obtain ⟨k, s, A, B, h', L', p', a', z, b', R', q', e', H', r', f1, f2⟩ := ih h2 L _ p x a1 y a2 H2 (by simp at hn ⊢; omega)
          refine ⟨k + 1, _, _, _, h', L', p', a', z, b', R', q', ?_, H', .linkL c1 c2 (fun q => c2 (r'.kind.1 q)) r', f1, f2⟩
          simp [splayLoop, c1, roundLeft, Heap.left, hroot, x0, e1, y0, c2, r2, e']
    · by_cases c3 : cmp e x > 0
      · cases b with
        | nil =>
          refine ⟨1, _, a, .nil, h, L, p, a, x, .nil, R, q, ?_, H, .stopR c3, rfl, rfl⟩
          have : h.r x = 0 := H.rep.2.2.1
          simp [splayLoop, c1, c3, roundRight, Heap.right, hroot, x0, this]
        | node b1 y b2 =>
          have e1 : h.r x = y := H.rep.2.2.1
          have y0 : y ≠ 0 := H.rep.2.2.2.2.1
          by_cases c2 : cmp e y > 0
          · obtain ⟨h1, r1, H1⟩ := H.rotL
            have root1 : h1.root = y := H1.root
            have l1 : h1.r y = b2.id := H1.rep.2.2.1
            cases b2 with
            | nil =>
              refine ⟨1, _, .node a x b1, .nil, h1, L, p, .node a x b1, y, .nil, R, q, ?_, H1, .zigR c3 c2, rfl, rfl⟩
              simp at l1
              simp [splayLoop, c1, c3, roundRight, Heap.right, hroot, x0, e1, y0, c2, r1, root1, l1]
            | node b3 w b4 =>
              obtain ⟨h2, r2, H2⟩ := H1.linkR
              have w0 : w ≠ 0 := H1.rep.2.2.2.2.1
              obtain ⟨k, s, A, B, h', L', p', a', z, b', R', q', e', H', r', f1, f2⟩ := ih h2 _ R y q b3 w b4 H2 (by simp at hn ⊢; omega)
              refine ⟨k + 1, _, _, _, h', L', p', a', z, b', R', q', ?_, H', .zzR c3 c2 r', f1, f2⟩
              simp at l1
              simp [splayLoop, c1, c3, roundRight, Heap.right, hroot, x0, e1, y0, c2, r1, root1, l1, w0, r2, e']
          · obtain ⟨h2, r2, H2⟩ := H.linkR
            obtain ⟨k, s, A, B, h', L', p', a', z, b', R', q', e', H', r', f1, f2⟩ := ih h2 _ R x q b1 y b2 H2 (by simp at hn ⊢; omega)
            refine ⟨k + 1, _, _, _, h', L', p', a', z, b', R', q', ?_, H', .linkR c3 c2 (fun q => c2 (r'.kind.2 q)) r', f1, f2⟩
            simp [splayLoop, c1, c3, roundRight, Heap.right, hroot, x0, e1, y0, c2, r2, e']
      · exact ⟨1, _, _, _, h, L, p, a, x, b, R, q, by simp [splayLoop, c1, c3, hroot, x0], H, .stop (by omega), rfl, rfl⟩

theorem splay_res {cmp : Nat → Nat → Int} {e nd : Nat} {xs : List Nat} {h : Heap} {t : T} (H : Tr h t xs) (ht : t ≠ .nil) (hd : xs.Nodup) (n0 : nd ≠ 0) (hn : nd ∉ xs) :
    ∃ k s A z B h', splay cmp k nd h e = some h' ∧ Res (cmp e) s t (.node A z B) k ∧ Tr h' (.node A z B) xs ∧ Out h h' nd xs := by
  cases t with
  | nil => exact absurd rfl ht
  | node a x b =>
    obtain ⟨h1, e1, H1⟩ := H.clear hd n0 hn
    obtain ⟨k, s, A, B, h2, L, p, a', z, b', R, q, e2, H2, r, f1, f2⟩ := splayLoop_res (cmp := cmp) (e := e) _ h1 [] [] nd nd a x b H1 (Nat.le_refl _)
    obtain ⟨h3, e3, H3⟩ := H2.assemble
    rw [f1, f2] at H3
    obtain ⟨T3, O3⟩ := H3.tr
    exact ⟨k, s, A, z, B, h3, by simp [splay, e1, e2, e3], r, T3, O3⟩

theorem minmaxLoop_eq (neg : Bool) (e : Nat) : ∀ n h p q, minmaxLoop neg n h p q = splayLoop (fun _ _ => if neg then -1 else 1) e n h p q := by
  intro n
  induction n with
  | zero => intros; rfl
  | succ n ih =>
    intro h p q
    by_cases r0 : h.root = 0
    · cases neg <;> simp [minmaxLoop, splayLoop, roundLeft, roundRight, Heap.left, Heap.right, r0]
    · cases neg <;> simp [minmaxLoop, splayLoop, r0, ih]

theorem minmax_eq (neg : Bool) (e n nd : Nat) (h : Heap) : minmax neg n nd h = splay (fun _ _ => if neg then -1 else 1) n nd h e := by
  simp only [minmax, splay]
  cases Spl.clear h nd with
  | none => rfl
  | some h1 => simp only [Option.bind_eq_bind, Option.bind_some, minmaxLoop_eq neg e]

end Verif.Spl
