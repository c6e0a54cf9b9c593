import Verif.Model.RbTree

/-! Heaps that hold a tree: a shape with a position in it, and what the assignments of the header do to it. -/
namespace Verif.Rb

inductive T
  | nil
  | node (l : T) (x : Nat) (c : Bool) (r : T)

def T.id : T → Nat
  | .nil => 0
  | .node _ x _ _ => x

@[simp] theorem T.id_nil : T.nil.id = 0 := rfl
@[simp] theorem T.id_node (l x c r) : (T.node l x c r).id = x := rfl

def T.ino : T → List Nat
  | .nil => []
  | .node l x _ r => l.ino ++ x :: r.ino

/-- One step up: `left` says that the position is in the left subtree of `x`, `s` is the other subtree. -/
structure Frame where
  left : Bool
  x : Nat
  c : Bool
  s : T

abbrev Ctx := List Frame

def par : Ctx → Nat
  | [] => 0
  | f :: _ => f.x

theorem par_cons (f : Frame) (k : Ctx) : par (f :: k) = f.x := rfl

def fill (f : Frame) (t : T) : T := if f.left then .node t f.x f.c f.s else .node f.s f.x f.c t

def plug : Ctx → T → T
  | [], t => t
  | f :: k, t => plug k (fill f t)

def pre : Ctx → List Nat
  | [] => []
  | f :: k => if f.left then pre k else pre k ++ (f.s.ino ++ [f.x])

def post : Ctx → List Nat
  | [] => []
  | f :: k => if f.left then f.x :: (f.s.ino ++ post k) else post k

def Rep (h : Heap) : T → Nat → Prop
  | .nil, _ => True
  | .node l x c r, p => x ≠ 0 ∧ h.l x = l.id ∧ h.r x = r.id ∧ h.p x = p ∧ h.red x = c ∧ Rep h l x ∧ Rep h r x

def RepC (h : Heap) : Ctx → Nat → Prop
  | [], a => h.root = a
  | f :: k, a => f.x ≠ 0 ∧ h.red f.x = f.c ∧ h.p f.x = par k ∧ h.l f.x = (if f.left then a else f.s.id) ∧
      h.r f.x = (if f.left then f.s.id else a) ∧ Rep h f.s f.x ∧ RepC h k f.x

def Agree (h h' : Heap) (z : Nat) : Prop := h'.l z = h.l z ∧ h'.r z = h.r z ∧ h'.p z = h.p z ∧ h'.red z = h.red z

structure Z (h₀ : Heap) (F : List Nat) (xs : List Nat) (h : Heap) (k : Ctx) (t : T) : Prop where
  rep : Rep h t (par k)
  ctx : RepC h k t.id
  ino : pre k ++ (t.ino ++ post k) = xs
  nodup : xs.Nodup
  sub : ∀ z ∈ xs, z ∈ F
  frame : ∀ z, z ∉ F → Agree h₀ h z

theorem id_mem {t : T} (h : t.id ≠ 0) : t.id ∈ t.ino := by
  cases t with
  | nil => simp [T.id] at h
  | node => simp [T.id, T.ino]

theorem Rep.ne0 {h : Heap} {t : T} {p : Nat} (H : Rep h t p) : ∀ z ∈ t.ino, z ≠ 0 := by
  induction t generalizing p with
  | nil => simp [T.ino]
  | node l x c r hl hr =>
    obtain ⟨h0, _, _, _, _, h1, h2⟩ := H
    intro z hz
    simp only [T.ino, List.mem_append, List.mem_cons] at hz
    rcases hz with hz | rfl | hz
    · exact hl h1 z hz
    · exact h0
    · exact hr h2 z hz

theorem RepC.ne0 {h : Heap} {k : Ctx} {a : Nat} (H : RepC h k a) : ∀ z ∈ pre k ++ post k, z ≠ 0 := by
  induction k generalizing a with
  | nil => simp [pre, post]
  | cons f k ih =>
    obtain ⟨h0, _, _, _, _, h1, h2⟩ := H
    intro z hz
    have h3 := ih h2 z
    have h4 := Rep.ne0 h1 z
    simp only [pre, post] at hz
    split at hz <;> grind

theorem Rep.agree {h h' : Heap} {t : T} {p : Nat} (H : Rep h t p) (A : ∀ z ∈ t.ino, Agree h h' z) : Rep h' t p := by
  induction t generalizing p with
  | nil => trivial
  | node l x c r hl hr =>
    obtain ⟨h0, h1, h2, h3, h4, h5, h6⟩ := H
    obtain ⟨a1, a2, a3, a4⟩ := A x (by simp [T.ino])
    exact ⟨h0, by rw [a1, h1], by rw [a2, h2], by rw [a3, h3], by rw [a4, h4],
      hl h5 fun z hz => A z (by simp [T.ino, hz]), hr h6 fun z hz => A z (by simp [T.ino, hz])⟩

/-- The root may get another parent. -/
theorem Rep.reparent {h h' : Heap} {t : T} {p q : Nat} (H : Rep h t p) (N : t.ino.Nodup) (A : ∀ z ∈ t.ino, z ≠ t.id → Agree h h' z)
    (B : t.id ≠ 0 → h'.l t.id = h.l t.id ∧ h'.r t.id = h.r t.id ∧ h'.red t.id = h.red t.id ∧ h'.p t.id = q) : Rep h' t q := by
  cases t with
  | nil => trivial
  | node l x c r =>
    obtain ⟨h0, h1, h2, h3, h4, h5, h6⟩ := H
    obtain ⟨a1, a2, a3, a4⟩ := B h0
    simp only [T.ino, T.id_node] at N A a1 a2 a3 a4
    refine ⟨h0, by rw [a1, h1], by rw [a2, h2], a4, by rw [a3, h4], h5.agree fun z hz => A z ?_ ?_, h6.agree fun z hz => A z ?_ ?_⟩ <;> grind

theorem RepC.agree {h h' : Heap} {k : Ctx} {a : Nat} (H : RepC h k a) (R : h'.root = h.root) (A : ∀ z ∈ pre k ++ post k, Agree h h' z) :
    RepC h' k a := by
  induction k generalizing a with
  | nil => exact R.trans H
  | cons f k ih =>
    obtain ⟨h0, h1, h2, h3, h4, h5, h6⟩ := H
    have hx : f.x ∈ pre (f :: k) ++ post (f :: k) := by simp only [pre, post]; split <;> simp
    obtain ⟨a1, a2, a3, a4⟩ := A f.x hx
    refine ⟨h0, by rw [a4, h1], by rw [a3, h2], by rw [a1, h3], by rw [a2, h4], h5.agree fun z hz => A z ?_, ih h6 fun z hz => A z ?_⟩
    · simp only [pre, post]; split <;> simp [hz]
    · simp only [pre, post]; split <;> (simp at hz ⊢; grind)

theorem par_mem {k : Ctx} (h : k ≠ []) : par k ∈ pre k ++ post k := by
  cases k with
  | nil => exact absurd rfl h
  | cons f k => simp only [pre, post, par]; split <;> simp

/-- Moving the position up or down by one. -/
theorem Z.up {h₀ F xs h f k t} (H : Z h₀ F xs h (f :: k) t) : Z h₀ F xs h k (fill f t) := by
  obtain ⟨h1, ⟨c0, c1, c2, c3, c4, c5, c6⟩, h3, h4, hs, h5⟩ := H
  cases hf : f.left
  · simp only [hf, pre, post, fill, Bool.false_eq_true, if_false] at *
    exact ⟨⟨c0, c3, c4, c2, c1, c5, h1⟩, c6, by rw [← h3]; simp [T.ino], h4, hs, h5⟩
  · simp only [hf, pre, post, fill, if_true] at *
    exact ⟨⟨c0, c3, c4, c2, c1, h1, c5⟩, c6, by rw [← h3]; simp [T.ino], h4, hs, h5⟩

theorem Z.down {h₀ F xs h f k t} (H : Z h₀ F xs h k (fill f t)) : Z h₀ F xs h (f :: k) t := by
  obtain ⟨h1, h2, h3, h4, hs, h5⟩ := H
  cases hf : f.left
  · simp only [hf, fill, Bool.false_eq_true, if_false, T.ino, T.id_node] at h1 h2 h3
    obtain ⟨a0, a1, a2, a3, a4, a5, a6⟩ := h1
    exact ⟨a6, ⟨a0, a4, a3, by simp [hf, a1], by simp [hf, a2], a5, h2⟩, by rw [← h3]; simp [pre, post, hf], h4, hs, h5⟩
  · simp only [hf, fill, if_true, T.ino, T.id_node] at h1 h2 h3
    obtain ⟨a0, a1, a2, a3, a4, a5, a6⟩ := h1
    exact ⟨a5, ⟨a0, a4, a3, by simp [hf, a1], by simp [hf, a2], a6, h2⟩, by rw [← h3]; simp [pre, post, hf], h4, hs, h5⟩

theorem Z.downL {h₀ F xs h k l x c r} (H : Z h₀ F xs h k (.node l x c r)) : Z h₀ F xs h (⟨true, x, c, r⟩ :: k) l := Z.down (by simpa [fill] using H)
theorem Z.downR {h₀ F xs h k l x c r} (H : Z h₀ F xs h k (.node l x c r)) : Z h₀ F xs h (⟨false, x, c, l⟩ :: k) r := Z.down (by simpa [fill] using H)
theorem Z.upL {h₀ F xs h k l x c r} (H : Z h₀ F xs h (⟨true, x, c, r⟩ :: k) l) : Z h₀ F xs h k (.node l x c r) := by simpa [fill] using H.up
theorem Z.upR {h₀ F xs h k l x c r} (H : Z h₀ F xs h (⟨false, x, c, l⟩ :: k) r) : Z h₀ F xs h k (.node l x c r) := by simpa [fill] using H.up

theorem Z.plug {h₀ F xs h k t} (H : Z h₀ F xs h k t) : Z h₀ F xs h [] (plug k t) := by
  induction k generalizing t with
  | nil => exact H
  | cons f k ih => exact ih H.up

/-- Writing the link that leads to the position. -/
theorem RepC.link {h : Heap} {k : Ctx} {a b : Nat} (H : RepC h k a) (ha : a ≠ 0) (hn : a ∉ pre k ++ post k) (hd : (pre k ++ post k).Nodup) :
    ∃ h', link h (par k) a b = some h' ∧ RepC h' k b ∧ h'.p = h.p ∧ h'.red = h.red ∧ (k ≠ [] → h'.root = h.root) ∧
      ∀ z, z ∉ pre k ++ post k → Agree h h' z := by
  cases k with
  | nil => exact ⟨_, rfl, rfl, rfl, rfl, by simp, fun z _ => ⟨rfl, rfl, rfl, rfl⟩⟩
  | cons f k =>
    obtain ⟨h0, h1, h2, h3, h4, h5, h6⟩ := H
    have hs : f.s.id ≠ a := by
      intro e
      have := id_mem (e ▸ ha : f.s.id ≠ 0)
      apply hn
      simp only [pre, post]; split <;> simp [← e, this]
    cases hf : f.left
    · simp only [hf, Bool.false_eq_true, if_false, pre, post] at h3 h4 hn hd ⊢
      have hl : h.l f.x ≠ a := by rw [h3]; exact hs
      refine ⟨{ h with r := upd h.r f.x b }, by simp [Rb.link, par, h0, Heap.left, Heap.setRight, hl], ?_, rfl, rfl, fun _ => rfl, ?_⟩
      · refine ⟨h0, h1, h2, by simp [hf, h3], by simp [hf, upd], h5.agree fun z hz => ?_, h6.agree rfl fun z hz => ?_⟩
        all_goals
          have : z ≠ f.x := by grind
          simp [Agree, upd, this]
      · intro z hz
        have : z ≠ f.x := by grind
        simp [Agree, upd, this]
    · simp only [hf, if_true, pre, post] at h3 h4 hn hd ⊢
      refine ⟨{ h with l := upd h.l f.x b }, by simp [Rb.link, par, h0, Heap.left, Heap.setLeft, h3], ?_, rfl, rfl, fun _ => rfl, ?_⟩
      · refine ⟨h0, h1, h2, by simp [hf, upd], by simp [hf, h4], h5.agree fun z hz => ?_, h6.agree rfl fun z hz => ?_⟩
        all_goals
          have : z ≠ f.x := by grind
          simp [Agree, upd, this]
      · intro z hz
        have : z ≠ f.x := by grind
        simp [Agree, upd, this]

/-! Colours -/

theorem Z.color {h₀ F xs h k l x c r} (H : Z h₀ F xs h k (.node l x c r)) (c' : Bool) :
    ∃ h', h.setColor x c' = some h' ∧ Z h₀ F xs h' k (.node l x c' r) := by
  obtain ⟨⟨a0, a1, a2, a3, a4, a5, a6⟩, h2, h3, h4, hs, h5⟩ := H
  refine ⟨_, by simp [Heap.setColor, a0]; rfl, ?_⟩
  have hA : ∀ z, z ≠ x → Agree h { h with red := upd h.red x c' } z := fun z hz => by simp [Agree, upd, hz]
  simp only [T.ino, T.id_node] at h2 h3
  refine ⟨⟨a0, a1, a2, a3, by simp [upd], a5.agree fun z hz => hA z ?_, a6.agree fun z hz => hA z ?_⟩,
    h2.agree rfl fun z hz => hA z ?_, h3, h4, hs, fun z hz => ?_⟩
  · grind
  · grind
  · grind
  · have := h5 z hz
    have hx : z ≠ x := by grind
    simpa [Agree, upd, hx] using this

theorem Z.ne0 {h₀ F xs h k l x c r} (H : Z h₀ F xs h k (.node l x c r)) : x ≠ 0 := H.rep.1

theorem setParentIf_eq (h : Heap) (x v : Nat) : h.setParentIf x v = some { h with p := fun z => if z = x ∧ x ≠ 0 then v else h.p z } := by
  unfold Heap.setParentIf Heap.setParent
  split
  · simp [*]
  · congr 2; funext z; simp [upd, *]

/-! Rotations -/

set_option maxHeartbeats 1600000 in
/-- What a heap has to satisfy to hold the tree rotated to the left. -/
theorem Z.rotated {h₀ F xs h h' k A x c B y d C} (H : Z h₀ F xs h k (.node A x c (.node B y d C))) (K : RepC h' k y)
    (ly : h'.l y = x) (py : h'.p y = par k) (rx : h'.r x = B.id) (px : h'.p x = y) (ry : h'.r y = h.r y) (lx : h'.l x = h.l x)
    (cc : h'.red = h.red) (pB : B.id ≠ 0 → h'.p B.id = x)
    (lr : ∀ z, z ≠ x → z ≠ y → z ∉ pre k ++ post k → h'.l z = h.l z ∧ h'.r z = h.r z)
    (pp : ∀ z, z ≠ x → z ≠ y → (z = B.id → z = 0) → h'.p z = h.p z) :
    Z h₀ F xs h' k (.node (.node A x c B) y d C) := by
  obtain ⟨⟨a0, a1, a2, a3, a4, a5, b0, b1, b2, b3, b4, b5, b6⟩, h2, h3, h4, hs, h5⟩ := H
  simp only [T.id_node, T.ino] at a1 a2 h2 h3 b1
  have hmB := @id_mem B
  subst h3
  have N : (x :: y :: (A.ino ++ (B.ino ++ (C.ino ++ (pre k ++ post k))))).Nodup := by
    refine (List.Perm.nodup_iff ?_).1 h4
    grind
  have hB : ∀ z, z ∉ B.ino → z = B.id → z = 0 := by grind
  refine ⟨⟨b0, ly, ry.trans b2, py, by rw [cc]; exact b4, ⟨a0, lx.trans a1, rx, px, by rw [cc]; exact a4, a5.agree fun z hz => ?_, ?_⟩,
    b6.agree fun z hz => ?_⟩, K, by simp [T.ino], h4, hs, fun z hz => ?_⟩
  · obtain ⟨q1, q2⟩ := lr z (by grind) (by grind) (by grind)
    exact ⟨q1, q2, pp z (by grind) (by grind) (hB z (by grind)), by rw [cc]⟩
  · refine b5.reparent (by grind) (fun z hz hz' => ?_) fun hB' => ?_
    · obtain ⟨q1, q2⟩ := lr z (by grind) (by grind) (by grind)
      exact ⟨q1, q2, pp z (by grind) (by grind) (fun e => absurd e hz'), by rw [cc]⟩
    · have := hmB hB'
      obtain ⟨q1, q2⟩ := lr B.id (by grind) (by grind) (by grind)
      exact ⟨q1, q2, by rw [cc], pB hB'⟩
  · obtain ⟨q1, q2⟩ := lr z (by grind) (by grind) (by grind)
    exact ⟨q1, q2, pp z (by grind) (by grind) (hB z (by grind)), by rw [cc]⟩
  · have : z ∉ pre k ++ (A.ino ++ x :: (B.ino ++ y :: C.ino) ++ post k) := fun q => hz (hs z q)
    obtain ⟨q1, q2⟩ := lr z (by grind) (by grind) (by grind)
    obtain ⟨p1, p2, p3, p4⟩ := h5 z hz
    exact ⟨q1.trans p1, q2.trans p2, (pp z (by grind) (by grind) (hB z (by grind))).trans p3, by rw [cc]; exact p4⟩

set_option maxHeartbeats 1600000 in
theorem Z.rotateLeft {h₀ F xs h k A x c B y d C} (H : Z h₀ F xs h k (.node A x c (.node B y d C))) :
    ∃ h', rotateLeft h x = some (h', y) ∧ Z h₀ F xs h' k (.node (.node A x c B) y d C) := by
  have H' := H
  obtain ⟨⟨a0, a1, a2, a3, a4, a5, b0, b1, b2, b3, b4, b5, b6⟩, h2, h3, h4, hs, h5⟩ := H
  simp only [T.id_node, T.ino] at a1 a2 h2 h3 b1
  have hmB := @id_mem B
  subst h3
  have N : (x :: y :: (A.ino ++ (B.ino ++ (C.ino ++ (pre k ++ post k))))).Nodup := by
    refine (List.Perm.nodup_iff ?_).1 h4
    grind
  have hxB : ¬(x = B.id ∧ B.id ≠ 0) := by grind
  have hyB : ¬(y = B.id ∧ B.id ≠ 0) := by grind
  have hxy : x ≠ y := by grind
  let h1 : Heap := { h with r := upd h.r x B.id, p := upd (fun z => if z = B.id ∧ B.id ≠ 0 then x else h.p z) y (par k) }
  have hk1 : RepC h1 k x := h2.agree rfl fun z hz => by
    have q1 : z ≠ x := by grind
    have q2 : z ≠ y := by grind
    have q3 : ¬(z = B.id ∧ B.id ≠ 0) := by grind
    simp only [Agree, h1, upd]
    simp only [q1, q2, q3, if_false, and_self]
  obtain ⟨h2', e2, hk2, p2, c2, r2, g2⟩ := hk1.link (b := y) a0 (by grind) (by grind)
  refine ⟨{ h2' with l := upd h2'.l y x, p := upd h2'.p x y }, ?_, ?_⟩
  · simp only [Rb.rotateLeft, Heap.right, Heap.left, a0, a2, b0, b1, if_false, Option.bind_eq_bind, Option.bind_some, Heap.setRight, setParentIf_eq,
      Heap.parent, Heap.setParent, hxB, a3]
    rw [e2]
    simp [Heap.setLeft, b0]
  · have gx := g2 x (by grind)
    have gy := g2 y (by grind)
    refine H'.rotated (hk2.agree rfl ?_) ?_ ?_ ?_ ?_ ?_ ?_ ?_ ?_ ?_ ?_
    · intro z hz
      have q1 : z ≠ x := by grind
      have q2 : z ≠ y := by grind
      simp [Agree, upd, q1, q2]
    · simp [upd]
    · simp [upd, Ne.symm hxy, p2, h1]
    · simp [gx.2.1, h1, upd]
    · simp [upd]
    · simp [gy.2.1, h1, upd, Ne.symm hxy]
    · simp [upd, hxy, gx.1, h1]
    · exact c2
    · intro hB
      have q1 : B.id ≠ x := by grind
      have q2 : B.id ≠ y := by grind
      simp [upd, p2, q1, q2, h1, hB]
    · intro z q1 q2 q3
      obtain ⟨g1, g2, -⟩ := g2 z q3
      simp [upd, q2, g1, g2, h1, q1]
    · intro z q1 q2 q3
      simp only [upd, q1, p2, h1, q2, if_false]
      rw [if_neg]
      grind

set_option maxHeartbeats 1600000 in
/-- The same to the right. -/
theorem Z.rotatedR {h₀ F xs h h' k A x c B y d C} (H : Z h₀ F xs h k (.node (.node C y d B) x c A)) (K : RepC h' k y)
    (ly : h'.r y = x) (py : h'.p y = par k) (rx : h'.l x = B.id) (px : h'.p x = y) (ry : h'.l y = h.l y) (lx : h'.r x = h.r x)
    (cc : h'.red = h.red) (pB : B.id ≠ 0 → h'.p B.id = x)
    (lr : ∀ z, z ≠ x → z ≠ y → z ∉ pre k ++ post k → h'.l z = h.l z ∧ h'.r z = h.r z)
    (pp : ∀ z, z ≠ x → z ≠ y → (z = B.id → z = 0) → h'.p z = h.p z) :
    Z h₀ F xs h' k (.node C y d (.node B x c A)) := by
  obtain ⟨⟨a0, a1, a2, a3, a4, ⟨b0, b1, b2, b3, b4, b5, b6⟩, a5⟩, h2, h3, h4, hs, h5⟩ := H
  simp only [T.id_node, T.ino] at a1 a2 h2 h3 b1
  have hmB := @id_mem B
  subst h3
  have N : (x :: y :: (A.ino ++ (B.ino ++ (C.ino ++ (pre k ++ post k))))).Nodup := by
    refine (List.Perm.nodup_iff ?_).1 h4
    grind
  have hB : ∀ z, z ∉ B.ino → z = B.id → z = 0 := by grind
  refine ⟨⟨b0, ry.trans b1, ly, py, by rw [cc]; exact b4, b5.agree fun z hz => ?_, ⟨a0, rx, lx.trans a2, px, by rw [cc]; exact a4, ?_,
    a5.agree fun z hz => ?_⟩⟩, K, by simp [T.ino], h4, hs, fun z hz => ?_⟩
  · obtain ⟨q1, q2⟩ := lr z (by grind) (by grind) (by grind)
    exact ⟨q1, q2, pp z (by grind) (by grind) (hB z (by grind)), by rw [cc]⟩
  · refine b6.reparent (by grind) (fun z hz hz' => ?_) fun hB' => ?_
    · obtain ⟨q1, q2⟩ := lr z (by grind) (by grind) (by grind)
      exact ⟨q1, q2, pp z (by grind) (by grind) (fun e => absurd e hz'), by rw [cc]⟩
    · have := hmB hB'
      obtain ⟨q1, q2⟩ := lr B.id (by grind) (by grind) (by grind)
      exact ⟨q1, q2, by rw [cc], pB hB'⟩
  · obtain ⟨q1, q2⟩ := lr z (by grind) (by grind) (by grind)
    exact ⟨q1, q2, pp z (by grind) (by grind) (hB z (by grind)), by rw [cc]⟩
  · have : z ∉ pre k ++ (C.ino ++ y :: B.ino ++ x :: A.ino ++ post k) := fun q => hz (hs z q)
    obtain ⟨q1, q2⟩ := lr z (by grind) (by grind) (by grind)
    obtain ⟨p1, p2, p3, p4⟩ := h5 z hz
    exact ⟨q1.trans p1, q2.trans p2, (pp z (by grind) (by grind) (hB z (by grind))).trans p3, by rw [cc]; exact p4⟩

set_option maxHeartbeats 1600000 in
theorem Z.rotateRight {h₀ F xs h k A x c B y d C} (H : Z h₀ F xs h k (.node (.node C y d B) x c A)) :
    ∃ h', rotateRight h x = some (h', y) ∧ Z h₀ F xs h' k (.node C y d (.node B x c A)) := by
  have H' := H
  obtain ⟨⟨a0, a1, a2, a3, a4, ⟨b0, b1, b2, b3, b4, b5, b6⟩, a5⟩, h2, h3, h4, hs, h5⟩ := H
  simp only [T.id_node, T.ino] at a1 a2 h2 h3 b1
  have hmB := @id_mem B
  subst h3
  have N : (x :: y :: (A.ino ++ (B.ino ++ (C.ino ++ (pre k ++ post k))))).Nodup := by
    refine (List.Perm.nodup_iff ?_).1 h4
    grind
  have hxB : ¬(x = B.id ∧ B.id ≠ 0) := by grind
  have hyB : ¬(y = B.id ∧ B.id ≠ 0) := by grind
  have hxy : x ≠ y := by grind
  let h1 : Heap := { h with l := upd h.l x B.id, p := upd (fun z => if z = B.id ∧ B.id ≠ 0 then x else h.p z) y (par k) }
  have hk1 : RepC h1 k x := h2.agree rfl fun z hz => by
    have q1 : z ≠ x := by grind
    have q2 : z ≠ y := by grind
    have q3 : ¬(z = B.id ∧ B.id ≠ 0) := by grind
    simp only [Agree, h1, upd]
    simp only [q1, q2, q3, if_false, and_self]
  obtain ⟨h2', e2, hk2, p2, c2, r2, g2⟩ := hk1.link (b := y) a0 (by grind) (by grind)
  refine ⟨{ h2' with r := upd h2'.r y x, p := upd h2'.p x y }, ?_, ?_⟩
  · simp only [Rb.rotateRight, Heap.right, Heap.left, a0, a1, b0, b2, if_false, Option.bind_eq_bind, Option.bind_some, Heap.setLeft, setParentIf_eq,
      Heap.parent, Heap.setParent, hxB, a3]
    rw [e2]
    simp [Heap.setRight, b0]
  · have gx := g2 x (by grind)
    have gy := g2 y (by grind)
    refine H'.rotatedR (hk2.agree rfl ?_) ?_ ?_ ?_ ?_ ?_ ?_ ?_ ?_ ?_ ?_
    · intro z hz
      have q1 : z ≠ x := by grind
      have q2 : z ≠ y := by grind
      simp [Agree, upd, q1, q2]
    · simp [upd]
    · simp [upd, Ne.symm hxy, p2, h1]
    · simp [gx.1, h1, upd]
    · simp [upd]
    · simp [gy.1, h1, upd, Ne.symm hxy]
    · simp [upd, hxy, gx.2.1, h1]
    · exact c2
    · intro hB
      have q1 : B.id ≠ x := by grind
      have q2 : B.id ≠ y := by grind
      simp [upd, p2, q1, q2, h1, hB]
    · intro z q1 q2 q3
      obtain ⟨g1, g2, -⟩ := g2 z q3
      simp [upd, q2, g1, g2, h1, q1]
    · intro z q1 q2 q3
      simp only [upd, q1, p2, h1, q2, if_false]
      rw [if_neg]
      grind

/-! Longer moves -/

theorem plug_append (k₁ k₂ : Ctx) (t : T) : Rb.plug (k₁ ++ k₂) t = Rb.plug k₂ (Rb.plug k₁ t) := by
  induction k₁ generalizing t with
  | nil => rfl
  | cons f k ih => exact ih _

theorem Z.unplug {h₀ F xs h k₁ k t} (H : Z h₀ F xs h k (Rb.plug k₁ t)) : Z h₀ F xs h (k₁ ++ k) t := by
  induction k₁ generalizing t with
  | nil => exact H
  | cons f k₁ ih => exact (ih H).down

theorem Z.replug {h₀ F xs h k₁ k t} (H : Z h₀ F xs h (k₁ ++ k) t) : Z h₀ F xs h k (Rb.plug k₁ t) := by
  induction k₁ generalizing t with
  | nil => exact H
  | cons f k₁ ih => exact ih H.up

/-! Taking an element out -/

set_option maxHeartbeats 1600000 in
/-- An element with at most one child is replaced by that child. -/
theorem Z.splice {h₀ F xs h k L x c R B} (H : Z h₀ F xs h k (.node L x c R)) (hB : (L = .nil ∧ R = B) ∨ (R = .nil ∧ L = B)) :
    ∃ h', relink h x (par k) B.id = some h' ∧ Z h₀ F (xs.erase x) h' k B ∧ Agree h h' x := by
  obtain ⟨⟨a0, a1, a2, a3, a4, a5, a6⟩, h2, h3, h4, hs, h5⟩ := H
  simp only [T.id_node, T.ino] at a1 a2 h2 h3
  subst h3
  have hmB := @id_mem B
  have N : (x :: (B.ino ++ (pre k ++ post k))).Nodup := by
    rcases hB with ⟨rfl, rfl⟩ | ⟨rfl, rfl⟩ <;>
    · refine (List.Perm.nodup_iff ?_).1 h4
      simp only [T.ino]
      grind
  have rB : Rep h B x := by rcases hB with ⟨rfl, rfl⟩ | ⟨rfl, rfl⟩ <;> assumption
  have iB : L.ino ++ x :: R.ino = x :: B.ino ∨ L.ino ++ x :: R.ino = B.ino ++ [x] := by
    rcases hB with ⟨rfl, rfl⟩ | ⟨rfl, rfl⟩ <;> simp [T.ino]
  let h1 : Heap := { h with p := fun z => if z = B.id ∧ B.id ≠ 0 then par k else h.p z }
  have hk1 : RepC h1 k x := h2.agree rfl fun z hz => by
    have q3 : ¬(z = B.id ∧ B.id ≠ 0) := by grind
    simp only [Agree, h1, q3, if_false, and_self]
  obtain ⟨h2', e2, hk2, p2, c2, r2, g2⟩ := hk1.link (b := B.id) a0 (by grind) (by grind)
  have hin : pre k ++ (B.ino ++ post k) = (pre k ++ (L.ino ++ x :: R.ino ++ post k)).erase x := by
    have q1 : x ∉ pre k := by grind
    have q2 : x ∉ B.ino := by grind
    rcases iB with e | e
    · rw [e, List.erase_append_right _ q1]; simp
    · rw [e, List.erase_append_right _ q1, List.append_assoc, List.erase_append_right _ q2]; simp
  refine ⟨h2', by simp only [relink, setParentIf_eq, Option.bind_eq_bind, Option.bind_some]; exact e2, ⟨?_, hk2, hin, h4.erase _, fun z hz => hs z (List.mem_of_mem_erase hz), fun z hz => ?_⟩, ?_⟩
  · refine rB.reparent (by grind) (fun z hz hz' => ?_) fun hB' => ?_
    · obtain ⟨g1, g2, g3, g4⟩ := g2 z (by grind)
      exact ⟨g1, g2, g3.trans (by simp [h1, hz']), g4⟩
    · have := hmB hB'
      obtain ⟨g1, g2, g3, g4⟩ := g2 B.id (by grind)
      exact ⟨g1, g2, g4, g3.trans (by simp [h1, hB'])⟩
  · have q : z ∉ pre k ++ (L.ino ++ x :: R.ino ++ post k) := fun q => hz (hs z q)
    obtain ⟨g1, g2, g3, g4⟩ := g2 z (by grind)
    obtain ⟨p1, p2, p3, p4⟩ := h5 z hz
    have q3 : ¬(z = B.id ∧ B.id ≠ 0) := by grind
    exact ⟨g1.trans p1, g2.trans p2, (g3.trans (by simp only [h1, q3, if_false])).trans p3, g4.trans p4⟩
  · obtain ⟨g1, g2, g3, g4⟩ := g2 x (by grind)
    have q3 : ¬(x = B.id ∧ B.id ≠ 0) := by grind
    exact ⟨g1, g2, g3.trans (by simp only [h1, q3, if_false]), g4⟩

set_option maxHeartbeats 1600000 in
theorem Z.takeOver {h₀ F xs h k L x c R e} (H : Z h₀ F xs h k (.node L x c R)) (hL : L.id ≠ 0) (he : e ≠ 0) (hx : e ∉ xs) (hF : e ∈ F) :
    ∃ h', takeOver h e x = some h' ∧ Z h₀ F (pre k ++ (L.ino ++ e :: R.ino ++ post k)) h' k (.node L e c R) := by
  obtain ⟨⟨a0, a1, a2, a3, a4, a5, a6⟩, h2, h3, h4, hs, h5⟩ := H
  simp only [T.id_node, T.ino] at a1 a2 h2 h3
  subst h3
  have hmL := id_mem hL
  have hmR := @id_mem R
  have N : (x :: (L.ino ++ (R.ino ++ (pre k ++ post k)))).Nodup := by
    refine (List.Perm.nodup_iff ?_).1 h4
    grind
  have hex : e ≠ x := by grind
  let h1 : Heap := { h with l := upd h.l e L.id, r := upd h.r e R.id, p := upd h.p e (par k), red := upd h.red e c }
  have hk1 : RepC h1 k x := h2.agree rfl fun z hz => by
    have q3 : z ≠ e := by grind
    simp only [Agree, h1, upd, q3, if_false, and_self]
  obtain ⟨h2', e2, hk2, p2, c2, r2, g2⟩ := hk1.link (b := e) a0 (by grind) (by grind)
  obtain ⟨gx1, gx2, gx3, gx4⟩ := g2 x (by grind)
  obtain ⟨ge1, ge2, ge3, ge4⟩ := g2 e (by grind)
  have gx1 : h2'.l x = L.id := by rw [gx1]; simp [h1, upd, Ne.symm hex, a1]
  have gx2 : h2'.r x = R.id := by rw [gx2]; simp [h1, upd, Ne.symm hex, a2]
  refine ⟨{ h2' with p := fun z => if z = R.id ∧ R.id ≠ 0 then e else upd h2'.p L.id e z }, ?_, ?_⟩
  · simp only [Rb.takeOver, Heap.left, Heap.right, Heap.parent, Heap.color, Heap.setLeft, Heap.setRight, Heap.setParent, Heap.setColor, a0, he, if_false,
      Option.bind_eq_bind, Option.bind_some, a1, a2, a3, a4]
    rw [e2]
    simp [gx1, gx2, hL, setParentIf_eq]
  · have gz : ∀ z, z ∉ pre k ++ post k → z ≠ e → z ≠ L.id → (z = R.id → z = 0) →
        Agree h { h2' with p := fun z => if z = R.id ∧ R.id ≠ 0 then e else upd h2'.p L.id e z } z := by
      intro z q1 q2 q3 q4
      obtain ⟨g1, g2, g3, g4⟩ := g2 z q1
      have q5 : ¬(z = R.id ∧ R.id ≠ 0) := by grind
      refine ⟨g1.trans ?_, g2.trans ?_, ?_, g4.trans ?_⟩
      · simp [h1, upd, q2]
      · simp [h1, upd, q2]
      · simp only [q5, if_false, upd, q3]; exact g3.trans (by simp [h1, upd, q2])
      · simp [h1, upd, q2]
    refine ⟨⟨he, ge1.trans (by simp [h1, upd]), ge2.trans (by simp [h1, upd]), ?_, ge4.trans (by simp [h1, upd]), ?_, ?_⟩, hk2.agree rfl fun z hz => ?_, by simp [T.ino], ?_, ?_, fun z hz => ?_⟩
    · have q1 : ¬(e = R.id ∧ R.id ≠ 0) := by grind
      have q2 : e ≠ L.id := by grind
      simp only [q1, if_false, upd, q2]
      exact ge3.trans (by simp [h1, upd])
    · refine a5.reparent (by grind) (fun z hz hz' => gz z ?_ ?_ hz' ?_) fun hB' => ?_
      · grind
      · grind
      · grind
      · obtain ⟨g1, g2, g3, g4⟩ := g2 L.id (by grind)
        have q1 : L.id ≠ e := by grind
        refine ⟨g1.trans (by simp [h1, upd, q1]), g2.trans (by simp [h1, upd, q1]), g4.trans (by simp [h1, upd, q1]), ?_⟩
        simp [upd]
    · refine a6.reparent (by grind) (fun z hz hz' => gz z ?_ ?_ ?_ ?_) fun hB' => ?_
      · grind
      · grind
      · grind
      · exact fun q => absurd q hz'
      · have := hmR hB'
        obtain ⟨g1, g2, g3, g4⟩ := g2 R.id (by grind)
        have q1 : R.id ≠ e := by grind
        refine ⟨g1.trans (by simp [h1, upd, q1]), g2.trans (by simp [h1, upd, q1]), g4.trans (by simp [h1, upd, q1]), ?_⟩
        simp [hB']
    · have q1 : ¬(z = R.id ∧ R.id ≠ 0) := by grind
      have q2 : z ≠ L.id := by grind
      exact ⟨rfl, rfl, by simp only [q1, if_false, upd, q2], rfl⟩
    · have : (e :: (L.ino ++ (R.ino ++ (pre k ++ post k)))).Nodup := by grind
      refine (List.Perm.nodup_iff ?_).1 this
      grind
    · intro z hz
      by_cases q : z = e
      · exact q ▸ hF
      · apply hs; grind
    · have q : z ∉ pre k ++ (L.ino ++ x :: R.ino ++ post k) := fun q => hz (hs z q)
      obtain ⟨g1, g2, g3, g4⟩ := gz z (by grind) (by grind) (by grind) (by grind)
      obtain ⟨p1, p2, p3, p4⟩ := h5 z hz
      exact ⟨g1.trans p1, g2.trans p2, g3.trans p3, g4.trans p4⟩

/-! Putting an element in -/

set_option maxHeartbeats 1600000 in
theorem Z.attach {h₀ F xs h k e lt} (H : Z h₀ F xs h k .nil) (he : e ≠ 0) (hx : e ∉ xs) (hF : e ∈ F) (hlt : ∀ f r, k = f :: r → f.left = lt) :
    ∃ h', attach h e (par k) lt = some h' ∧ Z h₀ F (pre k ++ e :: post k) h' k (.node .nil e true .nil) := by
  obtain ⟨-, h2, h3, h4, hs, h5⟩ := H
  simp only [T.ino, List.nil_append] at h3
  subst h3
  have hnd : (pre k ++ e :: post k).Nodup := by
    have : (e :: (pre k ++ post k)).Nodup := by grind
    refine (List.Perm.nodup_iff ?_).1 this
    grind
  have hsub : ∀ z ∈ pre k ++ e :: post k, z ∈ F := by grind
  let h1 : Heap := { h with l := upd h.l e 0, r := upd h.r e 0, p := upd h.p e (par k), red := upd h.red e true }
  have hA : ∀ z, z ≠ e → Agree h h1 z := fun z hz => by simp [Agree, h1, upd, hz]
  have e1 : set h e (par k) = some h1 := by simp [set, Heap.setParent, Heap.setLeft, Heap.setRight, Heap.setColor, he, h1]
  cases k with
  | nil =>
    refine ⟨{ h1 with root := e }, by rw [Rb.attach, e1]; simp [par], ⟨he, ?_, ?_, ?_, ?_, trivial, trivial⟩, rfl, by simp [T.ino], hnd, hsub, fun z hz => ?_⟩
    · simp [h1, upd]
    · simp [h1, upd]
    · simp [h1, upd]
    · simp [h1, upd]
    · have : z ≠ e := by grind
      obtain ⟨p1, p2, p3, p4⟩ := h5 z hz
      obtain ⟨g1, g2, g3, g4⟩ := hA z this
      exact ⟨g1.trans p1, g2.trans p2, g3.trans p3, g4.trans p4⟩
  | cons f k =>
    obtain ⟨b0, b1, b2, b3, b4, b5, b6⟩ := h2
    have hl := hlt f k rfl
    have hfe : f.x ≠ e := by intro q; apply hx; rw [← q]; simp only [pre, post]; split <;> simp
    have hF' : ∀ z ∉ F, z ≠ e ∧ z ≠ f.x := by
      intro z hz
      refine ⟨by grind, fun q => hz (hs z ?_)⟩
      rw [q]; simp only [pre, post]; split <;> simp
    have hns : ∀ z ∈ f.s.ino, z ≠ e ∧ z ≠ f.x := by
      intro z hz
      cases q : f.left <;> simp only [pre, post, q, Bool.false_eq_true, if_false, if_true] at h4 hx <;> grind
    have hnk : ∀ z ∈ pre k ++ post k, z ≠ e ∧ z ≠ f.x := by
      intro z hz
      cases q : f.left <;> simp only [pre, post, q, Bool.false_eq_true, if_false, if_true] at h4 hx <;> grind
    obtain ⟨f1, f2, f3, f4⟩ := hA f.x hfe
    cases lt
    · refine ⟨{ h1 with r := upd h1.r f.x e }, by rw [Rb.attach, e1]; simp [par, b0, Heap.setRight], ⟨he, ?_, ?_, ?_, ?_, trivial, trivial⟩,
        ⟨b0, f4.trans b1, f3.trans b2, ?_, ?_, b5.agree fun z hz => ?_, b6.agree rfl fun z hz => ?_⟩, by simp [T.ino], hnd, hsub, fun z hz => ?_⟩
      · simp [h1, upd]
      · simp [h1, upd, Ne.symm hfe]
      · simp [h1, upd]
      · simp [h1, upd]
      · simpa [hl, h1, upd, hfe] using b3
      · simp [hl, upd]
      · simp [Agree, h1, upd, hns z hz]
      · simp [Agree, h1, upd, hnk z hz]
      · obtain ⟨p1, p2, p3, p4⟩ := h5 z hz
        simp [Agree, h1, upd, hF' z hz, p1, p2, p3, p4]
    · refine ⟨{ h1 with l := upd h1.l f.x e }, by rw [Rb.attach, e1]; simp [par, b0, Heap.setLeft], ⟨he, ?_, ?_, ?_, ?_, trivial, trivial⟩,
        ⟨b0, f4.trans b1, f3.trans b2, ?_, ?_, b5.agree fun z hz => ?_, b6.agree rfl fun z hz => ?_⟩, by simp [T.ino], hnd, hsub, fun z hz => ?_⟩
      · simp [h1, upd, Ne.symm hfe]
      · simp [h1, upd]
      · simp [h1, upd]
      · simp [h1, upd]
      · simp [hl, upd]
      · simpa [hl, h1, upd, hfe] using b4
      · simp [Agree, h1, upd, hns z hz]
      · simp [Agree, h1, upd, hnk z hz]
      · obtain ⟨p1, p2, p3, p4⟩ := h5 z hz
        simp [Agree, h1, upd, hF' z hz, p1, p2, p3, p4]

end Verif.Rb
