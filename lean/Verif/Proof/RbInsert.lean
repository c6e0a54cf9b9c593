import Verif.Proof.RbHeap

/-! Insertion keeps the tree red-black. -/
namespace Verif.Rb

/-! Reading -/

theorem Z.left {h₀ F xs h k l x c r} (H : Z h₀ F xs h k (.node l x c r)) : h.left x = some l.id := by simp [Heap.left, H.rep.1, H.rep.2.1]
theorem Z.right {h₀ F xs h k l x c r} (H : Z h₀ F xs h k (.node l x c r)) : h.right x = some r.id := by simp [Heap.right, H.rep.1, H.rep.2.2.1]
theorem Z.parent {h₀ F xs h k l x c r} (H : Z h₀ F xs h k (.node l x c r)) : h.parent x = some (par k) := by
  simp [Heap.parent, H.rep.1, H.rep.2.2.2.1]
theorem Z.getColor {h₀ F xs h k l x c r} (H : Z h₀ F xs h k (.node l x c r)) : h.color x = some c := by
  simp [Heap.color, H.rep.1, H.rep.2.2.2.2.1]

def T.red : T → Bool
  | .nil => false
  | .node _ _ c _ => c

def headRed : Ctx → Bool
  | [] => false
  | f :: _ => f.c

theorem Z.isRed {h₀ F xs h k t} (H : Z h₀ F xs h k t) : h.isRed t.id = t.red := by
  cases t with
  | nil => simp [Heap.isRed, T.red]
  | node l x c r => simp [Heap.isRed, T.red, H.rep.1, H.rep.2.2.2.2.1]

theorem Z.parRed {h₀ F xs h k t} (H : Z h₀ F xs h k t) : h.isRed (par k) = headRed k := by
  cases k with
  | nil => simp [Heap.isRed, headRed, par]
  | cons f k => simp [Heap.isRed, headRed, par, H.ctx.1, H.ctx.2.1]

theorem Z.par0 {h₀ F xs h k t} (H : Z h₀ F xs h k t) : par k = 0 ↔ k = [] := by
  cases k with
  | nil => simp [par]
  | cons f k => simp [par, H.ctx.1]

/-! The rules -/

/-- No red element has a red child. -/
def RR : T → Prop
  | .nil => True
  | .node l _ c r => RR l ∧ RR r ∧ (c = true → l.red = false ∧ r.red = false)

/-- There are `n` black elements on every way down. -/
def BH : T → Nat → Prop
  | .nil, n => n = 0
  | .node l _ c r, n => if c then BH l n ∧ BH r n else ∃ m, n = m + 1 ∧ BH l m ∧ BH r m

def CRR : Ctx → Prop
  | [] => True
  | f :: k => RR f.s ∧ (f.c = true → f.s.red = false ∧ headRed k = false ∧ k ≠ []) ∧ CRR k

def CBH : Ctx → Nat → Prop
  | [], _ => True
  | f :: k, n => BH f.s n ∧ CBH k (if f.c then n else n + 1)

structure RBT (t : T) : Prop where
  rr : RR t
  black : t.red = false
  bh : ∃ n, BH t n

theorem RR.fill {f : Frame} {t : T} (ht : RR t) (hs : RR f.s) (h : f.c = true → t.red = false ∧ f.s.red = false) : RR (fill f t) := by
  unfold Rb.fill
  split
  · exact ⟨ht, hs, h⟩
  · exact ⟨hs, ht, fun e => (h e).symm⟩

theorem BH.fill {f : Frame} {t : T} {n : Nat} (ht : BH t n) (hs : BH f.s n) : BH (fill f t) (if f.c then n else n + 1) := by
  unfold Rb.fill
  split <;> (unfold BH; split <;> simp [*])

theorem fill_red (f : Frame) (t : T) : (fill f t).red = f.c := by unfold fill; split <;> rfl
theorem fill_id (f : Frame) (t : T) : (fill f t).id = f.x := by unfold fill; split <;> rfl

theorem RR.plug {k : Ctx} {t : T} (hk : CRR k) (ht : RR t) (h : headRed k = true → t.red = false) : RR (plug k t) := by
  induction k generalizing t with
  | nil => exact ht
  | cons f k ih =>
    obtain ⟨h1, h2, h3⟩ := hk
    exact ih h3 (ht.fill h1 fun e => ⟨h e, (h2 e).1⟩) fun e => by
      rw [fill_red]
      cases hf : f.c
      · rfl
      · rw [(h2 hf).2.1] at e; cases e

theorem BH.plug {k : Ctx} {t : T} {n : Nat} (hk : CBH k n) (ht : BH t n) : ∃ m, BH (plug k t) m := by
  induction k generalizing t n with
  | nil => exact ⟨n, ht⟩
  | cons f k ih => exact ih hk.2 (ht.fill hk.1)

theorem plug_black {k : Ctx} {t : T} (hk : CRR k) (h : k = [] → t.red = false) : (plug k t).red = false := by
  induction k generalizing t with
  | nil => exact h rfl
  | cons f k ih =>
    obtain ⟨h1, h2, h3⟩ := hk
    refine ih h3 fun e => ?_
    rw [fill_red]
    cases hf : f.c
    · rfl
    · exact absurd e (h2 hf).2.2

theorem plug_id {k : Ctx} {t : T} (H : ∀ f ∈ k, f.x ≠ 0) (ht : t.id ≠ 0) : (plug k t).id ≠ 0 := by
  induction k generalizing t with
  | nil => exact ht
  | cons f k ih => exact ih (fun g hg => H g (by simp [hg])) (by rw [fill_id]; exact H f (by simp))

/-- The rules for a tree with a position in it. -/
structure Split (k : Ctx) (t : T) : Prop where
  crr : CRR k
  rr : RR t
  head : headRed k = true → t.red = false
  top : k = [] → t.red = false
  bh : ∃ n, BH t n ∧ CBH k n

theorem Split.rbt {k t} (H : Split k t) : RBT (plug k t) :=
  let ⟨_, h1, h2⟩ := H.bh
  ⟨H.rr.plug H.crr H.head, plug_black H.crr H.top, BH.plug h2 h1⟩

theorem Split.of_rbt {t} (H : RBT t) : Split [] t := ⟨trivial, H.rr, by simp [headRed], fun _ => H.black, H.bh.imp fun _ h => ⟨h, trivial⟩⟩

theorem Split.down {f k t} (H : Split k (fill f t)) : Split (f :: k) t := by
  obtain ⟨h1, h2, h3, h4, n, h5, h6⟩ := H
  rw [fill_red] at h3 h4
  have hh : f.c = true → headRed k = false ∧ k ≠ [] := by
    intro e
    constructor
    · cases q : headRed k
      · rfl
      · rw [h3 q] at e; cases e
    · intro q; rw [h4 q] at e; cases e
  cases hf : f.left
  · simp only [fill, hf, Bool.false_eq_true, if_false] at h2 h5
    obtain ⟨r1, r2, r3⟩ := h2
    refine ⟨⟨r1, fun e => ⟨(r3 e).1, hh e⟩, h1⟩, r2, fun e => (r3 e).2, by simp, ?_⟩
    cases hc : f.c
    · simp only [BH, hc, Bool.false_eq_true, if_false] at h5
      obtain ⟨m, rfl, b1, b2⟩ := h5
      exact ⟨m, b2, b1, by simpa [hc] using h6⟩
    · simp only [BH, hc, if_true] at h5
      exact ⟨n, h5.2, h5.1, by simpa [hc] using h6⟩
  · simp only [fill, hf, if_true] at h2 h5
    obtain ⟨r1, r2, r3⟩ := h2
    refine ⟨⟨r2, fun e => ⟨(r3 e).2, hh e⟩, h1⟩, r1, fun e => (r3 e).1, by simp, ?_⟩
    cases hc : f.c
    · simp only [BH, hc, Bool.false_eq_true, if_false] at h5
      obtain ⟨m, rfl, b1, b2⟩ := h5
      exact ⟨m, b1, b2, by simpa [hc] using h6⟩
    · simp only [BH, hc, if_true] at h5
      exact ⟨n, h5.1, h5.2, by simpa [hc] using h6⟩

theorem Split.downL {k l x c r} (H : Split k (.node l x c r)) : Split (⟨true, x, c, r⟩ :: k) l := Split.down (by simpa [fill] using H)
theorem Split.downR {k l x c r} (H : Split k (.node l x c r)) : Split (⟨false, x, c, l⟩ :: k) r := Split.down (by simpa [fill] using H)

theorem Split.unplug {k₁ k t} (H : Split k (Rb.plug k₁ t)) : Split (k₁ ++ k) t := by
  induction k₁ generalizing t with
  | nil => exact H
  | cons f k₁ ih => exact (ih H).down

/-! Colouring the root black at the end. -/

theorem Z.frames_ne0 {h₀ F xs h k t} (H : Z h₀ F xs h k t) : ∀ f ∈ k, f.x ≠ 0 := by
  have := H.ctx
  generalize t.id = a at this
  clear H
  induction k generalizing a with
  | nil => simp
  | cons f k ih =>
    obtain ⟨h0, -, -, -, -, -, h6⟩ := this
    intro g hg
    rcases List.mem_cons.1 hg with rfl | hg
    · exact h0
    · exact ih _ h6 g hg

theorem Z.finish {h₀ F xs h k t} {n : Nat} (H : Z h₀ F xs h k t) (ht : t.id ≠ 0) (hk : CRR k) (hr : RR t) (hh : headRed k = true → t.red = false)
    (hb : BH t n) (hc : CBH k n) : ∃ h', h.setColor h.root false = some h' ∧ ∃ t', Z h₀ F xs h' [] t' ∧ RBT t' := by
  have H1 := H.plug
  have h1 := hr.plug hk hh
  obtain ⟨m, h2⟩ := BH.plug hc hb
  have h3 := plug_id H.frames_ne0 ht
  revert H1 h1 h2 h3
  generalize Rb.plug k t = s
  intro H1 h1 h2 h3
  cases s with
  | nil => simp at h3
  | node l x c r =>
    have hx : h.root = x := H1.ctx
    obtain ⟨h', e, H'⟩ := H1.color false
    refine ⟨h', by rw [hx]; exact e, _, H', ⟨h1.1, h1.2.1, by simp⟩, rfl, ?_⟩
    simp only [BH] at h2 ⊢
    cases c
    · exact ⟨m, by simpa using h2⟩
    · exact ⟨m + 1, by simpa using h2⟩

/-! One round -/

/-- The outcome of a round: the position moved up by two, or the loop is about to end. -/
structure Good (h₀ : Heap) (F xs : List Nat) (h : Heap) (k : Ctx) (l : T) (x : Nat) (r : T) (n : Nat) : Prop where
  z : Z h₀ F xs h k (.node l x true r)
  rr : RR (.node l x true r)
  bh : BH (.node l x true r) n
  cbh : CBH k n
  crr : CRR k

theorem Z.setBlackRedL {h₀ F xs h k a p c C g d D} (H : Z h₀ F xs h k (.node (.node a p c C) g d D)) :
    ∃ h', setBlackRed h p g = some h' ∧ Z h₀ F xs h' k (.node (.node a p false C) g true D) := by
  obtain ⟨h1, e1, H1⟩ := H.downL.color false
  obtain ⟨h2, e2, H2⟩ := H1.upL.color true
  exact ⟨h2, by simp [setBlackRed, e1, e2], H2⟩

theorem Z.setBlackRedR {h₀ F xs h k a p c C g d D} (H : Z h₀ F xs h k (.node D g d (.node C p c a))) :
    ∃ h', setBlackRed h p g = some h' ∧ Z h₀ F xs h' k (.node D g true (.node C p false a)) := by
  obtain ⟨h1, e1, H1⟩ := H.downR.color false
  obtain ⟨h2, e2, H2⟩ := H1.upR.color true
  exact ⟨h2, by simp [setBlackRed, e1, e2], H2⟩

theorem Z.ne_sibL {h₀ F xs h k l x c r} (H : Z h₀ F xs h k (.node l x c r)) (hl : l.id ≠ 0) : r.id ≠ l.id := by
  intro e
  have h1 := id_mem hl
  have h2 := id_mem (e ▸ hl : r.id ≠ 0)
  have h3 := H.nodup
  rw [← H.ino] at h3
  simp only [T.ino] at h3
  rw [e] at h2
  grind

theorem Z.ne_sibR {h₀ F xs h k l x c r} (H : Z h₀ F xs h k (.node l x c r)) (hr : r.id ≠ 0) : l.id ≠ r.id := by
  intro e
  exact H.ne_sibL (e ▸ hr) e.symm

theorem insertLeft_ok {h₀ F xs h k l x r f D g n} (H : Z h₀ F xs h (f :: ⟨true, g, false, D⟩ :: k) (.node l x true r)) (hr : RR (.node l x true r))
    (hb : BH (.node l x true r) n) (hc : CBH (f :: ⟨true, g, false, D⟩ :: k) n) (hk : CRR (f :: ⟨true, g, false, D⟩ :: k)) (hf : f.c = true) :
    ∃ h' e, insertLeft h x f.x g = some (h', e) ∧ ∃ k' l' r' n', Good h₀ F xs h' k' l' e r' n' ∧
      (k'.length + 2 = (f :: (⟨true, g, false, D⟩ : Frame) :: k).length ∨ (headRed k' = false ∧ k'.length < (f :: (⟨true, g, false, D⟩ : Frame) :: k).length)) := by
  obtain ⟨fl, p, fc, C⟩ := f
  simp only at hf
  subst hf
  obtain ⟨k1, k2, k3, k4, k5⟩ := hk
  obtain ⟨c1, c2, c3⟩ := hc
  simp only [if_true, Bool.false_eq_true, if_false] at c1 c2 c3 k1 k2 k3 k4
  have k2 := (k2 trivial).1
  obtain ⟨r1, r2, r3⟩ := hr
  obtain ⟨r3, r4⟩ := r3 rfl
  obtain ⟨b1, b2⟩ : BH l n ∧ BH r n := by simpa [BH] using hb
  have HG := H.up.up
  simp only [fill, if_true] at HG
  have hD := HG.downR.isRed
  unfold insertLeft
  have e1 : h.right g = some D.id := HG.right
  rw [e1]
  simp only [Option.bind_eq_bind, Option.bind_some, hD]
  cases hDr : D.red
  · simp only [Bool.false_eq_true, if_false]
    cases fl
    · -- inner
      simp only [Bool.false_eq_true, if_false] at HG
      have e2 : h.right p = some x := HG.downL.right
      obtain ⟨h1, e3, H1⟩ := HG.downL.rotateLeft
      obtain ⟨h2, e4, H2⟩ := H1.upL.setBlackRedL
      obtain ⟨h3, e5, H3⟩ := H2.rotateRight
      refine ⟨h3, p, by simp [insertInnerLeft, e2, e3, e4, e5], ⟨true, x, false, .node r g true D⟩ :: k, C, l, n, ⟨H3.downL, ⟨k1, r1, fun _ => ⟨k2, r3⟩⟩, ?_, ⟨?_, c3⟩, ⟨⟨r2, k3, fun _ => ⟨r4, hDr⟩⟩, by simp, k5⟩⟩, Or.inr ⟨rfl, by simp⟩⟩
      · simp [BH, b1, c1]
      · simp [BH, b2, c2]
    · simp only [if_true] at HG
      have e2 : h.right p = some C.id := HG.downL.right
      have hne : C.id ≠ x := HG.downL.ne_sibL HG.downL.downL.ne0
      obtain ⟨h2, e4, H2⟩ := HG.setBlackRedL
      obtain ⟨h3, e5, H3⟩ := H2.rotateRight
      refine ⟨h3, x, by simp [insertInnerLeft, e2, hne, e4, e5], ⟨true, p, false, .node C g true D⟩ :: k, l, r, n, ⟨H3.downL, ⟨r1, r2, fun _ => ⟨r3, r4⟩⟩, ?_, ⟨?_, c3⟩, ⟨⟨k1, k3, fun _ => ⟨k2, hDr⟩⟩, by simp, k5⟩⟩, Or.inr ⟨rfl, by simp⟩⟩
      · simp [BH, b1, b2]
      · simp [BH, c1, c2]
  · cases D with
    | nil => cases hDr
    | node d1 d dc d2 =>
      simp only [T.red] at hDr
      subst hDr
      simp only [if_true]
      obtain ⟨h1, e2, H1⟩ := HG.downR.color false
      have H2 := H1.upR
      obtain ⟨q1, q2⟩ : BH d1 n ∧ BH d2 n := by simpa [BH] using c2
      cases fl
      · obtain ⟨h3, e3, H3⟩ := H2.setBlackRedL
        refine ⟨h3, g, by simp [e2, e3], k, _, _, n + 1, ⟨H3, ⟨⟨k1, ⟨r1, r2, fun _ => ⟨r3, r4⟩⟩, by simp⟩, ⟨k3.1, k3.2.1, by simp⟩, fun _ => ⟨rfl, rfl⟩⟩, ?_, c3, k5⟩, Or.inl rfl⟩
        simp [BH, b1, b2, c1, q1, q2]
      · obtain ⟨h3, e3, H3⟩ := H2.setBlackRedL
        refine ⟨h3, g, by simp [e2, e3], k, _, _, n + 1, ⟨H3, ⟨⟨⟨r1, r2, fun _ => ⟨r3, r4⟩⟩, k1, by simp⟩, ⟨k3.1, k3.2.1, by simp⟩, fun _ => ⟨rfl, rfl⟩⟩, ?_, c3, k5⟩, Or.inl rfl⟩
        simp [BH, b1, b2, c1, q1, q2]

theorem insertRight_ok {h₀ F xs h k l x r f D g n} (H : Z h₀ F xs h (f :: ⟨false, g, false, D⟩ :: k) (.node l x true r)) (hr : RR (.node l x true r))
    (hb : BH (.node l x true r) n) (hc : CBH (f :: ⟨false, g, false, D⟩ :: k) n) (hk : CRR (f :: ⟨false, g, false, D⟩ :: k)) (hf : f.c = true) :
    ∃ h' e, insertRight h x f.x g = some (h', e) ∧ ∃ k' l' r' n', Good h₀ F xs h' k' l' e r' n' ∧
      (k'.length + 2 = (f :: (⟨false, g, false, D⟩ : Frame) :: k).length ∨ (headRed k' = false ∧ k'.length < (f :: (⟨false, g, false, D⟩ : Frame) :: k).length)) := by
  obtain ⟨fl, p, fc, C⟩ := f
  simp only at hf
  subst hf
  obtain ⟨k1, k2, k3, k4, k5⟩ := hk
  obtain ⟨c1, c2, c3⟩ := hc
  simp only [if_true, Bool.false_eq_true, if_false] at c1 c2 c3 k1 k2 k3 k4
  have k2 := (k2 trivial).1
  obtain ⟨r1, r2, r3⟩ := hr
  obtain ⟨r3, r4⟩ := r3 rfl
  obtain ⟨b1, b2⟩ : BH l n ∧ BH r n := by simpa [BH] using hb
  have HG := H.up.up
  simp only [fill, Bool.false_eq_true, if_false] at HG
  have hD := HG.downL.isRed
  unfold insertRight
  have e1 : h.left g = some D.id := HG.left
  rw [e1]
  simp only [Option.bind_eq_bind, Option.bind_some, hD]
  cases hDr : D.red
  · simp only [Bool.false_eq_true, if_false]
    cases fl
    · simp only [Bool.false_eq_true, if_false] at HG
      have e2 : h.left p = some C.id := HG.downR.left
      have hne : C.id ≠ x := HG.downR.ne_sibR HG.downR.downR.ne0
      obtain ⟨h2, e4, H2⟩ := HG.setBlackRedR
      obtain ⟨h3, e5, H3⟩ := H2.rotateLeft
      refine ⟨h3, x, by simp [insertInnerRight, e2, hne, e4, e5], ⟨false, p, false, .node D g true C⟩ :: k, l, r, n, ⟨H3.downR, ⟨r1, r2, fun _ => ⟨r3, r4⟩⟩, ?_, ⟨?_, c3⟩, ⟨⟨k3, k1, fun _ => ⟨hDr, k2⟩⟩, by simp, k5⟩⟩, Or.inr ⟨rfl, by simp⟩⟩
      · simp [BH, b1, b2]
      · simp [BH, c1, c2]
    · -- inner
      simp only [if_true] at HG
      have e2 : h.left p = some x := HG.downR.left
      obtain ⟨h1, e3, H1⟩ := HG.downR.rotateRight
      obtain ⟨h2, e4, H2⟩ := H1.upR.setBlackRedR
      obtain ⟨h3, e5, H3⟩ := H2.rotateLeft
      refine ⟨h3, p, by simp [insertInnerRight, e2, e3, e4, e5], ⟨false, x, false, .node D g true l⟩ :: k, r, C, n, ⟨H3.downR, ⟨r2, k1, fun _ => ⟨r4, k2⟩⟩, ?_, ⟨?_, c3⟩, ⟨⟨k3, r1, fun _ => ⟨hDr, r3⟩⟩, by simp, k5⟩⟩, Or.inr ⟨rfl, by simp⟩⟩
      · simp [BH, b2, c1]
      · simp [BH, b1, c2]
  · cases D with
    | nil => cases hDr
    | node d1 d dc d2 =>
      simp only [T.red] at hDr
      subst hDr
      simp only [if_true]
      obtain ⟨h1, e2, H1⟩ := HG.downL.color false
      have H2 := H1.upL
      obtain ⟨q1, q2⟩ : BH d1 n ∧ BH d2 n := by simpa [BH] using c2
      cases fl
      · obtain ⟨h3, e3, H3⟩ := H2.setBlackRedR
        refine ⟨h3, g, by simp [e2, e3], k, _, _, n + 1, ⟨H3, ⟨⟨k3.1, k3.2.1, by simp⟩, ⟨k1, ⟨r1, r2, fun _ => ⟨r3, r4⟩⟩, by simp⟩, fun _ => ⟨rfl, rfl⟩⟩, ?_, c3, k5⟩, Or.inl rfl⟩
        simp [BH, b1, b2, c1, q1, q2]
      · obtain ⟨h3, e3, H3⟩ := H2.setBlackRedR
        refine ⟨h3, g, by simp [e2, e3], k, _, _, n + 1, ⟨H3, ⟨⟨k3.1, k3.2.1, by simp⟩, ⟨⟨r1, r2, fun _ => ⟨r3, r4⟩⟩, k1, by simp⟩, fun _ => ⟨rfl, rfl⟩⟩, ?_, c3, k5⟩, Or.inl rfl⟩
        simp [BH, b1, b2, c1, q1, q2]

/-- `RB_INSERT_COLOR` returns, and leaves a red-black tree. -/
theorem insertColor_ok {h₀ F xs} (N : Nat) : ∀ {h k l x r n}, Good h₀ F xs h k l x r n → k.length + 2 ≤ N ∨ (headRed k = false ∧ 1 ≤ N) →
    ∃ h', insertColor N h x = some h' ∧ ∃ t', Z h₀ F xs h' [] t' ∧ RBT t' := by
  induction N with
  | zero => intro h k l x r n _ hN; omega
  | succ N ih =>
    intro h k l x r n ⟨H, hr, hb, hc, hk⟩ hN
    have hp := H.parent
    have hpr := H.parRed
    cases hq : headRed k
    · obtain ⟨h', e, H'⟩ := H.finish H.ne0 hk hr (by simp [hq]) hb hc
      exact ⟨h', by simp [insertColor, hp, hpr, hq, e], H'⟩
    · have hN : k.length + 2 ≤ N + 1 := by simpa [hq] using hN
      cases k with
      | nil => cases hq
      | cons f k =>
        obtain ⟨k1, k2, k3⟩ := hk
        obtain ⟨k4, k5, k6⟩ := k2 hq
        cases k with
        | nil => exact absurd rfl k6
        | cons g k =>
          obtain ⟨gl, g, gc, D⟩ := g
          simp only [headRed] at k5
          subst k5
          have e1 : h.parent f.x = some g := by simp [Heap.parent, H.ctx.1, H.ctx.2.2.1, par]
          have hg := H.ctx.2.2.2.2.2.2
          have hDf : D.id ≠ f.x := by
            have := H.up.up
            cases gl
            · have := this.ne_sibR (by rw [fill_id]; exact H.ctx.1)
              rwa [fill_id] at this
            · have := this.ne_sibL (by rw [fill_id]; exact H.ctx.1)
              rwa [fill_id] at this
          have e2 : h.left g = some (if gl then f.x else D.id) := by simp only [Heap.left, if_neg hg.1, hg.2.2.2.1]
          have hround : ∃ h' e, insertRound h x f.x g (if gl then f.x else D.id) = some (h', e) ∧ ∃ k' l' r' n', Good h₀ F xs h' k' l' e r' n' ∧
              (k'.length + 2 = (f :: (⟨gl, g, false, D⟩ : Frame) :: k).length ∨ (headRed k' = false ∧ k'.length < (f :: (⟨gl, g, false, D⟩ : Frame) :: k).length)) := by
            cases gl
            · obtain ⟨h', e, q⟩ := insertRight_ok H hr hb hc ⟨k1, k2, k3⟩ hq
              exact ⟨h', e, by simpa [insertRound, Ne.symm hDf] using q.1, q.2⟩
            · obtain ⟨h', e, q⟩ := insertLeft_ok H hr hb hc ⟨k1, k2, k3⟩ hq
              exact ⟨h', e, by simpa [insertRound] using q.1, q.2⟩
          obtain ⟨h', e, e3, k', l', r', n', G, hl⟩ := hround
          obtain ⟨h'', e4, R⟩ := ih G (by simp only [List.length_cons] at hl hN; rcases hl with hl | hl; (left; omega); (right; exact ⟨hl.1, by omega⟩))
          refine ⟨h'', ?_, R⟩
          have hpr' : h.isRed f.x = true := hpr.trans hq
          rw [insertColor]
          simp only [hp, Option.bind_eq_bind, Option.bind_some, hpr', if_true, par, e1, e2, e3, e4]

end Verif.Rb
