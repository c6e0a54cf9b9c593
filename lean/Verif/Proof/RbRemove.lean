import Verif.Proof.RbInsert

/-! Removal keeps the tree red-black. -/
namespace Verif.Rb

/-- The subtrees obey the rule about red elements. -/
def Sub : T → Prop
  | .nil => True
  | .node l _ _ r => RR l ∧ RR r

theorem Sub.rr {t} (h : Sub t) (hr : t.red = false) : RR t := by
  cases t with
  | nil => trivial
  | node l x c r => exact ⟨h.1, h.2, by simp [T.red] at hr; simp [hr]⟩

theorem RR.sub {t} (h : RR t) : Sub t := by
  cases t with
  | nil => trivial
  | node l x c r => exact ⟨h.1, h.2.1⟩

/-- The position lacks one black element. -/
structure Short (h₀ : Heap) (F xs : List Nat) (h : Heap) (k : Ctx) (t : T) (n : Nat) : Prop where
  z : Z h₀ F xs h k t
  sub : Sub t
  bh : BH t n
  cbh : CBH k (n + 1)
  crr : CRR k

theorem Z.setColorIf {h₀ F xs h k l x c r} (H : Z h₀ F xs h k (.node l x c r)) (c' : Bool) :
    ∃ h', h.setColorIf x c' = some h' ∧ Z h₀ F xs h' k (.node l x c' r) := by
  obtain ⟨h', e, H'⟩ := H.color c'
  exact ⟨h', by simp [Heap.setColorIf, H.ne0, e], H'⟩

theorem BH.nonnil {t n} (h : BH t (n + 1)) : ∃ l x c r, t = .node l x c r := by
  cases t with
  | nil => simp [BH] at h
  | node l x c r => exact ⟨l, x, c, r, rfl⟩

theorem siblingLeft_ok {h₀ F xs h k t p c S n} (G : Short h₀ F xs h (⟨true, p, c, S⟩ :: k) t n) :
    ∃ h' k' c' a s b, removeSiblingLeft h p = some (h', s) ∧ Short h₀ F xs h' (⟨true, p, c', .node a s false b⟩ :: k') t n ∧
      (k'.length = k.length ∨ c' = true) := by
  obtain ⟨H, hs, hb, ⟨c1, c2⟩, k1, k2, k3⟩ := G
  simp only at c1 c2 k1 k2
  obtain ⟨a, s, sc, b, rfl⟩ := c1.nonnil
  have e1 : h.right p = some s := H.upL.right
  have e2 : h.color s = some sc := H.upL.downR.getColor
  cases sc
  · exact ⟨h, k, c, a, s, b, by simp [removeSiblingLeft, e1, e2], ⟨H, hs, hb, ⟨c1, c2⟩, k1, k2, k3⟩, Or.inl rfl⟩
  · have hc : c = false := by
      cases c
      · rfl
      · have := (k2 rfl).1; cases this
    subst hc
    simp only [BH, if_true, Bool.false_eq_true, if_false] at c1 c2
    obtain ⟨h1, e3, H1⟩ := H.upL.setBlackRedR
    obtain ⟨h2, e4, H2⟩ := H1.rotateLeft
    have e5 : h2.right p = some a.id := H2.downL.right
    obtain ⟨k4, k5, k6⟩ := k1
    obtain ⟨k7, k8⟩ := k6 rfl
    obtain ⟨a1, y, yc, a2, rfl⟩ := c1.1.nonnil
    simp only [T.red] at k7
    subst k7
    refine ⟨h2, ⟨true, s, false, b⟩ :: k, true, a1, y, a2, by simp [removeSiblingLeft, e1, e2, e3, e4, e5], ⟨H2.downL.downL, hs, hb, ⟨c1.1, ?_⟩, k4, ?_, k5, by simp, k3⟩, Or.inr rfl⟩
    · simp only [if_true]
      exact ⟨c1.2, c2⟩
    · intro _
      exact ⟨rfl, rfl, by simp⟩

theorem nearLeft_ok {h₀ F xs h k t p c a s b n} (G : Short h₀ F xs h (⟨true, p, c, .node a s false b⟩ :: k) t n) (hr : a.red = true ∨ b.red = true) :
    ∃ h' A y b₁ z b₂, removeNearLeft h p s = some (h', y) ∧ Short h₀ F xs h' (⟨true, p, c, .node A y false (.node b₁ z true b₂)⟩ :: k) t n := by
  obtain ⟨H, hs, hb, ⟨c1, c2⟩, k1, k2, k3⟩ := G
  simp only at c1 c2 k1 k2
  have e1 : h.right s = some b.id := H.upL.downR.right
  have e2 : h.isRed b.id = b.red := H.upL.downR.downR.isRed
  cases hbr : b.red
  · rw [hbr] at hr
    cases a with
    | nil => simp [T.red] at hr
    | node a1 y ac a2 =>
      simp [T.red] at hr
      subst hr
      have e3 : h.left s = some y := H.upL.downR.left
      obtain ⟨h1, e4, H1⟩ := H.upL.downR.downL.setColorIf false
      obtain ⟨h2, e5, H2⟩ := H1.upL.color true
      obtain ⟨h3, e6, H3⟩ := H2.rotateRight
      have e7 : h3.right p = some y := H3.upR.right
      simp only [BH, Bool.false_eq_true, if_false, if_true] at c1
      obtain ⟨m, hm, q1, q2⟩ := c1
      obtain rfl : m = n := by omega
      refine ⟨h3, a1, y, a2, s, b, by simp [removeNearLeft, e1, e2, hbr, e3, e4, e5, e6, e7], H3.upR.downL, hs, hb, ⟨?_, c2⟩, ?_, fun q => ⟨rfl, (k2 q).2⟩, k3⟩
      · simp [BH, q1, q2]
      · obtain ⟨⟨k4, k5, k6⟩, k7, -⟩ := k1
        exact ⟨k4, ⟨k5, k7, fun _ => ⟨(k6 rfl).2, hbr⟩⟩, by simp⟩
  · cases b with
    | nil => cases hbr
    | node b1 z bc b2 =>
      simp only [T.red] at hbr
      subst hbr
      have e2 : h.isRed z = true := e2
      exact ⟨h, a, s, b1, z, b2, by simp [removeNearLeft, e1, e2], H, hs, hb, ⟨c1, c2⟩, k1, k2, k3⟩

theorem removeLeft_ok {h₀ F xs h k t p c S n} (G : Short h₀ F xs h (⟨true, p, c, S⟩ :: k) t n) (ht : t.red = false) :
    ∃ h' o, removeLeft h p = some (h', o) ∧
      ((∃ k' t' n', o = .next (par k') t'.id ∧ Short h₀ F xs h' k' t' n' ∧ (k'.length = k.length ∨ t'.red = true)) ∨
       (o = .done ∧ ∃ h'' t', h'.setColorIf h'.root false = some h'' ∧ Z h₀ F xs h'' [] t' ∧ RBT t')) := by
  obtain ⟨h1, k1, c1, a, s, b, e1, G1, hl⟩ := siblingLeft_ok G
  unfold removeLeft
  have e2 : h1.left s = some a.id := G1.z.upL.downR.left
  have e3 : h1.right s = some b.id := G1.z.upL.downR.right
  have e4 : h1.isRed a.id = a.red := G1.z.upL.downR.downL.isRed
  have e5 : h1.isRed b.id = b.red := G1.z.upL.downR.downR.isRed
  rw [e1]
  simp only [Option.bind_eq_bind, Option.bind_some, e2, e3, e4, e5]
  by_cases hr : a.red = true ∨ b.red = true
  · have hif : (!a.red && !b.red) = false := by rcases hr with hr | hr <;> simp [hr]
    simp only [hif, Bool.false_eq_true, if_false]
    obtain ⟨h2, A, y, b1, z, b2, e6, ⟨H2, hs, hb, ⟨q1, q2⟩, q3, q4, q5⟩⟩ := nearLeft_ok G1 hr
    simp only at q1 q2 q3 q4
    have e7 : h2.color p = some c1 := H2.upL.getColor
    obtain ⟨h3, e8, H3⟩ := H2.upL.downR.color c1
    obtain ⟨h4, e9, H4⟩ := H3.upR.color false
    have e10 : h4.right y = some z := H4.downR.right
    obtain ⟨h5, e11, H5⟩ := H4.downR.downR.setColorIf false
    obtain ⟨h6, e12, H6⟩ := H5.upR.upR.rotateLeft
    refine ⟨h6, .done, by simp [e6, e7, e8, e9, e10, e11, e12], Or.inr ⟨rfl, ?_⟩⟩
    simp only [BH, Bool.false_eq_true, if_false, if_true] at q1
    obtain ⟨m, hm, p1, p2⟩ := q1
    obtain rfl : m = n := by omega
    obtain ⟨r1, ⟨r2, r3, -⟩, -⟩ := q3
    obtain ⟨h7, e13, t', H7, R⟩ := H6.finish (n := if c1 = true then m + 1 else m + 2) H6.ne0 q5 ⟨⟨hs.rr ht, r1, by simp⟩, ⟨r2, r3, by simp⟩, fun _ => ⟨rfl, rfl⟩⟩ (fun q => by
      simp only [T.red]
      cases hc : c1
      · rfl
      · rw [(q4 hc).2.1] at q; cases q) (by
      cases c1 <;> simp [BH, hb, p1, p2]) q2
    refine ⟨h7, t', ?_, H7, R⟩
    have : h6.root ≠ 0 := by
      intro q
      simp [q, Heap.setColor] at e13
    simp [Heap.setColorIf, this, e13]
  · have ha : a.red = false := by simp at hr; exact hr.1
    have hb' : b.red = false := by simp at hr; exact hr.2
    simp only [ha, hb', Bool.not_false, Bool.and_self, if_true]
    obtain ⟨H1, hs, hb, ⟨q1, q2⟩, q3, q4, q5⟩ := G1
    simp only at q1 q2 q3 q4
    obtain ⟨h2, e6, H2⟩ := H1.upL.downR.color true
    have e7 : h2.parent p = some (par k1) := H2.upR.parent
    simp only [BH, Bool.false_eq_true, if_false] at q1
    obtain ⟨m, hm, p1, p2⟩ := q1
    obtain rfl : m = n := by omega
    obtain ⟨r1, r2, -⟩ := q3
    refine ⟨h2, .next (par k1) p, by simp [e6, e7], Or.inl ⟨k1, _, if c1 = true then m else m + 1, rfl, ⟨H2.upR, ⟨hs.rr ht, r1, r2, fun _ => ⟨ha, hb'⟩⟩, ?_, ?_, q5⟩, ?_⟩⟩
    · cases c1 <;> simp [BH, hb, p1, p2]
    · cases c1 <;> simpa using q2
    · rcases hl with hl | hl
      · exact Or.inl hl
      · exact Or.inr hl

/-! The same with left and right exchanged. -/

theorem siblingRight_ok {h₀ F xs h k t p c S n} (G : Short h₀ F xs h (⟨false, p, c, S⟩ :: k) t n) :
    ∃ h' k' c' a s b, removeSiblingRight h p = some (h', s) ∧ Short h₀ F xs h' (⟨false, p, c', .node b s false a⟩ :: k') t n ∧
      (k'.length = k.length ∨ c' = true) := by
  obtain ⟨H, hs, hb, ⟨c1, c2⟩, k1, k2, k3⟩ := G
  simp only at c1 c2 k1 k2
  obtain ⟨b, s, sc, a, rfl⟩ := c1.nonnil
  have e1 : h.left p = some s := H.upR.left
  have e2 : h.color s = some sc := H.upR.downL.getColor
  cases sc
  · exact ⟨h, k, c, a, s, b, by simp [removeSiblingRight, e1, e2], ⟨H, hs, hb, ⟨c1, c2⟩, k1, k2, k3⟩, Or.inl rfl⟩
  · have hc : c = false := by
      cases c
      · rfl
      · have := (k2 rfl).1; cases this
    subst hc
    simp only [BH, if_true, Bool.false_eq_true, if_false] at c1 c2
    obtain ⟨h1, e3, H1⟩ := H.upR.setBlackRedL
    obtain ⟨h2, e4, H2⟩ := H1.rotateRight
    have e5 : h2.left p = some a.id := H2.downR.left
    obtain ⟨k5, k4, k6⟩ := k1
    obtain ⟨k8, k7⟩ := k6 rfl
    obtain ⟨a1, y, yc, a2, rfl⟩ := c1.2.nonnil
    simp only [T.red] at k7
    subst k7
    refine ⟨h2, ⟨false, s, false, b⟩ :: k, true, a2, y, a1, by simp [removeSiblingRight, e1, e2, e3, e4, e5], ⟨H2.downR.downR, hs, hb, ⟨c1.2, ?_⟩, k4, ?_, k5, by simp, k3⟩, Or.inr rfl⟩
    · simp only [if_true]
      exact ⟨c1.1, c2⟩
    · intro _
      exact ⟨rfl, rfl, by simp⟩

theorem nearRight_ok {h₀ F xs h k t p c a s b n} (G : Short h₀ F xs h (⟨false, p, c, .node b s false a⟩ :: k) t n) (hr : a.red = true ∨ b.red = true) :
    ∃ h' A y b₁ z b₂, removeNearRight h p s = some (h', y) ∧ Short h₀ F xs h' (⟨false, p, c, .node (.node b₁ z true b₂) y false A⟩ :: k) t n := by
  obtain ⟨H, hs, hb, ⟨c1, c2⟩, k1, k2, k3⟩ := G
  simp only at c1 c2 k1 k2
  have e1 : h.left s = some b.id := H.upR.downL.left
  have e2 : h.isRed b.id = b.red := H.upR.downL.downL.isRed
  cases hbr : b.red
  · rw [hbr] at hr
    cases a with
    | nil => simp [T.red] at hr
    | node a1 y ac a2 =>
      simp [T.red] at hr
      subst hr
      have e3 : h.right s = some y := H.upR.downL.right
      obtain ⟨h1, e4, H1⟩ := H.upR.downL.downR.setColorIf false
      obtain ⟨h2, e5, H2⟩ := H1.upR.color true
      obtain ⟨h3, e6, H3⟩ := H2.rotateLeft
      have e7 : h3.left p = some y := H3.upL.left
      simp only [BH, Bool.false_eq_true, if_false, if_true] at c1
      obtain ⟨m, hm, q1, q2⟩ := c1
      obtain rfl : m = n := by omega
      refine ⟨h3, a2, y, b, s, a1, by simp [removeNearRight, e1, e2, hbr, e3, e4, e5, e6, e7], H3.upL.downR, hs, hb, ⟨?_, c2⟩, ?_, fun q => ⟨rfl, (k2 q).2⟩, k3⟩
      · simp [BH, q1, q2]
      · obtain ⟨k7, ⟨k4, k5, k6⟩, -⟩ := k1
        exact ⟨⟨k7, k4, fun _ => ⟨hbr, (k6 rfl).1⟩⟩, k5, by simp⟩
  · cases b with
    | nil => cases hbr
    | node b1 z bc b2 =>
      simp only [T.red] at hbr
      subst hbr
      have e2 : h.isRed z = true := e2
      exact ⟨h, a, s, b1, z, b2, by simp [removeNearRight, e1, e2], H, hs, hb, ⟨c1, c2⟩, k1, k2, k3⟩

theorem removeRight_ok {h₀ F xs h k t p c S n} (G : Short h₀ F xs h (⟨false, p, c, S⟩ :: k) t n) (ht : t.red = false) :
    ∃ h' o, removeRight h p = some (h', o) ∧
      ((∃ k' t' n', o = .next (par k') t'.id ∧ Short h₀ F xs h' k' t' n' ∧ (k'.length = k.length ∨ t'.red = true)) ∨
       (o = .done ∧ ∃ h'' t', h'.setColorIf h'.root false = some h'' ∧ Z h₀ F xs h'' [] t' ∧ RBT t')) := by
  obtain ⟨h1, k1, c1, a, s, b, e1, G1, hl⟩ := siblingRight_ok G
  unfold removeRight
  have e2 : h1.right s = some a.id := G1.z.upR.downL.right
  have e3 : h1.left s = some b.id := G1.z.upR.downL.left
  have e4 : h1.isRed a.id = a.red := G1.z.upR.downL.downR.isRed
  have e5 : h1.isRed b.id = b.red := G1.z.upR.downL.downL.isRed
  rw [e1]
  simp only [Option.bind_eq_bind, Option.bind_some, e2, e3, e4, e5]
  by_cases hr : a.red = true ∨ b.red = true
  · have hif : (!b.red && !a.red) = false := by rcases hr with hr | hr <;> simp [hr]
    simp only [hif, Bool.false_eq_true, if_false]
    obtain ⟨h2, A, y, b1, z, b2, e6, ⟨H2, hs, hb, ⟨q1, q2⟩, q3, q4, q5⟩⟩ := nearRight_ok G1 hr
    simp only at q1 q2 q3 q4
    have e7 : h2.color p = some c1 := H2.upR.getColor
    obtain ⟨h3, e8, H3⟩ := H2.upR.downL.color c1
    obtain ⟨h4, e9, H4⟩ := H3.upL.color false
    have e10 : h4.left y = some z := H4.downL.left
    obtain ⟨h5, e11, H5⟩ := H4.downL.downL.setColorIf false
    obtain ⟨h6, e12, H6⟩ := H5.upL.upL.rotateRight
    refine ⟨h6, .done, by simp [e6, e7, e8, e9, e10, e11, e12], Or.inr ⟨rfl, ?_⟩⟩
    simp only [BH, Bool.false_eq_true, if_false, if_true] at q1
    obtain ⟨m, hm, p1, p2⟩ := q1
    obtain rfl : m = n := by omega
    obtain ⟨⟨r2, r3, -⟩, r1, -⟩ := q3
    obtain ⟨h7, e13, t', H7, R⟩ := H6.finish (n := if c1 = true then m + 1 else m + 2) H6.ne0 q5 ⟨⟨r2, r3, by simp⟩, ⟨r1, hs.rr ht, by simp⟩, fun _ => ⟨rfl, rfl⟩⟩ (fun q => by
      simp only [T.red]
      cases hc : c1
      · rfl
      · rw [(q4 hc).2.1] at q; cases q) (by
      cases c1 <;> simp [BH, hb, p1, p2]) q2
    refine ⟨h7, t', ?_, H7, R⟩
    have : h6.root ≠ 0 := by
      intro q
      simp [q, Heap.setColor] at e13
    simp [Heap.setColorIf, this, e13]
  · have ha : a.red = false := by simp at hr; exact hr.1
    have hb' : b.red = false := by simp at hr; exact hr.2
    simp only [ha, hb', Bool.not_false, Bool.and_self, if_true]
    obtain ⟨H1, hs, hb, ⟨q1, q2⟩, q3, q4, q5⟩ := G1
    simp only at q1 q2 q3 q4
    obtain ⟨h2, e6, H2⟩ := H1.upR.downL.color true
    have e7 : h2.parent p = some (par k1) := H2.upL.parent
    simp only [BH, Bool.false_eq_true, if_false] at q1
    obtain ⟨m, hm, p1, p2⟩ := q1
    obtain rfl : m = n := by omega
    obtain ⟨r2, r1, -⟩ := q3
    refine ⟨h2, .next (par k1) p, by simp [e6, e7], Or.inl ⟨k1, _, if c1 = true then m else m + 1, rfl, ⟨H2.upL, ⟨⟨r2, r1, fun _ => ⟨hb', ha⟩⟩, hs.rr ht⟩, ?_, ?_, q5⟩, ?_⟩⟩
    · cases c1 <;> simp [BH, hb, p1, p2]
    · cases c1 <;> simpa using q2
    · rcases hl with hl | hl
      · exact Or.inl hl
      · exact Or.inr hl

theorem Z.root_ne {h₀ F xs h f k t} (H : Z h₀ F xs h (f :: k) t) : t.id ≠ h.root := by
  have h1 := H.plug
  have h2 : h.root = (Rb.plug (f :: k) t).id := h1.ctx
  have h3 : ∀ (k : Ctx) (t : T), (∀ g ∈ k, g.x ≠ 0) → (Rb.plug k t).id = t.id ∨ (Rb.plug k t).id ∈ pre k ++ post k := by
    intro k
    induction k with
    | nil => intro t _; exact Or.inl rfl
    | cons g k ih =>
      intro t hk
      rcases ih (fill g t) (fun x hx => hk x (by simp [hx])) with q | q
      · right
        show (Rb.plug k (fill g t)).id ∈ _
        rw [q, fill_id]
        simp only [pre, post]; split <;> simp
      · right
        show (Rb.plug k (fill g t)).id ∈ _
        simp only [pre, post]
        generalize (Rb.plug k (fill g t)).id = z at q
        split <;> (simp at q ⊢; grind)
  intro e
  rw [h2] at e
  by_cases h0 : t.id = 0
  · have : (Rb.plug (f :: k) t).id ≠ 0 := plug_id (k := k) (fun g hg => H.frames_ne0 g (by simp [hg])) (by rw [fill_id]; exact H.frames_ne0 f (by simp))
    exact this (e ▸ h0)
  · have hm := id_mem h0
    have hfx : f.x ∈ pre (f :: k) ++ post (f :: k) := par_mem (k := f :: k) (by simp)
    have hin : t.id ∈ pre (f :: k) ++ post (f :: k) := by
      rcases h3 k (fill f t) (fun g hg => H.frames_ne0 g (by simp [hg])) with q | q
      · have : t.id = f.x := by rw [e]; show (Rb.plug k (fill f t)).id = _; rw [q, fill_id]
        rw [this]; exact hfx
      · rw [e]
        show (Rb.plug k (fill f t)).id ∈ _
        simp only [pre, post]
        generalize (Rb.plug k (fill f t)).id = z at q
        split <;> (simp at q ⊢; grind)
    have := H.nodup
    rw [← H.ino] at this
    grind

/-- `RB_REMOVE_COLOR` returns, and leaves a red-black tree. -/
theorem removeColor_ok {h₀ F xs} (N : Nat) : ∀ {h k t n}, Short h₀ F xs h k t n → k.length + 2 ≤ N ∨ (t.red = true ∧ 1 ≤ N) →
    ∃ h', removeColor N h (par k) t.id = some h' ∧ ∃ t', Z h₀ F xs h' [] t' ∧ RBT t' := by
  induction N with
  | zero => intro h k t n _ hN; omega
  | succ N ih =>
    intro h k t n G hN
    have hr : h.isRed t.id = t.red := G.z.isRed
    rw [removeColor]
    cases ht : t.red
    · cases k with
      | nil =>
        have hroot : h.root = t.id := G.z.ctx
        cases t with
        | nil => exact ⟨h, by simp [hroot, Heap.setColorIf], _, G.z, trivial, rfl, 0, rfl⟩
        | node l x c r =>
          obtain ⟨h', e, H'⟩ := G.z.setColorIf false
          refine ⟨h', by simp [hroot, e], _, H', ⟨G.sub.1, G.sub.2, by simp⟩, rfl, n, ?_⟩
          simp only [T.red] at ht
          subst ht
          exact G.bh
      | cons f k =>
        have hN : (f :: k).length + 2 ≤ N + 1 := by simpa [ht] using hN
        have hne := G.z.root_ne
        obtain ⟨fl, p, c, S⟩ := f
        have h0 := G.z.ctx.1
        have e1 : h.left p = some (if fl then t.id else S.id) := by simp only [Heap.left, if_neg h0, G.z.ctx.2.2.2.1]
        have hround : ∃ h' o, removeRound h t.id p (if fl then t.id else S.id) = some (h', o) ∧
            ((∃ k' t' n', o = .next (par k') t'.id ∧ Short h₀ F xs h' k' t' n' ∧ (k'.length = k.length ∨ t'.red = true)) ∨
             (o = .done ∧ ∃ h'' t', h'.setColorIf h'.root false = some h'' ∧ Z h₀ F xs h'' [] t' ∧ RBT t')) := by
          cases fl
          · have hS : S.id ≠ t.id := by
              obtain ⟨l, x, c, r, rfl⟩ := G.cbh.1.nonnil
              exact Ne.symm (G.z.upR.ne_sibL (G.z.upR.downL.ne0))
            simpa [removeRound, hS] using removeRight_ok G ht
          · simpa [removeRound] using removeLeft_ok G ht
        obtain ⟨h', o, e2, ⟨k', t', n', rfl, G', hl⟩ | ⟨rfl, h'', t', e3, H, R⟩⟩ := hround
        · obtain ⟨h'', e3, R⟩ := ih G' (by simp only [List.length_cons] at hN; rcases hl with hl | hl; (left; omega); (right; exact ⟨hl, by omega⟩))
          exact ⟨h'', by simp [hr, ht, hne, par_cons, e1, e2, e3], R⟩
        · exact ⟨h'', by simp [hr, ht, hne, par_cons, e1, e2, e3], t', H, R⟩
    · cases t with
      | nil => cases ht
      | node l x c r =>
        simp only [T.red] at ht
        subst ht
        obtain ⟨h', e, H'⟩ := G.z.setColorIf false
        have hr : h.isRed x = true := hr
        refine ⟨h', by simp [hr, e], _, H'.plug, ?_⟩
        have hb : BH l n ∧ BH r n := by simpa [BH] using G.bh
        refine ⟨RR.plug G.crr ⟨G.sub.1, G.sub.2, by simp⟩ (fun _ => rfl), plug_black G.crr (fun _ => rfl), BH.plug G.cbh (by simpa [BH] using hb)⟩

end Verif.Rb
