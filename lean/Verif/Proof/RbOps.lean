import Verif.Proof.RbRemove
import Verif.Spec.Tree

/-! The calls as a whole, without assumptions on the comparison. -/
namespace Verif.Rb

def T.ht : T → Nat
  | .nil => 0
  | .node l _ _ r => Nat.max l.ht r.ht + 1

def T.size : T → Nat
  | .nil => 0
  | .node l _ _ r => l.size + r.size + 1

theorem size_ino (t : T) : t.ino.length = t.size := by
  induction t with
  | nil => rfl
  | node l x c r hl hr => simp [T.ino, T.size, hl, hr]; omega

theorem BH.size {t : T} {n : Nat} (h : BH t n) : 2 ^ n ≤ t.size + 1 := by
  induction t generalizing n with
  | nil => simp [BH] at h; simp [h, T.size]
  | node l x c r hl hr =>
    cases c
    · simp only [BH, Bool.false_eq_true, if_false] at h
      obtain ⟨m, rfl, h1, h2⟩ := h
      have := hl h1; have := hr h2
      simp only [T.size, Nat.pow_succ]; omega
    · simp only [BH, if_true] at h
      have := hl h.1
      simp only [T.size]; omega

theorem RR.ht {t : T} {n : Nat} (hr : RR t) (h : BH t n) : t.ht ≤ 2 * n + (if t.red then 1 else 0) := by
  induction t generalizing n with
  | nil => simp [T.ht]
  | node l x c r ihl ihr =>
    obtain ⟨h1, h2, h3⟩ := hr
    cases c
    · simp only [BH, Bool.false_eq_true, if_false] at h
      obtain ⟨m, rfl, b1, b2⟩ := h
      have q1 := ihl h1 b1
      have q2 := ihr h2 b2
      simp only [T.ht, T.red, Bool.false_eq_true, if_false]
      have : Nat.max l.ht r.ht ≤ 2 * m + 1 := Nat.max_le.2 ⟨by split at q1 <;> omega, by split at q2 <;> omega⟩
      omega
    · simp only [BH, if_true] at h
      have q1 := ihl h1 h.1
      have q2 := ihr h2 h.2
      rw [(h3 rfl).1] at q1
      rw [(h3 rfl).2] at q2
      simp only [T.ht, T.red, if_true]
      have : Nat.max l.ht r.ht ≤ 2 * n := Nat.max_le.2 ⟨by simpa using q1, by simpa using q2⟩
      omega

theorem RBT.ht {t : T} (h : RBT t) : t.ht ≤ 2 * Nat.log2 (t.size + 1) := by
  obtain ⟨n, hn⟩ := h.bh
  have h1 := h.rr.ht hn
  rw [h.black] at h1
  have h2 := hn.size
  have h3 : n ≤ Nat.log2 (t.size + 1) := (Nat.le_log2 (by omega)).2 h2
  simp at h1
  omega

theorem ht_plug (k : Ctx) (t : T) : k.length + t.ht ≤ (plug k t).ht := by
  induction k generalizing t with
  | nil => simp [plug]
  | cons f k ih =>
    have := ih (fill f t)
    have h2 : t.ht + 1 ≤ (fill f t).ht := by
      unfold fill
      split <;> simp only [T.ht]
      · have := Nat.le_max_left t.ht f.s.ht
        exact Nat.succ_le_succ this
      · have := Nat.le_max_right f.s.ht t.ht
        exact Nat.succ_le_succ this
    simp only [plug, List.length_cons]
    omega

/-! Finding the place -/

theorem locate {t : T} {x : Nat} (h : x ∈ t.ino) (k₀ : Ctx) : ∃ k l c r, plug k₀ t = plug k (.node l x c r) ∧ k₀.length ≤ k.length := by
  induction t generalizing k₀ with
  | nil => simp [T.ino] at h
  | node l y c r hl hr =>
    simp only [T.ino, List.mem_append, List.mem_cons] at h
    rcases h with h | rfl | h
    · obtain ⟨k, l', c', r', e, hk⟩ := hl h (⟨true, y, c, r⟩ :: k₀)
      exact ⟨k, l', c', r', by rw [← e]; simp [plug, fill], by simp at hk; omega⟩
    · exact ⟨k₀, l, c, r, rfl, Nat.le_refl _⟩
    · obtain ⟨k, l', c', r', e, hk⟩ := hr h (⟨false, y, c, l⟩ :: k₀)
      exact ⟨k, l', c', r', by rw [← e]; simp [plug, fill], by simp at hk; omega⟩

theorem Z.locate {h₀ F xs h t x} (H : Z h₀ F xs h [] t) (hx : x ∈ xs) : ∃ k l c r, t = Rb.plug k (.node l x c r) ∧ Z h₀ F xs h k (.node l x c r) := by
  have : x ∈ t.ino := by have := H.ino; simp [pre, post] at this; rw [this]; exact hx
  obtain ⟨k, l, c, r, e, -⟩ := Rb.locate this []
  refine ⟨k, l, c, r, e, ?_⟩
  have h2 : Z h₀ F xs h [] (Rb.plug k (.node l x c r)) := by
    have : Rb.plug [] t = t := rfl
    rw [← e, this]; exact H
  simpa using h2.unplug

/-- The leftmost element of a tree, and that the loop arrives there. -/
theorem lmost (l : T) : ∀ x c r, ∃ k e c' r', T.node l x c r = plug k (.node .nil e c' r') ∧ (∀ f ∈ k, f.left = true) ∧ k.length + 1 ≤ (T.node l x c r).ht ∧
    ∀ {h₀ F xs h k₀ N}, Z h₀ F xs h k₀ (T.node l x c r) → k.length + 1 ≤ N → leftmost N h x = some e := by
  induction l with
  | nil =>
    intro x c r
    refine ⟨[], x, c, r, rfl, by simp, by simp [T.ht], fun {h₀ F xs h k₀ N} H hN => ?_⟩
    obtain ⟨N, rfl⟩ : ∃ M, N = M + 1 := ⟨N - 1, by simp at hN; omega⟩
    simp [leftmost, H.left]
  | node a y d b ih _ =>
    intro x c r
    obtain ⟨k, e, c', r', e1, h1, h2, h3⟩ := ih y d b
    refine ⟨k ++ [⟨true, x, c, r⟩], e, c', r', ?_, ?_, ?_, fun {h₀ F xs h k₀ N} H hN => ?_⟩
    · rw [plug_append, ← e1]; simp [plug, fill]
    · intro f hf
      rcases List.mem_append.1 hf with hf | hf
      · exact h1 f hf
      · simp at hf; simp [hf]
    · have e : (T.node (T.node a y d b) x c r).ht = Nat.max (T.node a y d b).ht r.ht + 1 := rfl
      rw [e, List.length_append]
      have : (T.node a y d b).ht ≤ Nat.max (T.node a y d b).ht r.ht := Nat.le_max_left _ _
      simp only [List.length_cons, List.length_nil]
      omega
    · simp only [List.length_append, List.length_cons, List.length_nil] at hN
      obtain ⟨N, rfl⟩ : ∃ M, N = M + 1 := ⟨N - 1, by omega⟩
      have := h3 H.downL (N := N) (by omega)
      simp [leftmost, H.left, H.downL.ne0, this]

theorem plug_left_ino {k : Ctx} (hk : ∀ f ∈ k, f.left = true) : ∃ ys, ∀ t, (plug k t).ino = t.ino ++ ys := by
  induction k with
  | nil => exact ⟨[], by simp [plug]⟩
  | cons f k ih =>
    obtain ⟨ys, h⟩ := ih fun g hg => hk g (by simp [hg])
    refine ⟨f.x :: (f.s.ino ++ ys), fun t => ?_⟩
    have := hk f (by simp)
    simp [plug, h, fill, this, T.ino]

theorem climb_ok {h₀ F xs h} (k : Ctx) : ∀ {t N}, Z h₀ F xs h k t → k ≠ [] → k.length ≤ N → climb N h (par k) = some () := by
  induction k with
  | nil => intro t N _ h; exact absurd rfl h
  | cons f k ih =>
    intro t N H _ hN
    obtain ⟨N, rfl⟩ : ∃ M, N = M + 1 := ⟨N - 1, by simp at hN; omega⟩
    have e : h.parent f.x = some (par k) := by simp [Heap.parent, H.ctx.1, H.ctx.2.2.1]
    rw [par_cons, climb, e]
    simp only [Option.bind_eq_bind, Option.bind_some]
    cases k with
    | nil => simp [par]
    | cons g k =>
      have := ih H.up (N := N) (by simp) (by simp at hN ⊢; omega)
      simp [this]

/-! `RB_REMOVE` -/

theorem removeTwo_ok {h₀ F xs h k l x c r} {N : Nat} (H : Z h₀ F xs h k (.node l x c r)) (hl : l.id ≠ 0) (hr : r.id ≠ 0)
    (hN : k.length + (T.node l x c r).ht ≤ N) :
    ∃ k₁ e ec er h', r = Rb.plug k₁ (.node .nil e ec er) ∧ removeTwo N h x = some (h', par (k₁ ++ ⟨false, e, c, l⟩ :: k), er.id, ec) ∧
      Z h₀ F (xs.erase x) h' (k₁ ++ ⟨false, e, c, l⟩ :: k) er ∧ k₁.length + 2 ≤ (T.node l x c r).ht := by
  cases r with
  | nil => simp at hr
  | node rl rx rc rr =>
    obtain ⟨k₁, e, ec, er, e1, hk₁, hht, hrun⟩ := lmost rl rx rc rr
    have hhr : (T.node rl rx rc rr).ht + 1 ≤ (T.node l x c (.node rl rx rc rr)).ht := by
      have : (T.node rl rx rc rr).ht ≤ Nat.max l.ht (T.node rl rx rc rr).ht := Nat.le_max_right _ _
      exact Nat.succ_le_succ this
    have e2 : h.right x = some rx := H.right
    have e3 : leftmost N h rx = some e := hrun H.downR (by omega)
    have HR := H.downR
    rw [e1] at HR
    have HE := HR.unplug
    have e4 : h.right e = some er.id := HE.right
    have e5 : h.parent e = some (par (k₁ ++ ⟨false, x, c, l⟩ :: k)) := HE.parent
    have e6 : h.color e = some ec := HE.getColor
    obtain ⟨h1, e7, H1, a1, a2, a3, a4⟩ := HE.splice (B := er) (Or.inl ⟨rfl, rfl⟩)
    have e8 : h1.parent e = some (par (k₁ ++ ⟨false, x, c, l⟩ :: k)) := by
      simp only [Heap.parent, HE.ne0, if_false] at e5 ⊢
      rw [a3]; exact e5
    have hex : e ∈ xs := by rw [← HE.ino]; simp [T.ino]
    have H2 := H1.replug.upR
    obtain ⟨h2, e9, H3⟩ := H2.takeOver hl HE.ne0 (fun q => (HE.nodup.mem_erase_iff.1 q).1 rfl) (HE.sub e hex)
    have H4 := H3.downR.unplug
    have hpe : (if par (k₁ ++ ⟨false, x, c, l⟩ :: k) = x then e else par (k₁ ++ ⟨false, x, c, l⟩ :: k)) = par (k₁ ++ ⟨false, e, c, l⟩ :: k) := by
      cases k₁ with
      | nil => simp [par]
      | cons f k₁ =>
        have : f.x ≠ x := by
          have h1 := H2.nodup
          rw [← H2.ino] at h1
          simp only [T.ino] at h1
          have hf := hk₁ f (by simp)
          obtain ⟨ys, hy⟩ := plug_left_ino (k := f :: k₁) hk₁
          have h3 : f.x ∈ (Rb.plug (f :: k₁) er).ino := by
            have : ∀ (k : Ctx) (t : T) (z : Nat), z ∈ t.ino → z ∈ (Rb.plug k t).ino := by
              intro k
              induction k with
              | nil => intro t z h; exact h
              | cons g k ih =>
                intro t z h
                apply ih
                unfold fill
                split <;> simp [T.ino, h]
            apply this k₁
            unfold fill
            split <;> simp [T.ino]
          grind
        simp [par, this]
    have hino : pre k ++ (l.ino ++ e :: (Rb.plug k₁ er).ino ++ post k) = xs.erase x := by
      obtain ⟨ys, hy⟩ := plug_left_ino (k := k₁) hk₁
      have h1 := H.nodup
      rw [← H.ino] at h1 ⊢
      simp only [T.ino] at h1 ⊢
      have h2 : rl.ino ++ rx :: rr.ino = e :: (er.ino ++ ys) := by
        have : (T.node rl rx rc rr).ino = (Rb.plug k₁ (.node .nil e ec er)).ino := by rw [e1]
        rw [hy] at this
        simpa [T.ino] using this
      rw [h2, hy] 
      have q1 : x ∉ pre k := by grind
      have q2 : x ∉ l.ino := by grind
      rw [List.erase_append_right _ q1, List.append_assoc, List.append_assoc, List.erase_append_right _ q2]
      simp
    rw [hino] at H4
    refine ⟨k₁, e, ec, er, h2, e1, ?_, H4, by omega⟩
    have hc := climb_ok _ H4 (N := N) (by simp) (by simp; omega)
    have hne : par (k₁ ++ ⟨false, e, c, l⟩ :: k) ≠ 0 := by rw [Ne, H4.par0]; simp
    simp [removeTwo, e2, e3, e4, e5, e6, e7, e8, hpe, e9, climbIf, hne, hc]

theorem remove_ok {h₀ F xs h t x} {N : Nat} (H : Z h₀ F xs h [] t) (R : RBT t) (hx : x ∈ xs) (hN : t.ht + 2 ≤ N) :
    ∃ h' t', remove N h x = some h' ∧ Z h₀ F (xs.erase x) h' [] t' ∧ RBT t' := by
  obtain ⟨k, l, c, r, rfl, HX⟩ := H.locate hx
  have S : Split k (.node l x c r) := by simpa using (Split.of_rbt R).unplug
  have hh := ht_plug k (.node l x c r)
  have hlen : k.length + 1 ≤ (Rb.plug k (.node l x c r)).ht := by simp only [T.ht] at hh; omega
  have e1 : h.left x = some l.id := HX.left
  have e2 : h.right x = some r.id := HX.right
  have one : ∀ B : T, ((l = .nil ∧ r = B) ∨ (r = .nil ∧ l = B)) →
      ∃ h' t', (do let (h, parent, child, color) ← removeOne h x B.id
                   if color then some h else removeColor N h parent child) = some h' ∧ Z h₀ F (xs.erase x) h' [] t' ∧ RBT t' := by
    intro B hB
    have e3 : h.parent x = some (par k) := HX.parent
    have e4 : h.color x = some c := HX.getColor
    obtain ⟨h1, e5, H1, -⟩ := HX.splice hB
    have hRB : RR B := by
      obtain ⟨q1, q2, -⟩ := S.rr
      rcases hB with ⟨-, rfl⟩ | ⟨-, rfl⟩ <;> assumption
    cases c
    · obtain ⟨n, hb, hc⟩ := S.bh
      simp only [BH, Bool.false_eq_true, if_false] at hb
      obtain ⟨m, rfl, b1, b2⟩ := hb
      have hBB : BH B m := by rcases hB with ⟨-, rfl⟩ | ⟨-, rfl⟩ <;> assumption
      obtain ⟨h2, e6, t', H2, R2⟩ := removeColor_ok N ⟨H1, hRB.sub, hBB, hc, S.crr⟩ (Or.inl (by omega))
      exact ⟨h2, t', by simp [removeOne, e3, e4, e5, e6], H2, R2⟩
    · refine ⟨h1, _, by simp [removeOne, e3, e4, e5], H1.plug, ?_⟩
      obtain ⟨n, hb, hc⟩ := S.bh
      simp only [BH, if_true] at hb
      have hBB : BH B n := by rcases hB with ⟨-, rfl⟩ | ⟨-, rfl⟩; exact hb.2; exact hb.1
      refine Split.rbt ⟨S.crr, hRB, fun q => ?_, fun q => ?_, n, hBB, hc⟩
      · have := S.head q; cases this
      · have := S.top q; cases this
  by_cases hl : l.id = 0
  · have hl' : l = .nil := by
      cases l with
      | nil => rfl
      | node a y d b => exact absurd hl HX.downL.ne0
    obtain ⟨h', t', e3, R'⟩ := one r (Or.inl ⟨hl', rfl⟩)
    refine ⟨h', t', ?_, R'⟩
    rw [← e3]
    simp [remove, e1, e2, removeLink, hl]
  · by_cases hr : r.id = 0
    · have hr' : r = .nil := by
        cases r with
        | nil => rfl
        | node a y d b => exact absurd hr HX.downR.ne0
      obtain ⟨h', t', e3, R'⟩ := one l (Or.inr ⟨hr', rfl⟩)
      refine ⟨h', t', ?_, R'⟩
      rw [← e3]
      simp [remove, e1, e2, removeLink, hl, hr]
    · obtain ⟨k₁, e, ec, er, h1, e3, e4, H1, hk⟩ := removeTwo_ok HX hl hr (N := N) (by omega)
      have S1 : Split k (.node l e c r) := ⟨S.crr, S.rr, S.head, S.top, S.bh⟩
      have S2 := S1.downR
      rw [e3] at S2
      have S3 := S2.unplug
      cases ec
      · obtain ⟨n, hb, hc⟩ := S3.bh
        simp only [BH, Bool.false_eq_true, if_false] at hb
        obtain ⟨m, rfl, b1, b2⟩ := hb
        obtain ⟨h2, e6, t', H2, R2⟩ := removeColor_ok N ⟨H1, S3.rr.2.1.sub, b2, hc, S3.crr⟩ (Or.inl (by simp; omega))
        exact ⟨h2, t', by simp [remove, e1, e2, removeLink, hl, hr, e4, e6], H2, R2⟩
      · refine ⟨h1, _, by simp [remove, e1, e2, removeLink, hl, hr, e4], H1.plug, ?_⟩
        obtain ⟨n, hb, hc⟩ := S3.bh
        simp only [BH, if_true] at hb
        exact Split.rbt ⟨S3.crr, S3.rr.2.1, fun q => (by have := S3.head q; cases this), fun q => (by simp at q), n, hb.2, hc⟩

end Verif.Rb
