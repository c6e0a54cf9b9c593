import Verif.Proof.WeakDequeThief

/-!
The steps of the owner.
-/
namespace Verif.Wd

variable {α : Type}

theorem Covers.congr {s s' : St α} {h : Nat → Option α × Nat} (h1 : s'.cell = s.cell) (h2 : s'.size = s.size) {w : View} {t : Nat} (c : Covers s h w t) : Covers s' h w t :=
  ⟨by rw [h1, h2]; exact c.ts, by rw [h1, h2]; exact c.now, c.clk⟩

/-- Memory is as it was, except perhaps for `top`; the owner goes on. -/
theorem Ext.turn {s s' : St α} (h : Nat → Option α × Nat) (h1 : s.top.last ≤ s'.top.last) (h2 : s'.bottom = s.bottom) (h3 : s'.array = s.array) (h4 : s'.cell = s.cell) (h5 : s'.size = s.size) (h7 : s'.calls = s.calls)
    (k1 : ∀ t, taking s'.o t → taking s.o t) (k2 : ∀ t, t ≤ s.top.last → taking s.o t → taking s'.o t ∨ t < s'.top.last) : Ext s s' h h := by
  refine ⟨by rw [h7]; exact Nat.le_refl _, h1, by rw [h2]; exact Nat.le_refl _, by rw [h3]; exact Nat.le_refl _, fun _ _ => by rw [h2], fun _ _ => by rw [h2], fun _ _ => by rw [h4]; exact Nat.le_refl _,
    fun _ _ => by rw [h5], ?_, ?_, fun _ _ _ _ _ _ _ _ => ⟨by rw [h4], rfl⟩, ?_⟩
  · rintro p t _ ⟨q, q1, q2, q3, q4⟩
    refine ⟨q, q1, by rw [h2]; exact q2, by unfold Low at q3 ⊢; rw [h2]; exact q3, ?_⟩
    rw [h2]
    exact fun c => q4 ⟨c.1, k1 t c.2⟩
  · rintro p t _ ht ⟨q, q1, q2, q3, q4⟩
    rw [h2] at q2 q4
    unfold Low at q3
    rw [h2] at q3
    by_cases c : q + 1 = s.bottom.last ∧ taking s.o t
    · rcases k2 t ht c.2 with z | z
      · exact absurd ⟨c.1, z⟩ q4
      · exact .inr z
    · exact .inl ⟨q, q1, q2, q3, c⟩
  · intro l
    rw [h2] at l
    exact absurd l (Nat.lt_irrefl _)

theorem not_low {s : St α} {h : Nat → Option α × Nat} {pop : List (Option α)} (I : Inv s h pop) (nf : ∀ b t, s.o ≠ .fence b t) {q : Nat} (h1 : s.sc.ts .bottom ≤ q) (h2 : q < s.bottom.last)
    (h3 : s.bottom.val q = s.bottom.val (q + 1) + 1) : False := by
  obtain ⟨_, b, t, e⟩ := I.low q h1 h2 h3
  exact nf b t e

/-- The owner learns something about `top`, or nothing. -/
theorem Inv.turn {s s' : St α} {h : Nat → Option α × Nat} {pop : List (Option α)} (I : Inv s h pop) {th : Thr} {o : OPc α} (e : s' = { s with ot := th, o := o })
    (x : Ext s s' h h) (h1 : Ok s h th.cur) (h2 : Ok s h th.acq) (h3 : th.rel = s.ot.rel) (h4 : ∀ l, l ≠ .top → th.cur.ts l = s.ot.cur.ts l) (h5 : s.ot.cur.ts .top ≤ th.cur.ts .top)
    (h6 : th.cur.clk = s.calls.length) (h7 : s'.len = s.len) (h8 : OwnerAt s' h) (h9 : late o = false → late s.o = false) (nf : ∀ b t, s.o ≠ .fence b t) : Inv s' h pop := by
  have m := I.mine
  have vs := I.views.imp fun w => Ok.ext (w := w) x
  have c1 := h1.ext x
  have c2 := h2.ext x
  have g' : Grows s' := by
    intro p q k1 k2
    subst e
    exact I.grows p q k1 k2
  have low : ∀ q, s.sc.ts .bottom ≤ q → q < s.bottom.last → s.bottom.val q = s.bottom.val (q + 1) + 1 → False := fun q => not_low I nf
  have rel : RelAt s' h := by
    intro q
    have q' : late s.o = false := by subst e; exact h9 q
    obtain ⟨r1, r2⟩ := I.rel q'
    have : s'.ot.rel = s.ot.rel := by subst e; exact h3
    rw [this, h7]
    refine ⟨by subst e; exact r1, fun t k1 k2 => ?_⟩
    have := r2 t (Nat.le_trans x.top k1) k2
    exact this.congr (by subst e; rfl) (by subst e; rfl)
  have m' : Mine s' := by
    refine ⟨?_, ?_, ?_, ?_, ?_⟩
    · subst e; exact (h4 _ (by decide)).trans m.bot
    · subst e; exact (h4 _ (by decide)).trans m.arr
    · intro a c; subst e; exact (h4 _ (by intro e; cases e)).trans (m.cell a c)
    · subst e; exact h6
    · have := m.win
      rw [h7]
      subst e
      show s.len - th.cur.ts .top ≤ s.size s.array.last
      omega
  have thief : ∀ j, ThiefAt s' h (s.tt j).cur (s.th j) := fun j => (I.thief j).ext x (I.views.tc j)
  have tops : s'.top.last ≤ s'.len := by rw [h7]; subst e; exact I.tops
  have hist : ∀ t, t < s'.len → (h t).2 < s.calls.length ∧ s.calls[(h t).2]? = (h t).1 ∧ (s.top.last ≤ t → (s.cell s.array.last (t % s.size s.array.last)).now = (h t).1) := by
    rw [h7]; exact I.hist
  have pushed : (s.pushed.map some).Perm (pop ++ (List.range s'.len).map fun i => (h i).1) := by rw [h7]; exact I.pushed
  have some_ : s.pushed ≠ [] → 1 ≤ s'.len := by rw [h7]; exact I.some_
  subst e
  refine ⟨I.tv, I.av, I.sz, I.new, I.bs, I.bself, g', ⟨c1, c2, ?_, vs.tc, vs.ta, vs.sc, vs.top, vs.bot, vs.cell, vs.arr⟩, m', h8, rel, tops, hist, ?_, thief, I.got, pushed, some_, I.seen⟩
  · dsimp only
    rw [h3]; exact vs.or
  · intro q q1 q2 q3
    exact (low q q1 q2 q3).elim

/-- A message of `bottom` that tells of everything below it. -/
theorem Ok.message {s s' : St α} {h : Nat → Option α × Nat} {n : Nat} {w v : View} (e1 : s'.top = s.top) (e2 : s'.bottom = s.bottom.add n v) (e3 : s'.array = s.array) (e4 : s'.cell = s.cell)
    (e5 : s'.size = s.size) (e6 : s'.calls = s.calls) (ok : Ok s h w) (ha : w.ts .array = s.array.last) (hv : v.ts .array ≤ s.array.last) (c : ∀ t, s.top.last ≤ t → t < n → Covers s h w t) :
    Ok s' h (w.reach .bottom (s.bottom.last + 1)) := by
  have b : (w.reach .bottom (s.bottom.last + 1)).ts .bottom = s.bottom.last + 1 := by
    rw [View.reach_same]; have := ok.bot; omega
  have r : ∀ l, l ≠ .bottom → (w.reach .bottom (s.bottom.last + 1)).ts l = w.ts l := fun l n => View.reach_ne n
  have bl : s'.bottom.last = s.bottom.last + 1 := by rw [e2]; rfl
  refine ⟨?_, ?_, ?_, ?_, ?_, fun a y => ?_, by rw [e6]; exact ok.clk, fun t h1 h2 _ => ?_⟩
  · rw [r _ (by decide), e1]; exact ok.top
  · rw [b, bl]; exact Nat.le_refl _
  · rw [r _ (by decide), e3]; exact ok.arr
  · rw [b, r _ (by decide), ha]
    unfold St.arrAt
    rw [e2]
    show (fn s.bottom.view (s.bottom.last + 1) v (s.bottom.last + 1)).ts .array ≤ _
    rw [fn_same]; exact hv
  · intro l
    rw [b, bl] at l
    exact absurd l (Nat.lt_irrefl _)
  · rw [r _ (by intro e; cases e), e4]; exact ok.cell a y
  · rw [b, e2] at h1
    have h1' : t < fn s.bottom.val (s.bottom.last + 1) n (s.bottom.last + 1) := h1
    rw [fn_same] at h1'
    rw [e1] at h2
    exact ((c t h2 h1').congr e4 e5).mono (View.le_reach _ _ _) (r _ (by decide))

theorem add_val {β : Type} {x : Hist β} {v : β} {w : View} {i : Nat} (h : i ≤ x.last) : (x.add v w).val i = x.val i := fn_ne (by omega)
theorem add_view {β : Type} {x : Hist β} {v : β} {w : View} {i : Nat} (h : i ≤ x.last) : (x.add v w).view i = x.view i := fn_ne (by omega)
theorem add_val_last {β : Type} {x : Hist β} {v : β} {w : View} : (x.add v w).val (x.last + 1) = v := fn_same _ _ _
theorem add_view_last {β : Type} {x : Hist β} {v : β} {w : View} : (x.add v w).view (x.last + 1) = w := fn_same _ _ _
theorem add_now {β : Type} {x : Hist β} {v : β} {w : View} : (x.add v w).now = v := fn_same _ _ _
theorem add_last {β : Type} {x : Hist β} {v : β} {w : View} : (x.add v w).last = x.last + 1 := rfl

/-- A new message of `bottom`. -/
theorem Ext.bottom {s s' : St α} (h : Nat → Option α × Nat) {n : Nat} {w : View} (h1 : s'.top = s.top) (h2 : s'.bottom = s.bottom.add n w) (h3 : s'.array = s.array) (h4 : s'.cell = s.cell)
    (h5 : s'.size = s.size) (h7 : s'.calls = s.calls) (k1 : ∀ t, ¬ taking s.o t) (k2 : s.bottom.now = n + 1 → taking s'.o n) (k3 : s.array.last ≤ w.ts .array) : Ext s s' h h := by
  have bl : s'.bottom.last = s.bottom.last + 1 := by rw [h2]; rfl
  have low : ∀ q t, q < s.bottom.last → (Low s' q t ↔ Low s q t) := by
    intro q t l
    unfold Low
    rw [h2, add_val (Nat.le_of_lt l), add_val l]
  refine ⟨by rw [h7]; exact Nat.le_refl _, by rw [h1]; exact Nat.le_refl _, by rw [bl]; exact Nat.le_succ _, by rw [h3]; exact Nat.le_refl _, fun p l => by rw [h2, add_val l], fun p l => by rw [h2, add_view l], fun _ _ => by rw [h4]; exact Nat.le_refl _,
    fun _ _ => by rw [h5], ?_, ?_, fun _ _ _ _ _ _ _ _ => ⟨by rw [h4], rfl⟩, ?_⟩
  · rintro p t _ ⟨q, q1, q2, q3, _⟩
    exact ⟨q, q1, by omega, (low q t q2).2 q3, fun c => by omega⟩
  · rintro p t _ _ ⟨q, q1, q2, q3, q4⟩
    rcases Nat.lt_or_ge q s.bottom.last with l | l
    · exact .inl ⟨q, q1, l, (low q t l).1 q3, fun c => k1 t c.2⟩
    · have qe : q = s.bottom.last := by omega
      subst qe
      obtain ⟨z1, z2⟩ := q3
      rw [h2, add_val (Nat.le_refl _)] at z1
      rw [h2, add_val_last] at z2
      refine absurd ⟨bl.symm, ?_⟩ q4
      rw [← z2]
      exact k2 (by rw [z2]; exact z1)
  · intro _
    unfold St.arrAt
    rw [h2, add_view_last]
    exact k3

/-- The owner stores to `bottom`. -/
theorem Inv.bottomed {s s' : St α} {h : Nat → Option α × Nat} {pop : List (Option α)} (I : Inv s h pop) {n : Nat} {w r : View} {o : OPc α} {pu : List α}
    (e : s' = { s with ot := ⟨s.ot.cur.reach .bottom (s.bottom.last + 1), s.ot.acq, r⟩, bottom := s.bottom.add n (w.reach .bottom (s.bottom.last + 1)), o := o, pushed := pu })
    (h1 : Ok s h w) (h2 : w.ts .array = s.array.last) (h3 : ∀ t, s.top.last ≤ t → t < n → Covers s h w t) (h4 : ∀ t, s.top.last ≤ t → t < n → Covers s h s.ot.cur t) (h5 : Ok s h r)
    (k1 : ∀ t, ¬ taking s.o t) (k2 : s.bottom.now = n + 1 → taking o n ∧ ∃ b t, o = .fence b t) (k3 : n = s.bottom.now + 1 ∨ s.bottom.now = n + 1)
    (a1 : OwnerAt s' h) (a2 : RelAt s' h) (a3 : s.top.last ≤ s'.len) (a4 : ∀ t, t < s'.len → (h t).2 < s.calls.length ∧ s.calls[(h t).2]? = (h t).1 ∧ (s.top.last ≤ t → (s.cell s.array.last (t % s.size s.array.last)).now = (h t).1))
    (a5 : s'.len - s.ot.cur.ts .top ≤ s.size s.array.last) (a6 : (pu.map some).Perm (pop ++ (List.range s'.len).map fun i => (h i).1)) (a7 : pu ≠ [] → 1 ≤ s'.len) (nf : ∀ b t, s.o ≠ .fence b t) : Inv s' h pop := by
  have m := I.mine
  have wa : (w.reach .bottom (s.bottom.last + 1)).ts .array = s.array.last := by rw [View.reach_ne (by decide), h2]
  have x : Ext s s' h h := by
    subst e
    exact Ext.bottom h (n := n) (w := w.reach .bottom (s.bottom.last + 1)) rfl rfl rfl rfl rfl rfl k1 (fun z => (k2 z).1) (Nat.le_of_eq wa.symm)
  have bl : s'.bottom.last = s.bottom.last + 1 := by subst e; rfl
  have eb : s'.bottom = s.bottom.add n (w.reach .bottom (s.bottom.last + 1)) := by subst e; rfl
  have g' : Grows s' := by
    intro p q l1 l2
    rcases Nat.lt_or_ge s.bottom.last q with z | z
    · have : q = s.bottom.last + 1 := by omega
      subst this
      rcases Nat.lt_or_ge s.bottom.last p with y | y
      · have : p = s.bottom.last + 1 := by omega
        subst this
        exact Nat.le_refl _
      · rw [x.arrAt y]
        have := (I.views.bot p y).arr
        exact Nat.le_trans this (x.next (by omega))
    · rw [x.arrAt z, x.arrAt (Nat.le_trans l1 z)]
      exact I.grows p q l1 z
  have vs := I.views.imp fun w => Ok.ext (w := w) x
  have ow : Ok s' h (w.reach .bottom (s.bottom.last + 1)) :=
    Ok.message (by subst e; rfl) eb (by subst e; rfl) (by subst e; rfl) (by subst e; rfl) (by subst e; rfl) h1 h2 (Nat.le_of_eq wa) h3
  have oc : Ok s' h (s.ot.cur.reach .bottom (s.bottom.last + 1)) :=
    Ok.message (by subst e; rfl) eb (by subst e; rfl) (by subst e; rfl) (by subst e; rfl) (by subst e; rfl) I.views.oc m.arr (Nat.le_of_eq wa) h4
  have or : Ok s' h r := h5.ext x
  have thief : ∀ j, ThiefAt s' h (s.tt j).cur (s.th j) := fun j => (I.thief j).ext x (I.views.tc j)
  have bself : ∀ p, p ≤ s'.bottom.last → (s'.bottom.view p).ts .bottom = p := by
    intro p l
    rcases Nat.lt_or_ge s.bottom.last p with y | y
    · have : p = s.bottom.last + 1 := by omega
      subst this
      rw [eb, add_view_last, View.reach_same]
      have := h1.bot
      omega
    · rw [x.bview p y]; exact I.bself p y
  have bs : ∀ q, q < s'.bottom.last → s'.bottom.val (q + 1) = s'.bottom.val q + 1 ∨ s'.bottom.val q = s'.bottom.val (q + 1) + 1 := by
    intro q l
    rcases Nat.lt_or_ge q s.bottom.last with y | y
    · rw [x.bval _ (Nat.le_of_lt y), x.bval _ y]; exact I.bs q y
    · have : q = s.bottom.last := by omega
      subst this
      rw [eb, add_val (Nat.le_refl _), add_val_last]
      exact k3
  have bot : ∀ i, i ≤ s'.bottom.last → Ok s' h (s'.bottom.view i) := by
    intro i l
    rcases Nat.lt_or_ge s.bottom.last i with y | y
    · have : i = s.bottom.last + 1 := by omega
      subst this
      rw [eb, add_view_last]; exact ow
    · rw [x.bview i y]; exact vs.bot i y
  have low : ∀ q, s.sc.ts .bottom ≤ q → q < s'.bottom.last → s'.bottom.val q = s'.bottom.val (q + 1) + 1 → q + 1 = s'.bottom.last ∧ ∃ b t, o = .fence b t := by
    intro q q1 q2 q3
    rcases Nat.lt_or_ge q s.bottom.last with y | y
    · rw [x.bval _ (Nat.le_of_lt y), x.bval _ y] at q3
      exact (not_low I nf q1 y q3).elim
    · have : q = s.bottom.last := by omega
      subst this
      rw [eb, add_val (Nat.le_refl _), add_val_last] at q3
      exact ⟨bl.symm, (k2 q3).2⟩
  have mine : Mine s' := by
    subst e
    refine ⟨?_, ?_, ?_, ?_, ?_⟩
    · show (s.ot.cur.reach .bottom (s.bottom.last + 1)).ts .bottom = _
      rw [View.reach_same, m.bot]; exact Nat.max_eq_right (Nat.le_succ _)
    · show (s.ot.cur.reach .bottom (s.bottom.last + 1)).ts .array = _
      rw [View.reach_ne (by decide)]; exact m.arr
    · intro a c
      show (s.ot.cur.reach .bottom (s.bottom.last + 1)).ts _ = _
      rw [View.reach_ne (by intro e; cases e)]; exact m.cell a c
    · exact m.clk
    · show _ - (s.ot.cur.reach .bottom (s.bottom.last + 1)).ts .top ≤ _
      rw [View.reach_ne (by decide)]
      exact a5
  subst e
  exact ⟨I.tv, I.av, I.sz, I.new, bs, bself, g', ⟨oc, vs.oa, or, vs.tc, vs.ta, vs.sc, vs.top, bot, vs.cell, vs.arr⟩, mine, a1, a2, a3, a4, low, thief, I.got, a6, a7, I.seen⟩

end Verif.Wd
