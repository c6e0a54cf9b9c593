import Verif.Proof.WeakDequeOwner

/-!
All steps keep the invariant.
-/
namespace Verif.Wd

variable {α : Type}

theorem OwnerAt.of {s : St α} {h : Nat → Option α × Nat} {o : OPc α} (a : OwnerAt s h) (e : s.o = o) : OwnerAt { s with o := o } h := by
  have : { s with o := o } = s := by rw [← e]
  rw [this]; exact a

/-- What a load of `top` leaves the owner with. -/
theorem Inv.topped {s : St α} {h : Nat → Option α × Nat} {pop : List (Option α)} (I : Inv s h pop) {acq : Bool} {i : Nat} (hm : s.ot.may .top s.top i = true) :
    Ok s h (s.ot.load acq .top s.top i).cur ∧ Ok s h (s.ot.load acq .top s.top i).acq ∧ (∀ l, l ≠ .top → (s.ot.load acq .top s.top i).cur.ts l = s.ot.cur.ts l) ∧
    s.ot.cur.ts .top ≤ (s.ot.load acq .top s.top i).cur.ts .top ∧ i ≤ (s.ot.load acq .top s.top i).cur.ts .top ∧ (s.ot.load acq .top s.top i).cur.clk = s.calls.length := by
  obtain ⟨m1, m2⟩ := may_iff hm
  have m := I.mine
  have ov := I.views.top i m2
  obtain ⟨v1, v2⟩ := Views.load (acq := acq) (l := .top) (x := s.top) (i := i) I.grows I.views.oc I.views.oa ov fun v o => o.reachTop m2
  refine ⟨v1, v2, fun l n => ?_, (load_le _ _ _ _ _).ts _, ?_, ?_⟩
  · refine Nat.le_antisymm ?_ ((load_le _ _ _ _ _).ts l)
    cases l with
    | top => exact absurd rfl n
    | bottom => rw [m.bot]; exact v1.bot
    | array => rw [m.arr]; exact v1.arr
    | cell a c => rw [m.cell]; exact v1.cell a c
  · show i ≤ (View.reach _ .top i).ts .top
    rw [View.reach_same]; exact Nat.le_max_right _ _
  · exact Nat.le_antisymm v1.clk (by rw [← m.clk]; exact (load_le _ _ _ _ _).clk)

theorem Inv.pushStep {s s' : St α} {h : Nat → Option α × Nat} {pop : List (Option α)} (I : Inv s h pop) {M : Mach} {i : Nat} {w : α} (ho : s.o = .push w) (e : ownerStep M s i = some s') : Inv s' h pop := by
  unfold ownerStep at e
  rw [ho] at e
  dsimp only at e
  split at e
  · next hm =>
    obtain ⟨m1, m2⟩ := may_iff hm
    obtain ⟨v1, v2, v3, v4, v5, v6⟩ := I.topped (acq := true) hm
    cases e
    have a := I.at_
    unfold OwnerAt at a
    rw [ho] at a
    have win := I.mine.win
    have hl : s.len = s.bottom.now := by unfold St.len; rw [ho]
    rw [hl] at win
    have an : s.array.now = s.array.last := I.av _ (Nat.le_refl _)
    have sz := I.sz _ (Nat.le_refl s.array.last)
    rw [I.tv i m2, an]
    have nt : ∀ t, ¬ taking s.o t := fun t c => by rw [ho] at c; exact c
    by_cases c : s.bottom.now - i > s.size s.array.last - 1
    · rw [if_pos c]
      refine I.turn rfl (Ext.turn h (Nat.le_refl _) rfl rfl rfl rfl rfl (fun t z => z.elim) fun t _ z => absurd z (nt t)) v1 v2 rfl v3 v4 v6 (by unfold St.len; rw [ho]) ⟨a.1, a.2, rfl⟩ (fun _ => by rw [ho]; rfl)
        fun b t => by rw [ho]; exact fun z => by cases z
    · rw [if_neg c]
      refine I.turn rfl (Ext.turn h (Nat.le_refl _) rfl rfl rfl rfl rfl (fun t z => z.elim) fun t _ z => absurd z (nt t)) v1 v2 rfl v3 v4 v6 (by unfold St.len; rw [ho]) ⟨a.1, a.2, rfl, ?_⟩ (fun z => by cases z)
        fun b t => by rw [ho]; exact fun z => by cases z
      show s.bottom.now - (s.ot.load true .top s.top i).cur.ts .top < s.size s.array.last
      omega
  · cases e

theorem Inv.growStep {s s' : St α} {h : Nat → Option α × Nat} {pop : List (Option α)} (I : Inv s h pop) {M : Mach} {i b : Nat} {w : α} (ho : s.o = .grow w b) (e : ownerStep M s i = some s') : Inv s' h pop := by
  unfold ownerStep at e
  rw [ho] at e
  dsimp only at e
  split at e
  · next hm =>
    obtain ⟨m1, m2⟩ := may_iff hm
    obtain ⟨v1, v2, v3, v4, v5, v6⟩ := I.topped (acq := false) hm
    cases e
    have a := I.at_
    unfold OwnerAt at a
    rw [ho] at a
    have win := I.mine.win
    have hl : s.len = s.bottom.now := by unfold St.len; rw [ho]
    rw [hl] at win
    have nt : ∀ t, ¬ taking s.o t := fun t c => by rw [ho] at c; exact c
    refine I.turn rfl (Ext.turn h (Nat.le_refl _) rfl rfl rfl rfl rfl (fun t z => z.elim) fun t _ z => absurd z (nt t)) v1 v2 rfl v3 v4 v6 (by unfold St.len; rw [ho]) ⟨a.1, a.2.1, a.2.2, ?_, ?_⟩ (fun _ => by rw [ho]; rfl)
      fun b t => by rw [ho]; exact fun z => by cases z
    · show s.top.val i ≤ (s.ot.load false .top s.top i).cur.ts .top
      rw [I.tv i m2]; exact v5
    · show b - s.top.val i ≤ s.size s.array.last
      rw [I.tv i m2, a.2.2]; omega
  · cases e

theorem Inv.takeStep {s s' : St α} {h : Nat → Option α × Nat} {pop : List (Option α)} (I : Inv s h pop) {M : Mach} {i : Nat} (ho : s.o = .take) (e : ownerStep M s i = some s') : Inv s' h pop := by
  unfold ownerStep at e
  rw [ho] at e
  dsimp only at e
  split at e
  · next hm =>
    obtain ⟨m1, m2⟩ := may_iff hm
    obtain ⟨v1, v2, v3, v4, v5, v6⟩ := I.topped (acq := false) hm
    cases e
    have a := I.at_
    unfold OwnerAt at a
    rw [ho] at a
    dsimp only at a
    have nt : ∀ t, ¬ taking s.o t := fun t c => by rw [ho] at c; exact c
    refine I.turn rfl (Ext.turn h (Nat.le_refl _) rfl rfl rfl rfl rfl (fun t z => z.elim) fun t _ z => absurd z (nt t)) v1 v2 rfl v3 v4 v6 (by unfold St.len; rw [ho]) ⟨?_, ?_⟩ (fun _ => by rw [ho]; rfl)
      fun b t => by rw [ho]; exact fun z => by cases z
    · show pred s.bottom.now + 1 = s.bottom.now
      unfold pred
      rw [if_neg (by omega)]; omega
    · show s.top.val i ≤ (s.ot.load false .top s.top i).cur.ts .top
      rw [I.tv i m2]; exact v5
  · cases e

theorem Inv.lowerStep {s s' : St α} {h : Nat → Option α × Nat} {pop : List (Option α)} (I : Inv s h pop) {M : Mach} {i b t : Nat} (ho : s.o = .lower b t) (e : ownerStep M s i = some s') : Inv s' h pop := by
  unfold ownerStep at e
  rw [ho] at e
  cases e
  have a := I.at_
  unfold OwnerAt at a
  rw [ho] at a
  dsimp only at a
  have r := I.rel (by rw [ho]; rfl)
  have hl : s.len = s.bottom.now := by unfold St.len; rw [ho]
  have hb : b + 1 = s.len := by rw [hl]; exact a.1
  refine I.bottomed (n := b) (w := s.ot.rel) (r := s.ot.rel) (o := .fence b t) (pu := s.pushed) rfl I.views.or r.1 (fun u h1 h2 => r.2 u h1 (by omega)) (fun u h1 h2 => I.own h1 (by omega)) I.views.or
    (fun u c => by rw [ho] at c; exact c) (fun _ => ⟨rfl, b, t, rfl⟩) (.inr a.1.symm) ?_ ?_ ?_ ?_ ?_ ?_ ?_ fun b t => by rw [ho]; exact fun z => by cases z
  · exact ⟨add_now.symm, Nat.le_trans a.2 ((View.le_reach _ _ _).ts _)⟩
  · intro _
    refine ⟨r.1, fun u h1 h2 => ?_⟩
    have c := r.2 u h1 (by rw [← hb]; exact h2)
    exact ⟨c.ts, c.now, c.clk⟩
  · show s.top.last ≤ b + 1
    rw [hb]; exact I.tops
  · intro u hu
    exact I.hist u (by rw [← hb]; exact hu)
  · show b + 1 - _ ≤ _
    rw [hb]; exact I.mine.win
  · show (s.pushed.map some).Perm (pop ++ (List.range (b + 1)).map fun i => (h i).1)
    rw [hb]; exact I.pushed
  · intro _
    show 1 ≤ b + 1
    omega

theorem Inv.restoreStep {s s' : St α} {h : Nat → Option α × Nat} {pop : List (Option α)} (I : Inv s h pop) {M : Mach} {i b : Nat} (ho : s.o = .restore b) (e : ownerStep M s i = some s') : Inv s' h pop := by
  unfold ownerStep at e
  rw [ho] at e
  cases e
  have a := I.at_
  unfold OwnerAt at a
  rw [ho] at a
  dsimp only at a
  have r := I.rel (by rw [ho]; rfl)
  have hl : s.len = b + 1 := by unfold St.len; rw [ho]
  have hl' : ∀ x : View, (s.bottom.add (b + 1) x).now = b + 1 := fun x => add_now
  refine I.bottomed (n := b + 1) (w := s.ot.rel) (r := s.ot.rel) (o := .idle) (pu := s.pushed) rfl I.views.or r.1 (fun u h1 h2 => by omega) (fun u h1 h2 => by omega) I.views.or
    (fun u c => by rw [ho] at c; exact c) (fun z => by omega) (.inl (by omega)) trivial ?_ ?_ ?_ ?_ ?_ ?_ fun b t => by rw [ho]; exact fun z => by cases z
  · intro _
    refine ⟨r.1, fun u h1 h2 => ?_⟩
    have h1' : s.top.last ≤ u := h1
    have h2' : u < (s.bottom.add (b + 1) (s.ot.rel.reach .bottom (s.bottom.last + 1))).now := h2
    rw [hl'] at h2'
    omega
  · show s.top.last ≤ Hist.now _
    rw [hl']; omega
  · intro u hu
    have hu' : u < (s.bottom.add (b + 1) (s.ot.rel.reach .bottom (s.bottom.last + 1))).now := hu
    rw [hl'] at hu'
    exact I.hist u (by omega)
  · show Hist.now _ - _ ≤ _
    rw [hl', ← hl]; exact I.mine.win
  · show (s.pushed.map some).Perm (pop ++ (List.range (Hist.now _)).map fun i => (h i).1)
    rw [hl', ← hl]; exact I.pushed
  · intro _
    show 1 ≤ Hist.now _
    rw [hl']; omega

theorem Inv.bumpStep {s s' : St α} {h : Nat → Option α × Nat} {pop : List (Option α)} (I : Inv s h pop) {M : Mach} {i b : Nat} {w : α} (ho : s.o = .bump w b) (e : ownerStep M s i = some s') : Inv s' h pop := by
  unfold ownerStep at e
  rw [ho] at e
  cases e
  have m := I.mine
  have a := I.at_
  unfold OwnerAt at a
  rw [ho] at a
  obtain ⟨a1, a2, a3, a4, a5, a6⟩ := a
  have hl : s.len = b := by unfold St.len; rw [ho, a1]
  have hl' : ∀ x : View, (s.bottom.add (b + 1) x).now = b + 1 := fun x => add_now
  have pos : 0 < s.calls.length := List.length_pos_iff.2 a4
  have own : ∀ u, s.top.last ≤ u → u < b + 1 → Covers s h s.ot.cur u := by
    intro u h1 h2
    rcases Nat.lt_or_ge u b with l | l
    · exact I.own h1 (by omega)
    · have : u = b := by omega
      subst this
      refine ⟨?_, ?_, ?_⟩
      · rw [m.arr, m.cell]; exact Nat.le_refl _
      · rw [m.arr, a2]; exact a5
      · rw [m.clk, a2]
        show s.calls.length - 1 < _
        omega
  refine I.bottomed (n := b + 1) (w := s.ot.cur) (r := s.ot.cur) (o := .idle) (pu := w :: s.pushed) rfl I.views.oc m.arr own own I.views.oc
    (fun u c => by rw [ho] at c; exact c) (fun z => by omega) (.inl (by omega)) trivial ?_ ?_ ?_ ?_ ?_ ?_ fun b t => by rw [ho]; exact fun z => by cases z
  · intro _
    refine ⟨m.arr, fun u h1 h2 => ?_⟩
    have h2' : u < (s.bottom.add (b + 1) (s.ot.cur.reach .bottom (s.bottom.last + 1))).now := h2
    rw [hl'] at h2'
    have c := own u h1 h2'
    exact ⟨c.ts, c.now, c.clk⟩
  · show s.top.last ≤ Hist.now _
    have := I.tops
    rw [hl']; omega
  · intro u hu
    have hu' : u < (s.bottom.add (b + 1) (s.ot.cur.reach .bottom (s.bottom.last + 1))).now := hu
    rw [hl'] at hu'
    rcases Nat.lt_or_ge u b with l | l
    · exact I.hist u (by omega)
    · have : u = b := by omega
      subst this
      rw [a2]
      exact ⟨by omega, a3, fun _ => a5⟩
  · show Hist.now _ - _ ≤ _
    rw [hl']; exact a6
  · show ((w :: s.pushed).map some).Perm (pop ++ (List.range (Hist.now _)).map fun i => (h i).1)
    rw [hl', List.range_succ, List.map_append]
    simp only [List.map_cons, List.map_nil]
    rw [a2, ← List.append_assoc]
    refine List.Perm.trans ?_ (List.perm_append_singleton _ _).symm
    have := I.pushed
    rw [hl] at this
    exact this.cons _
  · intro _
    show 1 ≤ Hist.now _
    rw [hl']; omega

theorem Inv.fenceStep {s s' : St α} {h : Nat → Option α × Nat} {pop : List (Option α)} (I : Inv s h pop) {M : Mach} {i b t : Nat} (ho : s.o = .fence b t) (hc : t < b → s.top.now < b)
    (e : ownerStep M s i = some s') : Inv s' h pop := by
  unfold ownerStep at e
  rw [ho] at e
  have m := I.mine
  have a := I.at_
  unfold OwnerAt at a
  rw [ho] at a
  dsimp only at a
  have T : s.top.now = s.top.last := I.tv _ (Nat.le_refl _)
  rw [T] at hc
  have r := I.rel (by rw [ho]; rfl)
  have hl : s.len = b + 1 := by unfold St.len; rw [ho]
  have f := I.fenced I.views.oc I.views.oa
  have le : s.ot.cur.le (s.ot.fenced s.sc) := (View.le_join_left _ _).trans (View.le_join_left _ _)
  have same : ∀ l, l ≠ .top → (s.ot.fenced s.sc).ts l = s.ot.cur.ts l := by
    intro l n
    refine Nat.le_antisymm ?_ (le.ts l)
    cases l with
    | top => exact absurd rfl n
    | bottom => rw [m.bot]; exact f.bot
    | array => rw [m.arr]; exact f.arr
    | cell a c => rw [m.cell]; exact f.cell a c
  have clk : (s.ot.fenced s.sc).clk = s.calls.length := Nat.le_antisymm f.clk (by rw [← m.clk]; exact le.clk)
  have x : Ext s s' h h := by
    cases e
    refine Ext.turn h (Nat.le_refl _) rfl rfl rfl rfl rfl ?_ ?_
    · rintro u ⟨z1, z2⟩
      rw [ho]; exact z1
    · intro u hu z
      rw [ho] at z
      have z' : b = u := z
      by_cases y : t = u
      · exact .inl ⟨z', y⟩
      · right
        show u < s.top.last
        have := I.views.oc.top
        omega
  have vs := I.views.imp fun w => Ok.ext (w := w) x
  have f' := f.ext x
  have thief : ∀ j, ThiefAt s' h (s.tt j).cur (s.th j) := fun j => (I.thief j).ext x (I.views.tc j)
  have own : ∀ u, s.top.last ≤ u → u < b + 1 → Covers s h (s.ot.fenced s.sc) u := fun u h1 h2 => (I.own h1 (by omega)).mono le (same _ (by decide))
  cases e
  refine ⟨I.tv, I.av, I.sz, I.new, I.bs, I.bself, I.grows, ⟨f', f', f', vs.tc, vs.ta, f', vs.top, vs.bot, vs.cell, vs.arr⟩, ⟨?_, ?_, ?_, clk, ?_⟩, ⟨a.1, ?_, ?_⟩, ?_, ?_, ?_, ?_, thief, I.got, ?_, ?_, I.seen⟩
  · exact (same _ (by decide)).trans m.bot
  · exact (same _ (by decide)).trans m.arr
  · exact fun a c => (same _ (by intro e; cases e)).trans (m.cell a c)
  · have w := m.win
    rw [hl] at w
    show b + 1 - (s.ot.fenced s.sc).ts .top ≤ s.size s.array.last
    have := le.ts .top
    omega
  · exact Nat.le_trans a.2 (le.ts _)
  · intro l
    show s.top.last ≤ b
    omega
  · intro _
    refine ⟨(same _ (by decide)).trans m.arr, fun u h1 h2 => ?_⟩
    have c := own u h1 h2
    exact ⟨c.ts, c.now, c.clk⟩
  · show s.top.last ≤ b + 1
    rw [← hl]; exact I.tops
  · intro u hu
    exact I.hist u (by rw [hl]; exact hu)
  · intro q q1 q2
    have q1' : (s.ot.fenced s.sc).ts .bottom ≤ q := q1
    rw [same _ (by decide), m.bot] at q1'
    have q2' : q < s.bottom.last := q2
    omega
  · show (s.pushed.map some).Perm (pop ++ (List.range (b + 1)).map fun i => (h i).1)
    rw [← hl]; exact I.pushed
  · intro _
    show 1 ≤ b + 1
    omega

/-- The owner takes a task without compare-and-exchange. -/
theorem Inv.popped {s s' : St α} {h : Nat → Option α × Nat} {pop : List (Option α)} (I : Inv s h pop) {b t : Nat} (ho : s.o = .look b t) (lt : t < b)
    (e : s' = { s with o := .idle, got := ((s.cell s.array.now (b % s.size s.array.now)).now, s.ot.cur.clk) :: s.got }) : Inv s' h ((h b).1 :: pop) := by
  have m := I.mine
  have a := I.at_
  unfold OwnerAt at a
  rw [ho] at a
  dsimp only at a
  obtain ⟨a1, a2, a3⟩ := a
  have an : s.array.now = s.array.last := I.av _ (Nat.le_refl _)
  have r := I.rel (by rw [ho]; rfl)
  have hl : s.len = b + 1 := by unfold St.len; rw [ho]
  have hl' : s'.len = b := by subst e; exact a1.symm
  have nt : ∀ u, ¬ taking s.o u := fun u c => by rw [ho] at c; have := c.1; have := c.2; omega
  have x : Ext s s' h h := by
    subst e
    exact Ext.turn h (Nat.le_refl _) rfl rfl rfl rfl rfl (fun u z => z.elim) fun u _ z => absurd z (nt u)
  have vs := I.views.imp fun w => Ok.ext (w := w) x
  have thief : ∀ j, ThiefAt s' h (s.tt j).cur (s.th j) := fun j => (I.thief j).ext x (I.views.tc j)
  have T := a3 lt
  obtain ⟨b1, b2, b3⟩ := I.hist b (by omega)
  have b4 := b3 T
  have mine : Mine s' := by
    have w := m.win
    rw [hl] at w
    refine ⟨?_, ?_, ?_, ?_, ?_⟩
    · subst e; exact m.bot
    · subst e; exact m.arr
    · subst e; exact m.cell
    · subst e; exact m.clk
    · rw [hl']
      subst e
      show b - s.ot.cur.ts .top ≤ s.size s.array.last
      omega
  have rel : RelAt s' h := by
    intro _
    rw [hl']
    subst e
    refine ⟨r.1, fun u h1 h2 => ?_⟩
    have c := r.2 u h1 (by omega)
    exact ⟨c.ts, c.now, c.clk⟩
  have tops : s.top.last ≤ s'.len := by rw [hl']; exact T
  have hist : ∀ t, t < s'.len → (h t).2 < s.calls.length ∧ s.calls[(h t).2]? = (h t).1 ∧ (s.top.last ≤ t → (s.cell s.array.last (t % s.size s.array.last)).now = (h t).1) := by
    intro u hu
    rw [hl'] at hu
    exact I.hist u (by omega)
  have pushed : (s.pushed.map some).Perm ((h b).1 :: pop ++ (List.range s'.len).map fun i => (h i).1) := by
    have p := I.pushed
    rw [hl, List.range_succ, List.map_append] at p
    simp only [List.map_cons, List.map_nil] at p
    rw [← List.append_assoc] at p
    rw [hl']
    exact p.trans (List.perm_append_singleton _ _)
  have some_ : s.pushed ≠ [] → 1 ≤ s'.len := fun _ => by rw [hl']; omega
  subst e
  refine ⟨I.tv, I.av, I.sz, I.new, I.bs, I.bself, I.grows, ⟨vs.oc, vs.oa, vs.or, vs.tc, vs.ta, vs.sc, vs.top, vs.bot, vs.cell, vs.arr⟩, mine, trivial, rel, tops, hist, ?_, thief, ?_, pushed, some_, ?_⟩
  · intro q q1 q2 q3
    exact (not_low I (fun b t => by rw [ho]; exact fun z => by cases z) q1 q2 q3).elim
  · show ((s.cell s.array.now (b % s.size s.array.now)).now :: s.got.map Prod.fst).Perm _
    rw [an, b4]
    exact I.got.cons _
  · intro y hy
    rcases List.mem_cons.1 hy with q | q
    · rw [q]
      show ∃ n w, (s.cell s.array.now (b % s.size s.array.now)).now = some w ∧ s.calls[n]? = some w ∧ n < s.ot.cur.clk
      rw [an, b4, m.clk]
      cases hx : (h b).1 with
      | none =>
        rw [hx] at b2
        have := List.getElem?_eq_none_iff.1 b2
        omega
      | some v => exact ⟨(h b).2, v, rfl, by rw [b2, hx], b1⟩
    · exact I.seen y q

theorem Inv.lookStep {s s' : St α} {h : Nat → Option α × Nat} {pop : List (Option α)} (I : Inv s h pop) {M : Mach} {i b t : Nat} (ho : s.o = .look b t) (e : ownerStep M s i = some s') :
    ∃ pop, Inv s' h pop := by
  unfold ownerStep at e
  rw [ho] at e
  dsimp only at e
  have m := I.mine
  have a := I.at_
  unfold OwnerAt at a
  rw [ho] at a
  dsimp only at a
  have an : s.array.now = s.array.last := I.av _ (Nat.le_refl _)
  split at e
  · next l =>
    split at e
    · next l2 =>
      cases e
      refine ⟨pop, I.turn rfl (Ext.turn h (Nat.le_refl _) rfl rfl rfl rfl rfl (fun u z => ?_) fun u _ z => ?_) I.views.oc I.views.oa rfl (fun _ _ => rfl) (Nat.le_refl _) m.clk (by unfold St.len; rw [ho])
        ⟨a.1, l2, a.2.1, ?_⟩ (fun _ => by rw [ho]; rfl) fun b t => by rw [ho]; exact fun z => by cases z⟩
      · rw [ho]; exact ⟨z, l2.trans z⟩
      · rw [ho] at z; exact .inl z.1
      · rw [an]
    · cases e
      exact ⟨_, I.popped ho (by omega) rfl⟩
  · next l =>
    cases e
    have nt : ∀ u, ¬ taking s.o u := fun u c => by rw [ho] at c; have := c.1; have := c.2; omega
    refine ⟨pop, I.turn rfl (Ext.turn h (Nat.le_refl _) rfl rfl rfl rfl rfl (fun u z => z.elim) fun u _ z => absurd z (nt u)) I.views.oc I.views.oa rfl (fun _ _ => rfl) (Nat.le_refl _) m.clk (by unfold St.len; rw [ho])
      ⟨a.1, ?_⟩ (fun _ => by rw [ho]; rfl) fun b t => by rw [ho]; exact fun z => by cases z⟩
    show s.top.last = b + 1
    have h1 := I.tops
    have hl : s.len = b + 1 := by unfold St.len; rw [ho]
    have := I.views.oc.top
    omega

theorem Inv.casStep {s s' : St α} {h : Nat → Option α × Nat} {pop : List (Option α)} (I : Inv s h pop) {M : Mach} {i b t : Nat} {x : Option α} (ho : s.o = .cas b t x) (e : ownerStep M s i = some s') : Inv s' h pop := by
  unfold ownerStep at e
  rw [ho] at e
  dsimp only at e
  have m := I.mine
  have a := I.at_
  unfold OwnerAt at a
  rw [ho] at a
  dsimp only at a
  obtain ⟨a1, a2, a3, a4⟩ := a
  have hl : s.len = b + 1 := by unfold St.len; rw [ho]
  have tops := I.tops
  rw [hl] at tops
  split at e
  · next hm =>
    obtain ⟨m1, m2⟩ := may_iff hm
    split at e
    · next hv =>
      split at e
      · next hi =>
        rw [I.tv i m2] at hv
        have ht : s.top.last = t := by omega
        obtain ⟨w, ow, ew, lw⟩ := casOk I M I.views.oc
        have ext : Ext s s' h h := by
          cases e
          refine Ext.turn h (Nat.le_succ _) rfl rfl rfl rfl rfl (fun u z => z.elim) fun u _ z => ?_
          rw [ho] at z
          have z' : b = u := z
          right
          show u < s.top.last + 1
          omega
        have T' : s'.top.last = t + 1 := by cases e; show s.top.last + 1 = _; rw [ht]
        have ok' : Ok s' h (casView M s s.ot) := by rw [ew]; exact (ow.ext ext).reachTop (by rw [T', ht]; exact Nat.le_refl _)
        have g' : Grows s' := by
          intro p q h1 h2
          cases e
          exact I.grows p q h1 h2
        have vs := I.views.imp fun w => Ok.ext (w := w) ext
        have sc' : Ok s' h (if M.strong then s.sc.join (casView M s s.ot) else s.sc) := by
          split
          · exact vs.sc.join g' ok'
          · exact vs.sc
        have thief : ∀ j, ThiefAt s' h (s.tt j).cur (s.th j) := fun j => (I.thief j).ext ext (I.views.tc j)
        have le : s.ot.cur.le (casView M s s.ot) := by rw [ew]; exact lw.trans (View.le_reach _ _ _)
        have same : ∀ l, l ≠ .top → (casView M s s.ot).ts l = s.ot.cur.ts l := by
          intro l n
          refine Nat.le_antisymm ?_ (le.ts l)
          rw [ew, View.reach_ne n]
          cases l with
          | top => exact absurd rfl n
          | bottom => rw [m.bot]; exact ow.bot
          | array => rw [m.arr]; exact ow.arr
          | cell a c => rw [m.cell]; exact ow.cell a c
        have clk : (casView M s s.ot).clk = s.calls.length := Nat.le_antisymm (by rw [ew]; exact ow.clk) (by rw [← m.clk]; exact le.clk)
        have r := I.rel (by rw [ho]; rfl)
        obtain ⟨b1, b2, b3⟩ := I.hist b (by omega)
        have b4 := b3 (by omega)
        rw [← a4] at b4
        cases e
        refine ⟨?_, I.av, I.sz, I.new, I.bs, I.bself, g', ⟨ok', vs.oa, vs.or, vs.tc, vs.ta, sc', ?_, vs.bot, vs.cell, vs.arr⟩, ⟨?_, ?_, ?_, clk, ?_⟩, ⟨a1, ?_⟩, ?_, ?_, ?_, ?_, thief, ?_, ?_, ?_, ?_⟩
        · intro k l
          show fn s.top.val (s.top.last + 1) (t + 1) k = k
          by_cases q : k = s.top.last + 1
          · rw [q, fn_same, ht]
          · rw [fn_ne q]
            refine I.tv k ?_
            have : k ≤ s.top.last + 1 := l
            omega
        · intro k l
          show Ok _ h (fn s.top.view (s.top.last + 1) _ k)
          by_cases q : k = s.top.last + 1
          · rw [q, fn_same]; exact ok'
          · rw [fn_ne q]
            have : k ≤ s.top.last + 1 := l
            exact vs.top k (by omega)
        · exact (same _ (by decide)).trans m.bot
        · exact (same _ (by decide)).trans m.arr
        · exact fun a c => (same _ (by intro e; cases e)).trans (m.cell a c)
        · have w := m.win
          rw [hl] at w
          show b + 1 - (casView M s s.ot).ts .top ≤ _
          have := le.ts .top
          exact Nat.le_trans (by omega) w
        · show s.top.last + 1 = b + 1
          omega
        · intro _
          refine ⟨r.1, fun u h1 h2 => ?_⟩
          have h1' : s.top.last + 1 ≤ u := h1
          have h2' : u < b + 1 := h2
          omega
        · show s.top.last + 1 ≤ b + 1
          omega
        · intro u hu
          obtain ⟨c1, c2, c3⟩ := I.hist u (by rw [hl]; exact hu)
          refine ⟨c1, c2, fun l => c3 ?_⟩
          have : s.top.last + 1 ≤ u := l
          omega
        · intro q q1 q2 q3
          refine (not_low I (fun b t => by rw [ho]; exact fun z => by cases z) (Nat.le_trans ?_ q1) q2 q3).elim
          dsimp only [casDone]
          split
          · exact Nat.le_max_left _ _
          · exact Nat.le_refl _
        · show (x :: s.got.map Prod.fst).Perm (pop ++ (List.range (s.top.last + 1)).map fun i => (h i).1)
          rw [List.range_succ, List.map_append]
          simp only [List.map_cons, List.map_nil]
          rw [ht, a2, ← b4, ← List.append_assoc]
          refine List.Perm.trans ?_ (List.perm_append_singleton _ _).symm
          rw [← a2, ← ht]
          exact I.got.cons x
        · show (s.pushed.map some).Perm (pop ++ (List.range (b + 1)).map fun i => (h i).1)
          rw [← hl]; exact I.pushed
        · intro _
          show 1 ≤ b + 1
          omega
        · intro y hy
          rcases List.mem_cons.1 hy with q | q
          · rw [q]
            show ∃ n w, x = some w ∧ s.calls[n]? = some w ∧ n < (casView M s s.ot).clk
            rw [clk]
            cases hx : x with
            | none =>
              rw [hx] at b4
              rw [← b4] at b2
              have := List.getElem?_eq_none_iff.1 b2
              omega
            | some v => exact ⟨(h b).2, v, rfl, by rw [b2, ← b4, hx], b1⟩
          · exact I.seen y q
      · cases e
    · next hv =>
      rw [I.tv i m2] at hv
      obtain ⟨v1, v2, v3, v4, v5, v6⟩ := I.topped (acq := false) hm
      cases e
      refine I.turn rfl (Ext.turn h (Nat.le_refl _) rfl rfl rfl rfl rfl (fun u z => z.elim) fun u _ z => ?_) v1 v2 rfl v3 v4 v6 (by unfold St.len; rw [ho]) ⟨a1, ?_⟩ (fun _ => by rw [ho]; rfl)
        fun b t => by rw [ho]; exact fun z => by cases z
      · rw [ho] at z
        have z' : b = u := z
        right
        show u < s.top.last
        omega
      · show s.top.last = b + 1
        omega
  · cases e

end Verif.Wd
