import Verif.Proof.WeakDeque

/-!
The steps of thieves.
-/
namespace Verif.Wd

variable {α : Type}

theorem Dead.congr {s s' : St α} (h1 : s'.bottom = s.bottom) (h2 : s'.o = s.o) {p t : Nat} : Dead s' p t ↔ Dead s p t := by
  unfold Dead Low; rw [h1, h2]

theorem Ext.same {s s' : St α} (h : Nat → Option α × Nat) (h1 : s'.top = s.top) (h2 : s'.bottom = s.bottom) (h3 : s'.array = s.array) (h4 : s'.cell = s.cell) (h5 : s'.size = s.size)
    (h6 : s'.o = s.o) (h7 : s'.calls = s.calls) : Ext s s' h h := by
  refine ⟨by rw [h7]; exact Nat.le_refl _, by rw [h1]; exact Nat.le_refl _, by rw [h2]; exact Nat.le_refl _, by rw [h3]; exact Nat.le_refl _, fun _ _ => by rw [h2], fun _ _ => by rw [h2], fun _ _ => by rw [h4]; exact Nat.le_refl _,
    fun _ _ => by rw [h5], fun _ _ _ d => (Dead.congr h2 h6).2 d, fun _ _ _ _ d => .inl ((Dead.congr h2 h6).1 d), fun _ _ _ _ _ _ _ _ => ⟨by rw [h4], rfl⟩, ?_⟩
  intro l
  rw [h2] at l
  exact absurd l (Nat.lt_irrefl _)

theorem Views.load {s : St α} {h : Nat → Option α × Nat} (g : Grows s) {β : Type} {th : Thr} {acq : Bool} {l : Loc} {x : Hist β} {i : Nat} (ok1 : Ok s h th.cur) (ok2 : Ok s h th.acq) (ok3 : Ok s h (x.view i))
    (r : ∀ v, Ok s h v → Ok s h (v.reach l i)) : Ok s h (th.load acq l x i).cur ∧ Ok s h (th.load acq l x i).acq := by
  have k : Ok s h (th.load acq l x i).cur := by
    show Ok s h (View.reach (if acq then _ else _) l i)
    refine r _ ?_
    split
    · exact ok1.join g ok3
    · exact ok1
  exact ⟨k, (ok2.join g k).join g ok3⟩

theorem load_le {β : Type} (th : Thr) (acq : Bool) (l : Loc) (x : Hist β) (i : Nat) : th.cur.le (th.load acq l x i).cur := by
  refine View.le.trans ?_ (View.le_reach _ _ _)
  split
  · exact View.le_join_left _ _
  · exact View.le.rfl

/-- A thief learns something. -/
theorem Inv.learn {s s' : St α} {h : Nat → Option α × Nat} {pop : List (Option α)} (I : Inv s h pop) {j : Nat} {th : Thr} {pc : TPc α} {sc : View}
    (e : s' = { s with tt := fn s.tt j th, sc := sc, th := fn s.th j pc }) (h1 : Ok s h th.cur) (h2 : Ok s h th.acq) (h3 : Ok s h sc) (h4 : s.sc.ts .bottom ≤ sc.ts .bottom)
    (h5 : ThiefAt s h th.cur pc) : Inv s' h pop := by
  have x : Ext s s' h h := by subst e; exact Ext.same h rfl rfl rfl rfl rfl rfl rfl
  have m := I.mine
  subst e
  refine ⟨I.tv, I.av, I.sz, I.new, I.bs, I.bself, I.grows, ?_, ⟨m.bot, m.arr, m.cell, m.clk, m.win⟩, ?_, ?_, I.tops, I.hist, ?_, ?_, I.got, I.pushed, I.some_, I.seen⟩
  · have v := I.views
    refine Views.imp (p := Ok s h) ⟨v.oc, v.oa, v.or, ?_, ?_, h3, v.top, v.bot, v.cell, v.arr⟩ fun w => Ok.ext x
    · intro k
      show Ok s h (fn s.tt j th k).cur
      by_cases q : k = j
      · rw [q, fn_same]; exact h1
      · rw [fn_ne q]; exact v.tc k
    · intro k
      show Ok s h (fn s.tt j th k).acq
      by_cases q : k = j
      · rw [q, fn_same]; exact h2
      · rw [fn_ne q]; exact v.ta k
  · exact I.at_
  · intro q
    exact ⟨(I.rel q).1, fun t q1 q2 => let c := (I.rel q).2 t q1 q2; ⟨c.ts, c.now, c.clk⟩⟩
  · intro q q1
    exact I.low q (Nat.le_trans h4 q1)
  · intro k
    show ThiefAt _ h (fn s.tt j th k).cur (fn s.th j pc k)
    by_cases q : k = j
    · rw [q, fn_same, fn_same]; exact h5.ext x h1
    · rw [fn_ne q, fn_ne q]; exact (I.thief k).ext x (I.views.tc k)

theorem Inv.fenced {s : St α} {h : Nat → Option α × Nat} {pop : List (Option α)} (I : Inv s h pop) {th : Thr} (h1 : Ok s h th.cur) (h2 : Ok s h th.acq) : Ok s h (th.fenced s.sc) :=
  (h1.join I.grows h2).join I.grows I.views.sc

theorem may_iff {β : Type} {th : Thr} {l : Loc} {x : Hist β} {i : Nat} (h : th.may l x i = true) : th.cur.ts l ≤ i ∧ i ≤ x.last := by
  unfold Thr.may at h
  rw [Bool.and_eq_true, decide_eq_true_eq, decide_eq_true_eq] at h
  exact h

theorem casOk {s : St α} {h : Nat → Option α × Nat} {pop : List (Option α)} (I : Inv s h pop) (M : Mach) {th : Thr} (h1 : Ok s h th.cur) :
    ∃ w, Ok s h w ∧ casView M s th = w.reach .top (s.top.last + 1) ∧ th.cur.le w := by
  have h2 := I.views.top _ (Nat.le_refl _)
  unfold casView
  split
  · exact ⟨_, (h1.join I.grows h2).join I.grows I.views.sc, rfl, (View.le_join_left _ _).trans (View.le_join_left _ _)⟩
  · exact ⟨_, h1.join I.grows h2, rfl, View.le_join_left _ _⟩

/-- A compare-and-exchange adds a message to `top`; the task goes to whoever did it. -/
theorem Ext.won {s s' : St α} (h : Nat → Option α × Nat) (v : Nat) (w : View) (h1 : s'.top = s.top.add v w) (h2 : s'.bottom = s.bottom) (h3 : s'.array = s.array) (h4 : s'.cell = s.cell)
    (h5 : s'.size = s.size) (h6 : s'.o = s.o) (h7 : s'.calls = s.calls) : Ext s s' h h := by
  refine ⟨by rw [h7]; exact Nat.le_refl _, by rw [h1]; exact Nat.le_succ _, by rw [h2]; exact Nat.le_refl _, by rw [h3]; exact Nat.le_refl _, fun _ _ => by rw [h2], fun _ _ => by rw [h2], fun _ _ => by rw [h4]; exact Nat.le_refl _,
    fun _ _ => by rw [h5], fun _ _ _ d => (Dead.congr h2 h6).2 d, fun _ _ _ _ d => .inl ((Dead.congr h2 h6).1 d), fun _ _ _ _ _ _ _ _ => ⟨by rw [h4], rfl⟩, ?_⟩
  intro l
  rw [h2] at l
  exact absurd l (Nat.lt_irrefl _)

theorem len_congr {s s' : St α} (h1 : s'.bottom = s.bottom) (h2 : s'.o = s.o) : s'.len = s.len := by
  unfold St.len; rw [h1, h2]

theorem taking_len {s : St α} {t : Nat} (k : taking s.o t) : s.len = t + 1 := by
  unfold St.len
  cases e : s.o <;> rw [e] at k <;> simp only [taking] at k
  · rw [k]
  · rw [k.1]
  · rw [k]

theorem Inv.wins {s s' : St α} {h : Nat → Option α × Nat} {pop : List (Option α)} (I : Inv s h pop) (M : Mach) {j t : Nat} {x : Option α} (hp : s.th j = .cas t x) (ht : s.top.last = t)
    (e : s' = { casDone M s (t + 1) (casView M s (s.tt j)) with tt := fn s.tt j { s.tt j with cur := casView M s (s.tt j) }, th := fn s.th j .idle, got := (x, (casView M s (s.tt j)).clk) :: s.got }) :
    Inv s' h pop := by
  obtain ⟨w, ow, ew, lw⟩ := casOk I M (I.views.tc j)
  have ext : Ext s s' h h := by subst e; exact Ext.won h (t + 1) _ rfl rfl rfl rfl rfl rfl rfl
  have T' : s'.top.last = t + 1 := by subst e; show s.top.last + 1 = _; rw [ht]
  have ok' : Ok s' h (casView M s (s.tt j)) := by rw [ew]; exact (ow.ext ext).reachTop (by rw [T', ht]; exact Nat.le_refl _)
  have k := I.thief j
  rw [hp] at k
  obtain ⟨k1, p, k2, k3, k4, k5⟩ := k
  obtain ⟨x1, x2⟩ := k5 (Nat.le_of_eq ht)
  have there := I.there k2 k3 k4 ht
  have blen : s.bottom.now ≤ s.len := by
    have a := I.at_
    unfold OwnerAt at a
    unfold St.len
    cases q : s.o <;> rw [q] at a <;> dsimp only at a ⊢ <;> omega
  have tl : t < s.len := by
    rcases there with q | q
    · omega
    · rw [taking_len q]; exact Nat.lt_succ_self _
  have len' : s'.len = s.len := by subst e; exact len_congr rfl rfl
  have m := I.mine
  have g' : Grows s' := by
    intro p q h1 h2
    subst e
    exact I.grows p q h1 h2
  have vs := I.views.imp fun w => Ok.ext (w := w) ext
  have sc' : Ok s' h (if M.strong then s.sc.join (casView M s (s.tt j)) else s.sc) := by
    split
    · exact vs.sc.join g' ok'
    · exact vs.sc
  subst e
  refine ⟨?_, I.av, I.sz, I.new, I.bs, I.bself, g', ?_, ⟨m.bot, m.arr, m.cell, m.clk, m.win⟩, ?_, ?_, ?_, ?_, ?_, ?_, ?_, I.pushed, I.some_, ?_⟩
  · intro i l
    show fn s.top.val (s.top.last + 1) (t + 1) i = i
    by_cases q : i = s.top.last + 1
    · rw [q, fn_same, ht]
    · rw [fn_ne q]
      refine I.tv i ?_
      have : i ≤ s.top.last + 1 := l
      omega
  · refine ⟨vs.oc, vs.oa, vs.or, ?_, ?_, ?_, ?_, vs.bot, vs.cell, vs.arr⟩
    · intro k
      dsimp only
      by_cases q : k = j
      · rw [q, fn_same]; exact ok'
      · rw [fn_ne q]; exact vs.tc k
    · intro k
      dsimp only
      by_cases q : k = j
      · rw [q, fn_same]; exact vs.ta j
      · rw [fn_ne q]; exact vs.ta k
    · exact sc'
    · intro i l
      show Ok _ h (fn s.top.view (s.top.last + 1) _ i)
      by_cases q : i = s.top.last + 1
      · rw [q, fn_same]; exact ok'
      · rw [fn_ne q]
        have : i ≤ s.top.last + 1 := l
        exact vs.top i (by omega)
  · have a := I.at_
    unfold OwnerAt at a ⊢
    dsimp only [casDone]
    cases q : s.o <;> rw [q] at a <;> dsimp only at a ⊢ <;> try exact a
    · refine ⟨a.1, a.2.1, fun l => ?_⟩
      show s.top.last + 1 ≤ _
      rcases there with z | z
      · omega
      · rw [q] at z
        have := z.2
        have := z.1
        omega
    · exfalso
      have := len_congr (s' := s) (s := s) rfl rfl
      unfold St.len at tl
      rw [q] at tl
      dsimp only at tl
      omega
  · intro q
    refine ⟨(I.rel q).1, fun u q1 q2 => ?_⟩
    have q1' : s.top.last + 1 ≤ u := q1
    have c := (I.rel q).2 u (by omega) q2
    exact ⟨c.ts, c.now, c.clk⟩
  · show s.top.last + 1 ≤ s.len
    omega
  · intro u hu
    obtain ⟨a1, a2, a3⟩ := I.hist u hu
    refine ⟨a1, a2, fun l => a3 ?_⟩
    have : s.top.last + 1 ≤ u := l
    omega
  · intro q q1
    refine I.low q (Nat.le_trans ?_ q1)
    dsimp only [casDone]
    split
    · exact Nat.le_max_left _ _
    · exact Nat.le_refl _
  · intro k
    dsimp only
    by_cases q : k = j
    · rw [q, fn_same, fn_same]; trivial
    · rw [fn_ne q, fn_ne q]
      exact (I.thief k).ext ext (I.views.tc k)
  · show (x :: s.got.map Prod.fst).Perm (pop ++ (List.range (s.top.last + 1)).map fun i => (h i).1)
    rw [List.range_succ, List.map_append, List.map_cons, List.map_nil, ht, ← x1, ← List.append_assoc]
    refine List.Perm.trans ?_ (List.perm_append_singleton _ _).symm
    rw [← ht]
    exact I.got.cons x
  · intro y hy
    rcases List.mem_cons.1 hy with q | q
    · rw [q]
      obtain ⟨a1, a2, a3⟩ := I.hist t tl
      cases hx : x with
      | none =>
        rw [hx] at x1
        rw [← x1] at a2
        have := List.getElem?_eq_none_iff.1 a2
        omega
      | some v =>
        refine ⟨(h t).2, v, rfl, ?_, ?_⟩
        · show s.calls[(h t).2]? = _
          rw [a2, ← x1, hx]
        · show _ < View.clk _
          rw [ew]
          exact Nat.lt_of_lt_of_le x2 lw.clk
    · exact I.seen y q

/-- A step of a thief. -/
theorem Inv.thiefStep {s s' : St α} {h : Nat → Option α × Nat} {pop : List (Option α)} (I : Inv s h pop) {M : Mach} {j i : Nat} (c : Calm s (.thief j i)) (e : thiefStep M s j i = some s') : Inv s' h pop := by
  have oc := I.views.tc j
  have oa := I.views.ta j
  have k := I.thief j
  unfold Wd.thiefStep at e
  dsimp only [Calm] at c
  split at e
  · cases e
  · -- top
    next hp =>
    split at e
    · next m =>
      obtain ⟨m1, m2⟩ := may_iff m
      cases e
      obtain ⟨v1, v2⟩ := Views.load (acq := true) (l := .top) (x := s.top) (i := i) I.grows oc oa (I.views.top i m2) fun v o => o.reachTop m2
      refine I.learn rfl v1 v2 I.views.sc (Nat.le_refl _) ?_
      show s.top.val i ≤ s.top.last
      rw [I.tv i m2]; exact m2
    · cases e
  · -- fence
    next t hp =>
    cases e
    have f := I.fenced oc oa
    rw [hp] at k
    refine I.learn rfl f f f (Nat.le_max_right _ _) ⟨k, ?_⟩
    rintro ⟨q, q1, q2, ⟨q3, q4⟩, q5⟩
    obtain ⟨z1, b, t', z2⟩ := I.low q (Nat.le_trans (Nat.le_max_right _ _) q1) q2 (by rw [q3, q4])
    refine absurd ⟨z1, ?_⟩ q5
    have a := I.at_
    unfold OwnerAt at a
    rw [z2] at a ⊢
    show b = t
    rw [a.1, ← q4, z1]; rfl
  · -- bottom
    next t hp =>
    split at e
    · next m =>
      obtain ⟨m1, m2⟩ := may_iff m
      cases e
      have same : ∀ v : View, Ok s h v → i ≤ v.ts .bottom → v.reach .bottom i = v := fun v _ l => View.reach_eq l
      have bs := I.bself i m2
      have o1 := oc.join I.grows (I.views.bot i m2)
      have e1 : ((s.tt j).cur.join (s.bottom.view i)).reach .bottom i = (s.tt j).cur.join (s.bottom.view i) :=
        View.reach_eq (by rw [View.join_ts, bs]; exact Nat.le_max_right _ _)
      have e2 : ((s.tt j).load true .bottom s.bottom i).cur = (s.tt j).cur.join (s.bottom.view i) := e1
      have e3 : ((s.tt j).cur.join (s.bottom.view i)).ts .bottom = i := by rw [View.join_ts, bs]; exact Nat.max_eq_right m1
      have o2 : Ok s h ((s.tt j).load true .bottom s.bottom i).acq := by
        show Ok s h (((s.tt j).acq.join ((s.tt j).load true .bottom s.bottom i).cur).join (s.bottom.view i))
        rw [e2]
        exact (oa.join I.grows o1).join I.grows (I.views.bot i m2)
      rw [hp] at k
      refine I.learn rfl (by rw [e2]; exact o1) o2 I.views.sc (Nat.le_refl _) ?_
      rw [e2]
      split
      · next l => exact ⟨k.1, by rw [e3]; exact l, fun d => k.2 (d.mono (by rw [e3]; exact m1))⟩
      · trivial
    · cases e
  · -- array
    next t hp =>
    rw [hp] at c k
    split at e
    · next m =>
      obtain ⟨m1, m2⟩ := may_iff m
      cases e
      obtain ⟨w, w1, w3, w2⟩ := I.views.arr i m2
      have e0 : ∀ v : View, i ≤ v.ts .array → v.join (s.array.view i) = v.join w := fun v l => by rw [w2, View.join_reach l]
      have ci : i ≤ (s.tt j).cur.ts .array := Nat.le_of_eq c
      have o1 : Ok s h ((s.tt j).load M.consume .array s.array i).cur := by
        show Ok s h (View.reach (if M.consume then _ else _) .array i)
        split
        · rw [e0 _ ci, View.reach_eq (Nat.le_trans ci (Nat.le_max_left _ _))]
          exact oc.join I.grows w1
        · rw [View.reach_eq ci]; exact oc
      have wa : (s.array.view i).ts .array = max (w.ts .array) i := by rw [w2, View.reach_same]
      have le := load_le (s.tt j) M.consume .array s.array i
      have o2 : Ok s h ((s.tt j).load M.consume .array s.array i).acq := by
        show Ok s h (((s.tt j).acq.join ((s.tt j).load M.consume .array s.array i).cur).join (s.array.view i))
        rw [e0 _ (Nat.le_trans ci (Nat.le_trans (le.ts _) (Nat.le_max_right _ _)))]
        exact (oa.join I.grows o1).join I.grows w1
      have same : ((s.tt j).load M.consume .array s.array i).cur.ts .array = (s.tt j).cur.ts .array := by
        show (View.reach (if M.consume then _ else _) .array i).ts .array = _
        rw [View.reach_same]
        split
        · rw [View.join_ts, wa]
          omega
        · omega
      refine I.learn rfl o1 o2 I.views.sc (Nat.le_refl _) ?_
      refine ⟨k.1, ?_, (s.tt j).cur.ts .bottom, oc.bot, k.2.1, k.2.2, fun l => ?_⟩
      · rw [I.av i m2, same, c]
      · refine (oc.cov t k.2.1 l fun d => ?_).mono le same
        have := k.2.2 d
        omega
    · cases e
  · -- read
    next t a hp =>
    rw [hp] at k
    dsimp only at e
    split at e
    · next m =>
      obtain ⟨m1, m2⟩ := may_iff m
      cases e
      obtain ⟨v1, v2⟩ := Views.load (acq := false) (l := .cell a (t % s.size a)) (x := s.cell a (t % s.size a)) (i := i) I.grows oc oa (I.views.cell _ _ i m2) fun v o => o.reachCell m2
      refine I.learn rfl v1 v2 I.views.sc (Nat.le_refl _) ?_
      obtain ⟨k1, k2, p, k3, k4, k5, k6⟩ := k
      refine ⟨k1, p, k3, k4, k5, fun l => ?_⟩
      obtain ⟨c1, c2, c3⟩ := k6 l
      rw [← k2] at c1 c2
      have : i = (s.cell a (t % s.size a)).last := by omega
      exact ⟨by rw [this]; exact c2, c3⟩
    · cases e
  · -- cas
    next t x hp =>
    split at e
    · next m =>
      obtain ⟨m1, m2⟩ := may_iff m
      split at e
      · next hv =>
        split at e
        · next hl =>
          cases e
          refine I.wins M hp ?_ rfl
          rw [← hv, I.tv i m2, hl]
        · cases e
      · cases e
        obtain ⟨v1, v2⟩ := Views.load (acq := false) (l := .top) (x := s.top) (i := i) I.grows oc oa (I.views.top i m2) fun v o => o.reachTop m2
        exact I.learn rfl v1 v2 I.views.sc (Nat.le_refl _) trivial
    · cases e

end Verif.Wd
