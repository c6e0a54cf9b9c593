import Verif.Proof.WeakDequeRun

/-!
The owner grows the array and puts a task into it; calls.
-/
namespace Verif.Wd

variable {α : Type}

theorem mod_ne {t m n size : Nat} (h1 : m < n) (h2 : n < m + size) : (t + m) % size ≠ (t + n) % size := by
  intro e
  have z := Nat.sub_mod_eq_zero_of_mod_eq e.symm
  have q : t + n - (t + m) = n - m := by omega
  rw [q, Nat.mod_eq_of_lt (by omega)] at z
  omega

theorem copy_now (old : Nat → Hist (Option α)) (k oldSize size : Nat) (rel : View) (t : Nat) {N : Nat} (hN : N ≤ size) {m : Nat} (hm : m < N) :
    (copy old k oldSize size rel t N ((t + m) % size)).now = (old ((t + m) % oldSize)).now := by
  induction N with
  | zero => omega
  | succ n ih =>
    unfold copy
    by_cases e : m = n
    · subst e
      rw [if_pos rfl]; exact add_now
    · rw [if_neg (mod_ne (by omega) (by omega))]
      exact ih (by omega) (by omega)

theorem copy_view (old : Nat → Hist (Option α)) (k oldSize size : Nat) (rel : View) (t N : Nat) (c : Nat) :
    ∀ i, i ≤ (copy old k oldSize size rel t N c).last → (copy old k oldSize size rel t N c).view i = .zero ∨
      ∃ m, m ≤ (copy old k oldSize size rel t N c).last ∧ (copy old k oldSize size rel t N c).view i = rel.reach (.cell k c) m := by
  induction N with
  | zero => exact fun i _ => .inl rfl
  | succ n ih =>
    intro i
    unfold copy
    by_cases e : c = (t + n) % size
    · rw [if_pos e]
      intro l
      rw [add_last] at l ⊢
      by_cases z : i = (copy old k oldSize size rel t n c).last + 1
      · rw [z, add_view_last]
        exact .inr ⟨_, Nat.le_refl _, rfl⟩
      · rw [add_view (by omega)]
        rcases ih i (by omega) with y | ⟨m, y1, y2⟩
        · exact .inl y
        · exact .inr ⟨m, by omega, y2⟩
    · rw [if_neg e]; exact ih i

theorem Inv.publishStep {s s' : St α} {h : Nat → Option α × Nat} {pop : List (Option α)} (I : Inv s h pop) {M : Mach} {i b t : Nat} {w : α} (ho : s.o = .publish w b t) (e : ownerStep M s i = some s') : Inv s' h pop := by
  unfold ownerStep at e
  rw [ho] at e
  dsimp only at e
  have m := I.mine
  have a := I.at_
  unfold OwnerAt at a
  rw [ho] at a
  dsimp only at a
  obtain ⟨a1, a2, a3, a4, a5⟩ := a
  have an : s.array.now = s.array.last := I.av _ (Nat.le_refl _)
  rw [an, ← a3] at e
  have hl : s.len = b := by unfold St.len; rw [ho, a3]
  have sz := I.sz _ (Nat.le_refl s.array.last)
  have tops := I.tops
  have oc := I.views.oc
  have win := m.win
  rw [hl] at tops win
  have r := I.rel (by rw [ho]; rfl)
  generalize hc : copy (s.cell s.array.last) (s.array.last + 1) (s.size s.array.last) (s.size s.array.last * 2) s.ot.rel t (b - t) = cells at e
  have now : ∀ u, s.top.last ≤ u → u < b → (cells (u % (s.size s.array.last * 2))).now = (h u).1 := by
    intro u h1 h2
    have ht := oc.top
    have q : u = t + (u - t) := by omega
    have := copy_now (s.cell s.array.last) (s.array.last + 1) (s.size s.array.last) (s.size s.array.last * 2) s.ot.rel t (N := b - t) (by omega) (m := u - t) (by omega)
    rw [hc, ← q] at this
    rw [this]
    exact (I.hist u (by omega)).2.2 h1
  have x : Ext s s' h h := by
    cases e
    refine ⟨Nat.le_refl _, Nat.le_refl _, Nat.le_refl _, Nat.le_succ _, fun _ _ => rfl, fun _ _ => rfl, fun a c => ?_, fun a l => fn_ne (by omega), ?_, ?_, fun p u a _ l _ _ _ => ⟨?_, rfl⟩, fun l => absurd l (Nat.lt_irrefl _)⟩
    · show _ ≤ (fn s.cell (s.array.last + 1) cells a c).last
      by_cases q : a = s.array.last + 1
      · rw [q, I.new _ _ (Nat.lt_succ_self _)]; exact Nat.zero_le _
      · rw [fn_ne q]; exact Nat.le_refl _
    · rintro p u _ ⟨q, q1, q2, q3, q4⟩
      exact ⟨q, q1, q2, q3, fun c => c.2⟩
    · rintro p u _ _ ⟨q, q1, q2, q3, q4⟩
      exact .inl ⟨q, q1, q2, q3, fun c => by rw [ho] at c; exact c.2⟩
    · show fn s.cell (s.array.last + 1) cells a _ = _
      rw [fn_ne (by omega)]
  have vs := I.views.imp fun w => Ok.ext (w := w) x
  have zero : Ok s' h .zero := by
    have := vs.cell (s.array.last + 1) 0 0 (Nat.zero_le _)
    rw [I.new _ _ (Nat.lt_succ_self _)] at this
    exact this
  have oc' := vs.oc
  have fill : ∀ a c, (s.ot.cur.fill (s.array.last + 1) cells).ts (.cell a c) = (s'.cell a c).last := by
    intro a c
    show (if a = s.array.last + 1 then _ else _) = _
    have : s'.cell a c = fn s.cell (s.array.last + 1) cells a c := by cases e; rfl
    rw [this]
    split
    · next q => rw [q, fn_same]
    · next q => rw [fn_ne q]; exact m.cell a c
  have le : s.ot.cur.le (s.ot.cur.fill (s.array.last + 1) cells) := by
    refine ⟨fun l => ?_, Nat.le_refl _⟩
    cases l with
    | cell a c => rw [fill]; exact oc'.cell a c
    | _ => exact Nat.le_refl _
  have ofill : Ok s' h (s.ot.cur.fill (s.array.last + 1) cells) :=
    ⟨oc'.top, oc'.bot, oc'.arr, oc'.lo, oc'.hi, fun a c => Nat.le_of_eq (fill a c), oc'.clk, fun u h1 h2 h3 => (oc'.cov u h1 h2 h3).mono le rfl⟩
  have al : s'.array.last = s.array.last + 1 := by cases e; rfl
  have ra : ((s.ot.cur.fill (s.array.last + 1) cells).reach .array (s.array.last + 1)).ts .array = s.array.last + 1 := by
    rw [View.reach_same]
    show max (s.ot.cur.ts .array) _ = _
    rw [m.arr]; exact Nat.max_eq_right (Nat.le_succ _)
  have bn : s'.bottom = s.bottom := by cases e; rfl
  have tn : s'.top = s.top := by cases e; rfl
  have cn : s'.cell (s.array.last + 1) = cells := by cases e; exact fn_same _ _ _
  have sn : s'.size (s.array.last + 1) = s.size s.array.last * 2 := by cases e; exact fn_same _ _ _
  have cur' : Ok s' h ((s.ot.cur.fill (s.array.last + 1) cells).reach .array (s.array.last + 1)) := by
    have rb : ((s.ot.cur.fill (s.array.last + 1) cells).reach .array (s.array.last + 1)).ts .bottom = s.bottom.last := by
      rw [View.reach_ne (by decide)]; exact m.bot
    refine ⟨?_, ?_, ?_, ?_, ?_, ?_, ?_, ?_⟩
    · rw [View.reach_ne (by decide)]; exact ofill.top
    · rw [rb, bn]; exact Nat.le_refl _
    · rw [ra, al]; exact Nat.le_refl _
    · rw [ra, rb, x.arrAt (Nat.le_refl _)]
      have := oc.lo
      rw [m.bot] at this
      have := oc.arr
      omega
    · rw [rb, bn]; exact fun l => absurd l (Nat.lt_irrefl _)
    · intro a c
      rw [View.reach_ne (by intro e; cases e)]; exact ofill.cell a c
    · exact ofill.clk
    · intro u h1 h2 _
      rw [rb, bn] at h1
      have h1' : u < b := by rw [a3]; exact h1
      rw [tn] at h2
      refine ⟨?_, ?_, ?_⟩
      · rw [ra, View.reach_ne (by intro e; cases e), fill]; exact Nat.le_refl _
      · rw [ra, cn, sn]; exact now u h2 h1'
      · show _ < s.ot.cur.clk
        rw [m.clk]; exact (I.hist u (by omega)).1
  have g' : Grows s' := by
    intro p q h1 h2
    rw [bn] at h2
    rw [x.arrAt h2, x.arrAt (Nat.le_trans h1 h2)]
    exact I.grows p q h1 h2
  have sc' : Ok s' h (if M.strong then s.sc.join (s.ot.cur.fill (s.array.last + 1) cells) else s.sc) := by
    split
    · exact vs.sc.join g' ofill
    · exact vs.sc
  have low : ∀ q, s.sc.ts .bottom ≤ q → q < s.bottom.last → s.bottom.val q = s.bottom.val (q + 1) + 1 → False := fun q => not_low I fun b t => by rw [ho]; exact fun z => by cases z
  have cv : ∀ a c i, i ≤ (s'.cell a c).last → Ok s' h ((s'.cell a c).view i) := by
    intro a c i l
    by_cases q : a = s.array.last + 1
    · subst q
      have hcell : s'.cell (s.array.last + 1) c = copy (s.cell s.array.last) (s.array.last + 1) (s.size s.array.last) (s.size s.array.last * 2) s.ot.rel t (b - t) c := by rw [cn, hc]
      have l' := l
      rw [hcell] at l'
      rcases copy_view _ _ _ _ _ _ _ c i l' with z | ⟨n, z1, z2⟩
      · rw [hcell, z]; exact zero
      · rw [hcell, z2]
        rw [← hcell] at z1
        exact vs.or.reachCell z1
    · have hcell : s'.cell a c = s.cell a c := by
        cases e
        show fn s.cell (s.array.last + 1) cells a c = _
        rw [fn_ne q]
      rw [hcell] at l ⊢
      exact vs.cell a c i l
  have thief : ∀ j, ThiefAt s' h (s.tt j).cur (s.th j) := fun j => (I.thief j).ext x (I.views.tc j)
  have av : ∀ i, i ≤ s'.array.last → s'.array.val i = i := by
    intro i l
    rw [al] at l
    cases e
    by_cases q : i = s.array.last + 1
    · rw [q]; exact add_val_last
    · refine (add_val (by omega)).trans (I.av i (by omega))
  have avw : ∀ i, i ≤ s'.array.last → ∃ w, Ok s' h w ∧ w.ts .array ≤ i ∧ s'.array.view i = w.reach .array i := by
    intro i l
    rw [al] at l
    by_cases q : i = s.array.last + 1
    · refine ⟨s.ot.rel, vs.or, by rw [r.1]; omega, ?_⟩
      cases e
      rw [q]; exact add_view_last
    · obtain ⟨w, w1, w2, w3⟩ := vs.arr i (by omega)
      refine ⟨w, w1, w2, ?_⟩
      cases e
      exact (add_view (by omega)).trans w3
  have sz' : ∀ a, a ≤ s'.array.last → 0 < s'.size a := by
    intro a l
    rw [al] at l
    by_cases q : a = s.array.last + 1
    · rw [q, sn]; omega
    · rw [x.size a (by omega)]; exact I.sz a (by omega)
  have new' : ∀ a c, s'.array.last < a → s'.cell a c = .one none := by
    intro a c l
    rw [al] at l
    cases e
    show fn s.cell (s.array.last + 1) cells a c = _
    rw [fn_ne (by omega)]; exact I.new a c (by omega)
  have win' : b - s.ot.cur.ts .top < s'.size s'.array.last := by
    rw [al, sn]; omega
  have hist' : ∀ u, u < b → (h u).2 < s.calls.length ∧ s.calls[(h u).2]? = (h u).1 ∧ (s.top.last ≤ u → (s'.cell s'.array.last (u % s'.size s'.array.last)).now = (h u).1) := by
    intro u hu
    obtain ⟨c1, c2, _⟩ := I.hist u (by omega)
    refine ⟨c1, c2, fun l => ?_⟩
    rw [al, cn, sn]; exact now u l hu
  have hl' : s'.len = b := by cases e; exact a3.symm
  have mine : Mine s' := by
    refine ⟨?_, ?_, ?_, ?_, ?_⟩
    · rw [bn]; cases e; rw [← m.bot]; exact View.reach_ne (by decide)
    · rw [al]; cases e; exact ra
    · intro a c
      rw [← fill a c]
      cases e
      exact View.reach_ne (by intro e; cases e)
    · cases e; exact m.clk
    · rw [hl']
      have : s'.ot.cur.ts .top = s.ot.cur.ts .top := by cases e; exact View.reach_ne (by decide)
      rw [this]; omega
  have at_ : OwnerAt s' h := by
    have c : s'.ot.cur.ts .top = s.ot.cur.ts .top := by cases e; exact View.reach_ne (by decide)
    rw [← c] at win'
    cases e
    exact ⟨a1, a2, a3, win'⟩
  have pushed : (s.pushed.map some).Perm (pop ++ (List.range s'.len).map fun i => (h i).1) := by rw [hl', ← hl]; exact I.pushed
  have some_ : s.pushed ≠ [] → 1 ≤ s'.len := by rw [hl', ← hl]; exact I.some_
  have tops' : s.top.last ≤ s'.len := by rw [hl']; exact tops
  rw [← hl'] at hist'
  cases e
  refine ⟨I.tv, av, sz', new', I.bs, I.bself, g', ⟨cur', vs.oa, vs.or, vs.tc, vs.ta, sc', vs.top, vs.bot, cv, avw⟩, mine, at_, fun z => (by cases z), tops', hist', ?_, thief, I.got, pushed, some_, I.seen⟩
  intro q q1 q2 q3
  refine (low q (Nat.le_trans ?_ q1) q2 q3).elim
  dsimp only
  split
  · exact Nat.le_max_left _ _
  · exact Nat.le_refl _

theorem Inv.putStep {s s' : St α} {h : Nat → Option α × Nat} {pop : List (Option α)} (I : Inv s h pop) {M : Mach} {i b : Nat} {w : α} (ho : s.o = .put w b) (e : ownerStep M s i = some s') :
    Inv s' (fn h b (some w, s.calls.length - 1)) pop := by
  unfold ownerStep at e
  rw [ho] at e
  dsimp only at e
  have m := I.mine
  have a := I.at_
  unfold OwnerAt at a
  rw [ho] at a
  dsimp only at a
  obtain ⟨a1, a2, a3, a4⟩ := a
  have an : s.array.now = s.array.last := I.av _ (Nat.le_refl _)
  rw [an] at e
  have hl : s.len = b := by unfold St.len; rw [ho, a3]
  have tops := I.tops
  rw [hl] at tops
  have oc := I.views.oc
  have cn : ∀ a c, s'.cell a c = if a = s.array.last ∧ c = b % s.size s.array.last then (s.cell a c).add (some w) (s.ot.rel.reach (.cell a c) ((s.cell a c).last + 1)) else s.cell a c := by
    intro a c
    cases e
    show fn s.cell _ (fn _ _ _) a c = _
    by_cases q : a = s.array.last
    · subst q
      rw [fn_same]
      by_cases z : c = b % s.size s.array.last
      · subst z
        rw [fn_same, if_pos ⟨rfl, rfl⟩]; rfl
      · rw [fn_ne z, if_neg fun y => z y.2]
    · rw [fn_ne q, if_neg fun y => q y.1]
  have keep : ∀ u a, s.top.last ≤ u → u < b → s'.cell a (u % s.size a) = s.cell a (u % s.size a) := by
    intro u a h1 h2
    rw [cn, if_neg]
    rintro ⟨q, z⟩
    rw [q] at z
    have ht := oc.top
    refine mod_ne (t := 0) (m := u) (n := b) (size := s.size s.array.last) h2 (by omega) ?_
    rw [Nat.zero_add, Nat.zero_add]; exact z
  have hk : ∀ u, u < b → fn h b (some w, s.calls.length - 1) u = h u := fun u l => fn_ne (by omega)
  have eb : s'.bottom = s.bottom := by cases e; rfl
  have eo : s'.o = .bump w b := by cases e; rfl
  have et : s'.top = s.top := by cases e; rfl
  have ea : s'.array = s.array := by cases e; rfl
  have es : s'.size = s.size := by cases e; rfl
  have ec : s'.calls = s.calls := by cases e; rfl
  have x : Ext s s' h (fn h b (some w, s.calls.length - 1)) := by
    refine ⟨by rw [ec]; exact Nat.le_refl _, by rw [et]; exact Nat.le_refl _, by rw [eb]; exact Nat.le_refl _, by rw [ea]; exact Nat.le_refl _, fun _ _ => by rw [eb], fun _ _ => by rw [eb], fun a c => ?_, fun _ _ => by rw [es], ?_, ?_, ?_, ?_⟩
    · rw [cn]
      split
      · rw [add_last]; exact Nat.le_succ _
      · exact Nat.le_refl _
    · rintro p u _ ⟨q, q1, q2, q3, q4⟩
      exact ⟨q, q1, by rw [eb]; exact q2, by unfold Low at q3 ⊢; rw [eb]; exact q3, fun c => by rw [eo] at c; exact c.2⟩
    · rintro p u _ _ ⟨q, q1, q2, q3, q4⟩
      exact .inl ⟨q, q1, by rw [← eb]; exact q2, by unfold Low at q3 ⊢; rw [← eb]; exact q3, fun c => by rw [ho] at c; exact c.2⟩
    · intro p u a hp ha h1 h2 h3
      have lt : u < b := by
        refine Nat.lt_of_not_ge fun c => h3 ?_
        obtain ⟨q, q1, q2, q3⟩ := Inv.between I.bs hp h1 (by rw [← a3]; exact c)
        exact ⟨q, q1, by rw [eb]; exact q2, by unfold Low at q3 ⊢; rw [eb]; exact q3, fun c => by rw [eo] at c; exact c.2⟩
      rw [et] at h2
      exact ⟨keep u a h2 lt, hk u lt⟩
    · rw [eb]; exact fun l => absurd l (Nat.lt_irrefl _)
  have vs := I.views.imp fun w => Ok.ext (w := w) x
  have last : (s'.cell s.array.last (b % s.size s.array.last)).last = (s.cell s.array.last (b % s.size s.array.last)).last + 1 := by
    rw [cn, if_pos ⟨rfl, rfl⟩]; rfl
  have now : (s'.cell s.array.last (b % s.size s.array.last)).now = some w := by
    rw [cn, if_pos ⟨rfl, rfl⟩]; exact add_now
  have cur' := vs.oc.reachCell (Nat.le_of_eq last.symm)
  have cv : ∀ a c i, i ≤ (s'.cell a c).last → Ok s' (fn h b (some w, s.calls.length - 1)) ((s'.cell a c).view i) := by
    intro a c i l
    by_cases q : a = s.array.last ∧ c = b % s.size s.array.last
    · have l1 := l
      rw [cn, if_pos q, add_last] at l1
      by_cases z : i = (s.cell a c).last + 1
      · have e1 : (s'.cell a c).view i = s.ot.rel.reach (.cell a c) ((s.cell a c).last + 1) := by rw [cn, if_pos q, z, add_view_last]
        rw [e1]
        exact vs.or.reachCell (by rw [← z]; exact l)
      · have e1 : (s'.cell a c).view i = (s.cell a c).view i := by rw [cn, if_pos q, add_view (by omega)]
        rw [e1]
        exact vs.cell a c i (by omega)
    · have e1 : s'.cell a c = s.cell a c := by rw [cn, if_neg q]
      rw [e1] at l ⊢
      exact vs.cell a c i l
  have g' : Grows s' := by
    intro p q h1 h2
    rw [eb] at h2
    rw [x.arrAt h2, x.arrAt (Nat.le_trans h1 h2)]
    exact I.grows p q h1 h2
  have low : ∀ q, s.sc.ts .bottom ≤ q → q < s.bottom.last → s.bottom.val q = s.bottom.val (q + 1) + 1 → False := fun q => not_low I fun b t => by rw [ho]; exact fun z => by cases z
  have thief : ∀ j, ThiefAt s' (fn h b (some w, s.calls.length - 1)) (s.tt j).cur (s.th j) := fun j => (I.thief j).ext x (I.views.tc j)
  have new' : ∀ a c, s.array.last < a → s'.cell a c = .one none := by
    intro a c l
    rw [cn, if_neg fun y => by omega]; exact I.new a c l
  have hl' : s'.len = b := by unfold St.len; rw [eo, eb]; exact a3.symm
  have hist' : ∀ u, u < s'.len → (fn h b (some w, s.calls.length - 1) u).2 < s.calls.length ∧ s.calls[(fn h b (some w, s.calls.length - 1) u).2]? = (fn h b (some w, s.calls.length - 1) u).1 ∧
      (s.top.last ≤ u → (s'.cell s.array.last (u % s.size s.array.last)).now = (fn h b (some w, s.calls.length - 1) u).1) := by
    intro u hu
    rw [hl'] at hu
    obtain ⟨c1, c2, c3⟩ := I.hist u (by omega)
    rw [hk u hu]
    refine ⟨c1, c2, fun l => ?_⟩
    rw [keep u _ l hu]; exact c3 l
  have ct : s'.ot.cur.ts .top = s.ot.cur.ts .top := by cases e; exact View.reach_ne (by intro e; cases e)
  have mine : Mine s' := by
    refine ⟨?_, ?_, ?_, ?_, ?_⟩
    · rw [eb]; cases e; rw [← m.bot]; exact View.reach_ne (by intro e; cases e)
    · rw [ea]; cases e; rw [← m.arr]; exact View.reach_ne (by intro e; cases e)
    · intro a c
      by_cases q : a = s.array.last ∧ c = b % s.size s.array.last
      · obtain ⟨q1, q2⟩ := q
        subst q1 q2
        rw [last]
        cases e
        refine (View.reach_same _ _ _).trans ?_
        rw [m.cell]; exact Nat.max_eq_right (Nat.le_succ _)
      · rw [cn, if_neg q]
        cases e
        refine Eq.trans (View.reach_ne ?_) (m.cell a c)
        intro z
        cases z
        exact q ⟨rfl, rfl⟩
    · cases e; exact m.clk
    · rw [hl', ct, es, ea]; omega
  have at_ : OwnerAt s' (fn h b (some w, s.calls.length - 1)) := by
    unfold OwnerAt
    rw [eo]
    dsimp only
    rw [eb, ec, ea, es, ct]
    exact ⟨a3, fn_same _ _ _, a1, a2, now, by omega⟩
  have mp : ∀ n, n ≤ b → ((List.range n).map fun i => (fn h b (some w, s.calls.length - 1) i).1) = (List.range n).map fun i => (h i).1 := by
    intro n l
    refine List.map_congr_left fun i hi => ?_
    rw [hk i (Nat.lt_of_lt_of_le (List.mem_range.1 hi) l)]
  have pushed : (s.pushed.map some).Perm (pop ++ (List.range s'.len).map fun i => (fn h b (some w, s.calls.length - 1) i).1) := by
    rw [hl', mp b (Nat.le_refl _), ← hl]; exact I.pushed
  have got : (s.got.map Prod.fst).Perm (pop ++ (List.range s.top.last).map fun i => (fn h b (some w, s.calls.length - 1) i).1) := by
    rw [mp _ tops]; exact I.got
  have some_ : s.pushed ≠ [] → 1 ≤ s'.len := by rw [hl', ← hl]; exact I.some_
  have tops' : s.top.last ≤ s'.len := by rw [hl']; exact tops
  cases e
  refine ⟨I.tv, I.av, I.sz, new', I.bs, I.bself, g', ⟨cur', vs.oa, vs.or, vs.tc, vs.ta, vs.sc, vs.top, vs.bot, cv, vs.arr⟩, mine, at_, fun z => (by cases z), tops', hist', ?_, thief, got, pushed, some_, I.seen⟩
  intro q q1 q2 q3
  exact (low q q1 q2 q3).elim

theorem Inv.callPush {s s' : St α} {h : Nat → Option α × Nat} {pop : List (Option α)} (I : Inv s h pop) {M : Mach} {w : α} (e : step M s (.push w) = some s') : Inv s' h pop := by
  unfold step at e
  dsimp only at e
  split at e
  · next ho =>
    have m := I.mine
    have x : Ext s s' h h := by
      cases e
      refine ⟨?_, Nat.le_refl _, Nat.le_refl _, Nat.le_refl _, fun _ _ => rfl, fun _ _ => rfl, fun _ _ => Nat.le_refl _, fun _ _ => rfl, ?_, ?_, fun _ _ _ _ _ _ _ _ => ⟨rfl, rfl⟩, fun l => absurd l (Nat.lt_irrefl _)⟩
      · show s.calls.length ≤ (s.calls ++ [w]).length
        rw [List.length_append]; exact Nat.le_add_right _ _
      · rintro p u _ ⟨q, q1, q2, q3, q4⟩
        exact ⟨q, q1, q2, q3, fun c => c.2⟩
      · rintro p u _ _ ⟨q, q1, q2, q3, q4⟩
        exact .inl ⟨q, q1, q2, q3, fun c => by rw [ho] at c; exact c.2⟩
    have vs := I.views.imp fun w => Ok.ext (w := w) x
    have ln : s'.calls.length = s.calls.length + 1 := by cases e; exact List.length_append
    have cur' := vs.oc.clock (n := s.calls.length + 1) (by rw [m.clk]; exact Nat.le_succ _) (by rw [ln]; exact Nat.le_refl _)
    have g' : Grows s' := by
      intro p q h1 h2
      cases e
      exact I.grows p q h1 h2
    have thief : ∀ j, ThiefAt s' h (s.tt j).cur (s.th j) := fun j => (I.thief j).ext x (I.views.tc j)
    have hl : s.len = s.bottom.now := by unfold St.len; rw [ho]
    have hl' : s'.len = s.len := by rw [hl]; cases e; rfl
    have get : ∀ n, n < s.calls.length → (s.calls ++ [w])[n]? = s.calls[n]? := fun n l => List.getElem?_append_left l
    have hist : ∀ u, u < s'.len → (h u).2 < (s.calls ++ [w]).length ∧ (s.calls ++ [w])[(h u).2]? = (h u).1 ∧ (s.top.last ≤ u → (s.cell s.array.last (u % s.size s.array.last)).now = (h u).1) := by
      intro u hu
      rw [hl'] at hu
      obtain ⟨c1, c2, c3⟩ := I.hist u hu
      refine ⟨?_, by rw [get _ c1]; exact c2, c3⟩
      rw [List.length_append]; exact Nat.lt_add_right _ c1
    have pushed : (s.pushed.map some).Perm (pop ++ (List.range s'.len).map fun i => (h i).1) := by rw [hl']; exact I.pushed
    have some_ : s.pushed ≠ [] → 1 ≤ s'.len := by rw [hl']; exact I.some_
    have tops : s.top.last ≤ s'.len := by rw [hl']; exact I.tops
    have mine : Mine s' := by
      refine ⟨?_, ?_, ?_, ?_, ?_⟩
      · cases e; exact m.bot
      · cases e; exact m.arr
      · cases e; exact m.cell
      · rw [ln]; cases e; rfl
      · rw [hl']; cases e; exact m.win
    have rel : RelAt s' h := by
      intro _
      have r := I.rel (by rw [ho]; rfl)
      rw [hl']
      cases e
      refine ⟨r.1, fun u h1 h2 => ?_⟩
      have c := r.2 u h1 h2
      exact ⟨c.ts, c.now, c.clk⟩
    have seen : Seen s' := by
      intro y hy
      have hy' : y ∈ s.got := by cases e; exact hy
      obtain ⟨n, v, k1, k2, k3⟩ := I.seen y hy'
      refine ⟨n, v, k1, ?_, k3⟩
      have := (List.getElem?_eq_some_iff.1 k2).1
      cases e
      exact (get n this).trans k2
    have at_ : OwnerAt s' h := by
      cases e
      refine ⟨?_, ?_⟩
      · show (s.calls ++ [w])[(s.calls ++ [w]).length - 1]? = some w
        rw [List.length_append]
        show (s.calls ++ [w])[s.calls.length + 1 - 1]? = some w
        rw [Nat.add_sub_cancel, List.getElem?_append_right (Nat.le_refl _), Nat.sub_self]; rfl
      · show s.calls ++ [w] ≠ []
        intro z
        have := congrArg List.length z
        rw [List.length_append] at this
        cases this
    have low : ∀ q, s.sc.ts .bottom ≤ q → q < s.bottom.last → s.bottom.val q = s.bottom.val (q + 1) + 1 → False := fun q => not_low I fun b t => by rw [ho]; exact fun z => by cases z
    cases e
    refine ⟨I.tv, I.av, I.sz, I.new, I.bs, I.bself, g', ⟨cur', vs.oa, vs.or, vs.tc, vs.ta, vs.sc, vs.top, vs.bot, vs.cell, vs.arr⟩, mine, at_, rel, tops, hist, ?_, thief, I.got, pushed, some_, seen⟩
    intro q q1 q2 q3
    exact (low q q1 q2 q3).elim
  · cases e

theorem Inv.callTake {s s' : St α} {h : Nat → Option α × Nat} {pop : List (Option α)} (I : Inv s h pop) {M : Mach} (c : s.pushed ≠ []) (e : step M s .take = some s') : Inv s' h pop := by
  unfold step at e
  dsimp only at e
  split at e
  · next ho =>
    cases e
    have nt : ∀ t, ¬ taking s.o t := fun t c => by rw [ho] at c; exact c
    have hl : s.len = s.bottom.now := by unfold St.len; rw [ho]
    refine I.turn rfl (Ext.turn h (Nat.le_refl _) rfl rfl rfl rfl rfl (fun t z => z.elim) fun t _ z => absurd z (nt t)) I.views.oc I.views.oa rfl (fun _ _ => rfl) (Nat.le_refl _) I.mine.clk (by unfold St.len; rw [ho]) ?_
      (fun _ => by rw [ho]; rfl) fun b t => by rw [ho]; exact fun z => by cases z
    show 1 ≤ s.bottom.now
    rw [← hl]; exact I.some_ c
  · cases e

theorem Inv.callSteal {s s' : St α} {h : Nat → Option α × Nat} {pop : List (Option α)} (I : Inv s h pop) {M : Mach} {j : Nat} (e : step M s (.steal j) = some s') : Inv s' h pop := by
  unfold step at e
  dsimp only at e
  split at e
  · cases e
    refine I.learn (j := j) (th := s.tt j) (pc := .top) (sc := s.sc) ?_ (I.views.tc j) (I.views.ta j) I.views.sc (Nat.le_refl _) trivial
    have : fn s.tt j (s.tt j) = s.tt := funext fun k => by
      by_cases q : k = j
      · rw [q, fn_same]
      · rw [fn_ne q]
    rw [this]
  · cases e

/-- Every step that is calm keeps the invariant. -/
theorem Inv.step {s s' : St α} {h : Nat → Option α × Nat} {pop : List (Option α)} (I : Inv s h pop) {M : Mach} {a : Act α} (c : Calm s a) (e : Wd.step M s a = some s') : ∃ h pop, Inv s' h pop := by
  cases a with
  | push w => exact ⟨h, pop, I.callPush e⟩
  | take => exact ⟨h, pop, I.callTake c e⟩
  | steal j => exact ⟨h, pop, I.callSteal e⟩
  | thief j i => exact ⟨h, pop, I.thiefStep c e⟩
  | owner i =>
    have e' : ownerStep M s i = some s' := e
    cases ho : s.o with
    | idle => unfold ownerStep at e'; rw [ho] at e'; cases e'
    | push w => exact ⟨h, pop, I.pushStep ho e'⟩
    | grow w b => exact ⟨h, pop, I.growStep ho e'⟩
    | publish w b t => exact ⟨h, pop, I.publishStep ho e'⟩
    | put w b => exact ⟨_, pop, I.putStep ho e'⟩
    | bump w b => exact ⟨h, pop, I.bumpStep ho e'⟩
    | take => exact ⟨h, pop, I.takeStep ho e'⟩
    | lower b t => exact ⟨h, pop, I.lowerStep ho e'⟩
    | fence b t =>
      dsimp only [Calm] at c
      rw [ho] at c
      exact ⟨h, pop, I.fenceStep ho c e'⟩
    | look b t => exact ⟨h, I.lookStep ho e'⟩
    | cas b t x => exact ⟨h, pop, I.casStep ho e'⟩
    | restore b => exact ⟨h, pop, I.restoreStep ho e'⟩

theorem Inv.reach {M : Mach} {size : Nat} {s : St α} (hs : 0 < size) (r : Reach M size Calm s) : ∃ h pop, Inv s h pop := by
  induction r with
  | init => exact ⟨_, _, Inv.init hs⟩
  | step _ c e ih =>
    obtain ⟨h, pop, I⟩ := ih
    exact I.step c e

/-- The invariant says that all is well. -/
theorem Inv.good {s : St α} {h : Nat → Option α × Nat} {pop : List (Option α)} (I : Inv s h pop) : Good s := by
  refine ⟨⟨(List.range (s.len - s.top.last)).map fun n => (h (s.top.last + n)).1, ?_, ?_⟩, I.seen⟩
  · refine I.pushed.trans (List.Perm.trans ?_ (I.got.append_right _).symm)
    rw [List.append_assoc]
    refine List.Perm.append_left _ ?_
    have q : s.len = s.top.last + (s.len - s.top.last) := by have := I.tops; omega
    conv => lhs; rw [q, List.range_add, List.map_append, List.map_map]
    exact List.Perm.refl _
  · intro hi
    have ho : s.len = s.bottom.now := by
      unfold St.len
      split at hi
      · next z => rw [z]
      · exact hi.elim
    have T : s.top.now = s.top.last := I.tv _ (Nat.le_refl _)
    have A : s.array.now = s.array.last := I.av _ (Nat.le_refl _)
    unfold St.content
    rw [T, A, ho]
    refine List.map_congr_left fun n hn => ?_
    have := List.mem_range.1 hn
    exact ((I.hist (s.top.last + n) (by omega)).2.2 (by omega)).symm

end Verif.Wd
