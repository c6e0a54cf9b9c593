import Verif.Proof.WeakDequePush

/-!
Programs that are calm: few tasks and no `take`; no thieves.
-/
namespace Verif.Wd

variable {α : Type}

theorem Reach.imp {M : Mach} {size : Nat} {p q : St α → Act α → Prop} {s : St α} (f : ∀ s a, Reach M size q s → p s a → q s a) (r : Reach M size p s) : Reach M size q s := by
  induction r with
  | init => exact .init
  | step _ h e ih => exact .step ih (f _ _ ih h) e

/-! ## Few tasks -/

/-- The owner only pushes, and has not filled the first array. -/
def FewAt (s : St α) : OPc α → Prop
  | .idle => s.bottom.now = s.calls.length
  | .push _ => s.bottom.now + 1 = s.calls.length
  | .put _ b | .bump _ b => b = s.bottom.now ∧ b + 1 = s.calls.length
  | _ => False

structure FewInv (size : Nat) (s : St α) : Prop where
  arr : s.array = .one 0
  sz : s.size = fun _ => size
  calls : s.calls.length ≤ size
  at_ : FewAt s s.o

theorem FewInv.step {M : Mach} {size : Nat} {s s' : St α} {a : Act α} (F : FewInv size s) (h : Few size s a) (e : step M s a = some s') : FewInv size s' := by
  obtain ⟨f1, f2, f3, f4⟩ := F
  cases a with
  | take => exact h.elim
  | push w =>
    unfold Wd.step at e
    dsimp only at e
    split at e
    · next ho =>
      rw [ho] at f4
      cases e
      have f4' : s.bottom.now = s.calls.length := f4
      have h' : s.calls.length < size := h
      refine ⟨f1, f2, ?_, ?_⟩
      · show (s.calls ++ [w]).length ≤ size
        rw [List.length_append]
        exact h'
      · show s.bottom.now + 1 = (s.calls ++ [w]).length
        rw [List.length_append, f4']
        rfl
    · cases e
  | steal j =>
    unfold Wd.step at e
    dsimp only at e
    split at e
    · cases e; exact ⟨f1, f2, f3, f4⟩
    · cases e
  | thief j i =>
    have e' : thiefStep M s j i = some s' := e
    unfold thiefStep at e'
    dsimp only at e'
    have key : ∀ x : St α, x.array = s.array → x.size = s.size → x.calls = s.calls → x.o = s.o → x.bottom = s.bottom → FewInv size x := by
      intro x x1 x2 x3 x4 x5
      refine ⟨x1.trans f1, x2.trans f2, by rw [x3]; exact f3, ?_⟩
      rw [x4]
      cases ho : s.o <;> rw [ho] at f4 <;> simp only [FewAt, x3, x5] at f4 ⊢ <;> exact f4
    repeat' (split at e')
    all_goals first
      | cases e'; done
      | (cases e'; exact key _ rfl rfl rfl rfl rfl)
  | owner i =>
    have e' : ownerStep M s i = some s' := e
    unfold ownerStep at e'
    have an : s.array.now = 0 := by rw [f1]; rfl
    cases ho : s.o with
    | idle => rw [ho] at e'; cases e'
    | push w =>
      rw [ho] at e' f4
      have f4' : s.bottom.now + 1 = s.calls.length := f4
      dsimp only at e'
      split at e'
      · cases e'
        refine ⟨f1, f2, f3, ?_⟩
        rw [f2]
        dsimp only
        have : ¬ (s.bottom.now - s.top.val i > size - 1) := by omega
        rw [if_neg this]
        exact ⟨rfl, f4'⟩
      · cases e'
    | put w b =>
      rw [ho] at e' f4
      cases e'
      exact ⟨f1, f2, f3, f4⟩
    | bump w b =>
      rw [ho] at e' f4
      obtain ⟨g1, g2⟩ := f4
      cases e'
      refine ⟨f1, f2, f3, ?_⟩
      show (s.bottom.add (b + 1) _).now = _
      rw [add_now]
      exact g2
    | grow w b => rw [ho] at f4; exact f4.elim
    | publish w b t => rw [ho] at f4; exact f4.elim
    | take => rw [ho] at f4; exact f4.elim
    | lower b t => rw [ho] at f4; exact f4.elim
    | fence b t => rw [ho] at f4; exact f4.elim
    | look b t => rw [ho] at f4; exact f4.elim
    | cas b t x => rw [ho] at f4; exact f4.elim
    | restore b => rw [ho] at f4; exact f4.elim

theorem Reach.few {M : Mach} {size : Nat} {s : St α} (hs : 0 < size) (r : Reach M size (Few size) s) : FewInv size s ∧ Reach M size Calm s := by
  induction r with
  | init => exact ⟨⟨rfl, rfl, Nat.zero_le _, rfl⟩, .init⟩
  | step r h e ih =>
    obtain ⟨F, C⟩ := ih
    refine ⟨F.step h e, .step C ?_ e⟩
    next s s' a =>
    cases a with
    | take => exact h.elim
    | push w => trivial
    | steal j => trivial
    | owner i =>
      dsimp only [Calm]
      split
      · next ho => have := F.at_; rw [ho] at this; exact this.elim
      · trivial
    | thief j i =>
      dsimp only [Calm]
      split
      · next t hj =>
        obtain ⟨hh, pop, I⟩ := Inv.reach hs C
        have e' : thiefStep M s j i = some s' := e
        unfold thiefStep at e'
        rw [hj] at e'
        dsimp only at e'
        split at e'
        · next hm =>
          obtain ⟨m1, m2⟩ := may_iff hm
          rw [F.arr] at m2
          have : i = 0 := Nat.le_zero.1 m2
          omega
        · cases e'
      · trivial

/-! ## No thieves -/

/-- The owner knows the last message of `top`, and has read it. -/
structure SoloInv (s : St α) : Prop where
  top : s.top.last ≤ s.ot.cur.ts .top
  at_ : match s.o with | .lower _ t | .fence _ t => t = s.top.now | _ => True

theorem SoloInv.step {M : Mach} {s s' : St α} {a : Act α} (F : SoloInv s) (h : Solo s a) (e : step M s a = some s') : SoloInv s' := by
  obtain ⟨f1, f2⟩ := F
  cases a with
  | steal j => exact h.elim
  | thief j i => exact h.elim
  | push w =>
    unfold Wd.step at e
    dsimp only at e
    split at e
    · cases e; exact ⟨f1, trivial⟩
    · cases e
  | take =>
    unfold Wd.step at e
    dsimp only at e
    split at e
    · cases e; exact ⟨f1, trivial⟩
    · cases e
  | owner i =>
    have e' : ownerStep M s i = some s' := e
    unfold ownerStep at e'
    cases ho : s.o with
    | idle => rw [ho] at e'; cases e'
    | push w =>
      rw [ho] at e'
      dsimp only at e'
      split at e'
      · cases e'
        refine ⟨Nat.le_trans f1 ((load_le _ _ _ _ _).ts _), ?_⟩
        dsimp only
        split
        · next z => split at z <;> cases z
        · next z => split at z <;> cases z
        · trivial
      · cases e'
    | grow w b =>
      rw [ho] at e'
      dsimp only at e'
      split at e'
      · cases e'
        exact ⟨Nat.le_trans f1 ((load_le _ _ _ _ _).ts _), trivial⟩
      · cases e'
    | publish w b t =>
      rw [ho] at e'
      cases e'
      refine ⟨?_, trivial⟩
      show _ ≤ (View.reach _ .array _).ts .top
      rw [View.reach_ne (by decide)]; exact f1
    | put w b =>
      rw [ho] at e'
      cases e'
      exact ⟨Nat.le_trans f1 ((View.le_reach _ _ _).ts _), trivial⟩
    | bump w b =>
      rw [ho] at e'
      cases e'
      exact ⟨Nat.le_trans f1 ((View.le_reach _ _ _).ts _), trivial⟩
    | take =>
      rw [ho] at e'
      dsimp only at e'
      split at e'
      · next hm =>
        obtain ⟨m1, m2⟩ := may_iff hm
        cases e'
        refine ⟨Nat.le_trans f1 ((load_le _ _ _ _ _).ts _), ?_⟩
        show s.top.val i = s.top.val s.top.last
        have : i = s.top.last := by omega
        rw [this]
      · cases e'
    | lower b t =>
      rw [ho] at e' f2
      cases e'
      exact ⟨Nat.le_trans f1 ((View.le_reach _ _ _).ts _), f2⟩
    | fence b t =>
      rw [ho] at e'
      cases e'
      exact ⟨Nat.le_trans f1 (((View.le_join_left _ _).trans (View.le_join_left _ _)).ts _), trivial⟩
    | look b t =>
      rw [ho] at e'
      dsimp only at e'
      split at e'
      · split at e'
        · cases e'; exact ⟨f1, trivial⟩
        · cases e'; exact ⟨f1, trivial⟩
      · cases e'; exact ⟨f1, trivial⟩
    | cas b t x =>
      rw [ho] at e'
      dsimp only at e'
      split at e'
      · split at e'
        · split at e'
          · cases e'
            refine ⟨?_, trivial⟩
            show s.top.last + 1 ≤ (casView M s s.ot).ts .top
            unfold casView
            rw [View.reach_same]
            exact Nat.le_max_right _ _
          · cases e'
        · cases e'
          exact ⟨Nat.le_trans f1 ((load_le _ _ _ _ _).ts _), trivial⟩
      · cases e'
    | restore b =>
      rw [ho] at e'
      cases e'
      exact ⟨Nat.le_trans f1 ((View.le_reach _ _ _).ts _), trivial⟩

theorem Reach.solo {M : Mach} {size : Nat} {s : St α} (r : Reach M size Solo s) : SoloInv s ∧ Reach M size Calm s := by
  induction r with
  | init => exact ⟨⟨Nat.le_refl _, trivial⟩, .init⟩
  | step r h e ih =>
    obtain ⟨F, C⟩ := ih
    refine ⟨F.step h e, .step C ?_ e⟩
    next s s' a =>
    cases a with
    | take => exact h
    | push w => trivial
    | steal j => trivial
    | thief j i => exact h.elim
    | owner i =>
      dsimp only [Calm]
      split
      · next ho => have := F.at_; rw [ho] at this; intro l; rw [← this]; exact l
      · trivial

/-! ## Going on -/

theorem may_last {β : Type} {th : Thr} {l : Loc} {x : Hist β} (h : th.cur.ts l ≤ x.last) : th.may l x x.last = true := by
  unfold Thr.may
  rw [decide_eq_true h, decide_eq_true (Nat.le_refl _)]; rfl

theorem Inv.ownerGoes {s : St α} {h : Nat → Option α × Nat} {pop : List (Option α)} (I : Inv s h pop) (M : Mach) (ho : ¬ s.ownerIdle) : ∃ i s', Wd.step M s (.owner i) = some s' := by
  refine ⟨s.top.last, ?_⟩
  have hm := may_last (th := s.ot) (l := .top) I.views.oc.top
  show ∃ s', ownerStep M s s.top.last = some s'
  unfold ownerStep
  cases e : s.o with
  | idle => exact absurd (by unfold St.ownerIdle; rw [e]; trivial) ho
  | push w => exact ⟨_, if_pos hm⟩
  | grow w b => exact ⟨_, if_pos hm⟩
  | publish w b t => exact ⟨_, rfl⟩
  | put w b => exact ⟨_, rfl⟩
  | bump w b => exact ⟨_, rfl⟩
  | take => exact ⟨_, if_pos hm⟩
  | lower b t => exact ⟨_, rfl⟩
  | fence b t => exact ⟨_, rfl⟩
  | look b t =>
    dsimp only
    split
    · split
      · exact ⟨_, rfl⟩
      · exact ⟨_, rfl⟩
    · exact ⟨_, rfl⟩
  | cas b t x =>
    dsimp only
    rw [if_pos hm]
    split
    · exact ⟨_, if_pos rfl⟩
    · exact ⟨_, rfl⟩
  | restore b => exact ⟨_, rfl⟩

theorem Inv.thiefGoes {s : St α} {h : Nat → Option α × Nat} {pop : List (Option α)} (I : Inv s h pop) (M : Mach) {j : Nat} (hj : ∀ x, x = s.th j → x ≠ .idle) :
    ∃ i s', Calm s (.thief j i) ∧ Wd.step M s (.thief j i) = some s' := by
  show ∃ i s', Calm s (.thief j i) ∧ Wd.thiefStep M s j i = some s'
  have calm : ∀ i, (∀ t, s.th j = .array t → i = (s.tt j).cur.ts .array) → Calm s (.thief j i) := by
    intro i f
    dsimp only [Calm]
    split
    · next t z => exact f t z
    · trivial
  unfold Wd.thiefStep
  have o := I.views.tc j
  cases e : s.th j with
  | idle => exact absurd rfl (hj _ e.symm)
  | top => exact ⟨s.top.last, _, calm _ (fun t z => by rw [e] at z; cases z), if_pos (may_last o.top)⟩
  | fence t => exact ⟨0, _, calm _ (fun t z => by rw [e] at z; cases z), rfl⟩
  | bottom t => exact ⟨s.bottom.last, _, calm _ (fun t z => by rw [e] at z; cases z), if_pos (may_last o.bot)⟩
  | array t =>
    refine ⟨(s.tt j).cur.ts .array, _, calm _ (fun _ _ => rfl), if_pos ?_⟩
    unfold Thr.may
    rw [decide_eq_true (Nat.le_refl _), decide_eq_true o.arr]; rfl
  | read t a => exact ⟨(s.cell a (t % s.size a)).last, _, calm _ (fun t z => by rw [e] at z; cases z), if_pos (may_last (o.cell _ _))⟩
  | cas t x =>
    by_cases q : s.top.val s.top.last = t
    · exact ⟨s.top.last, _, calm _ (fun t z => by rw [e] at z; cases z), by dsimp only; rw [if_pos (may_last o.top), if_pos q, if_pos rfl]⟩
    · exact ⟨s.top.last, _, calm _ (fun t z => by rw [e] at z; cases z), by dsimp only; rw [if_pos (may_last o.top), if_neg q]⟩

end Verif.Wd
