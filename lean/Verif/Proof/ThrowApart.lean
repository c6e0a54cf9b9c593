import Verif.Proof.ThrowPatch
import Verif.Spec.ThrowThreads
/-!
# Threads that share nothing do not disturb each other
-/
namespace Verif.Tt
open Verif.Tm (Rid Rec Scope Ctx Op Zone patch Closed)

theorem look_look (t s : Nat) : look t (look t s) = s := by
  unfold look
  by_cases h : s = 0
  · subst h
    by_cases h2 : t = 0
    · simp [h2]
    · simp
  · by_cases h2 : s = 2 * t
    · simp [h2]
    · simp [h, h2]

theorem look_zero (t : Nat) : look t 0 = 2 * t := rfl

theorem view_put_self (st : St) (t : Nat) (v : Tm.St) (h : v.fresh.1 = t) : view (put st t v) t = v := by
  obtain ⟨c, o, s, r, ⟨f1, f2⟩, m, tr, ov⟩ := v
  dsimp only at h
  subst h
  simp [view, put, look_look]

theorem view_put_other (st : St) {t u : Nat} (v : Tm.St) (h : u ≠ t) :
    view (put st t v) u = { view st u with scopes := fun s => v.scopes (look t (look u s)), recs := v.recs, mem := v.mem } := by
  simp [view, put, h]

/-- Steps leave the thread's number alone. -/
theorem fresh_setScope (st : Tm.St) (s : Nat) (x : Option Scope) : (st.setScope s x).fresh = st.fresh := rfl

/-- What thread `t` owns, as it calls it. -/
def Own.zone (w : Own) (t : Nat) : Zone :=
  ⟨fun s => w.scope (look t s) == t, fun | .user r => w.record r == t | .prot k => k.1 == t, fun a => w.addr a == t⟩

theorem Own.inZone {w : Own} {t : Nat} {o : Op} (h : w.ok t o) : (turn t o).inZone (w.zone t) := by
  cases o <;> simp_all [Own.ok, turn, Op.inZone, Own.zone, look_look, Tm.Op.inZone]

/-- One operation as a thread sees it. -/
def vstep (n : Nat) (v : Tm.St) (o : Op) : Option (Option Tm.St) := if v.over then none else (Tm.step n v o).map (Option.map gone)

theorem gone_patch {z : Zone} {o v : Tm.St} (h : z.S 0 = true) : gone (patch z o v) = patch z o (gone v) := by
  unfold gone
  rw [show (patch z o v).over = v.over from rfl]
  split
  · exact Tm.patch_setScope h none
  · rfl

theorem vstep_patch {n : Nat} {z : Zone} {x v : Tm.St} {o : Op} (h : Closed z v) (ho : o.inZone z) :
    vstep n (patch z x v) o = (vstep n v o).map (Option.map (patch z x)) := by
  unfold vstep
  rw [show (patch z x v).over = v.over from rfl, Tm.step_patch n h ho]
  split
  · rfl
  · cases Tm.step n v o with
    | none => rfl
    | some y =>
      cases y with
      | none => rfl
      | some v1 => simp only [Option.map_some, gone_patch h.zero]

theorem vstep_closed {n : Nat} {z : Zone} {v v' : Tm.St} {o : Op} (h : Closed z v) (ho : o.inZone z) (e : vstep n v o = some (some v')) :
    Closed z v' := by
  unfold vstep at e
  split at e
  · cases e
  · simp only [Option.map_eq_some_iff] at e
    obtain ⟨y, e1, v1, rfl, rfl⟩ := e
    have := Tm.step_closed h ho e1
    unfold gone
    split
    · exact this.setScope 0 none (by rintro sc ⟨⟩)
    · exact this

theorem unprotectedPtr_fresh {st st' : Tm.St} {r : Rid} (e : Tm.unprotectedPtr st r = some st') : st'.fresh = st.fresh := by
  unfold Tm.unprotectedPtr at e
  split at e
  · cases e
  · split at e <;> cases e <;> rfl

theorem deferredFree_fresh {st st' : Tm.St} {s : Nat} (e : Tm.deferredFree st s = some st') : st'.fresh = st.fresh := by
  unfold Tm.deferredFree at e
  split at e
  · cases e
  · split at e
    · simp only [Option.bind_eq_some_iff, Option.map_eq_some_iff] at e
      obtain ⟨s1, e1, s2, e2, rfl⟩ := e
      have h1 : s1.fresh = st.fresh := by
        unfold Tm.runProtector at e1
        split at e1
        · cases e1; rfl
        · split at e1
          · split at e1 <;> cases e1; rfl
          · cases e1; rfl
      have h2 : s2.fresh = s1.fresh := by
        unfold Tm.dropProtector at e2
        split at e2
        · cases e2; rfl
        · simp only [Option.map_eq_some_iff] at e2
          obtain ⟨s3, e3, rfl⟩ := e2
          exact (unprotectedPtr_fresh e3 :)
      exact h2.trans h1
    · cases e; rfl

theorem delete_fresh {st st' : Tm.St} {s : Nat} (e : Tm.delete st s = some st') : st'.fresh = st.fresh := by
  unfold Tm.delete at e
  simp only [Option.map_eq_some_iff] at e
  obtain ⟨s1, e1, rfl⟩ := e
  split <;> exact (deferredFree_fresh e1 :)

theorem atExit_fresh {st st' : Tm.St} (e : Tm.atExit st = some st') : st'.fresh = st.fresh := by
  unfold Tm.atExit at e
  split at e
  · cases e; rfl
  · simp only [Option.map_eq_some_iff] at e
    obtain ⟨s1, e1, rfl⟩ := e
    exact (delete_fresh e1 :)

theorem throwSet_fresh (st : Tm.St) : (Tm.throwSet st).1.fresh = st.fresh := by
  unfold Tm.throwSet
  split
  · unfold Tm.unwindSet Tm.raiiInit
    dsimp only
    split <;> split <;> rfl
  · rfl

theorem throw_fresh {n : Nat} {st st' : Tm.St} (e : Tm.throw n st = some (some st')) : st'.fresh = st.fresh := by
  unfold Tm.throw at e
  split at e
  · cases e
  · cases e
  · next s1 h1 =>
    simp only [Option.map_eq_some_iff] at e
    obtain ⟨s2, e2, e3⟩ := e
    cases e3
    have a : s1.fresh = st.fresh := by
      unfold Tm.unwindStack at h1
      simp only [Option.map_eq_some_iff] at h1
      obtain ⟨y, h1, s3, rfl, rfl⟩ := h1
      rw [← throwSet_fresh st]
      split at h1
      · simp only [Option.map_eq_some_iff] at h1
        obtain ⟨s4, h1, h2⟩ := h1
        cases h2
        exact (deferredFree_fresh h1 :)
      · exact (Tm.walk_keeps h1).2.1
    rw [← a]
    unfold Tm.terminate at e2
    split at e2
    · simp only [Option.bind_eq_some_iff] at e2
      obtain ⟨s3, e4, e5⟩ := e2
      rw [atExit_fresh e5]
      split at e4
      · exact delete_fresh e4
      · cases e4; rfl
    · cases e2; rfl

theorem step_fresh {n : Nat} {st st' : Tm.St} {o : Op} (e : Tm.step n st o = some (some st')) : st'.fresh.1 = st.fresh.1 := by
  cases o with
  | enter _ => cases e; rfl
  | leave =>
    simp only [Tm.step] at e
    split at e <;> cases e
    rfl
  | init =>
    cases e
    unfold Tm.raiiInit
    split <;> rfl
  | scope s => cases e; rfl
  | alloc s b f z =>
    simp only [Tm.step, Option.map_eq_some_iff] at e
    obtain ⟨s1, e1, e2⟩ := e
    cases e2
    cases h : st.scopes s with
    | none => simp [Tm.allocFull, h] at e1
    | some sc =>
      obtain ⟨s2, a, _, _, _, _, b, _⟩ := Tm.allocFull_ok (b := b) (f := f) (zero := z) h
      rw [e1] at a; cases a
      rw [b]
  | store a v => cases e; rfl
  | protect r a f => cases e; rfl
  | unprotect r =>
    simp only [Tm.step] at e
    split at e <;> cases e
    rfl
  | delete s =>
    simp only [Tm.step, Option.map_eq_some_iff] at e
    obtain ⟨s1, e1, e2⟩ := e
    cases e2
    rw [delete_fresh e1]
  | throw => rw [throw_fresh e]
  | finish =>
    simp only [Tm.step, Option.map_eq_some_iff] at e
    obtain ⟨s1, e1, e2⟩ := e
    cases e2
    rw [atExit_fresh e1]

theorem gone_fresh (v : Tm.St) : (gone v).fresh = v.fresh := by unfold gone; split <;> rfl

theorem vstep_fresh {n : Nat} {v v' : Tm.St} {o : Op} (e : vstep n v o = some (some v')) : v'.fresh.1 = v.fresh.1 := by
  unfold vstep at e
  split at e
  · cases e
  · simp only [Option.map_eq_some_iff] at e
    obtain ⟨y, e1, v1, rfl, rfl⟩ := e
    rw [gone_fresh]; exact step_fresh e1

theorem step_eq (n : Nat) (st : St) (t : Nat) (o : Op) : step n st t o = (vstep n (view st t) (turn t o)).map (Option.map (put st t)) := by
  unfold step vstep
  rw [show (view st t).over = (st.loc t).over from rfl]
  split
  · rfl
  · rw [Option.map_map]
    congr 1
    funext y
    cases y <;> rfl

/-- What a thread sees agrees, on what it owns, with `v`. -/
def Agree (w : Own) (t : Nat) (st : St) (v : Tm.St) : Prop := view st t = patch (w.zone t) (view st t) v

/-- The whole of the process, for one thread: it owns what it uses, and alone it would be where it is. -/
structure Alone (w : Own) (t : Nat) (st sa : St) : Prop where
  closed : Closed (w.zone t) (view sa t)
  same : Agree w t st (view sa t)

theorem patch_patch (z : Zone) (x v : Tm.St) : patch z (patch z x v) v = patch z x v := by
  unfold patch
  simp only [Tm.St.mk.injEq, true_and, and_true]
  refine ⟨?_, ?_, ?_⟩ <;> · funext s; split <;> rfl

theorem Alone.step_self {w : Own} {t : Nat} {st sa : St} (h : Alone w t st sa) {n : Nat} {o : Op} (ho : w.ok t o) :
    (∀ sa', step n sa t o = some (some sa') → ∃ st', step n st t o = some (some st') ∧ Alone w t st' sa' ∧
      ∀ u, u ≠ t → ∀ s2, Alone w u st s2 → Alone w u st' s2) ∧
    (∀ st', step n st t o = some (some st') → ∃ sa', step n sa t o = some (some sa')) := by
  have e : vstep n (view st t) (turn t o) = (vstep n (view sa t) (turn t o)).map (Option.map (patch (w.zone t) (view st t))) := by
    have := vstep_patch (n := n) (x := view st t) h.closed (Own.inZone ho)
    rw [← show view st t = _ from h.same] at this
    exact this
  constructor
  · intro sa' hs
    rw [step_eq] at hs
    cases hv : vstep n (view sa t) (turn t o) with
    | none => rw [hv] at hs; cases hs
    | some y =>
      cases y with
      | none => rw [hv] at hs; cases hs
      | some v =>
        rw [hv] at hs
        cases hs
        have hf : v.fresh.1 = t := vstep_fresh hv
        refine ⟨put st t (patch (w.zone t) (view st t) v), by rw [step_eq, e, hv]; rfl, ⟨?_, ?_⟩, ?_⟩
        · rw [view_put_self _ _ _ hf]
          exact vstep_closed h.closed (Own.inZone ho) hv
        · unfold Agree
          rw [view_put_self _ _ _ hf, view_put_self _ _ _ (show (patch (w.zone t) (view st t) v).fresh.1 = t from hf), patch_patch]
        · intro u hu s2 h2
          refine ⟨h2.closed, ?_⟩
          unfold Agree
          rw [view_put_other st _ hu]
          have h3 := h2.same
          unfold Agree at h3
          have hs : ∀ s, (w.zone u).S s = true → (w.zone t).S (look t (look u s)) = false := by
            intro s h1
            simp only [Own.zone, look_look, beq_iff_eq] at h1 ⊢
            rw [h1]; simpa using hu
          have hr : ∀ r, (w.zone u).R r = true → (w.zone t).R r = false := by
            intro r h1
            cases r <;> simp only [Own.zone, beq_iff_eq] at h1 ⊢ <;> rw [h1] <;> simpa using hu
          have ha : ∀ a, (w.zone u).A a = true → (w.zone t).A a = false := by
            intro a h1
            simp only [Own.zone, beq_iff_eq] at h1 ⊢
            rw [h1]; simpa using hu
          have k1 := congrArg Tm.St.cur h3
          have k2 := congrArg Tm.St.outer h3
          have k3 := congrArg Tm.St.fresh h3
          have k4 := congrArg Tm.St.trace h3
          have k5 := congrArg Tm.St.over h3
          have k6 := fun s => congrFun (congrArg Tm.St.scopes h3) s
          have k7 := fun s => congrFun (congrArg Tm.St.recs h3) s
          have k8 := fun s => congrFun (congrArg Tm.St.mem h3) s
          simp only [patch] at k1 k2 k3 k4 k5 k6 k7 k8 ⊢
          simp only [Tm.St.mk.injEq]
          refine ⟨k1, k2, ?_, ?_, k3, ?_, k4, k5⟩
          · funext s
            by_cases hz : (w.zone u).S s = true
            · rw [if_pos hz]
              rw [hs s hz]
              have := k6 s
              rw [hz] at this
              simp only [if_true] at this
              simp only [view, look_look, Bool.false_eq_true, if_false] at this ⊢
              exact this
            · rw [if_neg hz]
          · funext s
            by_cases hz : (w.zone u).R s = true
            · rw [if_pos hz]
              rw [hr s hz]
              have := k7 s
              rw [hz] at this
              simp only [if_true] at this
              simp only [view, Bool.false_eq_true, if_false] at this ⊢
              exact this
            · rw [if_neg hz]
          · funext s
            by_cases hz : (w.zone u).A s = true
            · rw [if_pos hz]
              rw [ha s hz]
              have := k8 s
              rw [hz] at this
              simp only [if_true] at this
              simp only [view, Bool.false_eq_true, if_false] at this ⊢
              exact this
            · rw [if_neg hz]
  · intro st' hs
    rw [step_eq, e] at hs
    rw [step_eq]
    cases hv : vstep n (view sa t) (turn t o) with
    | none => rw [hv] at hs; cases hs
    | some y =>
      cases y with
      | none => rw [hv] at hs; cases hs
      | some v => exact ⟨_, rfl⟩

theorem Alone.start (w : Own) (t : Nat) (mem : Nat → Nat) : Alone w t (start mem) (start mem) := by
  refine ⟨⟨by simp [view, Tt.start], by simp [view, Tt.start], by simp [view, Tt.start], by simp [view, Tt.start],
    by simp [view, Tt.start, Own.zone], by simp [Own.zone, look_zero, w.own]⟩, ?_⟩
  unfold Agree patch
  simp

theorem run_only_nil {n : Nat} {st : St} {t u : Nat} {o : Op} {os : List (Nat × Op)} (h : t ≠ u) :
    run n st (only u ((t, o) :: os)) = run n st (only u os) := by
  simp [only, h]

theorem run_only_cons {n : Nat} {st : St} {t : Nat} {o : Op} {os : List (Nat × Op)} :
    run n st (only t ((t, o) :: os)) = run n st ((t, o) :: only t os) := by
  simp [only]

theorem run_apart {n : Nat} {w : Own} : ∀ {os : List (Nat × Op)} {st : St} {sa : Nat → St}, (∀ t, Alone w t st (sa t)) →
    (∀ p ∈ os, w.ok p.1 p.2) →
    ((∃ st', run n st os = some (some st')) ↔ ∀ t, ∃ st', run n (sa t) (only t os) = some (some st')) ∧
    ∀ st', run n st os = some (some st') → ∀ t, ∃ sa', run n (sa t) (only t os) = some (some sa') ∧ Alone w t st' sa'
  | [], st, sa, ha, _ => ⟨⟨fun _ t => ⟨sa t, rfl⟩, fun _ => ⟨st, rfl⟩⟩, fun st' e t => by cases e; exact ⟨sa t, rfl, ha t⟩⟩
  | (t, o) :: os, st, sa, ha, hw => by
    have hs := (ha t).step_self (n := n) (hw (t, o) (.head _))
    cases hst : step n (sa t) t o with
    | some y =>
      cases y with
      | some sa1 =>
        obtain ⟨st1, e1, e2, e3⟩ := hs.1 sa1 hst
        have ih := run_apart (n := n) (w := w) (os := os) (st := st1) (sa := fun u => if u = t then sa1 else sa u)
          (by
            intro u
            by_cases hu : u = t
            · subst hu; simpa using e2
            · simpa [hu] using e3 u hu _ (ha u))
          (fun p hp => hw p (.tail _ hp))
        have key : ∀ u, run n (sa u) (only u ((t, o) :: os)) = run n (if u = t then sa1 else sa u) (only u os) := by
          intro u
          by_cases hu : u = t
          · subst hu
            rw [run_only_cons, if_pos rfl, run, hst]
          · rw [run_only_nil (Ne.symm hu), if_neg hu]
        simp only [key]
        rw [run, e1]
        exact ih
      | none =>
        have hn : ∀ st', step n st t o ≠ some (some st') := fun st' e => by
          obtain ⟨sa', h'⟩ := hs.2 st' e; rw [hst] at h'; cases h'
        have hr : ∀ st', run n st ((t, o) :: os) ≠ some (some st') := by
          intro st' e
          rw [run] at e
          split at e
          · next st1 h => exact hn st1 h
          · next h => exact h st' e
        refine ⟨⟨fun ⟨st', e⟩ => absurd e (hr st'), fun h => ?_⟩, fun st' e => absurd e (hr st')⟩
        obtain ⟨st', e⟩ := h t
        rw [run_only_cons, run, hst] at e
        cases e
    | none =>
      have hn : ∀ st', step n st t o ≠ some (some st') := fun st' e => by
        obtain ⟨sa', h'⟩ := hs.2 st' e; rw [hst] at h'; cases h'
      have hr : ∀ st', run n st ((t, o) :: os) ≠ some (some st') := by
        intro st' e
        rw [run] at e
        split at e
        · next st1 h => exact hn st1 h
        · next h => exact h st' e
      refine ⟨⟨fun ⟨st', e⟩ => absurd e (hr st'), fun h => ?_⟩, fun st' e => absurd e (hr st')⟩
      obtain ⟨st', e⟩ := h t
      rw [run_only_cons, run, hst] at e
      cases e

end Verif.Tt
