import Verif.Spec.TlsMore
/-!
# Thread-local variables, set and deleted: proofs
-/
namespace Verif.Tu
open Verif.Tl (Res E)

theorem refers_has {t v o : Nat} {h : History} (hr : refers t v h = some o) : has t v h = true := by
  induction h with
  | nil => cases hr
  | cons e h ih =>
    obtain ⟨t', op⟩ := e
    cases op with
    | write v' x => simp only [refers] at hr; simp [has, ih hr]
    | read v' => simp only [refers] at hr; simp [has, ih hr]
    | isEmpty v' => simp only [refers] at hr; simp [has, ih hr]
    | poke o' x => simp only [refers] at hr; simp [has, ih hr]
    | peek o' => simp only [refers] at hr; simp [has, ih hr]
    | update v' o' =>
      simp only [refers] at hr
      split at hr
      · rename_i e; simp [has, e.1, e.2]
      · simp [has, ih hr]
    | del v' =>
      simp only [refers] at hr
      split at hr
      · cases hr
      · rename_i e; simp [has, e, ih hr]

/-- What `thrd_var_tls` is. -/
def ptr (t v : Nat) (h : History) : Ptr :=
  match refers t v h with
  | some o => .ext o
  | none => if has t v h then .buffer else .null

/-- The state after the history `past`. -/
structure NI (s : N) (past : History) : Prop where
  tls : ∀ t v, s.tls t v = ptr t v past
  buffer : ∀ t v, s.buffer t v = ownVal false t v past
  ext : ∀ o, s.ext o = extVal o past

theorem ptr_null {t v : Nat} {h : History} : ptr t v h = .null ↔ has t v h = false := by
  unfold ptr
  cases hr : refers t v h with
  | some o => simp [refers_has hr]
  | none => cases hh : has t v h <;> simp

/-- What `thrd_var_tls` is after `var()`. -/
def ptr' (t v : Nat) (h : History) : Ptr :=
  match refers t v h with
  | some o => .ext o
  | none => .buffer

theorem NI.get {s : N} {past : History} (h : NI s past) (t v : Nat) :
    (s.get t v).buffer = s.buffer ∧ (s.get t v).ext = s.ext ∧
    (∀ t' v', (s.get t v).tls t' v' = if t' = t ∧ v' = v then ptr' t v past else ptr t' v' past) := by
  unfold N.get
  by_cases hn : s.tls t v = .null
  · rw [if_pos hn]
    refine ⟨rfl, rfl, fun t' v' => ?_⟩
    show (if t' = t ∧ v' = v then Ptr.buffer else s.tls t' v') = _
    by_cases e : t' = t ∧ v' = v
    · rw [if_pos e, if_pos e]
      rw [h.tls, ptr_null] at hn
      unfold ptr'
      cases hr : refers t v past with
      | none => rfl
      | some o => rw [refers_has hr] at hn; cases hn
    · rw [if_neg e, if_neg e, h.tls]
  · rw [if_neg hn]
    refine ⟨rfl, rfl, fun t' v' => ?_⟩
    by_cases e : t' = t ∧ v' = v
    · obtain ⟨rfl, rfl⟩ := e
      rw [if_pos ⟨rfl, rfl⟩, h.tls]
      rw [h.tls, ptr_null] at hn
      unfold ptr ptr'
      cases refers t' v' past with
      | none => simp [hn]
      | some o => rfl
    · rw [if_neg e, h.tls]

theorem native {s : N} {past : History} (hi : NI s past) (h : History) :
    runWith N.step s h = expectedAll false past h := by
  induction h generalizing s past with
  | nil => rfl
  | cons o h ih =>
    obtain ⟨t, op⟩ := o
    rw [runWith, expectedAll]
    cases op with
    | write v x =>
      obtain ⟨g1, g2, g3⟩ := hi.get t v
      have gt : (s.get t v).tls t v = ptr' t v past := by rw [g3]; simp
      show Res.done :: _ = Res.done :: _
      congr 1
      refine ih ?_
      unfold N.step
      dsimp only
      rw [gt]
      unfold ptr'
      cases hr : refers t v past with
      | some o =>
        refine ⟨fun t' v' => ?_, fun t' v' => ?_, fun o' => ?_⟩
        · show (s.get t v).tls t' v' = _
          rw [g3]
          by_cases e : t' = t ∧ v' = v
          · obtain ⟨rfl, rfl⟩ := e
            simp [ptr, ptr', refers, hr]
          · have e1 : (t == t' && v == v') = false := by
              rw [Bool.eq_false_iff]; intro x; simp at x; exact e ⟨x.1.symm, x.2.symm⟩
            rw [if_neg e]
            simp [ptr, refers, has, e1]
        · show (s.get t v).buffer t' v' = _
          rw [g1, hi.buffer]
          simp only [ownVal]
          rw [if_neg]
          rintro ⟨rfl, rfl, e⟩
          rw [hr] at e; cases e
        · show (if o' = o then x else (s.get t v).ext o') = _
          rw [g2, hi.ext]
          simp only [extVal, hr]
          by_cases e : o' = o
          · simp [e]
          · have : ¬ (some o = some o') := fun x => e (Option.some.inj x).symm
            rw [if_neg e, if_neg this]
      | none =>
        refine ⟨fun t' v' => ?_, fun t' v' => ?_, fun o' => ?_⟩
        · show (s.get t v).tls t' v' = _
          rw [g3]
          by_cases e : t' = t ∧ v' = v
          · obtain ⟨rfl, rfl⟩ := e
            simp [ptr, ptr', refers, hr, has]
          · have e1 : (t == t' && v == v') = false := by
              rw [Bool.eq_false_iff]; intro x; simp at x; exact e ⟨x.1.symm, x.2.symm⟩
            rw [if_neg e]
            simp [ptr, refers, has, e1]
        · show (if t' = t ∧ v' = v then x else (s.get t v).buffer t' v') = _
          rw [g1, hi.buffer]
          simp only [ownVal]
          by_cases e : t' = t ∧ v' = v
          · obtain ⟨rfl, rfl⟩ := e
            rw [if_pos ⟨rfl, rfl⟩, if_pos ⟨rfl, rfl, hr⟩]
          · rw [if_neg e, if_neg (fun x => e ⟨x.1.symm, x.2.1.symm⟩)]
        · show (s.get t v).ext o' = _
          rw [g2, hi.ext]
          simp [extVal, hr]
    | read v =>
      obtain ⟨g1, g2, g3⟩ := hi.get t v
      have gt : (s.get t v).tls t v = ptr' t v past := by rw [g3]; simp
      have e0 : (N.step s t (.read v)).2 = expected false past t (.read v) := by
        unfold N.step expected value
        dsimp only
        rw [gt]
        unfold ptr'
        cases refers t v past with
        | some o => show Res.val ((s.get t v).ext o) = _; rw [g2, hi.ext]
        | none => show Res.val ((s.get t v).buffer t v) = _; rw [g1, hi.buffer]
      rw [e0]
      congr 1
      refine ih ⟨fun t' v' => ?_, fun t' v' => ?_, fun o' => ?_⟩
      · show (s.get t v).tls t' v' = _
        rw [g3]
        by_cases e : t' = t ∧ v' = v
        · obtain ⟨rfl, rfl⟩ := e
          simp only [ptr, ptr', refers, has]
          cases refers t' v' past <;> simp
        · have e1 : (t == t' && v == v') = false := by
            rw [Bool.eq_false_iff]; intro x; simp at x; exact e ⟨x.1.symm, x.2.symm⟩
          rw [if_neg e]
          simp [ptr, refers, has, e1]
      · show (s.get t v).buffer t' v' = _
        rw [g1, hi.buffer]; rfl
      · show (s.get t v).ext o' = _
        rw [g2, hi.ext]; rfl
    | isEmpty v =>
      have e0 : (N.step s t (.isEmpty v)).2 = expected false past t (.isEmpty v) := by
        unfold N.step expected
        dsimp only
        rw [hi.tls]
        by_cases hp : ptr t v past = .null
        · rw [decide_eq_true hp, ptr_null.1 hp]; rfl
        · rw [decide_eq_false hp]
          rw [ptr_null, Bool.not_eq_false] at hp
          rw [hp]; rfl
      rw [e0]
      congr 1
      exact ih ⟨hi.tls, hi.buffer, hi.ext⟩
    | update v o =>
      show Res.done :: _ = Res.done :: _
      congr 1
      refine ih ⟨fun t' v' => ?_, hi.buffer, hi.ext⟩
      show (if t' = t ∧ v' = v then Ptr.ext o else s.tls t' v') = _
      by_cases e : t' = t ∧ v' = v
      · obtain ⟨rfl, rfl⟩ := e
        simp [ptr, refers]
      · have e1 : (t == t' && v == v') = false := by
          rw [Bool.eq_false_iff]; intro x; simp at x; exact e ⟨x.1.symm, x.2.symm⟩
        have e2 : ¬ (t = t' ∧ v = v') := fun x => e ⟨x.1.symm, x.2.symm⟩
        rw [if_neg e, hi.tls]
        simp [ptr, refers, has, e1, e2]
    | del v =>
      show Res.done :: _ = Res.done :: _
      congr 1
      refine ih ⟨fun t' v' => ?_, fun t' v' => ?_, hi.ext⟩
      · show (if t' = t ∧ v' = v then Ptr.null else s.tls t' v') = _
        by_cases e : t' = t ∧ v' = v
        · obtain ⟨rfl, rfl⟩ := e
          simp [ptr, refers, has]
        · have e2 : ¬ (t = t' ∧ v = v') := fun x => e ⟨x.1.symm, x.2.symm⟩
          rw [if_neg e, hi.tls]
          simp only [ptr, refers, has, if_neg e2]
      · show s.buffer t' v' = _
        rw [hi.buffer]
        simp [ownVal]
    | poke o x =>
      show Res.done :: _ = Res.done :: _
      congr 1
      refine ih ⟨hi.tls, hi.buffer, fun o' => ?_⟩
      show (if o' = o then x else s.ext o') = _
      rw [hi.ext]
      simp only [extVal]
      by_cases e : o' = o
      · simp [e]
      · rw [if_neg e, if_neg (Ne.symm e)]
    | peek o =>
      have e0 : (N.step s t (.peek o)).2 = expected false past t (.peek o) := by
        show Res.val (s.ext o) = _
        rw [hi.ext]; rfl
      rw [e0]
      congr 1
      exact ih ⟨hi.tls, hi.buffer, hi.ext⟩

/-- Written since: what is there does not depend on whether `var_del` makes it new. -/
theorem ownVal_new {t v : Nat} {h : History} (hs : stale t v h = false) : ownVal true t v h = ownVal false t v h := by
  induction h with
  | nil => rfl
  | cons e h ih =>
    obtain ⟨t', op⟩ := e
    cases op with
    | write v' x =>
      simp only [stale] at hs
      simp only [ownVal]
      split
      · rfl
      · rename_i hc
        rw [if_neg hc] at hs
        exact ih hs
    | del v' =>
      simp only [stale, Bool.or_eq_false_iff] at hs
      simp only [ownVal]
      have : ¬ (t' = t ∧ v' = v) := fun x => by simp [x.1, x.2] at hs
      rw [if_neg (fun x => this ⟨x.1, x.2.1⟩), if_neg (fun x => this ⟨x.1, x.2.1⟩)]
      exact ih hs.2
    | read v' => exact ih hs
    | isEmpty v' => exact ih hs
    | update v' o => exact ih hs
    | poke o x => exact ih hs
    | peek o => exact ih hs

theorem expected_new {past h : History} (hf : fresh past h) : expectedAll true past h = expectedAll false past h := by
  induction h generalizing past with
  | nil => rfl
  | cons o h ih =>
    obtain ⟨t, op⟩ := o
    obtain ⟨h1, h2⟩ := hf
    rw [expectedAll, expectedAll, ih h2]
    congr 1
    cases op with
    | read v =>
      simp only [expected, value]
      cases hr : refers t v past with
      | some o => rfl
      | none =>
        dsimp only
        rw [ownVal_new]
        rw [Bool.eq_false_iff]
        intro hs
        have := h1 hs
        rw [hr] at this
        cases this
    | _ => rfl

end Verif.Tu
