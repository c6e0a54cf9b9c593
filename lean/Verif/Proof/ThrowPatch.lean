import Verif.Proof.ThrowTame
/-!
# What an operation does not look at does not matter
-/
namespace Verif.Tm

/-- Some of the scopes, records and addresses. -/
structure Zone where
  S : Nat → Bool
  R : Rid → Bool
  A : Nat → Bool

/-- `st`, but outside the zone as in `o`. -/
def patch (z : Zone) (o st : St) : St :=
  { st with
    scopes := fun s => if z.S s then st.scopes s else o.scopes s
    recs := fun r => if z.R r then st.recs r else o.recs r
    mem := fun a => if z.A a then st.mem a else o.mem a }

/-- Nothing in the zone leads out of it. -/
structure Closed (z : Zone) (st : St) : Prop where
  stack : ∀ r, st.cur.stack = some r → z.R r = true
  outer : ∀ c ∈ st.outer, ∀ r, c.stack = some r → z.R r = true
  recs : ∀ r rec, z.R r = true → st.recs r = some rec → (∀ q, rec.next = some q → z.R q = true) ∧ z.A rec.target = true
  scopes : ∀ s sc, z.S s = true → st.scopes s = some sc → ∀ r, sc.protector = some r → z.R r = true
  fresh : ∀ n, z.R (.prot (st.fresh.1, n)) = true
  zero : z.S 0 = true

/-- The operation names only what is in the zone. -/
def Op.inZone (z : Zone) : Op → Prop
  | .scope s | .delete s => z.S s = true
  | .alloc s b _ _ => z.S s = true ∧ z.A b = true
  | .store a _ => z.A a = true
  | .protect r a _ => z.R (.user r) = true ∧ z.A a = true
  | .unprotect r => z.R (.user r) = true
  | _ => True

variable {z : Zone} {o st : St}

theorem patch_setScope {s : Nat} (h : z.S s = true) (x : Option Scope) : (patch z o st).setScope s x = patch z o (st.setScope s x) := by
  unfold patch St.setScope
  simp only [St.mk.injEq, true_and, and_true]
  funext t
  by_cases ht : t = s
  · subst ht; simp [h]
  · simp [ht]

theorem patch_setRec {r : Rid} (h : z.R r = true) (x : Option Rec) : (patch z o st).setRec r x = patch z o (st.setRec r x) := by
  unfold patch St.setRec
  simp only [St.mk.injEq, true_and, and_true]
  funext t
  by_cases ht : t = r
  · subst ht; simp [h]
  · simp [ht]

theorem patch_setMem {a : Nat} (h : z.A a = true) (x : Nat) : (patch z o st).setMem a x = patch z o (st.setMem a x) := by
  unfold patch St.setMem
  simp only [St.mk.injEq, true_and, and_true]
  funext t
  by_cases ht : t = a
  · subst ht; simp [h]
  · simp [ht]

theorem patch_setStack (p : Option Rid) : (patch z o st).setStack p = patch z o (st.setStack p) := rfl

theorem patch_scopes {s : Nat} (h : z.S s = true) : (patch z o st).scopes s = st.scopes s := by simp [patch, h]

theorem patch_recs {r : Rid} (h : z.R r = true) : (patch z o st).recs r = st.recs r := by simp [patch, h]

theorem patch_mem {a : Nat} (h : z.A a = true) : (patch z o st).mem a = st.mem a := by simp [patch, h]

theorem Closed.setScope (h : Closed z st) (s : Nat) (x : Option Scope) (hx : ∀ sc, x = some sc → ∀ r, sc.protector = some r → z.R r = true) :
    Closed z (st.setScope s x) := by
  refine ⟨h.stack, h.outer, h.recs, ?_, h.fresh, h.zero⟩
  intro t sc ht hsc
  simp only [St.setScope] at hsc
  split at hsc
  · exact hx sc hsc
  · exact h.scopes t sc ht hsc

theorem Closed.setRec (h : Closed z st) (r : Rid) (x : Option Rec)
    (hx : ∀ rec, x = some rec → (∀ q, rec.next = some q → z.R q = true) ∧ z.A rec.target = true) : Closed z (st.setRec r x) := by
  refine ⟨h.stack, h.outer, ?_, h.scopes, h.fresh, h.zero⟩
  intro q rec hq e
  simp only [St.setRec] at e
  split at e
  · exact hx rec e
  · exact h.recs q rec hq e

theorem Closed.setStack (h : Closed z st) (p : Option Rid) (hp : ∀ r, p = some r → z.R r = true) : Closed z (st.setStack p) :=
  ⟨hp, h.outer, h.recs, h.scopes, h.fresh, h.zero⟩

theorem Closed.setMem (h : Closed z st) (a x : Nat) : Closed z (st.setMem a x) := ⟨h.stack, h.outer, h.recs, h.scopes, h.fresh, h.zero⟩

theorem Closed.trace (h : Closed z st) (l : List (Nat × Nat)) : Closed z { st with trace := l } :=
  ⟨h.stack, h.outer, h.recs, h.scopes, h.fresh, h.zero⟩

/-! ## The parts -/

theorem raiiInit_patch (h : Closed z st) : raiiInit (patch z o st) = patch z o (raiiInit st) := by
  unfold raiiInit
  rw [patch_scopes h.zero]
  cases st.scopes 0 with
  | some _ => rfl
  | none =>
    dsimp only
    rw [patch_setScope h.zero]
    rfl

theorem raiiInit_closed (h : Closed z st) : Closed z (raiiInit st) := by
  unfold raiiInit
  cases st.scopes 0 with
  | some _ => exact h
  | none =>
    have := h.setScope 0 (some newScope) (by rintro sc ⟨⟩ r e; cases e)
    exact ⟨this.stack, this.outer, this.recs, this.scopes, this.fresh, this.zero⟩

theorem protectPtr_patch {r : Rid} (hr : z.R r = true) (a f : Nat) :
    protectPtr (patch z o st) r a f = patch z o (protectPtr st r a f) := by
  unfold protectPtr
  rw [patch_setRec hr]
  rfl

theorem protectPtr_closed (h : Closed z st) {r : Rid} (hr : z.R r = true) {a : Nat} (ha : z.A a = true) (f : Nat) :
    Closed z (protectPtr st r a f) := by
  unfold protectPtr
  refine (h.setRec r _ ?_).setStack _ (by rintro q ⟨⟩; exact hr)
  rintro rec ⟨⟩
  exact ⟨h.stack, ha⟩

theorem unprotectedPtr_patch {r : Rid} (hr : z.R r = true) :
    unprotectedPtr (patch z o st) r = (unprotectedPtr st r).map (patch z o) := by
  unfold unprotectedPtr
  rw [patch_recs hr]
  cases st.recs r with
  | none => rfl
  | some rec =>
    dsimp only
    cases rec.armed with
    | true => simp only [↓reduceIte, Option.map_some, patch_setRec hr, patch_setStack]
    | false => rfl

theorem unprotectedPtr_closed (h : Closed z st) {r : Rid} (hr : z.R r = true) {st' : St} (e : unprotectedPtr st r = some st') : Closed z st' := by
  unfold unprotectedPtr at e
  cases hrec : st.recs r with
  | none => rw [hrec] at e; cases e
  | some rec =>
    have := h.recs r rec hr hrec
    rw [hrec] at e
    dsimp only at e
    split at e <;> cases e
    · exact (h.setRec r _ (by rintro rec ⟨⟩; exact this)).setStack _ this.1
    · exact h

theorem protectorOf_zone (h : Closed z st) {s : Nat} {sc : Scope} (hs : z.S s = true) (e : st.scopes s = some sc) :
    z.R (protectorOf st sc) = true := by
  unfold protectorOf
  cases hp : sc.protector with
  | some r => exact h.scopes s sc hs e r hp
  | none => exact h.fresh _

theorem allocFull_patch (h : Closed z st) {s b : Nat} (hs : z.S s = true) (hb : z.A b = true) (f : Nat) (zero : Bool) :
    allocFull (patch z o st) s b f zero = (allocFull st s b f zero).map (patch z o) := by
  unfold allocFull
  rw [patch_scopes hs]
  cases hsc : st.scopes s with
  | none => rfl
  | some sc =>
    have hr := protectorOf_zone h hs hsc
    have he : protectorOf (patch z o st) sc = protectorOf st sc := rfl
    dsimp only
    rw [he]
    cases zero with
    | true =>
      simp only [↓reduceIte, Option.map_some]
      rw [patch_setMem hb, protectPtr_patch hr, patch_setScope hs]
      rfl
    | false =>
      simp only [Bool.false_eq_true, ↓reduceIte, Option.map_some]
      rw [protectPtr_patch hr, patch_setScope hs]
      rfl

theorem allocFull_closed (h : Closed z st) {s b : Nat} (hs : z.S s = true) (hb : z.A b = true) {f : Nat} {zero : Bool} {st' : St}
    (e : allocFull st s b f zero = some st') : Closed z st' := by
  unfold allocFull at e
  cases hsc : st.scopes s with
  | none => rw [hsc] at e; cases e
  | some sc =>
    rw [hsc] at e
    have hr := protectorOf_zone h hs hsc
    dsimp only at e
    cases e
    have key : ∀ st1 : St, Closed z st1 → (protectPtr st1 (protectorOf st sc) b f).fresh = st1.fresh ∧ Closed z ((protectPtr st1 (protectorOf st sc) b f).setScope s
        (some { sc with protector := some (protectorOf st sc), isProtected := true, entries := (f, b) :: sc.entries })) :=
      fun st1 h1 => ⟨rfl, (protectPtr_closed h1 hr hb f).setScope s _ (by rintro sc1 ⟨⟩ r ⟨⟩; exact hr)⟩
    cases zero with
    | true =>
      have := (key _ (h.setMem b 0)).2
      exact ⟨this.stack, this.outer, this.recs, this.scopes, fun n => h.fresh n, this.zero⟩
    | false =>
      have := (key _ h).2
      exact ⟨this.stack, this.outer, this.recs, this.scopes, fun n => h.fresh n, this.zero⟩

theorem runProtector_patch (h : Closed z st) {sc : Scope} (hsc : ∀ r, sc.protector = some r → z.R r = true) :
    runProtector (patch z o st) sc = (runProtector st sc).map (patch z o) := by
  unfold runProtector
  cases hp : sc.protector with
  | none => rfl
  | some r =>
    dsimp only
    rw [patch_recs (hsc r hp)]
    split
    · cases hrec : st.recs r with
      | none => rfl
      | some rec =>
        have ha := (h.recs r rec (hsc r hp) hrec).2
        dsimp only
        rw [patch_mem ha]
        simp only [Option.map_some, Option.some.injEq]
        exact patch_setMem (st := { st with trace := st.trace ++ [(rec.func, st.mem rec.target)] }) ha 0
    · rfl

theorem runProtector_closed (h : Closed z st) {sc : Scope} {st' : St} (e : runProtector st sc = some st') : Closed z st' := by
  unfold runProtector at e
  cases hp : sc.protector with
  | none => rw [hp] at e; cases e; exact h
  | some r =>
    rw [hp] at e
    dsimp only at e
    split at e
    · cases hrec : st.recs r with
      | none => rw [hrec] at e; cases e
      | some rec =>
        rw [hrec] at e
        cases e
        exact (h.trace _).setMem _ _
    · cases e; exact h

theorem dropProtector_patch {sc : Scope} (hsc : ∀ r, sc.protector = some r → z.R r = true) :
    dropProtector (patch z o st) sc = (dropProtector st sc).map (patch z o) := by
  unfold dropProtector
  cases hp : sc.protector with
  | none => rfl
  | some r =>
    dsimp only
    rw [unprotectedPtr_patch (hsc r hp), Option.map_map, Option.map_map]
    congr 1
    funext st1
    exact patch_setRec (hsc r hp) none

theorem dropProtector_closed (h : Closed z st) {sc : Scope} (hsc : ∀ r, sc.protector = some r → z.R r = true) {st' : St}
    (e : dropProtector st sc = some st') : Closed z st' := by
  unfold dropProtector at e
  cases hp : sc.protector with
  | none => rw [hp] at e; cases e; exact h
  | some r =>
    rw [hp] at e
    dsimp only at e
    rw [Option.map_eq_some_iff] at e
    obtain ⟨st1, e1, rfl⟩ := e
    exact (unprotectedPtr_closed h (hsc r hp) e1).setRec r none (by rintro rec ⟨⟩)

theorem deferredFree_patch (h : Closed z st) {s : Nat} (hs : z.S s = true) :
    deferredFree (patch z o st) s = (deferredFree st s).map (patch z o) := by
  unfold deferredFree
  rw [patch_scopes hs]
  cases hsc : st.scopes s with
  | none => rfl
  | some sc =>
    have hr := h.scopes s sc hs hsc
    dsimp only
    split
    · have h1 : Closed z (runEntries st sc) := h.trace _
      rw [show runEntries (patch z o st) sc = patch z o (runEntries st sc) from rfl, runProtector_patch h1 hr]
      cases runProtector (runEntries st sc) sc with
      | none => rfl
      | some st1 =>
        simp only [Option.map_some, Option.bind_some]
        rw [dropProtector_patch hr]
        cases dropProtector st1 sc with
        | none => rfl
        | some st2 =>
          simp only [Option.map_some]
          rw [patch_setScope hs]
    · rfl

theorem deferredFree_closed (h : Closed z st) {s : Nat} (hs : z.S s = true) {st' : St} (e : deferredFree st s = some st') : Closed z st' := by
  unfold deferredFree at e
  cases hsc : st.scopes s with
  | none => rw [hsc] at e; cases e
  | some sc =>
    have hr := h.scopes s sc hs hsc
    rw [hsc] at e
    dsimp only at e
    split at e
    · rw [Option.bind_eq_some_iff] at e
      obtain ⟨st1, e1, e⟩ := e
      rw [Option.map_eq_some_iff] at e
      obtain ⟨st2, e2, rfl⟩ := e
      have h1 : Closed z (runEntries st sc) := h.trace _
      exact (dropProtector_closed (runProtector_closed h1 e1) hr e2).setScope s _ (by rintro sc1 ⟨⟩ r e; cases e)
    · cases e; exact h

theorem delete_patch (h : Closed z st) {s : Nat} (hs : z.S s = true) : delete (patch z o st) s = (delete st s).map (patch z o) := by
  unfold delete
  rw [deferredFree_patch h hs, Option.map_map, Option.map_map]
  congr 1
  funext st1
  simp only [Function.comp_apply]
  split
  · rfl
  · exact patch_setScope hs none

theorem delete_closed (h : Closed z st) {s : Nat} (hs : z.S s = true) {st' : St} (e : delete st s = some st') : Closed z st' := by
  unfold delete at e
  rw [Option.map_eq_some_iff] at e
  obtain ⟨st1, e1, rfl⟩ := e
  have := deferredFree_closed h hs e1
  split
  · exact this
  · exact this.setScope s none (by rintro sc ⟨⟩)

theorem walk_patch (n : Nat) : ∀ {st : St} {p : Option Rid} {t : Nat}, Closed z st → (∀ r, p = some r → z.R r = true) →
    walk (patch z o st) n p t = (walk st n p t).map (Option.map (patch z o)) := by
  induction n with
  | zero => intro st p t _ _; cases p <;> rfl
  | succ n ih =>
    intro st p t h hp
    cases p with
    | none => rfl
    | some r =>
      have hr := hp r rfl
      simp only [walk]
      rw [patch_recs hr]
      cases hrec : st.recs r with
      | none => rfl
      | some rec =>
        have hc := h.recs r rec hr hrec
        dsimp only
        rw [patch_mem hc.2]
        split
        · split
          · rfl
          · split
            · exact ih h hc.1
            · rw [patch_setRec hr]
              exact ih (st := { st.setRec r (some { rec with armed := false }) with trace := st.trace ++ [(rec.func, st.mem rec.target)] })
                ((h.setRec r _ (by rintro rec1 ⟨⟩; exact hc)).trace _) hc.1
        · rfl

theorem walk_closed (n : Nat) : ∀ {st : St} {p : Option Rid} {t : Nat} {st' : St}, Closed z st → (∀ r, p = some r → z.R r = true) →
    walk st n p t = some (some st') → Closed z st' := by
  induction n with
  | zero => intro st p t st' h _ e; cases p <;> cases e; exact h
  | succ n ih =>
    intro st p t st' h hp e
    cases p with
    | none => cases e; exact h
    | some r =>
      have hr := hp r rfl
      simp only [walk] at e
      cases hrec : st.recs r with
      | none => rw [hrec] at e; cases e
      | some rec =>
        have hc := h.recs r rec hr hrec
        rw [hrec] at e
        dsimp only at e
        split at e
        · split at e
          · cases e; exact h
          · split at e
            · exact ih h hc.1 e
            · exact ih ((h.setRec r _ (by rintro rec1 ⟨⟩; exact hc)).trace _) hc.1 e
        · cases e; exact h

theorem unwindSet_patch (h : Closed z st) : unwindSet (patch z o st) = (patch z o (unwindSet st).1, (unwindSet st).2) := by
  unfold unwindSet
  rw [raiiInit_patch h]
  dsimp only
  rw [patch_scopes h.zero]
  cases (raiiInit st).scopes 0 with
  | none => rfl
  | some sc => simp only [patch_setScope h.zero]

theorem unwindSet_closed (h : Closed z st) : Closed z (unwindSet st).1 := by
  have h1 := raiiInit_closed h
  unfold unwindSet
  dsimp only
  cases hs : (raiiInit st).scopes 0 with
  | none => exact h1
  | some sc => exact h1.setScope 0 _ (by rintro sc1 ⟨⟩; exact h1.scopes 0 sc h.zero hs)

theorem throwSet_patch (h : Closed z st) : throwSet (patch z o st) = (patch z o (throwSet st).1, (throwSet st).2) := by
  unfold throwSet
  rw [show (patch z o st).cur = st.cur from rfl]
  split
  · exact unwindSet_patch h
  · rfl

theorem throwSet_closed (h : Closed z st) : Closed z (throwSet st).1 := by
  unfold throwSet
  split
  · exact unwindSet_closed h
  · exact h

theorem unwindStack_patch (n : Nat) (h : Closed z st) (b : Bool) :
    unwindStack n (patch z o st) b = (unwindStack n st b).map (Option.map (patch z o)) := by
  unfold unwindStack
  cases b with
  | true =>
    simp only [↓reduceIte]
    rw [deferredFree_patch h h.zero]
    cases deferredFree st 0 <;> rfl
  | false =>
    simp only [Bool.false_eq_true, ↓reduceIte]
    rw [show (patch z o st).cur = st.cur from rfl, walk_patch n h h.stack]
    cases walk st n st.cur.stack 0 with
    | none => rfl
    | some x => cases x <;> rfl

theorem unwindStack_closed {n : Nat} (h : Closed z st) {b : Bool} {st' : St} (e : unwindStack n st b = some (some st')) : Closed z st' := by
  unfold unwindStack at e
  rw [Option.map_eq_some_iff] at e
  obtain ⟨x, e1, e2⟩ := e
  rw [Option.map_eq_some_iff] at e2
  obtain ⟨st1, rfl, rfl⟩ := e2
  refine Closed.setStack ?_ none (by rintro r ⟨⟩)
  split at e1
  · rw [Option.map_eq_some_iff] at e1
    obtain ⟨st2, e1, e3⟩ := e1
    cases e3
    exact deferredFree_closed h h.zero e1
  · exact walk_closed n h h.stack e1

theorem atExit_patch (h : Closed z st) : atExit (patch z o st) = (atExit st).map (patch z o) := by
  unfold atExit
  rw [patch_scopes h.zero]
  cases st.scopes 0 with
  | none => rfl
  | some _ =>
    dsimp only
    rw [delete_patch h h.zero, Option.map_map, Option.map_map]
    rfl

theorem atExit_closed (h : Closed z st) {st' : St} (e : atExit st = some st') : Closed z st' := by
  unfold atExit at e
  split at e
  · cases e; exact ⟨h.stack, h.outer, h.recs, h.scopes, h.fresh, h.zero⟩
  · rw [Option.map_eq_some_iff] at e
    obtain ⟨st1, e1, rfl⟩ := e
    have h := delete_closed h h.zero e1
    exact ⟨h.stack, h.outer, h.recs, h.scopes, h.fresh, h.zero⟩

theorem terminate_patch (h : Closed z st) : terminate (patch z o st) = (terminate st).map (patch z o) := by
  unfold terminate
  rw [show (patch z o st).cur = st.cur from rfl, show (patch z o st).outer = st.outer from rfl]
  split
  · split
    · rw [delete_patch h h.zero]
      cases hd : delete st 0 with
      | none => rfl
      | some st1 =>
        simp only [Option.map_some, Option.bind_some]
        exact atExit_patch (delete_closed h h.zero hd)
    · simp only [Option.bind_some]
      exact atExit_patch h
  · rfl

theorem terminate_closed (h : Closed z st) {st' : St} (e : terminate st = some st') : Closed z st' := by
  unfold terminate at e
  split at e
  · rw [Option.bind_eq_some_iff] at e
    obtain ⟨st1, e1, e2⟩ := e
    refine atExit_closed ?_ e2
    split at e1
    · exact delete_closed h h.zero e1
    · cases e1; exact h
  · cases e; exact h

theorem throw_patch (n : Nat) (h : Closed z st) : throw n (patch z o st) = (throw n st).map (Option.map (patch z o)) := by
  unfold throw
  rw [throwSet_patch h]
  dsimp only
  rw [unwindStack_patch n (throwSet_closed h)]
  cases hu : unwindStack n (throwSet st).1 (throwSet st).2 with
  | none => rfl
  | some x =>
    cases x with
    | none => rfl
    | some st1 =>
      simp only [Option.map_some]
      rw [terminate_patch (unwindStack_closed (throwSet_closed h) hu)]
      cases terminate st1 <;> rfl

theorem throw_closed {n : Nat} (h : Closed z st) {st' : St} (e : throw n st = some (some st')) : Closed z st' := by
  unfold throw at e
  cases hu : unwindStack n (throwSet st).1 (throwSet st).2 with
  | none => rw [hu] at e; cases e
  | some x =>
    rw [hu] at e
    cases x with
    | none => cases e
    | some st1 =>
      dsimp only at e
      rw [Option.map_eq_some_iff] at e
      obtain ⟨st2, e, e2⟩ := e
      cases e2
      exact terminate_closed (unwindStack_closed (throwSet_closed h) hu) e

/-- An operation that names only what is in a closed zone does the same whatever is outside of it, and changes nothing there. -/
theorem step_patch (n : Nat) (h : Closed z st) {op : Op} (hz : op.inZone z) :
    step n (patch z o st) op = (step n st op).map (Option.map (patch z o)) := by
  cases op with
  | enter junk => rfl
  | leave =>
    simp only [step]
    rw [show (patch z o st).outer = st.outer from rfl]
    cases st.outer <;> rfl
  | init => simp only [step, Option.map_some, raiiInit_patch h]
  | scope s => simp only [step, Option.map_some, patch_setScope (show z.S s = true from hz)]
  | alloc s b f zero =>
    simp only [step]
    rw [allocFull_patch h hz.1 hz.2]
    cases allocFull st s b f zero <;> rfl
  | store a x => simp only [step, Option.map_some, patch_setMem (show z.A a = true from hz)]
  | protect r a f => simp only [step, Option.map_some, protectPtr_patch hz.1]
  | unprotect r =>
    simp only [step]
    rw [patch_recs (show z.R (.user r) = true from hz)]
    cases st.recs (.user r) <;> rfl
  | delete s =>
    simp only [step]
    rw [delete_patch h (show z.S s = true from hz)]
    cases delete st s <;> rfl
  | throw => exact throw_patch n h
  | finish =>
    simp only [step]
    rw [atExit_patch h]
    cases atExit st <;> rfl

theorem step_closed {n : Nat} (h : Closed z st) {op : Op} (hz : op.inZone z) {st' : St} (e : step n st op = some (some st')) : Closed z st' := by
  cases op with
  | enter junk =>
    cases e
    refine ⟨by rintro r ⟨⟩, ?_, h.recs, h.scopes, h.fresh, h.zero⟩
    intro c hc
    rcases List.mem_cons.mp hc with rfl | hc
    · exact h.stack
    · exact h.outer c hc
  | leave =>
    simp only [step] at e
    cases ho : st.outer with
    | nil => rw [ho] at e; cases e
    | cons c cs =>
      rw [ho] at e
      cases e
      exact ⟨h.outer c (by rw [ho]; exact .head _), fun c' hc' => h.outer c' (by rw [ho]; exact .tail _ hc'), h.recs, h.scopes, h.fresh, h.zero⟩
  | init => cases e; exact raiiInit_closed h
  | scope s => cases e; exact h.setScope s _ (by rintro sc ⟨⟩ r e; cases e)
  | alloc s b f zero =>
    simp only [step, Option.map_eq_some_iff] at e
    obtain ⟨st1, e1, e2⟩ := e
    cases e2
    exact allocFull_closed h hz.1 hz.2 e1
  | store a x => cases e; exact h.setMem a x
  | protect r a f => cases e; exact protectPtr_closed h hz.1 hz.2 f
  | unprotect r =>
    simp only [step] at e
    cases hrec : st.recs (.user r) with
    | none => rw [hrec] at e; cases e
    | some rec =>
      rw [hrec] at e
      cases e
      exact h.setStack _ (h.recs _ rec hz hrec).1
  | delete s =>
    simp only [step, Option.map_eq_some_iff] at e
    obtain ⟨st1, e1, e2⟩ := e
    cases e2
    exact delete_closed h hz e1
  | throw => exact throw_closed h e
  | finish =>
    simp only [step, Option.map_eq_some_iff] at e
    obtain ⟨st1, e1, e2⟩ := e
    cases e2
    exact atExit_closed h e1

end Verif.Tm
