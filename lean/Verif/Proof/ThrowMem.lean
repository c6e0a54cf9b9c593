import Verif.Spec.ThrowMem
/-!
# Throwing and scoped memory: invariants
-/
namespace Verif.Tm

/-! ## Any history -/

/-- Protectors of scopes are live, belong to one scope, and come with a deferral. -/
structure G (st : St) : Prop where
  live : ∀ s sc r, st.scopes s = some sc → sc.protector = some r →
    ∃ k, r = .prot k ∧ (k.1 = st.fresh.1 → k.2 < st.fresh.2) ∧ (st.recs r).isSome ∧ sc.entries ≠ []
  own : ∀ s s' sc sc' r, st.scopes s = some sc → st.scopes s' = some sc' → sc.protector = some r →
    sc'.protector = some r → s = s'

theorem unprotectedPtr_ok {st : St} {r : Rid} (h : (st.recs r).isSome) :
    ∃ st', unprotectedPtr st r = some st' ∧ st'.trace = st.trace ∧ st'.scopes = st.scopes ∧ st'.mem = st.mem ∧
      st'.outer = st.outer ∧ st'.cur.isRaii = st.cur.isRaii ∧ st'.over = st.over ∧ st'.fresh = st.fresh ∧
      (∀ q, q ≠ r → st'.recs q = st.recs q) := by
  obtain ⟨rec, hr⟩ := Option.isSome_iff_exists.mp h
  unfold unprotectedPtr
  rw [hr]
  dsimp only
  cases rec.armed
  · exact ⟨st, rfl, rfl, rfl, rfl, rfl, rfl, rfl, rfl, fun _ _ => rfl⟩
  · refine ⟨_, rfl, rfl, rfl, rfl, rfl, rfl, rfl, rfl, ?_⟩
    intro q hq
    simp [St.setRec, St.setStack, hq]

/-- What `raii_deferred_free` leaves alone. -/
structure Kept (st st' : St) (s : Nat) (p : Option Rid) : Prop where
  mem : st'.mem = st.mem
  outer : st'.outer = st.outer
  raii : st'.cur.isRaii = st.cur.isRaii
  over : st'.over = st.over
  fresh : st'.fresh = st.fresh
  recs : ∀ r, some r ≠ p → st'.recs r = st.recs r
  scopes : ∀ t, t ≠ s → st'.scopes t = st.scopes t

theorem deferredFree_ok {st : St} {s : Nat} {sc : Scope} (h : st.scopes s = some sc) (hok : sc.ok = true)
    (hp : ∀ r, sc.protector = some r → (st.recs r).isSome ∧ sc.entries ≠ []) :
    ∃ st', deferredFree st s = some st' ∧ st'.trace = st.trace ++ sc.entries ∧ Kept st st' s sc.protector ∧
      (∃ sc', st'.scopes s = some sc' ∧ sc'.ok = false ∧ sc'.entries = [] ∧ sc'.protector = none) := by
  unfold deferredFree
  rw [h]
  dsimp only
  rw [if_pos hok]
  cases hq : sc.protector with
  | none =>
    refine ⟨_, by simp only [runProtector, dropProtector, hq]; rfl, rfl, ?_, ?_⟩
    · refine ⟨rfl, rfl, rfl, rfl, rfl, fun _ _ => rfl, ?_⟩
      intro t ht
      simp [St.setScope, ht, runEntries]
    · exact ⟨_, by simp [St.setScope]; rfl, rfl, rfl, rfl⟩
  | some r =>
    obtain ⟨h1, h2⟩ := hp r hq
    obtain ⟨st1, e1, e2, e3, e4, e5, e6, e7, e8, e9⟩ := unprotectedPtr_ok (st := runEntries st sc) (r := r) h1
    refine ⟨_, by simp only [runProtector, dropProtector, hq, h2, and_false, if_false, Option.bind_some, e1,
      Option.map_some]; rfl, ?_, ?_, ?_⟩
    · show st1.trace = _
      rw [e2]; rfl
    · refine ⟨e4, e5, e6, e7, e8, ?_, ?_⟩
      · intro q hq'
        have hne : q ≠ r := fun e => hq' (by rw [e])
        show (if q = r then none else st1.recs q) = _
        rw [if_neg hne, e9 q hne]
        rfl
      · intro t ht
        show (if t = s then _ else st1.scopes t) = _
        rw [if_neg ht, e3]
        rfl
    · exact ⟨_, by simp [St.setScope]; rfl, rfl, rfl, rfl⟩

theorem deferredFree_not {st : St} {s : Nat} {sc : Scope} (h : st.scopes s = some sc) (hok : sc.ok = false) :
    deferredFree st s = some st := by
  unfold deferredFree
  rw [h]
  simp [hok]

theorem delete_ok {st : St} (g : G st) {s : Nat} {sc : Scope} (h : st.scopes s = some sc) :
    ∃ st', delete st s = some st' ∧ st'.trace = st.trace ++ (if sc.ok then sc.entries else []) ∧
      st'.mem = st.mem ∧ st'.outer = st.outer ∧ st'.cur.isRaii = st.cur.isRaii ∧ st'.over = st.over ∧
      st'.fresh = st.fresh ∧ (∀ r, some r ≠ sc.protector → st'.recs r = st.recs r) ∧
      (∀ t, t ≠ s → st'.scopes t = st.scopes t) ∧ (s ≠ 0 → st'.scopes s = none) ∧
      (s = 0 → ∃ sc', st'.scopes 0 = some sc' ∧ sc'.ok = false) ∧ G st' := by
  unfold delete
  cases hok : sc.ok with
  | false =>
    rw [deferredFree_not h hok]
    by_cases hs : s = 0
    · subst hs
      exact ⟨st, by simp, by simp, rfl, rfl, rfl, rfl, rfl, fun _ _ => rfl, fun _ _ => rfl, fun e => absurd rfl e,
        fun _ => ⟨sc, h, hok⟩, g⟩
    · refine ⟨st.setScope s none, by simp [hs], by simp [St.setScope], rfl, rfl, rfl, rfl, rfl, fun _ _ => rfl,
        fun t ht => by simp [St.setScope, ht], fun _ => by simp [St.setScope], fun e => absurd e hs, ?_⟩
      constructor
      · intro t sc' r h1 h2
        simp only [St.setScope] at h1
        split at h1
        · cases h1
        · exact g.live t sc' r h1 h2
      · intro t t' sc1 sc2 r h1 h2
        simp only [St.setScope] at h1 h2
        split at h1
        · cases h1
        · split at h2
          · cases h2
          · exact g.own t t' sc1 sc2 r h1 h2
  | true =>
    obtain ⟨st1, e1, e2, e3, sc', e4, e5, e6, e7⟩ := deferredFree_ok h hok (fun r hr => by
      obtain ⟨k, _, _, a, b⟩ := g.live s sc r h hr; exact ⟨a, b⟩)
    rw [e1]
    have g1 : G st1 := by
      constructor
      · intro t sc1 r h1 h2
        by_cases ht : t = s
        · subst ht; rw [e4] at h1; cases h1; rw [e7] at h2; cases h2
        · rw [e3.scopes t ht] at h1
          obtain ⟨k, a, b, c, d⟩ := g.live t sc1 r h1 h2
          refine ⟨k, a, by rw [e3.fresh]; exact b, ?_, d⟩
          rw [e3.recs r]
          · exact c
          · intro e
            exact ht (g.own t s sc1 sc r h1 h h2 e.symm)
      · intro t t' sc1 sc2 r h1 h2 h3 h4
        by_cases ht : t = s
        · subst ht; rw [e4] at h1; cases h1; rw [e7] at h3; cases h3
        · by_cases ht' : t' = s
          · subst ht'; rw [e4] at h2; cases h2; rw [e7] at h4; cases h4
          · rw [e3.scopes t ht] at h1
            rw [e3.scopes t' ht'] at h2
            exact g.own t t' sc1 sc2 r h1 h2 h3 h4
    by_cases hs : s = 0
    · subst hs
      exact ⟨st1, by simp, by simp [e2], e3.mem, e3.outer, e3.raii, e3.over, e3.fresh, e3.recs, e3.scopes,
        fun e => absurd rfl e, fun _ => ⟨sc', e4, e5⟩, g1⟩
    · refine ⟨st1.setScope s none, by simp [hs], by simp [St.setScope, e2], e3.mem, e3.outer, e3.raii, e3.over,
        e3.fresh, e3.recs, fun t ht => by simp [St.setScope, ht, e3.scopes], fun _ => by simp [St.setScope],
        fun e => absurd e hs, ?_⟩
      constructor
      · intro t sc' r h1 h2
        simp only [St.setScope] at h1
        split at h1
        · cases h1
        · exact g1.live t sc' r h1 h2
      · intro t t' sc1 sc2 r h1 h2
        simp only [St.setScope] at h1 h2
        split at h1
        · cases h1
        · split at h2
          · cases h2
          · exact g1.own t t' sc1 sc2 r h1 h2

/-- Changing records (but not the set of live ones), contexts, memory or the trace keeps `G`. -/
theorem G.congr {st st' : St} (g : G st) (h1 : st'.scopes = st.scopes) (h2 : st'.fresh = st.fresh)
    (h3 : ∀ r, (st.recs r).isSome → (st'.recs r).isSome) : G st' := by
  constructor
  · intro s sc r a b
    rw [h1] at a
    obtain ⟨k, p, q, u, v⟩ := g.live s sc r a b
    exact ⟨k, p, by rw [h2]; exact q, h3 r u, v⟩
  · intro s s' sc sc' r a b
    rw [h1] at a b
    exact g.own s s' sc sc' r a b

theorem G.setRec {st : St} (g : G st) (r : Rid) (x : Rec) : G (st.setRec r (some x)) :=
  g.congr rfl rfl (fun q hq => by simp only [St.setRec]; split <;> simp [hq])

/-- Replacing a scope by one without protector, or with the same protector and entries. -/
theorem G.setScope {st : St} (g : G st) (s : Nat) (x : Scope)
    (h : x.protector = none ∨ ∃ sc, st.scopes s = some sc ∧ x.protector = sc.protector ∧ x.entries = sc.entries) :
    G (st.setScope s (some x)) := by
  constructor
  · intro t sc r a b
    simp only [St.setScope] at a
    split at a
    · cases a
      obtain h | ⟨sc, h1, h2, h3⟩ := h
      · rw [h] at b; cases b
      · rw [h2] at b
        obtain ⟨k, p, q, u, v⟩ := g.live s sc r h1 b
        exact ⟨k, p, q, u, by rw [h3]; exact v⟩
    · exact g.live t sc r a b
  · intro t t' sc sc' r a b c d
    simp only [St.setScope] at a b
    split at a
    · cases a
      obtain h | ⟨sc, h1, h2, h3⟩ := h
      · rw [h] at c; cases c
      · split at b
        · next e1 e2 => rw [e1, e2]
        · next e1 e2 => rw [h2] at c; rw [e1]; exact g.own s t' sc sc' r h1 b c d
    · split at b
      · cases b
        obtain h | ⟨sc, h1, h2, h3⟩ := h
        · rw [h] at d; cases d
        · next e1 e2 => rw [h2] at d; rw [e2]; exact g.own t s _ _ r a h1 c d
      · exact g.own t t' sc sc' r a b c d

theorem G.raiiInit {st : St} (g : G st) : G (raiiInit st) := by
  unfold Tm.raiiInit
  split
  · exact g
  · exact (g.setScope 0 newScope (.inl rfl)).congr rfl rfl (fun _ h => h)

theorem G.throwSet {st : St} (g : G st) : G (throwSet st).1 := by
  unfold Tm.throwSet
  split
  · unfold unwindSet
    dsimp only
    split
    · exact g.raiiInit
    · next sc h => exact g.raiiInit.setScope 0 _ (.inr ⟨sc, h, rfl, rfl⟩)
  · exact g

theorem walk_keeps {n : Nat} : ∀ {st : St} {p : Option Rid} {t : Nat} {st' : St}, walk st n p t = some (some st') →
    st'.scopes = st.scopes ∧ st'.fresh = st.fresh ∧ (∀ r, (st.recs r).isSome → (st'.recs r).isSome) ∧
    st'.cur = st.cur ∧ st'.outer = st.outer ∧ st'.mem = st.mem ∧ st'.over = st.over := by
  induction n with
  | zero =>
    intro st p t st' h
    cases p with
    | none => cases h; exact ⟨rfl, rfl, fun _ h => h, rfl, rfl, rfl, rfl⟩
    | some r => simp [walk] at h
  | succ n ih =>
    intro st p t st' h
    cases p with
    | none => cases h; exact ⟨rfl, rfl, fun _ h => h, rfl, rfl, rfl, rfl⟩
    | some r =>
      rw [walk] at h
      split at h
      · cases h
      · next rec hr =>
        split at h
        · dsimp only at h
          split at h
          · cases h; exact ⟨rfl, rfl, fun _ h => h, rfl, rfl, rfl, rfl⟩
          · split at h
            · exact ih h
            · obtain ⟨a, b, c, d⟩ := ih h
              refine ⟨a, b, fun q hq => c q ?_, d⟩
              simp only [St.setRec]
              split <;> simp [hq]
        · cases h; exact ⟨rfl, rfl, fun _ h => h, rfl, rfl, rfl, rfl⟩

theorem allocFull_ok {st : St} {s b f : Nat} {zero : Bool} {sc : Scope} (h : st.scopes s = some sc) :
    ∃ st', allocFull st s b f zero = some st' ∧ st'.trace = st.trace ∧ st'.outer = st.outer ∧
      st'.cur.isRaii = st.cur.isRaii ∧ st'.over = st.over ∧ st'.fresh = (st.fresh.1, st.fresh.2 + 1) ∧
      st'.mem = (fun t => if zero = true ∧ t = b then 0 else st.mem t) ∧
      (∀ t, t ≠ s → st'.scopes t = st.scopes t) ∧
      st'.scopes s = some { sc with protector := some (protectorOf st sc), isProtected := true,
                                    entries := (f, b) :: sc.entries } ∧
      (st'.recs (protectorOf st sc)).isSome ∧ (∀ r, r ≠ protectorOf st sc → st'.recs r = st.recs r) := by
  unfold allocFull
  rw [h]
  dsimp only
  refine ⟨_, rfl, ?_, ?_, ?_, ?_, ?_, ?_, ?_, ?_, ?_, ?_⟩
  · cases zero <;> rfl
  · cases zero <;> rfl
  · cases zero <;> rfl
  · cases zero <;> rfl
  · cases zero <;> rfl
  · cases zero
    · simp [St.setScope, protectPtr, St.setRec, St.setStack]
    · simp [St.setScope, protectPtr, St.setRec, St.setStack, St.setMem]
  · intro t ht
    cases zero <;> simp [St.setScope, protectPtr, St.setRec, St.setStack, St.setMem, ht]
  · simp [St.setScope]
  · cases zero <;> simp [St.setScope, protectPtr, St.setRec, St.setStack]
  · intro r hr
    cases zero <;> simp [St.setScope, protectPtr, St.setRec, St.setStack, St.setMem, hr]

theorem G.alloc {st : St} (g : G st) {s b f : Nat} {zero : Bool} {st' : St}
    (h : allocFull st s b f zero = some st') : G st' := by
  cases hs : st.scopes s with
  | none => unfold allocFull at h; rw [hs] at h; cases h
  | some sc =>
    obtain ⟨st1, e0, _, _, _, _, e5, _, e7, e8, e9, e10⟩ := allocFull_ok (b := b) (f := f) (zero := zero) hs
    rw [h] at e0
    cases e0
    have hfresh : ∀ t sc1 r, st.scopes t = some sc1 → sc1.protector = some r → r = protectorOf st sc → t = s := by
      intro t sc1 r h1 h2 h3
      obtain ⟨k, hk, hlt, _⟩ := g.live t sc1 r h1 h2
      unfold protectorOf at h3
      cases hp : sc.protector with
      | none =>
        rw [hp] at h3
        rw [hk] at h3
        simp only [Option.getD_none, Rid.prot.injEq] at h3
        rw [h3] at hlt
        exact absurd (hlt rfl) (Nat.lt_irrefl _)
      | some q =>
        rw [hp] at h3
        simp only [Option.getD_some] at h3
        exact g.own t s sc1 sc r h1 hs h2 (by rw [hp, h3])
    constructor
    · intro t sc1 r h1 h2
      by_cases ht : t = s
      · subst ht
        rw [e8] at h1
        cases h1
        simp only [Option.some.injEq] at h2
        subst h2
        cases hp : sc.protector with
        | none =>
          have : protectorOf st sc = .prot st.fresh := by unfold protectorOf; rw [hp]; rfl
          exact ⟨st.fresh, this, by rw [e5]; exact fun _ => Nat.lt_succ_self _, e9, by simp⟩
        | some q =>
          have hq : protectorOf st sc = q := by unfold protectorOf; rw [hp]; rfl
          obtain ⟨k, a, b, _, _⟩ := g.live t sc q hs hp
          exact ⟨k, by rw [hq]; exact a, by rw [e5]; exact fun h => Nat.lt_succ_of_lt (b h), e9, by simp⟩
      · rw [e7 t ht] at h1
        obtain ⟨k, a, b, c, d⟩ := g.live t sc1 r h1 h2
        refine ⟨k, a, by rw [e5]; exact fun h => Nat.lt_succ_of_lt (b h), ?_, d⟩
        rw [e10 r]
        · exact c
        · intro e; exact ht (hfresh t sc1 r h1 h2 e)
    · intro t t' sc1 sc2 r h1 h2 h3 h4
      by_cases ht : t = s
      · by_cases ht' : t' = s
        · rw [ht, ht']
        · rw [e7 t' ht'] at h2
          rw [ht, e8] at h1
          cases h1
          simp only [Option.some.injEq] at h3
          exact absurd (hfresh t' sc2 r h2 h4 h3.symm) ht'
      · rw [e7 t ht] at h1
        by_cases ht' : t' = s
        · rw [ht', e8] at h2
          cases h2
          simp only [Option.some.injEq] at h4
          exact absurd (hfresh t sc1 r h1 h3 h4.symm) ht
        · rw [e7 t' ht'] at h2
          exact g.own t t' sc1 sc2 r h1 h2 h3 h4

theorem G.delete {st st' : St} (g : G st) {s : Nat} (h : delete st s = some st') : G st' := by
  cases hs : st.scopes s with
  | none => unfold Tm.delete deferredFree at h; rw [hs] at h; cases h
  | some sc =>
    obtain ⟨st1, e, _, _, _, _, _, _, _, _, _, _, g1⟩ := delete_ok g hs
    rw [h] at e; cases e; exact g1

theorem G.deferredFree0 {st st' : St} (g : G st) (h : deferredFree st 0 = some st') : G st' := by
  have : Tm.delete st 0 = some st' := by unfold Tm.delete; rw [h]; rfl
  exact g.delete this

theorem G.atExit {st st' : St} (g : G st) (h : atExit st = some st') : G st' := by
  unfold Tm.atExit at h
  split at h
  · cases h; exact g.congr rfl rfl (fun _ h => h)
  · cases hd : Tm.delete st 0 with
    | none => rw [hd] at h; cases h
    | some st1 =>
      rw [hd] at h; cases h
      exact (g.delete hd).congr rfl rfl (fun _ h => h)

theorem G.terminate {st st' : St} (g : G st) (h : terminate st = some st') : G st' := by
  unfold Tm.terminate at h
  split at h
  · split at h
    · cases hd : Tm.delete st 0 with
      | none => rw [hd] at h; cases h
      | some st1 => rw [hd] at h; exact (g.delete hd).atExit h
    · exact g.atExit h
  · cases h; exact g

theorem G.unwindStack {n : Nat} {st st' : St} {b : Bool} (g : G st) (h : unwindStack n st b = some (some st')) :
    G st' := by
  unfold Tm.unwindStack at h
  cases b with
  | true =>
    cases hd : deferredFree st 0 with
    | none => rw [hd] at h; simp at h
    | some st1 =>
      rw [hd] at h
      simp only [if_true, Option.map_some, Option.some.injEq] at h
      subst h
      exact (g.deferredFree0 hd).congr rfl rfl (fun _ h => h)
  | false =>
    cases hd : walk st n st.cur.stack 0 with
    | none => rw [hd] at h; simp at h
    | some o =>
      cases o with
      | none => rw [hd] at h; simp at h
      | some st1 =>
        rw [hd] at h
        simp only [Bool.false_eq_true, if_false, Option.map_some, Option.some.injEq] at h
        subst h
        obtain ⟨a, b, c, _⟩ := walk_keeps hd
        exact (g.congr a b c).congr rfl rfl (fun _ h => h)

theorem G.step {n : Nat} {st st' : St} {o : Op} (g : G st) (h : step n st o = some (some st')) : G st' := by
  cases o with
  | enter junk => cases h; exact g.congr rfl rfl (fun _ h => h)
  | leave =>
    simp only [Tm.step] at h
    split at h
    · cases h
    · cases h; exact g.congr rfl rfl (fun _ h => h)
  | init => cases h; exact g.raiiInit
  | scope s => cases h; exact g.setScope s newScope (.inl rfl)
  | alloc s b f zero =>
    simp only [Tm.step] at h
    cases ha : allocFull st s b f zero with
    | none => rw [ha] at h; cases h
    | some st1 => rw [ha] at h; cases h; exact g.alloc ha
  | store a x => cases h; exact g.congr rfl rfl (fun _ h => h)
  | protect r a f => cases h; exact (g.setRec _ _).congr rfl rfl (fun _ h => h)
  | unprotect r =>
    simp only [Tm.step] at h
    split at h
    · cases h
    · cases h; exact g.congr rfl rfl (fun _ h => h)
  | delete s =>
    simp only [Tm.step] at h
    cases ha : Tm.delete st s with
    | none => rw [ha] at h; cases h
    | some st1 => rw [ha] at h; cases h; exact g.delete ha
  | throw =>
    simp only [Tm.step, Tm.throw] at h
    cases hu : Tm.unwindStack n (Tm.throwSet st).1 (Tm.throwSet st).2 with
    | none => rw [hu] at h; cases h
    | some q =>
      cases q with
      | none => rw [hu] at h; cases h
      | some st1 =>
        rw [hu] at h
        dsimp only at h
        cases ht : Tm.terminate st1 with
        | none => rw [ht] at h; cases h
        | some st2 => rw [ht] at h; cases h; exact (g.throwSet.unwindStack hu).terminate ht
  | finish =>
    simp only [Tm.step] at h
    cases ha : Tm.atExit st with
    | none => rw [ha] at h; cases h
    | some st1 => rw [ha] at h; cases h; exact g.atExit ha

theorem G.run {n : Nat} : ∀ {os : List Op} {st st' : St}, G st → run n st os = some (some st') → G st'
  | [], _, _, g, h => by cases h; exact g
  | o :: os, st, st', g, h => by
    rw [Tm.run] at h
    cases hs : Tm.step n st o with
    | none => rw [hs] at h; cases h
    | some q =>
      cases q with
      | none => rw [hs] at h; cases h
      | some st1 => rw [hs] at h; exact G.run (g.step hs) h

theorem G.start (mem : Nat → Nat) (t : Nat := 0) : G (start mem t) := ⟨by simp [Tm.start], by simp [Tm.start]⟩

/-! ## Throwing ends -/

/-- Every armed record is in `L`. -/
def Armed (st : St) (L : List Rid) : Prop := ∀ r rec, st.recs r = some rec → rec.armed = true → r ∈ L

theorem walk_ends {n : Nat} : ∀ {st : St} {L : List Rid} {p : Option Rid} {t : Nat}, Armed st L →
    2 * L.length + (if t = 0 then 1 else 2) ≤ n → walk st n p t ≠ some none := by
  induction n with
  | zero => intro st L p t _ hn; split at hn <;> omega
  | succ n ih =>
    intro st L p t ha hn
    cases p with
    | none => simp [walk]
    | some r =>
      rw [walk]
      split
      · simp
      · next rec hr =>
        split
        · next harm =>
          dsimp only
          split
          · simp
          · next ht =>
            split
            · next hv =>
              have : t ≠ 0 := by rw [hv] at ht; exact ht
              refine ih (t := st.mem rec.target) ha ?_
              rw [if_neg this] at hn
              rw [if_pos hv]
              omega
            · next hv =>
              have hmem := ha r rec hr harm
              refine ih (L := L.erase r) ?_ ?_
              · intro q rec' h1 h2
                simp only [St.setRec] at h1
                split at h1
                · cases h1; cases h2
                · next hq => exact (List.mem_erase_of_ne hq).mpr (ha q rec' h1 h2)
              · have := List.length_erase_of_mem hmem
                have hpos := List.length_pos_of_mem hmem
                rw [if_neg hv]
                split at hn <;> omega
        · simp

/-- No record is armed that was not. -/
def Less (st st' : St) : Prop := ∀ r rec, st'.recs r = some rec → rec.armed = true →
  ∃ rec0, st.recs r = some rec0 ∧ rec0.armed = true

theorem Less.refl (st : St) : Less st st := fun _ rec h a => ⟨rec, h, a⟩

theorem Less.trans {a b c : St} (h : Less a b) (k : Less b c) : Less a c := fun r rec e m => by
  obtain ⟨r1, e1, m1⟩ := k r rec e m
  exact h r r1 e1 m1

theorem Less.of_eq {st st' : St} (h : st'.recs = st.recs) : Less st st' := fun _ rec e m => ⟨rec, h ▸ e, m⟩

theorem Less.armed {st st' : St} (h : Less st st') {L : List Rid} (a : Armed st L) : Armed st' L :=
  fun r rec e m => by obtain ⟨r0, e0, m0⟩ := h r rec e m; exact a r r0 e0 m0

theorem Less.disarm {st : St} {r : Rid} {rec : Rec} : Less st (st.setRec r (some { rec with armed := false })) := by
  intro q x h m
  simp only [St.setRec] at h
  split at h
  · cases h; cases m
  · exact ⟨x, h, m⟩

theorem unprotectedPtr_less {st st' : St} {r : Rid} (h : unprotectedPtr st r = some st') : Less st st' := by
  unfold unprotectedPtr at h
  split at h
  · cases h
  · split at h
    · cases h; exact Less.disarm.trans (.of_eq rfl)
    · cases h; exact .refl _

theorem deferredFree_less {st st' : St} {s : Nat} (h : deferredFree st s = some st') : Less st st' := by
  unfold deferredFree at h
  split at h
  · cases h
  · next sc _ =>
    split at h
    · cases h1 : runProtector (runEntries st sc) sc with
      | none => rw [h1] at h; cases h
      | some st1 =>
        rw [h1] at h
        simp only [Option.bind_some] at h
        have l1 : Less st st1 := by
          unfold runProtector at h1
          split at h1
          · cases h1; exact .of_eq rfl
          · split at h1
            · split at h1
              · cases h1
              · cases h1; exact .of_eq rfl
            · cases h1; exact .of_eq rfl
        cases h2 : dropProtector st1 sc with
        | none => rw [h2] at h; cases h
        | some st2 =>
          rw [h2] at h
          cases h
          refine l1.trans (Less.trans ?_ (.of_eq rfl) (b := st2))
          unfold dropProtector at h2
          split at h2
          · cases h2; exact .refl _
          · next r _ =>
            cases h3 : unprotectedPtr st1 r with
            | none => rw [h3] at h2; cases h2
            | some st3 =>
              rw [h3] at h2
              cases h2
              refine (unprotectedPtr_less h3).trans ?_
              intro q x e m
              simp only [St.setRec] at e
              split at e
              · cases e
              · exact ⟨x, e, m⟩
    · cases h; exact .refl _

theorem delete_less {st st' : St} {s : Nat} (h : delete st s = some st') : Less st st' := by
  unfold delete at h
  cases h1 : deferredFree st s with
  | none => rw [h1] at h; cases h
  | some st1 =>
    rw [h1] at h
    cases h
    refine (deferredFree_less h1).trans ?_
    dsimp only
    split <;> exact .of_eq rfl

theorem walk_less {n : Nat} : ∀ {st : St} {p : Option Rid} {t : Nat} {st' : St}, walk st n p t = some (some st') →
    Less st st' := by
  induction n with
  | zero =>
    intro st p t st' h
    cases p with
    | none => cases h; exact .refl _
    | some r => simp [walk] at h
  | succ n ih =>
    intro st p t st' h
    cases p with
    | none => cases h; exact .refl _
    | some r =>
      rw [walk] at h
      split at h
      · cases h
      · split at h
        · dsimp only at h
          split at h
          · cases h; exact .refl _
          · split at h
            · exact ih h
            · have l := ih h
              refine Less.trans ?_ l
              exact (Less.disarm (r := r)).trans (.of_eq rfl)
        · cases h; exact .refl _

theorem throwSet_less (st : St) : Less st (throwSet st).1 := by
  unfold throwSet
  split
  · unfold unwindSet raiiInit
    dsimp only
    split <;> split <;> exact .of_eq rfl
  · exact .refl _

theorem atExit_less {st st' : St} (h : atExit st = some st') : Less st st' := by
  unfold atExit at h
  split at h
  · cases h; exact .of_eq rfl
  · cases hd : delete st 0 with
    | none => rw [hd] at h; cases h
    | some st1 => rw [hd] at h; cases h; exact (delete_less hd).trans (.of_eq rfl)

theorem terminate_less {st st' : St} (h : terminate st = some st') : Less st st' := by
  unfold terminate at h
  split at h
  · split at h
    · cases hd : delete st 0 with
      | none => rw [hd] at h; cases h
      | some st1 => rw [hd] at h; exact (delete_less hd).trans (atExit_less h)
    · exact atExit_less h
  · cases h; exact .refl _

theorem unwindStack_less {n : Nat} {st st' : St} {b : Bool} (h : unwindStack n st b = some (some st')) :
    Less st st' := by
  unfold unwindStack at h
  cases b with
  | true =>
    cases hd : deferredFree st 0 with
    | none => rw [hd] at h; simp at h
    | some st1 =>
      rw [hd] at h
      simp only [if_true, Option.map_some, Option.some.injEq] at h
      subst h
      exact (deferredFree_less hd).trans (.of_eq rfl)
  | false =>
    cases hd : walk st n st.cur.stack 0 with
    | none => rw [hd] at h; simp at h
    | some o =>
      cases o with
      | none => rw [hd] at h; simp at h
      | some st1 =>
        rw [hd] at h
        simp only [Bool.false_eq_true, if_false, Option.map_some, Option.some.injEq] at h
        subst h
        exact (walk_less hd).trans (.of_eq rfl)

theorem protectPtr_armed {st : St} {L : List Rid} (h : Armed st L) (r : Rid) (a f : Nat) :
    Armed (protectPtr st r a f) (r :: L) := by
  intro q x e m
  simp only [protectPtr, St.setStack, St.setRec] at e
  split at e
  · next e' => rw [e']; exact .head _
  · exact .tail _ (h q x e m)

theorem throw_ends {n : Nat} {st : St} {L : List Rid} (ha : Armed st L) (hn : 2 * L.length + 1 ≤ n) :
    throw n st ≠ some none := by
  unfold throw
  have h1 : unwindStack n (throwSet st).1 (throwSet st).2 ≠ some none := by
    unfold unwindStack
    cases (throwSet st).2 with
    | true => cases deferredFree (throwSet st).1 0 <;> simp
    | false =>
      have := walk_ends (p := (throwSet st).1.cur.stack) (t := 0) ((throwSet_less st).armed ha) (n := n) (by simpa using hn)
      cases hw : walk (throwSet st).1 n (throwSet st).1.cur.stack 0 with
      | none => simp
      | some q =>
        cases q with
        | none => exact absurd hw this
        | some _ => simp
  split
  · simp
  · next h => exact absurd h h1
  · next st1 _ => cases terminate st1 <;> simp

theorem step_armed {n : Nat} {st st' : St} {o : Op} {L : List Rid} (ha : Armed st L)
    (h : step n st o = some (some st')) : ∃ L', L'.length ≤ L.length + 1 ∧ Armed st' L' := by
  have less : Less st st' → ∃ L', L'.length ≤ L.length + 1 ∧ Armed st' L' :=
    fun l => ⟨L, by omega, l.armed ha⟩
  cases o with
  | enter junk => cases h; exact less (.of_eq rfl)
  | leave =>
    simp only [Tm.step] at h
    split at h
    · cases h
    · cases h; exact less (.of_eq rfl)
  | init =>
    cases h
    refine less ?_
    unfold raiiInit
    split <;> exact .of_eq rfl
  | scope s => cases h; exact less (.of_eq rfl)
  | alloc s b f zero =>
    simp only [Tm.step] at h
    cases hs : st.scopes s with
    | none => unfold allocFull at h; rw [hs] at h; cases h
    | some sc =>
      unfold allocFull at h
      rw [hs] at h
      cases h
      refine ⟨protectorOf st sc :: L, by simp, ?_⟩
      have : Armed (protectPtr (if zero then st.setMem b 0 else st) (protectorOf st sc) b f) (protectorOf st sc :: L) := by
        refine protectPtr_armed ?_ _ _ _
        cases zero <;> exact ha
      exact Less.armed (.of_eq rfl) this
  | store a x => cases h; exact less (.of_eq rfl)
  | protect r a f => cases h; exact ⟨_, by simp, protectPtr_armed ha _ a f⟩
  | unprotect r =>
    simp only [Tm.step] at h
    split at h
    · cases h
    · cases h; exact less (.of_eq rfl)
  | delete s =>
    simp only [Tm.step] at h
    cases hd : Tm.delete st s with
    | none => rw [hd] at h; cases h
    | some st1 => rw [hd] at h; cases h; exact less (delete_less hd)
  | throw =>
    simp only [Tm.step, Tm.throw] at h
    cases hu : Tm.unwindStack n (Tm.throwSet st).1 (Tm.throwSet st).2 with
    | none => rw [hu] at h; cases h
    | some q =>
      cases q with
      | none => rw [hu] at h; cases h
      | some st1 =>
        rw [hu] at h
        dsimp only at h
        cases ht : Tm.terminate st1 with
        | none => rw [ht] at h; cases h
        | some st2 =>
          rw [ht] at h; cases h
          exact less ((throwSet_less st).trans ((unwindStack_less hu).trans (terminate_less ht)))
  | finish =>
    simp only [Tm.step] at h
    cases hd : Tm.atExit st with
    | none => rw [hd] at h; cases h
    | some st1 => rw [hd] at h; cases h; exact less (atExit_less hd)

theorem step_ends {n : Nat} {st : St} {o : Op} {L : List Rid} (ha : Armed st L) (hn : 2 * L.length + 1 ≤ n) :
    step n st o ≠ some none := by
  cases o with
  | throw => exact throw_ends ha hn
  | leave => simp only [step]; split <;> simp
  | unprotect r => simp only [step]; split <;> simp
  | alloc s b f zero => simp only [step]; cases allocFull st s b f zero <;> simp
  | delete s => simp only [step]; cases delete st s <;> simp
  | finish => simp only [step]; cases atExit st <;> simp
  | _ => simp [step]

theorem run_ends {n : Nat} : ∀ {os : List Op} {st : St} {L : List Rid}, Armed st L →
    2 * (L.length + os.length) + 1 ≤ n → run n st os ≠ some none
  | [], _, _, _, _ => by simp [run]
  | o :: os, st, L, ha, hn => by
    rw [run]
    have he := step_ends (o := o) ha (n := n) (by omega)
    cases hs : step n st o with
    | none => simp
    | some q =>
      cases q with
      | none => exact absurd hs he
      | some st1 =>
        obtain ⟨L', h1, h2⟩ := step_armed ha hs
        simp only [List.length_cons] at hn
        exact run_ends h2 (by omega)

end Verif.Tm
