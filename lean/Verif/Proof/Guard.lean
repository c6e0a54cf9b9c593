import Verif.Spec.Guard
namespace Verif.Gd
open Verif.Ex (Exn)

@[simp] theorem setCtx_same (st : St) (c : Nat) (x : Ctx) : (st.setCtx c x).ctxs c = x := by simp [St.setCtx]
theorem setCtx_ne (st : St) {c d : Nat} (x : Ctx) (h : d ≠ c) : (st.setCtx c x).ctxs d = st.ctxs d := by
  simp [St.setCtx, h]
@[simp] theorem setCtx_cur (st : St) (c : Nat) (x : Ctx) : (st.setCtx c x).cur = st.cur := rfl
@[simp] theorem setCtx_fresh (st : St) (c : Nat) (x : Ctx) : (st.setCtx c x).fresh = st.fresh := rfl
@[simp] theorem setCtx_trace (st : St) (c : Nat) (x : Ctx) : (st.setCtx c x).trace = st.trace := rfl
@[simp] theorem setCtx_scopes (st : St) (c : Nat) (x : Ctx) : (st.setCtx c x).scopes = st.scopes := rfl
@[simp] theorem setCtx_arena (st : St) (c : Nat) (x : Ctx) : (st.setCtx c x).arena = st.arena := rfl
@[simp] theorem setCtx_guardOn (st : St) (c : Nat) (x : Ctx) : (st.setCtx c x).guardOn = st.guardOn := rfl
@[simp] theorem setSc_same (st : St) (c : Nat) (x : Sc) : (st.setSc c x).scopes c = x := by simp [St.setSc]
theorem setSc_ne (st : St) {c d : Nat} (x : Sc) (h : d ≠ c) : (st.setSc c x).scopes d = st.scopes d := by
  simp [St.setSc, h]
@[simp] theorem setSc_cur (st : St) (c : Nat) (x : Sc) : (st.setSc c x).cur = st.cur := rfl
@[simp] theorem setSc_fresh (st : St) (c : Nat) (x : Sc) : (st.setSc c x).fresh = st.fresh := rfl
@[simp] theorem setSc_trace (st : St) (c : Nat) (x : Sc) : (st.setSc c x).trace = st.trace := rfl
@[simp] theorem setSc_ctxs (st : St) (c : Nat) (x : Sc) : (st.setSc c x).ctxs = st.ctxs := rfl
@[simp] theorem setSc_arena (st : St) (c : Nat) (x : Sc) : (st.setSc c x).arena = st.arena := rfl
@[simp] theorem setSc_guardOn (st : St) (c : Nat) (x : Sc) : (st.setSc c x).guardOn = st.guardOn := rfl

variable {eq : Nat → Nat → Bool}

/-- Does running `ds` with the scope's error recover it? -/
def caught (eq : Nat → Nat → Bool) (err : Option Exn) (ds : List D) : Bool :=
  match err with
  | none => false
  | some e => recovered eq ds e

/-- The loop, when no deferred function throws. -/
theorem runList_calm (thr : Exn → St → Out) {a : Nat} :
    ∀ (ds : List D) (st : St), (∀ d ∈ ds, d.throws = none) → st.arena = some a →
    ∃ st', runList eq thr ds st = .ok st' ∧ st'.trace = st.trace ++ ds.map D.ev ∧
      st'.scopes = st.scopes ∧ st'.arena = st.arena ∧ st'.guardOn = st.guardOn ∧ st'.cur = st.cur ∧
      st'.fresh = st.fresh ∧ (∀ d, d ≠ st.cur → st'.ctxs d = st.ctxs d) ∧
      st'.ctxs st.cur = { st.ctxs st.cur with
        state := if caught eq (st.scopes a).err ds then 2 else (st.ctxs st.cur).state }
  | [], st, _, _ => ⟨st, rfl, by simp, rfl, rfl, rfl, rfl, rfl, fun _ _ => rfl, by
      cases h : (st.scopes a).err <;> simp [caught, recovered]⟩
  | d :: ds, st, hd, ha => by
    have hthr : d.throws = none := hd d List.mem_cons_self
    have hds : ∀ d ∈ ds, d.throws = none := fun x hx => hd x (List.mem_cons_of_mem _ hx)
    unfold runList
    dsimp only
    rw [hthr]
    dsimp only
    -- the effect of `_recover`
    have key : ∃ st1, perform eq d st = Out.ok st1 ∧ st1.trace = st.trace ++ [d.ev] ∧
        st1.scopes = st.scopes ∧ st1.arena = st.arena ∧ st1.guardOn = st.guardOn ∧ st1.cur = st.cur ∧
        st1.fresh = st.fresh ∧ (∀ c, c ≠ st.cur → st1.ctxs c = st.ctxs c) ∧
        st1.ctxs st.cur = { st.ctxs st.cur with
          state := if caught eq (st.scopes a).err [d] then 2 else (st.ctxs st.cur).state } := by
      unfold perform
      cases hr : d.recovers with
      | none =>
        refine ⟨_, rfl, rfl, rfl, rfl, rfl, rfl, rfl, fun _ _ => rfl, ?_⟩
        show st.ctxs st.cur = _
        cases h : (st.scopes a).err <;> simp [caught, recovered, hr]
      | some m =>
        dsimp only
        unfold isCaught
        have ha' : (st.log (.ran d.id)).arena = some a := ha
        rw [ha']
        dsimp only
        have hs' : (st.log (.ran d.id)).scopes = st.scopes := rfl
        rw [hs']
        cases h : (st.scopes a).err with
        | none => exact ⟨_, rfl, rfl, rfl, rfl, rfl, rfl, rfl, fun _ _ => rfl, by simp [caught]; rfl⟩
        | some e =>
          dsimp only
          by_cases hm : eq m (Gd.key e) = true
          · rw [if_pos hm]
            refine ⟨_, rfl, rfl, rfl, rfl, rfl, rfl, rfl, ?_, ?_⟩
            · intro c hc; exact setCtx_ne _ _ hc
            · have : caught eq (some e) [d] = true := by simp [caught, recovered, hr, hm]
              rw [this]
              exact setCtx_same _ _ _
          · rw [if_neg hm]
            refine ⟨_, rfl, rfl, rfl, rfl, rfl, rfl, rfl, fun _ _ => rfl, ?_⟩
            have : caught eq (some e) [d] = false := by simp [caught, recovered, hr, hm]
            rw [this]
            rfl
    obtain ⟨st1, k1, k2, k3, k4, k5, k6, k7, k8, k9⟩ := key
    rw [k1]
    simp only [Out.andThen]
    obtain ⟨st', i1, i2, i3, i4, i5, i6, i7, i8, i9⟩ := runList_calm thr ds st1 hds (by rw [k4]; exact ha)
    refine ⟨st', i1, ?_, i3.trans k3, i4.trans k4, i5.trans k5, i6.trans k6, i7.trans k7, ?_, ?_⟩
    · rw [i2, k2]; simp
    · intro c hc
      rw [i8 c (by rw [k6]; exact hc), k8 c hc]
    · rw [k6, k3] at i9
      rw [i9, k9]
      have : caught eq (st.scopes a).err (d :: ds) = (caught eq (st.scopes a).err [d] || caught eq (st.scopes a).err ds) := by
        cases (st.scopes a).err <;> simp [caught, recovered]
      rw [this]
      cases caught eq (st.scopes a).err [d] <;> cases caught eq (st.scopes a).err ds <;> simp

/-- Releasing a section's scope, when no deferred function throws. -/
theorem deferredFree_calm (thr : Exn → St → Out) {a : Nat} (st : St)
    (hact : (st.scopes a).active = true) (hd : ∀ d ∈ (st.scopes a).defers, d.throws = none)
    (ha : st.arena = some a) :
    ∃ st', deferredFree eq thr a st = .ok st' ∧ st'.trace = st.trace ++ (st.scopes a).defers.map D.ev ∧
      st'.arena = st.arena ∧ st'.guardOn = st.guardOn ∧ st'.cur = st.cur ∧
      st'.fresh = st.fresh ∧ (∀ d, d ≠ st.cur → st'.ctxs d = st.ctxs d) ∧
      (st'.ctxs st.cur = { st.ctxs st.cur with
        state := if caught eq (st.scopes a).err (st.scopes a).defers then 2 else (st.ctxs st.cur).state }) ∧
      (∀ d, d ≠ a → st'.scopes d = st.scopes d) ∧
      (st'.scopes a).defers = [] ∧ (st'.scopes a).active = false := by
  unfold deferredFree
  rw [if_pos hact]
  obtain ⟨st1, i1, i2, i3, i4, i5, i6, i7, i8, i9⟩ := runList_calm thr _ st hd ha
  rw [i1]
  refine ⟨_, rfl, i2, i4, i5, i6, i7, i8, i9, ?_, ?_, ?_⟩
  · intro d hd'
    rw [setSc_ne _ _ hd', i3]
  · rw [setSc_same]
  · rw [setSc_same]

/-- Where code runs: outside sections, or in section `a`; `k`: the section may hold memory. -/
abbrev Where := Option (Nat × Bool)

/-- A state in which code at `G` may run. -/
def Pre (G : Where) (st : St) : Prop :=
  st.cur < st.fresh ∧ (st.ctxs st.cur).unstack = false ∧
  match G with
  | none => st.guardOn = false
  | some (a, k) => st.guardOn = true ∧ st.arena = some a ∧ a < st.fresh ∧ st.cur ≠ 0 ∧
      (st.scopes a).active = true ∧ (∀ d ∈ (st.scopes a).defers, d.throws = none) ∧
      (k = true → st.cur = a ∧ (st.ctxs a).state = 0) ∧ (k = false → (st.scopes a).isProt = false)

/-- The section code at `G` may touch. -/
def touches (G : Where) (d : Nat) : Prop := ∃ k, G = some (d, k)

structure Fr (G : Where) (st st' : St) : Prop where
  fresh : st.fresh ≤ st'.fresh
  ctxs : ∀ d, d < st.fresh → d ≠ st.cur → st'.ctxs d = st.ctxs d
  scopes : ∀ d, d < st.fresh → ¬ touches G d → st'.scopes d = st.scopes d
  next : (st'.ctxs st.cur).next = (st.ctxs st.cur).next
  unstack : (st'.ctxs st.cur).unstack = false

structure Same (st st' : St) : Prop where
  cur : st'.cur = st.cur
  arena : st'.arena = st.arena
  guardOn : st'.guardOn = st.guardOn

/-- The section's deferrals and memory grew by those of `x`. -/
def Grown (G : Where) (st st' : St) (x : R) : Prop :=
  match G with
  | none => True
  | some (a, _) => (st'.scopes a).defers = x.ds ++ (st.scopes a).defers ∧ (st'.scopes a).active = true ∧
      (st'.scopes a).isProt = ((st.scopes a).isProt || x.m)

structure DoneRel (G : Where) (st st' : St) (x : R) : Prop where
  fr : Fr G st st'
  same : Same st st'
  state : (st'.ctxs st.cur).state = (st.ctxs st.cur).state
  tr : st'.trace = st.trace ++ x.t
  grown : Grown G st st' x
  calm : ∀ d ∈ x.ds, d.throws = none

/-- The section holds memory when code at `G` has done `x`. -/
def prot (G : Where) (st : St) (x : R) : Bool :=
  match G with
  | some (a, true) => (st.scopes a).isProt || x.m
  | _ => false

/-- After a throw of `e`. -/
def ThrownRel (eq : Nat → Nat → Bool) (G : Where) (st st' : St) (o : Out) (x : R) (e : Exn) : Prop :=
  Fr G st st' ∧ Same st st' ∧ (st'.ctxs st.cur).exn = e ∧ (∀ d ∈ x.ds, d.throws = none) ∧
  match G with
  | some (a, true) =>
    if (st.scopes a).isProt || x.m then
      st'.trace = st.trace ++ x.t ++ (x.ds ++ (st.scopes a).defers).map D.ev ∧
      (st'.scopes a).defers = [] ∧ (st'.scopes a).active = false ∧
      o = .jump st.cur (if recovered eq (x.ds ++ (st.scopes a).defers) e then 3 else 1) st'
    else st'.trace = st.trace ++ x.t ∧ (st'.ctxs st.cur).state = (st.ctxs st.cur).state ∧ Grown G st st' x ∧
      (st'.scopes a).err = some e ∧ o = .jump st.cur 1 st'
  | some (a, false) => st'.trace = st.trace ++ x.t ∧ (st'.ctxs st.cur).state = (st.ctxs st.cur).state ∧
      Grown G st st' x ∧ (st'.scopes a).err = some e ∧ o = .jump st.cur ((st.ctxs st.cur).state ||| 1) st'
  | none => st'.trace = st.trace ++ x.t ∧ (st'.ctxs st.cur).state = (st.ctxs st.cur).state ∧
      o = if st.cur = 0 then .dead e st' else .jump st.cur ((st.ctxs st.cur).state ||| 1) st'

/-- What code at `G` does. -/
def Post (eq : Nat → Nat → Bool) (g : Bool) (fr : Frame) (G : Where) (st : St) (o : Out) (x : R) : Prop :=
  ∃ st', match x.r with
    | .done => o = .ok st' ∧ DoneRel G st st' x
    | .broke => o = .brk st' ∧ DoneRel G st st' x
    | .returned =>
      if g then o = .ret st' ∧ Fr G st st' ∧ st'.arena = fr.arena ∧ st'.guardOn = fr.guardOn ∧
        st'.cur = (st.ctxs fr.id).next ∧ (∀ d ∈ x.ds, d.throws = none) ∧
        st'.trace = st.trace ++ x.t ++ (x.ds ++ (st.scopes fr.id).defers).map D.ev
      else o = .ret st' ∧ DoneRel G st st' x
    | .thrown e => ThrownRel eq G st st' o x e

theorem DoneRel.refl {G : Where} {st : St} (h : Pre G st) : DoneRel G st st ⟨[], [], false, .done⟩ := by
  refine ⟨⟨Nat.le_refl _, fun _ _ _ => rfl, fun _ _ _ => rfl, rfl, h.2.1⟩, ⟨rfl, rfl, rfl⟩, rfl, by simp, ?_, by simp⟩
  unfold Grown
  have h3 := h.2.2
  cases G with
  | none => trivial
  | some p => exact ⟨by simp, h3.2.2.2.2.1, by simp⟩

/-- Only `isProt` may have grown: code whose section may hold memory, or that obtained none. -/
theorem DoneRel.pre {G : Where} {st st' : St} {x : R} (h : DoneRel G st st' x) (hp : Pre G st)
    (hm : ∀ a, G = some (a, false) → x.m = false) : Pre G st' := by
  refine ⟨by rw [h.same.cur]; exact Nat.lt_of_lt_of_le hp.1 h.fr.fresh, by rw [h.same.cur]; exact h.fr.unstack, ?_⟩
  have h3 := hp.2.2
  have hg := h.grown
  cases G with
  | none => exact h.same.guardOn.trans h3
  | some p =>
    obtain ⟨a, k⟩ := p
    obtain ⟨p1, p2, p3, p4, p5, p6, p7, p8⟩ := h3
    obtain ⟨g1, g2, g3⟩ := hg
    refine ⟨h.same.guardOn.trans p1, h.same.arena.trans p2, Nat.lt_of_lt_of_le p3 h.fr.fresh, ?_, g2, ?_, ?_, ?_⟩
    · rw [h.same.cur]; exact p4
    · intro d hd
      rw [g1] at hd
      rcases List.mem_append.1 hd with hd | hd
      · exact h.calm d hd
      · exact p6 d hd
    · intro hk
      obtain ⟨q1, q2⟩ := p7 hk
      refine ⟨h.same.cur.trans q1, ?_⟩
      have := h.state
      rw [q1] at this
      exact this.trans q2
    · intro hk
      rw [g3, p8 hk, hm a (by rw [hk])]
      rfl

theorem Fr.trans {G : Where} {a b c : St} (h1 : Fr G a b) (hc : b.cur = a.cur) (h2 : Fr G b c) : Fr G a c := by
  refine ⟨Nat.le_trans h1.fresh h2.fresh, ?_, ?_, ?_, ?_⟩
  · intro d hd hne
    rw [h2.ctxs d (Nat.lt_of_lt_of_le hd h1.fresh) (by rw [hc]; exact hne)]
    exact h1.ctxs d hd hne
  · intro d hd ht
    rw [h2.scopes d (Nat.lt_of_lt_of_le hd h1.fresh) ht]
    exact h1.scopes d hd ht
  · have := h2.next; rw [hc] at this; exact this.trans h1.next
  · have := h2.unstack; rw [hc] at this; exact this

theorem Same.trans {a b c : St} (h1 : Same a b) (h2 : Same b c) : Same a c :=
  ⟨h2.cur.trans h1.cur, h2.arena.trans h1.arena, h2.guardOn.trans h1.guardOn⟩

/-- `x` and then `y`. -/
def R.then (x y : R) : R := ⟨x.t ++ y.t, y.ds ++ x.ds, x.m || y.m, y.r⟩

theorem DoneRel.trans {G : Where} {a b c : St} {x y : R} (h1 : DoneRel G a b x) (h2 : DoneRel G b c y) :
    DoneRel G a c (x.then y) := by
  have hc := h1.same.cur
  refine ⟨h1.fr.trans hc h2.fr, h1.same.trans h2.same, ?_, ?_, ?_, ?_⟩
  · have := h2.state; rw [hc] at this; exact this.trans h1.state
  · rw [h2.tr, h1.tr]; simp [R.then]
  · have g1 := h1.grown
    have g2 := h2.grown
    unfold Grown at *
    cases G with
    | none => trivial
    | some p =>
      dsimp only at *
      refine ⟨?_, g2.2.1, ?_⟩
      · rw [g2.1, g1.1]; simp [R.then]
      · rw [g2.2.2, g1.2.2]; simp [R.then, Bool.or_assoc]
  · intro d hd
    rcases List.mem_append.1 hd with hd | hd
    · exact h2.calm d hd
    · exact h1.calm d hd

/-- Running on after something that ended normally. -/
theorem Post.bind {g : Bool} {fr : Frame} {G : Where} {st m : St} {o : Out} {x y : R}
    (hgm : g = true → ∃ k, G = some (fr.id, k)) (hfr : g = true → fr.id = st.cur ∨ fr.id < st.fresh ∧ fr.id ≠ st.cur)
    (h1 : DoneRel G st m x) (h2 : Post eq g fr G m o y) : Post eq g fr G st o (x.then y) := by
  have hc := h1.same.cur
  obtain ⟨st', h2⟩ := h2
  refine ⟨st', ?_⟩
  unfold R.then
  dsimp only
  cases hy : y.r with
  | done => rw [hy] at h2; exact ⟨h2.1, by have := h1.trans h2.2; rw [R.then, hy] at this; exact this⟩
  | broke => rw [hy] at h2; exact ⟨h2.1, by have := h1.trans h2.2; rw [R.then, hy] at this; exact this⟩
  | returned =>
    rw [hy] at h2
    dsimp only at h2 ⊢
    cases g with
    | false =>
      simp only [Bool.false_eq_true, if_false] at h2 ⊢
      exact ⟨h2.1, by have := h1.trans h2.2; rw [R.then, hy] at this; exact this⟩
    | true =>
      simp only [if_true] at h2 ⊢
      obtain ⟨k1, k2, k3, k4, k5, k6, k7⟩ := h2
      refine ⟨k1, h1.fr.trans hc k2, k3, k4, ?_, ?_, ?_⟩
      · rw [k5]
        rcases hfr rfl with hf | ⟨hf, hf'⟩
        · rw [hf]; exact h1.fr.next
        · rw [h1.fr.ctxs _ hf hf']
      · intro d hd
        rcases List.mem_append.1 hd with hd | hd
        · exact k6 d hd
        · exact h1.calm d hd
      · obtain ⟨k, hG⟩ := hgm rfl
        have g1 := h1.grown
        rw [hG] at g1
        rw [k7, h1.tr, g1.1]
        simp
  | thrown e =>
    rw [hy] at h2
    dsimp only at h2 ⊢
    obtain ⟨k1, k2, k3, k4, k5⟩ := h2
    have g1 := h1.grown
    refine ⟨h1.fr.trans hc k1, h1.same.trans k2, by rw [hc] at k3; exact k3, ?_, ?_⟩
    · intro d hd
      rcases List.mem_append.1 hd with hd | hd
      · exact k4 d hd
      · exact h1.calm d hd
    · rw [hc] at k5
      have hst := h1.state
      have grow : ∀ p, G = some p → Grown G m st' y → Grown G st st' (x.then y) := by
        intro p hG hg
        subst hG
        unfold Grown at hg g1 ⊢
        refine ⟨?_, hg.2.1, ?_⟩
        · rw [hg.1, g1.1]; simp [R.then]
        · rw [hg.2.2, g1.2.2]; simp [R.then, Bool.or_assoc]
      cases G with
      | none =>
        dsimp only at k5 ⊢
        rw [h1.tr, hst] at k5
        exact ⟨by rw [k5.1]; simp, k5.2.1, k5.2.2⟩
      | some p =>
        obtain ⟨a, k⟩ := p
        cases k with
        | false =>
          dsimp only at k5 ⊢
          rw [h1.tr, hst] at k5
          refine ⟨by rw [k5.1]; simp, k5.2.1, ?_, k5.2.2.2⟩
          have := grow _ rfl k5.2.2.1
          rw [R.then, hy] at this; exact this
        | true =>
          dsimp only at k5 ⊢
          have hp : ((st.scopes a).isProt || (x.m || y.m)) = ((m.scopes a).isProt || y.m) := by
            rw [g1.2.2, Bool.or_assoc]
          rw [hp]
          cases hq : ((m.scopes a).isProt || y.m) with
          | true =>
            rw [hq] at k5
            simp only [if_true] at k5 ⊢
            rw [h1.tr, g1.1] at k5
            refine ⟨by rw [k5.1]; simp, k5.2.1, k5.2.2.1, ?_⟩
            rw [k5.2.2.2]; simp
          | false =>
            rw [hq] at k5
            simp only [Bool.false_eq_true, if_false] at k5 ⊢
            rw [h1.tr, hst] at k5
            refine ⟨by rw [k5.1]; simp, k5.2.1, ?_, k5.2.2.2⟩
            have := grow _ rfl k5.2.2.1
            rw [R.then, hy] at this; exact this

theorem throw_post {g : Bool} {fr : Frame} {G : Where} {st : St} (e : Exn) (h : Pre G st) :
    Post eq g fr G st (throwE eq e st) ⟨[], [], false, .thrown e⟩ := by
  obtain ⟨h1, h2, h3⟩ := h
  unfold throwE
  dsimp only
  rw [if_neg (by rw [h2]; simp)]
  generalize hm : st.setCtx st.cur { st.ctxs st.cur with exn := e } = m
  have m1 : m.cur = st.cur := by rw [← hm]; rfl
  have m2 : m.ctxs st.cur = { st.ctxs st.cur with exn := e } := by rw [← hm]; simp
  have m3 : ∀ d, d ≠ st.cur → m.ctxs d = st.ctxs d := fun d hd => by rw [← hm]; exact setCtx_ne _ _ hd
  have m4 : m.scopes = st.scopes := by rw [← hm]; rfl
  have m5 : m.arena = st.arena := by rw [← hm]; rfl
  have m6 : m.guardOn = st.guardOn := by rw [← hm]; rfl
  have m7 : m.fresh = st.fresh := by rw [← hm]; rfl
  have m8 : m.trace = st.trace := by rw [← hm]; rfl
  clear hm
  cases G with
  | none =>
    have hu : unwind eq e m = .ok m := by
      unfold unwind
      rw [m6, h3]
    rw [hu]
    refine ⟨m, ⟨by rw [m7]; exact Nat.le_refl _, fun d _ hd => m3 d hd, fun _ _ _ => by rw [m4], by rw [m2], by rw [m2]; exact h2⟩,
      ⟨m1, m5, m6⟩, by rw [m2], by simp, by simp [m8], by rw [m2], ?_⟩
    simp only [Out.andThen]
    rw [m2]
  | some p =>
    obtain ⟨a, k⟩ := p
    obtain ⟨p1, p2, p3, p4, p5, p6, p7, p8⟩ := h3
    have hnt : ∀ d, ¬ touches (some (a, k)) d → d ≠ a := by
      rintro d hd rfl; exact hd ⟨k, rfl⟩
    cases hp : (st.scopes a).isProt with
    | false =>
      have hu : unwind eq e m = .ok (m.setSc a { st.scopes a with err := some e }) := by
        unfold unwind
        rw [m6, p1, m5, p2]
        dsimp only
        rw [setSc_same, m4]
        simp only [hp, Bool.false_eq_true, if_false]
      rw [hu]
      refine ⟨m.setSc a { st.scopes a with err := some e }, ⟨by rw [setSc_fresh, m7]; exact Nat.le_refl _, fun d _ hd => m3 d hd,
        fun d _ hd => by rw [setSc_ne _ _ (hnt d hd), m4], by rw [setSc_ctxs, m2], by rw [setSc_ctxs, m2]; exact h2⟩,
        ⟨m1, m5, m6⟩, by rw [setSc_ctxs, m2], by simp, ?_⟩
      have hgr : Grown (some (a, k)) st (m.setSc a { st.scopes a with err := some e }) ⟨[], [], false, .thrown e⟩ :=
        ⟨by rw [setSc_same]; simp, by rw [setSc_same]; exact p5, by rw [setSc_same]; simp⟩
      cases k with
      | false =>
        refine ⟨by simp [m8], by rw [setSc_ctxs, m2], hgr, by rw [setSc_same], ?_⟩
        simp only [Out.andThen, if_neg p4, setSc_ctxs, m2]
      | true =>
        dsimp only
        rw [if_neg (by rw [hp]; simp)]
        obtain ⟨q1, q2⟩ := p7 rfl
        refine ⟨by simp [m8], by rw [setSc_ctxs, m2], hgr, by rw [setSc_same], ?_⟩
        simp only [Out.andThen, if_neg p4, setSc_ctxs, m2]
        rw [q1, q2]
        rfl
    | true =>
      cases k with
      | false => rw [p8 rfl] at hp; cases hp
      | true =>
      obtain ⟨q1, q2⟩ := p7 rfl
      obtain ⟨st', i1, i2, i3, i4, i5, i6, i7, i8, i9, i10, i11⟩ := deferredFree_calm throwIn (a := a)
        ((m.setSc a { st.scopes a with err := some e }).setCtx st.cur { (m.setSc a { st.scopes a with err := some e }).ctxs st.cur with unstack := true })
        (by rw [setCtx_scopes, setSc_same]; exact p5) (by rw [setCtx_scopes, setSc_same]; exact p6)
        (by rw [setCtx_arena, setSc_arena, m5]; exact p2)
      simp only [setCtx_scopes, setSc_same, setCtx_cur, setSc_cur, m1, setCtx_arena, setSc_arena, setCtx_guardOn, setSc_guardOn,
        setCtx_trace, setSc_trace, setCtx_fresh, setSc_fresh, setCtx_same, setSc_ctxs, m2] at i2 i3 i4 i5 i6 i7 i8 i9
      have hu : unwind eq e m = .ok (st'.setCtx st.cur { st'.ctxs st.cur with unstack := false }) := by
        unfold unwind
        rw [m6, p1, m5, p2]
        dsimp only
        rw [setSc_same, m4, if_pos hp, m1]
        dsimp only at i1
        rw [i1]
        rfl
      rw [hu]
      refine ⟨st'.setCtx st.cur { st'.ctxs st.cur with unstack := false },
        ⟨by rw [setCtx_fresh, i6, m7]; exact Nat.le_refl _, fun d _ hd => ?_, fun d _ hd => ?_, ?_, ?_⟩,
        ⟨by rw [setCtx_cur, i5], by rw [setCtx_arena, i3, m5], by rw [setCtx_guardOn, i4, m6]⟩, ?_, by simp, ?_⟩
      · rw [setCtx_ne _ _ hd, i7 d hd, setCtx_ne _ _ hd, setSc_ctxs]; exact m3 d hd
      · rw [setCtx_scopes, i9 d (hnt d hd), setSc_ne _ _ (hnt d hd), m4]
      · rw [setCtx_same, i8]
      · rw [setCtx_same]
      · rw [setCtx_same, i8]
      · dsimp only
        rw [if_pos (by rw [hp]; rfl)]
        refine ⟨by rw [setCtx_trace, i2, m8]; simp, i10, i11, ?_⟩
        simp only [Out.andThen, if_neg p4]
        rw [setCtx_same, i8]
        dsimp only [caught]
        rw [q1, q2]
        simp only [List.nil_append]
        have hv : (if recovered eq (st.scopes a).defers e = true then 2 else 0) ||| 1 =
            if recovered eq (st.scopes a).defers e = true then 3 else 1 := by
          split <;> rfl
        exact congrArg (fun v => Out.jump a v _) hv

/-- `end_try` once the enclosing context is current again. -/
theorem endTry_post {G : Where} {st m : St} {id : Nat} {x : R} {fr : Frame}
    (hp : Pre G st) (hr : DoneRel G st m x) (hm : ∀ a, G = some (a, false) → x.m = false)
    (hc : st.cur ≠ id) :
    Post eq false fr G st (endTry eq id m)
      ⟨x.t, x.ds, x.m, if (m.ctxs id).state &&& 1 ≠ 0 then .thrown (m.ctxs id).exn else .done⟩ := by
  have hmc : m.cur ≠ id := by rw [hr.same.cur]; exact hc
  unfold endTry
  dsimp only
  rw [if_neg hmc]
  by_cases hb : (m.ctxs id).state &&& 1 ≠ 0
  · rw [if_pos hb, if_pos hb]
    have := throw_post (eq := eq) (g := false) (fr := fr) (m.ctxs id).exn (hr.pre hp hm)
    have := Post.bind (by simp) (by simp) hr this
    simpa [R.then] using this
  · rw [if_neg hb, if_neg hb]
    exact ⟨m, rfl, ⟨hr.fr, hr.same, hr.state, hr.tr, hr.grown, hr.calm⟩⟩

/-- Statements that may not return do not touch the frame. -/
theorem Post.weaken {g : Bool} {fr fr' : Frame} {G : Where} {st : St} {o : Out} {x : R}
    (h : Post eq false fr G st o x) (hr : x.r ≠ .returned) : Post eq g fr' G st o x := by
  obtain ⟨st', h⟩ := h
  refine ⟨st', ?_⟩
  cases hx : x.r with
  | returned => exact absurd hx hr
  | _ => rw [hx] at h; exact h

/-! ### What well-formed programs mean -/

theorem eval_r (i : Bool) : ∀ (s : Stmt) (g b r : Bool), s.wf g b r = true →
    ((eval eq i s).r = .returned → r = true) ∧ ((eval eq i s).r = .broke → g = true ∧ b = true)
  | .skip, _, _, _, _ => by simp [eval]
  | .mark _, _, _, _, _ => by simp [eval]
  | .throw _, _, _, _, _ => by simp [eval]
  | .defer _, _, _, _, _ => by simp [eval]
  | .malloc _, _, _, _, _ => by simp [eval]
  | .brk, g, b, r, h => by simpa [eval, Stmt.wf] using h
  | .greturn, g, b, r, h => by
    simp only [Stmt.wf, Bool.and_eq_true] at h
    simp [eval, h.2]
  | .seq x y, g, b, r, h => by
    simp only [Stmt.wf, Bool.and_eq_true] at h
    have h1 := eval_r i x g b r h.1
    have h2 := eval_r i y g b r h.2
    unfold eval
    dsimp only
    split
    · exact h2
    · exact h1
  | .call s, g, b, r, h => by
    simp only [Stmt.wf] at h
    have h1 := eval_r i s false false true h
    unfold eval
    dsimp only
    split
    · simp
    · refine ⟨fun hh => by contradiction, fun hh => ?_⟩
      have := h1.2 hh
      simp at this
  | .tryAny x y, g, b, r, h => by
    simp only [Stmt.wf, Bool.and_eq_true] at h
    have h1 := eval_r i x g false false h.1
    have h2 := eval_r i y g false false h.2
    unfold eval
    dsimp only
    split
    · exact ⟨fun hh => by simpa using h2.1 hh, fun hh => by simpa using h2.2 hh⟩
    · exact ⟨fun hh => by simpa using h1.1 hh, fun hh => by simpa using h1.2 hh⟩
  | .guard x, g, b, r, h => by
    simp only [Stmt.wf] at h
    have h1 := eval_r i x true true (r && !g) h
    unfold eval
    dsimp only
    cases hx : (eval eq i x).r with
    | done => simp
    | broke => simp
    | returned =>
      have := h1.1 hx
      simp only [Bool.and_eq_true] at this
      simp [this.1]
    | thrown e =>
      dsimp only
      split <;> simp

theorem eval_ds (i : Bool) : ∀ (s : Stmt) (b r : Bool), s.wf false b r = true →
    (eval eq i s).ds = [] ∧ (eval eq i s).m = false
  | .skip, _, _, _ => by simp [eval]
  | .mark _, _, _, _ => by simp [eval]
  | .throw _, _, _, _ => by simp [eval]
  | .defer _, _, _, h => by simp [Stmt.wf] at h
  | .malloc _, _, _, h => by simp [Stmt.wf] at h
  | .brk, b, r, h => by simp [eval]
  | .greturn, b, r, h => by simp [eval]
  | .seq x y, b, r, h => by
    simp only [Stmt.wf, Bool.and_eq_true] at h
    have h1 := eval_ds i x b r h.1
    have h2 := eval_ds i y b r h.2
    unfold eval
    dsimp only
    split
    · simp [h1, h2]
    · exact h1
  | .call s, b, r, h => by simp [eval]
  | .tryAny x y, b, r, h => by
    simp only [Stmt.wf, Bool.and_eq_true] at h
    have h1 := eval_ds i x false false h.1
    have h2 := eval_ds i y false false h.2
    unfold eval
    dsimp only
    split
    · simp [h1, h2]
    · exact h1
  | .guard x, b, r, h => by simp [eval]

theorem eval_m (i : Bool) : ∀ (s : Stmt), s.mallocs = false → (eval eq i s).m = false
  | .skip, _ => by simp [eval]
  | .mark _, _ => by simp [eval]
  | .throw _, _ => by simp [eval]
  | .defer _, _ => by simp [eval]
  | .malloc _, h => by simp [Stmt.mallocs] at h
  | .brk, h => by simp [eval]
  | .greturn, h => by simp [eval]
  | .seq x y, h => by
    simp only [Stmt.mallocs, Bool.or_eq_false_iff] at h
    have h1 := eval_m i x h.1
    have h2 := eval_m i y h.2
    unfold eval
    dsimp only
    split
    · simp [h1, h2]
    · exact h1
  | .call s, h => by simp [eval]
  | .tryAny x y, h => by
    simp only [Stmt.mallocs, Bool.or_eq_false_iff] at h
    have h1 := eval_m i x h.1
    have h2 := eval_m i y h.2
    unfold eval
    dsimp only
    split
    · simp [h1, h2]
    · exact h1
  | .guard x, h => by simp [eval]

/-- The jump of a block to itself. -/
theorem region_self {id : Nat} {rest : St → Out} {n v : Nat} {st : St} :
    region id rest (n + 1) (.jump id v st) = region id rest n (rest (st.setCtx id { st.ctxs id with state := v })) := by
  simp [region]

/-- An outcome that is not a jump to `id` leaves the block. -/
theorem region_done {id : Nat} {rest : St → Out} {o : Out} (h : ∀ v st, o ≠ .jump id v st) :
    ∀ n, region id rest n o = o := by
  intro n
  cases o with
  | jump j v st =>
    have hj : j ≠ id := by rintro rfl; exact h v st rfl
    cases n <;> simp [region, hj]
  | _ => cases n <;> rfl

theorem Post.nojump {g : Bool} {fr : Frame} {G : Where} {st : St} {o : Out} {x : R} {id : Nat}
    (h : Post eq g fr G st o x) (hc : st.cur ≠ id) : ∀ v st', o ≠ .jump id v st' := by
  rintro v st2 rfl
  obtain ⟨st', h⟩ := h
  cases hx : x.r with
  | done => rw [hx] at h; cases h.1
  | broke => rw [hx] at h; cases h.1
  | returned =>
    rw [hx] at h
    dsimp only at h
    split at h <;> cases h.1
  | thrown e =>
    rw [hx] at h
    obtain ⟨-, -, -, -, h⟩ := h
    cases G with
    | none =>
      have := h.2.2
      split at this
      · cases this
      · cases this; exact hc rfl
    | some p =>
      obtain ⟨a, k⟩ := p
      cases k with
      | false => cases h.2.2.2.2; exact hc rfl
      | true =>
        dsimp only at h
        split at h
        · have := h.2.2.2; injection this with h1; exact hc h1.symm
        · cases h.2.2.2.2; exact hc rfl

/-- What the surrounding section allows of `s`. -/
def Fits (G : Where) (s : Stmt) : Prop :=
  ∀ a k, G = some (a, k) → (k = true → s.tries = false) ∧ (k = false → s.mallocs = false)

/-- From inside a block (context `st.fresh`, sections unchanged) back to its surroundings. -/
theorem leave_done {G : Where} {st m m' : St} {x : R} (hc : st.cur < st.fresh) (hu : (st.ctxs st.cur).unstack = false)
    (h : DoneRel G (enterTry st) m x)
    (hm : m'.trace = m.trace ∧ m'.scopes = m.scopes ∧ m'.arena = m.arena ∧ m'.guardOn = m.guardOn ∧ m'.fresh = m.fresh ∧
      (∀ d, d ≠ st.fresh → m'.ctxs d = m.ctxs d)) (hcur : m'.cur = st.cur) : DoneRel G st m' x := by
  obtain ⟨e1, e2, e3, e4, e5, e6⟩ := hm
  have hctx : ∀ d, d < st.fresh → m'.ctxs d = st.ctxs d := by
    intro d hd
    rw [e6 d (Nat.ne_of_lt hd), h.fr.ctxs d (Nat.lt_succ_of_lt hd) (Nat.ne_of_lt hd)]
    exact setCtx_ne _ _ (Nat.ne_of_lt hd)
  refine ⟨⟨?_, fun d hd _ => hctx d hd, fun d hd ht => ?_, by rw [hctx _ hc], by rw [hctx _ hc]; exact hu⟩,
    ⟨hcur, e3.trans h.same.arena, e4.trans h.same.guardOn⟩, by rw [hctx _ hc], by rw [e1]; exact h.tr, ?_, h.calm⟩
  · rw [e5]; exact Nat.le_trans (Nat.le_succ _) h.fr.fresh
  · rw [e2, h.fr.scopes d (Nat.lt_succ_of_lt hd) ht]; rfl
  · have hg := h.grown
    unfold Grown at *
    cases G with
    | none => trivial
    | some p => rw [e2]; exact hg

/-- A thrown exception whose section holds no memory, as a normal end plus the pending exception. -/
theorem ThrownRel.toDone {G : Where} {st st' : St} {o : Out} {x : R} {e : Exn} (h : ThrownRel eq G st st' o x e)
    (hk : ∀ a, G ≠ some (a, true)) (h0 : st.cur ≠ 0) :
    DoneRel G st st' x ∧ (st'.ctxs st.cur).exn = e ∧ o = .jump st.cur ((st.ctxs st.cur).state ||| 1) st' := by
  obtain ⟨h1, h2, h3, h4, h5⟩ := h
  cases G with
  | none => exact ⟨⟨h1, h2, h5.2.1, h5.1, trivial, h4⟩, h3, by rw [h5.2.2, if_neg h0]⟩
  | some p =>
    obtain ⟨a, k⟩ := p
    cases k with
    | true => exact absurd rfl (hk a)
    | false => exact ⟨⟨h1, h2, h5.2.1, h5.1, h5.2.2.1, h4⟩, h3, h5.2.2.2.2⟩

theorem exec_try (n : Nat) {fr : Frame} {g : Bool} {G : Where} {st : St}
    {body h : Stmt} (hp : Pre G st) (hk : ∀ a, G ≠ some (a, true)) (hm1 : body.mallocs = false ∨ G = none) (hm2 : h.mallocs = false ∨ G = none)
    (hwb : body.wf g false false = true) (hwh : h.wf g false false = true)
    (ihb : ∀ st, Pre G st → Post eq g fr G st (exec eq (n + 2) fr body st) (eval eq false body))
    (ihh : ∀ st, Pre G st → Post eq g fr G st (exec eq (n + 2) fr h st) (eval eq false h)) :
    Post eq g fr G st (exec eq (n + 2) fr (.tryAny body h) st) (eval eq false (.tryAny body h)) := by
  have hid : st.cur ≠ st.fresh := Nat.ne_of_lt hp.1
  have hid0 : st.fresh ≠ 0 := by have := hp.1; omega
  have hpe : Pre G (enterTry st) := by
    refine ⟨Nat.lt_succ_self _, by simp [enterTry, St.setCtx], ?_⟩
    have h3 := hp.2.2
    cases G with
    | none => exact h3
    | some p =>
      obtain ⟨a, k⟩ := p
      cases k with
      | true => exact absurd rfl (hk a)
      | false =>
        obtain ⟨p1, p2, p3, p4, p5, p6, p7, p8⟩ := h3
        exact ⟨p1, p2, Nat.lt_succ_of_lt p3, hid0, p5, p6, by simp, p8⟩
  have hce : (enterTry st).cur = st.fresh := rfl
  have hse : ((enterTry st).ctxs st.fresh).state = 0 := by simp [enterTry, St.setCtx]
  have hne : ((enterTry st).ctxs st.fresh).next = st.cur := by simp [enterTry, St.setCtx]
  have nm1 : ∀ a, G = some (a, false) → (eval eq false body).m = false := by
    intro a hG
    rcases hm1 with h1 | h1
    · exact eval_m false body h1
    · rw [h1] at hG; cases hG
  have nm2 : ∀ a, G = some (a, false) → (eval eq false h).m = false := by
    intro a hG
    rcases hm2 with h1 | h1
    · exact eval_m false h h1
    · rw [h1] at hG; cases hG
  -- leaving the block from a state inside it
  have fin : ∀ (m : St) (x : R), DoneRel G (enterTry st) m x → (∀ a, G = some (a, false) → x.m = false) →
      ∀ v, Post eq g fr G st (endTry eq st.fresh (m.setCtx st.fresh { m.ctxs st.fresh with state := v }))
        ⟨x.t, x.ds, x.m, if v &&& 1 ≠ 0 then .thrown (m.ctxs st.fresh).exn else .done⟩ := by
    intro m x hm hx v
    have hcm : m.cur = st.fresh := hm.same.cur
    have hnm : (m.ctxs st.fresh).next = st.cur := hm.fr.next.trans hne
    have he : endTry eq st.fresh (m.setCtx st.fresh { m.ctxs st.fresh with state := v }) =
        endTry eq st.fresh { (m.setCtx st.fresh { m.ctxs st.fresh with state := v }) with cur := st.cur } := by
      unfold endTry
      dsimp only
      rw [setCtx_cur, if_pos hcm, if_neg hid, setCtx_same, hnm]
    rw [he]
    have hd := leave_done (m' := { (m.setCtx st.fresh { m.ctxs st.fresh with state := v }) with cur := st.cur }) hp.1 hp.2.1 hm
      ⟨rfl, rfl, rfl, rfl, rfl, fun d hd => setCtx_ne _ _ hd⟩ rfl
    have := endTry_post (eq := eq) (fr := fr) (id := st.fresh) hp hd hx hid
    simp only [setCtx_same] at this
    refine Post.weaken this ?_
    dsimp only
    split <;> simp
  obtain ⟨m, hb⟩ := ihb (enterTry st) hpe
  unfold exec eval
  dsimp only
  have hret := eval_r (eq := eq) false body g false false hwb
  cases hx : (eval eq false body).r with
  | returned => exact absurd (hret.1 hx) (by simp)
  | broke => exact absurd (hret.2 hx).2 (by simp)
  | done =>
    rw [hx] at hb
    obtain ⟨hb1, hb2⟩ := hb
    rw [hb1]
    have hms : (m.ctxs st.fresh).state = 0 := hb2.state.trans hse
    have hsimp : m = m.setCtx st.fresh { m.ctxs st.fresh with state := 0 } := by
      unfold St.setCtx
      have : (fun d => if d = st.fresh then ({ m.ctxs st.fresh with state := 0 } : Ctx) else m.ctxs d) = m.ctxs := by
        funext d
        split
        · rename_i hd; rw [hd, ← hms]
        · rfl
      rw [this]
    simp only [Out.andThen]
    rw [if_neg (by rw [hms]; simp)]
    dsimp only
    have hf := fin m _ hb2 nm1 0
    rw [← hsimp] at hf
    rw [region_done (hf.nojump hid)]
    have hxx : eval eq false body = ⟨(eval eq false body).t, (eval eq false body).ds, (eval eq false body).m, .done⟩ := by rw [← hx]
    rw [hxx]
    simpa using hf
  | thrown e =>
    rw [hx] at hb
    have hk' := ThrownRel.toDone hb hk hid0
    rw [hce, hse] at hk'
    obtain ⟨hb1, hb2, hb3⟩ := hk'
    rw [hb3]
    simp only [Out.andThen]
    rw [region_self]
    simp only [setCtx_same, Nat.zero_or, if_true]
    have hset : ∀ v, DoneRel G (enterTry st) m (eval eq false body) →
        Pre G (m.setCtx st.fresh { m.ctxs st.fresh with state := v }) := by
      intro v hd
      have := hd.pre hpe nm1
      refine ⟨this.1, ?_, ?_⟩
      · rw [setCtx_cur, show m.cur = st.fresh from hd.same.cur, setCtx_same]
        have h2 := this.2.1
        rw [show m.cur = st.fresh from hd.same.cur] at h2
        exact h2
      · have h3 := this.2.2
        cases G with
        | none => exact h3
        | some p =>
          obtain ⟨a, k⟩ := p
          cases k with
          | true => exact absurd rfl (hk a)
          | false =>
            obtain ⟨p1, p2, p3, p4, p5, p6, p7, p8⟩ := h3
            exact ⟨p1, p2, p3, p4, p5, p6, by simp, p8⟩
    have hidem : (m.setCtx st.fresh { m.ctxs st.fresh with state := 1 }).setCtx st.fresh
        { next := (m.ctxs st.fresh).next, state := 2, exn := (m.ctxs st.fresh).exn, unstack := (m.ctxs st.fresh).unstack } =
        m.setCtx st.fresh { m.ctxs st.fresh with state := 2 } := by
      unfold St.setCtx
      dsimp only
      congr 1
      funext d
      split <;> rfl
    rw [hidem]
    have hp2 := hset 2 hb1
    -- handler, seen from the block's entry
    generalize hm2' : m.setCtx st.fresh { m.ctxs st.fresh with state := 2 } = m2 at hp2
    have hm2c : m2.cur = st.fresh := by rw [← hm2']; exact hb1.same.cur
    have hm2s : (m2.ctxs st.fresh).state = 2 := by rw [← hm2', setCtx_same]
    obtain ⟨m3, hh⟩ := ihh m2 hp2
    have hreth := eval_r (eq := eq) false h g false false hwh
    -- relation from entry to m3, up to the state of the block's own context
    have step : ∀ m3 : St, DoneRel G m2 m3 (eval eq false h) → ∃ m4 : St, DoneRel G (enterTry st) m4 ((eval eq false body).then (eval eq false h)) ∧
        (m4.ctxs st.fresh).exn = (m3.ctxs st.fresh).exn ∧
        ∀ v, m3.setCtx st.fresh { m3.ctxs st.fresh with state := v } = m4.setCtx st.fresh { m4.ctxs st.fresh with state := v } := by
      intro m3 hd
      refine ⟨m3.setCtx st.fresh { m3.ctxs st.fresh with state := 0 }, ?_, by rw [setCtx_same], ?_⟩
      · have h1 : DoneRel G m m3 (eval eq false h) → DoneRel G (enterTry st) m3 ((eval eq false body).then (eval eq false h)) := hb1.trans
        have hfr := hd.fr
        have hcm : m.cur = st.fresh := hb1.same.cur
        refine ⟨⟨?_, ?_, ?_, ?_, ?_⟩, ⟨?_, ?_, ?_⟩, ?_, ?_, ?_, ?_⟩
        · exact Nat.le_trans hb1.fr.fresh (by have := hfr.fresh; rw [← hm2'] at this; exact this)
        · intro d hdl hdn
          rw [hce] at hdn
          rw [setCtx_ne _ _ hdn, hfr.ctxs d (by rw [← hm2']; exact Nat.lt_of_lt_of_le hdl hb1.fr.fresh) (by rw [hm2c]; exact hdn),
            ← hm2', setCtx_ne _ _ hdn]
          exact hb1.fr.ctxs d hdl hdn
        · intro d hdl ht
          rw [setCtx_scopes, hfr.scopes d (by rw [← hm2']; exact Nat.lt_of_lt_of_le hdl hb1.fr.fresh) ht, ← hm2', setCtx_scopes]
          exact hb1.fr.scopes d hdl ht
        · rw [hce, setCtx_same]
          have := hfr.next
          rw [hm2c, ← hm2', setCtx_same] at this
          exact this.trans hb1.fr.next
        · rw [hce, setCtx_same]
          have := hfr.unstack
          rw [hm2c] at this
          exact this
        · rw [setCtx_cur, hd.same.cur, hm2c]; rfl
        · rw [setCtx_arena, hd.same.arena, ← hm2', setCtx_arena]; exact hb1.same.arena
        · rw [setCtx_guardOn, hd.same.guardOn, ← hm2', setCtx_guardOn]; exact hb1.same.guardOn
        · rw [hce, setCtx_same]; exact hse.symm
        · rw [setCtx_trace, hd.tr, ← hm2', setCtx_trace, hb1.tr]; simp [R.then]
        · have g1 := hb1.grown
          have g2 := hd.grown
          unfold Grown at *
          cases G with
          | none => trivial
          | some p =>
            rw [← hm2'] at g2
            rw [setCtx_scopes] at g2 ⊢
            refine ⟨?_, g2.2.1, ?_⟩
            · rw [g2.1, g1.1]; simp [R.then]
            · rw [g2.2.2, g1.2.2]; simp [R.then, Bool.or_assoc]
        · intro d hdm
          rcases List.mem_append.1 hdm with hdm | hdm
          · exact hd.calm d hdm
          · exact hb1.calm d hdm
      · intro v
        unfold St.setCtx
        dsimp only
        congr 1
        funext d
        by_cases hd' : d = st.fresh <;> simp [hd']
    have nm3 : ∀ a, G = some (a, false) → ((eval eq false body).then (eval eq false h)).m = false := by
      intro a hG
      simp [R.then, nm1 a hG, nm2 a hG]
    cases hy : (eval eq false h).r with
    | returned => exact absurd (hreth.1 hy) (by simp)
    | broke => exact absurd (hreth.2 hy).2 (by simp)
    | done =>
      rw [hy] at hh
      obtain ⟨hh1, hh2⟩ := hh
      rw [hh1]
      dsimp only
      obtain ⟨m4, s1, s2, s3⟩ := step m3 hh2
      have hms : (m3.ctxs st.fresh).state = 2 := by
        have := hh2.state
        rw [hm2c] at this
        exact this.trans hm2s
      have hsimp : m3 = m3.setCtx st.fresh { m3.ctxs st.fresh with state := 2 } := by
        unfold St.setCtx
        have : (fun d => if d = st.fresh then ({ m3.ctxs st.fresh with state := 2 } : Ctx) else m3.ctxs d) = m3.ctxs := by
          funext d
          split
          · rename_i hd; rw [hd, ← hms]
          · rfl
        rw [this]
      have hf := fin m4 _ s1 nm3 2
      rw [← s3 2, ← hsimp] at hf
      rw [region_done (hf.nojump hid)]
      simpa [R.then] using hf
    | thrown e' =>
      rw [hy] at hh
      have hh' := ThrownRel.toDone hh hk (by rw [hm2c]; exact hid0)
      obtain ⟨hh1, hh2, hh3⟩ := hh'
      rw [hm2c, hm2s] at hh3
      rw [hm2c] at hh2
      rw [hh3]
      dsimp only
      rw [region_self]
      simp only [setCtx_same]
      rw [if_neg (by decide)]
      dsimp only
      obtain ⟨m4, s1, s2, s3⟩ := step m3 hh1
      have hf := fin m4 _ s1 nm3 3
      rw [← s3 3] at hf
      rw [show (2 ||| 1 : Nat) = 3 from rfl]
      rw [region_done (hf.nojump hid)]
      rw [s2, hh2] at hf
      simpa [R.then] using hf

theorem exec_guard (n : Nat) {fr : Frame} {g b r : Bool} {G : Where} {st : St}
    {body : Stmt} (hp : Pre G st) (hwf : (Stmt.guard body).wf g b r = true)
    (hsep : ¬ (body.mallocs = true ∧ body.tries = true))
    (ih : ∀ k st, Pre (some (st.fresh - 1, k)) st → Fits (some (st.fresh - 1, k)) body → st.cur = st.fresh - 1 → ∀ ar go,
      Post eq true ⟨st.fresh - 1, ar, go⟩ (some (st.fresh - 1, k)) st (exec eq (n + 2) ⟨st.fresh - 1, ar, go⟩ body st) (eval eq false body)) :
    Post eq g fr G st (exec eq (n + 2) fr (.guard body) st) (eval eq false (.guard body)) := by
  have hid : st.cur ≠ st.fresh := Nat.ne_of_lt hp.1
  have hid0 : st.fresh ≠ 0 := by have := hp.1; omega
  have hfe : (enterGuard st).fresh = st.fresh + 1 := rfl
  have hfe' : (enterGuard st).fresh - 1 = st.fresh := rfl
  have hce : (enterGuard st).cur = st.fresh := rfl
  have hse : ((enterGuard st).ctxs st.fresh).state = 0 := by simp [enterGuard, enterTry, St.setCtx]
  have hne : ((enterGuard st).ctxs st.fresh).next = st.cur := by simp [enterGuard, enterTry, St.setCtx]
  have hsc : (enterGuard st).scopes st.fresh = ⟨[], true, false, none⟩ := by simp [enterGuard, enterTry, St.setCtx, St.setSc]
  have hce' : ∀ d, d < st.fresh → (enterGuard st).ctxs d = st.ctxs d := fun d hd => setCtx_ne _ _ (Nat.ne_of_lt hd)
  have hsc' : ∀ d, d < st.fresh → (enterGuard st).scopes d = st.scopes d := fun d hd => setSc_ne _ _ (Nat.ne_of_lt hd)
  generalize hkb : body.mallocs = kb
  have hfits : Fits (some (st.fresh, kb)) body := by
    rintro a k' h
    cases h
    refine ⟨fun hk => ?_, fun hk => hkb.trans hk⟩
    cases ht : body.tries with
    | false => rfl
    | true => exact absurd ⟨hkb.trans hk, ht⟩ hsep
  have hpe : Pre (some (st.fresh, kb)) (enterGuard st) := by
    refine ⟨Nat.lt_succ_self _, by simp [enterGuard, enterTry, St.setCtx], rfl, rfl, Nat.lt_succ_self _, hid0, by rw [hsc], by rw [hsc]; simp,
      fun _ => ⟨rfl, hse⟩, fun _ => by rw [hsc]⟩
  -- leaving the section from a state inside it
  have fin : ∀ (m : St) (t : List Ev) (v : Nat) (e : Exn), Fr (some (st.fresh, kb)) (enterGuard st) m → m.trace = st.trace ++ t →
      (m.ctxs st.fresh).state = v → (m.ctxs st.fresh).exn = e →
      Post eq g fr G st (endTry eq st.fresh (guardReset ⟨st.fresh, st.arena, st.guardOn⟩ { m with cur := (m.ctxs st.fresh).next }))
        ⟨t, [], false, if v &&& 1 ≠ 0 then .thrown e else .done⟩ := by
    rintro m t _ _ hf ht rfl rfl
    have hctx : ∀ d, d < st.fresh → m.ctxs d = st.ctxs d := fun d hd =>
      (hf.ctxs d (Nat.lt_succ_of_lt hd) (Nat.ne_of_lt hd)).trans (hce' d hd)
    have hscp : ∀ d, d < st.fresh → m.scopes d = st.scopes d := fun d hd =>
      (hf.scopes d (Nat.lt_succ_of_lt hd) (by rintro ⟨k, h⟩; cases h; exact Nat.lt_irrefl _ hd)).trans (hsc' d hd)
    have hd : DoneRel G st (guardReset ⟨st.fresh, st.arena, st.guardOn⟩ { m with cur := (m.ctxs st.fresh).next }) ⟨t, [], false, .done⟩ := by
      refine ⟨⟨Nat.le_trans (Nat.le_succ _) hf.fresh, fun d hd _ => hctx d hd, fun d hd _ => hscp d hd, ?_, ?_⟩,
        ⟨?_, rfl, rfl⟩, ?_, ht, ?_, by simp⟩
      · show (m.ctxs st.cur).next = _; rw [hctx _ hp.1]
      · show (m.ctxs st.cur).unstack = _; rw [hctx _ hp.1]; exact hp.2.1
      · show (m.ctxs st.fresh).next = _; exact hf.next.trans hne
      · show (m.ctxs st.cur).state = _; rw [hctx _ hp.1]
      · have h3 := hp.2.2
        cases G with
        | none => trivial
        | some p =>
          obtain ⟨a, k⟩ := p
          obtain ⟨p1, p2, p3, p4, p5, p6, p7, p8⟩ := h3
          refine ⟨?_, ?_, ?_⟩
          · show (m.scopes a).defers = _; rw [hscp a p3]; simp
          · show (m.scopes a).active = _; rw [hscp a p3]; exact p5
          · show (m.scopes a).isProt = _; rw [hscp a p3]; simp
    have := endTry_post (eq := eq) (fr := fr) (id := st.fresh) hp hd (fun _ _ => rfl) hid
    refine Post.weaken this ?_
    dsimp only
    split <;> simp
  have hwf' : body.wf true true (r && !g) = true := hwf
  have hret := eval_r (eq := eq) false body true true (r && !g) hwf'
  obtain ⟨m, hb⟩ := ih kb (enterGuard st) hpe hfits rfl st.arena st.guardOn
  simp only [hfe'] at hb
  unfold exec eval
  dsimp only
  -- deferrals of the section when its scope is still active
  have rel : ∀ (thr : Exn → St → Out) (m : St) (x : R), Fr (some (st.fresh, kb)) (enterGuard st) m → m.cur = st.fresh → m.arena = some st.fresh →
      (∀ d ∈ x.ds, d.throws = none) → (m.scopes st.fresh).active = true → (m.scopes st.fresh).defers = x.ds → m.trace = st.trace ++ x.t →
      ∃ m', deferredFree eq thr st.fresh m = .ok m' ∧ Fr (some (st.fresh, kb)) (enterGuard st) m' ∧ m'.trace = st.trace ++ (x.t ++ x.ds.map D.ev) ∧
        m'.ctxs st.fresh = { m.ctxs st.fresh with state := if caught eq (m.scopes st.fresh).err x.ds then 2 else (m.ctxs st.fresh).state } := by
    intro thr m x hf hmc hma hds hact hdf ht
    obtain ⟨m', i1, i2, i3, i4, i5, i6, i7, i8, i9, i10, i11⟩ := deferredFree_calm thr (a := st.fresh) m hact (by rw [hdf]; exact hds) hma
    rw [hmc] at i7 i8
    refine ⟨m', i1, ⟨by rw [i6]; exact hf.fresh, fun d hd hdn => (i7 d hdn).trans (hf.ctxs d hd hdn), fun d hd ht => ?_, ?_, ?_⟩, ?_, ?_⟩
    · exact (i9 d (by rintro rfl; exact ht ⟨kb, rfl⟩)).trans (hf.scopes d hd ht)
    · rw [hce, i8]; exact hf.next
    · rw [hce, i8]; exact hf.unstack
    · rw [i2, ht, hdf]; simp
    · rw [i8, hdf]
  have normal : ∀ m, DoneRel (some (st.fresh, kb)) (enterGuard st) m (eval eq false body) →
      Post eq g fr G st (region st.fresh (guardRest eq ⟨st.fresh, st.arena, st.guardOn⟩) (n + 2)
        (((deferredFree eq (throwE eq) st.fresh m)).andThen (guardRest eq ⟨st.fresh, st.arena, st.guardOn⟩)))
        ⟨(eval eq false body).t ++ (eval eq false body).ds.map D.ev, [], false, .done⟩ := by
    intro m hd
    have hg := hd.grown
    obtain ⟨g1, g2, g3⟩ := hg
    rw [hsc] at g1
    obtain ⟨m', j1, j2, j3, j4⟩ := rel (throwE eq) m (eval eq false body) hd.fr hd.same.cur hd.same.arena hd.calm g2 (by simpa using g1) hd.tr
    rw [j1]
    simp only [Out.andThen]
    have hms : (m'.ctxs st.fresh).state = 0 ∨ (m'.ctxs st.fresh).state = 2 := by
      rw [j4]
      have : (m.ctxs st.fresh).state = 0 := hd.state.trans hse
      dsimp only
      rw [this]
      split
      · exact .inr rfl
      · exact .inl rfl
    unfold guardRest
    dsimp only
    rw [if_neg (by rcases hms with h | h <;> rw [h] <;> decide)]
    simp only [Out.andThen]
    have hf := fin m' _ _ _ j2 j3 rfl rfl
    have hz : ¬ ((m'.ctxs st.fresh).state &&& 1 ≠ 0) := by
      rcases hms with h | h <;> rw [h] <;> decide
    rw [if_neg hz] at hf
    rw [region_done (hf.nojump hid)]
    exact hf
  cases hx : (eval eq false body).r with
  | done =>
    rw [hx] at hb
    obtain ⟨hb1, hb2⟩ := hb
    rw [hb1]
    exact normal m hb2
  | broke =>
    rw [hx] at hb
    obtain ⟨hb1, hb2⟩ := hb
    rw [hb1]
    exact normal m hb2
  | returned =>
    have hrg := hret.1 hx
    simp only [Bool.and_eq_true, Bool.not_eq_true'] at hrg
    have hgf : g = false := hrg.2
    subst hgf
    rw [hx] at hb
    dsimp only at hb
    simp only [if_true] at hb
    obtain ⟨k1, k2, k3, k4, k5, k6, k7⟩ := hb
    rw [k1]
    simp only [Out.andThen]
    rw [region_done (by simp)]
    have hctx : ∀ d, d < st.fresh → m.ctxs d = st.ctxs d := fun d hd =>
      (k2.ctxs d (Nat.lt_succ_of_lt hd) (Nat.ne_of_lt hd)).trans (hce' d hd)
    have hscp : ∀ d, d < st.fresh → m.scopes d = st.scopes d := fun d hd =>
      (k2.scopes d (Nat.lt_succ_of_lt hd) (by rintro ⟨k, h⟩; cases h; exact Nat.lt_irrefl _ hd)).trans (hsc' d hd)
    refine ⟨m, rfl, ⟨⟨Nat.le_trans (Nat.le_succ _) k2.fresh, fun d hd _ => hctx d hd, fun d hd _ => hscp d hd, ?_, ?_⟩,
        ⟨?_, k3, k4⟩, ?_, ?_, ?_, by simp⟩⟩
    · rw [hctx _ hp.1]
    · rw [hctx _ hp.1]; exact hp.2.1
    · rw [k5]; exact hne
    · rw [hctx _ hp.1]
    · rw [k7, hsc]; simp [enterGuard, enterTry, St.setCtx, St.setSc]
    · have h3 := hp.2.2
      cases G with
      | none => trivial
      | some p =>
        obtain ⟨a, k⟩ := p
        obtain ⟨p1, p2, p3, p4, p5, p6, p7, p8⟩ := h3
        refine ⟨?_, ?_, ?_⟩
        · rw [hscp a p3]; simp
        · rw [hscp a p3]; exact p5
        · rw [hscp a p3]; simp
  | thrown e =>
    rw [hx] at hb
    have hb' : ThrownRel eq (some (st.fresh, kb)) (enterGuard st) m (exec eq (n + 2) ⟨st.fresh, st.arena, st.guardOn⟩ body (enterGuard st)) (eval eq false body) e := hb
    obtain ⟨t1, t2, t3, t4, t5⟩ := hb'
    -- set the state of the section's context
    have setFr : ∀ v, Fr (some (st.fresh, kb)) (enterGuard st) (m.setCtx st.fresh { m.ctxs st.fresh with state := v }) := by
      intro v
      refine ⟨t1.fresh, fun d hd hdn => ?_, t1.scopes, ?_, ?_⟩
      · rw [hce] at hdn
        rw [setCtx_ne _ _ hdn]; exact t1.ctxs d hd hdn
      · rw [hce, setCtx_same]; exact t1.next
      · rw [hce, setCtx_same]; exact t1.unstack
    -- unreleased scope: the deferrals run in the `catch_if` part
    have unrel : (eval eq false body).m = false → m.trace = (enterGuard st).trace ++ (eval eq false body).t →
        Grown (some (st.fresh, kb)) (enterGuard st) m (eval eq false body) → (m.scopes st.fresh).err = some e →
        exec eq (n + 2) ⟨st.fresh, st.arena, st.guardOn⟩ body (enterGuard st) = .jump st.fresh 1 m →
        Post eq g fr G st (region st.fresh (guardRest eq ⟨st.fresh, st.arena, st.guardOn⟩) (n + 2)
          ((((match exec eq (n + 2) ⟨st.fresh, st.arena, st.guardOn⟩ body (enterGuard st) with
              | .brk st => .ok st
              | o => o : Out).andThen (deferredFree eq (throwE eq) st.fresh)).andThen (guardRest eq ⟨st.fresh, st.arena, st.guardOn⟩))))
        ⟨(eval eq false body).t ++ (eval eq false body).ds.map D.ev, [], false,
          if recovered eq (eval eq false body).ds e && (false || !(eval eq false body).m) then .done else .thrown e⟩ := by
      intro hmm htr hg herr ho
      rw [ho]
      simp only [Out.andThen]
      rw [region_self]
      obtain ⟨g1, g2, g3⟩ := hg
      rw [hsc] at g1
      obtain ⟨m', j1, j2, j3, j4⟩ := rel (throwE eq) (m.setCtx st.fresh { m.ctxs st.fresh with state := 1 }) (eval eq false body) (setFr 1)
        t2.cur t2.arena t4 g2 (by simpa using g1) htr
      have hrest : guardRest eq ⟨st.fresh, st.arena, st.guardOn⟩ (m.setCtx st.fresh { m.ctxs st.fresh with state := 1 }) =
          endTry eq st.fresh (guardReset ⟨st.fresh, st.arena, st.guardOn⟩ { m' with cur := (m'.ctxs st.fresh).next }) := by
        unfold guardRest
        dsimp only
        rw [setCtx_same, if_pos rfl]
        dsimp only at j1
        rw [j1]
        rfl
      rw [hrest]
      have hexn : (m'.ctxs st.fresh).exn = e := by rw [j4, setCtx_same]; exact t3
      have hst : (m'.ctxs st.fresh).state = if recovered eq (eval eq false body).ds e = true then 2 else 1 := by
        rw [j4, setCtx_same, setCtx_scopes, herr]; rfl
      rw [hmm]
      by_cases hrec : recovered eq (eval eq false body).ds e = true
      · rw [if_pos (by simp [hrec])]
        have hf := fin m' _ 2 e j2 j3 (by rw [hst, if_pos hrec]) hexn
        rw [region_done (hf.nojump hid)]
        exact hf
      · rw [if_neg (by simp [hrec])]
        have hf := fin m' _ 1 e j2 j3 (by rw [hst, if_neg hrec]) hexn
        rw [region_done (hf.nojump hid)]
        exact hf
    cases kb with
    | false =>
      obtain ⟨u1, u2, u3, u4, u5⟩ := t5
      rw [hce, hse] at u5
      exact unrel (eval_m false body hkb) u1 u3 u4 u5
    | true =>
      dsimp only at t5
      rw [hsc, hce] at t5
      simp only [Bool.false_or, List.append_nil] at t5
      cases hmm : (eval eq false body).m with
      | false =>
        rw [hmm] at t5
        simp only [Bool.false_eq_true, if_false] at t5
        obtain ⟨u1, u2, u3, u4, u5⟩ := t5
        have := unrel hmm u1 u3 u4 u5
        rw [hmm] at this
        exact this
      | true =>
        rw [hmm] at t5
        simp only [if_true] at t5
        obtain ⟨u1, u2, u3, u4⟩ := t5
        rw [u4]
        simp only [Out.andThen]
        rw [region_self]
        have hrest : ∀ v, guardRest eq ⟨st.fresh, st.arena, st.guardOn⟩ (m.setCtx st.fresh { m.ctxs st.fresh with state := v }) =
            endTry eq st.fresh (guardReset ⟨st.fresh, st.arena, st.guardOn⟩
              { (m.setCtx st.fresh { m.ctxs st.fresh with state := v }) with cur := ((m.setCtx st.fresh { m.ctxs st.fresh with state := v }).ctxs st.fresh).next }) := by
          intro v
          have hdf : deferredFree eq (throwE eq) st.fresh (m.setCtx st.fresh { m.ctxs st.fresh with state := v }) =
              .ok (m.setCtx st.fresh { m.ctxs st.fresh with state := v }) := by
            unfold deferredFree
            rw [setCtx_scopes, if_neg (by rw [u3]; simp)]
          unfold guardRest
          dsimp only
          rw [hdf]
          split <;> rfl
        rw [hrest]
        have hf := fin (m.setCtx st.fresh { m.ctxs st.fresh with state := if recovered eq (eval eq false body).ds e = true then 3 else 1 })
          ((eval eq false body).t ++ (eval eq false body).ds.map D.ev) (if recovered eq (eval eq false body).ds e = true then 3 else 1) e (setFr _) (by
            rw [setCtx_trace, u1]; simp [enterGuard, enterTry, St.setCtx, St.setSc]) (by rw [setCtx_same]) (by rw [setCtx_same]; exact t3)
        rw [region_done (hf.nojump hid)]
        have hbit : ((if recovered eq (eval eq false body).ds e = true then 3 else 1) &&& 1 ≠ 0) := by
          split <;> decide
        rw [if_pos hbit] at hf
        have hcond : ¬ ((recovered eq (eval eq false body).ds e && (false || !true)) = true) := by simp
        dsimp only
        rw [if_neg hcond]
        exact hf

theorem Fits.seq {G : Where} {x y : Stmt} (h : Fits G (.seq x y)) : Fits G x ∧ Fits G y := by
  refine ⟨fun a k hG => ?_, fun a k hG => ?_⟩
  · have := h a k hG
    simp only [Stmt.tries, Stmt.mallocs, Bool.or_eq_false_iff] at this
    exact ⟨fun hk => (this.1 hk).1, fun hk => (this.2 hk).1⟩
  · have := h a k hG
    simp only [Stmt.tries, Stmt.mallocs, Bool.or_eq_false_iff] at this
    exact ⟨fun hk => (this.1 hk).2, fun hk => (this.2 hk).2⟩

theorem wf_mallocs : ∀ (s : Stmt) (b r : Bool), s.wf false b r = true → s.mallocs = false
  | .skip, _, _, _ => rfl
  | .mark _, _, _, _ => rfl
  | .throw _, _, _, _ => rfl
  | .defer _, _, _, _ => rfl
  | .malloc _, _, _, h => by simp [Stmt.wf] at h
  | .brk, _, _, _ => rfl
  | .greturn, _, _, _ => rfl
  | .call _, _, _, _ => rfl
  | .guard _, _, _, _ => rfl
  | .seq x y, b, r, h => by
    simp only [Stmt.wf, Bool.and_eq_true] at h
    simp [Stmt.mallocs, wf_mallocs x _ _ h.1, wf_mallocs y _ _ h.2]
  | .tryAny x y, b, r, h => by
    simp only [Stmt.wf, Bool.and_eq_true] at h
    simp [Stmt.mallocs, wf_mallocs x _ _ h.1, wf_mallocs y _ _ h.2]

/-- Running a program is what it means. -/
theorem exec_post (n : Nat) : ∀ (s : Stmt) (g b r : Bool) (fr : Frame) (G : Where) (st : St),
    s.wf g b r = true → s.calm → s.separate = true → Pre G st → Fits G s →
    (g = true → ∃ k, G = some (fr.id, k)) →
    (r = true → g = true → st.cur = fr.id) →
    Post eq g fr G st (exec eq (n + 2) fr s st) (eval eq false s)
  | .skip, g, b, r, fr, G, st, _, _, _, hp, _, _, _ => by
    unfold exec eval; exact ⟨st, rfl, DoneRel.refl hp⟩
  | .mark k, g, b, r, fr, G, st, _, _, _, hp, _, _, _ => by
    unfold exec eval
    have := DoneRel.refl hp
    exact ⟨st.log (.mark k), rfl, ⟨⟨this.fr.fresh, this.fr.ctxs, this.fr.scopes, this.fr.next, this.fr.unstack⟩, ⟨rfl, rfl, rfl⟩, rfl, rfl, this.grown, by simp⟩⟩
  | .throw e, g, b, r, fr, G, st, _, _, _, hp, _, _, _ => by
    unfold exec eval; exact throw_post e hp
  | .brk, g, b, r, fr, G, st, _, _, _, hp, _, _, _ => by
    unfold exec eval
    have := DoneRel.refl hp
    exact ⟨st, rfl, ⟨this.fr, this.same, this.state, this.tr, this.grown, this.calm⟩⟩
  | .defer d, g, b, r, fr, G, st, hw, hc, _, hp, _, hg, _ => by
    simp only [Stmt.wf] at hw
    obtain ⟨k, rfl⟩ := hg hw
    have h := DoneRel.refl hp
    unfold exec eval
    refine ⟨_, rfl, ⟨⟨Nat.le_refl _, fun _ _ _ => rfl, fun x _ hx => ?_, rfl, hp.2.1⟩, ⟨rfl, rfl, rfl⟩, rfl, by simp, ?_, ?_⟩⟩
    · exact setSc_ne _ _ (by rintro rfl; exact hx ⟨k, rfl⟩)
    · exact ⟨by rw [setSc_same]; rfl, by rw [setSc_same]; exact h.grown.2.1, by rw [setSc_same]; simp⟩
    · intro x hx
      simp only [List.mem_singleton] at hx
      rw [hx]; exact hc
  | .malloc p, g, b, r, fr, G, st, hw, hc, _, hp, _, hg, _ => by
    simp only [Stmt.wf] at hw
    obtain ⟨k, rfl⟩ := hg hw
    have h := DoneRel.refl hp
    unfold exec eval
    refine ⟨_, rfl, ⟨⟨Nat.le_refl _, fun _ _ _ => rfl, fun x _ hx => ?_, rfl, hp.2.1⟩, ⟨rfl, rfl, rfl⟩, rfl, by simp, ?_, ?_⟩⟩
    · exact setSc_ne _ _ (by rintro rfl; exact hx ⟨k, rfl⟩)
    · exact ⟨by rw [setSc_same]; rfl, by rw [setSc_same]; exact h.grown.2.1, by rw [setSc_same]; simp⟩
    · intro x hx
      simp only [List.mem_singleton] at hx
      rw [hx]
  | .greturn, g, b, r, fr, G, st, hw, hc, _, hp, _, hg, hr => by
    simp only [Stmt.wf, Bool.and_eq_true] at hw
    obtain ⟨k, rfl⟩ := hg hw.1
    have hcur := hr hw.2 hw.1
    obtain ⟨q1, q2, p1, p2, p3, p4, p5, p6, p7, p8⟩ := hp
    obtain ⟨m', i1, i2, i3, i4, i5, i6, i7, i8, i9, i10, i11⟩ := deferredFree_calm (throwE eq) (a := fr.id) st p5 p6 p2
    unfold exec eval
    refine ⟨{ (guardReset fr m') with cur := ((guardReset fr m').ctxs fr.id).next }, ?_⟩
    dsimp only
    rw [hw.1]
    simp only [if_true]
    rw [i1]
    refine ⟨rfl, ⟨by show _ ≤ m'.fresh; rw [i6]; exact Nat.le_refl _, fun d _ hd => i7 d hd, fun d _ hd => i9 d (by rintro rfl; exact hd ⟨k, rfl⟩), ?_, ?_⟩,
      rfl, rfl, ?_, by simp, ?_⟩
    · show (m'.ctxs st.cur).next = _; rw [i8]
    · show (m'.ctxs st.cur).unstack = _; rw [i8]; exact q2
    · show (m'.ctxs fr.id).next = _; rw [← hcur, i8]
    · show m'.trace = _; rw [i2]; simp
  | .seq x y, g, b, r, fr, G, st, hw, hc, hs, hp, hf, hg, hr => by
    simp only [Stmt.wf, Bool.and_eq_true] at hw
    simp only [Stmt.separate, Bool.and_eq_true] at hs
    have ha := exec_post n x g b r fr G st hw.1 hc.1 hs.1 hp hf.seq.1 hg hr
    unfold exec eval
    dsimp only
    obtain ⟨m, hx⟩ := ha
    cases hxr : (eval eq false x).r with
    | done =>
      rw [hxr] at hx
      rw [hx.1]
      have hm : ∀ a, G = some (a, false) → (eval eq false x).m = false := fun a hG => eval_m false x ((hf.seq.1 a false hG).2 rfl)
      have hb := exec_post n y g b r fr G m hw.2 hc.2 hs.2 (hx.2.pre hp hm) hf.seq.2 hg
        (fun h1 h2 => by rw [hx.2.same.cur]; exact hr h1 h2)
      have := Post.bind hg (fun hgt => by
        obtain ⟨k, hG⟩ := hg hgt
        have h3 := hp.2.2
        rw [hG] at h3
        by_cases hcc : fr.id = st.cur
        · exact .inl hcc
        · exact .inr ⟨h3.2.2.1, hcc⟩) hx.2 hb
      rw [if_pos rfl]
      exact this
    | broke =>
      rw [hxr] at hx
      rw [hx.1, if_neg (by simp)]
      refine ⟨m, ?_⟩
      rw [hxr]
      exact ⟨rfl, hx.2⟩
    | returned =>
      rw [hxr] at hx
      rw [if_neg (by simp)]
      refine ⟨m, ?_⟩
      rw [hxr]
      dsimp only at hx ⊢
      split
      · rename_i hgt
        rw [if_pos hgt] at hx
        rw [hx.1]
        exact ⟨rfl, hx.2⟩
      · rename_i hgt
        rw [if_neg hgt] at hx
        rw [hx.1]
        exact ⟨rfl, hx.2⟩
    | thrown e =>
      rw [hxr] at hx
      rw [if_neg (by simp)]
      refine ⟨m, ?_⟩
      rw [hxr]
      have ho : ∀ o, ThrownRel eq G st m o (eval eq false x) e → o.andThen (exec eq (n + 2) fr y) = o := by
        rintro o ⟨-, -, -, -, h5⟩
        cases G with
        | none =>
          have := h5.2.2
          rw [this]
          split <;> rfl
        | some p =>
          obtain ⟨a, k⟩ := p
          cases k with
          | false => rw [h5.2.2.2.2]; rfl
          | true =>
            dsimp only at h5
            split at h5
            · rw [h5.2.2.2]; rfl
            · rw [h5.2.2.2.2]; rfl
      rw [ho _ hx]
      exact hx
  | .call s, g, b, r, fr, G, st, hw, hc, hs, hp, hf, hg, hr => by
    simp only [Stmt.wf] at hw
    have hfs : Fits G s := fun a k hG => ⟨(hf a k hG).1, fun _ => wf_mallocs s _ _ hw⟩
    have ha := exec_post n s false false true ⟨0, none, false⟩ G st hw hc hs hp hfs (by simp) (by simp)
    have hds := eval_ds (eq := eq) false s _ _ hw
    have hres := eval_r (eq := eq) false s false false true hw
    unfold exec eval
    dsimp only
    obtain ⟨m, hx⟩ := ha
    have hxx : ∀ q, (⟨(eval eq false s).t, [], false, q⟩ : R) = { eval eq false s with r := q } := by
      intro q
      obtain ⟨h1, h2⟩ := hds
      clear hx hres
      generalize eval eq false s = x at h1 h2 ⊢
      obtain ⟨xt, xd, xm, xr⟩ := x
      dsimp only at h1 h2 ⊢
      rw [h1, h2]
    cases hxr : (eval eq false s).r with
    | done =>
      rw [hxr] at hx
      rw [hx.1, if_neg (by simp), hxx]
      exact ⟨m, rfl, hx.2.fr, hx.2.same, hx.2.state, hx.2.tr, hx.2.grown, hx.2.calm⟩
    | broke => exact absurd (hres.2 hxr).1 (by simp)
    | returned =>
      rw [hxr] at hx
      simp only [Bool.false_eq_true, if_false] at hx
      rw [hx.1, if_pos rfl, hxx]
      exact ⟨m, rfl, hx.2.fr, hx.2.same, hx.2.state, hx.2.tr, hx.2.grown, hx.2.calm⟩
    | thrown e =>
      rw [hxr] at hx
      rw [if_neg (by simp), hxx]
      refine ⟨m, ?_⟩
      have ho : ∀ o, ThrownRel eq G st m o (eval eq false s) e → ∀ st2, o ≠ .ret st2 := by
        rintro o ⟨-, -, -, -, h5⟩ st2 rfl
        cases G with
        | none =>
          have := h5.2.2
          split at this <;> cases this
        | some p =>
          obtain ⟨a, k⟩ := p
          cases k with
          | false => cases h5.2.2.2.2
          | true =>
            dsimp only at h5
            split at h5
            · cases h5.2.2.2
            · cases h5.2.2.2.2
      have hne := ho _ hx
      have hx' : ThrownRel eq G st m (exec eq (n + 2) ⟨0, none, false⟩ s st) { eval eq false s with r := .thrown e } e :=
        hx
      generalize exec eq (n + 2) ⟨0, none, false⟩ s st = o at hne hx'
      cases o with
      | ret st2 => exact absurd rfl (hne st2)
      | _ => exact hx'
  | .tryAny x y, g, b, r, fr, G, st, hw, hc, hs, hp, hf, hg, hr => by
    simp only [Stmt.wf, Bool.and_eq_true] at hw
    simp only [Stmt.separate, Bool.and_eq_true] at hs
    have hk : ∀ a, G ≠ some (a, true) := by
      intro a hG
      have := (hf a true hG).1 rfl
      simp [Stmt.tries] at this
    have hm : (x.mallocs = false ∨ G = none) ∧ (y.mallocs = false ∨ G = none) := by
      cases hG : G with
      | none => exact ⟨.inr rfl, .inr rfl⟩
      | some p =>
        obtain ⟨a, k⟩ := p
        cases k with
        | true => exact absurd hG (hk a)
        | false =>
          have := (hf a false hG).2 rfl
          simp only [Stmt.mallocs, Bool.or_eq_false_iff] at this
          exact ⟨.inl this.1, .inl this.2⟩
    have fits : ∀ s, (s.mallocs = false ∨ G = none) → Fits G s := by
      intro s h a k hG
      refine ⟨fun hkt => absurd (hkt ▸ hG) (hk a), fun _ => ?_⟩
      rcases h with h | h
      · exact h
      · rw [h] at hG; cases hG
    exact exec_try n hp hk hm.1 hm.2 hw.1 hw.2
      (fun st' hp' => exec_post n x g false false fr G st' hw.1 hc.1 hs.1 hp' (fits x hm.1) hg (by simp))
      (fun st' hp' => exec_post n y g false false fr G st' hw.2 hc.2 hs.2 hp' (fits y hm.2) hg (by simp))
  | .guard x, g, b, r, fr, G, st, hw, hc, hs, hp, hf, hg, hr => by
    have hw' : x.wf true true (r && !g) = true := hw
    simp only [Stmt.separate, Bool.and_eq_true, Bool.not_eq_true'] at hs
    refine exec_guard n hp hw (fun h => by rw [h.1, h.2] at hs; simp at hs) ?_
    intro k st' hp' hf' hcur ar go
    refine exec_post n x true true (r && !g) ⟨st'.fresh - 1, ar, go⟩ (some (st'.fresh - 1, k)) st' hw' hc hs.1 hp' hf' (fun _ => ⟨k, rfl⟩) ?_
    intro _ _
    exact hcur

theorem eval_recovers (i : Bool) : ∀ (s : Stmt), s.recovers = false → ∀ d ∈ (eval eq i s).ds, d.recovers = none
  | .skip, _, d, hd => by simp [eval] at hd
  | .mark _, _, d, hd => by simp [eval] at hd
  | .throw _, _, d, hd => by simp [eval] at hd
  | .brk, _, d, hd => by simp [eval] at hd
  | .greturn, _, d, hd => by simp [eval] at hd
  | .call _, _, d, hd => by simp [eval] at hd
  | .guard _, _, d, hd => by simp [eval] at hd
  | .malloc _, _, d, hd => by simp [eval] at hd; rw [hd]
  | .defer x, h, d, hd => by
    simp [eval] at hd
    simpa [Stmt.recovers, hd] using h
  | .seq x y, h, d, hd => by
    simp only [Stmt.recovers, Bool.or_eq_false_iff] at h
    simp only [eval] at hd
    split at hd
    · rcases List.mem_append.1 hd with hd | hd
      · exact eval_recovers i y h.2 d hd
      · exact eval_recovers i x h.1 d hd
    · exact eval_recovers i x h.1 d hd
  | .tryAny x y, h, d, hd => by
    simp only [Stmt.recovers, Bool.or_eq_false_iff] at h
    simp only [eval] at hd
    split at hd
    · rcases List.mem_append.1 hd with hd | hd
      · exact eval_recovers i y h.2 d hd
      · exact eval_recovers i x h.1 d hd
    · exact eval_recovers i x h.1 d hd

/-- In programs that do not mix memory and recovery, holding memory makes no difference. -/
theorem eval_unmixed : ∀ (s : Stmt), s.unmixed = true → eval eq true s = eval eq false s
  | .skip, _ => rfl
  | .mark _, _ => rfl
  | .throw _, _ => rfl
  | .brk, _ => rfl
  | .greturn, _ => rfl
  | .malloc _, _ => rfl
  | .defer _, _ => rfl
  | .call s, h => by simp only [eval, eval_unmixed s h]
  | .seq x y, h => by
    simp only [Stmt.unmixed, Bool.and_eq_true] at h
    simp only [eval, eval_unmixed x h.1, eval_unmixed y h.2]
  | .tryAny x y, h => by
    simp only [Stmt.unmixed, Bool.and_eq_true] at h
    simp only [eval, eval_unmixed x h.1, eval_unmixed y h.2]
  | .guard x, h => by
    simp only [Stmt.unmixed, Bool.and_eq_true, Bool.not_eq_true', Bool.and_eq_false_iff] at h
    simp only [eval, eval_unmixed x h.1]
    cases hr : (eval eq false x).r with
    | thrown e =>
      dsimp only
      congr 1
      rcases h.2 with hm | hm
      · rw [eval_m false x hm]; rfl
      · have : recovered eq (eval eq false x).ds e = false := by
          unfold recovered
          rw [List.any_eq_false]
          intro d hd
          rw [eval_recovers false x hm d hd]
          simp
        rw [this]; rfl
    | _ => rfl

/-- A thread running a function outside all sections. -/
theorem run_meets (n : Nat) (s : Stmt) (hw : s.wf false false true = true) (hc : s.calm) (hs : s.separate = true) :
    Meets (run eq (n + 2) s) (eval eq false (.call s)) := by
  obtain ⟨m, h⟩ := exec_post (eq := eq) n (.call s) false false false ⟨0, none, false⟩ none start hw hc hs
    ⟨Nat.zero_lt_one, rfl, rfl⟩ (fun a k h => by cases h) (by simp) (by simp)
  have hr := eval_r (eq := eq) false s false false true hw
  show Meets (exec eq (n + 2) ⟨0, none, false⟩ (.call s) start) _
  cases hx : (eval eq false (.call s)).r with
  | done =>
    rw [hx] at h
    rw [h.1]
    exact ⟨by simpa [start, Out.st] using h.2.tr, h.2.same.arena, h.2.same.guardOn, h.2.same.cur, .inl ⟨hx, rfl⟩⟩
  | broke =>
    have : (eval eq false s).r = .broke := by
      simp only [eval] at hx
      split at hx
      · cases hx
      · exact hx
    exact absurd (hr.2 this).1 (by simp)
  | returned =>
    simp only [eval] at hx
    split at hx
    · cases hx
    · rename_i h1; exact absurd hx h1
  | thrown e =>
    rw [hx] at h
    obtain ⟨h1, h2, h3, h4, h5⟩ := h
    have ho := h5.2.2
    rw [if_pos (show start.cur = 0 from rfl)] at ho
    rw [ho]
    exact ⟨by simpa [start, Out.st] using h5.1, h2.arena, h2.guardOn, h2.cur, .inr ⟨e, hx, rfl⟩⟩

theorem strEq_same {tbl : Table} (h : ∀ a b, (tbl a).length ≠ 8 ∧ (tbl a <+: tbl b → tbl a = tbl b)) :
    strEq tbl = sameStr tbl := by
  funext a b
  unfold strEq sameStr
  rw [Bool.eq_iff_iff]
  simp only [Bool.or_eq_true, beq_iff_eq, List.isPrefixOf_iff_prefix]
  refine ⟨fun hx => ?_, fun hx => .inr (by rw [hx]; exact List.prefix_refl _)⟩
  rcases hx with hx | hx
  · exact absurd hx (h a a).1
  · exact (h a b).2 hx

/-- The process is in this section, about to run its deferral. -/
structure Stuck (d : D) (st : St) : Prop where
  cur : st.cur = 1
  unstack : (st.ctxs 1).unstack = false
  on : st.guardOn = true
  arena : st.arena = some 1
  defers : (st.scopes 1).defers = [d]
  active : (st.scopes 1).active = true
  prot : (st.scopes 1).isProt = false

theorem Stuck.free {eq : Nat → Nat → Bool} {d : D} {e : Exn} (hd : d.throws = some e) (hr : d.recovers = none) {st : St}
    (h : Stuck d st) : ∃ v st', deferredFree eq (throwE eq) 1 st = .jump 1 ((st.ctxs 1).state ||| v) st' ∧ v = 1 ∧ Stuck d st' := by
  have hthr : ∃ st', throwE eq e (st.log (.ran d.id)) = .jump 1 ((st.ctxs 1).state ||| 1) st' ∧ Stuck d st' := by
    have hc : (st.log (.ran d.id)).cur = 1 := h.cur
    have hu : ((st.log (.ran d.id)).ctxs 1).unstack = false := h.unstack
    have hon : ∀ c x, ((st.log (.ran d.id)).setCtx c x).guardOn = true := fun _ _ => h.on
    have har : ∀ c x, ((st.log (.ran d.id)).setCtx c x).arena = some 1 := fun _ _ => h.arena
    unfold throwE
    dsimp only
    rw [hc, if_neg (by rw [hu]; simp)]
    unfold unwind
    rw [hon, har]
    dsimp only
    have hp : ∀ x, ((((st.log (.ran d.id)).setCtx 1 x).setSc 1
        { ((st.log (.ran d.id)).setCtx 1 x).scopes 1 with err := some e }).scopes 1).isProt = false := by
      intro x; rw [setSc_same]; exact h.prot
    rw [if_neg (by rw [hp]; simp)]
    simp only [Out.andThen]
    refine ⟨_, rfl, ⟨hc, ?_, h.on, h.arena, ?_, ?_, ?_⟩⟩
    · simp [St.setCtx, St.setSc]; exact h.unstack
    · rw [setSc_same]; exact h.defers
    · rw [setSc_same]; exact h.active
    · rw [setSc_same]; exact h.prot
  obtain ⟨st', h1, h2⟩ := hthr
  refine ⟨1, st', ?_, rfl, h2⟩
  unfold deferredFree
  rw [if_pos h.active, h.defers]
  unfold runList perform
  rw [hr, hd]
  simp only [Out.andThen]
  rw [h1]

theorem Stuck.loops {eq : Nat → Nat → Bool} {d : D} {e : Exn} (hd : d.throws = some e) (hr : d.recovers = none)
    (fr : Frame) (hfr : fr.id = 1) : ∀ (n : Nat) (st : St), Stuck d st →
    ∃ st', region 1 (guardRest eq fr) n (.jump 1 1 st) = .running st' := by
  intro n
  induction n with
  | zero => exact fun st _ => ⟨st, rfl⟩
  | succ n ih =>
    intro st h
    have h' : Stuck d (st.setCtx 1 { st.ctxs 1 with state := 1 }) :=
      ⟨h.cur, by rw [setCtx_same]; exact h.unstack, h.on, h.arena, h.defers, h.active, h.prot⟩
    obtain ⟨v, st', h1, h2, h3⟩ := h'.free (eq := eq) hd hr
    subst h2
    rw [setCtx_same] at h1
    have hrest : guardRest eq fr (st.setCtx 1 { st.ctxs 1 with state := 1 }) = .jump 1 1 st' := by
      unfold guardRest
      rw [hfr, setCtx_same, if_pos rfl, h1]
      dsimp only [Out.andThen]
      rw [show (1 ||| 1 : Nat) = 1 by decide]
    rw [region_self, hrest]
    exact ih st' h3

end Verif.Gd
