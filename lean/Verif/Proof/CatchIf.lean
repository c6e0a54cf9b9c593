import Verif.Spec.CatchIf
namespace Verif.Ci

@[simp] theorem setCtx_same (st : St) (c : Nat) (x : Ctx) : (st.setCtx c x).ctxs c = x := by simp [St.setCtx]
theorem setCtx_ne (st : St) {c d : Nat} (x : Ctx) (h : d ≠ c) : (st.setCtx c x).ctxs d = st.ctxs d := by
  simp [St.setCtx, h]
@[simp] theorem setCtx_cur (st : St) (c : Nat) (x : Ctx) : (st.setCtx c x).cur = st.cur := rfl
@[simp] theorem setCtx_fresh (st : St) (c : Nat) (x : Ctx) : (st.setCtx c x).fresh = st.fresh := rfl
@[simp] theorem setCtx_trace (st : St) (c : Nat) (x : Ctx) : (st.setCtx c x).trace = st.trace := rfl
@[simp] theorem setCtx_scope (st : St) (c : Nat) (x : Ctx) : (st.setCtx c x).scope = st.scope := rfl

/-! ## Deferred functions -/

theorem perform_trace (d : D) (st : St) : (perform d st).trace = st.trace ++ [.ran d.id] := by
  unfold perform
  dsimp only
  cases d.recovers with
  | none => rfl
  | some n =>
    dsimp only
    unfold caught
    cases (st.log (.ran d.id)).scope with
    | none => rfl
    | some sc => dsimp only; split <;> (rename_i h; split at h <;> cases h <;> rfl)

theorem runList_trace : ∀ (ds : List D) (st : St), (runList ds st).trace = st.trace ++ ds.map (.ran ·.id)
  | [], st => by simp [runList]
  | d :: ds, st => by rw [runList, runList_trace ds, perform_trace]; simp

/-- A scope that has noted no error and holds no memory. -/
def calmScope (ds : List D) : Scope := ⟨none, ds, true, false⟩

theorem deferredFree_trace {st : St} {sc : Scope} (h : st.scope = some sc) (ha : sc.active = true) :
    (deferredFree st).trace = st.trace ++ sc.defers.map (.ran ·.id) := by
  unfold deferredFree
  rw [h]
  dsimp only
  rw [if_pos ha]
  exact runList_trace _ _

/-! ## Frames -/

/-- What a piece of code run with current context `c` leaves alone. -/
structure Fr (c : Nat) (st st' : St) : Prop where
  fresh : st.fresh ≤ st'.fresh
  others : ∀ d, d < st.fresh → d ≠ c → st'.ctxs d = st.ctxs d
  next : (st'.ctxs c).next = (st.ctxs c).next
  state : (st'.ctxs c).state = (st.ctxs c).state
  raii : (st'.ctxs c).isRaii = (st.ctxs c).isRaii
  cur : st'.cur = c

theorem Fr.trans {c : Nat} {a b d : St} (h1 : Fr c a b) (h2 : Fr c b d) : Fr c a d :=
  ⟨Nat.le_trans h1.fresh h2.fresh,
   fun x hx hne => (h2.others x (Nat.lt_of_lt_of_le hx h1.fresh) hne).trans (h1.others x hx hne),
   h2.next.trans h1.next, h2.state.trans h1.state, h2.raii.trans h1.raii, h2.cur⟩

theorem Fr.refl (st : St) : Fr st.cur st st := ⟨Nat.le_refl _, fun _ _ _ => rfl, rfl, rfl, rfl, rfl⟩

theorem Fr.same {st st' : St} (h1 : st'.ctxs = st.ctxs) (h2 : st'.fresh = st.fresh) (h3 : st'.cur = st.cur) :
    Fr st.cur st st' := ⟨Nat.le_of_eq h2.symm, fun _ _ _ => by rw [h1], by rw [h1], by rw [h1], by rw [h1], h3⟩

/-- The states mild programs go through. -/
structure Quiet (ds : List D) (st : St) : Prop where
  scope : st.scope = some (calmScope ds)
  cur : st.cur < st.fresh
  raii : (st.ctxs st.cur).isRaii = true → st.cur = 0

/-- How running code relates to what it means. -/
def Ref (ds : List D) (st : St) (o : Out) (v : Val) : Prop :=
  match v.r with
  | .done => ∃ st', o = .ok st' ∧ Fr st.cur st st' ∧ (st'.ctxs st.cur).exn = (st.ctxs st.cur).exn ∧
      st'.trace = st.trace ++ v.t ∧ st'.scope = some (calmScope (v.d ++ ds))
  | .thrown e =>
    if st.cur = 0 then ∃ st', o = .dead e st' ∧ st'.trace = st.trace ++ v.t ++ (v.d ++ ds).map (.ran ·.id)
    else ∃ st', o = .jump st.cur ((st.ctxs st.cur).state ||| 1) st' ∧ Fr st.cur st st' ∧
      (st'.ctxs st.cur).exn = some e ∧ st'.trace = st.trace ++ v.t ∧ st'.scope = some (calmScope (v.d ++ ds))

theorem Ref.bind {ds d : List D} {st st1 : St} {o : Out} {t : List Ev} {v : Val} (h1 : Fr st.cur st st1)
    (hm : st1.trace = st.trace ++ t) (he : (st1.ctxs st.cur).exn = (st.ctxs st.cur).exn)
    (h2 : Ref (d ++ ds) st1 o v) : Ref ds st o ⟨t ++ v.t, v.d ++ d, v.r⟩ := by
  obtain ⟨vt, vd, vr⟩ := v
  unfold Ref at h2 ⊢
  cases vr with
  | done =>
    obtain ⟨st2, k1, k2, k3, k4, k5⟩ := h2
    rw [h1.cur] at k2 k3
    exact ⟨st2, k1, h1.trans k2, k3.trans he, by rw [k4, hm]; simp, by rw [k5]; simp⟩
  | thrown e =>
    dsimp only at h2 ⊢
    rw [h1.cur] at h2
    split at h2
    · rename_i hc
      rw [if_pos hc]
      obtain ⟨st2, k1, k2⟩ := h2
      exact ⟨st2, k1, by rw [k2, hm]; simp⟩
    · rename_i hc
      rw [if_neg hc]
      obtain ⟨st2, k1, k2, k3, k4, k5⟩ := h2
      exact ⟨st2, by rw [k1, h1.state], h1.trans k2, k3, by rw [k4, hm]; simp, by rw [k5]; simp⟩

theorem throwE_ref (e : Exn) {ds : List D} {st : St} (q : Quiet ds st) : Ref ds st (throwE e st) ⟨[], [], .thrown e⟩ := by
  unfold Ref throwE
  dsimp only
  generalize hs : st.setCtx st.cur { st.ctxs st.cur with exn := some e } = s1
  have hcur : s1.cur = st.cur := by rw [← hs]; rfl
  have hsc : s1.scope = some (calmScope ds) := by rw [← hs]; exact q.scope
  have htr : s1.trace = st.trace := by rw [← hs]; rfl
  by_cases hr : (st.ctxs st.cur).isRaii = true
  · have h0 := q.raii hr
    rw [if_pos h0]
    have hr1 : (s1.ctxs s1.cur).isRaii = true := by rw [hcur, ← hs, setCtx_same]; exact hr
    have hu : unwindSet e s1 = { s1 with scope := some { calmScope ds with err := some e } } := by
      unfold unwindSet raiiInit
      rw [if_pos hr1, hsc]
      simp [hsc]
    have hi : isUnwind (unwindSet e s1) = false := by rw [hu]; simp [isUnwind, calmScope]
    have hw : unwindStack (unwindSet e s1) = unwindSet e s1 := by unfold unwindStack; rw [hi]; rfl
    rw [hw, hu]
    dsimp only
    rw [if_pos (hcur.trans h0)]
    refine ⟨_, rfl, ?_⟩
    rw [deferredFree_trace (sc := { calmScope ds with err := some e }) rfl rfl]
    simp [htr, calmScope]
  · have hr1 : ¬ (s1.ctxs s1.cur).isRaii = true := by rw [hcur, ← hs, setCtx_same]; exact hr
    have hu : unwindSet e s1 = s1 := by unfold unwindSet; rw [if_neg hr1]
    have hi : isUnwind s1 = false := by unfold isUnwind; simp [hr1]
    have hw : unwindStack s1 = s1 := by unfold unwindStack; rw [hi]; rfl
    rw [hu, hw, hcur]
    by_cases h0 : st.cur = 0
    · rw [if_pos h0, if_pos h0]
      refine ⟨_, rfl, ?_⟩
      rw [deferredFree_trace hsc rfl]
      simp [htr, calmScope]
    · rw [if_neg h0, if_neg h0]
      refine ⟨s1, ?_, ?_, ?_, ?_, ?_⟩
      · rw [← hs, setCtx_same]
      · rw [← hs]
        exact ⟨Nat.le_refl _, fun d _ hd => setCtx_ne _ _ hd, by simp, by simp, by simp, rfl⟩
      · rw [← hs, setCtx_same]
      · simp [htr]
      · rw [hsc]; rfl

/-! ## Blocks -/

/-- Result of `finally` and `end_try` in state `v` with exception `x`. -/
def postVal (f : Val) (v : Nat) (x : Option Exn) : Val :=
  { f with r := match f.r with | .done => if v &&& 1 ≠ 0 then .thrown (x.getD ⟨[], none⟩) else .done | r => r }

theorem post_ref {ds : List D} {id : Nat} {st : St} {fin : St → Out} {f : Val} (hid : id < st.fresh)
    (hne : (st.ctxs id).next ≠ id) (q : Quiet ds { st with cur := (st.ctxs id).next })
    (hf : Ref ds { st with cur := (st.ctxs id).next } (fin { st with cur := (st.ctxs id).next }) f) :
    Ref ds { st with cur := (st.ctxs id).next } (post fin id st) (postVal f (st.ctxs id).state (st.ctxs id).exn) := by
  unfold post
  generalize hs : ({ st with cur := (st.ctxs id).next } : St) = s1 at *
  have hcur : s1.cur = (st.ctxs id).next := by rw [← hs]
  have hid1 : s1.ctxs id = st.ctxs id := by rw [← hs]
  obtain ⟨ft, fd, fr⟩ := f
  cases fr with
  | thrown e =>
    have hp : postVal ⟨ft, fd, .thrown e⟩ (st.ctxs id).state (st.ctxs id).exn = ⟨ft, fd, .thrown e⟩ := rfl
    rw [hp]
    unfold Ref at hf ⊢
    dsimp only at hf ⊢
    split at hf
    · rename_i h0
      rw [if_pos h0]
      obtain ⟨s2, k1, k2⟩ := hf
      exact ⟨s2, by rw [k1]; rfl, k2⟩
    · rename_i h0
      rw [if_neg h0]
      obtain ⟨s2, k1, k2⟩ := hf
      exact ⟨s2, by rw [k1]; rfl, k2⟩
  | done =>
    obtain ⟨s2, k1, k2, k3, k4, k5⟩ := hf
    rw [k1]
    have hid2 : s2.ctxs id = st.ctxs id := by
      rw [k2.others id (by rw [← hs]; exact hid) (by rw [hcur]; exact Ne.symm hne), hid1]
    have hc2 : s2.cur ≠ id := by rw [k2.cur, hcur]; exact hne
    show Ref ds s1 (endTry id s2) _
    unfold endTry
    dsimp only
    rw [if_neg hc2, hid2]
    unfold postVal
    dsimp only
    split
    · have q2 : Quiet (fd ++ ds) s2 := ⟨k5, by rw [k2.cur]; exact Nat.lt_of_lt_of_le q.cur k2.fresh,
        by rw [k2.cur, k2.raii]; exact q.raii⟩
      have := Ref.bind (ds := ds) (d := fd) k2 k4 k3 (throwE_ref ((st.ctxs id).exn.getD ⟨[], none⟩) q2)
      simpa using this
    · exact ⟨s2, rfl, k2, k3, k4, k5⟩

/-- Running the handler, `id` being the current context, in state 1. -/
def HRef (ds : List D) (id : Nat) (st : St) (o : Out) (v : Val) : Prop :=
  ∃ st', st'.trace = st.trace ++ v.t ∧ st'.scope = some (calmScope (v.d ++ ds)) ∧ st'.cur = id ∧ st.fresh ≤ st'.fresh ∧
    (∀ d, d < st.fresh → d ≠ id → st'.ctxs d = st.ctxs d) ∧ (st'.ctxs id).next = (st.ctxs id).next ∧
    (st'.ctxs id).isRaii = (st.ctxs id).isRaii ∧
    match v.r with
    | .done => o = .ok st' ∧ (st'.ctxs id).state = 2
    | .thrown e => (st'.ctxs id).exn = some e ∧ ((o = .ok st' ∧ (st'.ctxs id).state = 1) ∨ o = .jump id 3 st')

theorem eval_r_done : ∀ (same : Name → Name → Bool) (s : Stmt) (p q : Option Exn),
    (eval same p s).r = (eval same q s).r
  | _, .skip, _, _ => rfl
  | _, .mark _, _, _ => rfl
  | _, .throw _, _, _ => rfl
  | _, .panic _, _, _ => rfl
  | _, .init, _, _ => rfl
  | _, .message, _, _ => rfl
  | _, .recover _, _, _ => rfl
  | _, .hold _, _, _ => rfl
  | same, .seq a b, p, q => by
    have ha := eval_r_done same a p q
    have hb := eval_r_done same b p q
    unfold eval
    rcases h : (eval same p a).r with _ | e
    · rw [h] at ha
      rw [← ha]
      simpa [Val.both] using hb
    · rw [h] at ha
      rw [← ha]
      simp only
      rw [h, ← ha]
  | same, .tryIf body arms fin, p, q => by
    have hf := eval_r_done same fin p q
    unfold eval
    simp only [Val.both]
    rw [hf]

section
variable {junk : Nat → Bool} {n : Nat}

/-- The rest of the block, once body (and handler) are done: from a state `m` inside the block to the end. -/
theorem rest_ref {ds d : List D} {st m : St} {t : List Ev} {fin : St → Out} {f : Val}
    (q : Quiet ds st) (hfr : st.fresh < m.fresh) (hnext : (m.ctxs st.fresh).next = st.cur)
    (hoth : ∀ x, x < st.fresh → m.ctxs x = st.ctxs x) (htr : m.trace = st.trace ++ t)
    (hsc : m.scope = some (calmScope (d ++ ds)))
    (hfin : ∀ s, Quiet (d ++ ds) s → (s.ctxs s.cur).exn = (st.ctxs st.cur).exn → Ref (d ++ ds) s (fin s) f) :
    Ref ds st (post fin st.fresh m)
      ⟨t ++ f.t, f.d ++ d, (postVal f (m.ctxs st.fresh).state (m.ctxs st.fresh).exn).r⟩ := by
  have hq := q.cur
  have hc : m.ctxs st.cur = st.ctxs st.cur := hoth _ hq
  have q1 : Quiet (d ++ ds) { m with cur := (m.ctxs st.fresh).next } := by
    refine ⟨hsc, ?_, ?_⟩
    · show (m.ctxs st.fresh).next < m.fresh
      rw [hnext]; omega
    · show (m.ctxs (m.ctxs st.fresh).next).isRaii = true → (m.ctxs st.fresh).next = 0
      rw [hnext, hc]; exact q.raii
  have h1 := post_ref (fin := fin) (id := st.fresh) (st := m) hfr (by rw [hnext]; omega) q1
    (hfin _ q1 (by show (m.ctxs (m.ctxs st.fresh).next).exn = _; rw [hnext, hc]))
  have h2 := Ref.bind (ds := ds) (d := d) (st := st) (t := t) (st1 := { m with cur := (m.ctxs st.fresh).next })
    ⟨Nat.le_of_lt hfr, fun x hx _ => hoth x hx, by show (m.ctxs st.cur).next = _; rw [hc],
     by show (m.ctxs st.cur).state = _; rw [hc], by show (m.ctxs st.cur).isRaii = _; rw [hc], hnext⟩ htr
    (by show (m.ctxs st.cur).exn = _; rw [hc]) h1
  exact h2

/-- The rest of the block ends it, without a jump to the block itself. -/
theorem region_stop {ds : List D} {st : St} {v : Val} {rest : St → Out} {k w : Nat} {m m1 : St}
    (hm1 : m.setCtx st.fresh { m.ctxs st.fresh with state := w } = m1) (h : Ref ds st (rest m1) v)
    (hc : st.cur < st.fresh) : region st.fresh rest (k + 1) w m = rest m1 := by
  rw [region, hm1]
  unfold Ref at h
  split at h
  · obtain ⟨s, h, _⟩ := h; rw [h]
  · split at h
    · obtain ⟨s, h, _⟩ := h; rw [h]
    · obtain ⟨s, h, _⟩ := h
      rw [h]
      dsimp only
      rw [if_neg (by omega)]

theorem markCaught_ctxs (st : St) : (markCaught st).ctxs st.cur = { st.ctxs st.cur with state := 2 } := setCtx_same _ _ _

theorem caught_calm {ds : List D} {st : St} {e : Exn} (n : Name) (h : st.scope = some (calmScope ds))
    (he : (st.ctxs st.cur).exn = some e) :
    caught n st = if eqName n e.name = true then some (true, markCaught st) else some (false, st) := by
  unfold caught
  rw [h]
  dsimp only
  unfold caughtBy calmScope
  dsimp only
  rw [he]

mutual
theorem exec_ref (hj : ∀ i, junk i = false) : ∀ (s : Stmt), s.mild eqName → ∀ (ds : List D) (st : St) (pend : Option Exn),
    Quiet ds st → (st.ctxs st.cur).exn = pend → (∀ e, pend = some e → e.panic = none) →
    Ref ds st (exec junk (n + 2) s st) (eval eqName pend s)
  | .skip, _, ds, st, pend, q, _, _ => ⟨st, rfl, Fr.refl st, rfl, by simp [eval], by simpa [eval] using q.scope⟩
  | .mark k, _, ds, st, pend, q, _, _ =>
    ⟨st.log (.mark k), rfl, Fr.same rfl rfl rfl, rfl, rfl, q.scope⟩
  | .seq a b, hm, ds, st, pend, q, hp, hk => by
    have ha := exec_ref hj a hm.1 ds st pend q hp hk
    unfold exec eval
    rcases hv : eval eqName pend a with ⟨t, d, _ | e⟩
    · rw [hv] at ha
      obtain ⟨st1, k1, k2, k3, k4, k5⟩ := ha
      rw [k1]
      have q1 : Quiet (d ++ ds) st1 := ⟨k5, by rw [k2.cur]; exact Nat.lt_of_lt_of_le q.cur k2.fresh,
        by rw [k2.cur, k2.raii]; exact q.raii⟩
      have hb := exec_ref hj b hm.2 (d ++ ds) st1 pend q1 (by rw [k2.cur, k3, hp]) hk
      exact Ref.bind k2 k4 k3 hb
    · rw [hv] at ha
      dsimp only
      unfold Ref at ha ⊢
      dsimp only at ha ⊢
      split at ha
      · rename_i h0
        rw [if_pos h0]
        obtain ⟨s1, k1, k2⟩ := ha
        exact ⟨s1, by rw [k1]; rfl, k2⟩
      · rename_i h0
        rw [if_neg h0]
        obtain ⟨s1, k1, k2⟩ := ha
        exact ⟨s1, by rw [k1]; rfl, k2⟩
  | .throw e, _, ds, st, pend, q, _, _ => throwE_ref _ q
  | .panic _, hm, _, _, _, _, _, _ => hm.elim
  | .hold _, hm, _, _, _, _, _, _ => hm.elim
  | .init, _, ds, st, pend, q, _, _ => by
    have : raiiInit st = st := by unfold raiiInit; rw [q.scope]
    exact ⟨st, by unfold exec; rw [this], Fr.refl st, rfl, by simp [eval], by simpa [eval] using q.scope⟩
  | .message, _, ds, st, pend, q, hp, hk => by
    refine ⟨st.log (.msg ((st.ctxs st.cur).exn.map (·.name))), ?_, Fr.same rfl rfl rfl, rfl, ?_, q.scope⟩
    · unfold exec; rw [q.scope]; rfl
    · show st.trace ++ _ = st.trace ++ [Ev.msg (pend.map Exn.key)]
      rw [hp]
      cases pend with
      | none => rfl
      | some e => simp [Exn.key, hk e rfl]
  | .recover d, _, ds, st, pend, q, _, _ => by
    refine ⟨{ st with scope := some (calmScope (d :: ds)) }, ?_, Fr.same rfl rfl rfl, rfl, by simp [eval], rfl⟩
    unfold exec; rw [q.scope]; rfl
  | .tryIf body arms fin, hm, ds, st, pend, q, hp, hk => by
    obtain ⟨mb, ma, mf⟩ := hm
    have q0 : Quiet ds (enterTry junk st) := by
      refine ⟨q.scope, Nat.lt_succ_self _, ?_⟩
      show (((st.setCtx st.fresh ⟨st.cur, 0, none, junk st.fresh⟩).ctxs st.fresh).isRaii = true → st.fresh = 0)
      rw [setCtx_same]
      simp [hj]
    have hex : ((enterTry junk st).ctxs (enterTry junk st).cur).exn = none := by
      show ((st.setCtx st.fresh ⟨st.cur, 0, none, junk st.fresh⟩).ctxs st.fresh).exn = none
      rw [setCtx_same]
    have h0next : ((enterTry junk st).ctxs st.fresh).next = st.cur := by
      show ((st.setCtx st.fresh ⟨st.cur, 0, none, junk st.fresh⟩).ctxs st.fresh).next = _
      rw [setCtx_same]
    have h0state : ((enterTry junk st).ctxs st.fresh).state = 0 := by
      show ((st.setCtx st.fresh ⟨st.cur, 0, none, junk st.fresh⟩).ctxs st.fresh).state = _
      rw [setCtx_same]
    have h0oth : ∀ x, x < st.fresh → (enterTry junk st).ctxs x = st.ctxs x := fun x hx =>
      setCtx_ne _ _ (by omega)
    have hb := exec_ref hj body mb ds _ none q0 hex (by simp)
    have hpos := q.cur
    have hcz : (enterTry junk st).cur = st.fresh := rfl
    have hfz : (enterTry junk st).fresh = st.fresh + 1 := rfl
    have htz : (enterTry junk st).trace = st.trace := rfl
    have hfin : ∀ (d : List D) (s : St), Quiet (d ++ ds) s → (s.ctxs s.cur).exn = (st.ctxs st.cur).exn →
        Ref (d ++ ds) s (exec junk (n + 2) fin s) (eval eqName pend fin) := fun d s qs hs =>
      exec_ref hj fin mf (d ++ ds) s pend qs (hs.trans hp) hk
    unfold exec eval tryBlock
    dsimp only
    generalize hrest : (fun s => (if (s.ctxs st.fresh).state = 1 then execA junk (n + 2) arms s else .ok s).andThen
        (post (exec junk (n + 2) fin) st.fresh)) = rest
    have hrest0 : ∀ m1, (m1.ctxs st.fresh).state ≠ 1 → rest m1 = post (exec junk (n + 2) fin) st.fresh m1 := by
      intro m1 h
      rw [← hrest]
      dsimp only
      rw [if_neg h]
      rfl
    have hrest1 : ∀ m1, (m1.ctxs st.fresh).state = 1 → rest m1 =
        (execA junk (n + 2) arms m1).andThen (post (exec junk (n + 2) fin) st.fresh) := by
      intro m1 h
      rw [← hrest]
      dsimp only
      rw [if_pos h]
    generalize enterTry junk st = s0 at *
    rcases hv : eval eqName none body with ⟨t, d, _ | e⟩
    · rw [hv] at hb
      obtain ⟨m, k1, k2, k3, k4, k5⟩ := hb
      rw [k1]
      rw [hcz] at k2 k3
      dsimp only
      obtain ⟨m1, hm1⟩ : ∃ m1, m.setCtx st.fresh { m.ctxs st.fresh with state := 0 } = m1 := ⟨_, rfl⟩
      have hm1s : (m1.ctxs st.fresh).state = 0 := by rw [← hm1, setCtx_same]
      have hr := rest_ref (m := m1) (t := t) (d := d) q (fin := exec junk (n + 2) fin) (f := eval eqName pend fin)
        (by rw [← hm1]; exact Nat.lt_of_lt_of_le (by rw [hfz]; omega) k2.fresh)
        (by rw [← hm1, setCtx_same]; exact k2.next.trans h0next)
        (fun x hx => by rw [← hm1, setCtx_ne _ _ (by omega), k2.others x (by rw [hfz]; omega) (by omega)]; exact h0oth x hx)
        (by rw [← hm1]; exact k4.trans (by rw [htz])) (by rw [← hm1]; exact k5) (hfin d)
      have hr1 := hrest0 m1 (by rw [hm1s]; decide)
      rw [region_stop hm1 (by rw [hr1]; exact hr) q.cur, hr1]
      have : (postVal (eval eqName pend fin) (m1.ctxs st.fresh).state (m1.ctxs st.fresh).exn).r =
          (match (eval eqName pend fin).r with | .done => Res.done | x => x) := by
        unfold postVal; rw [hm1s]; rfl
      rw [this] at hr
      exact hr
    · rw [hv] at hb
      unfold Ref at hb
      dsimp only at hb
      rw [if_neg (by rw [hcz]; omega)] at hb
      obtain ⟨m, k1, k2, k3, k4, k5⟩ := hb
      rw [hcz] at k1 k2 k3
      rw [k1, h0state]
      dsimp only
      rw [if_pos rfl]
      obtain ⟨m1, hm1⟩ : ∃ m1, m.setCtx st.fresh { m.ctxs st.fresh with state := 0 ||| 1 } = m1 := ⟨_, rfl⟩
      have hm1s : (m1.ctxs st.fresh).state = 1 := by rw [← hm1, setCtx_same]; rfl
      have hm1c : m1.cur = st.fresh := by rw [← hm1]; exact k2.cur
      have hm1f : st.fresh < m1.fresh := by rw [← hm1]; exact Nat.lt_of_lt_of_le (by rw [hfz]; omega) k2.fresh
      have hm1n : (m1.ctxs st.fresh).next = st.cur := by rw [← hm1, setCtx_same]; exact k2.next.trans h0next
      have hm1e : (m1.ctxs st.fresh).exn = some e := by rw [← hm1, setCtx_same]; exact k3
      have hm1o : ∀ x, x < st.fresh → m1.ctxs x = st.ctxs x := fun x hx => by
        rw [← hm1, setCtx_ne _ _ (by omega), k2.others x (by rw [hfz]; omega) (by omega)]; exact h0oth x hx
      have hm1t : m1.trace = st.trace ++ t := by rw [← hm1]; exact k4.trans (by rw [htz])
      have hm1sc : m1.scope = some (calmScope (d ++ ds)) := by rw [← hm1]; exact k5
      have hm1r : (m1.ctxs m1.cur).isRaii = true → m1.cur = 0 := by
        rw [hm1c]
        rw [← hm1, setCtx_same]
        show (m.ctxs st.fresh).isRaii = true → _
        rw [k2.raii]
        have := q0.raii
        rw [hcz] at this
        exact this
      have hep : e.panic = none := thrown_panic body mb none e (by rw [hv])
      have hh := execA_ref hj arms ma (d ++ ds) m1 e st.fresh ⟨hm1sc, by rw [hm1c]; exact hm1f, hm1r⟩ hm1c hm1s
        (by omega) hm1e hep
      obtain ⟨m2, j1, j2, j3, j4, j5, j6, j7, j8⟩ := hh
      have common : ∀ (m3 : St), m3.trace = m2.trace → m3.scope = m2.scope → m3.fresh = m2.fresh →
          (m3.ctxs st.fresh).next = (m2.ctxs st.fresh).next → (∀ x, x < st.fresh → m3.ctxs x = m2.ctxs x) →
          Ref ds st (post (exec junk (n + 2) fin) st.fresh m3)
            ⟨(t ++ (evalA eqName e arms).t) ++ (eval eqName pend fin).t,
             (eval eqName pend fin).d ++ ((evalA eqName e arms).d ++ d),
             (postVal (eval eqName pend fin) (m3.ctxs st.fresh).state (m3.ctxs st.fresh).exn).r⟩ := by
        intro m3 e1 e2 e4 e5 e6
        exact rest_ref (m := m3) (t := t ++ (evalA eqName e arms).t) (d := (evalA eqName e arms).d ++ d) q
          (by rw [e4]; exact Nat.lt_of_lt_of_le hm1f j4) (by rw [e5, j6, hm1n])
          (fun x hx => by rw [e6 x hx, j5 x (by omega) (by omega), hm1o x hx]) (by rw [e1, j1, hm1t]; simp)
          (by rw [e2, j2]; simp) (hfin _)
      have hr1 := hrest1 m1 hm1s
      rcases hav : (evalA eqName e arms).r with _ | e'
      · rw [hav] at j8
        obtain ⟨j8, j9⟩ := j8
        have hr := common m2 rfl rfl rfl rfl (fun _ _ => rfl)
        rw [j8] at hr1
        replace hr1 : rest m1 = post (exec junk (n + 2) fin) st.fresh m2 := hr1
        rw [region_stop hm1 (by rw [hr1]; exact hr) q.cur, hr1]
        have : (postVal (eval eqName pend fin) (m2.ctxs st.fresh).state (m2.ctxs st.fresh).exn).r =
            (match (eval eqName pend fin).r with | .done => Res.done | x => x) := by
          unfold postVal; rw [j9]; rfl
        rw [this] at hr
        dsimp only [Val.both]
        exact hr
      · rw [hav] at j8
        dsimp only [Val.both]
        obtain ⟨j8, ⟨j9, j10⟩ | j9⟩ := j8
        · have hr := common m2 rfl rfl rfl rfl (fun _ _ => rfl)
          rw [j9] at hr1
          replace hr1 : rest m1 = post (exec junk (n + 2) fin) st.fresh m2 := hr1
          rw [region_stop hm1 (by rw [hr1]; exact hr) q.cur, hr1]
          have : (postVal (eval eqName pend fin) (m2.ctxs st.fresh).state (m2.ctxs st.fresh).exn).r =
              (match (eval eqName pend fin).r with | .done => Res.thrown e' | x => x) := by
            unfold postVal; rw [j10, j8]; rfl
          rw [this] at hr
          exact hr
        · rw [j9] at hr1
          replace hr1 : rest m1 = .jump st.fresh 3 m2 := hr1
          rw [region, hm1, hr1]
          dsimp only
          rw [if_pos rfl]
          obtain ⟨m3, hm3⟩ : ∃ m3, m2.setCtx st.fresh { m2.ctxs st.fresh with state := 3 } = m3 := ⟨_, rfl⟩
          have hm3s : (m3.ctxs st.fresh).state = 3 := by rw [← hm3, setCtx_same]
          have hm3e : (m3.ctxs st.fresh).exn = some e' := by rw [← hm3, setCtx_same]; exact j8
          have hr := common m3 (by rw [← hm3]; rfl) (by rw [← hm3]; rfl) (by rw [← hm3]; rfl)
            (by rw [← hm3, setCtx_same]) (fun x hx => by rw [← hm3, setCtx_ne _ _ (by omega)])
          have hr3 := hrest0 m3 (by rw [hm3s]; decide)
          rw [region_stop hm3 (by rw [hr3]; exact hr) q.cur, hr3]
          have : (postVal (eval eqName pend fin) (m3.ctxs st.fresh).state (m3.ctxs st.fresh).exn).r =
              (match (eval eqName pend fin).r with | .done => Res.thrown e' | x => x) := by
            unfold postVal; rw [hm3s, hm3e]; rfl
          rw [this] at hr
          exact hr
theorem execA_ref (hj : ∀ i, junk i = false) : ∀ (a : Arms), a.mild eqName → ∀ (ds : List D) (st : St) (e : Exn) (id : Nat),
    Quiet ds st → st.cur = id → (st.ctxs id).state = 1 → id ≠ 0 → (st.ctxs id).exn = some e → e.panic = none →
    HRef ds id st (execA junk (n + 2) a st) (evalA eqName e a)
  | .other s, hm, ds, st, e, id, q, hc, hs, h0, he, hk => by
    subst hc
    have h := exec_ref hj s hm.1 ds st (some e) q he (by rintro _ ⟨⟩; exact hk)
    have hd : (eval eqName (some e) s).r = .done := (eval_r_done _ s _ _).trans hm.2
    unfold execA evalA
    dsimp only
    rw [hd]
    unfold Ref at h
    rw [hd] at h
    obtain ⟨st1, k1, k2, k3, k4, k5⟩ := h
    exact ⟨st1, k4, k5, k2.cur, k2.fresh, k2.others, k2.next, k2.raii, k3.trans he, .inl ⟨k1, k2.state.trans hs⟩⟩
  | .arm nm s rest, hm, ds, st, e, id, q, hc, hs, h0, he, hk => by
    subst hc
    unfold execA evalA
    rw [caught_calm nm q.scope he]
    have hkey : e.key = e.name := by simp [Exn.key, hk]
    rw [hkey]
    by_cases hn : eqName nm e.name = true
    · rw [if_pos hn, if_pos hn]
      have q1 : Quiet ds (markCaught st) := ⟨q.scope, q.cur, by
        show ((markCaught st).ctxs st.cur).isRaii = true → _
        rw [markCaught_ctxs]; exact q.raii⟩
      have h := exec_ref hj s hm.1 ds (markCaught st) (some e) q1
        (by show ((markCaught st).ctxs st.cur).exn = _; rw [markCaught_ctxs]; exact he) (by rintro _ ⟨⟩; exact hk)
      show HRef ds st.cur st (exec junk (n + 2) s (markCaught st)) _
      have hcm : (markCaught st).cur = st.cur := rfl
      have hoth : ∀ d, d < st.fresh → d ≠ st.cur → (markCaught st).ctxs d = st.ctxs d := fun d _ hd => setCtx_ne _ _ hd
      unfold Ref at h
      rw [hcm] at h
      unfold HRef
      rcases hr : (eval eqName (some e) s).r with _ | e'
      · rw [hr] at h
        obtain ⟨st1, k1, k2, k3, k4, k5⟩ := h
        refine ⟨st1, k4, k5, k2.cur, k2.fresh, fun d hd hne => (k2.others d hd hne).trans (hoth d hd hne), ?_, ?_, k1, ?_⟩
        · rw [k2.next, markCaught_ctxs]
        · rw [k2.raii, markCaught_ctxs]
        · rw [k2.state, markCaught_ctxs]
      · rw [hr] at h
        dsimp only at h
        rw [if_neg h0] at h
        obtain ⟨st1, k1, k2, k3, k4, k5⟩ := h
        refine ⟨st1, k4, k5, k2.cur, k2.fresh, fun d hd hne => (k2.others d hd hne).trans (hoth d hd hne), ?_, ?_, k3, .inr ?_⟩
        · rw [k2.next, markCaught_ctxs]
        · rw [k2.raii, markCaught_ctxs]
        · rw [k1, show ((markCaught st).ctxs st.cur).state = 2 from by rw [markCaught_ctxs],
            show (2 : Nat) ||| 1 = 3 from by decide]
    · rw [if_neg hn, if_neg hn]
      exact execA_ref hj rest hm.2 ds st e st.cur q rfl hs h0 he hk
/-- Mild programs throw no messages. -/
theorem thrown_panic : ∀ (s : Stmt), s.mild eqName → ∀ (pend : Option Exn) (e : Exn),
    (eval eqName pend s).r = .thrown e → e.panic = none
  | .skip, _, _, _, h => by simp [eval] at h
  | .mark _, _, _, _, h => by simp [eval] at h
  | .init, _, _, _, h => by simp [eval] at h
  | .message, _, _, _, h => by simp [eval] at h
  | .recover _, _, _, _, h => by simp [eval] at h
  | .hold _, hm, _, _, _ => hm.elim
  | .panic _, hm, _, _, _ => hm.elim
  | .throw _, _, _, e, h => by simp [eval] at h; rw [← h]
  | .seq a b, hm, p, e, h => by
    unfold eval at h
    rcases hv : (eval eqName p a).r with _ | e'
    · rw [hv] at h
      exact thrown_panic b hm.2 p e (by simpa [Val.both] using h)
    · rw [hv] at h
      dsimp only at h
      exact thrown_panic a hm.1 p e h
  | .tryIf body arms fin, hm, p, e, h => by
    unfold eval at h
    dsimp only [Val.both] at h
    rcases hf : (eval eqName p fin).r with _ | e'
    · rw [hf] at h
      dsimp only at h
      rcases hb : (eval eqName none body).r with _ | e''
      · rw [hb] at h
        dsimp only at h
        rw [hb] at h
        cases h
      · rw [hb] at h
        dsimp only at h
        exact thrownA_panic arms hm.2.1 e'' (thrown_panic body hm.1 none e'' hb) e h
    · rw [hf] at h
      dsimp only at h
      cases h
      exact thrown_panic fin hm.2.2 p _ hf
theorem thrownA_panic : ∀ (a : Arms), a.mild eqName → ∀ (e0 : Exn), e0.panic = none → ∀ (e : Exn),
    (evalA eqName e0 a).r = .thrown e → e.panic = none
  | .other s, hm, e0, h0, e, h => by
    unfold evalA at h
    have hd : (eval eqName (some e0) s).r = .done := (eval_r_done _ s _ _).trans hm.2
    dsimp only at h
    rw [hd] at h
    dsimp only at h
    cases h
    exact h0
  | .arm nm s rest, hm, e0, h0, e, h => by
    unfold evalA at h
    split at h
    · exact thrown_panic s hm.1 (some e0) e h
    · exact thrownA_panic rest hm.2 e0 h0 e h
end

/-- A thread that has called `raii_init` before anything else. -/
theorem quiet_start : Quiet [] (raiiInit start) := ⟨rfl, by decide, fun _ => rfl⟩

theorem run_meets (hj : ∀ i, junk i = false) (s : Stmt) (hm : s.mild eqName) :
    Meets (run junk (n + 2) (.seq .init s)) (eval eqName none s) := by
  have h := exec_ref (n := n) hj s hm [] (raiiInit start) none quiet_start rfl (by simp)
  have hx : exec junk (n + 2) (.seq .init s) start = exec junk (n + 2) s (raiiInit start) := by
    rw [exec, exec]; rfl
  unfold run
  rw [hx]
  unfold Meets Val.whole
  unfold Ref at h
  rcases hr : (eval eqName none s).r with _ | e
  · rw [hr] at h
    obtain ⟨st, k1, _, _, k4, k5⟩ := h
    rw [k1]
    refine ⟨_, rfl, ?_⟩
    rw [deferredFree_trace k5 rfl, k4]
    simp [calmScope, raiiInit, start, St.setCtx]
  · rw [hr] at h
    dsimp only at h
    rw [if_pos (show (raiiInit start).cur = 0 from rfl)] at h
    obtain ⟨st, k1, k2⟩ := h
    rw [k1]
    refine ⟨_, rfl, ?_⟩
    rw [k2]
    simp [raiiInit, start, St.setCtx]

mutual
/-- The meaning depends only on the comparisons made. -/
theorem eval_same (f g : Name → Name → Bool) (N : List Name) : ∀ (s : Stmt) (p : Option Exn),
    (∀ n ∈ s.asked, ∀ m ∈ N, f n m = g n m) → (∀ m ∈ s.thrown, m ∈ N) → s.mild f →
    eval f p s = eval g p s ∧ ∀ e, (eval f p s).r = .thrown e → e.key ∈ N
  | .skip, _, _, _, _ => ⟨rfl, by simp [eval]⟩
  | .mark _, _, _, _, _ => ⟨rfl, by simp [eval]⟩
  | .init, _, _, _, _ => ⟨rfl, by simp [eval]⟩
  | .message, _, _, _, _ => ⟨rfl, by simp [eval]⟩
  | .recover _, _, _, _, _ => ⟨rfl, by simp [eval]⟩
  | .hold _, _, _, _, hm => hm.elim
  | .panic _, _, _, _, hm => hm.elim
  | .throw n, _, _, ht, _ => ⟨rfl, by
      intro e h
      simp only [eval] at h
      cases h
      exact ht n (by simp [Stmt.thrown])⟩
  | .seq a b, p, ha, ht, hm => by
    have h1 := eval_same f g N a p (fun n hn => ha n (by simp [Stmt.asked, hn])) (fun n hn => ht n (by simp [Stmt.thrown, hn])) hm.1
    have h2 := eval_same f g N b p (fun n hn => ha n (by simp [Stmt.asked, hn])) (fun n hn => ht n (by simp [Stmt.thrown, hn])) hm.2
    refine ⟨by unfold eval; rw [h1.1, h2.1], ?_⟩
    intro e h
    unfold eval at h
    rcases hr : (eval f p a).r with _ | e'
    · rw [hr] at h
      exact h2.2 e h
    · rw [hr] at h
      exact h1.2 e h
  | .tryIf body arms fin, p, ha, ht, hm => by
    have h1 := eval_same f g N body none (fun n hn => ha n (by simp [Stmt.asked, hn])) (fun n hn => ht n (by simp [Stmt.thrown, hn])) hm.1
    have h3 := eval_same f g N fin p (fun n hn => ha n (by simp [Stmt.asked, hn])) (fun n hn => ht n (by simp [Stmt.thrown, hn])) hm.2.2
    have h2 := fun e he => evalA_same f g N arms e he (fun n hn => ha n (by simp [Stmt.asked, hn])) (fun n hn => ht n (by simp [Stmt.thrown, hn])) hm.2.1
    constructor
    · unfold eval
      rw [← h1.1, ← h3.1]
      dsimp only
      rcases hr : (eval f none body).r with _ | e
      · rfl
      · dsimp only
        rw [(h2 e (h1.2 e hr)).1]
    · intro e h
      unfold eval at h
      dsimp only [Val.both] at h
      rcases hf : (eval f p fin).r with _ | e'
      · rw [hf] at h
        dsimp only at h
        rcases hb : (eval f none body).r with _ | e''
        · rw [hb] at h
          dsimp only at h
          rw [hb] at h
          cases h
        · rw [hb] at h
          dsimp only at h
          exact (h2 e'' (h1.2 e'' hb)).2 e h
      · rw [hf] at h
        dsimp only at h
        cases h
        exact h3.2 _ hf
theorem evalA_same (f g : Name → Name → Bool) (N : List Name) : ∀ (a : Arms) (e : Exn), e.key ∈ N →
    (∀ n ∈ a.asked, ∀ m ∈ N, f n m = g n m) → (∀ m ∈ a.thrown, m ∈ N) → a.mild f →
    evalA f e a = evalA g e a ∧ ∀ e', (evalA f e a).r = .thrown e' → e'.key ∈ N
  | .other s, e, he, ha, ht, hm => by
    have h1 := eval_same f g N s (some e) ha ht hm.1
    refine ⟨by unfold evalA; rw [h1.1], ?_⟩
    intro e' h
    have hd : (eval f (some e) s).r = .done := (eval_r_done _ s _ _).trans hm.2
    unfold evalA at h
    dsimp only at h
    rw [hd] at h
    cases h
    exact he
  | .arm n s rest, e, he, ha, ht, hm => by
    have h1 := eval_same f g N s (some e) (fun n hn => ha n (by simp [Arms.asked, hn])) (fun n hn => ht n (by simp [Arms.thrown, hn])) hm.1
    have h2 := evalA_same f g N rest e he (fun n hn => ha n (by simp [Arms.asked, hn])) (fun n hn => ht n (by simp [Arms.thrown, hn])) hm.2
    have hfg := ha n (by simp [Arms.asked]) e.key he
    constructor
    · unfold evalA; rw [hfg, h1.1, h2.1]
    · intro e' h
      unfold evalA at h
      split at h
      · exact h1.2 e' h
      · exact h2.2 e' h
end

end

mutual
theorem mild_same (f g : Name → Name → Bool) (N : List Name) : ∀ (s : Stmt),
    (∀ n ∈ s.asked, ∀ m ∈ N, f n m = g n m) → (∀ m ∈ s.thrown, m ∈ N) → s.mild f → s.mild g
  | .skip, _, _, _ => trivial
  | .mark _, _, _, _ => trivial
  | .init, _, _, _ => trivial
  | .message, _, _, _ => trivial
  | .recover _, _, _, _ => trivial
  | .throw _, _, _, _ => trivial
  | .hold _, _, _, hm => hm.elim
  | .panic _, _, _, hm => hm.elim
  | .seq a b, ha, ht, hm =>
    ⟨mild_same f g N a (fun n hn => ha n (by simp [Stmt.asked, hn])) (fun n hn => ht n (by simp [Stmt.thrown, hn])) hm.1,
     mild_same f g N b (fun n hn => ha n (by simp [Stmt.asked, hn])) (fun n hn => ht n (by simp [Stmt.thrown, hn])) hm.2⟩
  | .tryIf body arms fin, ha, ht, hm =>
    ⟨mild_same f g N body (fun n hn => ha n (by simp [Stmt.asked, hn])) (fun n hn => ht n (by simp [Stmt.thrown, hn])) hm.1,
     mildA_same f g N arms (fun n hn => ha n (by simp [Stmt.asked, hn])) (fun n hn => ht n (by simp [Stmt.thrown, hn])) hm.2.1,
     mild_same f g N fin (fun n hn => ha n (by simp [Stmt.asked, hn])) (fun n hn => ht n (by simp [Stmt.thrown, hn])) hm.2.2⟩
theorem mildA_same (f g : Name → Name → Bool) (N : List Name) : ∀ (a : Arms),
    (∀ n ∈ a.asked, ∀ m ∈ N, f n m = g n m) → (∀ m ∈ a.thrown, m ∈ N) → a.mild f → a.mild g
  | .other s, ha, ht, hm =>
    ⟨mild_same f g N s ha ht hm.1, by rw [← (eval_same f g N s none ha ht hm.1).1]; exact hm.2⟩
  | .arm n s rest, ha, ht, hm =>
    ⟨mild_same f g N s (fun n hn => ha n (by simp [Arms.asked, hn])) (fun n hn => ht n (by simp [Arms.thrown, hn])) hm.1,
     mildA_same f g N rest (fun n hn => ha n (by simp [Arms.asked, hn])) (fun n hn => ht n (by simp [Arms.thrown, hn])) hm.2⟩
end

theorem eqName_refl (n : Name) : eqName n n = true := by simp [eqName]

theorem eqName_clear {n m : Name} (h8 : n.length ≠ 8) (h : n <+: m → n = m) : eqName n m = decide (n = m) := by
  unfold eqName
  have : (n.length == 8) = false := by simpa using h8
  rw [this, Bool.false_or, Bool.eq_iff_iff, List.isPrefixOf_iff_prefix, decide_eq_true_iff]
  exact ⟨h, fun h => h ▸ List.prefix_refl _⟩

end Verif.Ci
