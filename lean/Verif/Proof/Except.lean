import Verif.Spec.Except
namespace Verif.Ex

theorem marks_append (a b : List Ev) : marks (a ++ b) = marks a ++ marks b := by simp [marks]

@[simp] theorem setCtx_same (st : St) (c : Nat) (x : Ctx) : (st.setCtx c x).ctxs c = x := by simp [St.setCtx]
theorem setCtx_ne (st : St) {c d : Nat} (x : Ctx) (h : d ≠ c) : (st.setCtx c x).ctxs d = st.ctxs d := by
  simp [St.setCtx, h]
@[simp] theorem setCtx_cur (st : St) (c : Nat) (x : Ctx) : (st.setCtx c x).cur = st.cur := rfl
@[simp] theorem setCtx_fresh (st : St) (c : Nat) (x : Ctx) : (st.setCtx c x).fresh = st.fresh := rfl
@[simp] theorem setCtx_trace (st : St) (c : Nat) (x : Ctx) : (st.setCtx c x).trace = st.trace := rfl
@[simp] theorem log_ctxs (st : St) (e : Ev) : (st.log e).ctxs = st.ctxs := rfl
@[simp] theorem log_cur (st : St) (e : Ev) : (st.log e).cur = st.cur := rfl
@[simp] theorem log_fresh (st : St) (e : Ev) : (st.log e).fresh = st.fresh := rfl

theorem unwindLoop_calm {w : World} (hw : w.calm) : ∀ (ps : List Nat) (temp : Nat) (st : St),
    ∃ st', unwindLoop w ps temp st = (some st', st') ∧ st'.ctxs = st.ctxs ∧ st'.cur = st.cur ∧
      st'.fresh = st.fresh ∧ marks st'.trace = marks st.trace := by
  intro ps
  induction ps with
  | nil => intro temp st; exact ⟨st, rfl, rfl, rfl, rfl, rfl⟩
  | cons p ps ih =>
    intro temp st
    unfold unwindLoop
    dsimp only
    split
    · exact ⟨st, rfl, rfl, rfl, rfl, rfl⟩
    split
    · exact ⟨st, rfl, rfl, rfl, rfl, rfl⟩
    split
    · rw [if_neg (by rw [hw.1]; simp)]
      obtain ⟨st', h1, h2, h3, h4, h5⟩ := ih _ (({ st with nodes := fun q => if q = p then { st.nodes p with linked := false } else st.nodes q } : St).log (.released (st.nodes p).func (st.vars (st.nodes p).var)))
      exact ⟨st', h1, h2, h3, h4, by rw [h5]; simp [St.log, marks]⟩
    · exact ih _ st

/-- Frame of a piece of code run with current context `c`. -/
structure Fr (c : Nat) (st st' : St) : Prop where
  fresh : st.fresh ≤ st'.fresh
  others : ∀ d, d < st.fresh → d ≠ c → st'.ctxs d = st.ctxs d
  next : (st'.ctxs c).next = (st.ctxs c).next
  state : (st'.ctxs c).state = (st.ctxs c).state
  unstack : (st'.ctxs c).unstack = false
  cur : st'.cur = c

theorem Fr.trans {c : Nat} {a b d : St} (h1 : Fr c a b) (h2 : Fr c b d) : Fr c a d :=
  ⟨Nat.le_trans h1.fresh h2.fresh,
   fun x hx hne => (h2.others x (Nat.lt_of_lt_of_le hx h1.fresh) hne).trans (h1.others x hx hne),
   h2.next.trans h1.next, h2.state.trans h1.state, h2.unstack, h2.cur⟩

theorem Fr.refl {st : St} (h : (st.ctxs st.cur).unstack = false) : Fr st.cur st st :=
  ⟨Nat.le_refl _, fun _ _ _ => rfl, rfl, rfl, h, rfl⟩

/-- How running code relates to what it means. -/
def Ref (st : St) (o : Out) (r : List Nat × Res) : Prop :=
  ∃ st', Fr st.cur st st' ∧ marks st'.trace = marks st.trace ++ r.1 ∧
    match r.2 with
    | .done => o = .ok st' ∧ (st'.ctxs st.cur).exn = (st.ctxs st.cur).exn
    | .returned => o = .ret st' ∧ (st'.ctxs st.cur).exn = (st.ctxs st.cur).exn
    | .thrown e =>
      (st'.ctxs st.cur).exn = e ∧
      o = if st.cur = 0 then .dead e st' else .jump st.cur ((st.ctxs st.cur).state ||| throwState) st'

theorem throwE_ref {w : World} (hw : w.calm) (e : Exn) {st : St} (hu : (st.ctxs st.cur).unstack = false) :
    Ref st (throwE w e st) ([], .thrown e) := by
  unfold throwE
  dsimp only
  rw [if_neg (by rw [hu]; simp)]
  generalize hx : (if ({ st.ctxs st.cur with exn := e, isUnwind := false } : Ctx).isRaii = true then
      ({ st.ctxs st.cur with exn := e, isUnwind := w.scopeProtected } : Ctx)
    else { st.ctxs st.cur with exn := e, isUnwind := false }) = x
  have hx1 : x.exn = e := by rw [← hx]; split <;> rfl
  have hx2 : x.next = (st.ctxs st.cur).next := by rw [← hx]; split <;> rfl
  have hx3 : x.state = (st.ctxs st.cur).state := by rw [← hx]; split <;> rfl
  have key : ∃ st', unwindStack w st.cur (st.setCtx st.cur x) = (some st', st') ∧ Fr st.cur st st' ∧
      marks st'.trace = marks st.trace ∧ (st'.ctxs st.cur).exn = e := by
    unfold unwindStack
    dsimp only
    rw [setCtx_same]
    have hr : ∃ st1, (if (x.isUnwind && x.isRaii) = true then
        (some ((St.setCtx (st.setCtx st.cur x) st.cur { x with unstack := true }).log .cleaned),
          (St.setCtx (st.setCtx st.cur x) st.cur { x with unstack := true }).log .cleaned)
        else unwindLoop w x.stack 0 (St.setCtx (st.setCtx st.cur x) st.cur { x with unstack := true }))
        = (some st1, st1) ∧ st1.ctxs = (St.setCtx (st.setCtx st.cur x) st.cur { x with unstack := true }).ctxs ∧
        st1.cur = st.cur ∧ st1.fresh = st.fresh ∧ marks st1.trace = marks st.trace := by
      split
      · exact ⟨_, rfl, rfl, rfl, rfl, by simp [St.log, marks]⟩
      · obtain ⟨st1, h1, h2, h3, h4, h5⟩ := unwindLoop_calm hw x.stack 0
          (St.setCtx (st.setCtx st.cur x) st.cur { x with unstack := true })
        exact ⟨st1, h1, h2, h3, h4, h5⟩
    obtain ⟨st1, h1, h2, h3, h4, h5⟩ := hr
    rw [h1]
    refine ⟨_, rfl, ⟨?_, ?_, ?_, ?_, ?_, ?_⟩, ?_, ?_⟩
    · simp [h4]
    · intro d _ hne
      rw [setCtx_ne _ _ hne, h2, setCtx_ne _ _ hne, setCtx_ne _ _ hne]
    · rw [setCtx_same, h2]; simpa using hx2
    · rw [setCtx_same, h2]; simpa using hx3
    · simp
    · simp [h3]
    · simp [h5]
    · rw [setCtx_same, h2]; simpa using hx1
  obtain ⟨st', k1, k2, k3, k4⟩ := key
  have hgoal : (match unwindStack w st.cur (st.setCtx st.cur x) with
    | (none, st) => Out.dead e st
    | (some st_1, snd) => if st.cur = 0 ∨ w.emulated = true then .dead e st_1 else .jump st.cur ((st_1.ctxs st.cur).state ||| throwState) st_1)
    = if st.cur = 0 then Out.dead e st' else .jump st.cur ((st.ctxs st.cur).state ||| throwState) st' := by
    rw [k1]
    simp only [k2.state, hw.2, Bool.false_eq_true, or_false]
  exact ⟨st', k2, by simp [k3], k4, hgoal⟩

/-- What running the handlers means: `id` is the current context, in state 1 with exception `e`. -/
def HRef (id : Nat) (st : St) (o : Out) (r : List Nat × Res) : Prop :=
  ∃ st', marks st'.trace = marks st.trace ++ r.1 ∧ st'.cur = id ∧ st.fresh ≤ st'.fresh ∧
    (∀ d, d < st.fresh → d ≠ id → st'.ctxs d = st.ctxs d) ∧
    (st'.ctxs id).next = (st.ctxs id).next ∧ (st'.ctxs id).unstack = false ∧
    match r.2 with
    | .done => o = .ok st' ∧ (st'.ctxs id).state = 2
    | .returned => False
    | .thrown e => (st'.ctxs id).exn = e ∧
      ((o = .ok st' ∧ (st'.ctxs id).state = 1) ∨ o = .jump id 3 st')

theorem execH_skip {w : World} {n id : Nat} : ∀ (hs : Handlers) (st : St), (st.ctxs id).state ≠ 1 →
    execH w n id hs st = .ok st
  | .nil, st, _ => rfl
  | .cons p s rest, st, h => by
    unfold execH
    dsimp only
    rw [if_neg (by rintro ⟨h1, -⟩; exact h h1)]
    exact execH_skip rest st h

mutual
theorem eval_ne_returned : ∀ (s : Stmt) (h : Bool) (pend : Option Exn), s.wf h false = true →
    (eval pend s).2 ≠ .returned
  | .skip, _, _, _ => by simp [eval]
  | .mark _, _, _, _ => by simp [eval]
  | .throw _, _, _, _ => by simp [eval]
  | .rethrow, _, pend, _ => by cases pend <;> simp [eval]
  | .ret, _, _, hw => by simp [Stmt.wf] at hw
  | .assign _ _, _, _, _ => by simp [eval]
  | .protect _ _ _, _, _, _ => by simp [eval]
  | .unprotect _, _, _, _ => by simp [eval]
  | .seq a b, h, pend, hw => by
    simp only [Stmt.wf, Bool.and_eq_true] at hw
    have ha := eval_ne_returned a h pend hw.1
    have hb := eval_ne_returned b h pend hw.2
    unfold eval
    rcases he : eval pend a with ⟨t, _ | e | _⟩
    · simpa using hb
    · simp
    · rw [he] at ha; exact absurd rfl ha
  | .call s, _, _, _ => by
    unfold eval
    rcases he : eval none s with ⟨t, _ | e | _⟩ <;> simp
  | .tryCatch body hs, _, _, hw => by
    simp only [Stmt.wf, Bool.and_eq_true] at hw
    have hb := eval_ne_returned body false none hw.1
    unfold eval
    rcases he : eval none body with ⟨t, _ | e | _⟩
    · simp
    · simpa using evalH_ne_returned hs e hw.2
    · rw [he] at hb; exact absurd rfl hb
  | .tryFinally body hs fin, _, _, hw => by
    simp only [Stmt.wf, Bool.and_eq_true] at hw
    have hb := eval_ne_returned body false none hw.1.1
    have hf := eval_ne_returned fin false none hw.2
    unfold eval
    rcases he : eval none body with ⟨t, _ | e | _⟩
    · rcases hf' : eval none fin with ⟨t', _ | e' | _⟩
      · simp
      · simp
      · rw [hf'] at hf; exact absurd rfl hf
    · have hh := evalH_ne_returned hs e hw.1.2
      rcases hf' : eval none fin with ⟨t', _ | e' | _⟩
      · simpa using hh
      · simp
      · rw [hf'] at hf; exact absurd rfl hf
    · rw [he] at hb; exact absurd rfl hb
theorem evalH_ne_returned : ∀ (hs : Handlers) (e : Exn), hs.wf = true → (evalH e hs).2 ≠ .returned
  | .nil, e, _ => by simp [evalH]
  | .cons p s rest, e, hw => by
    simp only [Handlers.wf, Bool.and_eq_true] at hw
    unfold evalH
    split
    · exact eval_ne_returned s true (some e) hw.1
    · exact evalH_ne_returned rest e hw.2
end

/-- Result of `finally` and `end_try` in state `v` with exception `e`. -/
def postRes (fin : List Nat × Res) (v : Nat) (e : Exn) : List Nat × Res :=
  (fin.1, match fin.2 with | .done => if v &&& 1 ≠ 0 then .thrown e else .done | x => x)

theorem endTry_ref {w : World} (hw : w.calm) {id : Nat} {st : St} (hc : st.cur ≠ id)
    (hu : (st.ctxs st.cur).unstack = false) :
    Ref st (endTry w id st) (postRes ([], .done) (st.ctxs id).state (st.ctxs id).exn) := by
  unfold endTry postRes
  dsimp only
  rw [if_neg hc]
  show Ref st (if (st.ctxs id).state &&& 1 ≠ 0 then _ else _) _
  split
  · exact throwE_ref hw _ hu
  · exact ⟨st, Fr.refl hu, by simp, rfl, rfl⟩

theorem endTry_enter {w : World} {id : Nat} {st : St} (hc : st.cur = id) (hne : (st.ctxs id).next ≠ id) :
    endTry w id st = endTry w id { st with cur := (st.ctxs id).next } := by
  unfold endTry
  dsimp only
  rw [if_pos hc, if_neg hne]

/-- Running on after something that ended normally. -/
theorem Ref.bind {st st1 : St} {o : Out} {t t' : List Nat} {r : Res} (h1 : Fr st.cur st st1)
    (hm : marks st1.trace = marks st.trace ++ t) (he : (st1.ctxs st.cur).exn = (st.ctxs st.cur).exn)
    (h2 : Ref st1 o (t', r)) : Ref st o (t ++ t', r) := by
  obtain ⟨st2, k1, k2, k3⟩ := h2
  rw [h1.cur] at k1 k3
  refine ⟨st2, h1.trans k1, by rw [k2, hm]; simp, ?_⟩
  cases r with
  | done => exact ⟨k3.1, k3.2.trans he⟩
  | returned => exact ⟨k3.1, k3.2.trans he⟩
  | thrown e => exact ⟨k3.1, by rw [k3.2, h1.state]⟩

theorem finally_ref {w : World} (hw : w.calm) {id : Nat} {st : St} (hne : (st.ctxs id).next ≠ id) {fo : Out}
    (hid : id < st.fresh) {fr : List Nat × Res} (hr : fr.2 ≠ .returned)
    (hfin : Ref { st with cur := (st.ctxs id).next } fo fr) :
    Ref { st with cur := (st.ctxs id).next } (fo.andThen (endTry w id))
      (postRes fr (st.ctxs id).state (st.ctxs id).exn) := by
  obtain ⟨st1, h1, h2, h3⟩ := hfin
  obtain ⟨t, r⟩ := fr
  unfold postRes
  cases r with
  | returned => exact absurd rfl hr
  | thrown e =>
    refine ⟨st1, h1, h2, h3.1, ?_⟩
    have := h3.2
    rw [this]
    split <;> rfl
  | done =>
    rw [h3.1]
    have hid1 : st1.ctxs id = st.ctxs id := h1.others id hid (Ne.symm hne)
    have := endTry_ref (id := id) hw (st := st1) (by rw [h1.cur]; exact hne) (by rw [h1.cur]; exact h1.unstack)
    rw [hid1] at this
    have := Ref.bind h1 h2 h3.2 this
    show Ref _ (endTry w id st1) _
    simpa [postRes] using this

/-- The part of a block after its handlers. -/
def PostOk (id : Nat) (post : St → Out) (fr : List Nat × Res) : Prop :=
  ∀ st, st.cur = id → (st.ctxs id).next < id → id < st.fresh →
    (st.ctxs (st.ctxs id).next).unstack = false →
    Ref { st with cur := (st.ctxs id).next } (post st) (postRes fr (st.ctxs id).state (st.ctxs id).exn)

/-- The result of a block, from the result of body and handlers and that of `finally`. -/
def blockRes (r fr : List Nat × Res) : List Nat × Res :=
  (r.1 ++ fr.1, match fr.2 with | .done => r.2 | x => x)

/-- Inside the block opened by `st`: the state `m` reached. -/
structure Mid (st m : St) (t : List Nat) : Prop where
  cur : m.cur = st.fresh
  fresh : st.fresh < m.fresh
  next : (m.ctxs st.fresh).next = st.cur
  others : ∀ d, d < st.fresh → m.ctxs d = st.ctxs d
  tr : marks m.trace = marks st.trace ++ t

theorem Mid.set {st m : St} {t : List Nat} (h : Mid st m t) (v : Nat) :
    Mid st (m.setCtx st.fresh { m.ctxs st.fresh with state := v }) t :=
  ⟨h.cur, h.fresh, by simpa using h.next,
   fun d hd => by rw [setCtx_ne _ _ (Nat.ne_of_lt hd)]; exact h.others d hd, h.tr⟩

theorem Mid.finish {st m : St} {t : List Nat} (h : Mid st m t) (hc : st.cur < st.fresh)
    {o : Out} {r : List Nat × Res} (hr : Ref { m with cur := (m.ctxs st.fresh).next } o r) :
    Ref st o (t ++ r.1, r.2) := by
  rw [h.next] at hr
  obtain ⟨st', k1, k2, k3⟩ := hr
  have hcc : m.ctxs st.cur = st.ctxs st.cur := h.others _ hc
  refine ⟨st', ⟨?_, ?_, ?_, ?_, k1.unstack, k1.cur⟩, ?_, ?_⟩
  · exact Nat.le_trans (Nat.le_of_lt h.fresh) k1.fresh
  · intro d hd hne
    rw [k1.others d (Nat.lt_trans hd h.fresh) hne]
    exact h.others d hd
  · rw [k1.next]; show (m.ctxs st.cur).next = _; rw [hcc]
  · rw [k1.state]; show (m.ctxs st.cur).state = _; rw [hcc]
  · rw [k2]; show marks m.trace ++ _ = _; rw [h.tr]; simp
  · obtain ⟨t', r⟩ := r
    cases r with
    | done => refine ⟨k3.1, k3.2.trans ?_⟩; show (m.ctxs st.cur).exn = _; rw [hcc]
    | returned => refine ⟨k3.1, k3.2.trans ?_⟩; show (m.ctxs st.cur).exn = _; rw [hcc]
    | thrown e =>
      refine ⟨k3.1, ?_⟩
      rw [k3.2]
      show (if st.cur = 0 then _ else Out.jump st.cur ((m.ctxs st.cur).state ||| throwState) st') = _
      rw [hcc]

theorem Ref.nojump {st : St} (hc : st.cur < st.fresh) {q : List Nat × Res} {j v : Nat} {st' : St}
    (h : Ref st (Out.jump j v st') q) : j ≠ st.fresh := by
  obtain ⟨qt, q⟩ := q
  obtain ⟨s2, -, -, k3⟩ := h
  cases q with
  | done => cases k3.1
  | returned => cases k3.1
  | thrown e =>
    have := k3.2
    split at this
    · cases this
    · cases this; omega

theorem region_eq {st : St} (hc : st.cur < st.fresh) {rest : St → Out} {n v : Nat} {m : St}
    {q : List Nat × Res} (h : Ref st (rest (m.setCtx st.fresh { m.ctxs st.fresh with state := v })) q) :
    Ref st (region st.fresh rest (n + 1) v m) q := by
  unfold region
  cases ho : rest (m.setCtx st.fresh { m.ctxs st.fresh with state := v }) with
  | jump j v' st' =>
    rw [ho] at h
    simp only [if_neg (h.nojump hc)]
    exact h
  | _ => rw [ho] at h; exact h

/-- Handlers skipped, then the rest. -/
theorem region_tail {w : World} {n : Nat} {st m : St} {t : List Nat} (hmid : Mid st m t)
    (hc : st.cur < st.fresh) (hu : (st.ctxs st.cur).unstack = false) {hs : Handlers} {passes v : Nat}
    {post : St → Out} {fr : List Nat × Res} (hpost : PostOk st.fresh post fr) (hv : v ≠ 1) :
    Ref st (region st.fresh (fun st' => (execH w passes st.fresh hs st').andThen post) (n + 1) v m)
      (blockRes (t, if v &&& 1 ≠ 0 then .thrown (m.ctxs st.fresh).exn else .done) fr) := by
  apply region_eq hc
  rw [execH_skip hs _ (by simpa using hv)]
  have h1 := hmid.set v
  have hp := hpost _ h1.cur (by rw [h1.next]; exact hc) h1.fresh (by rw [h1.next, h1.others _ hc]; exact hu)
  have hr := h1.finish hc hp
  simp only [setCtx_same] at hr
  have hres : blockRes (t, if v &&& 1 ≠ 0 then .thrown (m.ctxs st.fresh).exn else .done) fr =
      (t ++ (postRes fr v (m.ctxs st.fresh).exn).1, (postRes fr v (m.ctxs st.fresh).exn).2) := by
    unfold blockRes postRes
    rcases fr with ⟨ft, _ | _ | _⟩ <;> rfl
  rw [hres]
  exact hr

/-- After the body threw: handlers, then the rest. -/
theorem region_caught {w : World} {n : Nat} {st m : St} {t : List Nat} (hmid : Mid st m t)
    (hc : st.cur < st.fresh) (hu : (st.ctxs st.cur).unstack = false) {hs : Handlers} {passes : Nat}
    {post : St → Out} {fr hr : List Nat × Res} (hpost : PostOk st.fresh post fr)
    (hh : HRef st.fresh (m.setCtx st.fresh { m.ctxs st.fresh with state := 1 })
      (execH w passes st.fresh hs (m.setCtx st.fresh { m.ctxs st.fresh with state := 1 })) hr) :
    Ref st (region st.fresh (fun st' => (execH w passes st.fresh hs st').andThen post) (n + 2) 1 m)
      (blockRes (t ++ hr.1, hr.2) fr) := by
  have h1 := hmid.set 1
  obtain ⟨m2, g1, g2, g3, g4, g5, g6, g7⟩ := hh
  have h2 : Mid st m2 (t ++ hr.1) := ⟨g2, Nat.lt_of_lt_of_le h1.fresh g3, g5.trans h1.next,
    fun d hd => (g4 d (Nat.lt_trans hd h1.fresh) (Nat.ne_of_lt hd)).trans (h1.others d hd),
    by rw [g1, h1.tr]; simp⟩
  have hpostRef : Ref st (post m2) (t ++ hr.1 ++ (postRes fr (m2.ctxs st.fresh).state (m2.ctxs st.fresh).exn).1,
      (postRes fr (m2.ctxs st.fresh).state (m2.ctxs st.fresh).exn).2) :=
    h2.finish hc (hpost _ h2.cur (by rw [h2.next]; exact hc) h2.fresh (by rw [h2.next, h2.others _ hc]; exact hu))
  obtain ⟨ht, hres⟩ := hr
  cases hres with
  | returned => exact g7.elim
  | done =>
    apply region_eq hc
    rw [g7.1]
    have : blockRes (t ++ ht, Res.done) fr = (t ++ ht ++ (postRes fr (m2.ctxs st.fresh).state (m2.ctxs st.fresh).exn).1,
      (postRes fr (m2.ctxs st.fresh).state (m2.ctxs st.fresh).exn).2) := by
      rw [g7.2]; unfold blockRes postRes
      rcases fr with ⟨ft, _ | _ | _⟩ <;> rfl
    rw [this]
    exact hpostRef
  | thrown e =>
    obtain ⟨ge, ⟨go, gs⟩ | go⟩ := g7
    · apply region_eq hc
      rw [go]
      have : blockRes (t ++ ht, Res.thrown e) fr = (t ++ ht ++ (postRes fr (m2.ctxs st.fresh).state (m2.ctxs st.fresh).exn).1,
        (postRes fr (m2.ctxs st.fresh).state (m2.ctxs st.fresh).exn).2) := by
        rw [gs, ge]; unfold blockRes postRes
        rcases fr with ⟨ft, _ | _ | _⟩ <;> rfl
      rw [this]
      exact hpostRef
    · unfold region
      dsimp only
      rw [go]
      show Ref st (if st.fresh = st.fresh then _ else _) _
      rw [if_pos rfl]
      have := region_tail (w := w) (n := n) h2 hc hu (hs := hs) (passes := passes) hpost (v := 3) (by decide)
      rw [ge] at this
      exact this

/-- The result of a body, then its handlers. -/
def handled (br : List Nat × Res) (hs : Handlers) : List Nat × Res :=
  match br with
  | (t, .thrown e) => (t ++ (evalH e hs).1, (evalH e hs).2)
  | r => r

/-- A block, given its parts. -/
theorem tryBlock_ref {w : World} {n : Nat} {st : St} (hc : st.cur < st.fresh)
    (hu : (st.ctxs st.cur).unstack = false) {body : Nat → St → Out} {hs : Handlers} {passes : Nat}
    {post : Nat → St → Out} {br fr : List Nat × Res} (hbr : br.2 ≠ .returned)
    (hbody : Ref (enterTry w st) (body st.fresh (enterTry w st)) br)
    (hpost : PostOk st.fresh (post st.fresh) fr)
    (hh : ∀ m e, m.cur = st.fresh → (m.ctxs st.fresh).state = 1 → (m.ctxs st.fresh).exn = e →
      (m.ctxs st.fresh).unstack = false → st.fresh < m.fresh →
      HRef st.fresh m (execH w passes st.fresh hs m) (evalH e hs)) :
    Ref st (tryBlock w (n + 2) body (fun id st' => (execH w passes id hs st').andThen (post id)) st)
      (blockRes (handled br hs) fr) := by
  unfold tryBlock
  obtain ⟨m, k1, k2, k3⟩ := hbody
  have hmid : Mid st m br.1 := by
    refine ⟨k1.cur, Nat.lt_of_lt_of_le (Nat.lt_succ_self _) k1.fresh, ?_, ?_, k2⟩
    · exact k1.next.trans (by simp [enterTry, St.setCtx])
    · intro d hd
      rw [k1.others d (Nat.lt_succ_of_lt hd) (Nat.ne_of_lt hd)]
      show (St.setCtx _ _ _).ctxs d = _
      rw [setCtx_ne _ _ (Nat.ne_of_lt hd)]
  have hcur : (enterTry w st).cur = st.fresh := rfl
  have hstate : ((enterTry w st).ctxs st.fresh).state = 0 := by simp [enterTry, St.setCtx, tryState]
  rw [hcur] at k1 k3
  obtain ⟨bt, br⟩ := br
  cases br with
  | returned => exact absurd rfl hbr
  | done =>
    simp only at k3
    simp only [k3.1]
    have := region_tail (w := w) (n := n + 1) (hs := hs) (passes := passes) hmid hc hu hpost (v := 0) (by decide)
    exact this
  | thrown e =>
    simp only at k3
    have ho := k3.2
    rw [if_neg (by omega), hstate] at ho
    simp only [ho, if_true]
    have := region_caught (n := n) (hs := hs) (passes := passes) hmid hc hu hpost (hr := evalH e hs) (hh _ e (by simpa using hmid.cur) (by simp)
      (by simpa using k3.1) (by simpa using k1.unstack) (by simpa using hmid.fresh))
    exact this

mutual
theorem exec_ref {w : World} (hw : w.calm) (n : Nat) : ∀ (s : Stmt) (h r : Bool) (self : Nat) (pend : Option Exn) (st : St),
    s.wf h r = true → st.cur < st.fresh → (st.ctxs st.cur).unstack = false →
    (h = true → self = st.cur ∧ pend = some (st.ctxs st.cur).exn) →
    Ref st (exec w (n + 2) self s st) (eval pend s)
  | .skip, _, _, _, _, st, _, _, hu, _ => by
    unfold exec eval; exact ⟨st, Fr.refl hu, by simp, rfl, rfl⟩
  | .mark k, _, _, _, _, st, _, _, hu, _ => by
    unfold exec eval
    exact ⟨st.log (.mark k), ⟨Nat.le_refl _, fun _ _ _ => rfl, rfl, rfl, hu, rfl⟩, by simp [St.log, marks], rfl, rfl⟩
  | .throw e, _, _, _, _, st, _, _, hu, _ => by
    unfold exec eval; exact throwE_ref hw e hu
  | .rethrow, h, _, self, pend, st, hwf, _, hu, hp => by
    unfold exec eval
    simp only [Stmt.wf] at hwf
    obtain ⟨h1, h2⟩ := hp hwf
    subst h1 h2
    exact throwE_ref hw _ hu
  | .ret, _, _, _, _, st, _, _, hu, _ => by
    unfold exec eval; exact ⟨st, Fr.refl hu, by simp, rfl, rfl⟩
  | .assign v x, _, _, _, _, st, _, _, hu, _ => by
    unfold exec eval
    exact ⟨{ st with vars := fun u => if u = v then x else st.vars u },
      ⟨Nat.le_refl _, fun _ _ _ => rfl, rfl, rfl, hu, rfl⟩, by simp, rfl, rfl⟩
  | .protect p v f, _, _, _, _, st, _, _, hu, _ => by
    unfold exec eval
    refine ⟨St.setCtx { st with nodes := fun q => if q = p then
      { linked := true, func := f, var := v, next := (st.ctxs st.cur).stack } else st.nodes q } st.cur
      { st.ctxs st.cur with stack := p :: (st.ctxs st.cur).stack },
      ⟨Nat.le_refl _, fun d _ hne => ?_, ?_, ?_, ?_, rfl⟩, ?_, rfl, ?_⟩
    · exact setCtx_ne _ _ hne
    · simp
    · simp
    · simpa using hu
    · simp
    · simp
  | .unprotect p, _, _, _, _, st, _, _, hu, _ => by
    unfold exec eval
    refine ⟨st.setCtx st.cur { st.ctxs st.cur with stack := (st.nodes p).next },
      ⟨Nat.le_refl _, fun d _ hne => ?_, ?_, ?_, ?_, rfl⟩, ?_, rfl, ?_⟩
    · exact setCtx_ne _ _ hne
    · simp
    · simp
    · simpa using hu
    · simp
    · simp
  | .seq a b, h, r, self, pend, st, hwf, hc, hu, hp => by
    simp only [Stmt.wf, Bool.and_eq_true] at hwf
    have ha := exec_ref hw n a h r self pend st hwf.1 hc hu hp
    unfold exec eval
    obtain ⟨st1, k1, k2, k3⟩ := ha
    rcases he : eval pend a with ⟨t, _ | e | _⟩
    · rw [he] at k2 k3
      simp only at k3 ⊢
      rw [k3.1]
      have hb := exec_ref hw n b h r self pend st1 hwf.2 (by rw [k1.cur]; exact Nat.lt_of_lt_of_le hc k1.fresh)
        (by rw [k1.cur]; exact k1.unstack) (fun hh => by
          obtain ⟨q1, q2⟩ := hp hh
          rw [k1.cur, k3.2]
          exact ⟨q1, q2⟩)
      exact Ref.bind k1 k2 k3.2 hb
    · rw [he] at k2 k3
      refine ⟨st1, k1, k2, k3.1, ?_⟩
      have := k3.2
      rw [this]
      split <;> rfl
    · rw [he] at k2 k3
      refine ⟨st1, k1, k2, ?_, k3.2⟩
      have := k3.1
      rw [this]
      rfl
  | .call s, _, _, _, pend, st, hwf, hc, hu, _ => by
    simp only [Stmt.wf] at hwf
    obtain ⟨st1, k1, k2, k3⟩ := exec_ref hw n s false true 0 none st hwf hc hu (by simp)
    unfold exec eval
    rcases he : eval none s with ⟨t, _ | e | _⟩
    · rw [he] at k2 k3
      simp only at k3
      refine ⟨st1, k1, k2, ?_, k3.2⟩
      rw [k3.1]
    · rw [he] at k2 k3
      refine ⟨st1, k1, k2, k3.1, ?_⟩
      have := k3.2
      rw [this]
      by_cases h0 : st.cur = 0 <;> simp [h0]
    · rw [he] at k2 k3
      simp only at k3
      refine ⟨st1, k1, k2, ?_, k3.2⟩
      rw [k3.1]
  | .tryCatch body hs, _, _, _, pend, st, hwf, hc, hu, _ => by
    simp only [Stmt.wf, Bool.and_eq_true] at hwf
    have := tryBlock_ref (w := w) (n := n) hc hu (body := fun id => exec w (n + 2) id body) (hs := hs) (passes := n + 2)
      (post := fun id => endTry w id) (fr := ([], .done))
      (eval_ne_returned body false none hwf.1)
      (exec_ref hw n body false false st.fresh none (enterTry w st) hwf.1 (Nat.lt_succ_self _)
        (by simp [enterTry, St.setCtx]) (by simp))
      (by
        intro m h1 h2 h3 h4
        rw [endTry_enter h1 (Nat.ne_of_lt h2)]
        exact endTry_ref hw (st := { m with cur := (m.ctxs st.fresh).next }) (Nat.ne_of_lt h2) h4)
      (fun m e h1 h2 h3 h4 h5 => execH_ref hw n hs st.fresh e m hwf.2 h1 h2 h3 h4 h5 (Nat.zero_lt_of_lt hc))
    unfold exec eval
    generalize eval none body = br at this ⊢
    obtain ⟨t, _ | e | _⟩ := br <;> simpa [blockRes, handled] using this
  | .tryFinally body hs fin, _, _, _, pend, st, hwf, hc, hu, _ => by
    simp only [Stmt.wf, Bool.and_eq_true] at hwf
    have := tryBlock_ref (w := w) (n := n) hc hu (body := fun id => exec w (n + 2) id body) (hs := hs) (passes := n + 2)
      (post := fun id st' => (exec w (n + 2) id fin { st' with cur := (st'.ctxs id).next }).andThen (endTry w id))
      (fr := eval none fin)
      (eval_ne_returned body false none hwf.1.1)
      (exec_ref hw n body false false st.fresh none (enterTry w st) hwf.1.1 (Nat.lt_succ_self _)
        (by simp [enterTry, St.setCtx]) (by simp))
      (by
        intro m h1 h2 h3 h4
        refine finally_ref hw (Nat.ne_of_lt h2) h3 (eval_ne_returned fin false none hwf.2) ?_
        exact exec_ref hw n fin false false st.fresh none _ hwf.2 (Nat.lt_trans h2 h3) h4 (by simp))
      (fun m e h1 h2 h3 h4 h5 => execH_ref hw n hs st.fresh e m hwf.1.2 h1 h2 h3 h4 h5 (Nat.zero_lt_of_lt hc))
    unfold exec eval
    generalize eval none body = br at this ⊢
    obtain ⟨t, _ | e | _⟩ := br <;> exact this
theorem execH_ref {w : World} (hw : w.calm) (n : Nat) : ∀ (hs : Handlers) (id : Nat) (e : Exn) (st : St),
    hs.wf = true → st.cur = id → (st.ctxs id).state = 1 → (st.ctxs id).exn = e →
    (st.ctxs id).unstack = false → id < st.fresh → 0 < id →
    HRef id st (execH w (n + 2) id hs st) (evalH e hs)
  | .nil, id, e, st, _, h1, h2, h3, h4, h5, h6 => by
    unfold execH evalH
    exact ⟨st, by simp, h1, Nat.le_refl _, fun _ _ _ => rfl, rfl, h4, h3, .inl ⟨rfl, h2⟩⟩
  | .cons p s rest, id, e, st, hwf, h1, h2, h3, h4, h5, h6 => by
    simp only [Handlers.wf, Bool.and_eq_true] at hwf
    unfold execH evalH
    dsimp only
    by_cases hm : p = .any ∨ p = .name e.name
    · rw [if_pos hm, if_pos (by rw [h3]; exact ⟨h2, hm⟩)]
      obtain ⟨st1, k1, k2, k3⟩ := exec_ref hw n s true false id (some e)
        (st.setCtx id { st.ctxs id with state := catchState }) hwf.1 (by simp only [setCtx_cur, setCtx_fresh, h1]; exact h5)
        (by simp only [setCtx_cur, h1, setCtx_same]; exact h4)
        (fun _ => by simp only [setCtx_cur, h1, setCtx_same, h3, and_self])
      simp only [setCtx_cur, h1] at k1 k3
      have hne := eval_ne_returned s true (some e) hwf.1
      have hst : (st1.ctxs id).state = 2 := by rw [k1.state]; simp [catchState]
      rcases he : eval (some e) s with ⟨t, _ | e' | _⟩
      · rw [he] at k2 k3
        simp only at k3
        refine ⟨st1, k2, k1.cur, k1.fresh, ?_, ?_, k1.unstack, ?_, hst⟩
        · intro d hd hdn
          rw [k1.others d hd hdn, setCtx_ne _ _ hdn]
        · rw [k1.next]; simp
        · rw [k3.1]
          exact execH_skip rest st1 (by rw [hst]; decide)
      · rw [he] at k2 k3
        simp only at k3
        refine ⟨st1, k2, k1.cur, k1.fresh, ?_, ?_, k1.unstack, k3.1, .inr ?_⟩
        · intro d hd hdn
          rw [k1.others d hd hdn, setCtx_ne _ _ hdn]
        · rw [k1.next]; simp
        · rw [k3.2, if_neg (Nat.ne_of_gt h6)]
          simp only [setCtx_same]
          rfl
      · rw [he] at hne; exact absurd rfl hne
    · rw [if_neg hm, if_neg (by rw [h3]; rintro ⟨-, h⟩; exact hm h)]
      exact execH_ref hw n rest id e st hwf.2 h1 h2 h3 h4 h5 h6
end

theorem evalH_ofList (e : Exn) (pre : List (Pat × Stmt)) (p : Pat) (s : Stmt) (post : List (Pat × Stmt))
    (hpre : ∀ q ∈ pre, ¬ q.1.accepts e) (hp : p.accepts e) :
    evalH e (.ofList (pre ++ (p, s) :: post)) = eval (some e) s := by
  induction pre with
  | nil =>
    show evalH e (.cons p s _) = _
    unfold evalH
    exact if_pos hp
  | cons q pre ih =>
    show evalH e (.cons q.1 q.2 _) = _
    unfold evalH
    refine (if_neg (hpre q List.mem_cons_self)).trans ?_
    exact ih fun q' h => hpre q' (List.mem_cons_of_mem _ h)

theorem evalH_none (e : Exn) (hs : List (Pat × Stmt)) (hn : ∀ q ∈ hs, ¬ q.1.accepts e) :
    evalH e (.ofList hs) = ([], .thrown e) := by
  induction hs with
  | nil => rfl
  | cons q pre ih =>
    show evalH e (.cons q.1 q.2 _) = _
    unfold evalH
    refine (if_neg (hn q List.mem_cons_self)).trans ?_
    exact ih fun q' h => hn q' (List.mem_cons_of_mem _ h)

theorem Ref.ends {st : St} {o : Out} {r : List Nat × Res} (h : Ref st o r) :
    marks o.st.trace = marks st.trace ++ r.1 ∧ o.st.cur = st.cur ∧ Ends st o r.2 := by
  obtain ⟨st', k1, k2, k3⟩ := h
  obtain ⟨t, r⟩ := r
  cases r with
  | done => obtain ⟨rfl, -⟩ := k3; exact ⟨k2, k1.cur, rfl⟩
  | returned => obtain ⟨rfl, -⟩ := k3; exact ⟨k2, k1.cur, rfl⟩
  | thrown e =>
    have ho := k3.2
    have hst : o.st = st' := by rw [ho]; split <;> rfl
    exact ⟨by rw [hst]; exact k2, by rw [hst]; exact k1.cur, by rw [hst]; exact k3.1, by rw [hst]; exact ho⟩

theorem Ref.others {st : St} {o : Out} {r : List Nat × Res} (h : Ref st o r) :
    ∀ d, d < st.fresh → d ≠ st.cur → o.st.ctxs d = st.ctxs d := by
  obtain ⟨st', k1, k2, k3⟩ := h
  obtain ⟨t, r⟩ := r
  cases r with
  | done => obtain ⟨rfl, -⟩ := k3; exact k1.others
  | returned => obtain ⟨rfl, -⟩ := k3; exact k1.others
  | thrown e =>
    have hst : o.st = st' := by rw [k3.2]; split <;> rfl
    rw [hst]; exact k1.others

mutual
theorem eval_acts : ∀ (s : Stmt) (pend : Option Exn), ∀ n ∈ (eval pend s).1, n ∈ s.acts
  | .skip, _, n, h => by simp [eval] at h
  | .mark _, _, n, h => by simpa [eval, Stmt.acts] using h
  | .throw _, _, n, h => by simp [eval] at h
  | .rethrow, _, n, h => by simp [eval] at h
  | .ret, _, n, h => by simp [eval] at h
  | .assign _ _, _, n, h => by simp [eval] at h
  | .protect _ _ _, _, n, h => by simp [eval] at h
  | .unprotect _, _, n, h => by simp [eval] at h
  | .seq a b, pend, n, h => by
    have ha := eval_acts a pend n
    have hb := eval_acts b pend n
    unfold eval at h
    unfold Stmt.acts
    rw [List.mem_append]
    generalize eval pend a = ra at *
    obtain ⟨t, _ | e | _⟩ := ra
    · rcases List.mem_append.1 h with h | h
      · exact .inl (ha h)
      · exact .inr (hb h)
    · exact .inl (ha h)
    · exact .inl (ha h)
  | .call s, pend, n, h => by
    have hs := eval_acts s none n
    unfold eval at h
    unfold Stmt.acts
    generalize eval none s = r at *
    obtain ⟨t, _ | e | _⟩ := r <;> exact hs h
  | .tryCatch body hs, _, n, h => by
    have hb := eval_acts body none n
    have hh := fun e => evalH_acts hs e n
    unfold eval at h
    unfold Stmt.acts
    rw [List.mem_append]
    generalize eval none body = r at *
    obtain ⟨t, _ | e | _⟩ := r
    · exact .inl (hb h)
    · rcases List.mem_append.1 h with h | h
      · exact .inl (hb h)
      · exact .inr (hh e h)
    · exact .inl (hb h)
  | .tryFinally body hs fin, _, n, h => by
    have hb := eval_acts body none n
    have hh := fun e => evalH_acts hs e n
    have hf := eval_acts fin none n
    unfold eval at h
    unfold Stmt.acts
    rw [List.mem_append, List.mem_append]
    generalize eval none body = r at *
    rcases List.mem_append.1 h with h | h
    · obtain ⟨t, _ | e | _⟩ := r
      · exact .inl (.inl (hb h))
      · rcases List.mem_append.1 h with h | h
        · exact .inl (.inl (hb h))
        · exact .inl (.inr (hh e h))
      · exact .inl (.inl (hb h))
    · exact .inr (hf h)
theorem evalH_acts : ∀ (hs : Handlers) (e : Exn), ∀ n ∈ (evalH e hs).1, n ∈ hs.acts
  | .nil, _, n, h => by simp [evalH] at h
  | .cons p s rest, e, n, h => by
    have h1 := eval_acts s (some e) n
    have h2 := evalH_acts rest e n
    unfold evalH at h
    unfold Handlers.acts
    rw [List.mem_append]
    split at h
    · exact .inl (h1 h)
    · exact .inr (h2 h)
end

/-! ### Protected pointers -/

/-- The chain of nodes is as the list says. -/
def Chain (nodes : Nat → Node) : List (Nat × Nat × Nat) → Prop
  | [] => True
  | (p, v, f) :: rest => nodes p = ⟨true, f, v, rest.map Prod.fst⟩ ∧ p ∉ rest.map Prod.fst ∧ Chain nodes rest

theorem Chain.upd {nodes : Nat → Node} {p : Nat} {x : Node} : ∀ {l : List (Nat × Nat × Nat)},
    Chain nodes l → p ∉ l.map Prod.fst → Chain (fun q => if q = p then x else nodes q) l
  | [], _, _ => trivial
  | (q, v, f) :: rest, h, hp => by
    simp only [List.map_cons, List.mem_cons, not_or] at hp
    exact ⟨(if_neg (Ne.symm hp.1)).trans h.1, h.2.1, Chain.upd h.2.2 hp.2⟩

/-- The unwinding loop over a chain of non-NULL, adjacently distinct values. -/
theorem unwindLoop_chain {w : World} (hw : w.calm) : ∀ (l : List (Nat × Nat × Nat)) (temp : Nat) (st : St),
    Chain st.nodes l → (∀ q ∈ l, st.vars q.2.1 ≠ 0) →
    (∀ q, l.head? = some q → temp ≠ st.vars q.2.1) →
    (∀ a b q q', l = a ++ q :: q' :: b → st.vars q.2.1 ≠ st.vars q'.2.1) →
    ∃ st', unwindLoop w (l.map Prod.fst) temp st = (some st', st') ∧ st'.ctxs = st.ctxs ∧
      st'.cur = st.cur ∧ st'.fresh = st.fresh ∧ st'.vars = st.vars ∧
      st'.trace = st.trace ++ l.map (fun q => .released q.2.2 (st.vars q.2.1)) ∧
      ∀ q, q ∉ l.map Prod.fst → st'.nodes q = st.nodes q
  | [], temp, st, _, _, _, _ => ⟨st, rfl, rfl, rfl, rfl, rfl, by simp, fun _ _ => rfl⟩
  | (p, v, f) :: rest, temp, st, hc, hnz, hh, had => by
    obtain ⟨h1, h2, h3⟩ := hc
    have hv : st.vars v ≠ 0 := hnz (p, v, f) List.mem_cons_self
    have ht : temp ≠ st.vars v := hh (p, v, f) rfl
    show ∃ st', unwindLoop w (p :: rest.map Prod.fst) temp st = _ ∧ _
    unfold unwindLoop
    dsimp only
    rw [h1]
    dsimp only
    rw [if_neg (by simp), if_neg ht, if_pos hv, if_neg (by rw [hw.1]; simp)]
    have ih := unwindLoop_chain hw rest (st.vars v)
      (({ st with nodes := fun q => if q = p then ⟨false, f, v, rest.map Prod.fst⟩ else st.nodes q } : St).log (.released f (st.vars v)))
      (h3.upd h2) (fun q hq => hnz q (List.mem_cons_of_mem _ hq))
      (fun q hq => by
        cases rest with
        | nil => cases hq
        | cons q' rest => cases hq; exact had [] rest _ _ rfl)
      (fun a b q q' hl => had ((p, v, f) :: a) b q q' (by rw [hl]; rfl))
    obtain ⟨st', i1, i2, i3, i4, i5, i6, i7⟩ := ih
    refine ⟨st', i1, i2, i3, i4, i5, ?_, ?_⟩
    · rw [i6]; simp [St.log]
    · intro q hq
      simp only [List.map_cons, List.mem_cons, not_or] at hq
      rw [i7 q hq.2]
      show (if q = p then _ else _) = _
      rw [if_neg hq.1]

/-- A history of protections, newest unprotected first, keeps the chain in step. -/
theorem progOf_chain {w : World} {n self : Nat} (k : Stmt) : ∀ (os : List POp) (a : Prot) (st : St),
    Legal POp.lifo a os → st.vars = a.vars → (st.ctxs st.cur).stack = a.live.map Prod.fst →
    Chain st.nodes a.live →
    ∃ st', exec w n self (progOf os k) st = exec w n self k st' ∧ st'.vars = (a.run os).vars ∧
      (st'.ctxs st.cur).stack = (a.run os).live.map Prod.fst ∧ Chain st'.nodes (a.run os).live ∧
      st'.cur = st.cur ∧ st'.fresh = st.fresh ∧ st'.trace = st.trace ∧
      (∀ d, d ≠ st.cur → st'.ctxs d = st.ctxs d) ∧
      st'.ctxs st.cur = { st.ctxs st.cur with stack := (a.run os).live.map Prod.fst } ∧
      (∀ q, (∀ v f, POp.protect q v f ∉ os) → st'.nodes q = st.nodes q)
  | [], a, st, _, hv, hs, hc => ⟨st, rfl, hv, hs, hc, rfl, rfl, rfl, fun _ _ => rfl, by
      show _ = ({ st.ctxs st.cur with stack := a.live.map Prod.fst } : Ctx)
      rw [← hs], fun _ _ => rfl⟩
  | .assign v x :: os, a, st, hl, hv, hs, hc => by
    obtain ⟨st', i1, i2, i3, i4, i5, i6, i7, i8, i9, i10⟩ := progOf_chain k os (POp.step a (.assign v x))
      { st with vars := fun u => if u = v then x else st.vars u } hl.2 (by simp only [POp.step, hv]) hs hc
    refine ⟨st', ?_, i2, i3, i4, i5, i6, i7, i8, i9, fun q hq => i10 q fun v f h => hq v f (List.mem_cons_of_mem _ h)⟩
    rw [← i1]
    show exec w n self (.seq (.assign v x) (progOf os k)) st = _
    rw [exec, exec]; rfl
  | .protect p v f :: os, a, st, hl, hv, hs, hc => by
    have hp : p ∉ a.live.map Prod.fst := hl.1
    obtain ⟨st', i1, i2, i3, i4, i5, i6, i7, i8, i9, i10⟩ := progOf_chain k os (POp.step a (.protect p v f))
      (St.setCtx { st with nodes := fun q => if q = p then
          { linked := true, func := f, var := v, next := (st.ctxs st.cur).stack } else st.nodes q } st.cur
        { st.ctxs st.cur with stack := p :: (st.ctxs st.cur).stack })
      hl.2 hv (by simp [POp.step, hs]) (by
        refine ⟨?_, hp, hc.upd hp⟩
        show (if p = p then _ else _) = _
        rw [if_pos rfl, hs])
    refine ⟨st', ?_, i2, i3, i4, i5, i6, i7, ?_, ?_, ?_⟩
    · rw [← i1]
      show exec w n self (.seq (.protect p v f) (progOf os k)) st = _
      rw [exec, exec]; rfl
    · intro d hd
      rw [i8 d hd, setCtx_ne _ _ hd]
    · rw [setCtx_cur] at i9
      rw [i9]; simp only [setCtx_same]; rfl
    · intro q hq
      rw [i10 q fun v f h => hq v f (List.mem_cons_of_mem _ h)]
      show (if q = p then _ else _) = _
      rw [if_neg (by rintro rfl; exact hq v f List.mem_cons_self)]
  | .unprotect p :: os, a, st, hl, hv, hs, hc => by
    have hp : (a.live.map Prod.fst).head? = some p := hl.1
    obtain ⟨a1, av⟩ := a
    cases a1 with
    | nil => cases hp
    | cons q rest =>
      obtain ⟨q, v, f⟩ := q
      cases hp
      obtain ⟨c1, c2, c3⟩ := hc
      have hstep : POp.step ⟨(q, v, f) :: rest, av⟩ (.unprotect q) = ⟨rest, av⟩ := by
        simp only [POp.step, Prot.mk.injEq, and_true]
        rw [List.filter_cons_of_neg (by simp)]
        apply List.filter_eq_self.2
        intro b hb
        simp only [ne_eq, decide_eq_true_eq]
        rintro rfl
        exact c2 (List.mem_map_of_mem hb)
      have hl2 : Legal POp.lifo ⟨rest, av⟩ os := by rw [← hstep]; exact hl.2
      obtain ⟨st', i1, i2, i3, i4, i5, i6, i7, i8, i9, i10⟩ := progOf_chain k os ⟨rest, av⟩
        (st.setCtx st.cur { st.ctxs st.cur with stack := (st.nodes q).next }) hl2 hv (by simp [c1]) c3
      have hrun : Prot.run ⟨(q, v, f) :: rest, av⟩ (.unprotect q :: os) = Prot.run ⟨rest, av⟩ os := by
        show Prot.run (POp.step _ _) os = _
        rw [hstep]
      rw [hrun]
      refine ⟨st', ?_, i2, i3, i4, i5, i6, i7, ?_, ?_, ?_⟩
      · rw [← i1]
        show exec w n self (.seq (.unprotect q) (progOf os k)) st = _
        rw [exec, exec]; rfl
      · intro d hd
        rw [i8 d hd, setCtx_ne _ _ hd]
      · rw [setCtx_cur] at i9
        rw [i9]; simp only [setCtx_same]
      · intro r hr
        exact i10 r fun v f h => hr v f (List.mem_cons_of_mem _ h)

/-- A throw with a well-formed chain. -/
theorem throwE_chain {w : World} (hw : w.calm) (e : Exn) (st : St) (l : List (Nat × Nat × Nat))
    (hu : (st.ctxs st.cur).unstack = false) (hr : ¬ ((st.ctxs st.cur).isRaii = true ∧ w.scopeProtected = true))
    (hs : (st.ctxs st.cur).stack = l.map Prod.fst) (hc : Chain st.nodes l)
    (hnz : ∀ q ∈ l, st.vars q.2.1 ≠ 0)
    (had : ∀ a b q q', l = a ++ q :: q' :: b → st.vars q.2.1 ≠ st.vars q'.2.1) :
    (throwE w e st).st.trace = st.trace ++ l.map (fun q => .released q.2.2 (st.vars q.2.1)) ∧
    ((throwE w e st).st.ctxs st.cur).stack = [] ∧
    (∀ d, d ≠ st.cur → (throwE w e st).st.ctxs d = st.ctxs d) ∧
    (∀ q, q ∉ l.map Prod.fst → (throwE w e st).st.nodes q = st.nodes q) := by
  unfold throwE
  dsimp only
  rw [if_neg (by rw [hu]; simp)]
  generalize hx : (if ({ st.ctxs st.cur with exn := e, isUnwind := false } : Ctx).isRaii = true then
      ({ st.ctxs st.cur with exn := e, isUnwind := w.scopeProtected } : Ctx)
    else { st.ctxs st.cur with exn := e, isUnwind := false }) = x
  have hx1 : x.stack = l.map Prod.fst := by rw [← hx]; split <;> exact hs
  have hx2 : (x.isUnwind && x.isRaii) = false := by
    rw [← hx]
    split
    · rename_i hi
      cases hsp : w.scopeProtected
      · rfl
      · exact absurd ⟨hi, hsp⟩ hr
    · rfl
  obtain ⟨st', i1, i2, i3, i4, i5, i6, i7⟩ := unwindLoop_chain hw l 0
    (St.setCtx (st.setCtx st.cur x) st.cur { x with unstack := true }) hc hnz
    (fun q hq => by
      have : q ∈ l := by
        cases l with
        | nil => cases hq
        | cons q' l => cases hq; exact List.mem_cons_self
      exact (hnz q this).symm) had
  have hun : unwindStack w st.cur (st.setCtx st.cur x) =
      (some (st'.setCtx st.cur { st'.ctxs st.cur with unstack := false, stack := [] }),
        st'.setCtx st.cur { st'.ctxs st.cur with unstack := false, stack := [] }) := by
    unfold unwindStack
    dsimp only
    rw [setCtx_same]
    simp only [hx2, Bool.false_eq_true, if_false]
    rw [← hx1] at i1
    rw [i1]
  rw [hun]
  have key : ∀ o, o = (if st.cur = 0 ∨ w.emulated = true then Out.dead e (st'.setCtx st.cur { st'.ctxs st.cur with unstack := false, stack := [] })
      else Out.jump st.cur (((st'.setCtx st.cur { st'.ctxs st.cur with unstack := false, stack := [] }).ctxs st.cur).state ||| throwState)
        (st'.setCtx st.cur { st'.ctxs st.cur with unstack := false, stack := [] })) →
      o.st = st'.setCtx st.cur { st'.ctxs st.cur with unstack := false, stack := [] } := by
    rintro o rfl
    split <;> rfl
  rw [key _ rfl]
  refine ⟨i6, by simp, ?_, i7⟩
  intro d hd
  rw [setCtx_ne _ _ hd, i2, setCtx_ne _ _ hd, setCtx_ne _ _ hd]

end Verif.Ex
