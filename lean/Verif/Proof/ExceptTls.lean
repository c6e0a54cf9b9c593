import Verif.Spec.ExceptTls
import Verif.Proof.Except
namespace Verif.Ex

theorem unwindLoop_marks (w : World) : ∀ (ps : List Nat) (temp : Nat) (st : St), marks (unwindLoop w ps temp st).2.trace = marks st.trace ∧
    ∀ st', (unwindLoop w ps temp st).1 = some st' → st' = (unwindLoop w ps temp st).2 := by
  intro ps
  induction ps with
  | nil => intro temp st; exact ⟨rfl, fun st' h => by cases h; rfl⟩
  | cons p ps ih =>
    intro temp st
    unfold unwindLoop
    dsimp only
    split
    · exact ⟨rfl, fun st' h => by cases h; rfl⟩
    split
    · exact ⟨rfl, fun st' h => by cases h; rfl⟩
    split
    · split
      · exact ⟨by simp [St.log, marks], nofun⟩
      · refine ⟨?_, (ih _ _).2⟩
        rw [(ih _ _).1]; simp [St.log, marks]
    · exact ih _ st

theorem unwindStack_marks (w : World) (c : Nat) (st : St) : marks (unwindStack w c st).2.trace = marks st.trace ∧
    ∀ st', (unwindStack w c st).1 = some st' → st' = (unwindStack w c st).2 := by
  unfold unwindStack
  dsimp only
  by_cases h : ((st.ctxs c).isUnwind && (st.ctxs c).isRaii) = true
  · rw [if_pos h]
    exact ⟨by simp [St.log, marks], fun st' h => by cases h; rfl⟩
  · rw [if_neg h]
    have hl := unwindLoop_marks w (st.ctxs c).stack 0 (st.setCtx c { st.ctxs c with unstack := true })
    generalize unwindLoop w (st.ctxs c).stack 0 (st.setCtx c { st.ctxs c with unstack := true }) = r at hl
    obtain ⟨o, s⟩ := r
    cases o with
    | none => exact ⟨hl.1, nofun⟩
    | some s1 =>
      have : s1 = s := hl.2 s1 rfl
      subst this
      exact ⟨hl.1, fun st' h => by cases h; rfl⟩

/-- Every throw is the end. -/
theorem throwE_ends {w : World} (hw : w.emulated = true) (e : Exn) (st : St) (hu : (st.ctxs st.cur).unstack = false) :
    throwE w e st = .dead e (throwE w e st).st ∧ marks (throwE w e st).st.trace = marks st.trace := by
  unfold throwE
  dsimp only
  rw [if_neg (by rw [hu]; simp)]
  generalize (if ({ st.ctxs st.cur with exn := e, isUnwind := false } : Ctx).isRaii = true then
      ({ st.ctxs st.cur with exn := e, isUnwind := w.scopeProtected } : Ctx)
    else { st.ctxs st.cur with exn := e, isUnwind := false }) = x
  have hl := unwindStack_marks w st.cur (st.setCtx st.cur x)
  generalize unwindStack w st.cur (st.setCtx st.cur x) = r at hl
  obtain ⟨o, s⟩ := r
  cases o with
  | none => exact ⟨rfl, hl.1⟩
  | some s1 =>
    have : s1 = s := hl.2 s1 rfl
    subst this
    dsimp only
    rw [if_pos (Or.inr hw)]
    exact ⟨rfl, hl.1⟩

/-- How running code relates to what it does up to the first throw. -/
def Up (st : St) (o : Out) (r : List Nat × Res) : Prop :=
  ∃ st', marks st'.trace = marks st.trace ++ r.1 ∧
    match r.2 with
    | .done => o = .ok st' ∧ Fr st.cur st st'
    | .returned => o = .ret st' ∧ Fr st.cur st st'
    | .thrown e => o = .dead e st'

theorem Up.bind {st : St} {o : Out} {r r' : List Nat × Res} {k : St → Out} (h : Up st o r)
    (hk : ∀ st', o = .ok st' → Fr st.cur st st' → Up st' (k st') r') :
    Up st (o.andThen k) (after r r') := by
  obtain ⟨t, x⟩ := r
  obtain ⟨st', h1, h2⟩ := h
  cases x with
  | done =>
    obtain ⟨rfl, f⟩ := h2
    obtain ⟨st'', g1, g2⟩ := hk st' rfl f
    refine ⟨st'', by rw [g1, h1, List.append_assoc]; rfl, ?_⟩
    obtain ⟨t', x'⟩ := r'
    have hc := f.cur
    cases x' with
    | done => exact ⟨g2.1, f.trans (hc ▸ g2.2)⟩
    | returned => exact ⟨g2.1, f.trans (hc ▸ g2.2)⟩
    | thrown e => exact g2
  | returned => obtain ⟨rfl, f⟩ := h2; exact ⟨st', h1, rfl, f⟩
  | thrown e => cases h2; exact ⟨st', h1, rfl⟩

theorem up_ne_returned : ∀ (s : Stmt) (h : Bool), s.wf h false = true → (upTo s).2 ≠ .returned := by
  intro s
  induction s using Stmt.rec (motive_2 := fun _ => True) with
  | seq a b ia ib =>
    intro h hs
    simp only [Stmt.wf, Bool.and_eq_true] at hs
    have := ia h hs.1; have := ib h hs.2
    rw [upTo]
    rcases ha : upTo a with ⟨t, _ | _ | _⟩ <;> simp_all [after]
  | call s i =>
    intro h hs
    rw [upTo]
    rcases ha : upTo s with ⟨t, _ | _ | _⟩ <;> simp
  | tryCatch b hs i _ =>
    intro h hw
    simp only [Stmt.wf, Bool.and_eq_true] at hw
    rw [upTo]; exact i false hw.1
  | tryFinally b hs f ib _ jf =>
    intro h hw
    simp only [Stmt.wf, Bool.and_eq_true] at hw
    have := ib false hw.1.1; have := jf false hw.2
    rw [upTo]
    rcases ha : upTo b with ⟨t, _ | _ | _⟩ <;> simp_all [after]
  | ret => intro h hs; cases hs
  | _ => first | trivial | (intros; simp [upTo])

/-- The state once a block is over. -/
def overSt (st2 : St) (id c : Nat) : St := { st2.setCtx id { st2.ctxs id with state := 0 } with cur := c }

theorem enterTry_fr {w : World} {st st2 : St} (hc : st.cur < st.fresh) (hu : (st.ctxs st.cur).unstack = false)
    (f : Fr st.fresh (enterTry w st) st2) : Fr st.cur st (overSt st2 st.fresh st.cur) := by
  have hne : ∀ d, d < st.fresh → (overSt st2 st.fresh st.cur).ctxs d = st.ctxs d := by
    intro d hd
    have h1 : d ≠ st.fresh := Nat.ne_of_lt hd
    have h2 := f.others d (Nat.lt_succ_of_lt hd) h1
    show (st2.setCtx st.fresh _).ctxs d = _
    rw [setCtx_ne _ _ h1, h2]
    exact setCtx_ne _ _ h1
  exact ⟨Nat.le_trans (Nat.le_succ _) f.fresh, fun d hd _ => hne d hd, by rw [hne _ hc], by rw [hne _ hc], by rw [hne _ hc]; exact hu, rfl⟩

theorem after_nil (r : List Nat × Res) : after r ([], .done) = r := by
  obtain ⟨t, _ | _ | _⟩ := r <;> simp [after]

theorem block_up {w : World} {n : Nat} {st : St} (hc : st.cur < st.fresh) (hu : (st.ctxs st.cur).unstack = false)
    (body rest : Nat → St → Out) {rb r' : List Nat × Res} (hr : rb.2 ≠ .returned) (hb : Up (enterTry w st) (body st.fresh (enterTry w st)) rb)
    (hrest : ∀ st2, Fr st.fresh (enterTry w st) st2 →
      Up (overSt st2 st.fresh st.cur) (rest st.fresh (st2.setCtx st.fresh { st2.ctxs st.fresh with state := 0 })) r') :
    Up st (tryBlock w (n + 1) body rest st) (after rb r') := by
  obtain ⟨t, x⟩ := rb
  obtain ⟨st2, h1, h2⟩ := hb
  have h1 : marks st2.trace = marks st.trace ++ t := h1
  unfold tryBlock
  dsimp only
  cases x with
  | returned => exact absurd rfl hr
  | thrown e => rw [show body st.fresh (enterTry w st) = .dead e st2 from h2]; exact ⟨st2, h1, rfl⟩
  | done =>
    rw [show body st.fresh (enterTry w st) = .ok st2 from h2.1]
    have f2 : Fr st.fresh (enterTry w st) st2 := h2.2
    have g := enterTry_fr hc hu f2
    obtain ⟨st3, k1, k2⟩ := hrest st2 f2
    have k1 : marks st3.trace = marks st2.trace ++ r'.1 := k1
    dsimp only
    unfold region
    obtain ⟨t', x'⟩ := r'
    show Up st (match rest st.fresh (st2.setCtx st.fresh { st2.ctxs st.fresh with state := 0 }) with
      | .jump j v' st' => if j = st.fresh then region st.fresh (rest st.fresh) n v' st' else .jump j v' st'
      | o => o) _
    refine ⟨st3, by rw [k1, h1, List.append_assoc]; rfl, ?_⟩
    cases x' with
    | done => dsimp only at k2; rw [k2.1]; exact ⟨rfl, g.trans k2.2⟩
    | returned => dsimp only at k2; rw [k2.1]; exact ⟨rfl, g.trans k2.2⟩
    | thrown e => dsimp only at k2; rw [k2]; rfl

theorem endTry_own {w : World} {id : Nat} {st : St} (hc : st.cur = id) (h0 : (st.ctxs id).state = 0) :
    endTry w id st = .ok { st with cur := (st.ctxs id).next } := by
  unfold endTry
  rw [if_pos hc]
  exact if_neg (by show ¬ ((st.ctxs id).state &&& 1 ≠ 0); rw [h0]; decide)

theorem endTry_other {w : World} {id : Nat} {st : St} (hc : st.cur ≠ id) (h0 : (st.ctxs id).state = 0) : endTry w id st = .ok st := by
  unfold endTry
  rw [if_neg hc]
  exact if_neg (by show ¬ ((st.ctxs id).state &&& 1 ≠ 0); rw [h0]; decide)

theorem exec_up {w : World} (hw : w.emulated = true) (n : Nat) (s : Stmt) : ∀ (r : Bool) (self : Nat) (st : St), s.wf false r = true →
    st.cur < st.fresh → (st.ctxs st.cur).unstack = false → Up st (exec w (n + 1) self s st) (upTo s) := by
  induction s using Stmt.rec (motive_2 := fun _ => True) with
  | skip => intro r self st _ _ hu; exact ⟨st, by simp [upTo], rfl, Fr.refl hu⟩
  | mark k => intro r self st _ _ hu; exact ⟨st.log (.mark k), by simp [upTo, St.log, marks], rfl, ⟨Nat.le_refl _, fun _ _ _ => rfl, rfl, rfl, hu, rfl⟩⟩
  | seq a b ia ib =>
    intro r self st hs hc hu
    simp only [Stmt.wf, Bool.and_eq_true] at hs
    rw [exec, upTo]
    exact (ia r self st hs.1 hc hu).bind fun st' _ f =>
      ib r self st' hs.2 (by rw [f.cur]; exact Nat.lt_of_lt_of_le hc f.fresh) (by rw [f.cur]; exact f.unstack)
  | throw e =>
    intro r self st _ _ hu
    rw [exec, upTo]
    obtain ⟨h1, h2⟩ := throwE_ends hw e st hu
    exact ⟨_, by simpa using h2, h1⟩
  | rethrow => intro r self st hs; cases hs
  | ret => intro r self st _ _ hu; exact ⟨st, by simp [upTo], rfl, Fr.refl hu⟩
  | call s i =>
    intro r self st hs hc hu
    obtain ⟨st', h1, h2⟩ := i true 0 st hs hc hu
    rw [exec, upTo]
    refine ⟨st', h1, ?_⟩
    rcases ha : (upTo s).2 with _ | e | _ <;> rw [ha] at h2
    · rw [h2.1]; exact ⟨rfl, h2.2⟩
    · dsimp only at h2; rw [h2]
    · rw [h2.1]; exact ⟨rfl, h2.2⟩
  | assign v x => intro r self st _ _ hu; exact ⟨_, by simp [upTo], rfl, ⟨Nat.le_refl _, fun _ _ _ => rfl, rfl, rfl, hu, rfl⟩⟩
  | protect p v f =>
    intro r self st _ _ hu
    refine ⟨_, ?_, rfl, ⟨Nat.le_refl _, fun d _ hd => setCtx_ne _ _ hd, ?_, ?_, ?_, rfl⟩⟩
    · simp [upTo]
    · rw [setCtx_same]
    · rw [setCtx_same]
    · rw [setCtx_same]; exact hu
  | unprotect p =>
    intro r self st _ _ hu
    refine ⟨_, ?_, rfl, ⟨Nat.le_refl _, fun d _ hd => setCtx_ne _ _ hd, ?_, ?_, ?_, rfl⟩⟩
    · simp [upTo]
    · rw [setCtx_same]
    · rw [setCtx_same]
    · rw [setCtx_same]; exact hu
  | tryCatch body hs i _ =>
    intro r self st hwf hc hu
    simp only [Stmt.wf, Bool.and_eq_true] at hwf
    rw [exec, upTo]
    have hb := block_up (n := n) hc hu (fun id => exec w (n + 1) id body)
      (fun id st => (execH w (n + 1) id hs st).andThen (endTry w id)) (rb := upTo body) (r' := ([], .done))
      (up_ne_returned body false hwf.1) (i false _ (enterTry w st) hwf.1 (Nat.lt_succ_self _) (by simp [enterTry])) ?_
    · rwa [after_nil] at hb
    · intro st2 f2
      have h0 : ((st2.setCtx st.fresh { st2.ctxs st.fresh with state := 0 }).ctxs st.fresh).state = 0 := by rw [setCtx_same]
      dsimp only
      rw [execH_skip _ _ (by rw [h0]; decide)]
      refine ⟨overSt st2 st.fresh st.cur, by simp, ?_, Fr.refl (enterTry_fr hc hu f2).unstack⟩
      refine (endTry_own (by rw [setCtx_cur]; exact f2.cur) h0).trans ?_
      have hn : ((st2.setCtx st.fresh { st2.ctxs st.fresh with state := 0 }).ctxs st.fresh).next = st.cur := by
        rw [setCtx_same]; exact f2.next.trans (by simp [enterTry])
      rw [hn]; rfl
  | tryFinally body hs fin ib _ jf =>
    intro r self st hwf hc hu
    simp only [Stmt.wf, Bool.and_eq_true] at hwf
    rw [exec, upTo]
    refine block_up (n := n) hc hu (fun id => exec w (n + 1) id body)
      (fun id st => (execH w (n + 1) id hs st).andThen fun st =>
        (exec w (n + 1) id fin { st with cur := (st.ctxs id).next }).andThen (endTry w id)) (rb := upTo body) (r' := upTo fin)
      (up_ne_returned body false hwf.1.1) (ib false _ (enterTry w st) hwf.1.1 (Nat.lt_succ_self _) (by simp [enterTry])) ?_
    intro st2 f2
    have h0 : ((st2.setCtx st.fresh { st2.ctxs st.fresh with state := 0 }).ctxs st.fresh).state = 0 := by rw [setCtx_same]
    dsimp only
    rw [execH_skip _ _ (by rw [h0]; decide)]
    have hn : ((st2.setCtx st.fresh { st2.ctxs st.fresh with state := 0 }).ctxs st.fresh).next = st.cur := by
      rw [setCtx_same]; exact f2.next.trans (by simp [enterTry])
    show Up _ ((exec w (n + 1) st.fresh fin { st2.setCtx st.fresh { st2.ctxs st.fresh with state := 0 } with
      cur := ((st2.setCtx st.fresh { st2.ctxs st.fresh with state := 0 }).ctxs st.fresh).next }).andThen (endTry w st.fresh)) _
    rw [hn]
    have g := enterTry_fr hc hu f2
    have hf := jf false st.fresh (overSt st2 st.fresh st.cur) hwf.2 (Nat.lt_of_lt_of_le hc g.fresh) g.unstack
    have hb := hf.bind (k := endTry w st.fresh) (r' := ([], .done)) fun st4 _ f4 => ?_
    · rwa [after_nil] at hb
    · have hne : st4.cur ≠ st.fresh := by rw [f4.cur]; exact Nat.ne_of_lt hc
      have h4 : (st4.ctxs st.fresh).state = 0 := by
        rw [f4.others st.fresh f2.fresh (Nat.ne_of_gt hc)]
        exact h0
      refine ⟨st4, by simp, ?_, Fr.refl (by rw [f4.cur]; exact f4.unstack)⟩
      exact endTry_other hne h4
  | _ => trivial

theorem wf_true (s : Stmt) : ∀ h, s.wf h false = true → s.wf h true = true := by
  induction s using Stmt.rec (motive_2 := fun _ => True) with
  | seq a b ia ib =>
    intro h w
    simp only [Stmt.wf, Bool.and_eq_true] at w ⊢
    exact ⟨ia h w.1, ib h w.2⟩
  | ret => intro h w; rfl
  | _ => first | trivial | (intro h w; exact w)

/-- Without a throw, a program's meaning is what it does up to the first. -/
theorem upTo_eval (s : Stmt) : ∀ pend, (∀ e, (upTo s).2 ≠ .thrown e) → s.wf false true = true → eval pend s = upTo s := by
  induction s using Stmt.rec (motive_2 := fun _ => True) with
  | seq a b ia ib =>
    intro p h w
    simp only [Stmt.wf, Bool.and_eq_true] at w
    rw [upTo] at h
    rw [eval, upTo]
    rcases ha : upTo a with ⟨t, _ | e | _⟩
    · rw [ha] at h
      rw [ia p (by rw [ha]; nofun) w.1, ha, ib p (fun e => h e) w.2]
      rfl
    · rw [ha] at h; exact absurd rfl (h e)
    · rw [ia p (by rw [ha]; nofun) w.1, ha]; rfl
  | call s i =>
    intro p h w
    rw [upTo] at h
    rw [eval, upTo, i none (fun e he => h e (by dsimp only; rw [he])) w]
    rcases upTo s with ⟨t, _ | e | _⟩ <;> rfl
  | throw e => intro p h; exact absurd rfl (h e)
  | rethrow => intro p _ w; cases w
  | tryCatch b hs i _ =>
    intro p h w
    simp only [Stmt.wf, Bool.and_eq_true] at w
    rw [upTo] at h
    rw [eval, upTo, i none h (wf_true b false w.1)]
    rcases ha : upTo b with ⟨t, _ | e | _⟩
    · rfl
    · rw [ha] at h; exact absurd rfl (h e)
    · rfl
  | tryFinally b hs f i _ j =>
    intro p h w
    simp only [Stmt.wf, Bool.and_eq_true] at w
    have hb := up_ne_returned b false w.1.1
    rw [upTo] at h
    rw [eval, upTo]
    rcases ha : upTo b with ⟨t, _ | e | _⟩
    · rw [ha] at h
      rw [i none (by rw [ha]; nofun) (wf_true b false w.1.1), ha, j none (fun e => h e) (wf_true f false w.2)]
      rcases upTo f with ⟨t', _ | e | _⟩ <;> rfl
    · rw [ha] at h; exact absurd rfl (h e)
    · rw [ha] at hb; exact absurd rfl hb
  | _ => first | trivial | (intros; rfl)

end Verif.Ex
