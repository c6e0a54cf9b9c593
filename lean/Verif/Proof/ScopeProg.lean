import Verif.Proof.ScopeRun
namespace Verif

/-- Scope `s` between operations, before it is reused after a release: its array holds the
outstanding deferrals `ps`. -/
structure InvL (s : Nat) (w : World) (ps : List Live) : Prop where
  arr : Holding w s ps
  hist : Hist s w (ps.reverse.map Live.key) false
  type : (w.scopes s).defer.type = RAII_DEF_ARR ∨ ((w.scopes s).defer.type = 0 ∧ ps = [])

theorem InvL.same {s w w' ps} (h : InvL s w ps) (k : Same s w w') : InvL s w' ps := by
  refine ⟨?_, h.hist.same k, by rw [k.scope]; exact h.type⟩
  unfold Holding; rw [k.scope]; exact h.arr

/-- The user functions' code, with one unit of fuel less. -/
def callOf (env : Env) (fuel : Nat) : Nat → Nat → World → Out :=
  fun f x => Out.seq (exec env fuel) (env.body f x)

/-- Why an operation did not return normally. -/
def Cause (env : Env) (fuel : Nat) (s : Nat) (w : World) (o : Out) : Prop :=
  (∃ w', o = .panic w') ∨ (w.scopes s).deleted = true ∨ (w.scopes s).err = true ∨
    ∃ f x w, ∀ w', callOf env fuel f x w ≠ .ok w'

theorem exec_live {env : Env} (hreal : env.Real) {s : Nat} (hl : Leaves env s) (fuel : Nat) (op : Op)
    (hop : op.scope = s) (hix : op.indexes s = false) {w : World} {ps : List Live} (h : InvL s w ps)
    (hreg : op.registers s = true → (w.scopes s).defer.type = RAII_DEF_ARR) :
    (∃ w' ps', exec env (fuel + 1) op w = .ok w' ∧ InvL s w' ps' ∧
      (op.releases s = false → (w'.scopes s).defer.type = (w.scopes s).defer.type) ∧
      (op.releases s = true → (w'.scopes s).defer.type = 0)) ∨
    ((∀ w', exec env (fuel + 1) op w ≠ .ok w') ∧ HistOk s (exec env (fuel + 1) op w).world ∧
      Cause env fuel s w (exec env (fuel + 1) op w)) := by
  have hcall : ∀ f x w, Same s w (callOf env fuel f x w).world :=
    fun f x w => seq_same _ (fun o ho w => exec_same hl fuel o (hl f x o ho) w) w
  unfold exec
  dsimp only
  by_cases hdel : (w.scopes op.scope).deleted = true
  · rw [if_pos hdel]
    rw [hop] at hdel
    exact .inr ⟨by simp, h.hist.ok, .inr (.inl hdel)⟩
  rw [if_neg hdel]
  have hdef : ∀ f x b, (w.scopes s).defer.type = RAII_DEF_ARR →
      ∃ w' ps', deferAny env s f x b w = .ok w' ∧ InvL s w' ps' ∧
        (w'.scopes s).defer.type = (w.scopes s).defer.type := by
    intro f x b hty
    rcases deferAny_spec hreal h.arr f x b with ⟨w', e1, e2, e3, e4, -⟩ | ⟨w', i, a, e1, e2, e3, e4, e5, -⟩
    · refine ⟨w', ps, e1, ⟨e2, ?_, by rw [e4]; exact h.type⟩, by rw [e4]⟩
      have := h.hist.refused f x
      constructor
      · rw [e3, ← events_log_same (s := s) w (.refused s f x) rfl]; exact this.chk
      · rw [e3, ← events_log_same (s := s) w (.refused s f x) rfl]; exact this.mem
    · refine ⟨w', _, e1, ⟨e2, ?_, by rw [e4]; exact .inl (e5.trans hty)⟩, by rw [e4]; exact e5⟩
      have := h.hist.registered f x i
      rw [List.reverse_append]
      constructor
      · rw [e3, ← events_log_same (s := s) w (.registered s f x i) rfl]; exact this.chk
      · rw [e3, ← events_log_same (s := s) w (.registered s f x i) rfl]; exact this.mem
  have hrel : ∀ (fin : World → World), (∀ w1, Same s w1 (fin w1)  ∨
        ((fin w1).scopes s = { w1.scopes s with deleted := true } ∧ events s (fin w1) = events s w1)) →
      (∃ w' ps', ((deferredFree (callOf env fuel) s (w.log (.relBegin s))).andThen
          fun w => .ok (fin (w.log (.relEnd s)))) = .ok w' ∧ InvL s w' ps' ∧
          (w'.scopes s).defer.type = 0) ∨
      ((∀ w', ((deferredFree (callOf env fuel) s (w.log (.relBegin s))).andThen
          fun w => .ok (fin (w.log (.relEnd s)))) ≠ .ok w') ∧
        HistOk s ((deferredFree (callOf env fuel) s (w.log (.relBegin s))).andThen
          fun w => .ok (fin (w.log (.relEnd s)))).world ∧
        Cause env fuel s w ((deferredFree (callOf env fuel) s (w.log (.relBegin s))).andThen
          fun w => .ok (fin (w.log (.relEnd s))))) := by
    intro fin hfin
    have finish : ∀ w1, Hist s w1 [] true → Holding w1 s [] → (w1.scopes s).defer.type = 0 →
        InvL s (fin (w1.log (.relEnd s))) [] ∧
        ((fin (w1.log (.relEnd s))).scopes s).defer.type = 0 := by
      intro w1 a1 a2 a3
      have a1' := a1.relEnd
      rcases hfin (w1.log (.relEnd s)) with hs | ⟨hs, he⟩
      · refine ⟨⟨?_, a1'.same hs, .inr ⟨by rw [hs.scope]; exact a3, rfl⟩⟩, by rw [hs.scope]; exact a3⟩
        unfold Holding; rw [hs.scope]; exact a2
      · refine ⟨⟨?_, ⟨by rw [he]; exact a1'.chk, by rw [he]; exact a1'.mem⟩, .inr ⟨by rw [hs]; exact a3, rfl⟩⟩,
          by rw [hs]; exact a3⟩
        unfold Holding; rw [hs]; exact a2
    rcases h.type with hty | ⟨hty, rfl⟩
    · rcases deferredFree_spec (w := w.log (.relBegin s)) hcall h.arr hty h.hist.relBegin with
        ⟨w1, e1, e2, e3, e4, e5, e6⟩ | hst
      · left
        rw [e1]
        exact ⟨_, [], rfl, finish w1 e2 e3 e4⟩
      · right
        have hc : Cause env fuel s w (deferredFree (callOf env fuel) s (w.log (.relBegin s))) := by
          rcases hst.cause with hc | hc
          · exact .inr (.inr (.inr hc))
          · exact .inr (.inr (.inl hc))
        cases ho : deferredFree (callOf env fuel) s (w.log (.relBegin s)) with
        | ok w' => exact absurd ho (hst.notOk w')
        | wild w' => rw [ho] at hst hc; exact ⟨by simp [Out.andThen], hst.hist, by simpa [Cause, Out.andThen] using hc⟩
        | panic w' => rw [ho] at hst hc; exact ⟨by simp [Out.andThen], hst.hist, by simp [Cause, Out.andThen]⟩
        | running w' => rw [ho] at hst hc; exact ⟨by simp [Out.andThen], hst.hist, by simpa [Cause, Out.andThen] using hc⟩
    · left
      unfold deferredFree
      rw [if_neg (by simp [hty, RAII_DEF_ARR])]
      exact ⟨_, [], rfl, finish _ h.hist.relBegin h.arr hty⟩
  cases op with
  | defer t f x =>
    obtain rfl : t = s := hop
    obtain ⟨w', ps', e1, e2, e3⟩ := hdef f x false (hreg (by simp [Op.registers]))
    exact .inl ⟨w', ps', e1, e2, fun _ => e3, by simp [Op.releases]⟩
  | recover t f x =>
    obtain rfl : t = s := hop
    obtain ⟨w', ps', e1, e2, e3⟩ := hdef f x true (hreg (by simp [Op.registers]))
    exact .inl ⟨w', ps', e1, e2, fun _ => e3, by simp [Op.releases]⟩
  | malloc t z f =>
    obtain rfl : t = s := hop
    have hty := hreg (by simp [Op.registers])
    rcases mallocFull_spec hreal h.arr z f with ⟨w', e1, e2⟩ | ⟨w', p, e1, e2, e3, e4, -⟩ | ⟨w', p, i, e1, e2, e3, e4, -⟩
    · right
      dsimp only
      rw [e1]
      exact ⟨by simp, (h.hist.same e2).ok, .inl ⟨_, rfl⟩⟩
    · exact .inl ⟨w', ps, e1, ⟨e2, h.hist.allocRef p f e3, by rw [e4]; exact h.type⟩, fun _ => e4, by simp [Op.releases]⟩
    · refine .inl ⟨w', _, e1, ⟨e2, ?_, by rw [e4]; exact .inl hty⟩, fun _ => e4, by simp [Op.releases]⟩
      rw [List.reverse_append]
      exact h.hist.allocReg p f i e3
  | cancel t i => simp [Op.indexes] at hix; exact absurd hop hix
  | fire t i => simp [Op.indexes] at hix; exact absurd hop hix
  | release t =>
    obtain rfl : t = s := hop
    rcases hrel id (fun w1 => .inl (Same.refl _ w1)) with ⟨w', ps', e1, e2, e3⟩ | hst
    · exact .inl ⟨w', ps', e1, e2, by simp [Op.releases], fun _ => e3⟩
    · exact .inr hst
  | delete t =>
    obtain rfl : t = s := hop
    rcases hrel (fun w1 => w1.set t { w1.scopes t with deleted := true })
      (fun w1 => .inr ⟨by simp, rfl⟩) with ⟨w', ps', e1, e2, e3⟩ | hst
    · exact .inl ⟨w', ps', e1, e2, by simp [Op.releases], fun _ => e3⟩
    · exact .inr hst
  | setErr t =>
    obtain rfl : t = s := hop
    refine .inl ⟨_, ps, rfl, ⟨?_, ⟨h.hist.chk, h.hist.mem⟩, by simpa using h.type⟩, by simp, by simp [Op.releases]⟩
    unfold Holding; rw [World.set_same]; exact h.arr

theorem seq_live {env : Env} (hreal : env.Real) {s : Nat} (hl : Leaves env s) (fuel : Nat) :
    ∀ (ops : List Op) (w : World) (ps : List Live), InvL s w ps → NoReuse s ops →
      (∀ o ∈ ops, o.indexes s = false) →
      ((∃ o ∈ ops, o.registers s = true) → (w.scopes s).defer.type = RAII_DEF_ARR) →
      HistOk s (Out.seq (exec env fuel) ops w).world := by
  intro ops
  induction ops with
  | nil => intro w ps h _ _ _; exact h.hist.ok
  | cons o ops ih =>
    intro w ps h hnr hix hreg
    have hnr' := (List.pairwise_cons.1 hnr)
    unfold Out.seq
    cases fuel with
    | zero => simp only [exec, Out.andThen]; exact h.hist.ok
    | succ fuel =>
      by_cases hs : o.scope = s
      · rcases exec_live hreal hl fuel o hs (hix o List.mem_cons_self) h
          (fun hr => hreg ⟨o, List.mem_cons_self, hr⟩) with ⟨w', ps', e1, e2, e3, -⟩ | ⟨e1, e2, -⟩
        · rw [e1]
          refine ih w' ps' e2 hnr'.2 (fun o ho => hix o (List.mem_cons_of_mem _ ho)) ?_
          rintro ⟨o', ho', hr'⟩
          have : o.releases s = false := by
            cases hc : o.releases s with
            | false => rfl
            | true => rw [hnr'.1 o' ho' hc] at hr'; cases hr'
          rw [e3 this]
          exact hreg ⟨o', List.mem_cons_of_mem _ ho', hr'⟩
        · cases ho : exec env (fuel + 1) o w with
          | ok w' => exact absurd ho (e1 w')
          | wild w' => rw [ho] at e2; exact e2
          | panic w' => rw [ho] at e2; exact e2
          | running w' => rw [ho] at e2; exact e2
      · have hsame := exec_same hl (fuel + 1) o hs w
        cases ho : exec env (fuel + 1) o w with
        | ok w' =>
          rw [ho] at hsame
          refine ih w' ps (h.same hsame) hnr'.2 (fun o ho => hix o (List.mem_cons_of_mem _ ho)) ?_
          rintro ⟨o', ho', hr'⟩
          have hsc : w'.scopes s = w.scopes s := hsame.scope
          rw [hsc]
          exact hreg ⟨o', List.mem_cons_of_mem _ ho', hr'⟩
        | wild w' => rw [ho] at hsame; exact (h.hist.same hsame).ok
        | panic w' => rw [ho] at hsame; exact (h.hist.same hsame).ok
        | running w' => rw [ho] at hsame; exact (h.hist.same hsame).ok

theorem invL_init (s : Nat) : InvL s { scopes := fun _ => freshScope, trace := [], tick := 0 } [] :=
  ⟨arrInit_inv _, ⟨rfl, fun _ => rfl⟩, .inl rfl⟩

theorem program_hist {env : Env} (hreal : env.Real) {s : Nat} (hl : Leaves env s) (fuel : Nat)
    (ops : List Op) (hnr : NoReuse s ops) (hix : ∀ o ∈ ops, o.indexes s = false) :
    HistOk s (program env fuel ops).world :=
  seq_live hreal hl fuel ops _ [] (invL_init s) hnr hix (fun _ => rfl)

end Verif
