import Verif.Proof.ScopeProg
namespace Verif

/-- Only calls of deferred functions were added to the history of `s`. -/
def RanMore (s : Nat) (w w' : World) : Prop :=
  ∃ l, events s w' = events s w ++ l ∧ ∀ e ∈ l, ∃ f x, e = Event.ran s f x

theorem RanMore.refl (s : Nat) (w : World) : RanMore s w w := ⟨[], by simp, by simp⟩

theorem RanMore.of_same {s : Nat} {w w' : World} (h : Same s w w') : RanMore s w w' :=
  ⟨[], by simp [h.evs], by simp⟩

theorem RanMore.of_events {s : Nat} {w w' : World} (h : events s w' = events s w) : RanMore s w w' :=
  ⟨[], by simp [h], by simp⟩

theorem RanMore.trans {s : Nat} {a b c : World} (h : RanMore s a b) (k : RanMore s b c) : RanMore s a c := by
  obtain ⟨l, h1, h2⟩ := h
  obtain ⟨m, k1, k2⟩ := k
  refine ⟨l ++ m, by rw [k1, h1, List.append_assoc], ?_⟩
  intro e he
  rcases List.mem_append.1 he with he | he
  · exact h2 e he
  · exact k2 e he

theorem RanMore.andThen {s : Nat} {w : World} {o : Out} {k : World → Out} (h : RanMore s w o.world)
    (hk : ∀ w', RanMore s w' (k w').world) : RanMore s w (o.andThen k).world := by
  cases o with
  | ok w' => exact h.trans (hk w')
  | wild w' => exact h
  | panic w' => exact h
  | running w' => exact h

theorem invoke_ranMore {s : Nat} {call : Nat → Nat → World → Out}
    (hcall : ∀ f x w, Same s w (call f x w).world) (e : Entry) (w : World) :
    RanMore s w (invoke call (Event.ran s) e w).world := by
  unfold invoke
  split
  · exact RanMore.refl s w
  · exact RanMore.refl s w
  · rename_i f hf
    exact RanMore.trans ⟨[.ran s f _], events_log_same (s := s) _ _ rfl, by simp⟩
      (RanMore.of_same (hcall _ _ _))

theorem runLoop_ranMore {s : Nat} {call : Nat → Nat → World → Out}
    (hcall : ∀ f x w, Same s w (call f x w).world) (cached : Nat) :
    ∀ i w, RanMore s w (runLoop call s cached i w).world := by
  intro i
  induction i with
  | zero => intro w; exact RanMore.refl s w
  | succ i ih =>
    intro w
    unfold runLoop
    dsimp only
    split
    · exact RanMore.refl s w
    · split
      · exact RanMore.refl s w
      · refine RanMore.andThen (RanMore.trans ?_ (invoke_ranMore hcall _ _)) ?_
        · refine RanMore.of_events ?_
          split <;> rfl
        · intro w'
          split
          · exact RanMore.refl s w'
          · split
            · exact RanMore.refl s w'
            · split
              · exact RanMore.refl s w'
              · exact (RanMore.of_events (by simp)).trans (ih _)

theorem deferredFree_ranMore {s : Nat} {call : Nat → Nat → World → Out}
    (hcall : ∀ f x w, Same s w (call f x w).world) (w : World) :
    RanMore s w (deferredFree call s w).world := by
  unfold deferredFree deferredRun
  dsimp only
  split
  · refine RanMore.andThen (RanMore.andThen ((RanMore.of_events (by simp)).trans (runLoop_ranMore hcall _ _ _)) ?_) ?_
    · intro w'
      split
      · exact RanMore.refl s w'
      · exact RanMore.of_events rfl
    · intro w'; exact RanMore.of_events rfl
  · exact RanMore.refl s w

/-! ## Counting -/

theorem timesRegistered_cons (f x : Nat) (e : Event) (es : List Event) :
    timesRegistered f x (e :: es) = timesRegistered f x [e] + timesRegistered f x es := by
  simp [timesRegistered, List.countP_cons]; omega

theorem timesRan_cons (s f x : Nat) (e : Event) (es : List Event) :
    timesRan s f x (e :: es) = timesRan s f x [e] + timesRan s f x es := by
  simp [timesRan, List.count_cons]; omega

theorem checkStep_count {s : Nat} {c c' : Check} {e : Event} (he : e.scope = s)
    (h : checkStep c e = some c') (f x : Nat) :
    timesRegistered f x [e] + c.stack.count (f, x) = timesRan s f x [e] + c'.stack.count (f, x) := by
  cases e with
  | registered t g y i =>
    simp only [checkStep, Option.some.injEq] at h
    subst h
    simp only [timesRegistered, timesRan, List.countP_singleton, List.count_cons]
    by_cases hc : g = f ∧ y = x
    · obtain ⟨rfl, rfl⟩ := hc; simp; omega
    · have : ((g, y) == (f, x)) = false := by simpa using hc
      simp [this, hc]
  | refused t g y => simp [checkStep] at h; subst h; simp [timesRegistered, timesRan]
  | allocated t g y => simp [checkStep] at h; subst h; simp [timesRegistered, timesRan]
  | fired t g y => simp [checkStep] at h
  | relBegin t =>
    simp only [checkStep] at h
    split at h
    · cases h
    · cases h; simp [timesRegistered, timesRan]
  | relEnd t =>
    simp only [checkStep] at h
    split at h
    · cases h; simp [timesRegistered, timesRan]
    · cases h
  | ran t g y =>
    obtain rfl : t = s := he
    obtain ⟨st, op⟩ := c
    simp only [checkStep] at h
    split at h
    · rename_i top rest
      split at h
      · rename_i hc
        subst hc
        cases h
        simp only [timesRegistered, timesRan, List.countP_singleton, List.count_cons]
        by_cases hc : g = f ∧ y = x
        · obtain ⟨rfl, rfl⟩ := hc; simp; omega
        · have h1 : ((g, y) == (f, x)) = false := by simpa using hc
          have h2 : ((Event.ran t g y) == (Event.ran t f x)) = false := by simpa using hc
          simp [h1, h2]
      · cases h
    · cases h

theorem checkRun_count {s : Nat} (f x : Nat) : ∀ (es : List Event) (c c' : Check),
    (∀ e ∈ es, e.scope = s) → checkRun c es = some c' →
    timesRegistered f x es + c.stack.count (f, x) = timesRan s f x es + c'.stack.count (f, x) := by
  intro es
  induction es with
  | nil => intro c c' _ h; cases h; simp [timesRegistered, timesRan]
  | cons e es ih =>
    intro c c' hs h
    simp only [checkRun] at h
    cases h1 : checkStep c e with
    | none => rw [h1] at h; cases h
    | some c1 =>
      rw [h1] at h
      have a := checkStep_count (hs e List.mem_cons_self) h1 f x
      have b := ih c1 c' (fun e he => hs e (List.mem_cons_of_mem _ he)) h
      rw [timesRegistered_cons, timesRan_cons]
      omega

theorem events_scope {s : Nat} {w : World} : ∀ e ∈ events s w, e.scope = s := by
  intro e he
  simpa [events] using (List.mem_filter.1 he).2

/-- An accepted history has called nothing more often than it was registered. -/
theorem Hist.atMost {s w stack opened} (h : Hist s w stack opened) (f x : Nat) :
    timesRan s f x (events s w) ≤ timesRegistered f x (events s w) := by
  have := checkRun_count (s := s) f x (events s w) _ _ events_scope h.chk
  simp at this
  omega

theorem HistOk.atMost {s w} (h : HistOk s w) (f x : Nat) :
    timesRan s f x (events s w) ≤ timesRegistered f x (events s w) := by
  obtain ⟨c', hc⟩ := Option.isSome_iff_exists.1 h.chk
  have := checkRun_count (s := s) f x (events s w) _ _ events_scope hc
  simp at this
  omega

/-! ## Quiet -/

theorem quiet_of_none {s : Nat} {es : List Event} (h : Event.relEnd s ∉ es) : QuietAfterRelease s es := by
  rintro pre post rfl
  exact absurd (by simp) h

theorem quiet_append {s : Nat} {es ks : List Event} (h : QuietAfterRelease s es)
    (hk : ∀ f x, Event.ran s f x ∉ ks) : QuietAfterRelease s (es ++ ks) := by
  intro pre post heq f x
  rcases List.append_eq_append_iff.1 heq with ⟨a, rfl, h2⟩ | ⟨a, rfl, h2⟩
  · intro hm
    refine hk f x ?_
    rw [h2]
    simp [hm]
  · cases a with
    | nil =>
      intro hm
      simp only [List.nil_append] at h2
      exact hk f x (by rw [← h2]; simp [hm])
    | cons e a =>
      simp only [List.cons_append, List.cons.injEq] at h2
      obtain ⟨rfl, rfl⟩ := h2
      intro hm
      rcases List.mem_append.1 hm with hm | hm
      · exact h pre a rfl f x hm
      · exact hk f x hm

/-- What C22 asks of the history of `s`. -/
structure Calm (s : Nat) (es : List Event) : Prop where
  once : ∀ f x, timesRan s f x es ≤ timesRegistered f x es
  quiet : QuietAfterRelease s es

theorem calm_append {s : Nat} {es ks : List Event} (h : Calm s es) (hk : ∀ f x, Event.ran s f x ∉ ks) :
    Calm s (es ++ ks) := by
  refine ⟨fun f x => ?_, quiet_append h.quiet hk⟩
  have h1 : timesRan s f x ks = 0 := List.count_eq_zero.2 (hk f x)
  have h2 := h.once f x
  simp only [timesRan, timesRegistered, List.count_append, List.countP_append] at *
  omega

/-- Scope `s` between operations, reused or not. -/
def InvQ (s : Nat) (w : World) : Prop :=
  (∃ ps, InvL s w ps ∧ (w.scopes s).defer.type = RAII_DEF_ARR ∧ Event.relEnd s ∉ events s w) ∨
  (∃ ps, Holding w s ps ∧ (w.scopes s).defer.type = 0 ∧ Calm s (events s w))

theorem InvQ.same {s w w'} (h : InvQ s w) (k : Same s w w') : InvQ s w' := by
  rcases h with ⟨ps, h1, h2, h3⟩ | ⟨ps, h1, h2, h3⟩
  · exact .inl ⟨ps, h1.same k, by rw [k.scope]; exact h2, by rw [k.evs]; exact h3⟩
  · exact .inr ⟨ps, by unfold Holding; rw [k.scope]; exact h1, by rw [k.scope]; exact h2, by rw [k.evs]; exact h3⟩

theorem InvQ.calm {s w} (h : InvQ s w) : Calm s (events s w) := by
  rcases h with ⟨ps, h1, h2, h3⟩ | ⟨ps, h1, h2, h3⟩
  · exact ⟨fun f x => h1.hist.atMost f x, quiet_of_none h3⟩
  · exact h3

theorem HistOk.calm {s w} (h : HistOk s w) (hq : Event.relEnd s ∉ events s w) : Calm s (events s w) :=
  ⟨fun f x => h.atMost f x, quiet_of_none hq⟩

/-- A registering (or error-recording) operation on `s` adds neither calls nor ends of release. -/
theorem exec_register {env : Env} (hreal : env.Real) {s : Nat} (fuel : Nat) (op : Op)
    (hop : op.scope = s) (hix : op.indexes s = false) (hrel : op.releases s = false) {w : World}
    {ps : List Live} (h : Holding w s ps) :
    (∃ w' ps' l, exec env (fuel + 1) op w = .ok w' ∧ Holding w' s ps' ∧
      (w'.scopes s).defer.type = (w.scopes s).defer.type ∧ events s w' = events s w ++ l ∧
      (∀ f x, Event.ran s f x ∉ l) ∧ Event.relEnd s ∉ l) ∨
    ((∀ w', exec env (fuel + 1) op w ≠ .ok w') ∧
      events s (exec env (fuel + 1) op w).world = events s w) := by
  unfold exec
  dsimp only
  by_cases hdel : (w.scopes op.scope).deleted = true
  · rw [if_pos hdel]
    exact .inr ⟨by simp, rfl⟩
  rw [if_neg hdel]
  have hdef : ∀ f x b, ∃ w' ps' l, deferAny env s f x b w = .ok w' ∧ Holding w' s ps' ∧
      (w'.scopes s).defer.type = (w.scopes s).defer.type ∧ events s w' = events s w ++ l ∧
      (∀ f x, Event.ran s f x ∉ l) ∧ Event.relEnd s ∉ l := by
    intro f x b
    rcases deferAny_spec hreal h f x b with ⟨w', e1, e2, e3, e4, -⟩ | ⟨w', i, a, e1, e2, e3, e4, e5, -⟩
    · exact ⟨w', ps, _, e1, e2, by rw [e4], e3, by simp, by simp⟩
    · exact ⟨w', _, _, e1, e2, by rw [e4]; exact e5, e3, by simp, by simp⟩
  cases op with
  | defer t f x => obtain rfl : t = s := hop; exact .inl (hdef f x false)
  | recover t f x => obtain rfl : t = s := hop; exact .inl (hdef f x true)
  | malloc t z f =>
    obtain rfl : t = s := hop
    rcases mallocFull_spec hreal h z f with ⟨w', e1, e2⟩ | ⟨w', p, e1, e2, e3, e4, -⟩ | ⟨w', p, i, e1, e2, e3, e4, -⟩
    · right
      dsimp only
      rw [e1]
      exact ⟨by simp, e2.evs⟩
    · exact .inl ⟨w', ps, _, e1, e2, e4, e3, by simp, by simp⟩
    · exact .inl ⟨w', _, _, e1, e2, e4, e3, by simp, by simp⟩
  | cancel t i => simp [Op.indexes] at hix; exact absurd hop hix
  | fire t i => simp [Op.indexes] at hix; exact absurd hop hix
  | release t => simp [Op.releases] at hrel; exact absurd hop hrel
  | delete t => simp [Op.releases] at hrel; exact absurd hop hrel
  | setErr t =>
    obtain rfl : t = s := hop
    refine .inl ⟨_, ps, [], rfl, ?_, by simp, by simp, by simp, by simp⟩
    unfold Holding; rw [World.set_same]; exact h

/-- Release of a scope, whatever its phase: calls only, then the end. -/
theorem exec_release_events {env : Env} {s : Nat} (hl : Leaves env s) (fuel : Nat) (op : Op)
    (hop : op.releases s = true) {w : World} :
    (∃ w' l, exec env (fuel + 1) op w = .ok w' ∧
      events s w' = events s w ++ (.relBegin s :: l ++ [.relEnd s]) ∧ (∀ e ∈ l, ∃ f x, e = Event.ran s f x) ∧
      ((w.scopes s).defer.type = 0 → l = [] ∧ (w'.scopes s).defer = (w.scopes s).defer)) ∨
    ((∀ w', exec env (fuel + 1) op w ≠ .ok w') ∧ ∃ l,
      events s (exec env (fuel + 1) op w).world = events s w ++ l ∧ Event.relEnd s ∉ l ∧
      ((w.scopes s).defer.type = 0 → l = [])) := by
  have hcall : ∀ f x w, Same s w (callOf env fuel f x w).world :=
    fun f x w => seq_same _ (fun o ho w => exec_same hl fuel o (hl f x o ho) w) w
  have hscope : op.scope = s := by
    cases op <;> simp_all [Op.releases, Op.scope]
  unfold exec
  dsimp only
  by_cases hdel : (w.scopes op.scope).deleted = true
  · rw [if_pos hdel]
    exact .inr ⟨by simp, [], by simp [Out.world]⟩
  rw [if_neg hdel]
  have main : ∀ (fin : World → World), (∀ w1, events s (fin w1) = events s w1 ∧
      ((fin w1).scopes s).defer = (w1.scopes s).defer) →
      (∃ w' l, ((deferredFree (callOf env fuel) s (w.log (.relBegin s))).andThen
          fun w => .ok (fin (w.log (.relEnd s)))) = .ok w' ∧
        events s w' = events s w ++ (.relBegin s :: l ++ [.relEnd s]) ∧ (∀ e ∈ l, ∃ f x, e = Event.ran s f x) ∧
        ((w.scopes s).defer.type = 0 → l = [] ∧ (w'.scopes s).defer = (w.scopes s).defer)) ∨
      ((∀ w', ((deferredFree (callOf env fuel) s (w.log (.relBegin s))).andThen
          fun w => .ok (fin (w.log (.relEnd s)))) ≠ .ok w') ∧
        ∃ l, events s ((deferredFree (callOf env fuel) s (w.log (.relBegin s))).andThen
          fun w => .ok (fin (w.log (.relEnd s)))).world = events s w ++ l ∧ Event.relEnd s ∉ l ∧
        ((w.scopes s).defer.type = 0 → l = [])) := by
    intro fin hfin
    obtain ⟨l, h1, h2⟩ := deferredFree_ranMore hcall (w.log (.relBegin s))
    have hnot : Event.relEnd s ∉ (Event.relBegin s :: l) := by
      intro hm
      rcases List.mem_cons.1 hm with hm | hm
      · cases hm
      · obtain ⟨f, x, hx⟩ := h2 _ hm; cases hx
    have hdead : (w.scopes s).defer.type = 0 →
        deferredFree (callOf env fuel) s (w.log (.relBegin s)) = .ok (w.log (.relBegin s)) := by
      intro hty
      unfold deferredFree
      rw [if_neg (by simp [hty, RAII_DEF_ARR])]
    rw [events_log_same (s := s) _ _ rfl, List.append_assoc] at h1
    cases ho : deferredFree (callOf env fuel) s (w.log (.relBegin s)) with
    | ok w' =>
      left
      rw [ho] at h1
      refine ⟨_, l, rfl, ?_, h2, ?_⟩
      · rw [(hfin _).1, events_log_same (s := s) _ _ rfl]
        have h1' : events s w' = _ := h1
        rw [h1']; simp
      · intro hty
        rw [hdead hty] at ho
        cases ho
        refine ⟨?_, by rw [(hfin _).2]; rfl⟩
        have : events s w ++ [Event.relBegin s] = events s w ++ ([Event.relBegin s] ++ l) := by
          rw [← h1, Out.world, events_log_same (s := s) _ _ rfl]
        simpa using this
    | wild w' =>
      rw [ho] at h1
      exact .inr ⟨by simp [Out.andThen], _, h1, hnot, fun hty => by rw [hdead hty] at ho; cases ho⟩
    | panic w' =>
      rw [ho] at h1
      exact .inr ⟨by simp [Out.andThen], _, h1, hnot, fun hty => by rw [hdead hty] at ho; cases ho⟩
    | running w' =>
      rw [ho] at h1
      exact .inr ⟨by simp [Out.andThen], _, h1, hnot, fun hty => by rw [hdead hty] at ho; cases ho⟩
  cases op with
  | release t =>
    obtain rfl : t = s := hscope
    exact main id (fun w1 => ⟨rfl, rfl⟩)
  | delete t =>
    obtain rfl : t = s := hscope
    exact main (fun w1 => w1.set t { w1.scopes t with deleted := true }) (fun w1 => ⟨rfl, by simp⟩)
  | _ => simp [Op.releases] at hop

theorem quiet_end {s : Nat} {es : List Event} (h : Event.relEnd s ∉ es) : QuietAfterRelease s (es ++ [.relEnd s]) := by
  intro pre post heq f x
  rcases List.append_eq_append_iff.1 heq with ⟨a, rfl, h2⟩ | ⟨a, rfl, h2⟩
  · cases a with
    | nil => simp at h2; subst h2; simp
    | cons e a => simp at h2
  · cases a with
    | nil => simp at h2; subst h2; simp
    | cons e a =>
      simp only [List.cons_append, List.cons.injEq] at h2
      obtain ⟨rfl, rfl⟩ := h2
      exact absurd (by simp) h

theorem exec_quiet {env : Env} (hreal : env.Real) {s : Nat} (hl : Leaves env s) (fuel : Nat) (op : Op)
    (hop : op.scope = s) (hix : op.indexes s = false) {w : World} (h : InvQ s w) :
    (∃ w', exec env (fuel + 1) op w = .ok w' ∧ InvQ s w') ∨
    ((∀ w', exec env (fuel + 1) op w ≠ .ok w') ∧ Calm s (events s (exec env (fuel + 1) op w).world)) := by
  rcases h with ⟨ps, h1, h2, h3⟩ | ⟨ps, h1, h2, h3⟩
  · cases hr : op.releases s with
    | false =>
      rcases exec_register hreal fuel op hop hix hr h1.arr with ⟨w', ps', l, e1, e2, e3, e4, e5, e6⟩ | ⟨e1, e2⟩
      · left
        rcases exec_live hreal hl fuel op hop hix h1 (fun _ => h2) with ⟨w'', ps'', k1, k2, k3, k4⟩ | ⟨k1, -⟩
        · rw [k1] at e1
          cases e1
          refine ⟨w', k1, .inl ⟨ps'', k2, by rw [e3]; exact h2, ?_⟩⟩
          rw [e4]
          simp [h3, e6]
        · exact absurd e1 (k1 w')
      · exact .inr ⟨e1, by rw [e2]; exact ⟨fun f x => h1.hist.atMost f x, quiet_of_none h3⟩⟩
    | true =>
      rcases exec_release_events hl fuel op hr (w := w) with ⟨w', l, e1, e2, e3, -⟩ | ⟨e1, l, e2, e3, -⟩
      · left
        rcases exec_live hreal hl fuel op hop hix h1 (fun _ => h2) with ⟨w'', ps'', k1, k2, k3, k4⟩ | ⟨k1, -⟩
        · rw [k1] at e1
          cases e1
          refine ⟨w', k1, ?_⟩
          have hq : QuietAfterRelease s (events s w') := by
            rw [e2, ← List.append_assoc]
            apply quiet_end
            intro hm
            rcases List.mem_append.1 hm with hm | hm
            · exact h3 hm
            · rcases List.mem_cons.1 hm with hm | hm
              · cases hm
              · obtain ⟨f, x, hx⟩ := e3 _ hm; cases hx
          exact .inr ⟨ps'', k2.arr, k4 hr, fun f x => k2.hist.atMost f x, hq⟩
        · exact absurd e1 (k1 w')
      · right
        refine ⟨e1, ?_⟩
        rcases exec_live hreal hl fuel op hop hix h1 (fun _ => h2) with ⟨w'', ps'', k1, k2, k3, k4⟩ | ⟨-, k2, -⟩
        · exact absurd k1 (e1 w'')
        · exact k2.calm (by rw [e2]; simp [h3, e3])
  · cases hr : op.releases s with
    | false =>
      rcases exec_register hreal fuel op hop hix hr h1 with ⟨w', ps', l, e1, e2, e3, e4, e5, e6⟩ | ⟨e1, e2⟩
      · exact .inl ⟨w', e1, .inr ⟨ps', e2, by rw [e3]; exact h2, by rw [e4]; exact calm_append h3 e5⟩⟩
      · exact .inr ⟨e1, by rw [e2]; exact h3⟩
    | true =>
      rcases exec_release_events hl fuel op hr (w := w) with ⟨w', l, e1, e2, e3, e4⟩ | ⟨e1, l, e2, e3, e4⟩
      · obtain ⟨rfl, hd⟩ := e4 h2
        refine .inl ⟨w', e1, .inr ⟨ps, by unfold Holding; rw [hd]; exact h1, by rw [hd]; exact h2, ?_⟩⟩
        rw [e2]
        exact calm_append h3 (by simp)
      · refine .inr ⟨e1, ?_⟩
        rw [e2, e4 h2]
        simpa using h3

theorem seq_quiet {env : Env} (hreal : env.Real) {s : Nat} (hl : Leaves env s) (fuel : Nat) :
    ∀ (ops : List Op) (w : World), InvQ s w → (∀ o ∈ ops, o.indexes s = false) →
      Calm s (events s (Out.seq (exec env fuel) ops w).world) := by
  intro ops
  induction ops with
  | nil => intro w h _; exact h.calm
  | cons o ops ih =>
    intro w h hix
    have hix' : ∀ o ∈ ops, o.indexes s = false := fun o ho => hix o (List.mem_cons_of_mem _ ho)
    unfold Out.seq
    cases fuel with
    | zero => simp only [exec, Out.andThen]; exact h.calm
    | succ fuel =>
      by_cases hs : o.scope = s
      · rcases exec_quiet hreal hl fuel o hs (hix o List.mem_cons_self) h with ⟨w', e1, e2⟩ | ⟨e1, e2⟩
        · rw [e1]; exact ih w' e2 hix'
        · cases ho : exec env (fuel + 1) o w with
          | ok w' => exact absurd ho (e1 w')
          | wild w' => rw [ho] at e2; exact e2
          | panic w' => rw [ho] at e2; exact e2
          | running w' => rw [ho] at e2; exact e2
      · have hsame := exec_same hl (fuel + 1) o hs w
        cases ho : exec env (fuel + 1) o w with
        | ok w' => rw [ho] at hsame; exact ih w' (h.same hsame) hix'
        | wild w' => rw [ho] at hsame; exact (h.same hsame).calm
        | panic w' => rw [ho] at hsame; exact (h.same hsame).calm
        | running w' => rw [ho] at hsame; exact (h.same hsame).calm

theorem program_calm {env : Env} (hreal : env.Real) {s : Nat} (hl : Leaves env s) (fuel : Nat)
    (ops : List Op) (hix : ∀ o ∈ ops, o.indexes s = false) :
    Calm s (events s (program env fuel ops).world) :=
  seq_quiet hreal hl fuel ops _ (.inl ⟨[], invL_init s, rfl, by simp [events]⟩) hix

end Verif
