import Verif.Proof.Array
import Verif.Spec.Scope
namespace Verif

theorem checkRun_append (c : Check) (l k : List Event) :
    checkRun c (l ++ k) = (checkRun c l).bind fun c => checkRun c k := by
  induction l generalizing c with
  | nil => rfl
  | cons e l ih =>
    simp only [List.cons_append, checkRun]
    cases checkStep c e with
    | none => rfl
    | some c' => simpa using ih c'

theorem memRun_append (c : MemCheck) (l k : List Event) :
    memRun c (l ++ k) = (memRun c l).bind fun c => memRun c k := by
  induction l generalizing c with
  | nil => rfl
  | cons e l ih =>
    simp only [List.cons_append, memRun]
    cases memStep c e with
    | none => rfl
    | some c' => simpa using ih c'

@[simp] theorem World.set_same (w : World) (s : Nat) (sc : Scope) : (w.set s sc).scopes s = sc := by
  simp [World.set]

theorem World.set_other (w : World) {s t : Nat} (sc : Scope) (h : t ≠ s) :
    (w.set s sc).scopes t = w.scopes t := by simp [World.set, h]

@[simp] theorem World.set_trace (w : World) (s : Nat) (sc : Scope) : (w.set s sc).trace = w.trace := rfl
@[simp] theorem World.log_scopes (w : World) (e : Event) : (w.log e).scopes = w.scopes := rfl
@[simp] theorem World.ticked_scopes (w : World) : w.ticked.scopes = w.scopes := rfl
@[simp] theorem World.ticked_trace (w : World) : w.ticked.trace = w.trace := rfl

@[simp] theorem events_set (s t : Nat) (w : World) (sc : Scope) : events s (w.set t sc) = events s w := rfl
@[simp] theorem events_ticked (s : Nat) (w : World) : events s w.ticked = events s w := rfl

theorem events_log_same {s : Nat} (w : World) (e : Event) (h : e.scope = s) :
    events s (w.log e) = events s w ++ [e] := by
  simp [events, World.log, List.filter_append, h]

theorem events_log_other {s : Nat} (w : World) (e : Event) (h : e.scope ≠ s) :
    events s (w.log e) = events s w := by
  simp [events, World.log, List.filter_append, h]

/-! ## Frame: operations on other scopes -/

/-- Scope `s` and its history are the same in both worlds. -/
structure Same (s : Nat) (w w' : World) : Prop where
  scope : w'.scopes s = w.scopes s
  evs : events s w' = events s w

theorem Same.refl (s : Nat) (w : World) : Same s w w := ⟨rfl, rfl⟩

theorem Same.trans {s : Nat} {a b c : World} (h : Same s a b) (k : Same s b c) : Same s a c :=
  ⟨k.scope.trans h.scope, k.evs.trans h.evs⟩

theorem Same.set {s t : Nat} (w : World) (sc : Scope) (h : s ≠ t) : Same s w (w.set t sc) :=
  ⟨World.set_other w sc h, rfl⟩

theorem Same.log {s : Nat} (w : World) (e : Event) (h : e.scope ≠ s) : Same s w (w.log e) :=
  ⟨rfl, events_log_other w e h⟩

theorem Same.ticked (s : Nat) (w : World) : Same s w w.ticked := ⟨rfl, rfl⟩

theorem Same.andThen {s : Nat} {w : World} {o : Out} {k : World → Out} (h : Same s w o.world)
    (hk : ∀ w', Same s w w' → Same s w (k w').world) : Same s w (o.andThen k).world := by
  cases o with
  | ok w' => exact hk w' h
  | wild w' => exact h
  | panic w' => exact h
  | running w' => exact h

theorem deferAny_same {s t : Nat} (hst : s ≠ t) (env : Env) (f x : Nat) (b : Bool) (w : World) :
    Same s w (deferAny env t f x b w).world := by
  unfold deferAny
  dsimp only
  split
  · exact ((Same.ticked s w).trans (Same.set _ _ hst)).trans (Same.log _ _ (by simpa [Event.scope] using Ne.symm hst))
  · split
    · exact Same.refl s w
    · exact ((Same.ticked s w).trans (Same.set _ _ hst)).trans (Same.log _ _ (by simpa [Event.scope] using Ne.symm hst))

theorem mallocFull_same {s t : Nat} (hst : s ≠ t) (env : Env) (size f : Nat) (w : World) :
    Same s w (mallocFull env t size f w).world := by
  have key : ∀ (p : Nat) (w1 : World) (sc : Scope), Same s w w1 → Same s w
      ((deferAny env t f p false ((w1.set t sc).log (.allocated t p f))).andThen fun w =>
        .ok (w.set t { w.scopes t with mid := lastIndex w })).world := by
    intro p w1 sc h
    refine Same.andThen (h.trans (((Same.set _ _ hst).trans (Same.log _ _ ?_)).trans
      (deferAny_same hst env f p false _))) fun w' h' => h'.trans (Same.set _ _ hst)
    simpa [Event.scope] using Ne.symm hst
  unfold mallocFull
  split
  · exact Same.ticked s w
  · dsimp only
    split
    · exact key _ _ _ (Same.ticked s w)
    · split
      · exact (Same.ticked s w).trans (Same.ticked s _)
      · exact key _ _ _ ((Same.ticked s w).trans (Same.ticked s _))

theorem deferredInternal_same {s t : Nat} (hst : s ≠ t) (p : W) (w : World) :
    Same s w (deferredInternal t p w).world := by
  unfold deferredInternal
  dsimp only
  split
  · exact Same.set _ _ hst
  · split
    · exact Same.refl s w
    · split
      · exact Same.refl s w
      · exact Same.set _ _ hst

theorem invoke_same {s : Nat} {call : Nat → Nat → World → Out} {ev : Nat → Nat → Event}
    (hcall : ∀ f x w, Same s w (call f x w).world) (hev : ∀ f x, (ev f x).scope ≠ s)
    (e : Entry) (w : World) : Same s w (invoke call ev e w).world := by
  unfold invoke
  split
  · exact Same.refl s w
  · exact Same.refl s w
  · exact (Same.log _ _ (hev _ _)).trans (hcall _ _ _)

theorem runLoop_same {s t : Nat} (hst : s ≠ t) {call : Nat → Nat → World → Out}
    (hcall : ∀ f x w, Same s w (call f x w).world) (cached : Nat) :
    ∀ i w, Same s w (runLoop call t cached i w).world := by
  intro i
  induction i with
  | zero => intro w; exact Same.refl s w
  | succ i ih =>
    intro w
    unfold runLoop
    dsimp only
    split
    · exact Same.refl s w
    · split
      · exact Same.refl s w
      · refine Same.andThen (Same.trans ?_ (invoke_same (ev := Event.ran t) hcall (fun f x => Ne.symm hst) _ _)) ?_
        · split
          · exact Same.set _ _ hst
          · exact Same.refl s w
        · intro w' h'
          split
          · exact h'
          · split
            · exact h'
            · split
              · exact h'
              · exact (h'.trans (Same.set _ _ hst)).trans (ih _)

theorem deferredFree_same {s t : Nat} (hst : s ≠ t) {call : Nat → Nat → World → Out}
    (hcall : ∀ f x w, Same s w (call f x w).world) (w : World) :
    Same s w (deferredFree call t w).world := by
  unfold deferredFree deferredRun
  dsimp only
  split
  · refine Same.andThen (Same.andThen ((Same.set _ _ hst).trans (runLoop_same hst hcall _ _ _)) ?_) ?_
    · intro w' h'
      split
      · exact h'
      · exact h'.trans (Same.set _ _ hst)
    · intro w' h'; exact h'.trans (Same.set _ _ hst)
  · exact Same.refl s w

theorem seq_same {s : Nat} {f : Op → World → Out} :
    ∀ (ops : List Op), (∀ o ∈ ops, ∀ w, Same s w (f o w).world) → ∀ w, Same s w (Out.seq f ops w).world := by
  intro ops
  induction ops with
  | nil => intro _ w; exact Same.refl s w
  | cons o ops ih =>
    intro h w
    unfold Out.seq
    exact Same.andThen (h o List.mem_cons_self w) fun w' h' =>
      h'.trans (ih (fun o ho => h o (List.mem_cons_of_mem _ ho)) w')

theorem exec_same {env : Env} {s : Nat} (hl : Leaves env s) :
    ∀ fuel op, op.scope ≠ s → ∀ w, Same s w (exec env fuel op w).world := by
  intro fuel
  induction fuel with
  | zero => intro op _ w; exact Same.refl s w
  | succ fuel ih =>
    intro op hop w
    have hcall : ∀ f x w, Same s w (Out.seq (exec env fuel) (env.body f x) w).world :=
      fun f x w => seq_same _ (fun o ho w => ih o (hl f x o ho) w) w
    unfold exec
    dsimp only
    split
    · exact Same.refl s w
    · cases op with
      | defer t f x => exact deferAny_same (Ne.symm hop) ..
      | recover t f x => exact deferAny_same (Ne.symm hop) ..
      | malloc t z f => exact mallocFull_same (Ne.symm hop) ..
      | cancel t i => exact deferredInternal_same (Ne.symm hop) ..
      | fire t i =>
        dsimp only
        split
        · exact Same.refl s w
        · exact Same.andThen (invoke_same (ev := Event.fired t) hcall (fun f x => hop) _ _)
            fun w' h' => h'.trans (deferredInternal_same (Ne.symm hop) _ _)
      | release t =>
        exact Same.andThen ((Same.log _ (.relBegin t) hop).trans (deferredFree_same (Ne.symm hop) hcall _))
          fun w' h' => h'.trans (Same.log _ (.relEnd t) hop)
      | delete t =>
        exact Same.andThen ((Same.log _ (.relBegin t) hop).trans (deferredFree_same (Ne.symm hop) hcall _))
          fun w' h' => (h'.trans (Same.log _ (.relEnd t) hop)).trans (Same.set _ _ (Ne.symm hop))
      | setErr t => exact Same.set _ _ (Ne.symm hop)

end Verif
