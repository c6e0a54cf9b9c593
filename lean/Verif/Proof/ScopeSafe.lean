import Verif.Proof.ScopeProg
namespace Verif

/-- The error and deletion marks of scope `s` are unchanged. -/
def Flags (s : Nat) (w w' : World) : Prop :=
  (w'.scopes s).err = (w.scopes s).err ∧ (w'.scopes s).deleted = (w.scopes s).deleted

theorem Flags.refl (s : Nat) (w : World) : Flags s w w := ⟨rfl, rfl⟩
theorem Flags.trans {s : Nat} {a b c : World} (h : Flags s a b) (k : Flags s b c) : Flags s a c :=
  ⟨k.1.trans h.1, k.2.trans h.2⟩

theorem Flags.andThen {s : Nat} {w : World} {o : Out} {k : World → Out} (h : Flags s w o.world)
    (hk : ∀ w', Flags s w' (k w').world) : Flags s w (o.andThen k).world := by
  cases o with
  | ok w' => exact h.trans (hk w')
  | wild w' => exact h
  | panic w' => exact h
  | running w' => exact h

theorem Flags.set {s : Nat} {w : World} {sc : Scope} (h1 : sc.err = (w.scopes s).err)
    (h2 : sc.deleted = (w.scopes s).deleted) : Flags s w (w.set s sc) := by
  constructor
  · rw [World.set_same]; exact h1
  · rw [World.set_same]; exact h2

theorem deferAny_flags (env : Env) (s f x : Nat) (b : Bool) (w : World) :
    Flags s w (deferAny env s f x b w).world := by
  unfold deferAny
  dsimp only
  split
  · exact Flags.set rfl rfl
  · split
    · exact Flags.refl s w
    · exact Flags.set rfl rfl

theorem mallocFull_flags (env : Env) (s size f : Nat) (w : World) :
    Flags s w (mallocFull env s size f w).world := by
  have key : ∀ (p : Nat) (w1 : World), Flags s w w1 → Flags s w
      ((deferAny env s f p false ((w1.set s { w1.scopes s with protector := true, isProtected := true }).log
        (.allocated s p f))).andThen fun w => .ok (w.set s { w.scopes s with mid := lastIndex w })).world := by
    intro p w1 h
    have h1 : Flags s w1 ((w1.set s { w1.scopes s with protector := true, isProtected := true }).log
        (.allocated s p f)) := Flags.set rfl rfl
    exact Flags.andThen ((h.trans h1).trans (deferAny_flags ..)) fun w' => Flags.set rfl rfl
  unfold mallocFull
  split
  · exact Flags.refl s w
  · dsimp only
    split
    · exact key _ _ (Flags.refl s w)
    · split
      · exact Flags.refl s w
      · exact key _ _ (Flags.refl s w)

theorem runLoop_flags {s : Nat} {call : Nat → Nat → World → Out}
    (hcall : ∀ f x w, Flags s w (call f x w).world) (cached : Nat) :
    ∀ i w, Flags s w (runLoop call s cached i w).world := by
  intro i
  induction i with
  | zero => intro w; exact Flags.refl s w
  | succ i ih =>
    intro w
    have hinv : ∀ e w, Flags s w (invoke call (Event.ran s) e w).world := by
      intro e w
      unfold invoke
      split
      · exact Flags.refl s w
      · exact Flags.refl s w
      · have : Flags s w (w.log (.ran s (by assumption) e.data)) := ⟨rfl, rfl⟩
        exact hcall _ _ (w.log _)
    unfold runLoop
    dsimp only
    split
    · exact Flags.refl s w
    · split
      · exact Flags.refl s w
      · refine Flags.andThen (Flags.trans ?_ (hinv _ _)) ?_
        · split
          · exact Flags.set rfl rfl
          · exact Flags.refl s w
        · intro w'
          split
          · exact Flags.refl s w'
          · split
            · exact Flags.refl s w'
            · split
              · exact Flags.refl s w'
              · refine Flags.trans (b := World.set ..) ?_ (ih _)
                exact Flags.set rfl rfl

theorem deferredFree_flags {s : Nat} {call : Nat → Nat → World → Out}
    (hcall : ∀ f x w, Flags s w (call f x w).world) (w : World) :
    Flags s w (deferredFree call s w).world := by
  unfold deferredFree deferredRun
  dsimp only
  split
  · refine Flags.andThen (Flags.andThen (Flags.trans (b := World.set ..) ?_ (runLoop_flags hcall _ _ _)) ?_) ?_
    · exact Flags.set rfl rfl
    · intro w'
      split
      · exact Flags.refl s w'
      · exact Flags.set rfl rfl
    · intro w'; exact Flags.set rfl rfl
  · exact Flags.refl s w

theorem Leaf.leaves {env : Env} (h : Leaf env) (s : Nat) : Leaves env s := by
  intro f x o ho
  rw [h f x] at ho
  cases ho

theorem Leaf.call {env : Env} (h : Leaf env) (fuel : Nat) (f x : Nat) (w : World) :
    callOf env fuel f x w = .ok w := by
  unfold callOf
  rw [h f x]
  rfl

theorem exec_flags {env : Env} (hleaf : Leaf env) (fuel : Nat) (op : Op) (w : World) (s : Nat)
    (h1 : op ≠ .setErr s) (h2 : op ≠ .delete s) (hop : op.scope = s) (hix : op.indexes s = false) :
    Flags s w (exec env (fuel + 1) op w).world := by
  have hcall : ∀ f x w, Flags s w (callOf env fuel f x w).world := by
    intro f x w; rw [hleaf.call]; exact Flags.refl s w
  unfold exec
  dsimp only
  split
  · exact Flags.refl s w
  · cases op with
    | defer t f x => obtain rfl : t = s := hop; exact deferAny_flags ..
    | recover t f x => obtain rfl : t = s := hop; exact deferAny_flags ..
    | malloc t z f => obtain rfl : t = s := hop; exact mallocFull_flags ..
    | cancel t i => simp [Op.indexes] at hix; exact absurd hop hix
    | fire t i => simp [Op.indexes] at hix; exact absurd hop hix
    | release t =>
      obtain rfl : t = s := hop
      have hb : Flags t w (w.log (.relBegin t)) := ⟨rfl, rfl⟩
      exact Flags.andThen (hb.trans (deferredFree_flags hcall _)) fun w' => ⟨rfl, rfl⟩
    | delete t => obtain rfl : t = s := hop; exact absurd rfl h2
    | setErr t => obtain rfl : t = s := hop; exact absurd rfl h1

theorem seq_safe {env : Env} (hreal : env.Real) (hleaf : Leaf env) (fuel : Nat) :
    ∀ (ops : List Op) (w : World),
      (∀ s, ∃ ps, InvL s w ps) → (∀ s, (w.scopes s).err = false) →
      (∀ o ∈ ops, (w.scopes o.scope).deleted = false) →
      (∀ s, NoReuse s ops) → NoUseAfterDelete ops →
      (∀ o ∈ ops, ∀ s, o.indexes s = false ∧ o ≠ .setErr s) →
      (∀ s, (∃ o ∈ ops, o.registers s = true) → (w.scopes s).defer.type = RAII_DEF_ARR) →
      (∃ w', Out.seq (exec env (fuel + 1)) ops w = .ok w') ∨
      (∃ w', Out.seq (exec env (fuel + 1)) ops w = .panic w') := by
  intro ops
  induction ops with
  | nil => intro w _ _ _ _ _ _ _; exact .inl ⟨w, rfl⟩
  | cons o ops ih =>
    intro w hinv herr hdel hnr hnud hix hreg
    unfold Out.seq
    obtain ⟨ps, h⟩ := hinv o.scope
    have hix0 := hix o List.mem_cons_self
    rcases exec_live hreal (hleaf.leaves _) fuel o rfl (hix0 _).1 h
      (fun hr => hreg o.scope ⟨o, List.mem_cons_self, hr⟩) with ⟨w', ps', e1, e2, e3, -⟩ | ⟨e1, -, e3⟩
    · rw [e1]
      simp only [Out.andThen]
      have hsame : ∀ s, o.scope ≠ s → Same s w w' := by
        intro s hs
        have := exec_same (hleaf.leaves s) (fuel + 1) o hs w
        rwa [e1] at this
      have hfl : (∀ s, o ≠ .delete s) → Flags o.scope w w' := by
        intro hnd
        have := exec_flags hleaf fuel o w o.scope (hix0 _).2 (hnd _) rfl (hix0 _).1
        rwa [e1] at this
      have hnud' := List.pairwise_cons.1 hnud
      refine ih w' ?_ ?_ ?_ (fun s => (List.pairwise_cons.1 (hnr s)).2) hnud'.2
        (fun o ho => hix o (List.mem_cons_of_mem _ ho)) ?_
      · intro s
        by_cases hs : o.scope = s
        · subst hs; exact ⟨ps', e2⟩
        · obtain ⟨qs, hq⟩ := hinv s
          exact ⟨qs, hq.same (hsame s hs)⟩
      · intro s
        by_cases hs : o.scope = s
        · subst hs
          by_cases hd : ∃ s, o = .delete s
          · obtain ⟨s, rfl⟩ := hd
            have hd0 : (w.scopes s).deleted = false := hdel _ List.mem_cons_self
            have := deferredFree_flags (s := s) (call := callOf env fuel)
              (fun f x w => by rw [hleaf.call]; exact Flags.refl s w) (w.log (.relBegin s))
            simp only [exec, Op.scope, hd0, Bool.false_eq_true, if_false] at e1
            change ((deferredFree (callOf env fuel) s (w.log (.relBegin s))).andThen _) = _ at e1
            cases ho : deferredFree (callOf env fuel) s (w.log (.relBegin s)) with
            | ok w1 =>
              rw [ho] at e1 this
              simp only [Out.andThen, Out.ok.injEq] at e1
              rw [← e1]
              show ((World.set _ s _).scopes s).err = _
              rw [World.set_same]
              exact this.1.trans (herr s)
            | wild w1 => rw [ho] at e1; cases e1
            | panic w1 => rw [ho] at e1; cases e1
            | running w1 => rw [ho] at e1; cases e1
          · rw [(hfl (fun s hs => hd ⟨s, hs⟩)).1]; exact herr _
        · rw [(hsame s hs).scope]; exact herr s
      · intro o' ho'
        by_cases hs : o.scope = o'.scope
        · have hnd : ∀ s, o ≠ .delete s := by
            rintro s rfl
            exact hnud'.1 o' ho' s rfl hs.symm
          rw [← hs, (hfl hnd).2]
          exact hdel o List.mem_cons_self
        · rw [(hsame _ hs).scope]
          exact hdel o' (List.mem_cons_of_mem _ ho')
      · rintro s ⟨o', ho', hr'⟩
        by_cases hs : o.scope = s
        · subst hs
          have : o.releases o.scope = false := by
            cases hc : o.releases o.scope with
            | false => rfl
            | true => rw [(List.pairwise_cons.1 (hnr o.scope)).1 o' ho' hc] at hr'; cases hr'
          rw [e3 this]
          exact hreg _ ⟨o', List.mem_cons_of_mem _ ho', hr'⟩
        · rw [(hsame s hs).scope]
          exact hreg s ⟨o', List.mem_cons_of_mem _ ho', hr'⟩
    · right
      rcases e3 with ⟨w', hw'⟩ | hc | hc | ⟨f, x, w', hc⟩
      · rw [hw']; exact ⟨w', rfl⟩
      · rw [hdel o List.mem_cons_self] at hc; cases hc
      · rw [herr] at hc; cases hc
      · exact absurd (hleaf.call fuel f x w') (hc w')

end Verif
