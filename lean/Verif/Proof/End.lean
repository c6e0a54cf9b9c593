import Verif.Spec.End
/-!
# The end of a program: proofs
-/
namespace Verif.Te

theorem Ends.of_step {env : Env} {s : St} {e : List Ev} {b : Bool} (h : Ends env (step env s) e b) : Ends env s e b := by
  obtain ⟨n, h1, h2⟩ := h
  exact ⟨n + 1, h1, h2⟩

theorem Ends.now {env : Env} {s : St} {b : Bool} (h : s.pc = .ended b) : Ends env s s.trace b := ⟨0, h, rfl⟩

/-- What `exit` would still run. -/
def pend (s : St) : List Ev := if s.armed then s.entries.reverse.map fun d => .ran d.1 d.2 else []

/-- The deferred functions return. -/
def CalmSt (env : Env) (s : St) : Prop := s.armed = true → ∀ d ∈ s.entries, ∀ k, env.fn d.1 d.2 k = .ret

theorem take_succ {α : Type} {l : List α} {i : Nat} {a : α} (h : l[i]? = some a) : l.take (i + 1) = l.take i ++ [a] := by
  rw [List.take_add_one, h]; rfl

/-- The loop over the deferrals, when they return. -/
theorem Ends.defers {env : Env} {e : List Ev} {b : Bool} {r : Ret} (i : Nat) : ∀ (s : St), s.pc = .defers i r → i ≤ s.entries.length →
    (∀ d ∈ s.entries.take i, ∀ k, env.fn d.1 d.2 k = .ret) →
    Ends env (back { s with
      entries := [], armed := false, calls := s.calls + i
      trace := s.trace ++ (s.entries.take i).reverse.map fun d => .ran d.1 d.2 } r) e b → Ends env s e b := by
  induction i with
  | zero =>
    intro s hp _ _ h
    refine .of_step ?_
    have e1 : step env s = back { s with entries := [], armed := false } r := by unfold step; rw [hp]
    rw [e1]
    simpa using h
  | succ i ih =>
    intro s hp hi hc h
    have hlt : i < s.entries.length := hi
    obtain ⟨⟨f, x⟩, hd⟩ : ∃ d, s.entries[i]? = some d := ⟨s.entries[i], List.getElem?_eq_getElem hlt⟩
    have ht := take_succ hd
    have hret : env.fn f x s.calls = .ret := by
      refine hc (f, x) ?_ _
      rw [ht]; simp
    have e1 : step env s = { s with
        trace := s.trace ++ [.ran f x], entries := s.entries.set i (f, none), pc := .defers i r, calls := s.calls + 1 } := by
      unfold step
      rw [hp]
      simp only [hd, hret, call]
    refine .of_step ?_
    rw [e1]
    have htk : (s.entries.set i (f, none)).take i = s.entries.take i := by
      rw [List.take_set, List.set_eq_of_length_le]
      simp [List.length_take]; omega
    refine ih _ rfl ?_ ?_ ?_
    · simp; omega
    · intro d hd' k
      dsimp only at hd'
      rw [htk] at hd'
      refine hc d ?_ k
      rw [ht]; exact List.mem_append_left _ hd'
    · dsimp only
      rw [htk]
      rw [ht] at h
      have : s.calls + 1 + i = s.calls + (i + 1) := by omega
      rw [this]
      cases r <;> simpa [back, List.append_assoc] using h

theorem Ends.free {env : Env} {e : List Ev} {b : Bool} {r : Ret} (s : St) (hp : s.pc = .free r) (hc : CalmSt env s)
    (h : Ends env (back { s with
      entries := if s.armed then [] else s.entries, armed := false
      calls := s.calls + if s.armed then s.entries.length else 0, trace := s.trace ++ pend s } r) e b) : Ends env s e b := by
  refine .of_step ?_
  cases ha : s.armed with
  | false =>
    have e1 : step env s = back s r := by unfold step; rw [hp]; simp [ha]
    rw [e1]
    have : s = { s with entries := if s.armed then [] else s.entries, armed := false
                        calls := s.calls + if s.armed then s.entries.length else 0, trace := s.trace ++ pend s } := by
      simp [pend, ha]
      cases s; simp_all
    rw [← this] at h
    exact h
  | true =>
    have e1 : step env s = { s with pc := .defers s.entries.length r } := by unfold step; rw [hp]; simp [ha]
    rw [e1]
    refine Ends.defers s.entries.length _ rfl (Nat.le_refl _) ?_ ?_
    · intro d hd k
      dsimp only at hd
      exact hc ha d (List.mem_of_mem_take hd) k
    · simp only [pend, ha, if_true] at h
      cases r <;> simpa [back] using h

theorem CalmSt.of {env : Env} {s s' : St} (h : CalmSt env s) (h1 : s'.armed = s.armed) (h2 : s'.entries = s.entries) : CalmSt env s' := by
  intro ha d hd k
  rw [h1] at ha; rw [h2] at hd
  exact h ha d hd k

theorem CalmSt.off {env : Env} {s : St} (h : s.armed = false) : CalmSt env s := by
  intro ha; rw [h] at ha; cases ha

theorem Ends.exit_off {env : Env} (n : Nat) : ∀ (s : St), s.handlers = n → s.pc = .exit → s.armed = false → Ends env s s.trace true := by
  induction n with
  | zero =>
    intro s hn hp _
    refine .of_step ?_
    have e1 : step env s = { s with pc := .ended true } := by unfold step; rw [hp]; simp [hn]
    rw [e1]
    exact .now rfl
  | succ n ih =>
    intro s hn hp ha
    refine .of_step ?_
    have e1 : step env s = { s with pc := .free .exit, handlers := n } := by unfold step; rw [hp]; simp [hn]
    rw [e1]
    refine Ends.free _ rfl (.off ha) ?_
    have := ih { s with pc := .exit, handlers := n } rfl rfl ha
    simpa [pend, ha, back] using this

theorem Ends.exit {env : Env} (s : St) (hp : s.pc = .exit) (hc : CalmSt env s) (hh : s.armed = true → 1 ≤ s.handlers) :
    Ends env s (s.trace ++ pend s) true := by
  cases ha : s.armed with
  | false =>
    have := Ends.exit_off (env := env) s.handlers s rfl hp ha
    simpa [pend, ha] using this
  | true =>
    obtain ⟨n, hn⟩ : ∃ n, s.handlers = n + 1 := ⟨s.handlers - 1, by have := hh ha; omega⟩
    refine .of_step ?_
    have e1 : step env s = { s with pc := .free .exit, handlers := n } := by unfold step; rw [hp]; simp [hn]
    rw [e1]
    refine Ends.free _ rfl (hc.of rfl rfl) ?_
    exact Ends.exit_off n _ rfl rfl rfl

/-- What holds once `ex_terminate` is past `raii_destroy`. -/
structure Q (env : Env) (s : St) : Prop where
  calm : CalmSt env s
  handlers : s.armed = true → 1 ≤ s.handlers
  still : s.isRaii = false ∨ s.armed = false

/-- What the end looks like from a state: the callbacks, and what `exit` runs. -/
def Finishes (env : Env) (s : St) (o : List Ev × Bool) : Prop :=
  Ends env s (s.trace ++ o.1 ++ if o.2 then pend s else []) o.2

theorem Finishes.term4 {env : Env} {s : St} (q : Q env s) (hp : s.pc = .term4) : Finishes env s ([], !s.gotSignal) := by
  refine Ends.of_step ?_
  cases hg : s.gotSignal with
  | true =>
    have e1 : step env s = { s with pc := .ended false } := by unfold step; rw [hp]; simp [hg]
    rw [e1]
    have := Ends.now (env := env) (s := { s with pc := .ended false }) (b := false) rfl
    simpa using this
  | false =>
    have e1 : step env s = { s with pc := .exit } := by unfold step; rw [hp]; simp [hg]
    rw [e1]
    have := Ends.exit (env := env) { s with pc := .exit } rfl (q.calm.of rfl rfl) q.handlers
    simpa [pend] using this

theorem Finishes.of_step {env : Env} {s s' : St} {o o' : List Ev × Bool} (h : Finishes env s' o') (e : step env s = s')
    (ht : s'.trace ++ o'.1 = s.trace ++ o.1) (hb : o'.2 = o.2) (hpend : pend s' = pend s) : Finishes env s o := by
  refine Ends.of_step ?_
  rw [e, ← ht, ← hb, ← hpend]
  exact h

theorem Finishes.exit {env : Env} {s : St} (q : Q env s) (hp : s.pc = .exit) : Finishes env s ([], true) := by
  have := Ends.exit s hp q.calm q.handlers
  simpa [Finishes] using this

theorem Q.of {env : Env} {s s' : St} (q : Q env s) (h1 : s'.armed = s.armed) (h2 : s'.entries = s.entries)
    (h3 : s'.handlers = s.handlers) (h4 : s'.isRaii = s.isRaii) : Q env s' :=
  ⟨q.calm.of h1 h2, by rw [h1, h3]; exact q.handlers, by rw [h1, h4]; exact q.still⟩

/-- The terminate callback, given what happens when it is not due. -/
theorem Finishes.term3_done {env : Env} {s : St} (q : Q env s) (hp : s.pc = .term3) (hd : s.canTerminate = false ∨ env.term = none) :
    Finishes env s ([], !s.gotSignal) := by
  have e1 : step env s = { s with pc := .term4 } := by
    unfold step; rw [hp]
    rcases hd with e | e <;> simp [e]
  exact (Finishes.term4 (s := { s with pc := .term4 }) (q.of rfl rfl rfl rfl) rfl).of_step e1 rfl rfl rfl

theorem Finishes.term2_done {env : Env} {s : St} {o : List Ev × Bool} (hp : s.pc = .term2)
    (hd : s.gotCtrlC = false ∨ env.ctrlC = none) (h : Finishes env { s with pc := .term3 } o) : Finishes env s o := by
  have e1 : step env s = { s with pc := .term3 } := by
    unfold step; rw [hp]
    rcases hd with e | e
    · simp [e]
    · rw [e]; split <;> simp_all
  exact h.of_step e1 rfl rfl rfl

/-- `ex_terminate` entered again. -/
theorem Finishes.term1_again {env : Env} {s : St} {o : List Ev × Bool} (q : Q env s) (hp : s.pc = .term1)
    (h : Finishes env { s with pc := .term2 } o) : Finishes env s o := by
  rcases q.still with hr | ha
  · have e1 : step env s = { s with pc := .term2 } := by unfold step; rw [hp]; simp [hr]
    exact h.of_step e1 rfl rfl rfl
  · cases hr : s.isRaii with
    | false =>
      have e1 : step env s = { s with pc := .term2 } := by unfold step; rw [hp]; simp [hr]
      exact h.of_step e1 rfl rfl rfl
    | true =>
      have e1 : step env s = { s with pc := .free .terminate } := by unfold step; rw [hp]; simp [hr]
      have e2 : step env { s with pc := .free .terminate } = { s with pc := .term2 } := by unfold step; simp [ha, back]
      exact (h.of_step e2 rfl rfl rfl).of_step e1 rfl rfl rfl

theorem Finishes.throw_again {env : Env} {s : St} {o : List Ev × Bool} (q : Q env s) (hp : s.pc = .throw)
    (h : ∀ u, Finishes env { s with pc := .term1, unstack := u } o) : Finishes env s o := by
  cases hu : s.unstack with
  | true =>
    have e1 : step env s = { s with pc := .term1, unstack := true } := by
      unfold step; rw [hp]; simp [hu]
    exact (h true).of_step e1 rfl rfl rfl
  | false =>
    by_cases hc : (s.isRaii && s.prot) = true
    · have ha : s.armed = false := by
        rcases q.still with e | e
        · rw [e] at hc; simp at hc
        · exact e
      have e1 : step env s = { s with pc := .free .unwind, unstack := true } := by
        unfold step; rw [hp]; simp [hu]; simp at hc; simp [hc]
      have e2 : step env { s with pc := .free .unwind, unstack := true } = { s with pc := .term1, unstack := false } := by
        unfold step; simp [ha, back]
      exact ((h false).of_step e2 rfl rfl rfl).of_step e1 rfl rfl rfl
    · have e1 : step env s = { s with pc := .term1, unstack := false } := by
        unfold step; rw [hp]
        simp at hc
        simp [hu]; exact hc
      exact (h false).of_step e1 rfl rfl rfl

/-- A callback threw after both had their turn. -/
theorem Finishes.throw_last {env : Env} {s : St} (q : Q env s) (hp : s.pc = .throw) (h1 : s.gotCtrlC = false ∨ env.ctrlC = none)
    (h2 : s.canTerminate = false ∨ env.term = none) : Finishes env s ([], !s.gotSignal) := by
  refine Finishes.throw_again q hp fun u => ?_
  refine Finishes.term1_again (q.of rfl rfl rfl rfl) rfl ?_
  refine Finishes.term2_done rfl h1 ?_
  exact Finishes.term3_done (s := { s with pc := .term3, unstack := u }) (q.of rfl rfl rfl rfl) rfl h2

theorem Finishes.term3 {env : Env} {s : St} (q : Q env s) (hp : s.pc = .term3) (h1 : s.gotCtrlC = false ∨ env.ctrlC = none)
    (hc : s.canTerminate = true) : Finishes env s (callbacks none (env.term.map (· s.calls)) s.gotSignal) := by
  cases ht : env.term with
  | none => exact Finishes.term3_done q hp (.inr ht)
  | some a =>
    have e1 : step env s = call (a s.calls) { s with canTerminate := false, trace := s.trace ++ [.terminate] }
        { s with canTerminate := false, trace := s.trace ++ [.terminate], pc := .term4 } := by
      unfold step; rw [hp]; simp [hc, ht]
    cases ha : a s.calls with
    | ret =>
      rw [ha] at e1
      exact (Finishes.term4 (s := { s with canTerminate := false, trace := s.trace ++ [.terminate], pc := .term4, calls := s.calls + 1 })
        (q.of rfl rfl rfl rfl) rfl).of_step e1 (by simp [callbacks, ha]) (by simp [callbacks, ha]) rfl
    | throw =>
      rw [ha] at e1
      refine (Finishes.throw_last (s := { s with
        canTerminate := false, trace := s.trace ++ [.terminate], pc := .throw, calls := s.calls + 1, depth := s.depth + 1 })
        (q.of rfl rfl rfl rfl) rfl h1 (.inl rfl)).of_step e1 (by simp [callbacks, ha]) (by simp [callbacks, ha]) rfl
    | exit =>
      rw [ha] at e1
      exact (Finishes.exit (s := { s with
        canTerminate := false, trace := s.trace ++ [.terminate], pc := .exit, calls := s.calls + 1, depth := s.depth + 1 })
        (q.of rfl rfl rfl rfl) rfl).of_step e1 (by simp [callbacks, ha]) (by simp [callbacks, ha]) rfl

theorem callbacks_cons {a : Act} {t : Option Act} {b : Bool} (h : a ≠ .exit) :
    callbacks (some a) t b = (.ctrlC :: (callbacks none t b).1, (callbacks none t b).2) := by
  cases a <;> first | exact absurd rfl h | (cases t with
    | none => rfl
    | some t => cases t <;> rfl)

theorem Finishes.term2 {env : Env} {s : St} (q : Q env s) (hp : s.pc = .term2) (hc : s.canTerminate = true) :
    Finishes env s (callbacks (ctrlAct env s.gotCtrlC s.calls) (termAct env s.gotCtrlC s.calls) s.gotSignal) := by
  by_cases hd : s.gotCtrlC = false ∨ env.ctrlC = none
  · have hn : ctrlAct env s.gotCtrlC s.calls = none := by
      unfold ctrlAct; rcases hd with e | e <;> simp [e]
    refine Finishes.term2_done hp hd ?_
    have := Finishes.term3 (s := { s with pc := .term3 }) (q.of rfl rfl rfl rfl) rfl hd hc
    unfold termAct
    rw [hn]
    exact this
  · obtain ⟨hg, a, ha⟩ : s.gotCtrlC = true ∧ ∃ a, env.ctrlC = some a := by
      cases hg : s.gotCtrlC with
      | false => exact absurd (.inl hg) hd
      | true =>
        cases ha : env.ctrlC with
        | none => exact absurd (.inr ha) hd
        | some a => exact ⟨rfl, a, rfl⟩
    have hca : ctrlAct env s.gotCtrlC s.calls = some (a s.calls) := by simp [ctrlAct, hg, ha]
    have hta : termAct env s.gotCtrlC s.calls = env.term.map (· (s.calls + 1)) := by simp [termAct, hca]
    have e1 : step env s = call (a s.calls) { s with gotCtrlC := false, trace := s.trace ++ [.ctrlC] }
        { s with gotCtrlC := false, trace := s.trace ++ [.ctrlC], pc := .term3 } := by
      unfold step; rw [hp]; simp [hg, ha]
    rw [hca, hta]
    cases hact : a s.calls with
    | ret =>
      rw [hact] at e1
      rw [callbacks_cons (by decide)]
      exact (Finishes.term3 (s := { s with gotCtrlC := false, trace := s.trace ++ [.ctrlC], pc := .term3, calls := s.calls + 1 })
        (q.of rfl rfl rfl rfl) rfl (.inl rfl) hc).of_step e1 (by simp) rfl rfl
    | throw =>
      rw [hact] at e1
      rw [callbacks_cons (by decide)]
      refine Finishes.of_step (s' := { s with
        gotCtrlC := false, trace := s.trace ++ [.ctrlC], pc := .throw, calls := s.calls + 1, depth := s.depth + 1 })
        (o' := callbacks none (env.term.map (· (s.calls + 1))) s.gotSignal) ?_ e1 (by simp) rfl rfl
      refine Finishes.throw_again (q.of rfl rfl rfl rfl) rfl fun u => ?_
      refine Finishes.term1_again (q.of rfl rfl rfl rfl) rfl ?_
      refine Finishes.term2_done rfl (.inl rfl) ?_
      exact Finishes.term3 (s := { s with
        gotCtrlC := false, trace := s.trace ++ [.ctrlC], pc := .term3, unstack := u, calls := s.calls + 1, depth := s.depth + 1 })
        (q.of rfl rfl rfl rfl) rfl (.inl rfl) hc
    | exit =>
      rw [hact] at e1
      exact (Finishes.exit (s := { s with
        gotCtrlC := false, trace := s.trace ++ [.ctrlC], pc := .exit, calls := s.calls + 1, depth := s.depth + 1 })
        (q.of rfl rfl rfl rfl) rfl).of_step e1 (by simp [callbacks]) (by simp [callbacks]) rfl

/-- The whole of an end by exception when the context knows of the scope. -/
theorem ends_raii {env : Env} {s : St} (hp : s.pc = .throw) (hr : s.isRaii = true) (ha : s.armed = true) (hc : CalmSt env s)
    (ht : s.canTerminate = true) :
    Ends env s (s.trace ++ pend s ++ (callbacks (ctrlAct env s.gotCtrlC (s.calls + s.entries.length)) (termAct env s.gotCtrlC (s.calls + s.entries.length)) s.gotSignal).1)
      (callbacks (ctrlAct env s.gotCtrlC (s.calls + s.entries.length)) (termAct env s.gotCtrlC (s.calls + s.entries.length)) s.gotSignal).2 := by
  have last : ∀ u, Ends env { s with
      pc := .term2, unstack := u, entries := [], armed := false, calls := s.calls + s.entries.length, trace := s.trace ++ pend s }
      (s.trace ++ pend s ++ (callbacks (ctrlAct env s.gotCtrlC (s.calls + s.entries.length))
        (termAct env s.gotCtrlC (s.calls + s.entries.length)) s.gotSignal).1)
      (callbacks (ctrlAct env s.gotCtrlC (s.calls + s.entries.length))
        (termAct env s.gotCtrlC (s.calls + s.entries.length)) s.gotSignal).2 := by
    intro u
    have := Finishes.term2 (env := env) (s := { s with
      pc := .term2, unstack := u, entries := [], armed := false, calls := s.calls + s.entries.length, trace := s.trace ++ pend s })
      ⟨.off rfl, fun h => (by cases h), .inr rfl⟩ rfl ht
    unfold Finishes at this
    simpa [pend] using this
  have direct : ∀ u, Ends env { s with pc := .term1, unstack := u }
      (s.trace ++ pend s ++ (callbacks (ctrlAct env s.gotCtrlC (s.calls + s.entries.length))
        (termAct env s.gotCtrlC (s.calls + s.entries.length)) s.gotSignal).1)
      (callbacks (ctrlAct env s.gotCtrlC (s.calls + s.entries.length))
        (termAct env s.gotCtrlC (s.calls + s.entries.length)) s.gotSignal).2 := by
    intro u
    refine .of_step ?_
    have e1 : step env { s with pc := .term1, unstack := u } = { s with pc := .free .terminate, unstack := u } := by
      unfold step; simp [hr]
    rw [e1]
    refine Ends.free _ rfl (hc.of rfl rfl) ?_
    have := last u
    simpa [back, ha, pend] using this
  refine .of_step ?_
  cases hu : s.unstack with
  | true =>
    have e1 : step env s = { s with pc := .term1, unstack := true } := by
      unfold step; rw [hp]; simp [hu]
    rw [e1]; exact direct true
  | false =>
    cases hpr : s.prot with
    | false =>
      have e1 : step env s = { s with pc := .term1, unstack := false } := by
        unfold step; rw [hp]; simp [hu, hpr]
      rw [e1]; exact direct false
    | true =>
      have e1 : step env s = { s with pc := .free .unwind, unstack := true } := by
        unfold step; rw [hp]; simp [hu, hpr, hr]
      rw [e1]
      refine Ends.free _ rfl (hc.of rfl rfl) ?_
      refine .of_step ?_
      have e2 : step env { s with
          pc := .term1, unstack := false, entries := [], armed := false, calls := s.calls + s.entries.length
          trace := s.trace ++ pend s } = { s with
          pc := .free .terminate, unstack := false, entries := [], armed := false, calls := s.calls + s.entries.length
          trace := s.trace ++ pend s } := by
        unfold step; simp [hr]
      have e3 : step env { s with
          pc := .free .terminate, unstack := false, entries := [], armed := false, calls := s.calls + s.entries.length
          trace := s.trace ++ pend s } = { s with
          pc := .term2, unstack := false, entries := [], armed := false, calls := s.calls + s.entries.length
          trace := s.trace ++ pend s } := by
        unfold step; simp [back]
      have h3 := last false
      rw [← e3] at h3
      have h2 := Ends.of_step h3
      rw [← e2] at h2
      have h1 : back { s with
          pc := .free .unwind, unstack := true, entries := if s.armed then [] else s.entries, armed := false
          calls := s.calls + if s.armed then s.entries.length else 0
          trace := s.trace ++ pend { s with pc := .free .unwind, unstack := true } } .unwind = { s with
          pc := .term1, unstack := false, entries := [], armed := false, calls := s.calls + s.entries.length
          trace := s.trace ++ pend s } := by
        simp [back, ha, pend]
      dsimp only
      rw [h1]
      exact h2

/-- The whole of an end by exception when the context does not know of the scope. -/
theorem ends_plain {env : Env} {s : St} (hp : s.pc = .throw) (hr : s.isRaii = false) (hc : CalmSt env s)
    (hh : s.armed = true → 1 ≤ s.handlers) (ht : s.canTerminate = true) :
    Finishes env s (callbacks (ctrlAct env s.gotCtrlC s.calls) (termAct env s.gotCtrlC s.calls) s.gotSignal) := by
  have q : Q env s := ⟨hc, hh, .inl hr⟩
  refine Finishes.throw_again q hp fun u => ?_
  refine Finishes.term1_again (q.of rfl rfl rfl rfl) rfl ?_
  exact Finishes.term2 (s := { s with pc := .term2, unstack := u }) (q.of rfl rfl rfl rfl) rfl ht

theorem pend_start (defs : List (Nat × Nat)) (p r u : Bool) (h : Nat) (past : List Past) (sig : Option Bool) (c : Cause) :
    pend (start defs p r u h past sig c) = ranAll defs := by
  simp [pend, start, ranAll, List.map_reverse, Function.comp_def]

theorem calm_start {env : Env} {defs : List (Nat × Nat)} (hc : Calm env defs) (p r u : Bool) (h : Nat) (past : List Past)
    (sig : Option Bool) (c : Cause) : CalmSt env (start defs p r u h past sig c) := by
  intro _ d hd k
  simp only [start, List.mem_map] at hd
  obtain ⟨d', hd', rfl⟩ := hd
  exact hc d' hd' k

/-! ## A deferred function that throws -/

/-- The deferral at `j` throws whenever it is called, the newer ones return. -/
structure Thrower (env : Env) (fs : List Nat) (j : Nat) : Prop where
  here : ∃ f, fs[j]? = some f ∧ ∀ x k, env.fn f x k = .throw
  newer : ∀ i f, j < i → fs[i]? = some f → ∀ x k, env.fn f x k = .ret

structure L (fs : List Nat) (j : Nat) (s : St) : Prop where
  armed : s.armed = true
  funs : s.entries.map Prod.fst = fs
  raii : s.isRaii = true
  pc : s.pc = .throw ∨ s.pc = .term1 ∨ (∃ r, s.pc = .free r) ∨ (∃ i r, s.pc = .defers i r ∧ j < i ∧ i ≤ fs.length) ∨
    (s.pc = .exit ∧ 1 ≤ s.handlers)

def mes (n : Nat) : Pc → Nat
  | .defers i _ => i
  | .free _ => n + 1
  | .term1 => n + 2
  | .throw => n + 3
  | .exit => n + 4
  | _ => 0

theorem L.step {env : Env} {fs : List Nat} {j : Nat} (t : Thrower env fs j) {s : St} (h : L fs j s) : L fs j (Te.step env s) ∧
    ((Te.step env s).depth = s.depth + 1 ∨ ((Te.step env s).depth = s.depth ∧ mes fs.length (Te.step env s).pc < mes fs.length s.pc)) := by
  have hlen : s.entries.length = fs.length := by rw [← h.funs, List.length_map]
  obtain ⟨f, hf, hthrow⟩ := t.here
  have hj : j < fs.length := (List.getElem?_eq_some_iff.1 hf).1
  rcases h.pc with hp | hp | ⟨r, hp⟩ | ⟨i, r, hp, hi, hle⟩ | ⟨hp, hh⟩
  · cases hu : s.unstack with
    | true =>
      have e1 : Te.step env s = { s with pc := .term1 } := by unfold Te.step; rw [hp]; simp [hu]
      rw [e1]
      exact ⟨⟨h.armed, h.funs, h.raii, .inr (.inl rfl)⟩, .inr ⟨rfl, by rw [hp]; simp [mes]⟩⟩
    | false =>
      cases hpr : s.prot with
      | true =>
        have e1 : Te.step env s = { s with pc := .free .unwind, unstack := true } := by
          unfold Te.step; rw [hp]; simp [hu, hpr, h.raii]
        rw [e1]
        exact ⟨⟨h.armed, h.funs, h.raii, .inr (.inr (.inl ⟨_, rfl⟩))⟩, .inr ⟨rfl, by rw [hp]; simp [mes]⟩⟩
      | false =>
        have e1 : Te.step env s = { s with pc := .term1 } := by unfold Te.step; rw [hp]; simp [hu, hpr]
        rw [e1]
        exact ⟨⟨h.armed, h.funs, h.raii, .inr (.inl rfl)⟩, .inr ⟨rfl, by rw [hp]; simp [mes]⟩⟩
  · have e1 : Te.step env s = { s with pc := .free .terminate } := by unfold Te.step; rw [hp]; simp [h.raii]
    rw [e1]
    exact ⟨⟨h.armed, h.funs, h.raii, .inr (.inr (.inl ⟨_, rfl⟩))⟩, .inr ⟨rfl, by rw [hp]; simp [mes]⟩⟩
  · have e1 : Te.step env s = { s with pc := .defers s.entries.length r } := by unfold Te.step; rw [hp]; simp [h.armed]
    rw [e1]
    exact ⟨⟨h.armed, h.funs, h.raii, .inr (.inr (.inr (.inl ⟨_, r, rfl, by omega, by omega⟩)))⟩, .inr ⟨rfl, by rw [hp]; simp [mes, hlen]⟩⟩
  · obtain ⟨i, rfl⟩ : ∃ i', i = i' + 1 := ⟨i - 1, by omega⟩
    obtain ⟨⟨g, x⟩, hd⟩ : ∃ d, s.entries[i]? = some d :=
      ⟨s.entries[i]'(by omega), List.getElem?_eq_getElem (by omega)⟩
    have hg : fs[i]? = some g := by rw [← h.funs, List.getElem?_map, hd]; rfl
    by_cases hij : i = j
    · subst hij
      have hgf : g = f := by rw [hf] at hg; injection hg with e; exact e.symm
      subst hgf
      have e1 : Te.step env s = { s with
          trace := s.trace ++ [.ran g x], pc := .throw, calls := s.calls + 1, depth := s.depth + 1 } := by
        unfold Te.step; rw [hp]; simp only [hd, hthrow, call]
      rw [e1]
      exact ⟨⟨h.armed, h.funs, h.raii, .inl rfl⟩, .inl rfl⟩
    · have hr := t.newer i g (by omega) hg x s.calls
      have e1 : Te.step env s = { s with
          trace := s.trace ++ [.ran g x], entries := s.entries.set i (g, none), pc := .defers i r, calls := s.calls + 1 } := by
        unfold Te.step; rw [hp]; simp only [hd, hr, call]
      rw [e1]
      refine ⟨⟨h.armed, ?_, h.raii, .inr (.inr (.inr (.inl ⟨i, r, rfl, by omega, by omega⟩)))⟩, .inr ⟨rfl, by rw [hp]; simp [mes]⟩⟩
      dsimp only
      rw [List.map_set, h.funs]
      obtain ⟨hlt, hge⟩ := List.getElem?_eq_some_iff.1 hg
      rw [← hge]; exact List.set_getElem_self hlt
  · obtain ⟨n, hn⟩ : ∃ n, s.handlers = n + 1 := ⟨s.handlers - 1, by omega⟩
    have e1 : Te.step env s = { s with pc := .free .exit, handlers := n } := by unfold Te.step; rw [hp]; simp [hn]
    rw [e1]
    exact ⟨⟨h.armed, h.funs, h.raii, .inr (.inr (.inl ⟨_, rfl⟩))⟩, .inr ⟨rfl, by rw [hp]; simp [mes]⟩⟩

theorem L.run {env : Env} {fs : List Nat} {j : Nat} (t : Thrower env fs j) (n : Nat) : ∀ {s : St}, L fs j s → L fs j (Te.run env n s) := by
  induction n with
  | zero => intro s h; exact h
  | succ n ih => intro s h; exact ih (h.step t).1

theorem L.not_ended {fs : List Nat} {j : Nat} {s : St} (h : L fs j s) (b : Bool) : s.pc ≠ .ended b := by
  intro e
  rcases h.pc with hp | hp | ⟨r, hp⟩ | ⟨i, r, hp, _⟩ | ⟨hp, _⟩ <;> rw [e] at hp <;> cases hp

theorem run_add (env : Env) (m n : Nat) : ∀ s, run env (m + n) s = run env n (run env m s) := by
  induction m with
  | zero => intro s; simp [run]
  | succ m ih => intro s; rw [Nat.add_right_comm]; exact ih _

theorem L.deeper {env : Env} {fs : List Nat} {j : Nat} (t : Thrower env fs j) (m : Nat) : ∀ {s : St}, L fs j s →
    mes fs.length s.pc ≤ m → ∃ n, (Te.run env n s).depth = s.depth + 1 := by
  induction m with
  | zero =>
    intro s h hm
    obtain ⟨_, hd | ⟨_, hd⟩⟩ := h.step t
    · exact ⟨1, hd⟩
    · omega
  | succ m ih =>
    intro s h hm
    obtain ⟨hl, hd | ⟨hd, hlt⟩⟩ := h.step t
    · exact ⟨1, hd⟩
    · obtain ⟨n, hn⟩ := ih hl (by omega)
      exact ⟨n + 1, by rw [← hd]; exact hn⟩

theorem L.deep {env : Env} {fs : List Nat} {j : Nat} (t : Thrower env fs j) {s : St} (h : L fs j s) (d : Nat) :
    ∃ n, (Te.run env n s).depth = s.depth + d := by
  induction d with
  | zero => exact ⟨0, rfl⟩
  | succ d ih =>
    obtain ⟨n, hn⟩ := ih
    obtain ⟨m, hm⟩ := (h.run t n).deeper t _ (Nat.le_refl _)
    exact ⟨n + m, by rw [run_add, hm, hn]; omega⟩

end Verif.Te
