import Verif.Proof.End
/-!
# C63: how a program ends
-/
namespace Verif.Props
open Verif Verif.Te

/-- The program ends; every deferral of the thread that ends it has run once, newest first, with its argument; then, if an exception
or a signal ended it, the callbacks; and only a program ended by a signal is ended by `_Exit`. -/
def C63_Full : Prop :=
  ∀ (env : Env) (defs : List (Nat × Nat)) (prot isRaii unstack : Bool) (handlers : Nat) (past : List Past) (sig : Option Bool) (c : Cause),
    1 ≤ handlers → (c = .exit → sig = none) →
    Ends env (start defs prot isRaii unstack handlers past sig c)
      (ranAll defs ++ if c = .throw then due env sig else []) (sig = none)

/-- User code that always returns; no callbacks. -/
def quiet : Env := ⟨fun _ _ _ => .ret, none, none⟩

/-- A run that ended stays so: there is one end. -/
theorem run_ended {env : Env} {b : Bool} : ∀ n s, s.pc = .ended b → run env n s = s := by
  intro n
  induction n with
  | zero => intro s _; rfl
  | succ n ih =>
    intro s h
    have : step env s = s := by unfold step; rw [h]
    rw [run, this]; exact ih s h

theorem C63_unique {env : Env} {s : St} {e e' : List Ev} {b b' : Bool} (h : Ends env s e b) (h' : Ends env s e' b') : e = e' ∧ b = b' := by
  obtain ⟨n, h1, h2⟩ := h
  obtain ⟨m, h3, h4⟩ := h'
  have hn := run_ended (env := env) m _ h1
  have hm := run_ended (env := env) n _ h3
  rw [← run_add] at hn hm
  rw [Nat.add_comm m n, hn] at hm
  rw [← hm] at h3 h4
  rw [h1] at h3
  injection h3 with h3
  exact ⟨h2.symm.trans h4, h3⟩

/-- A program whose scope was first used inside a try block and that a signal ends later: nothing deferred runs. -/
theorem C63_dropped : Ends quiet (start [(1, 10), (2, 20)] false false false 1 [] (some false) .throw) [] false := ⟨40, rfl, rfl⟩

theorem C63_full_false : ¬ C63_Full := by
  intro h
  have := C63_unique (h quiet [(1, 10), (2, 20)] false false false 1 [] (some false) .throw (by decide) (by decide)) C63_dropped
  revert this
  decide

/-- `main` returns or calls `exit`: every deferral runs once, newest first, however often `raii_destroy` was registered.
Missing: deferrals that throw or call `exit`. -/
theorem C63_exit_partial (env : Env) (defs : List (Nat × Nat)) (hc : Calm env defs) (p r u : Bool) (h : Nat) (hh : 1 ≤ h)
    (past : List Past) : Ends env (start defs p r u h past none .exit) (ranAll defs) true := by
  have := Ends.exit (start defs p r u h past none .exit) rfl (calm_start hc _ _ _ _ _ _ _) (fun _ => hh)
  rw [pend_start] at this
  exact this

/-- An exception or a signal: every deferral once, newest first, then the callbacks, whatever they do; each at most once.
Missing: deferrals that throw or call `exit`; contexts that do not know of the scope. -/
theorem C63_throw_partial (env : Env) (defs : List (Nat × Nat)) (hc : Calm env defs) (p u : Bool) (h : Nat) (past : List Past)
    (sig : Option Bool) :
    let ctrl := (flags past).2 || sig == some true
    let o := callbacks (ctrlAct env ctrl defs.length) (termAct env ctrl defs.length) ((flags past).1 || sig.isSome)
    Ends env (start defs p true u h past sig .throw) (ranAll defs ++ o.1) o.2 := by
  have := ends_raii (env := env) (s := start defs p true u h past sig .throw) rfl rfl rfl (calm_start hc _ _ _ _ _ _ _) rfl
  rw [pend_start] at this
  simpa [start] using this

/-- The flags say whether a signal, and whether SIGINT, was handled since they were last reset. -/
theorem C63_flags (past : List Past) :
    ((flags past).1 = true ↔ sinceReset past ≠ []) ∧ ((flags past).2 = true ↔ Past.handled true ∈ sinceReset past) := by
  induction past with
  | nil => simp [flags, sinceReset]
  | cons a past ih =>
    rcases a with (_ | _) | _
    · exact ⟨by simp [flags, sinceReset], by simpa [flags, sinceReset] using ih.2⟩
    · simp [flags, sinceReset]
    · simp [flags, sinceReset]

example : flags [.handled false, .reset, .handled true] = (true, false) ∧ flags [.handled false, .handled true, .reset] = (true, true) :=
  ⟨rfl, rfl⟩

/-- If no signal was handled before (or the flags were reset since) and the callbacks return, that is what is expected. -/
theorem C63_due (env : Env) (defs : List (Nat × Nat)) (hc : Calm env defs) (p u : Bool) (h : Nat) (past : List Past)
    (hf : sinceReset past = []) (sig : Option Bool) (h1 : ∀ a, env.ctrlC = some a → ∀ k, a k = .ret)
    (h2 : ∀ a, env.term = some a → ∀ k, a k = .ret) :
    Ends env (start defs p true u h past sig .throw) (ranAll defs ++ due env sig) (sig = none) := by
  have := C63_throw_partial env defs hc p u h past sig
  have hf : flags past = (false, false) := by
    have := C63_flags past
    rw [hf] at this
    rcases h : flags past with ⟨_ | _, _ | _⟩ <;> simp_all
  simp only [hf, Bool.false_or] at this
  have key : callbacks (ctrlAct env (sig == some true) defs.length) (termAct env (sig == some true) defs.length) sig.isSome =
      (due env sig, decide (sig = none)) := by
    rcases env with ⟨fn, ctrlC, term⟩
    dsimp only at h1 h2
    cases ctrlC with
    | none =>
      cases term with
      | none => rcases sig with _ | _ | _ <;> rfl
      | some b =>
        have hb := h2 b rfl
        rcases sig with _ | _ | _ <;> simp [ctrlAct, termAct, callbacks, due, hb]
    | some a =>
      have ha := h1 a rfl
      cases term with
      | none => rcases sig with _ | _ | _ <;> simp [ctrlAct, termAct, callbacks, due, ha]
      | some b =>
        have hb := h2 b rfl
        rcases sig with _ | _ | _ <;> simp [ctrlAct, termAct, callbacks, due, hb, ha]
  rw [key] at this
  exact this

example : Ends ⟨fun _ _ _ => .ret, some fun _ => .ret, some fun _ => .ret⟩ (start [(1, 10), (2, 20)] true true false 3 [] (some true) .throw)
    [.ran 2 (some 20), .ran 1 (some 10), .ctrlC, .terminate] false := ⟨40, rfl, rfl⟩

/-- Callbacks that throw or exit: still once each. -/
example : Ends ⟨fun _ _ _ => .ret, some fun _ => .throw, some fun _ => .exit⟩
    (start [(1, 10), (2, 20)] true true false 3 [.reset, .handled true] (some true) .throw)
    [.ran 2 (some 20), .ran 1 (some 10), .ctrlC, .terminate] true := ⟨40, rfl, rfl⟩

/-- The scope was first used inside a try block, so the outermost context does not know of it: the callbacks come first, and the
deferrals run only if the program is not ended by `_Exit`. -/
theorem C63_plain (env : Env) (defs : List (Nat × Nat)) (hc : Calm env defs) (p u : Bool) (h : Nat) (hh : 1 ≤ h) (past : List Past)
    (sig : Option Bool) :
    let ctrl := (flags past).2 || sig == some true
    let o := callbacks (ctrlAct env ctrl 0) (termAct env ctrl 0) ((flags past).1 || sig.isSome)
    Ends env (start defs p false u h past sig .throw) (o.1 ++ if o.2 then ranAll defs else []) o.2 := by
  have := ends_plain (env := env) (s := start defs p false u h past sig .throw) rfl rfl (calm_start hc _ _ _ _ _ _ _) (fun _ => hh) rfl
  unfold Finishes at this
  rw [pend_start] at this
  exact this

/-- A deferral that throws: the program never ends, at any number of calls deep, whether it is `exit`, an exception or a
signal that it began with. -/
theorem C63_never (env : Env) (defs : List (Nat × Nat)) (j : Nat) (t : Thrower env (defs.map Prod.fst) j) (p u : Bool) (h : Nat)
    (hh : 1 ≤ h) (past : List Past) (sig : Option Bool) (c : Cause) :
    (∀ e b, ¬ Ends env (start defs p true u h past sig c) e b) ∧ ∀ d, ∃ n, (run env n (start defs p true u h past sig c)).depth = d := by
  have hl : L (defs.map Prod.fst) j (start defs p true u h past sig c) := by
    refine ⟨rfl, by simp [start, Function.comp_def], rfl, ?_⟩
    cases c with
    | throw => exact .inl rfl
    | exit => exact .inr (.inr (.inr (.inr ⟨rfl, hh⟩)))
  refine ⟨fun e b ⟨n, h1, _⟩ => (hl.run t n).not_ended b h1, fun d => ?_⟩
  obtain ⟨n, hn⟩ := hl.deep t d
  exact ⟨n, by rw [hn]; simp [start]⟩

example : Thrower ⟨fun f _ _ => if f = 1 then .throw else .ret, none, none⟩ ([(1, 10), (2, 20)].map Prod.fst) 0 := by
  refine ⟨⟨1, rfl, fun _ _ => rfl⟩, fun i f hi hf x k => ?_⟩
  match i, hi with
  | 1, _ => cases hf; rfl
  | i + 2, _ => simp at hf

/-- It throws only the first time: the newer deferrals are called again, with NULL. -/
theorem C63_null_again : Ends ⟨fun f _ k => if f = 1 ∧ k = 1 then .throw else .ret, none, none⟩
    (start [(1, 10), (2, 20)] false true false 1 [] none .exit)
    [.ran 2 (some 20), .ran 1 (some 10), .ran 2 none, .ran 1 (some 10)] true := ⟨40, rfl, rfl⟩

/-- It calls `exit`: it is called again, and older deferrals never. -/
theorem C63_exits : Ends ⟨fun f _ _ => if f = 2 then .exit else .ret, none, none⟩
    (start [(1, 10), (2, 20)] false true false 1 [] none .throw) [.ran 2 (some 20), .ran 2 (some 20)] true := ⟨40, rfl, rfl⟩

/-- A SIGINT that was handled long ago: a later exception calls the control-c callback and ends the program by `_Exit`. -/
theorem C63_stale : Ends ⟨fun _ _ _ => .ret, some fun _ => .ret, none⟩
    (start [(1, 10)] false true false 1 [.handled true] none .throw) [.ran 1 (some 10), .ctrlC] false := ⟨40, rfl, rfl⟩

end Verif.Props
