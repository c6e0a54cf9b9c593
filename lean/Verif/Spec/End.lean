import Verif.Model.End
/-!
# How a program should end
-/
namespace Verif.Te

/-- Every deferral once, newest first, with its argument. -/
def ranAll (defs : List (Nat × Nat)) : List Ev := defs.reverse.map fun d => .ran d.1 (some d.2)

/-- The program ends, having done `evs` until then. -/
def Ends (env : Env) (s : St) (evs : List Ev) (flushed : Bool) : Prop :=
  ∃ n, (run env n s).pc = .ended flushed ∧ (run env n s).trace = evs

/-- The callbacks due when an exception or a signal ends the program. -/
def due (env : Env) (sig : Option Bool) : List Ev :=
  (if sig = some true ∧ env.ctrlC.isSome then [.ctrlC] else []) ++ (if env.term.isSome then [.terminate] else [])

/-- Deferred functions of this program return when called with their arguments. -/
def Calm (env : Env) (defs : List (Nat × Nat)) : Prop := ∀ d ∈ defs, ∀ k, env.fn d.1 (some d.2) k = .ret

/-- What the callbacks do and how the program then ends: a callback that calls `exit` cuts the rest short, one that throws does
not; `sig`: it is a signal that ends the program. -/
def callbacks (ctrl term : Option Act) (sig : Bool) : List Ev × Bool :=
  match ctrl, term with
  | some .exit, _ => ([.ctrlC], true)
  | some _, some .exit => ([.ctrlC, .terminate], true)
  | some _, some _ => ([.ctrlC, .terminate], !sig)
  | some _, none => ([.ctrlC], !sig)
  | none, some .exit => ([.terminate], true)
  | none, some _ => ([.terminate], !sig)
  | none, none => ([], !sig)

/-- What the control-c callback does as the call number `k` of user code, if it is due. -/
def ctrlAct (env : Env) (ctrlC : Bool) (k : Nat) : Option Act := if ctrlC then env.ctrlC.map (· k) else none

/-- What the terminate callback does, called after that one. -/
def termAct (env : Env) (ctrlC : Bool) (k : Nat) : Option Act := env.term.map (· (k + if (ctrlAct env ctrlC k).isSome then 1 else 0))

/-- The signals handled since the flags were last reset. -/
def sinceReset (past : List Past) : List Past := past.takeWhile (· != .reset)

end Verif.Te
