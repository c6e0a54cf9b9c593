import Verif.Model.CatchIf
/-!
# What `catch_if` and recovery functions should mean

Exceptions as values: no contexts, no jumps.  `same n k` says when `caught(n)` accepts the error whose string is `k`;
it should be equality.
-/
namespace Verif.Ci

/-- How a statement ends. -/
inductive Res
  | done
  | thrown (e : Exn)
  deriving DecidableEq, Repr

/-- What a statement does: the events, the functions deferred (newest first), how it ends. -/
structure Val where
  t : List Ev
  d : List D
  r : Res
  deriving DecidableEq, Repr

/-- One thing after another, the second whatever happened in the first. -/
def Val.both (a b : Val) (r : Res) : Val := ⟨a.t ++ b.t, b.d ++ a.d, r⟩

mutual
/-- `pend` is the exception being handled. -/
def eval (same : Name → Name → Bool) (pend : Option Exn) : Stmt → Val
  | .skip => ⟨[], [], .done⟩
  | .mark n => ⟨[.mark n], [], .done⟩
  | .seq a b =>
    match (eval same pend a).r with
    | .done => (eval same pend a).both (eval same pend b) (eval same pend b).r
    | _ => eval same pend a
  | .throw n => ⟨[], [], .thrown ⟨n, none⟩⟩
  | .panic m => ⟨[], [], .thrown ⟨panicName, some m⟩⟩
  | .init => ⟨[], [], .done⟩
  | .message => ⟨[.msg (pend.map Exn.key)], [], .done⟩
  | .recover d => ⟨[], [d], .done⟩
  | .hold id => ⟨[], [⟨id, none⟩], .done⟩
  | .tryIf body arms fin =>
    let b := eval same none body
    let h := match b.r with
      | .done => b
      | .thrown e => b.both (evalA same e arms) (evalA same e arms).r
    let f := eval same pend fin
    h.both f (match f.r with | .done => h.r | x => x)
/-- The first arm that names the error handles it; if none does, the error goes on after the last `else`. -/
def evalA (same : Name → Name → Bool) (e : Exn) : Arms → Val
  | .other s =>
    let v := eval same (some e) s
    match v.r with
    | .done => { v with r := .thrown e }
    | _ => v
  | .arm n s rest => if same n e.key then eval same (some e) s else evalA same e rest
end

/-- A whole program: what was deferred runs at the end, newest first. -/
def Val.whole (v : Val) : List Ev := v.t ++ v.d.map (.ran ·.id)

/-- The program did `v`: it came to its end, or ended with this exception uncaught. -/
def Meets (o : Out) (v : Val) : Prop :=
  match v.r with
  | .done => ∃ st, o = .ok st ∧ st.trace = v.whole
  | .thrown e => ∃ st, o = .dead e st ∧ st.trace = v.whole

mutual
/-- Programs that throw with `throw(E)` only, hold no memory of the thread's scope, and whose last `else` does not throw. -/
def Stmt.mild (same : Name → Name → Bool) : Stmt → Prop
  | .panic _ | .hold _ => False
  | .seq a b => a.mild same ∧ b.mild same
  | .tryIf body arms fin => body.mild same ∧ arms.mild same ∧ fin.mild same
  | _ => True
def Arms.mild (same : Name → Name → Bool) : Arms → Prop
  | .other s => s.mild same ∧ (eval same none s).r = .done
  | .arm _ s rest => s.mild same ∧ rest.mild same
end

mutual
/-- The names a program throws. -/
def Stmt.thrown : Stmt → List Name
  | .throw n => [n]
  | .seq a b => a.thrown ++ b.thrown
  | .tryIf body arms fin => body.thrown ++ arms.thrown ++ fin.thrown
  | _ => []
def Arms.thrown : Arms → List Name
  | .other s => s.thrown
  | .arm _ s rest => s.thrown ++ rest.thrown
end

mutual
/-- The names a program asks for with `caught`. -/
def Stmt.asked : Stmt → List Name
  | .seq a b => a.asked ++ b.asked
  | .tryIf body arms fin => body.asked ++ arms.asked ++ fin.asked
  | _ => []
def Arms.asked : Arms → List Name
  | .other s => s.asked
  | .arm n s rest => n :: (s.asked ++ rest.asked)
end

/-- No name is 8 bytes long or the beginning of another (what C02 needs). -/
def Stmt.clear (s : Stmt) : Prop := ∀ n ∈ s.asked, n.length ≠ 8 ∧ ∀ m ∈ s.thrown, n <+: m → n = m

end Verif.Ci
