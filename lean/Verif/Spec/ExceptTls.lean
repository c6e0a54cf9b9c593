import Verif.Spec.Except
/-!
# Programs in which the first exception is the end
-/
namespace Verif.Ex

/-- One after the other; the second only if the first came to its end. -/
def after (r r' : List Nat × Res) : List Nat × Res :=
  match r.2 with
  | .done => (r.1 ++ r'.1, r'.2)
  | _ => r

/-- What a program does up to its first `throw`: its actions, and that exception if there is one.  Handlers have no part in it. -/
def upTo : Stmt → List Nat × Res
  | .mark n => ([n], .done)
  | .seq a b => after (upTo a) (upTo b)
  | .throw e => ([], .thrown e)
  | .ret => ([], .returned)
  | .call s => ((upTo s).1, match (upTo s).2 with | .returned => .done | r => r)
  | .tryCatch body _ => upTo body
  | .tryFinally body _ fin => after (upTo body) (upTo fin)
  | _ => ([], .done)

end Verif.Ex
