import Verif.Model.Cleanup
/-!
# What POSIX says of `pthread_cleanup_push` and `pthread_cleanup_pop`
-/
namespace Verif.Cu

/-- POSIX leaves undefined what happens if a block is left otherwise than at its end or by the thread's exit: programs that do not. -/
def Prog.leaves : Prog → Bool
  | .act _ => false
  | .seq p q => p.leaves || q.leaves
  | .cleanup _ _ body => body.leaves
  | .exit => false
  | .leave => true
  | .call _ => false

/-- No `leave` inside a block, except inside a function called there. -/
def Prog.ok : Prog → Bool
  | .seq p q => p.ok && q.ok
  | .cleanup _ _ body => body.ok && !body.leaves
  | .call p => p.ok
  | _ => true

/-- What happens up to where the thread exits, the function is left or the program ends, and the routines pushed there, the last first.  A routine runs when
its `pthread_cleanup_pop` with an argument other than 0 is reached; when the thread exits, those pushed and not popped run, the last pushed first. -/
def posix : Prog → List Nat → List Event × Out
  | .act n, _ => ([.act n], .normal)
  | .seq p q, pushed =>
    match posix p pushed with
    | (t, .normal) => let r := posix q pushed; (t ++ r.1, r.2)
    | r => r
  | .cleanup r e body, pushed =>
    match posix body (r :: pushed) with
    | (t, .normal) => (t ++ (if e.value then [.ran r] else []), .normal)
    | r => r
  | .exit, pushed => (pushed.map .ran, .exit)
  | .leave, _ => ([], .leave)
  | .call p, pushed =>
    match posix p pushed with
    | (t, .leave) => (t, .normal)
    | r => r

/-- An argument of `pthread_cleanup_pop` that needs no parentheses in front of `|| AbnormalTermination()`, or `a ? b : c` where the value of `b` is not 0 if it is taken. -/
def Exec.plain : Exec → Bool
  | .val _ => true
  | .cond a b _ => !a || b

/-- All arguments of `pthread_cleanup_pop` are such. -/
def Prog.plain : Prog → Bool
  | .seq p q => p.plain && q.plain
  | .cleanup _ e body => e.plain && body.plain
  | .call p => p.plain
  | _ => true

/-- The thread does not exit and no function is left early. -/
def Prog.straight : Prog → Bool
  | .seq p q => p.straight && q.straight
  | .cleanup _ _ body => body.straight
  | .call p => p.straight
  | .exit => false
  | .leave => false
  | .act _ => true

end Verif.Cu
