/-!
# `pthread_cleanup_push`, `pthread_cleanup_pop` for Windows

`include/compat/pthread.h:594-745`: three implementations.  Programs are trees; what a routine does is not modelled further than that it runs, routines are
not null.  For the implementation in C, `ptw32_push_cleanup` and `ptw32_pop_cleanup` are not in the repository: by their documentation the one links the entry
at the head of the thread's list, the other unlinks the head and calls its routine if told to, and a thread that exits does so for all of its list.
-/
namespace Verif.Cu

/-- The argument of `pthread_cleanup_pop`: an expression, either one that needs no parentheses, or `a ? b : c`. -/
inductive Exec
  | val (b : Bool)
  | cond (a b c : Bool)
  deriving DecidableEq, Repr

/-- Its value. -/
def Exec.value : Exec → Bool
  | .val b => b
  | .cond a b c => if a then b else c

inductive Prog
  /-- Anything else. -/
  | act (n : Nat)
  | seq (p q : Prog)
  /-- `pthread_cleanup_push(r, ...); body; pthread_cleanup_pop(e);` -/
  | cleanup (r : Nat) (e : Exec) (body : Prog)
  /-- `pthread_exit`, or being cancelled. -/
  | exit
  /-- `return`, a jump or an exception out of the function. -/
  | leave
  /-- A call of a function; it is what `leave` leaves. -/
  | call (p : Prog)
  deriving DecidableEq, Repr

inductive Event
  | act (n : Nat)
  /-- Routine `r` is called. -/
  | ran (r : Nat)
  /-- A list entry that is no more is used. -/
  | wild
  deriving DecidableEq, Repr

inductive Out
  | normal
  | exit
  | leave
  deriving DecidableEq, Repr

/-! ## SEH and C++ -/

/-- SEH, the `__finally` block: `if( _execute || AbnormalTermination())`, `include/compat/pthread.h:630`; no parentheses. -/
def sehTest (e : Exec) (abnormal : Bool) : Bool :=
  match e with
  | .val b => b || abnormal
  | .cond a b c => if a then b else c || abnormal

/-- C++: `executeIt` when the destructor is called, `include/compat/pthread.h:699`, `708`, `716`, `731-732`. -/
def cxxTest (e : Exec) (abnormal : Bool) : Bool :=
  if abnormal then true else e.value

/-- Leaving the block in whatever way runs its end. -/
def structured (test : Exec → Bool → Bool) : Prog → List Event × Out
  | .act n => ([.act n], .normal)
  | .seq p q =>
    match structured test p with
    | (t, .normal) => let r := structured test q; (t ++ r.1, r.2)
    | r => r
  | .cleanup r e body =>
    let s := structured test body
    (s.1 ++ (if test e (s.2 != .normal) then [.ran r] else []), s.2)
  | .exit => ([], .exit)
  | .leave => ([], .leave)
  | .call p =>
    let r := structured test p
    (r.1, if r.2 = .leave then .normal else r.2)

/-! ## C -/

/-- An entry of the thread's list: its routine; or the function whose variable it was is left. -/
inductive Entry
  | live (r : Nat)
  | gone
  deriving DecidableEq, Repr

def Entry.run : Entry → Event
  | .live r => .ran r
  | .gone => .wild

/-- `ptw32_pop_cleanup(execute)`: the head is unlinked, for which it is read. -/
def pop (e : Bool) : List Entry → List Event × List Entry
  | [] => ([], [])
  | .live r :: l => (if e then [.ran r] else [], l)
  | .gone :: l => ([.wild], l)

/-- The function has been left; of the list `l` only the entries of its callers, the last `n`, are still there. -/
def bury (n : Nat) (l : List Entry) : List Entry := (l.take (l.length - n)).map (fun _ => .gone) ++ l.drop (l.length - n)

/-- `include/compat/pthread.h:645-653`; the list of the thread before and after. -/
def inC : Prog → List Entry → List Event × Out × List Entry
  | .act n, l => ([.act n], .normal, l)
  | .seq p q, l =>
    match inC p l with
    | (t, .normal, l) => let r := inC q l; (t ++ r.1, r.2)
    | r => r
  | .cleanup r e body, l =>
    match inC body (.live r :: l) with
    | (t, .normal, l) => let p := pop e.value l; (t ++ p.1, .normal, p.2)
    | r => r
  | .exit, l => (l.map Entry.run, .exit, [])
  | .leave, l => ([], .leave, l)
  | .call p, l =>
    match inC p l with
    | (t, .exit, l') => (t, .exit, l')
    | (t, _, l') => (t, .normal, bury l.length l')

/-- A thread runs the program. -/
def runC (p : Prog) : List Event × Out := let r := inC p []; (r.1, r.2.1)
def runSeh (p : Prog) : List Event × Out := structured sehTest p
def runCxx (p : Prog) : List Event × Out := structured cxxTest p

end Verif.Cu
