/-!
# The work-stealing scheduler of the examples

`examples/work-steal.c:154-290`: `n` print tasks share one continuation, `done_work`, whose `join_count` each task lowers
when it is done; the one that lowers it last runs the continuation, which sets `done`; workers leave when they
find no task and `done` set.  The queues themselves are C46; here a worker obtains a task that is still queued, or
(`exact = false`, what C46 shows of the deque) one that was handed out before.  A step is one access to shared memory.
-/
namespace Verif.Ws

/-- The life of a task. -/
inductive Task
  | queued | printing | joining | joined
  deriving DecidableEq, Repr

/-- What a worker is doing. -/
inductive Wk
  /-- Looking for a task: `examples/work-steal.c:185-205`. -/
  | look
  /-- In `print_task` of task `t`: `225-232`. -/
  | print (t : Nat)
  /-- In `join_work` for task `t`: `175-180`. -/
  | join (t : Nat)
  /-- In `done_task`: `237-241`. -/
  | cont
  /-- Found nothing; about to look at `done`: `215`. -/
  | check
  | exited
  deriving DecidableEq, Repr

structure St where
  task : Nat → Task
  wk : Nat → Wk
  /-- `done_work->join_count`. -/
  count : BitVec 64
  /-- `done_work` is allocated. -/
  alive : Bool
  done : Bool
  /-- How often each task was printed. -/
  printed : Nat → Nat
  /-- How often the continuation ran. -/
  conts : Nat
  /-- Freed memory was used or freed again. -/
  bad : Bool

/-- `examples/work-steal.c:251-272`. -/
def start (n : Nat) : St :=
  ⟨fun _ => .queued, fun _ => .look, BitVec.ofNat 64 n, true, false, fun _ => 0, 0, false⟩

inductive Lbl
  | obtain (w t : Nat)
  | nothing (w : Nat)
  | print (w : Nat)
  | join (w : Nat)
  | cont (w : Nat)
  | check (w : Nat)
  deriving DecidableEq, Repr

def setWk (s : St) (w : Nat) (k : Wk) : St := { s with wk := fun w' => if w' = w then k else s.wk w' }
def setTask (s : St) (t : Nat) (k : Task) : St := { s with task := fun t' => if t' = t then k else s.task t' }

/-- `int old_join_count = …; if (old_join_count == 1)`: `examples/work-steal.c:176-177`; the conversion to `int` keeps
32 bits. -/
def isLast (old : BitVec 64) : Bool := old.toNat % 2 ^ 32 = 1

/-- One step; `none` if the worker is elsewhere. -/
def step (n : Nat) (exact : Bool) (s : St) : Lbl → Option St
  | .obtain w t =>
    if s.wk w = .look ∧ t < n ∧ (s.task t = .queued ∨ exact = false) then
      some { setTask (setWk s w (.print t)) t .printing with bad := s.bad }
    else none
  | .nothing w => if s.wk w = .look then some (setWk s w .check) else none
  | .print w => match s.wk w with
    | .print t =>
      -- the task and its payload are freed: not a second time
      some { setTask (setWk s w (.join t)) t .joining with
        printed := fun t' => if t' = t then s.printed t + 1 else s.printed t'
        bad := s.bad || (s.printed t != 0) }
    | _ => none
  | .join w => match s.wk w with
    | .join t =>
      let s' := { setTask s t .joined with count := s.count - 1, bad := s.bad || !s.alive }
      some (setWk s' w (if isLast s.count then .cont else .look))
    | _ => none
  | .cont w =>
    if s.wk w = .cont then
      some { setWk s w .look with alive := false, done := true, conts := s.conts + 1, bad := s.bad || !s.alive }
    else none
  | .check w =>
    if s.wk w = .check then some (setWk s w (if s.done then .exited else .look)) else none

def run (n : Nat) (exact : Bool) (s : St) : List Lbl → Option St
  | [] => some s
  | l :: ls => (step n exact s l).bind (run n exact · ls)

end Verif.Ws
