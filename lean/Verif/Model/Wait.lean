/-!
# Waiting for processes on Windows

`wait`, `waitpid`, `waitid`, `wait3`, `wait4` of `include/compat/wait.h`. What Windows answers is a parameter: the processes it lists, which of them can be opened, whether
they have ended.
-/
namespace Verif.Wt

/-- `int`, `DWORD`. -/
abbrev D := BitVec 32

/-- `PROCESSENTRY32W`, `include/compat/wait.h:155-167`: the fields used. -/
structure Proc where
  pid : D
  parent : D
  deriving DecidableEq

/-- A process: over, with this exit code; or running, and what it will end with if it ever does. -/
inductive Life
  | ended (code : D)
  | running (later : Option D)
  deriving DecidableEq

/-- What Windows answers. `list`: the processes, in order (`none`: no snapshot). `opens`: `OpenProcess` succeeds. `query`: `GetExitCodeProcess` succeeds. -/
structure Env where
  self : D
  list : Option (List Proc)
  opens : D → Bool
  life : D → Life
  query : Bool

inductive Errno
  | child | inval
  /-- `-EINVAL`, which is the number of no error. -/
  | minusInval
  deriving DecidableEq

/-- A return. `status`: what was stored, `left`: handles that were not closed. -/
structure Out where
  ret : D
  status : Option D
  errno : Option Errno
  left : Nat
  deriving DecidableEq

inductive Res
  | done (o : Out)
  | aborts
  | never
  deriving DecidableEq

def WNOHANG : D := 1
def WUNTRACED : D := 2
def WEXITED : D := 4
def WCONTINUED : D := 8
def WNOWAIT : D := 0x01000000

/-- `include/compat/wait.h:187-209`. -/
def WEXITSTATUS (s : D) : D := (s &&& 0xFF00).sshiftRight 8
def WTERMSIG (s : D) : D := s &&& 0x7F
def WIFEXITED (s : D) : Bool := WTERMSIG s = 0
/-- The conversion to `signed char` keeps the low byte. -/
def WIFSIGNALED (s : D) : Bool := 0 < (((WTERMSIG s + 1).setWidth 8).sshiftRight 1).toInt
def WIFSTOPPED (s : D) : Bool := s &&& 0xFF = 0x7F

def fails (e : Errno) : Res := .done ⟨-1, none, some e, 0⟩

/-- The end of `__waitpid_internal`, `include/compat/wait.h:423-458`, for a process that is over. `rusage` and `infop` are only cleared. -/
def reaped (e : Env) (p : Proc) (code : D) (want : Bool) : Res :=
  let saved : D := if e.query then (code &&& 0xFF) <<< 8 else 0
  .done ⟨p.parent, if want then some saved else none, none, 0⟩

/-- `__waitpid_internal`, `include/compat/wait.h:345-459`. `want`: `status` is not NULL. Both handles stay open when there is a time out. A process that cannot be opened:
`OpenProcess` returns NULL, which is not `INVALID_HANDLE_VALUE`, and then waiting fails. -/
def waitInternal (e : Env) (pid : D) (want : Bool) (options : D) : Res :=
  let nohang : Bool := WNOHANG &&& options = WNOHANG
  if options &&& ~~~ (WUNTRACED ||| WNOWAIT ||| WCONTINUED ||| WNOHANG) ≠ 0 then fails .minusInval
  else if pid ≠ -1 ∧ pid.toInt ≤ 0 then .aborts
  else
    match e.list with
    | none => fails .child
    | some ps =>
      match ps.find? (fun p => if pid = -1 then p.parent = e.self else p.pid = pid) with
      | none => fails .child
      | some p =>
        if !e.opens p.pid then fails .child
        else
          match e.life p.pid with
          | .ended code => reaped e p code want
          | .running later =>
            if nohang then .done ⟨0, none, none, 2⟩
            else
              match later with
              | none => .never
              | some code => reaped e p code want

/-- `include/compat/wait.h:461-464`. -/
def waitpid (e : Env) (pid : D) (want : Bool) (options : D) : Res := waitInternal e pid want options

/-- `include/compat/wait.h:466-469`. -/
def wait (e : Env) (want : Bool) : Res := waitInternal e (-1) want 0

/-- `idtype_t`, `include/compat/wait.h:314-320`; `other`: none of these. -/
inductive Id
  | all | pid | pgid | other
  deriving DecidableEq

/-- `include/compat/wait.h:473-484`. -/
def waitid (e : Env) (t : Id) (id : D) (options : D) : Res :=
  match t with
  | .pid => waitInternal e id false options
  | .pgid => waitInternal e (-id) false options
  | .all => waitInternal e 0 false options
  | .other => fails .inval

/-- `include/compat/wait.h:486-494`. -/
def wait3 (e : Env) (want : Bool) (options : D) : Res := waitInternal e (-1) want options
def wait4 (e : Env) (pid : D) (want : Bool) (options : D) : Res := waitInternal e pid want options

end Verif.Wt
