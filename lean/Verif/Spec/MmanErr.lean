import Verif.Model.MmanErr
/-!
# What a mapping call that fails should tell
-/
namespace Verif.Me
open Verif.Mm

/-- Why the system refuses, in the cases in which there is no doubt what POSIX calls them. -/
inductive Cause
  | accessDenied
  | invalidHandle
  | notEnoughMemory
  | invalidParameter

/-- `winerror.h`: `ERROR_ACCESS_DENIED` and so on. -/
def Cause.code : Cause → Nat
  | .accessDenied => 5
  | .invalidHandle => 6
  | .notEnoughMemory => 8
  | .invalidParameter => 87

/-- The same in `<errno.h>`. -/
def Cause.errno : Cause → Nat
  | .accessDenied => EACCES
  | .invalidHandle => EBADF
  | .notEnoughMemory => ENOMEM
  | .invalidParameter => EINVAL

/-- The system refused for this cause. -/
def Ans.why (a : Ans) (c : Cause) : Prop := a.ok = false ∧ a.last = c.code

/-- The arguments `mmap` refuses itself. -/
def badArgs (len : Q) (prot : D) : Prop := len = 0 ∨ prot = PROT_EXEC

/-- The mapping is to be one of a file, and there is no such file. -/
def badFile (flags : D) (fd : Bool) : Prop := flags &&& MAP_ANONYMOUS = 0 ∧ fd = false

/-- A section handle is made and cannot be closed. -/
def Op.loses : Op → Bool
  | .mmap len prot flags fd _ c _ k =>
    !(decide (len = 0) || decide (prot = PROT_EXEC)) && !(decide (flags &&& MAP_ANONYMOUS = 0) && !fd) && c.ok && !k.ok
  | _ => false

end Verif.Me
