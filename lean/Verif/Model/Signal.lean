/-!
# Signals as exceptions: `ex_signal`, `ex_signal_reset`, `ex_handler`, the set-up done by `try` and `guard`

POSIX build.  What the system does is a parameter: `os s` says whether it lets the process handle
signal `s` (`sigaction` succeeds).  `sigemptyset` does not fail.  Exception names are not NULL.
-/
namespace Verif.Sg

/-- `src/except.c:81-87` an entry of `ex_sig`. -/
structure Slot where
  ex : Option Nat
  sig : Nat
  deriving DecidableEq, Repr

/-- The table, what the system will do on each signal (`true`: call `ex_handler`), and
`exception_signal_set`. -/
structure St where
  tab : List Slot
  installed : Nat → Bool
  set : Bool

/-- `src/except.c:77-79`. -/
def maxSig : Nat := 32

/-- The process before `main`. -/
def start : St := ⟨List.replicate maxSig ⟨none, 0⟩, fun _ => false, false⟩

/-- `src/except.c:570-573`: the first entry that is free or is for this signal. -/
def slot (tab : List Slot) (s : Nat) : Nat := tab.findIdx fun x => x.ex.isNone || x.sig == s

/-- `src/except.c:567-606` `ex_signal`. -/
def register (os : Nat → Bool) (s e : Nat) (st : St) : St :=
  let i := slot st.tab s
  if i = maxSig then st
  else if os s then
    { tab := st.tab.set i ⟨some e, s⟩
      installed := fun t => if t = s then true else st.installed t
      set := true }
  else { st with set := true }

/-- `src/except.c:549-565` `ex_signal_reset`. -/
def reset (os : Nat → Bool) (s : Nat) (st : St) : St :=
  { st with installed := fun t => if t = s && os s then false else st.installed t, set := false }

/-- `src/except.c:608-675` `ex_signal_setup`; `defs` are the signals and names of the platform. -/
def setup (os : Nat → Bool) (defs : List (Nat × Nat)) (st : St) : St :=
  defs.foldl (fun st d => register os d.1 d.2 st) st

/-- `src/except.c:677-725` `ex_signal_default`. -/
def unset (os : Nat → Bool) (defs : List (Nat × Nat)) (st : St) : St :=
  defs.foldl (fun st d => reset os d.1 st) st

/-- `include/exception.h:299-300` the beginning of `try`, also of `guard` (`include/raii.h:533-534`). -/
def enter (os : Nat → Bool) (defs : List (Nat × Nat)) (st : St) : St :=
  if st.set then st else setup os defs st

/-- What a signal does. -/
inductive Effect
  /-- `ex_handler` throws the exception of this name; `none` is NULL. -/
  | throws (e : Option Nat)
  /-- What the system does by itself. -/
  | default
  deriving DecidableEq, Repr

/-- `src/except.c:521-547` `ex_handler`. -/
def handler (tab : List Slot) (s : Nat) : Option Nat :=
  match tab.find? fun x => x.sig == s with
  | some x => x.ex
  | none => none

/-- Signal `s` arrives. -/
def deliver (s : Nat) (st : St) : Effect :=
  if st.installed s then .throws (handler st.tab s) else .default

/-- The same, arriving inside `ex_signal(r, e)` between `src/except.c:595` (`sigaction`) and the last line
but two (`src/except.c:602`), where the table is written. -/
def deliverDuring (os : Nat → Bool) (r : Nat) (s : Nat) (st : St) : Effect :=
  if slot st.tab r ≠ maxSig ∧ os r ∧ r = s then .throws (handler st.tab s) else deliver s st

end Verif.Sg
