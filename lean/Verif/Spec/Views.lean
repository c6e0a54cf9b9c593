import Verif.Model.Views
/-!
# What `mmap`, `munmap` and `mprotect` are to do

As POSIX has them: each page is mapped with the protection last asked for it, or not mapped.
-/
namespace Verif.Vs
open Verif.Mm

/-- The protection asked for each page that is mapped. -/
abbrev Pages := Nat → Option Prot

def inRange (a n p : Nat) : Prop := a ≤ p ∧ p < a + n

instance (a n p : Nat) : Decidable (inRange a n p) := inferInstanceAs (Decidable (_ ∧ _))

/-- What a call does that returned `r`. -/
def posix (o : Op) (r : Res) (m : Pages) : Pages := fun p =>
  match o, r with
  | .mmap _ n prot _, .at base => if inRange base n p then some prot else m p
  | .munmap a n, .ok => if inRange a n p then none else m p
  | .mprotect a n prot, .ok => if inRange a n p then some prot else m p
  | _, _ => m p

/-- A whole history with its results. -/
def posixRun : List (Op × Res) → Pages → Pages
  | [], m => m
  | (o, r) :: os, m => posixRun os (posix o r m)

/-- A result the call may have: no mapping that is there is covered unless asked; what is asked to be protected is mapped; unmapping succeeds. -/
def Allowed (o : Op) (r : Res) (m : Pages) : Prop :=
  match o, r with
  | .mmap a n _ fixed, .at base => if fixed then base = a else ∀ p, inRange base n p → m p = none
  | .mmap _ _ _ _, .failed => True
  | .munmap _ _, .ok => True
  | .munmap _ n, .failed => n = 0
  | .mprotect a n _, .ok => ∀ p, inRange a n p → m p ≠ none
  | .mprotect _ _ _, .failed => True
  | _, _ => False

/-- The rights of a page in the space. -/
def rights (s : Space) (p : Nat) : Option Rights := (s.find? (·.has p)).map (·.now p)

/-- Rights are as asked; reading may be possible besides. -/
def Grants (prot : Prot) (r : Rights) : Prop :=
  (prot.getLsbD 0 = true → r.r = true) ∧ r.w = prot.getLsbD 1 ∧ r.x = prot.getLsbD 2

/-- Space and pages are the same to the program. -/
def Same (s : Space) (m : Pages) : Prop :=
  ∀ p, match rights s p, m p with
    | none, none => True
    | some r, some prot => Grants prot r
    | _, _ => False

/-- The results so far were allowed. -/
def AllAllowed : List (Op × Res) → Pages → Prop
  | [], _ => True
  | (o, r) :: os, m => Allowed o r m ∧ AllAllowed os (posix o r m)

/-- Calls with their results. -/
def history (inside : Bool) (os : List (Op × Option Nat)) : List (Op × Res) := (os.map (·.1)).zip (run inside os []).1

/-- C83 in full. -/
def C83_Full : Prop :=
  ∀ (inside : Bool) (os : List (Op × Option Nat)),
    AllAllowed (history inside os) (fun _ => none) ∧ Same (run inside os []).2 (posixRun (history inside os) fun _ => none)

/-- A call of `munmap` that names one mapping whole: the pages of the range that are mapped are those of the view it finds.  Other calls: any. -/
def Whole (inside : Bool) (o : Op) (s : Space) : Prop :=
  match o with
  | .munmap a n => ∃ v ∈ s, names inside a v = true ∧ ∀ p, v.has p = true ↔ inRange a n p ∧ (rights s p).isSome
  | _ => True

/-- Every call of the history does. -/
def AllWhole (inside : Bool) : List (Op × Option Nat) → Space → Prop
  | [], _ => True
  | (o, k) :: os, s => Whole inside o s ∧ AllWhole inside os (step inside k o s).2

end Verif.Vs
