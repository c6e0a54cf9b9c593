import Verif.Model.Dirent

/-!
What `opendir` and the others should do: a stream is what is left of the list of files found when it was opened or rewound.
-/
namespace Verif.Dd.Spec
open Verif.Dd

/-- The streams that are open: the absolute name of the directory, and the files not yet reported. -/
structure St where
  dirs : Nat → Option (List Nat × List Entry)
  next : Nat

def init : St := ⟨fun _ => none, 0⟩

/-- The search for all files of a directory. -/
def all (path : List Nat) : List Nat :=
  if path.getLast? = some 92 ∨ path.getLast? = some 47 ∨ path.getLast? = some 58 then path ++ [42] else path ++ [92, 42]

/-- The directory opened: its absolute name, if there is memory, the name can be converted, has an absolute form, and there are files. -/
def found (name : List Nat) (a : Answers) : Option (List Nat × List Entry) :=
  match a.wide, a.path2 with
  | some w, some p =>
    if name ≠ [] ∧ w ≠ [] ∧ p ≠ [] ∧ a.mDir = true ∧ a.mWdir = true ∧ a.mPatt = true ∧ a.finds (all p) ≠ [] then some (p, a.finds (all p)) else none
  | _, _ => none

/-- How a file is reported: under its name if that can be written in fewer than 260 bytes, else its short name, else as `?`. -/
inductive Shows (mb : List Nat → Option (List Nat)) (e : Entry) : Dirent → Prop
  | name {b : List Nat} : mb e.name = some b → b.length < 260 → Shows mb e ⟨b, b.length, kindOf e⟩
  | alt {b : List Nat} : (∀ b, mb e.name = some b → 260 ≤ b.length) → e.alt ≠ [] → mb e.alt = some b → b.length < 260 → Shows mb e ⟨b, b.length, kindOf e⟩
  | neither : (∀ b, mb e.name = some b → 260 ≤ b.length) → (e.alt = [] ∨ ∀ b, mb e.alt = some b → 260 ≤ b.length) → Shows mb e ⟨[63], 1, .unknown⟩

/-- A call, what it returns and the streams afterwards. `none` from `readdir` says that all files were reported: there is no other sign of an error. -/
inductive Call (mb : List Nat → Option (List Nat)) (s : St) : Op → Ret → St → Prop
  | opened {n a p} : found n a = some p → Call mb s (.opendir n a) (.stream (some s.next)) ⟨fn s.dirs s.next (some p), s.next + 1⟩
  | failed {n a} : found n a = none → Call mb s (.opendir n a) (.stream none) s
  | read {d p e es x} : s.dirs d = some (p, e :: es) → Shows mb e x → Call mb s (.readdir d false) (.entry (some x)) { s with dirs := fn s.dirs d (some (p, es)) }
  | ended {d p err} : s.dirs d = some (p, []) → Call mb s (.readdir d err) (.entry none) s
  | rewound {d p es f} : s.dirs d = some (p, es) → Call mb s (.rewinddir d f) .unit { s with dirs := fn s.dirs d (some (p, f (all p))) }
  | closed {d p} : s.dirs d = some p → Call mb s (.closedir d) .unit { s with dirs := fn s.dirs d none }

/-- Streams are used while they are open. -/
def Legal (s : St) : Op → Prop
  | .opendir _ _ => True
  | .readdir d _ => s.dirs d ≠ none
  | .rewinddir d _ => s.dirs d ≠ none
  | .closedir d => s.dirs d ≠ none

/-- Every call, as long as they are legal, is defined and answered as it should be. -/
def Follows (mb : List Nat → Option (List Nat)) : World → St → List Op → Prop
  | _, _, [] => True
  | w, s, op :: ops => Legal s op → ∃ w' r s', call mb w op = some (w', r) ∧ Call mb s op r s' ∧ Follows mb w' s' ops

/-- A history of calls with what they returned. -/
inductive Hist (mb : List Nat → Option (List Nat)) : World → List (Op × Ret) → World → Prop
  | nil (w : World) : Hist mb w [] w
  | cons {w w1 w2 : World} {op : Op} {r : Ret} {h : List (Op × Ret)} : call mb w op = some (w1, r) → Hist mb w1 h w2 → Hist mb w ((op, r) :: h) w2

/-- The streams still open after a history, given those open before. -/
def still (l : List Nat) : List (Op × Ret) → List Nat
  | [] => l
  | (.opendir _ _, .stream (some d)) :: h => still (d :: l) h
  | (.closedir d, _) :: h => still (l.filter (· ≠ d)) h
  | _ :: h => still l h

/-- The absolute name does not change during a call, and there is no error while searching. -/
def Calm : Op → Prop
  | .opendir _ a => a.path1 = a.path2
  | .readdir _ err => err = false
  | _ => True

end Verif.Dd.Spec
