import Verif.Model.Queue
/-!
# Lists as sequences

What the macros mean, without pointers: each initialised head has a sequence of elements.
-/
namespace Verif.Bq

/-- The four kinds of lists. -/
inductive Kind
  | slist
  | list
  | simpleq
  | tailq
  deriving DecidableEq

/-- The operations; not every kind has every one. -/
inductive Op
  | init (h : Nat)
  | insertHead (h e : Nat)
  | insertTail (h e : Nat)
  /-- Insert `e` after `s`, which is in list `h`. -/
  | insertAfter (h s e : Nat)
  | insertBefore (h s e : Nat)
  | removeHead (h : Nat)
  /-- Remove the element after `s`. -/
  | removeAfter (h s : Nat)
  | remove (h e : Nat)
  /-- Put `e2` in the place of `e`. -/
  | replace (h e e2 : Nat)
  /-- Append list `h2` to list `h1`. -/
  | concat (h1 h2 : Nat)

/-- The macro called.  `fuel` bounds the loop of `SLIST_REMOVE`. -/
def exec (fuel : Nat) : Kind → Op → Mem → R
  | .slist, .init h, m => .ok (slistInit h m)
  | .slist, .insertHead h e, m => .ok (slistInsertHead h e m)
  | .slist, .insertAfter _ s e, m => .ok (slistInsertAfter s e m)
  | .slist, .removeHead h, m => slistRemoveHead h m
  | .slist, .removeAfter _ s, m => slistRemoveAfter s m
  | .slist, .remove h e, m => slistRemove fuel h e m
  | .list, .init h, m => .ok (listInit h m)
  | .list, .insertHead h e, m => .ok (listInsertHead h e m)
  | .list, .insertAfter _ s e, m => .ok (listInsertAfter s e m)
  | .list, .insertBefore _ s e, m => .ok (listInsertBefore s e m)
  | .list, .remove _ e, m => .ok (listRemove e m)
  | .list, .replace _ e e2, m => .ok (listReplace e e2 m)
  | .simpleq, .init h, m => .ok (simpleqInit h m)
  | .simpleq, .insertHead h e, m => .ok (simpleqInsertHead h e m)
  | .simpleq, .insertTail h e, m => .ok (simpleqInsertTail h e m)
  | .simpleq, .insertAfter h s e, m => .ok (simpleqInsertAfter h s e m)
  | .simpleq, .removeHead h, m => simpleqRemoveHead h m
  | .simpleq, .removeAfter h s, m => simpleqRemoveAfter h s m
  | .simpleq, .concat h1 h2, m => .ok (simpleqConcat h1 h2 m)
  | .tailq, .init h, m => .ok (tailqInit h m)
  | .tailq, .insertHead h e, m => .ok (tailqInsertHead h e m)
  | .tailq, .insertTail h e, m => .ok (tailqInsertTail h e m)
  | .tailq, .insertAfter h s e, m => .ok (tailqInsertAfter h s e m)
  | .tailq, .insertBefore _ s e, m => .ok (tailqInsertBefore s e m)
  | .tailq, .remove h e, m => .ok (tailqRemove h e m)
  | .tailq, .replace h e e2, m => .ok (tailqReplace h e e2 m)
  | .tailq, .concat h1 h2, m => .ok (tailqConcat h1 h2 m)
  | _, _, _ => .wild

/-- Is there such a macro? -/
def offers : Kind → Op → Bool
  | _, .init _ | _, .insertHead _ _ | _, .insertAfter _ _ _ => true
  | .simpleq, .insertTail _ _ | .tailq, .insertTail _ _ => true
  | .list, .insertBefore _ _ _ | .tailq, .insertBefore _ _ _ => true
  | .slist, .removeHead _ | .simpleq, .removeHead _ => true
  | .slist, .removeAfter _ _ | .simpleq, .removeAfter _ _ => true
  | .slist, .remove _ _ | .list, .remove _ _ | .tailq, .remove _ _ => true
  | .list, .replace _ _ _ | .tailq, .replace _ _ _ => true
  | .simpleq, .concat _ _ | .tailq, .concat _ _ => true
  | _, _ => false

/-- The sequences; `none` for a head that was not initialised. -/
abbrev Seqs := Nat → Option (List Nat)

def Seqs.put (σ : Seqs) (h : Nat) (xs : List Nat) : Seqs := fun k => if k = h then some xs else σ k

/-- `e` after `s`. -/
def insertAfter (s e : Nat) : List Nat → List Nat
  | [] => []
  | x :: xs => if x = s then x :: e :: xs else x :: insertAfter s e xs

def insertBefore (s e : Nat) : List Nat → List Nat
  | [] => []
  | x :: xs => if x = s then e :: x :: xs else x :: insertBefore s e xs

def removeAfter (s : Nat) : List Nat → List Nat
  | x :: y :: xs => if x = s then x :: xs else x :: removeAfter s (y :: xs)
  | xs => xs

/-- What an operation does to the sequences. -/
def Op.apply (σ : Seqs) : Op → Seqs
  | .init h => σ.put h []
  | .insertHead h e => σ.put h (e :: (σ h).getD [])
  | .insertTail h e => σ.put h ((σ h).getD [] ++ [e])
  | .insertAfter h s e => σ.put h (Bq.insertAfter s e ((σ h).getD []))
  | .insertBefore h s e => σ.put h (Bq.insertBefore s e ((σ h).getD []))
  | .removeHead h => σ.put h ((σ h).getD []).tail
  | .removeAfter h s => σ.put h (Bq.removeAfter s ((σ h).getD []))
  | .remove h e => σ.put h (((σ h).getD []).erase e)
  | .replace h e e2 => σ.put h (((σ h).getD []).map fun x => if x = e then e2 else x)
  | .concat h1 h2 => (σ.put h1 ((σ h1).getD [] ++ (σ h2).getD [])).put h2 []

/-- The element is in no list. -/
def Seqs.free (σ : Seqs) (e : Nat) : Prop := ∀ h xs, σ h = some xs → e ∉ xs

/-- What the documentation asks of the caller: heads are initialised, elements to be inserted are in no
list, those named are in the list, there is something to remove. -/
def Op.legal (σ : Seqs) : Op → Prop
  | .init _ => True
  | .insertHead h e | .insertTail h e => (∃ xs, σ h = some xs) ∧ σ.free e
  | .insertAfter h s e | .insertBefore h s e | .replace h s e => (∃ xs, σ h = some xs ∧ s ∈ xs) ∧ σ.free e
  | .removeHead h => ∃ x xs, σ h = some (x :: xs)
  | .removeAfter h s => ∃ a y b, σ h = some (a ++ s :: y :: b)
  | .remove h e => ∃ xs, σ h = some xs ∧ e ∈ xs
  | .concat h1 h2 => h1 ≠ h2 ∧ (∃ xs, σ h1 = some xs) ∧ ∃ xs, σ h2 = some xs

/-- A history of macros of one kind. -/
def run (fuel : Nat) (k : Kind) : List Op → Mem → R
  | [], m => .ok m
  | o :: os, m =>
    match exec fuel k o m with
    | .ok m => run fuel k os m
    | r => r

def applyAll (σ : Seqs) (os : List Op) : Seqs := os.foldl Op.apply σ

/-- A legal history; the lists stay shorter than `fuel`. -/
def Legal (fuel : Nat) (k : Kind) : Seqs → List Op → Prop
  | _, [] => True
  | σ, o :: os => offers k o = true ∧ o.legal σ ∧ (∀ h xs, σ h = some xs → xs.length < fuel) ∧ Legal fuel k (o.apply σ) os

/-- No head initialised. -/
def nothing : Seqs := fun _ => none

/-- The element before `e`. -/
def before (e : Nat) : List Nat → Option Nat
  | x :: y :: xs => if y = e then some x else before e (y :: xs)
  | _ => none

/-- The element after `e`. -/
def after (e : Nat) : List Nat → Option Nat
  | x :: xs => if x = e then xs.head? else after e xs
  | [] => none

/-- What a program reads from the lists are the sequences: first and following elements, whole traversals; in tail queues also the last
and preceding elements and the traversal backwards. -/
structure Shows (k : Kind) (m : Mem) (σ : Seqs) : Prop where
  first : ∀ h xs, σ h = some xs → m.next (.hd h) = xs.head?
  follow : ∀ h xs e, σ h = some xs → e ∈ xs → m.next (.el e) = after e xs
  all : ∀ h xs n, σ h = some xs → xs.length < n → walk m n (m.next (.hd h)) = some xs
  last : k = .tailq → ∀ h xs, σ h = some xs → tailqLast h m = xs.getLast?
  precede : k = .tailq → ∀ h xs e, σ h = some xs → e ∈ xs → tailqPrev e m = before e xs
  backwards : k = .tailq → ∀ h xs n, σ h = some xs → xs.length < n → walkBack m n (tailqLast h m) = some xs.reverse

/-- Every legal history from here goes well and leaves what it should. -/
def Behaves (k : Kind) (m : Mem) (σ : Seqs) : Prop :=
  ∀ fuel os, Legal fuel k σ os → ∃ m', run fuel k os m = .ok m' ∧ Shows k m' (applyAll σ os)

/-- The body of a loop that removes, and frees, the elements satisfying `p`: `spoil e` is whatever then happens to the memory of `e`. -/
def removing (fuel : Nat) (k : Kind) (h : Nat) (p : Nat → Bool) (spoil : Nat → Mem → Mem) (e : Nat) (m : Mem) : R :=
  if p e then
    match exec fuel k (.remove h e) m with
    | .ok m' => .ok (spoil e m')
    | r => r
  else .ok m

/-- Nothing but the links within `e` is changed. -/
def Spoils (spoil : Nat → Mem → Mem) : Prop :=
  ∀ e m l, l ≠ .el e → (spoil e m).next l = m.next l ∧ (spoil e m).back l = m.back l

end Verif.Bq
