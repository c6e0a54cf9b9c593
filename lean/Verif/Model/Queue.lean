/-!
# Intrusive lists: the macros of `include/compat/sys/queue.h`

Heads and elements are numbered.  A `next` pointer lives either in a head or in an element; its address
is a `Loc`.  The second word of an entry or a head (`le_prev`, `tqe_prev`, `sqh_last`, `tqh_last`) is the address of a
`next` pointer; that a head and an entry have the same layout is what `TAILQ_LAST` and `TAILQ_PREV` rely on.
A kind of list without the second word never reads it here.  `_Q_INVALIDATE` is empty (no
`QUEUE_MACRO_DEBUG`).  The XOR queues are in `Model/XorQueue`.
-/
namespace Verif.Bq

/-- The address of a `next` pointer: that of head `h` or of element `e`. -/
inductive Loc
  | hd (h : Nat)
  | el (e : Nat)
  deriving DecidableEq

/-- Memory: the `next` pointers (`none` is NULL) and the words behind them. -/
structure Mem where
  next : Loc → Option Nat
  back : Loc → Loc

def Mem.setNext (m : Mem) (l : Loc) (v : Option Nat) : Mem := { m with next := fun k => if k = l then v else m.next k }
def Mem.setBack (m : Mem) (l : Loc) (v : Loc) : Mem := { m with back := fun k => if k = l then v else m.back k }

/-- Result of a macro. -/
inductive R
  | ok (m : Mem)
  /-- NULL was dereferenced. -/
  | wild
  /-- The loop did not end within the steps looked at. -/
  | running

open Loc

/-! ## `SLIST` -/

/-- `queue.h:128-130` `SLIST_INIT`. -/
def slistInit (h : Nat) (m : Mem) : Mem := m.setNext (hd h) none

/-- `queue.h:132-135` `SLIST_INSERT_AFTER`. -/
def slistInsertAfter (s e : Nat) (m : Mem) : Mem :=
  let m := m.setNext (el e) (m.next (el s))
  m.setNext (el s) (some e)

/-- `queue.h:137-140` `SLIST_INSERT_HEAD`. -/
def slistInsertHead (h e : Nat) (m : Mem) : Mem :=
  let m := m.setNext (el e) (m.next (hd h))
  m.setNext (hd h) (some e)

/-- `queue.h:142-144` `SLIST_REMOVE_AFTER`. -/
def slistRemoveAfter (e : Nat) (m : Mem) : R :=
  match m.next (el e) with
  | none => .wild
  | some y => .ok (m.setNext (el e) (m.next (el y)))

/-- `queue.h:146-148` `SLIST_REMOVE_HEAD`. -/
def slistRemoveHead (h : Nat) (m : Mem) : R :=
  match m.next (hd h) with
  | none => .wild
  | some y => .ok (m.setNext (hd h) (m.next (el y)))

/-- The loop of `queue.h:154-160` from `curelm`, and the unlinking. -/
def slistUnlink (e : Nat) : Nat → Option Nat → Mem → R
  | 0, _, _ => .running
  | _ + 1, none, _ => .wild
  | n + 1, some c, m =>
    if m.next (el c) ≠ some e then slistUnlink e n (m.next (el c)) m
    else .ok (m.setNext (el c) (m.next (el e)))

/-- `queue.h:150-162` `SLIST_REMOVE`. -/
def slistRemove (fuel h e : Nat) (m : Mem) : R :=
  if m.next (hd h) = some e then slistRemoveHead h m else slistUnlink e fuel (m.next (hd h)) m

/-! ## `LIST` -/

/-- `queue.h:202-204` `LIST_INIT`. -/
def listInit (h : Nat) (m : Mem) : Mem := m.setNext (hd h) none

/-- `if (p != NULL) p->prev = l`. -/
def Mem.backOf (m : Mem) (p : Option Nat) (l : Loc) : Mem :=
  match p with
  | some y => m.setBack (el y) l
  | none => m

/-- `queue.h:206-212` `LIST_INSERT_AFTER`. -/
def listInsertAfter (s e : Nat) (m : Mem) : Mem :=
  let m := m.setNext (el e) (m.next (el s))
  let m := m.backOf (m.next (el s)) (el e)
  let m := m.setNext (el s) (some e)
  m.setBack (el e) (el s)

/-- `queue.h:214-219` `LIST_INSERT_BEFORE`. -/
def listInsertBefore (s e : Nat) (m : Mem) : Mem :=
  let m := m.setBack (el e) (m.back (el s))
  let m := m.setNext (el e) (some s)
  let m := m.setNext (m.back (el s)) (some e)
  m.setBack (el s) (el e)

/-- `queue.h:221-226` `LIST_INSERT_HEAD`. -/
def listInsertHead (h e : Nat) (m : Mem) : Mem :=
  let m := m.setNext (el e) (m.next (hd h))
  let m := m.backOf (m.next (hd h)) (el e)
  let m := m.setNext (hd h) (some e)
  m.setBack (el e) (hd h)

/-- `queue.h:228-235` `LIST_REMOVE`. -/
def listRemove (e : Nat) (m : Mem) : Mem :=
  let m := m.backOf (m.next (el e)) (m.back (el e))
  m.setNext (m.back (el e)) (m.next (el e))

/-- `queue.h:237-245` `LIST_REPLACE`. -/
def listReplace (e e2 : Nat) (m : Mem) : Mem :=
  let m := m.setNext (el e2) (m.next (el e))
  let m := m.backOf (m.next (el e2)) (el e2)
  let m := m.setBack (el e2) (m.back (el e))
  m.setNext (m.back (el e2)) (some e2)

/-! ## `SIMPLEQ` -/

/-- `queue.h:285-288` `SIMPLEQ_INIT`. -/
def simpleqInit (h : Nat) (m : Mem) : Mem := (m.setNext (hd h) none).setBack (hd h) (hd h)

/-- `if (p == NULL) head->last = l`. -/
def Mem.lastIf (m : Mem) (p : Option Nat) (h : Nat) (l : Loc) : Mem :=
  match p with
  | some _ => m
  | none => m.setBack (hd h) l

/-- `queue.h:290-294` `SIMPLEQ_INSERT_HEAD`. -/
def simpleqInsertHead (h e : Nat) (m : Mem) : Mem :=
  let m := m.setNext (el e) (m.next (hd h))
  let m := m.lastIf (m.next (el e)) h (el e)
  m.setNext (hd h) (some e)

/-- `queue.h:296-300` `SIMPLEQ_INSERT_TAIL`. -/
def simpleqInsertTail (h e : Nat) (m : Mem) : Mem :=
  let m := m.setNext (el e) none
  let m := m.setNext (m.back (hd h)) (some e)
  m.setBack (hd h) (el e)

/-- `queue.h:302-306` `SIMPLEQ_INSERT_AFTER`. -/
def simpleqInsertAfter (h s e : Nat) (m : Mem) : Mem :=
  let m := m.setNext (el e) (m.next (el s))
  let m := m.lastIf (m.next (el e)) h (el e)
  m.setNext (el s) (some e)

/-- `queue.h:308-311` `SIMPLEQ_REMOVE_HEAD`. -/
def simpleqRemoveHead (h : Nat) (m : Mem) : R :=
  match m.next (hd h) with
  | none => .wild
  | some y =>
    let m := m.setNext (hd h) (m.next (el y))
    .ok (m.lastIf (m.next (hd h)) h (hd h))

/-- `queue.h:313-317` `SIMPLEQ_REMOVE_AFTER`. -/
def simpleqRemoveAfter (h e : Nat) (m : Mem) : R :=
  match m.next (el e) with
  | none => .wild
  | some y =>
    let m := m.setNext (el e) (m.next (el y))
    .ok (m.lastIf (m.next (el e)) h (el e))

/-- `queue.h:319-325` `SIMPLEQ_CONCAT`. -/
def simpleqConcat (h1 h2 : Nat) (m : Mem) : Mem :=
  if m.next (hd h2) = none then m
  else
    let m := m.setNext (m.back (hd h1)) (m.next (hd h2))
    let m := m.setBack (hd h1) (m.back (hd h2))
    simpleqInit h2 m

/-! ## `TAILQ` -/

/-- `queue.h:465-468` `TAILQ_INIT`. -/
def tailqInit (h : Nat) (m : Mem) : Mem := (m.setNext (hd h) none).setBack (hd h) (hd h)

/-- `if (p != NULL) p->prev = l; else head->last = l'`. -/
def Mem.backOrLast (m : Mem) (p : Option Nat) (h : Nat) (l l' : Loc) : Mem :=
  match p with
  | some y => m.setBack (el y) l
  | none => m.setBack (hd h) l'

/-- `queue.h:470-478` `TAILQ_INSERT_HEAD`. -/
def tailqInsertHead (h e : Nat) (m : Mem) : Mem :=
  let m := m.setNext (el e) (m.next (hd h))
  let m := m.backOrLast (m.next (hd h)) h (el e) (el e)
  let m := m.setNext (hd h) (some e)
  m.setBack (el e) (hd h)

/-- `queue.h:480-485` `TAILQ_INSERT_TAIL`. -/
def tailqInsertTail (h e : Nat) (m : Mem) : Mem :=
  let m := m.setNext (el e) none
  let m := m.setBack (el e) (m.back (hd h))
  let m := m.setNext (m.back (hd h)) (some e)
  m.setBack (hd h) (el e)

/-- `queue.h:487-495` `TAILQ_INSERT_AFTER`. -/
def tailqInsertAfter (h s e : Nat) (m : Mem) : Mem :=
  let m := m.setNext (el e) (m.next (el s))
  let m := m.backOrLast (m.next (el e)) h (el e) (el e)
  let m := m.setNext (el s) (some e)
  m.setBack (el e) (el s)

/-- `queue.h:497-502` `TAILQ_INSERT_BEFORE`. -/
def tailqInsertBefore (s e : Nat) (m : Mem) : Mem :=
  let m := m.setBack (el e) (m.back (el s))
  let m := m.setNext (el e) (some s)
  let m := m.setNext (m.back (el s)) (some e)
  m.setBack (el s) (el e)

/-- `queue.h:504-513` `TAILQ_REMOVE`. -/
def tailqRemove (h e : Nat) (m : Mem) : Mem :=
  let m := m.backOrLast (m.next (el e)) h (m.back (el e)) (m.back (el e))
  m.setNext (m.back (el e)) (m.next (el e))

/-- `queue.h:515-525` `TAILQ_REPLACE`. -/
def tailqReplace (h e e2 : Nat) (m : Mem) : Mem :=
  let m := m.setNext (el e2) (m.next (el e))
  let m := m.backOrLast (m.next (el e2)) h (el e2) (el e2)
  let m := m.setBack (el e2) (m.back (el e))
  m.setNext (m.back (el e2)) (some e2)

/-- `queue.h:527-534` `TAILQ_CONCAT`. -/
def tailqConcat (h1 h2 : Nat) (m : Mem) : Mem :=
  match m.next (hd h2) with
  | none => m
  | some f =>
    let m := m.setNext (m.back (hd h1)) (some f)
    let m := m.setBack (el f) (m.back (hd h1))
    let m := m.setBack (hd h1) (m.back (hd h2))
    tailqInit h2 m

/-- `queue.h:431-432` `TAILQ_LAST`. -/
def tailqLast (h : Nat) (m : Mem) : Option Nat := m.next (m.back (m.back (hd h)))

/-- `queue.h:434-435` `TAILQ_PREV`. -/
def tailqPrev (e : Nat) (m : Mem) : Option Nat := m.next (m.back (m.back (el e)))

/-! ## Traversal -/

/-- `SLIST_FOREACH` (`queue.h:115-118`), `LIST_FOREACH`, `SIMPLEQ_FOREACH`, `TAILQ_FOREACH`: the elements visited, from pointer `v`; `none` if
the loop did not end within the steps looked at. -/
def walk (m : Mem) : Nat → Option Nat → Option (List Nat)
  | 0, _ => none
  | _ + 1, none => some []
  | n + 1, some e => (walk m n (m.next (el e))).map (e :: ·)

/-- `queue.h:451-454` `TAILQ_FOREACH_REVERSE`. -/
def walkBack (m : Mem) : Nat → Option Nat → Option (List Nat)
  | 0, _ => none
  | _ + 1, none => some []
  | n + 1, some e => (walkBack m n (tailqPrev e m)).map (e :: ·)

/-- `queue.h:120-123` `SLIST_FOREACH_SAFE`, `queue.h:194-197` `LIST_FOREACH_SAFE`, `queue.h:277-280` `SIMPLEQ_FOREACH_SAFE` and
`queue.h:444-448` `TAILQ_FOREACH_SAFE`, with a loop body `f` that may change the lists: the elements visited and the memory at the end; `none` if
the loop did not end within the steps looked at or the body went wrong. -/
def walkSafe (f : Nat → Mem → R) : Nat → Option Nat → Mem → Option (List Nat × Mem)
  | 0, _, _ => none
  | _ + 1, none, m => some ([], m)
  | n + 1, some e, m =>
    match f e m with
    | .ok m' => (walkSafe f n (m.next (el e)) m').map fun r => (e :: r.1, r.2)
    | _ => none

/-- `queue.h:456-460` `TAILQ_FOREACH_REVERSE_SAFE`. -/
def walkBackSafe (f : Nat → Mem → R) : Nat → Option Nat → Mem → Option (List Nat × Mem)
  | 0, _, _ => none
  | _ + 1, none, m => some ([], m)
  | n + 1, some e, m =>
    match f e m with
    | .ok m' => (walkBackSafe f n (tailqPrev e m) m').map fun r => (e :: r.1, r.2)
    | _ => none

end Verif.Bq
