/-!
The splay trees of `include/compat/sys/tree.h`: the functions `SPLAY_PROTOTYPE` and `SPLAY_GENERATE` generate, one heap of elements, each with the two
links of `SPLAY_ENTRY`. An element is its address, 0 is NULL; to follow a link of NULL is `none`, and so is to hand NULL to the comparison function.
The stack object `__node` is one more address, `nd`, chosen by the environment.
Loops are given a number of rounds; running out of them is `none`.
-/
namespace Verif.Spl

/-- `SPLAY_HEAD` and the `SPLAY_ENTRY`s: `tree.h:59-62`, `tree.h:71-75`. -/
structure Heap where
  root : Nat
  l : Nat → Nat
  r : Nat → Nat

def upd (f : Nat → Nat) (x v : Nat) : Nat → Nat := fun y => if y = x then v else f y

/-- `SPLAY_LEFT`, `tree.h:77`. -/
def Heap.left (h : Heap) (x : Nat) : Option Nat := if x = 0 then none else some (h.l x)
/-- `SPLAY_RIGHT`, `tree.h:78`. -/
def Heap.right (h : Heap) (x : Nat) : Option Nat := if x = 0 then none else some (h.r x)

def Heap.setLeft (h : Heap) (x v : Nat) : Option Heap := if x = 0 then none else some { h with l := upd h.l x v }
def Heap.setRight (h : Heap) (x v : Nat) : Option Heap := if x = 0 then none else some { h with r := upd h.r x v }

/-- `SPLAY_INIT`, `tree.h:67-69`. -/
def Heap.init (h : Heap) : Heap := { h with root := 0 }

/-- `SPLAY_ROTATE_RIGHT`, `tree.h:83-87`. -/
def rotateRight (h : Heap) (tmp : Nat) : Option Heap := do
  let tr ← h.right tmp
  let h ← h.setLeft h.root tr
  let h ← h.setRight tmp h.root
  some { h with root := tmp }

/-- `SPLAY_ROTATE_LEFT`, `tree.h:89-93`. -/
def rotateLeft (h : Heap) (tmp : Nat) : Option Heap := do
  let tl ← h.left tmp
  let h ← h.setRight h.root tl
  let h ← h.setLeft tmp h.root
  some { h with root := tmp }

/-- `SPLAY_LINKLEFT`, `tree.h:95-99`; also the new value of `tmp`. -/
def linkLeft (h : Heap) (tmp : Nat) : Option (Heap × Nat) := do
  let h ← h.setLeft tmp h.root
  let l ← h.left h.root
  some ({ h with root := l }, h.root)

/-- `SPLAY_LINKRIGHT`, `tree.h:101-105`; also the new value of `tmp`. -/
def linkRight (h : Heap) (tmp : Nat) : Option (Heap × Nat) := do
  let h ← h.setRight tmp h.root
  let r ← h.right h.root
  some ({ h with root := r }, h.root)

/-- `SPLAY_ASSEMBLE`, `tree.h:107-112`. -/
def assemble (h : Heap) (node left right : Nat) : Option Heap := do
  let rl ← h.left h.root
  let h ← h.setRight left rl
  let rr ← h.right h.root
  let h ← h.setLeft right rr
  let nr ← h.right node
  let h ← h.setLeft h.root nr
  let nl ← h.left node
  h.setRight h.root nl

/-- A round going left, `tree.h:215-223` and `tree.h:251-259`; `rot` is the test for a rotation. The result is the heap, `__right` and whether the
loop goes on. -/
def roundLeft (rot : Nat → Bool) (h : Heap) (right : Nat) : Option (Heap × Nat × Bool) := do
  let tmp ← h.left h.root
  if tmp = 0 then some (h, right, false)
  else if rot tmp then
    let h ← rotateRight h tmp
    let l ← h.left h.root
    if l = 0 then some (h, right, false)
    else
      let (h, right) ← linkLeft h right
      some (h, right, true)
  else
    let (h, right) ← linkLeft h right
    some (h, right, true)

/-- A round going right, `tree.h:225-233` and `tree.h:261-269`. -/
def roundRight (rot : Nat → Bool) (h : Heap) (left : Nat) : Option (Heap × Nat × Bool) := do
  let tmp ← h.right h.root
  if tmp = 0 then some (h, left, false)
  else if rot tmp then
    let h ← rotateLeft h tmp
    let r ← h.right h.root
    if r = 0 then some (h, left, false)
    else
      let (h, left) ← linkRight h left
      some (h, left, true)
  else
    let (h, left) ← linkRight h left
    some (h, left, true)

/-- The loop of `SPLAY`, `tree.h:213-235`: the heap, `__left` and `__right` after it. -/
def splayLoop (cmp : Nat → Nat → Int) (elm : Nat) : Nat → Heap → Nat → Nat → Option (Heap × Nat × Nat)
  | 0, _, _, _ => none
  | n + 1, h, left, right =>
    if h.root = 0 then none
    else if cmp elm h.root < 0 then do
      let (h, right, go) ← roundLeft (fun tmp => cmp elm tmp < 0) h right
      if go then splayLoop cmp elm n h left right else some (h, left, right)
    else if cmp elm h.root > 0 then do
      let (h, left, go) ← roundRight (fun tmp => cmp elm tmp > 0) h left
      if go then splayLoop cmp elm n h left right else some (h, left, right)
    else some (h, left, right)

/-- `SPLAY_LEFT(&__node) = SPLAY_RIGHT(&__node) = NULL;`, `tree.h:210`, `tree.h:246`; in `SPLAY_INSERT` for `elm`, `tree.h:163`. -/
def clear (h : Heap) (x : Nat) : Option Heap := do
  let h ← h.setRight x 0
  h.setLeft x 0

/-- `SPLAY`, `tree.h:204-237`. -/
def splay (cmp : Nat → Nat → Int) (n nd : Nat) (h : Heap) (elm : Nat) : Option Heap := do
  let h ← clear h nd
  let (h, left, right) ← splayLoop cmp elm n h nd nd
  assemble h nd left right

/-- The loop of `SPLAY_MINMAX`, `tree.h:249-271`; `neg` is `__comp < 0`, otherwise it is above 0. -/
def minmaxLoop (neg : Bool) : Nat → Heap → Nat → Nat → Option (Heap × Nat × Nat)
  | 0, _, _, _ => none
  | n + 1, h, left, right =>
    if neg then do
      let (h, right, go) ← roundLeft (fun _ => true) h right
      if go then minmaxLoop neg n h left right else some (h, left, right)
    else do
      let (h, left, go) ← roundRight (fun _ => true) h left
      if go then minmaxLoop neg n h left right else some (h, left, right)

/-- `SPLAY_MINMAX`, `tree.h:242-273`. -/
def minmax (neg : Bool) (n nd : Nat) (h : Heap) : Option Heap := do
  let h ← clear h nd
  let (h, left, right) ← minmaxLoop neg n h nd nd
  assemble h nd left right

/-- The end of `SPLAY_INSERT` when there is a root, `tree.h:167-179`: what it returns and the heap. -/
def insertAt (cmp : Nat → Nat → Int) (h : Heap) (elm : Nat) : Option (Nat × Heap) :=
  if h.root = 0 then none
  else if cmp elm h.root < 0 then do
    let rl ← h.left h.root
    let h ← h.setLeft elm rl
    let h ← h.setRight elm h.root
    let h ← h.setLeft h.root 0
    some (0, { h with root := elm })
  else if cmp elm h.root > 0 then do
    let rr ← h.right h.root
    let h ← h.setRight elm rr
    let h ← h.setLeft elm h.root
    let h ← h.setRight h.root 0
    some (0, { h with root := elm })
  else some (h.root, h)

/-- `SPLAY_INSERT`, `tree.h:159-181`: what it returns (0 is NULL) and the heap. -/
def insert (cmp : Nat → Nat → Int) (n nd : Nat) (h : Heap) (elm : Nat) : Option (Nat × Heap) :=
  if h.root = 0 then do
    let h ← clear h elm
    some (0, { h with root := elm })
  else do
    let h ← splay cmp n nd h elm
    insertAt cmp h elm

/-- The part of `SPLAY_REMOVE` for a root equal to `elm`, `tree.h:191-198`. -/
def removeRoot (cmp : Nat → Nat → Int) (n nd : Nat) (h : Heap) (elm : Nat) : Option Heap := do
  let rl ← h.left h.root
  let rr ← h.right h.root
  if rl = 0 then some { h with root := rr }
  else
    let h ← splay cmp n nd { h with root := rl } elm
    h.setRight h.root rr

/-- `SPLAY_REMOVE`, `tree.h:183-202`: what it returns and the heap. -/
def remove (cmp : Nat → Nat → Int) (n nd : Nat) (h : Heap) (elm : Nat) : Option (Nat × Heap) :=
  if h.root = 0 then some (0, h)
  else do
    let h ← splay cmp n nd h elm
    if h.root = 0 then none
    else if cmp elm h.root = 0 then
      let h ← removeRoot cmp n nd h elm
      some (elm, h)
    else some (0, h)

/-- `SPLAY_FIND`, `tree.h:123-132`: what it returns and the heap. -/
def find (cmp : Nat → Nat → Int) (n nd : Nat) (h : Heap) (elm : Nat) : Option (Nat × Heap) :=
  if h.root = 0 then some (0, h)
  else do
    let h ← splay cmp n nd h elm
    if h.root = 0 then none
    else if cmp elm h.root = 0 then some (h.root, h) else some (0, h)

/-- `while (SPLAY_LEFT(elm) != NULL) elm = SPLAY_LEFT(elm);`, `tree.h:140-142`. -/
def leftmost : Nat → Heap → Nat → Option Nat
  | 0, _, _ => none
  | n + 1, h, elm => do
    let left ← h.left elm
    if left = 0 then some elm else leftmost n h left

/-- `SPLAY_NEXT`, `tree.h:134-146`. -/
def next (cmp : Nat → Nat → Int) (n nd : Nat) (h : Heap) (elm : Nat) : Option (Nat × Heap) := do
  let h ← splay cmp n nd h elm
  let r ← h.right elm
  if r = 0 then some (0, h)
  else
    let x ← leftmost n h r
    some (x, h)

/-- `SPLAY_MIN`, `tree.h:282-283`, with `SPLAY_MIN_MAX`, `tree.h:148-153`. -/
def min (n nd : Nat) (h : Heap) : Option (Nat × Heap) :=
  if h.root = 0 then some (0, h) else (minmax true n nd h).map fun h => (h.root, h)
/-- `SPLAY_MAX`, `tree.h:284-285`. -/
def max (n nd : Nat) (h : Heap) : Option (Nat × Heap) :=
  if h.root = 0 then some (0, h) else (minmax false n nd h).map fun h => (h.root, h)

/-- `SPLAY_FOREACH` from `x` with a body that does not change the tree, `tree.h:287-290`: the elements in the order of the visits, and the heap. -/
def forEach (cmp : Nat → Nat → Int) (n nd : Nat) : Nat → Heap → Nat → Option (List Nat × Heap)
  | 0, _, _ => none
  | m + 1, h, x =>
    if x = 0 then some ([], h)
    else do
      let (y, h) ← next cmp n nd h x
      let (r, h) ← forEach cmp n nd m h y
      some (x :: r, h)

end Verif.Spl
