/-!
# Red-black trees: the `RB_*` macros of `include/compat/sys/tree.h`

Elements are numbered, 0 is NULL.  The four members of an `RB_ENTRY` are functions of the element; reading or writing a member of NULL makes the
operation fail (`none`).  Loops are given a number of rounds; running out of them is also `none`, so that a theorem saying that the result is
`some` for every sufficiently large number says that the code returns and dereferences no NULL.

Where the code reads a member again that it has not changed since, the model reads it once.  `RB_AUGMENT` is empty, as in the header.
`cmp` is the user's comparison of elements.
-/
namespace Verif.Rb

/-- `RB_HEAD` and the `RB_ENTRY`s: `tree.h:293-296`, `tree.h:304-312`. -/
structure Heap where
  root : Nat
  l : Nat → Nat
  r : Nat → Nat
  p : Nat → Nat
  red : Nat → Bool

def upd {β : Type} (f : Nat → β) (x : Nat) (v : β) : Nat → β := fun y => if y = x then v else f y

/-- `RB_LEFT`, `tree.h:314`. -/
def Heap.left (h : Heap) (x : Nat) : Option Nat := if x = 0 then none else some (h.l x)
/-- `RB_RIGHT`, `tree.h:315`. -/
def Heap.right (h : Heap) (x : Nat) : Option Nat := if x = 0 then none else some (h.r x)
/-- `RB_PARENT`, `tree.h:316`. -/
def Heap.parent (h : Heap) (x : Nat) : Option Nat := if x = 0 then none else some (h.p x)
/-- `RB_COLOR`, `tree.h:317`; `true` is `RB_RED`. -/
def Heap.color (h : Heap) (x : Nat) : Option Bool := if x = 0 then none else some (h.red x)

def Heap.setLeft (h : Heap) (x v : Nat) : Option Heap := if x = 0 then none else some { h with l := upd h.l x v }
def Heap.setRight (h : Heap) (x v : Nat) : Option Heap := if x = 0 then none else some { h with r := upd h.r x v }
def Heap.setParent (h : Heap) (x v : Nat) : Option Heap := if x = 0 then none else some { h with p := upd h.p x v }
def Heap.setColor (h : Heap) (x : Nat) (c : Bool) : Option Heap := if x = 0 then none else some { h with red := upd h.red x c }

/-- `if (x) RB_PARENT(x) = v;` -/
def Heap.setParentIf (h : Heap) (x v : Nat) : Option Heap := if x = 0 then some h else h.setParent x v
/-- `if (x) RB_COLOR(x) = c;` -/
def Heap.setColorIf (h : Heap) (x : Nat) (c : Bool) : Option Heap := if x = 0 then some h else h.setColor x c

/-- `RB_INIT`, `tree.h:300-302`. -/
def Heap.init (h : Heap) : Heap := { h with root := 0 }

/-- `RB_SET`, `tree.h:322-326`. -/
def set (h : Heap) (elm parent : Nat) : Option Heap := do
  let h ← h.setParent elm parent
  let h ← h.setRight elm 0
  let h ← h.setLeft elm 0
  h.setColor elm true

/-- `RB_SET_BLACKRED`, `tree.h:328-331`. -/
def setBlackRed (h : Heap) (black red : Nat) : Option Heap := do
  let h ← h.setColor black false
  h.setColor red true

/-- `if (parent) { if (RB_LEFT(parent) == old) RB_LEFT(parent) = new; else RB_RIGHT(parent) = new; } else RB_ROOT(head) = new;`, which the header
writes out in `tree.h:343-349`, `tree.h:363-369`, `tree.h:541-548`, `tree.h:553-560` and `tree.h:575-582`. -/
def link (h : Heap) (parent old new : Nat) : Option Heap :=
  if parent = 0 then some { h with root := new } else do
    let pl ← h.left parent
    if pl = old then h.setLeft parent new else h.setRight parent new

/-- `RB_ROTATE_LEFT`, `tree.h:337-355`; also the new value of `tmp`. -/
def rotateLeft (h : Heap) (elm : Nat) : Option (Heap × Nat) := do
  let tmp ← h.right elm
  let tl ← h.left tmp
  let h ← h.setRight elm tl
  let h ← h.setParentIf tl elm
  let pe ← h.parent elm
  let h ← h.setParent tmp pe
  let h ← link h pe elm tmp
  let h ← h.setLeft tmp elm
  let h ← h.setParent elm tmp
  some (h, tmp)

/-- `RB_ROTATE_RIGHT`, `tree.h:357-375`; also the new value of `tmp`. -/
def rotateRight (h : Heap) (elm : Nat) : Option (Heap × Nat) := do
  let tmp ← h.left elm
  let tr ← h.right tmp
  let h ← h.setLeft elm tr
  let h ← h.setParentIf tr elm
  let pe ← h.parent elm
  let h ← h.setParent tmp pe
  let h ← link h pe elm tmp
  let h ← h.setRight tmp elm
  let h ← h.setParent elm tmp
  some (h, tmp)

/-- `x && RB_COLOR(x) == RB_RED`; the negation is `x == NULL || RB_COLOR(x) == RB_BLACK`. -/
def Heap.isRed (h : Heap) (x : Nat) : Bool := x != 0 && h.red x

/-- The middle part of such a round, `tree.h:417-422`: the heap and the new `parent` and `elm`. -/
def insertInnerLeft (h : Heap) (elm parent : Nat) : Option (Heap × Nat × Nat) := do
  let pr ← h.right parent
  if pr = elm then
    let (h, _) ← rotateLeft h parent
    some (h, elm, parent)
  else some (h, parent, elm)

/-- The middle part of such a round, `tree.h:433-438`. -/
def insertInnerRight (h : Heap) (elm parent : Nat) : Option (Heap × Nat × Nat) := do
  let pl ← h.left parent
  if pl = elm then
    let (h, _) ← rotateRight h parent
    some (h, elm, parent)
  else some (h, parent, elm)

/-- One round of `RB_INSERT_COLOR` when `parent` is the left child, `tree.h:410-424`; the new `elm`. -/
def insertLeft (h : Heap) (elm parent gparent : Nat) : Option (Heap × Nat) := do
  let tmp ← h.right gparent
  if h.isRed tmp then
    let h ← h.setColor tmp false
    let h ← setBlackRed h parent gparent
    some (h, gparent)
  else
    let (h, parent, elm) ← insertInnerLeft h elm parent
    let h ← setBlackRed h parent gparent
    let (h, _) ← rotateRight h gparent
    some (h, elm)

/-- One round of `RB_INSERT_COLOR` when `parent` is the right child, `tree.h:426-440`. -/
def insertRight (h : Heap) (elm parent gparent : Nat) : Option (Heap × Nat) := do
  let tmp ← h.left gparent
  if h.isRed tmp then
    let h ← h.setColor tmp false
    let h ← setBlackRed h parent gparent
    some (h, gparent)
  else
    let (h, parent, elm) ← insertInnerRight h elm parent
    let h ← setBlackRed h parent gparent
    let (h, _) ← rotateLeft h gparent
    some (h, elm)

/-- Which of the two, `tree.h:409`. -/
def insertRound (h : Heap) (elm parent gparent gl : Nat) : Option (Heap × Nat) :=
  if parent = gl then insertLeft h elm parent gparent else insertRight h elm parent gparent

/-- `RB_INSERT_COLOR`, `tree.h:402-444`. -/
def insertColor : Nat → Heap → Nat → Option Heap
  | 0, _, _ => none
  | n + 1, h, elm => do
    let parent ← h.parent elm
    if h.isRed parent then
      let gparent ← h.parent parent
      let gl ← h.left gparent
      let (h, elm) ← insertRound h elm parent gparent gl
      insertColor n h elm
    else h.setColor h.root false

/-- What a round of `RB_REMOVE_COLOR` ends with. -/
inductive Round
  /-- Go on with this `parent` and `elm`. -/
  | next (parent elm : Nat)
  /-- `break`. -/
  | done

/-- The sibling of the left child of `parent`, made black: `tree.h:453-458`. -/
def removeSiblingLeft (h : Heap) (parent : Nat) : Option (Heap × Nat) := do
  let tmp ← h.right parent
  let c ← h.color tmp
  if c then
    let h ← setBlackRed h tmp parent
    let (h, _) ← rotateLeft h parent
    let tmp ← h.right parent
    some (h, tmp)
  else some (h, tmp)

/-- When the sibling's right child is black, its red left child takes its place: `tree.h:467-475`. -/
def removeNearLeft (h : Heap) (parent tmp : Nat) : Option (Heap × Nat) := do
  let tr ← h.right tmp
  if !h.isRed tr then
    let tl ← h.left tmp
    let h ← h.setColorIf tl false
    let h ← h.setColor tmp true
    let (h, _) ← rotateRight h tmp
    let tmp ← h.right parent
    some (h, tmp)
  else some (h, tmp)

/-- One round of `RB_REMOVE_COLOR` when `elm` is the left child, `tree.h:453-483`. -/
def removeLeft (h : Heap) (parent : Nat) : Option (Heap × Round) := do
  let (h, tmp) ← removeSiblingLeft h parent
  let tl ← h.left tmp
  let tr ← h.right tmp
  if !h.isRed tl && !h.isRed tr then
    let h ← h.setColor tmp true
    let pp ← h.parent parent
    some (h, .next pp parent)
  else
    let (h, tmp) ← removeNearLeft h parent tmp
    let pc ← h.color parent
    let h ← h.setColor tmp pc
    let h ← h.setColor parent false
    let tr ← h.right tmp
    let h ← h.setColorIf tr false
    let (h, _) ← rotateLeft h parent
    some (h, .done)

/-- The sibling of the right child of `parent`, made black: `tree.h:485-490`. -/
def removeSiblingRight (h : Heap) (parent : Nat) : Option (Heap × Nat) := do
  let tmp ← h.left parent
  let c ← h.color tmp
  if c then
    let h ← setBlackRed h tmp parent
    let (h, _) ← rotateRight h parent
    let tmp ← h.left parent
    some (h, tmp)
  else some (h, tmp)

/-- When the sibling's left child is black, its red right child takes its place: `tree.h:499-507`. -/
def removeNearRight (h : Heap) (parent tmp : Nat) : Option (Heap × Nat) := do
  let tl ← h.left tmp
  if !h.isRed tl then
    let tr ← h.right tmp
    let h ← h.setColorIf tr false
    let h ← h.setColor tmp true
    let (h, _) ← rotateLeft h tmp
    let tmp ← h.left parent
    some (h, tmp)
  else some (h, tmp)

/-- One round of `RB_REMOVE_COLOR` when `elm` is the right child, `tree.h:485-515`. -/
def removeRight (h : Heap) (parent : Nat) : Option (Heap × Round) := do
  let (h, tmp) ← removeSiblingRight h parent
  let tl ← h.left tmp
  let tr ← h.right tmp
  if !h.isRed tl && !h.isRed tr then
    let h ← h.setColor tmp true
    let pp ← h.parent parent
    some (h, .next pp parent)
  else
    let (h, tmp) ← removeNearRight h parent tmp
    let pc ← h.color parent
    let h ← h.setColor tmp pc
    let h ← h.setColor parent false
    let tl ← h.left tmp
    let h ← h.setColorIf tl false
    let (h, _) ← rotateRight h parent
    some (h, .done)

/-- Which of the two, `tree.h:452`. -/
def removeRound (h : Heap) (elm parent pl : Nat) : Option (Heap × Round) := if pl = elm then removeLeft h parent else removeRight h parent

/-- `RB_REMOVE_COLOR`, `tree.h:446-520`. -/
def removeColor : Nat → Heap → Nat → Nat → Option Heap
  | 0, _, _, _ => none
  | n + 1, h, parent, elm => do
    if !h.isRed elm && elm != h.root then
      let pl ← h.left parent
      let (h, out) ← removeRound h elm parent pl
      match out with
      | .next parent elm => removeColor n h parent elm
      | .done => h.setColorIf h.root false
    else h.setColorIf elm false

/-- The assignments that put `child` where `elm` was under `parent`: `tree.h:539-548` and `tree.h:573-582`. -/
def relink (h : Heap) (elm parent child : Nat) : Option Heap := do
  let h ← h.setParentIf child parent
  link h parent elm child

/-- `while ((left = RB_LEFT(elm))) elm = left;`, `tree.h:534-535`. -/
def leftmost : Nat → Heap → Nat → Option Nat
  | 0, _, _ => none
  | n + 1, h, elm => do
    let left ← h.left elm
    if left = 0 then some elm else leftmost n h left

/-- `do RB_AUGMENT(left); while ((left = RB_PARENT(left)));`, `tree.h:563-568`; `RB_AUGMENT` is empty. -/
def climb : Nat → Heap → Nat → Option Unit
  | 0, _, _ => none
  | n + 1, h, left => do
    let p ← h.parent left
    if p = 0 then some () else climb n h p

/-- The `if (left)` around it, `tree.h:563`. -/
def climbIf (n : Nat) (h : Heap) (parent : Nat) : Option Unit := if parent = 0 then some () else climb n h parent

/-- `elm` takes the place of `old`, beginning with `(elm)->field = (old)->field`: `tree.h:551-562`. -/
def takeOver (h : Heap) (elm old : Nat) : Option Heap := do
  let ol ← h.left old
  let or ← h.right old
  let op ← h.parent old
  let oc ← h.color old
  let h ← h.setLeft elm ol
  let h ← h.setRight elm or
  let h ← h.setParent elm op
  let h ← h.setColor elm oc
  let h ← link h op old elm
  let ol ← h.left old
  let h ← h.setParent ol elm
  let or ← h.right old
  h.setParentIf or elm

/-- The part of `RB_REMOVE` for an element with two children up to `goto color`, `tree.h:532-569`.
The result is the heap, `parent`, `child` and `color`. -/
def removeTwo (n : Nat) (h : Heap) (old : Nat) : Option (Heap × Nat × Nat × Bool) := do
  let first ← h.right old
  let elm ← leftmost n h first
  let child ← h.right elm
  let parent ← h.parent elm
  let color ← h.color elm
  let h ← relink h elm parent child
  let pe ← h.parent elm
  let parent := if pe = old then elm else parent
  let h ← takeOver h elm old
  let _ ← climbIf n h parent
  some (h, parent, child, color)

/-- The part of `RB_REMOVE` for an element with no other child than `child`, `tree.h:571-582`. -/
def removeOne (h : Heap) (elm child : Nat) : Option (Heap × Nat × Nat × Bool) := do
  let parent ← h.parent elm
  let color ← h.color elm
  let h ← relink h elm parent child
  some (h, parent, child, color)

/-- Which of the two, `tree.h:527-531`. -/
def removeLink (n : Nat) (h : Heap) (elm l r : Nat) : Option (Heap × Nat × Nat × Bool) :=
  if l = 0 then removeOne h elm r else if r = 0 then removeOne h elm l else removeTwo n h elm

/-- `RB_REMOVE`, `tree.h:522-587`; it returns `elm`. -/
def remove (n : Nat) (h : Heap) (elm : Nat) : Option Heap := do
  let l ← h.left elm
  let r ← h.right elm
  let (h, parent, child, color) ← removeLink n h elm l r
  if color then some h else removeColor n h parent child

/-- The loop of `RB_INSERT`, `tree.h:597-606`: the element found (or 0), `parent` and whether `comp < 0`. -/
def descend (cmp : Nat → Nat → Int) (elm : Nat) : Nat → Heap → Nat → Nat → Bool → Option (Nat × Nat × Bool)
  | 0, _, _, _, _ => none
  | n + 1, h, tmp, parent, lt =>
    if tmp = 0 then some (0, parent, lt)
    else if cmp elm tmp < 0 then do
      let t ← h.left tmp
      descend cmp elm n h t tmp true
    else if cmp elm tmp > 0 then do
      let t ← h.right tmp
      descend cmp elm n h t tmp false
    else some (tmp, tmp, false)

/-- `tree.h:607-615`. -/
def attach (h : Heap) (elm parent : Nat) (lt : Bool) : Option Heap := do
  let h ← set h elm parent
  if parent = 0 then some { h with root := elm }
  else if lt then h.setLeft parent elm else h.setRight parent elm

/-- `RB_INSERT`, `tree.h:590-618`: what it returns (0 is NULL) and the heap. -/
def insert (cmp : Nat → Nat → Int) (n : Nat) (h : Heap) (elm : Nat) : Option (Nat × Heap) := do
  let (found, parent, lt) ← descend cmp elm n h h.root 0 false
  if found = 0 then
    let h ← attach h elm parent lt
    let h ← insertColor n h elm
    some (0, h)
  else some (found, h)

/-- `RB_FIND`, `tree.h:621-636`. -/
def find (cmp : Nat → Nat → Int) (elm : Nat) : Nat → Heap → Nat → Option Nat
  | 0, _, _ => none
  | n + 1, h, tmp =>
    if tmp = 0 then some 0
    else if cmp elm tmp < 0 then do
      let t ← h.left tmp
      find cmp elm n h t
    else if cmp elm tmp > 0 then do
      let t ← h.right tmp
      find cmp elm n h t
    else some tmp

/-- `RB_NFIND`, `tree.h:639-657`. -/
def nfind (cmp : Nat → Nat → Int) (elm : Nat) : Nat → Heap → Nat → Nat → Option Nat
  | 0, _, _, _ => none
  | n + 1, h, tmp, res =>
    if tmp = 0 then some res
    else if cmp elm tmp < 0 then do
      let t ← h.left tmp
      nfind cmp elm n h t tmp
    else if cmp elm tmp > 0 then do
      let t ← h.right tmp
      nfind cmp elm n h t res
    else some tmp

/-- `while (RB_RIGHT(elm)) elm = RB_RIGHT(elm);`, `tree.h:687-688`. -/
def rightmost : Nat → Heap → Nat → Option Nat
  | 0, _, _ => none
  | n + 1, h, elm => do
    let right ← h.right elm
    if right = 0 then some elm else rightmost n h right

/-- `while (RB_PARENT(elm) && elm == RB_RIGHT(RB_PARENT(elm))) elm = RB_PARENT(elm); elm = RB_PARENT(elm);`, `tree.h:671-674`. -/
def upRight : Nat → Heap → Nat → Option Nat
  | 0, _, _ => none
  | n + 1, h, elm => do
    let p ← h.parent elm
    if p = 0 then some p else do
      let pr ← h.right p
      if elm = pr then upRight n h p else some p

/-- The same with left and right exchanged, `tree.h:693-696`. -/
def upLeft : Nat → Heap → Nat → Option Nat
  | 0, _, _ => none
  | n + 1, h, elm => do
    let p ← h.parent elm
    if p = 0 then some p else do
      let pl ← h.left p
      if elm = pl then upLeft n h p else some p

/-- `RB_NEXT`, `tree.h:660-679`. -/
def next (n : Nat) (h : Heap) (elm : Nat) : Option Nat := do
  let r ← h.right elm
  if r ≠ 0 then leftmost n h r
  else
    let p ← h.parent elm
    if p = 0 then upRight n h elm else do
      let pl ← h.left p
      if elm = pl then some p else upRight n h elm

/-- `RB_PREV`, `tree.h:682-701`. -/
def prev (n : Nat) (h : Heap) (elm : Nat) : Option Nat := do
  let l ← h.left elm
  if l ≠ 0 then rightmost n h l
  else
    let p ← h.parent elm
    if p = 0 then upLeft n h elm else do
      let pr ← h.right p
      if elm = pr then some p else upLeft n h elm

/-- `RB_MINMAX`, `tree.h:703-716`; `neg` is `val < 0`. -/
def minmax (neg : Bool) : Nat → Heap → Nat → Nat → Option Nat
  | 0, _, _, _ => none
  | n + 1, h, tmp, parent =>
    if tmp = 0 then some parent
    else if neg then do
      let t ← h.left tmp
      minmax neg n h t tmp
    else do
      let t ← h.right tmp
      minmax neg n h t tmp

/-- `RB_MIN`, `tree.h:727`. -/
def min (n : Nat) (h : Heap) : Option Nat := minmax true n h h.root 0
/-- `RB_MAX`, `tree.h:728`. -/
def max (n : Nat) (h : Heap) : Option Nat := minmax false n h h.root 0

/-- `RB_FOREACH` from `x` with a body that does not change the tree, `tree.h:730-733`: the elements in the order of the visits. -/
def forEach (n : Nat) : Nat → Heap → Nat → Option (List Nat)
  | 0, _, _ => none
  | m + 1, h, x =>
    if x = 0 then some []
    else do
      let y ← next n h x
      let r ← forEach n m h y
      some (x :: r)

/-- `RB_FOREACH_REVERSE`, `tree.h:740-743`. -/
def forEachReverse (n : Nat) : Nat → Heap → Nat → Option (List Nat)
  | 0, _, _ => none
  | m + 1, h, x =>
    if x = 0 then some []
    else do
      let y ← prev n h x
      let r ← forEachReverse n m h y
      some (x :: r)

/-- A body that removes some of the elements. -/
def removeIf (n : Nat) (drop : Nat → Bool) (h : Heap) (x : Nat) : Option Heap :=
  if drop x then remove n h x else some h

/-- `RB_FOREACH_SAFE` with such a body, `tree.h:735-738`: the elements visited and the heap afterwards. -/
def forEachSafe (n : Nat) (drop : Nat → Bool) : Nat → Heap → Nat → Option (List Nat × Heap)
  | 0, _, _ => none
  | m + 1, h, x =>
    if x = 0 then some ([], h)
    else do
      let y ← next n h x
      let h ← removeIf n drop h x
      let (r, h) ← forEachSafe n drop m h y
      some (x :: r, h)

end Verif.Rb
