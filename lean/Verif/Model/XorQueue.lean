/-!
# XOR simple queues: `XSIMPLEQ_*` of `include/compat/sys/queue.h`

Memory is a word for every address; objects are at addresses.  A head has its fields at 0, 8 and 16 bytes; the link of an element is
`off` bytes into it.  Simplified: words do not overlap, that is, two addresses are the same or far enough apart.
-/
namespace Verif.Xq

abbrev W := BitVec 64

abbrev Mem := W → W

def set (m : Mem) (a v : W) : Mem := fun b => if b = a then v else m b

/-- `queue.h:330-335` `XSIMPLEQ_HEAD`: `sqx_first`, `sqx_last`, `sqx_cookie`. -/
def firstAt (h : W) : W := h
def lastAt (h : W) : W := h + 8
def cookieAt (h : W) : W := h + 16

/-- `queue.h:345-346` `XSIMPLEQ_XOR` with a cookie.  `wide`: an `unsigned long` has 64 bits; otherwise, as on Windows, 32. -/
def mix (wide : Bool) (c p : W) : W :=
  if wide then c ^^^ p else (c.setWidth 32 ^^^ p.setWidth 32).setWidth 64

/-- `XSIMPLEQ_XOR(head, p)`. -/
def xor (wide : Bool) (h p : W) (m : Mem) : W := mix wide (m (cookieAt h)) p

/-- `queue.h:347` `XSIMPLEQ_FIRST`. -/
def first (wide : Bool) (h : W) (m : Mem) : W := xor wide h (m (firstAt h)) m

/-- `queue.h:349` `XSIMPLEQ_EMPTY`. -/
def isEmpty (wide : Bool) (h : W) (m : Mem) : Bool := first wide h m == 0

/-- `queue.h:350` `XSIMPLEQ_NEXT`. -/
def next (wide : Bool) (off h e : W) (m : Mem) : W := xor wide h (m (e + off)) m

/-- `queue.h:366-370` `XSIMPLEQ_INIT`; `c` is what `arc4random_buf` gives. -/
def init (wide : Bool) (h c : W) (m : Mem) : Mem :=
  let m := set m (cookieAt h) c
  let m := set m (firstAt h) (xor wide h 0 m)
  set m (lastAt h) (xor wide h (firstAt h) m)

/-- `if (p == XSIMPLEQ_XOR(head, NULL)) head->sqx_last = XSIMPLEQ_XOR(head, a)`. -/
def lastIf (wide : Bool) (h p a : W) (m : Mem) : Mem :=
  if p = xor wide h 0 m then set m (lastAt h) (xor wide h a m) else m

/-- `queue.h:372-377` `XSIMPLEQ_INSERT_HEAD`. -/
def insertHead (wide : Bool) (off h e : W) (m : Mem) : Mem :=
  let m := set m (e + off) (m (firstAt h))
  let m := lastIf wide h (m (e + off)) (e + off) m
  set m (firstAt h) (xor wide h e m)

/-- `queue.h:379-383` `XSIMPLEQ_INSERT_TAIL`. -/
def insertTail (wide : Bool) (off h e : W) (m : Mem) : Mem :=
  let m := set m (e + off) (xor wide h 0 m)
  let m := set m (xor wide h (m (lastAt h)) m) (xor wide h e m)
  set m (lastAt h) (xor wide h (e + off) m)

/-- `queue.h:385-390` `XSIMPLEQ_INSERT_AFTER`. -/
def insertAfter (wide : Bool) (off h s e : W) (m : Mem) : Mem :=
  let m := set m (e + off) (m (s + off))
  let m := lastIf wide h (m (e + off)) (e + off) m
  set m (s + off) (xor wide h e m)

/-- `queue.h:392-396` `XSIMPLEQ_REMOVE_HEAD`; `none`: NULL was dereferenced. -/
def removeHead (wide : Bool) (off h : W) (m : Mem) : Option Mem :=
  if xor wide h (m (firstAt h)) m = 0 then none
  else
    let m := set m (firstAt h) (m (xor wide h (m (firstAt h)) m + off))
    some (lastIf wide h (m (firstAt h)) (firstAt h) m)

/-- `queue.h:398-404` `XSIMPLEQ_REMOVE_AFTER`. -/
def removeAfter (wide : Bool) (off h e : W) (m : Mem) : Option Mem :=
  if xor wide h (m (e + off)) m = 0 then none
  else
    let m := set m (e + off) (m (xor wide h (m (e + off)) m + off))
    some (lastIf wide h (m (e + off)) (e + off) m)

/-- `queue.h:353-356` `XSIMPLEQ_FOREACH` from pointer `v`: the elements visited; `none` if the loop did not end within the steps
looked at. -/
def walk (wide : Bool) (off h : W) (m : Mem) : Nat → W → Option (List W)
  | 0, _ => none
  | n + 1, v => if v = 0 then some [] else (walk wide off h m n (next wide off h v m)).map (v :: ·)

/-- `queue.h:358-361` `XSIMPLEQ_FOREACH_SAFE` with the loop body `f`. -/
def walkSafe (wide : Bool) (off h : W) (f : W → Mem → Mem) : Nat → W → Mem → Option (List W × Mem)
  | 0, _, _ => none
  | n + 1, v, m =>
    if v = 0 then some ([], m)
    else (walkSafe wide off h f n (next wide off h v m) (f v m)).map fun r => (v :: r.1, r.2)

end Verif.Xq
