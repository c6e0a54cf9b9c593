/-!
# Arenas: `src/arena.c`

A pointer is a block of the allocator and an offset in it, so that what `malloc` promises (blocks that
are live at the same time do not overlap) is built in.  `arena->avail` and `arena->limit` are such
pointers or NULL; subtracting pointers into different blocks, and reading or writing the header of a chunk that
was freed, is the outcome `wild`.

Simplifications: `is_global` is never set by the library and is left out, with `base`, which is only
read when it is set; the memory of `arena_t` itself is not obtained from the modelled allocator
(`arena_init` does not fail); block contents are not modelled; `num_free` and the threshold do not exceed `int`.
One thread: the free list is not protected by any lock.
-/
namespace Verif.Ar

/-- 64-bit words. -/
abbrev W := BitVec 64

/-- A block of the allocator and an offset into it. -/
structure Ptr where
  blk : Nat
  off : Int
  deriving DecidableEq, Repr

/-- The `type` field: `RAII_ARENA + RAII_STRUCT`, `RAII_ARENA`, or -1. -/
inductive Tag
  | arena
  | chunk
  | junk
  deriving DecidableEq, Repr

/-- `include/raii.h:628-638` `struct arena_s`. -/
structure Hdr where
  tag : Tag
  next : Option Nat
  avail : Option Ptr
  limit : Option Ptr
  threshold : Nat
  bytes : Int
  total : Nat
  deriving DecidableEq, Repr

/-- The process: arenas, chunks (with their size, and whether they are still allocated), the free list. -/
structure Heap where
  arenas : Nat → Hdr
  alive : Nat → Bool
  chunks : Nat → Hdr
  size : Nat → Nat
  live : Nat → Bool
  fresh : Nat
  freeList : Option Nat
  numFree : Int

inductive Out
  /-- A block was handed out. -/
  | got (h : Heap) (p : Ptr)
  /-- NULL, `ENOMEM`. -/
  | null (h : Heap)
  /-- Done. -/
  | ok (h : Heap)
  /-- Undefined behaviour. -/
  | wild
  /-- Not finished within the passes looked at. -/
  | running

/-- `sizeof(union header)`: `values_type` has a `char[256]`. -/
def headerSize : Nat := 256
/-- `sizeof(struct arena_s)`. -/
def arenaSize : Nat := 72

/-- `include/rtypes.h:91` `align_up(num, sizeof(u16))`, assigned to a `long`. -/
def alignUp (n : W) : W := (n + 1) &&& ~~~1

/-- `limit - avail`. -/
def diff : Option Ptr → Option Ptr → Option Int
  | none, none => some 0
  | some p, some q => if p.blk = q.blk then some (p.off - q.off) else none
  | _, _ => none

def Heap.setArena (h : Heap) (a : Nat) (x : Hdr) : Heap :=
  { h with arenas := fun b => if b = a then x else h.arenas b }

def Heap.setChunk (h : Heap) (c : Nat) (x : Hdr) : Heap :=
  { h with chunks := fun d => if d = c then x else h.chunks d }

/-- `src/arena.c:17-28` `arena_init`. -/
def init (h : Heap) (a : Nat) (threshold : Nat) : Heap :=
  { h.setArena a ⟨.arena, none, none, none, if threshold = 0 then 10 else threshold, 0, 0⟩ with
    alive := fun b => if b = a then true else h.alive b }

/-- `src/arena.c:84-88`: the header of the arena is saved in the chunk, which becomes the current one. -/
def install (h : Heap) (a p : Nat) (limit : Option Ptr) : Heap :=
  let x := h.arenas a
  (h.setChunk p { x with tag := .chunk }).setArena a
    { x with avail := some ⟨p, headerSize⟩, limit := limit, next := some p }

/-- `src/arena.c:61` the size added to `arena->total`. -/
def chunkSize (n : W) (threshold : Nat) : W := alignUp (BitVec.ofNat 64 headerSize + n + BitVec.ofNat 64 (threshold * 1024))

/-- The loop `src/arena.c:53-89`.  `oom c s`: the allocator refuses `s` bytes for block `c`. -/
def grow (oom : Nat → Nat → Bool) (a : Nat) (n : W) : Nat → Heap → Out
  | 0, _ => .running
  | f + 1, h =>
    let x := h.arenas a
    match diff x.limit x.avail with
    | none => .wild
    | some d =>
      if n.toInt ≤ d then .ok h
      else match h.freeList with
        | some p =>
          if h.live p then
            grow oom a n f (install { h with freeList := (h.chunks p).next, numFree := h.numFree - 1 } a p (h.chunks p).limit)
          else .wild
        | none =>
          let total := (BitVec.ofNat 64 x.total + chunkSize n x.threshold).toNat
          let h := h.setArena a { x with total := total }
          if oom h.fresh total then .null h
          else if total < arenaSize then .wild
          else
            let p := h.fresh
            grow oom a n f (install { h with size := fun c => if c = p then total else h.size c
                                             live := fun c => if c = p then true else h.live c
                                             fresh := p + 1 } a p (some ⟨p, total⟩))

/-- `src/arena.c:91-97`. -/
def handOut (a : Nat) (n : W) (h : Heap) : Out :=
  let x := h.arenas a
  match x.avail with
  | none => .wild
  | some p =>
    let h' := h.setArena a { x with bytes := n.toInt, avail := some ⟨p.blk, p.off + n.toInt⟩ }
    match x.next with
    | none => .got h' p
    | some c =>
      if h.live c then .got (h'.setChunk c { h.chunks c with bytes := x.bytes }) p else .wild

/-- `src/arena.c:47-98` `arena_alloc` for `nbytes > 0` (`RAII_ASSERT`). -/
def alloc (oom : Nat → Nat → Bool) (fuel : Nat) (h : Heap) (a : Nat) (n : W) : Out :=
  if h.alive a then
    match grow oom a (alignUp n) fuel h with
    | .ok h => handOut a (alignUp n) h
    | o => o
  else .wild

/-- `src/arena.c:100-105` `arena_calloc`; the product is a `long`. -/
def calloc (oom : Nat → Nat → Bool) (fuel : Nat) (h : Heap) (a : Nat) (count n : W) : Out :=
  match alloc oom fuel h a (count * n) with
  | .null _ => .wild
  | o => o

/-- What `arena` points to in `arena_clear`. -/
inductive Ref
  | arena (a : Nat)
  | chunk (c : Nat)

def Heap.valid (h : Heap) : Ref → Bool
  | .arena a => h.alive a
  | .chunk c => h.live c

def Heap.get (h : Heap) : Ref → Hdr
  | .arena a => h.arenas a
  | .chunk c => h.chunks c

def Heap.put (h : Heap) : Ref → Hdr → Heap
  | .arena a, x => h.setArena a x
  | .chunk c, x => h.setChunk c x

/-- `src/arena.c:107-130` `arena_clear`.  `memset` writes `sizeof(arena_t)`, 8, bytes: the type. -/
def clear : Nat → Heap → Ref → Out
  | 0, _, _ => .running
  | f + 1, h, r =>
    if h.valid r then
      match (h.get r).next with
      | none => .ok h
      | some p =>
        if h.live p then
          if (h.chunks p).tag = .chunk then
            if h.numFree < ((h.get r).threshold : Int) then
              let h := { h.setChunk p { h.chunks p with next := h.freeList } with freeList := some p, numFree := h.numFree + 1 }
              let h := h.setChunk p { h.chunks p with limit := (h.get r).limit }
              let k : Int := if (h.chunks p).bytes = (0 : Int) then (h.get r).bytes else (h.chunks p).bytes
              let x := h.get r
              let h := h.put r { x with avail := x.avail.map fun q => ⟨q.blk, q.off - k⟩ }
              clear f h (.chunk p)
            else
              let h := h.setChunk p { h.chunks p with tag := .junk }
              let h := { h with live := fun c => if c = p then false else h.live c }
              if h.valid r then clear f (h.put r { h.get r with next := none }) (.chunk p) else .wild
          else .ok h
        else .wild
    else .wild

/-- `src/arena.c:30-45` `arena_free`. -/
def free (fuel : Nat) (h : Heap) (a : Nat) : Out :=
  if h.alive a then
    if (h.arenas a).tag = .arena then
      match clear fuel { h with numFree := h.numFree + (h.arenas a).threshold + 1 } (.arena a) with
      | .ok h => .ok { h.setArena a { h.arenas a with tag := .junk } with alive := fun b => if b = a then false else h.alive b }
      | o => o
    else .ok h
  else .wild

/-- `src/arena.c:136-140` `arena_capacity`; `none` is an undefined pointer difference. -/
def capacity (h : Heap) (a : Nat) : Option Int :=
  if (h.arenas a).tag = .arena then diff (h.arenas a).limit (h.arenas a).avail else some 0

/-- `src/arena.c:142-146` `arena_total`. -/
def totalOf (h : Heap) (a : Nat) : Nat :=
  if (h.arenas a).tag = .arena then max (h.arenas a).total headerSize - headerSize else 0

/-- No arena, nothing allocated. -/
def empty : Heap :=
  { arenas := fun _ => ⟨.junk, none, none, none, 0, 0, 0⟩, alive := fun _ => false
    chunks := fun _ => ⟨.junk, none, none, none, 0, 0, 0⟩, size := fun _ => 0, live := fun _ => false
    fresh := 0, freeList := none, numFree := 0 }

end Verif.Ar
