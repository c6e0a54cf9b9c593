import Verif.Model.Arena
/-!
# What arenas promise
-/
namespace Verif.Ar

/-- A block handed to the user: `len` bytes at `p`, by arena `a`. -/
structure Blk where
  a : Nat
  p : Ptr
  len : Int
  deriving DecidableEq, Repr

/-- What a program does with arenas. -/
inductive Op
  | init (a : Nat) (threshold : Nat)
  | alloc (a : Nat) (n : W)
  | calloc (a : Nat) (count n : W)
  | clear (a : Nat)
  | free (a : Nat)

/-- The heap and the blocks the user may still use, or undefined behaviour, or no return. -/
inductive Run
  | at (h : Heap) (bs : List Blk)
  | wild
  | running

/-- One operation.  Clearing or freeing an arena ends the life of its blocks. -/
def stepOp (oom : Nat → Nat → Bool) (fuel : Nat) (h : Heap) (bs : List Blk) : Op → Run
  | .init a t => .at (Ar.init h a t) bs
  | .alloc a n =>
    match alloc oom fuel h a n with
    | .got h p => .at h (⟨a, p, n.toInt⟩ :: bs)
    | .null h => .at h bs
    | .ok _ => .wild
    | .wild => .wild
    | .running => .running
  | .calloc a count n =>
    match calloc oom fuel h a count n with
    | .got h p => .at h (⟨a, p, count.toInt * n.toInt⟩ :: bs)
    | .running => .running
    | _ => .wild
  | .clear a =>
    match clear fuel h (.arena a) with
    | .ok h => .at h (bs.filter fun b => b.a ≠ a)
    | .running => .running
    | _ => .wild
  | .free a =>
    match free fuel h a with
    | .ok h => .at h (bs.filter fun b => b.a ≠ a)
    | .running => .running
    | _ => .wild

/-- A history. -/
def runOps (oom : Nat → Nat → Bool) (fuel : Nat) : Heap → List Blk → List Op → Run
  | h, bs, [] => .at h bs
  | h, bs, o :: os =>
    match stepOp oom fuel h bs o with
    | .at h bs => runOps oom fuel h bs os
    | r => r

/-- Two blocks have no byte in common. -/
def Blk.apart (b c : Blk) : Prop := b.p.blk ≠ c.p.blk ∨ b.p.off + b.len ≤ c.p.off ∨ c.p.off + c.len ≤ b.p.off

/-- The block is inside an allocated chunk, behind its header, and 2-byte aligned. -/
def Blk.inside (h : Heap) (b : Blk) : Prop :=
  h.live b.p.blk = true ∧ (headerSize : Int) ≤ b.p.off ∧ b.p.off + b.len ≤ h.size b.p.blk ∧ b.p.off % 2 = 0

/-- The blocks are inside, do not overlap, and no chunk serves two arenas. -/
def Fine (h : Heap) (bs : List Blk) : Prop :=
  (∀ b ∈ bs, b.inside h) ∧ bs.Pairwise Blk.apart ∧ (∀ b ∈ bs, ∀ c ∈ bs, b.p.blk = c.p.blk → b.a = c.a)

/-- The run ended properly, and the blocks are fine. -/
def Run.fine : Run → Prop
  | .at h bs => Fine h bs
  | _ => False

/-- The program uses initialised arenas, asks for at least one byte and initialises no arena twice. -/
def Op.legal (h : Heap) : Op → Prop
  | .init a _ => h.alive a = false ∧ (h.arenas a).tag = .junk
  | .alloc a n => h.alive a = true ∧ 0 < n.toInt
  | .calloc a count n => h.alive a = true ∧ 0 < count.toInt ∧ 0 < n.toInt
  | .clear a => h.alive a = true
  | .free a => h.alive a = true

/-- Holds at every operation of a history. -/
def Always (oom : Nat → Nat → Bool) (fuel : Nat) (ok : Heap → Op → Prop) : Heap → List Blk → List Op → Prop
  | _, _, [] => True
  | h, bs, o :: os => ok h o ∧ ∀ h' bs', stepOp oom fuel h bs o = .at h' bs' → Always oom fuel ok h' bs' os

/-- Allocation only. -/
def Op.allocates : Op → Bool
  | .init _ _ | .alloc _ _ | .calloc _ _ _ => true
  | _ => false

/-- What the arena has asked for so far plus this request stays below 2^63. -/
def Op.modest (h : Heap) : Op → Prop
  | .alloc a n => (h.arenas a).total + n.toNat + (h.arenas a).threshold * 1024 + 1024 < 2 ^ 63
  | .calloc a count n =>
    (h.arenas a).total + count.toNat * n.toNat + (h.arenas a).threshold * 1024 + 1024 < 2 ^ 63
  | _ => True

/-- Legal and modest. -/
def Op.plain (h : Heap) (o : Op) : Prop := o.legal h ∧ o.modest h

/-- Arenas are cleared only while no cleared chunk waits for re-use, are not used after being cleared (`gone`),
and are not freed. -/
def Op.quiet (gone : List Nat) (h : Heap) : Op → Prop
  | .init a _ => a ∉ gone
  | .alloc a _ => a ∉ gone
  | .calloc a _ _ => a ∉ gone
  | .clear a => a ∉ gone ∧ h.freeList = none
  | .free _ => False

/-- The arenas cleared so far. -/
def Op.gone (gone : List Nat) : Op → List Nat
  | .clear a => a :: gone
  | _ => gone

/-- A history of such operations. -/
def Quiet (oom : Nat → Nat → Bool) (fuel : Nat) : List Nat → Heap → List Blk → List Op → Prop
  | _, _, _, [] => True
  | gone, h, bs, o :: os => (o.legal h ∧ o.modest h ∧ o.quiet gone h) ∧
    ∀ h' bs', stepOp oom fuel h bs o = .at h' bs' → Quiet oom fuel (o.gone gone) h' bs' os

/-- The chunk, if any, that a step requested from the allocator, by its size. -/
def newChunk (h h' : Heap) : List Nat := if h.fresh < h'.fresh then [h'.size h.fresh] else []

/-- The arena an operation allocates from. -/
def Op.allocIn : Op → Option Nat
  | .alloc a _ | .calloc a _ _ => some a
  | _ => none

/-- The sizes of the chunks that a history requested from the allocator for arena `a`, newest first. -/
def asked (oom : Nat → Nat → Bool) (fuel : Nat) (a : Nat) : Heap → List Blk → List Op → List Nat → List Nat
  | _, _, [], l => l
  | h, bs, o :: os, l =>
    match stepOp oom fuel h bs o with
    | .at h' bs' => asked oom fuel a h' bs' os (if o.allocIn = some a then newChunk h h' ++ l else l)
    | _ => l

/-- The program uses `arena_calloc` only if the allocator never refuses. -/
def CallocSafe (oom : Nat → Nat → Bool) (os : List Op) : Prop :=
  (∃ a c n, Op.calloc a c n ∈ os) → ∀ k t, oom k t = false

/-- The blocks at the end. -/
def Run.blocks : Run → Option (List Blk)
  | .at _ bs => some bs
  | _ => none

/-- Undefined behaviour happened. -/
def Run.isWild : Run → Bool
  | .wild => true
  | _ => false

/-- A property of the heap at the end. -/
def Run.heap (r : Run) (f : Heap → Bool) : Bool :=
  match r with
  | .at h _ => f h
  | _ => false

end Verif.Ar
