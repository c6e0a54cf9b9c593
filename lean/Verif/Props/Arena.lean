import Verif.Proof.Arena
/-!
# C35, C36, C37: arenas
-/
namespace Verif.Props
open Verif Verif.Ar

/-- An allocator that never refuses. -/
def plenty : Nat → Nat → Bool := fun _ _ => false
/-- An allocator with a gigabyte. -/
def gigabyte : Nat → Nat → Bool := fun _ s => 2 ^ 30 < s

/-! ## C35 -/

/-- C35 in full: whatever is requested, from whichever arenas, blocks are inside their chunk, aligned, disjoint. -/
def C35_Full : Prop := ∀ (oom : Nat → Nat → Bool) (f : Nat) (os : List Op), (∀ o ∈ os, o.allocates = true) →
  Always oom (f + 3) Op.legal empty [] os → (runOps oom (f + 3) empty [] os).fine

/-- A request of `LONG_MAX` bytes is rounded up to a negative number and granted from the current chunk: the
next block handed out is almost 2^63 bytes in front of it. -/
theorem C35_long_max :
    (runOps plenty 3 empty [] [.init 0 0, .alloc 0 8, .alloc 0 (BitVec.ofNat 64 (2 ^ 63 - 1)), .alloc 0 8]).blocks =
      some [⟨0, ⟨0, 264 - 2 ^ 63⟩, 8⟩, ⟨0, ⟨0, 264⟩, 2 ^ 63 - 1⟩, ⟨0, ⟨0, 256⟩, 8⟩] := by decide

/-- Refused requests are added to the total all the same.  Two of them make it wrap round; then a request
of 2 bytes obtains a chunk of 2 bytes, and the header is written behind its end. -/
theorem C35_total_wraps :
    (runOps gigabyte 3 empty [] [.init 0 0, .alloc 0 (BitVec.ofNat 64 (2 ^ 63 - 10496)),
      .alloc 0 (BitVec.ofNat 64 (2 ^ 63 - 20992)), .alloc 0 2]).isWild = true := by decide

/-- `arena_calloc` writes to NULL when the allocator refuses. -/
theorem C35_calloc_refused :
    (runOps gigabyte 3 empty [] [.init 0 0, .calloc 0 (BitVec.ofNat 64 (2 ^ 40)) 8]).isWild = true := by decide

/-- `arena_calloc(arena, 2^32 + 1, 2^32)`: the product is truncated to 2^32 bytes. -/
theorem C35_calloc_overflow :
    (runOps plenty 3 empty [] [.init 0 0, .calloc 0 (BitVec.ofNat 64 (2 ^ 32 + 1)) (BitVec.ofNat 64 (2 ^ 32))]).blocks =
      some [⟨0, ⟨0, 256⟩, 2 ^ 64 + 2 ^ 32⟩] ∧
    (runOps plenty 3 empty [] [.init 0 0, .calloc 0 (BitVec.ofNat 64 (2 ^ 32 + 1)) (BitVec.ofNat 64 (2 ^ 32))]).heap
      (fun h => h.size 0 = 256 + 2 ^ 32 + 10240) = true := by decide

theorem C35_full_false : ¬ C35_Full := by
  intro hf
  have := hf gigabyte 0 [.init 0 0, .calloc 0 (BitVec.ofNat 64 (2 ^ 40)) 8] (by decide)
    (by
      refine ⟨⟨rfl, rfl⟩, ?_⟩
      intro h' bs' hs
      cases hs
      refine ⟨⟨rfl, by decide, by decide⟩, fun _ _ _ => trivial⟩)
  exact this

/-- C35, proved part: as long as what an arena asked for stays below 2^63 and `arena_calloc` is not refused
memory.  Missing: huge requests, and refusal in `arena_calloc`. -/
theorem C35_blocks_partial (oom : Nat → Nat → Bool) (f : Nat) (os : List Op) (ha : ∀ o ∈ os, o.allocates = true)
    (hw : Always oom (f + 3) Op.plain empty [] os) (hc : CallocSafe oom os) :
    (runOps oom (f + 3) empty [] os).fine := by
  obtain ⟨h, bs, hr, i⟩ := plain_inv os empty [] empty_inv ha hw hc
  rw [hr]
  exact i.fine

example : Always gigabyte 3 Op.plain empty [] [.init 0 0, .init 1 3, .alloc 0 100, .alloc 1 7, .alloc 0 20000,
    .alloc 0 (BitVec.ofNat 64 (2 ^ 40)), .alloc 0 10] := by
  refine ⟨⟨⟨rfl, rfl⟩, trivial⟩, ?_⟩
  intro h1 b1 e1; cases e1
  refine ⟨⟨⟨rfl, rfl⟩, trivial⟩, ?_⟩
  intro h2 b2 e2; cases e2
  refine ⟨⟨⟨rfl, by decide⟩, by show _ < _; decide⟩, ?_⟩
  intro h3 b3 e3; cases e3
  refine ⟨⟨⟨rfl, by decide⟩, by show _ < _; decide⟩, ?_⟩
  intro h4 b4 e4; cases e4
  refine ⟨⟨⟨rfl, by decide⟩, by show _ < _; decide⟩, ?_⟩
  intro h5 b5 e5; cases e5
  refine ⟨⟨⟨rfl, by decide⟩, by show _ < _; decide⟩, ?_⟩
  intro h6 b6 e6; cases e6
  refine ⟨⟨⟨rfl, by decide⟩, by show _ < _; decide⟩, ?_⟩
  intro h7 b7 e7; exact trivial

/-- That history: two arenas, a request served by a second chunk, a request refused. -/
theorem C35_sample : (runOps gigabyte 3 empty [] [.init 0 0, .init 1 3, .alloc 0 100, .alloc 1 7, .alloc 0 20000,
    .alloc 0 (BitVec.ofNat 64 (2 ^ 40)), .alloc 0 10]).blocks =
    some [⟨0, ⟨2, 20256⟩, 10⟩, ⟨0, ⟨2, 256⟩, 20000⟩, ⟨1, ⟨1, 256⟩, 7⟩, ⟨0, ⟨0, 256⟩, 100⟩] := by decide

/-! ## C36 -/

/-- C36, capacity: in every such history, the capacity `d` of an arena is a number, a request of at most `d`
bytes is served from the current chunk whatever the allocator does and lowers the capacity by the request,
rounded up to even; a greater request is never served from the current chunk. -/
theorem C36_capacity_partial (oom : Nat → Nat → Bool) (f : Nat) (os : List Op) (ha : ∀ o ∈ os, o.allocates = true)
    (hw : Always oom (f + 3) Op.plain empty [] os) (hc : CallocSafe oom os) (h : Heap) (bs : List Blk)
    (hr : runOps oom (f + 3) empty [] os = .at h bs) (a : Nat) (hal : h.alive a = true) :
    ∃ d : Int, capacity h a = some d ∧ 0 ≤ d ∧ ∀ (oom' : Nat → Nat → Bool) (g : Nat) (n : W), 0 < n.toInt → Op.modest h (.alloc a n) →
      (n.toInt ≤ d → ∃ h' p, alloc oom' (g + 3) h a n = .got h' p ∧ (h.arenas a).next = some p.blk ∧ h'.fresh = h.fresh ∧
        h'.freeList = h.freeList ∧ capacity h' a = some (d - (n.toInt + n.toInt % 2))) ∧
      (d < n.toInt → ∀ h' p, alloc oom' (g + 3) h a n = .got h' p → (h.arenas a).next ≠ some p.blk) := by
  obtain ⟨h', bs', hr', i⟩ := plain_inv os empty [] empty_inv ha hw hc
  rw [hr] at hr'
  cases hr'
  obtain ⟨d, h1, h2, h3⟩ := capacity_ok i (a := a) ⟨hal, by simp⟩
  exact ⟨d, h1, h2, fun oom' g n hn hm => h3 oom' g n hn hm⟩

/-- A history with two chunks: the second has 41092 bytes, header included, of which 20836 are left. -/
example : (runOps plenty 3 empty [] [.init 0 0, .alloc 0 100, .alloc 0 20000]).heap
    (fun h => capacity h 0 = some 20836 ∧ h.size 1 = 41092) = true := by decide

/-- An object that is not an arena has no capacity and no total. -/
theorem C36_not_an_arena (h : Heap) (a : Nat) (ht : (h.arenas a).tag ≠ .arena) : capacity h a = some 0 ∧ totalOf h a = 0 := by
  simp [capacity, totalOf, ht]

example : (empty.arenas 0).tag ≠ .arena := by decide

/-- C36 in full, total: what was requested from the allocator, less the header. -/
def C36_TotalFull : Prop := ∀ (f : Nat) (os : List Op), (∀ o ∈ os, o.allocates = true) → Always plenty (f + 3) Op.plain empty [] os →
  ∀ h bs, runOps plenty (f + 3) empty [] os = .at h bs → ∀ a, h.alive a = true →
    totalOf h a = (asked plenty (f + 3) a empty [] os []).sum - headerSize

/-- What it is: the size of the latest request, less the header. -/
theorem C36_total_latest (oom : Nat → Nat → Bool) (ho : ∀ k t, oom k t = false) (f : Nat) (os : List Op)
    (ha : ∀ o ∈ os, o.allocates = true) (hw : Always oom (f + 3) Op.plain empty [] os) (h : Heap) (bs : List Blk)
    (hr : runOps oom (f + 3) empty [] os = .at h bs) (a : Nat) (hal : h.alive a = true) :
    totalOf h a = (asked oom (f + 3) a empty [] os []).headD 0 - headerSize := by
  obtain ⟨h', bs', hr', hx⟩ := total_ok ho a os empty [] [] empty_inv ⟨rfl, fun _ hb => by cases hb⟩ ha hw (by simp [empty])
  rw [hr] at hr'
  cases hr'
  obtain ⟨h1, h2⟩ := hx hal
  unfold totalOf
  rw [if_pos h2, h1]
  omega

/-- C36, total, proved part: as long as the arena needed one chunk at most.  Missing: arenas that needed more. -/
theorem C36_total_partial (oom : Nat → Nat → Bool) (ho : ∀ k t, oom k t = false) (f : Nat) (os : List Op)
    (ha : ∀ o ∈ os, o.allocates = true) (hw : Always oom (f + 3) Op.plain empty [] os) (h : Heap) (bs : List Blk)
    (hr : runOps oom (f + 3) empty [] os = .at h bs) (a : Nat) (hal : h.alive a = true)
    (h1 : (asked oom (f + 3) a empty [] os []).length ≤ 1) :
    totalOf h a = (asked oom (f + 3) a empty [] os []).sum - headerSize := by
  rw [C36_total_latest oom ho f os ha hw h bs hr a hal]
  generalize asked oom (f + 3) a empty [] os [] = l at h1
  match l, h1 with
  | [], _ => rfl
  | [x], _ => simp

/-- Two chunks, of 10596 and 41092 bytes, are requested; the arena reports 40836 and not 51432. -/
theorem C36_total_two_chunks :
    (runOps plenty 3 empty [] [.init 0 0, .alloc 0 100, .alloc 0 20000]).heap (fun h => totalOf h 0 = 40836) = true ∧
    asked plenty 3 0 empty [] [.init 0 0, .alloc 0 100, .alloc 0 20000] [] = [41092, 10596] := by decide

theorem plain_two_chunks : Always plenty 3 Op.plain empty [] [.init 0 0, .alloc 0 100, .alloc 0 20000] := by
  refine ⟨⟨⟨rfl, rfl⟩, trivial⟩, ?_⟩
  intro h1 b1 e1; cases e1
  refine ⟨⟨⟨rfl, by decide⟩, by show _ < _; decide⟩, ?_⟩
  intro h2 b2 e2; cases e2
  refine ⟨⟨⟨rfl, by decide⟩, by show _ < _; decide⟩, ?_⟩
  intro h3 b3 e3; exact trivial

theorem C36_total_full_false : ¬ C36_TotalFull := by
  intro hf
  have hw := plain_two_chunks
  obtain ⟨h, bs, hr, -⟩ := plain_inv (oom := plenty) (f := 0) _ empty [] empty_inv (by decide) hw (fun _ _ _ => rfl)
  have h1 := C36_total_two_chunks
  rw [show (3 : Nat) = 0 + 3 from rfl, hr] at h1
  have hal : h.alive 0 = true := by
    have : (runOps plenty 3 empty [] [.init 0 0, .alloc 0 100, .alloc 0 20000]).heap (fun h => h.alive 0) = true := by decide
    rw [show (3 : Nat) = 0 + 3 from rfl, hr] at this
    exact this
  have h2 := hf 0 _ (by decide) hw h bs hr 0 hal
  have h3 : totalOf h 0 = 40836 := by simpa [Run.heap] using h1.1
  rw [h1.2, h3] at h2
  exact absurd h2 (by decide)

/-! ## C37 -/

/-- C37 in full: with clearing and freeing, no undefined behaviour, and blocks still are inside their chunk and disjoint. -/
def C37_Full : Prop := ∀ (oom : Nat → Nat → Bool) (fuel : Nat) (os : List Op), Always oom fuel Op.legal empty [] os →
  runOps oom fuel empty [] os = .running ∨ (runOps oom fuel empty [] os).fine

/-- `arena_clear` offers the chunk for re-use, but the arena goes on using it: a block of arena 0 and a block of
arena 1 at the same place. -/
theorem C37_two_arenas :
    (runOps plenty 20 empty [] [.init 0 0, .init 1 0, .alloc 0 8, .clear 0, .alloc 0 8, .alloc 1 8]).blocks =
      some [⟨1, ⟨0, 256⟩, 8⟩, ⟨0, ⟨0, 256⟩, 8⟩] := by decide

/-- The same with one arena: the blocks of 10000 and 1000 bytes start at the same place. -/
theorem C37_one_arena :
    (runOps plenty 20 empty [] [.init 0 0, .alloc 0 8, .clear 0, .alloc 0 10000, .alloc 0 1000]).blocks =
      some [⟨0, ⟨0, 256⟩, 1000⟩, ⟨0, ⟨0, 256⟩, 10000⟩] := by decide

/-- `arena_free` of an arena that holds a chunk reads the chunk after freeing it. -/
theorem C37_free_reads_freed : (runOps plenty 20 empty [] [.init 0 0, .alloc 0 8, .free 0]).isWild = true := by decide

/-- Clearing twice: the same. -/
theorem C37_clear_twice : (runOps plenty 20 empty [] [.init 0 0, .alloc 0 8, .clear 0, .clear 0]).isWild = true := by decide

/-- Freeing an arena that holds nothing makes clearing another arena read freed memory. -/
theorem C37_free_spoils_clear :
    (runOps plenty 20 empty [] [.init 0 0, .init 1 0, .alloc 1 8, .free 0, .clear 1]).isWild = true := by decide

/-- Clearing an arena with two chunks loses the older one: it is neither freed nor on the free list, and no arena has it. -/
theorem C37_leak :
    (runOps plenty 20 empty [] [.init 0 0, .alloc 0 8, .alloc 0 20000, .clear 0]).heap (fun h => h.live 0 ∧ h.freeList = some 1 ∧
      (h.chunks 1).next = none ∧ (h.arenas 0).next = some 1) = true := by decide

theorem C37_full_false : ¬ C37_Full := by
  intro hf
  have := hf plenty 20 [.init 0 0, .alloc 0 8, .clear 0, .clear 0] (by
    refine ⟨⟨rfl, rfl⟩, ?_⟩
    intro h1 b1 e1; cases e1
    refine ⟨⟨rfl, by decide⟩, ?_⟩
    intro h2 b2 e2; cases e2
    refine ⟨rfl, ?_⟩
    intro h3 b3 e3; cases e3
    exact ⟨rfl, fun _ _ _ => trivial⟩)
  have hw := C37_clear_twice
  rcases this with h | h
  · rw [h] at hw; cases hw
  · cases hr : runOps plenty 20 empty [] [.init 0 0, .alloc 0 8, .clear 0, .clear 0] with
    | «at» h bs => rw [hr] at hw; cases hw
    | wild => rw [hr] at h; exact h
    | running => rw [hr] at hw; cases hw

/-- C37, proved part: arenas are cleared when no cleared chunk is waiting to be used again, and not used after
that; other arenas use the memory.  Missing: using an arena after clearing it, clearing while a chunk
waits, `arena_free`: all of these go wrong, see above. -/
theorem C37_clear_partial (oom : Nat → Nat → Bool) (f : Nat) (os : List Op) (hq : Quiet oom (f + 3) [] empty [] os)
    (hc : CallocSafe oom os) : (runOps oom (f + 3) empty [] os).fine := by
  obtain ⟨h, bs, gone, hr, i⟩ := quiet_ok os empty [] [] empty_inv hq hc
  rw [hr]
  exact i.fine

/-- Arena 0 is cleared, arena 1 gets its memory, is cleared, arena 2 gets it. -/
example : Quiet plenty 3 [] empty [] [.init 0 0, .alloc 0 8, .clear 0, .init 1 0, .alloc 1 16, .clear 1, .init 2 0, .alloc 2 32] := by
  refine ⟨⟨⟨rfl, rfl⟩, trivial, by simp [Op.quiet]⟩, ?_⟩
  intro h1 b1 e1; cases e1
  refine ⟨⟨⟨rfl, by decide⟩, by show _ < _; decide, by simp [Op.quiet, Op.gone]⟩, ?_⟩
  intro h2 b2 e2; cases e2
  refine ⟨⟨rfl, trivial, by simp [Op.gone], rfl⟩, ?_⟩
  intro h3 b3 e3; cases e3
  refine ⟨⟨⟨rfl, rfl⟩, trivial, by simp [Op.quiet, Op.gone]⟩, ?_⟩
  intro h4 b4 e4; cases e4
  refine ⟨⟨⟨rfl, by decide⟩, by show _ < _; decide, by simp [Op.quiet, Op.gone]⟩, ?_⟩
  intro h5 b5 e5; cases e5
  refine ⟨⟨rfl, trivial, by simp [Op.gone], rfl⟩, ?_⟩
  intro h6 b6 e6; cases e6
  refine ⟨⟨⟨rfl, rfl⟩, trivial, by simp [Op.quiet, Op.gone]⟩, ?_⟩
  intro h7 b7 e7; cases e7
  refine ⟨⟨⟨rfl, by decide⟩, by show _ < _; decide, by simp [Op.quiet, Op.gone]⟩, fun _ _ _ => trivial⟩

theorem C37_sample : (runOps plenty 3 empty [] [.init 0 0, .alloc 0 8, .clear 0, .init 1 0, .alloc 1 16, .clear 1, .init 2 0,
    .alloc 2 32]).blocks = some [⟨2, ⟨0, 256⟩, 32⟩] := by decide

end Verif.Props
