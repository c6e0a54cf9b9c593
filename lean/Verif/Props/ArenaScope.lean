import Verif.Proof.ArenaScope
/-!
# C64: scopes with an arena

Blocks taken from a scope made with `unique_init_arena` keep their memory until the scope is ended with `free_arena`,
its deferrals included; `free_arena` runs the deferrals, newest first, gives the memory back, and the program
goes on.
-/
namespace Verif.Props
open Verif.As
open Verif.Ar (Fine)

/-- An allocator that never refuses. -/
private def ample (_ _ : Nat) : Bool := false

/-- C64 in full: after any proper history, `free_arena` of a scope that is there runs its deferrals, newest first, each
finding its memory, and returns with the memory of the scope's blocks given back. -/
def C64_Full : Prop :=
  ∀ (oom : Nat → Nat → Bool) (f : Nat) (os : List Op) (s : St) (i : Nat),
    Proper oom (f + 3) empty os → ZeroSafe oom os → run oom (f + 3) empty os = .ok s .unit → (s.scopes i).live = true →
    ∃ s', freeArena (f + 3) s i = .ok s' .unit ∧
      s'.log = s.log ++ (acts i (fun _ => false) 0 os).reverse.map Act.due ∧
      ∀ b ∈ s.blocks, b.a = i → s'.heap.live b.p.blk = false

/-- A proper history with a scope with arena 0 and a plain scope 1. -/
private def hist : List Op :=
  [.initArena 0, .init 1, .mallocBy 0 8, .defer 0 7 (some ⟨0, 256⟩), .mallocBy 1 16, .callocBy 0 2 8,
   .defer 0 9 (some ⟨0, 264⟩), .defer 1 5 (some ⟨0, 264⟩), .defer 0 3 none]

private theorem hist_proper (f : Nat) : Proper ample (f + 3) empty hist := by
  refine ⟨rfl, ?_⟩
  intro s1 v1 e1; cases e1
  refine ⟨rfl, ?_⟩
  intro s2 v2 e2; cases e2
  refine ⟨⟨rfl, by decide, fun _ => by unfold Modest; decide⟩, ?_⟩
  intro s3 v3 e3; cases e3
  refine ⟨⟨rfl, fun q h => ⟨⟨0, ⟨0, 256⟩, 8⟩, by decide, by cases h; rfl⟩⟩, ?_⟩
  intro s4 v4 e4; cases e4
  refine ⟨⟨rfl, by decide, fun h => by cases h⟩, ?_⟩
  intro s5 v5 e5; cases e5
  refine ⟨⟨rfl, by decide, by decide, fun _ => by unfold Modest; decide⟩, ?_⟩
  intro s6 v6 e6; cases e6
  refine ⟨⟨rfl, fun q h => ⟨⟨0, ⟨0, 264⟩, 16⟩, by decide, by cases h; rfl⟩⟩, ?_⟩
  intro s7 v7 e7; cases e7
  refine ⟨⟨rfl, fun q h => ⟨⟨0, ⟨0, 264⟩, 16⟩, by decide, by cases h; rfl⟩⟩, ?_⟩
  intro s8 v8 e8; cases e8
  exact ⟨⟨rfl, fun q h => by cases h⟩, fun _ _ _ => trivial⟩

private theorem hist_safe : ZeroSafe ample hist := fun _ _ _ => rfl

/-- C64, proved part: any proper history runs, all blocks handed out are apart and in allocated memory, and
when a scope is then ended with `free_arena` all its deferrals run, newest first, each finding its memory.
Missing: that `free_arena` returns; see `C64_used`. -/
theorem C64_deferrals_partial (oom : Nat → Nat → Bool) (f : Nat) (os : List Op) (hp : Proper oom (f + 3) empty os)
    (hz : ZeroSafe oom os) : ∃ s, run oom (f + 3) empty os = .ok s .unit ∧ Fine s.heap s.blocks ∧
      ∀ i, (s.scopes i).live = true →
        (freeArena (f + 3) s i).log = some (s.log ++ (acts i (fun _ => false) 0 os).reverse.map Act.due) := by
  obtain ⟨s, hr, j⟩ := run_ok os empty J_empty hp hz
  refine ⟨s, hr, j.inv.fine, fun i hl => ?_⟩
  have ha := (run_acts os empty s J_empty hp hz hr i hl).1
  have he : (s.scopes i).acts.reverse.map (Act.run s.heap) = (acts i (fun _ => false) 0 os).reverse.map Act.due := by
    rw [List.map_reverse, acts_due j, ha, ← List.map_reverse]
    rfl
  have hd : (deleteSt s i).log = s.log ++ (acts i (fun _ => false) 0 os).reverse.map Act.due := by
    rw [← he]; rfl
  unfold freeArena
  rw [if_pos hl, j.arena i]
  by_cases hi : (s.scopes i).isArena = true
  · rw [if_pos hi]
    dsimp only
    have hal := j.alive i hi
    have hact : Ar.Active s.heap [] i := ⟨hal, by simp⟩
    have htag := (j.inv.tag i hact).1
    rcases j.inv.cur i hact with hc | ⟨c, o, hc⟩
    · obtain ⟨h', hf, -⟩ := Ar.free_new (h := (deleteSt s i).heap) hal htag hc.next (f + 2)
      rw [hf, ← hd]
      rfl
    · have hnum : 0 ≤ s.heap.numFree := by rw [j.inv.num]; split <;> decide
      rw [Ar.free_used (h := (deleteSt s i).heap) hal htag hc.next hc.live hc.tag hnum (f + 1), ← hd]
      rfl
  · rw [if_neg hi, ← hd]
    rfl

/-- The deferrals of scope 0 and of scope 1 in the history above. -/
example : ∃ s, run ample 3 empty hist = .ok s .unit ∧
    (freeArena 3 s 0).log = some [.ran 3 true, .ran 9 true, .ran 7 true] ∧
    (freeArena 3 s 1).log = some [.ran 5 true, .released 0] := by
  obtain ⟨s, h1, -, h2⟩ := C64_deferrals_partial ample 0 hist (hist_proper 0) hist_safe
  have e : s.log = [] := by cases h1; rfl
  refine ⟨s, h1, ?_, ?_⟩
  · rw [h2 0 (by cases h1; rfl), e]; rfl
  · rw [h2 1 (by cases h1; rfl), e]; rfl

/-- `free_arena` of a scope that handed out memory is undefined: the chunk is freed and then read. -/
theorem C64_used (oom : Nat → Nat → Bool) (f : Nat) (os : List Op) (hp : Proper oom (f + 3) empty os)
    (hz : ZeroSafe oom os) (s : St) (hr : run oom (f + 3) empty os = .ok s .unit) (i : Nat)
    (hl : (s.scopes i).live = true) (hi : (s.scopes i).isArena = true) (hb : ∃ b ∈ s.blocks, b.a = i) :
    (freeArena (f + 3) s i).isWild = true := by
  obtain ⟨s', hr', j⟩ := run_ok os empty J_empty hp hz
  rw [hr] at hr'; cases hr'
  obtain ⟨b, hb, rfl⟩ := hb
  have hact : Ar.Active s.heap [] b.a := ⟨j.alive _ hi, by simp⟩
  have htag := (j.inv.tag _ hact).1
  have hu := j.used b hb
  unfold freeArena
  rw [if_pos hl, j.arena, if_pos hi]
  dsimp only
  rcases j.inv.cur _ hact with hc | ⟨c, o, hc⟩
  · rw [hc.next] at hu; cases hu
  · have hnum : 0 ≤ s.heap.numFree := by rw [j.inv.num]; split <;> decide
    rw [Ar.free_used (h := (deleteSt s b.a).heap) (j.alive _ hi) htag hc.next hc.live hc.tag hnum (f + 1)]
    rfl

/-- The history above. -/
example : ∃ s, run ample 3 empty hist = .ok s .unit ∧ (freeArena 3 s 0).isWild = true := by
  obtain ⟨s, h1, -⟩ := C64_deferrals_partial ample 0 hist (hist_proper 0) hist_safe
  exact ⟨s, h1, C64_used ample 0 hist (hist_proper 0) hist_safe s h1 0 (by cases h1; rfl) (by cases h1; rfl)
    ⟨⟨0, ⟨0, 256⟩, 8⟩, by cases h1; decide, rfl⟩⟩

theorem C64_full_false : ¬ C64_Full := by
  intro h
  obtain ⟨s, h1, -⟩ := C64_deferrals_partial ample 0 hist (hist_proper 0) hist_safe
  have hl : (s.scopes 0).live = true := by cases h1; rfl
  have hw := C64_used ample 0 hist (hist_proper 0) hist_safe s h1 0 hl (by cases h1; rfl)
    ⟨⟨0, ⟨0, 256⟩, 8⟩, by cases h1; decide, rfl⟩
  obtain ⟨s', h2, -⟩ := h ample 0 hist s 0 (hist_proper 0) hist_safe h1 hl
  rw [h2] at hw
  cases hw

/-- `free_arena` of a scope that was never asked for memory returns, and the arena is gone; with the number of chunks
waiting for re-use 11 too high. -/
theorem C64_unused (oom : Nat → Nat → Bool) (f : Nat) (os : List Op) (hp : Proper oom (f + 3) empty os)
    (hz : ZeroSafe oom os) (s : St) (hr : run oom (f + 3) empty os = .ok s .unit) (i : Nat)
    (hl : (s.scopes i).live = true) (hi : (s.scopes i).isArena = true) (hn : ∀ o ∈ os, o.asks i = false) :
    ∃ s', freeArena (f + 3) s i = .ok s' .unit ∧ (s'.scopes i).live = false ∧ s'.heap.alive i = false ∧
      s'.heap.numFree = s.heap.numFree + 11 ∧
      (∀ b ∈ s.blocks, b ∈ s'.blocks ∧ b.inside s'.heap) := by
  obtain ⟨s', hr', j⟩ := run_ok os empty J_empty hp hz
  rw [hr] at hr'; cases hr'
  have hal := j.alive i hi
  have hact : Ar.Active s.heap [] i := ⟨hal, by simp⟩
  have hnx : (s.heap.arenas i).next = none :=
    run_unused os empty s J_empty hp hz hr i hn (fun h => by cases h) hal
  obtain ⟨h', hf, h1, h2, h3, h4, h5, h6⟩ :=
    Ar.free_new (h := (deleteSt s i).heap) hal (j.inv.tag i hact).1 hnx (f + 2)
  unfold freeArena
  rw [if_pos hl, j.arena, if_pos hi]
  dsimp only
  rw [hf]
  refine ⟨_, rfl, ?_, h1, ?_, fun b hb => ⟨?_, ?_⟩⟩
  · show ((s.setScope i _).scopes i).live = false
    rw [setScope_same]
  · rw [h2]
    show s.heap.numFree + ((s.heap.arenas i).threshold : Int) + 1 = _
    rw [j.thr i hal]
    omega
  · refine List.mem_filter.2 ⟨hb, decide_eq_true fun e => ?_⟩
    have := j.used b hb
    rw [e, hnx] at this
    cases this
  · obtain ⟨k1, k2⟩ := (j.inv.blks b hb).2.1
    refine ⟨?_, ?_⟩
    · show h'.live b.p.blk = true; rw [h4]; exact k1
    · show _ ∧ _ ≤ ((h'.size b.p.blk : Nat) : Int) ∧ _; rw [h6]; exact k2

/-- A scope with arena with a deferral only, beside one that is used. -/
private def idle : List Op := [.initArena 0, .initArena 1, .mallocBy 1 8, .defer 0 7 (some ⟨0, 256⟩)]

private theorem idle_proper (f : Nat) : Proper ample (f + 3) empty idle := by
  refine ⟨rfl, ?_⟩
  intro s1 v1 e1; cases e1
  refine ⟨rfl, ?_⟩
  intro s2 v2 e2; cases e2
  refine ⟨⟨rfl, by decide, fun _ => by unfold Modest; decide⟩, ?_⟩
  intro s3 v3 e3; cases e3
  exact ⟨⟨rfl, fun q h => ⟨⟨1, ⟨0, 256⟩, 8⟩, by decide, by cases h; rfl⟩⟩, fun _ _ _ => trivial⟩

example : ∃ s s', run ample 3 empty idle = .ok s .unit ∧ freeArena 3 s 0 = .ok s' .unit ∧ s'.heap.alive 0 = false := by
  obtain ⟨s, h1, -⟩ := C64_deferrals_partial ample 0 idle (idle_proper 0) (fun _ _ _ => rfl)
  obtain ⟨s', h2, -, h3, -⟩ := C64_unused ample 0 idle (idle_proper 0) (fun _ _ _ => rfl) s h1 0
    (by cases h1; rfl) (by cases h1; rfl) (by decide)
  exact ⟨s, s', h1, h2, h3⟩

/-- After that, clearing any other arena with memory is undefined: its chunk is freed instead of kept, and then read. -/
theorem C64_unused_spoils (oom : Nat → Nat → Bool) (f : Nat) (os : List Op) (hp : Proper oom (f + 3) empty os)
    (hz : ZeroSafe oom os) (s : St) (hr : run oom (f + 3) empty os = .ok s .unit) (i : Nat)
    (hl : (s.scopes i).live = true) (hi : (s.scopes i).isArena = true) (hn : ∀ o ∈ os, o.asks i = false)
    (b : Ar.Blk) (hb : b ∈ s.blocks) :
    ∃ s', freeArena (f + 3) s i = .ok s' .unit ∧ Ar.clear (f + 3) s'.heap (.arena b.a) = .wild := by
  obtain ⟨s', hr', j⟩ := run_ok os empty J_empty hp hz
  rw [hr] at hr'; cases hr'
  have hal := j.alive i hi
  have hact : Ar.Active s.heap [] i := ⟨hal, by simp⟩
  have hnx : (s.heap.arenas i).next = none :=
    run_unused os empty s J_empty hp hz hr i hn (fun h => by cases h) hal
  have hne : b.a ≠ i := by
    intro e
    have := j.used b hb
    rw [e, hnx] at this
    cases this
  obtain ⟨h', hf, h1, h2, h3, h4, h5, h6⟩ :=
    Ar.free_new (h := (deleteSt s i).heap) hal (j.inv.tag i hact).1 hnx (f + 2)
  have hbal := (j.inv.blks b hb).1
  unfold freeArena
  rw [if_pos hl, j.arena, if_pos hi]
  dsimp only
  rw [hf]
  refine ⟨_, rfl, ?_⟩
  rcases j.inv.cur b.a hbal with hc | ⟨c, o, hc⟩
  · have := j.used b hb
    rw [hc.next] at this; cases this
  · refine Ar.clear_full (h := h') (c := c) ?_ ?_ ?_ ?_ ?_ (f + 1)
    · rw [(h3 _ hne).1]; exact hbal.1
    · rw [(h3 _ hne).2]; exact hc.next
    · rw [h4]; exact hc.live
    · rw [h5]; exact hc.tag
    · rw [(h3 _ hne).2, h2]
      show ((s.heap.arenas b.a).threshold : Int) ≤ s.heap.numFree + ((s.heap.arenas i).threshold : Int) + 1
      rw [j.thr _ hbal.1, j.thr _ hal, j.inv.num]
      split <;> decide

example : ∃ s s', run ample 3 empty idle = .ok s .unit ∧ freeArena 3 s 0 = .ok s' .unit ∧
    Ar.clear 3 s'.heap (.arena 1) = .wild := by
  obtain ⟨s, h1, -⟩ := C64_deferrals_partial ample 0 idle (idle_proper 0) (fun _ _ _ => rfl)
  obtain ⟨s', h2, h3⟩ := C64_unused_spoils ample 0 idle (idle_proper 0) (fun _ _ _ => rfl) s h1 0
    (by cases h1; rfl) (by cases h1; rfl) (by decide) ⟨1, ⟨0, 256⟩, 8⟩ (by cases h1; decide)
  exact ⟨s, s', h1, h2, h3⟩

/-- `raii_delete` of a scope runs its deferrals, newest first, each finding its memory, and returns; the arena and its
memory stay allocated. -/
theorem C64_delete (oom : Nat → Nat → Bool) (f : Nat) (os : List Op) (hp : Proper oom (f + 3) empty os)
    (hz : ZeroSafe oom os) (s : St) (hr : run oom (f + 3) empty os = .ok s .unit) (i : Nat)
    (hl : (s.scopes i).live = true) :
    ∃ s', delete s i = .ok s' .unit ∧ s'.log = s.log ++ (acts i (fun _ => false) 0 os).reverse.map Act.due ∧
      (s'.scopes i).live = false ∧ s'.heap = s.heap ∧ ((s.scopes i).isArena = true → s'.heap.alive i = true) := by
  obtain ⟨s', hr', j⟩ := run_ok os empty J_empty hp hz
  rw [hr] at hr'; cases hr'
  have ha := (run_acts os empty s J_empty hp hz hr i hl).1
  unfold delete
  rw [if_pos hl]
  refine ⟨_, rfl, ?_, ?_, rfl, j.alive i⟩
  · show s.log ++ (s.scopes i).acts.reverse.map (Act.run s.heap) = _
    rw [List.map_reverse, acts_due j, ha, ← List.map_reverse]
    rfl
  · show ((s.setScope i _).scopes i).live = false
    rw [setScope_same]

example : ∃ s s', run ample 3 empty hist = .ok s .unit ∧ delete s 0 = .ok s' .unit ∧
    s'.log = [.ran 3 true, .ran 9 true, .ran 7 true] ∧ s'.heap.alive 0 = true := by
  obtain ⟨s, h1, -⟩ := C64_deferrals_partial ample 0 hist (hist_proper 0) hist_safe
  obtain ⟨s', h2, h3, -, -, h4⟩ := C64_delete ample 0 hist (hist_proper 0) hist_safe s h1 0 (by cases h1; rfl)
  refine ⟨s, s', h1, h2, ?_, h4 (by cases h1; rfl)⟩
  have e : s.log = [] := by cases h1; rfl
  rw [h3, e]; rfl

/-- Asking a scope without arena for arena memory panics. -/
theorem C64_no_arena (oom : Nat → Nat → Bool) (f : Nat) (os : List Op) (hp : Proper oom (f + 3) empty os)
    (hz : ZeroSafe oom os) (s : St) (hr : run oom (f + 3) empty os = .ok s .unit) (i : Nat)
    (hl : (s.scopes i).live = true) (hi : (s.scopes i).isArena = false) (n : Ar.W) (c : BitVec 32) :
    mallocArena oom (f + 3) s i n = .panic s ∧ callocArena oom (f + 3) s i c n = .panic s := by
  obtain ⟨s', hr', j⟩ := run_ok os empty J_empty hp hz
  rw [hr] at hr'; cases hr'
  unfold mallocArena callocArena
  rw [if_pos hl, if_pos hl, j.arena, if_neg (by rw [hi]; exact Bool.false_ne_true)]
  exact ⟨rfl, rfl⟩

example : ∃ s, run ample 3 empty hist = .ok s .unit ∧ mallocArena ample 3 s 1 8 = .panic s := by
  obtain ⟨s, h1, -⟩ := C64_deferrals_partial ample 0 hist (hist_proper 0) hist_safe
  exact ⟨s, h1, (C64_no_arena ample 0 hist (hist_proper 0) hist_safe s h1 1 (by cases h1; rfl) (by cases h1; rfl) 8 0).1⟩

/-- A request near 2^64 is not refused: the scope gives a pointer, and the next block starts inside the one before. -/
theorem C64_huge : ((run ample 3 empty [.initArena 0, .mallocBy 0 64, .mallocBy 0 (0 - 32), .mallocBy 0 64]).st.map St.blocks) =
    some [⟨0, ⟨0, 288⟩, 64⟩, ⟨0, ⟨0, 320⟩, -32⟩, ⟨0, ⟨0, 256⟩, 64⟩] := by decide +kernel

end Verif.Props
