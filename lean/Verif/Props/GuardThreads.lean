import Verif.Proof.GuardThreads
/-!
# C47: guarded sections in different threads
-/
namespace Verif.Props
open Verif Verif.Gd
open Verif.Ex (Exn)

/-- C47 in full: a thread observes what it would observe if it were the only one. -/
def C47_Full : Prop := ∀ (eq : Nat → Nat → Bool) (h : List Op) (t : Nat),
  seenBy t (runSys eq idle h) = seenBy t (runSys eq idle (h.filter fun o => o.tid == t))

/-- The panic used below. -/
def boom : Exn := ⟨1, 2, 3, 4, some 7⟩

/-- Threads 0 and 1 enter a section each; thread 0 leaves; thread 1 panics and asks to recover: the
panic is not recovered, because thread 0 has switched recovery off, and going on it dereferences NULL. -/
theorem C47_recovery_lost :
    let h := [Op.enter 0, .enter 1, .defer 1 ⟨5, some 7, none⟩, .exit 0, .panic 1 boom]
    seenBy 1 (runSys (· == ·) idle h) = [(1, [5], none)] ∧
    seenBy 1 (runSys (· == ·) idle (h.filter fun o => o.tid == 1)) = [(1, [5], some true)] := by
  decide

/-- A thread that is in no section panics while another is in one: NULL is dereferenced. -/
theorem C47_crash : seenBy 1 (runSys (· == ·) idle [.enter 0, .panic 1 boom]) = [(1, [], none)] ∧
    seenBy 1 (runSys (· == ·) idle [.panic 1 boom]) = [(1, [], some false)] := by decide

/-- Two overlapping sections, both left: the variables stay set for ever, so that a later panic in any thread
outside sections dereferences NULL although nobody is in a section. -/
theorem C47_left_behind :
    let h := [Op.enter 0, .enter 1, .exit 0, .exit 1]
    (runSys (· == ·) idle h).th 0 = [] ∧ (runSys (· == ·) idle h).th 1 = [] ∧
    (runSys (· == ·) idle h).on = true ∧
    seenBy 2 (runSys (· == ·) idle (h ++ [.panic 2 boom])) = [(2, [], none)] := by decide

theorem C47_full_false : ¬ C47_Full := by
  intro h
  exact absurd (h (· == ·) [.enter 0, .panic 1 boom] 1) (by decide)

/-- C47, proved part: if at any time only one thread is in guarded sections, and no other thread acts in
sections or panics meanwhile, each thread observes what it would observe alone.  Missing: overlapping
sections, and panics in other threads while a thread is in a section. -/
theorem C47_serial_partial (eq : Nat → Nat → Bool) (h : List Op) (hs : Serial eq idle h) (t : Nat) :
    seenBy t (runSys eq idle h) = seenBy t (runSys eq idle (h.filter fun o => o.tid == t)) := by
  refine (Sim.run h idle idle ⟨rfl, rfl, fun _ _ => rfl, fun _ _ => rfl, rfl⟩ hs).obs

example : Serial (· == ·) idle [.enter 0, .defer 0 ⟨1, none, none⟩, .enter 0, .exit 0, .exit 0, .enter 1, .defer 1 ⟨2, some 7, none⟩,
    .panic 1 boom, .panic 0 boom] := by
  refine ⟨?_, ?_, ?_, ?_, ?_, ?_, ?_, ?_, ?_, trivial⟩ <;> intro u hu <;>
    simp [Op.tid] at hu <;> simp [step, idle, Sys.set, hu, panicRun, stops, key, boom] <;>
    intro h1 <;> simp [h1]

end Verif.Props
