import Verif.Proof.Spin
/-!
# The spinlock (C42)
-/
namespace Verif.Props
open Verif Verif.Sp

/-- **C42.**  Whatever the threads do and however they interleave: no two of them hold the lock. -/
theorem C42_mutual_exclusion (v : Nat) (hv : v ≠ 0) (h : List Act) (t u : Nat) (ht : (run v clear h).pc t = .held)
    (hu : (run v clear h).pc u = .held) : t = u := (Inv.clear.run hv h).one t u ht hu

/-- **C42.**  While a thread holds the lock, nothing the others do takes it away or lets them in. -/
theorem C42_kept (v : Nat) (hv : v ≠ 0) (h h2 : List Act) (t : Nat) (ht : (run v clear h).pc t = .held) (hn : ∀ a ∈ h2, a.tid ≠ t) :
    (run v (run v clear h) h2).pc t = .held ∧ ∀ u, u ≠ t → (run v (run v clear h) h2).pc u ≠ .held := by
  have hk := held_stays (v := v) h2 ht hn
  refine ⟨hk, fun u hu h' => hu ?_⟩
  exact ((Inv.clear.run hv h).run hv h2).one u t h' hk

/-- **C42.**  The lock is never stuck: when no thread holds it, any thread that wants it has it after two steps of its own at most. -/
theorem C42_available (v : Nat) (hv : v ≠ 0) (h : List Act) (hfree : ∀ t, (run v clear h).pc t ≠ .held) (t : Nat) :
    ((run v clear h).pc t = .tas → (run v (run v clear h) [.step t]).pc t = .held) ∧
    ((run v clear h).pc t = .spin → (run v (run v clear h) [.step t, .step t]).pc t = .held) ∧
    ((run v clear h).pc t = .out → (run v (run v clear h) [.lock t, .step t]).pc t = .held) := by
  have hf : (run v clear h).flag = 0 := by
    by_cases hf : (run v clear h).flag = 0
    · exact hf
    · obtain ⟨u, hu⟩ := (Inv.clear.run hv h).taken hf
      exact absurd hu (hfree u)
  refine ⟨fun hp => ?_, fun hp => ?_, fun hp => ?_⟩ <;> simp [run, List.foldl] at hf hp ⊢ <;> simp [step, Sys.at, hf, hp]

/-- **C42.**  Releasing makes it available: after the holder unlocks, no thread holds the lock. -/
theorem C42_released (v : Nat) (hv : v ≠ 0) (h : List Act) (t : Nat) (ht : (run v clear h).pc t = .held) (u : Nat) :
    (run v clear (h ++ [.unlock t])).pc u ≠ .held := by
  intro hu
  have I := Inv.clear.run hv (h ++ [.unlock t])
  refine I.free ?_ u hu
  simp only [run, List.foldl_append] at ht ⊢
  simp [step, ht]

/-- Three threads; one holds the lock, two wait, one of them has seen it taken. -/
example : let y := run 1 clear [.lock 0, .lock 1, .step 1, .lock 2, .step 2, .step 2, .step 0]
    y.pc 1 = .held ∧ y.pc 2 = .spin ∧ y.pc 0 = .spin := by decide

example : (run 1 clear [.lock 0, .lock 1, .step 1, .lock 2, .step 2, .unlock 1, .step 2, .step 2]).pc 2 = .held := by decide

end Verif.Props
