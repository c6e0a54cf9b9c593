import Verif.Proof.SpawnScope6
/-!
# C69: joining a spawn scope releases what belongs to it, and only that

`run cpus init h`: what the calls `h` of a thread lead to; `none` if memory that was given back is accessed or given back again.  The rules of the
interface (`Proper`, `Complete`) and the words `Stale`, `Quiet`, `deferred` are in `Verif.Spec.SpawnScope`; they look at the calls only.
-/
namespace Verif.Props
open Verif So

/-- C69, the property as stated: a program that keeps the rules never meets freed memory, and at the end of the thread every block was given back
exactly once and every deferred function has run exactly once, newest first. -/
def C69_Full : Prop :=
  ∀ cpus h, Proper h → ∃ w, run cpus init h = some w ∧
    (Complete h → (∀ b < w.next, w.freed.count b = 1) ∧ w.ran = (deferred h).reverse)

/-- A block is allocated, a function is spawned and joined, the block is used. -/
def joinThenUse : List Act := [.alloc, .scope, .spawn .word, .finish 0, .sync 0, .use 0]

/-- `thrd_sync` (`future.c:284`) has released the thread's own memory: the program reads freed memory. -/
theorem C69_full_false : ¬ C69_Full := by
  intro h
  obtain ⟨w, e, _⟩ := h 4 joinThenUse (by decide)
  revert e
  have : run 4 init joinThenUse = none := by decide
  rw [this]
  simp

/-- Another future is running when a spawn scope is joined: its worker writes to the promise, which was freed. -/
theorem C69_other_future : Proper [.async .word, .scope, .spawn .word, .finish 1, .sync 0, .finish 0] ∧
    run 4 init [.async .word, .scope, .spawn .word, .finish 1, .sync 0, .finish 0] = none := by
  constructor <;> decide

/-- So does the worker of a second spawn scope. -/
theorem C69_other_scope : Proper [.scope, .spawn .word, .scope, .spawn .word, .finish 0, .sync 0, .finish 1] ∧
    run 4 init [.scope, .spawn .word, .scope, .spawn .word, .finish 0, .sync 0, .finish 1] = none := by
  constructor <;> decide

/-- Even joining an empty spawn scope does it. -/
theorem C69_empty_scope : Proper [.alloc, .scope, .sync 0, .use 0] ∧ run 4 init [.alloc, .scope, .sync 0, .use 0] = none := by
  constructor <;> decide

/-- C69: exactly when a program that keeps the rules meets freed memory: when, after the first join, it uses a block allocated before it, or when the function of a
future started before it ends, is fetched or joined.  Any number of blocks, futures, spawn scopes, in any order. -/
theorem C69_fault_iff (cpus : Nat) (h : List Act) (hp : Proper h) : run cpus init h = none ↔ Stale h :=
  run_none cpus h [] .empty init R.init BookOk.empty hp

/-- C69: exactly when nothing is leaked: when nothing is allocated, deferred or started after the first join. -/
theorem C69_released_iff (cpus : Nat) (h : List Act) (hc : Complete h) (w : World) (hr : run cpus init h = some w) :
    (∀ b < w.next, w.freed.count b = 1) ↔ Quiet h := by
  unfold Complete at hc
  unfold Quiet
  rw [Option.any_eq_true] at hc
  obtain ⟨c, e, ho⟩ := hc
  obtain ⟨_, h1, h2⟩ := run_end cpus h [] .empty c init w R.init BookOk.empty e ho hr
  rw [e]
  simp only [Option.any_some, Bool.not_eq_true']
  constructor
  · intro hx
    cases hl : c.late with
    | false => rfl
    | true =>
      obtain ⟨b, hb, h0⟩ := h2 hl
      rw [hx b hb] at h0
      cases h0
  · exact h1

/-- C69: which deferred functions ever run: those deferred before the first join, newest first.  The others never do. -/
theorem C69_deferrals (cpus : Nat) (h : List Act) (hc : Complete h) (w : World) (hr : run cpus init h = some w) :
    w.ran = (deferredBefore h).reverse := by
  unfold Complete at hc
  rw [Option.any_eq_true] at hc
  obtain ⟨c, e, ho⟩ := hc
  obtain ⟨h1, _⟩ := run_end cpus h [] .empty c init w R.init BookOk.empty e ho hr
  rw [h1, lastDs_open h .empty [] rfl]
  rfl

/-- C69: nothing is ever given back twice. -/
theorem C69_once (cpus : Nat) (h : List Act) (hp : Proper h) (w : World) (hr : run cpus init h = some w) : w.freed.Nodup :=
  run_once cpus h [] .empty init w R.init BookOk.empty hp hr

/-- C69, partial: if the thread leaves its own scope alone from the first join on - no use of older blocks or futures, nothing new - all is well.
Missing: programs that go on, see the theorems above. -/
theorem C69_joins_last_partial (cpus : Nat) (h : List Act) (hp : Proper h) (hs : ¬ Stale h) (hq : Quiet h) :
    ∃ w, run cpus init h = some w ∧ (Complete h → (∀ b < w.next, w.freed.count b = 1) ∧ w.ran = (deferred h).reverse) := by
  cases hr : run cpus init h with
  | none => exact absurd ((C69_fault_iff cpus h hp).mp hr) hs
  | some w =>
    refine ⟨w, rfl, fun hc => ⟨(C69_released_iff cpus h hc w hr).mpr hq, ?_⟩⟩
    rw [C69_deferrals cpus h hc w hr]
    unfold Quiet at hq
    rw [Option.any_eq_true] at hq
    obtain ⟨c, e, hl⟩ := hq
    rw [quiet_deferred h .empty c e rfl (by simpa using hl)]

/-- C69, partial: programs that use futures but never join a spawn scope. -/
theorem C69_futures_only_partial (cpus : Nat) (h : List Act) (hp : Proper h) (hn : ∀ k, .sync k ∉ h) :
    ∃ w, run cpus init h = some w ∧ (Complete h → (∀ b < w.next, w.freed.count b = 1) ∧ w.ran = (deferred h).reverse) := by
  obtain ⟨h1, h2⟩ := noJoin h .empty hn rfl rfl
  refine C69_joins_last_partial cpus h hp (by unfold Stale; rw [h1]; simp) ?_
  unfold Proper at hp
  obtain ⟨c, e⟩ := Option.isSome_iff_exists.mp hp
  unfold Quiet
  rw [e]
  simp [h2 c e]

/-- Joining waits: as long as one function of the spawn scope is running, `thrd_sync` changes nothing. -/
theorem C69_waits (w w' : World) (k i : Nat) (p : Pool) (f : Fut) (hp : w.pools[k]? = some p) (hi : i ∈ p.fids) (hf : w.futs[i]? = some f) (hr : f.pend = true)
    (h : w.sync k = some w') : w' = w := by
  have ha : p.fids.any (fun i => (w.futs[i]?).any fun f => f.pend) = true := by
    rw [List.any_eq_true]
    exact ⟨i, hi, by simp [hf, hr]⟩
  simp only [World.sync, hp, World.touchAll, World.touch] at h
  split at h
  · simp at h
  · simp only [Option.bind_some, ha, if_true, Option.some.injEq] at h
    exact h.symm

/-- Asking for the value waits: as long as the function is running, `thrd_get` changes nothing. -/
theorem C69_get_waits (w w' : World) (i : Nat) (f : Fut) (hf : w.futs[i]? = some f) (hr : f.pend = true) (h : w.get i = some w') : w' = w := by
  simp [World.get, hf, hr] at h
  exact h.symm

/-- Two functions are spawned, one has finished. -/
example : ∃ w p f, run 2 init [.scope, .spawn .word, .spawn .word, .finish 0] = some w ∧ w.pools[0]? = some p ∧ 1 ∈ p.fids ∧ w.futs[1]? = some f ∧
    f.pend = true ∧ (w.sync 0).isSome := by
  refine ⟨_, _, _, rfl, rfl, ?_, rfl, ?_, ?_⟩ <;> decide

/-- Two functions, one returning a block, on two processors; the results are read after the join. -/
def joinLast : List Act :=
  [.alloc, .defer 7, .async .block, .scope, .spawn .block, .spawn .word, .spawn .word, .finish 3, .finish 0, .defer 8, .finish 1, .get 0, .use 0,
   .finish 2, .sync 0, .result 0 0, .result 0 2, .destroy 0, .done]

example : Proper joinLast ∧ Complete joinLast ∧ ¬ Stale joinLast ∧ Quiet joinLast :=
  ⟨by decide, by decide, by decide, by decide⟩

example : (run 2 init joinLast).map (fun w => (w.ran, w.next)) = some ([8, 7], 36) := by decide

/-- A program that goes on after the join with new memory: nothing is freed too early, but what it takes is never given back and what it defers
never runs. -/
def goesOn : List Act := [.scope, .defer 1, .spawn .word, .finish 0, .sync 0, .destroy 0, .alloc, .defer 2, .use 0, .done]

example : Proper goesOn ∧ Complete goesOn ∧ ¬ Stale goesOn ∧ ¬ Quiet goesOn :=
  ⟨by decide, by decide, by decide, by decide⟩

example : (run 2 init goesOn).map (fun w => (w.ran, (List.range w.next).filter fun b => b ∉ w.freed)) = some ([1], [14, 15, 16]) := by decide

/-- Futures only. -/
example : Complete [.alloc, .async .block, .defer 3, .async .word, .finish 1, .finish 0, .get 1, .use 0, .get 0, .done] := by decide

end Verif.Props
