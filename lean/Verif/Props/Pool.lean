import Verif.Model.Pool
/-!
# C87: thread pools

"A pool made by `thrd_pool(count, …)` can be used: whatever the threads do when, nothing undefined
happens, `thrd_is_finish` answers, `thrd_sync` comes back without an exception, and `thrd_destroy` gives
back what `thrd_pool` took."
-/
namespace Verif.Props
open Verif Verif.Tp

/-- The history `h` after `thrd_pool(count, …)` was called. -/
def poolAfter (count : Nat) (h : List Act) : St := run (start count) h

/-- The property as a user would have it. -/
def C87_Full : Prop := ∀ count h, (poolAfter count h).undef = false
  ∧ (step (poolAfter count h) .sync).2 ≠ .logicError
  ∧ ((poolAfter count h).returned = true → (step (poolAfter count h) .destroy).1.blocks = [])

theorem pool_run_append (s : St) (h k : List Act) : run s (h ++ k) = run (run s h) k := by
  induction h generalizing s with
  | nil => rfl
  | cons a h ih => exact ih _

/-- What holds along every history. -/
structure PoolInv (count : Nat) (s : St) : Prop where
  cnt : s.count = count
  le : s.made ≤ count
  ret : s.returned = true → s.made = count
  args : ∀ i, (s.args i).value = none
  vals : ∀ i, s.values i = none
  /-- Undefined exactly through a thread that took a step, or through asking a pool that has threads. -/
  ran : ∀ i, i ∈ s.ran → i < s.made ∧ s.undef = true
  scope : .scope ∈ s.blocks
  pool : .pool ∈ s.blocks
  held : ∀ i, i < s.made → .future i ∈ s.blocks ∧ .arg i ∈ s.blocks
  len : s.blocks.length = 2 + 2 * s.made
  nodup : s.blocks.Nodup
  bound : ∀ i, (.future i ∈ s.blocks ∨ .arg i ∈ s.blocks) → i < s.made
  zero : count = 0 → s.undef = false

theorem poolInv_start (count : Nat) : PoolInv count (start count) :=
  ⟨rfl, Nat.zero_le _, (fun h => by cases h), fun _ => rfl, fun _ => rfl, (fun _ h => by cases h),
   by simp [start], by simp [start], (fun i h => absurd h (Nat.not_lt_zero i)), rfl, by simp [start],
   (fun i h => by simp [start] at h), fun _ => rfl⟩

theorem poolInv_step {count : Nat} {s : St} (h : PoolInv count s) (a : Act) : PoolInv count (step s a).1 := by
  cases a with
  | maker =>
    simp only [step]
    split
    · exact h
    rename_i hu
    unfold makerStep
    split
    · exact h
    rename_i hr
    split
    · rename_i hlt
      refine ⟨h.cnt, by have := h.cnt; show s.made + 1 ≤ count; omega, (fun e => absurd e hr), h.args, h.vals,
        fun i hi => absurd (h.ran i hi).2 hu, by simp [h.scope], by simp [h.pool], fun i hi => ?_, ?_, ?_, fun i hi => ?_, h.zero⟩
      · have hi' : i < s.made + 1 := hi
        rcases Nat.lt_succ_iff_lt_or_eq.mp hi' with hlt | rfl
        · have := h.held i hlt; simp [this.1, this.2]
        · simp
      · have := h.len
        show (_ :: _ :: s.blocks).length = 2 + 2 * (s.made + 1)
        simp only [List.length_cons]; omega
      · have hb := h.bound s.made
        show (Block.arg s.made :: Block.future s.made :: s.blocks).Nodup
        rw [List.nodup_cons, List.nodup_cons]
        refine ⟨?_, ?_, h.nodup⟩
        · simp only [List.mem_cons]
          rintro (e | e)
          · cases e
          · exact absurd (hb (Or.inr e)) (Nat.lt_irrefl _)
        · intro e
          exact absurd (hb (Or.inl e)) (Nat.lt_irrefl _)
      · have hb := h.bound i
        show i < s.made + 1
        simp only [List.mem_cons, Block.future.injEq, Block.arg.injEq, reduceCtorEq, false_or] at hi
        rcases hi with (e | e) | (e | e)
        · omega
        · have := hb (Or.inl e); omega
        · omega
        · have := hb (Or.inr e); omega
    · rename_i hge
      exact ⟨h.cnt, h.le, (fun _ => by have := h.cnt; have := h.le; show s.made = count; omega), h.args, h.vals, h.ran,
        h.scope, h.pool, h.held, h.len, h.nodup, h.bound, h.zero⟩
  | worker i =>
    simp only [step]
    split
    · exact h
    unfold workerStep
    split
    · rename_i hi
      rw [h.args i]
      refine ⟨h.cnt, h.le, h.ret, h.args, h.vals, fun j hj => ⟨?_, rfl⟩, h.scope, h.pool, h.held, h.len, h.nodup,
        h.bound, fun e => ?_⟩
      · rcases List.mem_cons.mp hj with rfl | hj
        · exact hi
        · exact (h.ran j hj).1
      · have := h.le; omega
    · exact h
  | isFinish =>
    simp only [step]
    split
    · exact h
    split
    · rename_i he
      refine ⟨h.cnt, h.le, h.ret, h.args, h.vals, fun j hj => ⟨(h.ran j hj).1, rfl⟩, h.scope, h.pool, h.held, h.len,
        h.nodup, h.bound, fun e => ?_⟩
      rw [h.cnt, e] at he
      cases he
    · exact h
  | sync => simp only [step]; split <;> exact h
  | destroy => exact h

theorem poolInv_run {count : Nat} {s : St} (hs : PoolInv count s) (h : List Act) : PoolInv count (run s h) := by
  induction h generalizing s with
  | nil => exact hs
  | cons a h ih => exact ih (poolInv_step hs a)

theorem poolInv_after (count : Nat) (h : List Act) : PoolInv count (poolAfter count h) :=
  poolInv_run (poolInv_start count) h

/-- Whatever was done before: as soon as any thread of a pool takes a step, the execution is undefined. -/
theorem C87_thread_undefined (count : Nat) (h : List Act) (i : Nat) (hi : i < (poolAfter count h).made) :
    (poolAfter count (h ++ [.worker i])).undef = true := by
  have inv := poolInv_after count h
  show (run (start count) (h ++ [.worker i])).undef = true
  rw [pool_run_append]
  show (step (poolAfter count h) (.worker i)).1.undef = true
  simp only [step]
  split
  · assumption
  · simp only [workerStep, if_pos hi, inv.args i]

/-- Undefined behaviour stays. -/
theorem pool_undef_run {s : St} (hs : s.undef = true) (h : List Act) : (run s h).undef = true := by
  induction h generalizing s with
  | nil => exact hs
  | cons a h ih =>
    refine ih ?_
    cases a <;> simp [step, hs]

/-- Asking a pool that has threads whether it is finished is undefined too. -/
theorem C87_isFinish_undefined (count : Nat) (hc : 0 < count) (h : List Act)
    (hr : (poolAfter count h).returned = true) : (poolAfter count (h ++ [.isFinish])).undef = true := by
  have inv := poolInv_after count h
  show (run (start count) (h ++ [.isFinish])).undef = true
  rw [pool_run_append]
  show (step (poolAfter count h) .isFinish).1.undef = true
  simp only [step, hr]
  split
  · rename_i e; simpa using e
  · obtain ⟨n, hn⟩ : ∃ n, count = n + 1 := ⟨count - 1, by omega⟩
    have : finished (poolAfter count h) (poolAfter count h).count = none := by
      rw [inv.cnt]; rw [hn]; simp only [finished]
      rw [← hn, inv.vals]
    rw [this]

/-- Nothing else is: with neither a step of a thread nor `thrd_is_finish`, an execution is defined. -/
theorem C87_otherwise_defined (count : Nat) (h : List Act)
    (hw : ∀ i, .worker i ∉ h) (hf : .isFinish ∉ h) : (poolAfter count h).undef = false := by
  suffices ∀ s : St, s.undef = false → (run s h).undef = false from this _ rfl
  intro s hs
  induction h generalizing s with
  | nil => exact hs
  | cons a h ih =>
    have hw' : ∀ i, .worker i ∉ h := fun i e => hw i (List.mem_cons_of_mem _ e)
    have hf' : .isFinish ∉ h := fun e => hf (List.mem_cons_of_mem _ e)
    refine ih hw' hf' _ ?_
    cases a with
    | maker => simp only [step, hs]; unfold makerStep; repeat' split
               all_goals first | exact hs | contradiction
    | worker i => exact absurd (List.mem_cons_self ..) (hw i)
    | isFinish => exact absurd (List.mem_cons_self ..) hf
    | sync => simp only [step]; split <;> exact hs
    | destroy => exact hs

/-- `thrd_sync` refuses every pool, of whatever size and at whatever moment. -/
theorem C87_sync_refuses (count : Nat) (h : List Act) (hd : (poolAfter count h).undef = false)
    (hr : (poolAfter count h).returned = true) :
    step (poolAfter count h) .sync = (poolAfter count h, .logicError) := by
  simp [step, hd, hr]

/-- `thrd_destroy` gives nothing back: of every pool, two blocks and two for each thread stay allocated
for good (no later step returns them either, see `C87_never_returned`). -/
theorem C87_destroy_leaks (count : Nat) (h : List Act) (hr : (poolAfter count h).returned = true) :
    (poolAfter count (h ++ [.destroy])).blocks.length = 2 + 2 * count
    ∧ .pool ∈ (poolAfter count (h ++ [.destroy])).blocks
    ∧ .scope ∈ (poolAfter count (h ++ [.destroy])).blocks
    ∧ (∀ i, i < count → .future i ∈ (poolAfter count (h ++ [.destroy])).blocks
        ∧ .arg i ∈ (poolAfter count (h ++ [.destroy])).blocks)
    ∧ (poolAfter count (h ++ [.destroy])).blocks.Nodup := by
  have inv := poolInv_after count h
  have e : poolAfter count (h ++ [.destroy]) = poolAfter count h := by
    show run (start count) (h ++ [.destroy]) = _
    rw [pool_run_append]; rfl
  rw [e]
  have hm := inv.ret hr
  exact ⟨by rw [inv.len, hm], inv.pool, inv.scope, fun i hi => inv.held i (by omega), inv.nodup⟩

/-- What a pool took it keeps. -/
theorem C87_never_returned (count : Nat) (h k : List Act) (b : Block)
    (hb : b ∈ (poolAfter count h).blocks) : b ∈ (poolAfter count (h ++ k)).blocks := by
  show b ∈ (run (start count) (h ++ k)).blocks
  rw [pool_run_append]
  suffices ∀ s : St, b ∈ s.blocks → b ∈ (run s k).blocks from this _ hb
  intro s hs
  induction k generalizing s with
  | nil => exact hs
  | cons a k ih =>
    refine ih _ ?_
    cases a with
    | maker => simp only [step]; split; exact hs; unfold makerStep; repeat' split
               all_goals first | exact hs | exact List.mem_cons_of_mem _ (List.mem_cons_of_mem _ hs)
    | worker i => simp only [step]; split; exact hs; unfold workerStep; repeat' split
                  all_goals exact hs
    | isFinish => simp only [step]; repeat' split
                  all_goals exact hs
    | sync => simp only [step]; split <;> exact hs
    | destroy => exact hs

/-- What is left: a pool of no threads is defined whatever is done with it, and is always finished.
Missing: any use of a pool that has threads. -/
theorem C87_empty_partial (h : List Act) : (poolAfter 0 h).undef = false
    ∧ ((poolAfter 0 h).returned = true → step (poolAfter 0 h) .isFinish = (poolAfter 0 h, .bool true)) := by
  have inv := poolInv_after 0 h
  refine ⟨inv.zero rfl, fun hr => ?_⟩
  simp [step, hr, inv.zero rfl, inv.cnt, finished]

/-- The full property is false. -/
theorem C87_full_false : ¬ C87_Full := fun h =>
  absurd (h 1 [.maker, .worker 0]).1 (by decide)

/-- A pool of two threads: the first thread runs while the second is still being started. -/
example : (poolAfter 2 [.maker]).made = 1 ∧ (poolAfter 2 [.maker, .worker 0]).undef = true := by decide
/-- Two threads that never run: `thrd_sync` throws, and six blocks stay. -/
example : (poolAfter 2 [.maker, .maker, .maker]).returned = true
    ∧ (step (poolAfter 2 [.maker, .maker, .maker]) .sync).2 = .logicError
    ∧ (poolAfter 2 [.maker, .maker, .maker, .destroy]).blocks.length = 6
    ∧ (poolAfter 2 [.maker, .maker, .maker, .isFinish]).undef = true := by decide
example : (poolAfter 0 [.maker]).returned = true := by decide

end Verif.Props
