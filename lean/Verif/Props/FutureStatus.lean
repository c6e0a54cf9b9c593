import Verif.Proof.FutureStatus
import Verif.Props.Future
/-!
# C70: the status of futures
-/
namespace Verif.Props
open Verif Fu

/-- C70, the property as stated: `thrd_is_done` is true exactly if the function is over and its outcome known, `thrd_is_finish` exactly if that
holds of all functions spawned; what was true stays true. -/
def C70_Full : Prop :=
  (∀ cpus own h i, 0 < cpus → (isDone (run cpus own init h) i = true ↔ (run cpus own init h).told i)) ∧
  (∀ cpus own h, 0 < cpus → (isFinish (run cpus own init h) = true ↔ ∀ i ∈ (run cpus own init h).pool.ids, (run cpus own init h).told i)) ∧
  (∀ cpus own h h1 i, 0 < cpus → isDone (run cpus own init h) i = true → isDone (run cpus own init (h ++ h1)) i = true)

/-- A function returns 7, and its result is fetched. -/
def fetchRun : List Act := [.async 0 ⟨0, .args, .plain 7⟩] ++ List.replicate 10 (.worker 0) ++ [.get 0 0] ++ List.replicate 7 (.getter 0)

theorem C70_full_false : ¬ C70_Full := by
  intro ⟨h, _⟩
  have := (h 4 0 fetchRun 0 (by decide)).mpr ⟨_, rfl, .inr (by decide)⟩
  revert this
  decide

/-- C70, partial: until the result is asked for, `thrd_is_done` is true exactly if the function is over and its outcome is known.  Missing:
afterwards it is false again (`C70_after_get`). -/
theorem C70_done_iff_partial (cpus own : Nat) (hc : 0 < cpus) (h : List Act) (i : Nat) (hu : (run cpus own init h).unasked i) :
    isDone (run cpus own init h) i = true ↔ (run cpus own init h).told i := by
  have S := (SInv.init cpus own).run hc h
  obtain ⟨⟨f, hf, hg⟩, hp⟩ := hu
  have I := S.fut i f hf
  have ho : f.p.isOpen = true := by
    by_cases hi : i ∈ (run cpus own init h).pool.ids
    · have P := S.pool.phase
      unfold Phase at P
      rw [hp hi] at P
      obtain ⟨k, hk⟩ := List.getElem?_of_mem hi
      exact (P k (Nat.zero_le _) i f hk hf).1
    · exact (S.loose i f hf hi hg).1
  unfold isDone
  rw [hf, Option.any_some, I.done, ho, Bool.and_true]
  constructor
  · intro ht
    refine ⟨f, hf, ?_⟩
    cases hw : f.w <;> rw [hw] at ht <;> first | exact .inl rfl | exact .inr rfl | cases ht
  · rintro ⟨f', hf', hw⟩
    rw [hf] at hf'; cases hf'
    rcases hw with e | e <;> rw [e] <;> rfl

/-- The hypothesis is met by a running function, a finished one, one that threw and one that was spawned. -/
example : let y := run 4 0 init ([.async 0 ⟨0, .args, .plain 7⟩, .async 1 ⟨0, .args, .throws ⟨3, none⟩⟩, .spawn 2 ⟨0, .args, .null⟩,
      .async 3 ⟨1, .args, .plain 1⟩] ++ List.replicate 10 (.worker 0) ++ List.replicate 10 (.worker 1) ++ List.replicate 10 (.worker 2) ++ [.worker 3])
    (∀ i < 4, y.unasked i) ∧ (List.range 4).map (isDone y) = [true, true, true, false] ∧ isFinish y = true := by
  refine ⟨fun i hi => ?_, by decide, by decide⟩
  match i with
  | 0 | 1 | 2 | 3 => exact ⟨⟨_, rfl, by decide⟩, fun _ => by decide⟩

/-- C70: what `thrd_is_done` says is never wrong when it says yes: the function is over, whoever asked for the result meanwhile. -/
theorem C70_done_sound (cpus own : Nat) (hc : 0 < cpus) (h : List Act) (i : Nat) (hd : isDone (run cpus own init h) i = true) :
    (run cpus own init h).told i := by
  unfold isDone at hd
  cases hf : (run cpus own init h).futs i with
  | none => rw [hf] at hd; cases hd
  | some f =>
    rw [hf] at hd
    have I := ((SInv.init cpus own).run hc h).fut i f hf
    have hd' : f.p.done = true := hd
    rw [I.done, Bool.and_eq_true] at hd'
    refine ⟨f, hf, ?_⟩
    have := hd'.1
    cases hw : f.w <;> rw [hw] at this <;> first | exact .inl rfl | exact .inr rfl | cases this

example : isDone (run 4 0 init ([.async 0 ⟨0, .args, .plain 7⟩, .get 0 0, .getter 0] ++ List.replicate 7 (.worker 0))) 0 = true := by decide

/-- C70, partial: a future reported done stays so until its result is asked for, whatever else any thread does. -/
theorem C70_stays_partial (cpus own : Nat) (hc : 0 < cpus) (h h1 : List Act) (i : Nat) (hd : isDone (run cpus own init h) i = true)
    (hu : (run cpus own init (h ++ h1)).unasked i) : isDone (run cpus own init (h ++ h1)) i = true := by
  obtain ⟨f, hf, hw⟩ := C70_done_sound cpus own hc h i hd
  rw [C70_done_iff_partial cpus own hc (h ++ h1) i hu, run_append]
  obtain ⟨f', hf', ht⟩ := run_told (cpus := cpus) (own := own) h1 hf (by rcases hw with e | e <;> rw [e] <;> rfl)
  refine ⟨f', hf', ?_⟩
  cases hw : f'.w <;> rw [hw] at ht <;> first | exact .inl rfl | exact .inr rfl | cases ht

example : isDone (run 4 0 init joinRun) 0 = true ∧ (run 4 0 init (joinRun ++ [.oops 0 ⟨8, none⟩, .async 1 ⟨0, .args, .null⟩, .worker 1])).unasked 0 :=
  ⟨by decide, ⟨_, rfl, by decide⟩, fun _ => by decide⟩

/-- C70: every function comes to be reported done, after ten steps of its worker, whatever its outcome and whatever the other threads do
- provided it was given an argument and nobody asked for the result. -/
theorem C70_becomes_partial (cpus own : Nat) (hc : 0 < cpus) (h h1 : List Act) (i : Nat) (f : Fut)
    (hf : (run cpus own init h).futs i = some f) (ha : f.job.arg ≠ .null) (hw : 10 ≤ times (isWorker i) h1)
    (hu : (run cpus own init (h ++ h1)).unasked i) : isDone (run cpus own init (h ++ h1)) i = true := by
  have S := (SInv.init cpus own).run hc h
  have C : CInv (run cpus own init h) := CInv.init.run h
  rw [C70_done_iff_partial cpus own hc (h ++ h1) i hu, run_append]
  obtain ⟨f', h1', h2, h3, h4, _⟩ := run_worker hc h1 S hf ha (fun e => ha (C i f hf e))
  have : f.w.rank ≤ 10 := by cases f.w <;> simp [WPc.rank]
  exact ⟨f', h1', .inr (rank_zero (by omega) h3)⟩

example : isDone (run 4 0 init ([.async 0 ⟨0, .other, .throws ⟨3, none⟩⟩] ++ ([.oops 0 ⟨8, none⟩] ++ List.replicate 10 (.worker 0)))) 0 = true :=
  C70_becomes_partial 4 0 (by decide) _ _ 0 _ rfl (by decide) (by decide) ⟨⟨_, rfl, by decide⟩, fun _ => by decide⟩

/-- C70, partial: until `thrd_sync` is called, `thrd_is_finish` is true exactly if all functions spawned are over and their outcomes known. -/
theorem C70_finish_iff_partial (cpus own : Nat) (hc : 0 < cpus) (h : List Act) (hs : (run cpus own init h).pool.s = .idle) :
    isFinish (run cpus own init h) = true ↔ ∀ i ∈ (run cpus own init h).pool.ids, (run cpus own init h).told i := by
  have S := (SInv.init cpus own).run hc h
  unfold isFinish
  rw [List.all_eq_true]
  have : ∀ i ∈ (run cpus own init h).pool.ids, (isDone (run cpus own init h) i = true ↔ (run cpus own init h).told i) := by
    intro i hi
    obtain ⟨f, hf, hg, _⟩ := S.pool.known i hi
    exact C70_done_iff_partial cpus own hc h i ⟨⟨f, hf, hg⟩, fun _ => hs⟩
  exact ⟨fun H i hi => (this i hi).mp (H i hi), fun H i hi => (this i hi).mpr (H i hi)⟩

example : isFinish (run 2 0 init spawnRun) = true ∧ (run 2 0 init (spawnRun.take 13)).pool.s = .idle ∧
    isFinish (run 2 0 init (spawnRun.take 13)) = false := by decide

/-- C70: after `thrd_get`, whatever it did, `thrd_is_done` says that the function is not over - and it reads the freed future to say so. -/
theorem C70_after_get (cpus own : Nat) (hc : 0 < cpus) (h : List Act) (i : Nat) (f : Fut)
    (hf : (run cpus own init h).futs i = some f) (hg : f.g.final = true) : isDone (run cpus own init h) i = false ∧ f.live = false := by
  have S := (SInv.init cpus own).run hc h
  have X := XInv.init.run hc h (SInv.init cpus own) UInv.init
  have ha : f.g.after = true := by
    cases hgg : f.g with
    | logicError => exact absurd hgg (S.fut i f hf).logic
    | returned | threw | crashed => rfl
    | _ => rw [hgg] at hg; cases hg
  obtain ⟨h1, h2⟩ := X.get i f hf ha
  refine ⟨?_, h2⟩
  unfold isDone
  rw [hf, Option.any_some, (S.fut i f hf).done, h1, Bool.and_false]

/-- C70: after `thrd_sync`, `thrd_is_finish` says that nothing is over, and every future it reads was freed. -/
theorem C70_after_sync (cpus own : Nat) (hc : 0 < cpus) (h : List Act) (hs : (run cpus own init h).pool.s = .synced)
    (hn : (run cpus own init h).pool.ids ≠ []) :
    isFinish (run cpus own init h) = false ∧
      ∀ i ∈ (run cpus own init h).pool.ids, ∃ f, (run cpus own init h).futs i = some f ∧ f.live = false ∧ f.w = .exited := by
  have S := (SInv.init cpus own).run hc h
  have X := XInv.init.run hc h (SInv.init cpus own) UInv.init
  have all : ∀ i ∈ (run cpus own init h).pool.ids, ∃ f, (run cpus own init h).futs i = some f ∧ f.p.isOpen = false ∧ f.live = false := by
    intro i hi
    obtain ⟨f, hf, _⟩ := S.pool.known i hi
    obtain ⟨k, hk⟩ := List.getElem?_of_mem hi
    have hl : k < (run cpus own init h).pool.closed := by
      unfold Pool.closed
      rw [hs]
      exact (List.getElem?_eq_some_iff.mp hk).1
    exact ⟨f, hf, X.sync k hl i f hk hf⟩
  refine ⟨?_, fun i hi => ?_⟩
  · obtain ⟨i, hi⟩ := List.exists_mem_of_ne_nil _ hn
    obtain ⟨f, hf, ho, _⟩ := all i hi
    unfold isFinish
    rw [List.all_eq_false]
    refine ⟨i, hi, ?_⟩
    unfold isDone
    rw [hf, Option.any_some, (S.fut i f hf).done, ho, Bool.and_false]
    exact Bool.false_ne_true
  · obtain ⟨f, hf, ho, hl⟩ := all i hi
    exact ⟨f, hf, hl, (S.fut i f hf).closed ho⟩

example : (run 2 0 init (spawnRun ++ List.replicate 16 .syncer)).pool.s = .synced ∧
    (run 2 0 init (spawnRun ++ List.replicate 16 .syncer)).pool.ids = [4, 2, 9] := by decide

end Verif.Props
