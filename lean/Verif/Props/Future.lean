import Verif.Proof.FutureEnd
/-!
# C38-C41: futures

`run cpus own init h`: what any history `h` of any number of threads leads to.  `cpus` is the number of processors, `own` the scope of the
thread that owns the spawn scope.
-/
namespace Verif.Props
open Verif Fu

/-! ## C38 -/

/-- C38, the property as stated: a function that returns a value has that value returned by `thrd_get` (or an exception is thrown there,
see C39), and when `thrd_is_done` says so `thrd_get` gets to its end without further steps of the worker. -/
def C38_Full : Prop :=
  (∀ cpus own h i f v, 0 < cpus → (run cpus own init h).futs i = some f → f.g.final = true → f.job.out.word = some v →
    f.g = .returned v ∨ ∃ e, f.g = .threw e) ∧
  (∀ cpus own h i s, 0 < cpus → isDone (run cpus own init h) i = true →
    ∃ n, ((run cpus own init (h ++ .get i s :: List.replicate n (.getter i))).futs i).any (fun f => f.g.final) = true)

/-- A function returns NULL. -/
def nullRun : List Act := [.async 0 ⟨0, .args, .null⟩] ++ List.replicate 10 (.worker 0) ++ [.get 0 0] ++ List.replicate 8 (.getter 0)

/-- `thrd_get` dereferences NULL when the function returned NULL (`future.c:117`). -/
theorem C38_null_crashes : ((run 4 0 init nullRun).futs 0).map (fun f => (f.g, f.job.out)) = some (.crashed, .null) := by decide

theorem C38_full_false : ¬ C38_Full := by
  intro ⟨h, _⟩
  have key : ∃ f, (run 4 0 init nullRun).futs 0 = some f ∧ f.g = .crashed ∧ f.job.out = .null := by
    have := C38_null_crashes
    rw [Option.map_eq_some_iff] at this
    obtain ⟨f, h1, h2⟩ := this
    exact ⟨f, h1, congrArg Prod.fst h2, congrArg Prod.snd h2⟩
  obtain ⟨f, h1, h2, h3⟩ := key
  have := h 4 0 nullRun 0 f 0 (by decide) h1 (by rw [h2]; rfl) (by rw [h3]; rfl)
  rw [h2] at this
  rcases this with h | ⟨e, h⟩ <;> cases h

/-- `thrd_is_done` does not say that `thrd_get` will not wait: after this history it is true, and `thrd_get` still waits for the worker to
run its own deferrals and end (`thrd_join`, `future.c:64`), however many steps it takes. -/
def joinRun : List Act := [.async 0 ⟨0, .args, .plain 7⟩] ++ List.replicate 7 (.worker 0)

theorem C38_done_waits : isDone (run 4 0 init joinRun) 0 = true ∧
    ∀ n, ((run 4 0 init (joinRun ++ .get 0 0 :: List.replicate n (.getter 0))).futs 0).any (fun f => f.g.final) = false := by
  refine ⟨by decide, fun n => ?_⟩
  match n with
  | 0 | 1 | 2 => decide
  | n + 3 =>
    rw [show List.replicate (n + 3) (Act.getter 0) = List.replicate 3 (.getter 0) ++ List.replicate n (.getter 0) by
      rw [List.replicate_append_replicate, Nat.add_comm]]
    rw [show joinRun ++ Act.get 0 0 :: (List.replicate 3 (.getter 0) ++ List.replicate n (.getter 0)) =
      (joinRun ++ Act.get 0 0 :: List.replicate 3 (.getter 0)) ++ List.replicate n (.getter 0) by simp]
    rw [run_append]
    have fix : step 4 0 (run 4 0 init (joinRun ++ Act.get 0 0 :: List.replicate 3 (.getter 0))) (.getter 0) =
        run 4 0 init (joinRun ++ Act.get 0 0 :: List.replicate 3 (.getter 0)) := by rfl
    rw [run_fix fix]
    decide

/-- C38, partial: whatever the schedule, `thrd_get` returns only after the thread function is over (the thread has even ended), and what
it returns is the value the function returned.  Missing: NULL results (`C38_null_crashes`), for which nothing is returned. -/
theorem C38_value_partial (cpus own : Nat) (hc : 0 < cpus) (h : List Act) (i : Nat) (f : Fut) (v : Nat)
    (hf : (run cpus own init h).futs i = some f) (hg : f.g = .returned v) : f.w = .exited ∧ f.job.out.word = some v := by
  have I := ((SInv.init cpus own).run hc h).fut i f hf
  refine ⟨I.join (by rw [hg]; rfl), ?_⟩
  obtain ⟨b, h1, h2⟩ := I.ret v hg
  cases ho : f.job.out <;> rw [ho] at h1 <;> cases h1 <;> subst h2 <;> rfl

example : ((run 4 0 init (joinRun ++ [.worker 0, .get 0 0] ++ List.replicate 7 (.getter 0))).futs 0).map (fun f => f.g) = some (.returned 7) := by decide

/-- C38: `thrd_get` fails to return a value (it throws what it finds in the creator's scope, or crashes) in no other way. -/
theorem C38_ends_partial (cpus own : Nat) (hc : 0 < cpus) (h : List Act) (i : Nat) (f : Fut)
    (hf : (run cpus own init h).futs i = some f) (hg : f.g.final = true) :
    (∃ v, f.g = .returned v ∧ f.job.out.word = some v) ∨ (∃ e, f.g = .threw e) ∨
      (f.g = .crashed ∧ (f.job.out = .null ∨ ∃ e, f.job.out = .throws e)) := by
  have I := ((SInv.init cpus own).run hc h).fut i f hf
  cases hgg : f.g with
  | returned v => exact .inl ⟨v, rfl, (C38_value_partial cpus own hc h i f v hf hgg).2⟩
  | threw e => exact .inr (.inl ⟨e, rfl⟩)
  | crashed =>
    refine .inr (.inr ⟨rfl, ?_⟩)
    have := I.crash hgg
    cases ho : f.job.out with
    | null => exact .inl rfl
    | throws e => exact .inr ⟨e, rfl⟩
    | plain | returning => rw [ho] at this; cases this
  | logicError => exact absurd hgg I.logic
  | _ => rw [hgg] at hg; cases hg

/-- C38: no schedule keeps `thrd_get` from its end: after ten steps of the worker and then seven of the caller, among whatever steps of other
threads, it is over - provided the function was given an argument. -/
theorem C38_completes (cpus own : Nat) (hc : 0 < cpus) (h h1 h2 : List Act) (i : Nat) (f : Fut)
    (hf : (run cpus own init h).futs i = some f) (hg : f.g ≠ .idle) (ha : f.job.arg ≠ .null)
    (hw : 10 ≤ times (isWorker i) h1) (hr : 7 ≤ times (isGetter i) h2) :
    ∃ f', (run cpus own init (h ++ h1 ++ h2)).futs i = some f' ∧ f'.g.final = true := by
  have S := (SInv.init cpus own).run hc h
  have C : CInv (run cpus own init h) := CInv.init.run h
  obtain ⟨f1, g1, g2, g3, g4, g5⟩ := run_worker hc h1 S hf ha (fun e => ha (C i f hf e))
  have : f.w.rank ≤ 10 := by cases f.w <;> simp [WPc.rank]
  have hw1 : f1.w = .exited := rank_zero (by omega) g3
  have S1 := S.run hc h1
  obtain ⟨f2, k1, k2, k3, k4⟩ := run_getter hc h2 S1 g1 hw1 (g5 hg)
  refine ⟨f2, by rw [run_append, run_append]; exact k1, grank_zero ?_⟩
  have h7 : f1.g.rank ≤ 7 := by
    have := g5 hg
    cases hh : f1.g with
    | idle => exact absurd hh this
    | _ => simp [GPc.rank]
  omega

example : ∃ f', (run 4 0 init ([.async 0 ⟨0, .args, .plain 7⟩, .get 0 0, .getter 0, .async 1 ⟨0, .other, .plain 9⟩] ++
    (List.replicate 10 (.worker 0) ++ [.worker 1]) ++ (.worker 1 :: List.replicate 7 (.getter 0)))).futs 0 = some f' ∧ f'.g.final = true :=
  C38_completes 4 0 (by decide) _ _ _ 0 _ rfl (by decide) (by decide) (by decide) (by decide)

/-- A worker that was given no argument dereferences NULL after its function is over (`future.c:81`); `thrd_get` then waits for ever. -/
theorem C38_null_argument : ((run 4 0 init ([.async 0 ⟨0, .null, .plain 7⟩] ++ List.replicate 3 (.worker 0))).futs 0).map (fun f => f.w) =
    some .crashed := by decide

/-- C38: `thrd_is_done` is true only when the function is over and its result can be read. -/
theorem C38_done (cpus own : Nat) (hc : 0 < cpus) (h : List Act) (i : Nat) (hd : isDone (run cpus own init h) i = true) :
    ∃ f, (run cpus own init h).futs i = some f ∧ f.w.over = true ∧ f.p.result = f.job.out.kept := by
  unfold isDone at hd
  cases hf : (run cpus own init h).futs i with
  | none => rw [hf] at hd; cases hd
  | some f =>
    rw [hf] at hd
    have I := ((SInv.init cpus own).run hc h).fut i f hf
    have hd' : f.p.done = true := hd
    rw [I.done, Bool.and_eq_true] at hd'
    refine ⟨f, rfl, ?_, ?_⟩
    · have := hd'.1
      cases hw : f.w <;> rw [hw] at this <;> first | rfl | cases this
    · rw [I.result, if_pos (told_stored hd'.1)]
      cases f.job.out <;> rfl

/-! ## C39 -/

/-- C39, the property as stated, for `thrd_get` and for `thrd_sync`. -/
def C39_Full : Prop :=
  (∀ cpus own h i f e, 0 < cpus → (run cpus own init h).futs i = some f → f.g.final = true → (f.g = .threw e ↔ f.job.out = .throws e)) ∧
  (∀ cpus own h, 0 < cpus → (run cpus own init h).pool.s.final = true →
    (∃ i f e, i ∈ (run cpus own init h).pool.ids ∧ (run cpus own init h).futs i = some f ∧ f.job.out = .throws e) →
    ∃ e, (run cpus own init h).pool.s = .threw e)

/-- Two futures of one thread: the first function throws, the second starts later and wipes the note (`future.c:74`). -/
def lostRun : List Act :=
  [.async 0 ⟨0, .args, .throws ⟨3, none⟩⟩] ++ List.replicate 10 (.worker 0) ++ [.async 1 ⟨0, .args, .plain 5⟩] ++ List.replicate 10 (.worker 1) ++
    [.get 0 0] ++ List.replicate 8 (.getter 0)

/-- The exception is lost, and `thrd_get` crashes for want of a result. -/
theorem C39_lost : ((run 4 0 init lostRun).futs 0).map (fun f => (f.g, f.job.out)) = some (.crashed, .throws ⟨3, none⟩) := by decide

/-- Both started, the second throws; the first, which returned 5, is asked for. -/
def wrongRun : List Act :=
  [.async 0 ⟨0, .args, .plain 5⟩, .async 1 ⟨0, .args, .throws ⟨3, none⟩⟩] ++ List.replicate 10 (.worker 0) ++ List.replicate 10 (.worker 1) ++
    [.get 0 0] ++ List.replicate 8 (.getter 0)

/-- The exception of one function is thrown on behalf of another, whose value is lost. -/
theorem C39_misattributed : ((run 4 0 init wrongRun).futs 0).map (fun f => (f.g, f.job.out)) = some (.threw ⟨3, none⟩, .plain 5) := by decide

/-- The thread throws (and catches) an exception of its own between `thrd_async` and `thrd_get`. -/
def ownRun : List Act :=
  [.async 0 ⟨0, .args, .plain 5⟩] ++ List.replicate 10 (.worker 0) ++ [.oops 0 ⟨8, none⟩, .get 0 0] ++ List.replicate 8 (.getter 0)

/-- It is thrown again by `thrd_get`. -/
theorem C39_own_again : ((run 4 0 init ownRun).futs 0).map (fun f => (f.g, f.job.out)) = some (.threw ⟨8, none⟩, .plain 5) := by decide

/-- A spawned function throws. -/
def syncRun : List Act :=
  [.spawn 0 ⟨0, .args, .throws ⟨3, none⟩⟩, .sync] ++ List.replicate 10 (.worker 0) ++ List.replicate 6 .syncer

/-- `thrd_sync` dereferences NULL (`future.c:270`) instead of throwing. -/
theorem C39_sync_crashes : (run 4 0 init syncRun).pool.s = .crashed := by decide

theorem C39_full_false : ¬ C39_Full := by
  intro ⟨h, _⟩
  have := C39_misattributed
  rw [Option.map_eq_some_iff] at this
  obtain ⟨f, h1, h2⟩ := this
  have hg : f.g = .threw ⟨3, none⟩ := congrArg Prod.fst h2
  have ho : f.job.out = .plain 5 := congrArg Prod.snd h2
  have := (h 4 0 wrongRun 0 f ⟨3, none⟩ (by decide) h1 (by rw [hg]; rfl)).mp hg
  rw [ho] at this
  cases this

/-- C39, partial: in every schedule in which each thread has one future at a time (`OneByOne`), and throws nothing of its own meanwhile,
`thrd_get` throws an exception exactly if the function ended with it - name and panic message.  Missing: several futures of one thread
(`C39_lost`, `C39_misattributed`), exceptions of its own (`C39_own_again`), `thrd_sync` (`C39_sync_crashes`). -/
theorem C39_get_partial (cpus own : Nat) (hc : 0 < cpus) (h : List Act) (H : OneByOne cpus own init h) (i : Nat) (f : Fut) (e : Exn)
    (hf : (run cpus own init h).futs i = some f) (hg : f.g.final = true) : f.g = .threw e ↔ f.job.out = .throws e := by
  have S := (SInv.init cpus own).run hc h
  have E := EInv.init.run hc h (SInv.init cpus own) H
  refine ⟨E.threw i f hf e, fun ho => ?_⟩
  cases hgg : f.g with
  | returned v =>
    obtain ⟨b, h1, h2⟩ := (S.fut i f hf).ret v hgg
    rw [ho] at h1; cases h1
  | threw e' =>
    have := E.threw i f hf e' hgg
    rw [ho] at this; cases this; rfl
  | crashed => exact absurd ho (E.calm i f hf (.inr hgg) e)
  | logicError => exact absurd hgg (S.fut i f hf).logic
  | _ => rw [hgg] at hg; cases hg

/-- Two threads, each with one future after the other, interleaved. -/
def turnRun : List Act :=
  [.async 0 ⟨0, .args, .throws ⟨3, some 9⟩⟩, .async 1 ⟨1, .args, .plain 5⟩, .get 0 0, .get 1 1] ++
    List.flatten (List.replicate 10 [.worker 0, .worker 1]) ++ List.flatten (List.replicate 8 [.getter 1, .getter 0]) ++
    [.async 2 ⟨0, .args, .plain 6⟩, .get 2 0] ++ List.replicate 10 (.worker 2) ++ List.replicate 8 (.getter 2)

example : ((run 4 0 init turnRun).futs 0).map (fun f => f.g) = some (.threw ⟨3, some 9⟩) ∧
    ((run 4 0 init turnRun).futs 1).map (fun f => f.g) = some (.returned 5) ∧
    ((run 4 0 init turnRun).futs 2).map (fun f => f.g) = some (.returned 6) := by decide

/-- `OneByOne` can be met: the first thread's future ends before its second begins. -/
example : OneByOne 4 0 init ([.async 0 ⟨0, .args, .throws ⟨3, some 9⟩⟩, .get 0 0] ++ List.replicate 10 (.worker 0) ++ List.replicate 7 (.getter 0) ++
    [.async 2 ⟨0, .args, .plain 6⟩]) := by
  have none : ∀ k f, init.futs k = some f → False := fun k f h => by cases h
  have only : ∀ (y : Sys) (f0 : Fut), (∀ k, y.futs k = if k = 0 then some f0 else Option.none) → ∀ (g : Fut), y.futs 0 = some g →
      ∀ k f', y.futs k = some f' → k ≠ 0 → f'.job.scope = g.caller → f'.g.final = true := by
    intro y f0 h g _ k f' h' hk
    rw [h k, if_neg hk] at h'; cases h'
  refine ⟨fun k f h => (none k f h).elim, trivial, ?_⟩
  iterate 10 refine ⟨trivial, ?_⟩
  have key : ∀ n, n ≤ 7 → ∀ f, (run 4 0 init ([.async 0 ⟨0, .args, .throws ⟨3, some 9⟩⟩, .get 0 0] ++ List.replicate 10 (.worker 0) ++
      List.replicate n (.getter 0))).futs 0 = some f → ∀ k f', (run 4 0 init ([.async 0 ⟨0, .args, .throws ⟨3, some 9⟩⟩, .get 0 0] ++
      List.replicate 10 (.worker 0) ++ List.replicate n (.getter 0))).futs k = some f' → k = 0 := by
    intro n hn f _ k f' h'
    match k with
    | 0 => rfl
    | k + 1 =>
      exfalso
      match n with
      | 0 | 1 | 2 | 3 | 4 | 5 | 6 | 7 => cases h'
  have mk : ∀ n, n ≤ 7 → ∀ f, (run 4 0 init ([.async 0 ⟨0, .args, .throws ⟨3, some 9⟩⟩, .get 0 0] ++ List.replicate 10 (.worker 0) ++
      List.replicate n (.getter 0))).futs 0 = some f → ∀ k f', (run 4 0 init ([.async 0 ⟨0, .args, .throws ⟨3, some 9⟩⟩, .get 0 0] ++
      List.replicate 10 (.worker 0) ++ List.replicate n (.getter 0))).futs k = some f' → k ≠ 0 → f'.job.scope = f.caller → f'.g.final = true :=
    fun n hn f hf k f' h' hk _ => absurd (key n hn f hf k f' h') hk
  refine ⟨mk 0 (by decide), mk 1 (by decide), mk 2 (by decide), mk 3 (by decide), mk 4 (by decide), mk 5 (by decide), mk 6 (by decide), ?_, trivial⟩
  intro k f h _
  match k with
  | 0 => cases h; rfl
  | k + 1 => cases h

/-! ## C40 -/

/-- C40, the property as stated: `thrd_sync` gets to its end with every handle ready and holding its own function's value. -/
def C40_Full : Prop :=
  ∀ cpus own h, 0 < cpus → (run cpus own init h).pool.s.final = true →
    ∀ k i f, (run cpus own init h).pool.ids[k]? = some i → (run cpus own init h).futs i = some f → (∀ e, f.job.out ≠ .throws e) →
      resultOf (run cpus own init h) k = f.job.out.handle

/-- A spawned function returns NULL. -/
def spawnNull : List Act := [.spawn 0 ⟨0, .args, .null⟩, .sync] ++ List.replicate 10 (.worker 0) ++ List.replicate 6 .syncer

/-- `thrd_sync` dereferences NULL (`future.c:270`). -/
theorem C40_null_crashes : (run 4 0 init spawnNull).pool.s = .crashed ∧ (run 4 0 init spawnNull).pool.ids[0]? = some 0 ∧
    ((run 4 0 init spawnNull).futs 0).map (fun f => f.job.out) = some .null ∧ resultOf (run 4 0 init spawnNull) 0 = none := by decide

theorem C40_full_false : ¬ C40_Full := by
  intro h
  obtain ⟨h1, h2, h3, h4⟩ := C40_null_crashes
  rw [Option.map_eq_some_iff] at h3
  obtain ⟨f, h5, h6⟩ := h3
  have := h 4 0 spawnNull (by decide) (by rw [h1]; rfl) 0 0 f h2 h5 (by rw [h6]; simp)
  rw [h4, h6] at this
  cases this

/-- C40, partial: for any number of spawned functions and any schedule, when `thrd_sync` has returned, each handle is ready and holds the value
of its own function.  Missing: functions that return NULL or throw (then `thrd_sync` crashes or throws and does not return). -/
theorem C40_results_partial (cpus own : Nat) (hc : 0 < cpus) (h : List Act) (hs : (run cpus own init h).pool.s = .synced) (k i : Nat) (f : Fut)
    (hi : (run cpus own init h).pool.ids[k]? = some i) (hf : (run cpus own init h).futs i = some f) :
    resultOf (run cpus own init h) k = f.job.out.handle ∧ f.job.out.handle.isSome = true := by
  have P := ((SInv.init cpus own).run hc h).pool
  have H := P.phase
  unfold Phase at H
  rw [hs] at H
  obtain ⟨b, h1, h2⟩ := H k (List.getElem?_eq_some_iff.mp hi).1 i f hi hf
  have := handle_block h1
  unfold resultOf
  rw [h2, this]
  exact ⟨rfl, rfl⟩

/-- Every spawned function is known: the hypothesis of the theorem before is met for every entry. -/
theorem C40_entries (cpus own : Nat) (hc : 0 < cpus) (h : List Act) (i : Nat) (hi : i ∈ (run cpus own init h).pool.ids) :
    ∃ f, (run cpus own init h).futs i = some f := by
  obtain ⟨f, hf, _⟩ := ((SInv.init cpus own).run hc h).pool.known i hi
  exact ⟨f, hf⟩

/-- C40, partial: `thrd_then` folds the callback over the values of the functions, in the order in which they were spawned. -/
theorem C40_then_partial {α : Type} (cb : α → Nat → Option Got → α) (acc : α) (cpus own : Nat) (hc : 0 < cpus) (h : List Act)
    (hs : (run cpus own init h).pool.s = .synced) :
    thenFold cb acc 0 (run cpus own init h).pool.slots =
      (run cpus own init h).pool.ids.zipIdx.foldl (fun a p => cb a p.2 ((((run cpus own init h).futs p.1).map fun f => f.job.out).bind Outcome.handle)) acc := by
  have S := (SInv.init cpus own).run hc h
  have P := S.pool
  have H := P.phase
  unfold Phase at H
  rw [hs] at H
  have e : (run cpus own init h).pool.slots =
      (run cpus own init h).pool.ids.map fun i => ⟨true, (((run cpus own init h).futs i).map fun f => f.job.out).bind Outcome.handle⟩ := by
    apply List.ext_getElem?
    intro k
    rw [List.getElem?_map]
    rcases Nat.lt_or_ge k (run cpus own init h).pool.ids.length with hk | hk
    · have hi : (run cpus own init h).pool.ids[k]? = some _ := List.getElem?_eq_getElem hk
      obtain ⟨f, hf, _⟩ := P.known _ (List.getElem_mem hk)
      obtain ⟨b, h1, h2⟩ := H k hk _ f hi hf
      rw [hi, h2, Option.map_some, hf, Option.map_some, Option.bind_some, handle_block h1]
    · rw [List.getElem?_eq_none hk, List.getElem?_eq_none (by rw [P.len]; exact hk)]
      rfl
  rw [e]
  exact thenFold_map _ _ _ _ _

/-- C40: spawning always has room for the next entry, for any number of processors. -/
theorem C40_room (cpus own : Nat) (hc : 0 < cpus) (h : List Act) :
    (run cpus own init h).pool.oob = false ∧ (run cpus own init h).pool.ids.length ≤ (run cpus own init h).pool.room :=
  have P := ((SInv.init cpus own).run hc h).pool
  ⟨P.oob, P.fits⟩

/-- C40: no schedule keeps `thrd_sync` from its end, once each worker has had ten steps (and was given an argument). -/
theorem C40_completes (cpus own : Nat) (hc : 0 < cpus) (h h1 h2 : List Act) (hs : (run cpus own init h).pool.s ≠ .idle)
    (ha : ∀ i ∈ (run cpus own init h).pool.ids, ∀ f, (run cpus own init h).futs i = some f → f.job.arg ≠ .null)
    (hw : ∀ i ∈ (run cpus own init h).pool.ids, 10 ≤ times (isWorker i) h1)
    (hr : 5 * (run cpus own init h).pool.ids.length + 1 ≤ times isSyncer h2) :
    (run cpus own init (h ++ h1 ++ h2)).pool.s.final = true := by
  have S := (SInv.init cpus own).run hc h
  have C : CInv (run cpus own init h) := CInv.init.run h
  have A := run_workers hc h1 S C ha hw
  obtain ⟨e1, e2⟩ := run_ids (cpus := cpus) h1 hs (sync_notIdle own)
  have S1 := S.run hc h1
  obtain ⟨k1, k2⟩ := run_sync hc h2 S1 (by intro i hi; rw [e1] at hi; exact A i hi) e2
  rw [run_append, run_append]
  refine srank_zero (S1.run hc h2) ?_ k2
  have : (run cpus own (run cpus own init h) h1).pool.rank ≤ 5 * (run cpus own init h).pool.ids.length + 1 := by
    rw [← e1]
    unfold Pool.rank
    split <;> omega
  omega

/-- C40: `thrd_sync` crashes only if one of the functions returned NULL or threw. -/
theorem C40_crash_partial (cpus own : Nat) (hc : 0 < cpus) (h : List Act) (hs : (run cpus own init h).pool.s = .crashed) :
    ∃ i f, i ∈ (run cpus own init h).pool.ids ∧ (run cpus own init h).futs i = some f ∧ (f.job.out = .null ∨ ∃ e, f.job.out = .throws e) := by
  have H := ((SInv.init cpus own).run hc h).pool.phase
  unfold Phase at H
  rw [hs] at H
  obtain ⟨i, f, h1, h2, h3⟩ := H
  refine ⟨i, f, h1, h2, ?_⟩
  cases ho : f.job.out with
  | null => exact .inl rfl
  | throws e => exact .inr ⟨e, rfl⟩
  | plain | returning => rw [ho] at h3; cases h3

/-- Three functions on two processors, finishing in another order than spawned. -/
def spawnRun : List Act :=
  [.spawn 4 ⟨0, .args, .plain 7⟩, .spawn 2 ⟨0, .args, .returning 100 3 8⟩, .spawn 9 ⟨0, .args, .plain 6⟩] ++ List.replicate 10 (.worker 9) ++
    [.sync, .syncer, .syncer] ++ List.replicate 10 (.worker 2) ++ List.replicate 10 (.worker 4)

example : (run 2 0 init (spawnRun ++ List.replicate 16 .syncer)).pool.s = .synced ∧
    (List.range 3).map (resultOf (run 2 0 init (spawnRun ++ List.replicate 16 .syncer))) = [some (.word 7), some (.copy 3 8), some (.word 6)] ∧
    thenFold (fun a n _ => a ++ [n]) [] 0 (run 2 0 init (spawnRun ++ List.replicate 16 .syncer)).pool.slots = [0, 1, 2] := by decide

example : (run 2 0 init spawnRun).pool.s ≠ .idle ∧ (run 2 0 init spawnRun).pool.room = 4 := by decide

/-! ## C41 -/

/-- C41, the property as stated. -/
def C41_Full : Prop := ∀ cpus own h, 0 < cpus → (run cpus own init h).uaf = false

/-- Every `thrd_get` that gets to its end has read the future after freeing it (`future.c:113-115`), whatever the outcome. -/
theorem C41_get_reads_freed (cpus own : Nat) (hc : 0 < cpus) (h : List Act) (i : Nat) (f : Fut)
    (hf : (run cpus own init h).futs i = some f) (hg : f.g.final = true) : (run cpus own init h).uaf = true := by
  have S := (SInv.init cpus own).run hc h
  have U := UInv.init.run hc h (SInv.init cpus own)
  refine U.get i f hf ?_
  cases hgg : f.g with
  | logicError => exact absurd hgg (S.fut i f hf).logic
  | returned | threw | crashed => rfl
  | _ => rw [hgg] at hg; cases hg

/-- So has every `thrd_sync` that returned, if anything was spawned (`future.c:279-281`). -/
theorem C41_sync_reads_freed (cpus own : Nat) (hc : 0 < cpus) (h : List Act) (hs : (run cpus own init h).pool.s = .synced)
    (hn : (run cpus own init h).pool.ids ≠ []) : (run cpus own init h).uaf = true := by
  have U := UInv.init.run hc h (SInv.init cpus own)
  apply U.sync
  unfold Pool.after
  rw [hs]
  exact decide_eq_true (List.length_pos_iff.mpr hn)

theorem C41_full_false : ¬ C41_Full := by
  intro h
  have : (run 4 0 init nullRun).uaf = false := h 4 0 nullRun (by decide)
  revert this
  decide

/-- A parent that throws while a worker runs releases the promise under it: the worker then writes to freed memory. -/
theorem C41_parent_throws : (run 4 0 init [.async 0 ⟨0, .args, .plain 5⟩, .oops 0 ⟨8, none⟩, .worker 0]).uaf = true ∧
    ((run 4 0 init [.async 0 ⟨0, .args, .plain 5⟩, .oops 0 ⟨8, none⟩, .worker 0]).futs 0).map (fun f => f.live) = some true := by decide

/-- C41, partial: as long as no future and no promise was released - no `thrd_get` or `thrd_sync` past its join, no scope unwound - no schedule
makes any thread touch freed memory.  Missing: everything after that (see the theorems above). -/
theorem C41_partial (cpus own : Nat) (h : List Act) (hc : (run cpus own init h).clean) : (run cpus own init h).uaf = false :=
  run_clean h hc

/-- Not vacuous: a worker has stored its result, its caller waits to join it, another runs. -/
example : (run 4 0 init (joinRun ++ [.async 1 ⟨0, .args, .null⟩, .worker 1, .get 0 0] ++ List.replicate 4 (.getter 0))).clean := by
  intro i f h
  match i with
  | 0 => cases h; exact ⟨rfl, rfl⟩
  | 1 => cases h; exact ⟨rfl, rfl⟩
  | i + 2 => cases h

/-- A scope is released once.  Promises that a thread makes after it has unwound its scope are never released, whatever it throws later: its
workers do not write to freed promises any more (and the promises are lost, see C23). -/
theorem C41_released_once (cpus own : Nat) (h h' : List Act) (s i : Nat) (e : Exn) (hs : Act.oops s e ∈ h)
    (hi : (run cpus own init h).futs i = none) (f : Fut) (hf : (run cpus own init (h ++ h')).futs i = some f) (hj : f.job.scope = s) :
    f.p.freed = false := by
  rw [show run cpus own init (h ++ h') = run cpus own (run cpus own init h) h' from List.foldl_append ..] at hf
  exact late h' (oops_spent h hs) (fun f hf => by rw [hi] at hf; cases hf) f hf hj

/-- Not vacuous: the first future's promise is gone, the second's stays although the thread throws once more. -/
example : let y := run 4 0 init ([.async 0 ⟨0, .args, .plain 5⟩, .oops 0 ⟨8, none⟩] ++ [.async 1 ⟨0, .args, .plain 6⟩, .oops 0 ⟨9, none⟩])
    (y.futs 0).map (fun f => f.p.freed) = some true ∧ (y.futs 1).map (fun f => f.p.freed) = some false := by decide

end Verif.Props
