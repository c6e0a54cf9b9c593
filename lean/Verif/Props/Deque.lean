import Verif.Proof.Deque
/-!
# C46: the work-stealing deque
-/
namespace Verif.Props
open Verif Verif.Dq

/-- C46 as stated: after every history of one owner and any number of thieves, on a deque of any initial size, nothing was obtained twice, nothing
was obtained that was not pushed, and nothing is lost. -/
def C46_Full : Prop := ∀ (size : Nat) (_ : 0 < size) (h : List (Act Nat)), Fair (run (init size) h)

/-- A call of `take` on a deque to which nothing was ever pushed: `bottom - 1` wraps around, and the caller is given a cell that was never written. -/
theorem C46_fresh_take : (run (init 8 : Dq Nat) [.take, .owner, .owner, .owner]).got = [none] ∧
    (run (init 8 : Dq Nat) [.take, .owner, .owner, .owner]).bottom = 2 ^ 64 - 1 := by decide

/-- Two tasks are pushed; the owner, in `take`, reads `bottom` and `top`; a thief steals the first task; a second thief reads `top`, `bottom` and the
second task; the owner lowers `bottom`, compares with the `top` it read and takes the second task without a race; the second thief's exchange
succeeds. -/
def twice : List (Act Nat) :=
  [.push 10, .owner, .owner, .owner, .push 20, .owner, .owner, .owner, .take, .owner,
   .steal 1, .thief 1, .thief 1, .thief 1, .thief 1, .thief 1,
   .steal 2, .thief 2, .thief 2, .thief 2, .thief 2,
   .owner, .owner, .thief 2]

/-- Task 20 is obtained by the owner and by a thief, although each task was pushed once. -/
theorem C46_taken_twice : (run (init 8) twice).pushed = [20, 10] ∧ (run (init 8) twice).got = [some 20, some 20, some 10] := by decide

theorem C46_full_false : ¬ C46_Full := by
  intro h
  obtain ⟨⟨r, hr⟩, -⟩ := h 8 (by decide) twice
  have := hr.length_eq
  rw [C46_taken_twice.1, C46_taken_twice.2] at this
  simp only [List.length_map, List.length_append, List.length_cons, List.length_nil] at this
  omega

/-- C46, proved part: for every initial size, every number of thieves, every number of tasks and every history in which `take` is first called after
something was pushed and, whenever the owner lowers `bottom` believing that the newest task is not the only one, no thief has stolen that task or is on
its way to it: each task is obtained at most as often
as it was pushed, only tasks that were pushed are obtained, and what was pushed and not obtained is in the deque.  Missing: the histories excluded,
which can all be continued to one where it is false (`C46_calm_exact`), and reordering of memory accesses (C79). -/
theorem C46_fair_partial {α : Type} (size : Nat) (hs : 0 < size) (h : List (Act α)) (C : Calm (init size) h) : Fair (run (init size) h) := by
  obtain ⟨L, I⟩ := (Inv.init (α := α) hs).run h C
  exact I.fair

/-- Non-vacuity: the array grows, the owner and a thief race for the last task and the thief wins. -/
example : ∃ h : List (Act Nat), Calm (init 1) h ∧ (run (init 1) h).cur = 1 ∧ (run (init 1) h).got = [some 20, some 10] :=
  ⟨[.push 10, .owner, .owner, .owner, .push 20, .owner, .owner, .owner, .owner, .owner,
    .steal 1, .thief 1, .thief 1, .thief 1, .thief 1, .thief 1,
    .steal 1, .thief 1, .thief 1, .thief 1, .thief 1,
    .take, .owner, .owner, .owner, .thief 1, .owner, .owner], by
    refine ⟨?_, by decide, by decide⟩
    simp [Calm, CalmStep, step, ownerStep, thiefStep, init, Dq.setArr, Dq.setTh, Dq.arr, pred]⟩

/-- The histories left out are exactly those that can go wrong: after a calm history, a step that is not calm can be continued to a history after
which a task was obtained more often than it was pushed, or one was obtained that was not pushed. -/
theorem C46_calm_exact {α : Type} (size : Nat) (hs : 0 < size) (h : List (Act α)) (C : Calm (init size) h) (a : Act α)
    (ha : ¬ CalmStep (run (init size) h) a) : ∃ h', ¬ Fair (run (init size) (h ++ a :: h')) := by
  obtain ⟨L, I⟩ := (Inv.init (α := α) hs).run h C
  obtain ⟨h', w⟩ := wrong I ha
  refine ⟨h', ?_⟩
  unfold run at w ⊢
  rw [List.foldl_append]
  exact w

/-- Non-vacuity: a `take` on a fresh deque; and one of two tasks is stolen while a thief is on its way to the other and the owner in `take`. -/
example : Calm (init 8 : Dq Nat) [.take] ∧ ¬ CalmStep (run (init 8 : Dq Nat) [.take]) .owner := by
  simp [Calm, CalmStep, run, step, init]

example : Calm (init 8) (twice.take 21) ∧ ¬ CalmStep (run (init 8) (twice.take 21)) .owner := by
  refine ⟨by simp [twice, Calm, CalmStep, step, ownerStep, init, Dq.setArr, Dq.arr], fun h => ?_⟩
  exact (h (by decide)).2 2 rfl

/-- In calm histories a task obtained was pushed, and the tasks obtained are never more than the tasks pushed. -/
theorem C46_only_pushed_partial {α : Type} (size : Nat) (hs : 0 < size) (h : List (Act α)) (C : Calm (init size) h) :
    (∀ x ∈ (run (init size) h).got, ∃ w ∈ (run (init size) h).pushed, x = some w) ∧
    (run (init size : Dq α) h).got.length ≤ (run (init size : Dq α) h).pushed.length := by
  obtain ⟨⟨r, hr⟩, -⟩ := C46_fair_partial size hs h C
  constructor
  · intro x hx
    have := hr.symm.subset (List.mem_append_left r hx)
    obtain ⟨w, h1, h2⟩ := List.mem_map.1 this
    exact ⟨w, h1, h2.symm⟩
  · have := hr.length_eq
    rw [List.length_map, List.length_append] at this
    omega

example : (run (init 8) [Act.push 10, .owner, .owner, .owner]).pushed = [10] := by decide

/-- `take` on an empty deque reports empty: if the owner is in no call and everything pushed was obtained, a `take` that is not interrupted obtains
nothing and leaves the deque as it was, provided something was pushed before. -/
theorem C46_empty_take {α : Type} (q : Dq α) (h1 : q.o = .idle) (h2 : q.top = q.bottom) (h3 : q.bottom ≠ 0) :
    run q [.take, .owner, .owner, .owner, .owner] = q := by
  obtain ⟨top, bottom, arrs, cur, o, th, pushed, got⟩ := q
  dsimp only at h1 h2 h3
  subst h1 h2
  have hp : pred top = top - 1 := if_neg h3
  have : ¬ top ≤ top - 1 := by omega
  simp only [run, List.foldl_cons, List.foldl_nil, step, ownerStep, hp, if_neg this]
  rw [Nat.sub_add_cancel (by omega)]

example : (run (init 8) [Act.push 10, .owner, .owner, .owner, .take, .owner, .owner, .owner, .owner, .owner]).got = [some 10] := by decide

/-- `steal` on an empty deque reports empty. -/
theorem C46_empty_steal {α : Type} (q : Dq α) (j : Nat) (h1 : q.th j = .idle) (h2 : q.bottom ≤ q.top) :
    (run q [.steal j, .thief j, .thief j]).got = q.got ∧ (run q [.steal j, .thief j, .thief j]).top = q.top ∧
    (run q [.steal j, .thief j, .thief j]).th j = .idle := by
  have : ¬ q.top < q.bottom := by omega
  simp only [run, List.foldl_cons, List.foldl_nil, step, thiefStep, h1, Dq.setTh, if_true, if_neg this, and_self]

/-- An uninterrupted `steal` obtains the oldest task, an uninterrupted `take` the newest. -/
theorem C46_ends {α : Type} (q : Dq α) (x : Option α) (c : List (Option α)) (j : Nat) (h1 : q.o = .idle) (h2 : q.th j = .idle) :
    (q.content = x :: c → (run q [.steal j, .thief j, .thief j, .thief j, .thief j, .thief j]).got = x :: q.got ∧
      (run q [.steal j, .thief j, .thief j, .thief j, .thief j, .thief j]).content = c) ∧
    (q.content = c ++ [x] → (run q [.take, .owner, .owner, .owner, .owner, .owner]).got = x :: q.got ∧
      (run q [.take, .owner, .owner, .owner, .owner, .owner]).content = c) := by
  constructor
  · intro hc
    have hl : q.bottom - q.top = c.length + 1 := by
      have := congrArg List.length hc
      simpa only [Dq.content, List.length_map, List.length_range, List.length_cons] using this
    have ht : q.top < q.bottom := by omega
    unfold Dq.content at hc
    rw [hl, List.range_succ_eq_map, List.map_cons, List.map_map] at hc
    injection hc with hc1 hc2
    simp only [run, List.foldl_cons, List.foldl_nil, step, thiefStep, h2, Dq.setTh, if_true, if_pos ht]
    refine ⟨congrArg (· :: q.got) hc1, ?_⟩
    unfold Dq.content
    dsimp only
    rw [show q.bottom - (q.top + 1) = c.length by omega]
    refine Eq.trans (List.map_congr_left fun n _ => ?_) hc2
    show (q.arrs q.cur).buf _ = (q.arrs q.cur).buf _
    show (q.arrs q.cur).buf ((q.top + 1 + n) % (q.arrs q.cur).size) = (q.arrs q.cur).buf ((q.top + (n + 1)) % (q.arrs q.cur).size)
    rw [Nat.add_right_comm, Nat.add_assoc]
  · intro hc
    have hl : q.bottom - q.top = c.length + 1 := by
      have := congrArg List.length hc
      simpa only [Dq.content, List.length_map, List.length_range, List.length_append, List.length_cons, List.length_nil, Nat.zero_add] using this
    have hp : pred q.bottom = q.bottom - 1 := if_neg (by omega)
    unfold Dq.content at hc
    rw [hl, List.range_succ, List.map_append] at hc
    obtain ⟨hc1, hc2⟩ := List.append_inj_left' hc rfl, List.append_inj_right' hc rfl
    rw [List.map_singleton] at hc2
    injection hc2 with hc2
    rw [show q.top + c.length = q.bottom - 1 by omega] at hc2
    have hle : q.top ≤ q.bottom - 1 := by omega
    by_cases he : q.top = q.bottom - 1
    · simp only [run, List.foldl_cons, List.foldl_nil, step, ownerStep, h1, hp, if_pos hle, if_pos he, if_true]
      have h0 : c = [] := List.length_eq_zero_iff.1 (by omega)
      subst h0
      refine ⟨congrArg (· :: q.got) hc2, ?_⟩
      unfold Dq.content
      rw [show q.bottom - 1 + 1 - (q.top + 1) = 0 by omega]
      rfl
    · simp only [run, List.foldl_cons, List.foldl_nil, step, ownerStep, h1, hp, if_pos hle, if_neg he]
      refine ⟨congrArg (· :: q.got) hc2, ?_⟩
      unfold Dq.content
      dsimp only
      rw [show q.bottom - 1 - q.top = c.length by omega]
      exact hc1

example : ((run (init 8) [Act.push 10, .owner, .owner, .owner, .push 20, .owner, .owner, .owner]).content = [some 10, some 20]) := by decide

end Verif.Props
