import Verif.Proof.Refuse
/-!
# C82: running out of memory
-/
namespace Verif.Props
open Verif Verif.Oo

/-- C82: whatever is called in whatever order and whichever requests are refused, exactly as many blocks are lost as the table says for the refusals
there were, as long as nothing is given to a scope that was released.  Every other block is live and held by one holder, once. -/
theorem C82_lost_partial (ok : Nat → Bool) (os : List Op) (p : Proper ok os start) :
    let s := (run ok os start).2
    s.lost.length = (s.refused.map fun r => cost r.1 r.2).sum ∧ s.live.Nodup ∧ s.held.Nodup ∧ ∀ b ∈ s.held, b ∈ s.live := by
  have j := (run_I ok os start_I (by simp [start])).1.lost
  rw [(run_Z ok os start_Z p).stale] at j
  exact ⟨j.1, j.2.2.1, j.2.1, j.2.2.2⟩

/-- Also without that: besides those, exactly what scopes were given after they were released is lost. -/
theorem C82_lost_all (ok : Nat → Bool) (os : List Op) :
    let s := (run ok os start).2
    s.lost.length = (s.refused.map fun r => cost r.1 r.2).sum + (s.scopes.map fun c => if c.spent then c.deferred.length else 0).sum ∧
      s.live.Nodup ∧ s.held.Nodup ∧ ∀ b ∈ s.held, b ∈ s.live := by
  intro s
  have j := (run_I ok os start_I (by simp [start])).1.lost
  have e : ∀ l : List Scope, (l.map fun c => if c.spent then c.deferred else []).flatten.length =
      (l.map fun c => if c.spent then c.deferred.length else 0).sum := by
    intro l
    induction l with
    | nil => rfl
    | cons c l ih =>
      simp only [List.map_cons, List.flatten_cons, List.length_append, List.sum_cons, ih]
      cases c.spent <;> simp
  exact ⟨by rw [← e]; exact j.1, j.2.2.1, j.2.1, j.2.2.2⟩

/-- The end of the program makes no request and always succeeds, and what is still there then are the blocks lost: as many as the table says. -/
theorem C82_end_partial (ok : Nat → Bool) (os : List Op) (p : Proper ok os start) :
    let s := (run ok os start).2
    let e := run ok (finish s) s
    (.undefined ∉ e.1) ∧ e.2.refused = s.refused ∧ e.2.live.length = (s.refused.map fun r => cost r.1 r.2).sum := by
  intro s e
  have j0 := run_I ok os start_I (by simp [start])
  have j1 : I e.2 [] := (run_I ok (finish s) j0.1 j0.2).1
  have z : Z e.2 := quiet_Z ok (finish_quiet s) (run_Z ok os start_Z p)
  have q := quiet_run ok (finish_quiet s) s
  have h : e.2.held = [] := finish_held ok s
  have hl : e.2.lost = e.2.live := by
    unfold St.lost; rw [h]
    exact List.filter_eq_self.2 fun _ _ => rfl
  refine ⟨q.1, q.2.1, ?_⟩
  have := j1.lost.1
  rw [hl, z.stale] at this
  rw [this]
  show total e.2.refused = total s.refused
  rw [q.2.1]

/-- So everything is freed in the end exactly when no request was refused that costs something. -/
theorem C82_iff (ok : Nat → Bool) (os : List Op) (p : Proper ok os start) :
    let s := (run ok os start).2
    (run ok (finish s) s).2.live = [] ↔ ∀ r ∈ s.refused, cost r.1 r.2 = 0 := by
  intro s
  have h := (C82_end_partial ok os p).2.2
  have z : ∀ l : List (Kind × For), (l.map fun r => cost r.1 r.2).sum = 0 ↔ ∀ r ∈ l, cost r.1 r.2 = 0 := by
    intro l
    induction l with
    | nil => simp
    | cons a l ih => simp [ih]
  rw [← z, ← h, List.length_eq_zero_iff]

/-- A call ends well exactly when nothing was refused to it but room for deferrals, which the caller is not told about. -/
theorem C82_told (ok : Nat → Bool) (o : Op) (s : St) :
    ∃ new, (exec ok o s).2.refused = new ++ s.refused ∧
      ((exec ok o s).1 = .ok ↔ ∀ r ∈ new, r.2 = .array ∨ r.2 = .resultArray) := exec_said ok o s

/-- Something undefined happens exactly when the scope of a guard is refused and no guard is around, or a pool was made in it. -/
theorem C82_undefined (ok : Nat → Bool) (o : Op) (s : St) :
    (exec ok o s).1 = .undefined ↔ o = .guard ∧ ok s.tick = false ∧ s.arena ≠ .guard := exec_undefined ok o s

/-- With memory enough every call ends well and nothing is left. -/
theorem C82_plenty (ok : Nat → Bool) (h : ∀ n, ok n = true) (os : List Op) (p : Proper ok os start) :
    let s := (run ok os start).2
    (∀ r ∈ (run ok os start).1, r = .ok) ∧ (run ok (finish s) s).2.live = [] := by
  have key : ∀ (os : List Op) (s : St), s.refused = [] → (run ok os s).2.refused = [] ∧ ∀ r ∈ (run ok os s).1, r = .ok := by
    have ex : ∀ (o : Op) (s : St), s.refused = [] → (exec ok o s).2.refused = [] ∧ (exec ok o s).1 = .ok := exec_plenty ok h
    intro os
    induction os with
    | nil => intro s e; exact ⟨e, by simp [run]⟩
    | cons o os ih =>
      intro s e
      have x := ex o s e
      have i := ih (exec ok o s).2 x.1
      rcases he : exec ok o s with ⟨r, t⟩
      rw [he] at x i
      obtain rfl : r = .ok := x.2
      simp only [run, he]
      exact ⟨i.1, by simpa using i.2⟩
  have k := key os start rfl
  exact ⟨k.2, (C82_iff ok os p).2 (by rw [k.1]; simp)⟩

/-- Refusal of the third request. -/
def third : Nat → Bool := fun n => n != 2

/-- The full statement fails: the first allocation on a scope, whose array of deferrals is refused, ends well, and its block is never freed. -/
theorem C82_full_false : ¬ C82_Full := fun h => by
  have := (h third [.memory 0] (by decide)).2
  revert this; decide

/-- What was refused, and what is left in the end. -/
def leaves (ok : Nat → Bool) (os : List Op) : List (Kind × For) × Nat :=
  ((run ok os start).2.refused, (run ok (finish (run ok os start).2) (run ok os start).2).2.live.length)

/-- What is given to a scope that was released is lost without any refusal: the block, the protector and the array. -/
theorem C82_released : leaves (fun _ => true) [.release 0, .memory 0] = ([], 3) := by decide +kernel

/-- And the first guard of a thread, refused, is undefined. -/
theorem C82_guard_false : .undefined ∈ (run (fun _ => false) [.guard] start).1 := by decide

/-- Each loss in the table happens (but one, that takes a pool whose scope was released). -/
theorem C82_each :
    leaves (· != 1) [.memory 0] = ([(.memory, .protector)], 1) ∧
    leaves (· != 2) [.memory 0] = ([(.memory, .array)], 1) ∧
    leaves (· != 1) [.pack 1] = ([(.pack, .values)], 1) ∧
    leaves (· != 2) [.pack 1] = ([(.pack, .more)], 2) ∧
    leaves (· != 3) [.pack 1, .get 0 0 2] = ([(.get, .array)], 2) ∧
    leaves (· != 1) [.arena] = ([(.arena, .arena)], 1) ∧
    leaves (· != 1) [.pool] = ([(.pool, .block)], 1) ∧
    leaves (· != 2) [.pool] = ([(.pool, .protector)], 2) ∧
    leaves (· != 3) [.pool] = ([(.pool, .array)], 1) ∧
    leaves (· != 1) [.async] = ([(.async, .protector)], 1) ∧
    leaves (· != 2) [.async] = ([(.async, .array)], 1) ∧
    leaves (· != 4) [.async] = ([(.async, .argument)], 1) ∧
    leaves (· != 5) [.async] = ([(.async, .thread)], 2) ∧
    leaves (· != 7) [.pool, .spawn 1 4] = ([(.spawn, .protector)], 1) ∧
    leaves (· != 8) [.pool, .spawn 1 4] = ([(.spawn, .array)], 1) ∧
    leaves (· != 10) [.pool, .spawn 1 4] = ([(.spawn, .argument)], 1) ∧
    leaves (· != 11) [.pool, .spawn 1 4] = ([(.spawn, .thread)], 2) ∧
    leaves (· != 12) [.pool, .spawn 1 4] = ([(.spawn, .result)], 1) ∧
    leaves (· != 28) (.pool :: List.replicate 15 (.memory 1) ++ [.spawn 1 4]) = ([(.spawn, .resultArray)], 1) := by
  repeat' apply And.intro
  all_goals decide +kernel

/-- A refusal that costs nothing: the second table of a pool, with a guard and a pack around. -/
example : leaves (· != 8) [.guard, .pack 1, .pool, .spawn 2 4, .async] = ([(.spawn, .tables)], 0) := by decide +kernel

/-- The same history gives nothing to a released scope. -/
example : Proper (· != 8) [.guard, .pack 1, .pool, .spawn 2 4, .async] start := by decide +kernel

/-- Many calls with memory enough: everything is freed. -/
example : leaves (fun _ => true) [.guard, .memory 1, .pack 2, .get 1 4 7, .pool, .spawn 2 1, .spawn 2 1, .async, .arena, .unguarded] = ([], 0) := by
  decide +kernel

/-- A nested guard that is refused is reported, through the outer one. -/
example : (run (· != 1) [.guard, .guard] start).1 = [.ok, .panic] := by decide

/-- Inside a pool it is not. -/
example : (run (· != 5) [.guard, .pool, .guard] start).1 = [.ok, .ok, .undefined] := by decide

end Verif.Props
