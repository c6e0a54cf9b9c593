import Verif.Spec.Leave
/-!
# C98 — the value of a guarded section

A function that leaves a guarded section by `_return(v)` or `unguarded(v)` returns the value `v` has there; all deferred functions have run once, the newest first; and
`if (c) _return(v);` leaves only if `c` is not 0.
-/
namespace Verif.Props
open Verif Verif.Lv

/-- **C98**, full. -/
def C98_Full : Prop := ∀ (body : List Stmt) (fin : Exp) (vars : Nat → Nat) (blk : Nat → Option Nat),
  run fin body (fresh vars blk) = meant fin body (fresh vars blk)

theorem avoids_run (e : Exp) (a : Act) (s : St) (h : e.avoids a = true) : e.eval (a.run s) = e.eval s := by
  induction e with
  | const n => rfl
  | var i =>
    cases a with
    | set j n =>
      have hj : i ≠ j := by simpa [Exp.avoids] using h
      simp [Exp.eval, Act.run, hj]
    | poke q n => rfl
    | free q => rfl
  | load p =>
    cases a with
    | set j n => rfl
    | poke q n =>
      have hq : p ≠ q := by simpa [Exp.avoids] using h
      simp [Exp.eval, Act.run, hq]
    | free q =>
      have hq : p ≠ q := by simpa [Exp.avoids] using h
      simp [Exp.eval, Act.run, hq]
  | add x y ihx ihy =>
    simp only [Exp.avoids, Bool.and_eq_true] at h
    simp only [Exp.eval, ihx h.1, ihy h.2]

theorem avoids_all (e : Exp) (l : List Act) (s : St) (h : ∀ a ∈ l, e.avoids a = true) : e.eval (l.foldl Act.run s) = e.eval s := by
  induction l generalizing s with
  | nil => rfl
  | cons a l ih =>
    rw [List.foldl_cons, ih _ (fun b hb => h b (List.mem_cons_of_mem _ hb)), avoids_run e a s (h a List.mem_cons_self)]

theorem leave_meant (e : Exp) (s : St) (h : ∀ a ∈ s.defers, e.avoids a = true) : leave e s = ⟨e.eval s, s.defers, []⟩ := by
  rw [leave, avoids_all e s.defers s h]

theorem run_meant (body : List Stmt) (fin : Exp) (s : St) (hb : ∀ x ∈ body, x.braced = true)
    (h : ∀ e ∈ fin :: returned body, ∀ a ∈ s.defers ++ deferred body, e.avoids a = true) : run fin body s = meant fin body s := by
  induction body generalizing s with
  | nil => exact leave_meant fin s (fun a ha => h fin List.mem_cons_self a (by simpa [deferred] using ha))
  | cons x l ih =>
    have hb' := fun y hy => hb y (List.mem_cons_of_mem _ hy)
    cases x with
    | assign i e =>
      simp only [run, meant]
      cases e.eval s with
      | none => rfl
      | some n => exact ih _ hb' h
    | alloc p n =>
      simp only [run, meant]
      refine ih _ hb' (fun e he a ha => h e he a ?_)
      simp only [List.mem_append, List.mem_cons, deferred] at ha ⊢
      rcases ha with (ha | ha) | ha
      · exact .inr (.inl ha)
      · exact .inl ha
      · exact .inr (.inr ha)
    | defer a' =>
      simp only [run, meant]
      refine ih _ hb' (fun e he a ha => h e he a ?_)
      simp only [List.mem_append, List.mem_cons, deferred] at ha ⊢
      rcases ha with (ha | ha) | ha
      · exact .inr (.inl ha)
      · exact .inl ha
      · exact .inr (.inr ha)
    | ret e =>
      simp only [run, meant]
      exact leave_meant e s (fun a ha => h e (by simp [returned]) a (List.mem_append_left _ ha))
    | ifBlock c e =>
      simp only [run, meant]
      match hc : c.eval s with
      | none => rfl
      | some 0 =>
        refine ih _ hb' (fun e' he a ha => h e' ?_ a ha)
        simp only [returned, List.mem_cons] at he ⊢
        rcases he with he | he
        · exact .inl he
        · exact .inr (.inr he)
      | some (_ + 1) => exact leave_meant e s (fun a ha => h e (by simp [returned]) a (List.mem_append_left _ ha))
    | ifPlain c e => exact absurd (hb _ List.mem_cons_self) (by simp [Stmt.braced])

/-- **C98**, if no expression that is returned reads what a deferred function changes or frees, and every `_return` after an `if` is in braces.  Missing: all other cases
(`C98_freed`, `C98_changed`, `C98_if`). -/
theorem C98_value_partial (body : List Stmt) (fin : Exp) (vars : Nat → Nat) (blk : Nat → Option Nat) (hb : ∀ x ∈ body, x.braced = true)
    (h : ∀ e ∈ fin :: returned body, ∀ a ∈ deferred body, e.avoids a = true) :
    run fin body (fresh vars blk) = meant fin body (fresh vars blk) :=
  run_meant body fin _ hb (fun e he a ha => h e he a (by simpa [fresh] using ha))

/-- A copy is made before: the sum of two blocks. -/
example : run (.var 0) [.alloc 1 3, .alloc 2 4, .defer (.set 5 9), .ifBlock (.var 7) (.const 1), .assign 0 (.add (.load 1) (.load 2))] (fresh (fun _ => 0) (fun _ => none)) =
    ⟨some 7, [.set 5 9, .free 2, .free 1], []⟩ := by decide

example : ∀ e ∈ (Exp.var 0) :: returned [.alloc 1 3, .ifBlock (.var 7) (.const 1), .assign 0 (.load 1)],
    ∀ a ∈ deferred [.alloc 1 3, .ifBlock (.var 7) (.const 1), .assign 0 (.load 1)], e.avoids a = true := by decide

theorem freed_stays (l : List Act) (s : St) (p : Nat) (h : s.blk p = none ∨ .free p ∈ l) : (l.foldl Act.run s).blk p = none := by
  induction l generalizing s with
  | nil => simpa using h
  | cons a l ih =>
    rw [List.foldl_cons]
    apply ih
    rcases h with h | h
    · left
      cases a with
      | set i n => exact h
      | poke q n =>
        by_cases hq : p = q
        · subst hq; simp [Act.run, h]
        · simp [Act.run, hq, h]
      | free q =>
        by_cases hq : p = q
        · subst hq; simp [Act.run]
        · simp [Act.run, hq, h]
    · rcases List.mem_cons.1 h with h | h
      · left; subst h; simp [Act.run]
      · exact .inr h

/-- Does the expression read the block? -/
def Lv.Exp.reads (p : Nat) : Exp → Bool
  | .load q => p == q
  | .add a b => Lv.Exp.reads p a || Lv.Exp.reads p b
  | _ => false

theorem reads_none (e : Exp) (p : Nat) (s : St) (hr : Lv.Exp.reads p e = true) (h : s.blk p = none) : e.eval s = none := by
  induction e with
  | const n => simp [Lv.Exp.reads] at hr
  | var i => simp [Lv.Exp.reads] at hr
  | load q =>
    have : p = q := by simpa [Lv.Exp.reads] using hr
    subst this
    exact h
  | add a b iha ihb =>
    simp only [Lv.Exp.reads, Bool.or_eq_true] at hr
    rcases hr with hr | hr
    · simp [Exp.eval, iha hr]
    · simp only [Exp.eval, ihb hr]
      cases a.eval s <;> rfl

/-- Whatever is returned that reads a block of `_malloc` of this section is read after the block is freed. -/
theorem C98_freed (body : List Stmt) (e fin : Exp) (s : St) (p : Nat) (hp : .free p ∈ s.defers) (hr : Lv.Exp.reads p e = true) :
    (run fin (.ret e :: body) s).value = none ∧ (run e [] s).value = none := by
  have : e.eval (s.defers.foldl Act.run s) = none := reads_none e p _ hr (freed_stays _ _ _ (.inr hp))
  exact ⟨this, this⟩

/-- `p = _malloc(...); ... _return(*p)`: undefined, though the block is there where it is written. -/
theorem C98_freed_example (p n : Nat) (vars : Nat → Nat) (blk : Nat → Option Nat) :
    run (.load p) [.alloc p n] (fresh vars blk) = ⟨none, [.free p], []⟩ ∧ meant (.load p) [.alloc p n] (fresh vars blk) = ⟨some n, [.free p], []⟩ := by
  constructor
  · simp [run, leave, fresh, Exp.eval, Act.run]
  · simp [meant, fresh, Exp.eval]

/-- A variable that a deferred function sets: the value after it has run is returned. -/
theorem C98_changed (i n : Nat) (vars : Nat → Nat) (blk : Nat → Option Nat) :
    run (.var i) [.defer (.set i n)] (fresh vars blk) = ⟨some n, [.set i n], []⟩ ∧
    meant (.var i) [.defer (.set i n)] (fresh vars blk) = ⟨some (vars i), [.set i n], []⟩ := by
  constructor
  · simp [run, leave, fresh, Exp.eval, Act.run]
  · simp [meant, fresh, Exp.eval]

/-- `if (c) _return(e);` without braces: if `c` is 0 the function returns all the same, the rest of the body is not reached, and nothing deferred runs. -/
theorem C98_if (c e fin : Exp) (body : List Stmt) (s : St) (h : c.eval s = some 0) :
    run fin (.ifPlain c e :: body) s = ⟨e.eval s, [], s.defers⟩ ∧ meant fin (.ifPlain c e :: body) s = meant fin body s := by
  constructor
  · simp [run, h, skipped]
  · simp [meant, h]

theorem C98_full_false : ¬ C98_Full := by
  intro h
  have := h [.ifPlain (.const 0) (.const 5)] (.const 6) (fun _ => 0) (fun _ => none)
  revert this
  decide

/-- Also without such an `if`. -/
theorem C98_value_false : ¬ ∀ (body : List Stmt) (fin : Exp) (vars : Nat → Nat) (blk : Nat → Option Nat), (∀ x ∈ body, x.braced = true) →
    run fin body (fresh vars blk) = meant fin body (fresh vars blk) := by
  intro h
  have := h [.alloc 0 5] (.load 0) (fun _ => 0) (fun _ => none) (by decide)
  revert this
  decide

/-- In any case, except after an `if` without braces: everything deferred has run once when the function returns, unless the body itself uses memory it does not have. -/
theorem C98_all_ran (body : List Stmt) (fin : Exp) (s : St) (hb : ∀ x ∈ body, x.braced = true) :
    (run fin body s).left = (meant fin body s).left ∧ (run fin body s).ran = (meant fin body s).ran := by
  induction body generalizing s with
  | nil => exact ⟨rfl, rfl⟩
  | cons x l ih =>
    have hb' := fun y hy => hb y (List.mem_cons_of_mem _ hy)
    cases x with
    | assign i e =>
      simp only [run, meant]
      cases e.eval s with
      | none => exact ⟨rfl, rfl⟩
      | some n => exact ih _ hb'
    | alloc p n => exact ih _ hb'
    | defer a => exact ih _ hb'
    | ret e => exact ⟨rfl, rfl⟩
    | ifBlock c e =>
      simp only [run, meant]
      match h : c.eval s with
      | none => exact ⟨rfl, rfl⟩
      | some 0 => exact ih _ hb'
      | some (_ + 1) => exact ⟨rfl, rfl⟩
    | ifPlain c e => exact absurd (hb _ List.mem_cons_self) (by simp [Stmt.braced])

end Verif.Props
