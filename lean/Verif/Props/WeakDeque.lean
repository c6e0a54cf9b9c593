import Verif.Proof.WeakDequeUse

/-!
# C79: the work-stealing deque, also on machines that reorder

The claim of C46 again, where a load may give any value the C11 memory model allows, and with the further claim that who obtains a task also sees what was written
before the task was pushed.
-/
namespace Verif.Props
open Verif Wd

/-- After every history of one owner and any number of thieves, on every machine, whatever loads give: each task pushed is obtained once or left in the deque, and who
obtains one knows of the call that pushed it. -/
def C79_Full : Prop := ∀ (M : Mach) (size : Nat) (_ : 0 < size) (s : St Nat), Reach M size (fun _ _ => True) s → Good s

/-! ## Runs -/

namespace C79

/-- The state after some steps, if they are possible and pass a test. -/
def run (M : Mach) (ok : St Nat → Act Nat → Bool) (s : St Nat) : List (Act Nat) → Option (St Nat)
  | [] => some s
  | a :: as => if ok s a then (match step M s a with | none => none | some s' => run M ok s' as) else none

theorem run_reach {M : Mach} {size : Nat} {ok : St Nat → Act Nat → Bool} {p : St Nat → Act Nat → Prop} {q : St Nat → Prop} (h1 : ∀ s a, q s → ok s a = true → p s a)
    (h2 : ∀ s a s', q s → ok s a = true → step M s a = some s' → q s') {as : List (Act Nat)} : ∀ {s s' : St Nat}, Reach M size p s → q s → run M ok s as = some s' → Reach M size p s' := by
  induction as with
  | nil => intro s s' r _ e; cases e; exact r
  | cons a as ih =>
    intro s s' r hq e
    unfold run at e
    split at e
    · next hk =>
      cases hs : step M s a with
      | none => rw [hs] at e; cases e
      | some s'' => rw [hs] at e; exact ih (.step r (h1 s a hq hk) hs) (h2 s a s'' hq hk hs) e
    · cases e

def idleO (s : St Nat) : Bool := match s.o with | .idle => true | _ => false
def idleT (s : St Nat) : Bool := match s.th 1 with | .idle => true | _ => false

/-- There is one thief, number 1, and it and the owner take turns. -/
def turns (s : St Nat) : Act Nat → Bool
  | .push _ | .take | .owner _ => idleT s
  | .steal j | .thief j _ => decide (j = 1) && idleO s

/-- The owner does not call `take`. -/
def pushes (_ : St Nat) : Act Nat → Bool
  | .take => false
  | _ => true

theorem turns_alone (s : St Nat) (a : Act Nat) (hq : ∀ j, j ≠ 1 → s.th j = .idle) (h : turns s a = true) : Alone s a := by
  have quiet : idleT s = true → s.quiet none := by
    intro t j _
    by_cases e : j = 1
    · subst e
      unfold idleT at t
      split at t
      · next z => rw [z]; trivial
      · cases t
    · rw [hq j e]; trivial
  have own : ∀ j, (decide (j = 1) && idleO s) = true → s.ownerIdle ∧ s.quiet (some j) := by
    intro j t
    rw [Bool.and_eq_true, decide_eq_true_eq] at t
    obtain ⟨t1, t2⟩ := t
    refine ⟨?_, fun k hk => ?_⟩
    · unfold idleO at t2
      unfold St.ownerIdle
      split at t2
      · next z => rw [z]; trivial
      · cases t2
    · rw [hq k (fun z => hk (by rw [z, t1]))]; trivial
  cases a with
  | push w => exact quiet h
  | take => exact quiet h
  | owner i => exact quiet h
  | steal j => exact own j h
  | thief j i => exact own j h

theorem ownerStep_th {M : Mach} {s s' : St Nat} {i : Nat} (e : ownerStep M s i = some s') : s'.th = s.th := by
  unfold ownerStep at e
  dsimp only at e
  repeat' (split at e)
  all_goals first
    | cases e; done
    | (cases e; rfl)

theorem thiefStep_th {M : Mach} {s s' : St Nat} {j i : Nat} (e : thiefStep M s j i = some s') (k : Nat) (h : k ≠ j) : s'.th k = s.th k := by
  unfold thiefStep at e
  dsimp only at e
  repeat' (split at e)
  all_goals first
    | cases e; done
    | (cases e; exact fn_ne h)

theorem turns_keep {M : Mach} (s : St Nat) (a : Act Nat) (s' : St Nat) (hq : ∀ j, j ≠ 1 → s.th j = .idle) (h : turns s a = true) (e : step M s a = some s') : ∀ j, j ≠ 1 → s'.th j = .idle := by
  intro j hj
  cases a with
  | push w =>
    unfold step at e
    dsimp only at e
    split at e
    · cases e; exact hq j hj
    · cases e
  | take =>
    unfold step at e
    dsimp only at e
    split at e
    · cases e; exact hq j hj
    · cases e
  | owner i => rw [ownerStep_th e]; exact hq j hj
  | steal k =>
    unfold step at e
    dsimp only at e
    have hk : (decide (k = 1) && idleO s) = true := h
    rw [Bool.and_eq_true, decide_eq_true_eq] at hk
    split at e
    · cases e
      show fn s.th k .top j = _
      rw [fn_ne (by rw [hk.1]; exact hj)]; exact hq j hj
    · cases e
  | thief k i =>
    have hk : (decide (k = 1) && idleO s) = true := h
    rw [Bool.and_eq_true, decide_eq_true_eq] at hk
    rw [thiefStep_th e j (by rw [hk.1]; exact hj)]; exact hq j hj

theorem run_alone {M : Mach} {size : Nat} {as : List (Act Nat)} {s : St Nat} (e : run M turns (init size) as = some s) : Reach M size Alone s :=
  run_reach (q := fun s => ∀ j, j ≠ 1 → s.th j = .idle) turns_alone turns_keep .init (fun _ _ => rfl) e

theorem run_pushes {M : Mach} {size : Nat} {as : List (Act Nat)} {s : St Nat} (e : run M pushes (init size) as = some s) : Reach M size PushOnly s := by
  refine run_reach (q := fun _ => True) ?_ (fun _ _ _ _ _ _ => trivial) .init trivial e
  intro s a _ h
  cases a with
  | take => cases h
  | _ => trivial

/-- Two tasks are pushed, a thief steals both; then the owner calls `take` and is given the first message of `top`. -/
def stale : List (Act Nat) :=
  [.push 10, .owner 0, .owner 0, .owner 0, .push 20, .owner 0, .owner 0, .owner 0,
   .steal 1, .thief 1 0, .thief 1 0, .thief 1 2, .thief 1 0, .thief 1 1, .thief 1 0,
   .steal 1, .thief 1 1, .thief 1 0, .thief 1 2, .thief 1 0, .thief 1 1, .thief 1 1,
   .take, .owner 0, .owner 0, .owner 0, .owner 0]

/-- A task is pushed on a deque of size 1; a thief reads `top` and `bottom`; the owner pushes again, which makes a new array; the thief is given that array, and the first
message of its cell. -/
def garbage : List (Act Nat) :=
  [.push 10, .owner 0, .owner 0, .owner 0, .steal 1, .thief 1 0, .thief 1 0, .thief 1 1,
   .push 20, .owner 0, .owner 0, .owner 0, .thief 1 1, .thief 1 0, .thief 1 0]

end C79

/-- On every machine: the calls of the owner and of a thief do not overlap, and a task that was pushed once is obtained twice. -/
theorem C79_stale (M : Mach) : ∃ s : St Nat, Reach M 8 Alone s ∧ s.pushed = [20, 10] ∧ s.got.map Prod.fst = [some 20, some 20, some 10] := by
  have h : ((C79.run M C79.turns (init 8) C79.stale).map fun s => (s.pushed, s.got.map Prod.fst)) = some ([20, 10], [some 20, some 20, some 10]) := by
    obtain ⟨c, t⟩ := M
    cases c <;> cases t <;> decide +kernel
  cases e : C79.run M C79.turns (init 8) C79.stale with
  | none => rw [e] at h; cases h
  | some s =>
    rw [e] at h
    injection h with h
    exact ⟨s, C79.run_alone e, congrArg Prod.fst h, congrArg Prod.snd h⟩

/-- On every machine: the owner only pushes, and a thief obtains what `malloc` left in the new array, because nothing orders the copies before the store of `q->array`. -/
theorem C79_garbage (M : Mach) : ∃ s : St Nat, Reach M 1 PushOnly s ∧ s.pushed = [10] ∧ s.got.map Prod.fst = [none] := by
  have h : ((C79.run M C79.pushes (init 1) C79.garbage).map fun s => (s.pushed, s.got.map Prod.fst)) = some ([10], [none]) := by
    obtain ⟨c, t⟩ := M
    cases c <;> cases t <;> decide +kernel
  cases e : C79.run M C79.pushes (init 1) C79.garbage with
  | none => rw [e] at h; cases h
  | some s =>
    rw [e] at h
    injection h with h
    exact ⟨s, C79.run_pushes e, congrArg Prod.fst h, congrArg Prod.snd h⟩

theorem C79_full_false : ¬ C79_Full := by
  intro h
  obtain ⟨s, r, _, g⟩ := C79_garbage ⟨true, true⟩
  obtain ⟨_, k⟩ := h _ 1 (by decide) s (r.imp fun _ _ _ _ => trivial)
  cases hg : s.got with
  | nil => rw [hg] at g; cases g
  | cons x l =>
    rw [hg] at g
    obtain ⟨n, w, k1, _⟩ := k x (by rw [hg]; exact List.mem_cons_self ..)
    injection g with g
    rw [g] at k1
    cases k1

/-- For every machine, every size, every number of thieves and tasks, every history that is calm: each task pushed is obtained once or left in the deque, only tasks
pushed are obtained, and who obtains one knows of the call that pushed it. Missing: the histories that are not calm, for which it is false (`C79_stale`, `C79_garbage`,
`C46_fresh_take`). -/
theorem C79_good_partial {α : Type} (M : Mach) (size : Nat) (hs : 0 < size) (s : St α) (r : Reach M size Calm s) : Good s := by
  obtain ⟨h, pop, I⟩ := Inv.reach hs r
  exact I.good

/-- In calm histories nothing is obtained more often than it was pushed, and the owner in no call sees all that is left. -/
theorem C79_count_partial {α : Type} [DecidableEq α] (M : Mach) (size : Nat) (hs : 0 < size) (s : St α) (r : Reach M size Calm s) (w : α) :
    (s.got.map Prod.fst).count (some w) ≤ s.pushed.count w ∧ (s.ownerIdle → s.pushed.length = s.got.length + (s.bottom.now - s.top.now)) := by
  obtain ⟨⟨rest, p, q⟩, -⟩ := C79_good_partial M size hs s r
  constructor
  · have h1 := p.count_eq (some w)
    have h2 : (s.pushed.map some).count (some w) = s.pushed.count w := by
      generalize s.pushed = l
      induction l with
      | nil => rfl
      | cons x l ih => rw [List.map_cons, List.count_cons, List.count_cons, ih]; simp
    rw [h2, List.count_append] at h1
    omega
  · intro hi
    have h1 := p.length_eq
    rw [q hi] at h1
    simp only [List.length_map, List.length_append, St.content, List.length_range] at h1
    exact h1

/-- A program whose owner only pushes, and no more tasks than the first array has cells, has none of these faults: whatever the thieves are given, all is well. -/
theorem C79_few {α : Type} (M : Mach) (size : Nat) (hs : 0 < size) (s : St α) (r : Reach M size (Few size) s) : Good s :=
  C79_good_partial M size hs s (r.few hs).2

/-- Without thieves all is well, if something was pushed before the first `take`; the array may grow. -/
theorem C79_solo {α : Type} (M : Mach) (size : Nat) (hs : 0 < size) (s : St α) (r : Reach M size Solo s) : Good s :=
  C79_good_partial M size hs s r.solo.2

/-- Who is in a call can always go on: no call waits for another thread. -/
theorem C79_not_stuck_partial {α : Type} (M : Mach) (size : Nat) (hs : 0 < size) (s : St α) (r : Reach M size Calm s) :
    (¬ s.ownerIdle → ∃ i s', step M s (.owner i) = some s') ∧
    ∀ j, (¬ match s.th j with | .idle => True | _ => False) → ∃ i s', Calm s (.thief j i) ∧ step M s (.thief j i) = some s' := by
  obtain ⟨h, pop, I⟩ := Inv.reach hs r
  refine ⟨I.ownerGoes M, fun j hj => I.thiefGoes M fun x e z => hj ?_⟩
  rw [← e, z]
  trivial

/-! ## Cases -/

namespace C79

def calm (s : St Nat) : Act Nat → Bool
  | .take => !s.pushed.isEmpty
  | .owner _ => match s.o with | .fence b t => decide (t < b → s.top.now < b) | _ => true
  | .thief j i => match s.th j with | .array _ => decide (i = (s.tt j).cur.ts .array) | _ => true
  | _ => true

theorem calm_iff (s : St Nat) (a : Act Nat) (h : calm s a = true) : Calm s a := by
  unfold calm at h
  unfold Calm
  cases a with
  | take =>
    intro z
    dsimp only at h
    rw [z] at h
    cases h
  | push w => trivial
  | steal j => trivial
  | owner i =>
    dsimp only at h ⊢
    split at h
    · next e => rw [e]; exact of_decide_eq_true h
    · next e =>
      split
      · next b t z => exact absurd z (e b t)
      · trivial
  | thief j i =>
    dsimp only at h ⊢
    split at h
    · next e => rw [e]; exact of_decide_eq_true h
    · next e =>
      split
      · next t z => exact absurd z (e t)
      · trivial

theorem run_calm {M : Mach} {size : Nat} {as : List (Act Nat)} {s : St Nat} (e : run M calm (init size) as = some s) : Reach M size Calm s :=
  run_reach (q := fun _ => True) (fun s a _ => calm_iff s a) (fun _ _ _ _ _ _ => trivial) .init trivial e

/-- The array grows, a thief steals the first task from the new array, and the owner and the thief race for the second; the owner wins. -/
def race : List (Act Nat) :=
  [.push 10, .owner 0, .owner 0, .owner 0, .push 20, .owner 0, .owner 0, .owner 0, .owner 0, .owner 0,
   .steal 1, .thief 1 0, .thief 1 0, .thief 1 2, .thief 1 1, .thief 1 1, .thief 1 0,
   .steal 1, .thief 1 1, .thief 1 0, .thief 1 2, .thief 1 1, .thief 1 1,
   .take, .owner 1, .owner 0, .owner 0, .owner 0, .owner 1, .owner 0, .thief 1 2]

end C79

/-- A calm run with a race, on every machine; both tasks are obtained, and who obtained the first knows of two calls. -/
example (M : Mach) : ∃ s : St Nat, Reach M 1 Calm s ∧ s.pushed = [20, 10] ∧ s.got = [(some 20, 2), (some 10, 2)] := by
  have h : ((C79.run M C79.calm (init 1) C79.race).map fun s => (s.pushed, s.got)) = some ([20, 10], [(some 20, 2), (some 10, 2)]) := by
    obtain ⟨c, t⟩ := M
    cases c <;> cases t <;> decide +kernel
  cases e : C79.run M C79.calm (init 1) C79.race with
  | none => rw [e] at h; cases h
  | some s =>
    rw [e] at h
    injection h with h
    exact ⟨s, C79.run_calm e, congrArg Prod.fst h, congrArg Prod.snd h⟩

/-- A thief that obtains a task when the owner has only pushed: it steals the first of two tasks when it knows of one call only. -/
example (M : Mach) : ∃ s : St Nat, Reach M 2 (Few 2) s ∧ s.pushed = [20, 10] ∧ s.got = [(some 10, 1)] := by
  have h : ((C79.run M (fun s a => match a with | .take => false | .push _ => decide (s.calls.length < 2) | _ => true) (init 2)
      [.push 10, .owner 0, .owner 0, .owner 0, .push 20, .owner 0, .owner 0, .owner 0, .steal 1, .thief 1 0, .thief 1 0, .thief 1 1, .thief 1 0, .thief 1 1, .thief 1 0]).map
      fun s => (s.pushed, s.got)) = some ([20, 10], [(some 10, 1)]) := by
    obtain ⟨c, t⟩ := M
    cases c <;> cases t <;> decide +kernel
  cases e : C79.run M (fun s a => match a with | .take => false | .push _ => decide (s.calls.length < 2) | _ => true) (init 2)
      [.push 10, .owner 0, .owner 0, .owner 0, .push 20, .owner 0, .owner 0, .owner 0, .steal 1, .thief 1 0, .thief 1 0, .thief 1 1, .thief 1 0, .thief 1 1, .thief 1 0] with
  | none => rw [e] at h; cases h
  | some s =>
    rw [e] at h
    injection h with h
    refine ⟨s, C79.run_reach (q := fun _ => True) ?_ (fun _ _ _ _ _ _ => trivial) .init trivial e, congrArg Prod.fst h, congrArg Prod.snd h⟩
    intro s a _ k
    cases a with
    | take => cases k
    | push w => exact of_decide_eq_true (p := s.calls.length < 2) k
    | _ => trivial

/-- The owner alone: the array grows, the last task is taken first. -/
example (M : Mach) : ∃ s : St Nat, Reach M 1 Solo s ∧ s.pushed = [20, 10] ∧ s.got = [(some 20, 2)] ∧ s.content = [some 10] := by
  have h : ((C79.run M (fun s a => match a with | .take => !s.pushed.isEmpty | .push _ | .owner _ => true | _ => false) (init 1)
      [.push 10, .owner 0, .owner 0, .owner 0, .push 20, .owner 0, .owner 0, .owner 0, .owner 0, .owner 0, .take, .owner 0, .owner 0, .owner 0, .owner 0]).map
      fun s => (s.pushed, s.got, s.content)) = some ([20, 10], [(some 20, 2)], [some 10]) := by
    obtain ⟨c, t⟩ := M
    cases c <;> cases t <;> decide +kernel
  cases e : C79.run M (fun s a => match a with | .take => !s.pushed.isEmpty | .push _ | .owner _ => true | _ => false) (init 1)
      [.push 10, .owner 0, .owner 0, .owner 0, .push 20, .owner 0, .owner 0, .owner 0, .owner 0, .owner 0, .take, .owner 0, .owner 0, .owner 0, .owner 0] with
  | none => rw [e] at h; cases h
  | some s =>
    rw [e] at h
    injection h with h
    refine ⟨s, C79.run_reach (q := fun _ => True) ?_ (fun _ _ _ _ _ _ => trivial) .init trivial e, congrArg Prod.fst h, congrArg (fun x => x.2.1) h, congrArg (fun x => x.2.2) h⟩
    intro s a _ k
    cases a with
    | take =>
      intro z
      dsimp only at k
      rw [z] at k
      cases k
    | steal j => cases k
    | thief j i => cases k
    | _ => trivial

/-- What `take` lowers `bottom` to is computed with 64 bits: 0 is followed by the largest number. -/
theorem C79_lowered (b : Nat) (h : b < 2 ^ 64) : pred b = (BitVec.ofNat 64 b - 1).toNat := by
  unfold pred
  rw [BitVec.toNat_sub]
  simp only [BitVec.toNat_ofNat]
  split
  · next h0 => subst h0; decide
  · have : (1 : BitVec 64).toNat = 1 := by decide
    rw [this]
    omega

end Verif.Props
