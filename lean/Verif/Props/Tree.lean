import Verif.Proof.RbMain

/-!
C50: red-black and splay trees behave as sorted sets. Here the red-black trees, `RB_*` of `tree.h`.
-/
namespace Verif.Props
open Verif

/-- `n` rounds are enough for a tree of these members: twice the height `tree.h:56` promises, and two. -/
def C50_rounds (xs : List Nat) : Nat := 2 * Nat.log2 (xs.length + 1) + 2

/-- After any history of calls on the tree every call that may be made returns, within that many rounds of each of its loops, the answer of the
sorted list of the members; the members afterwards are as for the list; and it touches no element outside the tree. -/
theorem C50_calls {cmp : Nat → Nat → Int} {h : Rb.Heap} {xs : List Nat} {op : Rb.Op} {n : Nat} (O : Rb.Order cmp) (R : Rb.Reach cmp h xs)
    (ha : op.allowed xs) (hn : C50_rounds xs ≤ n) :
    ∃ h', op.call cmp n h = some (op.answer cmp xs, h') ∧ Rb.Reach cmp h' (op.after cmp xs) ∧
      ∀ z, z ∉ xs → op ≠ .insert z → Rb.Same h h' z := by
  obtain ⟨h', e, -, f⟩ := (R.inv O).step O ha hn
  exact ⟨h', e, R.call ha e, f⟩

/-- The order of the natural numbers, the elements being their own keys. -/
def byValue (a b : Nat) : Int := (a : Int) - b
theorem byValue_order : Rb.Order byValue := ⟨fun a b => by unfold byValue; omega, fun a b c => by unfold byValue; omega⟩

/-- A heap in which no link has been set. -/
def blank : Rb.Heap := ⟨0, fun _ => 0, fun _ => 0, fun _ => 0, fun _ => false⟩

/-- The elements inserted one after the other. -/
def inserted : List Nat → Option Rb.Heap
  | [] => some blank.init
  | e :: es => (inserted es).bind fun h => (Rb.insert byValue 9 h e).map (·.2)

theorem inserted_reach : ∀ {es : List Nat} {h}, inserted es = some h → (∀ e ∈ es, e ≠ 0) → ∃ xs, Rb.Reach byValue h xs ∧ xs = es.foldr (fun e xs => Rb.Op.after byValue xs (.insert e)) [] := by
  intro es
  induction es with
  | nil => intro h e _; cases e; exact ⟨[], Rb.Reach.init _, rfl⟩
  | cons x es ih =>
    intro h e hne
    simp only [inserted] at e
    cases q : inserted es with
    | none => rw [q] at e; cases e
    | some h1 =>
      rw [q, Option.bind_some, Option.map_eq_some_iff] at e
      obtain ⟨⟨a, h2⟩, e1, rfl⟩ := e
      obtain ⟨xs, R, rfl⟩ := ih q fun z hz => hne z (List.mem_cons_of_mem _ hz)
      exact ⟨_, R.call (op := .insert x) (hne x (by simp)) e1, rfl⟩

/-- Six elements in no order: the history is one of those the theorem is about. -/
example : ∃ h, inserted [5, 2, 9, 1, 7, 3] = some h ∧ Rb.Reach byValue h [1, 2, 3, 5, 7, 9] ∧ (Rb.remove 9 h 3).isSome := by
  cases q : inserted [5, 2, 9, 1, 7, 3] with
  | none => exact absurd q (by decide)
  | some h =>
    obtain ⟨xs, R, rfl⟩ := inserted_reach q (by decide)
    refine ⟨h, rfl, by rw [show [1, 2, 3, 5, 7, 9] = _ from (by decide : [1, 2, 3, 5, 7, 9] = [5, 2, 9, 1, 7, 3].foldr (fun e xs => Rb.Op.after byValue xs (.insert e)) [])]; exact R, ?_⟩
    have : ((inserted [5, 2, 9, 1, 7, 3]).bind fun h => Rb.remove 9 h 3).isSome := by decide +kernel
    rw [q] at this
    exact this

/-- The members are in strictly ascending order: the comparison tells any two apart, and in-order is sorted order. -/
theorem C50_sorted {cmp : Nat → Nat → Int} {h : Rb.Heap} {xs : List Nat} (O : Rb.Order cmp) (R : Rb.Reach cmp h xs) :
    xs.Pairwise fun a b => cmp a b < 0 := (R.inv O).sorted

/-- No way down the tree is longer than twice the logarithm `tree.h:56` promises. -/
theorem C50_height {cmp : Nat → Nat → Int} {h : Rb.Heap} {xs ys : List Nat} (O : Rb.Order cmp) (R : Rb.Reach cmp h xs) (W : Rb.Way h h.root ys) :
    ys.length ≤ 2 * Nat.log2 (xs.length + 1) := by
  obtain ⟨t, H, B⟩ := (R.inv O).tree
  have hino : t.ino = xs := by have := H.ino; simpa [Rb.pre, Rb.post] using this
  have h1 := B.ht
  rw [← Rb.size_ino, hino] at h1
  exact Nat.le_trans (Rb.way_ht H.rep W H.ctx.symm) h1

/-- The red-black invariants: the root is black, a red element has no red child, and every way down to a missing child has the same number of
black elements. -/
theorem C50_balance {cmp : Nat → Nat → Int} {h : Rb.Heap} {xs : List Nat} (O : Rb.Order cmp) (R : Rb.Reach cmp h xs) :
    (h.root ≠ 0 → h.red h.root = false) ∧
    (∀ x ∈ xs, h.red x = true → ¬ (h.l x ≠ 0 ∧ h.red (h.l x) = true) ∧ ¬ (h.r x ≠ 0 ∧ h.red (h.r x) = true)) ∧
    ∀ a b, Rb.Down h h.root a → Rb.Down h h.root b → a = b := by
  obtain ⟨t, H, B⟩ := (R.inv O).tree
  have hino : t.ino = xs := by have := H.ino; simpa [Rb.pre, Rb.post] using this
  have hroot : h.root = t.id := H.ctx
  refine ⟨fun h0 => ?_, fun x hx hr => B.rr.child H.rep (by rw [hino]; exact hx) hr, fun a b ha hb => ?_⟩
  · cases q : h.red h.root with
    | false => rfl
    | true =>
      rw [hroot] at h0 q
      have := H.rep.isRed ⟨h0, q⟩
      rw [B.black] at this
      cases this
  · obtain ⟨n, hn⟩ := B.bh
    rw [hn.down H.rep ha hroot.symm, hn.down H.rep hb hroot.symm]

/-- `RB_FOREACH` visits the members in order, `RB_FOREACH_REVERSE` in the opposite order, each of them once. -/
theorem C50_traversal {cmp : Nat → Nat → Int} {h : Rb.Heap} {xs : List Nat} {n m : Nat} (O : Rb.Order cmp) (R : Rb.Reach cmp h xs)
    (hn : C50_rounds xs ≤ n) (hm : xs.length + 1 ≤ m) :
    (Rb.min n h).bind (Rb.forEach n m h) = some xs ∧ (Rb.max n h).bind (Rb.forEachReverse n m h) = some xs.reverse := by
  have I := R.inv O
  obtain ⟨h1, e1, -⟩ := I.step O (op := .min) trivial hn
  obtain ⟨h2, e2, -⟩ := I.step O (op := .max) trivial hn
  simp only [Rb.Op.call, Rb.Op.answer, Option.map_eq_some_iff, Prod.mk.injEq] at e1 e2
  obtain ⟨a, e1, rfl, -⟩ := e1
  obtain ⟨b, e2, rfl, -⟩ := e2
  have f1 := Rb.first_drop (a := []) (b := xs) (P := fun _ => true) (by simp) (by simp)
  have f2 := Rb.first_drop (a := []) (b := xs.reverse) (P := fun _ => true) (by simp) (by simp)
  rw [List.nil_append] at f1 f2
  rw [e1, e2, Option.bind_some, Option.bind_some, f1, f2]
  exact ⟨Rb.forEach_ok O xs [] m (by simpa using I) (by simpa [C50_rounds] using hn) hm,
    Rb.forEachReverse_ok O xs.reverse [] m (by simpa using I) (by simpa [C50_rounds] using hn) (by simpa using hm)⟩

/-- In `RB_FOREACH_SAFE` the body may remove the element it is given: all members are visited in order, those not removed stay. -/
theorem C50_traversal_removing {cmp : Nat → Nat → Int} {h : Rb.Heap} {xs : List Nat} {n m : Nat} (drop : Nat → Bool) (O : Rb.Order cmp) (R : Rb.Reach cmp h xs)
    (hn : C50_rounds xs ≤ n) (hm : xs.length + 1 ≤ m) :
    ∃ h', (Rb.min n h).bind (Rb.forEachSafe n drop m h) = some (xs, h') ∧ Rb.Reach cmp h' (xs.filter fun x => !drop x) := by
  obtain ⟨h1, e1, -⟩ := (R.inv O).step O (op := .min) trivial hn
  simp only [Rb.Op.call, Rb.Op.answer, Option.map_eq_some_iff, Prod.mk.injEq] at e1
  obtain ⟨a, e1, rfl, -⟩ := e1
  have f1 := Rb.first_drop (a := []) (b := xs) (P := fun _ => true) (by simp) (by simp)
  rw [List.nil_append] at f1
  rw [e1, Option.bind_some, f1]
  simpa using Rb.forEachSafe_ok (drop := drop) O xs [] h m (by simpa using R) (by simpa [C50_rounds] using hn) hm

/-- The loop over seven members, removing the even ones. -/
example : ((inserted [4, 2, 6, 1, 3, 5, 7]).bind fun h => (Rb.min 9 h).bind fun x => (Rb.forEachSafe 9 (· % 2 = 0) 9 h x).bind fun (v, h) =>
    (Rb.min 9 h).bind fun x => (Rb.forEach 9 9 h x).map fun w => (v, w)) = some ([1, 2, 3, 4, 5, 6, 7], [1, 3, 5, 7]) := by decide +kernel

end Verif.Props
