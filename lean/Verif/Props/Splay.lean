import Verif.Proof.SplayMain
import Verif.Props.Tree

/-!
C50: red-black and splay trees behave as sorted sets. Here the splay trees, `SPLAY_*` of `tree.h`.
-/
namespace Verif.Props
open Verif

/-- After any history of calls on the tree every call that may be made returns, within as many rounds of each of its loops as there are members and one,
the answer of the sorted list of the members; the members afterwards are as for the list; and it touches no element outside the tree. -/
theorem C50_splay_calls {cmp : Nat → Nat → Int} {h : Spl.Heap} {xs : List Nat} {op : Spl.Op} {n nd : Nat} (O : Rb.Order cmp) (R : Spl.Reach cmp h xs)
    (ha : op.allowed xs) (n0 : nd ≠ 0) (hnd : nd ∉ xs) (hn : xs.length + 1 ≤ n) :
    ∃ h', op.call cmp n nd h = some (op.answer cmp xs, h') ∧ Spl.Reach cmp h' (op.after cmp xs) ∧
      ∀ z, z ∉ xs → z ≠ nd → op ≠ .insert z → h'.l z = h.l z ∧ h'.r z = h.r z := by
  obtain ⟨h', e, -, f⟩ := (R.inv O).step O ha n0 hnd hn
  exact ⟨h', e, R.call ha n0 hnd e, f⟩

/-- The links make a tree whose in-order is the members, and they are in strictly ascending order. -/
theorem C50_splay_sorted {cmp : Nat → Nat → Int} {h : Spl.Heap} {xs : List Nat} (O : Rb.Order cmp) (R : Spl.Reach cmp h xs) :
    Spl.Inorder h h.root xs ∧ xs.Pairwise fun a b => cmp a b < 0 := by
  obtain ⟨S, t, H⟩ := R.inv O
  refine ⟨?_, S⟩
  rw [H.root, ← H.ino]
  exact H.rep.inorder

/-- `SPLAY_FOREACH` visits the members in order, each of them once, though every step of it reshapes the tree. -/
theorem C50_splay_traversal {cmp : Nat → Nat → Int} {h : Spl.Heap} {xs : List Nat} {n m nd : Nat} (O : Rb.Order cmp) (R : Spl.Reach cmp h xs)
    (n0 : nd ≠ 0) (hnd : nd ∉ xs) (hn : xs.length + 1 ≤ n) (hm : xs.length + 1 ≤ m) :
    ∃ h', ((Spl.min n nd h).bind fun (x, h) => Spl.forEach cmp n nd m h x) = some (xs, h') ∧ Spl.Reach cmp h' xs := by
  obtain ⟨h1, e1, -⟩ := (R.inv O).step O (op := .min) trivial n0 hnd hn
  have R1 := R.call (op := .min) trivial n0 hnd e1
  have f1 := Rb.first_drop (a := []) (b := xs) (P := fun _ => true) (by simp) (by simp)
  rw [List.nil_append] at f1
  simp only [Spl.Op.call, Spl.Op.answer, f1] at e1
  rw [e1, Option.bind_some]
  simpa using Spl.forEach_ok O xs [] h1 m (by simpa [Spl.Op.after] using R1) n0 (by simpa using hnd) (by simpa using hn) hm

/-- A heap in which no link has been set. -/
def splayBlank : Spl.Heap := ⟨0, fun _ => 0, fun _ => 0⟩

/-- The elements inserted one after the other. -/
def splayInserted : List Nat → Option Spl.Heap
  | [] => some splayBlank.init
  | e :: es => (splayInserted es).bind fun h => (Spl.insert byValue 9 1000 h e).map (·.2)

theorem splayInserted_reach : ∀ {es : List Nat} {h}, splayInserted es = some h → (∀ e ∈ es, e ≠ 0 ∧ e ≠ 1000) →
    ∃ xs, Spl.Reach byValue h xs ∧ xs = es.foldr (fun e xs => Spl.Op.after byValue xs (.insert e)) [] ∧ ∀ x ∈ xs, x ∈ es := by
  intro es
  induction es with
  | nil => intro h e _; cases e; exact ⟨[], Spl.Reach.init _, rfl, by simp⟩
  | cons x es ih =>
    intro h e hne
    simp only [splayInserted] at e
    cases q : splayInserted es with
    | none => rw [q] at e; cases e
    | some h1 =>
      rw [q, Option.bind_some, Option.map_eq_some_iff] at e
      obtain ⟨⟨a, h2⟩, e1, rfl⟩ := e
      obtain ⟨xs, R, hx, hs⟩ := ih q fun z hz => hne z (List.mem_cons_of_mem _ hz)
      refine ⟨_, R.call (op := .insert x) (hne x (by simp)).1 (by decide) (fun q => (hne 1000 (List.mem_cons_of_mem _ (hs _ q))).2 rfl) e1, by rw [hx]; rfl, ?_⟩
      intro z hz
      simp only [Spl.Op.after] at hz
      split at hz
      · exact List.mem_cons_of_mem _ (hs z hz)
      · simp only [List.mem_append, List.mem_filter, List.mem_cons] at hz
        rcases hz with hz | rfl | hz
        · exact List.mem_cons_of_mem _ (hs z hz.1)
        · simp
        · exact List.mem_cons_of_mem _ (hs z hz.1)

/-- Six elements in no order: the history is one of those the theorems are about. -/
example : ∃ h, splayInserted [5, 2, 9, 1, 7, 3] = some h ∧ Spl.Reach byValue h [1, 2, 3, 5, 7, 9] := by
  cases q : splayInserted [5, 2, 9, 1, 7, 3] with
  | none => exact absurd q (by decide +kernel)
  | some h =>
    obtain ⟨xs, R, rfl, -⟩ := splayInserted_reach q (by decide)
    exact ⟨h, rfl, by rw [show [1, 2, 3, 5, 7, 9] = _ from (by decide : [1, 2, 3, 5, 7, 9] = [5, 2, 9, 1, 7, 3].foldr (fun e xs => Spl.Op.after byValue xs (.insert e)) [])]; exact R⟩

/-- Removing the middle one, then a visit of all. -/
example : ((splayInserted [5, 2, 9, 1, 7, 3]).bind fun h => (Spl.remove byValue 9 1000 h 5).bind fun (a, h) => (Spl.min 9 1000 h).bind fun (x, h) =>
    (Spl.forEach byValue 9 1000 9 h x).map fun (v, _) => (a, v)) = some (5, [1, 2, 3, 7, 9]) := by decide +kernel

end Verif.Props
