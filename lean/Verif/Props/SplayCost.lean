import Verif.Proof.SplayDeep
import Verif.Props.Splay

/-!
C73: the total time of calls on a splay tree is what `tree.h:44-46` says.
-/
namespace Verif.Props
open Verif

/-- The full claim: there is a constant so that, for every order of the elements, `m` calls and `n` inserts on an initially empty tree take at most that
constant times `(m + n) lg n` rounds. -/
def C73_Full : Prop := ∃ K : Nat, ∀ cmp, Rb.Order cmp → ∀ h xs m n c, Spl.Spent cmp (fun _ => true) h xs m n c → c ≤ K * ((m + n) * Nat.log2 (n + 2))

/-- After `n` inserts in ascending order and one `SPLAY_MIN` each `SPLAY_NEXT` of the least element walks down half of the elements, as often as it is
called: it splays an element that is at the root already, then follows the left links of its right subtree and leaves them as they are. -/
theorem C73_next_walks (h₀ : Spl.Heap) (n M : Nat) (hn : 1 ≤ n) :
    ∃ h c, Spl.Spent byValue (fun _ => true) h (List.range' 1 n) (1 + M) n c ∧ M * ((n - 1) / 2) ≤ c := Spl.walks h₀ n M hn

/-- So the full claim is false. -/
theorem C73_full_false : ¬ C73_Full := by
  rintro ⟨K, H⟩
  obtain ⟨h, xs, m, n, c, S, hc⟩ := Spl.unbounded K splayBlank
  have := H _ byValue_order h xs m n c S
  omega

/-- It holds, with 36 for the constant, when `SPLAY_NEXT` is only called by `SPLAY_FOREACH`. Missing from the full claim: `SPLAY_NEXT` on its own. -/
theorem C73_balance_partial {cmp : Nat → Nat → Int} {h : Spl.Heap} {xs : List Nat} {m n c : Nat} (O : Rb.Order cmp)
    (H : Spl.Spent cmp (fun op => !op.isNext) h xs m n c) : c ≤ 36 * ((m + n) * Nat.log2 (n + 2)) := by
  rw [← Nat.mul_assoc]
  exact H.bound O fun op ho => by simpa using ho

/-- A complete `SPLAY_FOREACH` of a tree of `n` members, whatever calls have made it, including `SPLAY_NEXT`: `n` calls of `SPLAY_NEXT` after the
`SPLAY_MIN`, and at most 36 `(n + 1) lg n` rounds. -/
theorem C73_traversal {cmp : Nat → Nat → Int} {h h1 h' : Spl.Heap} {xs : List Nat} {nd k x j c : Nat} (O : Rb.Order cmp) (R : Spl.Reach cmp h xs) (n0 : nd ≠ 0)
    (hnd : nd ∉ xs) (ht : Spl.Op.min.Takes cmp nd h k x h1) (V : Spl.Visit cmp xs h1 x h' j c) :
    j = xs.length ∧ k + c ≤ 36 * ((xs.length + 1) * Nat.log2 (xs.length + 2)) := by
  rw [← Nat.mul_assoc]
  exact V.bound O R n0 hnd ht

/-- Every call that may be made takes some number of rounds, so that every history of calls is one of those above. -/
theorem C73_histories {cmp : Nat → Nat → Int} {ok : Spl.Op → Bool} {h : Spl.Heap} {xs : List Nat} {m n c nd : Nat} {op : Spl.Op} (O : Rb.Order cmp)
    (H : Spl.Spent cmp ok h xs m n c) (ho : ok op) (ha : op.allowed xs) (n0 : nd ≠ 0) (hnd : nd ∉ xs) :
    ∃ k a h', op.Takes cmp nd h k a h' ∧ Spl.Spent cmp ok h' (op.after cmp xs) (if op.isInsert then m else m + 1) (if op.isInsert then n + 1 else n) (c + k) := by
  obtain ⟨k, a, h', T⟩ := Spl.takes O (H.reach O) ha n0 hnd
  exact ⟨k, a, h', T, H.call ho ha n0 hnd T⟩

/-- Twenty inserts, a complete traversal and a search: a history as in `C73_balance_partial` with a traversal as in `C73_traversal`. -/
example : ∃ h c, Spl.Spent byValue (fun op => !op.isNext) h (List.range' 1 20) 22 20 c := by
  obtain ⟨h, c, H, -⟩ := Spl.path_spent (ok := fun op => !op.isNext) (fun _ => rfl) splayBlank 20
  obtain ⟨k, x, h1, T⟩ := Spl.takes (op := .min) byValue_order (H.reach byValue_order) trivial (by decide : 21 ≠ 0) (by decide)
  have R1 := (H.reach byValue_order).call (op := .min) trivial (by decide) (by decide) T.1
  obtain ⟨h2, c2, V⟩ := Spl.visits byValue_order (by decide : 21 ≠ 0) (List.range' 1 20) [] h1 R1 (by decide)
  obtain ⟨k3, h3, e3, -⟩ : ∃ k h3, Spl.Op.min.call byValue k 21 h = some (1, h3) ∧ True := by
    obtain ⟨h3, e, -⟩ := C50_splay_calls (op := .min) byValue_order (H.reach byValue_order) trivial (by decide : 21 ≠ 0) (by decide) (Nat.le_refl _)
    exact ⟨_, h3, e, trivial⟩
  obtain ⟨-, e⟩ := Spl.Takes.le T e3
  cases e
  have H2 := H.visit (by decide) (by decide) T V
  obtain ⟨k, a, h', -, H3⟩ := C73_histories (op := .find 7) byValue_order H2 rfl trivial (by decide : 21 ≠ 0) (by decide)
  exact ⟨h', _, H3⟩

/-- A thousand elements, and a hundred times `SPLAY_NEXT`. -/
example : ∃ h c, Spl.Spent byValue (fun _ => true) h (List.range' 1 1000) 101 1000 c ∧ 49900 ≤ c := C73_next_walks splayBlank 1000 100 (by decide)

/-- The rounds as the model makes them: from the six inserts the search of the least takes three rounds, not two. -/
example : (splayInserted [5, 2, 9, 1, 7, 3]).map (fun h => ((Spl.find byValue 2 1000 h 1).isSome, (Spl.find byValue 3 1000 h 1).isSome)) = some (false, true) := by decide +kernel

end Verif.Props
