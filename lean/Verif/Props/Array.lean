import Verif.Proof.Array
/-!
# C20: the growable array
-/
namespace Verif.Props
open Verif

/-- C20 (contents): after any history of appends (each storing its value through the pointer
obtained), with any allocator answers, no store was out of bounds, the array counts exactly the
successful appends, and the `k`-th element lies inside the block and still holds its value. -/
theorem C20_history {α : Type} (junk : α) (es : W) (hes : 0 < es.toNat)
    (h : List ((W → Option Nat) × α)) (hall : ∀ o ∈ h, Allocator o.1) :
    ∃ a vs, arrHistory junk es h arrInit [] = some (a, vs) ∧ vs.Sublist (h.map Prod.snd) ∧
      a.elements.toNat = vs.length ∧
      ∀ k (hk : k < vs.length), ∃ b, a.base = some b ∧ (k + 1) * es.toNat ≤ b.size ∧
        b.addr + b.size ≤ 2 ^ 64 ∧ arrLoad a es (b.addr + k * es.toNat) = some vs[k] := by
  obtain ⟨a, vs, h1, h2, h3⟩ := arrHistory_spec junk es hes h arrInit [] hall (arrInit_inv es)
  rw [List.nil_append] at h1 h3
  refine ⟨a, vs, h1, h2, h3.elems, fun k hk => ?_⟩
  obtain ⟨b, hb, hsz, hbl, -, hA, t, ht⟩ := h3.blk (by rintro rfl; simp at hk)
  refine ⟨b, hb, ?_, hA, ?_⟩
  · exact Nat.le_trans (Nat.mul_le_mul_right _ (by omega)) hsz
  · have hkb : k < b.cells.length := by omega
    simp only [arrLoad, hb, slot_mul b es k hes hkb, Option.bind_some]
    rw [← ht, List.getElem?_append_left hk, List.getElem?_eq_getElem hk]

/-- C20 (the next append): after any history with `n` successful appends, the next append either
returns NULL and changes nothing — exactly when a larger block is needed and its size does not fit
in `size_t` or the allocator refuses — or hands out the slot right after the previous ones, in
bounds, keeping every earlier element. -/
theorem C20_append {α : Type} (junk : α) (es : W) (hes : 0 < es.toNat)
    (h : List ((W → Option Nat) × α)) (hall : ∀ o ∈ h, Allocator o.1) (a : Arr α) (vs : List α)
    (hrun : arrHistory junk es h arrInit [] = some (a, vs)) (ans : W → Option Nat)
    (hans : Allocator ans) :
    let n := vs.length
    let fails := n % 16 = 0 ∧ (2 ^ 64 ≤ n + 16 ∨ 2 ^ 64 ≤ (n + 16) * es.toNat ∨
      ans (BitVec.ofNat 64 ((n + 16) * es.toNat)) = none)
    (fails → arrAppend junk a es ans = (none, a)) ∧
    (¬ fails → ∃ p a' b, arrAppend junk a es ans = (some p, a') ∧ a'.base = some b ∧
      a'.elements.toNat = n + 1 ∧ p.toNat = b.addr + n * es.toNat ∧
      (n + 1) * es.toNat ≤ b.size ∧ b.addr + b.size ≤ 2 ^ 64 ∧
      ∀ k (hk : k < n), arrLoad a' es (b.addr + k * es.toNat) = some vs[k]) := by
  obtain ⟨a', vs', h1, -, h3⟩ := arrHistory_spec junk es hes h arrInit [] hall (arrInit_inv es)
  rw [List.nil_append] at h1 h3
  rw [h1] at hrun
  cases hrun
  rcases arrAppend_spec junk es a vs ans hes hans h3 with ⟨e1, e2⟩ |
    ⟨e1, p, a', b, e2, -, e4, e5, e6, e7, e8, -, e9, ⟨t, ht⟩, -⟩
  · exact ⟨fun _ => e2, fun hc => absurd e1 hc⟩
  · refine ⟨fun hc => absurd hc e1, fun _ => ⟨p, a', b, e2, e4, e5, e6, ?_, e9, fun k hk => ?_⟩⟩
    · exact Nat.le_trans (Nat.mul_le_mul_right _ (by omega)) e7
    · have hkb : k < b.cells.length := by omega
      simp only [arrLoad, e4, slot_mul b es k hes hkb, Option.bind_some]
      rw [← ht, List.getElem?_append_left hk, List.getElem?_eq_getElem hk]

/-- C20 (size arithmetic): the multiplication and addition helpers report failure exactly when the
true result does not fit in `size_t`, and otherwise deliver the true result. -/
theorem C20_size_arithmetic (a b : W) :
    (umullOverflow a b = none ↔ 2 ^ 64 ≤ a.toNat * b.toNat) ∧
    (∀ x, umullOverflow a b = some x → x.toNat = a.toNat * b.toNat) ∧
    (addOverflow a 16 = none ↔ 2 ^ 64 ≤ a.toNat + 16) ∧
    (∀ x, addOverflow a 16 = some x → x.toNat = a.toNat + 16) := by
  have hadd := addOverflow_eq a
  rw [show INCREMENT = (16 : W) from rfl] at hadd
  rw [umullOverflow_eq, hadd]
  refine ⟨?_, ?_, ?_, ?_⟩
  · by_cases h : a.toNat * b.toNat < 2 ^ 64
    · simp only [if_pos h]; simp; omega
    · simp only [if_neg h]; simp; omega
  · intro x hx
    by_cases h : a.toNat * b.toNat < 2 ^ 64
    · rw [if_pos h] at hx; cases hx; rw [BitVec.toNat_mul, Nat.mod_eq_of_lt h]
    · rw [if_neg h] at hx; cases hx
  · by_cases h : a.toNat + 16 < 2 ^ 64
    · simp only [if_pos h]; simp; omega
    · simp only [if_neg h]; simp; omega
  · intro x hx
    by_cases h : a.toNat + 16 < 2 ^ 64
    · rw [if_pos h] at hx; cases hx
      rw [BitVec.toNat_add, show (16 : W).toNat = 16 from rfl, Nat.mod_eq_of_lt h]
    · rw [if_neg h] at hx; cases hx

/-- C20: initialising gives an empty array; resetting gives an all-zero one (so it is no longer
recognised as an array and its block is forgotten after having been freed). -/
theorem C20_init_reset {α : Type} (a : Arr α) :
    (arrInit : Arr α).elements = 0 ∧ (arrInit : Arr α).base.isNone ∧
    (arrReset a).elements = 0 ∧ (arrReset a).base.isNone ∧ (arrReset a).type ≠ (arrInit : Arr α).type := by
  refine ⟨rfl, rfl, rfl, rfl, ?_⟩
  show (0 : Nat) ≠ 26
  decide

/-- Twenty appends of 24-byte elements, growth refused at the 17th and 18th. -/
example : ((arrHistory 0 24
    ((List.range 20).map fun i => (fun _ => if i = 16 ∨ i = 17 then none else some (4096 + 16 * i), i))
    arrInit []).map fun r => (r.2, r.1.base.map Block.addr, r.1.base.map Block.size)) =
    some ([0, 1, 2, 3, 4, 5, 6, 7, 8, 9, 10, 11, 12, 13, 14, 15, 18, 19], some 4384, some 768) := by
  decide +kernel

end Verif.Props
