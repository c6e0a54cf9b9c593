import Verif.Spec.Types
/-!
# C45: type predicates
-/
namespace Verif.Ty

theorem isValue_iff (signed : Bool) (t : Tag) : isValue signed t = true ↔ 0 < t.toNat ∧ t.toNat < 25 := by
  have h := t.isLt
  cases signed
  · simp [isValue, lt, null, nan, BitVec.ult]
  · simp only [isValue, lt, null, nan, if_true, Bool.and_eq_true, BitVec.slt_iff_toInt_lt, BitVec.toInt_eq_toNat_cond]
    simp
    split <;> omega

theorem isInstance_iff (signed : Bool) (t : Tag) : isInstance signed t = true ↔ 25 < t.toNat ∧ t.toNat < 50 := by
  have h := t.isLt
  cases signed
  · simp [isInstance, lt, noInstance, nan, BitVec.ult]
  · simp only [isInstance, lt, noInstance, nan, if_true, Bool.and_eq_true, BitVec.slt_iff_toInt_lt, BitVec.toInt_eq_toNat_cond]
    simp
    split <;> omega

end Verif.Ty

namespace Verif.Props
open Verif Verif.Ty

/-- C45: exactly the documented value tags are values, of all 2³² tags, with either compiler. -/
theorem C45_values (signed : Bool) (t : Tag) : isValue signed t = true ↔ ∃ n ∈ values, n.tag = t := by
  rw [isValue_iff]
  constructor
  · rintro ⟨h1, h2⟩
    have : ∀ k, k < 25 → 0 < k → ∃ n ∈ values, n.tag = BitVec.ofNat 32 k := by decide
    obtain ⟨n, hn, e⟩ := this t.toNat h2 h1
    exact ⟨n, hn, by rw [e]; simp⟩
  · rintro ⟨n, hn, e⟩
    have : ∀ n ∈ values, 0 < n.tag.toNat ∧ n.tag.toNat < 25 := by decide
    rw [← e]
    exact this n hn

/-- C45: exactly the documented object tags are instances. -/
theorem C45_instances (signed : Bool) (t : Tag) : isInstance signed t = true ↔ ∃ n ∈ instances, n.tag = t := by
  rw [isInstance_iff]
  constructor
  · rintro ⟨h1, h2⟩
    have : ∀ k, k < 50 → 25 < k → ∃ n ∈ instances, n.tag = BitVec.ofNat 32 k := by decide
    obtain ⟨n, hn, e⟩ := this t.toNat h2 h1
    exact ⟨n, hn, by rw [e]; simp⟩
  · rintro ⟨n, hn, e⟩
    have : ∀ n ∈ instances, 25 < n.tag.toNat ∧ n.tag.toNat < 50 := by decide
    rw [← e]
    exact this n hn

/-- C45: never both; valid is either; a freed pack's tag (all ones) is neither. -/
theorem C45_partition (signed : Bool) (t : Tag) :
    ¬ (isValue signed t = true ∧ isInstance signed t = true) ∧
    (isValid signed t = true ↔ isValue signed t = true ∨ isInstance signed t = true) ∧
    isValid signed (BitVec.allOnes 32) = false := by
  refine ⟨?_, by simp [isValid], by cases signed <;> rfl⟩
  rw [isValue_iff, isInstance_iff]
  omega

/-- The named tags that are neither: NULL, NAN and everything from NO_INSTANCE on. -/
theorem C45_neither (signed : Bool) (n : Name) :
    isValid signed n.tag = false ↔
      n ∈ [.NULL, .NAN, .NO_INSTANCE, .ARENA, .THREAD, .GUARDED_STATUS, .QUEUE, .SPAWN, .POOL, .SYNC, .COUNT] := by
  cases signed <;> cases n <;> decide

example : isValue false Name.FUNC.tag = true ∧ isInstance true Name.ARGS.tag = true ∧ isValid false 77 = false := by decide

/-- C45: `is_type` is equality of tags, and different names have different tags. -/
theorem C45_is_type (a b : Name) : isType a.tag b.tag = true ↔ a = b := by
  unfold isType
  rw [beq_iff_eq]
  constructor
  · intro h
    have h1 := congrArg BitVec.toNat h
    have hb : ∀ n : Name, n.tag.toNat = n.ctorIdx := by intro n; cases n <;> rfl
    rw [hb, hb] at h1
    cases a <;> cases b <;> first | rfl | exact absurd h1 (by decide)
  · intro h; rw [h]

end Verif.Props
