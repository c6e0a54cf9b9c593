import Verif.Proof.Views
/-!
# C83: what is mapped, on Windows
-/
namespace Verif.Props
open Verif Verif.Vs

/-- C83, for histories in which every `munmap` names one mapping whole: all results are as POSIX allows, and in the end each page is mapped, with the
rights asked for last, exactly if it would be by POSIX with these results.  Missing: other calls of `munmap`; see `C83_munmap`. -/
theorem C83_pages_partial (inside : Bool) (os : List (Op × Option Nat)) (h : AllWhole inside os []) :
    AllAllowed (history inside os) (fun _ => none) ∧ Same (run inside os []).2 (posixRun (history inside os) fun _ => none) :=
  run_same inside os nil_wf (fun _ => trivial) h

/-- At any time: a call of `munmap` for some pages does what it should exactly if it names one mapping whole. -/
theorem C83_munmap (inside : Bool) (os : List (Op × Option Nat)) (m : Pages) (h : Same (run inside os []).2 m) (a n : Nat) (hn : 0 < n) :
    let s := (run inside os []).2
    (Allowed (.munmap a n) (munmap inside a n s).1 m ∧ Same (munmap inside a n s).2 (posix (.munmap a n) (munmap inside a n s).1 m)) ↔
      Whole inside (.munmap a n) s :=
  ⟨whole_of (run_wf inside os nil_wf) h inside a n hn, fun w => step_same (run_wf inside os nil_wf) h inside none (.munmap a n) w⟩

/-- At any time, after any history at all: `mmap` and `mprotect` do what they should, or fail. -/
theorem C83_others (inside : Bool) (os : List (Op × Option Nat)) (m : Pages) (h : Same (run inside os []).2 m) (o : Op) (k : Option Nat)
    (ho : ∀ a n, o ≠ .munmap a n) :
    let s := (run inside os []).2
    Allowed o (step inside k o s).1 m ∧ Same (step inside k o s).2 (posix o (step inside k o s).1 m) := by
  refine step_same (run_wf inside os nil_wf) h inside k o ?_
  cases o with
  | munmap a n => exact absurd rfl (ho a n)
  | mmap => trivial
  | mprotect => trivial

/-- A call that fails changes nothing. -/
theorem C83_failed (inside : Bool) (k : Option Nat) (o : Op) (s : Space) (h : (step inside k o s).1 = .failed) : (step inside k o s).2 = s := by
  cases o with
  | mmap a n prot fixed =>
    simp only [step, mmap] at h ⊢
    repeat' split at h
    all_goals first | (simp at h; done) | simp_all
  | munmap a n =>
    simp only [step, munmap] at h ⊢
    by_cases c : s.any (names inside a) = true
    · rw [if_pos c] at h; cases h
    · rw [if_neg c]
  | mprotect a n prot =>
    simp only [step, mprotect] at h ⊢
    rcases hr : Mm.pageRights (Mm.protPage (wide prot)) with _ | r
    · rfl
    · rw [hr] at h
      dsimp only at h ⊢
      by_cases c : n ≠ 0 ∧ s.any (fun v => covers a n v && within r v.most) = true
      · rw [if_pos c] at h; cases h
      · rw [if_neg c]

/-- A mapping of two pages, readable and writable. -/
def two : List (Op × Option Nat) := [(.mmap 0 2 3 false, some 16)]

/-- The full statement fails: giving back the first page of two takes the second as well. -/
theorem C83_full_false : ¬ C83_Full := fun h => by
  have := (h false (two ++ [(.munmap 16 1, none)])).2 17
  exact this

/-- More ways to fail.  The second page of two cannot be given back, or (where an address inside will do) takes the first too.  Two adjacent mappings
given back at once leave the second.  Pages not mapped cannot be given back.  A mapping cannot be put over another.  Two adjacent mappings cannot be
protected at once.  Rights not asked for at first cannot be given later, and rights cannot be taken away altogether. -/
theorem C83_more_false :
    (run false (two ++ [(.munmap 17 1, none)]) []).1 = [.at 16, .failed] ∧
    rights (run true (two ++ [(.munmap 17 1, none)]) []).2 16 = none ∧
    (rights (run false (two ++ [(.mmap 0 2 3 false, some 18), (.munmap 16 4, none)]) []).2 18).isSome ∧
    (run false (two ++ [(.munmap 40 1, none)]) []).1 = [.at 16, .failed] ∧
    (run false (two ++ [(.mmap 17 1 3 true, none)]) []).1 = [.at 16, .failed] ∧
    (run false (two ++ [(.mmap 0 2 3 false, some 18), (.mprotect 16 4 1, none)]) []).1 = [.at 16, .at 18, .failed] ∧
    (run false [(.mmap 0 2 1 false, some 16), (.mprotect 16 2 3, none)] []).1 = [.at 16, .failed] ∧
    (run false (two ++ [(.mprotect 16 2 0, none)]) []).1 = [.at 16, .failed] := by
  refine ⟨?_, ?_, ?_, ?_, ?_, ?_, ?_, ?_⟩ <;> decide

/-- A history to which `C83_pages_partial` applies: two mappings, one made read-only in part, the other given back with a page more than it has. -/
example : AllWhole false (two ++ [(.mmap 32 3 1 true, none), (.mprotect 17 1 1, none), (.munmap 32 4, none)]) [] := by
  refine ⟨trivial, trivial, trivial, ⟨_, .head _, rfl, fun p => ?_⟩, trivial⟩
  rw [has_iff]
  constructor
  · intro h
    have h : 32 ≤ p ∧ p < 35 := h
    obtain rfl | rfl | rfl : p = 32 ∨ p = 33 ∨ p = 34 := by omega
    all_goals exact ⟨by decide, by decide⟩
  · rintro ⟨h, g⟩
    unfold inRange at h
    obtain rfl | h' : p = 35 ∨ p < 35 := by omega
    · exact absurd g (by decide)
    · exact ⟨h.1, h'⟩

example : (run false (two ++ [(.mmap 32 3 1 true, none), (.mprotect 17 1 1, none), (.munmap 32 4, none)]) []).1 = [.at 16, .at 32, .ok, .ok] := by
  decide

end Verif.Props
