import Verif.Spec.MmanErr
/-!
# C89 – What a mapping call tells and leaves behind

On Windows, `mmap`, `munmap`, `mprotect`, `msync`, `mlock` and `munlock` fail exactly if their arguments are no good or the system refuses; then `errno`
names the cause; and no handle stays open.
-/
namespace Verif.Props
open Verif Verif.Me Verif.Mm

/-- The whole claim about causes: whatever happened before, a call that the system refuses for a known cause leaves the `errno` for it. -/
def C89_Full : Prop := ∀ (s₀ : Me.St) (ops : List Me.Op) (c : Cause),
  (∀ a : Ans, a.why c → (Me.other a (Me.run ops s₀)).2.errno = c.errno) ∧
  (∀ (len : Q) (prot flags : D) (fd : Bool) (new : Nat) (create map close : Ans), ¬ badArgs len prot → ¬ badFile flags fd →
    (create.why c ∨ create.ok = true ∧ map.why c ∧ close.ok = true) →
    (Me.mmap len prot flags fd new create map close (Me.run ops s₀)).2.errno = c.errno)

/-- The claim is false: access denied is reported as 5, which is `EIO`. -/
theorem C89_full_false : ¬ C89_Full := by
  intro h
  have := (h ⟨0, 0, [], 0⟩ [] .accessDenied).1 ⟨false, 5⟩ ⟨rfl, rfl⟩
  exact absurd this (by decide)

/-- It is never true: a call refused for one of these causes leaves another `errno`, whatever happened before. -/
theorem C89_wrong (c : Cause) (s : Me.St) :
    (∀ a : Ans, a.why c → (Me.other a s).1 = .failed ∧ (Me.other a s).2.errno ≠ c.errno) ∧
    (∀ (len : Q) (prot flags : D) (fd : Bool) (new : Nat) (create map close : Ans), ¬ badArgs len prot → ¬ badFile flags fd → create.why c →
      (Me.mmap len prot flags fd new create map close s).1 = .failed ∧
      (Me.mmap len prot flags fd new create map close s).2.errno ≠ c.errno) := by
  refine ⟨fun a h => ?_, fun len prot flags fd new create map close h1 h2 h => ?_⟩
  · obtain ⟨ho, hl⟩ := h
    cases c <;> simp [Me.other, ho, hl, mapError, Cause.code, Cause.errno, EACCES, EBADF, ENOMEM, EINVAL]
  · obtain ⟨ho, hl⟩ := h
    unfold badArgs at h1
    unfold badFile at h2
    simp only [Me.mmap, h1, h2, ho, hl, if_false, Bool.false_eq_true]
    cases c <;> simp [mapError, Cause.code, Cause.errno, EACCES, EBADF, ENOMEM, EINVAL]

example : (Me.mmap 4096 PROT_READ MAP_SHARED true 1 ⟨false, 6⟩ ⟨true, 0⟩ ⟨true, 0⟩ ⟨0, 0, [], 0⟩).2.errno ≠ EBADF :=
  ((C89_wrong .invalidHandle ⟨0, 0, [], 0⟩).2 4096 PROT_READ MAP_SHARED true 1 ⟨false, 6⟩ ⟨true, 0⟩ ⟨true, 0⟩ (by unfold badArgs; decide) (by unfold badFile; decide)
    ⟨rfl, rfl⟩).2

/-- A mapping the system refuses can even leave `errno` 0: what is reported is what `CloseHandle` left, and a function that succeeds may leave 0. -/
theorem C89_silent (len : Q) (prot flags : D) (fd : Bool) (new : Nat) (create map close : Ans) (s : Me.St) (h1 : ¬ badArgs len prot)
    (h2 : ¬ badFile flags fd) (hc : create.ok = true) (hm : map.ok = false) (hk : close.last = 0) :
    (Me.mmap len prot flags fd new create map close s).1 = .failed ∧ (Me.mmap len prot flags fd new create map close s).2.errno = 0 := by
  unfold badArgs at h1
  unfold badFile at h2
  simp only [Me.mmap, h1, h2, hc, hm, hk, if_false]
  simp [mapError]

/-- No memory for the view: `MAP_FAILED` and `errno` 0. -/
example : (Me.mmap 4096 PROT_READ MAP_SHARED true 1 ⟨true, 0⟩ ⟨false, 8⟩ ⟨true, 0⟩ ⟨0, 0, [], 0⟩).1 = .failed ∧
    (Me.mmap 4096 PROT_READ MAP_SHARED true 1 ⟨true, 0⟩ ⟨false, 8⟩ ⟨true, 0⟩ ⟨0, 0, [], 0⟩).2.errno = 0 :=
  C89_silent 4096 PROT_READ MAP_SHARED true 1 ⟨true, 0⟩ ⟨false, 8⟩ ⟨true, 0⟩ _ (by unfold badArgs; decide) (by unfold badFile; decide) rfl rfl rfl

/-- When `mmap` fails: exactly if the arguments are no good, there is no such file, or the system refuses; and what it leaves in `errno` in each case.
What is missing of the whole claim: that the number is one of `<errno.h>` for the cause. -/
theorem C89_mmap_partial (len : Q) (prot flags : D) (fd : Bool) (new : Nat) (create map close : Ans) (s : Me.St) :
    ((Me.mmap len prot flags fd new create map close s).1 = .failed ↔
      badArgs len prot ∨ badFile flags fd ∨ create.ok = false ∨ map.ok = false) ∧
    (badArgs len prot → (Me.mmap len prot flags fd new create map close s).2.errno = EINVAL) ∧
    (¬ badArgs len prot → badFile flags fd → (Me.mmap len prot flags fd new create map close s).2.errno = EBADF) ∧
    (¬ badArgs len prot → ¬ badFile flags fd → create.ok = false →
      (Me.mmap len prot flags fd new create map close s).2.errno = create.last) ∧
    (¬ badArgs len prot → ¬ badFile flags fd → create.ok = true → map.ok = false →
      (Me.mmap len prot flags fd new create map close s).2.errno = close.last) ∧
    ((Me.mmap len prot flags fd new create map close s).1 = .ok → (Me.mmap len prot flags fd new create map close s).2.errno = 0) := by
  have hz : ∀ n : Nat, mapError n EPERM = n := fun n => by
    unfold mapError
    by_cases h : n = 0 <;> simp [h]
  unfold badArgs badFile
  unfold Me.mmap
  by_cases h1 : len = 0 ∨ prot = PROT_EXEC
  · simp only [h1]
    simp
  · by_cases h2 : flags &&& MAP_ANONYMOUS = 0 ∧ fd = false
    · simp only [h1, h2, if_false]
      simp
    · simp only [h1, h2, if_false]
      cases hc : create.ok <;> cases hm : map.ok <;> simp [hz]

/-- Descriptor closed. -/
example : (Me.mmap 4096 PROT_READ MAP_SHARED false 1 ⟨true, 0⟩ ⟨true, 0⟩ ⟨true, 0⟩ ⟨7, 0, [], 0⟩).2.errno = EBADF :=
  (C89_mmap_partial 4096 PROT_READ MAP_SHARED false 1 ⟨true, 0⟩ ⟨true, 0⟩ ⟨true, 0⟩ ⟨7, 0, [], 0⟩).2.2.1 (by unfold badArgs; decide) (by unfold badFile; decide)

/-- The other calls fail exactly if the system refuses, and then leave its number in `errno`; if they succeed, `errno` is as it was. -/
theorem C89_other_partial (a : Ans) (s : Me.St) :
    ((Me.other a s).1 = .failed ↔ a.ok = false) ∧ (a.ok = false → (Me.other a s).2.errno = a.last) ∧
    (a.ok = true → (Me.other a s).2.errno = s.errno) := by
  unfold Me.other mapError
  cases a.ok <;> by_cases h : a.last = 0 <;> simp [h]

example : (Me.other ⟨false, 487⟩ ⟨0, 0, [], 0⟩).2.errno = 487 := (C89_other_partial ⟨false, 487⟩ ⟨0, 0, [], 0⟩).2.1 rfl

/-- So, if the system leaves a number with each refusal and `CloseHandle` leaves that of the call before alone, every failure can be told from
`errno`. -/
theorem C89_told (len : Q) (prot flags : D) (fd : Bool) (new : Nat) (create map close : Ans) (s : Me.St)
    (hc : create.ok = false → create.last ≠ 0) (hm : map.ok = false → map.last ≠ 0) (hk : map.ok = false → close.last = map.last) :
    (Me.mmap len prot flags fd new create map close s).1 = .failed ↔ (Me.mmap len prot flags fd new create map close s).2.errno ≠ 0 := by
  obtain ⟨p1, p2, p3, p4, p5, p6⟩ := C89_mmap_partial len prot flags fd new create map close s
  constructor
  · intro h
    by_cases h1 : badArgs len prot
    · rw [p2 h1]; decide
    · by_cases h2 : badFile flags fd
      · rw [p3 h1 h2]; decide
      · rcases Bool.eq_false_or_eq_true create.ok with h3 | h3
        · rcases p1.1 h with h' | h' | h' | h'
          · exact absurd h' h1
          · exact absurd h' h2
          · rw [h3] at h'; cases h'
          · rw [p5 h1 h2 h3 h', hk h']
            exact hm h'
        · rw [p4 h1 h2 h3]
          exact hc h3
  · intro h
    cases hr : (Me.mmap len prot flags fd new create map close s).1 with
    | failed => rfl
    | ok => exact absurd (p6 hr) h

example : (Me.mmap 4096 PROT_READ MAP_SHARED true 1 ⟨true, 0⟩ ⟨false, 8⟩ ⟨true, 8⟩ ⟨0, 0, [], 0⟩).2.errno ≠ 0 :=
  (C89_told 4096 PROT_READ MAP_SHARED true 1 ⟨true, 0⟩ ⟨false, 8⟩ ⟨true, 8⟩ ⟨0, 0, [], 0⟩ (by decide) (by decide) (by decide)).1 rfl

/-- In every history the handles that stay open, besides those there were, are those `CloseHandle` would not close, one for each; so none at all if it
always works, whether `mmap` succeeds or not. -/
theorem C89_handles (s₀ : Me.St) (ops : List Me.Op) :
    (Me.run ops s₀).handles.length = s₀.handles.length + (ops.filter Op.loses).length ∧ s₀.handles <:+ (Me.run ops s₀).handles ∧
    ((∀ o ∈ ops, o.loses = false) → (Me.run ops s₀).handles = s₀.handles) := by
  have key : (Me.run ops s₀).handles.length = s₀.handles.length + (ops.filter Op.loses).length ∧ s₀.handles <:+ (Me.run ops s₀).handles := by
    induction ops generalizing s₀ with
    | nil => simp [Me.run]
    | cons o ops ih' =>
      have ih := ih' (step o s₀)
      have e : Me.run (o :: ops) s₀ = Me.run ops (step o s₀) := rfl
      rw [e]
      generalize hs : s₀ = s at *
      have ef : ((o :: ops).filter Op.loses).length = ([o].filter Op.loses).length + (ops.filter Op.loses).length := by
        rw [← List.length_append, ← List.filter_append]; rfl
      rw [ef]
      have : ∃ l, (step o s).handles = l ++ s.handles ∧ l.length = ([o].filter Op.loses).length := by
        cases o with
        | other a => exact ⟨[], by unfold step Me.other; dsimp only; split <;> rfl, rfl⟩
        | getpagesize n => exact ⟨[], by unfold step Me.getpagesize; dsimp only; split <;> rfl, rfl⟩
        | mmap len prot flags fd new c m k =>
          unfold step Me.mmap
          dsimp only
          by_cases h1 : len = 0 ∨ prot = PROT_EXEC
          · refine ⟨[], by simp only [h1, if_true]; rfl, ?_⟩
            rcases h1 with h1 | h1 <;> simp [Op.loses, h1]
          · by_cases h2 : flags &&& MAP_ANONYMOUS = 0 ∧ fd = false
            · exact ⟨[], by simp only [h1, h2, if_false]; rfl, by simp [Op.loses, h2.1, h2.2]⟩
            · have hl : Op.loses (.mmap len prot flags fd new c m k) = (c.ok && !k.ok) := by
                have a1 : (decide (len = 0) || decide (prot = PROT_EXEC)) = false := by
                  rw [← Bool.decide_or, decide_eq_false_iff_not]; exact h1
                have a2 : (decide (flags &&& MAP_ANONYMOUS = 0) && !fd) = false := by
                  cases fd with
                  | true => simp
                  | false => simpa using h2
                show (!(decide (len = 0) || decide (prot = PROT_EXEC)) && !(decide (flags &&& MAP_ANONYMOUS = 0) && !fd) && c.ok && !k.ok) = _
                rw [a1, a2]; simp
              simp only [h1, h2, if_false]
              have he : (new :: s.handles).erase new = s.handles := by simp
              rw [List.filter_cons, hl]
              cases hc : c.ok with
              | false => exact ⟨[], by simp, by simp⟩
              | true =>
                cases hk : k.ok with
                | true => exact ⟨[], by cases hm : m.ok <;> simp, by simp⟩
                | false => exact ⟨[new], by cases hm : m.ok <;> simp, by simp⟩
      obtain ⟨l, hl, hn⟩ := this
      rw [hl] at ih
      refine ⟨by rw [ih.1, List.length_append, hn]; omega, (List.suffix_append _ _).trans ih.2⟩
  refine ⟨key.1, key.2, fun hn => ?_⟩
  have : ops.filter Op.loses = [] := List.filter_eq_nil_iff.2 fun o ho => by simp [hn o ho]
  rw [this] at key
  obtain ⟨t, ht⟩ := key.2
  have : t = [] := by
    have := congrArg List.length ht
    rw [List.length_append] at this
    have k := key.1
    simp at k
    exact List.length_eq_zero_iff.1 (by omega)
  rw [← ht, this]; rfl

/-- A mapping that fails and one that works, and a lock. -/
example : (Me.run [.mmap 4096 PROT_READ MAP_SHARED true 1 ⟨true, 0⟩ ⟨false, 8⟩ ⟨true, 0⟩, .other ⟨false, 5⟩,
    .mmap 4096 PROT_READ MAP_SHARED true 2 ⟨true, 0⟩ ⟨true, 0⟩ ⟨true, 0⟩] ⟨0, 0, [9], 0⟩).handles = [9] :=
  (C89_handles ⟨0, 0, [9], 0⟩ _).2.2 (by decide)

/-- In every history of calls on a machine whose pages have `n` bytes, `getpagesize` says `n`. -/
theorem C89_page (n : Nat) (s₀ : Me.St) (h0 : s₀.page = 0) (ops : List Me.Op) (h : ∀ k, .getpagesize k ∈ ops → k = n) :
    (Me.getpagesize n (Me.run ops s₀)).1 = n := by
  have key : ∀ (ops : List Me.Op) (s : Me.St), (∀ k, .getpagesize k ∈ ops → k = n) → (s.page = 0 ∨ s.page = n) →
      (Me.run ops s).page = 0 ∨ (Me.run ops s).page = n := by
    intro ops
    induction ops with
    | nil => intro s _ h; exact h
    | cons o ops ih =>
      intro s ho hs
      refine ih (step o s) (fun k hk => ho k (List.mem_cons_of_mem _ hk)) ?_
      cases o with
      | other a =>
        have : (step (.other a) s).page = s.page := by unfold step Me.other; dsimp only; split <;> rfl
        rw [this]; exact hs
      | mmap len prot flags fd new c m k =>
        have : (step (.mmap len prot flags fd new c m k) s).page = s.page := by
          unfold step Me.mmap; dsimp only; repeat' split
          all_goals rfl
        rw [this]; exact hs
      | getpagesize k =>
        have hk := ho k (by simp)
        subst hk
        unfold step Me.getpagesize
        dsimp only
        by_cases h : s.page = 0
        · simp [h]
        · rcases hs with hs | hs
          · exact absurd hs h
          · rw [if_neg h]; exact .inr hs
  have := key ops s₀ h (.inl h0)
  unfold Me.getpagesize
  rcases this with h' | h'
  · simp [h']
  · by_cases h0 : (Me.run ops s₀).page = 0
    · simp [h0]
    · rw [if_neg h0]; exact h'

example : (Me.getpagesize 4096 (Me.run [.getpagesize 4096, .other ⟨true, 0⟩] ⟨0, 0, [], 0⟩)).1 = 4096 :=
  C89_page 4096 ⟨0, 0, [], 0⟩ rfl _ (by intro k hk; simpa using hk)

end Verif.Props
