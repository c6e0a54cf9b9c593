import Verif.Model.WeakMem

/-! The history of a lock. -/
namespace Verif.Wm

structure WF (ms : List Msg) : Prop where
  pos : ∀ m ∈ ms, m.lo < m.hi
  uniq : ∀ m ∈ ms, ∀ m' ∈ ms, m.hi = m'.hi → m = m'

def Succ (ms : List Msg) (m : Msg) : Prop := ∃ m' ∈ ms, m'.lo = m.hi

/-- Nobody has the lock: the latest message says so, and no older one can be read by a read-modify-write. -/
structure FreeL (ms : List Msg) (z : Msg) : Prop where
  mem : z ∈ ms
  zero : z.val = 0
  last : ∀ m ∈ ms, m.hi ≤ z.hi
  old : ∀ m ∈ ms, m.val = 0 → m.hi ≠ z.hi → Succ ms m

/-- Somebody whose view is at `T` has the lock: after its message there is no room. -/
structure HeldL (ms : List Msg) (T : Nat) : Prop where
  old : ∀ m ∈ ms, m.val = 0 → Succ ms m
  full : ∃ g, g ≤ T ∧ ∀ n, g ≤ n → (∃ m ∈ ms, n < m.hi) → ∃ m ∈ ms, m.lo ≤ n ∧ n < m.hi

theorem free_iff {ms : List Msg} {a b : Nat} : free ms a b = true ↔ a < b ∧ ∀ m ∈ ms, m.hi ≤ a ∨ b ≤ m.lo := by
  simp [free]

theorem WF.cons {ms : List Msg} {a b v w} (W : WF ms) (h : free ms a b = true) : WF (⟨a, b, v, w⟩ :: ms) := by
  obtain ⟨h1, h2⟩ := free_iff.1 h
  refine ⟨fun m hm => ?_, fun m hm m' hm' e => ?_⟩
  · rcases List.mem_cons.1 hm with rfl | hm
    · exact h1
    · exact W.pos m hm
  · rcases List.mem_cons.1 hm with rfl | hm <;> rcases List.mem_cons.1 hm' with rfl | hm'
    · rfl
    · have := h2 m' hm'; have := W.pos m' hm'; simp only at e; omega
    · have := h2 m hm; have := W.pos m hm; simp only at e; omega
    · exact W.uniq m hm m' hm' e

theorem Succ.cons {ms : List Msg} {m n : Msg} (h : Succ ms m) : Succ (n :: ms) m := by
  obtain ⟨m', h1, h2⟩ := h
  exact ⟨m', List.mem_cons_of_mem _ h1, h2⟩

theorem Succ.stuck {ms : List Msg} {m : Msg} {b : Nat} (W : WF ms) (h : Succ ms m) : free ms m.hi b = false := by
  obtain ⟨m', h1, h2⟩ := h
  cases hf : free ms m.hi b with
  | false => rfl
  | true =>
    obtain ⟨f1, f2⟩ := free_iff.1 hf
    have := f2 m' h1
    have := W.pos m' h1
    omega

theorem HeldL.rmw {ms : List Msg} {T b w} {m : Msg} (W : WF ms) (H : HeldL ms T) (hm : m ∈ ms) (hf : free ms m.hi b = true) : m.val ≠ 0 ∧ HeldL (⟨m.hi, b, 1, w⟩ :: ms) T := by
  obtain ⟨f1, f2⟩ := free_iff.1 hf
  refine ⟨fun h0 => ?_, fun k hk h0 => ?_, ?_⟩
  · rw [(H.old m hm h0).stuck W] at hf; cases hf
  · rcases List.mem_cons.1 hk with rfl | hk
    · cases h0
    · exact (H.old k hk h0).cons
  · obtain ⟨g, hg, full⟩ := H.full
    refine ⟨g, hg, fun n hn ⟨k, hk, hlt⟩ => ?_⟩
    rcases List.mem_cons.1 hk with rfl | hk
    · by_cases q : m.hi ≤ n
      · exact ⟨_, List.mem_cons_self, q, hlt⟩
      · obtain ⟨k', hk', q'⟩ := full n hn ⟨m, hm, by omega⟩
        exact ⟨k', List.mem_cons_of_mem _ hk', q'⟩
    · obtain ⟨k', hk', q'⟩ := full n hn ⟨k, hk, hlt⟩
      exact ⟨k', List.mem_cons_of_mem _ hk', q'⟩

theorem FreeL.rmw0 {ms : List Msg} {z b w} {m : Msg} (W : WF ms) (H : FreeL ms z) (hm : m ∈ ms) (h0 : m.val = 0) (hf : free ms m.hi b = true) : m = z ∧ HeldL (⟨m.hi, b, 1, w⟩ :: ms) b := by
  obtain ⟨f1, f2⟩ := free_iff.1 hf
  have hz : m = z := by
    by_cases q : m.hi = z.hi
    · exact W.uniq m hm z H.mem q
    · rw [(H.old m hm h0 q).stuck W] at hf; cases hf
  subst hz
  refine ⟨rfl, fun k hk k0 => ?_, b, Nat.le_refl _, fun n hn ⟨k, hk, hlt⟩ => ?_⟩
  · rcases List.mem_cons.1 hk with rfl | hk
    · cases k0
    · by_cases q : k.hi = m.hi
      · exact ⟨_, List.mem_cons_self, q.symm⟩
      · exact (H.old k hk k0 q).cons
  · rcases List.mem_cons.1 hk with rfl | hk
    · simp only at hlt; omega
    · have := H.last k hk; omega

theorem FreeL.rmw1 {ms : List Msg} {z b w} {m : Msg} (W : WF ms) (H : FreeL ms z) (hm : m ∈ ms) (h1 : m.val ≠ 0) (hf : free ms m.hi b = true) : FreeL (⟨m.hi, b, 1, w⟩ :: ms) z := by
  obtain ⟨f1, f2⟩ := free_iff.1 hf
  refine ⟨List.mem_cons_of_mem _ H.mem, H.zero, fun k hk => ?_, fun k hk k0 q => ?_⟩
  · rcases List.mem_cons.1 hk with rfl | hk
    · have l := H.last m hm
      have p := W.pos z H.mem
      rcases f2 z H.mem with q | q
      · exact absurd (W.uniq m hm z H.mem (by omega)) (fun e => h1 (by rw [e]; exact H.zero))
      · simp only; omega
    · exact H.last k hk
  · rcases List.mem_cons.1 hk with rfl | hk
    · cases k0
    · exact (H.old k hk k0 q).cons

theorem HeldL.store {ms : List Msg} {T a b w} (W : WF ms) (H : HeldL ms T) (hT : T < b) (hf : free ms a b = true) : FreeL (⟨a, b, 0, w⟩ :: ms) ⟨a, b, 0, w⟩ := by
  obtain ⟨f1, f2⟩ := free_iff.1 hf
  refine ⟨List.mem_cons_self, rfl, fun k hk => ?_, fun k hk k0 q => ?_⟩
  · rcases List.mem_cons.1 hk with rfl | hk
    · exact Nat.le_refl _
    · obtain ⟨g, hg, full⟩ := H.full
      rcases f2 k hk with q | q
      · simp only; omega
      · have p := W.pos k hk
        obtain ⟨k', hk', q1, q2⟩ := full (max a g) (by omega) ⟨k, hk, by omega⟩
        have := f2 k' hk'
        omega
  · rcases List.mem_cons.1 hk with rfl | hk
    · exact absurd rfl q
    · exact (H.old k hk k0).cons

theorem HeldL.mono {ms : List Msg} {T T'} (H : HeldL ms T) (h : T ≤ T') : HeldL ms T' := by
  obtain ⟨g, hg, full⟩ := H.full
  exact ⟨H.old, g, by omega, full⟩

end Verif.Wm
