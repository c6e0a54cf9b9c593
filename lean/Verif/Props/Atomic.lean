import Verif.Proof.Atomic
/-!
# C58: atomic operations built from compare-and-swap are atomic
-/
namespace Verif.Props
open Verif Verif.At

/-- **C58, in full.**  Whatever compiler built the program, any number of threads see atomic operations:
every history of calls and returns is one of the machine that performs each operation in one step
between its call and its return, and the memory is what that machine's memory is. -/
def C58_Full : Prop := ∀ (p : Prim) (w : Nat) (mem : Nat → BitVec w) (ls : List (Lbl w)) (st : St w),
  run p (start mem) ls = some st → ∃ s, Atomically mem (visible ls) s ∧ s.mem = st.mem

/-- **C58, except tcc on other processors than x86.**  With the compare-and-swap that returns the value
the cell held: for any width, any contents, any number of threads and any interleaving, and even if the
plain read that starts a loop yields garbage. -/
theorem C58_atomic_partial {w : Nat} (mem : Nat → BitVec w) (ls : List (Lbl w)) (st : St w)
    (h : run .value (start mem) ls = some st) : ∃ s, Atomically mem (visible ls) s ∧ s.mem = st.mem := by
  have h0 : Atomically mem [] (start mem).abs := .start
  exact ⟨st.abs, sim_run ls (by intro i a op old e; cases e) h h0, rfl⟩

/-- Two threads add to the same cell; the second gets in between the first one's read and its
compare-and-swap, the first tries again, and both additions count. -/
example : ∃ st, run .value (start fun _ => (5 : BitVec 8))
    [.call 0 7 (.fetchAdd 1), .read 0 5, .call 1 7 (.fetchAdd 2), .read 1 5, .cas 1, .cas 0, .ret 1 ⟨5, true⟩,
     .read 0 7, .cas 0, .ret 0 ⟨7, true⟩] = some st ∧ st.mem 7 = 8 := by
  refine ⟨_, rfl, ?_⟩
  decide +kernel

/-- **A retry is always another thread's progress.**  If plain reads read what is there, a thread goes round
its loop again at most as often as other threads changed the cell they worked on. -/
theorem C58_retries {w : Nat} (mem : Nat → BitVec w) (ls : List (Lbl w)) (i : Nat)
    (ha : Accurate (start mem) ls) : total (retry i) (start mem) ls ≤ total (changes i) (start mem) ls := by
  have := retries_le i ls (start mem) ha
  rwa [show pend i (start mem) = 0 from rfl, Nat.add_zero] at this

/-- In the execution above thread 0 tries twice because of thread 1. -/
example : total (retry 0) (start fun _ => (5 : BitVec 8))
    [.call 0 7 (.fetchAdd 1), .read 0 5, .call 1 7 (.fetchAdd 2), .read 1 5, .cas 1, .cas 0] = 1 := by
  decide +kernel

/-- **An operation left alone ends**: from where it starts, reading what is there, one round suffices, and it
returns what the operation means. -/
theorem C58_alone {w : Nat} (st : St w) (i a : Nat) (op : Op w) (hl : op.loops = true)
    (hp : st.pc i = .start a op) :
    ∃ st', run .value st [.read i (st.mem a), .cas i, .ret i (op.meaning (st.mem a)).2] = some st' ∧
      st'.mem = upd st.mem a (op.meaning (st.mem a)).1 ∧ st'.pc i = .idle := by
  have hm := loop_meaning op hl (st.mem a)
  refine ⟨_, by simp [run, step, hp, hl, St.setPc, Prim.result, hm, swap, St.setMem]; rfl, ?_, ?_⟩
  · funext b; simp [upd, hm]
  · simp

example : ∃ st' : St 8, run .value ((start fun _ => (200 : BitVec 8)).setPc 3 (.start 2 (.fetchAdd 100)))
    [.read 3 200, .cas 3, .ret 3 ⟨200, true⟩] = some st' ∧ st'.mem 2 = 44 := by
  refine ⟨_, rfl, ?_⟩
  decide +kernel

/-- tcc, not on x86: one thread loads a cell that holds 0 and gets 1. -/
theorem C58_tcc_load : ∃ (ls : List (Lbl 8)) (st : St 8), run .flag (start fun _ => 0) ls = some st ∧
    visible ls = [.call 0 0 .load, .ret 0 ⟨1, true⟩] :=
  ⟨[.call 0 0 .load, .cas 0, .ret 0 ⟨1, true⟩], _, rfl, rfl⟩

/-- tcc, not on x86: no load ever returns what the object holds. -/
theorem C58_tcc_load_never {w : Nat} (hw : 0 < w) (st st' : St w) (i a : Nat) (h : st.pc i = .start a .load) (hs : step .flag st (.cas i) = some st') :
    st'.mem = st.mem ∧ ∃ r : BitVec w, st'.pc i = .done ⟨r, true⟩ ∧ r ≠ st.mem a ∧ (r = 1 ↔ st.mem a = 0) := by
  have h10 : ¬ (1 : BitVec w) = 0 := by
    intro e
    have := congrArg (fun x => BitVec.getLsbD x 0) e
    simp [hw] at this
  simp only [step, h, Option.some.injEq] at hs
  subst hs
  refine ⟨?_, _, by simp [St.setPc]; rfl, ?_, ?_⟩
  · simp only [swap]
    split
    · next e => simp only [St.setPc, St.setMem]; funext b; split <;> simp_all
    · rfl
  · simp only [Prim.result]
    split
    · next e => rw [e]; exact h10
    · next e => exact fun q => e q.symm
  · simp only [Prim.result]
    split
    · next e => simp [e]
    · next e => exact ⟨fun q => absurd q.symm h10, fun q => absurd q e⟩

/-- tcc, not on x86: `compare_exchange` says it has succeeded exactly if it has and 1 was expected, or it has not and 0 was expected. -/
theorem C58_tcc_exchange {w : Nat} (st st' : St w) (i a : Nat) (e d : BitVec w) (h : st.pc i = .start a (.compareExchange e d)) (hs : step .flag st (.cas i) = some st') :
    (∃ r, st'.pc i = .done ⟨r, true⟩) ↔ (st.mem a = e ∧ e = 1) ∨ (st.mem a ≠ e ∧ e = 0) := by
  simp only [step, h] at hs
  split at hs
  · next q =>
    cases hs
    simp only [Prim.result] at q
    split at q
    · next q' => exact ⟨fun _ => .inl ⟨q', q.symm⟩, fun _ => ⟨_, by simp [St.setPc]; rfl⟩⟩
    · next q' => exact ⟨fun _ => .inr ⟨q', q.symm⟩, fun _ => ⟨_, by simp [St.setPc]; rfl⟩⟩
  · next q =>
    cases hs
    simp only [Prim.result] at q
    split at q
    · next q' =>
      exact ⟨fun ⟨r, x⟩ => by simp [St.setPc] at x, fun x => x.elim (fun y => absurd y.2.symm q) (fun y => absurd q' y.1)⟩
    · next q' =>
      exact ⟨fun ⟨r, x⟩ => by simp [St.setPc] at x, fun x => x.elim (fun y => absurd y.1 q') (fun y => absurd y.2.symm q)⟩

/-- tcc, not on x86: the loop of an operation ends exactly if its exchange was done and 1 was read, or was not done and 0 was read; in the second case nothing is changed. -/
theorem C58_tcc_loop {w : Nat} (st st' : St w) (i a : Nat) (op : Op w) (old : BitVec w) (h : st.pc i = .got a op old) (hs : step .flag st (.cas i) = some st') :
    ((∃ r, st'.pc i = .done r) ↔ (st.mem a = old ∧ old = 1) ∨ (st.mem a ≠ old ∧ old = 0)) ∧ (st.mem a ≠ old → st'.mem = st.mem) := by
  simp only [step, h] at hs
  have hm : st.mem a ≠ old → (swap st a old (op.newValue old)).mem = st.mem := fun q => by simp [swap, q]
  split at hs
  · next q =>
    cases hs
    refine ⟨?_, hm⟩
    simp only [Prim.result] at q
    split at q
    · next q' => exact ⟨fun _ => .inl ⟨q', q.symm⟩, fun _ => ⟨_, by simp [St.setPc]; rfl⟩⟩
    · next q' => exact ⟨fun _ => .inr ⟨q', q.symm⟩, fun _ => ⟨_, by simp [St.setPc]; rfl⟩⟩
  · next q =>
    cases hs
    refine ⟨?_, hm⟩
    simp only [Prim.result] at q
    split at q
    · next q' =>
      exact ⟨fun ⟨r, x⟩ => by simp [St.setPc] at x, fun x => x.elim (fun y => absurd y.2.symm q) (fun y => absurd q' y.1)⟩
    · next q' =>
      exact ⟨fun ⟨r, x⟩ => by simp [St.setPc] at x, fun x => x.elim (fun y => absurd y.1 q') (fun y => absurd y.2.symm q)⟩

/-- An object holds 7, a thread expects 0 and is told it has stored 9. -/
example : ∃ st : St 8, run .flag (start fun _ => 7) [.call 0 0 (.compareExchange 0 9), .cas 0, .ret 0 ⟨0, true⟩] = some st ∧ st.mem 0 = 7 := by
  refine ⟨_, rfl, ?_⟩
  decide +kernel

/-- tcc, not on x86: the only thread adds 1 to 5, and goes on adding: after any number of rounds that stays
below the width it has added that many, and has not returned. -/
theorem C58_tcc_add (k : Nat) (hk : k < 250) : ∃ (ls : List (Lbl 8)) (st : St 8),
    run .flag (start fun _ => 5) (.call 0 0 (.fetchAdd 1) :: ls) = some st ∧ visible ls = [] ∧
      st.mem 0 = 5 + BitVec.ofNat 8 k ∧ st.pc 0 = .start 0 (.fetchAdd 1) := by
  suffices ∀ k, k < 250 → ∃ (ls : List (Lbl 8)) (st : St 8),
      run .flag (start fun _ => 5) (.call 0 0 (.fetchAdd 1) :: ls) = some st ∧ visible ls = [] ∧
      st.mem 0 = 5 + BitVec.ofNat 8 k ∧ st.pc 0 = .start 0 (.fetchAdd 1) from this k hk
  intro k
  induction k with
  | zero => intro _; exact ⟨[], _, rfl, rfl, rfl, rfl⟩
  | succ k ih =>
    intro hk
    obtain ⟨ls, st, hr, hv, hm, hp⟩ := ih (by omega)
    have happ : ∀ (l₁ l₂ : List (Lbl 8)) (s : St 8), run .flag s (l₁ ++ l₂) = (run .flag s l₁).bind (run .flag · l₂) := by
      intro l₁
      induction l₁ with
      | nil => intro l₂ s; rfl
      | cons l l₁ ih =>
        intro l₂ s
        simp only [List.cons_append, run]
        cases step .flag s l with
        | none => rfl
        | some s' => exact ih l₂ s'
    have hne : ¬ (1 : BitVec 8) = 5 + BitVec.ofNat 8 k := by
      intro h
      have := congrArg BitVec.toNat h
      simp only [BitVec.toNat_add, BitVec.toNat_ofNat, show BitVec.toNat (1 : BitVec 8) = 1 from rfl,
        show BitVec.toNat (5 : BitVec 8) = 5 from rfl] at this
      omega
    refine ⟨ls ++ [.read 0 (st.mem 0), .cas 0], ?_⟩
    have hvis : ∀ (l₁ l₂ : List (Lbl 8)), visible (l₁ ++ l₂) = visible l₁ ++ visible l₂ := by
      intro l₁
      induction l₁ with
      | nil => intro l₂; rfl
      | cons l l₁ ih => intro l₂; rw [List.cons_append, visible_cons, ih, visible_cons l l₁, List.append_assoc]
    refine ⟨(swap (st.setPc 0 (.got 0 (.fetchAdd 1) (st.mem 0))) 0 (st.mem 0) (st.mem 0 + 1)).setPc 0
      (.start 0 (.fetchAdd 1)), ?_, ?_, ?_, ?_⟩
    · rw [← List.cons_append, happ, hr]
      simp only [Option.bind_some, run, step, hp, Op.loops, St.setPc, if_true, Prim.result]
      rw [if_neg (by rw [hm]; exact hne)]
      rfl
    · rw [hvis, hv]; rfl
    · simp only [swap, St.setPc, St.setMem, if_true, hm]
      rw [BitVec.add_assoc]
      congr 1
      apply BitVec.eq_of_toNat_eq
      simp only [BitVec.toNat_add, BitVec.toNat_ofNat, show BitVec.toNat (1 : BitVec 8) = 1 from rfl]
      omega
    · rfl

/-- The atomic machine never lets the only thread load from a memory of zeros anything but 0. -/
theorem C58_full_false : ¬ C58_Full := by
  intro h
  obtain ⟨ls, st, hr, hv⟩ := C58_tcc_load
  obtain ⟨s, ha, -⟩ := h .flag 8 _ ls st hr
  rw [hv] at ha
  have inv : ∀ (t : List (Ev 8)) (s : ASt 8), Atomically (fun _ => 0) t s →
      (t = [] → s.mem = (fun _ => 0) ∧ s.pc 0 = .idle) ∧
      (t = [.call 0 0 .load] → s.mem = (fun _ => 0) ∧ (s.pc 0 = .before 0 .load ∨ s.pc 0 = .after ⟨0, true⟩)) ∧
      (∀ j, j ≠ 0 → (t = [] ∨ t = [.call 0 0 .load]) → s.pc j = .idle) ∧
      (t ≠ [.call 0 0 .load, .ret 0 ⟨1, true⟩]) := by
    intro t s h
    induction h with
    | start => simp
    | @call t s i a op h hp ih =>
      refine ⟨by simp, ?_, ?_, ?_⟩
      · intro e
        cases t with
        | nil =>
          simp at e
          obtain ⟨rfl, rfl, rfl⟩ := e
          exact ⟨(ih.1 rfl).1, .inl (by simp [upd])⟩
        | cons x t => simp at e
      · intro j hj e
        cases t with
        | nil =>
          simp at e
          obtain ⟨rfl, rfl, rfl⟩ := e
          simp only [upd, hj, if_false]
          exact ih.2.2.1 j hj (.inl rfl)
        | cons x t => simp at e
      · intro e
        cases t with
        | nil => simp at e
        | cons x t =>
          cases t with
          | nil => simp at e
          | cons y t => simp at e
    | @effect t s i a op h hp ih =>
      have hi : (t = [] ∨ t = [.call 0 0 .load]) → i = 0 := by
        intro e
        apply Classical.byContradiction
        intro hne
        rw [ih.2.2.1 i hne e] at hp
        cases hp
      refine ⟨?_, ?_, ?_, ih.2.2.2⟩
      · intro e
        cases hi (.inl e)
        rw [(ih.1 e).2] at hp
        cases hp
      · intro e
        cases hi (.inr e)
        obtain ⟨hm, h1 | h1⟩ := ih.2.1 e
        · rw [h1] at hp
          cases hp
          refine ⟨?_, .inr ?_⟩
          · funext b; simp [upd, hm, Op.meaning]
          · simp [upd, hm, Op.meaning]
        · rw [h1] at hp; cases hp
      · intro j hj e
        cases hi e
        simp only [upd, hj, if_false]
        exact ih.2.2.1 j hj e
    | @ret t s i r h hp ih =>
      refine ⟨by simp, ?_, ?_, ?_⟩
      · intro e
        cases t with
        | nil => simp at e
        | cons x t => simp at e
      · intro j hj e
        cases t with
        | nil => simp at e
        | cons x t => simp at e
      · intro e
        have e' : t ++ [.ret i r] = [.call 0 0 .load] ++ [.ret 0 ⟨1, true⟩] := e
        have := List.append_inj' e' rfl
        obtain ⟨ht, hr⟩ := this
        simp at hr
        obtain ⟨rfl, rfl⟩ := hr
        obtain ⟨_, h1 | h1⟩ := ih.2.1 ht
        · rw [h1] at hp; cases hp
        · rw [h1] at hp; cases hp
  exact (inv _ _ ha).2.2.2 rfl

end Verif.Props
