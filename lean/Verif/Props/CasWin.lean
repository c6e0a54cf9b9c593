import Verif.Spec.CasWin
/-!
# C92 — compare-and-swap on Windows

`atomic_cas_32(obj, expected, desired)`, `atomic_cas`, `atomic_swap`: the object is set to `desired` if it holds what `*expected` does, and the result is true;
otherwise `*expected` is set to what the object holds, and the result is false.  In particular any number of threads can change an object in loops
`while (!atomic_cas(p, &e, f(e)));` without losing a change.
-/
namespace Verif.Props
open Verif Verif.Cw

variable {w : Nat}

/-- **C92**, full: with either compiler, wherever the parameters are - at addresses where nothing of the program's is. -/
def C92_Full : Prop :=
  (∀ (w : Nat) (m : Mem w) (a cmp set : BitVec w), CasRight m a cmp set (cas m a cmp set)) ∧
  (∀ (w : Nat) (m : Mem w) (frame a cmp set : BitVec w), frame ≠ a → frame ≠ cmp →
    CasRight (m.set frame cmp) a cmp set (casTcc m frame a cmp set))

theorem get_set (m : Mem w) (p x q : BitVec w) : (m.set p x) q = if q = p then x else m q := rfl

/-- **C92**, for compilers other than tcc: any memory, any object, also the variable itself. -/
theorem C92_cas_partial (m : Mem w) (a cmp set : BitVec w) : CasRight m a cmp set (cas m a cmp set) := by
  constructor
  · intro h
    refine ⟨by simp [cas, interlocked, h], by simp [cas, interlocked, h, get_set], fun p hp => by simp [cas, interlocked, h, get_set, hp]⟩
  · intro h
    refine ⟨by simp [cas, interlocked, h], by simp [cas, interlocked, h, get_set], fun p hp => by simp [cas, interlocked, h, get_set, hp]⟩

-- An object at 16 that holds 5, a variable at 20.
example : (cas (w := 8) (fun p => if p = 16 then 5 else if p = 20 then 5 else 0) 16 20 7).2 = true ∧
    (cas (w := 8) (fun p => if p = 16 then 5 else if p = 20 then 5 else 0) 16 20 7).1 16 = 7 ∧
    (cas (w := 8) (fun p => if p = 16 then 5 else if p = 20 then 4 else 0) 16 20 7).2 = false ∧
    (cas (w := 8) (fun p => if p = 16 then 5 else if p = 20 then 4 else 0) 16 20 7).1 20 = 5 := by decide

/-- C11's operation is that too: the other systems use it (`include/catomic.h:2629-2637`). -/
theorem C92_strong (m : Mem w) (a expected desired : BitVec w) : CasRight m a expected desired (strong m a expected desired) := by
  constructor
  · intro h
    simp only [strong, if_pos h]
    exact ⟨trivial, by simp [get_set], fun p hp => by simp [get_set, hp]⟩
  · intro h
    simp only [strong, if_neg h]
    exact ⟨trivial, by simp [get_set], fun p hp => by simp [get_set, hp]⟩

/-! ## tcc -/

/-- tcc: the object is compared with the address of the variable; what the variable holds does not matter, and the variable is not set. -/
theorem C92_tcc (m : Mem w) (frame a cmp set : BitVec w) (h : frame ≠ a) :
    ((casTcc m frame a cmp set).2 = true ↔ m a = cmp) ∧
    (casTcc m frame a cmp set).1 a = (if m a = cmp then set else m a) ∧
    (∀ p, p ≠ a → p ≠ frame → (casTcc m frame a cmp set).1 p = m p) := by
  unfold casTcc strong
  rw [get_set, get_set, if_neg h.symm, if_pos rfl]
  by_cases e : m a = cmp
  · simp only [if_pos e]
    exact ⟨by simp [e], by simp [get_set], fun p hp hf => by simp [get_set, hp, hf]⟩
  · simp only [if_neg e]
    exact ⟨by simp [e], by simp [get_set, h.symm], fun p hp hf => by simp [get_set, hf]⟩

/-- `atomic_swap` by tcc is no better: if it exchanges at all, the address of a parameter is stored. -/
theorem C92_tcc_swap (m : Mem w) (frame frame' a cmp set : BitVec w) (h : frame ≠ a) (h' : frame' ≠ a) (hf : frame ≠ frame') :
    ((swapTcc m frame frame' a cmp set).2 = true ↔ m a = cmp) ∧
    (swapTcc m frame frame' a cmp set).1 a = (if m a = cmp then frame' else m a) := by
  unfold swapTcc strong
  have e1 : ((m.set frame cmp).set frame' set) a = m a := by simp [get_set, h.symm, h'.symm]
  have e2 : ((m.set frame cmp).set frame' set) frame = cmp := by simp [get_set, hf]
  rw [e1, e2]
  by_cases e : m a = cmp
  · simp only [if_pos e]
    exact ⟨by simp [e], by simp [get_set]⟩
  · simp only [if_neg e]
    exact ⟨by simp [e], by simp [get_set, h.symm, h'.symm]⟩

example : (swapTcc (w := 8) (fun p => if p = 16 then 20 else 3) 100 104 16 20 7).1 16 = 104 := by decide

theorem C92_full_false : ¬ C92_Full := by
  intro h
  have h1 := (h.2 8 (fun _ => 5) 100 16 20 7 (by decide) (by decide)).1 (by decide)
  exact absurd h1.1 (by decide)

/-! ## Threads -/

/-- What thread `i` has changed and not seen yet. -/
def pending (s : St w) (i : Nat) : List (BitVec w) :=
  match s.pc i with
  | .swapped cmp old => if old = cmp then [cmp] else []
  | _ => []

/-- The loops so far, in an order. -/
structure Inv92 (f : BitVec w → BitVec w) (x : BitVec w) (s : St w) (order : List Nat) : Prop where
  mem : s.mem = after f x order.length
  found : ∀ i, found i (turns f x order) = pending s i ++ s.done i
  called : ∀ i cmp, s.pc i = .called cmp → s.e i = cmp
  swapped : ∀ i cmp old, s.pc i = .swapped cmp old → s.e i = cmp

theorem after_shift (f : BitVec w → BitVec w) (x : BitVec w) (n : Nat) : after f (f x) n = after f x (n + 1) := by
  induction n with
  | zero => rfl
  | succ n ih => show f (after f (f x) n) = _; rw [ih]; rfl

theorem turns_append (f : BitVec w → BitVec w) (x : BitVec w) (l : List Nat) (i : Nat) :
    turns f x (l ++ [i]) = turns f x l ++ [(i, after f x l.length)] := by
  induction l generalizing x with
  | nil => rfl
  | cons j l ih => simp only [List.cons_append, turns, ih, List.length_cons, after_shift]

theorem found_append (i j : Nat) (y : BitVec w) (h : List (Nat × BitVec w)) :
    found i (h ++ [(j, y)]) = if j = i then y :: found i h else found i h := by
  unfold found
  by_cases e : j = i
  · simp [List.filter_append, e]
  · simp [List.filter_append, e]

theorem upd_same {A : Type} (f : Nat → A) (i : Nat) (x : A) : upd f i x i = x := if_pos rfl
theorem upd_other {A : Type} (f : Nat → A) {i j : Nat} (x : A) (h : j ≠ i) : upd f i x j = f j := if_neg h

theorem Inv92.step {f : BitVec w → BitVec w} {x : BitVec w} {s : St w} {order : List Nat} (h : Inv92 f x s order) (i : Nat) :
    ∃ order', Inv92 f x (step f s i) order' := by
  unfold Cw.step
  cases hp : s.pc i with
  | top =>
    refine ⟨order, h.mem, fun j => ?_, fun j cmp hj => ?_, fun j cmp old hj => ?_⟩
    · rw [h.found j]
      by_cases e : j = i
      · subst e; simp [pending, upd_same, hp]
      · simp [pending, upd_other _ _ e]
    · by_cases e : j = i
      · subst e; dsimp only at hj; rw [upd_same] at hj; injection hj
      · dsimp only at hj; rw [upd_other _ _ e] at hj; exact h.called j cmp hj
    · by_cases e : j = i
      · subst e; dsimp only at hj; rw [upd_same] at hj; cases hj
      · dsimp only at hj; rw [upd_other _ _ e] at hj; exact h.swapped j cmp old hj
  | called cmp =>
    have he := h.called i cmp hp
    have hc : ∀ j c, upd s.pc i (.swapped cmp s.mem) j = .called c → s.e j = c := by
      intro j c hj
      by_cases e : j = i
      · subst e; rw [upd_same] at hj; cases hj
      · rw [upd_other _ _ e] at hj; exact h.called j c hj
    have hs : ∀ j c old, upd s.pc i (.swapped cmp s.mem) j = .swapped c old → s.e j = c := by
      intro j c old hj
      by_cases e : j = i
      · subst e; rw [upd_same] at hj; injection hj with h1 _; rw [he, h1]
      · rw [upd_other _ _ e] at hj; exact h.swapped j c old hj
    by_cases hm : s.mem = cmp
    · refine ⟨order ++ [i], ?_, fun j => ?_, hc, hs⟩
      · dsimp only
        rw [if_pos hm, List.length_append, ← hm, h.mem]
        rfl
      · rw [turns_append, found_append, ← h.mem, h.found j]
        by_cases e : i = j
        · subst e
          rw [if_pos rfl]
          simp [pending, upd_same, hp, hm]
        · rw [if_neg e]
          simp [pending, upd_other _ _ (Ne.symm e)]
    · refine ⟨order, by dsimp only; rw [if_neg hm]; exact h.mem, fun j => ?_, hc, hs⟩
      rw [h.found j]
      by_cases e : j = i
      · subst e; simp [pending, upd_same, hp, hm]
      · simp [pending, upd_other _ _ e]
  | swapped cmp old =>
    have he := h.swapped i cmp old hp
    dsimp only
    by_cases ho : old = cmp
    · rw [if_pos ho]
      refine ⟨order, h.mem, fun j => ?_, fun j c hj => ?_, fun j c o hj => ?_⟩
      · rw [h.found j]
        by_cases e : j = i
        · subst e; simp [pending, upd_same, hp, ho, he]
        · simp [pending, upd_other _ _ e]
      · by_cases e : j = i
        · subst e; dsimp only at hj; rw [upd_same] at hj; cases hj
        · dsimp only at hj; rw [upd_other _ _ e] at hj; exact h.called j c hj
      · by_cases e : j = i
        · subst e; dsimp only at hj; rw [upd_same] at hj; cases hj
        · dsimp only at hj; rw [upd_other _ _ e] at hj; exact h.swapped j c o hj
    · rw [if_neg ho]
      refine ⟨order, h.mem, fun j => ?_, fun j c hj => ?_, fun j c o hj => ?_⟩
      · rw [h.found j]
        by_cases e : j = i
        · subst e; simp [pending, upd_same, hp, ho]
        · simp [pending, upd_other _ _ e]
      · by_cases e : j = i
        · subst e; dsimp only at hj; rw [upd_same] at hj; cases hj
        · dsimp only at hj ⊢; rw [upd_other _ _ e] at hj ⊢; exact h.called j c hj
      · by_cases e : j = i
        · subst e; dsimp only at hj; rw [upd_same] at hj; cases hj
        · dsimp only at hj ⊢; rw [upd_other _ _ e] at hj ⊢; exact h.swapped j c o hj

/-- Any number of threads change an object in loops, in any schedule, whatever their variables hold at first.  At every moment there is an order of the changes
made so far such that the object holds what it does after as many changes, and each thread's loops have ended with what they find if the loops are performed
one after the other in that order - but for a change that the thread has made and not returned from.  Nothing is lost and nothing is done twice. -/
theorem C92_threads (f : BitVec w → BitVec w) (x : BitVec w) (e : Nat → BitVec w) (schedule : List Nat) :
    ∃ order, (run f (start x e) schedule).mem = after f x order.length ∧
      ∀ i, found i (turns f x order) = pending (run f (start x e) schedule) i ++ (run f (start x e) schedule).done i := by
  have key : ∀ (is : List Nat) (s : St w) (order : List Nat), Inv92 f x s order → ∃ order', Inv92 f x (run f s is) order' := by
    intro is
    induction is with
    | nil => intro s order h; exact ⟨order, h⟩
    | cons i is ih =>
      intro s order h
      obtain ⟨o, h'⟩ := h.step i
      exact ih _ o h'
  obtain ⟨o, h⟩ := key schedule (start x e) [] ⟨rfl, fun i => by simp [turns, found, pending, start], fun i c hc => (by cases hc),
    fun i c o hc => (by cases hc)⟩
  exact ⟨o, h.mem, h.found⟩

/-- Two threads: both read 0, the second is first to add 1, the first fails, finds 1 and adds 1. -/
example : (run (· + 1) (start (w := 8) 0 (fun _ => 0)) [0, 1, 1, 0, 0, 1, 0, 0, 0]).mem = 2 ∧
    (run (· + 1) (start (w := 8) 0 (fun _ => 0)) [0, 1, 1, 0, 0, 1, 0, 0, 0]).done 0 = [1] ∧
    (run (· + 1) (start (w := 8) 0 (fun _ => 0)) [0, 1, 1, 0, 0, 1, 0, 0, 0]).done 1 = [0] := by decide

/-- A thread that runs alone, whatever the others have left behind, ends its loop within eight steps. -/
theorem C92_alone (f : BitVec w → BitVec w) (s : St w) (i : Nat) :
    ∃ n, n ≤ 8 ∧ (run f s (List.replicate n i)).done i ≠ s.done i := by
  -- from the top, with the variable holding what the object does
  have right : ∀ s : St w, s.pc i = .top → s.e i = s.mem → (run f s [i, i, i]).done i = s.e i :: s.done i := by
    intro s hp he
    simp [run, step, hp, he, upd_same]
  have top : ∀ s : St w, s.pc i = .top → ∃ n, n ≤ 6 ∧ (run f s (List.replicate n i)).done i ≠ s.done i := by
    intro s hp
    by_cases he : s.e i = s.mem
    · refine ⟨3, by omega, ?_⟩
      show (run f s [i, i, i]).done i ≠ _
      rw [right s hp he]
      intro hh
      have := congrArg List.length hh
      simp at this
    · refine ⟨6, by omega, ?_⟩
      show (run f (run f s [i, i, i]) [i, i, i]).done i ≠ _
      have h3 : (run f s [i, i, i]).pc i = .top ∧ (run f s [i, i, i]).e i = (run f s [i, i, i]).mem ∧ (run f s [i, i, i]).done i = s.done i := by
        have he' : ¬ s.mem = s.e i := fun h => he h.symm
        simp [run, step, hp, he', upd_same]
      rw [right _ h3.1 h3.2.1, h3.2.2]
      intro hh
      have := congrArg List.length hh
      simp at this
  have swapped : ∀ s : St w, (∃ c o, s.pc i = .swapped c o) → ∃ n, n ≤ 7 ∧ (run f s (List.replicate n i)).done i ≠ s.done i := by
    rintro s ⟨c, o, hp⟩
    by_cases ho : o = c
    · refine ⟨1, by omega, ?_⟩
      have : (run f s [i]).done i = s.e i :: s.done i := by simp [run, step, hp, ho, upd_same]
      show (run f s [i]).done i ≠ _
      rw [this]
      intro hh
      have := congrArg List.length hh
      simp at this
    · have h1 : (step f s i).pc i = .top ∧ (step f s i).done i = s.done i := by simp [step, hp, ho, upd_same]
      obtain ⟨n, hn, h⟩ := top _ h1.1
      rw [h1.2] at h
      exact ⟨n + 1, by omega, h⟩
  cases hp : s.pc i with
  | top => obtain ⟨n, hn, h⟩ := top s hp; exact ⟨n, by omega, h⟩
  | swapped c o => obtain ⟨n, hn, h⟩ := swapped s ⟨c, o, hp⟩; exact ⟨n, by omega, h⟩
  | called c =>
    have h1 : (∃ c o, (step f s i).pc i = .swapped c o) ∧ (step f s i).done i = s.done i := by
      constructor
      · exact ⟨c, s.mem, by simp [step, hp, upd_same]⟩
      · simp [step, hp]
    obtain ⟨n, hn, h⟩ := swapped _ h1.1
    rw [h1.2] at h
    exact ⟨n + 1, by omega, h⟩

/-- By tcc no loop ends, in any schedule, and the object is never changed - unless it happens to hold the address of a thread's variable. -/
theorem C92_tcc_forever (f : BitVec w → BitVec w) (at_ : Nat → BitVec w) (x : BitVec w) (e : Nat → BitVec w) (schedule : List Nat)
    (h : ∀ i, x ≠ at_ i) : runTcc f at_ (start x e) schedule = start x e := by
  induction schedule with
  | nil => rfl
  | cons i is ih =>
    have : stepTcc f at_ (start x e) i = start x e := if_neg (h i)
    rw [runTcc, this]
    exact ih

-- A counter that holds 7, the variables of thread 0 and of the others at 0x1000 and 0x2000.
example : ∀ i, (7 : BitVec 32) ≠ (fun i => if i = 0 then 0x1000 else 0x2000) i := by
  intro i
  by_cases h : i = 0
  · rw [h]; decide
  · show (7 : BitVec 32) ≠ if i = 0 then 0x1000 else 0x2000
    rw [if_neg h]; decide

end Verif.Props
