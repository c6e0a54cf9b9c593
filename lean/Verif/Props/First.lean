import Verif.Proof.First
/-!
# C103: any call may be the first of a thread

English: a thread needs no call to set anything up: whatever a program's threads call, in whatever order and however their calls interleave, no call uses a null pointer (arguments being right, and sections
being left only after they were entered).
-/
namespace Verif.Props
open Verif Verif.Fs Verif.Fs.Spec

/-- The full statement. -/
def C103_Full : Prop := ∀ h : List (Nat × Call), (∀ i, Opens (calls i h)) → ∃ s, run (fun _ => Th.start) h = some s

private theorem Fs.opens_of {h : List (Nat × Call)} (e : ∀ x ∈ h, x.2 ≠ .leave) (i : Nat) : Opens (calls i h) := by
  intro x y q
  have : Call.leave ∈ calls i h := by rw [q]; simp
  simp only [calls, List.mem_map, List.mem_filter] at this
  obtain ⟨z, ⟨hz, -⟩, q⟩ := this
  exact absurd q (e z hz)

/-- False: a thread that defers something first, though another thread has allocated memory. -/
theorem C103_full_false : ¬ C103_Full := fun h => by
  obtain ⟨s, e⟩ := h [(0, .alloc), (1, .defer)] (Fs.opens_of (by simp))
  simp [run, step, Th.start] at e

/-- What holds, exactly: a history uses a null pointer if and only if somewhere a thread that has called nothing that makes its scope calls `raii_mid`, `raii_defer`, `raii_recover`, `raii_caught`,
`raii_message`, `raii_deferred_clean`, `thrd_sync` or `raii_decode64`; or a thread outside its sections that has opened no spawn scope there asks for the section's error; or such a thread, having a scope,
calls `thrd_spawn`. -/
theorem C103_exact_partial (h : List (Nat × Call)) (ho : ∀ i, Opens (calls i h)) :
    (∃ s, run (fun _ => Th.start) h = some s) ↔ ∀ h₁ i c h₂, h = h₁ ++ (i, c) :: h₂ → ¬ Bad (calls i h₁) c := run_bad h ho

/-- Two threads, sections, and a spawn scope that is used after a section. -/
private def Fs.h : List (Nat × Call) :=
  [(0, .enter), (1, .spawn), (0, .defer), (0, .inner), (1, .scope), (0, .leave), (1, .enter), (1, .inner), (0, .mid), (1, .leave), (1, .spawn), (1, .clean), (0, .destroy)]

example : (∃ s, run (fun _ => Th.start) Fs.h = some s) ∧ ∀ i, Opens (calls i Fs.h) := by
  refine ⟨⟨_, rfl⟩, fun i x y e hb => ?_⟩
  by_cases h0 : i = 0
  · subst h0
    have k : calls 0 Fs.h = [.enter, .defer, .inner, .leave, .mid, .destroy] := rfl
    rw [k] at e
    have hs := bal_saved hb Th.start
    match x with
    | [] | [_] | [_, _] => simp at e
    | [a, b, c] =>
      simp only [List.cons_append, List.nil_append, List.cons.injEq] at e
      obtain ⟨rfl, rfl, rfl, -, -⟩ := e
      have := hs { made := true, slot := .sect, saved := [.null] } rfl
      simp [Th.start] at this
    | a :: b :: c :: d :: x =>
      simp only [List.cons_append, List.cons.injEq] at e
      obtain ⟨-, -, -, -, e⟩ := e
      have : Call.leave ∈ [Call.mid, Call.destroy] := by rw [e]; simp
      simp at this
  by_cases h1 : i = 1
  · subst h1
    have k : calls 1 Fs.h = [.spawn, .scope, .enter, .inner, .leave, .spawn, .clean] := rfl
    rw [k] at e
    have hs := bal_saved hb Th.start
    match x with
    | [] | [_] | [_, _] | [_, _, _] => simp at e
    | [a, b, c, d] =>
      simp only [List.cons_append, List.nil_append, List.cons.injEq] at e
      obtain ⟨rfl, rfl, rfl, rfl, -, -⟩ := e
      have := hs { made := true, slot := .sect, saved := [.pool] } rfl
      simp [Th.start] at this
    | a :: b :: c :: d :: f :: x =>
      simp only [List.cons_append, List.cons.injEq] at e
      obtain ⟨-, -, -, -, -, e⟩ := e
      have : Call.leave ∈ [Call.spawn, Call.clean] := by rw [e]; simp
      simp at this
  · have h0' : ¬ 0 = i := fun q => h0 q.symm
    have h1' : ¬ 1 = i := fun q => h1 q.symm
    have k : calls i Fs.h = [] := by simp [calls, Fs.h, h0', h1']
    rw [k] at e
    exact absurd (congrArg List.length e) (by simp)

/-- The first call of a thread, whatever the others have done. -/
theorem C103_first (h : List (Nat × Call)) (s : Nat → Th) (hr : run (fun _ => Th.start) h = some s) (i : Nat) (hi : calls i h = []) (c : Call) :
    run (fun _ => Th.start) (h ++ [(i, c)]) = none ↔ c = .mid ∨ c = .defer ∨ c = .message ∨ c = .clean ∨ c = .decode ∨ c = .inner := by
  have hs : s i = Th.start := by
    have := run_local h _ s hr i
    rw [hi] at this
    exact (Option.some.inj this).symm
  rw [run_append, hr]
  simp only [Option.bind_some, run, hs]
  cases c <;> simp [step, Th.start]

example : run (fun _ => Th.start) ([(0, .enter), (0, .defer)] ++ [(1, .defer)]) = none ∧ run (fun _ => Th.start) ([(0, .enter), (0, .defer)] ++ [(1, .destroy)]) ≠ none := by
  refine ⟨(C103_first _ _ rfl 1 rfl .defer).mpr (by simp), fun e => ?_⟩
  simpa using (C103_first _ _ rfl 1 rfl .destroy).mp e

/-- A thread's calls go well or not by themselves: what other threads call makes no difference, and in particular does not make this thread's scope. -/
theorem C103_apart (h : List (Nat × Call)) (ho : ∀ i, Opens (calls i h)) :
    (∃ s, run (fun _ => Th.start) h = some s) ↔ ∀ i, ∃ s, run (fun _ => Th.start) ((calls i h).map (fun c => (i, c))) = some s := by
  have self : ∀ (i : Nat) (l : List Call), calls i (l.map (fun c => (i, c))) = l := by
    intro i l
    induction l with
    | nil => rfl
    | cons c l ih => simp only [calls, List.map_cons, List.filter_cons, beq_self_eq_true, if_true] at ih ⊢; rw [ih]
  have oth : ∀ (i j : Nat) (l : List Call), j ≠ i → calls j (l.map (fun c => (i, c))) = [] := by
    intro i j l q
    simp only [calls, List.map_eq_nil_iff, List.filter_eq_nil_iff, List.mem_map]
    rintro x ⟨c, -, rfl⟩
    simpa using fun e => q e.symm
  have ho' : ∀ i j, Opens (calls j ((calls i h).map (fun c => (i, c)))) := by
    intro i j
    by_cases q : j = i
    · subst q; rw [self]; exact ho j
    · rw [oth i j _ q]
      intro x y e
      exact absurd (congrArg List.length e) (by simp)
  rw [run_bad h ho]
  constructor
  · intro hb i
    rw [run_bad _ (ho' i)]
    intro h₁ j c h₂ e
    obtain ⟨l₁, l₂, e0, e1, e2⟩ := List.map_eq_append_iff.mp e
    obtain ⟨d, l₃, rfl, e3, -⟩ := List.map_eq_cons_iff.mp e2
    cases e3
    subst e1
    rw [self]
    -- where in the history this call is
    have pos : ∀ (h : List (Nat × Call)) (l₁ : List Call), calls i h = l₁ ++ c :: l₃ → ∃ h₁ h₂, h = h₁ ++ (i, c) :: h₂ ∧ calls i h₁ = l₁ := by
      intro h
      induction h with
      | nil => intro l₁ e; exact absurd (congrArg List.length e) (by simp [calls])
      | cons x h ih =>
        intro l₁ e
        obtain ⟨j, d⟩ := x
        by_cases q : j = i
        · subst q
          simp only [calls, List.filter_cons, beq_self_eq_true, if_true, List.map_cons] at e
          cases l₁ with
          | nil =>
            simp only [List.nil_append, List.cons.injEq] at e
            exact ⟨[], h, by rw [e.1]; rfl, rfl⟩
          | cons a l₁ =>
            simp only [List.cons_append, List.cons.injEq] at e
            obtain ⟨h₁, h₂, r1, r2⟩ := ih l₁ e.2
            exact ⟨(j, d) :: h₁, h₂, by rw [r1]; rfl, by rw [← r2, e.1.symm]; simp [calls]⟩
        · simp only [calls, List.filter_cons, beq_iff_eq, q, if_false] at e
          obtain ⟨h₁, h₂, r1, r2⟩ := ih l₁ e
          exact ⟨(j, d) :: h₁, h₂, by rw [r1]; rfl, by rw [← r2]; simp [calls, q]⟩
    obtain ⟨h₁, h₂, r1, r2⟩ := pos h l₁ e0
    rw [← r2]
    exact hb h₁ i c h₂ r1
  · intro hb h₁ i c h₂ e
    have := (run_bad _ (ho' i)).mp (hb i) ((calls i h₁).map (fun c => (i, c))) i c ((calls i h₂).map (fun c => (i, c))) (by
      rw [e, calls_append]
      simp [calls])
    rw [self] at this
    exact this

/-- A thread that begins with a call that makes its scope, and asks for a section's error and starts threads only in sections, uses no null pointer. -/
theorem C103_begun (i : Nat) (c : Call) (l : List Call) (hc : Makes c) (ho : Opens (c :: l)) (hs : ∀ x d y, l = x ++ d :: y → d = .inner ∨ d = .spawn → ¬ Idle (c :: x)) :
    ∃ s, run (fun _ => Th.start) ((c :: l).map (fun d => (i, d))) = some s := by
  have self : ∀ l : List Call, calls i (l.map (fun c => (i, c))) = l := by
    intro l
    induction l with
    | nil => rfl
    | cons c l ih => simp only [calls, List.map_cons, List.filter_cons, beq_self_eq_true, if_true] at ih ⊢; rw [ih]
  rw [run_bad]
  · intro h₁ j d h₂ e
    obtain ⟨l₁, l₂, e0, e1, e2⟩ := List.map_eq_append_iff.mp e
    obtain ⟨d', l₃, rfl, e3, -⟩ := List.map_eq_cons_iff.mp e2
    cases e3
    subst e1
    rw [self]
    cases l₁ with
    | nil =>
      simp only [List.nil_append, List.cons.injEq] at e0
      rw [← e0.1]
      rcases hc with rfl | rfl | rfl <;> exact id
    | cons a l₁ =>
      simp only [List.cons_append, List.cons.injEq] at e0
      obtain ⟨rfl, e0⟩ := e0
      have hm : ∃ x ∈ c :: l₁, Makes x := ⟨c, List.mem_cons_self, hc⟩
      have := hs l₁ d l₃ e0
      cases d <;> simp only [Bad] <;> first
        | exact id
        | exact fun q => q hm
        | exact this (.inl rfl)
        | exact fun q => this (.inr rfl) q.1
  · intro j
    by_cases q : j = i
    · subst q; rw [self]; exact ho
    · intro x y e
      have : calls j ((c :: l).map (fun c => (i, c))) = [] := by
        simp only [calls, List.map_eq_nil_iff, List.filter_eq_nil_iff, List.mem_map]
        rintro x ⟨c, -, rfl⟩
        simpa using fun e => q e.symm
      rw [this] at e
      exact absurd (congrArg List.length e) (by simp)

example : ∃ s, run (fun _ => Th.start) ([Call.alloc, .defer, .message, .clean, .mid].map (fun d => (7, d))) = some s := by
  refine C103_begun 7 .alloc [.defer, .message, .clean, .mid] (.inl rfl) ?_ ?_
  · intro x y e
    have : Call.leave ∈ [Call.alloc, .defer, .message, .clean, .mid] := by rw [e]; simp
    simp at this
  · intro x d y e q
    have : d ∈ [Call.defer, .message, .clean, .mid] := by rw [e]; simp
    rcases q with rfl | rfl <;> simp at this

end Verif.Props
