import Verif.Model.Flush
/-!
# C90 – `msync` and `mlock`

On Windows: once `msync` with `MS_SYNC` has returned 0, a crash of the machine at any later moment leaves on the disk what the pages named held, or
something newer.  Pages locked stay locked until they are unlocked, and unlocking pages of a mapping works, whether they are locked or not.
-/
namespace Verif.Props
open Verif Verif.Fl
open Verif.Me (Ret)

/-- After `msync` of pages with `MS_SYNC` at some moment of a history, whatever comes after: the disk has what those pages held, or newer. -/
def C90_Durable : Prop := ∀ (some : Bool) (v : Fl.View) (before after : List Ev) (a n : Nat) (f : Flags), f.sync = true →
  (Fl.msync v a n f (Fl.run some v before Fl.start)).1 = .ok → ∀ p, a ≤ p → p < a + n →
    (Fl.run some v before Fl.start).mem p ≤ (Fl.run some v after (Fl.msync v a n f (Fl.run some v before Fl.start)).2).disk p

/-- `munlock` of pages of the mapping works, whatever happened before. -/
def C90_Locks : Prop := ∀ (some : Bool) (v : Fl.View) (before : List Ev) (a n : Nat), v.covers a n = true →
  (Fl.munlock some v a n (Fl.run some v before Fl.start)).1 = .ok

def C90_Full : Prop := C90_Durable ∧ C90_Locks

/-- Any page that is not on the disk, whatever happened before: a crash just after `msync` loses it. -/
theorem C90_lost (v : Fl.View) (a n p : Nat) (f : Flags) (s : Fl.St) (hc : v.covers a n = true) (hp : s.disk p < s.mem p) :
    (Fl.msync v a n f s).1 = .ok ∧ (Fl.msync v a n f s).2.disk p < s.mem p := by
  unfold Fl.msync
  rw [if_pos hc]
  exact ⟨rfl, hp⟩

/-- One store, `msync`, crash. -/
example : (Fl.msync ⟨0, 1⟩ 0 1 ⟨false, true, false⟩ (Fl.run false ⟨0, 1⟩ [.store 0] Fl.start)).2.disk 0 < 1 :=
  (C90_lost ⟨0, 1⟩ 0 1 0 ⟨false, true, false⟩ (Fl.run false ⟨0, 1⟩ [.store 0] Fl.start) (by decide) (by decide)).2

theorem C90_durable_false : ¬ C90_Durable := fun h =>
  absurd (h false ⟨0, 1⟩ [.store 0] [] 0 1 ⟨false, true, false⟩ rfl rfl 0 (by decide) (by decide)) (by decide)

/-- Whenever some page named is not locked, `munlock` fails, although POSIX has it succeed. -/
theorem C90_unlock_fails (some : Bool) (v : Fl.View) (a n p : Nat) (s : Fl.St) (h1 : a ≤ p) (h2 : p < a + n) (hp : s.locked p = false) :
    (Fl.munlock some v a n s).1 = .failed := by
  have : allLocked s a n = false := by
    unfold allLocked
    rw [List.all_eq_false]
    refine ⟨p - a, List.mem_range.2 (by omega), ?_⟩
    rw [show a + (p - a) = p by omega, hp]; simp
  unfold Fl.munlock
  by_cases hc : v.covers a n = true
  · simp [hc, this]
  · simp [hc]

example : (Fl.munlock false ⟨0, 2⟩ 0 2 (Fl.run false ⟨0, 2⟩ [.mlock 0 1 true] Fl.start)).1 = .failed :=
  C90_unlock_fails false ⟨0, 2⟩ 0 2 1 _ (by decide) (by decide) rfl

theorem C90_locks_false : ¬ C90_Locks := fun h =>
  absurd (h false ⟨0, 1⟩ [] 0 1 rfl) (by decide)

theorem C90_full_false : ¬ C90_Full := fun h => C90_durable_false h.1

/-- What a page holds grows with time, from the disk over what is on its way to the memory. -/
def Ordered (s : Fl.St) (p : Nat) : Prop := (s.disk p :: (s.fly p ++ [s.mem p])).Pairwise (· ≤ ·)

private theorem pair_snoc {l : List Nat} {k m : Nat} (h : (l ++ [k]).Pairwise (· ≤ ·)) (hk : k ≤ m) : (l ++ [m]).Pairwise (· ≤ ·) := by
  rw [List.pairwise_append] at h ⊢
  refine ⟨h.1, by simp, fun a ha b hb => ?_⟩
  rw [List.mem_singleton] at hb
  subst hb
  exact Nat.le_trans (h.2.2 a ha k (by simp)) hk

private theorem pair_again {l : List Nat} {k : Nat} (h : (l ++ [k]).Pairwise (· ≤ ·)) : ((l ++ [k]) ++ [k]).Pairwise (· ≤ ·) := by
  rw [List.pairwise_append]
  refine ⟨h, by simp, fun a ha b hb => ?_⟩
  rw [List.mem_singleton] at hb
  subst hb
  rw [List.pairwise_append] at h
  rcases List.mem_append.1 ha with ha | ha
  · exact h.2.2 a ha _ (by simp)
  · rw [List.mem_singleton] at ha
    exact Nat.le_of_eq ha

private theorem flush_ordered {v : Fl.View} {a n : Nat} {s : Fl.St} {p : Nat} (h : Ordered s p) : Ordered (flush v a n s) p := by
  unfold Ordered flush at *
  dsimp only
  split
  · exact pair_again (l := s.disk p :: s.fly p) h
  · exact h

private theorem step_ordered {some : Bool} {v : Fl.View} {e : Ev} {s : Fl.St} {p : Nat} (h : Ordered s p) : Ordered (Fl.step some v e s) p := by
  cases e with
  | store q =>
    unfold Ordered Fl.step
    dsimp only
    by_cases hq : p = q
    · subst hq
      rw [if_pos rfl]
      exact pair_snoc (l := s.disk p :: s.fly p) h (Nat.le_succ _)
    · rw [if_neg hq]; exact h
  | msync a n f =>
    show Ordered (Fl.msync v a n f s).2 p
    unfold Fl.msync
    split
    · exact flush_ordered h
    · exact h
  | mlock a n room =>
    show Ordered (Fl.mlock v a n room s).2 p
    unfold Fl.mlock
    split <;> exact h
  | munlock a n =>
    show Ordered (Fl.munlock some v a n s).2 p
    unfold Fl.munlock
    dsimp only
    repeat' split
    all_goals exact h
  | writes q =>
    unfold Ordered Fl.step
    dsimp only
    by_cases hq : p = q
    · subst hq
      rw [if_pos rfl]
      exact pair_again (l := s.disk p :: s.fly p) h
    · rw [if_neg hq]; exact h
  | lands q =>
    unfold Ordered at h ⊢
    unfold Fl.step
    dsimp only
    cases hf : s.fly q with
    | nil => exact h
    | cons k r =>
      dsimp only
      by_cases hq : p = q
      · subst hq
        rw [hf] at h
        rw [if_pos rfl, if_pos rfl]
        exact (List.pairwise_cons.1 h).2
      · rw [if_neg hq, if_neg hq]; exact h

private theorem run_ordered {some : Bool} {v : Fl.View} (es : List Ev) {s : Fl.St} {p : Nat} (h : Ordered s p) : Ordered (Fl.run some v es s) p := by
  induction es generalizing s with
  | nil => exact h
  | cons e es ih => exact ih (step_ordered h)

/-- After a crash at any moment of any history, a page holds something it once held; and what is on the disk never gets older. -/
theorem C90_crash (some : Bool) (v : Fl.View) (es after : List Ev) (p : Nat) :
    (Fl.run some v es Fl.start).disk p ≤ (Fl.run some v es Fl.start).mem p ∧
    (Fl.run some v es Fl.start).disk p ≤ (Fl.run some v (es ++ after) Fl.start).disk p := by
  have h0 : Ordered Fl.start p := by simp [Ordered, Fl.start]
  have ho := run_ordered (some := some) (v := v) es h0
  refine ⟨(List.pairwise_cons.1 ho).1 _ (by simp), ?_⟩
  have e : Fl.run some v (es ++ after) Fl.start = Fl.run some v after (Fl.run some v es Fl.start) := by simp [Fl.run, List.foldl_append]
  rw [e]
  generalize Fl.run some v es Fl.start = s at ho
  clear e
  induction after generalizing s with
  | nil => exact Nat.le_refl _
  | cons e es ih =>
    refine Nat.le_trans ?_ (ih _ (step_ordered (some := some) (v := v) (e := e) ho))
    cases e with
    | store q => exact Nat.le_refl _
    | msync a n f =>
      show s.disk p ≤ (Fl.msync v a n f s).2.disk p
      unfold Fl.msync; split <;> exact Nat.le_refl _
    | mlock a n room =>
      show s.disk p ≤ (Fl.mlock v a n room s).2.disk p
      unfold Fl.mlock; split <;> exact Nat.le_refl _
    | munlock a n =>
      show s.disk p ≤ (Fl.munlock some v a n s).2.disk p
      unfold Fl.munlock; dsimp only; repeat' split
      all_goals exact Nat.le_refl _
    | writes q => exact Nat.le_refl _
    | lands q =>
      unfold Fl.step
      dsimp only
      cases hf : s.fly q with
      | nil => exact Nat.le_refl _
      | cons k r =>
        dsimp only
        by_cases hq : p = q
        · subst hq
          rw [if_pos rfl]
          unfold Ordered at ho
          rw [hf] at ho
          exact (List.pairwise_cons.1 ho).1 _ (by simp)
        · rw [if_neg hq]; exact Nat.le_refl _

example : (Fl.run false ⟨0, 1⟩ [.store 0, .writes 0, .store 0, .lands 0] Fl.start).disk 0 ≤
    (Fl.run false ⟨0, 1⟩ ([.store 0, .writes 0, .store 0, .lands 0] ++ [.writes 0, .lands 0]) Fl.start).disk 0 :=
  (C90_crash false ⟨0, 1⟩ _ _ 0).2

/-- Writes of the page that arrive. -/
def landings (p : Nat) (es : List Ev) : Nat := (es.filter fun e => match e with | .lands q => q == p | _ => false).length

private theorem disk_after {some : Bool} {v : Fl.View} {p m : Nat} (es : List Ev) : ∀ {s : Fl.St} {i : Nat}, Ordered s p →
    ((∃ k, (s.fly p)[i]? = Option.some k ∧ m ≤ k) ∧ i < landings p es ∨ m ≤ s.disk p) → m ≤ (Fl.run some v es s).disk p := by
  induction es with
  | nil =>
    intro s i _ h
    rcases h with ⟨_, h⟩ | h
    · simp [landings] at h
    · exact h
  | cons e es ih =>
    intro s i ho h
    have ho' : Ordered (Fl.step some v e s) p := step_ordered ho
    show m ≤ (Fl.run some v es (Fl.step some v e s)).disk p
    -- an event that only adds to what is on its way
    have more : landings p (e :: es) = landings p es → (∃ l, (Fl.step some v e s).fly p = s.fly p ++ l) →
        (Fl.step some v e s).disk p = s.disk p → m ≤ (Fl.run some v es (Fl.step some v e s)).disk p := by
      intro hl hf hd
      obtain ⟨l, hf⟩ := hf
      refine ih (i := i) ho' ?_
      rcases h with ⟨⟨k, hk, hm⟩, hi⟩ | h
      · refine .inl ⟨⟨k, ?_, hm⟩, hl ▸ hi⟩
        rw [hf, List.getElem?_append_left (by
          rcases Nat.lt_or_ge i (s.fly p).length with h | h
          · exact h
          · rw [List.getElem?_eq_none h] at hk; cases hk)]
        exact hk
      · exact .inr (hd ▸ h)
    cases e with
    | store q => exact more rfl ⟨[], (List.append_nil _).symm⟩ rfl
    | msync a n f =>
      refine more rfl ?_ ?_
      · show ∃ l, (Fl.msync v a n f s).2.fly p = _
        unfold Fl.msync
        split
        · unfold flush
          dsimp only
          split
          · exact ⟨_, rfl⟩
          · exact ⟨[], (List.append_nil _).symm⟩
        · exact ⟨[], (List.append_nil _).symm⟩
      · show (Fl.msync v a n f s).2.disk p = _
        unfold Fl.msync; split <;> rfl
    | mlock a n room =>
      refine more rfl ⟨[], ?_⟩ ?_
      · show (Fl.mlock v a n room s).2.fly p = _
        unfold Fl.mlock; split <;> exact (List.append_nil _).symm
      · show (Fl.mlock v a n room s).2.disk p = _
        unfold Fl.mlock; split <;> rfl
    | munlock a n =>
      refine more rfl ⟨[], ?_⟩ ?_
      · show (Fl.munlock some v a n s).2.fly p = _
        unfold Fl.munlock; dsimp only; repeat' split
        all_goals exact (List.append_nil _).symm
      · show (Fl.munlock some v a n s).2.disk p = _
        unfold Fl.munlock; dsimp only; repeat' split
        all_goals rfl
    | writes q =>
      refine more rfl ?_ rfl
      by_cases hq : p = q
      · exact ⟨[s.mem q], by subst hq; simp [Fl.step]⟩
      · exact ⟨[], by simp [Fl.step, hq]⟩
    | lands q =>
      by_cases hq : q = p
      · subst hq
        have hl : landings q (.lands q :: es) = landings q es + 1 := by simp [landings]
        cases hf : s.fly q with
        | nil =>
          have e : Fl.step some v (.lands q) s = s := by simp [Fl.step, hf]
          rw [e]
          refine ih (i := i) ho ?_
          rcases h with ⟨⟨k, hk, _⟩, _⟩ | h
          · rw [hf] at hk; simp at hk
          · exact .inr h
        | cons k r =>
          have e : Fl.step some v (.lands q) s =
              { s with fly := fun x => if x = q then r else s.fly x, disk := fun x => if x = q then k else s.disk x } := by simp [Fl.step, hf]
          unfold Ordered at ho
          rw [hf] at ho
          rw [e] at ho' ⊢
          refine ih (i := i - 1) ho' ?_
          simp only [if_true]
          rcases h with ⟨⟨k', hk, hm⟩, hi⟩ | h
          · rw [hf] at hk
            cases i with
            | zero =>
              simp at hk
              exact .inr (hk ▸ hm)
            | succ j =>
              refine .inl ⟨⟨k', by simpa using hk, hm⟩, ?_⟩
              rw [hl] at hi
              omega
          · exact .inr (Nat.le_trans h ((List.pairwise_cons.1 ho).1 _ (by simp)))
      · have hl : landings p (.lands q :: es) = landings p es := by simp [landings, hq]
        refine more hl ?_ ?_
        · refine ⟨[], ?_⟩
          unfold Fl.step
          dsimp only
          cases s.fly q <;> simp [Ne.symm hq]
        · unfold Fl.step
          dsimp only
          cases s.fly q <;> simp [Ne.symm hq]

/-- What holds instead: `msync` starts the writing, so once the writes of a page that were on their way have arrived, and one more, the disk has what
the page held when `msync` was called, or something newer.  Missing: that they have arrived when `msync` returns. -/
theorem C90_durable_partial (some : Bool) (v : Fl.View) (before after : List Ev) (a n p : Nat) (f : Flags)
    (h : (Fl.msync v a n f (Fl.run some v before Fl.start)).1 = .ok) (h1 : a ≤ p) (h2 : p < a + n)
    (hl : ((Fl.run some v before Fl.start).fly p).length < landings p after) :
    (Fl.run some v before Fl.start).mem p ≤ (Fl.run some v after (Fl.msync v a n f (Fl.run some v before Fl.start)).2).disk p := by
  have ho : Ordered (Fl.run some v before Fl.start) p := run_ordered before (by simp [Ordered, Fl.start])
  generalize Fl.run some v before Fl.start = s at *
  unfold Fl.msync at h ⊢
  by_cases hc : v.covers a n = true
  · rw [if_pos hc]
    refine disk_after after (i := (s.fly p).length) (flush_ordered ho) (.inl ⟨⟨s.mem p, ?_, Nat.le_refl _⟩, hl⟩)
    have : flushed v a n p = true := by
      unfold flushed
      rw [if_neg (by omega)]
      simp [h1, h2]
    simp [flush, this]
  · rw [if_neg hc] at h
    cases h

example : 1 ≤ (Fl.run false ⟨0, 1⟩ [.store 0, .lands 0] (Fl.msync ⟨0, 1⟩ 0 1 ⟨false, true, false⟩ (Fl.run false ⟨0, 1⟩ [.store 0] Fl.start)).2).disk 0 :=
  C90_durable_partial false ⟨0, 1⟩ [.store 0] [.store 0, .lands 0] 0 1 0 ⟨false, true, false⟩ rfl (by decide) (by decide) (by decide)

/-- `msync` fails exactly if the pages named are not all in the mapping, and whatever the flags; it changes nothing but what is on its way, and there,
for each page named, adds what the page holds; with length 0 it takes all pages from the address to the end. -/
theorem C90_msync (v : Fl.View) (a n : Nat) (f : Flags) (s : Fl.St) :
    ((Fl.msync v a n f s).1 = .ok ↔ v.base ≤ a ∧ a + n ≤ v.base + v.pages) ∧
    (Fl.msync v a n f s).2.mem = s.mem ∧ (Fl.msync v a n f s).2.disk = s.disk ∧ (Fl.msync v a n f s).2.locked = s.locked ∧
    ((Fl.msync v a n f s).1 = .failed → (Fl.msync v a n f s).2 = s) ∧
    ((Fl.msync v a n f s).1 = .ok → ∀ p, (Fl.msync v a n f s).2.fly p =
      if a ≤ p ∧ (p < a + n ∨ n = 0 ∧ p < v.base + v.pages) then s.fly p ++ [s.mem p] else s.fly p) := by
  have hc : v.covers a n = true ↔ v.base ≤ a ∧ a + n ≤ v.base + v.pages := by simp [View.covers]
  unfold Fl.msync
  by_cases h : v.covers a n = true
  · rw [if_pos h]
    refine ⟨⟨fun _ => hc.1 h, fun _ => rfl⟩, rfl, rfl, rfl, (fun h => by cases h), fun _ p => ?_⟩
    have : (flushed v a n p = true) ↔ (a ≤ p ∧ (p < a + n ∨ n = 0 ∧ p < v.base + v.pages)) := by
      unfold flushed
      simp only [Bool.and_eq_true, decide_eq_true_eq]
      have := hc.1 h
      by_cases hn : n = 0
      · rw [if_pos hn]; omega
      · rw [if_neg hn]; omega
    show (if flushed v a n p = true then _ else _) = _
    by_cases hf : flushed v a n p = true
    · rw [if_pos hf, if_pos (this.1 hf)]
    · rw [if_neg hf, if_neg (fun x => hf (this.2 x))]
  · rw [if_neg h]
    exact ⟨⟨(fun h => by cases h), (fun x => absurd (hc.2 x) h)⟩, rfl, rfl, rfl, (fun _ => rfl), (fun h => by cases h)⟩

example : (Fl.msync ⟨2, 3⟩ 3 0 ⟨true, true, true⟩ Fl.start).2.fly 4 = [0] := by
  have := (C90_msync ⟨2, 3⟩ 3 0 ⟨true, true, true⟩ Fl.start).2.2.2.2.2 rfl 4
  rw [this]; decide

/-- Page `p` is one of the `n` from `a`. -/
def named (a n p : Nat) : Prop := a ≤ p ∧ p < a + n

/-- Whether a page ought to be locked after a call, if it ought to be `b` before. -/
def wantNow (some : Bool) (v : Fl.View) (p : Nat) (s : Fl.St) (b : Bool) : Ev → Bool
  | .mlock a n room => if a ≤ p ∧ p < a + n ∧ (Fl.mlock v a n room s).1 = .ok then true else b
  | .munlock a n => if a ≤ p ∧ p < a + n ∧ (Fl.munlock some v a n s).1 = .ok then false else b
  | _ => b

/-- Whether a page ought to be locked: the last call to name it and to succeed was `mlock`. -/
def wanted (some : Bool) (v : Fl.View) (p : Nat) : List Ev → Fl.St → Bool → Bool
  | [], _, b => b
  | e :: es, s, b => wanted some v p es (Fl.step some v e s) (wantNow some v p s b e)

/-- If a call of `munlock` that fails unlocks nothing, then in every history a page is locked exactly if the last call to name it and to succeed was
`mlock`; and `munlock` succeeds exactly for pages of the mapping that are all locked. -/
theorem C90_locks_partial (v : Fl.View) (es : List Ev) (p a n : Nat) :
    (Fl.run false v es Fl.start).locked p = wanted false v p es Fl.start false ∧
    ((Fl.munlock false v a n (Fl.run false v es Fl.start)).1 = .ok ↔
      v.covers a n = true ∧ ∀ q, named a n q → (Fl.run false v es Fl.start).locked q = true) := by
  refine ⟨?_, ?_⟩
  · have : ∀ (es : List Ev) (s : Fl.St), (Fl.run false v es s).locked p = wanted false v p es s (s.locked p) := by
      intro es
      induction es with
      | nil => intro s; rfl
      | cons e es ih =>
        intro s
        show (Fl.run false v es (Fl.step false v e s)).locked p = _
        rw [ih]
        show _ = wanted false v p es (Fl.step false v e s) (wantNow false v p s (s.locked p) e)
        refine congrArg _ ?_
        cases e with
        | store q => rfl
        | writes q => rfl
        | lands q =>
          unfold Fl.step
          dsimp only
          cases s.fly q <;> rfl
        | msync a n f =>
          show (Fl.msync v a n f s).2.locked p = _
          unfold Fl.msync; split <;> rfl
        | mlock a n room =>
          show (Fl.mlock v a n room s).2.locked p = if a ≤ p ∧ p < a + n ∧ (Fl.mlock v a n room s).1 = .ok then true else s.locked p
          unfold Fl.mlock
          by_cases h : (v.covers a n && room) = true
          · rw [if_pos h]
            by_cases h' : a ≤ p ∧ p < a + n
            · simp [h']
            · rw [if_neg (fun x => h' ⟨x.1, x.2.1⟩)]
              have : (decide (a ≤ p) && decide (p < a + n)) = false := by rw [← Bool.decide_and]; simpa using h'
              simp [this]
          · rw [if_neg h]; simp
        | munlock a n =>
          show (Fl.munlock false v a n s).2.locked p = if a ≤ p ∧ p < a + n ∧ (Fl.munlock false v a n s).1 = .ok then false else s.locked p
          unfold Fl.munlock
          by_cases h : v.covers a n = true
          · by_cases h2 : allLocked s a n = true
            · simp only [h, h2, if_true]
              by_cases h' : a ≤ p ∧ p < a + n
              · simp [h']
              · rw [if_neg (fun x => h' ⟨x.1, x.2.1⟩)]
                have : (decide (a ≤ p) && decide (p < a + n)) = false := by rw [← Bool.decide_and]; simpa using h'
                simp [this]
            · simp [h, h2]
          · simp [h]
    exact this es Fl.start
  · generalize Fl.run false v es Fl.start = s
    have ha : allLocked s a n = true ↔ ∀ q, named a n q → s.locked q = true := by
      unfold allLocked named
      rw [List.all_eq_true]
      constructor
      · intro h q hq
        have := h (q - a) (List.mem_range.2 (by omega))
        rwa [show a + (q - a) = q by omega] at this
      · intro h i hi
        exact h _ ⟨by omega, by have := List.mem_range.1 hi; omega⟩
    rw [← ha]
    unfold Fl.munlock
    by_cases h : v.covers a n = true <;> by_cases h2 : allLocked s a n = true <;> simp [h, h2]

example : (Fl.munlock false ⟨0, 4⟩ 1 2 (Fl.run false ⟨0, 4⟩ [.mlock 0 3 true, .mlock 1 1 true, .munlock 0 1] Fl.start)).1 = .ok :=
  (C90_locks_partial ⟨0, 4⟩ [.mlock 0 3 true, .mlock 1 1 true, .munlock 0 1] 0 1 2).2.2 ⟨rfl, fun q hq => by
    unfold named at hq
    have : q = 1 ∨ q = 2 := by omega
    rcases this with rfl | rfl <;> rfl⟩

end Verif.Props
