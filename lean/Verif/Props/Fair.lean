import Verif.Proof.Fair
/-!
# Waiting for a lock (C107)
-/
namespace Verif.Props
open Verif Verif.Sp

/-- **C107.**  Every call of `atomic_lock` returns with the lock if the machine runs every waiting thread and every holder unlocks. -/
def C107_Full : Prop := ∀ (v : Nat) (σ : Nat → Act), v ≠ 0 → Fair v σ → Unlocks v σ → ∀ t n, Waits (state v σ n) t →
  ∃ m, n ≤ m ∧ (state v σ m).pc t = .held

/-- Thread 0 locks and unlocks again and again; thread 1 tries while thread 0 has the lock. -/
def starving : Nat → Act
  | 0 => .lock 1
  | k + 1 => if k % 4 = 0 then .lock 0 else if k % 4 = 1 then .step 0 else if k % 4 = 2 then .step 1 else .unlock 0

private theorem starving_at : ∀ j : Nat, ∃ p, (p = Pc.tas ∨ p = Pc.spin) ∧
    (∀ i, i < 4 → (state 1 starving (4 * j + 1 + i)).pc 1 = p ∨ (state 1 starving (4 * j + 1 + i)).pc 1 = .spin) ∧
    ((state 1 starving (4 * j + 1)).flag = 0 ∧ (state 1 starving (4 * j + 1)).pc 0 = .out ∧ (state 1 starving (4 * j + 1)).pc 1 = p ∧
      ∀ u, 1 < u → (state 1 starving (4 * j + 1)).pc u = .out) ∧
    ∀ i, i < 4 → ∀ u, 1 < u → (state 1 starving (4 * j + 1 + i)).pc u = .out := by
  intro j
  have acts : starving (4 * j + 1) = .lock 0 ∧ starving (4 * j + 2) = .step 0 ∧ starving (4 * j + 3) = .step 1 ∧
      starving (4 * j + 4) = .unlock 0 := by
    refine ⟨?_, ?_, ?_, ?_⟩ <;> simp [starving, Nat.add_mod, Nat.mul_mod_right]
  have base : ∃ p, (p = Pc.tas ∨ p = Pc.spin) ∧ ((state 1 starving (4 * j + 1)).flag = 0 ∧ (state 1 starving (4 * j + 1)).pc 0 = .out ∧
      (state 1 starving (4 * j + 1)).pc 1 = p ∧ ∀ u, 1 < u → (state 1 starving (4 * j + 1)).pc u = .out) := by
    clear acts
    induction j with
    | zero => exact ⟨.tas, .inl rfl, rfl, rfl, rfl, fun u hu => by
        have : u ≠ 1 := by omega
        simp [state, starving, step, clear, Sys.at, this]⟩
    | succ j ih =>
      obtain ⟨p, hp, hf, h0, h1, hr⟩ := ih
      have acts : starving (4 * j + 1) = .lock 0 ∧ starving (4 * j + 2) = .step 0 ∧ starving (4 * j + 3) = .step 1 ∧
          starving (4 * j + 4) = .unlock 0 := by
        refine ⟨?_, ?_, ?_, ?_⟩ <;> simp [starving, Nat.add_mod, Nat.mul_mod_right]
      have e : state 1 starving (4 * (j + 1) + 1) = step 1 (step 1 (step 1 (step 1 (state 1 starving (4 * j + 1)) (.lock 0)) (.step 0))
          (.step 1)) (.unlock 0) := by
        rw [← acts.1, ← acts.2.1, ← acts.2.2.1, ← acts.2.2.2]; rfl
      rw [e]
      refine ⟨.spin, .inr rfl, ?_⟩
      rcases hp with rfl | rfl
      · refine ⟨?_, ?_, ?_, fun u hu => ?_⟩
        · simp [step, Sys.at, hf, h0, h1]
        · simp [step, Sys.at, hf, h0, h1]
        · simp [step, Sys.at, hf, h0, h1]
        · have a : u ≠ 0 := by omega
          have b : u ≠ 1 := by omega
          simp [step, Sys.at, hf, h0, h1, a, b, hr u hu]
      · refine ⟨?_, ?_, ?_, fun u hu => ?_⟩
        · simp [step, Sys.at, hf, h0, h1]
        · simp [step, Sys.at, hf, h0, h1]
        · simp [step, Sys.at, hf, h0, h1]
        · have a : u ≠ 0 := by omega
          have b : u ≠ 1 := by omega
          simp [step, Sys.at, hf, h0, h1, a, b, hr u hu]
  obtain ⟨p, hp, hf, h0, h1, hr⟩ := base
  have e1 : state 1 starving (4 * j + 1 + 1) = step 1 (state 1 starving (4 * j + 1)) (.lock 0) := by rw [← acts.1]; rfl
  have e2 : state 1 starving (4 * j + 1 + 2) = step 1 (step 1 (state 1 starving (4 * j + 1)) (.lock 0)) (.step 0) := by
    rw [← acts.1, ← acts.2.1]; rfl
  have e3 : state 1 starving (4 * j + 1 + 3) = step 1 (step 1 (step 1 (state 1 starving (4 * j + 1)) (.lock 0)) (.step 0)) (.step 1) := by
    rw [← acts.1, ← acts.2.1, ← acts.2.2.1]; rfl
  refine ⟨p, hp, fun i hi => ?_, ⟨hf, h0, h1, hr⟩, fun i hi u hu => ?_⟩
  · have hc : i = 0 ∨ i = 1 ∨ i = 2 ∨ i = 3 := by omega
    rcases hc with rfl | rfl | rfl | rfl
    · exact .inl h1
    · rw [e1]; left; simp [step, Sys.at, h0, h1]
    · rw [e2]; left; simp [step, Sys.at, hf, h0, h1]
    · rw [e3]; right; rcases hp with rfl | rfl <;> simp [step, Sys.at, hf, h0, h1]
  · have hc : i = 0 ∨ i = 1 ∨ i = 2 ∨ i = 3 := by omega
    have a : u ≠ 0 := by omega
    have b : u ≠ 1 := by omega
    rcases hc with rfl | rfl | rfl | rfl
    · exact hr u hu
    · rw [e1]; simp [step, Sys.at, h0, a, hr u hu]
    · rw [e2]; simp [step, Sys.at, hf, h0, a, hr u hu]
    · rw [e3]; rcases hp with rfl | rfl <;> simp [step, Sys.at, hf, h0, h1, a, b, hr u hu]

private theorem starving_one (n : Nat) (hn : 1 ≤ n) : (state 1 starving n).pc 1 = .tas ∨ (state 1 starving n).pc 1 = .spin := by
  obtain ⟨p, hp, h, _⟩ := starving_at ((n - 1) / 4)
  have e : n = 4 * ((n - 1) / 4) + 1 + (n - 1) % 4 := by omega
  rw [e]
  rcases h ((n - 1) % 4) (by omega) with h | h
  · rcases hp with rfl | rfl
    · exact .inl h
    · exact .inr h
  · exact .inr h

private theorem starving_rest (n u : Nat) (hu : 1 < u) : (state 1 starving n).pc u = .out := by
  cases n with
  | zero => rfl
  | succ n =>
    obtain ⟨p, _, _, _, h⟩ := starving_at (n / 4)
    have e : n + 1 = 4 * (n / 4) + 1 + n % 4 := by omega
    rw [e]; exact h _ (by omega) u hu

private theorem starving_fair : Fair 1 starving := by
  intro t n hw
  have ht : t = 0 ∨ t = 1 ∨ 1 < t := by omega
  rcases ht with rfl | rfl | ht
  · exact ⟨4 * n + 2, by omega, by simp [starving, Nat.add_mod, Nat.mul_mod_right]⟩
  · exact ⟨4 * n + 3, by omega, by simp [starving, Nat.add_mod, Nat.mul_mod_right]⟩
  · have := starving_rest n t ht
    rcases hw with hw | hw <;> rw [this] at hw <;> cases hw

private theorem starving_unlocks : Unlocks 1 starving := by
  intro t n hh
  have ht : t = 0 ∨ t = 1 ∨ 1 < t := by omega
  rcases ht with rfl | rfl | ht
  · exact ⟨4 * n + 4, by omega, by simp [starving, Nat.add_mod, Nat.mul_mod_right]⟩
  · cases n with
    | zero => cases hh
    | succ n => rcases starving_one (n + 1) (by omega) with h | h <;> rw [h] at hh <;> cases hh
  · rw [starving_rest n t ht] at hh; cases hh

/-- **C107.**  It does not: one thread can wait for ever while another takes the lock again and again. -/
theorem C107_full_false : ¬ C107_Full := by
  intro h
  obtain ⟨m, hm, e⟩ := h 1 starving (by decide) starving_fair starving_unlocks 1 1 (starving_one 1 (by decide))
  rcases starving_one m hm with h | h <;> rw [h] at e <;> cases e

/-- **C107.**  What holds: waiting for ever takes others that get the lock for ever.  If from some time on no thread gets the lock but `t`,
then `t`, waiting, gets it. -/
theorem C107_passed_partial (v : Nat) (σ : Nat → Act) (hv : v ≠ 0) (hfair : Fair v σ) (hu : Unlocks v σ) (t n : Nat)
    (hw : Waits (state v σ n) t) (hq : ∀ m u, n ≤ m → Gets v σ m u → u = t) : ∃ m, n ≤ m ∧ (state v σ m).pc t = .held := by
  by_cases h : ∃ m, n ≤ m ∧ (state v σ m).pc t = .held
  · exact h
  · obtain ⟨m, u, hm, g⟩ := passed hv hfair hu hw (fun m hm e => h ⟨m, hm, e⟩)
    exact ⟨m + 1, by omega, hq m u hm g ▸ g.2⟩

/-- **C107.**  The lock itself never idles: while any thread waits, some thread gets the lock, and again after that. -/
theorem C107_somebody (v : Nat) (σ : Nat → Act) (hv : v ≠ 0) (hfair : Fair v σ) (hu : Unlocks v σ) (t n : Nat)
    (hw : Waits (state v σ n) t) : ∃ m u, n ≤ m ∧ Gets v σ m u := by
  by_cases h : ∃ m, n ≤ m ∧ (state v σ m).pc t = .held
  · obtain ⟨m, hm, e⟩ := h
    induction hm with
    | refl => rcases hw with hw | hw <;> rw [hw] at e <;> cases e
    | @step m hm ih =>
      have hm := Nat.le_of_lt_succ (Nat.lt_succ_of_le hm)
      by_cases e' : (state v σ m).pc t = .held
      · exact ih e'
      · exact ⟨m, t, hm, e', e⟩
  · exact passed hv hfair hu hw (fun m hm e => h ⟨m, hm, e⟩)

/-- **C107.**  With finitely many calls everybody is served: if no thread calls `atomic_lock` from time `n` on, every thread that waits then
gets the lock, however many they are. -/
theorem C107_finite_partial (v : Nat) (σ : Nat → Act) (hv : v ≠ 0) (hfair : Fair v σ) (hu : Unlocks v σ) (n : Nat)
    (hl : ∀ m, n ≤ m → ∀ u, σ m ≠ .lock u) (t : Nat) (hw : Waits (state v σ n) t) : ∃ m, n ≤ m ∧ (state v σ m).pc t = .held := by
  obtain ⟨L, hL⟩ := waiting_list v σ n
  exact served hv hfair hu L.length n L (Nat.le_refl _) hl hL t hw

/-- Two threads, each with one call; thread 1 waits first, and gets the lock when thread 0 is done. -/
private def fairTwo : Nat → Act
  | 0 => .lock 0
  | 1 => .step 0
  | 2 => .lock 1
  | 3 => .step 1
  | 4 => .unlock 0
  | 5 => .step 1
  | 6 => .step 1
  | _ => .unlock 1

private theorem fairTwo_end : ∀ n, 8 ≤ n → (state 1 fairTwo n).pc = fun _ => .out := by
  intro n hn
  induction hn with
  | refl => funext u; rcases u with _ | _ | u <;> simp [state, fairTwo, step, clear, Sys.at]
  | @step n hn ih =>
    have hn := Nat.le_of_lt_succ (Nat.lt_succ_of_le hn)
    have a : fairTwo n = .unlock 1 := by
      obtain ⟨k, rfl⟩ : ∃ k, n = k + 8 := ⟨n - 8, by omega⟩
      rfl
    show (step 1 (state 1 fairTwo n) (fairTwo n)).pc = _
    rw [a]; simp [step, ih]

/-- The hypotheses of the theorems above, met: both conditions hold of this run, and thread 1 waits at time 4, when nobody calls any more. -/
example : Fair 1 fairTwo ∧ Unlocks 1 fairTwo ∧ (∀ m, 4 ≤ m → ∀ u, fairTwo m ≠ .lock u) ∧ Waits (state 1 fairTwo 4) 1 ∧
    (state 1 fairTwo 4).pc 0 = .held := by
  have lo : ∀ n, n < 8 → ∀ t, 1 < t → (state 1 fairTwo n).pc t = .out := by
    intro n hn t ht
    obtain ⟨k, rfl⟩ : ∃ k, t = k + 2 := ⟨t - 2, by omega⟩
    have hc : n = 0 ∨ n = 1 ∨ n = 2 ∨ n = 3 ∨ n = 4 ∨ n = 5 ∨ n = 6 ∨ n = 7 := by omega
    rcases hc with rfl | rfl | rfl | rfl | rfl | rfl | rfl | rfl <;> simp [state, fairTwo, step, clear, Sys.at]
  refine ⟨fun t n hw => ?_, fun t n hh => ?_, fun m hm u => ?_, ?_, by decide⟩
  · by_cases hn : 8 ≤ n
    · rcases hw with hw | hw <;> rw [fairTwo_end n hn] at hw <;> cases hw
    · by_cases ht : 1 < t
      · rcases hw with hw | hw <;> rw [lo n (by omega) t ht] at hw <;> cases hw
      · have hc : n = 0 ∨ n = 1 ∨ n = 2 ∨ n = 3 ∨ n = 4 ∨ n = 5 ∨ n = 6 ∨ n = 7 := by omega
        have htc : t = 0 ∨ t = 1 := by omega
        unfold Waits at hw
        rcases hc with rfl | rfl | rfl | rfl | rfl | rfl | rfl | rfl <;> rcases htc with rfl | rfl <;>
          first | exact absurd hw (by decide) | exact ⟨1, by decide, rfl⟩ | exact ⟨6, by decide, rfl⟩
  · by_cases hn : 8 ≤ n
    · rw [fairTwo_end n hn] at hh; cases hh
    · by_cases ht : 1 < t
      · rw [lo n (by omega) t ht] at hh; cases hh
      · have hc : n = 0 ∨ n = 1 ∨ n = 2 ∨ n = 3 ∨ n = 4 ∨ n = 5 ∨ n = 6 ∨ n = 7 := by omega
        have htc : t = 0 ∨ t = 1 := by omega
        rcases hc with rfl | rfl | rfl | rfl | rfl | rfl | rfl | rfl <;> rcases htc with rfl | rfl <;>
          first | exact absurd hh (by decide) | exact ⟨4, by decide, rfl⟩ | exact ⟨7, by decide, rfl⟩
  · obtain ⟨k, rfl⟩ : ∃ k, m = k + 4 := ⟨m - 4, by omega⟩
    rcases k with _ | _ | _ | _ | k <;> intro z <;> cases z
  · exact .inr (by decide)

end Verif.Props
