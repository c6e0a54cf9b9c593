import Verif.Proof.Cpus
/-!
# Room in a spawn scope (C108)
-/
namespace Verif.Props
open Verif Verif.Cp Verif.Cp.Spec

/-- **C108.**  On every machine and however many functions are spawned, every call of `thrd_spawn` returns or throws: it writes to no place
beyond the lists of the scope and does not stop the program, whichever requests for memory are refused. -/
def C108_Full : Prop := ∀ (m : Machine), Real m → ∀ (max : Nat), max < 2 ^ 63 → ∀ h : List Luck, ∀ o ∈ (run (cpuCount m) max h fresh).1, Sound o

/-- **C108.**  False: on a Linux machine whose kernel has room for more than 1024 processors the count is whatever the stack held; if that
is 0 the first call divides by it. -/
theorem C108_full_false : ¬ C108_Full := by
  intro h
  have := h (.linux 2048 64 0) (by simp [Real]) 1000 (by decide) [⟨true, true, true⟩] .trap (by decide)
  rcases this with h | h <;> cases h

/-- **C108.**  Exactly then: the statement holds on a machine if, and only if, the count is not 0. -/
theorem C108_exact_partial (m : Machine) (hm : Real m) (max : Nat) (hx : max < 2 ^ 63) :
    (∀ h : List Luck, ∀ o ∈ (run (cpuCount m) max h fresh).1, Sound o) ↔ cpuCount m ≠ 0 := by
  constructor
  · intro h h0
    have := h [⟨true, true, true⟩] .trap (by rw [h0]; simp [run, spawn])
    rcases this with h | h <;> cases h
  · intro h0 h
    by_cases hb : cpuCount m < 2 ^ 60
    · exact ((Inv.fresh (by omega)).run (by omega) hb hx h).1
    · have e : cpuCount m = 2 ^ 64 - 1 := by
        cases m with
        | windows p => simp only [Real, cpuCount] at *; omega
        | linux i a j => simp only [Real, cpuCount] at *; split at hb <;> omega
        | other r => simp only [Real, cpuCount] at *; omega
      rw [e, run_unknown hx]
      intro o ho
      obtain ⟨_, _, rfl⟩ := List.mem_map.mp ho
      exact .inr rfl

/-- **C108.**  And it is 0 only there: Linux, more than 1024 processors possible, nothing in the memory of the set. -/
theorem C108_zero (m : Machine) (hm : Real m) : cpuCount m = 0 ↔ ∃ ids allowed, 1024 < ids ∧ m = .linux ids allowed 0 := by
  constructor
  · intro h
    cases m with
    | windows p => simp only [Real, cpuCount] at *; omega
    | linux i a j =>
      simp only [Real, cpuCount] at *
      split at h
      · omega
      · exact ⟨i, a, by omega, by rw [h]⟩
    | other r => simp only [Real, cpuCount] at *; omega
  · rintro ⟨ids, a, h, rfl⟩
    simp only [cpuCount]; rw [if_neg (by omega)]

/-- **C108.**  `thrd_cpu_count` gives the number of processors this thread may use, wherever the system tells and the kernel has no
more than 1024. -/
theorem C108_count (m : Machine) (hm : Real m) (n : Nat) (hu : usable m = some n) (hl : ∀ i a j, m = .linux i a j → i ≤ 1024) : cpuCount m = n := by
  cases m with
  | windows p => simpa [usable, cpuCount] using hu
  | linux i a j =>
    simp only [usable, cpuCount, Option.some.injEq] at *
    rw [if_pos (hl i a j rfl)]; exact hu
  | other r =>
    simp only [Real, usable, cpuCount] at *
    split at hu
    · cases hu
    · simp only [Option.some.injEq] at hu; omega

/-- **C108.**  What the lists are after any number of calls, whatever was refused: as many places filled as calls returned, and
room for that many rounded up to a multiple of the count; at most one more multiple after a refusal. -/
theorem C108_room (m : Machine) (hm : Real m) (hu : usable m ≠ none) (h0 : cpuCount m ≠ 0) (max : Nat) (hx : max < 2 ^ 63) (h : List Luck) :
    let r := run (cpuCount m) max h fresh
    r.2.count = returned r.1 ∧ r.1.length = h.length ∧
    8 * up (returned r.1) (cpuCount m) ≤ r.2.futs ∧ r.2.futs ≤ 8 * (up (returned r.1) (cpuCount m) + cpuCount m) ∧
    8 * up (returned r.1) (cpuCount m) ≤ r.2.ress ∧ r.2.ress ≤ 8 * (up (returned r.1) (cpuCount m) + cpuCount m) := by
  have hb : cpuCount m < 2 ^ 60 := by
    cases m with
    | windows p => simp only [Real, cpuCount] at *; omega
    | linux i a j => simp only [Real, cpuCount] at *; split <;> omega
    | other r =>
      simp only [Real, usable, cpuCount] at *
      split at hu
      · exact absurd rfl hu
      · omega
  obtain ⟨_, k2, I, k4⟩ := (Inv.fresh (max := max) (c := cpuCount m) (by omega)).run (by omega) hb hx h
  simp only [fresh, Nat.zero_add] at k4
  intro r
  have e : r.2.count = returned r.1 := k4
  exact ⟨e, k2, e ▸ I.futs, e ▸ I.fcap, e ▸ I.ress, e ▸ I.rcap⟩

/-- **C108.**  Where the system cannot tell (`sysconf` gives -1), no function can be spawned at all: every call panics. -/
theorem C108_unknown (max : Nat) (hx : max < 2 ^ 63) (h : List Luck) :
    run (cpuCount (.other (-1))) max h fresh = (h.map fun _ => .panic, fresh) := run_unknown hx h

/-- **C108.**  If nothing is refused, every call returns, as long as the lists stay within what the allocator can give. -/
theorem C108_returns (c max n : Nat) (hc : 0 < c) (hm : max < 2 ^ 63) (hs : 8 * up n c ≤ max) :
    run c max (List.replicate n ⟨true, true, true⟩) fresh = (List.replicate n .ok, ⟨n, 8 * up n c, 8 * up n c⟩) := by
  have e : up 0 c = 0 := up_of_mod hc (Nat.zero_mod c)
  have := run_all hc hm n 0 (by rw [Nat.zero_add]; exact hs)
  rw [e, Nat.zero_add] at this
  exact this

/-- Four processors, the third request refused, then six functions: six places filled, room for eight. -/
example : Real (.linux 8 4 77) ∧ usable (.linux 8 4 77) = some 4 ∧
    run (cpuCount (.linux 8 4 77)) 1000 (⟨true, true, true⟩ :: ⟨true, true, false⟩ :: List.replicate 5 ⟨true, true, true⟩) fresh =
      ([.ok, .panic, .ok, .ok, .ok, .ok, .ok], ⟨6, 64, 64⟩) := by
  refine ⟨by simp [Real], rfl, by decide⟩

end Verif.Props
