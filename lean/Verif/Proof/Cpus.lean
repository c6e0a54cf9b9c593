import Verif.Spec.Cpus
namespace Verif.Cp
open Spec

/-- The lists have room for what they hold, up to the next multiple of `c`; right after an incomplete growing they may have more. -/
structure Inv (c max : Nat) (p : Pool) : Prop where
  futs : 8 * up p.count c ≤ p.futs
  ress : 8 * up p.count c ≤ p.ress
  fmax : p.futs ≤ max
  rmax : p.ress ≤ max
  fcap : p.futs ≤ 8 * (up p.count c + c)
  rcap : p.ress ≤ 8 * (up p.count c + c)

theorem up_of_mod {n c : Nat} (hc : 0 < c) (h : n % c = 0) : up n c = n := by
  obtain ⟨k, rfl⟩ := Nat.dvd_of_mod_eq_zero h
  unfold up
  have : (c * k + c - 1) / c = k := by
    have e : c * k + c - 1 = c * k + (c - 1) := by omega
    rw [e, Nat.mul_add_div hc, Nat.div_eq_of_lt (by omega), Nat.add_zero]
  rw [this, Nat.mul_comm]

theorem up_succ_of_mod {n c : Nat} (hc : 0 < c) (h : n % c = 0) : up (n + 1) c = n + c := by
  obtain ⟨k, rfl⟩ := Nat.dvd_of_mod_eq_zero h
  unfold up
  have e : c * k + 1 + c - 1 = c * (k + 1) := by rw [Nat.mul_succ]; omega
  rw [e, Nat.mul_div_cancel_left _ hc, Nat.mul_comm, Nat.mul_succ]

private theorem div_up {n c : Nat} (hc : 0 < c) (h : n % c ≠ 0) : (n + c - 1) / c = n / c + 1 := by
  have d := Nat.div_add_mod n c
  have l := Nat.mod_lt n hc
  have b : n + c - 1 = c * (n / c + 1) + (n % c - 1) := by rw [Nat.mul_succ]; omega
  rw [b, Nat.mul_add_div hc, Nat.div_eq_of_lt (a := n % c - 1) (by omega), Nat.add_zero]

theorem up_succ {n c : Nat} (hc : 0 < c) (h : n % c ≠ 0) : up (n + 1) c = up n c := by
  unfold up
  have d := Nat.div_add_mod n c
  have l := Nat.mod_lt n hc
  have a : n + 1 + c - 1 = c * (n / c + 1) + n % c := by rw [Nat.mul_succ]; omega
  rw [div_up hc h, a, Nat.mul_add_div hc, Nat.div_eq_of_lt l, Nat.add_zero]

theorem le_up {n c : Nat} (hc : 0 < c) : n ≤ up n c := by
  by_cases h : n % c = 0
  · rw [up_of_mod hc h]; exact Nat.le_refl n
  · unfold up
    have d := Nat.div_add_mod n c
    have l := Nat.mod_lt n hc
    rw [div_up hc h, Nat.mul_comm, Nat.mul_succ]; omega

theorem Inv.fresh {c max : Nat} (hc : 0 < c) : Inv c max fresh := by
  have e : up 0 c = 0 := up_of_mod hc (Nat.zero_mod c)
  constructor <;> simp [Cp.fresh, e]

theorem Inv.fill {c max : Nat} (hm : max < 2 ^ 63) {l : Luck} {p : Pool} (I : Inv c max p)
    (hr : 8 * up (p.count + 1) c ≤ p.futs ∧ 8 * up (p.count + 1) c ≤ p.ress) (hc : 0 < c) (hu : up p.count c ≤ up (p.count + 1) c) :
    ((fill l p).1 = .panic ∧ (fill l p).2 = p ∧ l.rest = false) ∨
      ((fill l p).1 = .ok ∧ (fill l p).2 = { p with count := p.count + 1 } ∧ Inv c max (fill l p).2 ∧ l.rest = true) := by
  have hs := le_up (n := p.count + 1) hc
  have hw : (p.count + 1) % 2 ^ 64 = p.count + 1 := Nat.mod_eq_of_lt (by have := I.fmax; omega)
  unfold Cp.fill
  cases hl : l.rest
  · left; simp
  · right
    rw [if_pos rfl, if_pos ⟨by omega, by omega⟩, hw]
    exact ⟨rfl, rfl, ⟨hr.1, hr.2, I.fmax, I.rmax, by have := I.fcap; show p.futs ≤ 8 * (up (p.count + 1) c + c); omega,
      by have := I.rcap; show p.ress ≤ 8 * (up (p.count + 1) c + c); omega⟩, rfl⟩

/-- What a call does. -/
theorem Inv.spawn {c max : Nat} (hc : 0 < c) (hc2 : c < 2 ^ 60) (hm : max < 2 ^ 63) {p : Pool} (I : Inv c max p) (l : Luck) :
    ((spawn c max l p).1 = .panic ∧ (spawn c max l p).2.count = p.count ∧ Inv c max (spawn c max l p).2) ∨
    ((spawn c max l p).1 = .ok ∧ (spawn c max l p).2.count = p.count + 1 ∧ Inv c max (spawn c max l p).2) := by
  unfold Cp.spawn
  rw [if_neg (by omega)]
  by_cases h : p.count % c = 0
  · rw [if_pos h]
    have hu := up_of_mod hc h
    have hu1 := up_succ_of_mod hc h
    have hlt : p.count < 2 ^ 60 := by have := I.futs; have := I.fmax; omega
    by_cases hf : l.futs = true ∧ bytes p.count c ≤ max
    · have hbig : bytes p.count c = 8 * (p.count + c) := by unfold bytes; omega
      rw [if_pos hf]
      have I1 : Inv c max { p with futs := bytes p.count c } :=
        ⟨by show 8 * up p.count c ≤ bytes p.count c; omega, I.ress, hf.2, I.rmax, by show bytes p.count c ≤ 8 * (up p.count c + c); omega, I.rcap⟩
      by_cases hr : l.ress = true ∧ bytes p.count c ≤ max
      · simp only [if_pos hr]
        have I2 : Inv c max { p with futs := bytes p.count c, ress := bytes p.count c } :=
          ⟨I1.futs, I1.futs, I1.fmax, I1.fmax, I1.fcap, I1.fcap⟩
        rcases I2.fill hm (l := l) ⟨by show 8 * up (p.count + 1) c ≤ bytes p.count c; omega, by show 8 * up (p.count + 1) c ≤ bytes p.count c; omega⟩ hc
          (by show up p.count c ≤ up (p.count + 1) c; omega) with ⟨a, b, _⟩ | ⟨a, b, d, _⟩
        · left; exact ⟨a, by rw [b], by rw [b]; exact I2⟩
        · right; exact ⟨a, by rw [b], d⟩
      · simp only [if_neg hr]
        left; exact ⟨trivial, trivial, I1⟩
    · rw [if_neg hf]; left; exact ⟨rfl, rfl, I⟩
  · rw [if_neg h]
    have hu := up_succ hc h
    rcases I.fill hm (l := l) ⟨by rw [hu]; exact I.futs, by rw [hu]; exact I.ress⟩ hc (by omega) with ⟨a, b, _⟩ | ⟨a, b, d, _⟩
    · left; exact ⟨a, by rw [b], by rw [b]; exact I⟩
    · right; exact ⟨a, by rw [b], d⟩

/-- All calls. -/
theorem Inv.run {c max : Nat} (hc : 0 < c) (hc2 : c < 2 ^ 60) (hm : max < 2 ^ 63) (h : List Luck) : ∀ {p : Pool}, Inv c max p →
    (∀ o ∈ (run c max h p).1, Sound o) ∧ (run c max h p).1.length = h.length ∧ Inv c max (run c max h p).2 ∧
      (run c max h p).2.count = p.count + returned (run c max h p).1 := by
  induction h with
  | nil => intro p I; exact ⟨by simp [Cp.run], rfl, I, rfl⟩
  | cons l h ih =>
    intro p I
    rcases I.spawn hc hc2 hm l with ⟨a, b, d⟩ | ⟨a, b, d⟩
    · have e : Cp.spawn c max l p = (.panic, (Cp.spawn c max l p).2) := by rw [← a]
      obtain ⟨k1, k2, k3, k4⟩ := ih d
      simp only [Cp.run]
      rw [e]
      refine ⟨fun o ho => ?_, by simp [k2], k3, ?_⟩
      · rcases List.mem_cons.mp ho with rfl | ho
        · exact .inr rfl
        · exact k1 o ho
      · show (Cp.run c max h (Cp.spawn c max l p).2).2.count = _
        rw [k4, b]; simp [returned]
    · have e : Cp.spawn c max l p = (.ok, (Cp.spawn c max l p).2) := by rw [← a]
      obtain ⟨k1, k2, k3, k4⟩ := ih d
      simp only [Cp.run]
      rw [e]
      refine ⟨fun o ho => ?_, by simp [k2], k3, ?_⟩
      · rcases List.mem_cons.mp ho with rfl | ho
        · exact .inl rfl
        · exact k1 o ho
      · show (Cp.run c max h (Cp.spawn c max l p).2).2.count = _
        rw [k4, b]; simp [returned]; omega

theorem up_mono {n k c : Nat} (h : n ≤ k) : up n c ≤ up k c := Nat.mul_le_mul_right c (Nat.div_le_div_right (by omega))

/-- Nothing refused. -/
theorem run_all {c max : Nat} (hc : 0 < c) (hm : max < 2 ^ 63) : ∀ (n k : Nat), 8 * up (k + n) c ≤ max →
    run c max (List.replicate n ⟨true, true, true⟩) ⟨k, 8 * up k c, 8 * up k c⟩ = (List.replicate n .ok, ⟨k + n, 8 * up (k + n) c, 8 * up (k + n) c⟩)
  | 0, _, _ => rfl
  | n + 1, k, hs => by
    have h1 : up (k + 1) c ≤ up (k + (n + 1)) c := up_mono (by omega)
    have l1 := le_up (n := k + 1) hc
    have e : spawn c max ⟨true, true, true⟩ ⟨k, 8 * up k c, 8 * up k c⟩ = (.ok, ⟨k + 1, 8 * up (k + 1) c, 8 * up (k + 1) c⟩) := by
      have hw : (k + 1) % 2 ^ 64 = k + 1 := Nat.mod_eq_of_lt (by omega)
      unfold spawn
      rw [if_neg (by omega)]
      by_cases h : k % c = 0
      · have hu := up_succ_of_mod hc h
        have hb : bytes k c = 8 * up (k + 1) c := by unfold bytes; omega
        simp only [h, if_true, hb, true_and, fill, hw]
        rw [if_pos (by omega), if_pos (by omega), if_pos (by omega)]
      · have hu := up_succ hc h
        simp only [h, if_false, fill, if_true, hw]
        rw [if_pos (by omega), hu]
    have r := run_all hc hm n (k + 1) (by rw [show k + 1 + n = k + (n + 1) by omega]; exact hs)
    rw [List.replicate_succ, run, e]
    simp only []
    rw [r, show k + 1 + n = k + (n + 1) by omega, List.replicate_succ]

/-- With the largest number there is, nothing is ever given. -/
theorem run_unknown {max : Nat} (hm : max < 2 ^ 63) (h : List Luck) : run (2 ^ 64 - 1) max h fresh = (h.map fun _ => .panic, fresh) := by
  induction h with
  | nil => rfl
  | cons l h ih =>
    have e : spawn (2 ^ 64 - 1) max l fresh = (.panic, fresh) := by
      unfold spawn
      rw [if_neg (by omega), if_pos (by simp [fresh]), if_neg]
      rintro ⟨_, k⟩
      have : bytes fresh.count (2 ^ 64 - 1) = 2 ^ 64 - 8 := by decide
      omega
    simp only [run, e, ih, List.map]

end Verif.Cp
