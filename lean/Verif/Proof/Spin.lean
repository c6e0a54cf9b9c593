import Verif.Model.Spin
namespace Verif.Sp

/-- The flag is set exactly while a thread holds the lock, and one thread at most does. -/
structure Inv (y : Sys) : Prop where
  free : y.flag = 0 → ∀ t, y.pc t ≠ .held
  taken : y.flag ≠ 0 → ∃ t, y.pc t = .held
  one : ∀ t u, y.pc t = .held → y.pc u = .held → t = u

theorem at_same (y : Sys) (t : Nat) (p : Pc) : (y.at t p).pc t = p := by simp [Sys.at]
theorem at_other (y : Sys) {t u : Nat} (p : Pc) (h : u ≠ t) : (y.at t p).pc u = y.pc u := by simp [Sys.at, h]

theorem Inv.move {y : Sys} (I : Inv y) {t : Nat} {p : Pc} (h : y.pc t ≠ .held) (hp : p ≠ .held) : Inv (y.at t p) := by
  have key : ∀ u, (y.at t p).pc u = .held ↔ y.pc u = .held := fun u => by
    by_cases hu : u = t
    · subst hu; rw [at_same]; simp [h, hp]
    · rw [at_other y p hu]
  exact ⟨fun hf u => by rw [ne_eq, key]; exact I.free hf u, fun hf => by obtain ⟨u, hu⟩ := I.taken hf; exact ⟨u, (key u).mpr hu⟩,
    fun u w hu hw => I.one u w ((key u).mp hu) ((key w).mp hw)⟩

theorem Inv.step {v : Nat} (hv : v ≠ 0) {y : Sys} (I : Inv y) (a : Act) : Inv (step v y a) := by
  cases a with
  | lock t =>
    simp only [Sp.step]
    split
    · next h => exact I.move (by rw [h]; simp) (by simp)
    · exact I
  | step t =>
    simp only [Sp.step]
    split
    · next h =>
      split
      · next hf =>
        have nobody := I.free hf
        refine ⟨fun h0 => absurd h0 hv, fun _ => ⟨t, at_same _ _ _⟩, fun u w hu hw => ?_⟩
        have who : ∀ x, (y.at t .held).pc x = .held → x = t := fun x hx => by
          by_cases hxt : x = t
          · exact hxt
          · rw [at_other y _ hxt] at hx; exact absurd hx (nobody x)
        exact (who u hu).trans (who w hw).symm
      · next hf =>
        have I' := I.move (t := t) (p := .spin) (by rw [h]; simp) (by simp)
        exact ⟨fun h0 => absurd h0 hv, fun _ => I'.taken hf, I'.one⟩
    · next h =>
      split
      · exact I
      · exact I.move (by rw [h]; simp) (by simp)
    · exact I
  | unlock t =>
    simp only [Sp.step]
    split
    · next h =>
      refine ⟨fun _ u => ?_, fun h0 => absurd rfl h0, fun u w hu hw => ?_⟩
      · show (y.at t .out).pc u ≠ .held
        by_cases hu : u = t
        · subst hu; rw [at_same]; simp
        · rw [at_other y _ hu]; exact fun hh => hu (I.one u t hh h)
      · change (y.at t .out).pc u = .held at hu
        change (y.at t .out).pc w = .held at hw
        by_cases hut : u = t
        · subst hut; rw [at_same] at hu; cases hu
        · rw [at_other y _ hut] at hu; exact absurd (I.one u t hu h) hut
    · exact I

theorem Inv.run {v : Nat} (hv : v ≠ 0) (h : List Act) : ∀ {y : Sys}, Inv y → Inv (run v y h) := by
  induction h with
  | nil => intro y I; exact I
  | cons a h ih => intro y I; exact ih (I.step hv a)

theorem Inv.clear : Inv clear := ⟨fun _ t => (by simp [Sp.clear]), fun h => absurd rfl h, fun t u h => (by simp [Sp.clear] at h)⟩

/-- Nobody but the holder ends the holding. -/
theorem held_stays {v : Nat} (h : List Act) : ∀ {y : Sys} {t : Nat}, y.pc t = .held → (∀ a ∈ h, a.tid ≠ t) → (run v y h).pc t = .held := by
  induction h with
  | nil => intro y t ht _; exact ht
  | cons a h ih =>
    intro y t ht hn
    refine ih ?_ (fun b hb => hn b (List.mem_cons_of_mem _ hb))
    have hne : a.tid ≠ t := hn a List.mem_cons_self
    cases a <;> simp only [Sp.step, Act.tid] at hne ⊢ <;> repeat' split
    all_goals first | exact ht | (simp only [Sys.at]; rw [if_neg (Ne.symm hne)]; exact ht)

end Verif.Sp
