import Verif.Spec.Fair
import Verif.Proof.Spin
namespace Verif.Sp

theorem Inv.state {v : Nat} (hv : v ≠ 0) (σ : Nat → Act) : ∀ n, Inv (state v σ n)
  | 0 => Inv.clear
  | n + 1 => (Inv.state hv σ n).step hv (σ n)

/-- What one action does to one thread. -/
theorem pc_step (v : Nat) (y : Sys) (a : Act) (t : Nat) :
    (step v y a).pc t = y.pc t ∨
    (a = .lock t ∧ y.pc t = .out ∧ (step v y a).pc t = .tas) ∨
    (a = .step t ∧ y.pc t = .tas ∧ y.flag = 0 ∧ (step v y a).pc t = .held) ∨
    (a = .step t ∧ y.pc t = .tas ∧ y.flag ≠ 0 ∧ (step v y a).pc t = .spin) ∨
    (a = .step t ∧ y.pc t = .spin ∧ y.flag ≠ 1 ∧ (step v y a).pc t = .tas) ∨
    (a = .unlock t ∧ y.pc t = .held ∧ (step v y a).pc t = .out ∧ (step v y a).flag = 0) := by
  cases a with
  | lock u =>
    by_cases h : u = t
    · subst h
      by_cases hp : y.pc u = .out <;> simp [step, hp, Sys.at]
    · left
      simp only [step]; split
      · exact at_other y _ (Ne.symm h)
      · rfl
  | step u =>
    by_cases h : u = t
    · subst h
      cases hp : y.pc u
      · left; simp [step, hp]
      · by_cases hf : y.flag = 0 <;> simp [step, hp, hf, Sys.at]
      · by_cases hf : y.flag = 1 <;> simp [step, hp, hf, Sys.at]
      · left; simp [step, hp]
    · left
      simp only [step]; repeat' split
      all_goals first | rfl | exact at_other y _ (Ne.symm h)
  | unlock u =>
    by_cases h : u = t
    · subst h
      by_cases hp : y.pc u = .held <;> simp [step, hp, Sys.at]
    · left
      simp only [step]; split
      · exact at_other y _ (Ne.symm h)
      · rfl

/-- The flag is set only by a thread getting the lock. -/
theorem flag_step {v : Nat} {y : Sys} {a : Act} (hf : y.flag = 0) (h : (step v y a).flag ≠ 0) :
    ∃ u, y.pc u ≠ .held ∧ (step v y a).pc u = .held := by
  cases a with
  | lock u => exfalso; apply h; simp only [step]; split <;> exact hf
  | unlock u => exfalso; apply h; simp only [step]; split <;> first | rfl | exact hf
  | step u =>
    cases hp : y.pc u
    · exact absurd (by simp [step, hp, hf]) h
    · exact ⟨u, by rw [hp]; simp, by simp [step, hp, hf, Sys.at]⟩
    · exact absurd (by simp [step, hp, hf, Sys.at]) h
    · exact absurd (by simp [step, hp, hf]) h

theorem waits_step {v : Nat} {y : Sys} {a : Act} {t : Nat} (h : Waits y t) : Waits (step v y a) t ∨ (step v y a).pc t = .held := by
  unfold Waits at *
  rcases pc_step v y a t with e | ⟨_, _, e⟩ | ⟨_, _, _, e⟩ | ⟨_, _, _, e⟩ | ⟨_, _, _, e⟩ | ⟨_, hp, _⟩
  · rw [e]; exact .inl h
  · exact .inl (.inl e)
  · exact .inr e
  · exact .inl (.inr e)
  · exact .inl (.inl e)
  · rcases h with h | h <;> rw [h] at hp <;> cases hp

theorem waits_back {v : Nat} {y : Sys} {a : Act} {t : Nat} (hn : ∀ u, a ≠ .lock u) (h : Waits (step v y a) t) : Waits y t := by
  unfold Waits at *
  rcases pc_step v y a t with e | ⟨e, _⟩ | ⟨_, hp, _⟩ | ⟨_, hp, _⟩ | ⟨_, hp, _⟩ | ⟨_, _, e, _⟩
  · rw [e] at h; exact h
  · exact absurd e (hn t)
  · exact .inl hp
  · exact .inl hp
  · exact .inr hp
  · rw [e] at h; rcases h with h | h <;> cases h

theorem waits_on {v : Nat} {σ : Nat → Act} {t n : Nat} (hw : Waits (state v σ n) t) (hno : ∀ m, n ≤ m → (state v σ m).pc t ≠ .held) :
    ∀ m, n ≤ m → Waits (state v σ m) t := by
  intro m hm
  induction hm with
  | refl => exact hw
  | @step m hm ih =>
    have hm := Nat.le_of_lt_succ (Nat.lt_succ_of_le hm)
    rcases waits_step (v := v) (a := σ m) ih with h | h
    · exact h
    · exact absurd h (hno (m + 1) (by omega))

/-- Some time the flag is clear. -/
theorem clear_again {v : Nat} (hv : v ≠ 0) {σ : Nat → Act} (hu : Unlocks v σ) (n : Nat) : ∃ m, n ≤ m ∧ (state v σ m).flag = 0 := by
  by_cases h : ∃ m, n ≤ m ∧ (state v σ m).flag = 0
  · exact h
  · exfalso
    have hf : ∀ m, n ≤ m → (state v σ m).flag ≠ 0 := fun m hm e => h ⟨m, hm, e⟩
    obtain ⟨u, hh⟩ := (Inv.state hv σ n).taken (hf n (Nat.le_refl n))
    have keep : ∀ m, n ≤ m → (state v σ m).pc u = .held := by
      intro m hm
      induction hm with
      | refl => exact hh
      | @step m hm ih =>
        have hm := Nat.le_of_lt_succ (Nat.lt_succ_of_le hm)
        rcases pc_step v (state v σ m) (σ m) u with e | ⟨_, hp, _⟩ | ⟨_, _, _, e⟩ | ⟨_, hp, _⟩ | ⟨_, hp, _⟩ | ⟨_, _, _, e⟩
        · exact e.trans ih
        · rw [ih] at hp; cases hp
        · exact e
        · rw [ih] at hp; cases hp
        · rw [ih] at hp; cases hp
        · exact absurd e (hf (m + 1) (by omega))
    obtain ⟨m, hm, e⟩ := hu u n hh
    apply hf (m + 1) (by omega)
    show (step v (state v σ m) (σ m)).flag = 0
    rw [e]; simp [step, keep m hm]

/-- A thread that waits for ever is passed by others for ever. -/
theorem passed {v : Nat} (hv : v ≠ 0) {σ : Nat → Act} (hfair : Fair v σ) (hu : Unlocks v σ) {t n : Nat} (hw : Waits (state v σ n) t)
    (hno : ∀ m, n ≤ m → (state v σ m).pc t ≠ .held) : ∃ m u, n ≤ m ∧ Gets v σ m u := by
  by_cases h : ∃ m u, n ≤ m ∧ Gets v σ m u
  · exact h
  · exfalso
    have hg : ∀ m u, n ≤ m → ¬ Gets v σ m u := fun m u hm g => h ⟨m, u, hm, g⟩
    obtain ⟨k, hk, hfk⟩ := clear_again hv hu n
    have zero : ∀ m, k ≤ m → (state v σ m).flag = 0 := by
      intro m hm
      induction hm with
      | refl => exact hfk
      | @step m hm ih =>
        have hm := Nat.le_of_lt_succ (Nat.lt_succ_of_le hm)
        by_cases e : (state v σ (m + 1)).flag = 0
        · exact e
        · obtain ⟨u, a, b⟩ := flag_step (v := v) (a := σ m) ih e
          exact absurd ⟨a, b⟩ (hg m u (by omega))
    have hwait := waits_on hw hno
    -- the thread comes to the test-and-set
    have tas : ∃ m, k ≤ m ∧ (state v σ m).pc t = .tas := by
      obtain ⟨m, hm, e⟩ := hfair t k (hwait k hk)
      rcases hwait m (by omega) with hp | hp
      · exact ⟨m, hm, hp⟩
      · refine ⟨m + 1, by omega, ?_⟩
        show (step v (state v σ m) (σ m)).pc t = .tas
        rw [e]; simp [step, hp, zero m hm, Sys.at]
    obtain ⟨a, ha, hta⟩ := tas
    have stay : ∀ m, a ≤ m → (state v σ m).pc t = .tas := by
      intro m hm
      induction hm with
      | refl => exact hta
      | @step m hm ih =>
        have hm := Nat.le_of_lt_succ (Nat.lt_succ_of_le hm)
        rcases pc_step v (state v σ m) (σ m) t with e | ⟨_, hp, _⟩ | ⟨_, _, _, e⟩ | ⟨_, _, hf, _⟩ | ⟨_, hp, _⟩ | ⟨_, hp, _⟩
        · exact e.trans ih
        · rw [ih] at hp; cases hp
        · exact absurd e (hno (m + 1) (by omega))
        · exact absurd (zero m (by omega)) hf
        · rw [ih] at hp; cases hp
        · rw [ih] at hp; cases hp
    obtain ⟨m, hm, e⟩ := hfair t a (.inl hta)
    apply hno (m + 1) (by omega)
    show (step v (state v σ m) (σ m)).pc t = .held
    rw [e]; simp [step, stay m hm, zero m (by omega), Sys.at]

theorem waiting_list (v : Nat) (σ : Nat → Act) : ∀ n, ∃ L : List Nat, ∀ u, Waits (state v σ n) u → u ∈ L
  | 0 => ⟨[], fun u h => by rcases h with h | h <;> cases h⟩
  | n + 1 => by
    obtain ⟨L, hL⟩ := waiting_list v σ n
    refine ⟨(σ n).tid :: L, fun u h => ?_⟩
    by_cases e : u = (σ n).tid
    · rw [e]; exact List.mem_cons_self
    · refine List.mem_cons_of_mem _ (hL u ?_)
      unfold Waits at *
      rcases pc_step v (state v σ n) (σ n) u with e' | ⟨x, _⟩ | ⟨x, _⟩ | ⟨x, _⟩ | ⟨x, _⟩ | ⟨x, _⟩
      · have e'' : (state v σ (n + 1)).pc u = (state v σ n).pc u := e'
        rw [e''] at h; exact h
      all_goals exact absurd (by rw [x]; rfl) e

theorem waits_before {v : Nat} {σ : Nat → Act} {n : Nat} (hl : ∀ m, n ≤ m → ∀ u, σ m ≠ .lock u) {t : Nat} :
    ∀ m, n ≤ m → Waits (state v σ m) t → Waits (state v σ n) t := by
  intro m hm
  induction hm with
  | refl => exact id
  | @step m hm ih =>
    have hm := Nat.le_of_lt_succ (Nat.lt_succ_of_le hm)
    exact fun h => ih (waits_back (hl m hm) h)

theorem served {v : Nat} (hv : v ≠ 0) {σ : Nat → Act} (hfair : Fair v σ) (hu : Unlocks v σ) :
    ∀ (k n : Nat) (L : List Nat), L.length ≤ k → (∀ m, n ≤ m → ∀ u, σ m ≠ .lock u) → (∀ u, Waits (state v σ n) u → u ∈ L) →
      ∀ t, Waits (state v σ n) t → ∃ m, n ≤ m ∧ (state v σ m).pc t = .held := by
  intro k
  induction k with
  | zero =>
    intro n L hk _ hL t ht
    have := hL t ht
    have e : L = [] := List.length_eq_zero_iff.mp (by omega)
    rw [e] at this; cases this
  | succ k ih =>
    intro n L hk hl hL t ht
    by_cases h : ∃ m, n ≤ m ∧ (state v σ m).pc t = .held
    · exact h
    · have hno : ∀ m, n ≤ m → (state v σ m).pc t ≠ .held := fun m hm e => h ⟨m, hm, e⟩
      obtain ⟨m, u, hm, g⟩ := passed hv hfair hu ht hno
      have hwu : Waits (state v σ n) u := by
        apply waits_before hl m hm
        rcases pc_step v (state v σ m) (σ m) u with e | ⟨_, _, e⟩ | ⟨_, hp, _⟩ | ⟨_, hp, _⟩ | ⟨_, hp, _⟩ | ⟨_, _, e, _⟩
        · exact absurd (e.symm.trans g.2) g.1
        · exact absurd (e.symm.trans g.2) (by simp)
        · exact .inl hp
        · exact .inl hp
        · exact .inr hp
        · exact absurd (e.symm.trans g.2) (by simp)
      have hlt : (L.filter (fun x => x ≠ u)).length < L.length := by
        have hmem := hL u hwu
        exact List.length_filter_lt_length_iff_exists.mpr ⟨u, hmem, by simp⟩
      obtain ⟨m', hm', hh⟩ := ih (m + 1) (L.filter (fun x => x ≠ u)) (by omega) (fun m' h' => hl m' (by omega)) (fun w hw => by
        refine List.mem_filter.mpr ⟨hL w (waits_before hl (m + 1) (by omega) hw), ?_⟩
        by_cases e : w = u
        · subst e
          rcases hw with hw | hw <;> exact absurd (hw.symm.trans g.2) (by simp)
        · simpa using e) t (waits_on ht hno (m + 1) (by omega))
      exact ⟨m', by omega, hh⟩

end Verif.Sp
