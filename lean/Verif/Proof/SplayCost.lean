import Verif.Proof.SplayRounds
import Mathlib.Analysis.SpecialFunctions.Log.Base
import Mathlib.Tactic.Linarith
import Mathlib.Tactic.Ring

/-! The potential of a tree, and what one `SPLAY` does to it. -/
namespace Verif.Spl

def T.wt : T → ℕ
  | .nil => 1
  | .node l _ r => l.wt + r.wt

theorem T.wt_pos (t : T) : 1 ≤ t.wt := by
  induction t with
  | nil => exact Nat.le_refl _
  | node l x r il ir => simp only [T.wt]; omega

theorem T.wt_ino (t : T) : t.wt = t.ino.length + 1 := by
  induction t with
  | nil => rfl
  | node l x r il ir => simp only [T.wt, T.ino_node, List.length_append, List.length_cons, il, ir]; omega

noncomputable def lg (n : ℕ) : ℝ := Real.logb 2 n

theorem lg_mono {a b : ℕ} (h0 : 1 ≤ a) (h : a ≤ b) : lg a ≤ lg b :=
  Real.logb_le_logb_of_le (by norm_num) (by exact_mod_cast h0) (by exact_mod_cast h)

theorem lg_one : lg 1 = 0 := by simp [lg]
theorem lg_two : lg 2 = 1 := by simp [lg]
theorem lg_nonneg {a : ℕ} (h : 1 ≤ a) : 0 ≤ lg a := by rw [← lg_one]; exact lg_mono (Nat.le_refl _) h
theorem lg_ge {a : ℕ} (h : 2 ≤ a) : 1 ≤ lg a := by rw [← lg_two]; exact lg_mono (by omega) h

theorem lg_add {a b r : ℕ} (ha : 1 ≤ a) (hb : 1 ≤ b) (h : a + b ≤ r) : lg a + lg b ≤ 2 * lg r - 2 := by
  have ha' : (0 : ℝ) < a := by exact_mod_cast ha
  have hb' : (0 : ℝ) < b := by exact_mod_cast hb
  have hr' : (0 : ℝ) < r := by exact_mod_cast (show 0 < r by omega)
  have hab : (a : ℝ) + b ≤ r := by exact_mod_cast h
  have e1 : lg a + lg b = Real.logb 2 (a * b) := (Real.logb_mul ha'.ne' hb'.ne').symm
  have e2 : 2 * lg r - 2 = Real.logb 2 (r * r / 4) := by
    rw [Real.logb_div (by positivity) (by norm_num), Real.logb_mul hr'.ne' hr'.ne']
    have : Real.logb 2 4 = 2 := by
      rw [show (4 : ℝ) = 2 ^ (2 : ℕ) by norm_num, Real.logb_pow, Real.logb_self_eq_one (by norm_num)]; norm_num
    rw [this]; simp only [lg]; ring
  rw [e1, e2]
  refine Real.logb_le_logb_of_le (by norm_num) (by positivity) ?_
  nlinarith [sq_nonneg ((a : ℝ) - b)]

noncomputable def T.pot : T → ℝ
  | .nil => 0
  | .node l _ r => l.pot + r.pot + lg (l.wt + r.wt)

theorem T.pot_nonneg (t : T) : 0 ≤ t.pot := by
  induction t with
  | nil => exact le_refl _
  | node l x r il ir =>
    have := l.wt_pos
    have := lg_nonneg (a := l.wt + r.wt) (by omega)
    simp only [T.pot]; linarith

theorem Res.wt {c s t r k} (H : Res c s t r k) : r.wt = t.wt := by
  induction H <;> simp only [T.wt] at * <;> omega

/-- A tree after a first round that only links, before the last estimate. -/
def Half (s : Option Bool) (t r : T) (k : ℕ) : Prop :=
  (s = some true → ∃ a x b A z B, t = .node a x b ∧ r = .node A z (.node B x b) ∧ (k : ℝ) + r.pot ≤ t.pot + 2 * lg a.wt + lg (B.wt + b.wt) + 1) ∧
  (s = some false → ∃ a x b A z B, t = .node a x b ∧ r = .node (.node a x A) z B ∧ (k : ℝ) + r.pot ≤ t.pot + 2 * lg b.wt + lg (a.wt + A.wt) + 1)

theorem Res.amort {c s t r k} (H : Res c s t r k) : (k : ℝ) + r.pot ≤ t.pot + 3 * lg t.wt ∧ (s = none → (k : ℝ) + r.pot ≤ t.pot + 3 * lg t.wt - 1) ∧ Half s t r k := by
  have plain : ∀ {t r : T} {k : ℕ}, (k : ℝ) + r.pot ≤ t.pot + 3 * lg t.wt - 1 →
      (k : ℝ) + r.pot ≤ t.pot + 3 * lg t.wt ∧ ((none : Option Bool) = none → (k : ℝ) + r.pot ≤ t.pot + 3 * lg t.wt - 1) ∧ Half none t r k :=
    fun h => ⟨by linarith, fun _ => h, by simp, by simp⟩
  have big : ∀ (a b : T), 1 ≤ lg (a.wt + b.wt) := fun a b => lg_ge (by have := a.wt_pos; have := b.wt_pos; omega)
  induction H with
  | @stop a x b _ => have := big a b; exact plain (by simp only [T.wt, Nat.cast_one]; linarith)
  | @stopL x b _ => have := big .nil b; exact plain (by simp only [T.wt, Nat.cast_one] at *; linarith)
  | @stopR a x _ => have := big a .nil; exact plain (by simp only [T.wt, Nat.cast_one] at *; linarith)
  | @zigL x y b d _ _ =>
    have h1 := big .nil d
    have h2 := d.wt_pos
    have h3 := b.wt_pos
    have h4 := lg_mono (a := d.wt + b.wt) (b := 1 + d.wt + b.wt) (by omega) (by omega)
    have h5 := lg_ge (a := 1 + d.wt + b.wt) (by omega)
    refine plain ?_
    simp only [T.wt, T.pot, Nat.cast_one, ← Nat.add_assoc] at *
    linarith
  | @zigR x y a d _ _ =>
    have h1 := big d .nil
    have h2 := d.wt_pos
    have h3 := a.wt_pos
    have h4 := lg_mono (a := a.wt + d.wt) (b := a.wt + d.wt + 1) (by omega) (by omega)
    have h5 := lg_ge (a := a.wt + d.wt + 1) (by omega)
    refine plain ?_
    simp only [T.wt, T.pot, Nat.cast_one, ← Nat.add_assoc] at *
    linarith
  | @zzL s x y b d t A z B k _ _ H ih =>
    have hw := H.wt
    have h2 := d.wt_pos
    have h3 := b.wt_pos
    have h4 := B.wt_pos
    have h5 := A.wt_pos
    have h6 := t.wt_pos
    have w := ih.1
    simp only [T.wt] at hw
    have g1 := lg_add (a := t.wt) (b := d.wt + b.wt) (r := t.wt + d.wt + b.wt) (by omega) (by omega) (by omega)
    have g2 := lg_mono (a := t.wt) (b := t.wt + d.wt) (by omega) (by omega)
    have g3 := lg_mono (a := B.wt + (d.wt + b.wt)) (b := t.wt + d.wt + b.wt) (by omega) (by omega)
    refine plain ?_
    have e : A.wt + (B.wt + (d.wt + b.wt)) = t.wt + d.wt + b.wt := by omega
    simp only [T.pot, hw] at w
    simp only [T.wt, T.pot, e, Nat.cast_add, Nat.cast_one]
    linarith
  | @zzR s x y a d t A z B k _ _ H ih =>
    have hw := H.wt
    have h2 := d.wt_pos
    have h3 := a.wt_pos
    have h4 := B.wt_pos
    have h5 := A.wt_pos
    have h6 := t.wt_pos
    have w := ih.1
    simp only [T.wt] at hw
    have g1 := lg_add (a := t.wt) (b := a.wt + d.wt) (r := a.wt + (d.wt + t.wt)) (by omega) (by omega) (by omega)
    have g2 := lg_mono (a := t.wt) (b := d.wt + t.wt) (by omega) (by omega)
    have g3 := lg_mono (a := a.wt + d.wt + A.wt) (b := a.wt + (d.wt + t.wt)) (by omega) (by omega)
    refine plain ?_
    have e : a.wt + d.wt + A.wt + B.wt = a.wt + (d.wt + t.wt) := by omega
    simp only [T.pot, hw] at w
    simp only [T.wt, T.pot, e, Nat.cast_add, Nat.cast_one]
    linarith
  | @linkL s x t b A z B k _ _ hs H ih =>
    have hw := H.wt
    have h3 := b.wt_pos
    have h4 := B.wt_pos
    have h5 := A.wt_pos
    have h6 := t.wt_pos
    obtain ⟨w, nn, hf⟩ := ih
    simp only [T.wt] at hw
    have e : A.wt + (B.wt + b.wt) = t.wt + b.wt := by omega
    have g2 := lg_mono (a := t.wt) (b := t.wt + b.wt) (by omega) (by omega)
    have g3 := lg_mono (a := B.wt + b.wt) (b := t.wt + b.wt) (by omega) (by omega)
    refine ⟨?_, by simp, fun _ => ⟨t, x, b, A, z, B, rfl, rfl, ?_⟩, by simp⟩
    · cases s with
      | none =>
        have w := nn rfl
        simp only [T.pot, hw] at w
        simp only [T.wt, T.pot, e, Nat.cast_add, Nat.cast_one]
        linarith
      | some v =>
        cases v with
        | true => exact absurd rfl hs
        | false =>
          obtain ⟨a', y, t', A', z', B', rfl, e2, w⟩ := hf.2 rfl
          cases e2
          have := a'.wt_pos
          have := t'.wt_pos
          have := A'.wt_pos
          simp only [T.wt] at hw e g2 g3 h5 h6
          have g4 := lg_add (a := a'.wt + A'.wt) (b := B.wt + b.wt) (r := a'.wt + t'.wt + b.wt) (by omega) (by omega) (by omega)
          have g5 := lg_mono (a := t'.wt) (b := a'.wt + t'.wt) (by omega) (by omega)
          simp only [T.pot, T.wt, hw] at w
          simp only [T.wt, T.pot, e, Nat.cast_add, Nat.cast_one]
          linarith
    · simp only [T.pot, hw] at w
      simp only [T.wt, T.pot, e, Nat.cast_add, Nat.cast_one]
      linarith
  | @linkR s x a t A z B k _ _ hs H ih =>
    have hw := H.wt
    have h3 := a.wt_pos
    have h4 := B.wt_pos
    have h5 := A.wt_pos
    have h6 := t.wt_pos
    obtain ⟨w, nn, hf⟩ := ih
    simp only [T.wt] at hw
    have e : a.wt + A.wt + B.wt = a.wt + t.wt := by omega
    have g2 := lg_mono (a := t.wt) (b := a.wt + t.wt) (by omega) (by omega)
    have g3 := lg_mono (a := a.wt + A.wt) (b := a.wt + t.wt) (by omega) (by omega)
    refine ⟨?_, by simp, by simp, fun _ => ⟨a, x, t, A, z, B, rfl, rfl, ?_⟩⟩
    · cases s with
      | none =>
        have w := nn rfl
        simp only [T.pot, hw] at w
        simp only [T.wt, T.pot, e, Nat.cast_add, Nat.cast_one]
        linarith
      | some v =>
        cases v with
        | false => exact absurd rfl hs
        | true =>
          obtain ⟨t', y, b', A', z', B', rfl, e2, w⟩ := hf.1 rfl
          cases e2
          have := b'.wt_pos
          have := t'.wt_pos
          have := B'.wt_pos
          simp only [T.wt] at hw e g2 g3 h4 h6
          have g4 := lg_add (a := B'.wt + b'.wt) (b := a.wt + A.wt) (r := a.wt + (t'.wt + b'.wt)) (by omega) (by omega) (by omega)
          have g5 := lg_mono (a := t'.wt) (b := t'.wt + b'.wt) (by omega) (by omega)
          simp only [T.pot, T.wt, hw] at w
          simp only [T.wt, T.pot, e, Nat.cast_add, Nat.cast_one]
          linarith
    · simp only [T.pot, hw] at w
      simp only [T.wt, T.pot, e, Nat.cast_add, Nat.cast_one]
      linarith

end Verif.Spl
