import Verif.Spec.Paste
/-! # Proofs about operands of macros -/
namespace Verif.Paste
open Spec

theorem reads_cast (t : Ty) {n : Nat} {ts : List Tok} {e : Expr} (h : Reads n ts e) :
    Reads (min n 11) (.cast t :: ts) (castHead t e) := by
  induction h with
  | const t' n => exact .cast t (.up (by decide) (.const t' n))
  | var i => exact .cast t (.up (by decide) (.var i))
  | paren h _ => exact .cast t (.up (by decide) (.paren h))
  | neg h _ => exact .cast t (.neg h)
  | cast t' h _ => exact .cast t (.cast t' h)
  | bin op h1 h2 ih _ =>
    have e : min op.level 11 = op.level := by cases op <;> rfl
    rw [e] at ih ⊢
    exact .bin op ih h2
  | lt h1 h2 ih _ => exact .lt ih h2
  | land h1 h2 ih _ => exact .land ih h2
  | cond h1 h2 h3 ih _ _ => exact .cond ih h2 h3
  | @up n ts e hn h ih =>
    by_cases q : n = 11
    · subst q; exact ih
    · have e1 : min (n + 1) 11 = n + 1 := by omega
      have e2 : min n 11 = n := by omega
      rw [e1] at ih
      rw [e2]
      exact .up hn ih

theorem pow_pos' (w : Nat) : (0 : Int) < 2 ^ w := Int.pow_pos (by decide)

theorem pow_half {w : Nat} (h : 0 < w) : (2 : Int) ^ w = 2 * 2 ^ (w - 1) := by
  obtain ⟨k, rfl⟩ : ∃ k, w = k + 1 := ⟨w - 1, by omega⟩
  rw [Int.pow_succ]
  simp only [Nat.add_sub_cancel]
  omega

theorem conv_of_fits {t : Ty} {n : Int} (hw : 0 < t.w) (h : Fits t n) : conv t n = n := by
  unfold Fits at h
  unfold conv
  have := pow_half hw
  split
  · next hs =>
    rw [if_pos hs] at h
    rw [Int.emod_eq_of_lt (by omega) (by omega)]
    omega
  · next hs =>
    rw [if_neg hs] at h
    exact Int.emod_eq_of_lt h.1 h.2

theorem fits_conv {t : Ty} (hw : 0 < t.w) (n : Int) : Fits t (conv t n) := by
  unfold Fits conv
  have := pow_half hw
  have hp := pow_pos' t.w
  split
  · have h1 := Int.emod_nonneg (n + 2 ^ (t.w - 1)) (Int.ne_of_gt hp)
    have h2 := Int.emod_lt_of_pos (n + 2 ^ (t.w - 1)) hp
    constructor <;> omega
  · exact ⟨Int.emod_nonneg _ (Int.ne_of_gt hp), Int.emod_lt_of_pos _ hp⟩

theorem ofInt_congr {W : Nat} {a b : Int} (h : ∃ k : Int, a = b + k * 2 ^ W) : BitVec.ofInt W a = BitVec.ofInt W b := by
  obtain ⟨k, rfl⟩ := h
  apply BitVec.eq_of_toInt_eq
  rw [BitVec.toInt_ofInt, BitVec.toInt_ofInt]
  have e : b + k * 2 ^ W = b + ((2 ^ W : Nat) : Int) * k := by
    rw [Int.mul_comm]; simp
  rw [e, Int.bmod_def, Int.bmod_def, Int.add_mul_emod_self_left]

theorem ofInt_conv {W : Nat} {t : Ty} (h : W ≤ t.w) (n : Int) : BitVec.ofInt W (conv t n) = BitVec.ofInt W n := by
  apply ofInt_congr
  have hp : (2 : Int) ^ t.w = 2 ^ (t.w - W) * 2 ^ W := by rw [← Int.pow_add]; congr 1; omega
  unfold conv
  split
  · refine ⟨-((n + 2 ^ (t.w - 1)) / 2 ^ t.w * 2 ^ (t.w - W)), ?_⟩
    have := Int.emod_add_mul_ediv (n + 2 ^ (t.w - 1)) (2 ^ t.w)
    rw [Int.neg_mul, Int.mul_assoc, ← hp, Int.mul_comm]
    omega
  · refine ⟨-(n / 2 ^ t.w * 2 ^ (t.w - W)), ?_⟩
    have := Int.emod_add_mul_ediv n (2 ^ t.w)
    rw [Int.neg_mul, Int.mul_assoc, ← hp, Int.mul_comm]
    omega

theorem ofInt_toInt {W : Nat} (h : W ≤ 64) (x : BitVec 64) : BitVec.ofInt W x.toInt = x.setWidth W := by
  apply BitVec.eq_of_toInt_eq
  rw [BitVec.toInt_ofInt, BitVec.toInt_setWidth, BitVec.toInt_eq_toNat_bmod]
  obtain ⟨d, hd⟩ : (2 ^ W : Nat) ∣ 2 ^ 64 := Nat.pow_dvd_pow 2 h
  exact Int.bmod_bmod_of_dvd ⟨d, hd⟩

theorem setWidth_ofInt {W : Nat} (h : W ≤ 64) (n : Int) : (BitVec.ofInt 64 n).setWidth W = BitVec.ofInt W n := by
  rw [← ofInt_toInt h, BitVec.toInt_ofInt]
  apply ofInt_congr
  obtain ⟨d, hd⟩ : (2 ^ W : Nat) ∣ 2 ^ 64 := Nat.pow_dvd_pow 2 h
  have := Int.bmod_eq_self_sub_mul_bdiv n (2 ^ 64)
  refine ⟨-(d * n.bdiv (2 ^ 64)), ?_⟩
  rw [this, hd]
  simp only [Int.natCast_mul, Int.natCast_pow]
  have : ((2 : Nat) : Int) = 2 := rfl
  rw [this, Int.neg_mul, Int.mul_comm _ (2 ^ W : Int), ← Int.mul_assoc, Int.sub_eq_add_neg]

/-- The operators, modulo 2^W. -/
def Op.mod (W : Nat) (x y : BitVec W) : Op → BitVec W
  | .add => x + y
  | .sub => x - y
  | .mul => x * y
  | .and => x &&& y
  | .or => x ||| y
  | .xor => x ^^^ y
  | .div => 0

theorem ofInt_result {W : Nat} {t : Ty} {n m : Int} (h : t.signed = true ∨ W ≤ t.w) (e : result t n = some m) : BitVec.ofInt W m = BitVec.ofInt W n := by
  unfold result at e
  split at e
  · split at e
    · cases e; rfl
    · cases e
  · next hs =>
    cases e
    exact ofInt_conv (h.resolve_left hs) n

theorem ofInt_apply {W : Nat} (hW : W ≤ 64) {t : Ty} {x y m : Int} {op : Op} (ho : op ≠ .div) (h : t.signed = true ∨ W ≤ t.w) (e : op.apply t x y = some m) :
    BitVec.ofInt W m = op.mod W (BitVec.ofInt W x) (BitVec.ofInt W y) := by
  cases op with
  | add => rw [ofInt_result h e, BitVec.ofInt_add]; rfl
  | sub => rw [ofInt_result h e, Int.sub_eq_add_neg, BitVec.ofInt_add, BitVec.ofInt_neg]; exact (BitVec.sub_eq_add_neg _ _).symm
  | mul => rw [ofInt_result h e, BitVec.ofInt_mul]; rfl
  | and => rw [ofInt_result h e, ofInt_toInt hW, BitVec.setWidth_and, setWidth_ofInt hW, setWidth_ofInt hW]; rfl
  | or => rw [ofInt_result h e, ofInt_toInt hW, BitVec.setWidth_or, setWidth_ofInt hW, setWidth_ofInt hW]; rfl
  | xor => rw [ofInt_result h e, ofInt_toInt hW, BitVec.setWidth_xor, setWidth_ofInt hW, setWidth_ofInt hW]; rfl
  | div => exact absurd rfl ho

theorem w_pos (t : Ty) : 0 < t.w := by
  obtain ⟨s, b⟩ := t
  cases s <;> cases b <;> decide

theorem w_le (t : Ty) : t.w ≤ 64 := by
  obtain ⟨s, b⟩ := t
  cases s <;> cases b <;> decide

theorem promote_w (t : Ty) : t.w ≤ (promote t).w := by
  obtain ⟨s, b⟩ := t
  cases s <;> cases b <;> decide

theorem usual_w (a b : Ty) : a.w ≤ (usual a b).w := by
  obtain ⟨s, i⟩ := a
  obtain ⟨s', i'⟩ := b
  cases s <;> cases s' <;> cases i <;> cases i' <;> decide

/-- What fits a type fits the common type, if that is signed. -/
theorem fits_usual {a b : Ty} {n : Int} (hs : (usual a b).signed = true) : (Fits a n → Fits (usual a b) n) ∧ (Fits b n → Fits (usual a b) n) := by
  obtain ⟨s, i⟩ := a
  obtain ⟨s', i'⟩ := b
  revert hs
  cases s <;> cases s' <;> cases i <;> cases i' <;> simp [usual, promote, Ty.w, int, Fits] <;> omega

theorem fits_result {t : Ty} {n m : Int} (e : result t n = some m) : Fits t m := by
  unfold result at e
  split at e
  · split at e
    · next q => cases e; rw [← q]; exact fits_conv (w_pos t) _
    · cases e
  · cases e; exact fits_conv (w_pos t) _

theorem fits_apply {t : Ty} {x y m : Int} {op : Op} (e : op.apply t x y = some m) : Fits t m := by
  cases op with
  | div =>
    simp only [Op.apply] at e
    split at e
    · cases e
    · exact fits_result e
  | _ => exact fits_result e

theorem fits_eval (v : Nat → Ty × Int) (e : Expr) : ∀ n, e.eval v = some n → Fits (e.ty v) n := by
  induction e with
  | const t n => intro m h; cases h; exact fits_conv (w_pos t) _
  | var i => intro m h; cases h; exact fits_conv (w_pos _) _
  | paren e ih => exact ih
  | neg e ih =>
    intro m h
    obtain ⟨x, -, h⟩ := Option.bind_eq_some_iff.mp h
    exact fits_result h
  | cast t e ih =>
    intro m h
    obtain ⟨x, -, rfl⟩ := Option.map_eq_some_iff.mp h
    exact fits_conv (w_pos t) _
  | bin op l r _ _ =>
    intro m h
    obtain ⟨x, -, h⟩ := Option.bind_eq_some_iff.mp h
    obtain ⟨y, -, h⟩ := Option.bind_eq_some_iff.mp h
    exact fits_apply h
  | lt l r _ _ =>
    intro m h
    obtain ⟨x, -, h⟩ := Option.bind_eq_some_iff.mp h
    obtain ⟨y, -, h⟩ := Option.bind_eq_some_iff.mp h
    cases h
    show Fits int _
    split <;> simp [Fits, int, Ty.w]
  | land l r _ _ =>
    intro m h
    obtain ⟨x, -, h⟩ := Option.bind_eq_some_iff.mp h
    show Fits int _
    split at h
    · cases h; simp [Fits, int, Ty.w]
    · obtain ⟨y, -, rfl⟩ := Option.map_eq_some_iff.mp h
      split <;> simp [Fits, int, Ty.w]
  | cond c a b _ _ _ =>
    intro m h
    obtain ⟨x, -, h⟩ := Option.bind_eq_some_iff.mp h
    obtain ⟨y, -, rfl⟩ := Option.map_eq_some_iff.mp h
    exact fits_conv (w_pos _) _

theorem wide (T : Ty) (v : Nat → Ty × Int) (e : Expr) (h : Modular T.w v e) : T.w ≤ ((castHead T e).ty v).w := by
  induction e with
  | bin op l r ih _ => exact Nat.le_trans (ih h.2.2) (usual_w _ _)
  | lt | land | cond => exact absurd h id
  | _ => exact Nat.le_refl _

theorem modular (T : Ty) (v : Nat → Ty × Int) (e : Expr) (h : Modular T.w v e) :
    ∀ n m, e.eval v = some n → (castHead T e).eval v = some m → BitVec.ofInt T.w m = BitVec.ofInt T.w n := by
  induction e with
  | bin op l r ih _ =>
    intro n m h1 h2
    obtain ⟨x, ex, h1⟩ := Option.bind_eq_some_iff.mp h1
    obtain ⟨y, ey, h1⟩ := Option.bind_eq_some_iff.mp h1
    obtain ⟨x', ex', h2⟩ := Option.bind_eq_some_iff.mp h2
    obtain ⟨y', ey', h2⟩ := Option.bind_eq_some_iff.mp h2
    rw [ey] at ey'
    cases ey'
    have hw : T.w ≤ (usual ((castHead T l).ty v) (r.ty v)).w := Nat.le_trans (wide T v l h.2.2) (usual_w _ _)
    rw [ofInt_apply (w_le T) h.1 h.2.1 h1, ofInt_apply (w_le T) h.1 (.inr hw) h2, ofInt_conv hw, ofInt_conv hw, ih h.2.2 x x' ex ex']
    rcases h.2.1 with hs | hl
    · rw [conv_of_fits (w_pos _) ((fits_usual hs).1 (fits_eval v l x ex)), conv_of_fits (w_pos _) ((fits_usual hs).2 (fits_eval v r y ey))]
    · rw [ofInt_conv hl, ofInt_conv hl]
  | lt | land | cond => exact absurd h id
  | _ =>
    intro n m h1 h2
    obtain ⟨x, ex, rfl⟩ := Option.map_eq_some_iff.mp h2
    rw [h1] at ex
    cases ex
    exact ofInt_conv (Nat.le_refl _) _

theorem conv_congr {t : Ty} {a b : Int} (h : BitVec.ofInt t.w a = BitVec.ofInt t.w b) : conv t a = conv t b := by
  have h' : a % 2 ^ t.w = b % 2 ^ t.w := by
    have := congrArg (fun x => (x.toNat : Int)) h
    simp only [BitVec.toNat_ofInt, Int.natCast_pow] at this
    have h2 : ((2 : Nat) : Int) = 2 := rfl
    rw [h2, Int.toNat_of_nonneg (Int.emod_nonneg _ (Int.ne_of_gt (pow_pos' _))), Int.toNat_of_nonneg (Int.emod_nonneg _ (Int.ne_of_gt (pow_pos' _)))] at this
    exact this
  unfold conv
  split
  · rw [Int.add_emod, h', ← Int.add_emod]
  · exact h'

/-- In unsigned 64 bits nothing overflows. -/
theorem defined (v : Nat → Ty × Int) (e : Expr) (h : Modular 64 v e) (n : Int) (he : e.eval v = some n) : ∃ m, (castHead ⟨.b64, false⟩ e).eval v = some m ∧ (castHead ⟨.b64, false⟩ e).ty v = ⟨.b64, false⟩ := by
  induction e generalizing n with
  | bin op l r ih _ =>
    obtain ⟨x, ex, he⟩ := Option.bind_eq_some_iff.mp he
    obtain ⟨y, ey, -⟩ := Option.bind_eq_some_iff.mp he
    obtain ⟨x', ex', et⟩ := ih h.2.2 x ex
    have ht : usual ⟨.b64, false⟩ (r.ty v) = ⟨.b64, false⟩ := by
      generalize r.ty v = t
      obtain ⟨s, i⟩ := t
      cases s <;> cases i <;> decide
    have hd := h.1
    obtain ⟨m, hm⟩ : ∃ m, op.apply ⟨.b64, false⟩ (conv ⟨.b64, false⟩ x') (conv ⟨.b64, false⟩ y) = some m := by
      cases op with
      | div => exact absurd rfl hd
      | _ => exact ⟨_, rfl⟩
    refine ⟨m, ?_, ?_⟩
    · simp only [castHead, Expr.eval, ex', ey, Option.bind_some, et, ht]
      exact hm
    · show usual _ _ = _
      rw [et, ht]
  | lt | land | cond => exact absurd h id
  | _ => exact ⟨conv ⟨.b64, false⟩ n, by show Option.map _ (Expr.eval v _) = _; rw [he]; rfl, rfl⟩

theorem seven (M c d x a : Int) (hc : 7 * c = M * d + 1) : (a + 8 * x) % M = (a + 1 * x) % M ↔ x % M = 0 := by
  rw [Int.emod_eq_emod_iff_emod_sub_eq_zero, show a + 8 * x - (a + 1 * x) = 7 * x by omega]
  constructor
  · intro h
    obtain ⟨k, hk⟩ := Int.dvd_of_emod_eq_zero h
    apply Int.emod_eq_zero_of_dvd
    refine ⟨c * k - d * x, ?_⟩
    have h1 : M * (c * k) = c * (7 * x) := by rw [hk, ← Int.mul_assoc, Int.mul_comm M c, Int.mul_assoc]
    have h2 : M * (d * x) = (7 * c - 1) * x := by rw [← Int.mul_assoc]; congr 1; omega
    have h3 : (7 * c - 1) * x = c * (7 * x) - x := by rw [Int.sub_mul, Int.one_mul, Int.mul_comm 7 c, Int.mul_assoc]
    rw [Int.mul_sub, h1, h2, h3]
    omega
  · intro h
    obtain ⟨k, rfl⟩ := Int.dvd_of_emod_eq_zero h
    apply Int.emod_eq_zero_of_dvd
    exact ⟨7 * k, by rw [← Int.mul_assoc, ← Int.mul_assoc, Int.mul_comm 7 M]⟩

theorem sum_total (s b : Int) (ts : List (Bool × Int)) : sum s b ts = b + s * total ts := by
  induction ts generalizing b with
  | nil => simp [sum, total]
  | cons x r ih =>
    obtain ⟨f, n⟩ := x
    have : sum s b ((f, n) :: r) = sum s (if f then b + s * n else b - s * n) r := rfl
    rw [this, ih]
    cases f
    · simp only [total, Int.mul_add, Int.mul_neg, Bool.false_eq_true, if_false]; omega
    · simp only [total, Int.mul_add, if_true]; omega

end Verif.Paste
