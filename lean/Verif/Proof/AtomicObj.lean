import Verif.Spec.AtomicObj
/-!
# The generic atomic operations: proofs
-/
namespace Verif.Ao

theorem read_lt (m : Mem) (a n : Nat) : read m a n < 256 ^ n := by
  induction n generalizing a with
  | zero => simp [read]
  | succ n ih =>
    have := ih (a + 1)
    have := (m a).isLt
    rw [read, Nat.pow_succ]
    omega

theorem read_mod (m : Mem) (a n k : Nat) (h : n ≤ k) : read m a k % 256 ^ n = read m a n := by
  induction n generalizing a k with
  | zero => simp [read, Nat.mod_one]
  | succ n ih =>
    cases k with
    | zero => omega
    | succ k =>
      rw [read, read, Nat.pow_succ, Nat.mul_comm (256 ^ n), Nat.mod_mul]
      have h1 := (m a).isLt
      rw [show ((m a).toNat + 256 * read m (a + 1) k) % 256 = (m a).toNat by omega,
        show ((m a).toNat + 256 * read m (a + 1) k) / 256 = read m (a + 1) k by omega, ih (a + 1) k (by omega)]

theorem read_ext (m m' : Mem) (a n : Nat) (h : ∀ i, i < n → m (a + i) = m' (a + i)) : read m a n = read m' a n := by
  induction n generalizing a with
  | zero => rfl
  | succ n ih =>
    rw [read, read, ih (a + 1) (fun i hi => by have := h (i + 1) (by omega); rwa [show a + (i + 1) = a + 1 + i by omega] at this)]
    rw [show m a = m' a from h 0 (by omega)]

theorem read_write_le (m : Mem) (a n k x : Nat) (h : n ≤ k) : read (write m a k x) a n = x % 256 ^ n := by
  suffices ∀ (n a' : Nat) (j : Nat), a' = a + j → j + n ≤ k →
      read (write m a k x) a' n = x / 256 ^ j % 256 ^ n by
    have := this n a 0 rfl (by omega)
    simpa using this
  intro n
  induction n with
  | zero => intro a' j _ _; simp [read, Nat.mod_one]
  | succ n ih =>
    intro a' j ha hj
    rw [read, ih (a' + 1) (j + 1) (by omega) (by omega)]
    have : (write m a k x a').toNat = x / 256 ^ j % 256 := by
      unfold write
      rw [if_pos (by omega), BitVec.toNat_ofNat, show a' - a = j by omega]
    rw [this, Nat.pow_succ 256 n, Nat.mul_comm (256 ^ n), Nat.mod_mul, Nat.pow_succ, Nat.div_div_eq_div_mul]

theorem write_out (m : Mem) (a n x b : Nat) (h : ¬ (a ≤ b ∧ b < a + n)) : write m a n x b = m b := by
  unfold write; rw [if_neg h]

theorem read_byte (m : Mem) (a k : Nat) : ∀ i, i < k → read m a k / 256 ^ i % 256 = (m (a + i)).toNat := by
  induction k generalizing a with
  | zero => intro i h; omega
  | succ k ih =>
    intro i h
    cases i with
    | zero => have := (m a).isLt; simp only [read, Nat.pow_zero, Nat.div_one, Nat.add_zero]; omega
    | succ i =>
      have h1 := (m a).isLt
      rw [read, Nat.pow_succ, Nat.mul_comm (256 ^ i), ← Nat.div_div_eq_div_mul,
        show ((m a).toNat + 256 * read m (a + 1) k) / 256 = read m (a + 1) k by omega, ih (a + 1) i (by omega),
        show a + 1 + i = a + (i + 1) by omega]

/-- A byte inside, after writing. -/
theorem write_in (m : Mem) (a k x b : Nat) (h : a ≤ b ∧ b < a + k) :
    write m a k x b = BitVec.ofNat 8 (x / 256 ^ (b - a)) := by
  unfold write; rw [if_pos h]

/-- Equal high parts: the byte stays. -/
theorem write_keeps (m : Mem) (a n k x : Nat) (h : x / 256 ^ n = read m a k / 256 ^ n) (b : Nat) (hb : a + n ≤ b) :
    write m a k x b = m b := by
  by_cases hk : b < a + k
  · rw [write_in m a k x b ⟨by omega, hk⟩]
    have h1 := read_byte m a k (b - a) (by omega)
    have e : 256 ^ (b - a) = 256 ^ n * 256 ^ (b - a - n) := by
      rw [← Nat.pow_add]; congr 1; omega
    rw [e, ← Nat.div_div_eq_div_mul, h, Nat.div_div_eq_div_mul, ← e]
    apply BitVec.eq_of_toNat_eq
    rw [BitVec.toNat_ofNat]
    rw [show a + (b - a) = b by omega] at h1
    exact h1
  · exact write_out m a k x b (by omega)

theorem pow_pos' (n : Nat) : 0 < 256 ^ n := Nat.pow_pos (by decide)

theorem conv_lt (n : Nat) (v : Int) : conv n v < 256 ^ n := by
  unfold conv
  have h0 : (0 : Int) < (256 ^ n : Nat) := by exact_mod_cast pow_pos' n
  have h1 := Int.emod_nonneg v (Int.ne_of_gt h0)
  have h2 := Int.emod_lt_of_pos v h0
  omega

theorem pow_two (n : Nat) : 256 ^ n = 2 ^ (8 * n) := by rw [Nat.pow_mul]

theorem conv_cast (n : Nat) (v : Int) : ((conv n v : Nat) : Int) = v % (256 ^ n : Nat) := by
  unfold conv
  rw [Int.toNat_of_nonneg]
  exact Int.emod_nonneg v (by exact_mod_cast (Nat.ne_of_gt (pow_pos' n)))

theorem conv_mod (n k : Nat) (h : n ≤ k) (v : Int) : conv k v % 256 ^ n = conv n v := by
  have : ((conv k v % 256 ^ n : Nat) : Int) = ((conv n v : Nat) : Int) := by
    rw [conv_cast, Int.natCast_emod, conv_cast, Int.emod_emod_of_dvd]
    exact_mod_cast Nat.pow_dvd_pow 256 h
  exact_mod_cast this

theorem conv_small (n : Nat) (v : Nat) (h : v < 256 ^ n) : conv n v = v := by
  unfold conv
  rw [← Int.natCast_emod, Nat.mod_eq_of_lt h]
  rfl

theorem sub_mod (x c p n : Nat) (hc : c ≤ p) (hp : n ∣ p) (hn : 0 < n) :
    (x + (p - c)) % p % n = (x % n + (n - c % n)) % n := by
  rw [Nat.mod_mod_of_dvd _ hp]
  have h1 := Nat.div_add_mod x n
  have h2 := Nat.div_add_mod c n
  have h3 := Nat.mod_lt c hn
  obtain ⟨q, rfl⟩ := hp
  have h4 : x + (n * q - c) + n * (c / n) + n = x % n + (n - c % n) + n * (x / n) + n * q := by omega
  have := congrArg (· % n) h4
  simp only [Nat.add_mul_mod_self_left, Nat.add_mod_right] at this
  exact this

/-- Truncating commutes with every operation. -/
theorem new_mod (op : Op) (n k x : Nat) (h : n ≤ k) : op.new k x % 256 ^ n = op.new n (x % 256 ^ n) := by
  have hd := Nat.pow_dvd_pow 256 h
  cases op with
  | load => rfl
  | store v => exact conv_mod n k h v
  | exchange v => exact conv_mod n k h v
  | fetchAdd v =>
    simp only [Op.new]
    rw [Nat.mod_mod_of_dvd _ hd, Nat.add_mod, conv_mod n k h]
  | fetchSub v =>
    simp only [Op.new]
    rw [sub_mod _ _ _ _ (Nat.le_of_lt (conv_lt k v)) hd (pow_pos' n), conv_mod n k h]
  | fetchOr v => simp only [Op.new]; rw [pow_two, Nat.or_mod_two_pow, ← pow_two, conv_mod n k h]
  | fetchXor v => simp only [Op.new]; rw [pow_two, Nat.xor_mod_two_pow, ← pow_two, conv_mod n k h]
  | fetchAnd v => simp only [Op.new]; rw [pow_two, Nat.and_mod_two_pow, ← pow_two, conv_mod n k h]

theorem same_of {n : Nat} {x y : Int} (h : x % (256 ^ n : Nat) = y % (256 ^ n : Nat)) : same n x y := by
  unfold same
  rw [Int.sub_emod, h, Int.sub_self, Int.zero_emod]

/-- The operation on `n` bytes is what is meant. -/
theorem new_means (op : Op) (n x : Nat) : Means n op x (op.new n x) := by
  cases op with
  | load => rfl
  | store v => exact same_of (by simp only [Op.new]; rw [conv_cast, Int.emod_emod_of_dvd _ (Int.dvd_refl _)])
  | exchange v => exact same_of (by simp only [Op.new]; rw [conv_cast, Int.emod_emod_of_dvd _ (Int.dvd_refl _)])
  | fetchAdd v =>
    refine same_of ?_
    simp only [Op.new]
    rw [Int.natCast_emod, Int.emod_emod_of_dvd _ (Int.dvd_refl _), Int.natCast_add, conv_cast, Int.add_emod_emod]
  | fetchSub v =>
    refine same_of ?_
    simp only [Op.new]
    rw [Int.natCast_emod, Int.emod_emod_of_dvd _ (Int.dvd_refl _), Int.natCast_add,
      Int.natCast_sub (Nat.le_of_lt (conv_lt n v)), conv_cast]
    rw [show (x : Int) + (((256 ^ n : Nat) : Int) - v % (256 ^ n : Nat)) =
      (x - v % (256 ^ n : Nat)) + (256 ^ n : Nat) by omega]
    rw [Int.add_emod_right, Int.sub_emod_emod]
  | fetchOr v => rfl
  | fetchXor v => rfl
  | fetchAnd v => rfl

end Verif.Ao
