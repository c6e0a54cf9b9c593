import Verif.Model.Macros
/-!
# C93 — the kinds of files on Windows; C94 — sizes and alignment
-/
namespace Verif.Props
open Verif Verif.Mc

/-! ## C93

A mode is of at most one kind; as `include/compat/sys/stat.h` says, `S_ISBLK`, `S_ISSOCK` and `S_ISLNK` are false; converting a mode to a directory entry's type
and back gives a mode of the same kind, and the type is `DT_UNKNOWN` for none of the kinds. -/

/-- The seven questions. -/
def kinds : List (Mode → Bool) := [S_ISFIFO, S_ISDIR, S_ISREG, S_ISLNK, S_ISSOCK, S_ISCHR, S_ISBLK]

/-- How many are answered with yes. -/
def yes (m : Mode) : Nat := (kinds.filter (· m)).length

/-- **C93**, full. -/
def C93_Full : Prop :=
  ∀ m : Mode, yes m ≤ 1 ∧ S_ISBLK m = false ∧ S_ISSOCK m = false ∧ S_ISLNK m = false ∧ (∀ q ∈ kinds, q (DTTOIF (IFTODT m)) = q m) ∧
    (IFTODT m = DT_UNKNOWN → ∀ q ∈ kinds, q m = false)

/-- What each answer depends on. -/
theorem kind_of (m : Mode) {b : Mode} (h : m &&& S_IFMT = b) :
    S_ISFIFO m = (b == S_IFIFO) ∧ S_ISDIR m = (b == S_IFDIR) ∧ S_ISREG m = (b == S_IFREG) ∧ S_ISLNK m = (b == 0) ∧ S_ISSOCK m = (b == 0) ∧
    S_ISCHR m = (b == S_IFCHR) ∧ S_ISBLK m = (b == 0) := by
  unfold S_ISFIFO S_ISDIR S_ISREG S_ISLNK S_ISSOCK S_ISCHR S_ISBLK
  rw [h]
  exact ⟨rfl, rfl, rfl, rfl, rfl, rfl, rfl⟩

/-- A mode without a kind answers yes to three questions: block device, link and socket. -/
theorem C93_three (m : Mode) (h : m &&& S_IFMT = 0) : S_ISBLK m = true ∧ S_ISSOCK m = true ∧ S_ISLNK m = true ∧ yes m = 3 := by
  obtain ⟨h1, h2, h3, h4, h5, h6, h7⟩ := kind_of m h
  refine ⟨h7, h5, h4, ?_⟩
  simp [yes, kinds, h1, h2, h3, h4, h5, h6, h7, S_IFIFO, S_IFDIR, S_IFREG, S_IFCHR]

example : (0x1FF : Mode) &&& S_IFMT = 0 := by decide

theorem C93_full_false : ¬ C93_Full := by
  intro h
  exact absurd (h 0).2.1 (by decide)

/-- **C93**, for modes with a kind: all of it.  Missing: modes whose kind bits are 0 (`C93_three`). -/
theorem C93_kind_partial (m : Mode) (h : m &&& S_IFMT ≠ 0) :
    yes m ≤ 1 ∧ S_ISBLK m = false ∧ S_ISSOCK m = false ∧ S_ISLNK m = false ∧ (∀ q ∈ kinds, q (DTTOIF (IFTODT m)) = q m) ∧ IFTODT m ≠ DT_UNKNOWN := by
  obtain ⟨h1, h2, h3, h4, h5, h6, h7⟩ := kind_of m rfl
  have h0 : (m &&& S_IFMT == 0) = false := by simpa using h
  rw [h0] at h4 h5 h7
  refine ⟨?_, h7, h5, h4, ?_, h⟩
  · unfold yes kinds
    by_cases e1 : m &&& S_IFMT = S_IFIFO
    · rw [e1] at h1 h2 h3 h6
      have h2 : S_ISDIR m = false := h2.trans (by decide)
      have h3 : S_ISREG m = false := h3.trans (by decide)
      have h6 : S_ISCHR m = false := h6.trans (by decide)
      simp [h1, h2, h3, h4, h5, h6, h7]
    · have h1 : S_ISFIFO m = false := by rw [h1]; simpa using e1
      by_cases e2 : m &&& S_IFMT = S_IFDIR
      · rw [e2] at h2 h3 h6
        have h3 : S_ISREG m = false := h3.trans (by decide)
        have h6 : S_ISCHR m = false := h6.trans (by decide)
        simp [h1, h2, h3, h4, h5, h6, h7]
      · have h2 : S_ISDIR m = false := by rw [h2]; simpa using e2
        by_cases e3 : m &&& S_IFMT = S_IFREG
        · rw [e3] at h3 h6
          have h6 : S_ISCHR m = false := h6.trans (by decide)
          simp [h1, h2, h3, h4, h5, h6, h7]
        · have h3 : S_ISREG m = false := by rw [h3]; simpa using e3
          cases h8 : S_ISCHR m <;> simp [h1, h2, h3, h4, h5, h7, h8]
  · have e : IFTODT m &&& S_IFMT = m &&& S_IFMT := by
      unfold IFTODT
      rw [BitVec.and_assoc, BitVec.and_self]
    intro q hq
    simp only [kinds, List.mem_cons, List.not_mem_nil, or_false] at hq
    unfold DTTOIF
    rcases hq with rfl | rfl | rfl | rfl | rfl | rfl | rfl <;> simp only [S_ISFIFO, S_ISDIR, S_ISREG, S_ISLNK, S_ISSOCK, S_ISCHR, S_ISBLK, e]

/-- The four kinds there are, whatever the permissions (the lower twelve bits). -/
theorem C93_kinds (perm : Mode) (hp : perm &&& S_IFMT = 0) :
    S_ISREG (S_IFREG ||| perm) = true ∧ S_ISDIR (S_IFDIR ||| perm) = true ∧ S_ISCHR (S_IFCHR ||| perm) = true ∧ S_ISFIFO (S_IFIFO ||| perm) = true ∧
    IFTODT (S_IFREG ||| perm) = DT_REG ∧ IFTODT (S_IFDIR ||| perm) = DT_DIR ∧ IFTODT (S_IFCHR ||| perm) = DT_CHR ∧ IFTODT (S_IFIFO ||| perm) = DT_FIFO := by
  have key : ∀ k : Mode, k &&& S_IFMT = k → (k ||| perm) &&& S_IFMT = k := by
    intro k hk
    rw [BitVec.and_comm, BitVec.and_or_distrib_left, BitVec.and_comm S_IFMT k, BitVec.and_comm S_IFMT perm, hk, hp]
    exact BitVec.or_zero
  refine ⟨?_, ?_, ?_, ?_, key _ (by decide), key _ (by decide), key _ (by decide), key _ (by decide)⟩
  · unfold S_ISREG; rw [key _ (by decide)]; decide
  · unfold S_ISDIR; rw [key _ (by decide)]; decide
  · unfold S_ISCHR; rw [key _ (by decide)]; decide
  · unfold S_ISFIFO; rw [key _ (by decide)]; decide

example : (0x1A4 : Mode) &&& S_IFMT = 0 ∧ yes (S_IFREG ||| 0x1A4) = 1 := by decide

/-- Block devices, sockets and links have the type of the unknown. -/
theorem C93_unknown : DT_SOCK = DT_UNKNOWN ∧ DT_BLK = DT_UNKNOWN ∧ DT_LNK = DT_UNKNOWN := ⟨rfl, rfl, rfl⟩

/-! ## C94

`align_up(num, align)`, `align` a power of two, is the least multiple of `align` that is not less than `num`, whatever the types.  `Kb(x)`, `Mb(x)`, `Gb(x)` are `x`
times 1024, 1024 ^ 2, 1024 ^ 3. -/

/-- `r` is the least multiple of `a` not less than `n`. -/
def RoundsUp (n a r : Nat) : Prop := n ≤ r ∧ a ∣ r ∧ ∀ m, n ≤ m → a ∣ m → r ≤ m

/-- **C94**, full. -/
def C94_Full : Prop :=
  (∀ (num : BitVec 64) (k : Nat), k < 64 → RoundsUp num.toNat (2 ^ k) (alignUp num (BitVec.twoPow 64 k)).toNat) ∧
  (∀ (num : BitVec 64) (k : Nat), k < 32 → num.toNat + 2 ^ k ≤ 2 ^ 64 → RoundsUp num.toNat (2 ^ k) (alignUp32 num (BitVec.twoPow 32 k)).toNat) ∧
  ∀ (k : Nat) (front : List Int) (z : Int), 1 ≤ k ∧ k ≤ 3 → 0 ≤ front.sum + z → size k front z = some (BitVec.ofInt 64 ((front.sum + z) * 1024 ^ k))

theorem mask_toNat {W : Nat} (k : Nat) (hk : k < W) : (BitVec.twoPow W k - 1).toNat = 2 ^ k - 1 := by
  have lt : 2 ^ k < 2 ^ W := Nat.pow_lt_pow_right (by omega) hk
  have hp : 1 ≤ 2 ^ k := Nat.one_le_two_pow
  have e : (1 : BitVec W).toNat = 1 := by
    show (BitVec.ofNat W 1).toNat = 1
    rw [BitVec.toNat_ofNat, Nat.mod_eq_of_lt (by omega)]
  rw [BitVec.toNat_sub, BitVec.toNat_twoPow, Nat.mod_eq_of_lt lt, e]
  generalize 2 ^ k = a at *
  generalize 2 ^ W = b at *
  rw [show b - 1 + a = b + (a - 1) by omega, Nat.add_mod_left, Nat.mod_eq_of_lt (by omega)]

theorem low_mask {W : Nat} (k : Nat) (hk : k < W) (i : Nat) : (BitVec.twoPow W k - 1).getLsbD i = decide (i < k) := by
  rw [← BitVec.testBit_toNat, mask_toNat k hk, Nat.testBit_two_pow_sub_one]

theorem clear_low (x : BitVec 64) (k : Nat) (hk : k < 64) : (x &&& ~~~(BitVec.twoPow 64 k - 1)).toNat = x.toNat / 2 ^ k * 2 ^ k := by
  have e : x &&& ~~~(BitVec.twoPow 64 k - 1) = (x >>> k) <<< k := by
    apply BitVec.eq_of_getLsbD_eq
    intro i hi
    rw [BitVec.getLsbD_and, BitVec.getLsbD_not, low_mask k hk, BitVec.getLsbD_shiftLeft, BitVec.getLsbD_ushiftRight]
    by_cases h : i < k
    · simp [h]
    · simp [h, hi, show k + (i - k) = i by omega]
  rw [e, BitVec.toNat_shiftLeft, BitVec.toNat_ushiftRight, Nat.shiftRight_eq_div_pow, Nat.shiftLeft_eq]
  exact Nat.mod_eq_of_lt (Nat.lt_of_le_of_lt (Nat.div_mul_le_self ..) x.isLt)

theorem rounds (n a : Nat) (ha : 0 < a) : RoundsUp n a ((n + (a - 1)) / a * a) := by
  refine ⟨?_, Nat.dvd_mul_left .., ?_⟩
  · have := Nat.div_add_mod (n + (a - 1)) a
    have := Nat.mod_lt (n + (a - 1)) ha
    rw [Nat.mul_comm a] at *
    omega
  · rintro m hm ⟨c, rfl⟩
    rw [Nat.mul_comm a c] at hm ⊢
    refine Nat.mul_le_mul_right a ?_
    rw [← Nat.lt_succ_iff, Nat.div_lt_iff_lt_mul ha, Nat.succ_mul]
    omega

/-- **C94**, `align_up` with operands of 64 bits, if the next multiple is at most `2 ^ 64 - 1`.  Missing: otherwise it is 0 (`C94_wraps`). -/
theorem C94_align_partial (num : BitVec 64) (k : Nat) (hk : k < 64) (h : num.toNat + (2 ^ k - 1) < 2 ^ 64) :
    RoundsUp num.toNat (2 ^ k) (alignUp num (BitVec.twoPow 64 k)).toNat := by
  have hp : 1 ≤ 2 ^ k := Nat.one_le_two_pow
  unfold alignUp
  rw [clear_low _ k hk, BitVec.toNat_add]
  have h1 := mask_toNat (W := 64) k hk
  rw [h1, Nat.mod_eq_of_lt h]
  exact rounds _ _ hp

example : alignUp 13 (BitVec.twoPow 64 3) = 16 ∧ alignUp 16 (BitVec.twoPow 64 3) = 16 := by decide

/-- With an `int` for `align` it is the same. -/
theorem C94_int (num : BitVec 64) (k : Nat) (hk : k < 31) : alignUpInt num (BitVec.twoPow 32 k) = alignUp num (BitVec.twoPow 64 k) := by
  have bit := low_mask (W := 32) k (by omega)
  have bit' := low_mask (W := 64) k (by omega)
  have msb : (BitVec.twoPow 32 k - 1).msb = false := by rw [BitVec.msb_eq_getLsbD_last, bit]; simp; omega
  have e1 : (BitVec.twoPow 32 k - 1).signExtend 64 = BitVec.twoPow 64 k - 1 := by
    apply BitVec.eq_of_getLsbD_eq
    intro i hi
    rw [BitVec.getLsbD_signExtend, bit, bit', msb]
    by_cases h : i < 32
    · simp [h, hi]
    · simp [h, hi, show ¬ i < k by omega]
  have e2 : (~~~(BitVec.twoPow 32 k - 1)).signExtend 64 = ~~~(BitVec.twoPow 64 k - 1) := by
    apply BitVec.eq_of_getLsbD_eq
    intro i hi
    rw [BitVec.getLsbD_signExtend, BitVec.getLsbD_not, BitVec.getLsbD_not, bit, bit', BitVec.msb_not, msb]
    by_cases h : i < 32
    · simp [h, hi]
    · simp [h, hi, show ¬ i < k by omega]
  unfold alignUpInt alignUp
  rw [e1, e2]

/-- With an `unsigned int` the upper half is lost. -/
theorem C94_upper_half (num : BitVec 64) (align : BitVec 32) : (alignUp32 num align).toNat < 2 ^ 32 := by
  unfold alignUp32
  rw [BitVec.toNat_and]
  refine Nat.lt_of_le_of_lt Nat.and_le_right ?_
  rw [BitVec.toNat_setWidth, Nat.mod_eq_of_lt (Nat.lt_of_lt_of_le (BitVec.isLt _) (by decide))]
  exact BitVec.isLt _

example : alignUp32 0x100000005 8 = 8 := by decide

/-- If there is no multiple left, the result is 0. -/
theorem C94_wraps (num : BitVec 64) (k : Nat) (hk : k < 64) (h : 2 ^ 64 ≤ num.toNat + (2 ^ k - 1)) : alignUp num (BitVec.twoPow 64 k) = 0 := by
  have lt : 2 ^ k < 2 ^ 64 := Nat.pow_lt_pow_right (by omega) hk
  have h1 := mask_toNat (W := 64) k hk
  apply BitVec.eq_of_toNat_eq
  unfold alignUp
  rw [clear_low _ k hk, BitVec.toNat_add, h1]
  have := num.isLt
  rw [show (num.toNat + (2 ^ k - 1)) % 2 ^ 64 = num.toNat + (2 ^ k - 1) - 2 ^ 64 by omega, Nat.div_eq_of_lt (by omega)]
  simp

example : (2 : Nat) ^ 64 ≤ (BitVec.allOnes 64).toNat + (2 ^ 3 - 1) := by decide

theorem times_eq (z : Int) (hz : 0 ≤ z) (k : Nat) : times z k = if z * 1024 ^ k < 2 ^ 31 then some (z * 1024 ^ k) else none := by
  induction k with
  | zero =>
    rw [times, int32]
    by_cases h : z < 2 ^ 31
    · rw [if_pos ⟨by omega, h⟩, Int.pow_zero, Int.mul_one, if_pos h]
    · rw [if_neg (fun hh => h hh.2), Int.pow_zero, Int.mul_one, if_neg h]
  | succ k ih =>
    have hn : 0 ≤ z * 1024 ^ k := Int.mul_nonneg hz (Int.pow_nonneg (by decide))
    have hs : z * 1024 ^ (k + 1) = z * 1024 ^ k * 1024 := by rw [Int.pow_succ, Int.mul_assoc]
    rw [times, ih, hs]
    generalize z * 1024 ^ k = y at hn ⊢
    by_cases h : y < 2 ^ 31
    · rw [if_pos h]
      rw [Option.bind_some, int32]
      by_cases h2 : y * 1024 < 2 ^ 31
      · rw [if_pos ⟨by omega, h2⟩, if_pos h2]
      · rw [if_neg (fun hh => h2 hh.2), if_neg h2]
    · rw [if_neg h, if_neg (by omega)]
      rfl

/-- **C94**, the sizes of one number: exactly if the product is less than 2 GiB; otherwise the arithmetic overflows, which is undefined.  Missing: numbers of 2 GiB or more,
and arguments that are sums (`C94_sum`). -/
theorem C94_size_partial (k : Nat) (z : Int) (hz : 0 ≤ z) :
    size k [] z = if z * 1024 ^ k < 2 ^ 31 then some (BitVec.ofInt 64 (z * 1024 ^ k)) else none := by
  simp only [size, times_eq z hz k]
  split <;> rfl

example : size 1 [] 4 = some 4096 ∧ size 3 [] 1 = some 0x40000000 := by decide

/-- `Gb(2)`, and of every larger number, is undefined. -/
theorem C94_gb (z : Int) (hz : 2 ≤ z) : size 3 [] z = none := by
  rw [C94_size_partial 3 z (by omega), if_neg]
  omega

/-- Of a sum only the last number is multiplied. -/
theorem C94_sum (k : Nat) (a z : Int) (ha : 0 ≤ a) (hz : 0 ≤ z) (hs : a + z * 1024 ^ k < 2 ^ 31) :
    size k [a] z = some (BitVec.ofInt 64 (a + z * 1024 ^ k)) := by
  have hn : 0 ≤ z * 1024 ^ k := Int.mul_nonneg hz (Int.pow_nonneg (by decide))
  rw [size, plus, times_eq z hz k]
  generalize z * 1024 ^ k = y at hn hs ⊢
  rw [if_pos (by omega)]
  rw [int32, if_pos ⟨by omega, by omega⟩, Option.bind_some, Option.bind_some, int32, if_pos ⟨by omega, hs⟩]
  rfl

example : size 1 [1] 1 = some 1025 := by decide

theorem C94_full_false : ¬ C94_Full := by
  intro h
  have := h.2.2 3 [] 2 (by decide) (by decide)
  rw [C94_gb 2 (by decide)] at this
  cases this

/-- Nor do the other two parts hold. -/
theorem C94_align_false :
    ¬ (∀ (num : BitVec 64) (k : Nat), k < 64 → RoundsUp num.toNat (2 ^ k) (alignUp num (BitVec.twoPow 64 k)).toNat) ∧
    ¬ (∀ (num : BitVec 64) (k : Nat), k < 32 → num.toNat + 2 ^ k ≤ 2 ^ 64 → RoundsUp num.toNat (2 ^ k) (alignUp32 num (BitVec.twoPow 32 k)).toNat) := by
  constructor
  · intro h
    have := (h (BitVec.allOnes 64) 3 (by decide)).1
    rw [C94_wraps _ 3 (by decide) (by decide)] at this
    exact absurd this (by decide)
  · intro h
    have := (h 0x100000005 3 (by decide) (by decide)).1
    exact absurd this (by decide)

end Verif.Props
