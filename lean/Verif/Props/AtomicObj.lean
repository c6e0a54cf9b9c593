import Verif.Proof.AtomicObj
/-!
# C59: a generic atomic operation concerns the object it is given
-/
namespace Verif.Props
open Verif Verif.Ao

/-- Some memory to look at: the byte at `b` is `b`. -/
def C59_mem : Ao.Mem := fun b => BitVec.ofNat 8 b

/-- **C59, in full.**  On every build, for an object of every published atomic type, wherever it is: the
operation leaves in it what it means, returns what it held, and changes nothing else. -/
def C59_Full : Prop := ∀ (b : Build) (t : Ao.Ty) (op : Ao.Op) (m : Ao.Mem) (a : Nat),
  Means (t.size b) op (Ao.read m a (t.size b)) (Ao.read (generic b op m a).1 a (t.size b)) ∧
  (generic b op m a).2 = Ao.read m a (t.size b) ∧
  OnlyAt a (t.size b) m (generic b op m a).1

/-- **C59 for the types as wide as the operations**: 64-bit builds: `atomic_llong`, `atomic_size_t`,
`atomic_ptr_t` and so on; 32-bit builds: `atomic_int`, `atomic_size_t`, …  Missing: all others. -/
theorem C59_same_width_partial (b : Build) (t : Ao.Ty) (op : Ao.Op) (m : Ao.Mem) (a : Nat) (h : t.size b = b.width) :
    Means (t.size b) op (Ao.read m a (t.size b)) (Ao.read (generic b op m a).1 a (t.size b)) ∧
    (generic b op m a).2 = Ao.read m a (t.size b) ∧ OnlyAt a (t.size b) m (generic b op m a).1 := by
  rw [h]
  refine ⟨?_, rfl, fun c hc => write_out _ _ _ _ _ hc⟩
  have e := read_write_le m a b.width b.width (op.new b.width (Ao.read m a b.width)) (Nat.le_refl _)
  have e2 := new_mod op b.width b.width (Ao.read m a b.width) (Nat.le_refl _)
  rw [Nat.mod_eq_of_lt (read_lt m a b.width)] at e2
  rw [show Ao.read (generic b op m a).1 a b.width = op.new b.width (Ao.read m a b.width) from e.trans e2]
  exact new_means op _ _

example : Ty.size .sizeT .lp64 = Build.lp64.width ∧
    Ao.read (generic .lp64 (.fetchSub 1) C59_mem 16).1 16 8 + 1 = Ao.read C59_mem 16 8 := by decide +kernel

/-- **Narrower objects are left right themselves**: the object then holds what the operation means, and what
is returned, converted to the type, is what it held. -/
theorem C59_own (b : Build) (t : Ao.Ty) (op : Ao.Op) (m : Ao.Mem) (a : Nat) (h : t.size b ≤ b.width) :
    Means (t.size b) op (Ao.read m a (t.size b)) (Ao.read (generic b op m a).1 a (t.size b)) ∧
    (generic b op m a).2 % 256 ^ t.size b = Ao.read m a (t.size b) ∧
    OnlyAt a b.width m (generic b op m a).1 := by
  refine ⟨?_, read_mod _ _ _ _ h, fun c hc => write_out _ _ _ _ _ hc⟩
  have e := read_write_le m a (t.size b) b.width (op.new b.width (Ao.read m a b.width)) h
  have e2 := new_mod op (t.size b) b.width (Ao.read m a b.width) h
  rw [read_mod _ _ _ _ h] at e2
  rw [show Ao.read (generic b op m a).1 a (t.size b) = op.new (t.size b) (Ao.read m a (t.size b)) from e.trans e2]
  exact new_means op _ _

example : Ty.size .short .win64 ≤ Build.win64.width ∧
    Ao.read (generic .win64 (.fetchAdd (-1)) (fun _ => 0) 8).1 8 2 = 65535 := by decide +kernel

/-- **What lies behind a narrower object is cleared by a store** of a value the type can hold: every byte up to
the width of the operation. -/
theorem C59_store_clears (b : Build) (t : Ao.Ty) (v : Nat) (m : Ao.Mem) (a c : Nat) (hv : v < 256 ^ t.size b)
    (hc : a + t.size b ≤ c) (hw : c < a + b.width) : (generic b (.store v) m a).1 c = 0 := by
  have hle : t.size b ≤ b.width := by omega
  rw [show (generic b (.store v) m a).1 = write m a b.width (conv b.width v) from rfl,
    write_in _ _ _ _ _ ⟨by omega, hw⟩,
    conv_small _ _ (Nat.lt_of_lt_of_le hv (Nat.pow_le_pow_right (by decide) hle)),
    Nat.div_eq_of_lt (Nat.lt_of_lt_of_le hv (Nat.pow_le_pow_right (by decide) (by omega)))]
  rfl

/-- `atomic_store(&done, true)` of `examples/work-steal.c:239`, where `done` is an `atomic_bool`: the seven
bytes behind it become 0. -/
example : Ty.size .bool .lp64 = 1 ∧ (∀ i, i < 7 → (generic .lp64 (.store 1) C59_mem 100).1 (101 + i) = 0) ∧
    C59_mem 101 = 101 := by decide +kernel

/-- What does leave the neighbours alone: loading; setting or flipping bits, with a value the type can hold;
and adding such a value if the sum fits the type. -/
def Gentle (n x : Nat) : Ao.Op → Prop
  | .load => True
  | .fetchOr v => 0 ≤ v ∧ v < (256 ^ n : Nat)
  | .fetchXor v => 0 ≤ v ∧ v < (256 ^ n : Nat)
  | .fetchAdd v => 0 ≤ v ∧ x + v < (256 ^ n : Nat)
  | _ => False

theorem C59_gentle (b : Build) (t : Ao.Ty) (op : Ao.Op) (m : Ao.Mem) (a : Nat) (h : t.size b ≤ b.width)
    (hg : Gentle (t.size b) (Ao.read m a (t.size b)) op) : OnlyAt a (t.size b) m (generic b op m a).1 := by
  intro c hc
  by_cases hac : a + t.size b ≤ c
  · refine write_keeps m a (t.size b) b.width _ ?_ c hac
    have hp := Nat.pow_le_pow_right (show 0 < 256 by decide) h
    have hr := read_mod m a (t.size b) b.width h
    have hdm := Nat.div_add_mod (Ao.read m a b.width) (256 ^ t.size b)
    have hlt := read_lt m a b.width
    cases op with
    | load => rfl
    | fetchOr v =>
      obtain ⟨u, rfl⟩ := Int.eq_ofNat_of_zero_le hg.1
      have hu : u < 256 ^ t.size b := by exact_mod_cast hg.2
      simp only [Ao.Op.new]
      rw [conv_small _ _ (Nat.lt_of_lt_of_le hu hp), pow_two, Nat.or_div_two_pow, ← pow_two, Nat.div_eq_of_lt hu,
        Nat.or_zero]
    | fetchXor v =>
      obtain ⟨u, rfl⟩ := Int.eq_ofNat_of_zero_le hg.1
      have hu : u < 256 ^ t.size b := by exact_mod_cast hg.2
      simp only [Ao.Op.new]
      rw [conv_small _ _ (Nat.lt_of_lt_of_le hu hp), pow_two, Nat.xor_div_two_pow, ← pow_two, Nat.div_eq_of_lt hu,
        Nat.xor_zero]
    | fetchAdd v =>
      obtain ⟨u, rfl⟩ := Int.eq_ofNat_of_zero_le hg.1
      have hu : Ao.read m a (t.size b) + u < 256 ^ t.size b := by exact_mod_cast hg.2
      simp only [Ao.Op.new]
      rw [conv_small _ _ (by omega)]
      have hx : (Ao.read m a b.width + u) / 256 ^ t.size b = Ao.read m a b.width / 256 ^ t.size b := by
        rw [hr] at hdm
        have : Ao.read m a b.width + u =
            (Ao.read m a (t.size b) + u) + 256 ^ t.size b * (Ao.read m a b.width / 256 ^ t.size b) := by omega
        rw [this, Nat.add_mul_div_left _ _ (pow_pos' _), Nat.div_eq_of_lt hu, Nat.zero_add]
      have hlt2 : Ao.read m a b.width + u < 256 ^ b.width := by
        have h1 : Ao.read m a b.width / 256 ^ t.size b < 256 ^ (b.width - t.size b) := by
          rw [Nat.div_lt_iff_lt_mul (pow_pos' _), ← Nat.pow_add]
          rwa [show b.width - t.size b + t.size b = b.width by omega]
        have h2 : (Ao.read m a b.width + u) / 256 ^ t.size b < 256 ^ (b.width - t.size b) := by rw [hx]; exact h1
        rw [Nat.div_lt_iff_lt_mul (pow_pos' _), ← Nat.pow_add] at h2
        rwa [show b.width - t.size b + t.size b = b.width by omega] at h2
      rw [Nat.mod_eq_of_lt hlt2, hx]
    | store v => exact hg.elim
    | exchange v => exact hg.elim
    | fetchSub v => exact hg.elim
    | fetchAnd v => exact hg.elim
  · exact write_out _ _ _ _ _ (by omega)

example : Gentle (Ty.size .int .lp64) (Ao.read C59_mem 8 4) (.fetchAdd 1) := by
  refine ⟨by decide, ?_⟩
  decide +kernel

/-- Subtracting 1 from an `atomic_int` that holds 0, its neighbour being 7: the neighbour becomes 6. -/
theorem C59_borrow : ∃ m : Ao.Mem, Ao.read m 0 4 = 0 ∧ Ao.read m 4 4 = 7 ∧
    Ao.read (generic .lp64 (.fetchSub 1) m 0).1 4 4 = 6 :=
  ⟨fun b => if b = 4 then 7 else 0, by decide +kernel⟩

/-- Clearing a bit of an `atomic_uchar` with the mask `0xFE` clears the seven bytes behind it. -/
theorem C59_mask : ∃ m : Ao.Mem, Ao.read m 1 7 ≠ 0 ∧ Ao.read (generic .lp64 (.fetchAnd 0xFE) m 0).1 1 7 = 0 :=
  ⟨fun _ => 1, by decide +kernel⟩

/-- What `atomic_load` returns of an `atomic_int` is compared with what it holds, and found different. -/
theorem C59_load_mixes : ∃ m : Ao.Mem, Ao.read m 0 4 = 5 ∧ (generic .lp64 .load m 0).2 ≠ 5 :=
  ⟨fun b => if b = 0 then 5 else if b = 4 then 1 else 0, by decide +kernel⟩

/-- The object holds what is expected, and the exchange fails; and the four bytes behind the *expected* value
are overwritten. -/
theorem C59_exchange_fails : ∃ m : Ao.Mem, Ao.read m 0 4 = Ao.read m 8 4 ∧ (compareExchange .lp64 m 0 8 9).2 = false ∧
    Ao.read (compareExchange .lp64 m 0 8 9).1 12 4 ≠ Ao.read m 12 4 :=
  ⟨fun b => if b = 4 then 1 else 0, by decide +kernel⟩

/-- On 32-bit builds the upper half of an `atomic_llong` is never written: storing 2^32 into an object that
holds 0 leaves 0. -/
theorem C59_wide_lost (m : Ao.Mem) (a : Nat) (op : Ao.Op) (c : Nat) (h : a + 4 ≤ c) :
    (generic .x86 op m a).1 c = m c := write_out _ _ _ _ _ (by simp only [Build.width]; omega)

example : Ao.read (generic .x86 (.store (2 ^ 32)) (fun _ => 0) 0).1 0 8 = 0 ∧ Ty.size .llong .x86 = 8 := by
  decide +kernel

/-- A compare-and-exchange on objects as wide as the operations is right. -/
theorem C59_exchange (b : Build) (m : Ao.Mem) (a e : Nat) (v : Int) :
    ((compareExchange b m a e v).2 = true ↔ Ao.read m a b.width = Ao.read m e b.width) ∧
    ((compareExchange b m a e v).2 = true →
      same b.width (Ao.read (compareExchange b m a e v).1 a b.width) v ∧
      OnlyAt a b.width m (compareExchange b m a e v).1) ∧
    ((compareExchange b m a e v).2 = false →
      Ao.read (compareExchange b m a e v).1 e b.width = Ao.read m a b.width ∧
      OnlyAt e b.width m (compareExchange b m a e v).1) := by
  unfold compareExchange
  by_cases h : Ao.read m a b.width = Ao.read m e b.width
  · rw [if_pos h]
    refine ⟨by simp [h], fun _ => ⟨?_, fun c hc => write_out _ _ _ _ _ hc⟩, by simp⟩
    dsimp only
    rw [read_write_le _ _ _ _ _ (Nat.le_refl _), Nat.mod_eq_of_lt (conv_lt _ _)]
    exact new_means (.store v) b.width 0
  · rw [if_neg h]
    refine ⟨by simp [h], by simp, fun _ => ⟨?_, fun c hc => write_out _ _ _ _ _ hc⟩⟩
    dsimp only
    rw [read_write_le _ _ _ _ _ (Nat.le_refl _), Nat.mod_eq_of_lt (read_lt _ _ _)]

example : (compareExchange .lp64 C59_mem 0 256 9).2 = true ∧ (compareExchange .lp64 C59_mem 0 8 9).2 = false := by
  decide +kernel

theorem C59_full_false : ¬ C59_Full := by
  intro h
  have := (h .lp64 .bool (.store 1) C59_mem 100).2.2 101 (by decide)
  revert this
  decide +kernel

/-- Which types are as wide as the operations: on 64 bit builds the 8-byte integers and pointers (`long`
only where it has 64 bits), on 32 bit builds `int`, `long`, and the pointer-sized ones. No type other than
`long long` and the `intmax` ones on 32 bit builds is wider. -/
theorem C59_types (t : Ao.Ty) :
    (t.size .lp64 = Build.lp64.width ↔ t ∈ [Ty.long, .ulong, .llong, .ullong, .intmax, .uintmax, .intptr, .uintptr, .sizeT, .ptrdiff, .ptr]) ∧
    (t.size .win64 = Build.win64.width ↔ t ∈ [Ty.llong, .ullong, .intmax, .uintmax, .intptr, .uintptr, .sizeT, .ptrdiff, .ptr]) ∧
    (t.size .x86 = Build.x86.width ↔ t ∈ [Ty.int, .uint, .long, .ulong, .intptr, .uintptr, .sizeT, .ptrdiff, .ptr]) ∧
    (∀ b : Build, b.width < t.size b ↔ b = .x86 ∧ t ∈ [Ty.llong, .ullong, .intmax, .uintmax]) ∧
    ∀ b : Build, t.size b ∈ [1, 2, 4, 8] := by
  refine ⟨?_, ?_, ?_, ?_, ?_⟩
  · cases t <;> decide
  · cases t <;> decide
  · cases t <;> decide
  · intro b; cases t <;> cases b <;> decide
  · intro b; cases t <;> cases b <;> decide

end Verif.Props
