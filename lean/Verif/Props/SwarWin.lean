import Verif.Proof.SwarWin
import Verif.Props.Search
/-!
# C86: bit counts and reverse searches give the same answers on every platform

`countl_zero` is documented (`src/swar.c:54-55`) as the number of leading 0-bits, `countr_zero`
as the number of trailing 0-bits.  On Windows `countl_zero` returns the index of the highest set
bit instead, so every reverse search gives another answer there.
-/
namespace Verif.Props
open Verif

/-- The full property C86: on every platform, for every nonzero word `countl_zero` gives the number
of leading zeros and `countr_zero` the number of trailing zeros; and the reverse search of an
8-byte block gives the index of the last occurrence, or -1. -/
def C86_Full : Prop := ∀ win : Bool,
  (∀ (x : W) (k : Nat), countl win x = some k ↔
    k < 64 ∧ 2 ^ (63 - k) ≤ x.toNat ∧ x.toNat < 2 ^ (64 - k)) ∧
  (∀ (x : W) (k : Nat), countr win x = some k ↔ 2 ^ k ∣ x.toNat ∧ x.toNat / 2 ^ k % 2 = 1) ∧
  (∀ (m : Mem) (p : Nat) (c : UInt8),
    (∀ known j, IsLast m p 8 c j →
      memchr8R win false known (cast64 m p) c = some (BitVec.ofNat 32 j)) ∧
    (Absent m p 8 c → memchr8R win false false (cast64 m p) c = some (-1#32)))

/-- **C86 is false**: on Windows `countl_zero(1)` is 0. -/
theorem C86_full_false : ¬ C86_Full := by
  intro h
  have := ((h true).1 1#64 63).2 ⟨by decide, by decide, by decide⟩
  revert this
  decide +kernel

/-- **C86, everywhere but on Windows**: all of it. -/
theorem C86_unix_partial :
    (∀ (x : W) (k : Nat), countl false x = some k ↔
      k < 64 ∧ 2 ^ (63 - k) ≤ x.toNat ∧ x.toNat < 2 ^ (64 - k)) ∧
    (∀ (x : W) (k : Nat), countr false x = some k ↔
      2 ^ k ∣ x.toNat ∧ x.toNat / 2 ^ k % 2 = 1) ∧
    (∀ (m : Mem) (p : Nat) (c : UInt8),
      (∀ known j, IsLast m p 8 c j →
        memchr8R false false known (cast64 m p) c = some (BitVec.ofNat 32 j)) ∧
      (Absent m p 8 c → memchr8R false false false (cast64 m p) c = some (-1#32))) := by
  refine ⟨countl_unix_iff, countr_iff false, fun m p c => ⟨fun known j h => ?_, fun h => ?_⟩⟩
  · rw [memchr8R_unix]; exact memchr8X_last m p c false known (fun e => by cases e) h
  · rw [memchr8R_unix]; exact memchr8X_none m p c false true (fun e => by cases e) h

/-- **C86, trailing zeros**: right on every platform. -/
theorem C86_trailing_partial (win : Bool) (x : W) (k : Nat) :
    countr win x = some k ↔ 2 ^ k ∣ x.toNat ∧ x.toNat / 2 ^ k % 2 = 1 := countr_iff win x k

/-- What `countl_zero` gives on Windows, for every word: the position of the highest set bit. -/
theorem C86_windows_leading (x : W) (k : Nat) :
    countl true x = some k ↔ 2 ^ k ≤ x.toNat ∧ x.toNat < 2 ^ (k + 1) := countl_win_iff x k

/-- It is never the number of leading zeros: the two add up to 63, which is odd. -/
theorem C86_windows_never_right (x : W) (k : Nat) (h : countl false x = some k) :
    countl true x = some (63 - k) ∧ countl true x ≠ some k := by
  refine ⟨countl_swap h, ?_⟩
  rw [countl_swap h]
  have := ((countl_unix_iff x k).1 h).1
  intro e
  have := Option.some.inj e
  omega

/-- **The reverse search of a block on Windows**, for every block and byte: the last occurrence at
`j` is reported at `7 - j` (byte known to exist) or `6 - j` (not known), and an absent byte is
reported at 7.  With the byte known to exist this is never `j`. -/
theorem C86_windows_block (m : Mem) (p : Nat) (c : UInt8) (printable : Bool)
    (hpr : printable = true → (∀ i < 8, (m (p + i)).toNat < 128) ∧ c.toNat < 128) :
    (∀ j, IsLast m p 8 c j →
      memchr8R true printable true (cast64 m p) c = some (BitVec.ofNat 32 (7 - j)) ∧
      memchr8R true printable false (cast64 m p) c = some (BitVec.ofInt 32 (6 - j)) ∧
      7 - j ≠ j) ∧
    (Absent m p 8 c → memchr8R true printable false (cast64 m p) c = some 7#32) := by
  refine ⟨fun j h => ?_, memchr8R_win_none m p c printable hpr⟩
  have := memchr8R_win_last m p c printable hpr h
  exact ⟨this.1, this.2, by have := h.1; omega⟩

/-- **The backward search on Windows**: with more than 8 bytes, none of the 8 bytes after the
buffer equal to `c` and the last occurrence at an offset `j ≥ 8`, the search under `simd_memrchr`
gives `j` with its last three bits flipped, where every other platform gives `j`. -/
theorem C86_windows_memrchr (m : Int → UInt8) (s : Int) (n : Nat) (c : UInt8) (fuel j : Nat)
    (hn : 8 < n) (h32 : n < 2 ^ 32) (hf : n ≤ fuel)
    (hafter : Absent (fun i => m (s + i)) n 8 c)
    (hj : IsLast (fun i => m (s + i)) 0 n c j) (hj8 : 8 ≤ j) :
    memrchrR false m false false s n c fuel = some (BitVec.ofNat 32 j) ∧
    memrchrR true m false false s n c fuel = some (BitVec.ofNat 32 j ^^^ 7#32) := by
  have h1 : memrchrR false m false false s n c fuel = some (BitVec.ofNat 32 j) := by
    rw [memrchrR_unix]
    exact C04_memrchr_offset_partial m s n c fuel j hn hf hafter hj hj8
  refine ⟨h1, ?_⟩
  have ha : ∀ i : Nat, i < 8 → m (s + n + i) ≠ c := by
    intro i hi
    have := hafter i hi
    simpa [Int.add_assoc] using this
  rcases memrchr_mirrored m false s n c fuel (by omega) ha with h | h | ⟨k, h2, h3⟩
  · rw [h1] at h; cases h.1
  · rw [h1] at h
    have hlt : j < n := hj.1
    have := congrArg BitVec.toNat (Option.some.inj h.1)
    rw [BitVec.toNat_ofNat, Nat.mod_eq_of_lt (by omega)] at this
    have e : (-1#32 : BitVec 32).toNat = 4294967295 := by decide
    omega
  · rw [h1] at h2; cases h2; exact h3

theorem xor7 (j : Nat) (hj : j < 2 ^ 32) :
    (BitVec.ofNat 32 j ^^^ 7#32).toNat = 8 * (j / 8) + (7 - j % 8) := by
  have h := mirror_xor ((j / 8 : Nat) : Int) (k := j % 8) (by omega)
  have e : BitVec.ofInt 32 (8 * ((j / 8 : Nat) : Int)) = BitVec.ofNat 32 (8 * (j / 8)) := by
    rw [show (8 : Int) * ((j / 8 : Nat) : Int) = ((8 * (j / 8) : Nat) : Int) by omega]
    exact BitVec.ofInt_natCast _ _
  rw [e, ← BitVec.ofNat_add, ← BitVec.ofNat_add, show 8 * (j / 8) + j % 8 = j by omega] at h
  rw [← h, BitVec.toNat_ofNat, Nat.mod_eq_of_lt (by omega)]

/-- **`simd_memrchr` on Windows** returns the last occurrence exactly when its offset is 2 more
than a multiple of 8: the flipped bits and the final `- 3` then cancel out.  (Elsewhere it is
always 3 bytes too low, `C04_memrchr_wrong`.) -/
theorem C86_windows_simd_memrchr (m : Int → UInt8) (s : Int) (n : Nat) (c : UInt8) (fuel j : Nat)
    (hn : 8 < n) (h32 : n < 2 ^ 32) (hf : n ≤ fuel) (hafter : Absent (fun i => m (s + i)) n 8 c)
    (hj : IsLast (fun i => m (s + i)) 0 n c j) (hj8 : 8 ≤ j) :
    simdMemrchrR true m s c n fuel = some (s + (8 * (j / 8) + (7 - j % 8) : Nat) - 3) ∧
    (simdMemrchrR true m s c n fuel = some (s + j) ↔ j % 8 = 2) := by
  have hlt : j < n := hj.1
  have h : simdMemrchrR true m s c n fuel
      = some (s + (8 * (j / 8) + (7 - j % 8) : Nat) - 3) := by
    unfold simdMemrchrR
    rw [(C86_windows_memrchr m s n c fuel j hn h32 hf hafter hj hj8).2, Option.map_some,
      xor7 j (by omega)]
  refine ⟨h, ?_⟩
  rw [h, Option.some.injEq]
  omega

/-- **`memrchrk` and `pmemrchrk`, everywhere but on Windows**: for every buffer of any length that
holds the byte, with none of the 8 bytes after the buffer equal to it, they give the offset of the
last occurrence (`pmemrchrk` for 7-bit text). -/
theorem C86_known_partial (m : Int → UInt8) (s : Int) (n : Nat) (c : UInt8) (fuel j : Nat)
    (hf : n ≤ fuel) (hafter : Absent (fun i => m (s + i)) n 8 c)
    (hj : IsLast (fun i => m (s + i)) 0 n c j) :
    memrchrk false m s n c fuel = some (BitVec.ofNat 32 j) ∧
    ((∀ i : Nat, i < n + 8 → (m (s + i)).toNat < 128) → c.toNat < 128 →
      pmemrchrk false m s n c fuel = some (BitVec.ofNat 32 j)) := by
  have ha : ∀ i : Nat, i < 8 → m (s + n + i) ≠ c := by
    intro i hi
    have := hafter i hi
    simpa [Int.add_assoc] using this
  have h2 : m (s + j) = c := by simpa using hj.2.1
  have h3 : ∀ i : Nat, j < i → i < n → m (s + i) ≠ c := by
    intro i h4 h5; simpa using hj.2.2 i h4 h5
  refine ⟨?_, fun h4 h5 => ?_⟩
  · unfold memrchrk
    rw [memrchrR_unix]
    exact memrchr'_known m false s n c fuel j hf ha (fun e => by cases e) hj.1 h2 h3
  · unfold pmemrchrk
    rw [memrchrR_unix]
    exact memrchr'_known m true s n c fuel j hf ha (fun _ => ⟨h4, h5⟩) hj.1 h2 h3

/-- **`memrchrk` on Windows**: on all of those buffers the offset comes out with its last three
bits flipped, so it is never the last occurrence. -/
theorem C86_windows_memrchrk (m : Int → UInt8) (s : Int) (n : Nat) (c : UInt8) (fuel j : Nat)
    (h32 : n < 2 ^ 32) (hf : n ≤ fuel) (hafter : Absent (fun i => m (s + i)) n 8 c)
    (hj : IsLast (fun i => m (s + i)) 0 n c j) :
    memrchrk true m s n c fuel = some (BitVec.ofNat 32 j ^^^ 7#32) ∧
    memrchrk true m s n c fuel ≠ some (BitVec.ofNat 32 j) := by
  have h1 := (C86_known_partial m s n c fuel j hf hafter hj).1
  have hlt : j < n := hj.1
  have ha : ∀ i : Nat, i < 8 → m (s + n + i) ≠ c := by
    intro i hi
    have := hafter i hi
    simpa [Int.add_assoc] using this
  have h2 : memrchrk true m s n c fuel = some (BitVec.ofNat 32 j ^^^ 7#32) := by
    unfold memrchrk at h1 ⊢
    rcases memrchr_mirrored m true s n c fuel (by omega) ha with h | h | ⟨k, h2, h3⟩
    · rw [h1] at h; cases h.1
    · rw [h1] at h
      have := congrArg BitVec.toNat (Option.some.inj h.1)
      rw [BitVec.toNat_ofNat, Nat.mod_eq_of_lt (by omega)] at this
      have e : (-1#32 : BitVec 32).toNat = 4294967295 := by decide
      omega
    · rw [h1] at h2; cases h2; exact h3
  refine ⟨h2, ?_⟩
  rw [h2]
  intro e
  have := congrArg BitVec.toNat (Option.some.inj e)
  rw [xor7 j (by omega), BitVec.toNat_ofNat,
    Nat.mod_eq_of_lt (show j < 2 ^ 32 by omega)] at this
  omega

/-- The word 0x00ff...: 8 leading zeros, highest bit 55. -/
example : countl false 0x00ff000000000000#64 = some 8 ∧ countl true 0x00ff000000000000#64 = some 55 ∧
    countr true 0x00ff000000000000#64 = some 48 := by decide +kernel

/-- "aXbXcdef": last 'X' at 3; Windows says 4 (known) or 3 (not known: 6 - 3); no 'z': 7. -/
example : IsLast (memOf 9 "aXbXcdef".toUTF8.toList) 9 8 88 3 ∧
    memchr8R true false true (cast64 (memOf 9 "aXbXcdef".toUTF8.toList) 9) 88 = some 4#32 ∧
    memchr8R true true false (cast64 (memOf 9 "aXbXcdef".toUTF8.toList) 9) 88 = some 3#32 ∧
    memchr8R true false false (cast64 (memOf 9 "aXbXcdef".toUTF8.toList) 9) 0x7a = some 7#32 := by
  refine ⟨⟨by decide, by decide +kernel, fun i h1 h2 => ?_⟩, by decide +kernel, by decide +kernel,
    by decide +kernel⟩
  rcases (by omega : i = 4 ∨ i = 5 ∨ i = 6 ∨ i = 7) with rfl | rfl | rfl | rfl <;>
    decide +kernel

/-- 16 bytes with the byte at offset 11 only: the hypotheses of the backward search. -/
example : Absent (fun i => mR (1 + i)) 16 8 7 ∧ IsLast (fun i => mR (1 + i)) 0 16 7 11 ∧
    simdMemrchrR true mR 1 7 16 16 = some 10 ∧ memrchrk true mR 1 16 7 16 = some 12#32 ∧
    pmemrchr true mR 1 16 7 16 = some 12#32 ∧ pmemrchrk false mR 1 16 7 16 = some 11#32 := by
  refine ⟨by unfold Absent; decide, ⟨by decide, by decide, ?_⟩, by decide +kernel, by decide +kernel,
    by decide +kernel, by decide +kernel⟩
  intro i h1 h2
  have : (1 : Int) + ((0 + i : Nat) : Int) ≠ 12 := by omega
  simp only [mR]
  rw [if_neg this]; decide

/-- A 3-byte buffer with the byte at offset 1. -/
def mR3 : Int → UInt8 := fun a => if a = 2 then 7 else 65

example : Absent (fun i => mR3 (1 + i)) 3 8 7 ∧ IsLast (fun i => mR3 (1 + i)) 0 3 7 1 ∧
    memrchrk false mR3 1 3 7 3 = some 1#32 ∧ memrchrk true mR3 1 3 7 3 = some 6#32 := by
  refine ⟨by unfold Absent; decide, ⟨by decide, by decide, ?_⟩, by decide +kernel, by decide +kernel⟩
  intro i h1 h2
  rcases (by omega : i = 2) with rfl
  decide

end Verif.Props
