import Verif.Proof.Base64
import Verif.Props.Search
/-!
# C12–C15: base64
-/
namespace Verif.Props
open Verif

/-! ## C13 -/

/-- **C13.** For every C string shorter than 3 GiB - 2 the encoder returns a block that is exactly the
RFC 4648 text and its terminator (so every allocated byte is written, none outside). -/
theorem C13_encode (m : Mem) (src : Nat) (s : List UInt8) (h : CStr m src s) (fuel : Nat)
    (hf : s.length / 8 < fuel) (hl : s.length + 2 < 3 * 2 ^ 30) :
    strEncode64 m src fuel = .ok (rfc4648 s ++ [0]) := by
  unfold strEncode64
  rw [(simdStrlen_spec h fuel hf).1]
  simp only
  have h1 := base64Len_toNat s.length (by omega)
  have h2 : (base64Len (BitVec.ofNat 64 s.length)).toNat = (rfc4648 s).length := by
    rw [h1, rfc4648_len, Nat.mod_eq_of_lt (a := 4 * s.length) (by omega),
      Nat.mod_eq_of_lt (b := 2 ^ 32) (by omega)]
    omega
  have h4 : (base64Len (BitVec.ofNat 64 s.length) + 1#64).toNat = (rfc4648 s).length + 1 := by
    have := rfc4648_len s
    rw [BitVec.toNat_add, h2, BitVec.toNat_ofNat]; omega
  have h5 : ¬ base64Len (BitVec.ofNat 64 s.length) + 1#64 < BitVec.ofNat 64 s.length := by
    have := rfc4648_len s
    rw [BitVec.lt_def, h4, BitVec.toNat_ofNat, Nat.mod_eq_of_lt (by omega)]; omega
  rw [if_neg h5, h4, encLoop_spec m s src 0 _ h.2.1 (by simp)]
  simp

/-- From there up the encoder refuses (returns `NULL`); it never writes out of bounds. -/
theorem C13_encode_refuses (m : Mem) (src : Nat) (s : List UInt8) (h : CStr m src s) (fuel : Nat)
    (hf : s.length / 8 < fuel) (hl : 3 * 2 ^ 30 ≤ s.length + 2) (hl2 : s.length < 2 ^ 64) :
    strEncode64 m src fuel = .null := by
  unfold strEncode64
  rw [(simdStrlen_spec h fuel hf).1]
  simp only
  have h1 := base64Len_toNat s.length (by omega)
  rw [if_pos]
  rw [BitVec.lt_def, BitVec.toNat_add, h1, BitVec.toNat_ofNat, BitVec.toNat_ofNat,
    Nat.mod_eq_of_lt hl2]
  by_cases h3 : s.length < 2 ^ 32
  · rw [Nat.mod_eq_of_lt (a := 4 * s.length) (by omega)]
    have h4 : (4 * s.length / 3 + 3) % 2 ^ 32 = 4 * s.length / 3 + 3 - 2 ^ 32 := by omega
    rw [h4, Nat.mod_eq_of_lt (a := 1) (by decide), Nat.mod_eq_of_lt (by omega)]
    omega
  · generalize 4 * s.length % 2 ^ 64 / 3 + 3 = y
    have h4 : y % 2 ^ 32 < 2 ^ 32 := Nat.mod_lt _ (by decide)
    rw [Nat.mod_eq_of_lt (a := 1) (by decide), Nat.mod_eq_of_lt (by omega)]
    omega

/-- The number of characters of the text. -/
theorem C13_length (s : List UInt8) : (rfc4648 s).length = 4 * ((s.length + 2) / 3) := rfc4648_len s

/-- The specification on the RFC's own test vectors. -/
example : rfc4648 "".toUTF8.toList = "".toUTF8.toList ∧
    rfc4648 "f".toUTF8.toList = "Zg==".toUTF8.toList ∧
    rfc4648 "fo".toUTF8.toList = "Zm8=".toUTF8.toList ∧
    rfc4648 "foo".toUTF8.toList = "Zm9v".toUTF8.toList ∧
    rfc4648 "foob".toUTF8.toList = "Zm9vYg==".toUTF8.toList ∧
    rfc4648 "fooba".toUTF8.toList = "Zm9vYmE=".toUTF8.toList ∧
    rfc4648 "foobar".toUTF8.toList = "Zm9vYmFy".toUTF8.toList := by decide +kernel

/-- Non-vacuity: a string with bytes above 127 at an odd address. -/
example : CStr (memOf 5 [0xff, 0xfe, 0x80, 0x01, 0] 9) 5 [0xff, 0xfe, 0x80, 0x01] ∧
    strEncode64 (memOf 5 [0xff, 0xfe, 0x80, 0x01, 0] 9) 5 3 = .ok ("//6AAQ==".toUTF8.toList ++ [0]) := by
  unfold CStr; decide +kernel

/-! ## C12 -/

/-- Encoding `s` and decoding the returned text, wherever it lies and whatever surrounds it,
returns a block that starts with `s` and its terminator. -/
def RoundTrips (m : Mem) (src : Nat) (s : List UInt8) : Prop :=
  ∀ fuel, s.length / 8 < fuel → ∃ block, strEncode64 m src fuel = .ok block ∧
    ∀ (m' : Mem) (src' : Nat) (junk : Nat → UInt8), Holds m' src' block →
      ∀ fuel', block.length / 8 < fuel' → ∃ block', strDecode64 m' src' fuel' junk = .ok block' ∧
        block'.take (s.length + 1) = s ++ [0]

/-- The full property C12. -/
def C12_Full : Prop := ∀ (m : Mem) (src : Nat) (s : List UInt8), CStr m src s →
  s.length + 2 < 3 * 2 ^ 30 → RoundTrips m src s

theorem rfc_CStr {m : Mem} {p : Nat} {s : List UInt8} (h : Holds m p (rfc4648 s ++ [0])) :
    CStr m p (rfc4648 s) := by
  refine ⟨?_, ?_, ?_⟩
  · intro b hb
    rcases rfc4648_chars s b hb with ⟨v, hv, rfl⟩ | rfl
    · exact (decTab_b64char v hv).2.2
    · decide
  · intro i hi
    rw [h i (by simp; omega), List.getElem_append_left hi]
  · rw [h (rfc4648 s).length (by simp)]; simp

/-- **C12 (partial).** Round trip for every non-empty string below 3 GiB - 2.
Missing (false): the empty string, see `C12_empty`. -/
theorem C12_roundtrip_partial (m : Mem) (src : Nat) (s : List UInt8) (h : CStr m src s)
    (hne : s ≠ []) (hl : s.length + 2 < 3 * 2 ^ 30) : RoundTrips m src s := by
  intro fuel hf
  refine ⟨_, C13_encode m src s h _ hf hl, ?_⟩
  intro m' src' junk hm' fuel' hf'
  have hc := rfc_CStr hm'
  have hlen := rfc4648_len s
  have hpos : 0 < s.length := List.length_pos_iff.2 hne
  simp only [List.length_append, List.length_singleton] at hf'
  unfold strDecode64
  rw [(simdStrlen_spec hc _ (by omega)).1]
  simp only
  have hcv : countValid m' src' 0 (rfc4648 s).length = (rfc4648 s).length :=
    countValid_all m' src' _ 0 hc.2.1 (fun b hb => (decTab_valid b).2 (rfc4648_chars s b hb))
  rw [hcv, if_neg (by omega)]
  obtain ⟨r, r1, r2, r3⟩ := decLoop_spec m' src' s 0 junk 0
    (List.replicate ((rfc4648 s).length / 4 * 3 + 1) 0) hc.2.1 (by simp; omega)
  exact ⟨r, r1, by simpa using r3⟩

/-- The empty string encodes to the empty text, which the decoder rejects with `NULL`. -/
theorem C12_empty (m : Mem) (src fuel : Nat) (junk : Nat → UInt8) (h : CStr m src [])
    (hf : 0 < fuel) : strEncode64 m src fuel = .ok [0] ∧ strDecode64 m src fuel junk = .null := by
  constructor
  · rw [C13_encode m src [] h fuel (by simpa using hf) (by decide)]; rfl
  · unfold strDecode64
    rw [(simdStrlen_spec h fuel (by simpa using hf)).1]
    rfl

theorem C12_full_false : ¬ C12_Full := by
  intro h
  have hc : CStr (fun _ => 0) 0 [] := by unfold CStr; simp
  obtain ⟨block, h1, h2⟩ := h (fun _ => 0) 0 [] hc (by decide) 1 (by decide)
  rw [(C12_empty _ 0 1 (fun _ => 0) hc (by decide)).1] at h1
  cases h1
  obtain ⟨block', h3, _⟩ := h2 (fun _ => 0) 0 (fun _ => 0)
    (by intro i hi; simp at hi; subst hi; rfl) 1 (by decide)
  rw [(C12_empty _ 0 1 (fun _ => 0) hc (by decide)).2] at h3
  cases h3

/-- Non-vacuity of the round trip theorem. -/
example : CStr (memOf 5 [0xff, 0xfe, 0x80, 0x01, 0] 9) 5 [0xff, 0xfe, 0x80, 0x01] := by
  unfold CStr; decide +kernel

/-! ## C14 -/

/-- **C14.** Decoding an arbitrary C string returns `NULL`, or a block all of whose stores were inside
the allocation (`.ok`: no `fault`), and which contains a terminator. -/
theorem C14_decode_inbounds (m : Mem) (src : Nat) (t : List UInt8) (h : CStr m src t) (fuel : Nat)
    (hf : t.length / 8 < fuel) (junk : Nat → UInt8) :
    strDecode64 m src fuel junk = .null ∨
      ∃ block, strDecode64 m src fuel junk = .ok block ∧ 0 ∈ block := by
  unfold strDecode64
  rw [(simdStrlen_spec h fuel hf).1]
  simp only
  by_cases h0 : countValid m src 0 t.length = 0 ∨ countValid m src 0 t.length % 4 ≠ 0
  · rw [if_pos h0]; exact Or.inl rfl
  · rw [if_neg h0]
    rcases decLoop_inbounds m src t.length 0 junk 0 0 0
      (List.replicate (countValid m src 0 t.length / 4 * 3 + 1) 0) (by omega) (by simp; omega) with
      h | ⟨r, r1, _, r3⟩
    · exact Or.inl h
    · exact Or.inr ⟨r, r1, r3⟩

/-- Non-vacuity: malformed text, `=` in the middle and invalid characters. -/
example : CStr (memOf 1 ("QU=I#Zm==".toUTF8.toList ++ [0])) 1 "QU=I#Zm==".toUTF8.toList ∧
    strDecode64 (memOf 1 ("QU=I#Zm==".toUTF8.toList ++ [0])) 1 3 (fun _ => 7)
      = .ok [65, 64, 0, 0, 0, 0, 0] := by
  unfold CStr; decide +kernel

/-! ## C15 -/

/-- The full property C15. -/
def C15_Full : Prop := ∀ (m : Mem) (src : Nat) (t : List UInt8), CStr m src t →
  ∀ fuel, t.length / 8 < fuel →
    (isBase64 m src fuel = some true ↔ ∃ s, t = rfc4648 s)

/-- **C15, what is decided exactly**: every character is an alphabet character or `=`. -/
theorem C15_is_base64_exact (m : Mem) (src : Nat) (t : List UInt8) (h : CStr m src t) (fuel : Nat)
    (hf : t.length / 8 < fuel) :
    ∃ r, isBase64 m src fuel = some r ∧ (r = true ↔ ∀ b ∈ t, IsB64Char b ∨ b = 61) := by
  unfold isBase64
  rw [(simdStrlen_spec h fuel hf).1]
  refine ⟨_, rfl, ?_⟩
  rw [isBase64Loop_iff m src t 0 h.2.1]
  exact forall₂_congr fun b _ => decTab_valid b

/-- **C15 (partial).** Every encoder output is recognised. Missing (false): the converse. -/
theorem C15_accepts_partial (m : Mem) (src : Nat) (s : List UInt8) (h : CStr m src (rfc4648 s))
    (fuel : Nat) (hf : (rfc4648 s).length / 8 < fuel) : isBase64 m src fuel = some true := by
  obtain ⟨r, r1, r2⟩ := C15_is_base64_exact m src _ h fuel hf
  rw [r1, r2.2 (rfc4648_chars s)]

example : CStr (memOf 1 ("Zm9vYmE=".toUTF8.toList ++ [0])) 1 (rfc4648 "fooba".toUTF8.toList) := by
  unfold CStr; decide +kernel

/-- `"A"` is accepted but is the encoding of nothing. -/
theorem C15_full_false : ¬ C15_Full := by
  intro h
  have := (h (memOf 0 [65, 0]) 0 [65] (by unfold CStr; decide +kernel) 1 (by decide)).1
    (by decide +kernel)
  obtain ⟨s, hs⟩ := this
  have h1 := rfc4648_len s
  rw [← hs] at h1
  simp at h1
  omega

end Verif.Props
