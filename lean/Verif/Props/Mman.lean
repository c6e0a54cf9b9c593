import Verif.Spec.Mman
/-!
# C48, C54, C55: memory mapping on Windows
-/
namespace Verif.Mm

theorem and_bit (p : D) (k : Nat) (hk : k < 32) : (p &&& BitVec.twoPow 32 k ≠ 0) ↔ has p k = true := by
  unfold has
  constructor
  · intro h
    cases e : p.getLsbD k with
    | true => rfl
    | false =>
      refine absurd ?_ h
      apply BitVec.eq_of_getLsbD_eq
      intro i hi
      rw [BitVec.getLsbD_and, BitVec.getLsbD_twoPow]
      by_cases hik : k = i
      · subst hik; simp [e]
      · simp [hik]
  · intro h e
    have := congrArg (fun v => BitVec.getLsbD v k) e
    rw [BitVec.getLsbD_and, BitVec.getLsbD_twoPow, h] at this
    simp [hk] at this

theorem bit_decide (p : D) (k : Nat) (hk : k < 32) : decide (p &&& BitVec.twoPow 32 k ≠ 0) = has p k := by
  cases h : has p k with
  | true => exact decide_eq_true ((and_bit p k hk).2 h)
  | false => exact decide_eq_false fun c => by rw [(and_bit p k hk).1 c] at h; cases h

theorem bitR (p : D) : (p &&& PROT_READ ≠ 0) ↔ (wants p).r = true := and_bit p 0 (by decide)
theorem bitW (p : D) : (p &&& PROT_WRITE ≠ 0) ↔ (wants p).w = true := and_bit p 1 (by decide)
theorem bitX (p : D) : (p &&& PROT_EXEC ≠ 0) ↔ (wants p).x = true := and_bit p 2 (by decide)

theorem none_wants : wants PROT_NONE = ⟨false, false, false⟩ := by decide

/-- The view access asked for. -/
theorem access_rights (p : D) :
    viewRights (protFile p) = ⟨(wants p).r || (wants p).w, (wants p).w, (wants p).x⟩ ∧ has (protFile p) 0 = false := by
  unfold protFile
  split
  · next h => rw [h]; decide
  · dsimp only
    simp only [bitR, bitW, bitX]
    cases (wants p).r <;> cases (wants p).w <;> cases (wants p).x <;> decide

/-- The page protection asked for. -/
theorem page_rights (p : D) (h : p ≠ 0) : pageRights (protPage p) = some ⟨true, (wants p).w, (wants p).x⟩ ∧ protPage p ≠ 0 := by
  unfold protPage
  have h : ¬ p = PROT_NONE := h
  rw [if_neg h]
  simp only [bitW, bitX]
  cases (wants p).w <;> cases (wants p).x <;> decide

theorem section_rights (zero : Bool) (p : D) {s : Rights} (h : sectionRights zero (protPage p) = some s) : s = ⟨true, (wants p).w, (wants p).x⟩ := by
  by_cases hp : p = 0
  · subst hp
    cases zero
    · have : sectionRights false (protPage 0) = none := by decide
      rw [this] at h
      cases h
    · have : sectionRights true (protPage 0) = some ⟨true, false, false⟩ := by decide
      rw [this] at h
      cases h
      rfl
  · obtain ⟨h1, h2⟩ := page_rights p hp
    unfold sectionRights at h
    rw [if_neg h2, h1] at h
    cases h
    rfl

theorem system_view {zero : Bool} {q : Req} {f : File} {v : View} (h : (system zero q f).2 = some v) :
    v = ⟨join q.offHigh q.offLow, q.len.toNat, viewRights q.access, !has q.access 0⟩ ∧
      join q.offHigh q.offLow + q.len.toNat ≤ sectionSize q f := by
  unfold system at h
  cases hs : sectionRights zero q.protect with
  | none => rw [hs] at h; cases h
  | some s =>
    rw [hs] at h
    dsimp only at h
    by_cases h1 : sectionSize q f = 0
    · rw [if_pos h1] at h; cases h
    · rw [if_neg h1] at h
      by_cases h2 : q.anonymous = false ∧ f.length < sectionSize q f ∧ s.w = false
      · rw [if_pos h2] at h; cases h
      · rw [if_neg h2] at h
        unfold mapView at h
        dsimp only at h
        split at h
        · cases h
        · split at h
          · cases h
          · next h3 =>
            simp only [Option.some.injEq] at h
            exact ⟨h.symm, Nat.le_of_not_lt h3⟩

theorem join_split (x : Q) : join ((x.sshiftRight 32 &&& 0xFFFFFFFF).setWidth 32) ((x &&& 0xFFFFFFFF).setWidth 32) = x.toNat := by
  have hm : (0xFFFFFFFF : Q).toNat = 2 ^ 32 - 1 := rfl
  have h1 : ((x.sshiftRight 32 &&& 0xFFFFFFFF).setWidth 32 : D) = (x >>> 32).setWidth 32 := by
    apply BitVec.eq_of_getLsbD_eq
    intro i hi
    have : (0xFFFFFFFF : Q) = BitVec.setWidth 64 (BitVec.allOnes 32) := by decide
    rw [this]
    have h2 : 32 + i < 64 := by omega
    have h3 : i < 64 := by omega
    simp only [BitVec.getLsbD_setWidth, BitVec.getLsbD_and, BitVec.getLsbD_sshiftRight, BitVec.getLsbD_ushiftRight,
      BitVec.getLsbD_allOnes, hi, h2, h3]
    simp
    intro h
    omega
  rw [h1]
  unfold join
  rw [BitVec.toNat_setWidth, BitVec.toNat_setWidth, BitVec.toNat_and, hm, Nat.and_two_pow_sub_one_eq_mod, BitVec.toNat_ushiftRight,
    Nat.shiftRight_eq_div_pow]
  have := x.isLt
  omega

/-- What `mmap` asks for. -/
theorem mmap64_asked {len off : Q} {prot flags : D} (hl : len ≠ 0) (hx : prot ≠ PROT_EXEC) :
    ∃ q, mmap64 len prot flags off = .asked q ∧ q.protect = protPage prot ∧ q.anonymous = decide (flags &&& MAP_ANONYMOUS ≠ 0) ∧
      join q.sizeHigh q.sizeLow = (off + len).toNat ∧ q.access = protFile prot ∧ join q.offHigh q.offLow = off.toNat ∧ q.len = len := by
  unfold mmap64
  dsimp only
  rw [if_neg (by rintro (h | h) <;> contradiction)]
  exact ⟨_, rfl, rfl, rfl, join_split _, rfl, join_split _, rfl⟩

end Verif.Mm

namespace Verif.Props
open Verif Verif.Mm

/-- C48, `mmap`: for every protection mask, a view that was mapped has exactly the rights asked for, except
that a writable one can be read; and no right at all for `PROT_NONE`. -/
theorem C48_mmap_rights (zero : Bool) (len off : Q) (prot flags : D) (f : File) (v : View)
    (h : ((mmap64 len prot flags off).run zero f).2 = some v) :
    v.rights = ⟨(wants prot).r || (wants prot).w, (wants prot).w, (wants prot).x⟩ := by
  unfold mmap64 at h
  dsimp only at h
  split at h
  · cases h
  · rw [(system_view h).1]
    exact (access_rights prot).1

/-- C48, `mmap`, 32-bit build. -/
theorem C48_mmap32_rights (zero : Bool) (len off : D) (prot flags : D) (f : File) (v : View)
    (h : ((mmap32 len prot flags off).run zero f).2 = some v) :
    v.rights = ⟨(wants prot).r || (wants prot).w, (wants prot).w, (wants prot).x⟩ := by
  unfold mmap32 at h
  split at h
  · cases h
  · rw [(system_view h).1]
    exact (access_rights prot).1

/-- C48: every mask except `PROT_NONE` and `PROT_EXEC` alone is served: inside the file, nothing is refused. -/
theorem C48_mmap_served (zero : Bool) (len off : Q) (prot flags : D) (f : File) (h0 : prot ≠ PROT_NONE) (hx : prot ≠ PROT_EXEC)
    (hl : len ≠ 0) (hf : off.toNat + len.toNat ≤ f.length) (hs : off.toNat + len.toNat < 2 ^ 63) (ha : flags &&& MAP_ANONYMOUS = 0) :
    ∃ v, (mmap64 len prot flags off).run zero f = (f, some v) ∧ v.off = off.toNat ∧ v.len = len.toNat := by
  obtain ⟨p1, p2⟩ := page_rights prot h0
  have hsum : (off + len).toNat = off.toNat + len.toNat := by rw [BitVec.toNat_add]; exact Nat.mod_eq_of_lt (by omega)
  have hl0 : 0 < len.toNat := by
    rcases Nat.eq_zero_or_pos len.toNat with h | h
    · exact absurd (BitVec.eq_of_toNat_eq h) hl
    · exact h
  refine ⟨⟨off.toNat, len.toNat, viewRights (protFile prot), !has (protFile prot) 0⟩, ?_, rfl, rfl⟩
  obtain ⟨q, e, hp, ha', hz, hacc, ho, hlen⟩ := mmap64_asked (prot := prot) (flags := flags) (off := off) hl hx
  rw [e]
  show system zero q f = _
  have hsz : sectionSize q f = off.toNat + len.toNat := by
    unfold sectionSize
    rw [hz, hsum, if_neg (by omega)]
  have han : q.anonymous = false := by rw [ha', ha]; rfl
  unfold system sectionRights
  rw [hp, if_neg p2, p1]
  dsimp only
  rw [if_neg (by omega), if_neg (by omega)]
  have hext : extended q f = f := by
    unfold extended
    rw [han, hsz, Nat.sub_eq_zero_of_le hf]
    simp
  rw [hext]
  unfold mapView
  dsimp only
  rw [ho, hlen, hacc, hsz, (access_rights prot).1]
  have : ((((wants prot).r || (wants prot).w) && !true) || ((wants prot).w && !(wants prot).w) || ((wants prot).x && !(wants prot).x)) = false := by
    cases (wants prot).r <;> cases (wants prot).w <;> cases (wants prot).x <;> rfl
  dsimp only
  rw [this, if_neg (by simp), if_neg (by omega)]

example : (3 : D) ≠ PROT_NONE ∧ (3 : D) ≠ PROT_EXEC ∧ (MAP_SHARED &&& MAP_ANONYMOUS = 0) ∧
    wants 3 = ⟨true, true, false⟩ := by decide

/-- C48, `mprotect`: for every mask, if the system accepts, writing and executing are allowed exactly if asked
for, and reading if it was asked for. -/
theorem C48_mprotect_rights (prot : D) (r : Rights) (h : pageRights (mprotect prot) = some r) :
    r.w = (wants prot).w ∧ r.x = (wants prot).x ∧ ((wants prot).r = true → r.r = true) := by
  by_cases hp : prot = 0
  · subst hp
    have : pageRights (mprotect 0) = none := by decide
    rw [this] at h
    cases h
  · unfold mprotect at h
    rw [(page_rights prot hp).1] at h
    cases h
    exact ⟨rfl, rfl, fun _ => rfl⟩

/-- C48, `mprotect`: refused exactly for `PROT_NONE`. -/
theorem C48_mprotect_refused (prot : D) : pageRights (mprotect prot) = none ↔ prot = PROT_NONE := by
  constructor
  · intro h
    by_cases hp : prot = 0
    · exact hp
    · unfold mprotect at h
      rw [(page_rights prot hp).1] at h
      cases h
  · rintro rfl; decide

example : pageRights (mprotect 5) = some ⟨true, false, true⟩ := by decide

/-- C54, the full statement: nothing done with a private mapping changes the file. -/
def C54_Full : Prop := ∀ (zero : Bool) (len off : Q) (prot flags : D) (f : File), flags &&& MAP_PRIVATE ≠ 0 →
  ((mmap64 len prot flags off).run zero f).1 = f ∧
  ∀ v, ((mmap64 len prot flags off).run zero f).2 = some v → ∀ i b, store v i b f = f

/-- C54 is false: a store through a private mapping is in the file. -/
theorem C54_full_false : ¬ C54_Full := by
  intro h
  have := (h true 1 0 3 MAP_PRIVATE [7] (by decide)).2 ⟨0, 1, ⟨true, true, false⟩, true⟩ (by decide) 0 9
  exact absurd this (by decide)

/-- Every writable mapping of a file is shared, private or not. -/
theorem C54_private_ignored (zero : Bool) (len off : Q) (prot flags : D) (f : File) (v : View)
    (h : ((mmap64 len prot flags off).run zero f).2 = some v) : v.shared = true := by
  unfold mmap64 at h
  dsimp only at h
  split at h
  · cases h
  · rw [(system_view h).1]
    dsimp only
    rw [(access_rights prot).2]
    rfl

/-- C54 for mappings without `PROT_WRITE`: neither making the mapping nor using it changes the file.
Missing: writable private mappings. -/
theorem C54_readonly_partial (zero : Bool) (len off : Q) (prot flags : D) (f : File) (hw : (wants prot).w = false) :
    ((mmap64 len prot flags off).run zero f).1 = f ∧
    ∀ v, ((mmap64 len prot flags off).run zero f).2 = some v → ∀ i b, store v i b f = f := by
  constructor
  · by_cases hr : len = 0 ∨ prot = PROT_EXEC
    · unfold mmap64
      dsimp only
      rw [if_pos hr]
      rfl
    · obtain ⟨q, e, hp, _⟩ := mmap64_asked (prot := prot) (flags := flags) (off := off) (fun h => hr (.inl h)) (fun h => hr (.inr h))
      rw [e]
      show (system zero q f).1 = f
      unfold system
      cases hs : sectionRights zero q.protect with
      | none => rfl
      | some s =>
        have hsw : s.w = false := by rw [hp] at hs; rw [section_rights zero prot hs]; exact hw
        dsimp only
        split
        · rfl
        · split
          · rfl
          · next hn =>
            show extended q f = f
            unfold extended
            cases ha : q.anonymous with
            | true => rfl
            | false =>
              have : ¬ f.length < sectionSize q f := fun x => hn ⟨ha, x, hsw⟩
              rw [Nat.sub_eq_zero_of_le (by omega)]
              simp
  · intro v h i b
    have hr := C48_mmap_rights zero len off prot flags f v h
    unfold store
    rw [hr, hw]
    simp

example : (wants PROT_READ).w = false ∧ (MAP_PRIVATE &&& MAP_PRIVATE ≠ 0) := by decide

/-- A writable mapping past the end of the file extends the file. -/
theorem C54_extends (zero : Bool) (f : File) (prot flags : D) (len off : Q) (v : View) (ha : flags &&& MAP_ANONYMOUS = 0)
    (hs : off.toNat + len.toNat < 2 ^ 63) (h : ((mmap64 len prot flags off).run zero f).2 = some v) (hw : (wants prot).w = true)
    (hl : f.length < off.toNat + len.toNat) :
    ((mmap64 len prot flags off).run zero f).1 = f ++ List.replicate (off.toNat + len.toNat - f.length) 0 := by
  have hsum : (off + len).toNat = off.toNat + len.toNat := by rw [BitVec.toNat_add]; exact Nat.mod_eq_of_lt (by omega)
  have hp0 : prot ≠ 0 := by rintro rfl; cases hw
  obtain ⟨p1, p2⟩ := page_rights prot hp0
  by_cases hr : len = 0 ∨ prot = PROT_EXEC
  · unfold mmap64 at h
    dsimp only at h
    rw [if_pos hr] at h
    cases h
  · obtain ⟨q, e, hp, ha', hz, _⟩ := mmap64_asked (prot := prot) (flags := flags) (off := off) (fun h => hr (.inl h)) (fun h => hr (.inr h))
    rw [e]
    have hsz : sectionSize q f = off.toNat + len.toNat := by
      unfold sectionSize
      rw [hz, hsum, if_neg (by omega)]
    have han : q.anonymous = false := by rw [ha', ha]; rfl
    show (system zero q f).1 = _
    unfold system sectionRights
    rw [hp, if_neg p2, p1]
    dsimp only
    rw [if_neg (by omega), if_neg (by rw [hw]; simp)]
    show extended q f = _
    unfold extended
    rw [han, hsz]
    rfl

/-- A private mapping of three bytes of a file of one. -/
example : ((mmap64 3 3 MAP_PRIVATE 0).run false [7]).1 = [7, 0, 0] := by decide

/-- C55, 64-bit build: offset and size asked of the system are those of the caller, for every offset and
length whose end is representable; and the view covers exactly the range asked for. -/
theorem C55_range (zero : Bool) (len off : Q) (prot flags : D) (f : File) (v : View)
    (h : ((mmap64 len prot flags off).run zero f).2 = some v) : v.off = off.toNat ∧ v.len = len.toNat := by
  unfold mmap64 at h
  dsimp only at h
  split at h
  · cases h
  · rw [(system_view h).1]
    exact ⟨join_split off, rfl⟩

/-- C55, 32-bit build. -/
theorem C55_range32 (zero : Bool) (len off : D) (prot flags : D) (f : File) (v : View)
    (h : ((mmap32 len prot flags off).run zero f).2 = some v) : v.off = off.toNat ∧ v.len = len.toNat := by
  unfold mmap32 at h
  split at h
  · cases h
  · rw [(system_view h).1]
    refine ⟨by simp [join], ?_⟩
    have := len.isLt
    simp
    omega

/-- C55: an address is asked for exactly with `MAP_FIXED` (bit 4), the section is anonymous exactly with `MAP_ANONYMOUS` (bit 5). -/
theorem C55_fixed (len off : Q) (prot flags : D) (q : Req) (h : mmap64 len prot flags off = .asked q) : q.fixed = has flags 4 ∧ q.anonymous = has flags 5 := by
  unfold mmap64 at h
  dsimp only at h
  split at h
  · cases h
  · cases h
    constructor
    · exact bit_decide flags 4 (by decide)
    · exact bit_decide flags 5 (by decide)

theorem C55_fixed32 (len off : D) (prot flags : D) (q : Req) (h : mmap32 len prot flags off = .asked q) : q.fixed = has flags 4 ∧ q.anonymous = has flags 5 := by
  unfold mmap32 at h
  split at h
  · cases h
  · cases h
    constructor
    · exact bit_decide flags 4 (by decide)
    · exact bit_decide flags 5 (by decide)

example : ∃ q, mmap32 1 3 0x12 0 = .asked q ∧ q.fixed = true ∧ q.anonymous = false := ⟨_, rfl, by decide, by decide⟩

/-- C55: a mapping of no bytes, or that can only be executed, is refused, and no other, before the system is asked. -/
theorem C55_refused (len off : Q) (prot flags : D) : mmap64 len prot flags off = .refused ↔ len = 0 ∨ prot = PROT_EXEC := by
  unfold mmap64
  dsimp only
  split
  · next h => exact ⟨fun _ => h, fun _ => rfl⟩
  · next h => exact ⟨(fun e => by cases e), fun e => absurd e h⟩

theorem C55_refused32 (len off : D) (prot flags : D) : mmap32 len prot flags off = .refused ↔ len = 0 ∨ prot = PROT_EXEC := by
  unfold mmap32
  split
  · next h => exact ⟨fun _ => h, fun _ => rfl⟩
  · next h => exact ⟨(fun e => by cases e), fun e => absurd e h⟩

/-- C55: an offset and length whose end wraps around is refused, unless the end is exactly 2³² in the 32-bit
build (then the size asked for is 0: the whole file). -/
theorem C55_wrap32 (zero : Bool) (len off : D) (prot flags : D) (f : File) (hw : 2 ^ 32 < off.toNat + len.toNat) :
    ((mmap32 len prot flags off).run zero f).2 = none := by
  cases e : ((mmap32 len prot flags off).run zero f).2 with
  | none => rfl
  | some v =>
    unfold mmap32 at e
    split at e
    · cases e
    · have h2 := (system_view e).2
      have a := off.isLt
      have b := len.isLt
      unfold sectionSize join at h2
      simp only [BitVec.toNat_add, BitVec.toNat_setWidth] at h2
      rw [Nat.mod_eq_of_lt (by omega : len.toNat < 2 ^ 64)] at h2
      rw [if_neg] at h2
      · simp at h2; omega
      · simp; omega

example : ((mmap64 1 1 MAP_SHARED 0).run true [7]).2 = some ⟨0, 1, ⟨true, false, false⟩, true⟩ := by decide

end Verif.Props
