import Verif.Spec.Array
namespace Verif

theorem umullOverflow_eq (a b : W) :
    umullOverflow a b = if a.toNat * b.toNat < 2 ^ 64 then some (a * b) else none := by
  unfold umullOverflow
  have hmax : SIZE_MAX.toNat = 2 ^ 64 - 1 := by decide
  have hno : MUL_NO_OVERFLOW.toNat = 2 ^ 32 := by decide
  have ha := a.isLt
  have hb := b.isLt
  simp only [ge_iff_le, gt_iff_lt, BitVec.le_def, BitVec.lt_def, BitVec.toNat_udiv, hmax, hno]
  by_cases h0 : a.toNat = 0
  · rw [if_neg (by simp [h0]), if_pos (by simp [h0])]
  · have hpos : 0 < a.toNat := by omega
    have hdiv : (2 ^ 64 - 1) / a.toNat < b.toNat ↔ ¬ a.toNat * b.toNat < 2 ^ 64 := by
      rw [Nat.div_lt_iff_lt_mul hpos, Nat.mul_comm b.toNat]; omega
    by_cases h : a.toNat * b.toNat < 2 ^ 64
    · rw [if_pos h, if_neg]
      rintro ⟨-, -, h2⟩
      exact hdiv.1 h2 h
    · rw [if_neg h, if_pos]
      refine ⟨?_, by simpa using hpos, hdiv.2 h⟩
      by_cases h1 : 2 ^ 32 ≤ a.toNat
      · exact .inl h1
      · by_cases h2 : 2 ^ 32 ≤ b.toNat
        · exact .inr h2
        · exfalso
          have : a.toNat * b.toNat < 2 ^ 32 * 2 ^ 32 :=
            Nat.mul_lt_mul_of_lt_of_le (by omega) (by omega) (by decide)
          omega

theorem addOverflow_eq (a : W) :
    addOverflow a INCREMENT = if a.toNat + 16 < 2 ^ 64 then some (a + INCREMENT) else none := by
  unfold addOverflow
  have hmax : SIZE_MAX.toNat = 2 ^ 64 - 1 := by decide
  have hi : INCREMENT.toNat = 16 := by decide
  have ha := a.isLt
  have hs : (SIZE_MAX - a).toNat = 2 ^ 64 - 1 - a.toNat := by
    rw [BitVec.toNat_sub_of_le (by rw [BitVec.le_def, hmax]; omega), hmax]
  simp only [gt_iff_lt, BitVec.lt_def, hs, hi]
  have h0 : (0 : W).toNat = 0 := by decide
  rw [h0]
  by_cases h : a.toNat + 16 < 2 ^ 64
  · rw [if_pos h, if_neg (by omega)]
  · rw [if_neg h, if_pos (by omega)]

/-- The array holds exactly the values `vs`, in order, inside a block of at least the rounded-up
capacity. -/
structure ArrInv {α} (es : W) (a : Arr α) (vs : List α) : Prop where
  elems : a.elements.toNat = vs.length
  blk : vs ≠ [] → ∃ b, a.base = some b ∧ b.cells.length * es.toNat ≤ b.size ∧
    (vs.length + 15) / 16 * 16 ≤ b.cells.length ∧ 0 < b.addr ∧ b.addr + b.size ≤ 2 ^ 64 ∧ vs <+: b.cells

theorem arrInit_inv {α} (es : W) : ArrInv es (arrInit : Arr α) [] :=
  ⟨rfl, fun h => absurd rfl h⟩

/-- When growth is needed and can happen. -/
def GrowFails (es : W) (n : Nat) (ans : W → Option Nat) : Prop :=
  n % 16 = 0 ∧ (2 ^ 64 ≤ n + 16 ∨ 2 ^ 64 ≤ (n + 16) * es.toNat ∨
    ans (BitVec.ofNat 64 ((n + 16) * es.toNat)) = none)

theorem arrAppend_spec {α} (junk : α) (es : W) (a : Arr α) (vs : List α) (ans : W → Option Nat)
    (hes : 0 < es.toNat) (hans : Allocator ans) (h : ArrInv es a vs) :
    (GrowFails es vs.length ans ∧ arrAppend junk a es ans = (none, a)) ∨
    (¬ GrowFails es vs.length ans ∧ ∃ p a' b, arrAppend junk a es ans = (some p, a') ∧
      a'.type = a.type ∧ a'.base = some b ∧ a'.elements.toNat = vs.length + 1 ∧
      p.toNat = b.addr + vs.length * es.toNat ∧
      b.cells.length * es.toNat ≤ b.size ∧
      (vs.length + 1 + 15) / 16 * 16 ≤ b.cells.length ∧ 0 < b.addr ∧ b.addr + b.size ≤ 2 ^ 64 ∧
      vs <+: b.cells ∧ (vs.length % 16 ≠ 0 → a.base = some b)) := by
  have hi : INCREMENT.toNat = 16 := by decide
  have hmod : a.elements % INCREMENT = 0 ↔ vs.length % 16 = 0 := by
    rw [← BitVec.toNat_inj, BitVec.toNat_umod, hi, h.elems]; rfl
  have hlt : vs.length < 2 ^ 64 := by rw [← h.elems]; exact a.elements.isLt
  have hoff : ∀ (b : Block α), b.addr + b.size ≤ 2 ^ 64 →
      (vs.length + 1 + 15) / 16 * 16 * es.toNat ≤ b.size →
      (BitVec.ofNat 64 b.addr + a.elements * es).toNat = b.addr + vs.length * es.toNat := by
    intro b hb hsz
    have hle : (vs.length + 1) * es.toNat ≤ b.size := by
      refine Nat.le_trans (Nat.mul_le_mul_right _ ?_) hsz
      omega
    rw [Nat.add_mul] at hle
    rw [BitVec.toNat_add, BitVec.toNat_mul, BitVec.toNat_ofNat, h.elems]
    rw [Nat.mod_eq_of_lt (a := b.addr) (by omega),
      Nat.mod_eq_of_lt (a := vs.length * es.toNat) (by omega), Nat.mod_eq_of_lt (by omega)]
  by_cases hm : vs.length % 16 = 0
  · unfold arrAppend
    rw [if_pos (hmod.2 hm), addOverflow_eq, h.elems]
    by_cases h1 : vs.length + 16 < 2 ^ 64
    · rw [if_pos h1]
      have hcap : (a.elements + INCREMENT).toNat = vs.length + 16 := by
        rw [BitVec.toNat_add, h.elems, hi, Nat.mod_eq_of_lt h1]
      unfold reallocArray
      dsimp only
      rw [umullOverflow_eq, hcap]
      by_cases h2 : (vs.length + 16) * es.toNat < 2 ^ 64
      · simp only [if_pos h2]
        have hprod : (a.elements + INCREMENT) * es
            = BitVec.ofNat 64 ((vs.length + 16) * es.toNat) := by
          apply BitVec.eq_of_toNat_eq
          rw [BitVec.toNat_mul, hcap, BitVec.toNat_ofNat]
        rw [hprod]
        have htot : (BitVec.ofNat 64 ((vs.length + 16) * es.toNat)).toNat
            = (vs.length + 16) * es.toNat := by rw [BitVec.toNat_ofNat, Nat.mod_eq_of_lt h2]
        unfold realloc
        rcases hx : ans (BitVec.ofNat 64 ((vs.length + 16) * es.toNat)) with _ | addr
        · left
          exact ⟨⟨hm, .inr (.inr hx)⟩, rfl⟩
        · right
          obtain ⟨hA0, hA⟩ := hans _ _ hx
          rw [htot] at hA
          refine ⟨?_, ?_⟩
          · rintro ⟨-, h' | h' | h'⟩
            · omega
            · omega
            · rw [hx] at h'; cases h'
          simp only [Option.map_some, htot, Nat.mul_div_cancel _ hes, Option.getD_some]
          have hc1 : (vs.length + 1 + 15) / 16 * 16 = vs.length + 16 := by omega
          have hold : vs <+: ((a.base.map Block.cells).getD []).take (vs.length + 16) ∧
              (((a.base.map Block.cells).getD []).take (vs.length + 16)).length ≤ vs.length + 16 := by
            refine ⟨?_, by simp only [List.length_take]; omega⟩
            by_cases hv : vs = []
            · subst hv; exact List.nil_prefix
            · obtain ⟨b, hb, -, hbl, -, -, hpre⟩ := h.blk hv
              rw [hb]
              simp only [Option.map_some, Option.getD_some]
              exact List.prefix_take_iff.2 ⟨hpre, by omega⟩
          refine ⟨_, _, ⟨addr, (vs.length + 16) * es.toNat, _⟩, rfl, rfl, rfl, ?_, ?_, ?_, ?_, hA0, ?_, ?_, fun hc => absurd hm hc⟩
          · rw [BitVec.toNat_add, h.elems, Nat.mod_eq_of_lt (by simp; omega)]; rfl
          · exact hoff ⟨addr, (vs.length + 16) * es.toNat, []⟩ hA (by rw [hc1]; exact Nat.le_refl _)
          · refine Nat.mul_le_mul_right _ ?_
            rw [List.length_append, List.length_replicate]; omega
          · rw [hc1, List.length_append, List.length_replicate]; omega
          · exact hA
          · exact hold.1.trans (List.prefix_append _ _)
      · left
        rw [if_neg h2]
        exact ⟨⟨hm, .inr (.inl (by omega))⟩, rfl⟩
    · left
      rw [if_neg h1]
      exact ⟨⟨hm, .inl (by omega)⟩, rfl⟩
  · right
    refine ⟨fun hc => hm hc.1, ?_⟩
    have hv : vs ≠ [] := by rintro rfl; simp at hm
    obtain ⟨b, hb, hsz, hbl, hA0, hA, hpre⟩ := h.blk hv
    have hc : (vs.length + 1 + 15) / 16 * 16 = (vs.length + 15) / 16 * 16 := by omega
    unfold arrAppend
    rw [if_neg (fun hc => hm (hmod.1 hc))]
    refine ⟨_, _, b, rfl, rfl, hb, ?_, ?_, ?_, ?_, hA0, hA, hpre, fun _ => hb⟩
    · show (a.elements + 1).toNat = _
      have : (vs.length + 1) * 1 ≤ b.size :=
        Nat.le_trans (Nat.mul_le_mul (by omega) hes) hsz
      have : (1 : W).toNat = 1 := by decide
      rw [BitVec.toNat_add, h.elems, this]
      exact Nat.mod_eq_of_lt (by omega)
    · rw [hb]; exact hoff b hA (by rw [hc]; exact Nat.le_trans (Nat.mul_le_mul_right _ hbl) hsz)
    · exact hsz
    · rw [hc]; exact hbl

theorem slot_mul {α} (b : Block α) (es : W) (k : Nat) (hes : 0 < es.toNat) (hk : k < b.cells.length) :
    b.slot es (b.addr + k * es.toNat) = some k := by
  unfold Block.slot
  rw [Nat.add_sub_cancel_left, Nat.mul_mod_left, Nat.mul_div_cancel _ hes]
  rw [if_pos ⟨Nat.le_add_right _ _, rfl, hk⟩]

theorem arrPush_spec {α} (junk : α) (es : W) (a : Arr α) (vs : List α) (ans : W → Option Nat) (v : α)
    (hes : 0 < es.toNat) (hans : Allocator ans) (h : ArrInv es a vs) :
    (GrowFails es vs.length ans ∧ arrPush junk es a ans v = some (none, a)) ∨
    (¬ GrowFails es vs.length ans ∧ ∃ p a' b, arrPush junk es a ans v = some (some p, a') ∧
      ArrInv es a' (vs ++ [v]) ∧ a'.base = some b ∧ a'.type = a.type ∧
      p.toNat = b.addr + vs.length * es.toNat) := by
  unfold arrPush
  rcases arrAppend_spec junk es a vs ans hes hans h with ⟨h1, h2⟩ | ⟨h1, p, a', b, h2, h3, h4, h5, h6, h7, h8, h9', h9, h10, -⟩
  · left; rw [h2]; exact ⟨h1, rfl⟩
  · right
    refine ⟨h1, ?_⟩
    rw [h2]
    have hk : vs.length < b.cells.length := by omega
    refine ⟨p, { a' with base := some { b with cells := b.cells.set vs.length v } },
      { b with cells := b.cells.set vs.length v }, ?_, ⟨?_, fun _ => ?_⟩, rfl, h3, h6⟩
    · simp only [arrStore, h4, h6, slot_mul b es _ hes hk, Option.map_some]
    · simp only [List.length_append, List.length_singleton]; exact h5
    · refine ⟨_, rfl, ?_, ?_, h9', h9, ?_⟩
      · simpa using h7
      · simpa using h8
      · obtain ⟨t, ht⟩ := h10
        obtain ⟨x, t, rfl⟩ : ∃ x t', t = x :: t' := by
          cases t with
          | nil => rw [← ht] at hk; simp at hk
          | cons x t => exact ⟨x, t, rfl⟩
        refine ⟨t, ?_⟩
        rw [← ht, List.set_append_right _ _ (Nat.le_refl _)]
        simp

theorem arrHistory_spec {α} (junk : α) (es : W) (hes : 0 < es.toNat) :
    ∀ (h : List ((W → Option Nat) × α)) (a : Arr α) (vs : List α), (∀ o ∈ h, Allocator o.1) →
      ArrInv es a vs → ∃ a' ws, arrHistory junk es h a vs = some (a', vs ++ ws) ∧
        List.Sublist ws (h.map Prod.snd) ∧ ArrInv es a' (vs ++ ws) := by
  intro h
  induction h with
  | nil => intro a vs _ hi; exact ⟨a, [], by simp [arrHistory], by simp, by simpa using hi⟩
  | cons o h ih =>
    intro a vs ho hi
    obtain ⟨ans, v⟩ := o
    have hans := ho _ (List.mem_cons_self)
    have ho' : ∀ o ∈ h, Allocator o.1 := fun o hm => ho o (List.mem_cons_of_mem _ hm)
    unfold arrHistory
    rcases arrPush_spec junk es a vs ans v hes hans hi with ⟨-, h2⟩ | ⟨-, p, a', b, h2, h3, -⟩
    · rw [h2]
      obtain ⟨a', ws, e1, e2, e3⟩ := ih a vs ho' hi
      exact ⟨a', ws, e1, e2.cons _, e3⟩
    · rw [h2]
      obtain ⟨a'', ws, e1, e2, e3⟩ := ih a' (vs ++ [v]) ho' h3
      refine ⟨a'', v :: ws, ?_, e2.cons_cons _, ?_⟩
      · simpa using e1
      · simpa using e3

end Verif
