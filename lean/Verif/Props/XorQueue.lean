import Verif.Proof.XorQueue
/-!
# XOR queues (C66)
-/
namespace Verif.Props
open Verif Verif.Xq

/-- C66 in full: whatever the width of an `unsigned long`, and wherever the heads and elements are. -/
def C66_Full : Prop :=
  ∀ (wide : Bool) (L : Layout), (∀ f g : Field, f.valid L → g.valid L → f.addr L = g.addr L → f = g) → (∀ e, L.elem e → e ≠ 0) →
    ∀ (m : Xq.Mem) (os : List Xq.Op), Xq.Legal L Xq.nothing os →
      ∃ m', Xq.run wide L.off os m = some m' ∧ Xq.Shows wide L.off m' (Xq.applyAll Xq.nothing os)

/-- C66, proved part: from memory in any state and with any cookies, every legal history of the macros goes through, and what a program
reads then are the sequences; also while the loop frees what it visits.  Missing: if an `unsigned long` has 32 bits (Windows), objects
at 4 GB and above, see `C66_high`. -/
theorem C66_sequences_partial (wide : Bool) (L : Layout) (hL : L.Ok wide) (m : Xq.Mem) (os : List Xq.Op)
    (h : Xq.Legal L Xq.nothing os) :
    ∃ m', Xq.run wide L.off os m = some m' ∧ Xq.Shows wide L.off m' (Xq.applyAll Xq.nothing os) := by
  obtain ⟨m', e, R⟩ := (Xq.Rep.nothing L m).run hL os h
  exact ⟨m', e, R.shows hL⟩

/-- With a 64-bit `unsigned long` nothing is missing. -/
theorem C66_lp64 (L : Layout) (apart : ∀ f g : Field, f.valid L → g.valid L → f.addr L = g.addr L → f = g)
    (notNull : ∀ e, L.elem e → e ≠ 0) (m : Xq.Mem) (os : List Xq.Op) (h : Xq.Legal L Xq.nothing os) :
    ∃ m', Xq.run true L.off os m = some m' ∧ Xq.Shows true L.off m' (Xq.applyAll Xq.nothing os) :=
  C66_sequences_partial true L ⟨apart, notNull, fun h => by cases h⟩ m os h

/-- Two heads and three elements, the links 8 bytes into them, from address `b` on. -/
private def lay (b : W) : Layout := ⟨8, fun h => h = b + 0x10 ∨ h = b + 0x30, fun e => e = b + 0x100 ∨ e = b + 0x200 ∨ e = b + 0x300⟩

private theorem lay_apart (b : W) (f g : Field) (hf : f.valid (lay b)) (hg : g.valid (lay b)) (e : f.addr (lay b) = g.addr (lay b)) :
    f = g := by
  cases f <;> cases g <;> simp only [Field.valid, lay] at hf hg <;>
    simp only [Field.addr, lay, firstAt, lastAt, cookieAt] at e <;>
    first | (exfalso; bv_omega) | (congr 1; done) | (congr 1; bv_omega)

private theorem free_put {σ : Xq.Seqs} {e h : W} {xs : List W} (f : σ.free e) (hx : e ∉ xs) : (σ.put h xs).free e := by
  intro k ys hk
  unfold Xq.Seqs.put at hk
  split at hk
  · cases hk; exact hx
  · exact f k ys hk

private theorem free_nothing (e : W) : Xq.nothing.free e := fun _ _ h => by cases h

private theorem free_two {σ : Xq.Seqs} {e a b : W} (h : ∀ h, h ≠ a → h ≠ b → σ h = none) (ha : e ∉ (σ a).getD []) (hb : e ∉ (σ b).getD []) :
    σ.free e := by
  intro k ys hk
  by_cases h1 : k = a
  · rw [← h1, hk] at ha; exact ha
  · by_cases h2 : k = b
    · rw [← h2, hk] at hb; exact hb
    · rw [h k h1 h2] at hk; cases hk

private def low : W := 0x10000
private def high : W := 0x7f0000000000

/-- Both queues are used; an element goes from one to the other, with another cookie. -/
private def xorHistory (b c d : W) : List Xq.Op :=
  [.init (b + 0x10) c, .insertHead (b + 0x10) (b + 0x100), .insertTail (b + 0x10) (b + 0x200), .init (b + 0x30) d,
    .removeHead (b + 0x10), .insertTail (b + 0x30) (b + 0x100), .insertAfter (b + 0x30) (b + 0x100) (b + 0x300),
    .removeAfter (b + 0x30) (b + 0x100), .insertHead (b + 0x10) (b + 0x300)]

private theorem xorHistory_legal (c d : W) : Xq.Legal (lay high) Xq.nothing (xorHistory high c d) := by
  refine ⟨.inl rfl, ⟨⟨[], rfl⟩, ?_, .inl rfl⟩, ⟨⟨[high + 0x100], rfl⟩, ?_, .inr (.inl rfl)⟩, .inr rfl, ⟨high + 0x100, [high + 0x200], rfl⟩,
    ⟨⟨[], rfl⟩, ?_, .inl rfl⟩, ⟨⟨[high + 0x100], rfl, by simp⟩, ?_, .inr (.inr rfl)⟩, ⟨[], high + 0x300, [], rfl⟩,
    ⟨⟨[high + 0x200], rfl⟩, ?_, .inr (.inr rfl)⟩, trivial⟩ <;>
  · refine free_two (a := high + 0x10) (b := high + 0x30) (fun h h1 h2 => ?_) (by simp only [Xq.Op.apply]; decide)
      (by simp only [Xq.Op.apply]; decide)
    simp only [Xq.Op.apply, Xq.Seqs.put, Xq.nothing, h1, h2, if_false]

example (c d : W) (m : Xq.Mem) : ∃ m', Xq.run true 8 (xorHistory high c d) m = some m' ∧
    walk true 8 (high + 0x10) m' 5 (Xq.first true (high + 0x10) m') = some [high + 0x300, high + 0x200] ∧
    walk true 8 (high + 0x30) m' 5 (Xq.first true (high + 0x30) m') = some [high + 0x100] := by
  obtain ⟨m', e, S⟩ := C66_lp64 (lay high) (lay_apart high) (by intro e h; rcases h with rfl | rfl | rfl <;> decide) m _ (xorHistory_legal c d)
  exact ⟨m', e, S.all _ [high + 0x300, high + 0x200] 5 rfl (by decide), S.all _ [high + 0x100] 5 rfl (by decide)⟩

private theorem lay_low : (lay low).Ok false := by
  refine ⟨lay_apart low, ?_, fun _ => ⟨?_, ?_⟩⟩
  · intro e h; rcases h with rfl | rfl | rfl <;> decide
  · intro e h; rcases h with rfl | rfl <;> decide
  · intro e h; rcases h with rfl | rfl | rfl <;> decide

example (c : W) (m : Xq.Mem) : ∃ m', Xq.run false 8 [.init (low + 0x10) c, .insertTail (low + 0x10) (low + 0x100)] m = some m' ∧
    walk false 8 (low + 0x10) m' 5 (Xq.first false (low + 0x10) m') = some [low + 0x100] := by
  obtain ⟨m', e, S⟩ := C66_sequences_partial false (lay low) lay_low m [.init (low + 0x10) c, .insertTail (low + 0x10) (low + 0x100)]
    ⟨.inl rfl, ⟨⟨[], rfl⟩, free_put (free_nothing _) (by decide), .inl rfl⟩, trivial⟩
  exact ⟨m', e, S.all _ [low + 0x100] 5 rfl (by decide)⟩

/-- If an `unsigned long` has 32 bits: with a head at 4 GB or above, `XSIMPLEQ_INSERT_TAIL` into an empty queue leaves it
empty, and overwrites the word whose address is the low half of the head's. -/
theorem C66_high (m : Xq.Mem) (c h e off : W) (hh : 2 ^ 32 ≤ h.toNat) (hh2 : h.toNat + 24 < 2 ^ 64)
    (ha : e + off ≠ firstAt h ∧ e + off ≠ lastAt h ∧ e + off ≠ cookieAt h) :
    Xq.isEmpty false h (Xq.insertTail false off h e (Xq.init false h c m)) = true ∧
      Xq.insertTail false off h e (Xq.init false h c m) (h % 2 ^ 32) = mix false c e := by
  have e1 : firstAt h ≠ lastAt h := by unfold firstAt lastAt; bv_omega
  have e2 : firstAt h ≠ cookieAt h := by unfold firstAt cookieAt; bv_omega
  have e3 : lastAt h ≠ cookieAt h := by unfold lastAt cookieAt; bv_omega
  have hm : (h % 2 ^ 32).toNat < 2 ^ 32 := by
    rw [BitVec.toNat_umod]
    exact Nat.mod_lt _ (by decide)
  have e4 : firstAt h ≠ h % 2 ^ 32 := fun e => by
    have := congrArg BitVec.toNat e
    unfold firstAt at this
    omega
  have e5 : lastAt h ≠ h % 2 ^ 32 := fun e => by
    have := congrArg BitVec.toNat e
    rw [show (lastAt h).toNat = h.toNat + 8 by unfold lastAt; bv_omega] at this
    omega
  have e6 : cookieAt h ≠ h % 2 ^ 32 := fun e => by
    have := congrArg BitVec.toNat e
    rw [show (cookieAt h).toNat = h.toNat + 16 by unfold cookieAt; bv_omega] at this
    omega
  have hmm : mix false c (mix false c (firstAt h)) = h % 2 ^ 32 := by
    simp only [mix, Bool.false_eq_true, if_false, firstAt]
    rw [BitVec.setWidth_setWidth_of_le _ (by decide), BitVec.setWidth_eq, ← BitVec.xor_assoc, BitVec.xor_self, BitVec.zero_xor]
    apply BitVec.eq_of_toNat_eq
    rw [BitVec.toNat_umod]
    simp only [BitVec.toNat_setWidth]
    rw [Nat.mod_eq_of_lt (Nat.lt_trans (Nat.mod_lt _ (by decide)) (by decide))]
    rfl
  have h0 : mix false c (mix false c 0#64) = 0#64 := mix_mix (low_zero _)
  generalize h % 2 ^ 32 = t at *
  obtain ⟨a1, a2, a3⟩ := ha
  constructor
  · simp [isEmpty, Xq.first, Xq.insertTail, Xq.init, Xq.xor, Xq.set, e1, e2, e3, e4, e5, e6, e1.symm, e2.symm, e3.symm, e6.symm, a1.symm, a2.symm, a3.symm, hmm, h0]
  · simp [Xq.insertTail, Xq.init, Xq.xor, Xq.set, e1, e2, e3, e4, e5, e6, e1.symm, e2.symm, e3.symm, e4.symm, e5.symm, e6.symm, a1.symm, a2.symm, a3.symm, hmm, h0]


example : Xq.isEmpty false (high + 0x10) (Xq.insertTail false 8 (high + 0x10) (high + 0x100) (Xq.init false (high + 0x10) 7 fun _ => 0)) = true :=
  (C66_high _ _ _ _ _ (by decide) (by decide) (by decide)).1

theorem C66_full_false : ¬ C66_Full := by
  intro h
  obtain ⟨m', e, S⟩ := h false (lay high) (lay_apart high) (by intro e h; rcases h with rfl | rfl | rfl <;> decide) (fun _ => 0)
    [.init (high + 0x10) 0, .insertTail (high + 0x10) (high + 0x100)] (by
      refine ⟨.inl rfl, ⟨⟨[], rfl⟩, ?_, .inl rfl⟩, trivial⟩
      exact free_put (free_nothing _) (by decide))
  have h1 := S.first (high + 0x10) [high + 0x100] rfl
  cases e
  revert h1
  decide

end Verif.Props
