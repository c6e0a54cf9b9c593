import Verif.Model.Swar
/-!
# Lane arithmetic: how word operations act on little-endian byte lists
-/
namespace Verif

/-- All entries are bytes. -/
def Bytes (l : List Nat) : Prop := ∀ b ∈ l, b < 256

theorem Bytes.nil : Bytes [] := by intro b hb; cases hb
theorem Bytes.cons {b l} (h : b < 256) (hl : Bytes l) : Bytes (b :: l) := by
  intro x hx; cases hx with
  | head => exact h
  | tail _ h => exact hl _ h
theorem Bytes.head {b l} (h : Bytes (b :: l)) : b < 256 := h _ (List.mem_cons_self)
theorem Bytes.tail {b l} (h : Bytes (b :: l)) : Bytes l := fun x hx => h x (List.mem_cons_of_mem _ hx)

theorem le_lt {l : List Nat} (h : Bytes l) : le l < 256 ^ l.length := by
  induction l with
  | nil => simp [le]
  | cons b l ih =>
    have h1 := ih h.tail
    have h2 := h.head
    simp only [le, List.length_cons, Nat.pow_succ]
    omega

theorem lane_testBit {x a : Nat} (hx : x < 256) (j : Nat) :
    (x + 256 * a).testBit j = if j < 8 then x.testBit j else a.testBit (j - 8) := by
  have := Nat.testBit_two_pow_mul_add a (b := x) (i := 8) (by simpa using hx) j
  rw [← this]; congr 1; omega

theorem byte_and {x y : Nat} (hx : x < 256) : x &&& y < 256 :=
  Nat.lt_of_le_of_lt Nat.and_le_left hx
theorem byte_or {x y : Nat} (hx : x < 256) (hy : y < 256) : x ||| y < 256 :=
  Nat.or_lt_two_pow (n := 8) hx hy
theorem byte_xor {x y : Nat} (hx : x < 256) (hy : y < 256) : x ^^^ y < 256 :=
  Nat.xor_lt_two_pow (n := 8) hx hy

theorem lane_and {x y a b : Nat} (hx : x < 256) (hy : y < 256) :
    (x + 256 * a) &&& (y + 256 * b) = (x &&& y) + 256 * (a &&& b) := by
  apply Nat.eq_of_testBit_eq; intro j
  rw [Nat.testBit_and, lane_testBit hx, lane_testBit hy, lane_testBit (byte_and hx)]
  split <;> simp [Nat.testBit_and]
theorem lane_or {x y a b : Nat} (hx : x < 256) (hy : y < 256) :
    (x + 256 * a) ||| (y + 256 * b) = (x ||| y) + 256 * (a ||| b) := by
  apply Nat.eq_of_testBit_eq; intro j
  rw [Nat.testBit_or, lane_testBit hx, lane_testBit hy, lane_testBit (byte_or hx hy)]
  split <;> simp [Nat.testBit_or]
theorem lane_xor {x y a b : Nat} (hx : x < 256) (hy : y < 256) :
    (x + 256 * a) ^^^ (y + 256 * b) = (x ^^^ y) + 256 * (a ^^^ b) := by
  apply Nat.eq_of_testBit_eq; intro j
  rw [Nat.testBit_xor, lane_testBit hx, lane_testBit hy, lane_testBit (byte_xor hx hy)]
  split <;> simp [Nat.testBit_xor]

theorem le_and : ∀ {l₁ l₂ : List Nat}, Bytes l₁ → Bytes l₂ → l₁.length = l₂.length →
    le l₁ &&& le l₂ = le (List.zipWith (· &&& ·) l₁ l₂)
  | [], [], _, _, _ => by simp [le]
  | a :: l₁, b :: l₂, h₁, h₂, hl => by
    simp only [le, List.zipWith_cons_cons]
    rw [lane_and h₁.head h₂.head, le_and h₁.tail h₂.tail (by simpa using hl)]
theorem le_or : ∀ {l₁ l₂ : List Nat}, Bytes l₁ → Bytes l₂ → l₁.length = l₂.length →
    le l₁ ||| le l₂ = le (List.zipWith (· ||| ·) l₁ l₂)
  | [], [], _, _, _ => by simp [le]
  | a :: l₁, b :: l₂, h₁, h₂, hl => by
    simp only [le, List.zipWith_cons_cons]
    rw [lane_or h₁.head h₂.head, le_or h₁.tail h₂.tail (by simpa using hl)]
theorem le_xor : ∀ {l₁ l₂ : List Nat}, Bytes l₁ → Bytes l₂ → l₁.length = l₂.length →
    le l₁ ^^^ le l₂ = le (List.zipWith (· ^^^ ·) l₁ l₂)
  | [], [], _, _, _ => by simp [le]
  | a :: l₁, b :: l₂, h₁, h₂, hl => by
    simp only [le, List.zipWith_cons_cons]
    rw [lane_xor h₁.head h₂.head, le_xor h₁.tail h₂.tail (by simpa using hl)]
theorem le_add : ∀ {l₁ l₂ : List Nat}, l₁.length = l₂.length →
    le l₁ + le l₂ = le (List.zipWith (· + ·) l₁ l₂)
  | [], [], _ => by simp [le]
  | a :: l₁, b :: l₂, hl => by
    simp only [le, List.zipWith_cons_cons]
    rw [← le_add (l₁ := l₁) (l₂ := l₂) (by simpa using hl)]
    omega
theorem le_not : ∀ {l : List Nat}, Bytes l →
    256 ^ l.length - 1 - le l = le (l.map (255 - ·))
  | [], _ => by simp [le]
  | a :: l, h => by
    have h1 := le_not h.tail
    have h2 := h.head
    have h3 := le_lt h.tail
    simp only [le, List.map_cons, List.length_cons, Nat.pow_succ]
    rw [← h1]; omega

theorem le_append (l₁ l₂ : List Nat) : le (l₁ ++ l₂) = le l₁ + 256 ^ l₁.length * le l₂ := by
  induction l₁ with
  | nil => simp [le]
  | cons a l ih =>
    simp only [List.cons_append, le, List.length_cons, ih, Nat.pow_succ]
    rw [Nat.mul_add, ← Nat.add_assoc, ← Nat.mul_assoc, Nat.mul_comm 256 (256 ^ _)]

/-- Byte `i` of the little-endian value. -/
theorem le_getByte : ∀ {l : List Nat} (_ : Bytes l) (i : Nat),
    le l / 256 ^ i % 256 = l.getD i 0
  | [], _, i => by simp [le]
  | a :: l, h, 0 => by
    have := h.head; simp only [le, Nat.pow_zero, Nat.div_one, List.getD_cons_zero]; omega
  | a :: l, h, i + 1 => by
    have := h.head
    have h2 := le_getByte h.tail i
    simp only [le, List.getD_cons_succ]
    rw [← h2, Nat.pow_succ, Nat.mul_comm (256 ^ i) 256, ← Nat.div_div_eq_div_mul]
    congr 2; omega

theorem le_testBit : ∀ {l : List Nat} (_ : Bytes l) (i : Nat),
    (le l).testBit i = (l.getD (i / 8) 0).testBit (i % 8)
  | [], _, i => by simp [le]
  | a :: l, h, i => by
    rw [le, lane_testBit h.head]
    split
    · next h8 => 
      have : i / 8 = 0 := by omega
      rw [this, List.getD_cons_zero]; congr 1; omega
    · next h8 =>
      rw [le_testBit h.tail]
      have : i / 8 = (i - 8) / 8 + 1 := by omega
      rw [this, List.getD_cons_succ]; congr 1; omega

theorem le_inj : ∀ {l₁ l₂ : List Nat}, Bytes l₁ → Bytes l₂ → l₁.length = l₂.length →
    le l₁ = le l₂ → l₁ = l₂
  | [], [], _, _, _, _ => rfl
  | a :: l₁, b :: l₂, h₁, h₂, hl, h => by
    have := h₁.head; have := h₂.head
    simp only [le] at h
    have hab : a = b := by omega
    have ht : le l₁ = le l₂ := by omega
    rw [hab, le_inj h₁.tail h₂.tail (by simpa using hl) ht]

/-! ### bytes of memory -/

theorem Mem.bytes_length (m : Mem) (p n : Nat) : (m.bytes p n).length = n := by
  induction n generalizing p with
  | zero => rfl
  | succ n ih => simp [Mem.bytes, ih]

theorem Mem.bytes_Bytes (m : Mem) (p n : Nat) : Bytes (m.bytes p n) := by
  induction n generalizing p with
  | zero => exact Bytes.nil
  | succ n ih => exact Bytes.cons (UInt8.toNat_lt _) (ih _)

theorem Mem.bytes_getD (m : Mem) (p n i : Nat) (h : i < n) :
    (m.bytes p n).getD i 0 = (m (p + i)).toNat := by
  induction n generalizing p i with
  | zero => omega
  | succ n ih =>
    cases i with
    | zero => simp [Mem.bytes]
    | succ i =>
      rw [Mem.bytes, List.getD_cons_succ, ih _ _ (by omega)]
      congr 2; omega

theorem Mem.bytes_getElem (m : Mem) (p n i : Nat) (h : i < (m.bytes p n).length) :
    (m.bytes p n)[i] = (m (p + i)).toNat := by
  have h' : i < n := by rwa [Mem.bytes_length] at h
  rw [← Mem.bytes_getD m p n i h', List.getD_eq_getElem?_getD, List.getElem?_eq_getElem h]; rfl

/-- A word made of 8 bytes. -/
def wordOf (l : List Nat) : W := BitVec.ofNat 64 (le l)

theorem toNat_wordOf {l : List Nat} (h : Bytes l) (hl : l.length = 8) :
    (wordOf l).toNat = le l := by
  have := le_lt h
  rw [hl] at this
  simp only [wordOf, BitVec.toNat_ofNat]
  exact Nat.mod_eq_of_lt (by simpa using this)

theorem cast64_eq (m : Mem) (p : Nat) : cast64 m p = wordOf (m.bytes p 8) := rfl
theorem extend_eq (c : UInt8) : extend c = wordOf (List.replicate 8 c.toNat) := rfl
theorem cA_eq : cA = wordOf (List.replicate 8 0x7f) := by decide
theorem cL_eq : cL = wordOf (List.replicate 8 1) := by decide

theorem Bytes.replicate {n c : Nat} (h : c < 256) : Bytes (List.replicate n c) := by
  intro b hb; rw [List.eq_of_mem_replicate hb]; exact h

theorem Bytes.map {l : List Nat} {f : Nat → Nat} (hf : ∀ b, b < 256 → f b < 256) (h : Bytes l) :
    Bytes (l.map f) := by
  intro b hb
  obtain ⟨a, ha, rfl⟩ := List.mem_map.mp hb
  exact hf _ (h _ ha)

theorem zipWith_replicate_right {f : Nat → Nat → Nat} {c : Nat} :
    ∀ (l : List Nat), List.zipWith f l (List.replicate l.length c) = l.map (f · c)
  | [] => rfl
  | a :: l => by simp [List.replicate_succ, zipWith_replicate_right l]

theorem wordOf_and {l₁ l₂ : List Nat} (h₁ : Bytes l₁) (h₂ : Bytes l₂) (hl₁ : l₁.length = 8)
    (hl₂ : l₂.length = 8) : wordOf l₁ &&& wordOf l₂ = wordOf (List.zipWith (· &&& ·) l₁ l₂) := by
  apply BitVec.eq_of_toNat_eq
  rw [BitVec.toNat_and, toNat_wordOf h₁ hl₁, toNat_wordOf h₂ hl₂, le_and h₁ h₂ (by omega)]
  rw [toNat_wordOf _ (by simp [hl₁, hl₂])]
  intro b hb
  rw [List.zipWith_eq_zipWith_take_min] at hb
  obtain ⟨i, hi, rfl⟩ := List.getElem_of_mem hb
  simp only [List.getElem_zipWith, List.getElem_take]
  exact byte_and (h₁ _ (List.getElem_mem _))

theorem zipWith_Bytes {f : Nat → Nat → Nat} {l₁ l₂ : List Nat}
    (hf : ∀ a b, a < 256 → b < 256 → f a b < 256) (h₁ : Bytes l₁) (h₂ : Bytes l₂) :
    Bytes (List.zipWith f l₁ l₂) := by
  intro b hb
  obtain ⟨i, hi, rfl⟩ := List.getElem_of_mem hb
  simp only [List.getElem_zipWith]
  exact hf _ _ (h₁ _ (List.getElem_mem _)) (h₂ _ (List.getElem_mem _))

theorem wordOf_or {l₁ l₂ : List Nat} (h₁ : Bytes l₁) (h₂ : Bytes l₂) (hl₁ : l₁.length = 8)
    (hl₂ : l₂.length = 8) : wordOf l₁ ||| wordOf l₂ = wordOf (List.zipWith (· ||| ·) l₁ l₂) := by
  apply BitVec.eq_of_toNat_eq
  rw [BitVec.toNat_or, toNat_wordOf h₁ hl₁, toNat_wordOf h₂ hl₂, le_or h₁ h₂ (by omega)]
  rw [toNat_wordOf (zipWith_Bytes (fun _ _ => byte_or) h₁ h₂) (by simp [hl₁, hl₂])]

theorem wordOf_xor {l₁ l₂ : List Nat} (h₁ : Bytes l₁) (h₂ : Bytes l₂) (hl₁ : l₁.length = 8)
    (hl₂ : l₂.length = 8) : wordOf l₁ ^^^ wordOf l₂ = wordOf (List.zipWith (· ^^^ ·) l₁ l₂) := by
  apply BitVec.eq_of_toNat_eq
  rw [BitVec.toNat_xor, toNat_wordOf h₁ hl₁, toNat_wordOf h₂ hl₂, le_xor h₁ h₂ (by omega)]
  rw [toNat_wordOf (zipWith_Bytes (fun _ _ => byte_xor) h₁ h₂) (by simp [hl₁, hl₂])]

theorem wordOf_add {l₁ l₂ : List Nat} (hl₁ : l₁.length = 8)
    (hl₂ : l₂.length = 8) : wordOf l₁ + wordOf l₂ = wordOf (List.zipWith (· + ·) l₁ l₂) := by
  simp only [wordOf]
  rw [← BitVec.ofNat_add, le_add (by omega)]

theorem wordOf_not {l : List Nat} (h : Bytes l) (hl : l.length = 8) :
    ~~~ wordOf l = wordOf (l.map (255 - ·)) := by
  apply BitVec.eq_of_toNat_eq
  rw [BitVec.toNat_not, toNat_wordOf h hl, ← toNat_wordOf h hl]
  rw [toNat_wordOf (h.map (by intros; omega)) (by simp [hl])]
  rw [← le_not h, toNat_wordOf h hl, hl]

theorem wordOf_getLsbD {l : List Nat} (h : Bytes l) (hl : l.length = 8) (i : Nat) :
    (wordOf l).getLsbD i = (l.getD (i / 8) 0).testBit (i % 8) := by
  rw [BitVec.getLsbD, toNat_wordOf h hl, le_testBit h]

theorem wordOf_inj {l₁ l₂ : List Nat} (h₁ : Bytes l₁) (h₂ : Bytes l₂) (hl₁ : l₁.length = 8)
    (hl₂ : l₂.length = 8) : wordOf l₁ = wordOf l₂ ↔ l₁ = l₂ := by
  constructor
  · intro h
    have := congrArg BitVec.toNat h
    rw [toNat_wordOf h₁ hl₁, toNat_wordOf h₂ hl₂] at this
    exact le_inj h₁ h₂ (by omega) this
  · rintro rfl; rfl

/-- Every word is made of bytes. -/
theorem exists_wordOf (x : W) : ∃ l, Bytes l ∧ l.length = 8 ∧ x = wordOf l := by
  have key : ∀ n v, v < 256 ^ n → ∃ l, Bytes l ∧ l.length = n ∧ v = le l := by
    intro n
    induction n with
    | zero => intro v hv; exact ⟨[], Bytes.nil, rfl, by simp [le] at *; omega⟩
    | succ n ih =>
      intro v hv
      obtain ⟨l, hb, hl, he⟩ := ih (v / 256) (by rw [Nat.pow_succ] at hv; omega)
      refine ⟨v % 256 :: l, Bytes.cons (by omega) hb, by simp [hl], ?_⟩
      simp only [le, ← he]; omega
  obtain ⟨l, hb, hl, he⟩ := key 8 x.toNat (by have := x.isLt; simpa using this)
  refine ⟨l, hb, hl, ?_⟩
  apply BitVec.eq_of_toNat_eq
  rw [toNat_wordOf hb hl, he]

end Verif
