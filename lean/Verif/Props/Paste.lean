import Verif.Proof.Paste
/-!
# C105: operands of the atomic macros may be any expressions

English: `atomic_store(p, e)`, `atomic_fetch_add(p, e)` and so on act on the object `p` points to, with the value of `e` converted to the object's type, whatever expressions `p` and `e` are.
-/
namespace Verif.Props
open Verif Verif.Paste Verif.Paste.Spec

/-- The full statement, for the second operand. -/
def C105_Full : Prop := ∀ (t : Ty) (e : Expr) (v : Nat → Ty × Int) (n : Int), meant t e v = some n → passed t e v = some n

/-- `castHead` is what the compiler reads: if the tokens are an expression, then the tokens behind the cast are this one. -/
theorem C105_reading (t : Ty) (n : Nat) (hn : n ≤ 11) (ts : List Tok) (e : Expr) (h : Reads n ts e) : Reads n (.cast t :: ts) (castHead t e) := by
  have := reads_cast t h
  rwa [show min n 11 = n by omega] at this

private def u64 : Ty := ⟨.b64, false⟩
private def u32 : Ty := ⟨.b32, false⟩
private def u8 : Ty := ⟨.b8, false⟩

/-- `x < y ? x : y` -/
private def smaller : Expr := .cond (.lt (.var 0) (.var 1)) (.var 0) (.var 1)

/-- It is how C reads `x < y ? x : y`, with parentheses or without. -/
example : Reads 0 [.var 0, .lt, .var 1, .query, .var 0, .colon, .var 1] smaller := by
  have a : ∀ i n, n ≤ 12 → Reads n [.var i] (.var i) := fun i n h => by
    have : ∀ k, k ≤ 12 → Reads (12 - k) [.var i] (.var i) := fun k => by
      induction k with
      | zero => exact fun _ => .var i
      | succ k ih => exact fun h => .up (by omega) (by have := ih (by omega); rwa [show 12 - k = 12 - (k + 1) + 1 by omega] at this)
    have := this (12 - n) (by omega)
    rwa [show 12 - (12 - n) = n by omega] at this
  exact .cond (cs := [_, _, _]) (xs := [_])
    (.up (by decide) (.up (by decide) (.up (by decide) (.up (by decide) (.up (by decide) (.up (by decide) (.lt (ls := [_]) (a 0 7 (by decide)) (a 1 8 (by decide)))))))))
    (a 0 0 (by decide)) (a 1 0 (by decide))

/-- False: the smaller of -1 and 0. -/
theorem C105_full_false : ¬ C105_Full := fun h => by
  have := h u64 smaller (fun i => if i = 0 then (int, -1) else (int, 0)) (2 ^ 64 - 1) (by decide)
  revert this
  decide

/-- The operand of 0u - 1u as 64 bits: 2^64 - 1 is passed in place of 2^32 - 1. -/
theorem C105_borrow : meant u64 (.bin .sub (.const u32 0) (.const u32 1)) (fun _ => (int, 0)) = some (2 ^ 32 - 1) ∧
    passed u64 (.bin .sub (.const u32 0) (.const u32 1)) (fun _ => (int, 0)) = some (2 ^ 64 - 1) := by decide

/-- Half of the difference of 1 and 5. -/
theorem C105_half : meant u64 (.bin .div (.var 0) (.const int 2)) (fun _ => (int, -4)) = some (2 ^ 64 - 2) ∧
    passed u64 (.bin .div (.var 0) (.const int 2)) (fun _ => (int, -4)) = some (2 ^ 63 - 2) := by decide

/-- -1 + INT_MAX as 8 bits: the sum with 255 overflows, which is undefined. -/
theorem C105_overflow : meant u8 (.bin .add (.var 0) (.const int (2 ^ 31 - 1))) (fun _ => (int, -1)) = some 254 ∧
    passed u8 (.bin .add (.var 0) (.const int (2 ^ 31 - 1))) (fun _ => (int, -1)) = none := by decide

/-- What holds: an operand in parentheses, a constant, a variable, a call or anything else of one piece is passed as meant. -/
theorem C105_piece_partial (t : Ty) (e : Expr) (v : Nat → Ty × Int) (h : castHead t e = .cast t e) : passed t e v = meant t e v := by
  unfold passed meant
  rw [h]
  show ((e.eval v).map (conv t)).map (conv t) = _
  cases e.eval v with
  | none => rfl
  | some n => exact congrArg some (conv_of_fits (w_pos t) (fits_conv (w_pos t) n))

/-- So parentheses help, whatever is in them. -/
theorem C105_parentheses (t : Ty) (e : Expr) (v : Nat → Ty × Int) : passed t (.paren e) v = meant t e v := C105_piece_partial t (.paren e) v rfl

example : passed u64 (.paren smaller) (fun i => if i = 0 then (int, -1) else (int, 0)) = some (2 ^ 64 - 1) := by decide

/-- What holds besides: sums, products and combinations of bits are passed as meant, if they are calculated in signed types or in types that are wide enough, and nothing overflows. -/
theorem C105_modular_partial (t : Ty) (e : Expr) (v : Nat → Ty × Int) (h : Modular t.w v e) (n m : Int) (hn : meant t e v = some n) (hm : passed t e v = some m) : m = n := by
  obtain ⟨x, hx, rfl⟩ := Option.map_eq_some_iff.mp hn
  obtain ⟨y, hy, rfl⟩ := Option.map_eq_some_iff.mp hm
  exact conv_congr (modular t v e h x y hx hy)

/-- For 64 bits nothing else is needed. -/
theorem C105_modular64_partial (e : Expr) (v : Nat → Ty × Int) (h : Modular 64 v e) (n : Int) (hn : meant ⟨.b64, false⟩ e v = some n) : passed ⟨.b64, false⟩ e v = some n := by
  obtain ⟨x, hx, -⟩ := Option.map_eq_some_iff.mp hn
  obtain ⟨m, hm, -⟩ := defined v e h x hx
  have hp : passed ⟨.b64, false⟩ e v = some (conv ⟨.b64, false⟩ m) := by unfold passed; rw [hm]; rfl
  rw [hp, C105_modular_partial ⟨.b64, false⟩ e v h n _ hn hp]

/-- `x * y - 3 | 8` -/
example : Modular 64 (fun i => (int, if i = 0 then -7 else 5)) (.bin .or (.bin .sub (.bin .mul (.var 0) (.var 1)) (.const int 3)) (.const int 8)) ∧
    passed u64 (.bin .or (.bin .sub (.bin .mul (.var 0) (.var 1)) (.const int 3)) (.const int 8)) (fun i => (int, if i = 0 then -7 else 5)) = some (2 ^ 64 - 38) := by
  refine ⟨?_, by decide⟩
  simp [Modular, usual, promote, Expr.ty, int, Ty.w]

/-- The first operand, `p + i` for `p` a pointer to objects of `size` bytes: the right object exactly if objects have 8 bytes or nothing is added on the whole. -/
theorem C105_address (size base : Int) (ts : List (Bool × Int)) : sumPasted base ts = sum size base ts ↔ size = 8 ∨ total ts = 0 := by
  unfold sumPasted
  rw [sum_total, sum_total]
  constructor
  · intro h
    have : (8 - size) * total ts = 0 := by rw [Int.sub_mul]; omega
    rcases Int.mul_eq_zero.mp this with h | h
    · exact .inl (by omega)
    · exact .inr h
  · rintro (rfl | h)
    · rfl
    · rw [h]; simp

/-- `counters + 1` for an `int *`: the object two further on. -/
example : sumPasted 1000 [(true, 1)] = 1008 ∧ sum 4 1000 [(true, 1)] = 1004 := by decide

/-- `atomic_fetch_or(p, a + b - c)` where 64 bits are the default: the terms count eightfold, so the operand is right exactly if they add up to nothing. -/
theorem C105_or (a : Int) (ts : List (Bool × Int)) : conv ⟨.b64, false⟩ (sumPasted a ts) = conv ⟨.b64, false⟩ (sum 1 a ts) ↔ total ts % 2 ^ 64 = 0 := by
  unfold sumPasted
  rw [sum_total, sum_total]
  generalize total ts = x
  have e : ∀ n : Int, conv ⟨.b64, false⟩ n = n % 2 ^ 64 := fun n => by simp [conv, Ty.w]
  rw [e, e]
  exact seven (2 ^ 64) 7905747460161236407 3 x a (by decide)

example : sumPasted 1 [(true, 2)] = 17 ∧ sum 1 1 [(true, 2)] = 3 := by decide

end Verif.Props
