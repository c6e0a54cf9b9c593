import Verif.Proof.Args
/-!
# C43, C44: argument packs
-/
namespace Verif.Props
open Verif Verif.Pk

/-- C43, the full statement: packing matching arguments succeeds, and reading item `k` gives the value
of argument `k`; reading an item that does not exist does not dereference NULL. -/
def C43_Full : Prop := ∀ (d : List Char) (as : List Arg), Fit d as → d.length < 2 ^ 31 →
  ∃ ws cs, pack d as = .ok ws cs ∧
    (∀ k c a, d[k]? = some c → as[k]? = some a → ∃ w, getArgs ws (BitVec.ofNat 32 k) = some w ∧ member c w = a.value) ∧
    ∀ item, getArgs ws item ≠ none

/-- C43 is false: a pointer argument is undefined behaviour. -/
theorem C43_full_false : ¬ C43_Full := by
  intro h
  obtain ⟨ws, cs, e, _⟩ := h ['p'] [.ptr 64] ⟨trivial, trivial⟩ (by decide)
  cases e

/-- C43 for formats without `p` and strings of at most 272 bytes: every item has the value passed.
Missing: `p`, longer strings (undefined behaviour, below), and reporting an item out of range. -/
theorem C43_values_partial (d : List Char) (as : List Arg) (hf : Fit d as) (hn : d.length < 2 ^ 31) (hp : 'p' ∉ d)
    (hs : ∀ a ∈ as, a.short) :
    ∃ ws, pack d as = .ok ws [] ∧
      ∀ k c a, d[k]? = some c → as[k]? = some a → ∃ w, getArgs ws (BitVec.ofNat 32 k) = some w ∧ member c w = a.value := by
  obtain ⟨ws, h1, h2, h3⟩ := pack_values d as hf hp hs
  refine ⟨ws, h1, fun k c a hc ha => ?_⟩
  have hk : k < d.length := by
    rcases Nat.lt_or_ge k d.length with h | h
    · exact h
    · rw [List.getElem?_eq_none h] at hc; cases hc
  obtain ⟨w, e1, e2⟩ := h3 k c a hc ha
  refine ⟨w, ?_, e2⟩
  unfold getArgs argsIn
  rw [sign_small (by omega)]
  exact e1

example : Fit ['i', 'c', 's', 'f'] [.i32 (-5), .chr (-1), .str 4096 272, .dbl 0x4009000000000000] ∧
    'p' ∉ ['i', 'c', 's', 'f'] ∧ member 'i' ((BitVec.setWidth 64 (-5 : BitVec 32))) = -5 := by
  refine ⟨⟨trivial, ⟨by decide, by decide⟩, trivial, trivial, trivial⟩, by decide, by decide⟩

/-- A format with `p` is undefined behaviour whatever the (matching) arguments: another argument is taken. -/
theorem C43_pointer_wild (d : List Char) (as : List Arg) (hf : Fit d as) (hp : 'p' ∈ d) : pack d as = .wild :=
  pack_p d as hf hp

example : Fit ['i', 'p', 's'] [.i32 1, .ptr 64, .str 4096 3] := ⟨trivial, trivial, trivial, trivial⟩

/-- Given one argument more, another pointer, it is defined exactly if neither is NULL; then the first slot is the first pointer, and eight bytes at the second are copied over
those at the first. -/
theorem C43_pointer_copies (d : List Char) (as : List Arg) (p q : W) (hf : Fit d as) (hp : 'p' ∉ d) (hs : ∀ a ∈ as, a.short) :
    ((∃ ws cs, pack ('p' :: d) (.ptr p :: .ptr q :: as) = .ok ws cs) ↔ p ≠ 0 ∧ q ≠ 0) ∧
    (p ≠ 0 → q ≠ 0 → ∃ ws, pack ('p' :: d) (.ptr p :: .ptr q :: as) = .ok (p :: ws) [(p, q)]) := by
  obtain ⟨ws, h1, -, -⟩ := pack_values d as hf hp hs
  have e : pack ('p' :: d) (.ptr p :: .ptr q :: as) = if p = 0 ∨ q = 0 then .wild else .ok (p :: ws) [(p, q)] := by
    simp only [pack, Arg.pointer, fallback, h1, Out.cons, List.append_nil]
  rw [e]
  by_cases hp0 : p = 0
  · simp [hp0]
  · by_cases hq0 : q = 0
    · simp [hq0]
    · rw [if_neg (by rintro (h | h) <;> contradiction)]
      exact ⟨⟨fun _ => ⟨hp0, hq0⟩, fun _ => ⟨_, _, rfl⟩⟩, fun _ _ => ⟨_, rfl⟩⟩

example : pack ['p', 'i'] [.ptr 64, .ptr 128, .i32 5] = .ok [64, 5] [(64, 128)] := by decide

/-- A string of more than 272 bytes is copied to NULL. -/
theorem C43_long_string_wild (d : List Char) (as : List Arg) (hf : Fit d as) (hl : ∃ p len, Arg.str p len ∈ as ∧ 272 < len) :
    pack d as = .wild := by
  obtain ⟨p, len, hm, hl⟩ := hl
  exact pack_long d as hf ⟨_, hm, fun h => by have : len ≤ 272 := h; omega⟩

example : Fit ['i', 's'] [.i32 1, .str 4096 273] := ⟨trivial, trivial, trivial⟩

/-- Items out of range, and only they, dereference NULL; a negative one is out of range. -/
theorem C43_out_of_range (ws : List W) (item : BitVec 32) (hn : ws.length < 2 ^ 31) :
    getArgs ws item = none ↔ item.toInt < 0 ∨ ws.length ≤ item.toInt := by
  unfold getArgs argsIn
  rw [List.getElem?_eq_none_iff, BitVec.toNat_signExtend, BitVec.toInt_eq_msb_cond, BitVec.toNat_setWidth]
  have h1 := item.isLt
  have hb : item.msb = decide (2 ^ 31 ≤ item.toNat) := BitVec.msb_eq_decide item
  have h2 : item.toNat % 2 ^ 64 = item.toNat := Nat.mod_eq_of_lt (by omega)
  rw [h2, hb]
  by_cases hm : 2 ^ 31 ≤ item.toNat
  · simp only [hm, decide_true, if_true]; omega
  · simp only [hm, decide_false, Bool.false_eq_true, if_false]; omega

example : getArgs [7, 8] 1 = some 8 ∧ getArgs [7, 8] (-1) = none := by decide

/-- C44: no pack is freed twice, whatever packs are read how often and whatever scopes are left. -/
theorem C44_never_twice (ctx : Nat → Option Nat) (h : List Op) (p : Nat) : (run (start ctx) h).freed.count p ≤ 1 := by
  have := (Inv.run (h := h) (Inv.start ctx)).once p 0
  omega

/-- C44: a pack that is read is freed exactly once, when the scope that got its first reading is left
for the first time after that, and not before. -/
theorem C44_freed_once (ctx : Nat → Option Nat) (h1 h2 h3 : List Op) (sc : Option Nat) (p : Nat)
    (hfirst : h1.any (Op.used p) = false) (hl : ∀ o ∈ h2, o ≠ .leave (releaser ctx sc p)) :
    p ∉ (run (start ctx) (h1 ++ .get sc p :: h2)).freed ∧
    (run (start ctx) (h1 ++ .get sc p :: h2 ++ .leave (releaser ctx sc p) :: h3)).freed.count p = 1 := by
  have hset : (run (start ctx) h1).set p = false := by
    cases e : (run (start ctx) h1).set p with
    | false => rfl
    | true =>
      rcases run_set_iff e with x | x
      · cases x
      · rw [hfirst] at x; cases x
  have hin : p ∈ (run (start ctx) (h1 ++ .get sc p :: h2)).defers (releaser ctx sc p) := by
    rw [run_append]
    refine run_stays (st := step (run (start ctx) h1) (.get sc p)) hl ?_
    show p ∈ (getDefer sc p (run (start ctx) h1)).defers _
    rw [getDefer_new hset, owner_eq (ctx := ctx) (run_ctx (st := start ctx))]
    dsimp only
    rw [if_pos rfl]
    exact List.mem_cons_self
  refine ⟨fun hf => ?_, ?_⟩
  · have := (Inv.run (h := h1 ++ .get sc p :: h2) (Inv.start ctx)).once p (releaser ctx sc p)
    have a := List.count_pos_iff.mpr hin
    have b := List.count_pos_iff.mpr hf
    omega
  · have hle := C44_never_twice ctx (h1 ++ .get sc p :: h2 ++ .leave (releaser ctx sc p) :: h3) p
    have : p ∈ (run (start ctx) (h1 ++ .get sc p :: h2 ++ .leave (releaser ctx sc p) :: h3)).freed := by
      rw [run_append]
      generalize run (start ctx) (h1 ++ .get sc p :: h2) = st at hin
      have a : p ∈ (step st (.leave (releaser ctx sc p))).freed := List.mem_append_right _ hin
      show p ∈ (run (step st (.leave (releaser ctx sc p))) h3).freed
      exact run_freed a
    have := List.count_pos_iff.mpr this
    omega

/-- Two readings of pack 7 in scope 3, interleaved with another pack; scope 3 is left twice. -/
example : (run (start fun _ => none) [.get none 5, .get (some 3) 7, .get none 7, .leave 0, .leave 3, .leave 3]).freed = [5, 7] := by
  decide

/-- A pack that is never read is never freed by leaving scopes (`args_free` must be called). -/
theorem C44_unread_not_freed (ctx : Nat → Option Nat) (h : List Op) (p : Nat) (hn : h.any (Op.used p) = false) :
    p ∉ (run (start ctx) h).freed := by
  intro hf
  have := ((Inv.run (h := h) (Inv.start ctx)).marked p).2 (.inl hf)
  rcases run_set_iff this with x | x
  · cases x
  · rw [hn] at x; cases x

end Verif.Props
