import Verif.Spec.ScopeRace
namespace Verif.Rc
variable {α : Type}

/-- A block holds `L` in its first cells. -/
def Cells (o : Block α) (L : List α) : Prop := ∀ k, k < L.length → o.cells k = L[k]?

/-- Between calls. -/
def Calm (y : Sys α) (L : List α) : Prop :=
  y.elements = L.length ∧
  ((y.base = none ∧ L = []) ∨
   ∃ b o, y.base = some b ∧ b < y.fresh ∧ y.blocks b = some o ∧ Cells o L ∧ L.length ≤ o.cap ∧ o.cap % 16 = 0)

/-- There is room for one more. -/
def Room (y : Sys α) (L : List α) (b : Nat) : Prop := b < y.fresh ∧ ∃ o, y.blocks b = some o ∧ Cells o L ∧ L.length < o.cap ∧ o.cap % 16 = 0

def PcOk (y : Sys α) (L : List α) : Pc α → Prop
  | .idle | .load _ => Calm y L
  | .grow _ n => Calm y L ∧ n = L.length ∧ n % 16 = 0
  | .setBase _ b => y.elements = L.length ∧ Room y L b
  | .slot _ => y.elements = L.length ∧ ∃ b, y.base = some b ∧ Room y L b
  | .inc _ b n => y.elements = L.length ∧ n = L.length ∧ ∃ c, b = some c ∧ y.base = some c ∧ Room y L c
  | .put _ b n => y.elements = L.length + 1 ∧ n = L.length ∧ ∃ c, b = some c ∧ y.base = some c ∧ Room y L c

def Inv (y : Sys α) : Prop := y.wild = false ∧ ∃ j, (∀ i, i ≠ j → y.th i = .idle) ∧ PcOk y y.done.reverse (y.th j)

theorem Inv.init : Inv (init : Sys α) := ⟨rfl, 0, fun _ _ => rfl, rfl, .inl ⟨rfl, rfl⟩⟩

theorem go_self (y : Sys α) (j : Nat) (p : Pc α) : (y.go j p).th j = p := if_pos rfl

theorem go_other (y : Sys α) {i j : Nat} (p : Pc α) (h : i ≠ j) : (y.go j p).th i = y.th i := if_neg h

theorem Inv.stepTh {y : Sys α} (I : Inv y) (i : Nat) : Inv (stepTh y i) := by
  obtain ⟨hw, j, hi, ho⟩ := I
  by_cases e : i = j
  case neg =>
    unfold Rc.stepTh
    rw [hi i e]
    exact ⟨hw, j, hi, ho⟩
  subst e
  have hi' : ∀ (y' : Sys α) (p : Pc α), (∀ k, y'.th k = (y.go i p).th k) → ∀ k, k ≠ i → y'.th k = .idle := by
    intro y' p h k hk
    rw [h, go_other _ _ hk]
    exact hi k hk
  unfold Rc.stepTh
  cases hp : y.th i with
  | idle => exact ⟨hw, i, hi, ho⟩
  | load x =>
    rw [hp] at ho
    dsimp only
    refine ⟨hw, i, hi' _ _ fun _ => rfl, ?_⟩
    rw [go_self]
    split
    · next h => exact ⟨ho, ho.1, h⟩
    · next h =>
      obtain ⟨h1, ⟨-, h2⟩ | ⟨b, o, h2, h3, h4, h5, h6, h7⟩⟩ := ho
      · exfalso; apply h; rw [h1, h2]; rfl
      · exact ⟨h1, b, h2, h3, o, h4, h5, by show y.done.reverse.length < _; omega, h7⟩
  | grow x n =>
    rw [hp] at ho
    dsimp only
    obtain ⟨⟨h1, h2⟩, rfl, hm⟩ := ho
    unfold Sys.realloc
    rcases h2 with ⟨h2, h3⟩ | ⟨b, o, h2, h3, h4, h5, h6, h7⟩
    · rw [h2]
      dsimp only
      refine ⟨hw, i, hi' _ _ fun _ => rfl, ?_⟩
      rw [go_self]
      exact ⟨h1, Nat.lt_succ_self _, _, if_pos rfl, fun k (hk : k < y.done.reverse.length) => absurd hk (by rw [h3]; exact Nat.not_lt_zero k), Nat.lt_add_of_pos_right (by decide), by show (y.done.reverse.length + 16) % 16 = 0; omega⟩
    · rw [h2]
      dsimp only
      rw [h4]
      dsimp only
      refine ⟨hw, i, hi' _ _ fun _ => rfl, ?_⟩
      rw [go_self]
      refine ⟨h1, Nat.lt_succ_self _, _, if_pos rfl, ?_, Nat.lt_add_of_pos_right (by decide), by show (y.done.reverse.length + 16) % 16 = 0; omega⟩
      intro k hk
      show (if k < o.cap then o.cells k else none) = _
      rw [if_pos (Nat.lt_of_lt_of_le hk h6)]
      exact h5 k hk
  | setBase x b =>
    rw [hp] at ho
    refine ⟨hw, i, hi' _ _ fun _ => rfl, ?_⟩
    show PcOk _ _ ((y.go i _).th i)
    rw [go_self]
    exact ⟨ho.1, b, rfl, ho.2⟩
  | slot x =>
    rw [hp] at ho
    refine ⟨hw, i, hi' _ _ fun _ => rfl, ?_⟩
    show PcOk _ _ ((y.go i _).th i)
    rw [go_self]
    obtain ⟨h1, b, h2, h3⟩ := ho
    exact ⟨h1, h1, b, h2, h2, h3⟩
  | inc x b n =>
    rw [hp] at ho
    refine ⟨hw, i, hi' _ _ fun _ => rfl, ?_⟩
    show PcOk _ _ ((y.go i _).th i)
    rw [go_self]
    obtain ⟨h1, h2, h3⟩ := ho
    exact ⟨congrArg (· + 1) h2, h2, h3⟩
  | put x b n =>
    rw [hp] at ho
    obtain ⟨h1, h2, c, h3, h4, h5, o, h6, h7, h8, h9⟩ := ho
    subst h3
    dsimp only [Option.bind_some]
    rw [h6]
    dsimp only
    rw [if_pos (by omega)]
    refine ⟨hw, i, hi' _ _ fun _ => rfl, ?_⟩
    show PcOk _ _ ((y.go i _).th i)
    rw [go_self]
    have hd : (x :: y.done).reverse = y.done.reverse ++ [x] := List.reverse_cons
    have hn : (y.done.reverse ++ [x]).length = y.done.reverse.length + 1 := List.length_append
    refine ⟨?_, .inr ⟨c, _, h4, h5, if_pos rfl, ?_, ?_, ?_⟩⟩
    · show y.elements = (x :: y.done).reverse.length
      rw [hd, hn, h1]
    · show Cells _ (x :: y.done).reverse
      rw [hd]
      intro k hk
      rw [hn] at hk
      show (if k = n then some x else o.cells k) = _
      by_cases e : k = n
      · rw [if_pos e, e, h2, List.getElem?_append_right (Nat.le_refl _), Nat.sub_self]
        rfl
      · rw [if_neg e, List.getElem?_append_left (by omega)]
        exact h7 k (by omega)
    · show (x :: y.done).reverse.length ≤ o.cap
      rw [hd, hn]; omega
    · exact h9

theorem Inv.step {y : Sys α} (I : Inv y) {a : Act α} {h : List (Act α)} (S : Serial y (a :: h)) : Inv (step y a) := by
  cases a with
  | call j x =>
    simp only [Rc.step]
    have hq : ∀ i, y.th i = .idle := S.1
    obtain ⟨hw, i, -, ho⟩ := I
    rw [hq] at ho
    rw [hq]
    refine ⟨hw, j, fun k hk => ?_, ?_⟩
    · rw [go_other _ _ hk]; exact hq k
    · rw [go_self]; exact ho
  | step j => exact I.stepTh j

theorem Inv.run (h : List (Act α)) {y : Sys α} (I : Inv y) (S : Serial y h) : Inv (run y h) := by
  induction h generalizing y with
  | nil => exact I
  | cons a h ih => exact ih (I.step S) S.2

theorem Inv.kept {y : Sys α} (I : Inv y) (hq : ∀ j, y.th j = .idle) : y.kept = y.done.map some := by
  obtain ⟨-, j, -, ho⟩ := I
  rw [hq] at ho
  obtain ⟨h1, h2⟩ := ho
  have : y.done.map some = (y.done.reverse.map some).reverse := by rw [← List.map_reverse, List.reverse_reverse]
  rw [this]
  unfold Sys.kept
  rw [List.map_reverse, h1]
  congr 1
  apply List.ext_getElem
  · rw [List.length_map, List.length_map, List.length_range]
  · intro k k1 k2
    rw [List.length_map] at k2
    rw [List.getElem_map, List.getElem_map, List.getElem_range]
    rcases h2 with ⟨-, h2⟩ | ⟨b, o, h2, h3, h4, h5, -⟩
    · rw [h2] at k2; cases k2
    · rw [h2, Option.bind_some, h4, Option.bind_some, h5 k k2, List.getElem?_eq_getElem k2]

end Verif.Rc
