import Verif.Spec.Dirent

namespace Verif.Dd

theorem fn_eq {β : Type} (f : Nat → β) (a : Nat) (b : β) : fn f a b a = b := if_pos rfl
theorem fn_ne {β : Type} (f : Nat → β) {a x : Nat} (b : β) (h : x ≠ a) : fn f a b x = f x := if_neg h

/-- Blocks and searches belong to the streams. -/
structure Bal (w : World) : Prop where
  heap : ∀ b, b ∈ w.heap ↔ ∃ d s, w.dirs d = some s ∧ b ∈ s.blocks
  own : ∀ d d' s s' b, w.dirs d = some s → w.dirs d' = some s' → b ∈ s.blocks → b ∈ s'.blocks → d = d'
  nodup : ∀ d s, w.dirs d = some s → s.blocks.Nodup
  fresh : ∀ b ∈ w.heap, b < w.nextB
  files : ∀ h, w.files h ≠ none ↔ ∃ d s, w.dirs d = some s ∧ s.handle = some h
  hown : ∀ d d' s s' h, w.dirs d = some s → w.dirs d' = some s' → s.handle = some h → s'.handle = some h → d = d'
  hfresh : ∀ h, w.files h ≠ none → h < w.nextH
  dfresh : ∀ d, w.dirs d ≠ none → d < w.nextD
  bad : w.bad = false

theorem Bal.init : Bal init := by
  refine ⟨?_, ?_, ?_, ?_, ?_, ?_, ?_, ?_, rfl⟩ <;> simp [Dd.init]

/-- What a stream has still to report. -/
def pend (w : World) (s : Stream) : List Entry :=
  (if s.cached then s.data.toList else []) ++ (match s.handle with | some h => (w.files h).getD [] | none => [])

theorem free_malloc {w : World} (hf : ∀ b ∈ w.heap, b < w.nextB) {n : Nat} {w' : World} (h : w' = { w with heap := w.nextB :: w.heap, nextB := n }) :
    w'.free w.nextB = { w with nextB := n } := by
  subst h
  simp only [World.free, List.filter_cons, ne_eq, not_true, decide_false, Bool.false_eq_true, if_false]
  have : w.heap.filter (fun x => decide (¬ x = w.nextB)) = w.heap := List.filter_eq_self.2 fun b hb => by
    have := hf b hb
    simp only [decide_eq_true_eq]
    omega
  rw [this]
  simp

theorem Bal.bump {w : World} (B : Bal w) {n : Nat} (h : w.nextB ≤ n) : Bal { w with nextB := n } :=
  ⟨B.heap, B.own, B.nodup, fun b hb => Nat.lt_of_lt_of_le (B.fresh b hb) h, B.files, B.hown, B.hfresh, B.dfresh, B.bad⟩

theorem getFull_length {p1 p2 : Option (List Nat)} {m : Nat} {wr : Option (List Nat)} (h : getFull p2 (getFull p1 0).1 = (m, wr)) (h0 : m ≠ 0) (e : p1 = p2) :
    ∃ p, p2 = some p ∧ p ≠ [] ∧ m = p.length ∧ wr = some p ∧ (getFull p1 0).1 = p.length + 1 := by
  subst e
  cases p1 with
  | none => simp [getFull] at h; exact absurd h.1.symm h0
  | some p =>
    have hn : (getFull (some p) 0).1 = p.length + 1 := by simp [getFull]
    rw [hn] at h
    simp only [getFull, Nat.lt_succ_self, if_true, Prod.mk.injEq] at h
    refine ⟨p, rfl, ?_, h.1.symm, h.2.symm, hn⟩
    rintro rfl
    exact h0 h.1.symm

theorem getD_last : ∀ (p : List Nat), p ≠ [] → p.getLast? = some (p.getD (p.length - 1) 0) := by
  intro p hp
  rw [List.getLast?_eq_getElem?, List.getD_eq_getElem?_getD]
  have : p.length - 1 < p.length := by
    have := List.length_pos_iff.2 hp; omega
  rw [List.getElem?_eq_getElem this]
  rfl

theorem pattern_all {p : List Nat} (hp : p ≠ []) : pattern (p.length + 1) p.length (some p) = some (Spec.all p) := by
  have hl := getD_last p hp
  simp only [pattern, Spec.all, hl, Option.some.injEq]
  have e1 : (p.getD (p.length - 1) 0 = 92 ∨ p.getD (p.length - 1) 0 = 47 ∨ p.getD (p.length - 1) 0 = 58) ↔ isSep (p.getD (p.length - 1) 0) = true := by
    simp [isSep, or_assoc]
  simp only [e1]
  by_cases q : isSep (p.getD (p.length - 1) 0) = true
  · simp only [q, if_true, List.append_nil]
    rw [if_pos (by omega)]
  · simp only [q, Bool.false_eq_true, if_false]
    rw [if_pos (by omega)]
    simp

/-- How `opendir` ends. -/
theorem opendir_ends {w w' : World} {n : List Nat} {a : Answers} {r : Option Nat} (B : Bal w) (h : opendir w n a = some (w', r)) :
    (r = none ∧ ∃ k, w.nextB ≤ k ∧ w' = { w with nextB := k }) ∨
    ∃ e es patt, r = some w.nextD ∧ w' = { w with heap := (w.nextB + 2) :: (w.nextB + 1) :: w.nextB :: w.heap, nextB := w.nextB + 3, files := fn w.files w.nextH (some es), nextH := w.nextH + 1, dirs := fn w.dirs w.nextD (some ⟨[w.nextB + 2, w.nextB + 1, w.nextB], some e, true, some w.nextH, patt⟩), nextD := w.nextD + 1 } ∧ a.finds patt = e :: es ∧
      n ≠ [] ∧ a.mDir = true ∧ a.mWdir = true ∧ a.mPatt = true ∧ (∃ wn, a.wide = some wn ∧ wn ≠ []) ∧
      (getFull a.path2 (getFull a.path1 0).1).1 ≠ 0 ∧ pattern (getFull a.path1 0).1 (getFull a.path2 (getFull a.path1 0).1).1 (getFull a.path2 (getFull a.path1 0).1).2 = some patt := by
  unfold opendir at h
  by_cases h1 : n = []
  · rw [if_pos h1] at h; cases h; exact .inl ⟨rfl, w.nextB, Nat.le_refl _, rfl⟩
  rw [if_neg h1] at h
  cases h2 : a.mDir with
  | false => simp only [h2, Bool.not_false, if_true] at h; cases h; exact .inl ⟨rfl, w.nextB, Nat.le_refl _, rfl⟩
  | true =>
    simp only [h2, Bool.not_true, Bool.false_eq_true, if_false, World.malloc] at h
    cases h3 : a.wide with
    | none =>
      simp only [h3] at h
      cases h
      exact .inl ⟨rfl, w.nextB + 1, by omega, free_malloc B.fresh rfl⟩
    | some wn =>
      simp only [h3] at h
      generalize hw1 : ({ w with heap := w.nextB :: w.heap, nextB := w.nextB + 1 } : World) = w1 at h
      have f1 : ∀ b ∈ w1.heap, b < w1.nextB := by
        subst hw1
        intro b hb
        rcases List.mem_cons.1 hb with rfl | hb
        · exact Nat.lt_succ_self _
        · exact Nat.lt_succ_of_lt (B.fresh b hb)
      have hn1 : w1.nextB = w.nextB + 1 := by subst hw1; rfl
      -- what is left after a failure
      have fail : ∀ k, w1.nextB ≤ k → (({ w1 with nextB := k } : World)).free w.nextB = { w with nextB := k } := fun k _ => by
        subst hw1; exact free_malloc B.fresh rfl
      unfold wopendir at h
      by_cases h4 : wn = []
      · rw [if_pos h4] at h
        cases h
        exact .inl ⟨rfl, w1.nextB, by omega, fail w1.nextB (Nat.le_refl _)⟩
      rw [if_neg h4] at h
      cases h5 : a.mWdir with
      | false =>
        simp only [h5, Bool.not_false, if_true] at h
        cases h
        exact .inl ⟨rfl, w1.nextB, by omega, fail w1.nextB (Nat.le_refl _)⟩
      | true =>
        simp only [h5, Bool.not_true, Bool.false_eq_true, if_false, World.malloc] at h
        cases h6 : a.mPatt with
        | false =>
          simp only [h6, Bool.not_false, if_true, wclosedir, World.freeAll, List.foldl_cons, List.foldl_nil] at h
          rw [free_malloc f1 rfl] at h
          rw [fail (w1.nextB + 1) (by omega)] at h
          cases h
          exact .inl ⟨rfl, w1.nextB + 1, by omega, rfl⟩
        | true =>
          simp only [h6, Bool.not_true, Bool.false_eq_true, if_false] at h
          -- closing the stream as far as it has come
          have undo : ∀ w2 : World, w2 = { w1 with heap := (w1.nextB + 1) :: w1.nextB :: w1.heap, nextB := w1.nextB + 1 + 1 } →
              (w2.free (w1.nextB + 1)).free w1.nextB = { w1 with nextB := w1.nextB + 2 } := by
            rintro w2 rfl
            have f2 : ∀ b ∈ w1.nextB :: w1.heap, b < w1.nextB + 1 := by
              intro b hb
              rcases List.mem_cons.1 hb with rfl | hb
              · exact Nat.lt_succ_self _
              · exact Nat.lt_succ_of_lt (f1 b hb)
            rw [show ({ w1 with heap := (w1.nextB + 1) :: w1.nextB :: w1.heap, nextB := w1.nextB + 1 + 1 } : World).free (w1.nextB + 1)
              = { w1 with heap := w1.nextB :: w1.heap, nextB := w1.nextB + 1 + 1 } from
                free_malloc (w := { w1 with heap := w1.nextB :: w1.heap, nextB := w1.nextB + 1 }) f2 rfl]
            exact free_malloc f1 rfl
          cases hg : getFull a.path2 (getFull a.path1 0).1 with
          | mk m wr =>
            rw [hg] at h
            simp only at h
            by_cases h7 : m = 0
            · simp only [h7, if_true, wclosedir, World.freeAll, List.foldl_cons, List.foldl_nil] at h
              rw [undo _ rfl] at h
              rw [fail (w1.nextB + 2) (by omega)] at h
              cases h
              exact .inl ⟨rfl, w1.nextB + 2, by omega, rfl⟩
            · rw [if_neg h7] at h
              cases hp : pattern (getFull a.path1 0).1 m wr with
              | none => rw [hp] at h; cases h
              | some patt =>
                rw [hp] at h
                simp only [dirent_first] at h
                cases hfd : a.finds patt with
                | nil =>
                  rw [hfd] at h
                  simp only [World.findFirst, wclosedir, World.freeAll, List.foldl_cons, List.foldl_nil] at h
                  rw [undo _ rfl] at h
                  rw [fail (w1.nextB + 2) (by omega)] at h
                  cases h
                  exact .inl ⟨rfl, w1.nextB + 2, by omega, rfl⟩
                | cons e es =>
                  rw [hfd] at h
                  simp only [World.findFirst] at h
                  cases h
                  refine .inr ⟨e, es, patt, ?_, ?_, hfd, h1, rfl, rfl, rfl, ⟨wn, rfl, h4⟩, h7, rfl⟩
                  · subst hw1; rfl
                  · subst hw1; rfl

theorem Bal.opendir {w w' : World} {n : List Nat} {a : Answers} {r : Option Nat} (B : Bal w) (h : opendir w n a = some (w', r)) : Bal w' := by
  rcases opendir_ends B h with ⟨-, k, hk, rfl⟩ | ⟨e, es, patt, -, rfl, -⟩
  · exact B.bump hk
  · have hd : w.dirs w.nextD = none := by
      cases q : w.dirs w.nextD with
      | none => rfl
      | some s => exact absurd (B.dfresh w.nextD (by rw [q]; intro e; cases e)) (Nat.lt_irrefl _)
    have hh : w.files w.nextH = none := by
      cases q : w.files w.nextH with
      | none => rfl
      | some s => exact absurd (B.hfresh w.nextH (by rw [q]; intro e; cases e)) (Nat.lt_irrefl _)
    have old : ∀ d s, w.dirs d = some s → ∀ b ∈ s.blocks, b < w.nextB := fun d s q b hb => B.fresh b ((B.heap b).2 ⟨d, s, q, hb⟩)
    have oldh : ∀ d s h, w.dirs d = some s → s.handle = some h → h < w.nextH := fun d s h q q' => B.hfresh h ((B.files h).2 ⟨d, s, q, q'⟩)
    have cs : ∀ d s, fn w.dirs w.nextD (some ⟨[w.nextB + 2, w.nextB + 1, w.nextB], some e, true, some w.nextH, patt⟩) d = some s →
        (d = w.nextD ∧ s = ⟨[w.nextB + 2, w.nextB + 1, w.nextB], some e, true, some w.nextH, patt⟩) ∨ (d ≠ w.nextD ∧ w.dirs d = some s) := by
      intro d s q
      by_cases c : d = w.nextD
      · subst c; rw [fn_eq] at q; cases q; exact .inl ⟨rfl, rfl⟩
      · rw [fn_ne _ _ c] at q; exact .inr ⟨c, q⟩
    refine ⟨fun b => ?_, fun d d' s s' b q q' hb hb' => ?_, fun d s q => ?_, fun b hb => ?_, fun h => ?_, fun d d' s s' h q q' hb hb' => ?_, fun h q => ?_, fun d q => ?_, B.bad⟩
    · constructor
      · intro hb
        have : b ∈ [w.nextB + 2, w.nextB + 1, w.nextB] ∨ b ∈ w.heap := by
          simp only [List.mem_cons, List.not_mem_nil, or_false] at hb ⊢
          rcases hb with h | h | h | h
          · exact .inl (.inl h)
          · exact .inl (.inr (.inl h))
          · exact .inl (.inr (.inr h))
          · exact .inr h
        rcases this with q | q
        · exact ⟨w.nextD, _, fn_eq _ _ _, q⟩
        · obtain ⟨d, s, q1, q2⟩ := (B.heap b).1 q
          exact ⟨d, s, (fn_ne _ _ (fun e => by rw [e, hd] at q1; cases q1)).trans q1, q2⟩
      · rintro ⟨d, s, q, hb⟩
        rcases cs d s q with ⟨rfl, rfl⟩ | ⟨-, q⟩
        · simp only [List.mem_cons, List.not_mem_nil, or_false] at hb ⊢
          rcases hb with h | h | h
          · exact .inl h
          · exact .inr (.inl h)
          · exact .inr (.inr (.inl h))
        · exact List.mem_cons_of_mem _ (List.mem_cons_of_mem _ (List.mem_cons_of_mem _ ((B.heap b).2 ⟨d, s, q, hb⟩)))
    · rcases cs d s q with ⟨rfl, rfl⟩ | ⟨c, q⟩ <;> rcases cs d' s' q' with ⟨rfl, rfl⟩ | ⟨c', q'⟩
      · rfl
      · have := old d' s' q' b hb'
        simp only [List.mem_cons, List.not_mem_nil, or_false] at hb
        omega
      · have := old d s q b hb
        simp only [List.mem_cons, List.not_mem_nil, or_false] at hb'
        omega
      · exact B.own d d' s s' b q q' hb hb'
    · rcases cs d s q with ⟨rfl, rfl⟩ | ⟨c, q⟩
      · simp
      · exact B.nodup d s q
    · simp only [List.mem_cons] at hb
      rcases hb with h | h | h | h
      · simp only; omega
      · simp only; omega
      · simp only; omega
      · have := B.fresh b h; simp only; omega
    · by_cases c : h = w.nextH
      · subst c
        simp only [fn_eq, ne_eq, reduceCtorEq, not_false_eq_true, true_iff]
        exact ⟨w.nextD, _, fn_eq _ _ _, rfl⟩
      · simp only [fn_ne _ _ c]
        rw [B.files h]
        constructor
        · rintro ⟨d, s, q1, q2⟩
          exact ⟨d, s, by rw [fn_ne _ _ (fun e => by rw [e, hd] at q1; cases q1)]; exact q1, q2⟩
        · rintro ⟨d, s, q1, q2⟩
          rcases cs d s q1 with ⟨rfl, rfl⟩ | ⟨c', q⟩
          · cases q2; exact absurd rfl c
          · exact ⟨d, s, q, q2⟩
    · rcases cs d s q with ⟨rfl, rfl⟩ | ⟨c, q⟩ <;> rcases cs d' s' q' with ⟨rfl, rfl⟩ | ⟨c', q'⟩
      · rfl
      · cases hb; exact absurd (oldh d' s' _ q' hb') (Nat.lt_irrefl _)
      · cases hb'; exact absurd (oldh d s _ q hb) (Nat.lt_irrefl _)
      · exact B.hown d d' s s' h q q' hb hb'
    · by_cases c : h = w.nextH
      · subst c; exact Nat.lt_succ_self _
      · simp only [fn_ne _ _ c] at q; exact Nat.lt_succ_of_lt (B.hfresh h q)
    · by_cases c : d = w.nextD
      · subst c; exact Nat.lt_succ_self _
      · simp only [fn_ne _ _ c] at q; exact Nat.lt_succ_of_lt (B.dfresh d q)

/-- A stream changes its search. -/
theorem Bal.turn {w w' : World} {d : Nat} {s s' : Stream} (B : Bal w) (hs : w.dirs d = some s) (hb : s'.blocks = s.blocks) (e1 : w'.heap = w.heap) (e2 : w'.nextB = w.nextB)
    (e3 : w'.dirs = fn w.dirs d (some s')) (e4 : w'.nextD = w.nextD) (e5 : w'.bad = w.bad) (e6 : w.nextH ≤ w'.nextH)
    (hf : ∀ h, w'.files h ≠ none ↔ (s'.handle = some h ∨ (w.files h ≠ none ∧ s.handle ≠ some h)))
    (hn : ∀ h, s'.handle = some h → h < w'.nextH ∧ (s.handle = some h ∨ w.nextH ≤ h)) : Bal w' := by
  have cs : ∀ x y, w'.dirs x = some y → (x = d ∧ y = s') ∨ (x ≠ d ∧ w.dirs x = some y) := by
    intro x y q
    rw [e3] at q
    by_cases c : x = d
    · subst c; rw [fn_eq] at q; cases q; exact .inl ⟨rfl, rfl⟩
    · rw [fn_ne _ _ c] at q; exact .inr ⟨c, q⟩
  have cs' : ∀ x y, w'.dirs x = some y → ∃ z, w.dirs x = some z ∧ z.blocks = y.blocks := by
    intro x y q
    rcases cs x y q with ⟨rfl, rfl⟩ | ⟨-, q⟩
    · exact ⟨s, hs, hb.symm⟩
    · exact ⟨y, q, rfl⟩
  -- nobody else has the search
  have uniq : ∀ x y h, x ≠ d → w.dirs x = some y → y.handle = some h → s'.handle ≠ some h := by
    intro x y h hx hy hh q
    rcases (hn h q).2 with c | c
    · exact hx (B.hown x d y s h hy hs hh c)
    · have := B.hfresh h ((B.files h).2 ⟨x, y, hy, hh⟩); omega
  refine ⟨fun b => ?_, fun x x' y y' b q q' h h' => ?_, fun x y q => ?_, ?_, fun h => ?_, fun x x' y y' h q q' k k' => ?_, fun h q => ?_, fun x q => ?_, by rw [e5]; exact B.bad⟩
  · rw [e1, B.heap b]
    constructor
    · rintro ⟨x, y, q, h⟩
      by_cases c : x = d
      · subst c
        rw [hs] at q; cases q
        exact ⟨x, s', by rw [e3, fn_eq], by rw [hb]; exact h⟩
      · exact ⟨x, y, by rw [e3, fn_ne _ _ c]; exact q, h⟩
    · rintro ⟨x, y, q, h⟩
      obtain ⟨z, q1, q2⟩ := cs' x y q
      exact ⟨x, z, q1, by rw [q2]; exact h⟩
  · obtain ⟨z, q1, q2⟩ := cs' x y q
    obtain ⟨z', q1', q2'⟩ := cs' x' y' q'
    exact B.own x x' z z' b q1 q1' (by rw [q2]; exact h) (by rw [q2']; exact h')
  · obtain ⟨z, q1, q2⟩ := cs' x y q
    rw [← q2]; exact B.nodup x z q1
  · rw [e1, e2]; exact B.fresh
  · rw [hf h]
    constructor
    · rintro (q | ⟨q1, q2⟩)
      · exact ⟨d, s', by rw [e3, fn_eq], q⟩
      · obtain ⟨x, y, q3, q4⟩ := (B.files h).1 q1
        have c : x ≠ d := fun c => by subst c; rw [hs] at q3; cases q3; exact q2 q4
        exact ⟨x, y, by rw [e3, fn_ne _ _ c]; exact q3, q4⟩
    · rintro ⟨x, y, q, k⟩
      rcases cs x y q with ⟨rfl, rfl⟩ | ⟨c, q⟩
      · exact .inl k
      · exact .inr ⟨(B.files h).2 ⟨x, y, q, k⟩, fun c' => c (B.hown x d y s h q hs k c')⟩
  · rcases cs x y q with ⟨rfl, rfl⟩ | ⟨c, q⟩ <;> rcases cs x' y' q' with ⟨rfl, rfl⟩ | ⟨c', q'⟩
    · rfl
    · exact absurd k (uniq x' y' h c' q' k')
    · exact absurd k' (uniq x y h c q k)
    · exact B.hown x x' y y' h q q' k k'
  · rcases (hf h).1 q with c | ⟨c, -⟩
    · exact (hn h c).1
    · exact Nat.lt_of_lt_of_le (B.hfresh h c) e6
  · rw [e4]
    rw [e3] at q
    by_cases c : x = d
    · subst c; exact B.dfresh x (by rw [hs]; intro e; cases e)
    · rw [fn_ne _ _ c] at q; exact B.dfresh x q

theorem filter_free (bs : List Nat) : ∀ w : World, bs.Nodup → (∀ b ∈ bs, b ∈ w.heap) → w.freeAll bs = { w with heap := w.heap.filter (· ∉ bs) } := by
  induction bs with
  | nil =>
    intro w _ _
    have : w.heap.filter (· ∉ ([] : List Nat)) = w.heap := List.filter_eq_self.2 fun b _ => by simp
    rw [this]; rfl
  | cons b bs ih =>
    intro w hn hm
    have hb : w.heap.contains b = true := by simpa using hm b List.mem_cons_self
    have e : w.free b = { w with heap := w.heap.filter (· ≠ b) } := by simp only [World.free, hb, Bool.not_true, Bool.or_false]
    show (w.free b).freeAll bs = _
    rw [e, ih _ (List.nodup_cons.1 hn).2]
    · simp only [List.filter_filter]
      congr 1
      refine List.filter_congr fun x _ => ?_
      by_cases c : x = b <;> simp [c]
    · intro x hx
      simp only [List.mem_filter]
      refine ⟨hm x (List.mem_cons_of_mem _ hx), ?_⟩
      simp only [ne_eq, decide_eq_true_eq]
      rintro rfl
      exact (List.nodup_cons.1 hn).1 hx

/-- A search that is open is closed. -/
theorem findClose_ok {w : World} {h : Nat} (q : w.files h ≠ none) : w.findClose h = { w with files := fn w.files h none } := by
  unfold World.findClose
  cases e : w.files h with
  | none => exact absurd e q
  | some _ => rfl

/-- What closing leaves. -/
theorem closedir_ok {w w' : World} {d : Nat} (B : Bal w) (h : closedir w d = some w') :
    ∃ s, w.dirs d = some s ∧ w' = { w with heap := w.heap.filter (· ∉ s.blocks), files := (match s.handle with | some x => fn w.files x none | none => w.files), dirs := fn w.dirs d none } := by
  unfold closedir at h
  cases hs : w.dirs d with
  | none => rw [hs] at h; cases h
  | some s =>
    rw [hs] at h
    refine ⟨s, rfl, ?_⟩
    have hm : ∀ b ∈ s.blocks, b ∈ w.heap := fun b hb => (B.heap b).2 ⟨d, s, hs, hb⟩
    simp only [wclosedir, Option.some.injEq] at h
    subst h
    cases hh : s.handle with
    | none => simp only [filter_free s.blocks w (B.nodup d s hs) hm]
    | some x =>
      simp only [findClose_ok ((B.files x).2 ⟨d, s, hs, hh⟩), filter_free s.blocks { w with files := fn w.files x none } (B.nodup d s hs) hm]

theorem Bal.closedir {w w' : World} {d : Nat} (B : Bal w) (h : closedir w d = some w') : Bal w' := by
  obtain ⟨s, hs, rfl⟩ := closedir_ok B h
  have cs : ∀ x y, fn w.dirs d none x = some y → x ≠ d ∧ w.dirs x = some y := by
    intro x y q
    by_cases c : x = d
    · subst c; rw [fn_eq] at q; cases q
    · rw [fn_ne _ _ c] at q; exact ⟨c, q⟩
  have hfile : ∀ h, (match s.handle with | some x => fn w.files x none | none => w.files) h ≠ none ↔ w.files h ≠ none ∧ s.handle ≠ some h := by
    intro h
    cases hh : s.handle with
    | none => simp
    | some x =>
      by_cases c : h = x
      · subst c; simp [fn_eq]
      · have : ¬ x = h := fun e => c e.symm
        simp [fn_ne _ _ c, this]
  refine ⟨fun b => ?_, fun x x' y y' b q q' => B.own x x' y y' b (cs x y q).2 (cs x' y' q').2, fun x y q => B.nodup x y (cs x y q).2, fun b hb => B.fresh b (List.mem_filter.1 hb).1, fun h => ?_,
    fun x x' y y' b q q' => B.hown x x' y y' b (cs x y q).2 (cs x' y' q').2, fun h q => B.hfresh h ((hfile h).1 q).1, fun x q => ?_, B.bad⟩
  · simp only [List.mem_filter, decide_eq_true_eq]
    rw [B.heap b]
    constructor
    · rintro ⟨⟨x, y, q, h⟩, hb⟩
      have c : x ≠ d := fun c => by subst c; rw [hs] at q; cases q; exact hb h
      exact ⟨x, y, by rw [fn_ne _ _ c]; exact q, h⟩
    · rintro ⟨x, y, q, h⟩
      obtain ⟨c, q⟩ := cs x y q
      exact ⟨⟨x, y, q, h⟩, fun hb => c (B.own x d y s b q hs h hb)⟩
  · rw [hfile h, B.files h]
    constructor
    · rintro ⟨⟨x, y, q, k⟩, hb⟩
      have c : x ≠ d := fun c => by subst c; rw [hs] at q; cases q; exact hb k
      exact ⟨x, y, by simp only [fn_ne _ _ c]; exact q, k⟩
    · rintro ⟨x, y, q, k⟩
      obtain ⟨c, q⟩ := cs x y q
      exact ⟨⟨x, y, q, k⟩, fun hb => c (B.hown x d y s h q hs k hb)⟩
  · by_cases c : x = d
    · subst c; simp only [fn_eq] at q; exact absurd rfl q
    · simp only [fn_ne _ _ c] at q; exact B.dfresh x q

/-- How `readdir` ends. -/
theorem readdir_ends {w w' : World} {mb d err r} (B : Bal w) (h : readdir w mb d err = some (w', r)) :
    ∃ s, w.dirs d = some s ∧
      ((s.cached = true ∧ r = s.data.map (toDirent mb) ∧ w' = { w with dirs := fn w.dirs d (some { s with cached := false }) })
        ∨ (s.cached = false ∧ s.handle = none ∧ r = none ∧ w' = { w with dirs := fn w.dirs d (some s) })
        ∨ (∃ x e es, s.cached = false ∧ s.handle = some x ∧ w.files x = some (e :: es) ∧ err = false ∧ r = some (toDirent mb e) ∧
            w' = { w with files := fn w.files x (some es), dirs := fn w.dirs d (some { s with data := some e }) })
        ∨ (∃ x es, s.cached = false ∧ s.handle = some x ∧ w.files x = some es ∧ (es = [] ∨ err = true) ∧ r = none ∧
            w' = { w with files := fn w.files x none, dirs := fn w.dirs d (some { s with handle := none }) })) := by
  unfold readdir at h
  cases hs : w.dirs d with
  | none => rw [hs] at h; cases h
  | some s =>
    rw [hs] at h
    refine ⟨s, rfl, ?_⟩
    simp only [dirent_next] at h
    cases hc : s.cached with
    | true => simp only [hc, if_true, Option.some.injEq, Prod.mk.injEq] at h; obtain ⟨rfl, rfl⟩ := h; exact .inl ⟨rfl, rfl, rfl⟩
    | false =>
      simp only [hc, Bool.false_eq_true, if_false] at h
      cases hh : s.handle with
      | none => simp only [hh, Option.some.injEq, Prod.mk.injEq] at h; obtain ⟨rfl, rfl⟩ := h; exact .inr (.inl ⟨rfl, rfl, rfl, rfl⟩)
      | some x =>
        have hf := (B.files x).2 ⟨d, s, hs, hh⟩
        simp only [hh, World.findNext] at h
        cases hx : w.files x with
        | none => exact absurd hx hf
        | some es =>
          cases es with
          | nil =>
            simp only [hx, findClose_ok hf, Option.some.injEq, Prod.mk.injEq] at h
            obtain ⟨rfl, rfl⟩ := h
            exact .inr (.inr (.inr ⟨x, [], rfl, rfl, hx, .inl rfl, rfl, rfl⟩))
          | cons e es =>
            cases err with
            | true =>
              simp only [hx, if_true, findClose_ok hf, Option.some.injEq, Prod.mk.injEq] at h
              obtain ⟨rfl, rfl⟩ := h
              exact .inr (.inr (.inr ⟨x, _, rfl, rfl, hx, .inr rfl, rfl, rfl⟩))
            | false =>
              simp only [hx, Bool.false_eq_true, if_false, Option.some.injEq, Prod.mk.injEq] at h
              obtain ⟨rfl, rfl⟩ := h
              exact .inr (.inr (.inl ⟨x, e, es, rfl, rfl, hx, rfl, rfl, rfl⟩))

theorem Bal.lt {w : World} (B : Bal w) {d s x} (hs : w.dirs d = some s) (h : s.handle = some x) : x < w.nextH := B.hfresh x ((B.files x).2 ⟨d, s, hs, h⟩)

theorem Bal.readdir {w w' : World} {mb d err r} (B : Bal w) (h : readdir w mb d err = some (w', r)) : Bal w' := by
  obtain ⟨s, hs, h⟩ := readdir_ends B h
  have keep : ∀ h, w.files h ≠ none ↔ (s.handle = some h ∨ (w.files h ≠ none ∧ s.handle ≠ some h)) := by
    intro h
    by_cases c : s.handle = some h
    · simp only [c, true_or, iff_true]; exact (B.files h).2 ⟨d, s, hs, c⟩
    · simp [c]
  rcases h with ⟨-, -, rfl⟩ | ⟨-, -, -, rfl⟩ | ⟨x, e, es, -, hx, -, -, -, rfl⟩ | ⟨x, es, -, hx, -, -, -, rfl⟩
  · exact B.turn (s' := { s with cached := false }) hs rfl rfl rfl rfl rfl rfl (Nat.le_refl _) keep fun h q => ⟨B.lt hs q, .inl q⟩
  · exact B.turn hs rfl rfl rfl rfl rfl rfl (Nat.le_refl _) keep fun h q => ⟨B.lt hs q, .inl q⟩
  · refine B.turn (s' := { s with data := some e }) hs rfl rfl rfl rfl rfl rfl (Nat.le_refl _) (fun h => ?_) fun h q => ⟨B.lt hs q, .inl q⟩
    by_cases c : h = x
    · subst c; simp [fn_eq, hx]
    · simp only [fn_ne _ _ c]; exact keep h
  · refine B.turn (s' := { s with handle := none }) hs rfl rfl rfl rfl rfl rfl (Nat.le_refl _) (fun h => ?_) fun h q => by cases q
    by_cases c : h = x
    · subst c; simp [fn_eq, hx]
    · have : ¬ x = h := fun e => c e.symm
      simp [fn_ne _ _ c, hx, this]

/-- How `rewinddir` ends. -/
theorem rewinddir_ends {w w' : World} {d f} (B : Bal w) (h : rewinddir w d f = some w') :
    ∃ s, w.dirs d = some s ∧
      ((f s.patt = [] ∧ w' = { w with files := (match s.handle with | some x => fn w.files x none | none => w.files), dirs := fn w.dirs d (some { s with handle := none, cached := false }) })
        ∨ ∃ e es, f s.patt = e :: es ∧ w' = { w with files := fn (match s.handle with | some x => fn w.files x none | none => w.files) w.nextH (some es), nextH := w.nextH + 1, dirs := fn w.dirs d (some { s with handle := some w.nextH, data := some e, cached := true }) }) := by
  unfold rewinddir at h
  cases hs : w.dirs d with
  | none => rw [hs] at h; cases h
  | some s =>
    rw [hs] at h
    refine ⟨s, rfl, ?_⟩
    simp only [dirent_first] at h
    cases hh : s.handle with
    | none =>
      simp only [hh] at h
      cases hf : f s.patt with
      | nil => simp only [hf, World.findFirst, Option.some.injEq] at h; subst h; exact .inl ⟨rfl, rfl⟩
      | cons e es => simp only [hf, World.findFirst, Option.some.injEq] at h; subst h; exact .inr ⟨e, es, rfl, rfl⟩
    | some x =>
      simp only [hh, findClose_ok ((B.files x).2 ⟨d, s, hs, hh⟩)] at h
      cases hf : f s.patt with
      | nil => simp only [hf, World.findFirst, Option.some.injEq] at h; subst h; exact .inl ⟨rfl, rfl⟩
      | cons e es => simp only [hf, World.findFirst, Option.some.injEq] at h; subst h; exact .inr ⟨e, es, rfl, rfl⟩

theorem Bal.rewinddir {w w' : World} {d f} (B : Bal w) (h : rewinddir w d f = some w') : Bal w' := by
  obtain ⟨s, hs, h⟩ := rewinddir_ends B h
  have hfile : ∀ h, (match s.handle with | some x => fn w.files x none | none => w.files) h ≠ none ↔ w.files h ≠ none ∧ s.handle ≠ some h := by
    intro h
    cases hh : s.handle with
    | none => simp
    | some x =>
      by_cases c : h = x
      · subst c; simp [fn_eq]
      · have : ¬ x = h := fun e => c e.symm
        simp [fn_ne _ _ c, this]
  rcases h with ⟨-, rfl⟩ | ⟨e, es, -, rfl⟩
  · refine B.turn (s' := { s with handle := none, cached := false }) hs rfl rfl rfl rfl rfl rfl (Nat.le_refl _) (fun h => ?_) fun h q => by cases q
    simp only [reduceCtorEq, false_or]
    exact hfile h
  · refine B.turn (s' := { s with handle := some w.nextH, data := some e, cached := true }) hs rfl rfl rfl rfl rfl rfl (Nat.le_succ _) (fun h => ?_) fun h q => by cases q; exact ⟨Nat.lt_succ_self _, .inr (Nat.le_refl _)⟩
    by_cases c : h = w.nextH
    · subst c; simp [fn_eq]
    · have : ¬ w.nextH = h := fun e => c e.symm
      simp only [fn_ne _ _ c, Option.some.injEq, this, false_or]
      exact hfile h

theorem Bal.call {w w' : World} {mb op r} (B : Bal w) (h : call mb w op = some (w', r)) : Bal w' := by
  cases op <;> simp only [Dd.call, Option.map_eq_some_iff, Prod.mk.injEq, Prod.exists] at h
  · obtain ⟨a, b, h, rfl, -⟩ := h; exact B.opendir h
  · obtain ⟨a, b, h, rfl, -⟩ := h; exact B.readdir h
  · obtain ⟨a, h, rfl, -⟩ := h; exact B.rewinddir h
  · obtain ⟨a, h, rfl, -⟩ := h; exact B.closedir h

/-- Of a stream and what it should be. -/
def Rel (w : World) : Option Stream → Option (List Nat × List Entry) → Prop
  | none, none => True
  | some s, some (p, es) => pend w s = es ∧ s.patt = Spec.all p ∧ (s.cached = true → s.data ≠ none)
  | _, _ => False

structure Sim (w : World) (s : Spec.St) : Prop where
  next : s.next = w.nextD
  rel : ∀ d, Rel w (w.dirs d) (s.dirs d)

theorem Sim.init : Sim init Spec.init := ⟨rfl, fun _ => trivial⟩

theorem Rel.frame {w w' : World} {a b} (h : Rel w a b) (hf : ∀ s x, a = some s → s.handle = some x → w'.files x = w.files x) : Rel w' a b := by
  cases a with
  | none => cases b <;> exact h
  | some s =>
    cases b with
    | none => exact h
    | some q =>
      refine ⟨?_, h.2.1, h.2.2⟩
      rw [← h.1]
      unfold pend
      cases e : s.handle with
      | none => rfl
      | some x => simp only [hf s x rfl e]

theorem shows (mb : List Nat → Option (List Nat)) (e : Entry) : Spec.Shows mb e (toDirent mb e) := by
  have small : ∀ {s b}, conv mb s = some b → mb s = some b ∧ b.length < 260 := by
    intro s b h
    unfold conv at h
    cases q : mb s with
    | none => rw [q] at h; cases h
    | some c =>
      rw [q] at h
      by_cases l : c.length < pathMax
      · replace h : (if c.length < pathMax then some c else none) = some b := h
        rw [if_pos l] at h
        cases h; exact ⟨rfl, l⟩
      · replace h : (if c.length < pathMax then some c else none) = some b := h
        rw [if_neg l] at h
        cases h
  have big : ∀ {s}, conv mb s = none → ∀ b, mb s = some b → 260 ≤ b.length := by
    intro s h b q
    unfold conv at h
    rw [q] at h
    by_cases l : b.length < pathMax
    · replace h : (if b.length < pathMax then some b else none) = none := h
      rw [if_pos l] at h
      cases h
    · exact Nat.le_of_not_lt l
  unfold toDirent
  cases h1 : conv mb e.name with
  | some b => exact .name (small h1).1 (small h1).2
  | none =>
    by_cases h2 : e.alt ≠ []
    · rw [if_pos h2]
      cases h3 : conv mb e.alt with
      | some b => exact .alt (big h1) h2 (small h3).1 (small h3).2
      | none => exact .neither (big h1) (.inr (big h3))
    · rw [if_neg h2]
      exact .neither (big h1) (.inl (Decidable.not_not.1 h2))

theorem opendir_yes (w : World) {n : List Nat} {a : Answers} {wn p : List Nat} {e es} (h1 : n ≠ []) (h2 : a.mDir = true) (h3 : a.mWdir = true) (h4 : a.mPatt = true) (h5 : a.wide = some wn)
    (h6 : wn ≠ []) (h7 : a.path1 = some p) (h8 : a.path2 = some p) (h9 : p ≠ []) (h10 : a.finds (Spec.all p) = e :: es) : ∃ w' d, opendir w n a = some (w', some d) := by
  have hl : p.length ≠ 0 := fun c => h9 (List.length_eq_zero_iff.1 c)
  have g1 : (getFull (some p) 0).1 = p.length + 1 := by simp [getFull]
  have g2 : getFull (some p) (p.length + 1) = (p.length, some p) := by simp [getFull]
  have g3 : ∀ {x : Option (World × Option Nat)}, opendir w n a = x → (∃ w' d, x = some (w', some d)) → ∃ w' d, opendir w n a = some (w', some d) := by
    rintro x h ⟨w', d, rfl⟩; exact ⟨w', d, h⟩
  refine g3 (by
    simp only [opendir, if_neg h1, h2, h5, wopendir, if_neg h6, h3, h4, Bool.not_true, Bool.false_eq_true, if_false, World.malloc, h7, h8, g1, g2, if_neg hl, pattern_all h9, dirent_first, h10, World.findFirst]
    rfl) ⟨_, _, rfl⟩

/-- While the absolute name stays the same, `opendir` is defined, and fails when it should. -/
theorem opendir_spec {w : World} {n : List Nat} {a : Answers} (B : Bal w) (hp : a.path1 = a.path2) :
    (Spec.found n a = none ∧ ∃ k, opendir w n a = some ({ w with nextB := k }, none)) ∨
    ∃ p e es, Spec.found n a = some (p, e :: es) ∧ opendir w n a = some ({ w with heap := (w.nextB + 2) :: (w.nextB + 1) :: w.nextB :: w.heap, nextB := w.nextB + 3, files := fn w.files w.nextH (some es), nextH := w.nextH + 1, dirs := fn w.dirs w.nextD (some ⟨[w.nextB + 2, w.nextB + 1, w.nextB], some e, true, some w.nextH, Spec.all p⟩), nextD := w.nextD + 1 }, some w.nextD) := by
  have good : ∀ {m wr}, getFull a.path2 (getFull a.path1 0).1 = (m, wr) → m ≠ 0 → ∃ p, a.path2 = some p ∧ p ≠ [] ∧ pattern (getFull a.path1 0).1 m wr = some (Spec.all p) := by
    intro m wr h h0
    obtain ⟨p, h1, h2, rfl, rfl, h5⟩ := getFull_length h h0 hp
    exact ⟨p, h1, h2, by rw [h5]; exact pattern_all h2⟩
  cases h : opendir w n a with
  | none =>
    exfalso
    unfold opendir at h
    by_cases h1 : n = []
    · rw [if_pos h1] at h; cases h
    rw [if_neg h1] at h
    cases h2 : a.mDir with
    | false => simp only [h2, Bool.not_false, if_true] at h; cases h
    | true =>
      simp only [h2, Bool.not_true, Bool.false_eq_true, if_false, World.malloc] at h
      cases h3 : a.wide with
      | none => simp only [h3] at h; cases h
      | some wn =>
        simp only [h3] at h
        generalize ({ w with heap := w.nextB :: w.heap, nextB := w.nextB + 1 } : World) = w1 at h
        cases h4 : wopendir w1 wn a with
        | some q => rw [h4] at h; obtain ⟨w2, _ | s⟩ := q <;> cases h
        | none =>
          unfold wopendir at h4
          by_cases h5 : wn = []
          · rw [if_pos h5] at h4; cases h4
          rw [if_neg h5] at h4
          cases h6 : a.mWdir with
          | false => simp only [h6, Bool.not_false, if_true] at h4; cases h4
          | true =>
            simp only [h6, Bool.not_true, Bool.false_eq_true, if_false] at h4
            cases h7 : a.mPatt with
            | false => simp only [h7, Bool.not_false, if_true] at h4; cases h4
            | true =>
              simp only [h7, Bool.not_true, Bool.false_eq_true, if_false] at h4
              cases h8 : getFull a.path2 (getFull a.path1 0).1 with
              | mk m wr =>
                simp only [h8] at h4
                by_cases h9 : m = 0
                · rw [if_pos h9] at h4; cases h4
                rw [if_neg h9] at h4
                obtain ⟨p, -, -, q⟩ := good h8 h9
                simp only [q] at h4
                generalize dirent_first _ _ _ = z at h4
                obtain ⟨z1, z2⟩ := z
                cases q : z2.handle <;> simp only [q] at h4 <;> cases h4
  | some q =>
    obtain ⟨w', r⟩ := q
    rcases opendir_ends B h with ⟨rfl, k, -, rfl⟩ | ⟨e, es, patt, rfl, rfl, hf, h1, h2, h3, h4, ⟨wn, h5, h6⟩, h7, h8⟩
    · refine .inl ⟨?_, k, rfl⟩
      unfold Spec.found
      cases h1 : a.wide with
      | none => rfl
      | some wn =>
        cases h2 : a.path2 with
        | none => rfl
        | some p =>
          refine if_neg ?_
          rintro ⟨g1, g2, g3, g4, g5, g6, g7⟩
          cases g8 : a.finds (Spec.all p) with
          | nil => exact g7 g8
          | cons e es =>
            obtain ⟨w2, d, h3⟩ := opendir_yes w g1 g4 g5 g6 h1 g2 (hp.trans h2) h2 g3 g8
            rw [h3] at h
            cases h
    · obtain ⟨p, g1, g2, g3⟩ := good (m := (getFull a.path2 (getFull a.path1 0).1).1) (wr := (getFull a.path2 (getFull a.path1 0).1).2) rfl h7
      rw [g3] at h8
      cases h8
      refine .inr ⟨p, e, es, ?_, rfl⟩
      unfold Spec.found
      rw [h5, g1]
      simp only
      rw [if_pos ⟨h1, h6, g2, h2, h3, h4, by rw [hf]; intro e; cases e⟩, hf]

theorem call_open {w w' : World} {mb n a r} (h : opendir w n a = some (w', r)) : call mb w (.opendir n a) = some (w', .stream r) := by simp only [call, h, Option.map_some]
theorem call_read {w w' : World} {mb d e r} (h : readdir w mb d e = some (w', r)) : call mb w (.readdir d e) = some (w', .entry r) := by simp only [call, h, Option.map_some]
theorem call_rewind {w w' : World} {mb d f} (h : rewinddir w d f = some w') : call mb w (.rewinddir d f) = some (w', .unit) := by simp only [call, h, Option.map_some]
theorem call_close {w w' : World} {mb d} (h : closedir w d = some w') : call mb w (.closedir d) = some (w', .unit) := by simp only [call, h, Option.map_some]

theorem pend_cached {w : World} {s : Stream} {e} (h : s.cached = true) (hd : s.data = some e) : pend w s = e :: pend w { s with cached := false } := by
  simp only [pend, h, hd, if_true, Option.toList, Bool.false_eq_true, if_false, List.nil_append, List.cons_append]

theorem Sim.call {w : World} {s : Spec.St} {mb op} (B : Bal w) (S : Sim w s) (C : Spec.Calm op) (L : Spec.Legal s op) :
    ∃ w' r s', call mb w op = some (w', r) ∧ Spec.Call mb s op r s' ∧ Sim w' s' := by
  -- the stream and what it should be
  have stream : ∀ d, s.dirs d ≠ none → ∃ st p es, w.dirs d = some st ∧ s.dirs d = some (p, es) ∧ pend w st = es ∧ st.patt = Spec.all p ∧ (st.cached = true → st.data ≠ none) := by
    intro d hd
    have := S.rel d
    cases h1 : w.dirs d with
    | none =>
      rw [h1] at this
      cases h2 : s.dirs d with
      | none => exact absurd h2 hd
      | some q => rw [h2] at this; exact this.elim
    | some st =>
      rw [h1] at this
      cases h2 : s.dirs d with
      | none => exact absurd h2 hd
      | some q => rw [h2] at this; exact ⟨st, q.1, q.2, rfl, rfl, this⟩
  -- a change of one stream and its search
  have upd : ∀ (w' : World) (s' : Spec.St) d a b, w'.dirs = fn w.dirs d a → s'.dirs = fn s.dirs d b → s'.next = w'.nextD → Rel w' a b →
      (∀ d' st x, d' ≠ d → w.dirs d' = some st → st.handle = some x → w'.files x = w.files x) → Sim w' s' := by
    intro w' s' d a b e1 e2 e3 hr hf
    refine ⟨e3, fun d' => ?_⟩
    rw [e1, e2]
    by_cases c : d' = d
    · subst c; rw [fn_eq, fn_eq]; exact hr
    · rw [fn_ne _ _ c, fn_ne _ _ c]
      exact (S.rel d').frame fun st x h1 h2 => hf d' st x c h1 h2
  have other : ∀ {d d' st st' x}, w.dirs d = some st → w.dirs d' = some st' → d' ≠ d → st'.handle = some x → st.handle ≠ some x := by
    intro d d' st st' x h1 h2 c h3 h4
    exact c (B.hown d' d st' st x h2 h1 h3 h4)
  cases op with
  | opendir n a =>
    rcases opendir_spec (n := n) (a := a) B C with ⟨h1, k, h2⟩ | ⟨p, e, es, h1, h2⟩
    · exact ⟨_, _, s, call_open h2, .failed h1, S.next, fun d => (S.rel d).frame fun _ _ _ _ => rfl⟩
    · have hc : Spec.Call mb s (.opendir n a) (.stream (some w.nextD)) ⟨fn s.dirs s.next (some (p, e :: es)), s.next + 1⟩ := by rw [← S.next]; exact .opened h1
      refine ⟨_, _, _, call_open h2, hc, ?_⟩
      refine upd _ _ w.nextD _ (some (p, e :: es)) rfl (by rw [S.next]) (by simp only [S.next]) ?_ ?_
      · refine ⟨?_, rfl, fun _ e => by cases e⟩
        simp only [pend, if_true, Option.toList, fn_eq, Option.getD_some, List.cons_append, List.nil_append]
      · intro d' st x _ q1 q2
        have := B.lt q1 q2
        exact fn_ne _ _ (by omega)
  | readdir d err =>
    obtain ⟨st, p, es, h1, h2, h3, h4, h5⟩ := stream d L
    cases (show err = false from C)
    cases hr : Dd.readdir w mb d false with
    | none => simp only [Dd.readdir, h1] at hr; cases hr
    | some q =>
      obtain ⟨w', r⟩ := q
      obtain ⟨st', g1, hr'⟩ := readdir_ends B hr
      rw [h1] at g1
      cases g1
      rcases hr' with ⟨g2, rfl, rfl⟩ | ⟨g2, g3, rfl, rfl⟩ | ⟨x, e, es', g2, g3, g4, -, rfl, rfl⟩ | ⟨x, es', g2, g3, g4, g5, rfl, rfl⟩
      · cases hd : st.data with
        | none => exact absurd hd (h5 g2)
        | some e =>
          rw [pend_cached g2 hd] at h3
          subst h3
          refine ⟨_, _, _, call_read hr, by simp only [hd, Option.map_some]; exact .read h2 (shows mb e), ?_⟩
          refine upd _ _ d _ _ rfl rfl S.next ⟨rfl, h4, fun c => by cases c⟩ fun _ _ _ _ _ _ => rfl
      · have : es = [] := by rw [← h3]; simp [pend, g2, g3]
        subst this
        refine ⟨_, _, s, call_read hr, .ended h2, ?_⟩
        refine upd _ _ d (some st) (s.dirs d) rfl ?_ S.next (by rw [h2]; exact ⟨h3, h4, h5⟩) fun _ _ _ _ _ _ => rfl
        funext d'
        by_cases c : d' = d
        · subst c; rw [fn_eq]
        · rw [fn_ne _ _ c]
      · have : es = e :: es' := by rw [← h3]; simp [pend, g2, g3, g4]
        subst this
        refine ⟨_, _, _, call_read hr, .read h2 (shows mb e), ?_⟩
        refine upd _ _ d _ _ rfl rfl S.next ⟨?_, h4, fun _ c => by cases c⟩ fun d' st' y c q1 q2 => ?_
        · simp [pend, g2, g3, fn_eq]
        · exact fn_ne _ _ fun e => other h1 q1 c q2 (by rw [g3, e])
      · have : es' = [] := g5.resolve_right (by simp)
        subst this
        have : es = [] := by rw [← h3]; simp [pend, g2, g3, g4]
        subst this
        refine ⟨_, _, s, call_read hr, .ended h2, ?_⟩
        refine upd _ _ d (some { st with handle := none }) (s.dirs d) rfl ?_ S.next (by rw [h2]; exact ⟨by simp [pend, g2], h4, h5⟩) fun d' st' y c q1 q2 => ?_
        · funext d'
          by_cases c : d' = d
          · subst c; rw [fn_eq]
          · rw [fn_ne _ _ c]
        · exact fn_ne _ _ fun e => other h1 q1 c q2 (by rw [g3, e])
  | rewinddir d f =>
    obtain ⟨st, p, es, h1, h2, h3, h4, h5⟩ := stream d L
    cases hr : Dd.rewinddir w d f with
    | none => simp only [Dd.rewinddir, h1] at hr; cases hr
    | some w' =>
      obtain ⟨st', g1, hr'⟩ := rewinddir_ends B hr
      rw [h1] at g1
      cases g1
      refine ⟨w', .unit, _, call_rewind hr, .rewound h2, ?_⟩
      rw [← h4]
      have gone : ∀ d' st' y, d' ≠ d → w.dirs d' = some st' → st'.handle = some y → (match st.handle with | some x => fn w.files x none | none => w.files) y = w.files y := by
        intro d' st' y c q1 q2
        have := other h1 q1 c q2
        cases g : st.handle with
        | none => rfl
        | some x => exact fn_ne _ _ fun e => this (by rw [g, e])
      rcases hr' with ⟨g2, rfl⟩ | ⟨e, es', g2, rfl⟩
      · rw [g2]
        exact upd _ _ d (some { st with handle := none, cached := false }) _ rfl rfl S.next ⟨by simp [pend], h4, fun c => by cases c⟩ gone
      · rw [g2]
        refine upd _ _ d (some { st with handle := some w.nextH, data := some e, cached := true }) _ rfl rfl S.next ⟨?_, h4, fun _ c => by cases c⟩ fun d' st' y c q1 q2 => ?_
        · simp [pend, fn_eq]
        · have := B.lt q1 q2
          exact (fn_ne _ _ (by omega)).trans (gone d' st' y c q1 q2)
  | closedir d =>
    obtain ⟨st, p, es, h1, h2, h3, h4, h5⟩ := stream d L
    cases hr : Dd.closedir w d with
    | none => simp only [Dd.closedir, h1] at hr; cases hr
    | some w' =>
      obtain ⟨st', g1, rfl⟩ := closedir_ok B hr
      rw [h1] at g1
      cases g1
      refine ⟨_, .unit, _, call_close hr, .closed h2, ?_⟩
      refine upd _ _ d none none rfl rfl S.next trivial fun d' st' y c q1 q2 => ?_
      have := other h1 q1 c q2
      cases g : st.handle with
      | none => rfl
      | some x => exact fn_ne _ _ fun e => this (by rw [g, e])

theorem follows {mb} : ∀ (ops : List Op) {w s}, Bal w → Sim w s → (∀ op ∈ ops, Spec.Calm op) → Spec.Follows mb w s ops
  | [], _, _, _, _, _ => trivial
  | op :: ops, _, _, B, S, C => fun L => by
    obtain ⟨w', r, s', h1, h2, h3⟩ := S.call (mb := mb) B (C op List.mem_cons_self) L
    exact ⟨w', r, s', h1, h2, follows ops (B.call h1) h3 fun o h => C o (List.mem_cons_of_mem _ h)⟩

theorem still_open {mb} {w w' : World} {h} (H : Spec.Hist mb w h w') : ∀ l, Bal w → (∀ d, w.dirs d ≠ none ↔ d ∈ l) → Bal w' ∧ ∀ d, w'.dirs d ≠ none ↔ d ∈ Spec.still l h := by
  induction H with
  | nil w => intro l B hl; exact ⟨B, hl⟩
  | @cons w w1 w2 op r h hc _ ih =>
    intro l B hl
    have B' := B.call hc
    have same : ∀ {d a}, (∃ st, w.dirs d = some st) → (∃ st, a = some st) → w1.dirs = fn w.dirs d a → ∀ d, w1.dirs d ≠ none ↔ d ∈ l := by
      rintro d a ⟨st, e1⟩ ⟨st', rfl⟩ e3 d'
      rw [e3]
      by_cases c : d' = d
      · subst c
        rw [fn_eq]
        exact ⟨fun _ => (hl d').1 (by rw [e1]; intro e; cases e), fun _ e => by cases e⟩
      · rw [fn_ne _ _ c]; exact hl d'
    cases op <;> simp only [Dd.call, Option.map_eq_some_iff, Prod.mk.injEq, Prod.exists] at hc
    · obtain ⟨a, b, hc, rfl, rfl⟩ := hc
      rcases opendir_ends B hc with ⟨rfl, k, -, rfl⟩ | ⟨e, es, patt, rfl, rfl, -⟩
      · exact ih l B' hl
      · refine ih _ B' fun d => ?_
        by_cases c : d = w.nextD
        · subst c; simp [fn_eq]
        · simp only [fn_ne _ _ c, List.mem_cons, c, false_or]; exact hl d
    · obtain ⟨a, b, hc, rfl, rfl⟩ := hc
      obtain ⟨st, h1, h2⟩ := readdir_ends B hc
      rcases h2 with ⟨-, -, rfl⟩ | ⟨-, -, -, rfl⟩ | ⟨x, e, es', -, -, -, -, -, rfl⟩ | ⟨x, es', -, -, -, -, -, rfl⟩ <;> exact ih l B' (same ⟨st, h1⟩ ⟨_, rfl⟩ rfl)
    · obtain ⟨a, hc, rfl, rfl⟩ := hc
      obtain ⟨st, h1, h2⟩ := rewinddir_ends B hc
      rcases h2 with ⟨-, rfl⟩ | ⟨e, es, -, rfl⟩ <;> exact ih l B' (same ⟨st, h1⟩ ⟨_, rfl⟩ rfl)
    · obtain ⟨a, hc, rfl, rfl⟩ := hc
      rename_i d0 _
      obtain ⟨st, h1, rfl⟩ := closedir_ok B hc
      refine ih _ B' fun d => ?_
      by_cases c : d = d0
      · subst c; simp [fn_eq]
      · simp only [fn_ne _ _ c, List.mem_filter, ne_eq, c, not_false_eq_true, decide_true, and_true]; exact hl d

theorem wcopy_take : ∀ (s : List Nat) (n : Nat), wcopy s n = s.take (259 - n)
  | [], n => by simp [wcopy]
  | c :: cs, n => by
    unfold wcopy
    by_cases h : n + 1 < pathMax
    · rw [if_pos h, wcopy_take cs (n + 1)]
      have : 259 - n = (259 - (n + 1)) + 1 := by have := h; simp only [pathMax] at this; omega
      rw [this, List.take_succ_cons]
    · rw [if_neg h]
      have : 259 - n = 0 := by simp only [pathMax] at h; omega
      rw [this, List.take_zero]

end Verif.Dd
