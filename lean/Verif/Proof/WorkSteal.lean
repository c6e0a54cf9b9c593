import Verif.Spec.WorkSteal
/-!
# The scheduler: proofs
-/
namespace Verif.Ws

/-- The sum of `f` over the numbers below `n`. -/
def sum : Nat → (Nat → Nat) → Nat
  | 0, _ => 0
  | n + 1, f => sum n f + f n

theorem sum_congr {n : Nat} {f g : Nat → Nat} (h : ∀ t, t < n → f t = g t) : sum n f = sum n g := by
  induction n with
  | zero => rfl
  | succ n ih => rw [sum, sum, ih (fun t ht => h t (by omega)), h n (by omega)]

theorem sum_change {n t : Nat} {f g : Nat → Nat} (ht : t < n) (h : ∀ t', t' ≠ t → g t' = f t') :
    sum n g + f t = sum n f + g t := by
  induction n with
  | zero => omega
  | succ n ih =>
    rw [sum, sum]
    by_cases e : t = n
    · subst e
      rw [sum_congr (n := t) (fun t' h' => h t' (by omega))]
      omega
    · have := ih (by omega)
      rw [h n (fun h => e h.symm)]
      omega

theorem sum_le {n : Nat} {f : Nat → Nat} (h : ∀ t, f t ≤ 1) : sum n f ≤ n := by
  induction n with
  | zero => simp [sum]
  | succ n ih => have := h n; rw [sum]; omega

theorem sum_full {n : Nat} {f : Nat → Nat} (h : ∀ t, f t ≤ 1) (hs : sum n f = n) : ∀ t, t < n → f t = 1 := by
  induction n with
  | zero => intro t ht; omega
  | succ n ih =>
    rw [sum] at hs
    have h1 := sum_le (n := n) h
    have h2 := h n
    intro t ht
    by_cases e : t = n
    · subst e; omega
    · exact ih (by omega) t (by omega)

theorem sum_zero {n : Nat} {f : Nat → Nat} (hs : sum n f = 0) : ∀ t, t < n → f t = 0 := by
  induction n with
  | zero => intro t ht; omega
  | succ n ih =>
    rw [sum] at hs
    intro t ht
    by_cases e : t = n
    · subst e; omega
    · exact ih (by omega) t (by omega)

def isJoined : Task → Nat
  | .joined => 1
  | _ => 0

theorem isJoined_le (k : Task) : isJoined k ≤ 1 := by cases k <;> decide

/-- How many tasks have joined. -/
def J (n : Nat) (s : St) : Nat := sum n (fun t => isJoined (s.task t))

structure I (n : Nat) (s : St) : Prop where
  print : ∀ w t, s.wk w = .print t → t < n ∧ s.task t = .printing
  join : ∀ w t, s.wk w = .join t → t < n ∧ s.task t = .joining
  print_inj : ∀ w w' t, s.wk w = .print t → s.wk w' = .print t → w = w'
  join_inj : ∀ w w' t, s.wk w = .join t → s.wk w' = .join t → w = w'
  count : s.count.toNat + J n s = n
  printed : ∀ t, s.printed t = match s.task t with
    | .joining | .joined => 1
    | _ => 0
  not_yet : J n s < n → s.alive = true ∧ s.done = false ∧ s.conts = 0 ∧ ∀ w, s.wk w ≠ .cont
  last : J n s = n → (s.alive = true ∧ s.done = false ∧ s.conts = 0 ∧ (∃ w, s.wk w = .cont ∧ ∀ w', s.wk w' = .cont → w' = w)) ∨
    (s.alive = false ∧ s.done = true ∧ s.conts = 1 ∧ ∀ w, s.wk w ≠ .cont)
  exited : ∀ w, s.wk w = .exited → s.done = true
  ok : s.bad = false

theorem sum_const_zero (n : Nat) : sum n (fun _ => 0) = 0 := by
  induction n with
  | zero => rfl
  | succ n ih => rw [sum, ih]

theorem I.start {n : Nat} (h1 : 1 ≤ n) (h2 : n ≤ 2 ^ 32) : I n (start n) where
  print _ _ h := by cases h
  join _ _ h := by cases h
  print_inj _ _ _ h := by cases h
  join_inj _ _ _ h := by cases h
  count := by
    have : J n (Ws.start n) = 0 := sum_const_zero n
    rw [this]
    simp only [Ws.start, BitVec.toNat_ofNat]
    rw [Nat.mod_eq_of_lt (by omega)]; omega
  printed _ := rfl
  not_yet _ := ⟨rfl, rfl, rfl, fun _ h => by cases h⟩
  last h := by
    have : J n (Ws.start n) = 0 := sum_const_zero n
    omega
  exited _ h := by cases h
  ok := rfl

theorem I.right {n : Nat} {s : St} (h : I n s) : Right n s := by
  have hJ : J n s ≤ n := sum_le (fun t => isJoined_le _)
  refine ⟨h.ok, ?_, ?_, ?_, ?_, h.exited⟩
  · intro t; rw [h.printed]; split <;> omega
  · by_cases e : J n s = n
    · rcases h.last e with ⟨_, _, e, _⟩ | ⟨_, _, e, _⟩ <;> omega
    · have := (h.not_yet (by omega)).2.2.1; omega
  · by_cases e : J n s = n
    · rcases h.last e with ⟨_, e1, e2, _⟩ | ⟨_, e1, e2, _⟩ <;> simp [e1, e2]
    · have := h.not_yet (by omega); simp [this.2.1, this.2.2.1]
  · intro hc t ht
    have e : J n s = n := by
      apply Classical.byContradiction
      intro e
      have := h.not_yet (by omega)
      omega
    have := sum_full (fun t => isJoined_le (s.task t)) e t ht
    rw [h.printed]
    cases hk : s.task t <;> simp_all [isJoined]

theorem wk_set (s : St) (w w' : Nat) (k : Wk) : (setWk s w k).wk w' = if w' = w then k else s.wk w' := rfl
theorem task_set (s : St) (t t' : Nat) (k : Task) : (setTask s t k).task t' = if t' = t then k else s.task t' := rfl

theorem I.setWk_plain {n : Nat} {s : St} (h : I n s) (w : Nat) (k : Wk) (hk : k = .look ∨ k = .check ∨ (k = .exited ∧ s.done = true))
    (hw : s.wk w ≠ .cont) : I n (setWk s w k) where
  print w' t e := by
    rw [wk_set] at e; split at e
    · rcases hk with rfl | rfl | ⟨rfl, _⟩ <;> cases e
    · exact h.print w' t e
  join w' t e := by
    rw [wk_set] at e; split at e
    · rcases hk with rfl | rfl | ⟨rfl, _⟩ <;> cases e
    · exact h.join w' t e
  print_inj w1 w2 t e1 e2 := by
    rw [wk_set] at e1 e2; split at e1
    · rcases hk with rfl | rfl | ⟨rfl, _⟩ <;> cases e1
    · split at e2
      · rcases hk with rfl | rfl | ⟨rfl, _⟩ <;> cases e2
      · exact h.print_inj w1 w2 t e1 e2
  join_inj w1 w2 t e1 e2 := by
    rw [wk_set] at e1 e2; split at e1
    · rcases hk with rfl | rfl | ⟨rfl, _⟩ <;> cases e1
    · split at e2
      · rcases hk with rfl | rfl | ⟨rfl, _⟩ <;> cases e2
      · exact h.join_inj w1 w2 t e1 e2
  count := h.count
  printed := h.printed
  not_yet hJ := by
    obtain ⟨a, b, c, d⟩ := h.not_yet hJ
    refine ⟨a, b, c, fun w' e => ?_⟩
    rw [wk_set] at e; split at e
    · rcases hk with rfl | rfl | ⟨rfl, _⟩ <;> cases e
    · exact d w' e
  last hJ := by
    rcases h.last hJ with ⟨a, b, c, w0, e0, d⟩ | ⟨a, b, c, d⟩
    · refine .inl ⟨a, b, c, w0, ?_, ?_⟩
      · rw [wk_set, if_neg]
        · exact e0
        · rintro rfl; exact hw e0
      · intro w' e
        rw [wk_set] at e; split at e
        · rcases hk with rfl | rfl | ⟨rfl, _⟩ <;> cases e
        · exact d w' e
    · refine .inr ⟨a, b, c, fun w' e => ?_⟩
      rw [wk_set] at e; split at e
      · rcases hk with rfl | rfl | ⟨rfl, _⟩ <;> cases e
      · exact d w' e
  exited w' e := by
    rw [wk_set] at e; split at e
    · rcases hk with rfl | rfl | ⟨_, hd⟩
      · cases e
      · cases e
      · exact hd
    · exact h.exited w' e
  ok := h.ok

theorem isLast_iff {c : BitVec 64} (h : c.toNat ≤ 2 ^ 32) : isLast c = true ↔ c.toNat = 1 := by
  unfold isLast
  rw [decide_eq_true_iff]
  omega

theorem I.step {n : Nat} {s s' : St} (h : I n s) (hn : n ≤ 2 ^ 32) {l : Lbl} (hs : Ws.step n true s l = some s') : I n s' := by
  have hJn : J n s ≤ n := sum_le (fun t => isJoined_le _)
  cases l with
  | nothing w =>
    simp only [Ws.step] at hs
    split at hs <;> try contradiction
    rename_i hw
    injection hs with hs; subst hs
    exact h.setWk_plain w _ (.inr (.inl rfl)) (by rw [hw]; exact fun e => by cases e)
  | check w =>
    simp only [Ws.step] at hs
    split at hs <;> try contradiction
    rename_i hw
    injection hs with hs; subst hs
    refine h.setWk_plain w _ ?_ (by rw [hw]; exact fun e => by cases e)
    cases hd : s.done with
    | true => exact .inr (.inr ⟨rfl, rfl⟩)
    | false => exact .inl rfl
  | obtain w t =>
    simp only [Ws.step] at hs
    split at hs <;> try contradiction
    rename_i hw
    obtain ⟨hl, ht, hq | hq⟩ := hw
    rotate_left
    · cases hq
    injection hs with hs; subst hs
    have hJ : ∀ s'' : St, s''.task = (setTask s t .printing).task → J n s'' = J n s := by
      intro s'' e
      refine sum_congr (fun t' _ => ?_)
      rw [e, task_set]
      split
      · rename_i e'; subst e'; rw [hq]; rfl
      · rfl
    have hwk : ∀ w', (setTask (setWk s w (.print t)) t .printing).wk w' = if w' = w then .print t else s.wk w' := fun _ => rfl
    have htk : ∀ t', (setTask (setWk s w (.print t)) t .printing).task t' = if t' = t then .printing else s.task t' := fun _ => rfl
    have hnp : ∀ w', s.wk w' ≠ .print t := by intro w' e; rw [(h.print w' t e).2] at hq; cases hq
    have hnj : ∀ w', s.wk w' ≠ .join t := by intro w' e; rw [(h.join w' t e).2] at hq; cases hq
    constructor
    · intro w' t' e
      dsimp only at e ⊢
      rw [hwk] at e
      rw [htk]
      split at e
      · cases e; exact ⟨ht, if_pos rfl⟩
      · have := h.print w' t' e
        refine ⟨this.1, ?_⟩
        split
        · rfl
        · exact this.2
    · intro w' t' e
      dsimp only at e ⊢
      rw [hwk] at e
      rw [htk]
      split at e
      · cases e
      · have := h.join w' t' e
        refine ⟨this.1, ?_⟩
        rw [if_neg]
        · exact this.2
        · rintro rfl; exact hnj w' e
    · intro w1 w2 t' e1 e2
      dsimp only at e1 e2
      rw [hwk] at e1 e2
      split at e1 <;> split at e2
      · rename_i a b; rw [a, b]
      · cases e1; exact absurd e2 (hnp w2)
      · cases e2; exact absurd e1 (hnp w1)
      · exact h.print_inj w1 w2 t' e1 e2
    · intro w1 w2 t' e1 e2
      dsimp only at e1 e2
      rw [hwk] at e1 e2
      split at e1 <;> split at e2
      · cases e1
      · cases e1
      · cases e2
      · exact h.join_inj w1 w2 t' e1 e2
    · refine Eq.trans (congrArg (fun x => s.count.toNat + x) (hJ _ ?_)) h.count; rfl
    · intro t'
      show s.printed t' = _
      dsimp only
      rw [htk, h.printed]
      by_cases e : t' = t
      · rw [if_pos e, e, hq]
      · rw [if_neg e]
    · intro hh
      rw [hJ] at hh
      rotate_left
      · rfl
      obtain ⟨a, b, c, d⟩ := h.not_yet hh
      refine ⟨a, b, c, fun w' e => ?_⟩
      dsimp only at e
      rw [hwk] at e
      split at e
      · cases e
      · exact d w' e
    · intro hh
      rw [hJ] at hh
      rotate_left
      · rfl
      have := sum_full (fun t => isJoined_le (s.task t)) hh t ht
      rw [hq] at this
      cases this
    · intro w' e
      dsimp only at e
      rw [hwk] at e
      split at e
      · cases e
      · exact h.exited w' e
    · exact h.ok
  | print w =>
    simp only [Ws.step] at hs
    split at hs <;> try contradiction
    rename_i t hw
    injection hs with hs; subst hs
    obtain ⟨ht, hp⟩ := h.print w t hw
    have hJ : ∀ s'' : St, s''.task = (setTask s t .joining).task → J n s'' = J n s := by
      intro s'' e
      refine sum_congr (fun t' _ => ?_)
      rw [e, task_set]
      split
      · rename_i e'; subst e'; rw [hp]; rfl
      · rfl
    have hwk : ∀ w', (setTask (setWk s w (.join t)) t .joining).wk w' = if w' = w then .join t else s.wk w' := fun _ => rfl
    have htk : ∀ t', (setTask (setWk s w (.join t)) t .joining).task t' = if t' = t then .joining else s.task t' := fun _ => rfl
    have hnj : ∀ w', s.wk w' ≠ .join t := by intro w' e; rw [(h.join w' t e).2] at hp; cases hp
    have hp0 : s.printed t = 0 := by rw [h.printed, hp]
    constructor
    · intro w' t' e
      dsimp only at e ⊢
      rw [hwk] at e
      rw [htk]
      split at e
      · cases e
      · rename_i hne
        have := h.print w' t' e
        refine ⟨this.1, ?_⟩
        rw [if_neg]
        · exact this.2
        · rintro rfl; exact hne (h.print_inj w' w t' e hw)
    · intro w' t' e
      dsimp only at e ⊢
      rw [hwk] at e
      rw [htk]
      split at e
      · cases e; exact ⟨ht, if_pos rfl⟩
      · have := h.join w' t' e
        refine ⟨this.1, ?_⟩
        split
        · rfl
        · exact this.2
    · intro w1 w2 t' e1 e2
      dsimp only at e1 e2
      rw [hwk] at e1 e2
      split at e1 <;> split at e2
      · cases e1
      · cases e1
      · cases e2
      · exact h.print_inj w1 w2 t' e1 e2
    · intro w1 w2 t' e1 e2
      dsimp only at e1 e2
      rw [hwk] at e1 e2
      split at e1 <;> split at e2
      · rename_i a b; rw [a, b]
      · cases e1; exact absurd e2 (hnj w2)
      · cases e2; exact absurd e1 (hnj w1)
      · exact h.join_inj w1 w2 t' e1 e2
    · refine Eq.trans (congrArg (fun x => s.count.toNat + x) (hJ _ ?_)) h.count; rfl
    · intro t'
      dsimp only
      rw [htk]
      by_cases e : t' = t
      · rw [if_pos e, if_pos e, hp0]
      · rw [if_neg e, if_neg e, h.printed]
    · intro hh
      rw [hJ] at hh
      rotate_left
      · rfl
      obtain ⟨a, b, c, d⟩ := h.not_yet hh
      refine ⟨a, b, c, fun w' e => ?_⟩
      dsimp only at e
      rw [hwk] at e
      split at e
      · cases e
      · exact d w' e
    · intro hh
      rw [hJ] at hh
      rotate_left
      · rfl
      have := sum_full (fun t => isJoined_le (s.task t)) hh t ht
      rw [hp] at this
      cases this
    · intro w' e
      dsimp only at e
      rw [hwk] at e
      split at e
      · cases e
      · exact h.exited w' e
    · show (s.bad || (s.printed t != 0)) = false
      rw [h.ok, hp0]; rfl
  | join w =>
    simp only [Ws.step] at hs
    split at hs <;> try contradiction
    rename_i t hw
    injection hs with hs; subst hs
    obtain ⟨ht, hp⟩ := h.join w t hw
    have hJ1 : J n s < n := by
      apply Nat.lt_of_le_of_ne hJn
      intro hh
      have := sum_full (fun t => isJoined_le (s.task t)) hh t ht
      rw [hp] at this
      cases this
    have hJ : ∀ s'' : St, s''.task = (setTask s t .joined).task → J n s'' = J n s + 1 := by
      intro s'' e
      have := sum_change (n := n) (t := t) (f := fun t' => isJoined (s.task t'))
        (g := fun t' => isJoined (s''.task t')) ht (by
          intro t' hne
          rw [e, task_set, if_neg hne])
      rw [e, task_set, if_pos rfl, hp] at this
      simp only [isJoined] at this
      unfold J
      rw [show (fun t => isJoined (s''.task t)) = fun t' => isJoined ((setTask s t Task.joined).task t') by rw [e]]
      rw [← e] at this ⊢
      exact this
    obtain ⟨a, b, c, d⟩ := h.not_yet hJ1
    have hc := h.count
    have hlast : isLast s.count = true ↔ J n s + 1 = n := by
      rw [isLast_iff (by omega)]; omega
    have hcnt : (s.count - 1).toNat = s.count.toNat - 1 := by
      rw [BitVec.toNat_sub_of_le]
      · rfl
      · rw [BitVec.le_def]
        show 1 ≤ _
        omega
    have key : ∀ k, (k = .cont ↔ J n s + 1 = n) → (k = .cont ∨ k = .look) → I n (Ws.setWk { setTask s t .joined with
        count := s.count - 1, bad := s.bad || !s.alive } w k) := by
      intro k hk1 hk2
      have hwk : ∀ w', (Ws.setWk { setTask s t .joined with
        count := s.count - 1, bad := s.bad || !s.alive } w k).wk w' = if w' = w then k else s.wk w' := fun _ => rfl
      have htk : ∀ t', (Ws.setWk { setTask s t .joined with
        count := s.count - 1, bad := s.bad || !s.alive } w k).task t' = if t' = t then .joined else s.task t' := fun _ => rfl
      constructor
      · intro w' t' e
        rw [hwk] at e
        rw [htk]
        split at e
        · rcases hk2 with rfl | rfl <;> cases e
        · have := h.print w' t' e
          refine ⟨this.1, ?_⟩
          rw [if_neg]
          · exact this.2
          · rintro rfl; rw [this.2] at hp; cases hp
      · intro w' t' e
        rw [hwk] at e
        rw [htk]
        split at e
        · rcases hk2 with rfl | rfl <;> cases e
        · rename_i hne
          have := h.join w' t' e
          refine ⟨this.1, ?_⟩
          rw [if_neg]
          · exact this.2
          · rintro rfl; exact hne (h.join_inj w' w t' e hw)
      · intro w1 w2 t' e1 e2
        rw [hwk] at e1 e2
        split at e1
        · rcases hk2 with rfl | rfl <;> cases e1
        · split at e2
          · rcases hk2 with rfl | rfl <;> cases e2
          · exact h.print_inj w1 w2 t' e1 e2
      · intro w1 w2 t' e1 e2
        rw [hwk] at e1 e2
        split at e1
        · rcases hk2 with rfl | rfl <;> cases e1
        · split at e2
          · rcases hk2 with rfl | rfl <;> cases e2
          · exact h.join_inj w1 w2 t' e1 e2
      · refine Eq.trans (congrArg (fun x => (s.count - 1).toNat + x) (hJ _ ?_)) (by omega); rfl
      · intro t'
        show s.printed t' = _
        rw [htk, h.printed]
        by_cases e : t' = t
        · rw [if_pos e, e, hp]
        · rw [if_neg e]
      · intro hh
        rw [hJ] at hh
        rotate_left
        · rfl
        refine ⟨a, b, c, fun w' e => ?_⟩
        rw [hwk] at e
        split at e
        · have := hk1.1 e; omega
        · exact d w' e
      · intro hh
        rw [hJ] at hh
        rotate_left
        · rfl
        refine .inl ⟨a, b, c, w, ?_, ?_⟩
        · rw [hwk, if_pos rfl]; exact hk1.2 hh
        · intro w' e
          rw [hwk] at e
          split at e
          · assumption
          · exact absurd e (d w')
      · intro w' e
        rw [hwk] at e
        split at e
        · rcases hk2 with rfl | rfl <;> cases e
        · exact h.exited w' e
      · show (s.bad || !s.alive) = false
        rw [h.ok, a]; rfl
    cases hl : isLast s.count with
    | true => exact key .cont ⟨fun _ => hlast.1 hl, fun _ => rfl⟩ (.inl rfl)
    | false =>
      refine key .look ⟨fun e => (by cases e), fun e => ?_⟩ (.inr rfl)
      rw [← hlast, hl] at e; cases e
  | cont w =>
    simp only [Ws.step] at hs
    split at hs <;> try contradiction
    rename_i hw
    injection hs with hs; subst hs
    have hJe : J n s = n := by
      apply Classical.byContradiction
      intro e
      exact (h.not_yet (by omega)).2.2.2 w hw
    have hcase := h.last hJe
    obtain ⟨a, b, c, w0, hw0, hu⟩ : s.alive = true ∧ s.done = false ∧ s.conts = 0 ∧
        (∃ w, s.wk w = .cont ∧ ∀ w', s.wk w' = .cont → w' = w) := by
      rcases hcase with hc | ⟨_, _, _, d⟩
      · exact hc
      · exact absurd hw (d w)
    have hwk : ∀ w', (Ws.setWk s w .look).wk w' = if w' = w then .look else s.wk w' := fun _ => rfl
    constructor
    · intro w' t' e
      dsimp only at e ⊢
      rw [hwk] at e
      split at e
      · cases e
      · exact h.print w' t' e
    · intro w' t' e
      dsimp only at e ⊢
      rw [hwk] at e
      split at e
      · cases e
      · exact h.join w' t' e
    · intro w1 w2 t' e1 e2
      dsimp only at e1 e2
      rw [hwk] at e1 e2
      split at e1
      · cases e1
      · split at e2
        · cases e2
        · exact h.print_inj w1 w2 t' e1 e2
    · intro w1 w2 t' e1 e2
      dsimp only at e1 e2
      rw [hwk] at e1 e2
      split at e1
      · cases e1
      · split at e2
        · cases e2
        · exact h.join_inj w1 w2 t' e1 e2
    · exact h.count
    · exact h.printed
    · intro hh
      have : J n s < n := hh
      omega
    · intro _
      refine .inr ⟨rfl, rfl, by show s.conts + 1 = 1; omega, fun w' e => ?_⟩
      dsimp only at e
      rw [hwk] at e
      split at e
      · cases e
      · rename_i hne
        exact hne ((hu w' e).trans (hu w hw).symm)
    · intro _ _; rfl
    · show (s.bad || !s.alive) = false
      rw [h.ok, a]; rfl

theorem I.run {n : Nat} (hn : n ≤ 2 ^ 32) (ls : List Lbl) : ∀ {s s' : St}, I n s → Ws.run n true s ls = some s' → I n s' := by
  induction ls with
  | nil => intro s s' h e; simp only [Ws.run, Option.some.injEq] at e; subst e; exact h
  | cons l ls ih =>
    intro s s' h e
    simp only [Ws.run] at e
    cases hs : Ws.step n true s l with
    | none => rw [hs] at e; cases e
    | some s1 => rw [hs] at e; exact ih (h.step hn hs) e

/-- Workers beyond the `k` there are never move; a task being worked on has its worker. -/
structure K (k : Nat) (s : St) : Prop where
  idle : ∀ w, k ≤ w → s.wk w = .look
  print : ∀ t, s.task t = .printing → ∃ w, s.wk w = .print t
  join : ∀ t, s.task t = .joining → ∃ w, s.wk w = .join t

theorem K.start (n k : Nat) : K k (start n) := ⟨fun _ _ => rfl, fun _ h => (by cases h), fun _ h => (by cases h)⟩

theorem K.step {n k : Nat} {s s' : St} (h : K k s) {l : Lbl} (hl : l.worker < k)
    (hs : Ws.step n true s l = some s') : K k s' := by
  cases l with
  | nothing w =>
    simp only [Ws.step] at hs
    split at hs <;> try contradiction
    rename_i hw
    injection hs with hs; subst hs
    simp only [Lbl.worker] at hl
    refine ⟨fun w' hw' => ?_, fun t ht => ?_, fun t ht => ?_⟩
    · rw [wk_set, if_neg (by omega)]; exact h.idle w' hw'
    · obtain ⟨w', e⟩ := h.print t ht
      exact ⟨w', by rw [wk_set, if_neg (by rintro rfl; rw [hw] at e; cases e)]; exact e⟩
    · obtain ⟨w', e⟩ := h.join t ht
      exact ⟨w', by rw [wk_set, if_neg (by rintro rfl; rw [hw] at e; cases e)]; exact e⟩
  | check w =>
    simp only [Ws.step] at hs
    split at hs <;> try contradiction
    rename_i hw
    injection hs with hs; subst hs
    simp only [Lbl.worker] at hl
    refine ⟨fun w' hw' => ?_, fun t ht => ?_, fun t ht => ?_⟩
    · rw [wk_set, if_neg (by omega)]; exact h.idle w' hw'
    · obtain ⟨w', e⟩ := h.print t ht
      exact ⟨w', by rw [wk_set, if_neg (by rintro rfl; rw [hw] at e; cases e)]; exact e⟩
    · obtain ⟨w', e⟩ := h.join t ht
      exact ⟨w', by rw [wk_set, if_neg (by rintro rfl; rw [hw] at e; cases e)]; exact e⟩
  | cont w =>
    simp only [Ws.step] at hs
    split at hs <;> try contradiction
    rename_i hw
    injection hs with hs; subst hs
    simp only [Lbl.worker] at hl
    refine ⟨fun w' hw' => ?_, fun t ht => ?_, fun t ht => ?_⟩
    · show (setWk s w .look).wk w' = _
      rw [wk_set, if_neg (by omega)]; exact h.idle w' hw'
    · obtain ⟨w', e⟩ := h.print t ht
      exact ⟨w', by show (setWk s w .look).wk w' = _; rw [wk_set, if_neg (by rintro rfl; rw [hw] at e; cases e)]; exact e⟩
    · obtain ⟨w', e⟩ := h.join t ht
      exact ⟨w', by show (setWk s w .look).wk w' = _; rw [wk_set, if_neg (by rintro rfl; rw [hw] at e; cases e)]; exact e⟩
  | obtain w t =>
    simp only [Ws.step] at hs
    split at hs <;> try contradiction
    rename_i hw
    injection hs with hs; subst hs
    simp only [Lbl.worker] at hl
    have hwk : ∀ w', (setTask (setWk s w (.print t)) t .printing).wk w' = if w' = w then .print t else s.wk w' := fun _ => rfl
    have htk : ∀ t', (setTask (setWk s w (.print t)) t .printing).task t' = if t' = t then .printing else s.task t' := fun _ => rfl
    refine ⟨fun w' hw' => ?_, fun t' ht => ?_, fun t' ht => ?_⟩
    · dsimp only; rw [hwk, if_neg (by omega)]; exact h.idle w' hw'
    · dsimp only at ht ⊢
      rw [htk] at ht
      split at ht
      · rename_i e; subst e; exact ⟨w, by rw [hwk, if_pos rfl]⟩
      · obtain ⟨w', e⟩ := h.print t' ht
        exact ⟨w', by rw [hwk, if_neg (by rintro rfl; rw [hw.1] at e; cases e)]; exact e⟩
    · dsimp only at ht ⊢
      rw [htk] at ht
      split at ht
      · cases ht
      · obtain ⟨w', e⟩ := h.join t' ht
        exact ⟨w', by rw [hwk, if_neg (by rintro rfl; rw [hw.1] at e; cases e)]; exact e⟩
  | print w =>
    simp only [Ws.step] at hs
    split at hs <;> try contradiction
    rename_i t hw
    injection hs with hs; subst hs
    simp only [Lbl.worker] at hl
    have hwk : ∀ w', (setTask (setWk s w (.join t)) t .joining).wk w' = if w' = w then .join t else s.wk w' := fun _ => rfl
    have htk : ∀ t', (setTask (setWk s w (.join t)) t .joining).task t' = if t' = t then .joining else s.task t' := fun _ => rfl
    refine ⟨fun w' hw' => ?_, fun t' ht => ?_, fun t' ht => ?_⟩
    · dsimp only; rw [hwk, if_neg (by omega)]; exact h.idle w' hw'
    · dsimp only at ht ⊢
      rw [htk] at ht
      split at ht
      · cases ht
      · rename_i hne
        obtain ⟨w', e⟩ := h.print t' ht
        exact ⟨w', by rw [hwk, if_neg (by rintro rfl; rw [hw] at e; cases e; exact hne rfl)]; exact e⟩
    · dsimp only at ht ⊢
      rw [htk] at ht
      split at ht
      · rename_i e; subst e; exact ⟨w, by rw [hwk, if_pos rfl]⟩
      · obtain ⟨w', e⟩ := h.join t' ht
        exact ⟨w', by rw [hwk, if_neg (by rintro rfl; rw [hw] at e; cases e)]; exact e⟩
  | join w =>
    simp only [Ws.step] at hs
    split at hs <;> try contradiction
    rename_i t hw
    injection hs with hs; subst hs
    simp only [Lbl.worker] at hl
    generalize (if isLast s.count then Wk.cont else Wk.look) = kk
    have hwk : ∀ w', (Ws.setWk { setTask s t .joined with
      count := s.count - 1, bad := s.bad || !s.alive } w kk).wk w' = if w' = w then kk else s.wk w' := fun _ => rfl
    have htk : ∀ t', (Ws.setWk { setTask s t .joined with
      count := s.count - 1, bad := s.bad || !s.alive } w kk).task t' = if t' = t then .joined else s.task t' := fun _ => rfl
    refine ⟨fun w' hw' => ?_, fun t' ht => ?_, fun t' ht => ?_⟩
    · rw [hwk, if_neg (by omega)]; exact h.idle w' hw'
    · rw [htk] at ht
      split at ht
      · cases ht
      · obtain ⟨w', e⟩ := h.print t' ht
        exact ⟨w', by rw [hwk, if_neg (by rintro rfl; rw [hw] at e; cases e)]; exact e⟩
    · rw [htk] at ht
      split at ht
      · cases ht
      · rename_i hne
        obtain ⟨w', e⟩ := h.join t' ht
        exact ⟨w', by rw [hwk, if_neg (by rintro rfl; rw [hw] at e; cases e; exact hne rfl)]; exact e⟩

theorem IK.run {n k : Nat} (hn : n ≤ 2 ^ 32) (ls : List Lbl) : ∀ {s s' : St}, I n s → K k s → By k ls →
    Ws.run n true s ls = some s' → I n s' ∧ K k s' := by
  induction ls with
  | nil => intro s s' h hk _ e; simp only [Ws.run, Option.some.injEq] at e; subst e; exact ⟨h, hk⟩
  | cons l ls ih =>
    intro s s' h hk hb e
    simp only [Ws.run] at e
    cases hs : Ws.step n true s l with
    | none => rw [hs] at e; cases e
    | some s1 =>
      rw [hs] at e
      exact ih (h.step hn hs) (hk.step (hb l (List.mem_cons_self ..)) hs) (fun l' hl' => hb l' (List.mem_cons_of_mem _ hl')) e

/-- What is left to do with a task. -/
def weight : Task → Nat
  | .queued => 3
  | .printing => 2
  | .joining => 1
  | .joined => 0

def work (n : Nat) (s : St) : Nat := sum n (fun t => weight (s.task t)) + if s.done then 0 else 1

theorem work_task {n t : Nat} {s s' : St} (ht : t < n) (ho : ∀ t', t' ≠ t → s'.task t' = s.task t') (hd : s'.done = s.done)
    (hlt : weight (s'.task t) < weight (s.task t)) : work n s' < work n s := by
  have := sum_change (n := n) (t := t) (f := fun t => weight (s.task t)) (g := fun t => weight (s'.task t)) ht
    (fun t' h => by rw [ho t' h])
  unfold work
  rw [hd]
  omega

theorem run_append (n : Nat) (x : Bool) (l1 l2 : List Lbl) : ∀ s, run n x s (l1 ++ l2) = (run n x s l1).bind (run n x · l2) := by
  induction l1 with
  | nil => intro s; rfl
  | cons l l1 ih =>
    intro s
    simp only [List.cons_append, run]
    cases step n x s l with
    | none => rfl
    | some s1 => exact ih s1

/-- A worker in the middle of a task can go on with it. -/
theorem go_task {n w : Nat} {s : St} (h : I n s) (hw : (∃ t, s.wk w = .print t) ∨ ∃ t, s.wk w = .join t) :
    ∃ l s', l.worker = w ∧ step n true s l = some s' ∧ work n s' < work n s := by
  rcases hw with ⟨t, hw⟩ | ⟨t, hw⟩
  · obtain ⟨ht, hp⟩ := h.print w t hw
    refine ⟨.print w, _, rfl, by simp only [step, hw]; rfl, ?_⟩
    refine work_task ht (fun t' hne => ?_) rfl ?_
    · exact if_neg hne
    · show weight (if t = t then _ else _) < _
      rw [if_pos rfl, hp]; decide
  · obtain ⟨ht, hp⟩ := h.join w t hw
    refine ⟨.join w, _, rfl, by simp only [step, hw]; rfl, ?_⟩
    refine work_task ht (fun t' hne => ?_) rfl ?_
    · exact if_neg hne
    · show weight (if t = t then _ else _) < _
      rw [if_pos rfl, hp]; decide

theorem sum_not_full {n : Nat} {f : Nat → Nat} (h : ∀ t, f t ≤ 1) (hs : sum n f < n) : ∃ t, t < n ∧ f t = 0 := by
  induction n with
  | zero => omega
  | succ n ih =>
    rw [sum] at hs
    by_cases e : f n = 0
    · exact ⟨n, by omega, e⟩
    · have := h n
      obtain ⟨t, ht, e'⟩ := ih (by omega)
      exact ⟨t, by omega, e'⟩

theorem obtains {n w t : Nat} {s : St} (hw : s.wk w = .look) (ht : t < n) (hq : s.task t = .queued) :
    ∃ s', step n true s (.obtain w t) = some s' ∧ work n s' < work n s := by
  refine ⟨_, by simp only [step]; rw [if_pos ⟨hw, ht, .inl hq⟩], ?_⟩
  refine work_task ht (fun t' hne => ?_) rfl ?_
  · exact if_neg hne
  · show weight (if t = t then _ else _) < _
    rw [if_pos rfl, hq]; decide

/-- Until the continuation ran, some worker can get nearer to it. -/
theorem nearer {n k : Nat} {s : St} (h : I n s) (hk : K k s) (h1 : 1 ≤ k) (hd : s.done = false) :
    ∃ ls s', By k ls ∧ run n true s ls = some s' ∧ work n s' < work n s := by
  have one : ∀ w, ((∃ t, s.wk w = .print t) ∨ ∃ t, s.wk w = .join t) →
      ∃ ls s', By k ls ∧ run n true s ls = some s' ∧ work n s' < work n s := by
    intro w hw
    obtain ⟨l, s', hl, hs, hlt⟩ := go_task h hw
    have hwk : w < k := by
      apply Classical.byContradiction
      intro hge
      have := hk.idle w (by omega)
      rcases hw with ⟨t, e⟩ | ⟨t, e⟩ <;> rw [this] at e <;> cases e
    refine ⟨[l], s', ?_, by simp [run, hs], hlt⟩
    intro l' hl'
    rw [List.mem_singleton.1 hl', hl]; exact hwk
  have hJn : J n s ≤ n := sum_le (fun t => isJoined_le _)
  by_cases hJ : J n s = n
  · rcases h.last hJ with ⟨_, _, _, w, hw, _⟩ | ⟨_, e, _, _⟩
    · have hwk : w < k := by
        apply Classical.byContradiction
        intro hge
        have := hk.idle w (by omega)
        rw [this] at hw; cases hw
      refine ⟨[.cont w], _, ?_, by simp only [run, step]; rw [if_pos hw]; rfl, ?_⟩
      · intro l' hl'
        rw [List.mem_singleton.1 hl']; exact hwk
      · unfold work
        rw [hd]
        show sum n (fun t => weight (s.task t)) + 0 < sum n (fun t => weight (s.task t)) + 1
        omega
    · rw [hd] at e; cases e
  · obtain ⟨t, ht, e⟩ := sum_not_full (fun t => isJoined_le (s.task t)) (show J n s < n by omega)
    cases hq : s.task t with
    | joined => rw [hq] at e; cases e
    | printing => obtain ⟨w, hw⟩ := hk.print t hq; exact one w (.inl ⟨t, hw⟩)
    | joining => obtain ⟨w, hw⟩ := hk.join t hq; exact one w (.inr ⟨t, hw⟩)
    | queued =>
      cases hw : s.wk 0 with
      | print t => exact one 0 (.inl ⟨t, hw⟩)
      | join t => exact one 0 (.inr ⟨t, hw⟩)
      | cont => exact absurd hw ((h.not_yet (by omega)).2.2.2 0)
      | exited => rw [h.exited 0 hw] at hd; cases hd
      | look =>
        obtain ⟨s', hs, hlt⟩ := obtains hw ht hq
        refine ⟨[.obtain 0 t], s', ?_, by simp [run, hs], hlt⟩
        intro l' hl'
        rw [List.mem_singleton.1 hl']; exact h1
      | check =>
        have h2 : step n true s (.check 0) = some (setWk s 0 .look) := by
          simp only [step]; rw [if_pos hw, hd]; rfl
        obtain ⟨s', hs, hlt⟩ := obtains (s := setWk s 0 .look) (w := 0) (n := n) (t := t) (by rw [wk_set, if_pos rfl]) ht hq
        refine ⟨[.check 0, .obtain 0 t], s', ?_, by simp [run, h2, hs], hlt⟩
        intro l' hl'
        rcases List.mem_cons.1 hl' with rfl | hl'
        · exact h1
        · rw [List.mem_singleton.1 hl']; exact h1

theorem By.append {k : Nat} {l1 l2 : List Lbl} (h1 : By k l1) (h2 : By k l2) : By k (l1 ++ l2) := by
  intro l hl
  rcases List.mem_append.1 hl with h | h
  · exact h1 l h
  · exact h2 l h

theorem to_done {n k : Nat} (hn : n ≤ 2 ^ 32) (h1 : 1 ≤ k) : ∀ m s, work n s ≤ m → I n s → K k s →
    ∃ ls s', By k ls ∧ run n true s ls = some s' ∧ s'.done = true := by
  intro m
  induction m with
  | zero =>
    intro s hm _ _
    refine ⟨[], s, fun _ h => (by cases h), rfl, ?_⟩
    cases hd : s.done with
    | true => rfl
    | false =>
      unfold work at hm
      rw [hd] at hm
      simp at hm
  | succ m ih =>
    intro s hm h hk
    cases hd : s.done with
    | true => exact ⟨[], s, fun _ h => (by cases h), rfl, hd⟩
    | false =>
      obtain ⟨l1, s1, b1, r1, hlt⟩ := nearer h hk h1 hd
      obtain ⟨hi1, hk1⟩ := IK.run hn l1 h hk b1 r1
      obtain ⟨l2, s2, b2, r2, d2⟩ := ih s1 (by omega) hi1 hk1
      exact ⟨l1 ++ l2, s2, b1.append b2, by rw [run_append, r1]; exact r2, d2⟩

/-- Once the continuation ran, a worker can leave. -/
theorem leaves {n w : Nat} {s : St} (h : I n s) (hd : s.done = true) :
    ∃ ls, (∀ l ∈ ls, l.worker = w) ∧ run n true s ls = some (setWk s w .exited) := by
  have hJn : J n s ≤ n := sum_le (fun t => isJoined_le _)
  have hJ : J n s = n := by
    apply Classical.byContradiction
    intro e
    have := (h.not_yet (by omega)).2.1
    rw [hd] at this; cases this
  have hall := sum_full (fun t => isJoined_le (s.task t)) hJ
  have hnc : ∀ w, s.wk w ≠ .cont := by
    rcases h.last hJ with ⟨_, e, _⟩ | ⟨_, _, _, d⟩
    · rw [hd] at e; cases e
    · exact d
  have hset : ∀ k, setWk (setWk s w k) w .exited = setWk s w .exited := by
    intro k; simp only [setWk]; congr 1; funext w'; split <;> rfl
  cases hw : s.wk w with
  | print t => obtain ⟨ht, e⟩ := h.print w t hw; have := hall t ht; rw [e] at this; cases this
  | join t => obtain ⟨ht, e⟩ := h.join w t hw; have := hall t ht; rw [e] at this; cases this
  | cont => exact absurd hw (hnc w)
  | look =>
    refine ⟨[.nothing w, .check w], by simp [Lbl.worker], ?_⟩
    have h1 : step n true s (.nothing w) = some (setWk s w .check) := by simp only [step]; rw [if_pos hw]
    have h2 : step n true (setWk s w .check) (.check w) = some (setWk s w .exited) := by
      simp only [step]; rw [if_pos (by rw [wk_set, if_pos rfl])]
      show some (setWk (setWk s w .check) w (if s.done then .exited else .look)) = _
      rw [hd]; simp only [if_true]; rw [hset]
    simp [run, h1, h2]
  | check =>
    refine ⟨[.check w], by simp [Lbl.worker], ?_⟩
    simp only [run, step]; rw [if_pos hw, hd]; rfl
  | exited =>
    refine ⟨[], fun _ h => (by cases h), ?_⟩
    simp only [run, Option.some.injEq]
    have : (setWk s w .exited).wk = s.wk := by
      funext w'; rw [wk_set]; split
      · rename_i e; rw [e, hw]
      · rfl
    show s = { s with wk := (setWk s w .exited).wk }
    rw [this]

theorem all_leave {n k : Nat} (hn : n ≤ 2 ^ 32) (s : St) (h : I n s) (hd : s.done = true) : ∀ j, j ≤ k →
    ∃ ls s', By k ls ∧ run n true s ls = some s' ∧ s'.done = true ∧ ∀ w, w < j → s'.wk w = .exited := by
  intro j
  induction j with
  | zero => intro _; exact ⟨[], s, fun _ h => (by cases h), rfl, hd, fun w hw => by omega⟩
  | succ j ih =>
    intro hj
    obtain ⟨l1, s1, b1, r1, d1, e1⟩ := ih (by omega)
    obtain ⟨l2, b2, r2⟩ := leaves (w := j) (I.run hn l1 h r1) d1
    refine ⟨l1 ++ l2, setWk s1 j .exited, b1.append (fun l hl => by rw [b2 l hl]; omega), by rw [run_append, r1]; exact r2, d1, ?_⟩
    intro w hw
    rw [wk_set]
    split
    · rfl
    · exact e1 w (by omega)

theorem work_step {n : Nat} {s s' : St} (h : I n s) {l : Lbl} (hs : step n true s l = some s') :
    work n s' + (if l.busy then 1 else 0) ≤ work n s := by
  cases l with
  | nothing w =>
    simp only [Ws.step] at hs
    split at hs <;> try contradiction
    injection hs with hs; subst hs
    exact Nat.le_refl _
  | check w =>
    simp only [Ws.step] at hs
    split at hs <;> try contradiction
    injection hs with hs; subst hs
    exact Nat.le_refl _
  | obtain w t =>
    simp only [Ws.step] at hs
    split at hs <;> try contradiction
    rename_i hw
    obtain ⟨hl, ht, hq | hq⟩ := hw
    rotate_left
    · cases hq
    injection hs with hs; subst hs
    refine work_task ht (fun t' hne => ?_) rfl ?_
    · exact if_neg hne
    · show weight (if t = t then _ else _) < _
      rw [if_pos rfl, hq]; decide
  | print w =>
    simp only [Ws.step] at hs
    split at hs <;> try contradiction
    rename_i t hw
    injection hs with hs; subst hs
    obtain ⟨ht, hp⟩ := h.print w t hw
    refine work_task ht (fun t' hne => ?_) rfl ?_
    · exact if_neg hne
    · show weight (if t = t then _ else _) < _
      rw [if_pos rfl, hp]; decide
  | join w =>
    simp only [Ws.step] at hs
    split at hs <;> try contradiction
    rename_i t hw
    injection hs with hs; subst hs
    obtain ⟨ht, hp⟩ := h.join w t hw
    refine work_task ht (fun t' hne => ?_) rfl ?_
    · exact if_neg hne
    · show weight (if t = t then _ else _) < _
      rw [if_pos rfl, hp]; decide
  | cont w =>
    simp only [Ws.step] at hs
    split at hs <;> try contradiction
    rename_i hw
    injection hs with hs; subst hs
    have hJn : J n s ≤ n := sum_le (fun t => isJoined_le _)
    have hd : s.done = false := by
      by_cases hJ : J n s = n
      · rcases h.last hJ with ⟨_, e, _⟩ | ⟨_, _, _, d⟩
        · exact e
        · exact absurd hw (d w)
      · exact (h.not_yet (by omega)).2.1
    unfold work
    rw [hd]
    show sum n (fun t => weight (s.task t)) + 0 + 1 ≤ sum n (fun t => weight (s.task t)) + 1
    omega

theorem work_run {n : Nat} (hn : n ≤ 2 ^ 32) (ls : List Lbl) : ∀ {s s' : St}, I n s → run n true s ls = some s' →
    work n s' + (ls.filter Lbl.busy).length ≤ work n s := by
  induction ls with
  | nil => intro s s' _ e; simp only [run, Option.some.injEq] at e; subst e; exact Nat.le_refl _
  | cons l ls ih =>
    intro s s' h e
    simp only [run] at e
    cases hs : step n true s l with
    | none => rw [hs] at e; cases e
    | some s1 =>
      rw [hs] at e
      have h1 := ih (h.step hn hs) e
      have h2 := work_step h hs
      rw [List.filter_cons]
      cases hb : l.busy <;> rw [hb] at h2 <;> simp at h2 ⊢ <;> omega

theorem work_start (n : Nat) : work n (start n) = 3 * n + 1 := by
  have : ∀ n, sum n (fun _ => 3) = 3 * n := by
    intro n
    induction n with
    | zero => rfl
    | succ n ih => rw [sum, ih]; omega
  show sum n (fun _ => 3) + 1 = _
  rw [this]

/-- Without tasks nobody ever does anything. -/
theorem none_run (x : Bool) (ls : List Lbl) : ∀ {s s' : St}, (∀ w, s.wk w = .look ∨ s.wk w = .check) → s.done = false →
    run 0 x s ls = some s' → s'.done = false ∧ ∀ w, s'.wk w = .look ∨ s'.wk w = .check := by
  induction ls with
  | nil => intro s s' h hd e; simp only [run, Option.some.injEq] at e; subst e; exact ⟨hd, h⟩
  | cons l ls ih =>
    intro s s' h hd e
    simp only [run] at e
    cases hs : step 0 x s l with
    | none => rw [hs] at e; cases e
    | some s1 =>
      rw [hs] at e
      cases l with
      | obtain w t => simp [step] at hs
      | nothing w =>
        simp only [step] at hs
        split at hs <;> try contradiction
        injection hs with hs; subst hs
        refine ih (s := setWk s w .check) ?_ hd e
        intro w'; rw [wk_set]; split
        · exact .inr rfl
        · exact h w'
      | check w =>
        simp only [step] at hs
        split at hs <;> try contradiction
        injection hs with hs; subst hs
        refine ih (s := setWk s w (if s.done = true then .exited else .look)) ?_ hd e
        intro w'; rw [wk_set, hd]; split
        · exact .inl rfl
        · exact h w'
      | print w => rcases h w with e | e <;> simp [step, e] at hs
      | join w => rcases h w with e | e <;> simp [step, e] at hs
      | cont w => rcases h w with e | e <;> simp [step, e] at hs

end Verif.Ws
