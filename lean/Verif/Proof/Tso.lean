import Verif.Spec.Tso
namespace Verif.Ts
variable {σ : Type}

theorem upd_same {β : Type} (f : Nat → β) (i : Nat) (v : β) : upd f i v i = v := if_pos rfl
theorem upd_other {β : Type} (f : Nat → β) {i j : Nat} (v : β) (h : j ≠ i) : upd f i v j = f j := if_neg h

theorem upd_upd {β : Type} (f : Nat → β) (i : Nat) (v w : β) : upd (upd f i v) i w = upd f i w := by
  funext j; unfold upd; split <;> rfl

theorem see_nil (mem : Nat → Nat) (x : Nat) : see mem [] x = mem x := rfl

theorem see_snoc (mem : Nat → Nat) (b : List (Nat × Nat)) (y v x : Nat) :
    see mem (b ++ [(y, v)]) x = if y = x then v else see mem b x := by
  unfold see; rw [List.foldl_append]; rfl

theorem fold_other {b : List (Nat × Nat)} {x : Nat} (h : ∀ s ∈ b, s.1 ≠ x) (w : Nat) :
    b.foldl (fun v s => if s.1 = x then s.2 else v) w = w := by
  induction b generalizing w with
  | nil => rfl
  | cons a b ih =>
    rw [List.foldl_cons, if_neg (h a List.mem_cons_self)]
    exact ih (fun s hs => h s (List.mem_cons_of_mem _ hs)) w

theorem see_other {b : List (Nat × Nat)} {x : Nat} (mem : Nat → Nat) (h : ∀ s ∈ b, s.1 ≠ x) : see mem b x = mem x := fold_other h _

theorem see_flush (mem : Nat → Nat) (b : List (Nat × Nat)) (y v x : Nat) : see (upd mem y v) b x = see mem ((y, v) :: b) x := by
  unfold see
  rw [List.foldl_cons]
  by_cases h : y = x
  · subst h; rw [upd_same, if_pos rfl]
  · rw [upd_other _ _ (fun e => h e.symm), if_neg h]

/-- The two machines are in step. -/
structure Sim (o : Owner σ) (t : Tso σ) (s : Sc σ) : Prop where
  loc : s.loc = t.loc
  /-- What waits is the thread's own. -/
  own : ∀ i, ∀ w ∈ t.buf i, o s w.1 = some i
  /-- The owner of a place sees what the imagined machine holds there. -/
  mine : ∀ i x, o s x = some i → s.mem x = see t.mem (t.buf i) x
  free : ∀ x, o s x = none → s.mem x = t.mem x

theorem Sim.other {o : Owner σ} {t : Tso σ} {s : Sc σ} (h : Sim o t s) {i x : Nat} (hx : o s x ≠ some i) : ∀ w ∈ t.buf i, w.1 ≠ x :=
  fun w hw e => hx (e ▸ h.own i w hw)

theorem Sim.sees {o : Owner σ} {t : Tso σ} {s : Sc σ} (h : Sim o t s) {i x : Nat} (hx : o s x = none ∨ o s x = some i) :
    see t.mem (t.buf i) x = s.mem x := by
  rcases hx with hx | hx
  · rw [see_other _ (h.other (by rw [hx]; exact nofun)), h.free x hx]
  · exact (h.mine i x hx).symm

theorem Sim.flush {p : Prog σ} {o : Owner σ} {t t' : Tso σ} {s : Sc σ} (h : Sim o t s) {i : Nat} (e : step p t (.flush i) = some t') : Sim o t' s := by
  unfold step at e
  dsimp only at e
  split at e
  · cases e
  · rename_i x v b hb
    cases e
    have ho : o s x = some i := h.own i (x, v) (by rw [hb]; exact List.mem_cons_self)
    refine ⟨h.loc, ?_, ?_, ?_⟩
    · intro j w hw
      dsimp only at hw
      by_cases hj : j = i
      · subst hj; rw [upd_same] at hw; exact h.own j w (by rw [hb]; exact List.mem_cons_of_mem _ hw)
      · rw [upd_other _ _ hj] at hw; exact h.own j w hw
    · intro j y hy
      by_cases hj : j = i
      · subst hj
        show s.mem y = see (upd t.mem x v) (upd t.buf j b j) y
        rw [upd_same]
        rw [see_flush, ← hb]; exact h.mine j y hy
      · show s.mem y = see (upd t.mem x v) (upd t.buf i b j) y
        rw [upd_other _ _ hj]
        have hxy : y ≠ x := by rintro rfl; rw [ho] at hy; cases hy; exact hj rfl
        rw [h.mine j y hy]
        unfold see
        show _ = List.foldl _ (upd t.mem x v y) _
        rw [upd_other _ _ hxy]
    · intro y hy
      have hxy : y ≠ x := by rintro rfl; rw [ho] at hy; cases hy
      show _ = upd t.mem x v y
      rw [upd_other _ _ hxy]; exact h.free y hy

theorem Sim.cpu {p : Prog σ} {o : Owner σ} {t t' : Tso σ} {s : Sc σ} (h : Sim o t s) {i : Nat} (ha : Allowed p o s i)
    (ht : ∀ s', s.step p i = some s' → Transfers p o s s' i) (e : step p t (.cpu i) = some t') :
    ∃ s', s.step p i = some s' ∧ Sim o t' s' := by
  unfold step at e
  dsimp only at e
  unfold Allowed at ha
  unfold Transfers at ht
  unfold Sc.step at ht ⊢
  rw [h.loc] at ha ht ⊢
  split at e
  · rename_i x k hc
    cases e
    rw [hc] at ha ht ⊢
    dsimp only at ha ht ⊢
    refine ⟨_, rfl, ?_⟩
    have tr := ht _ rfl
    have e1 : see t.mem (t.buf i) x = s.mem x := h.sees ha
    rw [e1]
    refine ⟨rfl, ?_, ?_, ?_⟩
    · intro j w hw
      have h1 := h.own j w hw
      rcases tr w.1 with e | ⟨e, _⟩
      · rw [e]; exact h1
      · rw [h1] at e; cases e
    · intro j y hy
      rcases tr y with e | ⟨e, e2⟩
      · exact h.mine j y (e ▸ hy)
      · rw [e2] at hy; cases hy; exact (h.sees (.inl e)).symm
    · intro y hy
      rcases tr y with e | ⟨_, e⟩
      · exact h.free y (e ▸ hy)
      · rw [hy] at e; cases e
  · rename_i x v k hc
    cases e
    rw [hc] at ha ht ⊢
    dsimp only at ha ht ⊢
    refine ⟨_, rfl, ?_⟩
    have tr := ht _ rfl
    refine ⟨rfl, ?_, ?_, ?_⟩
    · intro j w hw
      rw [tr]
      dsimp only at hw
      by_cases hj : j = i
      · subst hj
        rw [upd_same] at hw
        rcases List.mem_append.1 hw with hw | hw
        · exact h.own j w hw
        · cases List.mem_singleton.1 hw; exact ha
      · rw [upd_other _ _ hj] at hw; exact h.own j w hw
    · intro j y hy
      rw [tr] at hy
      by_cases hj : j = i
      · subst hj
        show upd s.mem x v y = see t.mem (upd t.buf j _ j) y
        rw [upd_same, see_snoc]
        by_cases hxy : x = y
        · subst hxy; rw [if_pos rfl, upd_same]
        · rw [if_neg hxy, upd_other _ _ (fun e => hxy e.symm)]; exact h.mine j y hy
      · show upd s.mem x v y = see t.mem (upd t.buf i _ j) y
        have hxy : y ≠ x := by rintro rfl; rw [ha] at hy; cases hy; exact hj rfl
        rw [upd_other _ _ hj, upd_other _ _ hxy]; exact h.mine j y hy
    · intro y hy
      rw [tr] at hy
      have hxy : y ≠ x := by rintro rfl; rw [ha] at hy; cases hy
      show upd s.mem x v y = t.mem y
      rw [upd_other _ _ hxy]; exact h.free y hy
  · rename_i x f k hc
    split at e
    · rename_i hb
      cases e
      rw [hc] at ha ht ⊢
      dsimp only at ha ht ⊢
      refine ⟨_, rfl, ?_⟩
      have tr := ht _ rfl
      have e1 : t.mem x = s.mem x := by have := h.sees ha; rw [hb] at this; exact this
      rw [e1]
      refine ⟨rfl, ?_, ?_, ?_⟩
      · intro j w hw
        have h1 := h.own j w hw
        rcases tr w.1 with e | ⟨e, _⟩ | ⟨e, _⟩
        · rw [e]; exact h1
        · rw [h1] at e; cases e
        · rw [h1] at e; cases e; rw [show t.buf i = [] from hb] at hw; cases hw
      · intro j y hy
        show upd s.mem x _ y = see (upd t.mem x _) (t.buf j) y
        by_cases hj : j = i
        · subst hj
          rw [hb, see_nil]
          by_cases hxy : y = x
          · subst hxy; rw [upd_same, upd_same]
          · rw [upd_other _ _ hxy, upd_other _ _ hxy]
            rcases tr y with e | ⟨e, _⟩ | ⟨_, e⟩
            · rw [h.mine j y (e ▸ hy), hb]; rfl
            · exact h.free y e
            · rw [hy] at e; cases e
        · have h1 : o s y = some j := by
            rcases tr y with e | ⟨_, e⟩ | ⟨_, e⟩
            · exact e ▸ hy
            · rw [hy] at e; cases e; exact absurd rfl hj
            · rw [hy] at e; cases e
          have hxy : y ≠ x := by
            rintro rfl
            rcases ha with ha | ha
            · rw [ha] at h1; cases h1
            · rw [ha] at h1; cases h1; exact hj rfl
          rw [upd_other _ _ hxy, h.mine j y h1]
          unfold see
          show _ = List.foldl _ (upd t.mem x _ y) _
          rw [upd_other _ _ hxy]
      · intro y hy
        show upd s.mem x _ y = upd t.mem x _ y
        by_cases hxy : y = x
        · subst hxy; rw [upd_same, upd_same]
        · rw [upd_other _ _ hxy, upd_other _ _ hxy]
          rcases tr y with e | ⟨_, e⟩ | ⟨e, _⟩
          · exact h.free y (e ▸ hy)
          · rw [hy] at e; cases e
          · rw [h.mine i y e, hb]; rfl
    · cases e
  · rename_i k hc
    split at e
    · rename_i hb
      cases e
      rw [hc] at ha ht ⊢
      dsimp only at ha ht ⊢
      refine ⟨_, rfl, ?_⟩
      have tr := ht _ rfl
      refine ⟨rfl, ?_, ?_, ?_⟩
      · intro j w hw
        have h1 := h.own j w hw
        rcases tr w.1 with e | ⟨e, _⟩ | ⟨e, _⟩
        · rw [e]; exact h1
        · rw [h1] at e; cases e
        · rw [h1] at e; cases e; rw [show t.buf i = [] from hb] at hw; cases hw
      · intro j y hy
        rcases tr y with e | ⟨e, e2⟩ | ⟨_, e⟩
        · exact h.mine j y (e ▸ hy)
        · rw [e2] at hy; cases hy; exact (h.sees (.inl e)).symm
        · rw [hy] at e; cases e
      · intro y hy
        rcases tr y with e | ⟨_, e⟩ | ⟨e, _⟩
        · exact h.free y (e ▸ hy)
        · rw [hy] at e; cases e
        · show s.mem y = t.mem y
          rw [h.mine i y e, hb]; rfl
    · cases e
  · cases e

theorem sim {p : Prog σ} {mem : Nat → Nat} {loc : Nat → σ} {o : Owner σ} (d : Disciplined p mem loc o) {t : Tso σ} (r : Reach p mem loc t) :
    ∃ s, Sc.Reach p mem loc s ∧ Sim o t s := by
  induction r with
  | start => exact ⟨⟨mem, loc⟩, .start, ⟨rfl, fun _ _ h => (nomatch h), fun _ _ _ => rfl, fun _ _ => rfl⟩⟩
  | step a _ e ih =>
    obtain ⟨s, hs, h⟩ := ih
    cases a with
    | cpu i =>
      obtain ⟨s', e', h'⟩ := h.cpu (d s hs i).1 (d s hs i).2 e
      exact ⟨s', .step i hs e', h'⟩
    | flush i => exact ⟨s, hs, h.flush e⟩

/-- What memory will be when all queues are empty, as far as anybody can tell. -/
theorem Sim.mem {o : Owner σ} {t : Tso σ} {s : Sc σ} (h : Sim o t s) (x : Nat) :
    (∃ i, s.mem x = see t.mem (t.buf i) x ∧ ∀ j, j ≠ i → ∀ w ∈ t.buf j, w.1 ≠ x) := by
  cases hx : o s x with
  | none => exact ⟨0, (h.sees (.inl hx)).symm, fun j _ => h.other (by rw [hx]; exact nofun)⟩
  | some i => exact ⟨i, h.mine i x hx, fun j hj => h.other (by rw [hx]; intro e; cases e; exact hj rfl)⟩

/-- The imagined machine's runs are runs of this one. -/
theorem emul {p : Prog σ} {mem : Nat → Nat} {loc : Nat → σ} {s : Sc σ} (r : Sc.Reach p mem loc s) : Reach p mem loc ⟨s.mem, fun _ => [], s.loc⟩ := by
  induction r with
  | start => exact .start
  | @step s s' i _ e ih =>
    unfold Sc.step at e
    split at e
    · rename_i x k hc
      cases e
      exact .step (.cpu i) ih (by unfold step; dsimp only; rw [hc]; rfl)
    · rename_i x v k hc
      cases e
      refine .step (.flush i) (t := ⟨s.mem, upd (fun _ => []) i [(x, v)], upd s.loc i k⟩) (.step (.cpu i) ih (by unfold step; dsimp only; rw [hc]; rfl)) ?_
      unfold step
      dsimp only
      rw [upd_same]
      have hb : upd (upd (fun _ => []) i [(x, v)]) i ([] : List (Nat × Nat)) = fun _ => [] := by
        funext j; unfold upd; split <;> rfl
      show some (⟨upd s.mem x v, upd (upd (fun _ => []) i [(x, v)]) i [], upd s.loc i k⟩ : Tso σ) = _
      rw [hb]
    · rename_i x f k hc
      cases e
      exact .step (.cpu i) ih (by unfold step; dsimp only; rw [hc])
    · rename_i k hc
      cases e
      exact .step (.cpu i) ih (by unfold step; dsimp only; rw [hc])
    · cases e

/-! ## The lock -/

/-- Sections to come touch data only. -/
def Lk.Ok : Lk → Prop
  | .tas b l | .spin b l | .held b l => b.Data ∧ ∀ c ∈ l, c.Data
  | .out => True

theorem after_ok {l : List Body} (h : ∀ c ∈ l, c.Data) : (after l).Ok := by
  cases l with
  | nil => trivial
  | cons b l => exact ⟨h b List.mem_cons_self, fun c hc => h c (List.mem_cons_of_mem _ hc)⟩

theorem after_holds (l : List Body) : ¬ (after l).Holds := by cases l <;> exact id

/-- In the imagined machine: the lock's place tells whether somebody holds it, and at most one does. -/
structure Lkd (s : Sc Lk) : Prop where
  ok : ∀ i, (s.loc i).Ok
  bit : s.mem 0 = 0 ∨ s.mem 0 = 1
  none : s.mem 0 = 0 → ∀ i, ¬ (s.loc i).Holds
  one : s.mem 0 = 1 → ∃ i, (s.loc i).Holds ∧ ∀ j, (s.loc j).Holds → j = i

/-- What the sections of each thread still to be finished are. -/
def Lk.todo : Lk → List Body
  | .tas b l | .spin b l => b :: l
  | .held _ l => l
  | .out => []

theorem after_todo (l : List Body) : (after l).todo = l := by cases l <;> rfl

/-- Stores and loads off the lock's place: memories that agree off it keep agreeing. -/
theorem run_off {b : Body} (h : b.Data) {m m' : Nat → Nat} (e : ∀ x, x ≠ 0 → m x = m' x) : ∀ x, x ≠ 0 → b.run m x = b.run m' x := by
  induction b generalizing m m' with
  | done => exact e
  | load y k ih =>
    intro x hx
    show (k (m y)).run m x = (k (m' y)).run m' x
    rw [e y h.1]; exact ih _ (h.2 _) e x hx
  | store y v k ih =>
    refine ih h.2 ?_
    intro x hx
    unfold upd
    split
    · rfl
    · exact e x hx

/-- How far the sections are, one after another. -/
inductive Mid (todo : Nat → List Body) (m0 : Nat → Nat) (s : Sc Lk) : Prop
  | idle (td : Nat → List Body) (m : Nat → Nat) (h : Serial todo m0 td m) (hn : s.mem 0 = 0) (ht : ∀ i, (s.loc i).todo = td i)
      (hm : ∀ x, x ≠ 0 → s.mem x = m x)
  | busy (td : Nat → List Body) (m : Nat → Nat) (h : Serial todo m0 td m) (i : Nat) (b0 b : Body) (l : List Body) (h1 : s.mem 0 = 1)
      (hi : s.loc i = .held b l) (htd : td i = b0 :: l) (hb : b0.Data) (ht : ∀ j, j ≠ i → (s.loc j).todo = td j)
      (hm : ∀ x, x ≠ 0 → b.run s.mem x = b0.run m x)

/-- A step of a thread that does not hold the lock and does not get it. -/
theorem keep {todo : Nat → List Body} {m0 : Nat → Nat} {s : Sc Lk} (L : Lkd s) (M : Mid todo m0 s) {i : Nat} {l' : Lk} (ht : (s.loc i).todo = l'.todo)
    (h1 : ¬ (s.loc i).Holds) (ok : l'.Ok) (h2 : ¬ l'.Holds) : Lkd ⟨s.mem, upd s.loc i l'⟩ ∧ Mid todo m0 ⟨s.mem, upd s.loc i l'⟩ := by
  have hh : ∀ j, (upd s.loc i l' j).Holds ↔ (s.loc j).Holds := by
    intro j
    by_cases hj : j = i
    · subst hj; rw [upd_same]; exact ⟨fun h => absurd h h2, fun h => absurd h h1⟩
    · rw [upd_other _ _ hj]
  have htd : ∀ j, (upd s.loc i l' j).todo = (s.loc j).todo := by
    intro j
    by_cases hj : j = i
    · subst hj; rw [upd_same, ht]
    · rw [upd_other _ _ hj]
  refine ⟨⟨?_, L.bit, fun h j hj => L.none h j ((hh j).1 hj), ?_⟩, ?_⟩
  · intro j
    show (upd s.loc i l' j).Ok
    by_cases hj : j = i
    · subst hj; rw [upd_same]; exact ok
    · rw [upd_other _ _ hj]; exact L.ok j
  · intro h
    obtain ⟨k, hk, hu⟩ := L.one h
    exact ⟨k, (hh k).2 hk, fun j hj => hu j ((hh j).1 hj)⟩
  · cases M with
    | idle td m hs hn ht hm => exact .idle td m hs hn (fun j => (htd j).trans (ht j)) hm
    | busy td m hs k b0 b l h1' hi htd' hb ht hm =>
      refine .busy td m hs k b0 b l h1' ?_ htd' hb (fun j hj => (htd j).trans (ht j hj)) hm
      show upd s.loc i l' k = _
      rw [upd_other _ _ ?_]
      · exact hi
      · rintro rfl; rw [hi] at h1; exact h1 trivial

theorem held_busy {todo : Nat → List Body} {m0 : Nat → Nat} {s : Sc Lk} (L : Lkd s) (M : Mid todo m0 s) {i : Nat} {b : Body} {l : List Body}
    (hi : s.loc i = .held b l) : s.mem 0 = 1 ∧ (∀ j, (s.loc j).Holds → j = i) ∧
    ∃ (td : Nat → List Body) (m : Nat → Nat) (b0 : Body), Serial todo m0 td m ∧ td i = b0 :: l ∧ b0.Data ∧ (∀ j, j ≠ i → (s.loc j).todo = td j) ∧
      ∀ x, x ≠ 0 → b.run s.mem x = b0.run m x := by
  have hH : (s.loc i).Holds := by rw [hi]; trivial
  have h1 : s.mem 0 = 1 := L.bit.resolve_left fun h => L.none h i hH
  obtain ⟨k, _, hu⟩ := L.one h1
  have hik := hu i hH
  subst hik
  refine ⟨h1, hu, ?_⟩
  cases M with
  | idle td m hs hn => rw [h1] at hn; cases hn
  | busy td m hs j b0 b' l' _ hj htd hb ht hm =>
    have hji : j = i := hu j (by rw [hj]; trivial)
    subst hji
    rw [hi] at hj
    cases hj
    exact ⟨td, m, b0, hs, htd, hb, ht, hm⟩

/-- A step of the thread that holds the lock. -/
theorem inside {todo : Nat → List Body} {m0 : Nat → Nat} {s : Sc Lk} (L : Lkd s) (M : Mid todo m0 s) {i : Nat} {b b' : Body} {l : List Body}
    {mem' : Nat → Nat} (hi : s.loc i = .held b l) (h0 : mem' 0 = s.mem 0) (hb : b'.Data) (hr : b'.run mem' = b.run s.mem) :
    Lkd ⟨mem', upd s.loc i (.held b' l)⟩ ∧ Mid todo m0 ⟨mem', upd s.loc i (.held b' l)⟩ := by
  obtain ⟨h1, hu, td, m, b0, hs, htd, hb0, ht, hm⟩ := held_busy L M hi
  have hok := L.ok i
  rw [hi] at hok
  refine ⟨⟨?_, .inr (h0.trans h1), ?_, ?_⟩, ?_⟩
  · intro j
    show (upd s.loc i _ j).Ok
    by_cases hj : j = i
    · subst hj; rw [upd_same]; exact ⟨hb, hok.2⟩
    · rw [upd_other _ _ hj]; exact L.ok j
  · intro h; have h : mem' 0 = 0 := h; rw [h0, h1] at h; cases h
  · intro _
    refine ⟨i, ?_, ?_⟩
    · show (upd s.loc i _ i).Holds; rw [upd_same]; trivial
    · intro j hj
      by_cases e : j = i
      · exact e
      · have hj : (upd s.loc i _ j).Holds := hj
        rw [upd_other _ _ e] at hj; exact hu j hj
  · refine .busy td m hs i b0 b' l (h0.trans h1) (upd_same _ _ _) htd hb0 ?_ ?_
    · intro j hj; show (upd s.loc i _ j).todo = _; rw [upd_other _ _ hj]; exact ht j hj
    · intro x hx; show b'.run mem' x = _; rw [hr]; exact hm x hx

theorem lkd {mem : Nat → Nat} {loc : Nat → Lk} {todo : Nat → List Body} (h0 : mem 0 = 0) (hd : ∀ i, ∀ b ∈ todo i, b.Data)
    (hl : ∀ i, loc i = after (todo i)) {s : Sc Lk} (r : Sc.Reach (fun _ => locker) mem loc s) : Lkd s ∧ Mid todo mem s := by
  induction r with
  | start =>
    refine ⟨⟨?_, .inl h0, ?_, ?_⟩, .idle todo mem .start h0 ?_ (fun _ _ => rfl)⟩
    · intro i; show (loc i).Ok; rw [hl i]; exact after_ok (hd i)
    · intro _ i; show ¬ (loc i).Holds; rw [hl i]; exact after_holds _
    · intro h; have h : mem 0 = 1 := h; rw [h0] at h; cases h
    · intro i; show (loc i).todo = _; rw [hl i]; exact after_todo _
  | @step s s' i _ e ih =>
    obtain ⟨L, M⟩ := ih
    have hok := L.ok i
    unfold Sc.step at e
    dsimp only at e
    cases hc : s.loc i with
    | tas b l =>
      rw [hc] at e hok
      cases e
      dsimp only
      rcases L.bit with h | h
      · rw [h, if_pos rfl]
        have hn := L.none h
        refine ⟨⟨?_, .inr (upd_same s.mem 0 1), ?_, ?_⟩, ?_⟩
        · intro j
          by_cases hj : j = i
          · subst hj; show (upd s.loc j _ j).Ok; rw [upd_same]; exact hok
          · show (upd s.loc i _ j).Ok; rw [upd_other _ _ hj]; exact L.ok j
        · intro h; have := (upd_same s.mem 0 1).symm.trans h; cases this
        · intro _
          refine ⟨i, ?_, ?_⟩
          · show (upd s.loc i _ i).Holds; rw [upd_same]; trivial
          · intro j hj
            by_cases e : j = i
            · exact e
            · have hj : (upd s.loc i _ j).Holds := hj
              rw [upd_other _ _ e] at hj; exact absurd hj (hn j)
        · cases M with
          | idle td m hs _ ht hm =>
            refine .busy td m hs i b b l (upd_same s.mem 0 1) (upd_same _ _ _) ?_ hok.1 ?_ ?_
            · rw [← ht i, hc]; rfl
            · intro j hj; show (upd s.loc i _ j).todo = _; rw [upd_other _ _ hj]; exact ht j
            · refine run_off hok.1 fun x hx => ?_
              rw [← hm x hx]; exact upd_other _ _ hx
          | busy td m hs j b0 b l h1 hj => rw [h] at h1; cases h1
      · rw [h, if_neg (by decide)]
        have hm0 : upd s.mem 0 1 = s.mem := by
          funext x; unfold upd; split
          · rename_i e; rw [e, h]
          · rfl
        rw [hm0]
        exact keep L M (hc ▸ rfl) (by rw [hc]; exact id) hok id
    | spin b l =>
      rw [hc] at e hok
      cases e
      dsimp only
      have hm0 : upd s.mem 0 (if s.mem 0 = 0 then 0 else s.mem 0) = s.mem := by
        funext x; unfold upd; split
        · rename_i e; subst e; split
          · rename_i e; exact e.symm
          · rfl
        · rfl
      rw [hm0]
      split
      · exact keep L M (hc ▸ rfl) (by rw [hc]; exact id) hok id
      · exact keep L M (hc ▸ rfl) (by rw [hc]; exact id) hok id
    | held b l =>
      rw [hc] at e hok
      cases b with
      | done =>
        cases e
        obtain ⟨h1, hu, td, m, b0, hs, htd, hb0, ht, hm⟩ := held_busy L M hc
        have hno : ∀ j, ¬ (upd s.loc i (after l) j).Holds := by
          intro j hj
          by_cases e : j = i
          · subst e; rw [upd_same] at hj; exact after_holds _ hj
          · rw [upd_other _ _ e] at hj; exact e (hu j hj)
        refine ⟨⟨?_, .inl (upd_same s.mem 0 0), fun _ => hno, ?_⟩, .idle _ _ (.section i hs htd) (upd_same s.mem 0 0) ?_ ?_⟩
        · intro j
          show (upd s.loc i _ j).Ok
          by_cases hj : j = i
          · subst hj; rw [upd_same]; exact after_ok hok.2
          · rw [upd_other _ _ hj]; exact L.ok j
        · intro h; have := (upd_same s.mem 0 0).symm.trans h; cases this
        · intro j
          show (upd s.loc i _ j).todo = _
          by_cases hj : j = i
          · subst hj; rw [upd_same, upd_same]; exact after_todo _
          · rw [upd_other _ _ hj, upd_other _ _ hj]; exact ht j hj
        · intro x hx
          show upd s.mem 0 0 x = _
          rw [upd_other _ _ hx]; exact hm x hx
      | load x k =>
        cases e
        exact inside L M hc rfl (hok.1.2 _) rfl
      | store x v k =>
        cases e
        exact inside L M hc (upd_other _ _ (fun e => hok.1.1 e.symm)) hok.1.2 rfl
    | out => rw [hc] at e; cases e

/-- Who owns the data: the thread that holds the lock. -/
noncomputable def holder : Owner Lk := fun s x =>
  open Classical in if h : x ≠ 0 ∧ ∃ i, (s.loc i).Holds then some h.2.choose else none

theorem holder_lock (s : Sc Lk) : holder s 0 = none := dif_neg fun h => h.1 rfl

theorem holder_none {s : Sc Lk} (h : ∀ i, ¬ (s.loc i).Holds) (x : Nat) : holder s x = none := dif_neg fun h2 => h2.2.elim h

theorem holder_some {s : Sc Lk} {i : Nat} (h : (s.loc i).Holds) (hu : ∀ j, (s.loc j).Holds → j = i) {x : Nat} (hx : x ≠ 0) : holder s x = some i := by
  have hh : x ≠ 0 ∧ ∃ i, (s.loc i).Holds := ⟨hx, i, h⟩
  unfold holder
  rw [dif_pos hh, hu _ hh.2.choose_spec]

theorem Lkd.unique {s : Sc Lk} (L : Lkd s) {i j : Nat} (hi : (s.loc i).Holds) (hj : (s.loc j).Holds) : j = i := by
  rcases L.bit with h | h
  · exact absurd hi (L.none h i)
  · obtain ⟨k, _, hu⟩ := L.one h
    rw [hu j hj, hu i hi]

theorem holder_cases {s : Sc Lk} (L : Lkd s) : (∀ i, ¬ (s.loc i).Holds) ∨ ∃ i, (s.loc i).Holds ∧ ∀ j, (s.loc j).Holds → j = i := by
  rcases L.bit with h | h
  · exact .inl (L.none h)
  · exact .inr (L.one h)

/-- If the same threads hold the lock, the owners are the same. -/
theorem holder_congr {s s' : Sc Lk} (L : Lkd s) (h : ∀ j, (s'.loc j).Holds ↔ (s.loc j).Holds) (x : Nat) : holder s' x = holder s x := by
  by_cases hx : x = 0
  · subst hx; rw [holder_lock, holder_lock]
  rcases holder_cases L with hn | ⟨i, hi, hu⟩
  · rw [holder_none hn, holder_none fun j hj => hn j ((h j).1 hj)]
  · rw [holder_some hi hu hx, holder_some ((h i).2 hi) (fun j hj => hu j ((h j).1 hj)) hx]

theorem upd_holds {f : Nat → Lk} {i : Nat} {l' : Lk} (h : l'.Holds ↔ (f i).Holds) (j : Nat) : (upd f i l' j).Holds ↔ (f j).Holds := by
  by_cases hj : j = i
  · subst hj; rw [upd_same]; exact h
  · rw [upd_other _ _ hj]

theorem locker_disciplined {mem : Nat → Nat} {loc : Nat → Lk} {todo : Nat → List Body} (h0 : mem 0 = 0) (hd : ∀ i, ∀ b ∈ todo i, b.Data)
    (hl : ∀ i, loc i = after (todo i)) : Disciplined (fun _ => locker) mem loc holder := by
  intro s r i
  have L := (lkd h0 hd hl r).1
  have hok := L.ok i
  unfold Allowed Transfers Sc.step
  dsimp only
  cases hc : s.loc i with
  | tas b l =>
    refine ⟨.inl (holder_lock s), ?_⟩
    intro s' e x
    cases e
    rcases L.bit with h | h
    · have hn := L.none h
      by_cases hx : x = 0
      · subst hx; rw [holder_lock, holder_lock]; exact .inl rfl
      · refine .inr (.inl ⟨holder_none hn x, ?_⟩)
        dsimp only
        rw [h, if_pos rfl]
        refine holder_some (i := i) ?_ ?_ hx
        · show (upd s.loc i _ i).Holds; rw [upd_same]; trivial
        · intro j hj
          by_cases e : j = i
          · exact e
          · have hj : (upd s.loc i _ j).Holds := hj
            rw [upd_other _ _ e] at hj; exact absurd hj (hn j)
    · dsimp only
      rw [h, if_neg (by decide)]
      exact .inl (holder_congr L (fun j => upd_holds (by rw [hc]; exact Iff.rfl) j) x)
  | spin b l =>
    refine ⟨.inl (holder_lock s), ?_⟩
    intro s' e x
    cases e
    refine .inl (holder_congr L (fun j => upd_holds ?_ j) x)
    rw [hc]
    split <;> exact Iff.rfl
  | held b l =>
    rw [hc] at hok
    have hi : (s.loc i).Holds := by rw [hc]; trivial
    have hu : ∀ j, (s.loc j).Holds → j = i := fun j hj => L.unique hi hj
    cases b with
    | done =>
      refine ⟨.inl (holder_lock s), ?_⟩
      intro s' e x
      cases e
      by_cases hx : x = 0
      · subst hx; rw [holder_lock, holder_lock]; exact .inl rfl
      · refine .inr (.inr ⟨holder_some hi hu hx, holder_none ?_ x⟩)
        intro j hj
        have hj : (upd s.loc i _ j).Holds := hj
        by_cases e : j = i
        · subst e; rw [upd_same] at hj; exact after_holds _ hj
        · rw [upd_other _ _ e] at hj; exact e (hu j hj)
    | load y k =>
      refine ⟨.inr (holder_some hi hu hok.1.1), ?_⟩
      intro s' e x
      cases e
      exact .inl (holder_congr L (fun j => upd_holds (by rw [hc]; exact Iff.rfl) j) x)
    | store y v k =>
      refine ⟨holder_some hi hu hok.1.1, ?_⟩
      intro s' e x
      cases e
      exact holder_congr L (fun j => upd_holds (by rw [hc]; exact Iff.rfl) j) x
  | out => exact ⟨trivial, nofun⟩

/-! ## Going on -/

theorem Runs.trans {p : Prog σ} {t u v : Tso σ} (h : Runs p t u) (h2 : Runs p u v) : Runs p t v := by
  induction h2 with
  | refl => exact h
  | step a _ e ih => exact .step a ih e

theorem Runs.reach {p : Prog σ} {mem : Nat → Nat} {loc : Nat → σ} {t u : Tso σ} (r : Reach p mem loc t) (h : Runs p t u) : Reach p mem loc u := by
  induction h with
  | refl => exact r
  | step a _ e ih => exact .step a ih e

theorem drain (p : Prog σ) (i : Nat) (t : Tso σ) : ∃ t', Runs p t t' ∧ t'.loc = t.loc ∧ t'.buf i = [] := by
  generalize hn : (t.buf i).length = n
  induction n generalizing t with
  | zero => exact ⟨t, .refl, rfl, List.length_eq_zero_iff.1 hn⟩
  | succ n ih =>
    cases hb : t.buf i with
    | nil => rw [hb] at hn; cases hn
    | cons w b =>
      obtain ⟨x, v⟩ := w
      rw [hb] at hn
      have e : step p t (.flush i) = some { t with mem := upd t.mem x v, buf := upd t.buf i b } := by
        unfold step; dsimp only; rw [hb]
      obtain ⟨t', h1, h2, h3⟩ := ih { t with mem := upd t.mem x v, buf := upd t.buf i b } (by
        show (upd t.buf i b i).length = n
        rw [upd_same]; exact Nat.succ.inj hn)
      exact ⟨t', (Runs.step _ .refl e).trans h1, h2, h3⟩

theorem finish (b : Body) (l : List Body) (i : Nat) (t : Tso Lk) (h : t.loc i = .held b l) :
    ∃ t', Runs (fun _ => locker) t t' ∧ t'.loc = upd t.loc i (after l) := by
  induction b generalizing t with
  | done =>
    obtain ⟨u, h1, h2, h3⟩ := drain (fun _ => locker) i t
    refine ⟨{ u with mem := upd u.mem 0 0, loc := upd u.loc i (after l) }, .step (.cpu i) h1 ?_, by rw [h2]⟩
    unfold step; dsimp only; rw [h2, h]; dsimp only [locker]; rw [h3]
  | load x k ih =>
    obtain ⟨u, h1, h2⟩ := ih (see t.mem (t.buf i) x) { t with loc := upd t.loc i (.held (k (see t.mem (t.buf i) x)) l) } (upd_same _ _ _)
    refine ⟨u, (Runs.step (.cpu i) .refl ?_).trans h1, ?_⟩
    · unfold step; dsimp only; rw [h]; rfl
    · rw [h2]; exact upd_upd _ _ _ _
  | store x v k ih =>
    obtain ⟨u, h1, h2⟩ := ih { t with buf := upd t.buf i (t.buf i ++ [(x, v)]), loc := upd t.loc i (.held k l) } (upd_same _ _ _)
    refine ⟨u, (Runs.step (.cpu i) .refl ?_).trans h1, ?_⟩
    · unfold step; dsimp only; rw [h]; rfl
    · rw [h2]; exact upd_upd _ _ _ _

section
variable {mem : Nat → Nat} {loc : Nat → Lk} {todo : Nat → List Body} (h0 : mem 0 = 0) (hd : ∀ i, ∀ b ∈ todo i, b.Data)
  (hl : ∀ i, loc i = after (todo i))
include h0 hd hl

theorem lock_word {t : Tso Lk} (r : Reach (fun _ => locker) mem loc t) : ∃ s, Lkd s ∧ Mid todo mem s ∧ s.mem 0 = t.mem 0 ∧ Sim holder t s := by
  obtain ⟨s, hs, h⟩ := sim (locker_disciplined h0 hd hl) r
  exact ⟨s, (lkd h0 hd hl hs).1, (lkd h0 hd hl hs).2, h.free 0 (holder_lock s), h⟩

theorem acquire {t : Tso Lk} (r : Reach (fun _ => locker) mem loc t) (hn : ∀ j, ¬ (t.loc j).Holds) {i : Nat} {b : Body} {l : List Body}
    (h : t.loc i = .tas b l ∨ t.loc i = .spin b l) : ∃ t', Runs (fun _ => locker) t t' ∧ t'.loc = upd t.loc i (.held b l) := by
  have key : ∀ t : Tso Lk, Reach (fun _ => locker) mem loc t → (∀ j, ¬ (t.loc j).Holds) → t.loc i = .tas b l →
      ∃ t', Runs (fun _ => locker) t t' ∧ t'.loc = upd t.loc i (.held b l) := by
    intro t r hn h
    obtain ⟨u, h1, h2, h3⟩ := drain (fun _ => locker) i t
    obtain ⟨s, L, _, e, hs⟩ := lock_word h0 hd hl (h1.reach r)
    have z : u.mem 0 = 0 := by
      rw [← e]
      rcases L.bit with z | z
      · exact z
      · obtain ⟨k, hk, _⟩ := L.one z
        rw [hs.loc, h2] at hk; exact absurd hk (hn k)
    refine ⟨{ u with mem := upd u.mem 0 1, loc := upd u.loc i (.held b l) }, .step (.cpu i) h1 ?_, by rw [h2]⟩
    unfold step; dsimp only; rw [h2, h]; dsimp only [locker]; rw [h3]; dsimp only; rw [z, if_pos rfl]
  rcases h with h | h
  · exact key t r hn h
  · obtain ⟨u, h1, h2, h3⟩ := drain (fun _ => locker) i t
    obtain ⟨s, L, _, e, hs⟩ := lock_word h0 hd hl (h1.reach r)
    have z : u.mem 0 = 0 := by
      rw [← e]
      rcases L.bit with z | z
      · exact z
      · obtain ⟨k, hk, _⟩ := L.one z
        rw [hs.loc, h2] at hk; exact absurd hk (hn k)
    have e2 : step (fun _ => locker) u (.cpu i) = some { u with mem := upd u.mem 0 0, loc := upd u.loc i (.tas b l) } := by
      unfold step; dsimp only; rw [h2, h]; dsimp only [locker]; rw [h3]; dsimp only; rw [z, if_pos rfl, if_neg (by decide)]
    have r2 := Runs.step _ h1 e2
    obtain ⟨v, h4, h5⟩ := key _ (r2.reach r) (by
      intro j hj
      have hj : (upd u.loc i (.tas b l) j).Holds := hj
      by_cases ej : j = i
      · subst ej; rw [upd_same] at hj; exact hj
      · rw [upd_other _ _ ej, h2] at hj; exact hn j hj) (upd_same _ _ _)
    refine ⟨v, r2.trans h4, ?_⟩
    rw [h5, h2]; exact upd_upd _ _ _ _

theorem one_section {t : Tso Lk} (r : Reach (fun _ => locker) mem loc t) {i : Nat} {b : Body} {l : List Body}
    (h : t.loc i = .tas b l ∨ t.loc i = .spin b l ∨ t.loc i = .held b l) : ∃ t', Runs (fun _ => locker) t t' ∧ t'.loc i = after l := by
  by_cases hh : (t.loc i).Holds
  · rcases h with h | h | h
    · rw [h] at hh; exact hh.elim
    · rw [h] at hh; exact hh.elim
    · obtain ⟨u, h1, h2⟩ := finish b l i t h
      exact ⟨u, h1, by rw [h2, upd_same]⟩
  · have h : t.loc i = .tas b l ∨ t.loc i = .spin b l := by
      rcases h with h | h | h
      · exact .inl h
      · exact .inr h
      · rw [h] at hh; exact absurd trivial hh
    have key : ∃ u, Runs (fun _ => locker) t u ∧ (∀ j, ¬ (u.loc j).Holds) ∧ u.loc i = t.loc i := by
      obtain ⟨s, L, _, _, hs⟩ := lock_word h0 hd hl r
      rcases holder_cases L with hn | ⟨j, hj, hu⟩
      · rw [hs.loc] at hn; exact ⟨t, .refl, hn, rfl⟩
      · rw [hs.loc] at hj hu
        cases hc : t.loc j with
        | held b' l' =>
          obtain ⟨u, h1, h2⟩ := finish b' l' j t hc
          refine ⟨u, h1, ?_, ?_⟩
          · intro k hk
            rw [h2] at hk
            by_cases ek : k = j
            · subst ek; rw [upd_same] at hk; exact after_holds _ hk
            · rw [upd_other _ _ ek] at hk; exact ek (hu k hk)
          · rw [h2, upd_other]; rintro rfl; exact hh hj
        | tas _ _ => rw [hc] at hj; exact hj.elim
        | spin _ _ => rw [hc] at hj; exact hj.elim
        | out => rw [hc] at hj; exact hj.elim
    obtain ⟨u, h1, h2, h3⟩ := key
    obtain ⟨v, h4, h5⟩ := acquire h0 hd hl (h1.reach r) h2 (by rw [h3]; exact h)
    obtain ⟨w, h6, h7⟩ := finish b l i v (by rw [h5, upd_same])
    exact ⟨w, (h1.trans h4).trans h6, by rw [h7, upd_same]⟩

theorem through {t : Tso Lk} (r : Reach (fun _ => locker) mem loc t) (i : Nat) : ∃ t', Runs (fun _ => locker) t t' ∧ t'.loc i = .out := by
  have key : ∀ (l : List Body) (t : Tso Lk), Reach (fun _ => locker) mem loc t → t.loc i = after l →
      ∃ t', Runs (fun _ => locker) t t' ∧ t'.loc i = .out := by
    intro l
    induction l with
    | nil => intro t _ h; exact ⟨t, .refl, h⟩
    | cons b l ih =>
      intro t r h
      obtain ⟨u, h1, h2⟩ := one_section h0 hd hl r (.inl h)
      obtain ⟨v, h3, h4⟩ := ih u (h1.reach r) h2
      exact ⟨v, h1.trans h3, h4⟩
  cases hc : t.loc i with
  | tas b l =>
    obtain ⟨u, h1, h2⟩ := one_section h0 hd hl r (.inl hc)
    obtain ⟨v, h3, h4⟩ := key l u (h1.reach r) h2
    exact ⟨v, h1.trans h3, h4⟩
  | spin b l =>
    obtain ⟨u, h1, h2⟩ := one_section h0 hd hl r (.inr (.inl hc))
    obtain ⟨v, h3, h4⟩ := key l u (h1.reach r) h2
    exact ⟨v, h1.trans h3, h4⟩
  | held b l =>
    obtain ⟨u, h1, h2⟩ := one_section h0 hd hl r (.inr (.inr hc))
    obtain ⟨v, h3, h4⟩ := key l u (h1.reach r) h2
    exact ⟨v, h1.trans h3, h4⟩
  | out => exact ⟨t, .refl, hc⟩

end

/-! ## Counting -/

/-- How many sections the first `n` threads have to do. -/
theorem serial_count {n : Nat} {todo : Nat → List Body} {m : Nat → Nat} (hc : ∀ i, ∀ b ∈ todo i, b = count) (hn : ∀ i, n ≤ i → todo i = [])
    {td : Nat → List Body} {m' : Nat → Nat} (h : Serial todo m td m') :
    (∀ i, ∀ b ∈ td i, b = count) ∧ (∀ i, n ≤ i → td i = []) ∧
    m' 1 + ((List.range n).map fun i => (td i).length).sum = m 1 + ((List.range n).map fun i => (todo i).length).sum := by
  induction h with
  | start => exact ⟨hc, hn, rfl⟩
  | @«section» td m' i b l _ e ih =>
    obtain ⟨a1, a2, a3⟩ := ih
    have hb : b = count := a1 i b (by rw [e]; exact List.mem_cons_self)
    subst hb
    have hi : i < n := Nat.lt_of_not_le fun h => by rw [a2 i h] at e; cases e
    refine ⟨?_, ?_, ?_⟩
    · intro j b hb
      by_cases hj : j = i
      · subst hj; rw [upd_same] at hb; exact a1 j b (by rw [e]; exact List.mem_cons_of_mem _ hb)
      · rw [upd_other _ _ hj] at hb; exact a1 j b hb
    · intro j hj
      rw [upd_other _ _ (by omega)]; exact a2 j hj
    · have key : ∀ k, ((List.range k).map fun j => (td j).length).sum =
          ((List.range k).map fun j => (upd td i l j).length).sum + if i < k then 1 else 0 := by
        intro k
        induction k with
        | zero => rfl
        | succ k ihk =>
          rw [List.range_succ, List.map_append, List.map_append, List.sum_append, List.sum_append, ihk]
          show _ + ((td k).length + 0) = _ + ((upd td i l k).length + 0) + _
          by_cases hk : k = i
          · subst hk; rw [upd_same, e, if_neg (Nat.lt_irrefl k), if_pos (Nat.lt_succ_self k), List.length_cons]; omega
          · rw [upd_other _ _ hk]
            by_cases h2 : i < k
            · rw [if_pos h2, if_pos (by omega)]; omega
            · rw [if_neg h2, if_neg (by omega)]; omega
      have k2 := key n
      rw [if_pos hi] at k2
      have e1 : count.run m' 1 = m' 1 + 1 := upd_same m' 1 (m' 1 + 1)
      rw [e1]; omega

end Verif.Ts
