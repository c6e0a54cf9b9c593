import Verif.Proof.SpawnScope5
/-! Helpers for C69: whole histories. -/
namespace Verif.So

theorem BookOk.empty : BookOk .empty := by intro i k g q h; simp [Book.empty] at h

theorem BookOk.after {c : Book} (h : BookOk c) (a : Act) (ha : c.allows a = true)
    (hb : ∀ (i : Nat) (g : CF) (k : Nat), c.futs[i]? = some g → g.pool = some k → k < c.pools.length) : BookOk (c.after a) := by
  have hmod : ∀ (u : CF → CF), (∀ g, (u g).pool = g.pool ∧ (u g).got = g.got) → ∀ i, BookOk { c with futs := c.futs.modify i u } := by
    intro u hu i j k g q h1 h2 h3 h4
    have h1 : (c.futs.modify i u)[j]? = some g := h1
    rw [List.getElem?_modify] at h1
    obtain ⟨g0, e1, e2⟩ := Option.map_eq_some_iff.mp h1
    by_cases hij : i = j
    · rw [if_pos hij] at e2
      subst e2
      rw [(hu g0).1] at h2
      rw [(hu g0).2]
      exact h j k g0 q e1 h2 h3 h4
    · rw [if_neg hij] at e2
      subst e2
      exact h j k g0 q e1 h2 h3 h4
  have happ : ∀ g0 : CF, g0.got = false → ∀ l, BookOk { c with futs := c.futs ++ [g0], late := l } := by
    intro g0 hg l j k g q h1 h2 h3 h4
    have h1 : (c.futs ++ [g0])[j]? = some g := h1
    rcases List.mem_append.mp (List.mem_of_getElem? h1) with hm | hm
    · obtain ⟨i, hi⟩ := List.mem_iff_getElem?.mp hm
      exact h i k g q hi h2 h3 h4
    · simp at hm; subst hm; exact hg
  cases a with
  | alloc => exact h
  | defer _ => exact h
  | use _ => exact h
  | result _ _ => exact h
  | done => exact h
  | async _ => exact happ _ rfl _
  | spawn _ => exact happ _ rfl _
  | finish i => exact hmod (fun f => { f with ended := true }) (fun g => ⟨rfl, rfl⟩) i
  | scope =>
    intro j k g q h1 h2 h3 h4
    have h3 : (c.pools ++ [⟨false, false⟩])[k]? = some q := h3
    rw [List.getElem?_append_left (hb j g k h1 h2)] at h3
    exact h j k g q h1 h2 h3 h4
  | get i =>
    unfold Book.allows at ha
    simp only [Bool.and_eq_true] at ha
    obtain ⟨_, ha⟩ := ha
    rw [Option.any_eq_true] at ha
    obtain ⟨gi, hgi, hge⟩ := ha
    simp only [Bool.and_eq_true] at hge
    have hnone : gi.pool = none := by simpa using hge.2
    intro j k g q h1 h2 h3 h4
    have h1 : (c.futs.modify i _)[j]? = some g := h1
    rw [List.getElem?_modify] at h1
    obtain ⟨g0, e1, e2⟩ := Option.map_eq_some_iff.mp h1
    by_cases hij : i = j
    · rw [if_pos hij] at e2
      subst hij
      rw [hgi] at e1
      cases e1
      subst e2
      rw [show ({ gi with got := true } : CF).pool = gi.pool from rfl, hnone] at h2
      cases h2
    · rw [if_neg hij] at e2
      subst e2
      exact h j k g0 q e1 h2 h3 h4
  | destroy k0 =>
    intro j k g q h1 h2 h3 h4
    have h3 : (c.pools.modify k0 _)[k]? = some q := h3
    rw [List.getElem?_modify] at h3
    obtain ⟨q0, e1, e2⟩ := Option.map_eq_some_iff.mp h3
    refine h j k g q0 h1 h2 e1 ?_
    by_cases hij : k0 = k
    · rw [if_pos hij] at e2; rw [← e2] at h4; exact h4
    · rw [if_neg hij] at e2; rw [show q0 = q from e2]; exact h4
  | sync k0 =>
    intro j k g q h1 h2 h3 h4
    have h3 : (c.pools.modify k0 _)[k]? = some q := h3
    have h1 : (c.futs.map _)[j]? = some g := h1
    rw [List.getElem?_modify] at h3
    rw [List.getElem?_map] at h1
    obtain ⟨q0, e1, e2⟩ := Option.map_eq_some_iff.mp h3
    obtain ⟨g0, e3, e4⟩ := Option.map_eq_some_iff.mp h1
    by_cases hij : k0 = k
    · rw [if_pos hij] at e2; rw [← e2] at h4; cases h4
    · rw [if_neg hij] at e2
      have e2 : q0 = q := e2
      subst e2
      by_cases hp : g0.pool = some k0
      · simp only [hp, beq_self_eq_true, if_true] at e4
        rw [← e4] at h2
        have h2 : some k0 = some k := h2
        cases h2
        exact absurd rfl hij
      · have : (g0.pool == some k0) = false := by simpa using hp
        simp only [this, Bool.false_eq_true, if_false] at e4
        subst e4
        exact h j k g0 q0 e3 h2 e1 h4

/-- One call that does not end the thread. -/
theorem R.step {ds c w} (h : R ds c w) (hB : BookOk c) (cpus : Nat) (a : Act) (ha : c.allows a = true) (hn : a ≠ .done) :
    (c.stale a = true → So.step cpus w a = none) ∧
    (c.stale a = false → ∃ w', So.step cpus w a = some w' ∧ R (nextDs c ds a) (c.after a) w') := by
  have lift : ∀ {x : Act}, c.stale x = false → (∃ w', So.step cpus w x = some w' ∧ R (nextDs c ds x) (c.after x) w') →
      (c.stale x = true → So.step cpus w x = none) ∧ (c.stale x = false → ∃ w', So.step cpus w x = some w' ∧ R (nextDs c ds x) (c.after x) w') :=
    fun hs hx => ⟨fun ht => by (rw [hs] at ht; cases ht), fun _ => hx⟩
  cases a with
  | alloc => exact lift rfl (h.alloc cpus)
  | defer n => exact lift rfl (h.deferFn cpus n)
  | use k => exact h.use cpus k ha
  | scope => exact lift rfl (h.scope cpus)
  | spawn j => exact lift rfl (h.spawn cpus j ha)
  | async j => exact lift rfl (h.async cpus j)
  | finish i => exact h.finish cpus i ha
  | get i => exact h.get cpus i ha
  | sync k => exact h.sync hB cpus k ha
  | result k i => exact lift rfl (h.result cpus k i ha)
  | destroy k => exact lift rfl (h.destroy cpus k ha)
  | done => exact absurd rfl hn

theorem allows_over {c : Book} (h : c.over = true) (a : Act) : c.allows a = false := by
  cases a <;> simp [Book.allows, h]

theorem read_over {c : Book} (h : c.over = true) : ∀ (l : List Act), (c.read l).isSome = true → l = []
  | [], _ => rfl
  | a :: r, hr => by
    rw [Book.read, allows_over h a] at hr
    simp at hr

theorem run_none (cpus : Nat) : ∀ (l : List Act) (ds : List Nat) (c : Book) (w : World), R ds c w → BookOk c → (c.read l).isSome = true →
    (run cpus w l = none ↔ c.staleIn l = true)
  | [], _, c, w, _, _, _ => by simp [run, Book.staleIn]
  | a :: r, ds, c, w, h, hB, hr => by
    have ha : c.allows a = true := by
      rw [Book.read] at hr
      by_cases ha : c.allows a = true
      · exact ha
      · rw [if_neg ha] at hr; cases hr
    rw [Book.read, if_pos ha] at hr
    rw [run, Book.staleIn]
    by_cases hd : a = .done
    · subst hd
      have := read_over (show (c.after .done).over = true from rfl) r hr
      subst this
      obtain ⟨w', e, _⟩ := h.done cpus ha
      rw [e]
      simp [run, Book.staleIn, Book.stale]
    · obtain ⟨h1, h2⟩ := h.step hB cpus a ha hd
      cases hs : c.stale a with
      | true => rw [h1 hs]; simp
      | false =>
        obtain ⟨w', e, h3⟩ := h2 hs
        rw [e, Option.bind_some, Bool.false_or]
        exact run_none cpus r _ _ w' h3 (hB.after a ha h.bound) hr

/-- The functions deferred up to the first join, at the end of a history. -/
def lastDs (c : Book) (ds : List Nat) : List Act → List Nat
  | [] => ds
  | a :: r => lastDs (c.after a) (nextDs c ds a) r

theorem lastDs_marked : ∀ (l : List Act) (c : Book) (ds : List Nat), c.mark.isSome = true → lastDs c ds l = ds
  | [], _, _, _ => rfl
  | a :: r, c, ds, h => by
    have h1 : (c.after a).mark.isSome = true := by
      cases a <;> simp [Book.after, h]
    have h2 : nextDs c ds a = ds := by
      cases a <;> simp only [nextDs]
      rw [if_neg (by cases hm : c.mark <;> simp_all)]
    rw [lastDs, lastDs_marked r _ _ h1, h2]

theorem lastDs_open : ∀ (l : List Act) (c : Book) (ds : List Nat), c.mark = none → lastDs c ds l = ds ++ deferredBefore l
  | [], _, _, _ => by simp [lastDs, deferredBefore]
  | a :: r, c, ds, h => by
    rw [lastDs]
    cases a with
    | defer n =>
      rw [lastDs_open r (c.after (.defer n)) _ h]
      simp [nextDs, h, deferredBefore]
    | sync k =>
      rw [lastDs_marked r _ _ (by simp [Book.after, h])]
      simp [nextDs, deferredBefore]
    | _ =>
      rw [lastDs_open r _ _ (by exact h)]
      rfl

theorem run_end (cpus : Nat) : ∀ (l : List Act) (ds : List Nat) (c c' : Book) (w w' : World), R ds c w → BookOk c → c.read l = some c' → c'.over = true →
    run cpus w l = some w' → w'.ran = (lastDs c ds l).reverse ∧ (c'.late = false → ∀ b < w'.next, w'.freed.count b = 1) ∧
      (c'.late = true → ∃ b < w'.next, w'.freed.count b = 0)
  | [], _, c, c', w, w', h, _, hr, ho, _ => by
    rw [Book.read] at hr
    cases hr
    rw [h.over] at ho
    cases ho
  | a :: r, ds, c, c', w, w', h, hB, hr, ho, hrun => by
    have ha : c.allows a = true := by
      rw [Book.read] at hr
      by_cases ha : c.allows a = true
      · exact ha
      · rw [if_neg ha] at hr; cases hr
    rw [Book.read, if_pos ha] at hr
    rw [run] at hrun
    by_cases hd : a = .done
    · subst hd
      have := read_over (show (c.after .done).over = true from rfl) r (by rw [hr]; rfl)
      subst this
      rw [Book.read] at hr
      cases hr
      obtain ⟨w1, e, h1, h2, h3⟩ := h.done cpus ha
      rw [e, Option.bind_some, run] at hrun
      cases hrun
      exact ⟨h1, h2, h3⟩
    · obtain ⟨h1, h2⟩ := h.step hB cpus a ha hd
      cases hs : c.stale a with
      | true => rw [h1 hs] at hrun; cases hrun
      | false =>
        obtain ⟨w1, e, h3⟩ := h2 hs
        rw [e, Option.bind_some] at hrun
        exact run_end cpus r _ _ c' w1 w' h3 (hB.after a ha h.bound) hr ho hrun

/-- Nothing is freed twice, at any time. -/
theorem run_once (cpus : Nat) : ∀ (l : List Act) (ds : List Nat) (c : Book) (w w' : World), R ds c w → BookOk c → (c.read l).isSome = true →
    run cpus w l = some w' → w'.freed.Nodup
  | [], _, c, w, w', h, _, _, hrun => by
    rw [run] at hrun
    cases hrun
    rw [List.nodup_iff_count]
    intro b
    have := h.cnt b
    unfold ind at this
    split at this <;> omega
  | a :: r, ds, c, w, w', h, hB, hr, hrun => by
    have ha : c.allows a = true := by
      rw [Book.read] at hr
      by_cases ha : c.allows a = true
      · exact ha
      · rw [if_neg ha] at hr; cases hr
    rw [Book.read, if_pos ha] at hr
    rw [run] at hrun
    by_cases hd : a = .done
    · subst hd
      have := read_over (show (c.after .done).over = true from rfl) r hr
      subst this
      obtain ⟨w1, e, h1⟩ := h.clean
      rw [show So.step cpus w .done = w.clean from rfl, e, Option.bind_some, run] at hrun
      cases hrun
      rw [List.nodup_iff_count]
      intro b
      have := h1.cnt b
      unfold ind at this
      split at this <;> omega
    · obtain ⟨h1, h2⟩ := h.step hB cpus a ha hd
      cases hs : c.stale a with
      | true => rw [h1 hs] at hrun; cases hrun
      | false =>
        obtain ⟨w1, e, h3⟩ := h2 hs
        rw [e, Option.bind_some] at hrun
        exact run_once cpus r _ _ w1 w' h3 (hB.after a ha h.bound) hr hrun

/-- Once late, always late. -/
theorem read_late : ∀ (l : List Act) (c c' : Book), c.read l = some c' → c.late = true → c'.late = true
  | [], c, c', h, hl => by rw [Book.read] at h; cases h; exact hl
  | a :: r, c, c', h, hl => by
    rw [Book.read] at h
    by_cases ha : c.allows a = true
    · rw [if_pos ha] at h
      exact read_late r _ c' h (by cases a <;> simp [Book.after, hl])
    · rw [if_neg ha] at h; cases h

theorem quiet_marked : ∀ (l : List Act) (c c' : Book), c.read l = some c' → c.mark.isSome = true → c'.late = false → deferred l = []
  | [], _, _, _, _, _ => rfl
  | a :: r, c, c', h, hm, hl => by
    rw [Book.read] at h
    by_cases ha : c.allows a = true
    · rw [if_pos ha] at h
      have h1 : (c.after a).mark.isSome = true := by cases a <;> simp [Book.after, hm]
      have IH := quiet_marked r _ c' h h1 hl
      cases a with
      | defer n =>
        exfalso
        have := read_late r _ c' h (by simp [Book.after, hm])
        rw [hl] at this; cases this
      | _ => exact IH
    · rw [if_neg ha] at h; cases h

theorem quiet_deferred : ∀ (l : List Act) (c c' : Book), c.read l = some c' → c.mark = none → c'.late = false → deferredBefore l = deferred l
  | [], _, _, _, _, _ => rfl
  | a :: r, c, c', h, hm, hl => by
    rw [Book.read] at h
    by_cases ha : c.allows a = true
    · rw [if_pos ha] at h
      cases a with
      | sync k =>
        have := quiet_marked r _ c' h (by simp [Book.after, hm]) hl
        simp only [deferredBefore, deferred, this]
      | defer n => simp only [deferredBefore, deferred, quiet_deferred r _ c' h hm hl]
      | _ => simp only [deferredBefore, deferred]; exact quiet_deferred r _ c' h hm hl
    · rw [if_neg ha] at h; cases h

/-- Without a join there is nothing old, and nothing late. -/
theorem noJoin : ∀ (l : List Act) (c : Book), (∀ k, .sync k ∉ l) → c.mark = none → c.late = false →
    c.staleIn l = false ∧ ∀ c', c.read l = some c' → c'.late = false
  | [], c, _, _, hl => ⟨rfl, by intro c' h; rw [Book.read] at h; cases h; exact hl⟩
  | a :: r, c, hs, hm, hl => by
    have hr : ∀ k, .sync k ∉ r := fun k hk => hs k (by simp [hk])
    have hstale : c.stale a = false := by
      cases a with
      | sync k => exact absurd (List.mem_cons_self) (hs k)
      | _ => simp [Book.stale, Book.oldA, Book.oldF, hm]
    have hm' : (c.after a).mark = none := by
      cases a with
      | sync k => exact absurd (List.mem_cons_self) (hs k)
      | _ => exact hm
    have hl' : (c.after a).late = false := by
      cases a <;> simp [Book.after, hm, hl]
    obtain ⟨h1, h2⟩ := noJoin r (c.after a) hr hm' hl'
    refine ⟨by rw [Book.staleIn, hstale, h1]; rfl, ?_⟩
    intro c' h
    rw [Book.read] at h
    by_cases ha : c.allows a = true
    · rw [if_pos ha] at h; exact h2 c' h
    · rw [if_neg ha] at h; cases h

end Verif.So
