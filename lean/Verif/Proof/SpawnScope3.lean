import Verif.Proof.SpawnScope2
/-! Helpers for C69: one call. -/
namespace Verif.So

/-- The functions deferred up to the first join, after one more call. -/
def nextDs (c : Book) (ds : List Nat) : Act → List Nat
  | .defer n => if c.mark.isNone then ds ++ [n] else ds
  | _ => ds

theorem R.addMine {ds c w} (h : R ds c w) {b : Nat} (hb : Def.free b ∈ w.sc.defers) :
    R ds { c with allocs := c.allocs + 1 } { w with mine := w.mine ++ [b] } := by
  refine ⟨h.over, h.cnt, by simp [h.allocs], h.futLen, ?_, h.poolLen, ?_, h.arena, ?_, ?_, ⟨h.thr.open_, ?_, h.thr.quiet, h.thr.noisy⟩, h.bound⟩
  · intro i f g hf hg
    have H := h.fut i f g hf hg
    exact ⟨H.pool, H.pend, H.live, H.old, H.new⟩
  · intro k p q hk hq
    have H := h.pool k p q hk hq
    exact ⟨H.dead, H.nodup, H.mem, H.len, H.armed, H.self, H.hnds, H.fns⟩
  · intro k b' hk ho
    simp only [List.getElem?_append] at hk
    by_cases hl : k < w.mine.length
    · rw [if_pos hl] at hk
      exact h.mineOld k b' hk ho
    · exfalso
      have ho : c.oldA k = true := ho
      unfold Book.oldA at ho
      cases hm : c.mark with
      | none => simp [hm] at ho
      | some m =>
        have := (h.thr.closed m hm).2.2.1
        have := h.allocs
        simp [hm] at ho
        omega
  · intro k b' hk ho
    simp only [List.getElem?_append] at hk
    by_cases hl : k < w.mine.length
    · rw [if_pos hl] at hk
      exact h.mineNew k b' hk ho
    · rw [if_neg hl] at hk
      have h0 : k - w.mine.length = 0 := by
        have := (List.getElem?_eq_some_iff.mp hk).1
        simp at this; omega
      rw [h0] at hk
      simp at hk
      subst hk
      exact hb
  · intro m hm
    obtain ⟨h1, h2, h3, h4⟩ := h.thr.closed m hm
    exact ⟨h1, h2, by show m.allocs ≤ c.allocs + 1; omega, h4⟩

theorem R.alloc {ds c w} (h : R ds c w) (cpus : Nat) :
    ∃ w', step cpus w .alloc = some w' ∧ R ds (c.after .alloc) w' := by
  refine ⟨_, rfl, ?_⟩
  obtain ⟨e, hE, hm, hs⟩ := alloc_ext w.sc w.next
  have h1 := h.ext hE hs
  exact h1.addMine (b := w.next) hm

theorem R.deferFn {ds c w} (h : R ds c w) (cpus n : Nat) :
    ∃ w', step cpus w (.defer n) = some w' ∧ R (nextDs c ds (.defer n)) (c.after (.defer n)) w' := by
  refine ⟨_, rfl, ?_⟩
  obtain ⟨hle, hown, harm, hfns⟩ := defer_fn w.sc w.next n
  have hsub := defer_sub w.sc w.next (.fn n)
  have hst := defer_store w.sc w.next (.fn n)
  generalize w.sc.defer w.next (.fn n) = r at *
  refine ⟨h.over, ?_, h.allocs, h.futLen, ?_, h.poolLen, ?_, h.arena, h.mineOld, ?_, ⟨?_, ?_, ?_, ?_⟩, h.bound⟩
  · intro b
    have h1 := h.cnt b
    have h2 := hown b
    have h3 := ind_split (Nat.zero_le _) hle b
    unfold World.own at h1 ⊢
    dsimp only
    omega
  · intro i f g hf hg
    have H := h.fut i f g hf hg
    refine ⟨H.pool, H.pend, H.live, H.old, fun ho => ?_⟩
    obtain ⟨h1, h2⟩ := H.new ho
    exact ⟨hsub _ h1, fun he => ⟨hsub _ (h2 he).1, fun v hv => hsub _ ((h2 he).2 v hv)⟩⟩
  · intro k p q hk hq
    have H := h.pool k p q hk hq
    exact ⟨H.dead, H.nodup, H.mem, H.len, H.armed, H.self, H.hnds, H.fns⟩
  · intro k b hk ho
    exact hsub _ (h.mineNew k b hk ho)
  · intro hm
    have hm : c.mark = none := hm
    obtain ⟨h1, h2, h3, h4⟩ := h.thr.open_ hm
    refine ⟨harm.trans h1, h2, ?_, ?_⟩
    · show fnsOf r.2.defers = _
      rw [hfns, h3]
      unfold nextDs
      rw [hm]; rfl
    · show (c.late || c.mark.isSome) = false
      rw [h4, hm]; rfl
  · intro m hm
    have hm : c.mark = some m := hm
    obtain ⟨h1, h2, h3, h4⟩ := h.thr.closed m hm
    refine ⟨harm.trans h1, ?_, h3, h4⟩
    show w.ran = _
    rw [h2]
    unfold nextDs
    rw [hm]; rfl
  · intro m hm hl
    have hm : c.mark = some m := hm
    have : (c.late || c.mark.isSome) = false := hl
    rw [hm] at this
    simp at this
  · intro _; exact hst

theorem R.use {ds c w} (h : R ds c w) (cpus k : Nat) (ha : c.allows (.use k) = true) :
    (c.stale (.use k) = true → step cpus w (.use k) = none) ∧
    (c.stale (.use k) = false → ∃ w', step cpus w (.use k) = some w' ∧ R ds (c.after (.use k)) w') := by
  have hk : k < w.mine.length := by
    rw [h.allocs]
    unfold Book.allows at ha
    simp at ha
    exact ha.2
  have hg := List.getElem?_eq_getElem hk
  constructor
  · intro ho
    have := h.mineOld k _ hg ho
    simp only [step, hg, World.touch, if_pos this]
  · intro ho
    have := h.okDef (h.mineNew k _ hg ho)
    exact ⟨w, by simp only [step, hg, World.touch, if_neg this], h⟩

theorem R.scope {ds c w} (h : R ds c w) (cpus : Nat) :
    ∃ w', step cpus w .scope = some w' ∧ R ds (c.after .scope) w' := by
  refine ⟨_, rfl, ?_⟩
  unfold World.scope World.take
  dsimp only
  obtain ⟨e, hE, hm, hs⟩ := alloc_ext Sc.fresh (w.next + 1)
  generalize hr : Sc.fresh.alloc (w.next + 1) = r at *
  have h0 : ∀ b, Sc.fresh.own b = 0 := by intro b; simp [Sc.own, Sc.fresh, freesOf]
  refine ⟨h.over, ?_, h.allocs, h.futLen, ?_, by simp [Book.after, h.poolLen], ?_, by simp, h.mineOld, h.mineNew,
    ⟨h.thr.open_, h.thr.closed, h.thr.quiet, h.thr.noisy⟩, fun i g k h1 h2 => by
      have := h.bound i g k h1 h2
      show k < (c.pools ++ _).length
      simp; omega⟩
  · intro b
    have h1 := h.cnt b
    have h2 := hE.own b
    rw [h0 b] at h2
    have hle := hE.le
    have h3 := ind_split (Nat.zero_le _) (show w.next ≤ r.2.1 by omega) b
    have h4 := ind_split (Nat.le_add_right w.next 1) hle b
    have h5 : ind w.next (w.next + 1) b = if w.next = b then 1 else 0 := by unfold ind; split <;> split <;> omega
    have h6 : (⟨w.next, r.1, r.2.2, none, none, [], [], false⟩ : Pool).own b = (if w.next = b then 1 else 0) + r.2.2.own b := by
      simp [Pool.own, cnt1]
    unfold World.own at h1 ⊢
    simp only [List.map_append, List.sum_append, List.map_cons, List.map_nil, List.sum_cons, List.sum_nil]
    rw [h6]
    omega
  · intro i f g hf hg
    have H := h.fut i f g hf hg
    exact ⟨H.pool, H.pend, H.live, H.old, H.new⟩
  · intro k p q hk hq
    have hq : (c.pools ++ [⟨false, false⟩])[k]? = some q := hq
    simp only [List.getElem?_append, h.poolLen] at hk hq
    by_cases hl : k < c.pools.length
    · rw [if_pos hl] at hk hq
      have H := h.pool k p q hk hq
      exact ⟨H.dead, H.nodup, H.mem, H.len, H.armed, H.self, H.hnds, H.fns⟩
    · rw [if_neg hl] at hk hq
      have hz : k - c.pools.length = 0 := by
        have := (List.getElem?_eq_some_iff.mp hk).1
        simp at this; omega
      rw [hz] at hk hq
      simp at hk hq
      subst hk; subst hq
      refine ⟨rfl, by simp, fun i => ?_, rfl, fun _ => hE.armed, fun _ => ?_, by simp, hE.fns.trans rfl⟩
      · constructor
        · intro hi; simp at hi
        · rintro ⟨g, h1, h2⟩
          have := h.bound i g k h1 h2
          omega
      · dsimp only; rw [e]; exact hm


theorem R.use? {ds c w} (h : R ds c w) {l : List Nat} (hl : ∀ b ∈ l, b ∉ w.freed) : w.touchAll l = some w := touchAll_eq l w hl

/-- `raii_deferred_clean`: everything in the thread's scope becomes old. -/
theorem R.clean {ds c w} (h : R ds c w) :
    ∃ w', w.clean = some w' ∧ R ds { c with mark := c.mark.or (some ⟨c.allocs, c.futs.length⟩) } w' := by
  have hc : ∀ b, w.freed.count b + w.sc.own b ≤ 1 := by
    intro b
    have h1 := h.cnt b
    have h2 := own_sc w b
    unfold ind at h1
    split at h1 <;> omega
  unfold World.clean
  rw [release_eq w w.sc hc]
  refine ⟨_, rfl, ?_⟩
  cases hm : c.mark with
  | some m =>
    obtain ⟨ha, _⟩ := h.thr.closed m hm
    have e1 : w.sc.out = [] := by unfold Sc.out; rw [ha]; rfl
    have e2 : w.sc.released = w.sc := by unfold Sc.released; rw [ha]; rfl
    rw [e1, e2, ha]
    simp only [List.append_nil, Bool.false_eq_true, if_false, Option.or_some, Option.getD_some]
    have e3 : ({ c with mark := some m } : Book) = c := by rw [← hm]
    rw [e3]
    exact h
  | none =>
    obtain ⟨ha, hr, hd, hl⟩ := h.thr.open_ hm
    have e2 : w.sc.released = ⟨false, [], none, none⟩ := by unfold Sc.released; rw [ha]; rfl
    have hold : ∀ b, Def.free b ∈ w.sc.defers → b ∈ w.freed ++ w.sc.out := by
      intro b hb
      refine List.mem_append_right _ ?_
      rw [← List.one_le_count_iff, out_count ha]
      exact own_of_def hb
    have hnf : ∀ i, c.oldF i = false := by intro i; unfold Book.oldF; rw [hm]; rfl
    have hna : ∀ i, c.oldA i = false := by intro i; unfold Book.oldA; rw [hm]; rfl
    rw [e2, ha, if_pos rfl, hr, hd]
    dsimp only [Option.or]
    refine ⟨h.over, ?_, h.allocs, h.futLen, ?_, h.poolLen, ?_, h.arena, ?_, ?_, ⟨?_, ?_, ?_, ?_⟩, h.bound⟩
    · intro b
      have h1 := h.cnt b
      have h2 := out_count ha b
      unfold World.own at h1 ⊢
      simp only [List.count_append, Sc.own, freesOf, Option.toList, List.filterMap_nil, List.count_nil]
      have e : (freesOf w.sc.defers).count b + w.sc.prot.toList.count b + w.sc.store.toList.count b = w.sc.own b := rfl
      omega
    · intro i f g hf hg
      have H := h.fut i f g hf hg
      refine ⟨H.pool, H.pend, H.live, fun _ => hold _ (H.new (hnf i)).1, fun ho => ?_⟩
      exfalso
      have : i < c.futs.length := (List.getElem?_eq_some_iff.mp hg).1
      simp only [Book.oldF, Option.any_some, decide_eq_false_iff_not] at ho
      omega
    · intro k p q hk hq
      have H := h.pool k p q hk hq
      exact ⟨H.dead, H.nodup, H.mem, H.len, H.armed, H.self, H.hnds, H.fns⟩
    · intro k b hk _
      exact hold b (h.mineNew k b hk (hna k))
    · intro k b hk ho
      exfalso
      have := (List.getElem?_eq_some_iff.mp hk).1
      have e := h.allocs
      simp only [Book.oldA, Option.any_some, decide_eq_false_iff_not] at ho
      dsimp only at *
      omega
    · intro hx; cases hx
    · intro m hx
      cases hx
      exact ⟨rfl, by simp, Nat.le_refl _, Nat.le_refl _⟩
    · intro m hx _
      cases hx
      exact ⟨rfl, rfl⟩
    · intro hx
      have hx : c.late = true := hx
      rw [hl] at hx; cases hx

end Verif.So
