import Verif.Proof.SpawnScope3
/-! Helpers for C69: futures and spawn scopes. -/
namespace Verif.So

theorem ind_one (n b : Nat) : ind n (n + 1) b = if n = b then 1 else 0 := by unfold ind; split <;> split <;> omega

/-- The part of `start` that takes blocks; the world and the future it adds. -/
def startFut (w : World) (j : Job) (pool : Option Nat) : Fut :=
  ⟨j, w.mine?.2.next, w.mine?.1, w.mine?.2.next + 1, true, true, 0, none, pool⟩

theorem start_eq (w : World) (j : Job) (pool : Option Nat) :
    w.start j pool = { w.mine?.2 with next := w.mine?.2.next + 2, futs := w.mine?.2.futs ++ [startFut w j pool] } := rfl

theorem startFut_own (w : World) (j : Job) (pool : Option Nat) (b : Nat) :
    (startFut w j pool).own b = ind w.mine?.2.next (w.mine?.2.next + 2) b := by
  simp only [startFut, Fut.own, if_true, cnt1]
  unfold ind
  repeat' split
  all_goals omega

theorem R.mine? {ds c w} (h : R ds c w) : R ds c.noted w.mine?.2 ∧ Def.free w.mine?.1 ∈ w.mine?.2.sc.defers := by
  obtain ⟨e, hE, hm, hs⟩ := alloc_ext w.sc w.next
  exact ⟨h.ext hE hs, hm⟩

theorem noted_late {c : Book} : c.noted.mark.isSome = true → c.noted.late = true := by
  intro h
  have h : c.mark.isSome = true := h
  show (c.late || c.mark.isSome) = true
  rw [h]; simp

theorem R.async {ds c w} (h : R ds c w) (cpus : Nat) (j : Job) :
    ∃ w', step cpus w (.async j) = some w' ∧ R ds (c.after (.async j)) w' := by
  refine ⟨_, rfl, ?_⟩
  obtain ⟨h1, hm⟩ := h.mine?
  rw [start_eq]
  refine h1.addFut (startFut w j none) ⟨none, false, false⟩ w.mine?.2.pools (by omega) ?_ rfl rfl rfl hm rfl noted_late rfl (by simp) ?_
  · intro b
    rw [startFut_own]; omega
  · intro k p q hp hq
    exact (h1.pool k p q hp hq).addFut _ (by simp)

theorem realloc_eq (w : World) (o : Option Nat) (ho : ∀ b ∈ o, b ∉ w.freed) :
    w.realloc o = some (w.next, { w with next := w.next + 1, freed := w.freed ++ o.toList }) := by
  unfold World.realloc World.take
  dsimp only
  rw [free?_eq { w with next := w.next + 1 } o ho]
  rfl

theorem R.grow {ds c w} (h : R ds c w) {k : Nat} {p : Pool} {q : CP} (cpus : Nat) (hp : w.pools[k]? = some p) (hq : c.pools[k]? = some q)
    (hd : p.dead = false) : ∃ p' w', w.grow cpus k p = some (p', w') ∧ R ds c w' ∧ w'.pools[k]? = some p' ∧ p'.self = p.self ∧ p'.scopeBlk = p.scopeBlk ∧
      p'.fids = p.fids ∧ p'.dead = p.dead ∧ w'.futs = w.futs := by
  unfold World.grow
  by_cases hc : p.fids.length % cpus = 0
  · rw [if_pos hc]
    have hf : ∀ b ∈ p.futArr, b ∉ w.freed := fun b hb => h.okPool hp (pool_futArr hd (by simpa using hb))
    have hr : ∀ b ∈ p.resArr, b ∉ w.freed ++ p.futArr.toList := by
      intro b hb hm
      rcases List.mem_append.mp hm with hm | hm
      · exact h.okPool hp (pool_resArr hd (by simpa using hb)) hm
      · have h1 := h.cnt b
        have h2 := own_pool hp b
        have h3 := List.one_le_count_iff.mpr hm
        have h4 : 1 ≤ p.resArr.toList.count b := List.one_le_count_iff.mpr (by simpa using hb)
        unfold Pool.own at h2
        rw [hd] at h2
        unfold ind at h1
        simp at h2
        split at h1 <;> omega
    rw [realloc_eq _ _ hf]
    dsimp only [Option.bind_some]
    rw [realloc_eq _ _ hr]
    refine ⟨_, _, rfl, ?_, ?_, rfl, rfl, rfl, rfl, rfl⟩
    · have H := h.pool k p q hp hq
      have := h.setPool hp hq { p with futArr := some w.next, resArr := some (w.next + 1) } q
        ⟨H.dead, H.nodup, H.mem, H.len, H.armed, H.self, fun hd h hh => ⟨(H.hnds hd h hh).1, (H.hnds hd h hh).2, (H.hnds hd h hh).3⟩, H.fns⟩
        (n := w.next + 1 + 1) (fr := w.freed ++ p.futArr.toList ++ p.resArr.toList) (by omega) (fun b hb => by simp [hb])
        (by
          intro b
          simp only [Pool.own, hd, Bool.false_eq_true, if_false, List.count_append, Option.toList, cnt1]
          unfold ind
          repeat' split
          all_goals omega)
      rw [set_self hq] at this
      exact this
    · exact List.getElem?_set_self (List.getElem?_eq_some_iff.mp hp).1
  · rw [if_neg hc]
    exact ⟨p, w, rfl, h, hp, rfl, rfl, rfl, rfl, rfl⟩

theorem R.spawn {ds c w} (h : R ds c w) (cpus : Nat) (j : Job) (ha : c.allows (.spawn j) = true) :
    ∃ w', step cpus w (.spawn j) = some w' ∧ R ds (c.after (.spawn j)) w' := by
  unfold Book.allows at ha
  simp only [Bool.and_eq_true] at ha
  obtain ⟨_, ha⟩ := ha
  rw [Option.any_eq_true] at ha
  obtain ⟨q, hq, hqd⟩ := ha
  rw [List.getLast?_eq_getElem?] at hq
  simp only [Bool.and_eq_true, Bool.not_eq_true'] at hqd
  obtain ⟨p, hp, H⟩ := h.poolOf hq
  have hd : p.dead = false := by rw [H.dead]; exact hqd.2
  have hlen : 0 < c.pools.length := by have := (List.getElem?_eq_some_iff.mp hq).1; omega
  have har : w.arena = some (c.pools.length - 1) := by
    rw [h.arena, h.poolLen, if_neg (by omega)]
  have hself := h.okPool hp (pool_def hd (H.self hd))
  obtain ⟨p1, w1, e1, h1, hp1, es, eb, ef, ed, ew⟩ := h.grow cpus hp hq hd
  have hd1 : p1.dead = false := by rw [ed]; exact hd
  obtain ⟨h2, hm⟩ := h1.mine?
  have hp1 : w1.mine?.2.pools[c.pools.length - 1]? = some p1 := hp1
  have H1 := h2.pool _ p1 q hp1 hq
  have hself1 := h2.okPool hp1 (pool_def hd1 (H1.self hd1))
  have hscope1 := h2.okPool hp1 (pool_scope hd1)
  obtain ⟨-, hE, hmem, hst⟩ := alloc_ext p1.sc (w1.mine?.2.next + 2)
  have halloc : (p1.sc.alloc (w1.mine?.2.next + 2)).1 = w1.mine?.2.next + 2 := rfl
  show ∃ w', w.spawn cpus j = some w' ∧ _
  unfold World.spawn
  rw [har]
  dsimp only
  rw [hp]
  dsimp only
  rw [World.touch, if_neg hself, Option.bind_some, e1, Option.bind_some]
  dsimp only
  rw [start_eq]
  rw [touchAll_eq [p1.self, p1.scopeBlk] _ (by
    intro b hb
    simp at hb
    rcases hb with rfl | rfl
    · exact hself1
    · exact hscope1)]
  refine ⟨_, rfl, ?_⟩
  dsimp only [Option.map_some]
  generalize hr : p1.sc.alloc (w1.mine?.2.next + 2) = r at *
  have hfl : w1.mine?.2.futs.length = c.futs.length := h2.futLen
  refine h2.addFut (startFut w1 j (some (c.pools.length - 1))) ⟨some (c.pools.length - 1), false, false⟩ _ (n := r.2.1) ?_ ?_ rfl rfl rfl hm rfl noted_late (by simp) ?_ ?_
  · have := hE.le; omega
  · intro b
    rw [startFut_own]
    have h3 := sum_set (fun p : Pool => p.own b) w1.mine?.2.pools (c.pools.length - 1) p1
      { p1 with sc := r.2.2, fids := p1.fids ++ [(w1.mine?.2.futs ++ [startFut w1 j (some (c.pools.length - 1))]).length - 1], hnds := p1.hnds ++ [⟨r.1, none, none⟩] } hp1
    have h4 := hE.own b
    have h5 := ind_split (show w1.mine?.2.next ≤ w1.mine?.2.next + 2 by omega) hE.le b
    have h6 : ({ p1 with sc := r.2.2, fids := p1.fids ++ [(w1.mine?.2.futs ++ [startFut w1 j (some (c.pools.length - 1))]).length - 1], hnds := p1.hnds ++ [⟨r.1, none, none⟩] } : Pool).own b = p1.own b + ind (w1.mine?.2.next + 2) r.2.1 b := by
      simp only [Pool.own, hd1, Bool.false_eq_true, if_false]
      omega
    rw [h6] at h3
    omega
  · intro k hk
    cases hk
    show c.pools.length - 1 < c.pools.length
    omega
  · intro k p' q' hk hq'
    by_cases hkk : c.pools.length - 1 = k
    · subst hkk
      rw [List.getElem?_set_self (List.getElem?_eq_some_iff.mp hp1).1] at hk
      cases hk
      have hq' : c.pools[c.pools.length - 1]? = some q' := hq'
      rw [hq] at hq'
      cases hq'
      have hi : (w1.mine?.2.futs ++ [startFut w1 j (some (c.pools.length - 1))]).length - 1 = c.futs.length := by
        rw [List.length_append, hfl]; rfl
      rw [hi]
      have hnot : c.futs.length ∉ p1.fids := by
        intro hh
        obtain ⟨g, hg, _⟩ := (H1.mem _).mp hh
        have : c.futs.length < c.futs.length := (List.getElem?_eq_some_iff.mp hg).1
        omega
      refine ⟨H1.dead, ?_, fun i => ?_, by simp [H1.len], fun _ => hE.armed.trans (H1.armed hd1), fun _ => hE.sub _ (H1.self hd1), ?_, hE.fns.trans H1.fns⟩
      · rw [List.nodup_append]
        exact ⟨H1.nodup, by simp, by intro a ha b hb; simp at hb; subst hb; rintro rfl; exact hnot ha⟩
      · show i ∈ p1.fids ++ [c.futs.length] ↔ ∃ g, (c.futs ++ [_])[i]? = some g ∧ _
        rw [List.mem_append, H1.mem, List.getElem?_append]
        show (∃ g, c.futs[i]? = some g ∧ _) ∨ _ ↔ _
        constructor
        · rintro (⟨g, h1, h2⟩ | h1)
          · exact ⟨g, by rw [if_pos (List.getElem?_eq_some_iff.mp h1).1]; exact h1, h2⟩
          · simp at h1
            subst h1
            exact ⟨⟨some (c.pools.length - 1), false, false⟩, by rw [if_neg (Nat.lt_irrefl _)]; show [_][c.futs.length - c.futs.length]? = _; simp, rfl⟩
        · rintro ⟨g, h1, h2⟩
          by_cases hi : i < c.futs.length
          · rw [if_pos hi] at h1
            exact .inl ⟨g, h1, h2⟩
          · rw [if_neg hi] at h1
            have : i - c.futs.length < 1 := (List.getElem?_eq_some_iff.mp h1).1
            right
            simp
            omega
      · intro _ x hx
        rcases List.mem_append.mp hx with hx | hx
        · have := H1.hnds hd1 x hx
          exact ⟨hE.sub _ this.1, fun b hb => hE.sub _ (this.2 b hb), fun b hb => hE.sub _ (this.3 b hb)⟩
        · simp at hx
          subst hx
          exact ⟨by dsimp only; rw [halloc]; exact hmem, by simp, by simp⟩
    · rw [List.getElem?_set_ne hkk] at hk
      exact (h2.pool k p' q' hk hq').addFut _ (by simpa using hkk)


theorem modify_set {α : Type} {l : List α} {i : Nat} {a : α} (f : α → α) (h : l[i]? = some a) : l.modify i f = l.set i (f a) := by
  apply List.ext_getElem?
  intro j
  rw [List.getElem?_modify, List.getElem?_set]
  by_cases hj : i = j
  · subst hj
    rw [if_pos rfl, if_pos (List.getElem?_eq_some_iff.mp h).1, h]
    simp
  · simp [hj]

theorem free_eq (w : World) (b : Nat) (h : b ∉ w.freed) : w.free b = some { w with freed := w.freed ++ [b] } := by
  unfold World.free; rw [if_neg h]

/-- `thrd_raii_wrapper` up to `RAII_FREE(f)`: the value it returns and the result are put into the thread's scope. -/
theorem R.finish {ds c w} (h : R ds c w) (cpus i : Nat) (ha : c.allows (.finish i) = true) :
    (c.stale (.finish i) = true → step cpus w (.finish i) = none) ∧
    (c.stale (.finish i) = false → ∃ w', step cpus w (.finish i) = some w' ∧ R ds (c.after (.finish i)) w') := by
  unfold Book.allows at ha
  simp only [Bool.and_eq_true] at ha
  obtain ⟨_, ha⟩ := ha
  rw [Option.any_eq_true] at ha
  obtain ⟨g, hg, hge⟩ := ha
  simp only [Bool.not_eq_true'] at hge
  obtain ⟨f, hf, F⟩ := h.futOf hg
  have hpend : f.pend = true := by rw [F.pend, hge]; rfl
  show (c.oldF i = true → w.finish i = none) ∧ (c.oldF i = false → ∃ w', w.finish i = some w' ∧ _)
  unfold World.finish
  rw [hf]
  dsimp only
  rw [if_pos hpend]
  constructor
  · intro ho
    rw [touchAll_none [f.farg, f.prom] w f.prom (by simp) (F.old ho)]
    rfl
  · intro ho
    obtain ⟨hpr, _⟩ := F.new ho
    have hlate : c.noted = c := by
      cases hm : c.mark with
      | none => exact noted_of_none hm
      | some m =>
        cases hl : c.late with
        | true => exact noted_of_late hl
        | false =>
          have := (h.thr.quiet m hm hl).2
          have hi : i < c.futs.length := (List.getElem?_eq_some_iff.mp hg).1
          unfold Book.oldF at ho
          rw [hm] at ho
          simp at ho
          omega
    rw [touchAll_eq [f.farg, f.prom] w (by
      intro b hb
      simp at hb
      rcases hb with rfl | rfl
      · exact h.okFut hf (fut_farg hpend)
      · exact h.okDef hpr), Option.bind_some]
    -- what the function returned
    obtain ⟨v, w1, e1, h1, hv, hf1, hsub⟩ : ∃ v w1, w.returned f.job = (v, w1) ∧ R ds c w1 ∧ (∀ x ∈ v, Def.free x ∈ w1.sc.defers) ∧
        w1.futs[i]? = some f ∧ ∀ d ∈ w.sc.defers, d ∈ w1.sc.defers := by
      cases f.job with
      | word => exact ⟨none, w, rfl, h, by simp, hf, fun _ h => h⟩
      | block =>
        have hE := take_defer w.sc w.next
        have := h.ext hE (defer_store _ _ _)
        rw [hlate] at this
        exact ⟨_, _, rfl, this, by intro x hx; cases hx; exact defer_mem _ _ _, hf, hE.sub⟩
    rw [e1]
    dsimp only
    obtain ⟨h2, hm⟩ := h1.mine?
    rw [hlate] at h2
    obtain ⟨-, hE, -, -⟩ := alloc_ext w1.sc w1.next
    have hf2 : w1.mine?.2.futs[i]? = some f := hf1
    rw [free_eq _ _ (h2.okFut hf2 (fut_farg hpend))]
    refine ⟨_, rfl, ?_⟩
    have key := h2.setFut hf2 hg { f with pend := false, box := w1.mine?.1, val := v } { g with ended := true }
      ⟨F.pool, rfl, F.live, fun hx => absurd hx (by rw [show c.oldF i = false from ho]; simp), fun _ => ⟨hE.sub _ (hsub _ hpr), fun _ => ⟨hm, fun x hx => hE.sub _ (hv x hx)⟩⟩⟩ rfl
      (fr := w1.mine?.2.freed ++ [f.farg]) (fun b hb => by simp [hb])
      (by
        intro b
        simp only [Fut.own, hpend, if_true, List.count_append]
        simp
        omega)
    have e : c.futs.modify i (fun f => { f with ended := true }) = c.futs.set i { g with ended := true } := by
      exact modify_set _ hg
    show R ds { c with futs := c.futs.modify i fun f => { f with ended := true } } _
    rw [e]
    exact key

theorem R.get {ds c w} (h : R ds c w) (cpus i : Nat) (ha : c.allows (.get i) = true) :
    (c.stale (.get i) = true → step cpus w (.get i) = none) ∧
    (c.stale (.get i) = false → ∃ w', step cpus w (.get i) = some w' ∧ R ds (c.after (.get i)) w') := by
  unfold Book.allows at ha
  simp only [Bool.and_eq_true] at ha
  obtain ⟨_, ha⟩ := ha
  rw [Option.any_eq_true] at ha
  obtain ⟨g, hg, hge⟩ := ha
  simp only [Bool.and_eq_true, Bool.not_eq_true'] at hge
  obtain ⟨⟨hge, hgg⟩, _⟩ := hge
  obtain ⟨f, hf, F⟩ := h.futOf hg
  have hpend : f.pend = false := by rw [F.pend, hge]; rfl
  have hlive : f.live = true := by rw [F.live, hgg]; rfl
  show (c.oldF i = true → w.get i = none) ∧ (c.oldF i = false → ∃ w', w.get i = some w' ∧ _)
  unfold World.get
  rw [hf]
  dsimp only
  rw [hpend]
  simp only [Bool.false_eq_true, if_false]
  constructor
  · intro ho
    rw [touchAll_none [f.obj, f.prom, f.box] w f.prom (by simp) (F.old ho)]
    rfl
  · intro ho
    obtain ⟨hpr, hbx⟩ := F.new ho
    have hobj := h.okFut hf (fut_obj hlive)
    rw [touchAll_eq [f.obj, f.prom, f.box] w (by
      intro b hb
      simp at hb
      rcases hb with rfl | rfl | rfl
      · exact hobj
      · exact h.okDef hpr
      · exact h.okDef (hbx hge).1), Option.bind_some, free_eq _ _ hobj]
    refine ⟨_, rfl, ?_⟩
    have key := h.setFut hf hg { f with live := false } { g with got := true }
      ⟨F.pool, F.pend, rfl, F.old, F.new⟩ rfl (fr := w.freed ++ [f.obj]) (fun b hb => by simp [hb])
      (by
        intro b
        simp only [Fut.own, hpend, hlive, List.count_append]
        simp)
    have e : c.futs.modify i (fun f => { f with got := true }) = c.futs.set i { g with got := true } := by
      exact modify_set _ hg
    show R ds { c with futs := c.futs.modify i fun f => { f with got := true } } _
    rw [e]
    rw [hpend] at key
    exact key

end Verif.So
