import Verif.Proof.SpawnScope
/-! Helpers for C69: the world and the book. -/
namespace Verif.So

structure FutOk (c : Book) (w : World) (i : Nat) (f : Fut) (g : CF) : Prop where
  pool : f.pool = g.pool
  pend : f.pend = !g.ended
  live : f.live = !g.got
  old : c.oldF i = true → f.prom ∈ w.freed
  new : c.oldF i = false → Def.free f.prom ∈ w.sc.defers ∧
    (g.ended = true → Def.free f.box ∈ w.sc.defers ∧ ∀ v ∈ f.val, Def.free v ∈ w.sc.defers)

structure HndOk (p : Pool) (h : Hnd) : Prop where
  hdl : Def.free h.hdl ∈ p.sc.defers
  box : ∀ b ∈ h.box, Def.free b ∈ p.sc.defers
  ext : ∀ b ∈ h.ext, Def.free b ∈ p.sc.defers

structure PoolOk (c : Book) (k : Nat) (p : Pool) (q : CP) : Prop where
  dead : p.dead = q.dead
  nodup : p.fids.Nodup
  mem : ∀ i, i ∈ p.fids ↔ ∃ g, c.futs[i]? = some g ∧ g.pool = some k
  len : p.hnds.length = p.fids.length
  armed : p.dead = false → p.sc.armed = true
  self : p.dead = false → Def.free p.self ∈ p.sc.defers
  hnds : p.dead = false → ∀ h ∈ p.hnds, HndOk p h
  fns : fnsOf p.sc.defers = []

structure ThrOk (c : Book) (w : World) (ds : List Nat) : Prop where
  open_ : c.mark = none → w.sc.armed = true ∧ w.ran = [] ∧ fnsOf w.sc.defers = ds ∧ c.late = false
  closed : ∀ m, c.mark = some m → w.sc.armed = false ∧ w.ran = ds.reverse ∧ m.allocs ≤ c.allocs ∧ m.futs ≤ c.futs.length
  quiet : ∀ m, c.mark = some m → c.late = false → w.sc = ⟨false, [], none, none⟩ ∧ c.futs.length = m.futs
  noisy : c.late = true → w.sc.store.isSome = true

/-- `ds`: the functions deferred up to the first join. -/
structure R (ds : List Nat) (c : Book) (w : World) : Prop where
  over : c.over = false
  cnt : Cnt w
  allocs : w.mine.length = c.allocs
  futLen : w.futs.length = c.futs.length
  fut : ∀ i f g, w.futs[i]? = some f → c.futs[i]? = some g → FutOk c w i f g
  poolLen : w.pools.length = c.pools.length
  pool : ∀ k p q, w.pools[k]? = some p → c.pools[k]? = some q → PoolOk c k p q
  arena : w.arena = if w.pools.length = 0 then none else some (w.pools.length - 1)
  mineOld : ∀ k b, w.mine[k]? = some b → c.oldA k = true → b ∈ w.freed
  mineNew : ∀ k b, w.mine[k]? = some b → c.oldA k = false → Def.free b ∈ w.sc.defers
  thr : ThrOk c w ds
  bound : ∀ (i : Nat) (g : CF) (k : Nat), c.futs[i]? = some g → g.pool = some k → k < c.pools.length

theorem R.init : R [] .empty init := by
  refine ⟨rfl, ?_, rfl, rfl, ?_, rfl, ?_, rfl, ?_, ?_, ⟨?_, ?_, ?_, ?_⟩, by simp [Book.empty]⟩
  · intro b
    simp [So.init, World.own, Sc.own, Sc.fresh, freesOf, ind]
  · intro i f g h; simp [So.init] at h
  · intro i f g h; simp [So.init] at h
  · intro i f h; simp [So.init] at h
  · intro i f h; simp [So.init] at h
  · intro _; exact ⟨rfl, rfl, rfl, rfl⟩
  · intro m h; cases h
  · intro m h; cases h
  · intro h; cases h

theorem R.futOf {ds c w} (h : R ds c w) {i : Nat} {g : CF} (hg : c.futs[i]? = some g) : ∃ f, w.futs[i]? = some f ∧ FutOk c w i f g := by
  have : i < w.futs.length := by rw [h.futLen]; exact (List.getElem?_eq_some_iff.mp hg).1
  exact ⟨_, List.getElem?_eq_getElem this, h.fut i _ g (List.getElem?_eq_getElem this) hg⟩

theorem R.poolOf {ds c w} (h : R ds c w) {k : Nat} {q : CP} (hq : c.pools[k]? = some q) : ∃ p, w.pools[k]? = some p ∧ PoolOk c k p q := by
  have : k < w.pools.length := by rw [h.poolLen]; exact (List.getElem?_eq_some_iff.mp hq).1
  exact ⟨_, List.getElem?_eq_getElem this, h.pool k _ q (List.getElem?_eq_getElem this) hq⟩

/-! ## Blocks that are not freed -/

theorem R.okDef {ds c w} (h : R ds c w) {b : Nat} (hd : Def.free b ∈ w.sc.defers) : b ∉ w.freed :=
  h.cnt.notFreed (Nat.le_trans (own_of_def hd) (own_sc w b))

theorem R.okPool {ds c w} (h : R ds c w) {k : Nat} {p : Pool} (hp : w.pools[k]? = some p) {b : Nat} (hb : 1 ≤ p.own b) : b ∉ w.freed :=
  h.cnt.notFreed (Nat.le_trans hb (own_pool hp b))

theorem R.okFut {ds c w} (h : R ds c w) {i : Nat} {f : Fut} (hf : w.futs[i]? = some f) {b : Nat} (hb : 1 ≤ f.own b) : b ∉ w.freed :=
  h.cnt.notFreed (Nat.le_trans hb (own_fut hf b))

theorem pool_def {p : Pool} (hd : p.dead = false) {b : Nat} (h : Def.free b ∈ p.sc.defers) : 1 ≤ p.own b := by
  have := own_of_def h
  unfold Pool.own
  rw [hd]; simp; omega

theorem pool_scope {p : Pool} (hd : p.dead = false) : 1 ≤ p.own p.scopeBlk := by
  unfold Pool.own
  rw [hd]; simp; omega

theorem pool_futArr {p : Pool} (hd : p.dead = false) {b : Nat} (h : b ∈ p.futArr.toList) : 1 ≤ p.own b := by
  have := List.one_le_count_iff.mpr h
  unfold Pool.own
  rw [hd]; simp; omega

theorem pool_resArr {p : Pool} (hd : p.dead = false) {b : Nat} (h : b ∈ p.resArr.toList) : 1 ≤ p.own b := by
  have := List.one_le_count_iff.mpr h
  unfold Pool.own
  rw [hd]; simp; omega

theorem fut_obj {f : Fut} (h : f.live = true) : 1 ≤ f.own f.obj := by unfold Fut.own; rw [h]; simp
theorem fut_farg {f : Fut} (h : f.pend = true) : 1 ≤ f.own f.farg := by unfold Fut.own; rw [h]; simp

/-! ## Changing the thread's scope -/

def Book.noted (c : Book) : Book := { c with late := c.late || c.mark.isSome }

theorem noted_of_late {c : Book} (h : c.late = true) : c.noted = c := by
  unfold Book.noted
  rw [h]
  cases c
  simp at h ⊢
  exact h

theorem noted_of_none {c : Book} (h : c.mark = none) : c.noted = c := by
  unfold Book.noted
  cases c
  simp at h ⊢
  simp [h]

/-- Blocks are taken into the thread's scope. -/
theorem R.ext {ds c w} (h : R ds c w) {s : Sc} {n : Nat} (hE : Ext w.sc w.next s n) (hs : s.store.isSome = true) :
    R ds c.noted { w with next := n, sc := s } := by
  refine ⟨h.over, ?_, h.allocs, h.futLen, ?_, h.poolLen, ?_, h.arena, h.mineOld, ?_, ⟨?_, ?_, ?_, ?_⟩, h.bound⟩
  · intro b
    have h1 := h.cnt b
    have h2 := hE.own b
    have h3 := ind_split (Nat.zero_le _) hE.le b
    unfold World.own at h1 ⊢
    dsimp only
    omega
  · intro i f g hf hg
    have H := h.fut i f g hf hg
    refine ⟨H.pool, H.pend, H.live, H.old, fun ho => ?_⟩
    obtain ⟨h1, h2⟩ := H.new ho
    exact ⟨hE.sub _ h1, fun he => ⟨hE.sub _ (h2 he).1, fun v hv => hE.sub _ ((h2 he).2 v hv)⟩⟩
  · intro k p q hk hq
    have H := h.pool k p q hk hq
    exact ⟨H.dead, H.nodup, H.mem, H.len, H.armed, H.self, H.hnds, H.fns⟩
  · intro k b hk ho
    exact hE.sub _ (h.mineNew k b hk ho)
  · intro hm
    obtain ⟨h1, h2, h3, h4⟩ := h.thr.open_ hm
    refine ⟨hE.armed.trans h1, h2, hE.fns.trans h3, ?_⟩
    show (c.late || c.mark.isSome) = false
    rw [h4, show c.mark = none from hm]; rfl
  · intro m hm
    obtain ⟨h1, h2, h3, h4⟩ := h.thr.closed m hm
    exact ⟨hE.armed.trans h1, h2, h3, h4⟩
  · intro m hm hl
    have : (c.late || c.mark.isSome) = false := hl
    rw [show c.mark = some m from hm] at this
    simp at this
  · intro _; exact hs

/-- A future is added to the book and the world, the spawn scopes may change. -/
theorem R.addFut {ds c w} (h : R ds c w) (f : Fut) (g : CF) (pools : List Pool) {n : Nat} (hn : w.next ≤ n)
    (ho : ∀ b, f.own b + (pools.map fun p => p.own b).sum = (w.pools.map fun p => p.own b).sum + ind w.next n b)
    (hp : f.pool = g.pool) (he : f.pend = !g.ended) (hl : f.live = !g.got) (hpr : Def.free f.prom ∈ w.sc.defers) (hge : g.ended = false)
    (hlate : c.mark.isSome = true → c.late = true) (hlen : pools.length = w.pools.length)
    (hb : ∀ k, g.pool = some k → k < c.pools.length)
    (hpool : ∀ k p q, pools[k]? = some p → c.pools[k]? = some q → PoolOk { c with futs := c.futs ++ [g] } k p q) :
    R ds { c with futs := c.futs ++ [g] } { w with next := n, futs := w.futs ++ [f], pools := pools } := by
  refine ⟨h.over, ?_, h.allocs, by simp [h.futLen], ?_, by simp [h.poolLen, hlen], hpool, by simp [hlen, h.arena], h.mineOld, h.mineNew,
    ⟨h.thr.open_, ?_, ?_, h.thr.noisy⟩, ?_⟩
  rotate_left 4
  · intro i g' k h1 h2
    have h1 : (c.futs ++ [g])[i]? = some g' := h1
    have := List.mem_of_getElem? h1
    rw [List.mem_append] at this
    rcases this with hm | hm
    · obtain ⟨j, hj⟩ := List.mem_iff_getElem?.mp hm
      exact h.bound j g' k hj h2
    · simp at hm
      subst hm
      exact hb k h2
  · intro b
    have h1 := h.cnt b
    have h2 := ho b
    have h3 := ind_split (Nat.zero_le _) hn b
    unfold World.own at h1 ⊢
    simp only [List.map_append, List.sum_append, List.map_cons, List.map_nil, List.sum_cons, List.sum_nil]
    omega
  · intro i f' g' hf hg
    simp only [List.getElem?_append, h.futLen] at hf hg
    by_cases hi : i < c.futs.length
    · rw [if_pos hi] at hf hg
      have H := h.fut i f' g' hf hg
      exact ⟨H.pool, H.pend, H.live, H.old, H.new⟩
    · rw [if_neg hi] at hf hg
      have h0 : i - c.futs.length = 0 := by
        have := (List.getElem?_eq_some_iff.mp hf).1
        simp at this; omega
      rw [h0] at hf hg
      simp at hf hg
      subst hf; subst hg
      refine ⟨hp, he, hl, ?_, fun _ => ⟨hpr, fun h => by rw [hge] at h; cases h⟩⟩
      intro hold
      exfalso
      unfold Book.oldF at hold
      cases hm : c.mark with
      | none => simp [hm] at hold
      | some m =>
        have := (h.thr.closed m hm).2.2.2
        simp [hm] at hold
        omega
  · intro m hm
    obtain ⟨h1, h2, h3, h4⟩ := h.thr.closed m hm
    exact ⟨h1, h2, h3, by show m.futs ≤ (c.futs ++ [g]).length; simp; omega⟩
  · intro m hm hl'
    have := hlate (by rw [show c.mark = some m from hm]; rfl)
    rw [show c.late = false from hl'] at this
    cases this

/-- What a new future does to the other spawn scopes. -/
theorem PoolOk.addFut {c : Book} {k : Nat} {p : Pool} {q : CP} (H : PoolOk c k p q) (g : CF) (hg : g.pool ≠ some k) :
    PoolOk { c with futs := c.futs ++ [g] } k p q := by
  refine ⟨H.dead, H.nodup, fun i => ?_, H.len, H.armed, H.self, H.hnds, H.fns⟩
  rw [H.mem]
  constructor
  · rintro ⟨g', h1, h2⟩
    refine ⟨g', ?_, h2⟩
    show (c.futs ++ [g])[i]? = _
    rw [List.getElem?_append_left (List.getElem?_eq_some_iff.mp h1).1]
    exact h1
  · rintro ⟨g', h1, h2⟩
    refine ⟨g', ?_, h2⟩
    have h1 : (c.futs ++ [g])[i]? = some g' := h1
    rw [List.getElem?_append] at h1
    by_cases hi : i < c.futs.length
    · rwa [if_pos hi] at h1
    · rw [if_neg hi] at h1
      have h0 : i - c.futs.length = 0 := by
        have := (List.getElem?_eq_some_iff.mp h1).1
        simp at this; omega
      rw [h0] at h1
      simp at h1
      subst h1
      exact absurd h2 hg

/-- A spawn scope is replaced. -/
theorem R.setPool {ds c w} (h : R ds c w) {k : Nat} {p : Pool} {q : CP} (hp : w.pools[k]? = some p) (hq : c.pools[k]? = some q) (p' : Pool) (q' : CP)
    (hok : PoolOk c k p' q') {n : Nat} {fr : List Nat} (hn : w.next ≤ n) (hfr : ∀ b ∈ w.freed, b ∈ fr)
    (ho : ∀ b, fr.count b + p'.own b = w.freed.count b + p.own b + ind w.next n b) :
    R ds { c with pools := c.pools.set k q' } { w with next := n, freed := fr, pools := w.pools.set k p' } := by
  refine ⟨h.over, ?_, h.allocs, h.futLen, ?_, by simp [h.poolLen], ?_, ?_, fun k b hk ho => hfr _ (h.mineOld k b hk ho), h.mineNew,
    ⟨h.thr.open_, h.thr.closed, h.thr.quiet, h.thr.noisy⟩, fun i g k h1 h2 => by simpa using h.bound i g k h1 h2⟩
  · intro b
    have h1 := h.cnt b
    have h2 := ho b
    have h3 := ind_split (Nat.zero_le _) hn b
    have h4 := sum_set (fun p : Pool => p.own b) w.pools k p p' hp
    unfold World.own at h1 ⊢
    dsimp only at h4 ⊢
    omega
  · intro i f g hf hg
    have H := h.fut i f g hf hg
    exact ⟨H.pool, H.pend, H.live, fun ho => hfr _ (H.old ho), H.new⟩
  · intro j p1 q1 h1 h2
    by_cases hj : k = j
    · subst hj
      have h1 : (w.pools.set k p')[k]? = some p1 := h1
      have h2 : (c.pools.set k q')[k]? = some q1 := h2
      rw [List.getElem?_set_self (List.getElem?_eq_some_iff.mp hp).1] at h1
      rw [List.getElem?_set_self (List.getElem?_eq_some_iff.mp hq).1] at h2
      cases h1; cases h2
      exact ⟨hok.dead, hok.nodup, hok.mem, hok.len, hok.armed, hok.self, hok.hnds, hok.fns⟩
    · have h1 : (w.pools.set k p')[j]? = some p1 := h1
      have h2 : (c.pools.set k q')[j]? = some q1 := h2
      rw [List.getElem?_set_ne hj] at h1 h2
      have H := h.pool j p1 q1 h1 h2
      exact ⟨H.dead, H.nodup, H.mem, H.len, H.armed, H.self, H.hnds, H.fns⟩
  · show w.arena = _
    rw [h.arena]
    simp

theorem set_self {α : Type} {l : List α} {k : Nat} {a : α} (h : l[k]? = some a) : l.set k a = l := by
  obtain ⟨hk, e⟩ := List.getElem?_eq_some_iff.mp h
  rw [← e]
  exact List.set_getElem_self hk

/-- A future is replaced. -/
theorem R.setFut {ds c w} (h : R ds c w) {i : Nat} {f : Fut} {g : CF} (hf : w.futs[i]? = some f) (hg : c.futs[i]? = some g) (f' : Fut) (g' : CF)
    (hok : FutOk c w i f' g') (hpool : g'.pool = g.pool) {fr : List Nat} (hfr : ∀ b ∈ w.freed, b ∈ fr)
    (ho : ∀ b, fr.count b + f'.own b = w.freed.count b + f.own b) :
    R ds { c with futs := c.futs.set i g' } { w with freed := fr, futs := w.futs.set i f' } := by
  refine ⟨h.over, ?_, h.allocs, by simp [h.futLen], ?_, h.poolLen, ?_, h.arena, fun k b hk ho => hfr _ (h.mineOld k b hk ho), h.mineNew,
    ⟨h.thr.open_, ?_, ?_, h.thr.noisy⟩, ?_⟩
  rotate_left 5
  · intro j g1 k h1 h2
    have h1 : (c.futs.set i g')[j]? = some g1 := h1
    by_cases hj : i = j
    · subst hj
      rw [List.getElem?_set_self (List.getElem?_eq_some_iff.mp hg).1] at h1
      cases h1
      exact h.bound i g k hg (by rw [← hpool]; exact h2)
    · rw [List.getElem?_set_ne hj] at h1
      exact h.bound j g1 k h1 h2
  · intro b
    have h1 := h.cnt b
    have h2 := ho b
    have h4 := sum_set (fun p : Fut => p.own b) w.futs i f f' hf
    unfold World.own at h1 ⊢
    dsimp only at h4 ⊢
    omega
  · intro j f1 g1 h1 h2
    by_cases hj : i = j
    · subst hj
      have h1 : (w.futs.set i f')[i]? = some f1 := h1
      have h2 : (c.futs.set i g')[i]? = some g1 := h2
      rw [List.getElem?_set_self (List.getElem?_eq_some_iff.mp hf).1] at h1
      rw [List.getElem?_set_self (List.getElem?_eq_some_iff.mp hg).1] at h2
      cases h1; cases h2
      exact ⟨hok.pool, hok.pend, hok.live, fun ho => hfr _ (hok.old ho), hok.new⟩
    · have h1 : (w.futs.set i f')[j]? = some f1 := h1
      have h2 : (c.futs.set i g')[j]? = some g1 := h2
      rw [List.getElem?_set_ne hj] at h1 h2
      have H := h.fut j f1 g1 h1 h2
      exact ⟨H.pool, H.pend, H.live, fun ho => hfr _ (H.old ho), H.new⟩
  · intro k p q hk hq
    have H := h.pool k p q hk hq
    refine ⟨H.dead, H.nodup, fun j => ?_, H.len, H.armed, H.self, H.hnds, H.fns⟩
    rw [H.mem]
    show _ ↔ ∃ g, (c.futs.set i g')[j]? = some g ∧ _
    by_cases hj : i = j
    · subst hj
      rw [List.getElem?_set_self (List.getElem?_eq_some_iff.mp hg).1, hg]
      constructor
      · rintro ⟨x, e, hx⟩; cases e; exact ⟨g', rfl, by rw [hpool]; exact hx⟩
      · rintro ⟨x, e, hx⟩; cases e; exact ⟨g, rfl, by rw [← hpool]; exact hx⟩
    · rw [List.getElem?_set_ne hj]
  · intro m hm
    obtain ⟨h1, h2, h3, h4⟩ := h.thr.closed m hm
    exact ⟨h1, h2, h3, by show m.futs ≤ (c.futs.set i g').length; simp; omega⟩
  · intro m hm hl
    have := h.thr.quiet m hm hl
    exact ⟨this.1, by show (c.futs.set i g').length = _; simp; exact this.2⟩

end Verif.So
