import Verif.Proof.SpawnScope4
/-! Helpers for C69: joining, destroying, whole histories. -/
namespace Verif.So

theorem copied_eq (w : World) (sc : Sc) (o : Option Nat) (ho : ∀ b ∈ o, b ∉ w.freed) :
    ∃ ext sc' n', w.copied sc o = some (ext, sc', { w with next := n' }) ∧ Ext sc w.next sc' n' ∧ ∀ x ∈ ext, Def.free x ∈ sc'.defers := by
  cases o with
  | none => exact ⟨none, sc, w.next, rfl, Ext.refl _ _, by simp⟩
  | some v =>
    obtain ⟨-, hE, hm, -⟩ := alloc_ext sc w.next
    refine ⟨_, _, _, by simp only [World.copied, World.touch, if_neg (ho v rfl)]; rfl, hE, ?_⟩
    intro x hx
    cases hx
    exact hm

theorem R.syncOneOld {ds c w} (h : R ds c w) {k n i : Nat} {g : CF} (hg : c.futs[i]? = some g) (ho : c.oldF i = true) :
    w.syncOne k n i = none := by
  obtain ⟨f, hf, F⟩ := h.futOf hg
  unfold World.syncOne
  rw [hf]
  cases w.pools[k]? with
  | none => rfl
  | some p =>
    dsimp only
    cases p.hnds[n]? with
    | none => rfl
    | some x =>
      dsimp only
      rw [touchAll_none _ w f.prom (by simp) (F.old ho)]
      rfl

theorem R.syncOne {ds c w} (h : R ds c w) {k n i : Nat} {g : CF} {p : Pool} {q : CP} {hn : Hnd} (hp : w.pools[k]? = some p) (hq : c.pools[k]? = some q)
    (hd : p.dead = false) (hh : p.hnds[n]? = some hn) (hg : c.futs[i]? = some g) (hge : g.ended = true) (hgg : g.got = false) (ho : c.oldF i = false) :
    ∃ w' p', w.syncOne k n i = some w' ∧ R ds { c with futs := c.futs.set i { g with got := true } } w' ∧ w'.pools[k]? = some p' ∧
      p'.fids = p.fids ∧ p'.dead = p.dead ∧ p'.hnds.length = p.hnds.length := by
  obtain ⟨f, hf, F⟩ := h.futOf hg
  have H := h.pool k p q hp hq
  have hpend : f.pend = false := by rw [F.pend, hge]; rfl
  have hlive : f.live = true := by rw [F.live, hgg]; rfl
  obtain ⟨hpr, hbx⟩ := F.new ho
  obtain ⟨hbox, hval⟩ := hbx hge
  have hobj := h.okFut hf (fut_obj hlive)
  have hH := H.hnds hd hn (List.mem_of_getElem? hh)
  unfold World.syncOne
  rw [hp, hf]
  dsimp only
  rw [hh]
  dsimp only
  rw [touchAll_eq _ w (by
    intro b hb
    simp only [List.cons_append, List.nil_append, List.mem_cons, List.mem_append, List.not_mem_nil, or_false] at hb
    rcases hb with rfl | rfl | (hb | hb) | rfl | rfl | rfl | rfl
    · exact h.okPool hp (pool_def hd (H.self hd))
    · exact h.okPool hp (pool_scope hd)
    · exact h.okPool hp (pool_futArr hd hb)
    · exact h.okPool hp (pool_resArr hd hb)
    · exact hobj
    · exact h.okDef hpr
    · exact h.okDef hbox
    · exact h.okPool hp (pool_def hd hH.hdl)), Option.bind_some]
  obtain ⟨er, hE, hm, -⟩ := alloc_ext p.sc w.next
  generalize p.sc.alloc w.next = r at *
  obtain ⟨ext, sc', n', ec, hE2, hext⟩ := copied_eq { w with next := r.2.1 } r.2.2 f.val (fun b hb => h.okDef (hval b hb))
  rw [ec]
  dsimp only [Option.bind_some]
  have hE3 := hE.trans hE2
  rw [free_eq ({ w with next := n', pools := w.pools.set k { p with sc := sc', hnds := p.hnds.set n { hn with box := some r.1, ext := ext } } } : World)
    f.obj hobj]
  have K := h.setPool hp hq { p with sc := sc', hnds := p.hnds.set n { hn with box := some r.1, ext := ext } } q
    ⟨H.dead, H.nodup, H.mem, by simp [H.len], fun _ => hE3.armed.trans (H.armed hd), fun _ => hE3.sub _ (H.self hd), (by
      intro _ x hx
      rcases List.mem_or_eq_of_mem_set hx with hx | rfl
      · have := H.hnds hd x hx
        exact ⟨hE3.sub _ this.1, fun b hb => hE3.sub _ (this.2 b hb), fun b hb => hE3.sub _ (this.3 b hb)⟩
      · refine ⟨hE3.sub _ hH.hdl, ?_, hext⟩
        intro b hb
        cases hb
        rw [er]
        exact hE2.sub _ hm), hE3.fns.trans H.fns⟩
    (n := n') (fr := w.freed) hE3.le (fun b hb => hb)
    (by
      intro b
      have := hE3.own b
      simp only [Pool.own, hd, Bool.false_eq_true, if_false]
      omega)
  rw [set_self hq] at K
  have key := K.setFut (i := i) (f := f) (g := g) hf hg { f with live := false } { g with got := true }
    ⟨F.pool, F.pend, rfl, F.old, F.new⟩ rfl (fr := w.freed ++ [f.obj]) (fun b hb => by simp [show b ∈ w.freed from hb])
    (by
      intro b
      simp only [Fut.own, hpend, hlive, List.count_append]
      simp)
  refine ⟨_, _, rfl, key, List.getElem?_set_self (List.getElem?_eq_some_iff.mp hp).1, rfl, rfl, by simp⟩

/-- The futures `L` are marked as fetched. -/
def gotAll (fs : List CF) : List Nat → List CF
  | [] => fs
  | i :: r => gotAll (fs.modify i fun f => { f with got := true }) r

theorem gotAll_get : ∀ (L : List Nat) (fs : List CF) (j : Nat), (gotAll fs L)[j]? = (fs[j]?).map fun f => if j ∈ L then { f with got := true } else f
  | [], fs, j => by simp [gotAll]
  | i :: L, fs, j => by
    rw [gotAll, gotAll_get, List.getElem?_modify]
    cases fs[j]? with
    | none => rfl
    | some f =>
      by_cases hij : i = j <;> by_cases hj : j ∈ L <;> simp [hij, hj]
      intro e; exact absurd e.symm hij

theorem R.syncAll {ds : List Nat} {k : Nat} {q : CP} : ∀ (L : List Nat) (n : Nat) (c : Book) (w : World) (p : Pool), R ds c w → w.pools[k]? = some p →
    c.pools[k]? = some q → p.dead = false → n + L.length ≤ p.hnds.length → L.Nodup →
    (∀ i ∈ L, ∃ g, c.futs[i]? = some g ∧ g.ended = true ∧ g.got = false) →
    ((∃ i ∈ L, c.oldF i = true) → w.syncAll k n L = none) ∧
    ((∀ i ∈ L, c.oldF i = false) → ∃ w', w.syncAll k n L = some w' ∧ R ds { c with futs := gotAll c.futs L } w')
  | [], n, c, w, p, h, _, _, _, _, _, _ => ⟨by rintro ⟨_, h, _⟩; simp at h, fun _ => ⟨w, rfl, h⟩⟩
  | i :: L, n, c, w, p, h, hp, hq, hd, hlen, hnd, hL => by
    obtain ⟨g, hg, hge, hgg⟩ := hL i (by simp)
    rw [World.syncAll]
    cases ho : c.oldF i with
    | true =>
      rw [h.syncOneOld hg ho]
      exact ⟨fun _ => rfl, fun hx => by have := hx i (by simp); rw [ho] at this; cases this⟩
    | false =>
      have hn : n < p.hnds.length := by simp at hlen; omega
      obtain ⟨w', p', e1, h1, hp', ef, ed, el⟩ := h.syncOne hp hq hd (List.getElem?_eq_getElem hn) hg hge hgg ho
      rw [e1, Option.bind_some]
      obtain ⟨hni, hnd⟩ := List.nodup_cons.mp hnd
      have IH := R.syncAll L (n + 1) _ w' p' h1 hp' hq (by rw [ed]; exact hd) (by simp at hlen; omega) hnd (by
        intro j hj
        obtain ⟨g', h1, h2⟩ := hL j (by simp [hj])
        refine ⟨g', ?_, h2⟩
        show (c.futs.set i _)[j]? = _
        rw [List.getElem?_set_ne (by rintro rfl; exact hni hj)]
        exact h1)
      constructor
      · rintro ⟨j, hj, hjo⟩
        rcases List.mem_cons.mp hj with rfl | hj
        · rw [ho] at hjo; cases hjo
        · exact IH.1 ⟨j, hj, hjo⟩
      · intro hx
        obtain ⟨w2, e2, h2⟩ := IH.2 (fun j hj => hx j (by simp [hj]))
        refine ⟨w2, e2, ?_⟩
        rw [gotAll, modify_set _ hg]
        exact h2

/-- Whether a scope was joined matters to the book only. -/
theorem R.synced {ds c w} (h : R ds c w) (k : Nat) : R ds { c with pools := c.pools.modify k fun p => { p with synced := true } } w := by
  refine ⟨h.over, h.cnt, h.allocs, h.futLen, ?_, by simp [h.poolLen], ?_, h.arena, h.mineOld, h.mineNew, ⟨h.thr.open_, h.thr.closed, h.thr.quiet, h.thr.noisy⟩,
    fun i g k h1 h2 => by simpa using h.bound i g k h1 h2⟩
  · intro i f g hf hg
    have H := h.fut i f g hf hg
    exact ⟨H.pool, H.pend, H.live, H.old, H.new⟩
  · intro j p q hp hq
    have hq : (c.pools.modify k fun p => { p with synced := true })[j]? = some q := hq
    rw [List.getElem?_modify] at hq
    obtain ⟨q0, h1, h2⟩ := Option.map_eq_some_iff.mp hq
    have H := h.pool j p q0 hp h1
    have e : q.dead = q0.dead := by
      by_cases hj : k = j
      · simp [hj] at h2; rw [← h2]
      · simp [hj] at h2; rw [h2]
    exact ⟨H.dead.trans e.symm, H.nodup, H.mem, H.len, H.armed, H.self, H.hnds, H.fns⟩

/-- A function of a spawn scope that was not joined has not been fetched. -/
def BookOk (c : Book) : Prop := ∀ (i k : Nat) (g : CF) (q : CP), c.futs[i]? = some g → g.pool = some k → c.pools[k]? = some q → q.synced = false → g.got = false

theorem R.sync {ds c w} (h : R ds c w) (hB : BookOk c) (cpus k : Nat) (ha : c.allows (.sync k) = true) :
    (c.stale (.sync k) = true → step cpus w (.sync k) = none) ∧
    (c.stale (.sync k) = false → ∃ w', step cpus w (.sync k) = some w' ∧ R ds (c.after (.sync k)) w') := by
  unfold Book.allows at ha
  simp only [Bool.and_eq_true] at ha
  obtain ⟨⟨_, ha⟩, hend⟩ := ha
  rw [Option.any_eq_true] at ha
  obtain ⟨q, hq, hqs⟩ := ha
  simp only [Bool.and_eq_true, Bool.not_eq_true'] at hqs
  obtain ⟨p, hp, H⟩ := h.poolOf hq
  have hd : p.dead = false := by rw [H.dead]; exact hqs.2
  have hends : ∀ (i : Nat) (g : CF), c.futs[i]? = some g → g.pool = some k → g.ended = true := by
    intro i g hg hk
    unfold Book.members at hend
    rw [List.all_eq_true] at hend
    exact hend g (by rw [List.mem_filter]; exact ⟨List.mem_of_getElem? hg, by simp [hk]⟩)
  have hL : ∀ i ∈ p.fids, ∃ g, c.futs[i]? = some g ∧ g.ended = true ∧ g.got = false := by
    intro i hi
    obtain ⟨g, hg, hk⟩ := (H.mem i).mp hi
    exact ⟨g, hg, hends i g hg hk, hB i k g q hg hk hq hqs.1⟩
  have hpend : p.fids.any (fun i => (w.futs[i]?).any fun f => f.pend) = false := by
    rw [List.any_eq_false]
    intro i hi
    obtain ⟨g, hg, hge, _⟩ := hL i hi
    obtain ⟨f, hf, F⟩ := h.futOf hg
    rw [hf]
    simp [F.pend, hge]
  have hst : c.stale (.sync k) = true ↔ ∃ i ∈ p.fids, c.oldF i = true := by
    show c.futs.zipIdx.any (fun p => p.1.pool == some k && c.oldF p.2) = true ↔ _
    rw [List.any_eq_true]
    constructor
    · rintro ⟨⟨g, i⟩, h1, h2⟩
      simp at h2
      rw [List.mem_zipIdx_iff_getElem?] at h1
      exact ⟨i, (H.mem i).mpr ⟨g, h1, h2.1⟩, h2.2⟩
    · rintro ⟨i, h1, h2⟩
      obtain ⟨g, h3, h4⟩ := (H.mem i).mp h1
      exact ⟨⟨g, i⟩, by rw [List.mem_zipIdx_iff_getElem?]; exact h3, by simp [h4, h2]⟩
  have S := R.syncAll p.fids 0 c w p h hp hq hd (by rw [H.len]; omega) H.nodup hL
  show (_ → w.sync k = none) ∧ (_ → ∃ w', w.sync k = some w' ∧ _)
  unfold World.sync
  rw [hp]
  dsimp only
  rw [touchAll_eq [p.self] w (by intro b hb; simp at hb; subst hb; exact h.okPool hp (pool_def hd (H.self hd))), Option.bind_some, hpend]
  simp only [Bool.false_eq_true, if_false]
  constructor
  · intro hs
    rw [S.1 (hst.mp hs)]
    rfl
  · intro hs
    have hno : ∀ i ∈ p.fids, c.oldF i = false := by
      intro i hi
      cases ho : c.oldF i with
      | false => rfl
      | true => rw [hst.mpr ⟨i, hi, ho⟩] at hs; cases hs
    obtain ⟨w1, e1, h1⟩ := S.2 hno
    obtain ⟨w2, e2, h2⟩ := h1.clean
    rw [e1, Option.bind_some]
    refine ⟨w2, e2, ?_⟩
    have h3 := h2.synced k
    have e : gotAll c.futs p.fids = c.futs.map fun f => if f.pool == some k then { f with got := true } else f := by
      apply List.ext_getElem?
      intro j
      rw [gotAll_get, List.getElem?_map]
      cases hj : c.futs[j]? with
      | none => rfl
      | some f =>
        simp only [Option.map_some, H.mem, hj, Option.some.injEq, exists_eq_left', beq_iff_eq]
    rw [e] at h3
    simp only [List.length_map] at h3
    exact h3

theorem R.result {ds c w} (h : R ds c w) (cpus k i : Nat) (ha : c.allows (.result k i) = true) :
    ∃ w', step cpus w (.result k i) = some w' ∧ R ds (c.after (.result k i)) w' := by
  unfold Book.allows at ha
  simp only [Bool.and_eq_true] at ha
  obtain ⟨⟨_, ha⟩, _⟩ := ha
  rw [Option.any_eq_true] at ha
  obtain ⟨q, hq, hqs⟩ := ha
  simp only [Bool.and_eq_true, Bool.not_eq_true'] at hqs
  obtain ⟨p, hp, H⟩ := h.poolOf hq
  have hd : p.dead = false := by rw [H.dead]; exact hqs.2
  show ∃ w', w.result k i = some w' ∧ R ds c w'
  unfold World.result
  rw [hp, Option.bind_some]
  cases hh : p.hnds[i]? with
  | none => exact ⟨w, rfl, h⟩
  | some x =>
    have hH := H.hnds hd x (List.mem_of_getElem? hh)
    dsimp only
    refine ⟨w, touchAll_eq _ w ?_, h⟩
    intro b hb
    simp only [List.cons_append, List.nil_append, List.mem_cons, List.mem_append, Option.mem_toList] at hb
    rcases hb with rfl | hb | hb
    · exact h.okPool hp (pool_def hd hH.hdl)
    · exact h.okPool hp (pool_def hd (hH.box b hb))
    · exact h.okPool hp (pool_def hd (hH.ext b hb))

theorem R.destroy {ds c w} (h : R ds c w) (cpus k : Nat) (ha : c.allows (.destroy k) = true) :
    ∃ w', step cpus w (.destroy k) = some w' ∧ R ds (c.after (.destroy k)) w' := by
  unfold Book.allows at ha
  simp only [Bool.and_eq_true] at ha
  obtain ⟨_, ha⟩ := ha
  rw [Option.any_eq_true] at ha
  obtain ⟨q, hq, hqs⟩ := ha
  simp only [Bool.and_eq_true, Bool.not_eq_true'] at hqs
  obtain ⟨p, hp, H⟩ := h.poolOf hq
  have hd : p.dead = false := by rw [H.dead]; exact hqs.1
  have harm := H.armed hd
  have hc : ∀ b, w.freed.count b + ([p.scopeBlk].count b + p.futArr.toList.count b + p.resArr.toList.count b + p.sc.own b) ≤ 1 := by
    intro b
    have h1 := h.cnt b
    have h2 := own_pool hp b
    unfold Pool.own at h2
    rw [hd] at h2
    simp only [Bool.false_eq_true, if_false] at h2
    unfold ind at h1
    split at h1 <;> omega
  show ∃ w', w.destroy k = some w' ∧ _
  unfold World.destroy
  rw [hp]
  dsimp only
  rw [touchAll_eq _ w (by
    intro b hb
    simp at hb
    rcases hb with rfl | rfl
    · exact h.okPool hp (pool_def hd (H.self hd))
    · exact h.okPool hp (pool_scope hd)), Option.bind_some]
  rw [free?_eq w p.futArr (fun b hb => h.okPool hp (pool_futArr hd (by simpa using hb))), Option.bind_some]
  rw [free?_eq _ p.resArr (by
    intro b hb hm
    have h1 := hc b
    have h2 := List.one_le_count_iff.mpr hm
    have h3 : 1 ≤ p.resArr.toList.count b := List.one_le_count_iff.mpr (by simpa using hb)
    simp only [List.count_append] at h2
    omega), Option.bind_some]
  rw [release_eq _ p.sc (by
    intro b
    have h1 := hc b
    simp only [List.count_append]
    omega), Option.bind_some, harm, if_pos rfl, H.fns]
  rw [free_eq _ p.scopeBlk (by
    intro hm
    have h1 := hc p.scopeBlk
    have h2 := List.one_le_count_iff.mpr hm
    simp only [List.count_append, out_count harm, cnt1, if_true] at h1 h2
    omega)]
  refine ⟨_, rfl, ?_⟩
  have key := h.setPool hp hq { p with dead := true, sc := p.sc.released } { q with dead := true }
    ⟨rfl, H.nodup, H.mem, H.len, fun hx => by simp at hx, fun hx => by simp at hx, fun hx => by simp at hx, by simp [Sc.released, harm, fnsOf]⟩
    (n := w.next) (fr := w.freed ++ p.futArr.toList ++ p.resArr.toList ++ p.sc.out ++ [p.scopeBlk]) (Nat.le_refl _) (fun b hb => by simp [hb])
    (by
      intro b
      simp only [Pool.own, hd, if_true, Bool.false_eq_true, if_false, List.count_append, out_count harm]
      unfold ind
      split <;> omega)
  show R ds { c with pools := c.pools.modify k fun p => { p with dead := true } } _
  rw [modify_set _ hq]
  simp only [List.reverse_nil, List.append_nil]
  exact key

/-- The thread ends. -/
theorem R.done {ds c w} (h : R ds c w) (cpus : Nat) (ha : c.allows .done = true) :
    ∃ w', step cpus w .done = some w' ∧ w'.ran = ds.reverse ∧ (c.late = false → ∀ b < w'.next, w'.freed.count b = 1) ∧
      (c.late = true → ∃ b < w'.next, w'.freed.count b = 0) := by
  unfold Book.allows at ha
  simp only [Bool.and_eq_true, List.all_eq_true] at ha
  obtain ⟨⟨_, hf⟩, hp⟩ := ha
  obtain ⟨w', e, h1⟩ := h.clean
  refine ⟨w', e, ?_⟩
  obtain ⟨m, hm⟩ : ∃ m, c.mark.or (some ⟨c.allocs, c.futs.length⟩) = some m := by
    cases c.mark <;> simp
  have hran := (h1.thr.closed m hm).2.1
  have hown : ∀ b, w'.own b = w'.sc.own b := by
    intro b
    have z1 : (w'.futs.map fun f => f.own b).sum = 0 := by
      rw [List.sum_eq_zero_iff_forall_eq_nat]
      intro x hx
      obtain ⟨f, hfm, rfl⟩ := List.mem_map.mp hx
      obtain ⟨i, hi⟩ := List.mem_iff_getElem?.mp hfm
      have hl : i < c.futs.length := by
        have := (List.getElem?_eq_some_iff.mp hi).1
        have e := h1.futLen
        dsimp only at e
        omega
      have F := h1.fut i f _ hi (List.getElem?_eq_getElem hl)
      have := hf c.futs[i] (List.getElem_mem hl)
      have e1 : f.pend = false := by rw [F.pend]; simp [this.1]
      have e2 : f.live = false := by rw [F.live]; simp [this.2]
      simp [Fut.own, e1, e2]
    have z2 : (w'.pools.map fun f => f.own b).sum = 0 := by
      rw [List.sum_eq_zero_iff_forall_eq_nat]
      intro x hx
      obtain ⟨f, hfm, rfl⟩ := List.mem_map.mp hx
      obtain ⟨i, hi⟩ := List.mem_iff_getElem?.mp hfm
      have hl : i < c.pools.length := by
        have := (List.getElem?_eq_some_iff.mp hi).1
        have e := h1.poolLen
        dsimp only at e
        omega
      have F := h1.pool i f _ hi (List.getElem?_eq_getElem hl)
      have := hp c.pools[i] (List.getElem_mem hl)
      have e1 : f.dead = true := by rw [F.dead]; exact this
      simp [Pool.own, e1]
    unfold World.own
    omega
  refine ⟨hran, ?_, ?_⟩
  · intro hl b hb
    have h2 := (h1.thr.quiet m hm hl).1
    have h3 := h1.cnt b
    rw [hown, h2] at h3
    have h4 : ind 0 w'.next b = 1 := by unfold ind; rw [if_pos ⟨Nat.zero_le _, hb⟩]
    rw [h4] at h3
    simpa [Sc.own, freesOf] using h3
  · intro hl
    have h2 := h1.thr.noisy hl
    obtain ⟨b, hb⟩ := Option.isSome_iff_exists.mp h2
    have h3 : 1 ≤ w'.own b := by
      rw [hown]
      unfold Sc.own
      rw [hb]
      simp
    refine ⟨b, h1.cnt.lt h3, ?_⟩
    rw [List.count_eq_zero]
    exact h1.cnt.notFreed h3

end Verif.So
