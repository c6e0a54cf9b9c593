import Verif.Spec.SigAsync
/-! Proofs about signals at any moment. -/
namespace Verif.Sa

/-! ## Arrivals and delivery -/

theorem deliverable_none {w : World} {st : St} (h : deliverable w st = none) : ∀ s ∈ st.pend, st.mask s = true := by
  intro s hs
  unfold deliverable at h
  dsimp only at h
  cases hm : st.mask s with
  | true => rfl
  | false =>
    have : s ∈ st.pend.filter fun s => !st.mask s := List.mem_filter.mpr ⟨hs, by simp [hm]⟩
    have hl := List.length_pos_of_mem this
    rw [List.getElem?_eq_none_iff] at h
    have := Nat.mod_lt (w.pick (st.pend.filter fun s => !st.mask s)) hl
    omega

theorem deliverable_some {w : World} {st : St} {s : Nat} (h : deliverable w st = some s) : s ∈ st.pend ∧ st.mask s = false := by
  have := List.mem_of_getElem? h
  have := List.mem_filter.mp this
  exact ⟨this.1, by simpa using this.2⟩

/-- The rest of the state. -/
structure Same (st st' : St) : Prop where
  ctxs : st'.ctxs = st.ctxs
  cur : st'.cur = st.cur
  fresh : st'.fresh = st.fresh

theorem Same.trans {a b c : St} (h : Same a b) (h' : Same b c) : Same a c :=
  ⟨h'.ctxs.trans h.ctxs, h'.cur.trans h.cur, h'.fresh.trans h.fresh⟩

/-- What holds of every trace. -/
structure T (w : World) (M : Nat → Bool) (tr : List Ev) : Prop where
  acts : w.saves = true → Masked M tr
  clash : clash w.name tr = false
  wrong : wrong w.name tr = false
  lost : Quiet w → w.saves = true → lost w.name tr = []

/-- What holds at every moment, with `f` in flight. -/
structure I (w : World) (M : Nat → Bool) (f : Option Nat) (st : St) : Prop where
  tr : T w M st.trace
  fl : inFlight w.name st.trace = f
  owed : ∀ s, owed s st.trace = decide (s ∈ st.pend)
  bufM : w.saves = true → ∀ c m, (st.ctxs c).buf = some m → m = M
  cur : st.cur < st.fresh
  next : ∀ c, c < st.fresh → (st.ctxs c).next < st.fresh
  quiet : Quiet w → w.saves = true → ∀ s ∈ st.pend, M s = true

/-- Contexts in use can be jumped to. -/
def B (st : St) : Prop := ∀ c, 0 < c → c < st.fresh → (st.ctxs c).buf ≠ none

/-- The same without what is said about quiet worlds' pending signals. -/
structure I0 (w : World) (M : Nat → Bool) (f : Option Nat) (st : St) : Prop where
  tr : T w M st.trace
  fl : inFlight w.name st.trace = f
  owed : ∀ s, Sa.owed s st.trace = decide (s ∈ st.pend)
  bufM : w.saves = true → ∀ c m, (st.ctxs c).buf = some m → m = M
  cur : st.cur < st.fresh
  next : ∀ c, c < st.fresh → (st.ctxs c).next < st.fresh

theorem I.weak {w : World} {M : Nat → Bool} {f : Option Nat} {st : St} (h : I w M f st) : I0 w M f st :=
  ⟨h.tr, h.fl, h.owed, h.bufM, h.cur, h.next⟩

theorem T.arrived {w : World} {M : Nat → Bool} {tr : List Ev} (h : T w M tr) (s : Nat) : T w M (.arrived s :: tr) :=
  ⟨fun hs n m hm => h.acts hs n m (by simpa using hm), h.clash, h.wrong, h.lost⟩

theorem arrive_I0 {w : World} {M : Nat → Bool} {f : Option Nat} {st : St} (h : I0 w M f st) (s : Nat) : I0 w M f (st.arrive s) := by
  refine ⟨h.tr.arrived s, h.fl, fun t => ?_, h.bufM, h.cur, h.next⟩
  show (s == t || Sa.owed t st.trace) = decide (t ∈ (if s ∈ st.pend then st.pend else st.pend ++ [s]))
  rw [h.owed]
  by_cases e : s = t
  · subst e
    by_cases hs : s ∈ st.pend <;> simp [hs]
  · have e' : t ≠ s := fun x => e x.symm
    split <;> simp [e, e']

theorem fold_I0 {w : World} {M : Nat → Bool} {f : Option Nat} : ∀ (l : List Nat) {st : St}, I0 w M f st → I0 w M f (l.foldl St.arrive st)
  | [], _, h => h
  | s :: l, _, h => fold_I0 l (arrive_I0 h s)

theorem fold_same : ∀ (l : List Nat) (st : St), Same st (l.foldl St.arrive st) ∧ (l.foldl St.arrive st).mask = st.mask ∧
    (l.foldl St.arrive st).tick = st.tick
  | [], _ => ⟨⟨rfl, rfl, rfl⟩, rfl, rfl⟩
  | s :: l, st => by
    obtain ⟨h1, h2, h3⟩ := fold_same l (st.arrive s)
    exact ⟨Same.trans (b := st.arrive s) ⟨rfl, rfl, rfl⟩ h1, h2, h3⟩

theorem arrivals_I0 {w : World} {M : Nat → Bool} {f : Option Nat} {st : St} {p : Place} (h : I0 w M f st) : I0 w M f (arrivals w p st) := by
  have := fold_I0 (w.arrivals p st.tick) h
  exact ⟨this.tr, this.fl, this.owed, this.bufM, this.cur, this.next⟩

theorem arrivals_same (w : World) (p : Place) (st : St) : Same st (arrivals w p st) ∧ (arrivals w p st).mask = st.mask := by
  obtain ⟨h1, h2, _⟩ := fold_same (w.arrivals p st.tick) st
  exact ⟨⟨h1.ctxs, h1.cur, h1.fresh⟩, h2⟩

theorem arrivals_none {w : World} {p : Place} {st : St} (h : w.arrivals p st.tick = []) : (arrivals w p st).pend = st.pend := by
  unfold arrivals
  rw [h]
  rfl

/-- What may be pending after signals arrived one at a time. -/
theorem arrivals_one {w : World} (q : Quiet w) {p : Place} {st : St} : ∃ s, ∀ t ∈ (arrivals w p st).pend, t ∈ st.pend ∨ t = s := by
  have key : ∀ l : List Nat, l.length ≤ 1 → ∃ s, ∀ t ∈ (l.foldl St.arrive st).pend, t ∈ st.pend ∨ t = s := by
    intro l hl
    match l with
    | [] => exact ⟨0, fun t ht => .inl ht⟩
    | [s] =>
      refine ⟨s, fun t ht => ?_⟩
      change t ∈ (if s ∈ st.pend then st.pend else st.pend ++ [s]) at ht
      split at ht
      · exact .inl ht
      · simpa using ht
    | _ :: _ :: _ => simp at hl
  refine key (w.arrivals p st.tick) ?_
  by_cases hp : p = .user
  · subst hp; exact q.single _
  · rw [q.place p _ hp]; simp

theorem enter_I0 {w : World} {M : Nat → Bool} {f : Option Nat} {st : St} {s : Nat} (h : I0 w M f st)
    (hl : Quiet w → w.saves = true → f = none) : I0 w M (some (w.name s)) (st.enterHandler s) := by
  refine ⟨⟨fun hs n m hm => h.tr.acts hs n m (by simpa [St.enterHandler] using hm), h.tr.clash, h.tr.wrong, fun q hs => ?_⟩, rfl, fun t => ?_, h.bufM, h.cur, h.next⟩
  · show (inFlight w.name st.trace).toList ++ Sa.lost w.name st.trace = []
    rw [h.fl, hl q hs, h.tr.lost q hs]; rfl
  · show (s != t && Sa.owed t st.trace) = decide (t ∈ st.pend.filter (· ≠ s))
    rw [h.owed]
    by_cases e : s = t
    · subst e; simp
    · have e' : t ≠ s := fun x => e x.symm
      simp [e, e', List.mem_filter]

/-! ## Outcomes -/

/-- What a statement leaves of the state `st0` it started from. -/
def Post (w : World) (M : Nat → Bool) (st0 : St) : Out → Prop
  | .ok st => I w M none st ∧ B st ∧ (w.saves = true → st.mask = M) ∧ st.cur = st0.cur ∧ st0.fresh ≤ st.fresh ∧
      (∀ c, c < st0.fresh → st.ctxs c = st0.ctxs c)
  | .jump j v st => I w M (some (st.ctxs j).exn) st ∧ B st ∧ j = st0.cur ∧ st.cur = j ∧ 0 < j ∧ v = (st0.ctxs j).state ||| 1 ∧
      st0.fresh ≤ st.fresh ∧ (∀ c, c < st0.fresh → c ≠ j → st.ctxs c = st0.ctxs c) ∧ (∃ x, st.ctxs j = { st0.ctxs j with exn := x })
  | .dead e st => I w M (some e) st
  | .wild st => T w M st.trace ∧ ∃ t, w.arrivals .window t ≠ []
  | .running st => T w M st.trace

theorem Post.same {w : World} {M : Nat → Bool} {st0 st1 : St} (s : Same st0 st1) {o : Out} (h : Post w M st1 o) : Post w M st0 o := by
  cases o with
  | ok st =>
    obtain ⟨h1, h2, h3, h4, h5, h6⟩ := h
    rw [s.cur] at h4; rw [s.fresh] at h5 h6; rw [s.ctxs] at h6
    exact ⟨h1, h2, h3, h4, h5, h6⟩
  | jump j v st =>
    obtain ⟨h1, h2, h3, h4, h5, h6, h7, h8, h9⟩ := h
    rw [s.cur] at h3; rw [s.ctxs] at h6 h8 h9; rw [s.fresh] at h7 h8
    exact ⟨h1, h2, h3, h4, h5, h6, h7, h8, h9⟩
  | dead e st => exact h
  | wild st => exact h
  | running st => exact h

theorem note_spec {w : World} {M : Nat → Bool} {f : Option Nat} {st : St} {e : Nat} (h : I0 w M f st) :
    I0 w M f (note w e st) ∧ (note w e st).cur = st.cur ∧ (note w e st).fresh = st.fresh ∧ (note w e st).mask = st.mask ∧
    (note w e st).ctxs = (st.setCtx st.cur { st.ctxs st.cur with exn := e }).ctxs := by
  have h1 : I0 w M f { st.setCtx st.cur { st.ctxs st.cur with exn := e } with mask := fun _ => true } := by
    refine ⟨h.tr, h.fl, h.owed, fun hs c m hm => ?_, h.cur, fun c hc => ?_⟩
    · change (if c = st.cur then _ else st.ctxs c).buf = some m at hm
      split at hm
      · exact h.bufM hs st.cur m hm
      · exact h.bufM hs c m hm
    · show (if c = st.cur then _ else st.ctxs c).next < st.fresh
      split
      · exact h.next st.cur h.cur
      · exact h.next c hc
  have h2 := arrivals_I0 (p := .blocked) h1
  have s2 := arrivals_same w .blocked { st.setCtx st.cur { st.ctxs st.cur with exn := e } with mask := fun _ => true }
  have h3 : I0 w M f { arrivals w .blocked { st.setCtx st.cur { st.ctxs st.cur with exn := e } with mask := fun _ => true } with mask := st.mask } :=
    ⟨h2.tr, h2.fl, h2.owed, h2.bufM, h2.cur, h2.next⟩
  have h4 := arrivals_I0 (p := .jumping) h3
  have s4 := arrivals_same w .jumping { arrivals w .blocked { st.setCtx st.cur { st.ctxs st.cur with exn := e } with mask := fun _ => true } with mask := st.mask }
  exact ⟨h4, s4.1.cur.trans s2.1.cur, s4.1.fresh.trans s2.1.fresh, s4.2, s4.1.ctxs.trans s2.1.ctxs⟩

theorem note_pend {w : World} (q : Quiet w) {st : St} {e : Nat} : (note w e st).pend = st.pend := by
  unfold note
  dsimp only
  rw [arrivals_none (q.place _ _ (by decide))]
  exact arrivals_none (q.place _ _ (by decide))

theorem throwE_not_ok {w : World} : ∀ (n e : Nat) (st st' : St), throwE w n e st ≠ .ok st'
  | 0, _, _, _ => nofun
  | n + 1, e, st, st' => by
    unfold throwE
    dsimp only
    split
    · exact throwE_not_ok n _ _ _
    · unfold jumpOut
      repeat' split
      all_goals nofun

theorem throwE_post {w : World} {M : Nat → Bool} : ∀ (n e : Nat) {st : St}, I w M (some e) st → B st →
    (w.saves = true → ∀ s, M s = true → st.mask s = true) → Post w M st (throwE w n e st)
  | 0, _, _, h, _, _ => h.tr
  | n + 1, e, st, h, b, hm => by
    obtain ⟨n1, n2, n3, n4, n5⟩ := note_spec (e := e) h.weak
    have nb : B (note w e st) := by
      intro c h0 h1
      rw [n5]
      show (if c = st.cur then _ else st.ctxs c).buf ≠ none
      rw [n3] at h1
      split
      · next ec => subst ec; exact b _ h0 h1
      · exact b c h0 h1
    have nx : ∀ c, c ≠ st.cur → (note w e st).ctxs c = st.ctxs c := fun c hc => by rw [n5]; exact if_neg hc
    have nc : (note w e st).ctxs st.cur = { st.ctxs st.cur with exn := e } := by rw [n5]; exact if_pos rfl
    have nq : Quiet w → w.saves = true → ∀ s ∈ (note w e st).pend, M s = true := fun q hs => by rw [note_pend q]; exact h.quiet q hs
    unfold throwE
    dsimp only
    split
    · next s hd =>
      obtain ⟨d1, d2⟩ := deliverable_some hd
      have no : Quiet w → w.saves = true → False := fun q hs => by
        have := hm hs s (nq q hs s d1)
        rw [n4, this] at d2; cases d2
      have P := throwE_post n (w.name s) (st := (note w e st).enterHandler s)
        (by
          have := enter_I0 (s := s) n1 (fun q hs => (no q hs).elim)
          exact ⟨this.tr, this.fl, this.owed, this.bufM, this.cur, this.next, fun q hs => (no q hs).elim⟩)
        nb (fun hs t ht => by
          show (t == s || (note w e st).mask t) = true
          rw [n4, hm hs t ht]; simp)
      generalize ho : throwE w n (w.name s) ((note w e st).enterHandler s) = o at P
      cases o with
      | ok st' =>
        exact absurd ho (throwE_not_ok n _ _ _)
      | jump j v st' =>
        obtain ⟨p1, p2, p3, p4, p5, p6, p7, p8, p9⟩ := P
        have hj : j = st.cur := p3.trans n2
        subst hj
        refine ⟨p1, p2, rfl, p4, p5, ?_, ?_, ?_, ?_⟩
        · rw [p6]
          show ((note w e st).ctxs st.cur).state ||| 1 = _
          rw [nc]
        · rw [← n3]; exact p7
        · intro c hc hne
          rw [p8 c (by show c < (note w e st).fresh; rw [n3]; exact hc) hne]
          exact nx c hne
        · obtain ⟨x, hx⟩ := p9
          refine ⟨x, hx.trans ?_⟩
          show { (note w e st).ctxs st.cur with exn := x } = _
          rw [nc]
      | dead e' st' => exact P
      | wild st' => exact P
      | running st' => exact P
    · next hd =>
      have ni : I w M (some e) (note w e st) := ⟨n1.tr, n1.fl, n1.owed, n1.bufM, n1.cur, n1.next, nq⟩
      unfold jumpOut
      by_cases h0 : st.cur = 0
      · rw [if_pos (n2.trans h0)]; exact ni
      · rw [if_neg (fun x => h0 (n2.symm.trans x)), n2, nc]
        have := b st.cur (by omega) h.cur
        cases hb : (st.ctxs st.cur).buf with
        | none => exact absurd hb this
        | some m =>
          exact ⟨by rw [nc]; exact ni, nb, rfl, n2, by omega, rfl, by omega, fun c _ hne => nx c hne, ⟨e, nc⟩⟩

/-- A moment at which signals may arrive. -/
theorem poll_post {w : World} {M : Nat → Bool} {passes : Nat} {p : Place} {f : Option Nat} {st : St} {k : St → Out} {P : Out → Prop}
    (h : I w M f st) (b : B st) (a : w.saves = true → st.mask = M) (hp : p ≠ .user ∨ f = none)
    (hP : ∀ o, (∀ st', o ≠ .ok st') → Post w M st o → P o)
    (hk : ∀ st', I w M f st' → B st' → (w.saves = true → st'.mask = M) → Same st st' → deliverable w st' = none → P (k st')) :
    P (poll w passes p st k) := by
  have h1 := arrivals_I0 (p := p) h.weak
  obtain ⟨s1, m1⟩ := arrivals_same w p st
  have b1 : B (arrivals w p st) := fun c h0 hc => by rw [s1.ctxs]; rw [s1.fresh] at hc; exact b c h0 hc
  unfold poll
  dsimp only
  split
  · next s hd =>
    obtain ⟨d1, d2⟩ := deliverable_some hd
    have hq : Quiet w → w.saves = true → f = none ∧ ∀ t ∈ (arrivals w p st).pend, t ≠ s → M t = true := by
      intro q hs
      rcases hp with hp | hp
      · rw [arrivals_none (q.place p _ hp)] at d1
        rw [m1, a hs, h.quiet q hs s d1] at d2
        cases d2
      · refine ⟨hp, fun t ht hne => ?_⟩
        obtain ⟨s0, h0⟩ := arrivals_one q (p := p) (st := st)
        rcases h0 t ht with h1 | h1
        · exact h.quiet q hs t h1
        · rcases h0 s d1 with h2 | h2
          · rw [m1, a hs, h.quiet q hs s h2] at d2; cases d2
          · exact absurd (h1.trans h2.symm) hne
    have hi := enter_I0 (s := s) h1 (fun q hs => (hq q hs).1)
    refine hP _ (fun st' => throwE_not_ok _ _ _ _) (Post.same ?_ (throwE_post passes (w.name s) (st := (arrivals w p st).enterHandler s) ?_ b1 ?_))
    · exact ⟨s1.ctxs, s1.cur, s1.fresh⟩
    · refine ⟨hi.tr, hi.fl, hi.owed, hi.bufM, hi.cur, hi.next, fun q hs t ht => ?_⟩
      have := List.mem_filter.mp ht
      exact (hq q hs).2 t this.1 (by simpa using this.2)
    · intro hs t ht
      show (t == s || (arrivals w p st).mask t) = true
      rw [m1, a hs, ht]; simp
  · next hd =>
    refine hk _ ⟨h1.tr, h1.fl, h1.owed, h1.bufM, h1.cur, h1.next, fun q hs t ht => ?_⟩ b1 (fun hs => m1.trans (a hs)) s1 hd
    have := deliverable_none hd t ht
    rw [m1, a hs] at this; exact this

/-! ## Blocks -/

theorem or_one_odd (n : Nat) : (n ||| 1) &&& 1 ≠ 0 := by
  have : (n ||| 1) &&& 1 = 1 := by
    apply Nat.eq_of_testBit_eq
    intro i
    simp only [Nat.testBit_and, Nat.testBit_or]
    cases Nat.testBit 1 i <;> simp
  rw [this]; decide

/-- Inside the block entered from `st0`. -/
structure In (st0 st : St) : Prop where
  fresh : st0.fresh < st.fresh
  old : ∀ c, c < st0.fresh → st.ctxs c = st0.ctxs c
  next : (st.ctxs st0.fresh).next = st0.cur

theorem In.same {st0 st st' : St} (h : In st0 st) (s : Same st st') : In st0 st' :=
  ⟨by rw [s.fresh]; exact h.fresh, fun c hc => by rw [s.ctxs]; exact h.old c hc, by rw [s.ctxs]; exact h.next⟩

/-- What a block's parts leave: as a statement, but a jump may be to the block itself. -/
def PostR (w : World) (M : Nat → Bool) (st0 : St) : Out → Prop
  | .jump j v st => (j = st0.fresh ∧ I w M (some (st.ctxs j).exn) st ∧ B st ∧ st.cur = j ∧ v &&& 1 ≠ 0 ∧ In st0 st) ∨
      Post w M st0 (.jump j v st)
  | o => Post w M st0 o

theorem inner {w : World} {M : Nat → Bool} {st0 st : St} (i : In st0 st) (hc : st.cur = st0.fresh) {o : Out} (ho : ∀ st', o ≠ .ok st')
    (h : Post w M st o) : PostR w M st0 o := by
  cases o with
  | ok st' => exact absurd rfl (ho st')
  | jump j v st' =>
    obtain ⟨h1, h2, h3, h4, h5, h6, h7, h8, ⟨x, h9⟩⟩ := h
    have hj : j = st0.fresh := h3.trans hc
    refine .inl ⟨hj, h1, h2, h4, by rw [h6]; exact or_one_odd _, ⟨Nat.lt_of_lt_of_le i.fresh h7, fun c hc' => ?_, ?_⟩⟩
    · rw [h8 c (Nat.lt_trans hc' i.fresh) (by omega)]; exact i.old c hc'
    · rw [← hj, h9]
      show (st.ctxs j).next = _
      rw [hj]; exact i.next
  | dead e st' => exact h
  | wild st' => exact h
  | running st' => exact h

theorem outer {w : World} {M : Nat → Bool} {st0 st : St} (i : In st0 st) (hc : st.cur = st0.cur) (h0 : st0.cur < st0.fresh) {o : Out}
    (ho : ∀ st', o ≠ .ok st') (h : Post w M st o) : Post w M st0 o := by
  cases o with
  | ok st' => exact absurd rfl (ho st')
  | jump j v st' =>
    obtain ⟨h1, h2, h3, h4, h5, h6, h7, h8, ⟨x, h9⟩⟩ := h
    have hj : j = st0.cur := h3.trans hc
    have hl : j < st0.fresh := by omega
    have hi := i.fresh
    refine ⟨h1, h2, hj, h4, h5, by rw [h6, i.old j hl], by omega, fun c hc' hne => ?_, ⟨x, by rw [h9, i.old j hl]⟩⟩
    rw [h8 c (by omega) hne, i.old c hc']
  | dead e st' => exact h
  | wild st' => exact h
  | running st' => exact h

theorem Post.toR {w : World} {M : Nat → Bool} {st0 : St} {o : Out} (h : Post w M st0 o) : PostR w M st0 o := by
  cases o with
  | jump j v st => exact .inr h
  | _ => exact h

/-- The state of the block says whether an exception is in flight. -/
def Says (f : Option Nat) (x : Ctx) : Prop := (x.state &&& 1 = 0 ∧ f = none) ∨ (x.state &&& 1 ≠ 0 ∧ f = some x.exn)

theorem endTry_post {w : World} {M : Nat → Bool} {passes : Nat} {st0 st : St} {f : Option Nat} (h : I w M f st) (b : B st)
    (a : w.saves = true → st.mask = M) (i : In st0 st) (h0 : st0.cur < st0.fresh) (hc : st.cur = st0.fresh ∨ st.cur = st0.cur)
    (hs : Says f (st.ctxs st0.fresh)) : Post w M st0 (endTry w passes st0.fresh st) := by
  unfold endTry
  have hx : (if st.cur = st0.fresh then { st with cur := (st.ctxs st0.fresh).next } else st) = { st with cur := st0.cur } := by
    split
    · rw [i.next]
    · next hn =>
      rcases hc with hc | hc
      · exact absurd hc hn
      · rw [← hc]
  rw [hx]
  have i' : In st0 { st with cur := st0.cur } := ⟨i.fresh, i.old, i.next⟩
  have hI : I w M f { st with cur := st0.cur } :=
    ⟨h.tr, h.fl, h.owed, h.bufM, Nat.lt_trans h0 i.fresh, h.next, h.quiet⟩
  refine poll_post hI b a (.inl (by decide)) (fun o ho hp => outer i' rfl h0 ho hp) (fun st' hi' b' a' s' _ => ?_)
  have e' : st'.ctxs st0.fresh = st.ctxs st0.fresh := by rw [s'.ctxs]
  have i2 : In st0 st' := i'.same s'
  rw [e']
  split
  · next hodd =>
    rcases hs with hs | hs
    · exact absurd hs.1 hodd
    · rw [hs.2] at hi'
      refine outer i2 s'.cur h0 (fun _ => throwE_not_ok _ _ _ _) (throwE_post _ _ hi' b' fun hsv s hM => ?_)
      rw [a' hsv]; exact hM
  · next hev =>
    rcases hs with hs | hs
    · rw [hs.2] at hi'
      exact ⟨hi', b', a', s'.cur, Nat.le_of_lt i2.fresh, i2.old⟩
    · exact absurd hs.1 hev

theorem rest_post {w : World} {M : Nat → Bool} {passes : Nat} {p : Pat} {hd : St → Out} {fin : Option Nat} {st0 st : St} {f : Option Nat}
    (hh : ∀ st, I w M none st → B st → (w.saves = true → st.mask = M) → Post w M st (hd st))
    (h : I w M f st) (b : B st)
    (a : w.saves = true → st.mask = M) (i : In st0 st) (h0 : st0.cur < st0.fresh) (hc : st.cur = st0.fresh)
    (hs : Says f (st.ctxs st0.fresh)) : PostR w M st0 (rest w passes st0.fresh p hd fin st) := by
  unfold rest
  refine poll_post h b a (.inl (by decide)) (fun o ho hp => inner i hc ho hp) (fun st1 h1 b1 a1 s1 _ => ?_)
  have i1 := i.same s1
  have c1 : st1.cur = st0.fresh := s1.cur.trans hc
  have hs1 : Says f (st1.ctxs st0.fresh) := by rw [s1.ctxs]; exact hs
  -- what follows the handler
  have tail : ∀ (f : Option Nat) (st2 : St), I w M f st2 → B st2 → (w.saves = true → st2.mask = M) → In st0 st2 → st2.cur = st0.fresh →
      Says f (st2.ctxs st0.fresh) → PostR w M st0 (poll w passes .between st2 fun st =>
        (finish w passes st0.fresh fin st).andThen (endTry w passes st0.fresh)) := by
    intro f st2 h2 b2 a2 i2 c2 hs2
    refine poll_post h2 b2 a2 (.inl (by decide)) (fun o ho hp => inner i2 c2 ho hp) (fun st3 h3 b3 a3 s3 _ => ?_)
    have i3 := i2.same s3
    have c3 : st3.cur = st0.fresh := s3.cur.trans c2
    have hs3 : Says f (st3.ctxs st0.fresh) := by rw [s3.ctxs]; exact hs2
    unfold finish
    cases fin with
    | none => exact (endTry_post h3 b3 a3 i3 h0 (.inl c3) hs3).toR
    | some n =>
      dsimp only
      rw [i3.next]
      have i4 : In st0 { st3 with cur := st0.cur } := ⟨i3.fresh, i3.old, i3.next⟩
      have h4 : I w M f { st3 with cur := st0.cur } := ⟨h3.tr, h3.fl, h3.owed, h3.bufM, Nat.lt_trans h0 i3.fresh, h3.next, h3.quiet⟩
      refine poll_post (P := fun o => PostR w M st0 (o.andThen (endTry w passes st0.fresh))) h4 b3 a3 (.inl (by decide)) (fun o ho hp => ?_)
        (fun st5 h5 b5 a5 s5 _ => ?_)
      · have := (outer i4 rfl h0 ho hp).toR
        cases o with
        | ok st' => exact absurd rfl (ho st')
        | _ => exact this
      · have i5 := i4.same s5
        have hs5 : Says f (st5.ctxs st0.fresh) := by rw [s5.ctxs]; exact hs3
        refine (endTry_post (st := st5.log (.act n st5.mask)) (f := f) ⟨⟨fun hsv m m' hm => ?_, h5.tr.clash, h5.tr.wrong, h5.tr.lost⟩, h5.fl, h5.owed, h5.bufM, h5.cur, h5.next, h5.quiet⟩ b5 a5 ⟨i5.fresh, i5.old, i5.next⟩ h0
          (.inr s5.cur) hs5).toR
        rcases List.mem_cons.mp hm with e | hm
        · cases e; exact a5 hsv
        · exact h5.tr.acts hsv m m' hm
  by_cases hit : (st1.ctxs st0.fresh).state = 1 ∧ p.hits (st1.ctxs st0.fresh).exn
  · rw [if_pos hit]
    have hf : f = some (st1.ctxs st0.fresh).exn := by
      rcases hs1 with hs1 | hs1
      · rw [hit.1] at hs1; exact absurd hs1.1 (by decide)
      · exact hs1.2
    generalize hst2 : (st1.setState st0.fresh 2).log (.caught (st1.ctxs st0.fresh).exn) = st2
    have x2 : ∀ c, st2.ctxs c = if c = st0.fresh then { st1.ctxs st0.fresh with state := 2 } else st1.ctxs c := by
      subst hst2; intro c; rfl
    have h2 : I w M none st2 := by
      subst hst2
      refine ⟨⟨fun hsv m m' hm => h1.tr.acts hsv m m' (by simpa [St.log, St.setState, St.setCtx] using hm), h1.tr.clash, ?_, h1.tr.lost⟩, rfl, h1.owed, fun hsv c m hm => ?_, h1.cur, fun c hc' => ?_, h1.quiet⟩
      · show (inFlight w.name st1.trace != some _ || Sa.wrong w.name st1.trace) = false
        rw [h1.fl, hf, h1.tr.wrong]; simp
      · rw [x2] at hm
        split at hm
        · exact h1.bufM hsv st0.fresh m hm
        · exact h1.bufM hsv c m hm
      · rw [x2]
        split
        · exact h1.next st0.fresh i1.fresh
        · exact h1.next c hc'
    have b2 : B st2 := by
      intro c hc0 hc'
      rw [x2]
      have hc' : c < st1.fresh := by subst hst2; exact hc'
      split
      · next e => subst e; exact b1 _ hc0 hc'
      · exact b1 c hc0 hc'
    have a2 : w.saves = true → st2.mask = M := by subst hst2; exact a1
    have f2 : st2.fresh = st1.fresh := by subst hst2; rfl
    have c2 : st2.cur = st0.fresh := by subst hst2; exact c1
    have i2 : In st0 st2 := ⟨by rw [f2]; exact i1.fresh, fun c hc' => by rw [x2, if_neg (by omega)]; exact i1.old c hc', by rw [x2, if_pos rfl]; exact i1.next⟩
    have P := hh st2 h2 b2 a2
    generalize ho : hd st2 = o at P
    cases o with
    | ok st3 =>
      obtain ⟨p1, p2, p3, p4, p5, p6⟩ := P
      have e3 : st3.ctxs st0.fresh = st2.ctxs st0.fresh := p6 _ i2.fresh
      refine tail none st3 p1 p2 p3 ⟨Nat.lt_of_lt_of_le i2.fresh p5, fun c hc' => ?_, ?_⟩ (p4.trans c2) (.inl ⟨?_, rfl⟩)
      · rw [p6 c (Nat.lt_trans hc' i2.fresh)]; exact i2.old c hc'
      · rw [e3]; exact i2.next
      · rw [e3, x2, if_pos rfl]; show 2 &&& 1 = 0; decide
    | jump j v st3 => exact inner i2 c2 nofun P
    | dead e st3 => exact inner i2 c2 nofun P
    | wild st3 => exact inner i2 c2 nofun P
    | running st3 => exact inner i2 c2 nofun P
  · rw [if_neg hit]
    exact tail f st1 h1 b1 a1 i1 c1 hs1

/-- `ex_setjmp` returned: the state is assigned. -/
theorem setState_I {w : World} {M : Nat → Bool} {f : Option Nat} {st : St} {c v : Nat} (h : I w M f st) (b : B st) (hc : c < st.fresh) :
    I w M f (st.setState c v) ∧ B (st.setState c v) := by
  have x : ∀ d, (st.setState c v).ctxs d = if d = c then { st.ctxs c with state := v } else st.ctxs d := fun _ => rfl
  refine ⟨⟨h.tr, h.fl, h.owed, fun hsv d m hm => ?_, h.cur, fun d hd => ?_, h.quiet⟩, fun d hd0 hd => ?_⟩
  · rw [x] at hm
    split at hm
    · exact h.bufM hsv c m hm
    · exact h.bufM hsv d m hm
  · rw [x]; split
    · exact h.next c hc
    · exact h.next d hd
  · rw [x]; split
    · next e => subst e; exact b _ hd0 hd
    · exact b d hd0 hd

theorem region_post {w : World} {M : Nat → Bool} {passes : Nat} {st0 : St} {r : St → Out}
    (hr : ∀ f st, I w M f st → B st → (w.saves = true → st.mask = M) → In st0 st → st.cur = st0.fresh → Says f (st.ctxs st0.fresh) →
      PostR w M st0 (r st)) (h0 : st0.cur < st0.fresh) :
    ∀ (n : Nat) (o : Out), PostR w M st0 o → Post w M st0 (region w passes st0.fresh r n o)
  | 0, o, h => by
    cases o with
    | jump j v st =>
      show Post w M st0 (if j = st0.fresh then .running st else .jump j v st)
      split
      · rcases h with h | h
        · exact h.2.1.tr
        · exact h.1.tr
      · next hne =>
        rcases h with h | h
        · exact absurd h.1 hne
        · exact h
    | _ => exact h
  | n + 1, o, h => by
    cases o with
    | jump j v st =>
      show Post w M st0 (if j = st0.fresh then region w passes st0.fresh r n
        (poll w passes .assign (restore w st0.fresh st) fun st => r (st.setState st0.fresh v)) else .jump j v st)
      by_cases hj : j = st0.fresh
      · rw [if_pos hj]
        rcases h with h | h
        · obtain ⟨_, h1, h2, h3, h4, h5⟩ := h
          subst hj
          refine region_post hr h0 n _ ?_
          have hb := h2 st0.fresh (by omega) h5.fresh
          have ss : Same st (restore w st0.fresh st) := by unfold restore; split <;> exact ⟨rfl, rfl, rfl⟩
          have hi : I w M (some (st.ctxs st0.fresh).exn) (restore w st0.fresh st) := by
            unfold restore; split
            · exact ⟨h1.tr, h1.fl, h1.owed, h1.bufM, h1.cur, h1.next, h1.quiet⟩
            · exact h1
          have bb : B (restore w st0.fresh st) := by unfold restore; split <;> exact h2
          have aa : w.saves = true → (restore w st0.fresh st).mask = M := by
            intro hsv
            unfold restore
            rw [if_pos hsv]
            cases hbf : (st.ctxs st0.fresh).buf with
            | none => exact absurd hbf hb
            | some m => exact h1.bufM hsv _ m hbf
          have ii := h5.same ss
          have cc : (restore w st0.fresh st).cur = st0.fresh := ss.cur.trans h3
          refine poll_post hi bb aa (.inl (by decide)) (fun o ho hp => inner ii cc ho hp) (fun st' i' b' a' s' _ => ?_)
          have i2 := ii.same s'
          obtain ⟨hI, hB⟩ := setState_I (v := v) i' b' i2.fresh
          refine hr _ _ hI hB a' ⟨i2.fresh, fun c hc => ?_, ?_⟩ (s'.cur.trans cc) (.inr ⟨?_, ?_⟩)
          · show (if c = st0.fresh then _ else st'.ctxs c) = _
            rw [if_neg (by omega)]; exact i2.old c hc
          · show (if st0.fresh = st0.fresh then _ else _ : Ctx).next = _
            rw [if_pos rfl]; exact i2.next
          · show (if st0.fresh = st0.fresh then _ else _ : Ctx).state &&& 1 ≠ 0
            rw [if_pos rfl]; exact h4
          · show some _ = some (if st0.fresh = st0.fresh then _ else _ : Ctx).exn
            rw [if_pos rfl, s'.ctxs, ss.ctxs]
        · exfalso
          have := h.2.2.1
          omega
      · rw [if_neg hj]
        rcases h with h | h
        · exact absurd h.1 hj
        · exact h
    | _ => exact h

/-- A signal in the window between `ex_update` and `ex_setjmp`. -/
theorem throwE_window {w : World} {M : Nat → Bool} : ∀ (n e : Nat) {st : St} {f : Option Nat}, I0 w M f st → st.cur ≠ 0 →
    (st.ctxs st.cur).buf = none → (Quiet w → False) →
    (∃ st', throwE w n e st = .wild st' ∧ T w M st'.trace) ∨ (∃ st', throwE w n e st = .running st' ∧ T w M st'.trace)
  | 0, _, st, _, h, _, _, _ => .inr ⟨st, rfl, h.tr⟩
  | n + 1, e, st, f, h, hc, hb, hq => by
    obtain ⟨n1, n2, n3, n4, n5⟩ := note_spec (e := e) h
    have nc : ((note w e st).ctxs st.cur).buf = none := by
      rw [n5]
      show (if st.cur = st.cur then _ else _ : Ctx).buf = none
      rw [if_pos rfl]; exact hb
    unfold throwE
    dsimp only
    split
    · next s hd =>
      exact throwE_window n _ (enter_I0 (s := s) n1 (fun q _ => (hq q).elim)) (fun x => hc (n2.symm.trans x)) (by
        show ((note w e st).ctxs (note w e st).cur).buf = none
        rw [n2]; exact nc) hq
    · refine .inl ⟨note w e st, ?_, n1.tr⟩
      unfold jumpOut
      rw [if_neg (fun x => hc (n2.symm.trans x)), n2, nc]

theorem poll_def (w : World) (passes : Nat) (p : Place) (st : St) (k : St → Out) : poll w passes p st k =
    match deliverable w (arrivals w p st) with
    | some s => throwE w passes (w.name s) ((arrivals w p st).enterHandler s)
    | none => k (arrivals w p st) := rfl

/-- Every statement. -/
theorem exec_post {w : World} {M : Nat → Bool} {passes : Nat} : ∀ (s : Stmt) {st : St}, I w M none st → B st → (w.saves = true → st.mask = M) →
    Post w M st (exec w passes s st)
  | .skip, st, h, b, a => ⟨h, b, a, rfl, Nat.le_refl _, fun _ _ => rfl⟩
  | .act n, st, h, b, a => by
    refine poll_post h b a (.inr rfl) (fun o _ hp => hp) (fun st' h' b' a' s' _ => ?_)
    refine ⟨⟨⟨fun hsv m m' hm => ?_, h'.tr.clash, h'.tr.wrong, h'.tr.lost⟩, h'.fl, h'.owed, h'.bufM, h'.cur, h'.next, h'.quiet⟩, b', a', s'.cur,
      Nat.le_of_eq s'.fresh.symm, fun c _ => by show st'.ctxs c = _; rw [s'.ctxs]⟩
    rcases List.mem_cons.mp hm with e | hm
    · cases e; exact a' hsv
    · exact h'.tr.acts hsv m m' hm
  | .seq x y, st, h, b, a => by
    have P := exec_post (passes := passes) x h b a
    show Post w M st ((exec w passes x st).andThen (exec w passes y))
    generalize exec w passes x st = o at P
    cases o with
    | ok st1 =>
      obtain ⟨p1, p2, p3, p4, p5, p6⟩ := P
      have Q := exec_post (passes := passes) y p1 p2 p3
      show Post w M st (exec w passes y st1)
      generalize exec w passes y st1 = o at Q
      cases o with
      | ok st2 =>
        obtain ⟨q1, q2, q3, q4, q5, q6⟩ := Q
        exact ⟨q1, q2, q3, q4.trans p4, Nat.le_trans p5 q5, fun c hc => (q6 c (Nat.lt_of_lt_of_le hc p5)).trans (p6 c hc)⟩
      | jump j v st2 =>
        obtain ⟨q1, q2, q3, q4, q5, q6, q7, q8, ⟨x, q9⟩⟩ := Q
        have hj : j = st.cur := q3.trans p4
        have hl : j < st.fresh := by rw [hj]; exact h.cur
        exact ⟨q1, q2, hj, q4, q5, by rw [q6, p6 j hl], Nat.le_trans p5 q7,
          fun c hc hne => (q8 c (Nat.lt_of_lt_of_le hc p5) hne).trans (p6 c hc), ⟨x, by rw [q9, p6 j hl]⟩⟩
      | dead e st2 => exact Q
      | wild st2 => exact Q
      | running st2 => exact Q
    | jump j v st1 => exact P
    | dead e st1 => exact P
    | wild st1 => exact P
    | running st1 => exact P
  | .throw e, st, h, b, a => by
    refine poll_post h b a (.inr rfl) (fun o _ hp => hp) (fun st' h' b' a' s' _ => ?_)
    refine Post.same (st1 := st'.log (.thrown e)) ⟨s'.ctxs, s'.cur, s'.fresh⟩ (throwE_post passes e ?_ b' fun hsv s hM => ?_)
    · refine ⟨⟨fun hsv m m' hm => h'.tr.acts hsv m m' (by simpa [St.log] using hm), ?_, h'.tr.wrong, fun q hsv => ?_⟩, rfl, h'.owed, h'.bufM, h'.cur, h'.next, h'.quiet⟩
      · show ((inFlight w.name st'.trace).isSome || Sa.clash w.name st'.trace) = false
        rw [h'.fl, h'.tr.clash]; rfl
      · show (inFlight w.name st'.trace).toList ++ Sa.lost w.name st'.trace = []
        rw [h'.fl, h'.tr.lost q hsv]; rfl
    · show st'.mask s = true
      rw [a' hsv]; exact hM
  | .tryCatch body p hd fin, st, h, b, a => by
    refine poll_post h b a (.inr rfl) (fun o _ hp => hp) (fun st0 h0 b0 a0 s0 hd0 => ?_)
    refine Post.same s0 ?_
    dsimp only
    have hr : ∀ f st, I w M f st → B st → (w.saves = true → st.mask = M) → In st0 st → st.cur = st0.fresh → Says f (st.ctxs st0.fresh) →
        PostR w M st0 (rest w passes st0.fresh p (exec w passes hd) fin st) := fun f st1 h1 b1 a1 i1 c1 hs1 =>
      rest_post (fun st hi hb ha => exec_post (passes := passes) hd hi hb ha) h1 b1 a1 i1 h0.cur c1 hs1
    generalize rest w passes st0.fresh p (exec w passes hd) fin = r at hr
    -- the window
    have x1 : ∀ c, (enterTry w st0).ctxs c = if c = st0.fresh then ⟨st0.cur, 0, w.junk st0.fresh, none⟩ else st0.ctxs c := fun _ => rfl
    have h1 : I0 w M none (enterTry w st0) := by
      refine ⟨h0.tr, h0.fl, h0.owed, fun hsv c m hm => ?_, Nat.lt_succ_self _, fun c hc => ?_⟩
      · rw [x1] at hm
        split at hm
        · cases hm
        · exact h0.bufM hsv c m hm
      · show ((enterTry w st0).ctxs c).next < st0.fresh + 1
        have hc : c < st0.fresh + 1 := hc
        rw [x1]
        split
        · exact Nat.lt_succ_of_lt h0.cur
        · exact Nat.lt_succ_of_lt (h0.next c (by omega))
    have h2 := arrivals_I0 (p := .window) h1
    obtain ⟨s2, m2⟩ := arrivals_same w .window (enterTry w st0)
    rw [poll_def w passes .window (enterTry w st0)]
    split
    · next s hs =>
      obtain ⟨d1, d2⟩ := deliverable_some hs
      have hw : ∃ t, w.arrivals .window t ≠ [] := by
        refine ⟨(enterTry w st0).tick, fun e => ?_⟩
        rw [arrivals_none e] at d1
        have := deliverable_none hd0 s d1
        rw [m2] at d2
        have d2 : st0.mask s = false := d2
        rw [this] at d2; cases d2
      have hc : (arrivals w .window (enterTry w st0)).cur = st0.fresh := s2.cur
      have nq : Quiet w → False := fun q => by
        obtain ⟨t, ht⟩ := hw
        exact ht (q.place _ _ (by decide))
      rcases throwE_window passes (w.name s) (enter_I0 (s := s) h2 (fun q _ => (nq q).elim)) (st := (arrivals w .window (enterTry w st0)).enterHandler s)
          (by show (arrivals w .window (enterTry w st0)).cur ≠ 0; rw [hc]; have := h0.cur; omega)
          (by
            show ((arrivals w .window (enterTry w st0)).ctxs (arrivals w .window (enterTry w st0)).cur).buf = none
            rw [hc, s2.ctxs, x1, if_pos rfl]) nq with ⟨st', e, t⟩ | ⟨st', e, t⟩
      · rw [e]
        cases passes with
        | zero => exact ⟨t, hw⟩
        | succ n => exact ⟨t, hw⟩
      · rw [e]
        cases passes with
        | zero => exact t
        | succ n => exact t
    · next hs =>
      generalize hst2 : arrivals w .window (enterTry w st0) = st2 at h2 s2 m2 hs
      have f2 : st2.fresh = st0.fresh + 1 := s2.fresh
      have c2 : st2.cur = st0.fresh := s2.cur
      have x2 : ∀ c, st2.ctxs c = if c = st0.fresh then ⟨st0.cur, 0, w.junk st0.fresh, none⟩ else st0.ctxs c := fun c => by rw [s2.ctxs]; rfl
      have mm : w.saves = true → st2.mask = M := fun hsv => m2.trans (a0 hsv)
      have x3 : ∀ c, (st2.setBuf st0.fresh).ctxs c = if c = st0.fresh then ⟨st0.cur, 0, w.junk st0.fresh, some st2.mask⟩ else st0.ctxs c := by
        intro c
        show (if c = st0.fresh then { st2.ctxs st0.fresh with buf := some st2.mask } else st2.ctxs c) = _
        rw [x2, x2, if_pos rfl]
        split <;> rfl
      have i3 : In st0 (st2.setBuf st0.fresh) := ⟨by show st0.fresh < st2.fresh; omega, fun c hc => by rw [x3, if_neg (by omega)], by rw [x3, if_pos rfl]⟩
      have h3 : I w M none (st2.setBuf st0.fresh) := by
        refine ⟨h2.tr, h2.fl, h2.owed, fun hsv c m hm => ?_, h2.cur, fun c hc => ?_, fun q hsv s hsm => ?_⟩
        · rw [x3] at hm
          split at hm
          · cases hm; exact mm hsv
          · exact h0.bufM hsv c m hm
        · show ((st2.setBuf st0.fresh).ctxs c).next < st2.fresh
          have hc : c < st2.fresh := hc
          rw [x3]
          have := h0.cur
          split
          · show st0.cur < _; omega
          · have := h0.next c (by omega); omega
        · have := deliverable_none hs s hsm
          rw [mm hsv] at this; exact this
      have b3 : B (st2.setBuf st0.fresh) := by
        intro c hc0 hc
        have hc : c < st2.fresh := hc
        rw [x3]
        split
        · nofun
        · exact b0 c hc0 (by omega)
      refine region_post hr h0.cur passes _ ?_
      refine poll_post (P := fun o => PostR w M st0 (o.andThen r)) h3 b3 mm (.inl (by decide)) (fun o ho hp => ?_) (fun st4 h4 b4 a4 s4 _ => ?_)
      · have := inner i3 c2 ho hp
        cases o with
        | ok st' => exact absurd rfl (ho st')
        | _ => exact this
      · have i4 := i3.same s4
        obtain ⟨h5, b5⟩ := setState_I (v := 0) h4 b4 i4.fresh
        have x5 : ∀ c, (st4.setState st0.fresh 0).ctxs c = if c = st0.fresh then { st4.ctxs st0.fresh with state := 0 } else st4.ctxs c := fun _ => rfl
        have i5 : In st0 (st4.setState st0.fresh 0) := ⟨i4.fresh, fun c hc => by rw [x5, if_neg (by omega)]; exact i4.old c hc, by rw [x5, if_pos rfl]; exact i4.next⟩
        have c5 : (st4.setState st0.fresh 0).cur = st0.fresh := s4.cur.trans c2
        have P := exec_post (passes := passes) body h5 b5 a4
        generalize exec w passes body (st4.setState st0.fresh 0) = o at P
        cases o with
        | ok st6 =>
          obtain ⟨p1, p2, p3, p4, p5, p6⟩ := P
          have e6 := p6 st0.fresh i5.fresh
          refine hr none st6 p1 p2 p3 ⟨Nat.lt_of_lt_of_le i5.fresh p5, fun c hc => ?_, ?_⟩ (p4.trans c5) (.inl ⟨?_, rfl⟩)
          · rw [p6 c (Nat.lt_trans hc i5.fresh)]; exact i5.old c hc
          · rw [e6]; exact i5.next
          · rw [e6, x5, if_pos rfl]; show 0 &&& 1 = 0; decide
        | jump j v st6 => exact inner i5 c5 nofun P
        | dead e st6 => exact inner i5 c5 nofun P
        | wild st6 => exact inner i5 c5 nofun P
        | running st6 => exact inner i5 c5 nofun P

theorem start_I (w : World) (M : Nat → Bool) : I w M none (start M) ∧ B (start M) := by
  refine ⟨⟨⟨fun _ _ _ hm => (nomatch hm), rfl, rfl, fun _ _ => rfl⟩, rfl, fun s => by simp [start, owed], fun _ c m hm => (nomatch hm), (by decide : 0 < 1), fun c _ => (by decide : 0 < 1), fun _ _ s hs => (nomatch hs)⟩, fun c h0 h1 => ?_⟩
  have : c < 1 := h1
  omega

/-- A whole program, and the moment after. -/
theorem run_post (w : World) (passes : Nat) (M : Nat → Bool) (s : Stmt) :
    Post w M (start M) (run w passes M s) ∧ ∀ st, run w passes M s = .ok st → w.saves = true → ∀ t ∈ st.pend, M t = true := by
  obtain ⟨i, b⟩ := start_I w M
  have P := exec_post (w := w) (passes := passes) s i b (fun _ => rfl)
  unfold run
  generalize exec w passes s (start M) = o at P
  cases o with
  | ok st =>
    obtain ⟨p1, p2, p3, p4, p5, p6⟩ := P
    show Post w M (start M) (poll w passes .user st .ok) ∧ ∀ st', poll w passes .user st .ok = .ok st' → w.saves = true → ∀ t ∈ st'.pend, M t = true
    refine poll_post (P := fun o => Post w M (start M) o ∧ ∀ st', o = .ok st' → w.saves = true → ∀ t ∈ st'.pend, M t = true) p1 p2 p3 (.inr rfl)
      (fun o ho hp => ⟨?_, fun st' e => absurd e (ho st')⟩) (fun st' h' b' a' s' hd => ⟨?_, fun st2 e hsv t ht => ?_⟩)
    · cases o with
      | ok st' => exact absurd rfl (ho st')
      | jump j v st' =>
        obtain ⟨q1, q2, q3, q4, q5, q6, q7, q8, ⟨x, q9⟩⟩ := hp
        have : j = 0 := q3.trans p4
        omega
      | dead e st' => exact hp
      | wild st' => exact hp
      | running st' => exact hp
    · exact ⟨h', b', a', s'.cur.trans p4, by rw [s'.fresh]; exact p5, fun c hc => by rw [s'.ctxs]; exact p6 c hc⟩
    · cases e
      have := deliverable_none hd t ht
      rw [a' hsv] at this; exact this
  | jump j v st => exact ⟨P, nofun⟩
  | dead e st => exact ⟨P, nofun⟩
  | wild st => exact ⟨P, nofun⟩
  | running st => exact ⟨P, nofun⟩

end Verif.Sa
