import Verif.Spec.Seh
namespace Verif.Seh

theorem eqName_self (n : Name) : eqName n n = true := by simp [eqName]

/-- The rows up to the one for panics. -/
def firstRows : List Row := (sehRows.take 9).map fun p => ⟨some p.2, p.1⟩

theorem table_eq : table = firstRows ++ (⟨some (str "sig_int"), 0xC000013A⟩ :: List.replicate 22 ⟨none, 0⟩) := by
  decide +kernel

theorem find_first {q : Row → Bool} (h : ∀ r ∈ firstRows, r.seh = panicCode → q r = true) :
    ∃ r, table.find? q = some r ∧ r ∈ firstRows := by
  have hs : (firstRows.find? q).isSome = true := by
    rw [List.find?_isSome]
    exact ⟨⟨some (str "panic"), panicCode⟩, by decide +kernel, h _ (by decide +kernel) rfl⟩
  obtain ⟨r, hr⟩ := Option.isSome_iff_exists.1 hs
  exact ⟨r, by rw [table_eq, List.find?_append, hr]; rfl, List.mem_of_find?_eq_some hr⟩

theorem first_some : ∀ r ∈ firstRows, r.ex.isSome = true := by decide +kernel

/-- The filter of the block takes the exception, as `n`. -/
structure Ready (c : Catch) (n : Name) (code : BitVec 32) (got : Bool) (x : Ctx) : Prop where
  run : (c.filter table got code x).1 = .execute
  state : (c.filter table got code x).2.state = .throw
  err : (c.filter table got code x).2.err = .str n
  next : (c.filter table got code x).2.next = x.next
  one : ∀ y, c = .one y → (c.filter table got code x).2.rethrown = true ∧ (c.filter table got code x).2.panic = .str n ∧
    (c.filter table got code x).2.ex.isSome = true

theorem ready_throw {c : Catch} {n : Name} {x : Ctx} (ha : c.accepts n = true) (he : x.ex.isSome = true)
    (hp : x.panic = .str n) (got : Bool) : Ready c n panicCode got x := by
  obtain ⟨e, he⟩ := Option.isSome_iff_exists.1 he
  cases c with
  | any =>
    have h : Catch.filter table got .any panicCode x = (.execute, { x with state := .throw }) := by
      simp [Catch.filter, catchFilter]
    refine ⟨by rw [h], by rw [h], ?_, by rw [h], fun y h => by cases h⟩
    rw [h]
    simp [Ctx.err, hp]
  | one y =>
    have hy : y = n := by simpa [Catch.accepts] using ha
    subst hy
    obtain ⟨r, hr, hm⟩ := find_first (q := fun r => r.seh == panicCode || x.caught == r.seh || eqOpt x.ex y)
      (fun r _ h => by simp [h])
    have h : Catch.filter table got (.one y) panicCode x =
        (.execute, { x with state := .throw, rethrown := true, ex := r.ex }) := by
      simp only [Catch.filter, catchSeh]
      rw [if_neg (by rw [hp]; exact fun h => by cases h.2), if_neg (by rw [he]; exact fun h => by cases h.1), hp]
      simp only [eqMsg, eqName_self]
      rw [if_neg (fun h => by cases h.1), hr]
      have hmsb : panicCode.msb = true := by decide
      simp [hmsb]
    refine ⟨by rw [h], by rw [h], ?_, by rw [h], fun z _ => ⟨by rw [h], by rw [h]; exact hp, by rw [h]; exact first_some r hm⟩⟩
    rw [h]
    simp [Ctx.err, hp]

theorem ready_raise {n : Name} {x : Ctx} (he : x.ex = some n) (hp : x.panic = .null) (got : Bool) :
    Ready .any n panicCode got x := by
  have h : Catch.filter table got .any panicCode x = (.execute, { x with state := .throw }) := by
    simp [Catch.filter, catchFilter]
  refine ⟨by rw [h], by rw [h], ?_, by rw [h], fun y h => by cases h⟩
  rw [h]
  simp [Ctx.err, hp, he]

theorem find_fault {code : BitVec 32} {n : Name} (hc : faultName code = some n) (j : BitVec 32)
    (hj : j ∉ sehRows.map Prod.fst) : table.find? (fun r => r.seh == code || j == r.seh) = some ⟨some n, code⟩ := by
  have hj' : ∀ r ∈ table.take 10, (j == r.seh) = false := by
    intro r hr
    have : r.seh ∈ sehRows.map Prod.fst := by
      revert r
      decide +kernel
    exact beq_eq_false_iff_ne.2 fun e => hj (e ▸ this)
  have h1 : ∀ l : List Row, (∀ r ∈ l, (j == r.seh) = false) →
      l.find? (fun r => r.seh == code || j == r.seh) = l.find? (fun r => r.seh == code) := by
    intro l
    induction l with
    | nil => intro _; rfl
    | cons r l ih =>
      intro h
      rw [List.find?_cons, List.find?_cons, h r List.mem_cons_self, Bool.or_false, ih (fun r' h' => h r' (List.mem_cons_of_mem _ h'))]
  rw [← List.take_append_drop 10 table, List.find?_append, h1 _ hj']
  have h2 : (table.take 10).find? (fun r => r.seh == code) = some ⟨some n, code⟩ := by
    unfold faultName at hc
    split at hc <;> first | (cases hc; decide +kernel) | cases hc
  rw [h2]
  rfl

theorem fault_not_panic {code : BitVec 32} {n : Name} (hc : faultName code = some n) : code ≠ panicCode := by
  rintro rfl
  revert hc
  rw [show faultName panicCode = none by decide]
  exact fun h => by cases h

theorem ready_fault {code : BitVec 32} {n : Name} (hc : faultName code = some n) {x : Ctx}
    (hj : x.caught ∉ sehRows.map Prod.fst) (got : Bool) : Ready .any n code got x := by
  have h : Catch.filter table got .any code x =
      (.execute, { x with state := .throw, rethrown := true, ex := some n, panic := .null }) := by
    simp only [Catch.filter, catchFilter]
    rw [if_neg (fault_not_panic hc), find_fault hc _ hj]
  refine ⟨by rw [h], by rw [h], ?_, by rw [h], fun y h => by cases h⟩
  rw [h]
  rfl

/-- Where a statement runs. -/
def Ok (pl : Place) (o : Option Name) (live : List Nat) (s : S) : Prop :=
  match pl with
  | .top => o = none ∧ s.cur < s.fresh
  | .body _ => o = none ∧ ∃ i rest, live = i :: rest ∧ s.cur = i ∧ i ≠ 0 ∧ i < s.fresh ∧ (s.ctxs i).caught ∉ sehRows.map Prod.fst
  | .handler re => o.isSome = true ∧ ∃ i rest, live = i :: rest ∧ s.cur = i ∧ i ≠ 0 ∧ i < s.fresh ∧
    (re = true → (s.ctxs i).rethrown = true)

/-- What is left alone. -/
structure Same (s s' : S) (t : List Ev) : Prop where
  trace : s'.trace = s.trace ++ t
  cur : s'.cur = s.cur
  fresh : s.fresh ≤ s'.fresh

/-- What a statement does. -/
def Post (pl : Place) (o : Option Name) (s : S) (live : List Nat) (t : List Ev) (r : Res) (s' : S) : Exit → Prop
  | .done => r = .normal ∧ Same s s' t ∧ ∀ j, j < s.fresh → s'.ctxs j = s.ctxs j
  | .exn n =>
    match pl with
    | .top => False
    | .body c => ∃ code, r = .raised code live ∧ Same s s' t ∧ (∀ j, j < s.fresh → j ≠ s.cur → s'.ctxs j = s.ctxs j) ∧
        (s'.ctxs s.cur).next = (s.ctxs s.cur).next ∧ Ready c n code s'.got (s'.ctxs s.cur) ∧ c.accepts n = true
    | .handler re => re = true ∧ o = some n ∧ r = .jump s.cur ∧ Same s s' t ∧
        (∀ j, j < s.fresh → j ≠ s.cur → s'.ctxs j = s.ctxs j) ∧
        s'.ctxs s.cur = { s.ctxs s.cur with rethrown := false }

@[simp] theorem setCtx_same (s : S) (i : Nat) (c : Ctx) : (s.setCtx i c).ctxs i = c := by simp [S.setCtx]
theorem setCtx_ne (s : S) {i j : Nat} (c : Ctx) (e : j ≠ i) : (s.setCtx i c).ctxs j = s.ctxs j := by simp [S.setCtx, e]

theorem exThrow_live {live : List Nat} {s : S} {q : Nat} (hq : s.cur = q) (h0 : q ≠ 0) (hl : q ∈ live) (ex : Option Name)
    (m : Msg) : exThrow live s ex m = (.raised panicCode live, s.setCtx q { s.ctxs q with ex := ex, panic := m }) := by
  subst hq
  unfold exThrow
  rw [if_neg h0, if_pos hl]

theorem exec_try (junk : Nat → Msg × BitVec 32) (body : Prog) (c : Catch) (h : Prog) (k : Nat) (live : List Nat) (s : S)
    {r : Res} {s2 : S}
    (hb : exec table junk body (s.fresh :: live)
      { s.setCtx s.fresh ⟨none, (junk s.fresh).1, .try, false, (junk s.fresh).2, s.cur⟩ with cur := s.fresh, fresh := s.fresh + 1 } =
      (r, s2)) :
    (r = .normal → exec table junk (.tryCatch body c h k) live s = finish live s.fresh k s2) ∧
    (∀ code, r = .raised code (s.fresh :: live) → s2.cur = s.fresh →
      (c.filter table s2.got code (s2.ctxs s.fresh)).1 = .execute →
      (c.filter table s2.got code (s2.ctxs s.fresh)).2.state = .throw →
      ∀ r3 s3, exec table junk h (s.fresh :: live)
        ((s2.setCtx s.fresh { (c.filter table s2.got code (s2.ctxs s.fresh)).2 with state := .catch }).add
          (.caught (c.filter table s2.got code (s2.ctxs s.fresh)).2.err)) = (r3, s3) →
      (r3 = .normal → exec table junk (.tryCatch body c h k) live s = finish live s.fresh k s3) ∧
      (r3 = .jump s.fresh → exec table junk (.tryCatch body c h k) live s =
        finish live s.fresh k (s3.setCtx s.fresh { s3.ctxs s.fresh with state := (s3.ctxs s.fresh).state.orThrow }))) := by
  constructor
  · rintro rfl
    simp only [exec, hb]
  · rintro code rfl hc hv hs r3 s3 hh
    have hset : ∀ x, ((s2.setCtx s.fresh x).setCtx s.fresh { x with state := .catch }) =
        s2.setCtx s.fresh { x with state := .catch } := by
      intro x
      unfold S.setCtx
      congr 1
      funext j
      dsimp only
      split <;> rfl
    constructor
    · rintro rfl
      simp only [exec, hb, hc]
      rw [if_pos (.inr List.mem_cons_self)]
      simp only [hv, setCtx_same, hs, if_true]
      rw [hset, hh]
    · rintro rfl
      simp only [exec, hb, hc]
      rw [if_pos (.inr List.mem_cons_self)]
      simp only [hv, setCtx_same, hs, if_true]
      rw [hset, hh]
      simp only [if_true]

theorem finish_normal {live : List Nat} {i k : Nat} {s : S} (h : (s.ctxs i).state.thrown = false) :
    ∃ s', finish live i k s = (.normal, s') ∧ s'.trace = s.trace ++ [.fin k] ∧ s'.cur = (s.ctxs i).next ∧
      s'.fresh = s.fresh ∧ ∀ j, j ≠ i → s'.ctxs j = s.ctxs j := by
  unfold finish
  dsimp only
  rw [if_neg (by rw [h]; exact Bool.false_ne_true)]
  exact ⟨_, rfl, rfl, rfl, rfl, fun j e => setCtx_ne _ _ e⟩

theorem finish_thrown {live : List Nat} {i k : Nat} {s : S} (h : (s.ctxs i).state.thrown = true)
    (h0 : (s.ctxs i).next ≠ 0) (hl : (s.ctxs i).next ∈ live) (hi : (s.ctxs i).next ≠ i) :
    ∃ s', finish live i k s = (.raised panicCode live, s') ∧ s'.trace = s.trace ++ [.fin k] ∧ s'.cur = (s.ctxs i).next ∧
      s'.fresh = s.fresh ∧ (∀ j, j ≠ i → j ≠ (s.ctxs i).next → s'.ctxs j = s.ctxs j) ∧
      s'.ctxs (s.ctxs i).next = { s.ctxs (s.ctxs i).next with ex := (s.ctxs i).ex, panic := (s.ctxs i).panic } := by
  unfold finish
  dsimp only
  rw [if_pos h, exThrow_live (q := (s.ctxs i).next) rfl h0 hl]
  refine ⟨_, rfl, rfl, rfl, rfl, fun j e e' => ?_, ?_⟩
  · rw [setCtx_ne _ _ e', setCtx_ne _ _ e]
    rfl
  · rw [setCtx_same, setCtx_ne _ _ hi]
    rfl

theorem Same.trans {s s' s'' : S} {t u : List Ev} (x : Same s s' t) (y : Same s' s'' u) : Same s s'' (t ++ u) :=
  ⟨by rw [y.trace, x.trace, List.append_assoc], y.cur.trans x.cur, Nat.le_trans x.fresh y.fresh⟩

theorem Ok.after {pl : Place} {o : Option Name} {live : List Nat} {s s' : S} {t : List Ev} (h : Ok pl o live s)
    (hs : Same s s' t) (hc : ∀ j, j < s.fresh → s'.ctxs j = s.ctxs j) : Ok pl o live s' := by
  cases pl with
  | top => exact ⟨h.1, by rw [hs.cur]; exact Nat.lt_of_lt_of_le h.2 hs.fresh⟩
  | body c =>
    obtain ⟨h1, i, rest, h2, h3, h4, h5, h6⟩ := h
    exact ⟨h1, i, rest, h2, hs.cur.trans h3, h4, Nat.lt_of_lt_of_le h5 hs.fresh, by rw [hc i h5]; exact h6⟩
  | handler re =>
    obtain ⟨h1, i, rest, h2, h3, h4, h5, h6⟩ := h
    exact ⟨h1, i, rest, h2, hs.cur.trans h3, h4, Nat.lt_of_lt_of_le h5 hs.fresh, by rw [hc i h5]; exact h6⟩

theorem Ok.lt {pl : Place} {o : Option Name} {live : List Nat} {s : S} (h : Ok pl o live s) : s.cur < s.fresh := by
  cases pl with
  | top => exact h.2
  | body c => obtain ⟨-, i, rest, -, h3, -, h5, -⟩ := h; rw [h3]; exact h5
  | handler re => obtain ⟨-, i, rest, -, h3, -, h5, -⟩ := h; rw [h3]; exact h5

theorem mild_ok {junk : Nat → Msg × BitVec 32} (hj : JunkOk junk) (p : Prog) : ∀ (pl : Place) (o : Option Name)
    (live : List Nat) (s : S), p.mild pl = true → Ok pl o live s →
    ∃ r s', exec table junk p live s = (r, s') ∧ Post pl o s live (sem o p).1 r s' (sem o p).2 := by
  induction p with
  | skip =>
    intro pl o live s _ _
    exact ⟨_, _, rfl, by cases o <;> exact ⟨rfl, ⟨by simp [sem], rfl, Nat.le_refl _⟩, fun _ _ => rfl⟩⟩
  | say k =>
    intro pl o live s _ _
    exact ⟨_, _, rfl, by cases o <;> exact ⟨rfl, ⟨rfl, rfl, Nat.le_refl _⟩, fun _ _ => rfl⟩⟩
  | throw e =>
    intro pl o live s hm hok
    cases pl with
    | top => simp [Prog.mild] at hm
    | handler re => simp [Prog.mild] at hm
    | body c =>
      have hm : c.accepts e = true := by simpa [Prog.mild] using hm
      obtain ⟨rfl, i, rest, rfl, hcur, h0, hlt, -⟩ := hok
      subst hcur
      refine ⟨_, _, exThrow_live rfl h0 List.mem_cons_self _ _, panicCode, rfl, ⟨by simp [sem]; rfl, rfl, Nat.le_refl _⟩,
        fun j _ e => setCtx_ne _ _ e, by rw [setCtx_same], ?_, hm⟩
      rw [setCtx_same]
      exact ready_throw hm rfl rfl _
  | raise sig n =>
    intro pl o live s hm hok
    cases pl with
    | top => simp [Prog.mild] at hm
    | handler re => simp [Prog.mild] at hm
    | body c =>
      cases c with
      | one x => simp [Prog.mild] at hm
      | any =>
        obtain ⟨rfl, i, rest, rfl, hcur, h0, hlt, -⟩ := hok
        subst hcur
        simp only [exec]
        rw [if_pos (.inr List.mem_cons_self)]
        · have hx := exThrow_live (live := s.cur :: rest)
            (s := { s.setCtx s.cur { s.ctxs s.cur with caught := sig } with got := true }) (q := s.cur) rfl h0
            List.mem_cons_self (some n) .null
          refine ⟨_, _, hx, panicCode, rfl, ⟨by simp [sem]; rfl, rfl, Nat.le_refl _⟩, fun j _ e => ?_, ?_, ?_, rfl⟩
          · rw [setCtx_ne _ _ e]; exact setCtx_ne _ _ e
          · rw [setCtx_same]
            show ((S.setCtx _ s.cur _).ctxs s.cur).next = _
            rw [setCtx_same]
          · refine ready_raise ?_ ?_ _ <;> simp [S.setCtx]
  | fault code =>
    intro pl o live s hm hok
    cases pl with
    | top => simp [Prog.mild] at hm
    | handler re => simp [Prog.mild] at hm
    | body c =>
      cases c with
      | one x => simp [Prog.mild] at hm
      | any =>
        obtain ⟨rfl, i, rest, rfl, hcur, h0, hlt, hcg⟩ := hok
        subst hcur
        obtain ⟨n, hn⟩ := Option.isSome_iff_exists.1 (by simpa [Prog.mild] using hm : (faultName code).isSome = true)
        refine ⟨_, _, rfl, code, rfl, ⟨by simp [sem], rfl, Nat.le_refl _⟩, fun _ _ _ => rfl, rfl, ?_, rfl⟩
        rw [hn]
        exact ready_fault hn hcg _
  | rethrow =>
    intro pl o live s hm hok
    cases pl with
    | top => simp [Prog.mild] at hm
    | body c => simp [Prog.mild] at hm
    | handler re =>
      have hm : re = true := by simpa [Prog.mild] using hm
      obtain ⟨ho, i, rest, rfl, hcur, h0, hlt, hre⟩ := hok
      obtain ⟨n, rfl⟩ := Option.isSome_iff_exists.1 ho
      subst hcur
      simp only [exec]
      rw [if_pos (.inr (hre hm))]
      exact ⟨_, _, rfl, hm, rfl, rfl, ⟨by simp [sem]; rfl, rfl, Nat.le_refl _⟩, fun j _ e => setCtx_ne _ _ e, setCtx_same _ _ _⟩
  | seq a b iha ihb =>
    intro pl o live s hm hok
    have hm' : a.mild pl = true ∧ b.mild pl = true := by cases pl <;> simpa [Prog.mild] using hm
    obtain ⟨r, s1, h1, h2⟩ := iha pl o live s hm'.1 hok
    have hsem : sem o (.seq a b) = match sem o a with | (t, .done) => (t ++ (sem o b).1, (sem o b).2) | r => r := by
      cases o <;> rfl
    rw [hsem]
    cases he : sem o a with
    | mk t x =>
      rw [he] at h2
      cases x with
      | done =>
        obtain ⟨rfl, hs1, hc1⟩ := h2
        obtain ⟨r, s2, h3, h4⟩ := ihb pl o live s1 hm'.2 (hok.after hs1 hc1)
        refine ⟨r, s2, by simp only [exec, h1, h3], ?_⟩
        dsimp only
        cases hx : (sem o b).2 with
        | done =>
          rw [hx] at h4
          obtain ⟨rfl, hs2, hc2⟩ := h4
          exact ⟨rfl, hs1.trans hs2, fun j h => (hc2 j (Nat.lt_of_lt_of_le h hs1.fresh)).trans (hc1 j h)⟩
        | exn n =>
          rw [hx] at h4
          cases pl with
          | top => exact h4
          | body c =>
            obtain ⟨code, k1, k2, k3, k4, k5, k6⟩ := h4
            refine ⟨code, k1, hs1.trans k2, fun j h e => ?_, ?_, ?_, k6⟩
            · exact (k3 j (Nat.lt_of_lt_of_le h hs1.fresh) (by rw [hs1.cur]; exact e)).trans (hc1 j h)
            · rw [← hs1.cur, k4, hc1 _ (by rw [hs1.cur]; exact hok.lt)]
            · rw [← hs1.cur]; exact k5
          | handler re =>
            obtain ⟨k1, k2, k3, k4, k5, k6⟩ := h4
            refine ⟨k1, k2, by rw [k3, hs1.cur], hs1.trans k4, fun j h e => ?_, ?_⟩
            · exact (k5 j (Nat.lt_of_lt_of_le h hs1.fresh) (by rw [hs1.cur]; exact e)).trans (hc1 j h)
            · rw [← hs1.cur, k6, hc1 _ (by rw [hs1.cur]; exact hok.lt)]
      | exn n =>
        have hr : r ≠ .normal := by
          cases pl with
          | top => exact h2.elim
          | body c => obtain ⟨code, rfl, -⟩ := h2; exact fun h => by cases h
          | handler re => obtain ⟨-, -, rfl, -⟩ := h2; exact fun h => by cases h
        refine ⟨r, s1, ?_, h2⟩
        simp only [exec, h1]
        split
        · rename_i hx; cases hx; exact absurd rfl hr
        · rfl
  | tryCatch body c h k ihb ihh =>
    intro pl o live s hm hok
    have hm' : body.mild (.body c) = true ∧ h.mild (.handler (pl.welcomes c)) = true := by
      cases pl <;> simpa [Prog.mild] using hm
    have hlt := hok.lt
    have hsem : sem o (.tryCatch body c h k) = match sem none body with
        | (t, .done) => (t ++ [.fin k], .done)
        | (t, .exn n) =>
          if c.accepts n then (t ++ [.caught (.str n)] ++ (sem (some n) h).1 ++ [.fin k], (sem (some n) h).2)
          else (t ++ [.fin k], .exn n) := by
      cases o <;> rfl
    rw [hsem]
    generalize hs1 : ({ s.setCtx s.fresh ⟨none, (junk s.fresh).1, .try, false, (junk s.fresh).2, s.cur⟩ with
      cur := s.fresh, fresh := s.fresh + 1 } : S) = s1
    have hctx1 : s1.ctxs s.fresh = ⟨none, (junk s.fresh).1, .try, false, (junk s.fresh).2, s.cur⟩ := by
      rw [← hs1]; exact setCtx_same _ _ _
    have hold1 : ∀ j, j < s.fresh → s1.ctxs j = s.ctxs j := by
      intro j hj; rw [← hs1]; exact setCtx_ne _ _ (Nat.ne_of_lt hj)
    have hcur1 : s1.cur = s.fresh := by rw [← hs1]
    have hfr1 : s1.fresh = s.fresh + 1 := by rw [← hs1]
    have htr1 : s1.trace = s.trace := by rw [← hs1]; rfl
    obtain ⟨r, s2, h1, h2⟩ := ihb (.body c) none (s.fresh :: live) s1 hm'.1
      ⟨rfl, s.fresh, live, rfl, hcur1, by omega, by omega, by rw [hctx1]; exact hj s.fresh⟩
    have htry := exec_try junk body c h k live s (r := r) (s2 := s2) (by rw [hs1]; exact h1)
    cases he : sem none body with
    | mk t x =>
      rw [he] at h2
      cases x with
      | done =>
        obtain ⟨rfl, hsm, hc⟩ := h2
        have hci : s2.ctxs s.fresh = _ := (hc s.fresh (by omega)).trans hctx1
        obtain ⟨s', f1, f2, f3, f4, f5⟩ := finish_normal (live := live) (i := s.fresh) (k := k) (s := s2) (by rw [hci]; rfl)
        refine ⟨_, s', (htry.1 rfl).trans f1, rfl, ⟨?_, ?_, ?_⟩, fun j hj => ?_⟩
        · rw [f2, hsm.trace, htr1, List.append_assoc]
        · rw [f3, hci]
        · rw [f4]; exact Nat.le_trans (by omega) hsm.fresh
        · rw [f5 j (Nat.ne_of_lt hj), hc j (by omega), hold1 j hj]
      | exn n =>
        obtain ⟨code, rfl, hsm, hc, hnx, hrd, hacc⟩ := h2
        rw [hcur1] at hnx hrd hc
        simp only [hacc, if_true]
        generalize hy : (c.filter table s2.got code (s2.ctxs s.fresh)).2 = y at *
        have hynext : y.next = s.cur := by rw [← hy, hrd.next, hnx, hctx1]
        generalize hs3 : (s2.setCtx s.fresh { y with state := .catch }).add (.caught y.err) = s3 at *
        have hctx3 : s3.ctxs s.fresh = { y with state := .catch } := by rw [← hs3]; exact setCtx_same _ _ _
        have hold3 : ∀ j, j ≠ s.fresh → s3.ctxs j = s2.ctxs j := by
          intro j hj; rw [← hs3]; exact setCtx_ne _ _ hj
        have hcur3 : s3.cur = s.fresh := by rw [← hs3]; exact hsm.cur.trans hcur1
        have hfr3 : s3.fresh = s2.fresh := by rw [← hs3]; rfl
        have htr3 : s3.trace = s2.trace ++ [.caught (.str n)] := by
          rw [← hs3]
          show s2.trace ++ [.caught y.err] = _
          rw [← hy, hrd.err]
        have hfr2 := hsm.fresh
        rw [hfr1] at hfr2
        obtain ⟨r3, s4, h3, h4⟩ := ihh (.handler (pl.welcomes c)) (some n) (s.fresh :: live) s3 hm'.2
          ⟨rfl, s.fresh, live, rfl, hcur3, by omega, by omega, fun hre => by
            rw [hctx3]
            show y.rethrown = true
            rw [← hy]
            cases c with
            | any => cases pl <;> simp [Place.welcomes] at hre
            | one z => exact (hrd.one z rfl).1⟩
        have hh := htry.2 code rfl (hsm.cur.trans hcur1) hrd.run (by rw [hy, ← hy]; exact hrd.state) r3 s4
          (by rw [hy, hs3]; exact h3)
        cases hx : (sem (some n) h).2 with
        | done =>
          rw [hx] at h4
          obtain ⟨rfl, hsm4, hc4⟩ := h4
          have hci : s4.ctxs s.fresh = _ := (hc4 s.fresh (by omega)).trans hctx3
          obtain ⟨s', f1, f2, f3, f4, f5⟩ := finish_normal (live := live) (i := s.fresh) (k := k) (s := s4) (by rw [hci]; rfl)
          refine ⟨_, s', (hh.1 rfl).trans f1, rfl, ⟨?_, ?_, ?_⟩, fun j hj => ?_⟩
          · rw [f2, hsm4.trace, htr3, hsm.trace, htr1]
            simp only [List.append_assoc]
          · rw [f3, hci]; exact hynext
          · have := hsm4.fresh; omega
          · rw [f5 j (Nat.ne_of_lt hj), hc4 j (by omega), hold3 j (Nat.ne_of_lt hj), hc j (by omega) (Nat.ne_of_lt hj), hold1 j hj]
        | exn m =>
          rw [hx] at h4
          obtain ⟨hre, hmn, rfl, hsm4, hc4, hci4⟩ := h4
          cases hmn
          rw [hcur3, hctx3] at hci4
          rw [hcur3] at hc4
          -- the place welcomes it: a body, and the block is for one name
          cases pl with
          | top => cases c <;> simp [Place.welcomes] at hre
          | handler re => cases c <;> simp [Place.welcomes] at hre
          | body c' =>
            cases c with
            | any => simp [Place.welcomes] at hre
            | one z =>
              have hz : z = n := by simpa [Catch.accepts] using hacc
              subst hz
              have hacc' : c'.accepts z = true := hre
              obtain ⟨rfl, i0, rest, rfl, hi0, h00, hlt0, -⟩ := hok
              obtain ⟨g1, g2, g3⟩ := hrd.one z rfl
              rw [hy] at g1 g2 g3
              generalize hs5 : s4.setCtx s.fresh { s4.ctxs s.fresh with state := (s4.ctxs s.fresh).state.orThrow } = s5 at *
              have hctx5 : s5.ctxs s.fresh = { y with state := .both, rethrown := false } := by
                rw [← hs5, setCtx_same, hci4]; rfl
              have hold5 : ∀ j, j ≠ s.fresh → s5.ctxs j = s4.ctxs j := by
                intro j hj; rw [← hs5]; exact setCtx_ne _ _ hj
              have hn5 : (s5.ctxs s.fresh).next = s.cur := by rw [hctx5]; exact hynext
              obtain ⟨s', f1, f2, f3, f4, f5, f6⟩ := finish_thrown (live := i0 :: rest) (i := s.fresh) (k := k) (s := s5)
                (by rw [hctx5]; rfl) (by rw [hn5, hi0]; exact h00) (by rw [hn5, hi0]; exact List.mem_cons_self)
                (by rw [hn5]; omega)
              rw [hn5] at f3 f5 f6
              have hchain : ∀ j, j < s.fresh → s5.ctxs j = s.ctxs j := by
                intro j hj
                have hne := Nat.ne_of_lt hj
                rw [hold5 j hne, hc4 j (by omega) hne, hold3 j hne, hc j (by omega) hne, hold1 j hj]
              refine ⟨_, s', (hh.2 (by rw [hcur3])).trans f1, panicCode, rfl, ⟨?_, f3, ?_⟩, fun j hj e => ?_, ?_, ?_, hacc'⟩
              · have htr5 : s5.trace = s4.trace := by rw [← hs5]; rfl
                rw [f2, htr5, hsm4.trace, htr3, hsm.trace, htr1]
                simp only [List.append_assoc]
              · have hfr5 : s5.fresh = s4.fresh := by rw [← hs5]; rfl
                have := hsm4.fresh
                omega
              · rw [f5 j (Nat.ne_of_lt hj) e, hchain j hj]
              · rw [f6]
                show (s5.ctxs s.cur).next = _
                rw [hchain _ hlt]
              · rw [f6, hctx5]
                exact ready_throw (x := { s5.ctxs s.cur with ex := y.ex, panic := y.panic }) hacc' g3 g2 _

end Verif.Seh
