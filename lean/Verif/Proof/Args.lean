import Verif.Spec.Args
namespace Verif.Pk

theorem cons_ok {w : W} {cs : List (W × W)} {o : Out} {ws : List W} {ds : List (W × W)} (h : o = .ok ws ds) :
    o.cons w cs = .ok (w :: ws) (cs ++ ds) := by rw [h]; rfl

theorem member_char {w : BitVec 32} (h1 : -128 ≤ w.toInt) (h2 : w.toInt < 128) :
    (((w.setWidth 8).setWidth 64).setWidth 8).toInt = w.toInt := by
  have : (((w.setWidth 8).setWidth 64).setWidth 8 : BitVec 8) = w.setWidth 8 := by
    apply BitVec.eq_of_toNat_eq
    simp only [BitVec.toNat_setWidth]
    omega
  rw [this, BitVec.toInt_setWidth]
  rw [BitVec.toInt_eq_toNat_bmod] at *
  have hw := w.isLt
  simp only [Int.bmod] at *
  split at h1 <;> split <;> simp_all <;> omega

theorem member_i32 (w : BitVec 32) : ((w.setWidth 64).setWidth 32) = w := by
  apply BitVec.eq_of_toNat_eq
  simp only [BitVec.toNat_setWidth]
  have := w.isLt
  omega

/-- One slot. -/
theorem pack_one {c : Char} {a : Arg} (hf : fits c a) (hp : c ≠ 'p') (hs : a.short) (d : List Char) (as : List Arg) :
    ∃ w, pack (c :: d) (a :: as) = (pack d as).cons w [] ∧ member c w = a.value := by
  unfold fits at hf
  split at hf
  case h_10 => exact absurd rfl hp
  case h_11 w => exact ⟨_, rfl, member_char hf.1 hf.2⟩
  case h_12 => exact hf.elim
  case h_3 w => exact ⟨_, rfl, by show (((w.setWidth 64).setWidth 32 : BitVec 32).toNat : Int) = _; rw [member_i32]; rfl⟩
  case h_4 w => exact ⟨_, rfl, by show ((w.setWidth 64).setWidth 32 : BitVec 32).toInt = _; rw [member_i32]; rfl⟩
  case h_6 p len =>
    refine ⟨p, ?_, rfl⟩
    have : ¬ valueSize < len := by have : len ≤ 272 := hs; unfold valueSize; omega
    show (if valueSize < len then Out.wild else _) = _
    rw [if_neg this]
  all_goals exact ⟨_, rfl, rfl⟩

theorem pack_values (d : List Char) : ∀ (as : List Arg), Fit d as → 'p' ∉ d → (∀ a ∈ as, a.short) →
    ∃ ws, pack d as = .ok ws [] ∧ ws.length = d.length ∧
      ∀ (k : Nat) (c : Char) (a : Arg), d[k]? = some c → as[k]? = some a → ∃ w, ws[k]? = some w ∧ member c w = a.value := by
  induction d with
  | nil => intro as _ _ _; exact ⟨[], by simp [pack], rfl, fun k c a h _ => by simp at h⟩
  | cons c d ih =>
    intro as hf hp hs
    cases as with
    | nil => exact hf.elim
    | cons a as =>
      obtain ⟨h1, h2⟩ := hf
      obtain ⟨w, e1, e2⟩ := pack_one h1 (fun h => hp (by simp [h])) (hs a List.mem_cons_self) d as
      obtain ⟨ws, i1, i2, i3⟩ := ih as h2 (fun h => hp (List.mem_cons_of_mem _ h)) (fun a h => hs a (List.mem_cons_of_mem _ h))
      refine ⟨w :: ws, by rw [e1, cons_ok i1]; rfl, by simp [i2], ?_⟩
      intro k c' a' hc ha
      cases k with
      | zero =>
        simp only [List.getElem?_cons_zero, Option.some.injEq] at hc ha
        rw [← hc, ← ha]
        exact ⟨w, rfl, e2⟩
      | succ k => exact i3 k c' a' hc ha

theorem fallback_wild {o : W} {k : List Arg → Out} {as : List Arg} (h : ∀ a bs, as = a :: bs → k bs = .wild) : fallback o k as = .wild := by
  cases as with
  | nil => rfl
  | cons a bs =>
    have hb := h a bs rfl
    simp only [fallback]
    cases a.pointer with
    | none => rfl
    | some p =>
      dsimp only
      rw [hb]
      split <;> rfl

theorem fallback_zero (k : List Arg → Out) (as : List Arg) : fallback 0 k as = .wild := by
  cases as with
  | nil => rfl
  | cons a bs =>
    simp only [fallback]
    cases a.pointer <;> simp

theorem Out.cons_wild (w : W) (cs : List (W × W)) : (Out.wild).cons w cs = .wild := rfl

/-- With fewer arguments than format characters, it runs out. -/
theorem pack_few (d : List Char) : ∀ (as : List Arg), as.length < d.length → pack d as = .wild := by
  induction d with
  | nil => intro as h; simp at h
  | cons c d ih =>
    intro as h
    cases as with
    | nil =>
      unfold pack
      split <;> first | rfl | (split <;> rfl) | simp_all
    | cons a as =>
      have hl : as.length < d.length := by simpa using h
      have hx := ih as hl
      have hk : ∀ o (bs : List Arg), bs.length < d.length → fallback o (pack d) bs = .wild := by
        intro o bs hb
        refine fallback_wild fun a cs e => ih cs ?_
        rw [e] at hb
        simp at hb
        omega
      unfold pack
      split
      all_goals first
        | (simp_all [Out.cons_wild]; done)
        | skip
      · next h1 h2 =>
        cases h1
        cases h2
        split
        · exact hk _ _ hl
        · rfl
      · split
        · rfl
        · exact fallback_zero _ _

theorem Fit.length {d : List Char} : ∀ {as : List Arg}, Fit d as → as.length = d.length := by
  induction d with
  | nil => intro as h; cases as with
    | nil => rfl
    | cons => exact h.elim
  | cons c d ih => intro as h; cases as with
    | nil => exact h.elim
    | cons a as => simp [ih h.2]

/-- A slot that does not use `p`: it consumes one argument. -/
theorem pack_cons {c : Char} {a : Arg} (hf : fits c a) (hp : c ≠ 'p') (d : List Char) (as : List Arg) :
    pack (c :: d) (a :: as) = .wild ∨ ∃ w, pack (c :: d) (a :: as) = (pack d as).cons w [] := by
  by_cases hs : a.short
  · obtain ⟨w, h, _⟩ := pack_one hf hp hs d as
    exact .inr ⟨w, h⟩
  · cases a with
    | str p len =>
      left
      unfold fits at hf
      split at hf <;> simp_all [Arg.short, pack, valueSize]
    | _ => exact absurd trivial hs

theorem pack_p (d : List Char) : ∀ (as : List Arg), Fit d as → 'p' ∈ d → pack d as = .wild := by
  induction d with
  | nil => intro as _ h; cases h
  | cons c d ih =>
    intro as hf hm
    cases as with
    | nil => exact hf.elim
    | cons a as =>
      obtain ⟨h1, h2⟩ := hf
      by_cases hc : c = 'p'
      · subst hc
        have hl := h2.length
        have : ∀ o, fallback o (pack d) as = .wild := fun o => fallback_wild fun x bs e => pack_few d bs (by
          rw [e] at hl; simp at hl; omega)
        cases a with
        | ptr p => exact this p
        | _ => exact h1.elim
      · rcases pack_cons h1 hc d as with h | ⟨w, h⟩
        · exact h
        · rw [h, ih as h2 (by
            rcases List.mem_cons.mp hm with h | h
            · exact absurd h.symm hc
            · exact h)]
          rfl

theorem pack_long (d : List Char) : ∀ (as : List Arg), Fit d as → (∃ a ∈ as, ¬ a.short) → pack d as = .wild := by
  induction d with
  | nil => intro as hf h; cases as with
    | nil => obtain ⟨a, h, _⟩ := h; cases h
    | cons => exact hf.elim
  | cons c d ih =>
    intro as hf hm
    cases as with
    | nil => exact hf.elim
    | cons a as =>
      obtain ⟨h1, h2⟩ := hf
      by_cases hc : c = 'p'
      · exact pack_p _ _ ⟨h1, h2⟩ (by simp [hc])
      · by_cases hs : a.short
        · rcases pack_cons h1 hc d as with h | ⟨w, h⟩
          · exact h
          · obtain ⟨x, hx, hn⟩ := hm
            rw [h, ih as h2 ⟨x, by
              rcases List.mem_cons.mp hx with h | h
              · exact absurd hs (h ▸ hn)
              · exact h, hn⟩]
            rfl
        · cases a with
          | str p len => unfold fits at h1; split at h1 <;> simp_all [Arg.short, pack, valueSize]
          | _ => exact absurd trivial hs

theorem sign_small {k : Nat} (h : k < 2 ^ 31) : ((BitVec.ofNat 32 k).signExtend 64).toNat = k := by
  rw [BitVec.toNat_signExtend]
  have : (BitVec.ofNat 32 k).msb = false := by
    rw [BitVec.msb_eq_decide]
    simp
    omega
  rw [this]
  simp
  omega

/-! ## Releasing -/

/-- All the deferred packs of the scopes below `n`. -/
structure Inv (st : St) : Prop where
  /-- A pack is deferred or freed at most once, and only if the mark is set. -/
  once : ∀ p s, (st.defers s).count p + st.freed.count p ≤ 1
  apart : ∀ p s t, p ∈ st.defers s → p ∈ st.defers t → s = t
  marked : ∀ p, st.set p = true ↔ p ∈ st.freed ∨ ∃ s, p ∈ st.defers s

theorem Inv.start (ctx : Nat → Option Nat) : Inv (start ctx) := by
  refine ⟨?_, ?_, ?_⟩ <;> simp [Pk.start]

theorem getDefer_set {st : St} {sc : Option Nat} {p : Nat} (h : st.set p = true) : getDefer sc p st = st := by
  unfold getDefer; rw [if_pos h]

/-- The scope that will release the pack. -/
def owner (st : St) (sc : Option Nat) (p : Nat) : Nat :=
  match sc with
  | some s => s
  | none => (st.ctx p).getD 0

theorem getDefer_new {st : St} {sc : Option Nat} {p : Nat} (h : st.set p = false) :
    getDefer sc p st = { st with
      set := fun q => if q = p then true else st.set q
      defers := fun t => if t = owner st sc p then p :: st.defers t else st.defers t } := by
  unfold getDefer; rw [if_neg (by simp [h])]; cases sc <;> rfl

theorem Inv.step {st : St} (h : Inv st) (o : Op) : Inv (step st o) := by
  cases o with
  | get sc p =>
    show Inv (getDefer sc p st)
    cases hs : st.set p with
    | true => rw [getDefer_set hs]; exact h
    | false =>
      have hn : ¬ (p ∈ st.freed ∨ ∃ s, p ∈ st.defers s) := fun x => by
        have := (h.marked p).2 x; rw [hs] at this; cases this
      have hf : p ∉ st.freed := fun x => hn (.inl x)
      have hd : ∀ s, p ∉ st.defers s := fun s x => hn (.inr ⟨s, x⟩)
      rw [getDefer_new hs]
      generalize owner st sc p = k
      refine ⟨fun q s => ?_, fun q s t => ?_, fun q => ?_⟩
      · dsimp only
        split
        · by_cases hq : q = p
          · subst hq
            rw [List.count_cons_self, List.count_eq_zero_of_not_mem (hd s), List.count_eq_zero_of_not_mem hf]
            omega
          · rw [List.count_cons_of_ne (Ne.symm hq)]; exact h.once q s
        · exact h.once q s
      · dsimp only
        intro h1 h2
        by_cases hq : q = p
        · subst hq
          have a1 : s = k := by
            by_cases e : s = k
            · exact e
            · rw [if_neg e] at h1; exact absurd h1 (hd s)
          have a2 : t = k := by
            by_cases e : t = k
            · exact e
            · rw [if_neg e] at h2; exact absurd h2 (hd t)
          rw [a1, a2]
        · refine h.apart q s t ?_ ?_
          · split at h1
            · exact (List.mem_cons.mp h1).resolve_left hq
            · exact h1
          · split at h2
            · exact (List.mem_cons.mp h2).resolve_left hq
            · exact h2
      · dsimp only
        by_cases hq : q = p
        · subst hq
          rw [if_pos rfl]
          exact ⟨fun _ => .inr ⟨k, by rw [if_pos rfl]; exact List.mem_cons_self⟩, fun _ => rfl⟩
        · rw [if_neg hq, h.marked q]
          refine or_congr Iff.rfl (exists_congr fun s => ?_)
          split
          · simp [hq]
          · exact Iff.rfl
  | leave k =>
    show Inv (leave k st)
    refine ⟨fun q s => ?_, fun q s t => ?_, fun q => ?_⟩
    · simp only [leave, List.count_append]
      have a := h.once q s
      have b := h.once q k
      split
      · simp; omega
      · next hk =>
        by_cases hm : q ∈ st.defers s
        · have : q ∉ st.defers k := fun x => hk (h.apart q s k hm x)
          rw [List.count_eq_zero_of_not_mem this]; omega
        · rw [List.count_eq_zero_of_not_mem hm]; omega
    · simp only [leave]
      intro h1 h2
      split at h1
      · simp at h1
      · split at h2
        · simp at h2
        · exact h.apart q s t h1 h2
    · simp only [leave, List.mem_append]
      rw [h.marked q]
      constructor
      · rintro (x | ⟨s, x⟩)
        · exact .inl (.inl x)
        · by_cases e : s = k
          · subst e; exact .inl (.inr x)
          · exact .inr ⟨s, by rw [if_neg e]; exact x⟩
      · rintro ((x | x) | ⟨s, x⟩)
        · exact .inl x
        · exact .inr ⟨k, x⟩
        · split at x
          · simp at x
          · exact .inr ⟨s, x⟩

theorem Inv.run {h : List Op} : ∀ {st : St}, Inv st → Inv (run st h) := by
  induction h with
  | nil => intro st i; exact i
  | cons o h ih => intro st i; exact ih (i.step o)

theorem step_set {st : St} {p : Nat} (h : st.set p = true) (o : Op) : (step st o).set p = true := by
  cases o with
  | get sc q =>
    show (getDefer sc q st).set p = true
    cases hs : st.set q with
    | true => rw [getDefer_set hs]; exact h
    | false => rw [getDefer_new hs]; dsimp only; split <;> simp_all
  | leave k => exact h

theorem run_set {h : List Op} : ∀ {st : St} {p : Nat}, (st.set p = true ∨ h.any (Op.used p) = true) → (run st h).set p = true := by
  induction h with
  | nil => intro st p i; exact i.resolve_right (by simp)
  | cons o h ih =>
    intro st p i
    refine ih ?_
    rcases i with i | i
    · exact .inl (step_set i o)
    · rw [List.any_cons] at i
      cases ho : Op.used p o with
      | false => rw [ho] at i; exact .inr (by simpa using i)
      | true =>
        left
        cases o with
        | leave k => cases ho
        | get sc q =>
          have : q = p := by simpa [Op.used] using ho
          subst this
          show (getDefer sc q st).set q = true
          cases hs : st.set q with
          | true => rw [getDefer_set hs]; exact hs
          | false => rw [getDefer_new hs]; simp

theorem run_set_iff {h : List Op} : ∀ {st : St} {p : Nat}, (run st h).set p = true → st.set p = true ∨ h.any (Op.used p) = true := by
  induction h with
  | nil => intro st p i; exact .inl i
  | cons o h ih =>
    intro st p i
    rcases ih i with j | j
    · cases o with
      | leave k => exact .inl j
      | get sc q =>
        cases hs : st.set q with
        | true => rw [show step st (.get sc q) = st from getDefer_set hs] at j; exact .inl j
        | false =>
          rw [show step st (.get sc q) = _ from getDefer_new hs] at j
          by_cases e : p = q
          · right; simp [Op.used, e]
          · left; simpa [e] using j
    · right; rw [List.any_cons, j, Bool.or_true]

theorem step_ctx (st : St) (o : Op) : (step st o).ctx = st.ctx := by
  cases o with
  | get sc q =>
    show (getDefer sc q st).ctx = _
    cases hs : st.set q with
    | true => rw [getDefer_set hs]
    | false => rw [getDefer_new hs]
  | leave k => rfl

theorem run_ctx {h : List Op} : ∀ {st : St}, (run st h).ctx = st.ctx := by
  induction h with
  | nil => intro st; rfl
  | cons o h ih => intro st; exact (ih (st := step st o)).trans (step_ctx st o)

/-- Nothing but leaving the scope takes a deferral away. -/
theorem run_stays {h : List Op} {s p : Nat} (hl : ∀ o ∈ h, o ≠ .leave s) : ∀ {st : St}, p ∈ st.defers s → p ∈ (run st h).defers s := by
  induction h with
  | nil => intro st i; exact i
  | cons o h ih =>
    intro st i
    refine ih (fun o m => hl o (List.mem_cons_of_mem _ m)) ?_
    cases o with
    | get sc q =>
      show p ∈ (getDefer sc q st).defers s
      cases hs : st.set q with
      | true => rw [getDefer_set hs]; exact i
      | false =>
        rw [getDefer_new hs]
        dsimp only
        split
        · exact List.mem_cons_of_mem _ i
        · exact i
    | leave k =>
      have : s ≠ k := fun e => hl (.leave k) List.mem_cons_self (by rw [e])
      show p ∈ if s = k then [] else st.defers s
      rw [if_neg this]
      exact i

theorem owner_eq {st : St} {ctx : Nat → Option Nat} (h : st.ctx = ctx) (sc : Option Nat) (p : Nat) : owner st sc p = releaser ctx sc p := by
  unfold owner releaser
  rw [h]
  cases sc with
  | some s => rfl
  | none => cases ctx p <;> rfl

theorem run_freed {h : List Op} {p : Nat} : ∀ {st : St}, p ∈ st.freed → p ∈ (run st h).freed := by
  induction h with
  | nil => intro st i; exact i
  | cons o h ih =>
    intro st i
    refine ih ?_
    cases o with
    | get sc q =>
      show p ∈ (getDefer sc q st).freed
      cases hs : st.set q with
      | true => rw [getDefer_set hs]; exact i
      | false => rw [getDefer_new hs]; exact i
    | leave k => exact List.mem_append_left _ i

theorem run_append (st : St) (a b : List Op) : run st (a ++ b) = run (run st a) b := List.foldl_append ..

end Verif.Pk
