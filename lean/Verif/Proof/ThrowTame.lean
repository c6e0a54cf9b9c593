import Verif.Proof.ThrowMem
/-!
# Throwing and scoped memory: the histories that go well
-/
namespace Verif.Tm

abbrev Fr := List (Nat × Nat × Nat)

/-- The list of protected pointers at `p` is exactly `fr`. -/
def Chain (recs : Rid → Option Rec) : Option Rid → Fr → Prop
  | p, [] => p = none
  | p, x :: fr => p = some (.user x.1) ∧ ∃ nx, recs (.user x.1) = some ⟨nx, x.2.2, x.2.1, true⟩ ∧ Chain recs nx fr

/-- One context: if no scoped memory was touched in its block its list is `fr`; in any case the local
records exist. -/
def FrOk (recs : Rid → Option Rec) (d : Bool) (c : Ctx) (fr : Fr) : Prop :=
  (d = false → Chain recs c.stack fr) ∧ ∀ x ∈ fr, (recs (.user x.1)).isSome

def FrsOk (recs : Rid → Option Rec) : List Bool → List Ctx → List Fr → Prop
  | [], [], [] => True
  | d :: ds, c :: cs, fr :: frs => FrOk recs d c fr ∧ FrsOk recs ds cs frs
  | _, _, _ => False

/-- Only the last context knows the thread's scope. -/
def RaiiOk (b : Bool) : Ctx → List Ctx → Prop
  | c, [] => c.isRaii = b
  | c, c' :: cs => c.isRaii = false ∧ RaiiOk b c' cs

def names (frs : List Fr) : List Nat := frs.flatten.map (·.1)

structure I (st : St) (x : A) (d : Bool) (ds : List Bool) : Prop where
  over : st.over = false
  over' : x.over = false
  mem : st.mem = x.mem
  out : st.trace = x.out
  top : FrOk st.recs d st.cur x.frame
  rest : FrsOk st.recs ds st.outer x.outer
  nodup : (names (x.frame :: x.outer)).Nodup
  raii : RaiiOk (st.scopes 0).isSome st.cur st.outer
  scopes : ∀ s, x.scopes s = (st.scopes s).map (·.entries)
  good : ∀ s sc, st.scopes s = some sc → sc.ok = true ∧ sc.err = false ∧ sc.isProtected = sc.protector.isSome ∧
    (sc.protector = none → sc.entries = [])
  g : G st

theorem Chain.congr {recs recs' : Rid → Option Rec} : ∀ {p : Option Rid} {fr : Fr},
    (∀ x ∈ fr, recs' (.user x.1) = recs (.user x.1)) → Chain recs p fr → Chain recs' p fr
  | _, [], _, h => h
  | _, x :: fr, k, ⟨h1, nx, h2, h3⟩ =>
    ⟨h1, nx, by rw [k x (.head _)]; exact h2, Chain.congr (fun y hy => k y (.tail _ hy)) h3⟩

theorem FrOk.congr {recs recs' : Rid → Option Rec} {d : Bool} {c : Ctx} {fr : Fr}
    (k : ∀ x ∈ fr, recs' (.user x.1) = recs (.user x.1)) (h : FrOk recs d c fr) : FrOk recs' d c fr :=
  ⟨fun e => (h.1 e).congr k, fun x hx => by rw [k x hx]; exact h.2 x hx⟩

theorem FrsOk.congr {recs recs' : Rid → Option Rec} : ∀ {ds : List Bool} {cs : List Ctx} {frs : List Fr},
    (∀ fr ∈ frs, ∀ x ∈ fr, recs' (.user x.1) = recs (.user x.1)) → FrsOk recs ds cs frs → FrsOk recs' ds cs frs
  | [], [], [], _, _ => trivial
  | _ :: _, _ :: _, fr :: _, k, h =>
    ⟨h.1.congr (k fr (.head _)), FrsOk.congr (fun fr' hf => k fr' (.tail _ hf)) h.2⟩
  | [], [], _ :: _, _, h => h.elim
  | [], _ :: _, _, _, h => h.elim
  | _ :: _, [], _, _, h => h.elim
  | _ :: _, _ :: _, [], _, h => h.elim

theorem FrsOk.nil {recs : Rid → Option Rec} {ds : List Bool} {cs : List Ctx} {frs : List Fr} (h : FrsOk recs ds cs frs) :
    cs = [] ↔ frs = [] := by
  cases ds <;> cases cs <;> cases frs <;> simp_all [FrsOk]

/-- Marking a context as touched. -/
theorem FrOk.touch {recs : Rid → Option Rec} {d : Bool} {c c' : Ctx} {fr : Fr} (h : FrOk recs d c fr) :
    FrOk recs true c' fr := ⟨(fun e => by cases e), h.2⟩

theorem walk_chain {n : Nat} : ∀ {fr : Fr} {st : St} {p : Option Rid} {t : Nat}, Chain st.recs p fr →
    (fr.map (·.1)).Nodup → Apart t (fr.map fun x => st.mem x.2.1) → fr.length ≤ n →
    ∃ st', walk st n p t = some (some st') ∧ st'.trace = st.trace ++ fr.map (fun x => (x.2.2, st.mem x.2.1)) ∧
      (∀ r, (∀ x ∈ fr, r ≠ .user x.1) → st'.recs r = st.recs r) := by
  induction n with
  | zero =>
    intro fr st p t h1 _ _ h4
    cases fr with
    | nil => cases h1; exact ⟨st, rfl, by simp, fun _ _ => rfl⟩
    | cons => simp at h4
  | succ n ih =>
    intro fr st p t h1 h2 h3 h4
    cases fr with
    | nil => cases h1; exact ⟨st, rfl, by simp, fun _ _ => rfl⟩
    | cons x fr =>
      obtain ⟨rfl, nx, e1, e2⟩ := h1
      obtain ⟨a1, a2, a3⟩ := h3
      simp only [List.map_cons, List.nodup_cons] at h2
      have hne : ∀ y ∈ fr, Rid.user y.1 ≠ Rid.user x.1 := by
        intro y hy e
        exact h2.1 (List.mem_map.mpr ⟨y, hy, Rid.user.inj e⟩)
      rw [walk, e1]
      simp only [if_true]
      rw [if_neg (Ne.symm a2), if_neg a1]
      obtain ⟨st', w1, w2, w3⟩ := ih (fr := fr)
        (st := { st.setRec (.user x.1) (some ⟨nx, x.2.2, x.2.1, false⟩) with
                 trace := st.trace ++ [(x.2.2, st.mem x.2.1)] }) (p := nx) (t := st.mem x.2.1)
        (e2.congr (fun y hy => by simp only [St.setRec]; rw [if_neg (hne y hy)])) h2.2 a3
        (by simp at h4; omega)
      refine ⟨st', w1, ?_, ?_⟩
      · rw [w2]; simp [St.setRec]
      · intro r hr
        rw [w3 r (fun y hy => hr y (.tail _ hy))]
        simp only [St.setRec]
        rw [if_neg (hr x (.head _))]

theorem RaiiOk.of_flags {b : Bool} {c c' : Ctx} {cs : List Ctx} (h : RaiiOk b c cs) (e : c'.isRaii = c.isRaii) :
    RaiiOk b c' cs := by
  cases cs with
  | nil => exact e.trans h
  | cons c2 cs => exact ⟨e.trans h.1, h.2⟩

theorem RaiiOk.root {b : Bool} {c : Ctx} (h : RaiiOk b c []) : c.isRaii = b := h

theorem RaiiOk.inner {b : Bool} {c : Ctx} {cs : List Ctx} (h : RaiiOk b c cs) (hn : cs ≠ []) : c.isRaii = false := by
  cases cs with
  | nil => exact absurd rfl hn
  | cons => exact h.1

theorem names_cons (fr : Fr) (frs : List Fr) : names (fr :: frs) = fr.map (·.1) ++ names frs := by simp [names]

theorem mem_names {frs : List Fr} {r : Nat} : r ∈ names frs ↔ ∃ fr ∈ frs, ∃ x ∈ fr, x.1 = r := by
  simp only [names, List.mem_map, List.mem_flatten]
  constructor
  · rintro ⟨x, ⟨fr, h1, h2⟩, h3⟩; exact ⟨fr, h1, x, h2, h3⟩
  · rintro ⟨fr, h1, x, h2, h3⟩; exact ⟨x, ⟨fr, h1, h2⟩, h3⟩

/-- After the end only what was released matters. -/
def Done (st : St) (x : A) : Prop := st.over = true ∧ x.over = true ∧ st.trace = x.out

/-- Deleting a scope (not the thread's), or releasing the thread's at the end. -/
theorem I.scopeInfo {st : St} {x : A} {d : Bool} {ds : List Bool} (i : I st x d ds) {s : Nat} {sc : Scope}
    (h : st.scopes s = some sc) : x.scopes s = some sc.entries ∧ sc.ok = true := by
  refine ⟨by rw [i.scopes s, h]; rfl, (i.good s sc h).1⟩

theorem user_ne_prot {st : St} {x : A} {d : Bool} {ds : List Bool} (i : I st x d ds) {s : Nat} {sc : Scope}
    (h : st.scopes s = some sc) (r : Nat) : some (Rid.user r) ≠ sc.protector := by
  intro e
  obtain ⟨k, hk, _⟩ := i.g.live s sc _ h e.symm
  cases hk

theorem atExit_done {st : St} {x : A} (g : G st) (ho : st.trace = x.out)
    (hs : ∀ sc, st.scopes 0 = some sc → x.blocks 0 = if sc.ok then sc.entries else [])
    (hn : st.scopes 0 = none → x.blocks 0 = []) :
    ∃ st', atExit st = some st' ∧ Done st' x.finish := by
  unfold atExit
  cases h : st.scopes 0 with
  | none => exact ⟨_, rfl, rfl, rfl, by simp [A.finish, hn h, ho]⟩
  | some sc =>
    obtain ⟨st', e1, e2, _⟩ := delete_ok g h
    refine ⟨{ st' with over := true }, by simp [e1], rfl, rfl, ?_⟩
    show st'.trace = x.out ++ x.blocks 0
    rw [e2, hs sc h, ho]

theorem I.finish {st : St} {x : A} {d : Bool} {ds : List Bool} (i : I st x d ds) :
    ∃ st', atExit st = some st' ∧ Done st' x.finish := by
  refine atExit_done i.g i.out ?_ ?_
  · intro sc h
    obtain ⟨h1, h2⟩ := i.scopeInfo h
    simp [A.blocks, h1, h2]
  · intro h
    simp [A.blocks, i.scopes 0, h]

theorem I.throwRoot {n : Nat} {st : St} {x : A} {d : Bool} {ds : List Bool} (i : I st x d ds) (hn : x.frame.length ≤ n)
    (hr : x.outer = []) (hf : x.frame = []) (hd : d = false ∨ x.blocks 0 ≠ []) :
    ∃ st', throw n st = some (some st') ∧ Done st' (x.step .throw) := by
  have hr' : st.outer = [] := (i.rest.nil).mpr hr
  have hraii : st.cur.isRaii = (st.scopes 0).isSome := by have := i.raii; rw [hr'] at this; exact this
  have hx : x.step .throw = x.finish := by
    have e : { x with out := x.out ++ x.owed, frame := [] } = x := by
      cases x; simp_all [A.owed]
    simp only [A.step, hr, if_true]
    rw [← hr, e]
  rw [hx]
  unfold throw
  cases hs : st.scopes 0 with
  | none =>
    -- no thread scope: the list of protected pointers is empty
    have hd0 : d = false := by
      rcases hd with h | h
      · exact h
      · exact absurd (by simp [A.blocks, i.scopes 0, hs]) h
    have hraii0 : st.cur.isRaii = false := by rw [hraii, hs]; rfl
    have hst : st.cur.stack = none := by
      have := i.top.1 hd0
      rw [hf] at this; exact this
    have e1 : throwSet st = (st, false) := by unfold throwSet; simp [hraii0]
    have e2 : unwindStack n st false = some (some (st.setStack none)) := by
      unfold unwindStack
      cases n <;> simp [hst, walk]
    rw [e1]
    dsimp only
    rw [e2]
    dsimp only
    have e3 : terminate (st.setStack none) = atExit (st.setStack none) := by
      unfold terminate
      simp [St.setStack, hr', hraii0]
    rw [e3]
    obtain ⟨st', a, b⟩ := atExit_done (x := x) (i.g.congr (st' := st.setStack none) rfl rfl (fun _ h => h))
      (by exact i.out) (by intro sc h; simp [St.setStack, hs] at h) (by intro _; simp [A.blocks, i.scopes 0, hs])
    exact ⟨st', by rw [a]; rfl, b⟩
  | some sc =>
    obtain ⟨h1, h2⟩ := i.scopeInfo hs
    have hraii1 : st.cur.isRaii = true := by rw [hraii, hs]; rfl
    have hb : x.blocks 0 = sc.entries := by simp [A.blocks, h1]
    have e1 : throwSet st = (st.setScope 0 (some { sc with err := true }), sc.isProtected) := by
      unfold throwSet unwindSet raiiInit
      simp [hraii1, hs]
    have g1 : G (st.setScope 0 (some { sc with err := true })) := i.g.setScope 0 _ (.inr ⟨sc, hs, rfl, rfl⟩)
    by_cases hp : sc.isProtected = true
    · rw [e1.trans (congrArg (Prod.mk _) hp)]
      dsimp only
      obtain ⟨st1, f1, f2, f3, sc', f4, f5, f6, f7⟩ := deferredFree_ok
        (st := st.setScope 0 (some { sc with err := true })) (s := 0) (sc := { sc with err := true })
        (by simp [St.setScope]) h2 (fun r hr0 => by
          obtain ⟨k, _, _, a, b⟩ := g1.live 0 _ r (by simp [St.setScope]) hr0; exact ⟨a, b⟩)
      have g2 : G st1 := g1.deferredFree0 f1
      have e2 : unwindStack n (st.setScope 0 (some { sc with err := true })) true = some (some (st1.setStack none)) := by
        unfold unwindStack
        rw [f1]; rfl
      rw [e2]
      dsimp only
      have e4 : delete (st1.setStack none) 0 = some (st1.setStack none) := by
        unfold delete
        rw [deferredFree_not (sc := sc') (by simp [St.setStack, f4]) f5]
        simp
      have e3 : terminate (st1.setStack none) = atExit (st1.setStack none) := by
        unfold terminate
        have h5 : (st1.setStack none).outer = [] := by
          show st1.outer = []
          rw [f3.outer]; exact hr'
        rw [if_pos h5]
        split
        · rw [e4]; rfl
        · rfl
      rw [e3]
      unfold atExit
      have h6 : (st1.setStack none).scopes 0 = some sc' := f4
      rw [h6]
      dsimp only
      rw [e4]
      refine ⟨_, rfl, rfl, rfl, ?_⟩
      show st1.trace = x.out ++ x.blocks 0
      rw [f2, hb, ← i.out]; rfl
    · have hp : sc.isProtected = false := by simpa using hp
      rw [e1.trans (congrArg (Prod.mk _) hp)]
      dsimp only
      have hnone : sc.protector = none := by
        have := (i.good 0 sc hs).2.2.1
        rw [hp] at this
        cases hq : sc.protector with
        | none => rfl
        | some _ => rw [hq] at this; cases this
      have hent : sc.entries = [] := (i.good 0 sc hs).2.2.2 hnone
      have hd0 : d = false := by
        rcases hd with h | h
        · exact h
        · exact absurd (hb.trans hent) h
      have hst : st.cur.stack = none := by
        have := i.top.1 hd0
        rw [hf] at this; exact this
      have e2 : unwindStack n (st.setScope 0 (some { sc with err := true })) false =
          some (some ((st.setScope 0 (some { sc with err := true })).setStack none)) := by
        unfold unwindStack
        have : (st.setScope 0 (some { sc with err := true })).cur.stack = none := hst
        cases n <;> simp [this, walk]
      rw [e2]
      dsimp only
      have g3 := g1.congr (st' := (st.setScope 0 (some { sc with err := true })).setStack none) rfl rfl (fun _ h => h)
      obtain ⟨st2, k1, k2, k3, k4, k5, k6, k7, k8, k9, k10, k11, g4⟩ := delete_ok g3 (s := 0)
        (sc := { sc with err := true }) (by simp [St.setScope, St.setStack])
      obtain ⟨sc2, l1, l2⟩ := k11 rfl
      have e3 : terminate ((st.setScope 0 (some { sc with err := true })).setStack none) = atExit st2 := by
        unfold terminate
        have h5 : ((st.setScope 0 (some { sc with err := true })).setStack none).outer = [] := hr'
        have h6 : ((st.setScope 0 (some { sc with err := true })).setStack none).cur.isRaii = true := hraii1
        rw [if_pos h5, if_pos h6, k1]
        rfl
      rw [e3]
      obtain ⟨st', a, b⟩ := atExit_done (x := x) g4
        (by rw [k2]; simp [hent, h2]; exact i.out)
        (by intro sc3 h3; rw [l1] at h3; cases h3; rw [l2]; rw [hb, hent]; rfl)
        (by intro h; rw [l1] at h; cases h)
      exact ⟨st', by rw [a]; rfl, b⟩

theorem I.throwInner {n : Nat} {st : St} {x : A} {ds : List Bool} (i : I st x false ds) (hn : x.frame.length ≤ n)
    (hr : x.outer ≠ []) (hv : Apart 0 (x.frame.map fun p => x.mem p.2.1)) :
    ∃ st', throw n st = some (some st') ∧ I st' (x.step .throw) false ds := by
  have hr' : st.outer ≠ [] := fun e => hr ((i.rest.nil).mp e)
  have hraii := i.raii.inner hr'
  have e1 : throwSet st = (st, false) := by unfold throwSet; simp [hraii]
  have nd := i.nodup
  rw [names_cons, List.nodup_append] at nd
  obtain ⟨st1, w1, w2, w3⟩ := walk_chain (n := n) (i.top.1 rfl) nd.1 (t := 0) (by rw [i.mem]; exact hv) hn
  obtain ⟨k1, k2, k3, k4, k5, k6, k7⟩ := walk_keeps w1
  have e2 : unwindStack n st false = some (some (st1.setStack none)) := by
    unfold unwindStack
    simp [w1]
  have e3 : terminate (st1.setStack none) = some (st1.setStack none) := by
    unfold terminate
    rw [if_neg]
    show st1.outer ≠ []
    rw [k5]; exact hr'
  refine ⟨st1.setStack none, ?_, ?_⟩
  · unfold throw
    rw [e1]
    dsimp only
    rw [e2]
    dsimp only
    rw [e3]
    rfl
  · have hx : x.step .throw = { x with out := x.out ++ x.owed, frame := [] } := by
      simp only [A.step]
      rw [if_neg hr]
    rw [hx]
    refine ⟨?_, i.over', ?_, ?_, ⟨fun _ => rfl, by simp⟩, ?_, ?_, ?_, ?_, ?_, ?_⟩
    · show st1.over = false
      rw [k7]; exact i.over
    · show st1.mem = x.mem
      rw [k6]; exact i.mem
    · show st1.trace = x.out ++ x.owed
      rw [w2, i.out, i.mem]; rfl
    · show FrsOk st1.recs ds st1.outer x.outer
      rw [k5]
      refine i.rest.congr ?_
      intro fr hf y hy
      apply w3
      intro z hz e
      exact nd.2.2 z.1 (List.mem_map.mpr ⟨z, hz, rfl⟩) y.1 (mem_names.mpr ⟨fr, hf, y, hy, rfl⟩) (Rid.user.inj e).symm
    · show (names ([] :: x.outer)).Nodup
      rw [names_cons]; exact nd.2.1
    · show RaiiOk (st1.scopes 0).isSome (st1.setStack none).cur st1.outer
      rw [k1, k5]
      exact i.raii.of_flags (by show st1.cur.isRaii = _; rw [k4])
    · intro s
      show x.scopes s = (st1.scopes s).map _
      rw [k1]; exact i.scopes s
    · intro s sc h
      have h' : st1.scopes s = some sc := h
      rw [k1] at h'; exact i.good s sc h'
    · exact (i.g.congr k1 k2 k3).congr rfl rfl (fun _ h => h)

theorem I.step {n : Nat} {st : St} {x : A} {d : Bool} {ds : List Bool} (i : I st x d ds) (o : Op)
    (hn : x.frame.length ≤ n) (hl : x.legal o)
    (ht : x.tame d o) :
    ∃ st', step n st o = some (some st') ∧
      ((∃ d' ds', flags d ds o = d' :: ds' ∧ I st' (x.step o) d' ds') ∨ Done st' (x.step o)) := by
  cases o with
  | enter junk =>
    cases ht
    refine ⟨_, rfl, .inl ⟨false, d :: ds, rfl, i.over, i.over', i.mem, i.out, ⟨fun _ => rfl, by simp [A.step]⟩,
      ⟨i.top, i.rest⟩, ?_, ⟨rfl, i.raii⟩, i.scopes, i.good, i.g.congr rfl rfl (fun _ h => h)⟩⟩
    show (names ([] :: x.frame :: x.outer)).Nodup
    rw [names_cons]; exact i.nodup
  | leave =>
    have hl : x.outer ≠ [] := hl
    have hr' : st.outer ≠ [] := fun e => hl ((i.rest.nil).mp e)
    obtain ⟨c, cs, hc⟩ := List.exists_cons_of_ne_nil hr'
    obtain ⟨fr, frs, hf⟩ := List.exists_cons_of_ne_nil hl
    have hrest := i.rest
    rw [hc, hf] at hrest
    cases ds with
    | nil => exact hrest.elim
    | cons d1 ds1 =>
      refine ⟨{ st with cur := c, outer := cs }, by simp only [Tm.step, hc], .inl ⟨d1, ds1, rfl, i.over, i.over',
        i.mem, i.out, ?_, ?_, ?_, ?_, i.scopes, i.good, i.g.congr rfl rfl (fun _ h => h)⟩⟩
      · show FrOk st.recs d1 c (x.outer.headD [])
        rw [hf]; exact hrest.1
      · show FrsOk st.recs ds1 cs x.outer.tail
        rw [hf]; exact hrest.2
      · show (names (x.outer.headD [] :: x.outer.tail)).Nodup
        have := i.nodup
        rw [names_cons, List.nodup_append, hf] at this
        rw [hf]; exact this.2.1
      · have := i.raii
        rw [hc] at this
        exact this.2
  | init =>
    refine ⟨_, rfl, .inl ⟨d, ds, by simp [flags, Op.touches], ?_⟩⟩
    cases hs : st.scopes 0 with
    | some sc =>
      have e1 : raiiInit st = st := by unfold raiiInit; rw [hs]
      have e2 : x.step .init = x := by simp [A.step, i.scopes 0, hs]
      rw [e1, e2]; exact i
    | none =>
      have e1 : raiiInit st = { st.setScope 0 (some newScope) with cur := { st.cur with isRaii := true } } := by
        unfold raiiInit; rw [hs]
      have hx : x.scopes 0 = none := by rw [i.scopes 0, hs]; rfl
      have e2 : x.step .init = x.set 0 (some []) := by simp [A.step, hx]
      have hr : x.outer = [] := by
        rcases ht with h | h
        · exact h
        · exact absurd hx h
      have hr' : st.outer = [] := (i.rest.nil).mpr hr
      have g1 := i.g.raiiInit
      rw [e1] at g1 ⊢
      rw [e2]
      refine ⟨i.over, i.over', i.mem, i.out, i.top, i.rest, i.nodup, ?_, ?_, ?_, g1⟩
      · show RaiiOk (if 0 = 0 then some newScope else st.scopes 0).isSome _ st.outer
        rw [hr']; rfl
      · intro s
        show (if s = 0 then some [] else x.scopes s) = (if s = 0 then some newScope else st.scopes s).map _
        split
        · rfl
        · exact i.scopes s
      · intro s sc h
        have h : (if s = 0 then some newScope else st.scopes s) = some sc := h
        split at h
        · cases h; exact ⟨rfl, rfl, rfl, fun _ => rfl⟩
        · exact i.good s sc h
  | scope s =>
    obtain ⟨h0, hs⟩ := hl
    refine ⟨_, rfl, .inl ⟨d, ds, by simp [flags, Op.touches], i.over, i.over', i.mem, i.out, i.top, i.rest, i.nodup, ?_, ?_, ?_,
      i.g.setScope s newScope (.inl rfl)⟩⟩
    · show RaiiOk (if 0 = s then some newScope else st.scopes 0).isSome _ st.outer
      rw [if_neg (Ne.symm h0)]; exact i.raii
    · intro t
      show (if t = s then some [] else x.scopes t) = (if t = s then some newScope else st.scopes t).map _
      split
      · rfl
      · exact i.scopes t
    · intro t sc h
      have h : (if t = s then some newScope else st.scopes t) = some sc := h
      split at h
      · cases h; exact ⟨rfl, rfl, rfl, fun _ => rfl⟩
      · exact i.good t sc h
  | alloc s b f zero =>
    obtain ⟨hs, hb⟩ := hl
    cases hsc : st.scopes s with
    | none => exact absurd (by rw [i.scopes s, hsc]; rfl) hs
    | some sc =>
      obtain ⟨st', e0, e1, e2, e3, e4, e5, e6, e7, e8, e9, e10⟩ := allocFull_ok (b := b) (f := f) (zero := zero) hsc
      obtain ⟨h1, h2⟩ := i.scopeInfo hsc
      have hu : ∀ r, st'.recs (.user r) = st.recs (.user r) := by
        intro r
        apply e10
        intro e
        unfold protectorOf at e
        cases hp : sc.protector with
        | none => rw [hp] at e; cases e
        | some q => rw [hp] at e; exact user_ne_prot i hsc r (by rw [hp]; exact congrArg some e)
      refine ⟨st', by simp only [Tm.step, e0]; rfl, .inl ⟨true, ds, by simp [flags, Op.touches], ?_, i.over', ?_, ?_, ?_, ?_,
        i.nodup, ?_, ?_, ?_, i.g.alloc e0⟩⟩
      · rw [e4]; exact i.over
      · rw [e6, i.mem]; rfl
      · rw [e1]; exact i.out
      · exact (i.top.congr (fun y _ => hu y.1)).touch
      · rw [e2]
        exact i.rest.congr (fun _ _ y _ => hu y.1)
      · rw [e2]
        have : (st'.scopes 0).isSome = (st.scopes 0).isSome := by
          by_cases h0 : 0 = s
          · subst h0; rw [e8, hsc]; rfl
          · rw [e7 0 h0]
        rw [this]
        exact i.raii.of_flags e3
      · intro t
        show (if t = s then some ((f, b) :: x.blocks s) else x.scopes t) = _
        split
        · next h => subst h; rw [e8]; simp [A.blocks, h1]
        · next h => rw [e7 t h]; exact i.scopes t
      · intro t sc1 h
        by_cases ht : t = s
        · subst ht
          rw [e8] at h
          cases h
          exact ⟨h2, (i.good t sc hsc).2.1, rfl, fun e => by cases e⟩
        · rw [e7 t ht] at h; exact i.good t sc1 h
  | store a v =>
    refine ⟨_, rfl, .inl ⟨d, ds, by simp [flags, Op.touches], i.over, i.over', ?_, i.out, i.top, i.rest, i.nodup, i.raii, i.scopes, i.good,
      i.g.congr rfl rfl (fun _ h => h)⟩⟩
    show (fun t => if t = a then v else st.mem t) = _
    rw [i.mem]; rfl
  | protect r a f =>
    have hfresh : r ∉ names (x.frame :: x.outer) := by
      intro h
      obtain ⟨fr, h1, y, h2, h3⟩ := mem_names.mp h
      exact hl fr h1 y h2 h3
    have hrec : ∀ y, y ≠ r → (protectPtr st (.user r) a f).recs (.user y) = st.recs (.user y) := by
      intro y hy
      simp [protectPtr, St.setStack, St.setRec, hy]
    have hother : ∀ fr ∈ x.frame :: x.outer, ∀ y ∈ fr,
        (protectPtr st (.user r) a f).recs (.user y.1) = st.recs (.user y.1) :=
      fun fr hf y hy => hrec y.1 (hl fr hf y hy)
    have hself : (protectPtr st (.user r) a f).recs (.user r) = some ⟨st.cur.stack, f, a, true⟩ := by
      simp [protectPtr, St.setStack, St.setRec]
    refine ⟨_, rfl, .inl ⟨d, ds, by simp [flags, Op.touches], i.over, i.over', i.mem, i.out, ⟨?_, ?_⟩, ?_, ?_,
      i.raii.of_flags rfl, i.scopes, i.good, (i.g.setRec _ _).congr rfl rfl (fun _ h => h)⟩⟩
    · intro hd
      exact ⟨rfl, st.cur.stack, hself, (i.top.1 hd).congr (hother x.frame (.head _))⟩
    · intro y hy
      rcases List.mem_cons.mp hy with h | h
      · subst h; rw [hself]; rfl
      · rw [hother x.frame (.head _) y h]; exact i.top.2 y h
    · exact i.rest.congr (fun fr hf => hother fr (.tail _ hf))
    · show (names (((r, a, f) :: x.frame) :: x.outer)).Nodup
      have : names (((r, a, f) :: x.frame) :: x.outer) = r :: names (x.frame :: x.outer) := by simp [names]
      rw [this, List.nodup_cons]
      exact ⟨hfresh, i.nodup⟩
  | unprotect r =>
    obtain ⟨a, f, rest, hf⟩ := hl
    have hsome := i.top.2 (r, a, f) (by rw [hf]; exact .head _)
    obtain ⟨rec, hrec⟩ := Option.isSome_iff_exists.mp hsome
    refine ⟨st.setStack rec.next, by simp only [Tm.step, hrec], .inl ⟨d, ds, by simp [flags, Op.touches], i.over, i.over', i.mem, i.out,
      ⟨?_, ?_⟩, i.rest, ?_, i.raii.of_flags rfl, i.scopes, i.good, i.g.congr rfl rfl (fun _ h => h)⟩⟩
    · intro hd
      have := i.top.1 hd
      rw [hf] at this
      obtain ⟨_, nx, e1, e2⟩ := this
      rw [hrec] at e1
      cases e1
      show Chain st.recs nx x.frame.tail
      rw [hf]; exact e2
    · intro y hy
      refine i.top.2 y ?_
      have hy : y ∈ x.frame.tail := hy
      exact List.mem_of_mem_tail hy
    · show (names (x.frame.tail :: x.outer)).Nodup
      have := i.nodup
      rw [hf, names_cons, List.map_cons, List.cons_append, List.nodup_cons] at this
      rw [hf, names_cons]; exact this.2
  | delete s =>
    obtain ⟨h0, hs⟩ := hl
    cases hsc : st.scopes s with
    | none => exact absurd (by rw [i.scopes s, hsc]; rfl) hs
    | some sc =>
      obtain ⟨h1, h2⟩ := i.scopeInfo hsc
      obtain ⟨st', e0, e1, e2, e3, e4, e5, e6, e7, e8, e9, _, g'⟩ := delete_ok i.g hsc
      have hu : ∀ r, st'.recs (.user r) = st.recs (.user r) := fun r => e7 _ (user_ne_prot i hsc r)
      refine ⟨st', by simp only [Tm.step, e0]; rfl, .inl ⟨true, ds, by simp [flags, Op.touches], ?_, i.over', ?_, ?_, ?_, ?_,
        i.nodup, ?_, ?_, ?_, g'⟩⟩
      · rw [e5]; exact i.over
      · rw [e2]; exact i.mem
      · show st'.trace = x.out ++ x.blocks s
        rw [e1, h2, i.out]; simp [A.blocks, h1]
      · exact (i.top.congr (fun y _ => hu y.1)).touch
      · rw [e3]
        exact i.rest.congr (fun _ _ y _ => hu y.1)
      · rw [e3, e8 0 (Ne.symm h0)]
        exact i.raii.of_flags e4
      · intro t
        show (if t = s then none else x.scopes t) = _
        split
        · next h => subst h; rw [e9 h0]; rfl
        · next h => rw [e8 t h]; exact i.scopes t
      · intro t sc1 h
        by_cases ht : t = s
        · subst ht; rw [e9 h0] at h; cases h
        · rw [e8 t ht] at h; exact i.good t sc1 h
  | throw =>
    unfold A.tame at ht
    by_cases hr : x.outer = []
    · rw [if_pos hr] at ht
      obtain ⟨st', a, b⟩ := i.throwRoot hn hr ht.1 ht.2
      exact ⟨st', a, .inr b⟩
    · rw [if_neg hr] at ht
      subst ht
      obtain ⟨st', a, b⟩ := i.throwInner hn hr hl
      exact ⟨st', a, .inl ⟨false, ds, rfl, b⟩⟩
  | finish =>
    obtain ⟨st', a, b⟩ := i.finish
    exact ⟨st', by simp only [Tm.step, a]; rfl, .inr b⟩

/-- The frame does not grow faster than the history. -/
def A.bound (x : A) (m : Nat) : Prop := ∀ fr ∈ x.frame :: x.outer, fr.length ≤ m

theorem A.bound.step {x : A} {m : Nat} (h : x.bound m) (o : Op) : (x.step o).bound (m + 1) := by
  have base : x.bound (m + 1) := fun fr hf => Nat.le_succ_of_le (h fr hf)
  cases o with
  | enter junk =>
    intro fr hf
    rcases List.mem_cons.mp hf with rfl | hf
    · simp [A.step]
    · exact base fr hf
  | leave =>
    intro fr hf
    simp only [A.step] at hf
    cases ho : x.outer with
    | nil => rw [ho] at hf; simp at hf; subst hf; simp
    | cons f fs =>
      rw [ho] at hf
      exact base fr (by rw [ho]; exact .tail _ hf)
  | init => simp only [A.step]; split <;> exact base
  | scope s => exact base
  | alloc s b f z => exact base
  | store a v => exact base
  | protect r a f =>
    intro fr hf
    rcases List.mem_cons.mp hf with rfl | hf
    · exact Nat.succ_le_succ (h x.frame (.head _))
    · exact base fr (.tail _ hf)
  | unprotect r =>
    intro fr hf
    rcases List.mem_cons.mp hf with rfl | hf
    · have := base x.frame (.head _)
      simp only [A.step, List.length_tail]
      omega
    · exact base fr (.tail _ hf)
  | delete s => exact base
  | throw =>
    intro fr hf
    have key : ∀ fr ∈ ([] : Fr) :: x.outer, fr.length ≤ m + 1 := by
      intro fr hf
      rcases List.mem_cons.mp hf with rfl | hf
      · simp
      · exact base fr (.tail _ hf)
    simp only [A.step] at hf
    split at hf <;> exact key fr hf
  | finish => exact base

theorem I.run {n : Nat} : ∀ {os : List Op} {st : St} {x : A} {d : Bool} {ds : List Bool} {m : Nat}, I st x d ds →
    x.bound m → m + os.length ≤ n → x.Legal os → x.Tame (d :: ds) os →
    ∃ st', run n st os = some (some st') ∧ st'.trace = (x.run os).out
  | [], st, x, _, _, _, i, _, _, _, _ => ⟨st, rfl, i.out⟩
  | o :: os, st, x, d, ds, m, i, hb, hn, hl, ht => by
    obtain ⟨l1, l2, l3⟩ := hl
    rw [A.Tame] at ht
    simp only [List.length_cons] at hn
    obtain ⟨st1, e1, h⟩ := i.step (n := n) o (Nat.le_trans (hb _ (.head _)) (by omega)) l2 ht.1
    rw [Tm.run, e1]
    rcases h with ⟨d', ds', h1, h2⟩ | h
    · have ht' := ht.2
      rw [h1] at ht'
      exact I.run h2 (hb.step o) (by omega) l3 ht'
    · cases os with
      | nil => exact ⟨st1, rfl, h.2.2⟩
      | cons o2 os2 => exact absurd l3.1 (by rw [h.2.1]; simp)

theorem I.start (mem : Nat → Nat) (t : Nat := 0) : I (start mem t) (A.start mem) false [] :=
  ⟨rfl, rfl, rfl, rfl, ⟨fun _ => rfl, by simp [A.start]⟩, trivial, by simp [names, A.start], rfl, fun _ => rfl,
    by simp [Tm.start], .start mem t⟩

end Verif.Tm
