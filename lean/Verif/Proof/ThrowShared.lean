import Verif.Proof.ThrowApart
/-!
# Threads that share scopes: the histories that go well
-/
namespace Verif.Tm

/-- What one thread's operation changes of what is common to all: of the records of protected pointers
only its own, and the scopes' protectors are the old ones or one it has just made. -/
structure Mild (st st' : St) (frs : List Fr) (o : Op) : Prop where
  user : ∀ r, r ∉ names frs → (∀ a f, o ≠ .protect r a f) → st'.recs (.user r) = st.recs (.user r)
  prots : ∀ s sc r, st'.scopes s = some sc → sc.protector = some r →
    (∃ s1 sc1, st.scopes s1 = some sc1 ∧ sc1.protector = some r) ∨ r = .prot st.fresh

theorem Mild.same {st st' : St} {frs : List Fr} {o : Op} (h1 : st'.recs = st.recs) (h2 : st'.scopes = st.scopes) : Mild st st' frs o :=
  ⟨fun r _ _ => by rw [h1], fun s sc r a b => .inl ⟨s, sc, by rw [← h2]; exact a, b⟩⟩

theorem Mild.delete {st st' : St} {x : A} {d : Bool} {ds : List Bool} (i : I st x d ds) {frs : List Fr} {o : Op} {s : Nat} {sc : Scope}
    (hsc : st.scopes s = some sc) (e7 : ∀ r, some r ≠ sc.protector → st'.recs r = st.recs r)
    (e8 : ∀ t, t ≠ s → st'.scopes t = st.scopes t) (e9 : ∀ sc', st'.scopes s = some sc' → sc'.protector = none) : Mild st st' frs o := by
  refine ⟨fun r _ _ => e7 _ (user_ne_prot i hsc r), fun t sc1 r a b => ?_⟩
  by_cases ht : t = s
  · subst ht
    rw [e9 sc1 a] at b; cases b
  · rw [e8 t ht] at a
    exact .inl ⟨t, sc1, a, b⟩

theorem I.step_mild {n : Nat} {st st' : St} {x : A} {d : Bool} {ds : List Bool} (i : I st x d ds) (o : Op)
    (hn : x.frame.length ≤ n) (hl : x.legal o) (ht : x.tame d o) (hr : o = .throw → x.outer ≠ []) (hf : o ≠ .finish)
    (e : Tm.step n st o = some (some st')) : Mild st st' (x.frame :: x.outer) o := by
  cases o with
  | enter junk => cases e; exact .same rfl rfl
  | leave =>
    simp only [Tm.step] at e
    split at e <;> cases e
    exact .same rfl rfl
  | init =>
    cases e
    unfold raiiInit
    cases h : st.scopes 0 with
    | some _ => exact .same rfl rfl
    | none =>
      refine ⟨fun _ _ _ => rfl, fun s sc r a b => ?_⟩
      simp only [St.setScope] at a
      split at a
      · cases a; cases b
      · exact .inl ⟨s, sc, a, b⟩
  | scope s =>
    cases e
    refine ⟨fun _ _ _ => rfl, fun t sc r a b => ?_⟩
    simp only [St.setScope] at a
    split at a
    · cases a; cases b
    · exact .inl ⟨t, sc, a, b⟩
  | alloc s b f zero =>
    cases hsc : st.scopes s with
    | none => exact absurd (by rw [i.scopes s, hsc]; rfl) hl.1
    | some sc =>
      obtain ⟨s1, e0, e1, e2, e3, e4, e5, e6, e7, e8, e9, e10⟩ := allocFull_ok (b := b) (f := f) (zero := zero) hsc
      simp only [Tm.step, e0, Option.map_some] at e
      cases e
      refine ⟨fun r _ _ => ?_, fun t sc1 r a c => ?_⟩
      · apply e10
        intro e
        unfold protectorOf at e
        cases hp : sc.protector with
        | none => rw [hp] at e; cases e
        | some q => rw [hp] at e; exact user_ne_prot i hsc r (by rw [hp]; exact congrArg some e)
      · by_cases ht : t = s
        · subst ht
          rw [e8] at a
          cases a
          cases c
          unfold protectorOf
          cases hp : sc.protector with
          | none => exact .inr rfl
          | some q => exact .inl ⟨t, sc, hsc, hp⟩
        · rw [e7 t ht] at a; exact .inl ⟨t, sc1, a, c⟩
  | store a v => cases e; exact .same rfl rfl
  | protect r a f =>
    cases e
    refine ⟨fun q _ hq => ?_, fun s sc r a b => .inl ⟨s, sc, a, b⟩⟩
    have : q ≠ r := fun h => hq a f (by rw [h])
    simp [protectPtr, St.setStack, St.setRec, this]
  | unprotect r =>
    simp only [Tm.step] at e
    split at e <;> cases e
    exact .same rfl rfl
  | delete s =>
    obtain ⟨h0, hs⟩ := hl
    cases hsc : st.scopes s with
    | none => exact absurd (by rw [i.scopes s, hsc]; rfl) hs
    | some sc =>
      obtain ⟨s1, e0, e1, e2, e3, e4, e5, e6, e7, e8, e9, _, g'⟩ := delete_ok i.g hsc
      simp only [Tm.step, e0, Option.map_some] at e
      cases e
      exact .delete i hsc e7 e8 (fun sc' h => by rw [e9 h0] at h; cases h)
  | throw =>
    have hr := hr rfl
    simp only [A.tame, if_neg hr] at ht
    subst ht
    have hr' : st.outer ≠ [] := fun e => hr ((i.rest.nil).mp e)
    have hraii := i.raii.inner hr'
    have e1 : throwSet st = (st, false) := by unfold throwSet; simp [hraii]
    have nd := i.nodup
    rw [names_cons, List.nodup_append] at nd
    obtain ⟨st1, w1, w2, w3⟩ := walk_chain (n := n) (i.top.1 rfl) nd.1 (t := 0) (by rw [i.mem]; exact hl) hn
    obtain ⟨k1, k2, k3, k4, k5, k6, k7⟩ := walk_keeps w1
    have e2 : unwindStack n st false = some (some (st1.setStack none)) := by
      unfold unwindStack
      simp [w1]
    have e3 : terminate (st1.setStack none) = some (st1.setStack none) := by
      unfold terminate
      rw [if_neg]
      show st1.outer ≠ []
      rw [k5]; exact hr'
    simp only [Tm.step, Tm.throw, e1, e2, e3, Option.map_some] at e
    cases e
    refine ⟨fun r hrn _ => ?_, fun s sc r a b => .inl ⟨s, sc, by rw [← k1]; exact a, b⟩⟩
    show st1.recs _ = _
    apply w3
    intro y hy he
    apply hrn
    rw [names_cons, List.mem_append]
    exact .inl (List.mem_map.mpr ⟨y, hy, (Rid.user.inj he).symm⟩)
  | finish => exact absurd rfl hf

/-- The end of a thread, for the others. -/
theorem I.finish_mild {st : St} {x : A} {d : Bool} {ds : List Bool} (i : I st x d ds) :
    ∃ st', atExit st = some st' ∧ st'.over = true ∧ st'.trace = x.finish.out ∧ st'.mem = st.mem ∧
      (∀ s, s ≠ 0 → st'.scopes s = st.scopes s) ∧ G (st'.setScope 0 none) ∧
      Mild st (st'.setScope 0 none) (x.frame :: x.outer) .finish := by
  obtain ⟨st', e, h1, h2, h3⟩ := i.finish
  refine ⟨st', e, h1, h3, ?_⟩
  unfold atExit at e
  cases h : st.scopes 0 with
  | none =>
    rw [h] at e
    cases e
    have hs : (St.setScope { st with over := true } 0 none).scopes = st.scopes := by
      funext s
      simp only [St.setScope]
      split
      · next hs => rw [hs, h]
      · rfl
    exact ⟨rfl, fun _ _ => rfl, i.g.congr hs rfl (fun _ h => h), .same rfl hs⟩
  | some sc =>
    obtain ⟨s1, e0, e1, e2, e3, e4, e5, e6, e7, e8, e9, _, g'⟩ := delete_ok i.g h
    rw [h] at e
    simp only [e0, Option.map_some] at e
    cases e
    refine ⟨e2, fun s hs => e8 s hs, ?_, .delete i h e7 (fun t ht => ?_) (fun sc' h => ?_)⟩
    · constructor
      · intro s sc r a b
        simp only [St.setScope] at a
        split at a
        · cases a
        · exact g'.live s sc r a b
      · intro s s' sc sc' r a b
        simp only [St.setScope] at a b
        split at a
        · cases a
        · split at b
          · cases b
          · exact g'.own s s' sc sc' r a b
    · simp only [St.setScope, if_neg ht]; exact e8 t ht
    · simp [St.setScope] at h

theorem A.step_over {x : A} {o : Op} (h : x.over = false) (hr : o = .throw → x.outer ≠ []) (hf : o ≠ .finish) : (x.step o).over = false := by
  cases o with
  | finish => exact absurd rfl hf
  | throw =>
    simp only [A.step]
    rw [if_neg (hr rfl)]; exact h
  | init => simp only [A.step]; split <;> exact h
  | _ => exact h

/-- Scopes come and go only by name. -/
theorem A.step_some {x : A} {o : Op} {k : Nat} (hk : k ≠ 0) (hl : x.legal o) (h1 : o ≠ .scope k) (h2 : o ≠ .delete k) :
    ((x.step o).scopes k).isSome = (x.scopes k).isSome := by
  cases o with
  | scope s =>
    have : k ≠ s := fun h => h1 (by rw [h])
    simp [A.step, A.set, this]
  | delete s =>
    have : k ≠ s := fun h => h2 (by rw [h])
    simp [A.step, A.set, this]
  | init =>
    simp only [A.step]
    split
    · rfl
    · simp [A.set, hk]
  | alloc s b f z =>
    simp only [A.step, A.set]
    split
    · next h =>
      subst h
      cases hx : x.scopes k with
      | none => exact absurd hx hl.1
      | some _ => rfl
    · rfl
  | throw =>
    simp only [A.step]
    split <;> rfl
  | _ => rfl

end Verif.Tm

namespace Verif.Tt
open Verif.Tm (Rid Rec Scope Ctx Op I G Mild names Done Fr)

def agone (y : Tm.A) : Tm.A := if y.over then y.set 0 none else y

theorem look_eq_zero {t s : Nat} : look t s = 0 ↔ s = 2 * t := by
  constructor
  · intro h
    rw [← look_look t s, h, look_zero]
  · rintro rfl
    rw [← look_zero t, look_look]

theorem view_step_self (x : A) (t : Nat) (o : Op) : (x.step t o).view t = agone ((x.view t).step (turn t o)) := by
  unfold A.step A.view agone
  dsimp only
  generalize hy : Tm.A.step _ (turn t o) = y
  obtain ⟨f, ou, sc, m, out, ov⟩ := y
  cases ov
  · simp [look_look]
  · simp only [if_true, Tm.A.set, Tm.A.mk.injEq, true_and, and_true]
    funext s
    by_cases hs : s = 0
    · subst hs; simp [look_zero]
    · have : look t s ≠ 2 * t := by
        rw [Ne, ← look_eq_zero, look_look]; exact hs
      simp [this, hs, look_look]

theorem view_step_other (x : A) {t u : Nat} (o : Op) (h : u ≠ t) : (x.step t o).view u =
    { x.view u with scopes := fun s => (agone ((x.view t).step (turn t o))).scopes (look t (look u s)),
                    mem := (agone ((x.view t).step (turn t o))).mem } := by
  have hv := view_step_self x t o
  have h1 := fun s => congrFun (congrArg Tm.A.scopes hv) (look t (look u s))
  have h2 := congrArg Tm.A.mem hv
  have h3 : (x.step t o).loc u = x.loc u := by simp [A.step, h]
  unfold A.view at h1 h2 ⊢
  simp only [look_look] at h1 h2
  rw [h3]
  simp only [Tm.A.mk.injEq, true_and, and_true]
  exact ⟨funext h1, h2⟩

/-- What thread `u` sees after thread `t` has done something mild. -/
theorem other {st : St} {x : A} {t u : Nat} (hu : u ≠ t) {d : Bool} {e : List Bool} (i : I (view st u) (x.view u) d e)
    {v : Tm.St} {y : Tm.A} {o : Op} {fr : Fr} {frs : List Fr} (hmem : v.mem = y.mem)
    (hsc : ∀ s, y.scopes s = (v.scopes s).map (·.entries))
    (good : ∀ s sc, v.scopes s = some sc → sc.ok = true ∧ sc.err = false ∧ sc.isProtected = sc.protector.isSome ∧
      (sc.protector = none → sc.entries = []))
    (g : G v) (m : Mild (view st t) v (fr :: frs) o)
    (hn : ∀ r ∈ names ((x.loc u).frame :: (x.loc u).outer), r ∉ names (fr :: frs) ∧ ∀ a f, o ≠ .protect r a f)
    (hs : (y.scopes (look t (2 * u))).isSome = (x.scopes (2 * u)).isSome) :
    I (view (put st t v) u) { x.view u with scopes := fun s => y.scopes (look t (look u s)), mem := y.mem } d e := by
  rw [view_put_other st v hu]
  have hrec : ∀ f ∈ (x.loc u).frame :: (x.loc u).outer, ∀ p ∈ f, v.recs (.user p.1) = st.recs (.user p.1) := by
    intro f hf p hp
    have := hn p.1 (Tm.mem_names.mpr ⟨f, hf, p, hp, rfl⟩)
    exact m.user p.1 this.1 this.2
  refine ⟨i.over, i.over', hmem, i.out, i.top.congr (hrec _ (.head _)), i.rest.congr (fun f hf => hrec f (.tail _ hf)), i.nodup,
    ?_, fun s => hsc _, fun s sc h => good _ sc h, ?_⟩
  · have e1 : (v.scopes (look t (look u 0))).isSome = ((view st u).scopes 0).isSome := by
      rw [look_zero]
      have a := hsc (look t (2 * u))
      have b := i.scopes 0
      simp only [A.view, look_zero] at b
      rw [a, b] at hs
      simpa using hs
    show Tm.RaiiOk (v.scopes (look t (look u 0))).isSome _ _
    rw [e1]; exact i.raii
  · constructor
    · intro s sc r a b
      obtain ⟨k, h1, h2, h3, h4⟩ := g.live _ sc r a b
      refine ⟨k, h1, ?_, h3, h4⟩
      intro hk
      rcases m.prots _ sc r a b with ⟨s1, sc1, a1, b1⟩ | hr
      · have a2 : (view st u).scopes (look u (look t s1)) = some sc1 := by
          simp only [view, look_look] at a1 ⊢; exact a1
        obtain ⟨k2, g1, g2, _⟩ := i.g.live _ sc1 r a2 b1
        rw [h1] at g1
        cases g1
        exact g2 hk
      · rw [h1] at hr
        cases hr
        exact absurd hk.symm hu
    · intro s s' sc sc' r a b c d
      have := g.own _ _ sc sc' r a b c d
      have := congrArg (look t) this
      rw [look_look, look_look] at this
      have := congrArg (look u) this
      rwa [look_look, look_look] at this

/-- Everything is as it should be. -/
structure M (st : St) (x : A) (ds : Nat → List Bool) : Prop where
  live : x.ended = false → ∀ t, (x.loc t).over = false → ∃ d e, ds t = d :: e ∧ I (view st t) (x.view t) d e
  out : ∀ t, (st.loc t).trace = (x.loc t).out
  over : ∀ t, (st.loc t).over = (x.loc t).over
  apart : ∀ t u, t ≠ u → ∀ r ∈ names ((x.loc t).frame :: (x.loc t).outer), r ∉ names ((x.loc u).frame :: (x.loc u).outer)

theorem flags_turn (d : Bool) (e : List Bool) (t : Nat) (o : Op) : Tm.flags d e (turn t o) = Tm.flags d e o := by cases o <;> rfl

/-- Names appear only by protecting. -/
theorem names_step {x : Tm.A} {o : Op} {r : Nat} (h : r ∈ names ((x.step o).frame :: (x.step o).outer)) :
    r ∈ names (x.frame :: x.outer) ∨ ∃ a f, o = .protect r a f := by
  have sub : ∀ {frs : List Fr}, (∀ f ∈ frs, ∀ p ∈ f, ∃ f' ∈ x.frame :: x.outer, p ∈ f') → r ∈ names frs → r ∈ names (x.frame :: x.outer) := by
    intro frs hs hr
    obtain ⟨f, h1, p, h2, h3⟩ := Tm.mem_names.mp hr
    obtain ⟨f', h4, h5⟩ := hs f h1 p h2
    exact Tm.mem_names.mpr ⟨f', h4, p, h5, h3⟩
  have thr : ∀ f ∈ ([] : Fr) :: x.outer, ∀ p ∈ f, ∃ f' ∈ x.frame :: x.outer, p ∈ f' := by
    intro f hf p hp
    rcases List.mem_cons.mp hf with rfl | hf
    · cases hp
    · exact ⟨f, .tail _ hf, hp⟩
  cases o with
  | enter j =>
    refine .inl (sub ?_ h)
    intro f hf p hp
    rcases List.mem_cons.mp hf with rfl | hf
    · cases hp
    · exact ⟨f, hf, hp⟩
  | leave =>
    refine .inl (sub ?_ h)
    intro f hf p hp
    simp only [Tm.A.step] at hf
    cases ho : x.outer with
    | nil =>
      rw [ho] at hf
      simp at hf
      subst hf; cases hp
    | cons f1 fs =>
      rw [ho] at hf
      exact ⟨f, .tail _ hf, hp⟩
  | unprotect q =>
    refine .inl (sub ?_ h)
    intro f hf p hp
    rcases List.mem_cons.mp hf with rfl | hf
    · exact ⟨x.frame, .head _, List.mem_of_mem_tail hp⟩
    · exact ⟨f, .tail _ hf, hp⟩
  | protect q a f =>
    simp only [Tm.A.step] at h
    rw [show names (((q, a, f) :: x.frame) :: x.outer) = q :: names (x.frame :: x.outer) by simp [names]] at h
    rcases List.mem_cons.mp h with rfl | h
    · exact .inr ⟨a, f, rfl⟩
    · exact .inl h
  | throw =>
    refine .inl (sub thr ?_)
    simp only [Tm.A.step] at h
    split at h <;> exact h
  | init =>
    simp only [Tm.A.step] at h
    split at h <;> exact .inl h
  | _ => exact .inl h

theorem M.apart_step {st : St} {x : A} {ds : Nat → List Bool} (m : M st x ds) {t : Nat} {o : Op} (hl : x.legal t o) :
    ∀ u w, u ≠ w → ∀ r ∈ names (((x.step t o).loc u).frame :: ((x.step t o).loc u).outer),
      r ∉ names (((x.step t o).loc w).frame :: ((x.step t o).loc w).outer) := by
  have key : ∀ u, ∀ r ∈ names (((x.step t o).loc u).frame :: ((x.step t o).loc u).outer),
      r ∈ names ((x.loc u).frame :: (x.loc u).outer) ∨ (u = t ∧ ∃ a f, o = .protect r a f) := by
    intro u r hr
    by_cases hu : u = t
    · subst hu
      simp only [A.step, if_true] at hr
      rcases names_step hr with h | ⟨a, f, h⟩
      · exact .inl h
      · refine .inr ⟨rfl, a, f, ?_⟩
        cases o <;> simp_all [turn]
    · simp only [A.step, if_neg hu] at hr
      exact .inl hr
  have fresh : ∀ r, (∃ a f, o = .protect r a f) → ∀ u, r ∉ names ((x.loc u).frame :: (x.loc u).outer) := by
    rintro r ⟨a, f, rfl⟩ u h
    obtain ⟨fr, h1, p, h2, h3⟩ := Tm.mem_names.mp h
    exact hl.2 u fr h1 p h2 h3
  intro u w huw r h1 h2
  rcases key u r h1 with a | ⟨a, a'⟩
  · rcases key w r h2 with b | ⟨b, b'⟩
    · exact m.apart u w huw r a b
    · exact fresh r b' u a
  · rcases key w r h2 with b | ⟨b, _⟩
    · exact fresh r a' w b
    · exact huw (a.trans b.symm)

theorem M.step {n : Nat} {st : St} {x : A} {ds : Nat → List Bool} (m : M st x ds) {t : Nat} {o : Op} (h1 : x.ended = false)
    (h2 : (x.loc t).over = false) (hl : x.legal t o) {d : Bool} {e : List Bool} (hd : ds t = d :: e)
    (ht : (x.view t).tame d (turn t o)) (hn : (x.loc t).frame.length ≤ n) :
    ∃ st', step n st t o = some (some st') ∧ M st' (x.step t o) (fun u => if u = t then Tm.flags d e o else ds u) := by
  obtain ⟨d0, e0, hde, i⟩ := m.live h1 t h2
  rw [hd] at hde
  cases hde
  obtain ⟨v, hv, hi⟩ := i.step (n := n) (turn t o) hn hl.1 ht
  have hov : (st.loc t).over = false := (m.over t).trans h2
  have hstep : Tt.step n st t o = some (some (put st t (gone v))) := by
    unfold Tt.step
    rw [if_neg (by rw [hov]; simp), hv]
    rfl
  refine ⟨_, hstep, ?_⟩
  have hfresh : v.fresh.1 = t := step_fresh hv
  have hout : v.trace = ((x.view t).step (turn t o)).out ∧ v.over = ((x.view t).step (turn t o)).over := by
    rcases hi with ⟨_, _, _, j⟩ | j
    · exact ⟨j.out, j.over.trans j.over'.symm⟩
    · exact ⟨j.2.2, j.1.trans j.2.1.symm⟩
  have hg : (gone v).trace = v.trace ∧ (gone v).over = v.over := by unfold gone; split <;> exact ⟨rfl, rfl⟩
  refine ⟨?_, ?_, ?_, m.apart_step hl⟩
  · intro hend u hou
    have hroot : o = .throw → (x.loc t).outer ≠ [] := by
      rintro rfl hx
      simp [A.step, hx] at hend
    have hroot' : turn t o = .throw → (x.view t).outer ≠ [] := by
      intro ho
      have : o = .throw := by cases o <;> simp_all [turn]
      exact hroot this
    by_cases hfin : o = .finish
    · -- the thread ends
      subst hfin
      have htu : u ≠ t := by
        rintro rfl
        simp [A.step, turn, Tm.A.step, Tm.A.finish] at hou
      obtain ⟨v', k1, k2, k3, k4, k5, k6, k7⟩ := i.finish_mild
      have hvv : v = v' := by
        simp only [turn, Tm.step, k1, Option.map_some] at hv
        cases hv; rfl
      subst hvv
      have hgone : gone v = v.setScope 0 none := by unfold gone; rw [if_pos k2]
      have hou' : (x.loc u).over = false := by simpa [A.step, htu] using hou
      obtain ⟨d1, e1, hd1, iu⟩ := m.live h1 u hou'
      refine ⟨d1, e1, by simp [htu, hd1], ?_⟩
      rw [view_step_other x _ htu, hgone]
      have hag : agone ((x.view t).step (turn t .finish)) = (x.view t).finish.set 0 none := by
        simp [agone, turn, Tm.A.step, Tm.A.finish]
      rw [hag]
      have hne : look t (2 * u) ≠ 0 := by rw [Ne, look_eq_zero]; omega
      refine other htu iu (o := .finish) ?_ ?_ ?_ k6 k7 (fun r hr => ⟨m.apart u t htu r hr, by intros; simp⟩) ?_
      · show v.mem = x.mem
        rw [k4]; exact i.mem
      · intro s
        simp only [Tm.A.set, Tm.St.setScope, Tm.A.finish]
        split
        · rfl
        · next hs => rw [k5 s hs]; exact i.scopes s
      · intro s sc h
        simp only [Tm.St.setScope] at h
        split at h
        · cases h
        · next hs => rw [k5 s hs] at h; exact i.good s sc h
      · simp only [Tm.A.set, Tm.A.finish, if_neg hne, A.view, look_look]
    · -- it goes on
      have hfin' : turn t o ≠ .finish := by intro h; cases o <;> simp_all [turn]
      have hyo : ((x.view t).step (turn t o)).over = false := Tm.A.step_over h2 hroot' hfin'
      have hgone : gone v = v := by unfold gone; rw [hout.2, hyo]; rfl
      have hag : agone ((x.view t).step (turn t o)) = (x.view t).step (turn t o) := by unfold agone; rw [hyo]; rfl
      rcases hi with ⟨d', e', hfl, j⟩ | j
      · rw [flags_turn] at hfl
        rw [hgone]
        by_cases hu : u = t
        · subst hu
          refine ⟨d', e', by simp [hfl], ?_⟩
          rw [view_put_self _ _ _ hfresh, view_step_self, hag]
          exact j
        · have hou' : (x.loc u).over = false := by simpa [A.step, hu] using hou
          obtain ⟨d1, e1, hd1, iu⟩ := m.live h1 u hou'
          refine ⟨d1, e1, by simp [hu, hd1], ?_⟩
          rw [view_step_other x _ hu, hag]
          have hne : look t (2 * u) ≠ 0 := by rw [Ne, look_eq_zero]; omega
          refine other hu iu j.mem j.scopes j.good j.g (i.step_mild (turn t o) hn hl.1 ht hroot' hfin' hv)
            (fun r hr => ⟨m.apart u t hu r hr, ?_⟩) ?_
          · intro a f ho
            have : o = .protect r a f := by cases o <;> simp_all [turn]
            subst this
            obtain ⟨fr, q1, p, q2, q3⟩ := Tm.mem_names.mp hr
            exact hl.2 u fr q1 p q2 q3
          · have hodd : ∀ s, s % 2 = 1 → s ≠ 2 * u := by intro s; omega
            rw [Tm.A.step_some hne hl.1 ?_ ?_]
            · simp only [A.view, look_look]
            · intro ho
              cases o <;> simp only [turn, Op.scope.injEq, reduceCtorEq] at ho
              next s =>
                have := congrArg (look t) ho
                rw [look_look, look_look] at this
                exact hodd s hl.2 this
            · intro ho
              cases o <;> simp only [turn, Op.delete.injEq, reduceCtorEq] at ho
              next s =>
                have := congrArg (look t) ho
                rw [look_look, look_look] at this
                exact hodd s hl.2 this
      · exact absurd j.2.1 (by rw [hyo]; simp)
  · intro u
    by_cases hu : u = t
    · subst hu
      simp only [put, A.step, if_true]
      rw [hg.1]; exact hout.1
    · simp only [put, A.step, if_neg hu]; exact m.out u
  · intro u
    by_cases hu : u = t
    · subst hu
      simp only [put, A.step, if_true]
      rw [hg.2]; exact hout.2
    · simp only [put, A.step, if_neg hu]; exact m.over u

theorem M.run {n : Nat} : ∀ {os : List (Nat × Op)} {st : St} {x : A} {ds : Nat → List Bool} {k : Nat}, M st x ds →
    (∀ t, (x.view t).bound k) → k + os.length ≤ n → x.Legal os → x.Tame ds os →
    ∃ st', run n st os = some (some st') ∧ ∀ t, (st'.loc t).trace = ((x.run os).loc t).out
  | [], st, x, _, _, m, _, _, _, _ => ⟨st, rfl, m.out⟩
  | (t, o) :: os, st, x, ds, k, m, hb, hn, hl, ht => by
    obtain ⟨l1, l2, l3, l4⟩ := hl
    obtain ⟨d, e, hd, _⟩ := m.live l1 t l2
    rw [A.Tame, hd] at ht
    simp only [List.length_cons] at hn
    obtain ⟨st1, e1, m1⟩ := m.step (n := n) l1 l2 l3 hd ht.1 (Nat.le_trans (hb t _ (.head _)) (by omega))
    rw [Tt.run, e1]
    refine M.run m1 (k := k + 1) ?_ (by omega) l4 ht.2
    intro u
    by_cases hu : u = t
    · subst hu
      have := (hb u).step (turn u o)
      rw [view_step_self]
      unfold agone
      split <;> exact this
    · rw [view_step_other x _ hu]
      exact fun fr hf => Nat.le_succ_of_le (hb u fr hf)

theorem M.start (mem : Nat → Nat) : M (start mem) (A.start mem) (fun _ => [false]) :=
  ⟨fun _ t _ => ⟨false, [], rfl, Tm.I.start mem t⟩, fun _ => rfl, fun _ => rfl, fun _ _ _ _ h => by simp [names, A.start] at h⟩

end Verif.Tt
