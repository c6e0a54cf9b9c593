import Verif.Spec.First
/-!
# The field, and what was called
-/
namespace Verif.Fs
open Spec

/-- One thread. -/
def run1 (t : Th) : List Call → Option Th
  | [] => some t
  | c :: l => (step t c).bind (fun t => run1 t l)

theorem run1_append (t : Th) : ∀ (l m : List Call), run1 t (l ++ m) = (run1 t l).bind (fun t => run1 t m)
  | [], m => rfl
  | c :: l, m => by
    simp only [List.cons_append, run1]
    cases step t c with
    | none => rfl
    | some t' => exact run1_append t' l m

theorem step_made {t t' : Th} {c : Call} (h : step t c = some t') : t'.made = true ↔ t.made = true ∨ Makes c := by
  cases c <;> simp only [step] at h <;> simp only [Makes] <;> (try split at h) <;> (try split at h) <;> first
    | (cases h; simp_all)
    | (simp at h)

theorem run1_made : ∀ (l : List Call) (t t' : Th), run1 t l = some t' → (t'.made = true ↔ t.made = true ∨ ∃ c ∈ l, Makes c)
  | [], t, t', h => by simp only [run1, Option.some.injEq] at h; subst h; simp
  | c :: l, t, t', h => by
    simp only [run1] at h
    cases hs : step t c with
    | none => rw [hs] at h; cases h
    | some u =>
      rw [hs] at h
      rw [run1_made l u t' h, step_made hs, or_assoc]
      simp

/-- What a call does to the field. -/
theorem step_plain {t t' : Th} {c : Call} (h : step t c = some t') (h1 : c ≠ .enter) (h2 : c ≠ .leave) :
    t'.saved = t.saved ∧ (t'.slot = if c = .scope then .pool else t.slot) := by
  cases c <;> simp only [step] at h <;> (try split at h) <;> (try split at h) <;> first
    | exact absurd rfl h1
    | exact absurd rfl h2
    | (cases h; exact ⟨rfl, by simp⟩)
    | (simp at h)

/-- A list of sections and what they have kept. -/
def Inv : List Call → Slot → List Slot → Prop
  | l, x, [] => Bal l ∧ (x = .null → Idle l)
  | l, x, y :: r => ∃ a b, l = a ++ .enter :: b ∧ Bal b ∧ x ≠ .null ∧ Inv a y r

theorem Inv.plain {l : List Call} {c : Call} (h1 : c ≠ .enter) (h2 : c ≠ .leave) {x : Slot} {r : List Slot} (h : Inv l x r) :
    Inv (l ++ [c]) (if c = .scope then .pool else x) r := by
  cases r with
  | nil =>
    refine ⟨.one h.1 h1 h2, fun e => ?_⟩
    split at e
    · cases e
    · next hc => exact .one (h.2 e) h1 h2 hc
  | cons y r =>
    obtain ⟨a, b, rfl, k1, k2, k3⟩ := h
    refine ⟨a, b ++ [c], by simp, .one k1 h1 h2, ?_, k3⟩
    split
    · simp
    · exact k2

theorem Inv.leave {l : List Call} {x y : Slot} {r : List Slot} (h : Inv l x (y :: r)) : Inv (l ++ [.leave]) y r := by
  obtain ⟨a, b, rfl, k1, -, k3⟩ := h
  cases r with
  | nil => exact ⟨by simpa using Bal.sect k3.1 k1, fun e => by simpa using Idle.sect (k3.2 e) k1⟩
  | cons z r =>
    obtain ⟨a', b', rfl, q1, q2, q3⟩ := k3
    exact ⟨a', b' ++ .enter :: b ++ [.leave], by simp, .sect q1 k1, q2, q3⟩

theorem Inv.top {l : List Call} {x : Slot} (h : Inv l x []) : Bal l := h.1

/-- A balanced part keeps what was kept. -/
theorem bal_saved {l : List Call} (h : Bal l) : ∀ (t t' : Th), run1 t l = some t' → t'.saved = t.saved := by
  induction h with
  | nil => intro t t' e; cases e; rfl
  | @one l c hl h1 h2 ih =>
    intro t t' e
    rw [run1_append] at e
    cases hr : run1 t l with
    | none => rw [hr] at e; cases e
    | some u =>
      rw [hr] at e
      simp only [Option.bind_some, run1] at e
      cases hs : step u c with
      | none => rw [hs] at e; cases e
      | some v =>
        rw [hs] at e
        cases e
        rw [(step_plain hs h1 h2).1, ih t u hr]
  | @sect l b hl hb ih1 ih2 =>
    intro t t' e
    rw [List.append_assoc, run1_append] at e
    cases hr : run1 t l with
    | none => rw [hr] at e; cases e
    | some u =>
      rw [hr] at e
      simp only [Option.bind_some, List.cons_append, run1, step] at e
      rw [run1_append] at e
      cases hb' : run1 { made := true, slot := .sect, saved := u.slot :: u.saved } b with
      | none => rw [hb'] at e; cases e
      | some v =>
        rw [hb'] at e
        have := ih2 _ _ hb'
        simp only [Option.bind_some, run1, step, this] at e
        cases e
        exact ih1 t u hr

/-- An idle part leaves the field alone. -/
theorem idle_slot {l : List Call} (h : Idle l) : ∀ (t t' : Th), run1 t l = some t' → t'.slot = t.slot := by
  induction h with
  | nil => intro t t' e; cases e; rfl
  | @one l c hl h1 h2 h3 ih =>
    intro t t' e
    rw [run1_append] at e
    cases hr : run1 t l with
    | none => rw [hr] at e; cases e
    | some u =>
      rw [hr] at e
      simp only [Option.bind_some, run1] at e
      cases hs : step u c with
      | none => rw [hs] at e; cases e
      | some v =>
        rw [hs] at e
        cases e
        rw [(step_plain hs h1 h2).2, if_neg h3, ih t u hr]
  | @sect l b hl hb ih1 =>
    intro t t' e
    rw [List.append_assoc, run1_append] at e
    cases hr : run1 t l with
    | none => rw [hr] at e; cases e
    | some u =>
      rw [hr] at e
      simp only [Option.bind_some, List.cons_append, run1, step] at e
      rw [run1_append] at e
      cases hb' : run1 { made := true, slot := .sect, saved := u.slot :: u.saved } b with
      | none => rw [hb'] at e; cases e
      | some v =>
        rw [hb'] at e
        have := bal_saved hb _ _ hb'
        simp only [Option.bind_some, run1, step, this] at e
        cases e
        exact ih1 t u hr

theorem Opens.init {l : List Call} {c : Call} (h : Opens (l ++ [c])) : Opens l := fun x y e => h x (y ++ [c]) (by rw [e]; simp)

/-- Induction from the end. -/
theorem snoc_ind {α : Type} {P : List α → Prop} (h0 : P []) (h1 : ∀ l c, P l → P (l ++ [c])) (l : List α) : P l := by
  have : ∀ m : List α, P m.reverse := by
    intro m
    induction m with
    | nil => exact h0
    | cons c m ih => rw [List.reverse_cons]; exact h1 _ _ ih
  simpa using this l.reverse

theorem run1_inv (l : List Call) : ∀ t, Opens l → run1 Th.start l = some t → Inv l t.slot t.saved := by
  induction l using snoc_ind with
  | h0 => intro t _ e; cases e; exact ⟨.nil, fun _ => .nil⟩
  | h1 l c ih =>
    intro t ho e
    rw [run1_append] at e
    cases hr : run1 Th.start l with
    | none => rw [hr] at e; cases e
    | some u =>
      rw [hr] at e
      simp only [Option.bind_some, run1] at e
      cases hs : step u c with
      | none => rw [hs] at e; cases e
      | some v =>
        rw [hs] at e
        cases e
        have hu := ih u (Opens.init ho) hr
        by_cases h1 : c = .enter
        · subst h1
          simp only [step, Option.some.injEq] at hs
          subst hs
          exact ⟨l, [], rfl, .nil, by simp, hu⟩
        by_cases h2 : c = .leave
        · subst h2
          simp only [step] at hs
          split at hs
          · next hq => rw [hq] at hu; exact absurd hu.top (ho l [] rfl)
          · next x r hq =>
            cases hs
            rw [hq] at hu
            exact hu.leave
        · obtain ⟨k1, k2⟩ := step_plain hs h1 h2
          rw [k1, k2]
          exact hu.plain h1 h2

/-- A thread without a scope has entered nothing. -/
structure Blank (t : Th) : Prop where
  out : t.made = false → t.slot = .null ∧ t.saved = []

theorem step_blank {t t' : Th} {c : Call} (b : Blank t) (h : step t c = some t') : Blank t' := by
  cases c <;> simp only [step] at h <;> (try split at h) <;> (try split at h) <;> first
    | (cases h; exact b)
    | (cases h; exact ⟨fun e => by cases e⟩)
    | (cases h; exact ⟨fun e => by have := (b.1 e).2; simp_all⟩)
    | (simp at h)

theorem run1_blank : ∀ (l : List Call) (t t' : Th), Blank t → run1 t l = some t' → Blank t'
  | [], t, t', b, h => by cases h; exact b
  | c :: l, t, t', b, h => by
    simp only [run1] at h
    cases hs : step t c with
    | none => rw [hs] at h; cases h
    | some u => rw [hs] at h; exact run1_blank l u t' (step_blank b hs) h

/-- When one call of one thread uses a null pointer. -/
theorem step_bad (l : List Call) (c : Call) (t : Th) (ho : Opens l) (h : run1 Th.start l = some t) : step t c = none ↔ Bad l c := by
  have hm : t.made = true ↔ ∃ c ∈ l, Makes c := by
    rw [run1_made l _ t h]
    simp [Th.start]
  have hi := run1_inv l t ho h
  have hn : t.slot = .null ↔ Idle l := by
    constructor
    · intro e
      cases hs : t.saved with
      | nil => rw [hs] at hi; exact hi.2 e
      | cons y r =>
        rw [hs] at hi
        obtain ⟨-, -, -, -, q, -⟩ := hi
        exact absurd e q
    · intro e
      exact idle_slot e _ t h
  have hw := run1_blank l _ t ⟨fun _ => ⟨rfl, rfl⟩⟩ h
  cases c <;> simp only [step, Bad]
  case mid | defer | message | clean | decode => rw [← hm]; simp
  case leave => split <;> simp
  case inner =>
    rw [← hn]
    cases hq : t.made with
    | false => simp [(hw.1 hq).1]
    | true => cases t.slot <;> simp
  case spawn =>
    rw [← hn, ← hm]
    cases hq : t.made with
    | false => simp
    | true => cases t.slot <;> simp
  all_goals simp

/-! ## Several threads -/

/-- Each thread runs its own calls. -/
theorem run_local : ∀ (h : List (Nat × Call)) (s s' : Nat → Th), run s h = some s' → ∀ i, run1 (s i) (calls i h) = some (s' i)
  | [], s, s', e, i => by cases e; rfl
  | (j, c) :: h, s, s', e, i => by
    simp only [run] at e
    split at e
    · cases e
    · next t hs =>
      have := run_local h _ s' e i
      by_cases hj : j = i
      · subst hj
        simp only [if_true] at this
        simp only [calls, List.filter_cons, beq_self_eq_true, if_true, List.map_cons, run1, hs, Option.bind_some]
        exact this
      · rw [if_neg (fun q => hj q.symm)] at this
        simp only [calls, List.filter_cons, beq_iff_eq, hj, if_false]
        exact this

theorem run_append (s : Nat → Th) : ∀ (h m : List (Nat × Call)), run s (h ++ m) = (run s h).bind (fun s => run s m)
  | [], m => rfl
  | (j, c) :: h, m => by
    simp only [List.cons_append, run]
    split
    · rfl
    · exact run_append _ h m

theorem calls_append (i : Nat) (h m : List (Nat × Call)) : calls i (h ++ m) = calls i h ++ calls i m := by simp [calls]

theorem calls_opens {i : Nat} {h m : List (Nat × Call)} (o : Opens (calls i (h ++ m))) : Opens (calls i h) := by
  intro x y e
  refine o x (y ++ calls i m) ?_
  rw [calls_append, e]
  simp

theorem run_bad (h : List (Nat × Call)) : (∀ i, Opens (calls i h)) →
    ((∃ s, run (fun _ => Th.start) h = some s) ↔ ∀ h₁ i c h₂, h = h₁ ++ (i, c) :: h₂ → ¬ Bad (calls i h₁) c) := by
  induction h using snoc_ind with
  | h0 => exact fun _ => ⟨fun _ h₁ i c h₂ e => absurd (congrArg List.length e) (by simp), fun _ => ⟨_, rfl⟩⟩
  | h1 h x ih =>
    obtain ⟨i, c⟩ := x
    intro ho
    have ih := ih (fun j => calls_opens (ho j))
    rw [run_append]
    constructor
    · rintro ⟨s, e⟩ h₁ j d h₂ q
      cases hr : run (fun _ => Th.start) h with
      | none => rw [hr] at e; cases e
      | some u =>
        cases h₂ using snoc_ind with
        | h0 =>
          obtain ⟨rfl, q2⟩ := List.append_inj' q rfl
          cases q2
          rw [hr] at e
          simp only [Option.bind_some, run] at e
          intro hb
          rw [(step_bad _ c (u i) (calls_opens (ho i)) (run_local h _ u hr i)).mpr hb] at e
          cases e
        | h1 h₂ z _ =>
          rw [← List.cons_append, ← List.append_assoc] at q
          obtain ⟨q1, -⟩ := List.append_inj' q rfl
          exact ih.mp ⟨u, hr⟩ h₁ j d h₂ q1
    · intro hb
      obtain ⟨u, hr⟩ := ih.mpr (fun h₁ j d h₂ q => hb h₁ j d (h₂ ++ [(i, c)]) (by rw [q]; simp))
      rw [hr]
      have hc := hb h i c [] rfl
      rw [← step_bad _ c (u i) (calls_opens (ho i)) (run_local h _ u hr i)] at hc
      simp only [Option.bind_some, run]
      split
      · next e => exact absurd e hc
      · exact ⟨_, rfl⟩

end Verif.Fs
