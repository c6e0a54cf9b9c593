import Verif.Spec.TlsPair
namespace Verif.Et

@[simp] theorem set_keys (s : St) (t k : Nat) (o : Obj) : (s.set t k o).keys = s.keys := rfl
@[simp] theorem set_raiiKey (s : St) (t k : Nat) (o : Obj) : (s.set t k o).raiiKey = s.raiiKey := rfl
@[simp] theorem set_exKey (s : St) (t k : Nat) (o : Obj) : (s.set t k o).exKey = s.exKey := rfl

/-! ## One thread, no key before -/

/-- Both keys are 0. -/
structure Same (s : St) : Prop where
  rk : s.raiiKey = 0
  ek : s.exKey = 0
  none : s.keys = 0 → s.raiiMade = false ∧ s.exMade = false
  some : 0 < s.keys → (s.slot 0 0).isSome

theorem Same.eq {s : St} (h : Same s) (t : Nat) : s.raiiLocal t = s.exLocal t := by
  unfold St.raiiLocal St.exLocal; rw [h.rk, h.ek]

theorem Same.exInit {s : St} (h : Same s) : Same (s.exInit 0).1 ∧ 0 < (s.exInit 0).1.keys := by
  unfold St.exInit
  cases hl : s.exLocal 0 with
  | some o =>
    refine ⟨h, ?_⟩
    unfold St.exLocal St.get at hl
    split at hl
    · rw [h.ek] at *; assumption
    · cases hl
  | none =>
    have hk : s.keys = 0 := by
      rcases Nat.eq_zero_or_pos s.keys with h0 | h0
      · exact h0
      · have := h.some h0
        unfold St.exLocal St.get at hl
        rw [h.ek, if_pos h0] at hl
        rw [hl] at this; cases this
    unfold St.except
    dsimp only
    rw [(h.none hk).2]
    simp only [Bool.false_eq_true, if_false]
    split
    · rename_i o ho
      refine ⟨⟨h.rk, hk, fun h0 => ?_, fun _ => ?_⟩, Nat.succ_pos _⟩
      · exact absurd h0 (Nat.succ_ne_zero _)
      · unfold St.get at ho
        rw [if_pos (Nat.lt_succ_self _)] at ho
        dsimp only at ho
        rw [hk] at ho
        dsimp only; rw [ho]; rfl
    · refine ⟨⟨h.rk, hk, fun h0 => absurd h0 (Nat.succ_ne_zero _), fun _ => ?_⟩, Nat.succ_pos _⟩
      unfold St.set
      dsimp only
      rw [if_pos ⟨rfl, hk.symm⟩]; rfl

theorem Same.raii {s : St} (h : Same s) (hk : s.keys = 0) : Same (s.raii 0).1 ∧ 0 < (s.raii 0).1.keys := by
  unfold St.raii
  dsimp only
  rw [(h.none hk).1]
  simp only [Bool.false_eq_true, if_false]
  split
  · rename_i o ho
    refine ⟨⟨hk, h.ek, fun h0 => ?_, fun _ => ?_⟩, Nat.succ_pos _⟩
    · exact absurd h0 (Nat.succ_ne_zero _)
    · unfold St.get at ho
      rw [if_pos (Nat.lt_succ_self _)] at ho
      dsimp only at ho
      rw [hk] at ho
      dsimp only; rw [ho]; rfl
  · refine ⟨⟨hk, h.ek, fun h0 => absurd h0 (Nat.succ_ne_zero _), fun _ => ?_⟩, Nat.succ_pos _⟩
    unfold St.set
    dsimp only
    rw [if_pos ⟨rfl, hk.symm⟩]; rfl

theorem Same.raiiInit {s : St} (h : Same s) : Same (s.raiiInit 0).1 := by
  unfold St.raiiInit
  cases hl : s.raiiLocal 0 with
  | some o => exact h
  | none =>
    have hk : s.keys = 0 := by
      rcases Nat.eq_zero_or_pos s.keys with h0 | h0
      · exact h0
      · have := h.some h0
        unfold St.raiiLocal St.get at hl
        rw [h.rk, if_pos h0] at hl
        rw [hl] at this; cases this
    exact (h.raii hk).1.exInit.1

theorem Same.put {s : St} (h : Same s) (hk : 0 < s.keys) (o : Obj) (k : Nat) (h0 : k = 0) : Same (s.set 0 k o) :=
  ⟨h.rk, h.ek, fun e => absurd e (Nat.ne_of_gt hk), fun _ => by unfold St.set; dsimp only; rw [if_pos ⟨rfl, h0.symm⟩]; rfl⟩

theorem Same.step {s : St} (h : Same s) (ho : s.outer 0 ≠ [] → 0 < s.keys) (o : Op) :
    Same (s.step 0 o).1 ∧ ((s.step 0 o).1.outer 0 ≠ [] → 0 < (s.step 0 o).1.keys) := by
  cases o with
  | scope =>
    refine ⟨h.raiiInit, fun _ => ?_⟩
    show 0 < (s.raiiInit 0).1.keys
    unfold St.raiiInit
    cases hl : s.raiiLocal 0 with
    | some o =>
      unfold St.raiiLocal St.get at hl
      split at hl
      · rw [h.rk] at *; assumption
      · cases hl
    | none =>
      have hk : s.keys = 0 := by
        rcases Nat.eq_zero_or_pos s.keys with h0 | h0
        · exact h0
        · have := h.some h0
          unfold St.raiiLocal St.get at hl
          rw [h.rk, if_pos h0] at hl
          rw [hl] at this; cases this
      exact (h.raii hk).1.exInit.2
  | context => exact ⟨h.exInit.1, fun _ => h.exInit.2⟩
  | enter =>
    have h1 := h.exInit
    refine ⟨?_, fun _ => h1.2⟩
    have : ∀ f g, Same { (s.exInit 0).1 with fresh := f, outer := g } :=
      fun f g => ⟨h1.1.rk, h1.1.ek, h1.1.none, h1.1.some⟩
    exact (this ((s.exInit 0).1.fresh + 1) (fun u => if u = 0 then (s.exInit 0).2 :: (s.exInit 0).1.outer 0 else (s.exInit 0).1.outer u)).put h1.2
      (.frame (s.exInit 0).1.fresh) _ h1.1.ek
  | leave =>
    unfold St.step
    cases hl : s.outer 0 with
    | nil => exact ⟨h, ho⟩
    | cons o os =>
      have hk := ho (by rw [hl]; simp)
      refine ⟨?_, fun _ => hk⟩
      have : Same { s with outer := fun u => if u = 0 then os else s.outer u } := ⟨h.rk, h.ek, h.none, h.some⟩
      exact this.put hk o _ h.ek

theorem Same.run : ∀ (h : List Op) {s : St}, Same s → (s.outer 0 ≠ [] → 0 < s.keys) → Same (s.run (h.map fun o => (0, o))).1
  | [], _, i, _ => i
  | o :: h, _, i, k => Same.run h (i.step k o).1 (i.step k o).2

theorem start_same (held : Nat → Nat → Option Nat) : Same (start 0 held) :=
  ⟨rfl, rfl, fun _ => ⟨rfl, rfl⟩, fun h => absurd h (Nat.lt_irrefl 0)⟩

/-! ## Key 0 is another's and holds nothing -/

def isCtx : Obj → Prop
  | .ctx _ | .frame _ => True
  | _ => False

def isScope : Obj → Prop
  | .scope _ => True
  | _ => False

structure Sep (s : St) : Prop where
  keys : 0 < s.keys
  zero : ∀ t, s.slot t 0 = none
  new : ∀ t k, s.keys ≤ k → s.slot t k = none
  rk : s.raiiKey < s.keys ∧ (s.raiiMade = true ↔ s.raiiKey ≠ 0)
  ek : s.exKey < s.keys ∧ (s.exMade = true ↔ s.exKey ≠ 0)
  ne : s.raiiKey = s.exKey → s.raiiKey = 0
  scope : ∀ t o, s.slot t s.raiiKey = some o → isScope o
  ctx : ∀ t o, s.slot t s.exKey = some o → isCtx o
  outer : ∀ t, ∀ o ∈ s.outer t, isCtx o
  inside : ∀ t, s.outer t ≠ [] → s.exMade = true

theorem Sep.exPut {s : St} (h : Sep s) (t : Nat) (o : Obj) (ho : isCtx o) (hm : s.exMade = true) : Sep (s.set t s.exKey o) := by
  have h0 := h.ek.2.1 hm
  refine ⟨h.keys, fun u => ?_, fun u k hk => ?_, h.rk, h.ek, h.ne, fun u x hx => ?_, fun u x hx => ?_, h.outer, h.inside⟩
  · show (if _ then _ else _) = none
    rw [if_neg fun e => h0 e.2.symm]; exact h.zero u
  · show (if _ then _ else _) = none
    rw [if_neg fun e => ?_]
    · exact h.new u k hk
    · have := h.ek.1; have : k = s.exKey := e.2; have : s.keys ≤ k := hk; omega
  · refine h.scope u x ?_
    rw [← hx]
    refine (if_neg fun e => ?_).symm
    have e2 : s.raiiKey = s.exKey := e.2
    exact h0 (e2 ▸ h.ne e2)
  · have hx : (if u = t ∧ s.exKey = s.exKey then some o else s.slot u s.exKey) = some x := hx
    split at hx
    · cases hx; exact ho
    · exact h.ctx u x hx

theorem Sep.raiiPut {s : St} (h : Sep s) (t : Nat) (o : Obj) (ho : isScope o) (hm : s.raiiMade = true) : Sep (s.set t s.raiiKey o) := by
  have h0 := h.rk.2.1 hm
  refine ⟨h.keys, fun u => ?_, fun u k hk => ?_, h.rk, h.ek, h.ne, fun u x hx => ?_, fun u x hx => ?_, h.outer, h.inside⟩
  · show (if _ then _ else _) = none
    rw [if_neg fun e => h0 e.2.symm]; exact h.zero u
  · show (if _ then _ else _) = none
    rw [if_neg fun e => ?_]
    · exact h.new u k hk
    · have := h.rk.1; have : k = s.raiiKey := e.2; have : s.keys ≤ k := hk; omega
  · have hx : (if u = t ∧ s.raiiKey = s.raiiKey then some o else s.slot u s.raiiKey) = some x := hx
    split at hx
    · cases hx; exact ho
    · exact h.scope u x hx
  · refine h.ctx u x ?_
    rw [← hx]
    refine (if_neg fun e => ?_).symm
    have e2 : s.exKey = s.raiiKey := e.2
    exact h0 (h.ne e2.symm)

theorem Sep.except {s : St} (h : Sep s) (t : Nat) : Sep (s.except t).1 ∧ isCtx (s.except t).2 ∧ (s.except t).1.exMade = true := by
  have key : ∀ s1 : St, Sep s1 → s1.exMade = true → ∀ r, r = (match s1.get t s1.exKey with
      | some o => (s1, o)
      | none => (({ s1 with fresh := s1.fresh + 1 } : St).set t s1.exKey (.ctx s1.fresh), .ctx s1.fresh)) → Sep r.1 ∧ isCtx r.2 ∧ r.1.exMade = true := by
    intro s1 h1 hm r hr
    subst hr
    cases hg : s1.get t s1.exKey with
    | some o =>
      refine ⟨h1, h1.ctx t o ?_, hm⟩
      unfold St.get at hg
      rwa [if_pos h1.ek.1] at hg
    | none => exact ⟨Sep.exPut (s := { s1 with fresh := s1.fresh + 1 }) ⟨h1.keys, h1.zero, h1.new, h1.rk, h1.ek, h1.ne, h1.scope, h1.ctx, h1.outer, h1.inside⟩ t _ trivial hm, trivial, hm⟩
  unfold St.except
  cases hm : s.exMade with
  | true => exact key s h hm _ (by simp [hm] <;> rfl)
  | false =>
    refine key { s with exMade := true, exKey := s.keys, keys := s.keys + 1 } ?_ rfl _ (by simp <;> rfl)
    refine ⟨Nat.succ_pos _, h.zero, fun u k hk => h.new u k (Nat.le_of_succ_le hk), ⟨Nat.lt_succ_of_lt h.rk.1, h.rk.2⟩,
      ⟨Nat.lt_succ_self _, iff_of_true rfl (Nat.ne_of_gt h.keys)⟩, fun e => ?_, h.scope, fun u o ho => ?_, h.outer, fun _ _ => rfl⟩
    · have := h.rk.1; have : s.raiiKey = s.keys := e; omega
    · rw [h.new u s.keys (Nat.le_refl _)] at ho; cases ho

theorem Sep.raii {s : St} (h : Sep s) (t : Nat) : Sep (s.raii t).1 ∧ isScope (s.raii t).2 := by
  have key : ∀ s1 : St, Sep s1 → s1.raiiMade = true → ∀ r, r = (match s1.get t s1.raiiKey with
      | some o => (s1, o)
      | none => (({ s1 with fresh := s1.fresh + 1 } : St).set t s1.raiiKey (.scope s1.fresh), .scope s1.fresh)) → Sep r.1 ∧ isScope r.2 := by
    intro s1 h1 hm r hr
    subst hr
    cases hg : s1.get t s1.raiiKey with
    | some o =>
      refine ⟨h1, h1.scope t o ?_⟩
      unfold St.get at hg
      rwa [if_pos h1.rk.1] at hg
    | none => exact ⟨Sep.raiiPut (s := { s1 with fresh := s1.fresh + 1 }) ⟨h1.keys, h1.zero, h1.new, h1.rk, h1.ek, h1.ne, h1.scope, h1.ctx, h1.outer, h1.inside⟩ t _ trivial hm, trivial⟩
  unfold St.raii
  cases hm : s.raiiMade with
  | true => exact key s h hm _ (by simp [hm] <;> rfl)
  | false =>
    refine key { s with raiiMade := true, raiiKey := s.keys, keys := s.keys + 1 } ?_ rfl _ (by simp <;> rfl)
    refine ⟨Nat.succ_pos _, h.zero, fun u k hk => h.new u k (Nat.le_of_succ_le hk), ⟨Nat.lt_succ_self _, iff_of_true rfl (Nat.ne_of_gt h.keys)⟩,
      ⟨Nat.lt_succ_of_lt h.ek.1, h.ek.2⟩, fun e => ?_, fun u o ho => ?_, h.ctx, h.outer, h.inside⟩
    · have := h.ek.1; have : s.keys = s.exKey := e; omega
    · rw [h.new u s.keys (Nat.le_refl _)] at ho; cases ho

theorem Sep.exInit {s : St} (h : Sep s) (t : Nat) : Sep (s.exInit t).1 ∧ isCtx (s.exInit t).2 ∧ (s.exInit t).1.exMade = true := by
  unfold St.exInit
  cases hl : s.exLocal t with
  | some o =>
    unfold St.exLocal St.get at hl
    rw [if_pos h.ek.1] at hl
    refine ⟨h, h.ctx t o hl, h.ek.2.2 fun e => ?_⟩
    rw [e, h.zero] at hl; cases hl
  | none => exact h.except t

theorem Sep.raiiInit {s : St} (h : Sep s) (t : Nat) : Sep (s.raiiInit t).1 ∧ isScope (s.raiiInit t).2 := by
  unfold St.raiiInit
  cases hl : s.raiiLocal t with
  | some o =>
    unfold St.raiiLocal St.get at hl
    rw [if_pos h.rk.1] at hl
    exact ⟨h, h.scope t o hl⟩
  | none => exact ⟨((h.raii t).1.exInit t).1, (h.raii t).2⟩

theorem Sep.step {s : St} (h : Sep s) (t : Nat) (o : Op) : Sep (s.step t o).1 ∧ Right o (s.step t o).2 := by
  cases o with
  | scope =>
    have h1 := h.raiiInit t
    refine ⟨h1.1, ?_⟩
    show Right .scope (some (s.raiiInit t).2)
    cases ho : (s.raiiInit t).2 <;> rw [ho] at h1 <;> first | trivial | exact h1.2.elim
  | context =>
    have h1 := h.exInit t
    refine ⟨h1.1, ?_⟩
    show Right .context (some (s.exInit t).2)
    cases ho : (s.exInit t).2 <;> rw [ho] at h1 <;> first | trivial | exact h1.2.1.elim
  | enter =>
    have h1 := h.exInit t
    refine ⟨?_, ?_⟩
    · refine Sep.exPut (s := { (s.exInit t).1 with fresh := _, outer := _ }) ?_ t _ trivial h1.2.2
      have g := h1.1
      refine ⟨g.keys, g.zero, g.new, g.rk, g.ek, g.ne, g.scope, g.ctx, fun u x hx => ?_, fun _ _ => h1.2.2⟩
      dsimp only at hx
      split at hx
      · rcases List.mem_cons.1 hx with e | e
        · rw [e]; exact h1.2.1
        · exact g.outer t x e
      · exact g.outer u x hx
    · show Right .enter (some (s.exInit t).2)
      cases ho : (s.exInit t).2 <;> rw [ho] at h1 <;> first | trivial | exact h1.2.1.elim
  | leave =>
    unfold St.step
    cases hl : s.outer t with
    | nil => exact ⟨h, trivial⟩
    | cons o os =>
      refine ⟨?_, trivial⟩
      have hm := h.inside t (by rw [hl]; simp)
      refine Sep.exPut (s := { s with outer := _ }) ?_ t o (h.outer t o (by rw [hl]; exact List.mem_cons_self)) hm
      refine ⟨h.keys, h.zero, h.new, h.rk, h.ek, h.ne, h.scope, h.ctx, fun u x hx => ?_, fun _ _ => hm⟩
      dsimp only at hx
      split at hx
      · exact h.outer t x (by rw [hl]; exact List.mem_cons_of_mem _ hx)
      · exact h.outer u x hx

theorem Sep.run : ∀ (h : List (Nat × Op)) {s : St}, Sep s → ∀ x ∈ (s.run h).2, Right x.2.1 x.2.2
  | [], _, _, x, hx => by cases hx
  | (t, o) :: h, s, i, x, hx => by
    rcases List.mem_cons.1 hx with e | e
    · rw [e]; exact (i.step t o).2
    · exact Sep.run h (i.step t o).1 x e

theorem start_sep (keys : Nat) (hk : 0 < keys) (held : Nat → Nat → Option Nat) (h0 : ∀ t, held t 0 = none) : Sep (start keys held) := by
  have z : ∀ t, (start keys held).slot t 0 = none := by
    intro t
    show (if _ then _ else _) = none
    rw [h0 t]; split <;> rfl
  refine ⟨hk, z, fun t k h => if_neg (Nat.not_lt.2 h), ⟨hk, by simp [start]⟩, ⟨hk, by simp [start]⟩, fun _ => rfl,
    fun t o ho => ?_, fun t o ho => ?_, (fun t o ho => by cases ho), fun t ho => absurd rfl ho⟩
  · rw [show (start keys held).raiiKey = 0 from rfl, z t] at ho; cases ho
  · rw [show (start keys held).exKey = 0 from rfl, z t] at ho; cases ho

/-! ## Whose objects -/

def num : Obj → Nat
  | .scope n | .ctx n | .frame n | .foreign n => n

/-- Thread `t` holds `o`. -/
def holds (s : St) (t : Nat) (o : Obj) : Prop := s.slot t s.raiiKey = some o ∨ s.slot t s.exKey = some o ∨ o ∈ s.outer t

/-- What a step of thread `t` changes. -/
structure Grow (t : Nat) (s s' : St) : Prop where
  fresh : s.fresh ≤ s'.fresh
  new : ∀ u o, holds s' u o → holds s u o ∨ (u = t ∧ s.fresh ≤ num o ∧ num o < s'.fresh)
  keep : ∀ u o, s.slot u s.raiiKey = some o → s'.slot u s'.raiiKey = some o

theorem Grow.refl (t : Nat) (s : St) : Grow t s s := ⟨Nat.le_refl _, fun _ _ h => .inl h, fun _ _ h => h⟩

theorem Grow.trans {t : Nat} {a b c : St} (h : Grow t a b) (g : Grow t b c) : Grow t a c := by
  refine ⟨Nat.le_trans h.fresh g.fresh, fun u o ho => ?_, fun u o ho => g.keep u o (h.keep u o ho)⟩
  rcases g.new u o ho with k | ⟨k1, k2, k3⟩
  · rcases h.new u o k with j | ⟨j1, j2, j3⟩
    · exact .inl j
    · exact .inr ⟨j1, j2, Nat.lt_of_lt_of_le j3 g.fresh⟩
  · exact .inr ⟨k1, Nat.le_trans h.fresh k2, k3⟩

theorem Sep.raiiNe {s : St} (h : Sep s) {u : Nat} {o : Obj} (ho : s.slot u s.raiiKey = some o) : s.raiiKey ≠ 0 := by
  intro e
  rw [e, h.zero] at ho; cases ho

theorem Sep.growEx {s : St} (h : Sep s) (t : Nat) (o : Obj) (f : Nat) (hf : s.fresh ≤ f) (ho : holds s t o ∨ (s.fresh ≤ num o ∧ num o < f)) :
    Grow t s ({ s with fresh := f }.set t s.exKey o) := by
  refine ⟨hf, fun u x hx => ?_, fun u x hx => ?_⟩
  · have cs : ∀ k, (if u = t ∧ k = s.exKey then some o else s.slot u k) = some x → s.slot u k = some x ∨ (u = t ∧ x = o) := by
      intro k hk
      split at hk
      · rename_i e; cases hk; exact .inr ⟨e.1, rfl⟩
      · exact .inl hk
    have fin : (u = t ∧ x = o) → holds s u x ∨ (u = t ∧ s.fresh ≤ num x ∧ num x < f) := by
      rintro ⟨rfl, rfl⟩
      rcases ho with ho | ho
      · exact .inl ho
      · exact .inr ⟨rfl, ho⟩
    rcases hx with hx | hx | hx
    · rcases cs _ hx with c | c
      · exact .inl (.inl c)
      · exact fin c
    · rcases cs _ hx with c | c
      · exact .inl (.inr (.inl c))
      · exact fin c
    · exact .inl (.inr (.inr hx))
  · show (if _ then _ else _) = some x
    rw [if_neg fun e => h.raiiNe hx (h.ne e.2)]; exact hx

theorem Sep.growRaii {s : St} (h : Sep s) (t : Nat) (hn : s.slot t s.raiiKey = none) :
    Grow t s ({ s with fresh := s.fresh + 1 }.set t s.raiiKey (.scope s.fresh)) := by
  refine ⟨Nat.le_succ _, fun u x hx => ?_, fun u x hx => ?_⟩
  · have cs : ∀ k, (if u = t ∧ k = s.raiiKey then some (.scope s.fresh) else s.slot u k) = some x → s.slot u k = some x ∨ (u = t ∧ x = .scope s.fresh) := by
      intro k hk
      split at hk
      · rename_i e; cases hk; exact .inr ⟨e.1, rfl⟩
      · exact .inl hk
    have fin : (u = t ∧ x = .scope s.fresh) → holds s u x ∨ (u = t ∧ s.fresh ≤ num x ∧ num x < s.fresh + 1) := by
      rintro ⟨rfl, rfl⟩
      exact .inr ⟨rfl, Nat.le_refl _, Nat.lt_succ_self _⟩
    rcases hx with hx | hx | hx
    · rcases cs _ hx with c | c
      · exact .inl (.inl c)
      · exact fin c
    · rcases cs _ hx with c | c
      · exact .inl (.inr (.inl c))
      · exact fin c
    · exact .inl (.inr (.inr hx))
  · show (if _ then _ else _) = some x
    rw [if_neg fun e => ?_]
    · exact hx
    · rw [e.1, hn] at hx; cases hx

theorem Sep.except_grow {s : St} (h : Sep s) (t : Nat) : Grow t s (s.except t).1 ∧ holds (s.except t).1 t (s.except t).2 := by
  have key : ∀ s1 : St, Sep s1 → s1.exMade = true → ∀ r, r = (match s1.get t s1.exKey with
      | some o => (s1, o)
      | none => (({ s1 with fresh := s1.fresh + 1 } : St).set t s1.exKey (.ctx s1.fresh), .ctx s1.fresh)) → Grow t s1 r.1 ∧ holds r.1 t r.2 := by
    intro s1 h1 hm r hr
    subst hr
    cases hg : s1.get t s1.exKey with
    | some o =>
      refine ⟨Grow.refl t s1, .inr (.inl ?_)⟩
      unfold St.get at hg
      rwa [if_pos h1.ek.1] at hg
    | none => exact ⟨h1.growEx t _ _ (Nat.le_succ _) (.inr ⟨Nat.le_refl _, Nat.lt_succ_self _⟩), .inr (.inl (if_pos ⟨rfl, rfl⟩))⟩
  unfold St.except
  cases hm : s.exMade with
  | true => exact key s h hm _ (by simp [hm] <;> rfl)
  | false =>
    have g : Grow t s { s with exMade := true, exKey := s.keys, keys := s.keys + 1 } := by
      refine ⟨Nat.le_refl _, fun u o ho => .inl ?_, fun u o ho => ho⟩
      rcases ho with ho | ho | ho
      · exact .inl ho
      · exact absurd (ho.symm.trans (h.new u s.keys (Nat.le_refl _))) nofun
      · exact .inr (.inr ho)
    have k := key { s with exMade := true, exKey := s.keys, keys := s.keys + 1 } ?_ rfl _ (by simp <;> rfl)
    · exact ⟨g.trans k.1, k.2⟩
    refine ⟨Nat.succ_pos _, h.zero, fun u k hk => h.new u k (Nat.le_of_succ_le hk), ⟨Nat.lt_succ_of_lt h.rk.1, h.rk.2⟩,
      ⟨Nat.lt_succ_self _, iff_of_true rfl (Nat.ne_of_gt h.keys)⟩, fun e => ?_, h.scope, fun u o ho => ?_, h.outer, fun _ _ => rfl⟩
    · have := h.rk.1; have : s.raiiKey = s.keys := e; omega
    · rw [h.new u s.keys (Nat.le_refl _)] at ho; cases ho

theorem Sep.raii_grow {s : St} (h : Sep s) (t : Nat) : Grow t s (s.raii t).1 ∧ (s.raii t).1.slot t (s.raii t).1.raiiKey = some (s.raii t).2 := by
  have key : ∀ s1 : St, Sep s1 → s1.raiiMade = true → ∀ r, r = (match s1.get t s1.raiiKey with
      | some o => (s1, o)
      | none => (({ s1 with fresh := s1.fresh + 1 } : St).set t s1.raiiKey (.scope s1.fresh), .scope s1.fresh)) →
      Grow t s1 r.1 ∧ r.1.slot t r.1.raiiKey = some r.2 := by
    intro s1 h1 hm r hr
    subst hr
    cases hg : s1.get t s1.raiiKey with
    | some o =>
      refine ⟨Grow.refl t s1, ?_⟩
      unfold St.get at hg
      rwa [if_pos h1.rk.1] at hg
    | none =>
      refine ⟨h1.growRaii t ?_, if_pos ⟨rfl, rfl⟩⟩
      unfold St.get at hg
      rwa [if_pos h1.rk.1] at hg
  unfold St.raii
  cases hm : s.raiiMade with
  | true => exact key s h hm _ (by simp [hm] <;> rfl)
  | false =>
    have hz : s.raiiKey = 0 := by
      by_cases e : s.raiiKey = 0
      · exact e
      · rw [h.rk.2.2 e] at hm; cases hm
    have g : Grow t s { s with raiiMade := true, raiiKey := s.keys, keys := s.keys + 1 } := by
      refine ⟨Nat.le_refl _, fun u o ho => .inl ?_, fun u o ho => absurd hz (h.raiiNe ho)⟩
      rcases ho with ho | ho | ho
      · exact absurd (ho.symm.trans (h.new u s.keys (Nat.le_refl _))) nofun
      · exact .inr (.inl ho)
      · exact .inr (.inr ho)
    have k := key { s with raiiMade := true, raiiKey := s.keys, keys := s.keys + 1 } ?_ rfl _ (by simp <;> rfl)
    · exact ⟨g.trans k.1, k.2⟩
    refine ⟨Nat.succ_pos _, h.zero, fun u k hk => h.new u k (Nat.le_of_succ_le hk), ⟨Nat.lt_succ_self _, iff_of_true rfl (Nat.ne_of_gt h.keys)⟩,
      ⟨Nat.lt_succ_of_lt h.ek.1, h.ek.2⟩, fun e => ?_, fun u o ho => ?_, h.ctx, h.outer, h.inside⟩
    · have := h.ek.1; have : s.keys = s.exKey := e; omega
    · rw [h.new u s.keys (Nat.le_refl _)] at ho; cases ho

theorem Sep.exInit_grow {s : St} (h : Sep s) (t : Nat) : Grow t s (s.exInit t).1 ∧ holds (s.exInit t).1 t (s.exInit t).2 := by
  unfold St.exInit
  cases hl : s.exLocal t with
  | some o =>
    unfold St.exLocal St.get at hl
    rw [if_pos h.ek.1] at hl
    exact ⟨Grow.refl t s, .inr (.inl hl)⟩
  | none => exact h.except_grow t

theorem Sep.raiiInit_grow {s : St} (h : Sep s) (t : Nat) :
    Grow t s (s.raiiInit t).1 ∧ (s.raiiInit t).1.slot t (s.raiiInit t).1.raiiKey = some (s.raiiInit t).2 := by
  unfold St.raiiInit
  cases hl : s.raiiLocal t with
  | some o =>
    unfold St.raiiLocal St.get at hl
    rw [if_pos h.rk.1] at hl
    exact ⟨Grow.refl t s, hl⟩
  | none =>
    have g := h.raii_grow t
    have k := (h.raii t).1.exInit_grow t
    exact ⟨g.1.trans k.1, k.1.keep _ _ g.2⟩

/-- Adding what is held to the list changes nothing. -/
theorem outer_grow {s : St} {t : Nat} (l : Nat → List Obj) (hl : ∀ u, ∀ o ∈ l u, holds s u o) : Grow t s { s with outer := l } := by
  refine ⟨Nat.le_refl _, fun u o ho => .inl ?_, fun _ _ h => h⟩
  rcases ho with ho | ho | ho
  · exact .inl ho
  · exact .inr (.inl ho)
  · exact hl u o ho

theorem Sep.step_grow {s : St} (h : Sep s) (t : Nat) (o : Op) : Grow t s (s.step t o).1 ∧
    (∀ x, (s.step t o).2 = some x → holds (s.step t o).1 t x) ∧
    (o = .scope → (s.step t o).1.slot t (s.step t o).1.raiiKey = (s.step t o).2) := by
  cases o with
  | scope =>
    have g := h.raiiInit_grow t
    exact ⟨g.1, (fun x hx => .inl (by cases hx; exact g.2)), fun _ => g.2⟩
  | context =>
    have g := h.exInit_grow t
    exact ⟨g.1, (fun x hx => by cases hx; exact g.2), nofun⟩
  | enter =>
    have g := h.exInit_grow t
    have h1 := (h.exInit t)
    have g2 : Grow t (s.exInit t).1 { (s.exInit t).1 with
        outer := fun u => if u = t then (s.exInit t).2 :: (s.exInit t).1.outer t else (s.exInit t).1.outer u } := by
      refine outer_grow _ fun u o ho => ?_
      split at ho
      · rename_i e; subst e
        rcases List.mem_cons.1 ho with e | e
        · rw [e]; exact g.2
        · exact .inr (.inr e)
      · exact .inr (.inr ho)
    have s2 : Sep { (s.exInit t).1 with
        outer := fun u => if u = t then (s.exInit t).2 :: (s.exInit t).1.outer t else (s.exInit t).1.outer u } := by
      have k := h1.1
      refine ⟨k.keys, k.zero, k.new, k.rk, k.ek, k.ne, k.scope, k.ctx, fun u x hx => ?_, fun _ _ => h1.2.2⟩
      dsimp only at hx
      split at hx
      · rcases List.mem_cons.1 hx with e | e
        · rw [e]; exact h1.2.1
        · exact k.outer t x e
      · exact k.outer u x hx
    have g3 := s2.growEx t (.frame (s.exInit t).1.fresh) ((s.exInit t).1.fresh + 1) (Nat.le_succ _) (.inr ⟨Nat.le_refl _, Nat.lt_succ_self _⟩)
    refine ⟨(g.1.trans g2).trans g3, (fun x hx => .inr (.inr ?_)), nofun⟩
    have hx : some (s.exInit t).2 = some x := hx
    cases hx
    show (s.exInit t).2 ∈ (if t = t then _ else _)
    rw [if_pos rfl]; exact List.mem_cons_self
  | leave =>
    unfold St.step
    cases hl : s.outer t with
    | nil => exact ⟨Grow.refl t s, nofun, nofun⟩
    | cons o os =>
      refine ⟨?_, nofun, nofun⟩
      have g1 : Grow t s (({ s with fresh := s.fresh } : St).set t s.exKey o) :=
        h.growEx t o s.fresh (Nat.le_refl _) (.inl (.inr (.inr (by rw [hl]; exact List.mem_cons_self))))
      refine ⟨Nat.le_refl _, fun u x hx => ?_, g1.keep⟩
      refine g1.new u x ?_
      rcases hx with hx | hx | hx
      · exact .inl hx
      · exact .inr (.inl hx)
      · refine .inr (.inr ?_)
        have hx : x ∈ (if u = t then os else s.outer u) := hx
        show x ∈ s.outer u
        split at hx
        · rename_i e; rw [e, hl]; exact List.mem_cons_of_mem _ hx
        · exact hx

/-- No object is held by two threads, and all were made. -/
structure Apart (s : St) : Prop where
  lt : ∀ t o, holds s t o → num o < s.fresh
  dj : ∀ t u o, holds s t o → holds s u o → t = u

theorem Apart.grow {s s' : St} {t : Nat} (h : Apart s) (g : Grow t s s') : Apart s' := by
  refine ⟨fun u o ho => ?_, fun u v o hu hv => ?_⟩
  · rcases g.new u o ho with k | k
    · exact Nat.lt_of_lt_of_le (h.lt u o k) g.fresh
    · exact k.2.2
  · rcases g.new u o hu with k | k <;> rcases g.new v o hv with j | j
    · exact h.dj u v o k j
    · exact absurd (h.lt u o k) (Nat.not_lt.2 j.2.1)
    · exact absurd (h.lt v o j) (Nat.not_lt.2 k.2.1)
    · exact k.1.trans j.1.symm

theorem run_later : ∀ (h : List (Nat × Op)) {s : St}, Sep s → ∀ y ∈ (s.run h).2,
    (∀ o, y.2.2 = some o → holds s y.1 o ∨ s.fresh ≤ num o) ∧
    (y.2.1 = .scope → ∀ o, s.slot y.1 s.raiiKey = some o → y.2.2 = some o)
  | [], _, _, y, hy => by cases hy
  | (t, o) :: h, s, i, y, hy => by
    have g := i.step_grow t o
    rcases List.mem_cons.1 hy with e | e
    · subst e
      refine ⟨fun x hx => ?_, fun ho x hx => ?_⟩
      · rcases g.1.new t x (g.2.1 x hx) with k | k
        · exact .inl k
        · exact .inr k.2.1
      · rw [← g.2.2 ho]; exact g.1.keep t x hx
    · have l := run_later h (i.step t o).1 y e
      refine ⟨fun x hx => ?_, fun ho x hx => l.2 ho x (g.1.keep _ x hx)⟩
      rcases l.1 x hx with k | k
      · rcases g.1.new _ x k with j | j
        · exact .inl j
        · exact .inr j.2.1
      · exact .inr (Nat.le_trans g.1.fresh k)

theorem run_own : ∀ (h : List (Nat × Op)) {s : St}, Sep s → Apart s → Own (s.run h).2
  | [], _, _, _, x, hx => by cases hx
  | (t, o) :: h, s, i, a, x, hx => by
    have g := i.step_grow t o
    have a' := a.grow g.1
    have ih := run_own h (i.step t o).1 a'
    have hd : ∀ y ∈ ((s.step t o).1.run h).2, (o = .scope → y.2.1 = .scope → t = y.1 → (s.step t o).2 = y.2.2) ∧
        ((s.step t o).2.isSome → (s.step t o).2 = y.2.2 → t = y.1) := by
      intro y hy
      have l := run_later h (i.step t o).1 y hy
      refine ⟨fun h1 h2 h3 => ?_, fun h1 h2 => ?_⟩
      · have k := g.2.2 h1
        cases hr : (s.step t o).2 with
        | none => rw [h1] at hr; cases hr
        | some z =>
          rw [hr] at k
          exact (l.2 h2 z (h3 ▸ k)).symm
      · cases hr : (s.step t o).2 with
        | none => rw [hr] at h1; cases h1
        | some z =>
          have hz := g.2.1 z hr
          rcases l.1 z (h2.symm.trans hr) with k | k
          · exact a'.dj t y.1 z hz k
          · exact absurd (a'.lt t z hz) (Nat.not_lt.2 k)
    intro y hy
    rcases List.mem_cons.1 hx with e | e <;> rcases List.mem_cons.1 hy with f | f
    · subst e; subst f; exact ⟨fun _ _ _ => rfl, fun _ _ => rfl⟩
    · subst e; exact hd y f
    · subst f
      have k := hd x e
      exact ⟨fun h1 h2 h3 => (k.1 h2 h1 h3.symm).symm, fun h1 h2 => (k.2 (h2 ▸ h1) h2.symm).symm⟩
    · exact ih x e y f

theorem start_apart (keys : Nat) (held : Nat → Nat → Option Nat) (h0 : ∀ t, held t 0 = none) : Apart (start keys held) := by
  have z : ∀ t o, ¬ holds (start keys held) t o := by
    intro t o ho
    have hz : (start keys held).slot t 0 = none := by
      show (if _ then _ else _) = none
      rw [h0 t]; split <;> rfl
    rcases ho with ho | ho | ho
    · exact absurd (ho.symm.trans hz) nofun
    · exact absurd (ho.symm.trans hz) nofun
    · cases ho
  exact ⟨fun t o h => absurd h (z t o), fun t u o h _ => absurd h (z t o)⟩

end Verif.Et
