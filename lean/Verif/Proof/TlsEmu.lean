import Verif.Proof.Tls
import Verif.Proof.TlsMore
/-!
# Emulated thread-local variables, set and deleted: proofs
-/
namespace Verif.Tl

/-- One step of C61's simulation. -/
theorem EI.step {s : E} {past : List (Nat × Op)} (hi : EI s past) (junk : Nat → Nat) (t : Nat) (op : Op)
    (hc : (match op with
      | .read v => (lastWrite t v past).isSome
      | .isEmpty v => everUsed v past
      | .write _ _ => true) = true) :
    EI (E.step junk s t op).1 ((t, op) :: past) ∧ (E.step junk s t op).2 = expected past t op := by
  cases op with
  | write v x =>
    obtain ⟨s', b, e, hm, hsl, hmade, hkl, hki, hs, hsk, hsb, hsi, hh⟩ := hi.get junk t v
    have e1 : E.step junk s t (.write v x) =
        ({ s' with heap := fun b' => if b' = b then x else s'.heap b' }, .done) := by
      simp only [E.step, e]
    rw [e1]
    refine ⟨⟨fun v' => hmade v', hkl, hki, fun t' v' h' => hs t' v' h', hsk, hsb, hsi, ?_⟩, rfl⟩
    intro t' v' b' y h' hb hw
    dsimp only at h' hb ⊢
    simp only [lastWrite] at hw
    split at hw
    · rename_i e'
      obtain ⟨rfl, rfl⟩ := e'
      rw [hsl] at hb
      injection hb with hb
      injection hw with hw
      rw [if_pos hb.symm, hw]
    · rename_i e'
      have : b' ≠ b := by
        rintro rfl
        obtain ⟨e2, e3⟩ := hsi _ _ _ _ _ hb hsl
        exact e' ⟨e2.symm, (hki v' v h' hm e3).symm⟩
      rw [if_neg this]
      exact hh t' v' b' y h' hb hw
  | read v =>
    obtain ⟨s', b, e, hm, hsl, hmade, hkl, hki, hs, hsk, hsb, hsi, hh⟩ := hi.get junk t v
    have e1 : E.step junk s t (.read v) = (s', .val (s'.heap b)) := by
      simp only [E.step, e]
    rw [e1]
    obtain ⟨y, hy⟩ := Option.isSome_iff_exists.mp hc
    refine ⟨⟨fun v' => hmade v', hkl, hki, fun t' v' h' => hs t' v' h', hsk, hsb, hsi,
      fun t' v' b' y h' hb hw => hh t' v' b' y h' hb hw⟩, ?_⟩
    simp only [expected, hy, Option.getD_some, hh t v b y hm hsl hy]
  | isEmpty v =>
    have hm : s.made v = true := by rw [hi.made]; exact hc
    have e1 : E.step junk s t (.isEmpty v) = (s, expected past t (.isEmpty v)) := by
      have := hi.slot t v hm
      simp only [E.step, expected, E.tssGet, if_pos (hi.key_lt v hm), ← this]
      cases s.slot t (s.key v) <;> rfl
    rw [e1]
    exact ⟨⟨hi.made, hi.key_lt, hi.key_inj, hi.slot, hi.slot_keys, hi.slot_blocks, hi.slot_inj, hi.heap⟩, rfl⟩

end Verif.Tl

namespace Verif.Tu
open Verif.Tl (Res E EI)

/-- Nothing was deleted. -/
structure CI (s : E2) (past : History) : Prop where
  ei : EI s.e (copies past)
  gone : ∀ v, s.gone v = false
  dead : ∀ k, s.dead k = false
  ext : ∀ o, s.ext o = pokeVal o past

theorem CI.put {s : E2} {past : History} (h : CI s past) (junk : Nat → Nat) (t v x : Nat) :
    ∃ s', s.put junk t v x = (s', .done) ∧ EI s'.e ((t, .write v x) :: copies past) ∧ (∀ v, s'.gone v = false) ∧
      (∀ k, s'.dead k = false) ∧ s'.ext = s.ext := by
  obtain ⟨h1, h2⟩ := h.ei.step junk t (.write v x) rfl
  unfold Verif.Tl.E.step at h1 h2
  unfold E2.put E2.get
  dsimp only at h1 h2 ⊢
  rcases hg : s.e.get junk t v with ⟨e', o⟩
  rw [hg] at h1 h2
  cases o with
  | none => cases h2
  | some b =>
    exact ⟨_, rfl, h1, fun v' => by dsimp only; rw [h.gone]; split <;> rfl, h.dead, rfl⟩

theorem copied {s : E2} {past : History} (hi : CI s past) (junk : Nat → Nat) (h : History)
    (hn : ∀ t v, (t, Op.del v) ∉ h) (hc : careful past h) : runWith (E2.step junk) s h = expectedCopy past h := by
  induction h generalizing s past with
  | nil => rfl
  | cons o h ih =>
    obtain ⟨t, op⟩ := o
    obtain ⟨hc1, hc2⟩ := hc
    have hn' : ∀ t v, (t, Op.del v) ∉ h := fun t v hm => hn t v (List.mem_cons_of_mem _ hm)
    rw [runWith, expectedCopy]
    cases op with
    | write v x =>
      obtain ⟨s', e, h1, h2, h3, h4⟩ := hi.put junk t v x
      have e' : E2.step junk s t (.write v x) = (s', .done) := e
      rw [e']
      exact congrArg _ (ih ⟨h1, h2, h3, fun o => by rw [h4, hi.ext]; rfl⟩ hn' hc2)
    | update v o =>
      obtain ⟨s', e, h1, h2, h3, h4⟩ := hi.put junk t v (s.ext o)
      have e' : E2.step junk s t (.update v o) = (s', .done) := e
      rw [e']
      refine congrArg _ (ih ⟨?_, h2, h3, fun o => by rw [h4, hi.ext]; rfl⟩ hn' hc2)
      rw [hi.ext] at h1
      exact h1
    | read v =>
      obtain ⟨h1, h2⟩ := hi.ei.step junk t (.read v) hc1
      have hr : (E2.step junk s t (.read v)).2 = expectedC past t (.read v) ∧ CI (E2.step junk s t (.read v)).1 ((t, .read v) :: past) := by
        unfold Verif.Tl.E.step at h1 h2
        unfold E2.step E2.get
        dsimp only at h1 h2 ⊢
        rcases hg : s.e.get junk t v with ⟨e', o⟩
        rw [hg] at h1 h2
        cases o with
        | none => cases h2
        | some b =>
          exact ⟨h2, h1, fun v' => by dsimp only; rw [hi.gone]; split <;> rfl, hi.dead, fun o => by rw [hi.ext]; rfl⟩
      rw [hr.1]
      exact congrArg _ (ih hr.2 hn' hc2)
    | isEmpty v =>
      obtain ⟨h1, h2⟩ := hi.ei.step junk t (.isEmpty v) hc1
      have hr : (E2.step junk s t (.isEmpty v)).2 = expectedC past t (.isEmpty v) := by
        rw [show expectedC past t (.isEmpty v) = Verif.Tl.expected (copies past) t (.isEmpty v) from rfl, ← h2]
        simp [E2.step, E2.tssGet, hi.gone, hi.dead, Verif.Tl.E.step]
      rw [hr]
      exact congrArg _ (ih ⟨h1, hi.gone, hi.dead, fun o => by rw [show (E2.step junk s t (.isEmpty v)).1 = s from rfl, hi.ext]; rfl⟩ hn' hc2)
    | del v => exact absurd (List.mem_cons_self ..) (hn t v)
    | poke o x =>
      refine congrArg _ (ih ⟨hi.ei, hi.gone, hi.dead, fun o' => ?_⟩ hn' hc2)
      show (if o' = o then x else s.ext o') = _
      rw [hi.ext]
      simp only [pokeVal]
      by_cases e : o' = o
      · simp [e]
      · rw [if_neg e, if_neg (Ne.symm e)]
    | peek o =>
      have hr : (E2.step junk s t (.peek o)).2 = expectedC past t (.peek o) := by
        show Res.val (s.ext o) = _
        rw [hi.ext]; rfl
      rw [hr]
      exact congrArg _ (ih ⟨hi.ei, hi.gone, hi.dead, fun o' => by rw [show (E2.step junk s t (.peek o)).1 = s from rfl, hi.ext]; rfl⟩ hn' hc2)

/-! ## After `var_del` -/

/-- What holds in every history. -/
structure J (s : E2) : Prop where
  key_lt : ∀ v, s.e.made v = true → s.e.key v < s.e.keys
  alive : ∀ v, s.e.made v = true → s.dead (s.e.key v) = false
  here : ∀ v, s.e.made v = true → s.gone v = false
  key_inj : ∀ v v', s.e.made v = true → s.e.made v' = true → s.e.key v = s.e.key v' → v = v'
  dead_lt : ∀ k, s.dead k = true → k < s.e.keys
  slot_keys : ∀ t k b, s.e.slot t k = some b → k < s.e.keys
  slot_blocks : ∀ t k b, s.e.slot t k = some b → b < s.e.blocks
  slot_inj : ∀ t k t' k' b, s.e.slot t k = some b → s.e.slot t' k' = some b → t = t' ∧ k = k'
  freed_lt : ∀ b ∈ s.freed, b < s.e.blocks
  freed_dead : ∀ b ∈ s.freed, ∀ t k, s.e.slot t k = some b → s.dead k = true

/-- Block `b` is allocated, and no thread can get at it. -/
structure Lost (s : E2) (b : Nat) : Prop where
  lt : b < s.e.blocks
  kept : b ∉ s.freed
  out : ∀ t k, s.e.slot t k = some b → s.dead k = true

theorem J.start : J E2.start where
  key_lt _ h := by cases h
  alive _ h := by cases h
  here _ h := by cases h
  key_inj _ _ h := by cases h
  dead_lt _ h := by cases h
  slot_keys _ _ _ h := by cases h
  slot_blocks _ _ _ h := by cases h
  slot_inj _ _ _ _ _ h := by cases h
  freed_lt _ h := by cases h
  freed_dead _ h := by cases h

/-- The variable is set up. -/
theorem J.setup {s : E2} (h : J s) (v : Nat) :
    let e1 := if s.e.made v then s.e else (s.e.mark v).create v
    let s1 : E2 := { s with e := e1, gone := fun v' => if v' = v ∧ s.e.made v = false then false else s.gone v' }
    J s1 ∧ e1.made v = true ∧ e1.slot = s.e.slot ∧ e1.blocks = s.e.blocks := by
  dsimp only
  by_cases hm : s.e.made v = true
  · rw [if_pos hm]
    have e : (fun v' => if v' = v ∧ s.e.made v = false then false else s.gone v') = s.gone := by
      funext v'
      rw [if_neg (fun x => by rw [hm] at x; cases x.2)]
    rw [e]
    exact ⟨h, hm, rfl, rfl⟩
  · rw [if_neg hm]
    have hf : s.e.made v = false := by simpa using hm
    have key : ∀ v', v' ≠ v → ((s.e.mark v).create v).key v' = s.e.key v' := fun v' hne => if_neg hne
    have keyv : ((s.e.mark v).create v).key v = s.e.keys := if_pos rfl
    have made : ∀ v', v' ≠ v → ((s.e.mark v).create v).made v' = s.e.made v' := fun v' hne => if_neg hne
    have keys : ((s.e.mark v).create v).keys = s.e.keys + 1 := rfl
    have deadk : s.dead s.e.keys = false := by
      cases hd : s.dead s.e.keys with
      | false => rfl
      | true => have := h.dead_lt _ hd; omega
    refine ⟨⟨?_, ?_, ?_, ?_, ?_, ?_, h.slot_blocks, h.slot_inj, h.freed_lt, h.freed_dead⟩, if_pos rfl, rfl, rfl⟩
    · intro v' hv
      dsimp only at hv ⊢
      rw [keys]
      by_cases e : v' = v
      · subst e; rw [keyv]; omega
      · rw [made v' e] at hv; rw [key v' e]; have := h.key_lt v' hv; omega
    · intro v' hv
      dsimp only at hv ⊢
      by_cases e : v' = v
      · subst e; rw [keyv]; exact deadk
      · rw [made v' e] at hv; rw [key v' e]; exact h.alive v' hv
    · intro v' hv
      dsimp only at hv ⊢
      by_cases e : v' = v
      · rw [if_pos ⟨e, hf⟩]
      · rw [made v' e] at hv; rw [if_neg (fun x => e x.1)]; exact h.here v' hv
    · intro v' v'' hv hv' hk
      dsimp only at hv hv' hk
      by_cases e : v' = v <;> by_cases e' : v'' = v
      · rw [e, e']
      · subst e
        rw [made v'' e'] at hv'
        rw [keyv, key v'' e'] at hk
        have := h.key_lt v'' hv'; omega
      · subst e'
        rw [made v' e] at hv
        rw [keyv, key v' e] at hk
        have := h.key_lt v' hv; omega
      · rw [made v' e] at hv
        rw [made v'' e'] at hv'
        rw [key v' e, key v'' e'] at hk
        exact h.key_inj v' v'' hv hv' hk
    · intro k hk
      have := h.dead_lt k hk
      dsimp only; rw [keys]; omega
    · intro t k b hk
      have := h.slot_keys t k b hk
      dsimp only; rw [keys]; omega

theorem J.get {s : E2} (h : J s) (junk : Nat → Nat) (t v : Nat) :
    ∃ s' b, s.get junk t v = (s', some b) ∧ J s' ∧ s'.e.made v = true ∧ s'.e.slot t (s'.e.key v) = some b ∧ s'.freed = s.freed ∧
      ∀ b', Lost s b' → Lost s' b' ∧ b ≠ b' := by
  obtain ⟨h1, hm, hs, hb⟩ := h.setup v
  unfold E2.get Verif.Tl.E.get
  generalize hg : (fun v' => if v' = v ∧ s.e.made v = false then false else s.gone v') = g at h1
  generalize he : (if s.e.made v = true then s.e else (s.e.mark v).create v) = e1 at *
  unfold Verif.Tl.E.fetch Verif.Tl.E.tssGet
  have hk : e1.key v < e1.keys := h1.key_lt v hm
  have hal : s.dead (e1.key v) = false := h1.alive v hm
  rw [if_pos hk]
  have lost1 : ∀ b', Lost s b' → b' < e1.blocks ∧ ∀ t k, e1.slot t k = some b' → s.dead k = true := fun b' hl =>
    ⟨by rw [hb]; exact hl.lt, fun t k => by rw [hs]; exact hl.out t k⟩
  cases hsl : e1.slot t (e1.key v) with
  | some b =>
    dsimp only
    refine ⟨_, b, rfl, ?_, hm, hsl, rfl, fun b' hl => ?_⟩
    · exact hg ▸ h1
    · refine ⟨⟨(lost1 b' hl).1, hl.kept, (lost1 b' hl).2⟩, ?_⟩
      rintro rfl
      have := (lost1 b hl).2 t _ hsl
      rw [hal] at this; cases this
  | none =>
    dsimp only
    rw [if_pos hk]
    refine ⟨_, e1.blocks, rfl, ?_, hm, by simp, rfl, fun b' hl => ?_⟩
    · refine ⟨h1.key_lt, h1.alive, h1.here, h1.key_inj, h1.dead_lt, ?_, ?_, ?_, ?_, ?_⟩
      · intro t' k b' hb'
        dsimp only at hb' ⊢
        split at hb'
        · rename_i e; rw [e.2]; exact hk
        · exact h1.slot_keys t' k b' hb'
      · intro t' k b' hb'
        dsimp only at hb' ⊢
        split at hb'
        · injection hb' with hb'; omega
        · have := h1.slot_blocks t' k b' hb'
          dsimp only at this; omega
      · intro t1 k1 t2 k2 b' hb1 hb2
        dsimp only at hb1 hb2
        split at hb1 <;> split at hb2
        · rename_i a b; exact ⟨a.1.trans b.1.symm, a.2.trans b.2.symm⟩
        · injection hb1 with hb1
          have := h1.slot_blocks t2 k2 b' hb2; dsimp only at this; omega
        · injection hb2 with hb2
          have := h1.slot_blocks t1 k1 b' hb1; dsimp only at this; omega
        · exact h1.slot_inj t1 k1 t2 k2 b' hb1 hb2
      · intro b' hb'
        have := h1.freed_lt b' hb'
        dsimp only at this ⊢; omega
      · intro b' hb' t' k hk'
        dsimp only at hk' ⊢
        split at hk'
        · injection hk' with hk'
          have := h1.freed_lt b' hb'; dsimp only at this; omega
        · exact h1.freed_dead b' hb' t' k hk'
    · obtain ⟨l1, l2⟩ := lost1 b' hl
      refine ⟨⟨by dsimp only; omega, hl.kept, fun t' k hk' => ?_⟩, by omega⟩
      dsimp only at hk' ⊢
      split at hk'
      · injection hk' with hk'; omega
      · exact l2 t' k hk'

theorem J.put {s : E2} (h : J s) (junk : Nat → Nat) (t v x : Nat) :
    J (s.put junk t v x).1 ∧ ∀ b, Lost s b → Lost (s.put junk t v x).1 b ∧ (s.put junk t v x).1.e.heap b = (s.get junk t v).1.e.heap b := by
  obtain ⟨s', b, e, hj, hm, hs, hf, hl⟩ := h.get junk t v
  unfold E2.put
  rw [e]
  dsimp only
  refine ⟨⟨hj.key_lt, hj.alive, hj.here, hj.key_inj, hj.dead_lt, hj.slot_keys, hj.slot_blocks, hj.slot_inj, hj.freed_lt, hj.freed_dead⟩,
    fun b' hb' => ⟨⟨(hl b' hb').1.lt, (hl b' hb').1.kept, (hl b' hb').1.out⟩, if_neg (hl b' hb').2.symm⟩⟩

theorem J.del {s : E2} (h : J s) (t v : Nat) :
    J (s.del t v) ∧ (∀ b, Lost s b → Lost (s.del t v) b) ∧
    (∀ t' b, s.e.made v = true → t' ≠ t → s.tssGet t' v = some b → Lost (s.del t v) b) := by
  unfold E2.del
  by_cases hm : s.e.made v = true
  · rw [if_pos hm]
    have hal := h.alive v hm
    have hg := h.here v hm
    have hk := h.key_lt v hm
    have get : ∀ t b, s.tssGet t v = some b ↔ s.e.slot t (s.e.key v) = some b := by
      intro t b
      simp [E2.tssGet, hal, hg, Verif.Tl.E.tssGet, hk]
    have made : ∀ v', (if v' = v then false else s.e.made v') = true → v' ≠ v ∧ s.e.made v' = true := by
      intro v' hv
      split at hv
      · cases hv
      · rename_i e; exact ⟨e, hv⟩
    have ne : ∀ v', v' ≠ v → s.e.made v' = true → s.e.key v' ≠ s.e.key v := fun v' e hv ek => e (h.key_inj v' v hv hm ek)
    -- what is freed
    have fr : ∀ b, b ∈ (match s.tssGet t v with | some b => b :: s.freed | none => s.freed) ↔
        s.e.slot t (s.e.key v) = some b ∨ b ∈ s.freed := by
      intro b
      rw [← get]
      cases s.tssGet t v with
      | none => simp
      | some b' => simp [eq_comm]
    refine ⟨⟨?_, ?_, ?_, ?_, ?_, h.slot_keys, h.slot_blocks, h.slot_inj, ?_, ?_⟩, ?_, ?_⟩
    · intro v' hv
      exact h.key_lt v' (made v' hv).2
    · intro v' hv
      obtain ⟨a, b⟩ := made v' hv
      dsimp only
      rw [if_neg (ne v' a b)]
      exact h.alive v' b
    · intro v' hv
      obtain ⟨a, b⟩ := made v' hv
      dsimp only
      rw [if_neg a]
      exact h.here v' b
    · intro v' v'' hv hv' ek
      exact h.key_inj v' v'' (made v' hv).2 (made v'' hv').2 ek
    · intro k hd
      dsimp only at hd ⊢
      split at hd
      · rename_i e; rw [e]; exact hk
      · exact h.dead_lt k hd
    · intro b hb
      rcases (fr b).1 hb with hb | hb
      · exact h.slot_blocks _ _ _ hb
      · exact h.freed_lt b hb
    · intro b hb t' k hs
      dsimp only at hs ⊢
      split
      · rfl
      · rename_i e
        rcases (fr b).1 hb with hb | hb
        · exact absurd (h.slot_inj _ _ _ _ _ hs hb).2 e
        · exact h.freed_dead b hb t' k hs
    · intro b hl
      refine ⟨hl.lt, fun hb => ?_, fun t' k hs => ?_⟩
      · rcases (fr b).1 hb with hb | hb
        · have := hl.out t _ hb
          rw [hal] at this; cases this
        · exact hl.kept hb
      · dsimp only
        split
        · rfl
        · exact hl.out t' k hs
    · intro t' b _ hne hb
      rw [get] at hb
      refine ⟨h.slot_blocks _ _ _ hb, fun hb' => ?_, fun t'' k hs => ?_⟩
      · rcases (fr b).1 hb' with hb' | hb'
        · exact hne (h.slot_inj _ _ _ _ _ hb hb').1
        · have := h.freed_dead b hb' t' _ hb
          rw [hal] at this; cases this
      · dsimp only
        rw [if_pos (h.slot_inj _ _ _ _ _ hs hb).2]
  · rw [if_neg hm]
    exact ⟨h, fun b hb => hb, fun t' b hm' => absurd hm' hm⟩

theorem J.step {s : E2} (h : J s) (junk : Nat → Nat) (t : Nat) (op : Op) :
    J (E2.step junk s t op).1 ∧ ∀ b, Lost s b → Lost (E2.step junk s t op).1 b := by
  cases op with
  | write v x => exact ⟨(h.put junk t v x).1, fun b hb => ((h.put junk t v x).2 b hb).1⟩
  | update v o => exact ⟨(h.put junk t v (s.ext o)).1, fun b hb => ((h.put junk t v (s.ext o)).2 b hb).1⟩
  | read v =>
    obtain ⟨s', b, e, hj, hm, hs, hf, hl⟩ := h.get junk t v
    have : (E2.step junk s t (.read v)).1 = s' := by
      unfold E2.step
      dsimp only
      rw [e]
    rw [this]
    exact ⟨hj, fun b hb => (hl b hb).1⟩
  | isEmpty v => exact ⟨h, fun b hb => hb⟩
  | del v => exact ⟨(h.del t v).1, (h.del t v).2.1⟩
  | poke o x =>
    exact ⟨⟨h.key_lt, h.alive, h.here, h.key_inj, h.dead_lt, h.slot_keys, h.slot_blocks, h.slot_inj, h.freed_lt, h.freed_dead⟩,
      fun b hb => ⟨hb.lt, hb.kept, hb.out⟩⟩
  | peek o => exact ⟨h, fun b hb => hb⟩

theorem J.after {s : E2} (h : J s) (junk : Nat → Nat) (hs : History) :
    J (E2.after junk s hs) ∧ ∀ b, Lost s b → Lost (E2.after junk s hs) b := by
  induction hs generalizing s with
  | nil => exact ⟨h, fun b hb => hb⟩
  | cons o hs ih =>
    obtain ⟨h1, h2⟩ := h.step junk o.1 o.2
    obtain ⟨h3, h4⟩ := ih h1
    exact ⟨h3, fun b hb => h4 b (h2 b hb)⟩

/-- No block is given back twice. -/
theorem freed_once (junk : Nat → Nat) (hs : History) : (E2.after junk E2.start hs).freed.Nodup := by
  have key : ∀ (hs : History) (s : E2), J s → s.freed.Nodup → (E2.after junk s hs).freed.Nodup := by
    intro hs
    induction hs with
    | nil => intro s _ h; exact h
    | cons o hs ih =>
      intro s hj hn
      refine ih _ (hj.step junk o.1 o.2).1 ?_
      obtain ⟨t, op⟩ := o
      have put : ∀ v x, (s.put junk t v x).1.freed = s.freed := by
        intro v x
        obtain ⟨s', b, e, -, -, -, hf, -⟩ := hj.get junk t v
        unfold E2.put
        rw [e]
        exact hf
      cases op with
      | write v x => show (s.put junk t v x).1.freed.Nodup; rw [put]; exact hn
      | update v o => show (s.put junk t v (s.ext o)).1.freed.Nodup; rw [put]; exact hn
      | read v =>
        obtain ⟨s', b, e, -, -, -, hf, -⟩ := hj.get junk t v
        have : (E2.step junk s t (.read v)).1 = s' := by
          unfold E2.step
          dsimp only
          rw [e]
        dsimp only
        rw [this, hf]; exact hn
      | isEmpty v => exact hn
      | poke o x => exact hn
      | peek o => exact hn
      | del v =>
        show (s.del t v).freed.Nodup
        unfold E2.del
        by_cases hm : s.e.made v = true
        · rw [if_pos hm]
          cases hg : s.tssGet t v with
          | none => exact hn
          | some b =>
            refine List.nodup_cons.2 ⟨fun hb => ?_, hn⟩
            have hs : s.e.slot t (s.e.key v) = some b := by
              simpa [E2.tssGet, hj.alive v hm, hj.here v hm, Verif.Tl.E.tssGet, hj.key_lt v hm] using hg
            have := hj.freed_dead b hb t _ hs
            rw [hj.alive v hm] at this
            cases this
        · rw [if_neg hm]; exact hn
  exact key hs _ J.start List.nodup_nil

end Verif.Tu
