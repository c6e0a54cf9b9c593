import Verif.Spec.Report
/-!
# C99: what an uncaught exception says
-/
namespace Verif.Props
open Verif Verif.Rp

theorem Rp.freeAll_ok : ∀ (l : List Nat) (s : St), l.Nodup → (∀ b ∈ l, (s.mem b).isSome) →
    freeAll l s = some { s with mem := fun a => if a ∈ l then none else s.mem a }
  | [], s, _, _ => by simp [freeAll]
  | b :: l, s, hn, hl => by
    have hb : (s.mem b).isSome := hl b (by simp)
    rw [List.nodup_cons] at hn
    simp only [freeAll, free, hb, if_true, Option.bind_some]
    rw [Rp.freeAll_ok l _ hn.2]
    · congr 1
      simp only [St.mk.injEq, and_true]
      funext a
      by_cases h1 : a = b <;> by_cases h2 : a ∈ l <;> simp [h1, h2]
    · intro c hc
      have : c ≠ b := fun h => hn.1 (h ▸ hc)
      simp [this, hl c (by simp [hc])]

/-- What `freeAll` frees is gone, whatever happens besides. -/
theorem Rp.freeAll_gone : ∀ (l : List Nat) (s s' : St), freeAll l s = some s' → (∀ a, s.mem a = none → s'.mem a = none) ∧ (∀ a ∈ l, s'.mem a = none) ∧ s'.raii = s.raii
  | [], s, s', h => by
    simp only [freeAll, Option.some.injEq] at h
    subst h
    exact ⟨fun _ h => h, fun _ h => (by simp at h), rfl⟩
  | b :: l, s, s', h => by
    unfold freeAll free at h
    split at h
    · obtain ⟨i1, i2, i3⟩ := Rp.freeAll_gone l _ s' h
      refine ⟨fun a ha => i1 a ?_, fun a ha => ?_, i3⟩
      · by_cases h1 : a = b <;> simp [h1, ha]
      · rcases List.mem_cons.mp ha with h1 | h1
        · exact i1 a (by simp [h1])
        · exact i2 a h1
    · simp at h

/-- The loop over pointers of which none equals the one before. -/
theorem Rp.loop_ok (throws : Nat → Bool) : ∀ (l : List (Option Nat)) (temp : Option Nat) (s : St), Spec.changingFrom temp l →
    ((l.filterMap id).takeWhile fun b => !throws b).Nodup → (∀ b ∈ (l.filterMap id).takeWhile fun b => !throws b, (s.mem b).isSome) →
    loop throws l temp s =
      let s' := { s with mem := fun a => if a ∈ (l.filterMap id).takeWhile (fun b => !throws b) then none else s.mem a,
                         flag := if l.isEmpty then s.flag else false }
      if l.any (fun v => v.any throws) then .threw s' else .done s'
  | [], _, s, _, _, _ => by simp [loop]
  | none :: l, temp, s, hc, hn, hl => by
    obtain ⟨h1, h2⟩ := hc
    have ih := Rp.loop_ok throws l none { s with flag := false } h2 (by simpa using hn) (by simpa using hl)
    simp only [loop, h1, if_false, decide_false]
    rw [ih]
    simp
  | some b :: l, temp, s, hc, hn, hl => by
    obtain ⟨h1, h2⟩ := hc
    simp only [loop, h1, if_false, decide_false]
    by_cases ht : throws b = true
    · simp [ht]
    · have ht' : throws b = false := by simpa using ht
      simp only [List.filterMap_cons, id, List.takeWhile_cons, ht', Bool.not_false, if_true] at hn hl ⊢
      rw [List.nodup_cons] at hn
      have hb : (s.mem b).isSome := hl b (by simp)
      simp only [free, hb, if_true, Bool.false_eq_true, if_false]
      rw [Rp.loop_ok throws l (some b) _ h2 hn.2]
      · simp only [List.any_cons, Option.any_some, ht', Bool.false_or, List.isEmpty_cons, Bool.false_eq_true, if_false]
        have : ∀ a, (if a ∈ (l.filterMap id).takeWhile (fun b => !throws b) then none else if a = b then none else s.mem a)
            = if a ∈ b :: (l.filterMap id).takeWhile (fun b => !throws b) then none else s.mem a := by
          intro a
          by_cases e1 : a = b <;> by_cases e2 : a ∈ (l.filterMap id).takeWhile (fun b => !throws b) <;> simp [e1, e2]
        simp only [this, ite_self]
      · intro c hcm
        have : c ≠ b := fun h => hn.1 (h ▸ hcm)
        simp [this, hl c (by simp [hcm])]

theorem Rp.clean_ok (s : St) (hn : (if s.armed then s.owned else []).Nodup) (hl : ∀ b ∈ (if s.armed then s.owned else []), (s.mem b).isSome) :
    ∃ s', clean s = some s' ∧ s'.mem = (fun a => if a ∈ (if s.armed then s.owned else []) then none else s.mem a) ∧ s'.flag = s.flag ∧
      s'.raii = s.raii ∧ s'.armed = false := by
  unfold clean
  by_cases h : s.armed = true
  · simp only [h, if_true] at hn hl ⊢
    rw [Rp.freeAll_ok _ _ hn hl]
    exact ⟨_, rfl, rfl, rfl, rfl, rfl⟩
  · simp only [h] at hn hl ⊢
    exact ⟨s, rfl, by simp, rfl, rfl, by simpa using h⟩

/-- The end of a program whose releases are in order. -/
theorem Rp.fatal_ok (throws : Nat → Bool) (debug : Bool) (w : What) (s : St) (hc : (s.raii && s.prot) = true ∨ Spec.changing s.stack)
    (hn : (Spec.released throws s).Nodup) (hl : ∀ b ∈ Spec.released throws s, (s.mem b).isSome) :
    ∃ s', fatal throws debug w s = print debug (Spec.during throws s || s'.flag) w s' ∧
      s'.mem = (fun a => if a ∈ Spec.released throws s then none else s.mem a) ∧ (s'.flag = s.flag ∨ s'.flag = false) ∧
      (∀ s'', unwind throws s = .done s'' → Spec.during throws s = false ∧ ∀ a ∉ Spec.released throws s, s''.mem a = s.mem a) ∧ (∀ s'', unwind throws s = .threw s'' → Spec.during throws s = true) ∧
      unwind throws s ≠ .crash := by
  unfold fatal unwind terminate
  by_cases hp : (s.raii && s.prot) = true
  · have hr : s.raii = true := by simp at hp; exact hp.1
    have e : Spec.released throws s = if s.armed then s.owned else [] := by
      simp only [Spec.released, hp, if_true, List.nil_append]
      simp only [hr, Bool.true_and]
    have e2 : Spec.during throws s = false := by simp [Spec.during, hp]
    rw [e] at hn hl
    obtain ⟨s1, h1, h2, h3, h4, h5⟩ := Rp.clean_ok s hn hl
    simp only [hp, if_true, h1]
    have h6 : clean s1 = some s1 := by simp [clean, h5]
    rw [h4, hr]
    simp only [if_true, h6]
    refine ⟨s1, by rw [e2], by rw [h2, e], .inl h3, ?_, by simp, by simp⟩
    rintro s'' ⟨⟩
    refine ⟨e2, fun a ha => ?_⟩
    rw [e] at ha
    rw [h2]
    simp [ha]
  · have hc' := hc.resolve_left hp
    simp only [Spec.released, hp, Bool.false_eq_true, if_false] at hn hl ⊢
    rw [List.nodup_append] at hn
    obtain ⟨n1, n2, n3⟩ := hn
    have hl1 := fun b hb => hl b (List.mem_append_left _ hb)
    have hl2 := fun b hb => hl b (List.mem_append_right _ hb)
    rw [Rp.loop_ok throws s.stack none s hc' n1 hl1]
    have e2 : Spec.during throws s = s.stack.any fun v => v.any throws := by simp [Spec.during, hp]
    dsimp only
    have fin : ∀ x : St, x.raii = s.raii → x.armed = s.armed → x.owned = s.owned →
        x.mem = (fun a => if a ∈ (s.stack.filterMap id).takeWhile (fun b => !throws b) then none else s.mem a) →
        ∃ x', (if x.raii then clean x else some x) = some x' ∧ x'.flag = x.flag ∧
          x'.mem = fun a => if a ∈ (s.stack.filterMap id).takeWhile (fun b => !throws b) ++ (if (s.raii && s.armed) = true then s.owned else []) then none else s.mem a := by
      intro x r1 r2 r3 r4
      by_cases hr : s.raii = true
      · simp only [hr, Bool.true_and] at n2 n3 hl2 ⊢
        obtain ⟨x1, g1, g2, g3, -, -⟩ := Rp.clean_ok x (by rw [r2, r3]; exact n2) (by
          rw [r2, r3, r4]
          intro b hb
          have : b ∉ (s.stack.filterMap id).takeWhile (fun b => !throws b) := fun hm => n3 b hm b hb rfl
          simp [this, hl2 b hb])
        refine ⟨x1, by rw [r1, hr, if_pos rfl, g1], g3, ?_⟩
        rw [g2, r2, r3, r4]
        funext a
        by_cases a1 : a ∈ (s.stack.filterMap id).takeWhile (fun b => !throws b) <;>
          by_cases a2 : a ∈ (if s.armed = true then s.owned else []) <;> simp [a1, a2]
      · have hr' : s.raii = false := by simpa using hr
        refine ⟨x, by simp [r1, hr'], rfl, by simp [r4, hr']⟩
    by_cases ha : (s.stack.any fun v => v.any throws) = true
    · simp only [ha, if_true]
      obtain ⟨x', f1, f2, f3⟩ := fin { s with mem := fun a => if a ∈ (s.stack.filterMap id).takeWhile (fun b => !throws b) then none else s.mem a,
                                              flag := if s.stack.isEmpty then s.flag else false } rfl rfl rfl rfl
      dsimp only at f1
      refine ⟨x', ?_, f3, ?_, by simp, fun _ _ => by rw [e2, ha], by simp⟩
      · rw [f1, e2, ha]
      · rw [f2]; dsimp only; split <;> simp
    · have ha' : (s.stack.any fun v => v.any throws) = false := by simpa using ha
      simp only [ha', Bool.false_eq_true, if_false]
      obtain ⟨x', f1, f2, f3⟩ := fin { s with mem := fun a => if a ∈ (s.stack.filterMap id).takeWhile (fun b => !throws b) then none else s.mem a,
                                              stack := [],
                                              flag := if s.stack.isEmpty then s.flag else false } rfl rfl rfl rfl
      dsimp only at f1
      refine ⟨x', ?_, f3, ?_, ?_, by simp, by simp⟩
      · rw [f1, e2, ha']
      · rw [f2]; dsimp only; split <;> simp
      · rintro s'' ⟨⟩
        refine ⟨by rw [e2, ha'], fun a hm => ?_⟩
        rw [List.mem_append, not_or] at hm
        simp [hm.1]

theorem Rp.freeAll_flag : ∀ (l : List Nat) (s s' : St), freeAll l s = some s' → s'.flag = s.flag
  | [], s, s', h => by simp only [freeAll, Option.some.injEq] at h; rw [← h]
  | b :: l, s, s', h => by
    unfold freeAll free at h
    split at h
    · simp only [Option.bind_some] at h
      have := Rp.freeAll_flag l _ s' h
      exact this
    · simp at h

theorem Rp.loop_flag (throws : Nat → Bool) : ∀ (l : List (Option Nat)) (temp : Option Nat) (s s' : St), Spec.changingFrom temp l → s.flag = false →
    loop throws l temp s = .done s' → s'.flag = false
  | [], _, s, s', _, hf, h => by
    simp only [loop, Unwound.done.injEq] at h
    rw [← h, hf]
  | none :: l, temp, s, s', hc, hf, h => by
    simp only [loop, hc.1, if_false, decide_false] at h
    exact Rp.loop_flag throws l none _ s' hc.2 rfl h
  | some b :: l, temp, s, s', hc, hf, h => by
    simp only [loop, hc.1, if_false, decide_false] at h
    split at h
    · simp at h
    · unfold free at h
      split at h
      · simp at h
      · next x e =>
        split at e
        · simp only [Option.some.injEq] at e
          exact Rp.loop_flag throws l (some b) x s' hc.2 (by rw [← e]) h
        · simp at e

theorem Rp.ops_flag (throws : Nat → Bool) : ∀ (h : List Op) (s s' : St), Spec.careful h → s.flag = false → ops throws h s = some s' → s'.flag = false
  | [], s, s', _, hf, e => by simp only [ops, Option.some.injEq] at e; rw [← e, hf]
  | o :: h, s, s', hc, hf, e => by
    unfold ops at e
    rw [Option.bind_eq_some_iff] at e
    obtain ⟨x, e1, e2⟩ := e
    refine Rp.ops_flag throws h x s' (fun l hl => hc l (by simp [hl])) ?_ e2
    cases o with
    | own t => simp only [op, Option.some.injEq] at e1; rw [← e1]; exact hf
    | drop b =>
      simp only [op, free] at e1
      split at e1
      · simp only [Option.some.injEq] at e1; rw [← e1]; exact hf
      · simp at e1
    | start => simp only [op, Option.some.injEq] at e1; rw [← e1]; exact hf
    | fromScope t => simp only [op, Option.some.injEq] at e1; rw [← e1]; exact hf
    | release =>
      simp only [op, clean] at e1
      split at e1
      · split at e1
        · rw [Option.map_eq_some_iff] at e1
          obtain ⟨y, e3, e4⟩ := e1
          rw [← e4]
          exact (Rp.freeAll_flag _ _ _ e3).trans hf
        · simp only [Option.some.injEq] at e1; rw [← e1]; exact hf
      · simp at e1
    | protect v => simp only [op, Option.some.injEq] at e1; rw [← e1]; exact hf
    | caught l =>
      simp only [op] at e1
      split at e1
      · next y e3 =>
        simp only [Option.some.injEq] at e1
        rw [← e1]
        exact Rp.loop_flag throws l none s y (hc l (by simp)) hf e3
      · simp at e1

/-- C99 in full: an exception no block handles ends the program with a report that gives its text as it was when thrown (the message of a panic, else the name), its function
and, in debug builds, its place and whether a release function threw meanwhile.  (The blocks released are live and each is released once.) -/
def C99_Full : Prop :=
  ∀ (throws : Nat → Bool) (debug : Bool) (h : List Op) (s : St) (w : What) (t : Text), ops throws h init = some s →
    (Spec.released throws s).Nodup → (∀ b ∈ Spec.released throws s, (s.mem b).isSome) →
    Spec.told s w = some t → fatal throws debug w s = .said (Spec.report debug (Spec.during throws s) t w)

/-- The report is right if the message does not lie in memory the library releases, the exception has a function (no signal) or the build is for debugging,
and protected pointers are not NULL when newest nor equal to the one before. -/
theorem C99_report_partial (throws : Nat → Bool) (debug : Bool) (h : List Op) (s : St) (w : What) (t : Text) (hs : ops throws h init = some s)
    (hn : (Spec.released throws s).Nodup) (hl : ∀ b ∈ Spec.released throws s, (s.mem b).isSome) (ht : Spec.told s w = some t)
    (hm : ∀ b, w.message = some (.blk b) → b ∉ Spec.released throws s) (hf : debug = true ∨ w.function ≠ none)
    (hc : Spec.careful h) (hp : Spec.changing s.stack) :
    fatal throws debug w s = .said (Spec.report debug (Spec.during throws s) t w) := by
  obtain ⟨s', e1, e2, e3, -⟩ := Rp.fatal_ok throws debug w s (.inr hp) hn hl
  have hflag : s'.flag = false := e3.elim (fun h' => h'.trans (Rp.ops_flag throws h init s hc rfl hs)) id
  rw [e1, hflag, Bool.or_false]
  unfold Spec.told at ht
  rw [Option.bind_eq_some_iff] at ht
  obtain ⟨p, h1, h2⟩ := ht
  have hr : readStr s' p = some t := by
    cases p with
    | lit u => exact h2
    | blk b =>
      have hb : b ∉ Spec.released throws s := by
        apply hm
        unfold What.str at h1
        split at h1
        · next q hq => rw [hq, h1]
        · cases hw : w.name with
          | none => simp [hw] at h1
          | some u => simp [hw] at h1
      simp only [readStr, e2, hb, if_false]
      exact h2
  simp only [print, h1, hr, Spec.report]
  cases debug with
  | true => rfl
  | false =>
    cases hw : w.function with
    | none => simp [hw] at hf
    | some f => rfl

/-- A panic whose message the program allocated itself, while the scope holds memory and a pointer is protected. -/
example : ops (fun _ => false) [.own [104, 105], .fromScope [1], .protect (some 0)] init ≠ none ∧
    ((ops (fun _ => false) [.own [104, 105], .fromScope [1], .protect (some 0)] init).map
      (fatal (fun _ => false) false (panicWhat [112] (.blk 0) [102] 7 [109]))) = some (.said ⟨none, [104, 105], some [109], none⟩) := by decide +kernel

/-- If the message lies in memory the library releases, freed memory is printed. -/
theorem C99_garbage (throws : Nat → Bool) (debug : Bool) (s : St) (w : What) (b : Nat) (hn : (Spec.released throws s).Nodup)
    (hl : ∀ b ∈ Spec.released throws s, (s.mem b).isSome) (hw : w.message = some (.blk b)) (hb : b ∈ Spec.released throws s)
    (hp : Spec.changing s.stack) : fatal throws debug w s = .garbage := by
  obtain ⟨s', e1, e2, -⟩ := Rp.fatal_ok throws debug w s (.inr hp) hn hl
  rw [e1]
  simp [print, What.str, hw, readStr, e2, hb]

/-- A panic whose message is a protected string. -/
example : (ops (fun _ => false) [.own [104, 105], .protect (some 0)] init).map
    (fatal (fun _ => false) true (panicWhat [112] (.blk 0) [102] 7 [109])) = some .garbage := by decide +kernel

theorem Rp.loop_keeps (throws : Nat → Bool) : ∀ (l : List (Option Nat)) (temp : Option Nat) (s y : St), loop throws l temp s = .done y →
    y.raii = s.raii ∧ y.prot = s.prot ∧ y.armed = s.armed ∧ y.owned = s.owned
  | [], _, s, y, e => by simp only [loop, Unwound.done.injEq] at e; rw [← e]; exact ⟨rfl, rfl, rfl, rfl⟩
  | none :: l, temp, s, y, e => by
    simp only [loop] at e
    split at e
    · simp only [Unwound.done.injEq] at e; rw [← e]; exact ⟨rfl, rfl, rfl, rfl⟩
    · have := Rp.loop_keeps throws l none _ y e
      exact this
  | some c :: l, temp, s, y, e => by
    simp only [loop] at e
    split at e
    · simp only [Unwound.done.injEq] at e; rw [← e]; exact ⟨rfl, rfl, rfl, rfl⟩
    · split at e
      · simp at e
      · unfold free at e
        split at e
        · simp at e
        · next z ez =>
          split at ez
          · simp only [Option.some.injEq] at ez
            have := Rp.loop_keeps throws l (some c) z y e
            rw [← ez] at this
            exact this
          · simp at ez

theorem Rp.hold (throws : Nat → Bool) (b : Nat) : ∀ (h : List Op) (s s' : St), Op.release ∉ h →
    (s.raii = true ∧ s.prot = true ∧ s.armed = true ∧ b ∈ s.owned) → ops throws h s = some s' → s'.raii = true ∧ s'.prot = true ∧ s'.armed = true ∧ b ∈ s'.owned
  | [], s, s', _, hi, e => by simp only [ops, Option.some.injEq] at e; rw [← e]; exact hi
  | o :: h, s, s', hr, hi, e => by
    unfold ops at e
    rw [Option.bind_eq_some_iff] at e
    obtain ⟨x, e1, e2⟩ := e
    refine Rp.hold throws b h x s' (fun hm => hr (by simp [hm])) ?_ e2
    obtain ⟨i1, i2, i3, i4⟩ := hi
    cases o with
    | own t => simp only [op, Option.some.injEq] at e1; rw [← e1]; exact ⟨i1, i2, i3, i4⟩
    | drop c =>
      simp only [op, free] at e1
      split at e1
      · simp only [Option.some.injEq] at e1; rw [← e1]; exact ⟨i1, i2, i3, i4⟩
      · simp at e1
    | start => simp only [op, Option.some.injEq] at e1; rw [← e1]; exact ⟨rfl, i2, i3, i4⟩
    | fromScope t => simp only [op, Option.some.injEq] at e1; rw [← e1]; exact ⟨rfl, rfl, i3, List.mem_cons_of_mem _ i4⟩
    | release => exact absurd (by simp) hr
    | protect v => simp only [op, Option.some.injEq] at e1; rw [← e1]; exact ⟨i1, i2, i3, i4⟩
    | caught l =>
      simp only [op] at e1
      split at e1
      · next y e3 =>
        simp only [Option.some.injEq] at e1
        obtain ⟨g1, g2, g3, g4⟩ := Rp.loop_keeps throws _ _ _ _ e3
        rw [← e1, g1, g2, g3, g4]
        exact ⟨i1, i2, i3, i4⟩
      · simp at e1

theorem Rp.unwind_hold (throws : Nat → Bool) (b : Nat) (s : St) (hi : s.raii = true ∧ s.prot = true ∧ s.armed = true ∧ b ∈ s.owned) :
    unwind throws s = .crash ∨ ∃ s', unwind throws s = .done s' ∧ s'.mem b = none ∧ s'.raii = true ∧ s'.armed = false := by
  obtain ⟨i1, i2, i3, i4⟩ := hi
  unfold unwind clean
  simp only [i1, i2, i3, Bool.and_self, if_true]
  cases h : freeAll s.owned s with
  | none => exact .inl rfl
  | some s' =>
    obtain ⟨-, g2, g3⟩ := Rp.freeAll_gone _ _ _ h
    exact .inr ⟨_, rfl, g2 b i4, g3.trans i1, rfl⟩

/-- Two operations, one after the other, as one history. -/
theorem Rp.ops_append (throws : Nat → Bool) : ∀ (h₁ h₂ : List Op) (s : St), ops throws (h₁ ++ h₂) s = (ops throws h₁ s).bind (ops throws h₂)
  | [], _, _ => by simp [ops]
  | o :: h, h₂, s => by
    simp only [List.cons_append, ops]
    cases op throws s o with
    | none => rfl
    | some x => simp only [Option.bind_some]; exact Rp.ops_append throws h h₂ x

theorem Rp.armed (throws : Nat → Bool) : ∀ (h : List Op) (s s' : St), Op.release ∉ h → s.armed = true → ops throws h s = some s' → s'.armed = true := by
  intro h
  induction h with
  | nil => intro s s' _ ha e; simp only [ops, Option.some.injEq] at e; rw [← e]; exact ha
  | cons o h ih =>
    intro s s' hr ha e
    have : ∃ x, op throws s o = some x ∧ ops throws h x = some s' := by
      unfold ops at e
      rwa [Option.bind_eq_some_iff] at e
    obtain ⟨x, e1, e2⟩ := this
    refine ih x s' (fun hm => hr (by simp [hm])) ?_ e2
    cases o with
    | own t => simp only [op, Option.some.injEq] at e1; rw [← e1]; exact ha
    | drop c =>
      simp only [op, free] at e1
      split at e1
      · simp only [Option.some.injEq] at e1; rw [← e1]; exact ha
      · simp at e1
    | start => simp only [op, Option.some.injEq] at e1; rw [← e1]; exact ha
    | fromScope t => simp only [op, Option.some.injEq] at e1; rw [← e1]; exact ha
    | release => exact absurd (by simp) hr
    | protect v => simp only [op, Option.some.injEq] at e1; rw [← e1]; exact ha
    | caught l =>
      simp only [op] at e1
      split at e1
      · next y e3 =>
        simp only [Option.some.injEq] at e1
        rw [← e1, (Rp.loop_keeps throws _ _ _ _ e3).2.2.1]
        exact ha
      · simp at e1

/-- A message in memory of the thread's scope is never reported: whatever was done before it was made (`h₁`) and since (`h₂`), short of releasing the scope, it is freed first,
in every build, for every panic.  A handler of the block cannot read it either. -/
theorem C99_scoped (throws : Nat → Bool) (debug : Bool) (h₁ h₂ : List Op) (t : Text) (s₁ s : St) (w : What) (r₁ : Op.release ∉ h₁) (r₂ : Op.release ∉ h₂)
    (e₁ : ops throws h₁ init = some s₁) (e : ops throws (h₁ ++ .fromScope t :: h₂) init = some s) (hw : w.message = some (.blk s₁.fresh)) :
    (fatal throws debug w s = .garbage ∨ fatal throws debug w s = .crash) ∧ (heard throws w s = .garbage ∨ heard throws w s = .crash) := by
  rw [Rp.ops_append, e₁, Option.bind_some] at e
  have ha := Rp.armed throws h₁ init s₁ r₁ rfl e₁
  simp only [ops, op, Option.bind_some] at e
  have hi := fun hyp => Rp.hold throws s₁.fresh h₂ _ s r₂ hyp e
  replace hi := hi ⟨rfl, rfl, ha, by simp⟩
  rcases Rp.unwind_hold throws s₁.fresh s hi with hu | ⟨s', hu, g1, g2, g3⟩
  · simp [fatal, heard, hu]
  · simp [fatal, heard, hu, terminate, g2, clean, g3, print, What.str, hw, readStr, g1]

/-- `raii_panic(str_concat(…))`. -/
example : (ops (fun _ => false) [.fromScope [104, 105]] init).map (fatal (fun _ => false) false (panicWhat [112] (.blk 0) [102] 7 [109])) = some .garbage := by decide +kernel

/-- A signal no block handles is never reported in a build without `USE_DEBUG`: it has no function, and NULL is printed as a string. -/
theorem C99_signal (throws : Nat → Bool) (s : St) (name unknown : Text) :
    fatal throws false (signalWhat name unknown) s = .null ∨ fatal throws false (signalWhat name unknown) s = .crash := by
  unfold fatal
  have ht : ∀ u x, terminate false u (signalWhat name unknown) x = .null ∨ terminate false u (signalWhat name unknown) x = .crash := by
    intro u x
    unfold terminate
    split
    · exact .inr rfl
    · exact .inl rfl
  split
  · exact .inr rfl
  · exact ht _ _
  · exact ht _ _

/-- An exception thrown by a release function is not what is reported: the report is that of the first. -/
theorem C99_second (throws : Nat → Bool) (s : St) (w : What) (t : Text) (hn : (Spec.released throws s).Nodup) (hl : ∀ b ∈ Spec.released throws s, (s.mem b).isSome) (ht : Spec.told s w = some t)
    (hm : w.message = none) (hp : Spec.changing s.stack) (hr : (s.raii && s.prot) = false) (b : Nat) (hb : some b ∈ s.stack) (hthrow : throws b = true) :
    fatal throws true w s = .said ⟨some true, t, w.function, some (w.file, w.line)⟩ := by
  obtain ⟨s', e1, -⟩ := Rp.fatal_ok throws true w s (.inr hp) hn hl
  have hd : Spec.during throws s = true := by
    simp only [Spec.during, hr, Bool.not_false, Bool.true_and, List.any_eq_true]
    exact ⟨some b, hb, by simp [hthrow]⟩
  rw [e1, hd, Bool.true_or]
  unfold Spec.told at ht
  rw [Option.bind_eq_some_iff] at ht
  obtain ⟨p, h1, h2⟩ := ht
  have hp' : p = .lit t := by
    unfold What.str at h1
    rw [hm] at h1
    cases hw : w.name with
    | none => simp [hw] at h1
    | some u =>
      simp only [hw, Option.map_some, Option.some.injEq] at h1
      rw [← h1] at h2 ⊢
      simp only [readStr, Option.some.injEq] at h2
      rw [h2]
  simp [print, h1, hp', readStr]

example : (ops (fun b => b = 0) [.own [1], .protect (some 0)] init).map (fatal (fun b => b = 0) true (throwWhat [101] [102] 7 [109])) =
    some (.said ⟨some true, [101], some [109], some ([102], 7)⟩) := by decide +kernel

/-- A protected pointer that is NULL and the newest: the report says that the exception came during stack unwinding, although no release function was called. -/
theorem C99_heading (throws : Nat → Bool) (s : St) (name file fn : Text) (line : Nat) (hr : s.raii = false) :
    (op throws s (.protect none)).map (fatal throws true (throwWhat name file line fn)) = some (.said ⟨some true, name, some fn, some (file, line)⟩) := by
  simp [op, fatal, unwind, hr, loop, terminate, print, throwWhat, What.str, readStr]

/-- The mistake stays: after such an exception was caught, one that ends the program is reported so, although no pointer is protected now. -/
theorem C99_stale (throws : Nat → Bool) (s : St) (vs : List (Option Nat)) (name file fn : Text) (line : Nat) (hr : s.raii = false) (hst : s.stack = []) :
    (op throws s (.caught (none :: vs))).map (fatal throws true (throwWhat name file line fn)) = some (.said ⟨some true, name, some fn, some (file, line)⟩) := by
  simp [op, fatal, unwind, hr, hst, loop, terminate, print, throwWhat, What.str, readStr]

theorem C99_full_false : ¬ C99_Full := by
  intro h
  have := h (fun _ => false) false [.fromScope [104, 105]] _ (panicWhat [112] (.blk 0) [102] 7 [109]) [104, 105] rfl (by decide) (by decide) rfl
  revert this
  decide +kernel

/-- Nor can a debug build be trusted to say whether it happened during unwinding. -/
theorem C99_full_false_heading : ¬ ∀ (h : List Op) (s : St) (w : What) (t : Text), ops (fun _ => false) h init = some s → w.message = none → Spec.told s w = some t →
    fatal (fun _ => false) true w s = .said (Spec.report true (Spec.during (fun _ => false) s) t w) := by
  intro h
  have := h [.protect none] _ (throwWhat [101] [102] 7 [109]) [101] rfl rfl rfl
  revert this
  decide +kernel

/-- The handler of the block that first used the scope reads the message by `raii_message()` if it lies outside the memory released. -/
theorem C99_heard_partial (throws : Nat → Bool) (s : St) (w : What) (t : Text) (hn : (Spec.released throws s).Nodup) (hl : ∀ b ∈ Spec.released throws s, (s.mem b).isSome)
    (ht : Spec.told s w = some t) (hm : ∀ b, w.str = some (.blk b) → b ∉ Spec.released throws s) (hp : Spec.changing s.stack) :
    heard throws w s = if Spec.during throws s then .ended else .text t := by
  obtain ⟨-, -, -, -, f1, f2, f3⟩ := Rp.fatal_ok throws true w s (.inr hp) hn hl
  unfold heard
  cases hu : unwind throws s with
  | crash => exact absurd hu f3
  | threw x => simp [f2 x hu]
  | done x =>
    obtain ⟨g1, g2⟩ := f1 x hu
    simp only [g1, Bool.false_eq_true, if_false]
    unfold Spec.told at ht
    rw [Option.bind_eq_some_iff] at ht
    obtain ⟨p, h1, h2⟩ := ht
    have hr : readStr x p = some t := by
      cases p with
      | lit u => exact h2
      | blk b => simp only [readStr]; rw [g2 b (hm b h1)]; exact h2
    simp [h1, hr]

example : heard (fun _ => false) (panicWhat [112] (.blk 0) [102] 7 [109])
    { init with mem := fun b => if b = 0 then some [104] else if b = 1 then some [1] else none, raii := true, prot := true, owned := [1] } = .text [104] := by decide +kernel

end Verif.Props
