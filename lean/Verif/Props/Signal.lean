import Verif.Proof.Signal
/-!
# C34, C53: signals
-/
namespace Verif.Props
open Verif Verif.Sg

theorem within_fresh (S : Finset Nat) : Within S fresh := ⟨fun _ h => absurd h (by simp [fresh]), List.nodup_nil⟩

/-- A history of registrations. -/
def regs (l : List (Nat × Nat)) : List Op := l.map fun p => .register p.1 p.2

/-- The whole behaviour: after every history of registrations, resets and entered blocks, every signal does what the
bookkeeping of names says.  (0 is not a signal.) -/
theorem C34_refines (os : Nat → Bool) (h0 : os 0 = false) (defs : List (Nat × Nat)) (h : List Op) (s : Nat) :
    deliver s (run os defs start h) = (fresh.run os defs h).effect s :=
  deliver_agree (run_agree h0 defs h (start_agree os)) s

/-- C34: after any registrations of at most 32 different signals, signal `s` throws the exception registered
last for it; a signal that was not registered, or that the system does not let the program handle, does not. -/
theorem C34_latest (os : Nat → Bool) (h0 : os 0 = false) (defs : List (Nat × Nat)) (l : List (Nat × Nat))
    (hl : (l.map Prod.fst).toFinset.card ≤ 32) (s : Nat) :
    deliver s (run os defs start (regs l)) =
      match l.reverse.find? (fun p => p.1 == s) with
      | some p => if os s then .throws (some p.2) else .default
      | none => .default := by
  have hag := run_agree h0 defs (regs l) (start_agree os)
  rw [deliver_agree hag]
  rcases l with _ | ⟨p, l⟩
  · rfl
  · have w : Within ((p :: l).map Prod.fst).toFinset (fresh.register os p.1 p.2) :=
      (within_fresh ((p :: l).map Prod.fst).toFinset).register os (by simp) p.2
    have w0 : Within ((p :: l).map Prod.fst).toFinset fresh := within_fresh _
    have hset := register_set w0 hl os (s := p.1) (by simp) p.2
    have hrun := said_noreset hl os defs s (regs l) w hset
      (by
        intro o ho t ht
        obtain ⟨q, hq, rfl⟩ := List.mem_map.1 ho
        simp only [Op.sig, List.mem_singleton] at ht
        rw [ht, List.mem_toFinset]
        exact List.mem_map_of_mem (List.mem_cons_of_mem _ hq))
      (by
        intro t ht
        obtain ⟨q, hq, h⟩ := List.mem_map.1 ht
        cases h)
    have he : (fresh.run os defs (regs (p :: l))) = (fresh.register os p.1 p.2).run os defs (regs l) := rfl
    rw [he, hrun, register_effect w0 hl os (by simp), regs, said_registers, List.reverse_cons, List.find?_append]
    by_cases ho : os s = true
    · rw [if_pos ho]
      cases hf : l.reverse.find? (fun p => p.1 == s) with
      | some q => simp [told, ho]
      | none =>
        by_cases hp : p.1 = s
        · subst hp
          simp [told, ho]
        · have hp' : ¬ s = p.1 := fun h => hp h.symm
          simp [told, hp, hp', View.effect, fresh]
    · rw [if_neg ho]
      have hne : ¬ (s = p.1 ∧ os p.1 = true) := by
        rintro ⟨h1, h2⟩
        rw [h1] at ho
        exact ho h2
      rw [if_neg hne]
      cases l.reverse.find? (fun p => p.1 == s) with
      | some q => simp [told, ho, View.effect, fresh]
      | none =>
        by_cases hp : p.1 = s <;> simp [told, hp, ho, View.effect, fresh]

/-- Signals 11 and 2, the former twice. -/
example : deliver 11 (run (fun s => 0 < s && s < 65) [] start (regs [(11, 100), (2, 200), (11, 300)])) = .throws (some 300) := by decide

/-- C34, the limit: once 32 signals are registered, registering any other changes nothing at all, whatever is
registered in between. -/
theorem C34_limit (os : Nat → Bool) (h0 : os 0 = false) (defs l l' : List (Nat × Nat)) (hl : l.length = 32)
    (hn : (l.map Prod.fst).Nodup) (ho : ∀ p ∈ l, os p.1 = true) (s e : Nat) (hs : s ∉ l.map Prod.fst) :
    run os defs start (regs (l ++ l') ++ [.register s e]) = run os defs start (regs (l ++ l')) := by
  have hr : ∀ (h : List Op) (o : Op), run os defs start (h ++ [o]) = step os defs (run os defs start h) o := by
    intro h o; unfold run; rw [List.foldl_append]; rfl
  rw [hr]
  have hag := run_agree h0 defs (regs (l ++ l')) (start_agree os)
  obtain ⟨used, hd, hlen, hmem, -⟩ := hag.ex
  have hsplit : fresh.run os defs (regs (l ++ l')) = (fresh.run os defs (regs l)).run os defs (regs l') := by
    unfold regs; rw [List.map_append]; exact run_append os defs fresh _ _
  have hS : (l.map Prod.fst).toFinset.card ≤ 32 := by rw [List.toFinset_card_of_nodup hn, List.length_map, hl]
  have k1 := registers_all hS os defs l fresh (within_fresh _)
    (fun p hp => ⟨List.mem_toFinset.2 (List.mem_map_of_mem hp), ho p hp⟩)
  obtain ⟨-, k2, k3⟩ := registers_keys os defs l fresh List.nodup_nil (Nat.zero_le _)
  obtain ⟨k4, -, k5⟩ := registers_keys os defs l' (fresh.run os defs (regs l)) k2 k3
  have hfull := register_full (fresh.run os defs (regs (l ++ l'))) (l.map Prod.fst) (by rw [List.length_map, hl]) hn
    (by
      intro t ht
      obtain ⟨p, hp, rfl⟩ := List.mem_map.1 ht
      rw [hsplit]
      exact k4 _ (k1 p hp))
    (by rw [hsplit]; exact k5) s hs
  rw [← hmem, ← hlen] at hfull
  show register os s e _ = _
  unfold register
  rw [if_pos (full_slot hd s hfull)]

/-- 32 signals fit, the 33rd does not. -/
example : let st := run (fun s => 0 < s && s < 65) [] start (regs ((List.range 33).map fun i => (i + 1, i + 100)))
    deliver 32 st = .throws (some 131) ∧ deliver 33 st = .default := by
  set_option maxRecDepth 10000 in decide

/-- A signal that arrives while it is being registered for the first time throws the NULL name: the handler
is installed before the table is written. -/
theorem C34_window (os : Nat → Bool) (s : Nat) (hs : s ≠ 0) (ho : os s = true) :
    deliverDuring os s s start = .throws none := by
  unfold deliverDuring
  have h1 : slot start.tab s = 0 := by
    simp [slot, start, maxSig, List.replicate_succ, List.findIdx_cons]
  rw [if_pos ⟨by rw [h1]; decide, ho, rfl⟩]
  have h2 : handler start.tab s = none := by
    have : (start.tab.find? fun x => x.sig == s) = none := by
      rw [List.find?_eq_none]
      intro x hx
      rw [(List.mem_replicate.1 hx).2]
      simpa using Ne.symm hs
    unfold handler
    rw [this]
  rw [h2]

/-! ## C53 -/

/-- C53 in full: a signal does what the program last said about it, whatever blocks are entered. -/
def C53_Full : Prop := ∀ (os : Nat → Bool) (defs : List (Nat × Nat)) (h : List Op), os 0 = false →
  ((h.flatMap Op.sig) ++ defs.map Prod.fst).toFinset.card ≤ 32 → ∀ s x, said os s h = some x →
  deliver s (run os defs start h) = told (some x) .default

/-- Signal 11 is reset; the next `try` makes it an exception again. -/
theorem C53_reset_undone :
    deliver 11 (run (fun s => 0 < s && s < 65) [(11, 1), (2, 2)] start [.enter, .reset 11]) = .default ∧
    deliver 11 (run (fun s => 0 < s && s < 65) [(11, 1), (2, 2)] start [.enter, .reset 11, .enter]) = .throws (some 1) := by
  decide

/-- The program gives signal 11 a name of its own and resets signal 2: the next `try` takes the name away. -/
theorem C53_name_lost :
    deliver 11 (run (fun s => 0 < s && s < 65) [(11, 1), (2, 2)] start [.register 11 77, .reset 2]) = .throws (some 77) ∧
    deliver 11 (run (fun s => 0 < s && s < 65) [(11, 1), (2, 2)] start [.register 11 77, .reset 2, .enter]) = .throws (some 1) := by
  decide

theorem C53_full_false : ¬ C53_Full := by
  intro hf
  have := hf (fun s => 0 < s && s < 65) [(11, 1), (2, 2)] [.enter, .reset 11, .enter] (by decide) (by decide) 11 none (by decide)
  exact absurd this (by decide)

/-- C53, proved part: signals the library does not set up itself.  Missing: the library's own ones after a reset. -/
theorem C53_own_signals_partial (os : Nat → Bool) (defs : List (Nat × Nat)) (h : List Op) (h0 : os 0 = false)
    (hroom : ((h.flatMap Op.sig) ++ defs.map Prod.fst).toFinset.card ≤ 32) (s : Nat) (hs : s ∉ defs.map Prod.fst)
    (x : Option Nat) (hx : said os s h = some x) : deliver s (run os defs start h) = told (some x) .default := by
  rw [C34_refines os h0 defs h s, said_other hroom os defs
    (fun d hd => List.mem_toFinset.2 (List.mem_append_right _ (List.mem_map_of_mem hd))) s hs h
    (v := fresh) (within_fresh _)
    (fun o ho t ht => List.mem_toFinset.2 (List.mem_append_left _ (List.mem_flatMap.2 ⟨o, ho, ht⟩))), hx]
  rfl

example : said (fun s => 0 < s && s < 65) 10 [.enter, .register 10 77, .reset 2, .enter] = some (some 77) ∧
    10 ∉ [(11, 1), (2, 2)].map Prod.fst := by decide

/-- C53, proved part: all signals, if nothing is reset after the first block was entered.  Missing: resets. -/
theorem C53_no_reset_partial (os : Nat → Bool) (defs : List (Nat × Nat)) (hd : defs ≠ []) (h : List Op) (h0 : os 0 = false)
    (hroom : ((h.flatMap Op.sig) ++ defs.map Prod.fst).toFinset.card ≤ 32) (hr : ∀ t, Op.reset t ∉ h) (s : Nat)
    (x : Option Nat) (hx : said os s h = some x) : deliver s (run os defs start (.enter :: h)) = told (some x) .default := by
  rw [C34_refines os h0 defs _ s]
  have w0 : Within ((h.flatMap Op.sig) ++ defs.map Prod.fst).toFinset fresh := within_fresh _
  obtain ⟨k1, k2, -⟩ := setup_other hroom os defs w0
    (fun d hd => List.mem_toFinset.2 (List.mem_append_right _ (List.mem_map_of_mem hd)))
  have : fresh.run os defs (.enter :: h) = (defs.foldl (fun v d => v.register os d.1 d.2) fresh).run os defs h := rfl
  rw [this, said_noreset hroom os defs s h k1 (k2 hd)
    (fun o ho t ht => List.mem_toFinset.2 (List.mem_append_left _ (List.mem_flatMap.2 ⟨o, ho, ht⟩))) hr, hx]
  cases x <;> rfl

example : said (fun s => 0 < s && s < 65) 11 [.register 11 77, .enter] = some (some 77) := by decide

/-- What `ex_signal_default` leaves, in any state. -/
theorem unset_spec (os : Nat → Bool) (defs : List (Nat × Nat)) (st : St) :
    (∀ t, (unset os defs st).installed t = if t ∈ defs.map Prod.fst ∧ os t = true then false else st.installed t) ∧
      (unset os defs st).tab = st.tab ∧ (defs ≠ [] → (unset os defs st).set = false) := by
  unfold unset
  induction defs generalizing st with
  | nil => exact ⟨fun t => by simp, rfl, fun h => absurd rfl h⟩
  | cons d l ih =>
    obtain ⟨h1, h2, h3⟩ := ih (reset os d.1 st)
    refine ⟨fun t => ?_, h2, fun _ => ?_⟩
    · rw [List.foldl_cons, h1]
      simp only [reset, List.map_cons, List.mem_cons]
      by_cases ho : os t = true
      · by_cases hm : t ∈ l.map Prod.fst
        · simp [ho, hm]
        · by_cases he : t = d.1
          · subst he; simp [ho]
          · simp [ho, hm, he]
      · by_cases he : t = d.1
        · subst he; simp [ho]
        · simp [ho, he]
    · rcases l with _ | ⟨d', l'⟩
      · rfl
      · exact h3 (by simp)

/-- C53: `ex_signal_default` gives the signals of the library their default effect, and leaves every other signal as it was - after any history. -/
theorem C53_default (os : Nat → Bool) (defs : List (Nat × Nat)) (h : List Op) (s : Nat) :
    deliver s (unset os defs (run os defs start h)) =
      if s ∈ defs.map Prod.fst ∧ os s = true then .default else deliver s (run os defs start h) := by
  obtain ⟨h1, h2, _⟩ := unset_spec os defs (run os defs start h)
  unfold deliver
  rw [h1, h2]
  by_cases hc : s ∈ defs.map Prod.fst ∧ os s = true
  · simp [hc]
  · rw [if_neg hc, if_neg hc]

example : deliver 11 (unset (fun s => 0 < s && s < 65) [(11, 1), (2, 2)] (run (fun s => 0 < s && s < 65) [(11, 1), (2, 2)] start [.enter, .register 10 7])) = .default ∧
    deliver 10 (unset (fun s => 0 < s && s < 65) [(11, 1), (2, 2)] (run (fun s => 0 < s && s < 65) [(11, 1), (2, 2)] start [.enter, .register 10 7])) = .throws (some 7) := by
  decide

/-- C53: that holds until the next block is entered, which sets the library's signals up again - whatever was registered before. -/
theorem C53_default_undone (os : Nat → Bool) (defs : List (Nat × Nat)) (hd : defs ≠ []) (h : List Op) :
    enter os defs (unset os defs (run os defs start h)) = setup os defs (unset os defs (run os defs start h)) := by
  unfold enter
  rw [(unset_spec os defs (run os defs start h)).2.2 hd]
  rfl

example : deliver 11 (enter (fun s => 0 < s && s < 65) [(11, 1)] (unset (fun s => 0 < s && s < 65) [(11, 1)]
    (run (fun s => 0 < s && s < 65) [(11, 1)] start [.register 11 7]))) = .throws (some 1) := by decide

end Verif.Props
