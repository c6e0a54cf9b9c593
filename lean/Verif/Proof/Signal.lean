import Verif.Spec.Signal
import Mathlib.Data.Finset.Card
namespace Verif.Sg

def toSlot (p : Nat × Nat) : Slot := ⟨some p.2, p.1⟩

/-- The table holds these registrations, in the order of their first. -/
structure Holds (tab : List Slot) (used : List (Nat × Nat)) : Prop where
  eq : tab = used.map toSlot ++ List.replicate (maxSig - used.length) ⟨none, 0⟩
  len : used.length ≤ maxSig
  nodup : (used.map Prod.fst).Nodup

theorem slot_mem (used : List (Nat × Nat)) (rest : List Slot) (s : Nat) (h : s ∈ used.map Prod.fst) :
    slot (used.map toSlot ++ rest) s < used.length ∧
    (used.map toSlot ++ rest)[slot (used.map toSlot ++ rest) s]?.map Slot.sig = some s := by
  induction used with
  | nil => cases h
  | cons p used ih =>
    unfold slot at ih ⊢
    simp only [List.map_cons, List.cons_append, List.findIdx_cons, toSlot, Option.isNone_some, Bool.false_or]
    by_cases e : p.1 = s
    · simp [e]
    · have h' : s ∈ used.map Prod.fst := by
        rcases List.mem_cons.1 h with h | h
        · exact absurd h.symm e
        · exact h
      have := ih h'
      rw [show (p.1 == s) = false by simpa using e]
      simp only [cond_false, List.length_cons, List.getElem?_cons_succ]
      exact ⟨by omega, this.2⟩

theorem slot_not_mem (used : List (Nat × Nat)) (n s : Nat) (h : s ∉ used.map Prod.fst) :
    slot (used.map toSlot ++ List.replicate n ⟨none, 0⟩) s = used.length := by
  induction used with
  | nil =>
    unfold slot
    cases n <;> simp [List.replicate, List.findIdx_cons]
  | cons p used ih =>
    have h1 : p.1 ≠ s := fun e => h (by simp [e])
    have h2 : s ∉ used.map Prod.fst := fun e => h (by simp only [List.map_cons]; exact List.mem_cons_of_mem _ e)
    unfold slot at ih ⊢
    simp only [List.map_cons, List.cons_append, List.findIdx_cons, toSlot, Option.isNone_some, Bool.false_or]
    rw [show (p.1 == s) = false by simpa using h1]
    simp only [cond_false, List.length_cons]
    rw [ih h2]

/-- The registrations after another one. -/
def put (used : List (Nat × Nat)) (s e : Nat) : List (Nat × Nat) :=
  if s ∈ used.map Prod.fst then used.map fun p => if p.1 = s then (s, e) else p else used ++ [(s, e)]

theorem put_keys (used : List (Nat × Nat)) (s e : Nat) (h : s ∈ used.map Prod.fst) :
    (put used s e).map Prod.fst = used.map Prod.fst := by
  unfold put
  rw [if_pos h, List.map_map]
  apply List.map_congr_left
  intro p _
  simp only [Function.comp_apply]
  split
  · next h => exact h.symm
  · rfl

theorem set_slot (used : List (Nat × Nat)) (rest : List Slot) (s e : Nat) (h : s ∈ used.map Prod.fst) (hn : (used.map Prod.fst).Nodup) :
    (used.map toSlot ++ rest).set (slot (used.map toSlot ++ rest) s) ⟨some e, s⟩ = (put used s e).map toSlot ++ rest := by
  have hput : put used s e = used.map fun p => if p.1 = s then (s, e) else p := if_pos h
  rw [hput]
  clear hput
  induction used with
  | nil => cases h
  | cons p used ih =>
    have hn' := List.nodup_cons.1 hn
    have hs : slot ((p :: used).map toSlot ++ rest) s = if p.1 = s then 0 else slot (used.map toSlot ++ rest) s + 1 := by
      unfold slot
      simp only [List.map_cons, List.cons_append, List.findIdx_cons, toSlot, Option.isNone_some, Bool.false_or]
      by_cases e : p.1 = s
      · simp [e]
      · rw [show (p.1 == s) = false by simpa using e, if_neg e]; rfl
    rw [hs]
    by_cases e' : p.1 = s
    · rw [if_pos e']
      have hne : ∀ q ∈ used, q.1 ≠ s := by
        intro q hq hqs
        exact hn'.1 (by rw [e', ← hqs]; exact List.mem_map_of_mem hq)
      have : used.map (fun p => if p.1 = s then (s, e) else p) = used := by
        conv => rhs; rw [← List.map_id used]
        apply List.map_congr_left
        intro q hq
        rw [if_neg (hne q hq)]; rfl
      simp only [List.map_cons, List.cons_append, List.set_cons_zero, if_pos e', this]
      rfl
    · rw [if_neg e']
      have h' : s ∈ used.map Prod.fst := by
        rcases List.mem_cons.1 h with h | h
        · exact absurd h.symm e'
        · exact h
      simp only [List.map_cons, List.cons_append, List.set_cons_succ, if_neg e']
      rw [ih h' hn'.2]

theorem put_holds {used : List (Nat × Nat)} {tab : List Slot} (hd : Holds tab used) (s e : Nat)
    (h : s ∈ used.map Prod.fst ∨ used.length < maxSig) :
    slot tab s ≠ maxSig ∧ Holds (tab.set (slot tab s) ⟨some e, s⟩) (put used s e) := by
  rw [hd.eq]
  by_cases hm : s ∈ used.map Prod.fst
  · have h1 := (slot_mem used (List.replicate (maxSig - used.length) ⟨none, 0⟩) s hm).1
    refine ⟨by have := hd.len; omega, ?_⟩
    have hl : (put used s e).length = used.length := by rw [← List.length_map Prod.fst, put_keys _ _ _ hm, List.length_map]
    exact ⟨by rw [set_slot _ _ _ _ hm hd.nodup, hl], by rw [hl]; exact hd.len, by rw [put_keys _ _ _ hm]; exact hd.nodup⟩
  · have hlt : used.length < maxSig := h.resolve_left hm
    rw [slot_not_mem _ _ _ hm]
    refine ⟨by omega, ?_⟩
    have hp : put used s e = used ++ [(s, e)] := if_neg hm
    rw [hp]
    refine ⟨?_, by rw [List.length_append]; simp; omega, ?_⟩
    · rw [List.set_append_right _ _ (by simp), List.length_map, Nat.sub_self]
      obtain ⟨k, hk⟩ : ∃ k, maxSig - used.length = k + 1 := ⟨maxSig - used.length - 1, by omega⟩
      have hk' : maxSig - (used ++ [(s, e)]).length = k := by rw [List.length_append]; simp; omega
      rw [hk, hk']
      simp [List.replicate_succ, toSlot]
    · rw [List.map_append, List.nodup_append]
      refine ⟨hd.nodup, by simp, ?_⟩
      intro a ha b hb
      simp at hb
      rw [hb]
      intro e
      exact hm (e ▸ ha)

theorem full_slot {used : List (Nat × Nat)} {tab : List Slot} (hd : Holds tab used) (s : Nat)
    (h : ¬ (s ∈ used.map Prod.fst ∨ used.length < maxSig)) : slot tab s = maxSig := by
  rw [hd.eq, slot_not_mem _ _ _ (fun hm => h (.inl hm))]
  have := hd.len
  have h2 : ¬ used.length < maxSig := fun hm => h (.inr hm)
  omega

/-- The name of a signal, from the registrations in table order. -/
theorem name_put (used : List (Nat × Nat)) (s e t : Nat) :
    Regs.name (put used s e) t = if t = s then some e else Regs.name used t := by
  unfold Regs.name put
  by_cases hm : s ∈ used.map Prod.fst
  · rw [if_pos hm]
    by_cases hts : t = s
    · rw [if_pos hts, hts]
      induction used with
      | nil => cases hm
      | cons p used ih =>
        by_cases hp : p.1 = s
        · simp [hp]
        · have h' : s ∈ used.map Prod.fst := by
            rcases List.mem_cons.1 hm with h | h
            · exact absurd h.symm hp
            · exact h
          simp only [List.map_cons, List.find?_cons, if_neg hp]
          rw [show (p.1 == s) = false by simpa using hp]
          exact ih h'
    · rw [if_neg hts]
      clear hm
      induction used with
      | nil => rfl
      | cons p used ih =>
        simp only [List.map_cons, List.find?_cons]
        by_cases hp : p.1 = s
        · have h1 : ((s, e).1 == t) = false := by simpa using (Ne.symm hts)
          have h2 : (p.1 == t) = false := by rw [hp]; simpa using (Ne.symm hts)
          rw [if_pos hp, h1, h2]
          exact ih
        · rw [if_neg hp]
          cases p.1 == t with
          | true => rfl
          | false => exact ih
  · rw [if_neg hm]
    by_cases hts : t = s
    · rw [if_pos hts, hts, List.find?_append]
      have : used.find? (fun p => p.1 == s) = none := by
        rw [List.find?_eq_none]
        intro p hp
        simp only [beq_iff_eq]
        intro e'
        exact hm (e' ▸ List.mem_map_of_mem hp)
      rw [this]
      simp
    · rw [if_neg hts, List.find?_append]
      have : [(s, e)].find? (fun p => p.1 == t) = none := by simp [Ne.symm hts]
      rw [this, Option.or_none]

theorem handler_name {used : List (Nat × Nat)} {tab : List Slot} (hd : Holds tab used) (s : Nat) (hs : s ≠ 0) :
    handler tab s = Regs.name used s := by
  rw [hd.eq]
  unfold handler Regs.name
  have hrep : ∀ n, (List.replicate n (⟨none, 0⟩ : Slot)).find? (fun x => x.sig == s) = none := by
    intro n
    rw [List.find?_eq_none]
    intro x hx
    rw [(List.mem_replicate.1 hx).2]
    simpa using Ne.symm hs
  rw [List.find?_append, hrep, Option.or_none, List.find?_map]
  have : ((fun x : Slot => x.sig == s) ∘ toSlot) = fun p => p.1 == s := rfl
  rw [this]
  cases used.find? (fun p => p.1 == s) <;> rfl

theorem name_cons_filter (r : Regs) (s e t : Nat) :
    Regs.name ((s, e) :: r.filter (fun p => p.1 ≠ s)) t = if t = s then some e else Regs.name r t := by
  unfold Regs.name
  by_cases h : t = s
  · rw [if_pos h, h]; simp
  · rw [if_neg h, List.find?_cons]
    rw [show ((s, e).1 == t) = false by simpa using Ne.symm h]
    dsimp only
    rw [List.find?_filter]
    congr 2
    funext p
    by_cases hp : p.1 = t
    · simp [hp, h]
    · simp [hp]

theorem filter_length_of_mem {r : Regs} {s : Nat} (hn : (r.map Prod.fst).Nodup) (h : s ∈ r.map Prod.fst) :
    (r.filter (fun p => p.1 ≠ s)).length + 1 = r.length := by
  induction r with
  | nil => cases h
  | cons p r ih =>
    have hn' := List.nodup_cons.1 hn
    by_cases e : p.1 = s
    · have : r.filter (fun p => p.1 ≠ s) = r := by
        apply List.filter_eq_self.2
        intro q hq
        simp only [decide_eq_true_eq]
        intro hqs
        exact hn'.1 (by show p.1 ∈ _; rw [e, ← hqs]; exact List.mem_map_of_mem hq)
      rw [List.filter_cons_of_neg (by simp [e]), this]
      rfl
    · have h' : s ∈ r.map Prod.fst := by
        rcases List.mem_cons.1 h with h | h
        · exact absurd h.symm e
        · exact h
      rw [List.filter_cons_of_pos (by simpa using e)]
      simp only [List.length_cons]
      rw [ih hn'.2 h']

theorem filter_of_not_mem {r : Regs} {s : Nat} (h : s ∉ r.map Prod.fst) : r.filter (fun p => p.1 ≠ s) = r := by
  apply List.filter_eq_self.2
  intro q hq
  simp only [decide_eq_true_eq]
  intro hqs
  exact h (hqs ▸ List.mem_map_of_mem hq)

/-- The state is what the user thinks. -/
structure Agree (os : Nat → Bool) (st : St) (v : View) : Prop where
  ex : ∃ used, Holds st.tab used ∧ used.length = v.regs.length ∧ (∀ s, s ∈ used.map Prod.fst ↔ s ∈ v.regs.map Prod.fst) ∧
    (∀ s, Regs.name used s = v.regs.name s)
  nodup : (v.regs.map Prod.fst).Nodup
  on : st.installed = v.on
  set : st.set = v.set
  pos : v.on 0 = false

theorem register_agree {os : Nat → Bool} (h0 : os 0 = false) {st : St} {v : View} (ag : Agree os st v) (s e : Nat) :
    Agree os (register os s e st) (v.register os s e) := by
  obtain ⟨used, hd, hlen, hmem, hname⟩ := ag.ex
  unfold register View.register
  dsimp only
  by_cases hc : s ∈ v.regs.map Prod.fst ∨ v.regs.length < 32
  · have hc' : s ∈ used.map Prod.fst ∨ used.length < maxSig := by rw [hmem, hlen]; exact hc
    obtain ⟨h1, h2⟩ := put_holds hd s e hc'
    rw [if_pos hc, if_neg h1]
    cases ho : os s with
    | true =>
      have hadd : v.regs.add os s e = (s, e) :: v.regs.filter (fun p => p.1 ≠ s) := if_pos ⟨ho, hc⟩
      rw [if_pos rfl, hadd]
      refine ⟨⟨put used s e, h2, ?_, ?_, ?_⟩, ?_, ?_, rfl, ?_⟩
      · by_cases hm : s ∈ v.regs.map Prod.fst
        · have hm' := (hmem s).2 hm
          rw [← List.length_map Prod.fst, put_keys _ _ _ hm', List.length_map, hlen, List.length_cons, filter_length_of_mem ag.nodup hm]
        · have hm' := fun h => hm ((hmem s).1 h)
          have hp : put used s e = used ++ [(s, e)] := if_neg hm'
          rw [hp, filter_of_not_mem hm, List.length_append, hlen]
          rfl
      · intro t
        have hR : t ∈ ((s, e) :: v.regs.filter (fun p => p.1 ≠ s)).map Prod.fst ↔ t = s ∨ t ∈ v.regs.map Prod.fst := by
          simp only [List.map_cons, List.mem_cons, List.mem_map, List.mem_filter, decide_eq_true_eq]
          constructor
          · rintro (h | ⟨p, ⟨h1, -⟩, h2⟩)
            · exact .inl h
            · exact .inr ⟨p, h1, h2⟩
          · rintro (h | ⟨p, h1, h2⟩)
            · exact .inl h
            · by_cases ht : t = s
              · exact .inl ht
              · exact .inr ⟨p, ⟨h1, by rw [h2]; exact ht⟩, h2⟩
        rw [hR]
        by_cases hm' : s ∈ used.map Prod.fst
        · rw [put_keys _ _ _ hm', hmem]
          constructor
          · exact .inr
          · rintro (h | h)
            · rw [h, ← hmem]; exact hm'
            · exact h
        · have hp : put used s e = used ++ [(s, e)] := if_neg hm'
          rw [hp, List.map_append, List.mem_append, hmem]
          simp only [List.map_cons, List.map_nil, List.mem_singleton]
          exact Or.comm
      · intro t
        rw [name_put _ _ _ _, name_cons_filter, hname]
      · rw [List.map_cons, List.nodup_cons]
        refine ⟨?_, ?_⟩
        · simp only [List.mem_map, List.mem_filter, decide_eq_true_eq]
          rintro ⟨p, ⟨-, h1⟩, h2⟩
          exact h1 h2
        · exact ag.nodup.sublist ((List.filter_sublist).map _)
      · funext t
        simp only [Bool.and_true, decide_eq_true_eq, ag.on]
      · have : (0 : Nat) ≠ s := by rintro rfl; rw [h0] at ho; cases ho
        simp [this, ag.pos]
    | false =>
      have hadd : v.regs.add os s e = v.regs := if_neg (by rw [ho]; simp)
      rw [if_neg (by simp), hadd]
      refine ⟨⟨used, hd, hlen, hmem, hname⟩, ag.nodup, ?_, rfl, by simp [ag.pos]⟩
      simp only [Bool.and_false, ag.on]
      rfl
  · have hc' : ¬ (s ∈ used.map Prod.fst ∨ used.length < maxSig) := by rw [hmem, hlen]; exact hc
    rw [if_neg hc, if_pos (full_slot hd s hc')]
    exact ag

theorem step_agree {os : Nat → Bool} (h0 : os 0 = false) (defs : List (Nat × Nat)) {st : St} {v : View} (ag : Agree os st v) (o : Op) :
    Agree os (step os defs st o) (v.step os defs o) := by
  cases o with
  | register s e => exact register_agree h0 ag s e
  | reset s =>
    refine ⟨ag.ex, ag.nodup, ?_, rfl, ?_⟩
    · simp only [step, View.step, reset, ag.on]
    · simp only [View.step]
      split
      · rfl
      · exact ag.pos
  | enter =>
    show Agree os (enter os defs st) _
    unfold enter
    simp only [View.step]
    rw [ag.set]
    split
    · exact ag
    · next hset =>
      clear hset
      unfold setup
      induction defs generalizing st v with
      | nil => exact ag
      | cons d defs ih => exact ih (register_agree h0 ag d.1 d.2)

theorem start_agree (os : Nat → Bool) : Agree os start fresh :=
  ⟨⟨[], ⟨rfl, Nat.zero_le _, List.nodup_nil⟩, rfl, fun _ => Iff.rfl, fun _ => rfl⟩, List.nodup_nil, rfl, rfl, rfl⟩

theorem run_agree {os : Nat → Bool} (h0 : os 0 = false) (defs : List (Nat × Nat)) (h : List Op) {st : St} {v : View} (ag : Agree os st v) :
    Agree os (run os defs st h) (v.run os defs h) := by
  induction h generalizing st v with
  | nil => exact ag
  | cons o h ih => exact ih (step_agree h0 defs ag o)

theorem deliver_agree {os : Nat → Bool} {st : St} {v : View} (ag : Agree os st v) (s : Nat) : deliver s st = v.effect s := by
  obtain ⟨used, hd, -, -, hname⟩ := ag.ex
  unfold deliver View.effect
  rw [ag.on]
  by_cases hs : s = 0
  · rw [hs, ag.pos]; rfl
  · rw [handler_name hd s hs, hname]

/-- Everything registered is among `S`. -/
structure Within (S : Finset Nat) (v : View) : Prop where
  sub : ∀ s ∈ v.regs.map Prod.fst, s ∈ S
  nodup : (v.regs.map Prod.fst).Nodup

theorem Within.room {S : Finset Nat} {v : View} (w : Within S v) (hS : S.card ≤ 32) {s : Nat} (hs : s ∈ S) :
    s ∈ v.regs.map Prod.fst ∨ v.regs.length < 32 := by
  by_cases hm : s ∈ v.regs.map Prod.fst
  · exact .inl hm
  · right
    have h1 : (insert s (v.regs.map Prod.fst).toFinset).card = v.regs.length + 1 := by
      rw [Finset.card_insert_of_notMem (by simpa using hm), List.toFinset_card_of_nodup w.nodup, List.length_map]
    have h2 : insert s (v.regs.map Prod.fst).toFinset ⊆ S := by
      intro t ht
      rcases Finset.mem_insert.1 ht with h | h
      · rw [h]; exact hs
      · exact w.sub t (List.mem_toFinset.1 h)
    have := Finset.card_le_card h2
    omega

theorem keys_add (os : Nat → Bool) (r : Regs) (s e t : Nat) (h : t ∈ (r.add os s e).map Prod.fst) : t = s ∨ t ∈ r.map Prod.fst := by
  unfold Regs.add at h
  split at h
  · simp only [List.map_cons, List.mem_cons, List.mem_map, List.mem_filter] at h ⊢
    rcases h with h | ⟨p, ⟨h1, -⟩, h2⟩
    · exact .inl h
    · exact .inr ⟨p, h1, h2⟩
  · exact .inr h

theorem keys_kept (os : Nat → Bool) (r : Regs) (s e t : Nat) (h : t ∈ r.map Prod.fst) : t ∈ (r.add os s e).map Prod.fst := by
  unfold Regs.add
  split
  · simp only [List.map_cons, List.mem_cons, List.mem_map, List.mem_filter, decide_eq_true_eq] at h ⊢
    obtain ⟨p, h1, h2⟩ := h
    by_cases ht : t = s
    · exact .inl ht
    · exact .inr ⟨p, ⟨h1, by rw [h2]; exact ht⟩, h2⟩
  · exact h

theorem nodup_add (os : Nat → Bool) (r : Regs) (s e : Nat) (h : (r.map Prod.fst).Nodup) : ((r.add os s e).map Prod.fst).Nodup := by
  unfold Regs.add
  split
  · rw [List.map_cons, List.nodup_cons]
    refine ⟨?_, h.sublist ((List.filter_sublist).map _)⟩
    simp only [List.mem_map, List.mem_filter, decide_eq_true_eq]
    rintro ⟨p, ⟨-, h1⟩, h2⟩
    exact h1 h2
  · exact h

theorem Within.register {S : Finset Nat} {v : View} (w : Within S v) (os : Nat → Bool) {s : Nat} (hs : s ∈ S) (e : Nat) :
    Within S (v.register os s e) := by
  unfold View.register
  split
  · refine ⟨?_, nodup_add _ _ _ _ w.nodup⟩
    intro t ht
    rcases keys_add _ _ _ _ _ ht with h | h
    · rw [h]; exact hs
    · exact w.sub t h
  · exact w

theorem register_effect {S : Finset Nat} {v : View} (w : Within S v) (hS : S.card ≤ 32) (os : Nat → Bool) {s : Nat} (hs : s ∈ S) (e t : Nat) :
    (v.register os s e).effect t = if t = s ∧ os s = true then .throws (some e) else v.effect t := by
  have hr := w.room hS hs
  unfold View.register
  rw [if_pos hr]
  unfold View.effect
  dsimp only
  cases ho : os s with
  | true =>
    have hadd : v.regs.add os s e = (s, e) :: v.regs.filter (fun p => p.1 ≠ s) := if_pos ⟨ho, hr⟩
    rw [hadd, name_cons_filter]
    by_cases ht : t = s <;> simp [ht]
  | false =>
    have hadd : v.regs.add os s e = v.regs := if_neg (by rw [ho]; simp)
    rw [hadd]
    simp

theorem register_set {S : Finset Nat} {v : View} (w : Within S v) (hS : S.card ≤ 32) (os : Nat → Bool) {s : Nat} (hs : s ∈ S) (e : Nat) :
    (v.register os s e).set = true := by
  unfold View.register
  rw [if_pos (w.room hS hs)]

theorem setup_other {S : Finset Nat} (hS : S.card ≤ 32) (os : Nat → Bool) (defs : List (Nat × Nat)) :
    ∀ {v : View}, Within S v → (∀ d ∈ defs, d.1 ∈ S) →
    Within S (defs.foldl (fun v d => v.register os d.1 d.2) v) ∧
    (defs ≠ [] → (defs.foldl (fun v d => v.register os d.1 d.2) v).set = true) ∧
    ∀ s, s ∉ defs.map Prod.fst → (defs.foldl (fun v d => v.register os d.1 d.2) v).effect s = v.effect s := by
  induction defs with
  | nil => intro v w _; exact ⟨w, fun h => absurd rfl h, fun _ _ => rfl⟩
  | cons d defs ih =>
    intro v w hd
    have hd1 := hd d List.mem_cons_self
    obtain ⟨i1, i2, i3⟩ := ih (w.register os hd1 d.2) (fun d' h => hd d' (List.mem_cons_of_mem _ h))
    refine ⟨i1, fun _ => ?_, fun s hs => ?_⟩
    · by_cases hn : defs = []
      · subst hn
        exact register_set w hS os hd1 d.2
      · exact i2 hn
    · simp only [List.map_cons, List.mem_cons, not_or] at hs
      rw [List.foldl_cons, i3 s hs.2, register_effect w hS os hd1, if_neg (fun h => hs.1 h.1)]

theorem run_append (os : Nat → Bool) (defs : List (Nat × Nat)) (v : View) (a b : List Op) :
    v.run os defs (a ++ b) = (v.run os defs a).run os defs b := List.foldl_append

/-- What was said about a signal that is not a default one holds. -/
theorem said_other {S : Finset Nat} (hS : S.card ≤ 32) (os : Nat → Bool) (defs : List (Nat × Nat)) (hd : ∀ d ∈ defs, d.1 ∈ S)
    (s : Nat) (hs : s ∉ defs.map Prod.fst) (h : List Op) : ∀ {v : View}, Within S v → (∀ o ∈ h, ∀ t ∈ o.sig, t ∈ S) →
    (v.run os defs h).effect s = told (said os s h) (v.effect s) := by
  induction h with
  | nil => intro v _ _; rfl
  | cons o h ih =>
    intro v w hh
    have key : Within S (v.step os defs o) ∧ (v.step os defs o).effect s = told (o.says os s) (v.effect s) := by
      cases o with
      | register t e =>
        have ht : t ∈ S := hh _ List.mem_cons_self t (by simp [Op.sig])
        refine ⟨w.register os ht e, ?_⟩
        show (v.register os t e).effect s = _
        rw [register_effect w hS os ht]
        by_cases hst : s = t
        · subst hst
          cases ho : os s <;> simp [Op.says, told, ho]
        · rw [if_neg (fun h => hst h.1)]
          simp [Op.says, told, Ne.symm hst]
      | reset t =>
        refine ⟨⟨w.sub, w.nodup⟩, ?_⟩
        simp only [View.step, View.effect]
        by_cases hst : s = t
        · subst hst
          by_cases ho : os s = true <;> simp [Op.says, told, ho]
        · simp [Op.says, told, Ne.symm hst, hst]
      | enter =>
        simp only [View.step]
        split
        · exact ⟨w, rfl⟩
        · obtain ⟨i1, -, i3⟩ := setup_other hS os defs w hd
          exact ⟨i1, i3 s hs⟩
    have := ih key.1 (fun o' ho' => hh o' (List.mem_cons_of_mem _ ho'))
    show ((v.step os defs o).run os defs h).effect s = _
    rw [this, said]
    cases hsd : said os s h with
    | some x => cases x <;> rfl
    | none => exact key.2

/-- As long as nothing is reset and the defaults are set, the same for every signal. -/
theorem said_noreset {S : Finset Nat} (hS : S.card ≤ 32) (os : Nat → Bool) (defs : List (Nat × Nat))
    (s : Nat) (h : List Op) : ∀ {v : View}, Within S v → v.set = true → (∀ o ∈ h, ∀ t ∈ o.sig, t ∈ S) → (∀ t, Op.reset t ∉ h) →
    (v.run os defs h).effect s = told (said os s h) (v.effect s) := by
  induction h with
  | nil => intro v _ _ _ _; rfl
  | cons o h ih =>
    intro v w hset hh hr
    have key : Within S (v.step os defs o) ∧ (v.step os defs o).set = true ∧ (v.step os defs o).effect s = told (o.says os s) (v.effect s) := by
      cases o with
      | register t e =>
        have ht : t ∈ S := hh _ List.mem_cons_self t (by simp [Op.sig])
        refine ⟨w.register os ht e, register_set w hS os ht e, ?_⟩
        show (v.register os t e).effect s = _
        rw [register_effect w hS os ht]
        by_cases hst : s = t
        · subst hst
          cases ho : os s <;> simp [Op.says, told, ho]
        · rw [if_neg (fun h => hst h.1)]
          simp [Op.says, told, Ne.symm hst]
      | reset t => exact absurd List.mem_cons_self (hr t)
      | enter =>
        simp only [View.step, hset, if_true]
        exact ⟨w, trivial, rfl⟩
    have := ih key.1 key.2.1 (fun o' ho' => hh o' (List.mem_cons_of_mem _ ho')) (fun t ht => hr t (List.mem_cons_of_mem _ ht))
    show ((v.step os defs o).run os defs h).effect s = _
    rw [this, said]
    cases hsd : said os s h with
    | some x => cases x <;> rfl
    | none => exact key.2.2

theorem said_registers (os : Nat → Bool) (s : Nat) (l : List (Nat × Nat)) :
    said os s (l.map fun p => .register p.1 p.2) =
      if os s then ((l.reverse.find? fun p => p.1 == s).map fun p => some p.2) else none := by
  induction l with
  | nil => simp [said]
  | cons p l ih =>
    rw [List.map_cons, said, ih]
    cases ho : os s with
    | false => simp [Op.says, ho]
    | true =>
      rw [if_pos rfl, if_pos rfl, List.reverse_cons, List.find?_append]
      cases hf : l.reverse.find? (fun p => p.1 == s) with
      | some q => simp
      | none =>
        by_cases hp : p.1 = s <;> simp [hp, Op.says, ho]

/-- With 32 signals registered, no other can be. -/
theorem register_full (v : View) (L : List Nat) (hl : L.length = 32) (hn : L.Nodup)
    (hL : ∀ s ∈ L, s ∈ v.regs.map Prod.fst) (hv : v.regs.length ≤ 32) (s : Nat) (hs : s ∉ L) :
    ¬ (s ∈ v.regs.map Prod.fst ∨ v.regs.length < 32) := by
  have h1 : L.toFinset ⊆ (v.regs.map Prod.fst).toFinset := by
    intro t ht
    rw [List.mem_toFinset] at ht ⊢
    exact hL t ht
  have h2 : L.toFinset.card = 32 := by rw [List.toFinset_card_of_nodup hn, hl]
  have h3 : (v.regs.map Prod.fst).toFinset.card ≤ v.regs.length := by
    have := List.toFinset_card_le (v.regs.map Prod.fst)
    rwa [List.length_map] at this
  rintro (h | h)
  · have h4 : insert s L.toFinset ⊆ (v.regs.map Prod.fst).toFinset := by
      intro t ht
      rcases Finset.mem_insert.1 ht with e | e
      · rw [e, List.mem_toFinset]; exact h
      · exact h1 e
    have h5 := Finset.card_le_card h4
    rw [Finset.card_insert_of_notMem (by simpa using hs), h2] at h5
    omega
  · have := Finset.card_le_card h1
    omega

theorem length_register (os : Nat → Bool) (v : View) (s e : Nat) (hn : (v.regs.map Prod.fst).Nodup) (hv : v.regs.length ≤ 32) :
    (v.register os s e).regs.length ≤ 32 := by
  unfold View.register
  split
  · next hc =>
    show (v.regs.add os s e).length ≤ 32
    unfold Regs.add
    split
    · by_cases hm : s ∈ v.regs.map Prod.fst
      · rw [List.length_cons, filter_length_of_mem hn hm]; exact hv
      · rw [filter_of_not_mem hm, List.length_cons]
        have := hc.resolve_left hm
        omega
    · exact hv
  · exact hv

theorem registers_keys (os : Nat → Bool) (defs : List (Nat × Nat)) (l : List (Nat × Nat)) : ∀ (v : View),
    (v.regs.map Prod.fst).Nodup → v.regs.length ≤ 32 →
    (∀ s ∈ v.regs.map Prod.fst, s ∈ (v.run os defs (l.map fun p => .register p.1 p.2)).regs.map Prod.fst) ∧
    ((v.run os defs (l.map fun p => .register p.1 p.2)).regs.map Prod.fst).Nodup ∧
    (v.run os defs (l.map fun p => .register p.1 p.2)).regs.length ≤ 32 := by
  induction l with
  | nil => intro v hn hv; exact ⟨fun _ h => h, hn, hv⟩
  | cons p l ih =>
    intro v hn hv
    have hreg : ∀ s ∈ v.regs.map Prod.fst, s ∈ (v.register os p.1 p.2).regs.map Prod.fst := by
      intro s hs
      unfold View.register
      split
      · exact keys_kept os _ _ _ _ hs
      · exact hs
    have hn' : ((v.register os p.1 p.2).regs.map Prod.fst).Nodup := by
      unfold View.register
      split
      · exact nodup_add _ _ _ _ hn
      · exact hn
    obtain ⟨i1, i2, i3⟩ := ih (v.register os p.1 p.2) hn' (length_register os v _ _ hn hv)
    exact ⟨fun s hs => i1 s (hreg s hs), i2, i3⟩

theorem registers_all {S : Finset Nat} (hS : S.card ≤ 32) (os : Nat → Bool) (defs : List (Nat × Nat)) (l : List (Nat × Nat)) : ∀ (v : View),
    Within S v → (∀ p ∈ l, p.1 ∈ S ∧ os p.1 = true) →
    ∀ p ∈ l, p.1 ∈ (v.run os defs (l.map fun p => .register p.1 p.2)).regs.map Prod.fst := by
  induction l with
  | nil => intro v _ _ p hp; cases hp
  | cons q l ih =>
    intro v w hl p hp
    obtain ⟨hq, ho⟩ := hl q List.mem_cons_self
    have w' := w.register os hq q.2
    rcases List.mem_cons.1 hp with rfl | hp
    · have hlen : (v.register os p.1 p.2).regs.length ≤ 32 := by
        rw [← List.length_map Prod.fst, ← List.toFinset_card_of_nodup w'.nodup]
        refine le_trans (Finset.card_le_card ?_) hS
        intro t ht
        exact w'.sub t (List.mem_toFinset.1 ht)
      refine (registers_keys os defs l (v.register os p.1 p.2) w'.nodup hlen).1 p.1 ?_
      unfold View.register
      rw [if_pos (w.room hS hq)]
      unfold Regs.add
      rw [if_pos ⟨ho, w.room hS hq⟩]
      simp
    · exact ih _ w' (fun p hp => hl p (List.mem_cons_of_mem _ hp)) p hp

end Verif.Sg
