import Verif.Proof.Future
/-! Termination of `thrd_sync`, and accesses to freed memory. -/
namespace Verif.Fu

/-- A worker crashes only for want of an argument. -/
def CInv (y : Sys) : Prop := ∀ i f, y.futs i = some f → f.w = .crashed → f.job.arg = .null

theorem worker_crash {f : Fut} (h : (workerFut f).w = .crashed) : f.w = .crashed ∨ f.job.arg = .null := by
  obtain ⟨⟨s, arg, out⟩, w, ⟨o, d, m, r, fr⟩, live, g, reg, c⟩ := f
  cases w with
  | crashed => exact .inl rfl
  | test =>
    by_cases ha : arg = .null
    · exact .inr ha
    · simp [workerFut, ha] at h
  | call => cases out <;> simp [workerFut] at h
  | noteErr | notePanic => cases out <;> simp [workerFut] at h
  | lock => cases m <;> simp [workerFut] at h
  | _ => simp [workerFut] at h

theorem CInv.step {cpus own : Nat} {y : Sys} (I : CInv y) (a : Act) : CInv (step cpus own y a) := by
  intro i f' h' hw
  cases h : y.futs i with
  | none =>
    obtain ⟨j, rfl, _⟩ := step_none h h'
    cases hw
  | some f =>
    obtain ⟨f1, h1, h2, h3, _⟩ := step_fut (cpus := cpus) (own := own) h a
    rw [h'] at h1; cases h1
    rw [h2]
    rw [h3] at hw
    cases hb : isWorker i a with
    | false => rw [hb] at hw; exact I i f h hw
    | true =>
      rw [hb] at hw
      rcases worker_crash hw with hc | hc
      · exact I i f h hc
      · exact hc

theorem CInv.run {cpus own : Nat} (h : List Act) {y : Sys} (I : CInv y) : CInv (run cpus own y h) := by
  induction h generalizing y with
  | nil => exact I
  | cons a h ih => exact ih (I.step a)

theorem CInv.init : CInv init := fun i f h => (by cases h)

/-! ## `thrd_sync` -/

def Pool.rank (q : Pool) : Nat :=
  match q.s with
  | .idle => 0
  | .wait k => 5 * (q.ids.length - k) + 1
  | .read k => 5 * (q.ids.length - k)
  | .join k => 5 * (q.ids.length - k) - 1
  | .free k => 5 * (q.ids.length - k) - 2
  | .close k => 5 * (q.ids.length - k) - 3
  | .clean => 1
  | _ => 0

def AllOut (y : Sys) : Prop := ∀ i ∈ y.pool.ids, ∃ f, y.futs i = some f ∧ f.w = .exited

theorem sync_rank {cpus own : Nat} {y : Sys} (I : SInv cpus own y) (A : AllOut y) (hn : y.pool.s ≠ .idle) :
    (syncStep own y).pool.rank ≤ y.pool.rank - 1 ∧ (syncStep own y).pool.s ≠ .idle := by
  have P := I.pool
  have H := P.phase
  unfold Phase at H
  have ent : ∀ k, k < y.pool.ids.length → ∃ i f, y.entry k = some (i, f) ∧ y.pool.ids[k]? = some i ∧ y.futs i = some f ∧ f.w = .exited := by
    intro k hk
    obtain ⟨f, hf, hw⟩ := A _ (List.getElem_mem hk)
    exact ⟨_, f, entry_eq.mpr ⟨List.getElem?_eq_getElem hk, hf⟩, List.getElem?_eq_getElem hk, hf, hw⟩
  cases hs : y.pool.s with
  | idle => exact absurd hs hn
  | synced | threw | crashed => simp only [syncStep, hs]; simp [Pool.rank, hs]
  | clean => simp only [syncStep, hs]; simp [Pool.rank, Sys.setS, hs]
  | wait k =>
    rw [hs] at H
    obtain ⟨hk, hF, hR⟩ := H
    obtain ⟨i, f, he, hi, hf, hw⟩ := ent k hk
    have hd : f.p.done = true := by
      rw [(I.fut i f hf).done, hw, (hR k (Nat.le_refl _) i f hi hf).1]; rfl
    simp only [syncStep, hs, he, hd, if_true]
    exact ⟨by simp [Pool.rank, Sys.setS, Sys.touch, hs], by simp [Sys.setS]⟩
  | read k =>
    rw [hs] at H
    obtain ⟨hk, _⟩ := H
    obtain ⟨i, f, he, hi, hf, hw⟩ := ent k hk
    simp only [syncStep, hs, he]
    split
    · exact ⟨by simp [Pool.rank, Sys.setS], by simp [Sys.setS]⟩
    · exact ⟨by simp [Pool.rank, hs], by simp⟩
  | join k =>
    rw [hs] at H
    obtain ⟨hk, _⟩ := H
    obtain ⟨i, f, he, hi, hf, hw⟩ := ent k hk
    simp only [syncStep, hs, he, hw, if_true]
    exact ⟨by simp only [Pool.rank, Sys.setS, hs]; omega, by simp [Sys.setS]⟩
  | free k =>
    rw [hs] at H
    obtain ⟨hk, _⟩ := H
    obtain ⟨i, f, he, hi, hf, hw⟩ := ent k hk
    simp only [syncStep, hs, he]
    exact ⟨by simp only [Pool.rank, Sys.setS, Sys.setFut, hs]; omega, by simp [Sys.setS]⟩
  | close k =>
    rw [hs] at H
    obtain ⟨hk, _⟩ := H
    obtain ⟨i, f, he, hi, hf, hw⟩ := ent k hk
    cases hp : y.pending f with
    | some e =>
      simp only [syncStep, hs, he, hp]
      exact ⟨by simp [Pool.rank, Sys.raise, Sys.setS, Sys.cleanScope, Sys.setErr, Sys.setPanic], by
        simp [Sys.raise, Sys.setS, Sys.cleanScope, Sys.setErr, Sys.setPanic]⟩
    | none =>
      simp only [syncStep, hs, he, hp]
      by_cases hlt : k + 1 < y.pool.ids.length
      · rw [show y.pool.head (k + 1) = .wait (k + 1) from if_pos hlt]
        exact ⟨by simp only [Pool.rank, Sys.setS, Sys.setFut, Sys.touch, hs]; omega, by simp [Sys.setS]⟩
      · rw [show y.pool.head (k + 1) = .clean from if_neg hlt]
        exact ⟨by simp only [Pool.rank, Sys.setS, Sys.setFut, Sys.touch, hs]; omega, by simp [Sys.setS]⟩

theorem step_pool {cpus own : Nat} {y : Sys} {a : Act} (hn : y.pool.s ≠ .idle) (ha : isSyncer a = false) : (step cpus own y a).pool = y.pool := by
  cases a with
  | syncer => cases ha
  | async i j => simp only [Fu.step]; split <;> rfl
  | worker i => simp only [Fu.step]; split; rfl; exact workerStep_pool ..
  | get i s => simp only [Fu.step]; split; rfl; split <;> rfl
  | getter i => simp only [Fu.step]; split; rfl; exact getStep_pool ..
  | oops s e => rfl
  | spawn i j => simp only [Fu.step, hn, false_and, if_false]; split <;> rfl
  | sync => simp only [Fu.step, hn, if_false]

theorem run_sync {cpus own : Nat} (hc : 0 < cpus) (h : List Act) {y : Sys} (I : SInv cpus own y) (A : AllOut y) (hn : y.pool.s ≠ .idle) :
    (run cpus own y h).pool.rank ≤ y.pool.rank - times isSyncer h ∧ (run cpus own y h).pool.s ≠ .idle := by
  induction h generalizing y with
  | nil => exact ⟨Nat.le_refl _, hn⟩
  | cons a h ih =>
    have hids : (step cpus own y a).pool.ids = y.pool.ids := by
      cases ha : isSyncer a with
      | false => rw [step_pool hn ha]
      | true => cases a <;> first | (cases ha; done) | exact syncStep_ids own y
    have A' : AllOut (step cpus own y a) := by
      intro i hi
      rw [hids] at hi
      obtain ⟨f, hf, hw⟩ := A i hi
      obtain ⟨f1, h1, _, h3, _⟩ := step_fut (cpus := cpus) (own := own) hf a
      refine ⟨f1, h1, ?_⟩
      rw [h3]
      cases isWorker i a
      · exact hw
      · rw [workerFut_exited hw]; exact hw
    have hr : (step cpus own y a).pool.rank ≤ y.pool.rank - (if isSyncer a then 1 else 0) ∧ (step cpus own y a).pool.s ≠ .idle := by
      cases ha : isSyncer a with
      | false => rw [step_pool hn ha]; exact ⟨Nat.le_refl _, hn⟩
      | true => cases a <;> first | (cases ha; done) | exact sync_rank I A hn
    obtain ⟨g1, g2⟩ := ih (I.step hc a) A' hr.2
    refine ⟨?_, g2⟩
    rw [times_cons]
    have := hr.1
    show (run cpus own (step cpus own y a) h).pool.rank ≤ _
    omega

theorem srank_zero {cpus own : Nat} {y : Sys} (I : SInv cpus own y) (h : y.pool.rank = 0) (hn : y.pool.s ≠ .idle) : y.pool.s.final = true := by
  have H := I.pool.phase
  unfold Phase at H
  unfold Pool.rank at h
  cases hs : y.pool.s with
  | idle => exact absurd hs hn
  | synced | threw | crashed => rfl
  | wait k | clean => rw [hs] at h; simp at h
  | read k | join k | free k | close k =>
    rw [hs] at h H
    have := H.1
    simp only at h
    omega

/-- All workers of a pool get to their end. -/
theorem run_workers {cpus own : Nat} (hc : 0 < cpus) (h : List Act) {y : Sys} (I : SInv cpus own y) (C : CInv y)
    (ha : ∀ i ∈ y.pool.ids, ∀ f, y.futs i = some f → f.job.arg ≠ .null) (ht : ∀ i ∈ y.pool.ids, 10 ≤ times (isWorker i) h) :
    ∀ i ∈ y.pool.ids, ∃ f, (run cpus own y h).futs i = some f ∧ f.w = .exited := by
  intro i hi
  obtain ⟨f, hf, _⟩ := I.pool.known i hi
  have ha' := ha i hi f hf
  obtain ⟨f', h1, h2, h3, h4, _⟩ := run_worker hc h I hf ha' (fun e => ha' (C i f hf e))
  refine ⟨f', h1, rank_zero ?_ h3⟩
  have := ht i hi
  have : f.w.rank ≤ 10 := by cases f.w <;> simp [WPc.rank]
  omega

theorem run_ids {cpus own : Nat} (h : List Act) {y : Sys} (hn : y.pool.s ≠ .idle) (hi : ∀ y, (syncStep own y).pool.s = .idle → y.pool.s = .idle) :
    (run cpus own y h).pool.ids = y.pool.ids ∧ (run cpus own y h).pool.s ≠ .idle := by
  induction h generalizing y with
  | nil => exact ⟨rfl, hn⟩
  | cons a h ih =>
    cases ha : isSyncer a with
    | false =>
      have e := step_pool (cpus := cpus) (own := own) hn ha
      obtain ⟨g1, g2⟩ := ih (y := step cpus own y a) (by rw [e]; exact hn)
      exact ⟨g1.trans (by rw [e]), g2⟩
    | true =>
      have e : step cpus own y a = syncStep own y := by cases a <;> first | (cases ha; done) | rfl
      obtain ⟨g1, g2⟩ := ih (y := step cpus own y a) (by rw [e]; exact fun h => hn (hi y h))
      exact ⟨g1.trans (by rw [e]; exact syncStep_ids own y), g2⟩

theorem sync_notIdle (own : Nat) (y : Sys) (h : (syncStep own y).pool.s = .idle) : y.pool.s = .idle := by
  cases hs : y.pool.s with
  | idle => rfl
  | synced | threw | crashed => simp only [syncStep, hs] at h; cases h
  | clean => simp only [syncStep, hs] at h; cases h
  | wait k =>
    simp only [syncStep, hs] at h
    repeat' split at h
    all_goals first | (cases h; done) | (rw [← hs]; exact h)
  | read k =>
    simp only [syncStep, hs] at h
    repeat' split at h
    all_goals first | (cases h; done) | (rw [← hs]; exact h)
  | join k =>
    simp only [syncStep, hs] at h
    repeat' split at h
    all_goals first | (cases h; done) | (rw [← hs]; exact h)
  | free k =>
    simp only [syncStep, hs] at h
    repeat' split at h
    all_goals first | (cases h; done) | (rw [← hs]; exact h)
  | close k =>
    simp only [syncStep, hs] at h
    split at h
    · split at h
      · cases h
      · change y.pool.head (k + 1) = .idle at h
        unfold Pool.head at h
        split at h <;> cases h
    · rw [← hs]; exact h

/-! ## Freed memory -/

/-- Nothing freed comes back. -/
structure Worse (f f' : Fut) : Prop where
  live : f.live = false → f'.live = false
  freed : f.p.freed = true → f'.p.freed = true
  shut : f.p.isOpen = false → f'.p.isOpen = false

theorem Worse.refl (f : Fut) : Worse f f := ⟨id, id, id⟩

theorem Worse.clean {s : Nat} {f f' : Fut} (h : Worse f f') : Worse f (cleanFut y s f') := by
  unfold cleanFut
  split
  · exact ⟨h.live, fun _ => rfl, h.shut⟩
  · exact h

theorem close_shut (p : Prom) : p.close.isOpen = false := by
  unfold Prom.close
  split
  · rfl
  · rename_i h; simpa using h

theorem Worse.close {f : Fut} : Worse f { f with p := f.p.close } := by
  refine ⟨id, fun h => ?_, fun _ => close_shut _⟩
  show f.p.close.freed = true
  unfold Prom.close
  split <;> exact h

theorem Worse.getter {e : Option Exn} {f : Fut} : Worse f (getFut e f) := by
  refine ⟨fun h => ?_, fun h => ?_, fun h => ?_⟩
  · unfold getFut
    repeat' split
    all_goals first | exact h | rfl
  · unfold getFut
    repeat' split
    all_goals first | exact h | exact Worse.close.freed h
  · unfold getFut
    repeat' split
    all_goals first | exact h | exact close_shut _

theorem syncStep_worse {own : Nat} {y : Sys} {i : Nat} {f : Fut} (h : y.futs i = some f) :
    ∃ f', (syncStep own y).futs i = some f' ∧ Worse f f' := by
  have same : ∃ f', y.futs i = some f' ∧ Worse f f' := ⟨f, h, Worse.refl f⟩
  have cl : ∀ (g : Nat → Option Fut), (∃ f', g i = some f' ∧ Worse f f') → ∃ f', (g i).map (cleanFut y own) = some f' ∧ Worse f f' := by
    rintro g ⟨f', h1, h2⟩
    rw [h1]
    exact ⟨_, rfl, h2.clean⟩
  have st : ∀ i' f0 f1, y.futs i' = some f0 → Worse f0 f1 →
      ∃ f', (if i = i' then some f1 else y.futs i) = some f' ∧ Worse f f' := by
    intro i' f0 f1 h0 h1
    by_cases e : i = i'
    · subst e
      rw [h] at h0; cases h0
      rw [if_pos rfl]
      exact ⟨f1, rfl, h1⟩
    · rw [if_neg e]; exact same
  unfold syncStep
  dsimp only
  split
  case h_1 | h_2 | h_3 | h_4 => exact same
  case h_5 => split; (split <;> exact same); exact same
  case h_6 => split; (split <;> exact same); exact same
  case h_7 => split; (split <;> exact same); exact same
  case h_8 =>
    split
    · rename_i he
      exact st _ _ _ (entry_eq.mp he).2 ⟨fun _ => rfl, id, id⟩
    · exact same
  case h_9 =>
    split
    · rename_i he
      have h0 := (entry_eq.mp he).2
      split
      · exact cl (fun k => if k = _ then _ else y.futs k) (st _ _ _ h0 Worse.close)
      · exact st _ _ _ h0 Worse.close
    · exact same
  case h_10 => exact cl _ same

theorem step_worse {cpus own : Nat} {y : Sys} {i : Nat} {f : Fut} (h : y.futs i = some f) (a : Act) :
    ∃ f', (step cpus own y a).futs i = some f' ∧ Worse f f' ∧ (a = .getter i → Worse (getFut (y.pending f) f) f') := by
  cases a with
  | async k j =>
    simp only [Fu.step]
    cases hk : y.futs k with
    | some f' => exact ⟨f, h, Worse.refl f, nofun⟩
    | none =>
      have : i ≠ k := fun e => by subst e; rw [h] at hk; cases hk
      exact ⟨f, by show (if i = k then _ else _) = _; rw [if_neg this, h], Worse.refl f, nofun⟩
  | worker k =>
    simp only [Fu.step]
    cases hk : y.futs k with
    | none => exact ⟨f, h, Worse.refl f, nofun⟩
    | some f' =>
      dsimp only
      rw [workerStep_futs hk]
      by_cases e : i = k
      · subst e
        rw [h] at hk; cases hk
        obtain ⟨_, _, _, k4, k5, k6, _⟩ := workerFut_keeps f
        exact ⟨workerFut f, if_pos rfl, ⟨fun h => k4.trans h, fun h => k6.trans h, fun h => k5.trans h⟩, nofun⟩
      · exact ⟨f, (if_neg e).trans h, Worse.refl f, nofun⟩
  | get k s =>
    simp only [Fu.step]
    cases hk : y.futs k with
    | none => exact ⟨f, h, Worse.refl f, nofun⟩
    | some f' =>
      dsimp only
      split
      · by_cases e : i = k
        · subst e
          rw [h] at hk; cases hk
          exact ⟨{ f with g := .check, caller := s }, if_pos rfl, ⟨id, id, id⟩, nofun⟩
        · exact ⟨f, by show (if i = k then _ else _) = _; rw [if_neg e, h], Worse.refl f, nofun⟩
      · exact ⟨f, h, Worse.refl f, nofun⟩
  | getter k =>
    simp only [Fu.step]
    cases hk : y.futs k with
    | none =>
      refine ⟨f, h, Worse.refl f, fun e => ?_⟩
      cases e; rw [h] at hk; cases hk
    | some fk =>
      dsimp only
      rw [getStep_futs hk]
      by_cases e : i = k
      · subst e
        rw [h] at hk; cases hk
        rw [if_pos rfl]
        split
        · exact ⟨_, rfl, Worse.getter.clean, fun _ => (Worse.refl _).clean⟩
        · exact ⟨_, rfl, Worse.getter, fun _ => Worse.refl _⟩
      · rw [if_neg e, h]
        have no : ∀ P : Prop, Act.getter k = Act.getter i → P := fun P e' => absurd (Act.getter.inj e').symm e
        split
        · exact ⟨_, rfl, (Worse.refl f).clean, no _⟩
        · exact ⟨_, rfl, Worse.refl f, no _⟩
  | oops s e =>
    exact ⟨cleanFut y s f, by show (y.futs i).map (cleanFut y s) = _; rw [h]; rfl, (Worse.refl f).clean, nofun⟩
  | spawn k j =>
    simp only [Fu.step]
    cases hk : y.futs k with
    | some f' => exact ⟨f, h, Worse.refl f, nofun⟩
    | none =>
      have : i ≠ k := fun e => by subst e; rw [h] at hk; cases hk
      dsimp only
      split
      · exact ⟨f, by show (if i = k then _ else _) = _; rw [if_neg this, h], Worse.refl f, nofun⟩
      · exact ⟨f, h, Worse.refl f, nofun⟩
  | sync =>
    simp only [Fu.step]
    split <;> exact ⟨f, h, Worse.refl f, nofun⟩
  | syncer =>
    obtain ⟨f', h1, h2⟩ := syncStep_worse (own := own) h
    exact ⟨f', h1, h2, nofun⟩

theorem clean_back {cpus own : Nat} {y : Sys} {a : Act} (h : (step cpus own y a).clean) : y.clean := by
  intro i f hf
  obtain ⟨f', h1, h2, _⟩ := step_worse (cpus := cpus) (own := own) hf a
  have := h i f' h1
  constructor
  · cases hl : f.live with
    | true => rfl
    | false => rw [h2.live hl] at this; cases this.1
  · cases hl : f.p.freed with
    | false => rfl
    | true => rw [h2.freed hl] at this; cases this.2

/-- While nothing is freed, nothing freed is read. -/
theorem clean_uaf {cpus own : Nat} {y : Sys} (a : Act) (h : y.clean) : (step cpus own y a).uaf = y.uaf := by
  have tf : ∀ i f, y.futs i = some f → (y.touch f.p.freed).uaf = y.uaf ∧ (y.touch (!f.live || f.p.freed)).uaf = y.uaf := by
    intro i f hf
    obtain ⟨h1, h2⟩ := h i f hf
    rw [h1, h2]
    simp [Sys.touch]
  cases a with
  | async i j => simp only [Fu.step]; split <;> rfl
  | get i s => simp only [Fu.step]; split; rfl; split <;> rfl
  | oops s e => rfl
  | spawn i j => simp only [Fu.step]; split; (split <;> rfl); rfl
  | sync => simp only [Fu.step]; split <;> rfl
  | worker i =>
    simp only [Fu.step]
    cases hf : y.futs i with
    | none => rfl
    | some f =>
      have := (tf i f hf).1
      dsimp only
      unfold workerStep
      dsimp only
      repeat' split
      all_goals first | rfl | exact this
  | getter i =>
    simp only [Fu.step]
    cases hf : y.futs i with
    | none => rfl
    | some f =>
      obtain ⟨t1, t2⟩ := tf i f hf
      dsimp only
      unfold getStep
      dsimp only
      repeat' split
      all_goals first | rfl | exact t1 | exact t2
  | syncer =>
    show (syncStep own y).uaf = _
    unfold syncStep
    dsimp only
    repeat' split
    all_goals first
      | rfl
      | exact (tf _ _ (entry_eq.mp (by assumption)).2).1
      | exact (tf _ _ (entry_eq.mp (by assumption)).2).2

theorem run_clean {cpus own : Nat} (h : List Act) {y : Sys} (hc : (run cpus own y h).clean) : (run cpus own y h).uaf = y.uaf := by
  suffices H : y.clean ∧ (run cpus own y h).uaf = y.uaf from H.2
  induction h generalizing y with
  | nil => exact ⟨hc, rfl⟩
  | cons a h ih =>
    obtain ⟨h1, h2⟩ := ih (y := step cpus own y a) hc
    have := clean_back h1
    exact ⟨this, h2.trans (clean_uaf a this)⟩

/-- Reads of freed memory are not forgotten. -/
theorem uaf_mono {cpus own : Nat} {y : Sys} (a : Act) (h : y.uaf = true) : (step cpus own y a).uaf = true := by
  have tf : ∀ b, (y.touch b).uaf = true := fun b => by simp [Sys.touch, h]
  cases a with
  | async i j => simp only [Fu.step]; split <;> exact h
  | get i s => simp only [Fu.step]; split; exact h; split <;> exact h
  | oops s e => exact h
  | spawn i j => simp only [Fu.step]; split; (split <;> exact h); exact h
  | sync => simp only [Fu.step]; split <;> exact h
  | worker i =>
    simp only [Fu.step]
    split
    · exact h
    · unfold workerStep
      dsimp only
      repeat' split
      all_goals first | exact h | exact tf _
  | getter i =>
    simp only [Fu.step]
    split
    · exact h
    · unfold getStep
      dsimp only
      repeat' split
      all_goals first | exact h | exact tf _
  | syncer =>
    show (syncStep own y).uaf = _
    unfold syncStep
    dsimp only
    repeat' split
    all_goals first | exact h | exact tf _

/-- `thrd_get` is past `promise_close`. -/
def GPc.after : GPc → Bool
  | .fin | .returned _ | .threw _ | .crashed => true
  | _ => false

/-- `thrd_sync` is past the first `promise_close`. -/
def Pool.after (q : Pool) : Bool :=
  match q.s with
  | .wait k | .read k | .join k | .free k | .close k => decide (0 < k)
  | .clean | .synced => decide (0 < q.ids.length)
  | .threw _ => true
  | _ => false

structure UInv (y : Sys) : Prop where
  close : ∀ i f, y.futs i = some f → f.g = .close → f.live = false
  get : ∀ i f, y.futs i = some f → f.g.after = true → y.uaf = true
  sclose : ∀ k, y.pool.s = .close k → Entry y k (fun f => f.live = false)
  sync : y.pool.after = true → y.uaf = true

theorem UInv.init : UInv init := ⟨fun i f h => (by cases h), fun i f h => (by cases h), fun k h => (by cases h), fun h => (by cases h)⟩

theorem getFut_after {e : Option Exn} {f : Fut} (h : (getFut e f).g.after = true) : f.g.after = true ∨ f.g = .close := by
  cases hg : f.g with
  | close => exact .inr rfl
  | fin | returned | threw | crashed => exact .inl rfl
  | idle | logicError | read | free => simp [getFut, hg, GPc.after] at h
  | check | wait | join =>
    simp only [getFut, hg] at h
    split at h <;> simp [hg, GPc.after] at h

theorem getFut_close {e : Option Exn} {f : Fut} (h : (getFut e f).g = .close) : (getFut e f).live = false := by
  cases hg : f.g with
  | free => simp [getFut, hg]
  | close => cases e <;> simp [getFut, hg] at h
  | idle | logicError | read | returned | threw | crashed => simp [getFut, hg] at h
  | check | wait | join | fin =>
    simp only [getFut, hg] at h
    split at h <;> simp [hg] at h

theorem pool_cases {cpus own : Nat} {y : Sys} {a : Act} (ha : isSyncer a = false) :
    (step cpus own y a).pool = y.pool ∨ (y.pool.s = .idle ∧ (step cpus own y a).pool.s = .idle) ∨
      (y.pool.s = .idle ∧ (step cpus own y a).pool = { y.pool with s := y.pool.head 0 }) := by
  by_cases hn : y.pool.s = .idle
  · cases a with
    | syncer => cases ha
    | async i j => left; simp only [Fu.step]; split <;> rfl
    | worker i => left; simp only [Fu.step]; split; rfl; exact workerStep_pool ..
    | get i s => left; simp only [Fu.step]; split; rfl; split <;> rfl
    | getter i => left; simp only [Fu.step]; split; rfl; exact getStep_pool ..
    | oops s e => exact .inl rfl
    | spawn i j =>
      right; left
      simp only [Fu.step]
      refine ⟨hn, ?_⟩
      split
      · split <;> exact hn
      · exact hn
    | sync => right; right; refine ⟨hn, ?_⟩; simp only [Fu.step, hn, if_true]; rfl
  · exact .inl (step_pool hn ha)

theorem uinv_step {cpus own : Nat} {y : Sys} (P : PInv cpus own y) (U : UInv y) (a : Act) : UInv (step cpus own y a) := by
  have main : (∀ i f, (step cpus own y a).futs i = some f → f.g = .close → f.live = false) ∧
      (∀ i f, (step cpus own y a).futs i = some f → f.g.after = true → (step cpus own y a).uaf = true) := by
    constructor <;> intro i f' h' hg
    all_goals
      cases h : y.futs i with
      | none =>
        obtain ⟨j, rfl, _⟩ := step_none h h'
        cases hg
      | some f =>
        obtain ⟨f1, h1, _, _, h4, h5⟩ := step_fut (cpus := cpus) (own := own) h a
        rw [h'] at h1; cases h1
        obtain ⟨f1, h1, w1, w2⟩ := step_worse (cpus := cpus) (own := own) h a
        rw [h'] at h1; cases h1
        by_cases hi : f.g = .idle
        · rcases h5 hi with e | e <;> rw [e] at hg <;> cases hg
        · rw [h4 hi] at hg
          cases hb : isGetter i a with
          | false =>
            rw [hb] at hg
            first | exact w1.live (U.close i f h hg) | exact uaf_mono a (U.get i f h hg)
          | true =>
            rw [hb] at hg
            have ha : a = .getter i := by
              cases a <;> simp [isGetter] at hb
              rw [hb]
            first
              | exact (w2 ha).live (getFut_close hg)
              | (rcases getFut_after hg with e | e
                 · exact uaf_mono a (U.get i f h e)
                 · subst ha
                   have hl := U.close i f h e
                   simp only [Fu.step, h, getStep, e]
                   split <;> simp [Sys.raise, Sys.cleanScope, Sys.setPanic, Sys.setErr, Sys.setFut, Sys.touch, hl])
  refine ⟨main.1, main.2, ?_, ?_⟩
  · intro k hs
    cases ha : isSyncer a with
    | false =>
      have hp : y.pool.s = .close k ∧ (step cpus own y a).pool = y.pool := by
        rcases pool_cases (cpus := cpus) (own := own) (y := y) ha with e | ⟨_, e⟩ | ⟨_, e⟩
        · rw [e] at hs; exact ⟨hs, e⟩
        · rw [e] at hs; cases hs
        · rw [e] at hs
          change y.pool.head 0 = _ at hs
          unfold Pool.head at hs
          split at hs <;> cases hs
      intro i f' hi hf'
      rw [hp.2] at hi
      obtain ⟨f, hf, _⟩ := P.known i (List.mem_of_getElem? hi)
      obtain ⟨f1, h1, w1, _⟩ := step_worse (cpus := cpus) (own := own) hf a
      rw [hf'] at h1; cases h1
      exact w1.live (U.sclose k hp.1 i f hi hf)
    | true =>
      have e : step cpus own y a = syncStep own y := by cases a <;> first | (cases ha; done) | rfl
      rw [e] at hs ⊢
      intro i f' hi hf'
      rw [syncStep_ids] at hi
      cases hs0 : y.pool.s with
      | free k' =>
        cases he : y.entry k' with
        | none => simp only [syncStep, hs0, he] at hs; cases hs
        | some p =>
          obtain ⟨i', f⟩ := p
          simp only [syncStep, hs0, he] at hs hf'
          change SPc.close k' = .close k at hs
          cases hs
          obtain ⟨he1, he2⟩ := entry_eq.mp he
          rw [hi] at he1; cases he1
          change (if i = i then _ else _) = some f' at hf'
          rw [if_pos rfl] at hf'
          cases hf'
          rfl
      | idle | synced | threw | crashed => simp only [syncStep, hs0] at hs; cases hs
      | clean => simp only [syncStep, hs0] at hs; cases hs
      | wait k' | read k' | join k' =>
        simp only [syncStep, hs0] at hs
        repeat' split at hs
        all_goals first | (cases hs; done) | (change y.pool.s = _ at hs; rw [hs0] at hs; cases hs)
      | close k' =>
        have hlt : k' < y.pool.ids.length := by
          have := P.phase
          unfold Phase at this
          rw [hs0] at this
          exact this.1
        obtain ⟨f, hf, _⟩ := P.known _ (List.getElem_mem hlt)
        have he : y.entry k' = some (_, f) := entry_eq.mpr ⟨List.getElem?_eq_getElem hlt, hf⟩
        simp only [syncStep, hs0, he] at hs
        split at hs
        · cases hs
        · change y.pool.head _ = _ at hs
          unfold Pool.head at hs
          split at hs <;> cases hs
  · intro hA
    by_cases hb : y.pool.after = true
    · exact uaf_mono a (U.sync hb)
    have hb' : y.pool.after = false := by simpa using hb
    cases ha : isSyncer a with
    | false =>
      exfalso
      rcases pool_cases (cpus := cpus) (own := own) (y := y) ha with e | ⟨_, e⟩ | ⟨_, e⟩
      · rw [e] at hA; exact hb hA
      · unfold Pool.after at hA; rw [e] at hA; cases hA
      · rw [e] at hA
        unfold Pool.after Pool.head at hA
        dsimp only at hA
        by_cases h0 : 0 < y.pool.ids.length
        · rw [if_pos h0] at hA; simp at hA
        · rw [if_neg h0] at hA; simp [h0] at hA
    | true =>
      have e : step cpus own y a = syncStep own y := by cases a <;> first | (cases ha; done) | rfl
      rw [e] at hA ⊢
      cases hs : y.pool.s with
      | close k =>
        have hlt : k < y.pool.ids.length := by
          have := P.phase
          unfold Phase at this
          rw [hs] at this
          exact this.1
        obtain ⟨f, hf, _⟩ := P.known _ (List.getElem_mem hlt)
        have he : y.entry k = some (_, f) := entry_eq.mpr ⟨List.getElem?_eq_getElem hlt, hf⟩
        have hl := U.sclose k hs _ f (List.getElem?_eq_getElem hlt) hf
        simp only [syncStep, hs, he]
        split <;> simp [Sys.raise, Sys.cleanScope, Sys.setPanic, Sys.setErr, Sys.setFut, Sys.setS, Sys.touch, hl]
      | idle | synced | threw | crashed =>
        simp only [syncStep, hs] at hA
        exact absurd hA hb
      | clean =>
        simp only [syncStep, hs] at hA
        exfalso
        apply hb
        unfold Pool.after at hA ⊢
        rw [hs]
        exact hA
      | free k =>
        exfalso
        apply hb
        have go : decide (0 < k) = true → y.pool.after = true := fun h => by unfold Pool.after; rw [hs]; exact h
        cases he : y.entry k with
        | none => simp only [syncStep, hs, he] at hA; exact hA
        | some p =>
          simp only [syncStep, hs, he] at hA
          exact go hA
      | wait k =>
        exfalso
        apply hb
        have go : decide (0 < k) = true → y.pool.after = true := fun h => by unfold Pool.after; rw [hs]; exact h
        cases he : y.entry k with
        | none => simp only [syncStep, hs, he] at hA; exact hA
        | some p =>
          simp only [syncStep, hs, he] at hA
          split at hA
          · exact go hA
          · exact hA
      | read k =>
        exfalso
        apply hb
        have go : decide (0 < k) = true → y.pool.after = true := fun h => by unfold Pool.after; rw [hs]; exact h
        cases he : y.entry k with
        | none => simp only [syncStep, hs, he] at hA; exact hA
        | some p =>
          simp only [syncStep, hs, he] at hA
          split at hA
          · cases hA
          · exact go hA
      | join k =>
        exfalso
        apply hb
        have go : decide (0 < k) = true → y.pool.after = true := fun h => by unfold Pool.after; rw [hs]; exact h
        cases he : y.entry k with
        | none => simp only [syncStep, hs, he] at hA; exact hA
        | some p =>
          simp only [syncStep, hs, he] at hA
          split at hA
          · exact go hA
          · exact hA

theorem UInv.run {cpus own : Nat} (hc : 0 < cpus) (h : List Act) {y : Sys} (S : SInv cpus own y) (U : UInv y) : UInv (run cpus own y h) := by
  induction h generalizing y with
  | nil => exact U
  | cons a h ih => exact ih (S.step hc a) (uinv_step S.pool U a)

theorem run_fix {cpus own : Nat} {y : Sys} {a : Act} (h : step cpus own y a = y) (n : Nat) : run cpus own y (List.replicate n a) = y := by
  induction n with
  | zero => rfl
  | succ n ih => rw [List.replicate_succ]; show run cpus own (step cpus own y a) _ = _; rw [h]; exact ih

theorem handle_block {o : Outcome} {b : Val} (h : o.block = some b) : o.handle = some b.got := by
  cases o with
  | null | throws => cases h
  | plain v => cases h; rfl
  | returning p size data =>
    cases h
    show some (if size = 0 then _ else _) = some (if size > 0 then _ else _)
    by_cases hz : size = 0
    · subst hz; rfl
    · rw [if_neg hz, if_pos (by omega)]

theorem thenFold_map {α : Type} (cb : α → Nat → Option Got → α) (g : Nat → Option Got) (ids : List Nat) (n : Nat) (acc : α) :
    thenFold cb acc n (ids.map fun i => ⟨true, g i⟩) = (ids.zipIdx n).foldl (fun a p => cb a p.2 (g p.1)) acc := by
  induction ids generalizing n acc with
  | nil => rfl
  | cons i r ih => exact ih (n + 1) _

/-! ## A scope is released once -/

/-- The job stays, and whether the promise was released. -/
structure Kp (f f' : Fut) : Prop where
  job : f'.job = f.job
  freed : f'.p.freed = f.p.freed

theorem Kp.refl (f : Fut) : Kp f f := ⟨rfl, rfl⟩

theorem clean_spent {y : Sys} {s : Nat} {f : Fut} (h : y.spent f.job.scope = true) : cleanFut y s f = f := by
  unfold cleanFut
  refine if_neg fun e => ?_
  rw [← e.1, h] at e
  cases e.2

theorem Kp.clean {y : Sys} {s : Nat} {f f' : Fut} (h : Kp f f') (hs : y.spent f.job.scope = true) : Kp f (cleanFut y s f') := by
  rw [clean_spent (by rw [h.job]; exact hs)]
  exact h

theorem Kp.close {f : Fut} : Kp f { f with p := f.p.close } := by
  refine ⟨rfl, ?_⟩
  show f.p.close.freed = f.p.freed
  unfold Prom.close
  split <;> rfl

theorem Kp.getter {e : Option Exn} {f : Fut} : Kp f (getFut e f) := by
  refine ⟨?_, ?_⟩
  · unfold getFut
    repeat' split
    all_goals rfl
  · unfold getFut
    repeat' split
    all_goals first | rfl | exact Kp.close.freed

theorem syncStep_kp {own : Nat} {y : Sys} {i : Nat} {f : Fut} (h : y.futs i = some f) (hs : y.spent f.job.scope = true) :
    ∃ f', (syncStep own y).futs i = some f' ∧ Kp f f' := by
  have same : ∃ f', y.futs i = some f' ∧ Kp f f' := ⟨f, h, Kp.refl f⟩
  have cl : ∀ (g : Nat → Option Fut), (∃ f', g i = some f' ∧ Kp f f') → ∃ f', (g i).map (cleanFut y own) = some f' ∧ Kp f f' := by
    rintro g ⟨f', h1, h2⟩
    rw [h1]
    exact ⟨_, rfl, h2.clean hs⟩
  have st : ∀ i' f0 f1, y.futs i' = some f0 → Kp f0 f1 →
      ∃ f', (if i = i' then some f1 else y.futs i) = some f' ∧ Kp f f' := by
    intro i' f0 f1 h0 h1
    by_cases e : i = i'
    · subst e
      rw [h] at h0; cases h0
      rw [if_pos rfl]
      exact ⟨f1, rfl, h1⟩
    · rw [if_neg e]; exact same
  unfold syncStep
  dsimp only
  split
  case h_1 | h_2 | h_3 | h_4 => exact same
  case h_5 => split; (split <;> exact same); exact same
  case h_6 => split; (split <;> exact same); exact same
  case h_7 => split; (split <;> exact same); exact same
  case h_8 =>
    split
    · rename_i he
      exact st _ _ _ (entry_eq.mp he).2 ⟨rfl, rfl⟩
    · exact same
  case h_9 =>
    split
    · rename_i he
      have h0 := (entry_eq.mp he).2
      split
      · exact cl (fun k => if k = _ then _ else y.futs k) (st _ _ _ h0 Kp.close)
      · exact st _ _ _ h0 Kp.close
    · exact same
  case h_10 => exact cl _ same

theorem step_kp {cpus own : Nat} {y : Sys} {i : Nat} {f : Fut} (h : y.futs i = some f) (hs : y.spent f.job.scope = true) (a : Act) :
    ∃ f', (step cpus own y a).futs i = some f' ∧ Kp f f' := by
  cases a with
  | async k j =>
    simp only [Fu.step]
    cases hk : y.futs k with
    | some f' => exact ⟨f, h, Kp.refl f⟩
    | none =>
      have : i ≠ k := fun e => by subst e; rw [h] at hk; cases hk
      exact ⟨f, by show (if i = k then _ else _) = _; rw [if_neg this, h], Kp.refl f⟩
  | worker k =>
    simp only [Fu.step]
    cases hk : y.futs k with
    | none => exact ⟨f, h, Kp.refl f⟩
    | some f' =>
      dsimp only
      rw [workerStep_futs hk]
      by_cases e : i = k
      · subst e
        rw [h] at hk; cases hk
        obtain ⟨k1, _, _, _, _, k6, _⟩ := workerFut_keeps f
        exact ⟨workerFut f, if_pos rfl, ⟨k1, k6⟩⟩
      · exact ⟨f, (if_neg e).trans h, Kp.refl f⟩
  | get k s =>
    simp only [Fu.step]
    cases hk : y.futs k with
    | none => exact ⟨f, h, Kp.refl f⟩
    | some f' =>
      dsimp only
      split
      · by_cases e : i = k
        · subst e
          rw [h] at hk; cases hk
          exact ⟨{ f with g := .check, caller := s }, if_pos rfl, ⟨rfl, rfl⟩⟩
        · exact ⟨f, by show (if i = k then _ else _) = _; rw [if_neg e, h], Kp.refl f⟩
      · exact ⟨f, h, Kp.refl f⟩
  | getter k =>
    simp only [Fu.step]
    cases hk : y.futs k with
    | none => exact ⟨f, h, Kp.refl f⟩
    | some fk =>
      dsimp only
      rw [getStep_futs hk]
      by_cases e : i = k
      · subst e
        rw [h] at hk; cases hk
        rw [if_pos rfl]
        split
        · exact ⟨_, rfl, Kp.getter.clean hs⟩
        · exact ⟨_, rfl, Kp.getter⟩
      · rw [if_neg e, h]
        split
        · exact ⟨_, rfl, (Kp.refl f).clean hs⟩
        · exact ⟨_, rfl, Kp.refl f⟩
  | oops s e =>
    exact ⟨cleanFut y s f, by show (y.futs i).map (cleanFut y s) = _; rw [h]; rfl, (Kp.refl f).clean hs⟩
  | spawn k j =>
    simp only [Fu.step]
    cases hk : y.futs k with
    | some f' => exact ⟨f, h, Kp.refl f⟩
    | none =>
      have : i ≠ k := fun e => by subst e; rw [h] at hk; cases hk
      dsimp only
      split
      · exact ⟨f, by show (if i = k then _ else _) = _; rw [if_neg this, h], Kp.refl f⟩
      · exact ⟨f, h, Kp.refl f⟩
  | sync =>
    simp only [Fu.step]
    split <;> exact ⟨f, h, Kp.refl f⟩
  | syncer => exact syncStep_kp h hs

/-- What was released stays released. -/
theorem step_spent {cpus own : Nat} {y : Sys} {s : Nat} (h : y.spent s = true) (a : Act) : (step cpus own y a).spent s = true := by
  have cl : ∀ t, (if s = t then true else y.spent s) = true := fun t => by split <;> first | rfl | exact h
  cases a with
  | async k j => simp only [Fu.step]; split <;> exact h
  | worker k =>
    simp only [Fu.step]
    split
    · exact h
    · unfold workerStep
      dsimp only
      repeat' split
      all_goals exact h
  | get k t => simp only [Fu.step]; repeat' split
               all_goals exact h
  | getter k =>
    simp only [Fu.step]
    split
    · exact h
    · unfold getStep
      dsimp only
      repeat' split
      all_goals first | exact h | exact cl _
  | oops t e => exact cl t
  | spawn k j => simp only [Fu.step]; repeat' split
                 all_goals exact h
  | sync => simp only [Fu.step]; split <;> exact h
  | syncer =>
    simp only [Fu.step]
    unfold syncStep
    dsimp only
    repeat' split
    all_goals first | exact h | exact cl _

theorem run_spent {cpus own : Nat} {s : Nat} : ∀ (h : List Act) {y : Sys}, y.spent s = true → (run cpus own y h).spent s = true
  | [], _, h => h
  | a :: r, _, h => run_spent r (step_spent h a)

theorem oops_spent {cpus own : Nat} {s : Nat} {e : Exn} : ∀ (h : List Act) {y : Sys}, Act.oops s e ∈ h → (run cpus own y h).spent s = true
  | [], _, hm => nomatch hm
  | a :: r, y, hm => by
    rcases List.mem_cons.mp hm with rfl | hm
    · exact run_spent r (show (y.raise s e).spent s = true from if_pos rfl)
    · exact oops_spent r hm

/-- A promise that a released scope makes stays. -/
theorem late {cpus own : Nat} {s i : Nat} : ∀ (h : List Act) {y : Sys}, y.spent s = true →
    (∀ f, y.futs i = some f → f.job.scope = s → f.p.freed = false) →
    ∀ f, (run cpus own y h).futs i = some f → f.job.scope = s → f.p.freed = false
  | [], _, _, h0, f, hf, hj => h0 f hf hj
  | a :: r, y, hs, h0, f, hf, hj => by
    refine late r (step_spent hs a) (fun f' hf' hj' => ?_) f hf hj
    cases hi : y.futs i with
    | none =>
      obtain ⟨j, rfl, _⟩ := step_none hi hf'
      rfl
    | some f0 =>
      by_cases hjs : f0.job.scope = s
      · obtain ⟨f1, h1, h2⟩ := step_kp (cpus := cpus) (own := own) hi (by rw [hjs]; exact hs) a
        rw [h1] at hf'; cases hf'
        rw [h2.freed]; exact h0 _ hi hjs
      · exfalso
        obtain ⟨f1, h1, h2, _⟩ := step_fut (cpus := cpus) (own := own) hi a
        rw [h1] at hf'; cases hf'
        rw [h2] at hj'; exact hjs hj'

end Verif.Fu
