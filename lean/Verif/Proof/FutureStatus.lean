import Verif.Proof.FutureEnd
/-! What `thrd_is_done` and `thrd_is_finish` say after a result was fetched. -/
namespace Verif.Fu

/-- The number of entries `thrd_sync` has closed. -/
def SPc.closed (n : Nat) : SPc → Nat
  | .wait k | .read k | .join k | .free k | .close k => k
  | .clean | .synced => n
  | _ => 0

def Pool.closed (q : Pool) : Nat := q.s.closed q.ids.length

theorem syncStep_closed (own : Nat) (y : Sys) :
    (syncStep own y).pool.s.closed y.pool.ids.length ≤ y.pool.s.closed y.pool.ids.length ∨ y.pool.s = .clean ∨
      ∃ k i f, y.pool.s = .close k ∧ y.entry k = some (i, f) ∧ ((syncStep own y).pool.s.closed y.pool.ids.length ≤ k ∨
        (syncStep own y).pool.s = y.pool.head (k + 1)) := by
  cases hs : y.pool.s with
  | idle | synced | threw | crashed => left; simp only [syncStep, hs]; exact Nat.le_refl _
  | clean => exact .inr (.inl rfl)
  | close k =>
    cases he : y.entry k with
    | none =>
      left; simp only [syncStep, hs, he]; exact Nat.le_refl _
    | some p =>
      refine .inr (.inr ⟨k, p.1, p.2, rfl, he, ?_⟩)
      simp only [syncStep, hs, he]
      cases hp : y.pending p.2 with
      | some e => left; exact Nat.zero_le _
      | none => right; rfl
  | wait k | join k | free k | read k =>
    left
    cases he : y.entry k with
    | none => simp only [syncStep, hs, he]; exact Nat.le_refl _
    | some p =>
      simp only [syncStep, hs, he]
      repeat' split
      all_goals first | exact Nat.le_refl _ | (simp only [Sys.touch, hs]; exact Nat.le_refl _) | exact Nat.zero_le _

structure XInv (y : Sys) : Prop where
  get : ∀ i f, y.futs i = some f → f.g.after = true → f.p.isOpen = false ∧ f.live = false
  sync : ∀ j, j < y.pool.closed → Entry y j (fun f => f.p.isOpen = false ∧ f.live = false)

theorem XInv.init : XInv init := ⟨fun i f h => (by cases h), fun j h => (by cases h)⟩

theorem getFut_shut {e : Option Exn} {f : Fut} (h : f.g = .close) : (getFut e f).p.isOpen = false ∧ (getFut e f).live = f.live := by
  unfold getFut
  rw [h]
  dsimp only
  split <;> exact ⟨close_shut _, rfl⟩

theorem step_entry {cpus own : Nat} {y : Sys} {a : Act} {j : Nat} (hk : ∀ i ∈ y.pool.ids, ∃ f, y.futs i = some f)
    (hi : (step cpus own y a).pool.ids = y.pool.ids)
    (h : Entry y j (fun f => f.p.isOpen = false ∧ f.live = false)) :
    Entry (step cpus own y a) j (fun f => f.p.isOpen = false ∧ f.live = false) := by
  intro i f' e h'
  rw [hi] at e
  obtain ⟨f, hf⟩ := hk i (List.mem_of_getElem? e)
  obtain ⟨f1, h1, h2, _⟩ := step_worse (cpus := cpus) (own := own) hf a
  rw [h'] at h1; cases h1
  have := h i f e hf
  exact ⟨h2.shut this.1, h2.live this.2⟩

theorem xinv_step {cpus own : Nat} {y : Sys} (P : PInv cpus own y) (U : UInv y) (X : XInv y) (a : Act) : XInv (step cpus own y a) := by
  have known : ∀ i ∈ y.pool.ids, ∃ f, y.futs i = some f := fun i hi => by
    obtain ⟨f, hf, _⟩ := P.known i hi; exact ⟨f, hf⟩
  constructor
  · intro i f' h' hg
    cases h : y.futs i with
    | none =>
      obtain ⟨j, rfl, _⟩ := step_none h h'
      cases hg
    | some f =>
      obtain ⟨f1, h1, _, _, h4, h5⟩ := step_fut (cpus := cpus) (own := own) h a
      rw [h'] at h1; cases h1
      obtain ⟨f1, h1, w1, w2⟩ := step_worse (cpus := cpus) (own := own) h a
      rw [h'] at h1; cases h1
      by_cases hi : f.g = .idle
      · rcases h5 hi with e | e <;> rw [e] at hg <;> cases hg
      · rw [h4 hi] at hg
        cases hb : isGetter i a with
        | false =>
          rw [hb] at hg
          have := X.get i f h hg
          exact ⟨w1.shut this.1, w1.live this.2⟩
        | true =>
          rw [hb] at hg
          have ha : a = .getter i := by
            cases a <;> simp [isGetter] at hb
            rw [hb]
          rcases getFut_after hg with e | e
          · have := X.get i f h e
            exact ⟨w1.shut this.1, w1.live this.2⟩
          · have := getFut_shut (e := y.pending f) e
            exact ⟨(w2 ha).shut this.1, (w2 ha).live (this.2.trans (U.close i f h e))⟩
  · intro j hj
    cases ha : isSyncer a with
    | false =>
      rcases pool_cases (cpus := cpus) (own := own) (y := y) ha with e | ⟨_, e⟩ | ⟨_, e⟩
      · rw [e] at hj
        exact step_entry known (by rw [e]) (X.sync j hj)
      · unfold Pool.closed at hj; rw [e] at hj; cases hj
      · exfalso
        rw [e] at hj
        change j < (y.pool.head 0).closed y.pool.ids.length at hj
        unfold Pool.head at hj
        by_cases hz : 0 < y.pool.ids.length
        · rw [if_pos hz] at hj; exact absurd hj (Nat.not_lt_zero _)
        · rw [if_neg hz] at hj; simp only [SPc.closed] at hj; omega
    | true =>
      have : a = .syncer := by cases a <;> first | rfl | cases ha
      subst this
      have ids : (step cpus own y .syncer).pool.ids = y.pool.ids := syncStep_ids own y
      by_cases hlt : j < y.pool.closed
      · exact step_entry known ids (X.sync j hlt)
      · -- the entry just closed
        intro i f' he h'
        rw [ids] at he
        have hlen : j < y.pool.ids.length := (List.getElem?_eq_some_iff.mp he).1
        unfold Pool.closed at hj hlt
        rw [ids] at hj
        change j < (syncStep own y).pool.s.closed _ at hj
        change (syncStep own y).futs i = some f' at h'
        rcases syncStep_closed own y with hle | hcl | ⟨k, i0, f0, hs, hen, hk⟩
        · omega
        · rw [hcl] at hlt; exact absurd hlen hlt
        · rw [hs] at hlt
          simp only [SPc.closed] at hlt
          have hjk : j = k := by
            rcases hk with hk | hk
            · omega
            · rw [hk] at hj
              unfold Pool.head at hj
              split at hj <;> simp only [SPc.closed] at hj <;> omega
          subst hjk
          obtain ⟨hi0, hf0⟩ := entry_eq.mp hen
          obtain rfl : i = i0 := Option.some.inj (he.symm.trans hi0)
          have hl := U.sclose j hs i f0 hi0 hf0
          have key : ∀ (g : Nat → Option Fut), g i = some { f0 with p := f0.p.close } → ∀ s, (g i).map (cleanFut y s) = some f' →
              f'.p.isOpen = false ∧ f'.live = false := by
            intro g hg s hc
            rw [hg] at hc
            cases hc
            have W := (Worse.refl { f0 with p := f0.p.close }).clean (y := y) (s := s)
            exact ⟨W.shut (close_shut _), W.live hl⟩
          simp only [syncStep, hs, hen] at h'
          cases hp : y.pending f0 with
          | some e =>
            simp only [hp] at h'
            exact key (fun m => if m = i then some { f0 with p := f0.p.close } else y.futs m) (if_pos rfl) own h'
          | none =>
            simp only [hp] at h'
            change (if i = i then some _ else y.futs i) = some f' at h'
            rw [if_pos rfl] at h'; cases h'
            exact ⟨close_shut _, hl⟩

theorem XInv.run {cpus own : Nat} (hc : 0 < cpus) (h : List Act) {y : Sys} (S : SInv cpus own y) (U : UInv y) (X : XInv y) : XInv (run cpus own y h) := by
  induction h generalizing y with
  | nil => exact X
  | cons a h ih => exact ih (S.step hc a) (uinv_step S.pool U a) (xinv_step S.pool U X a)

/-- A worker that has told stays so. -/
theorem run_told {cpus own : Nat} (h : List Act) {y : Sys} {i : Nat} {f : Fut} (hf : y.futs i = some f) (ht : f.w.told = true) :
    ∃ f', (run cpus own y h).futs i = some f' ∧ f'.w.told = true := by
  induction h generalizing y f with
  | nil => exact ⟨f, hf, ht⟩
  | cons a h ih =>
    obtain ⟨f1, h1, _, h3, _⟩ := step_fut (cpus := cpus) (own := own) hf a
    refine ih h1 ?_
    rw [h3]
    split
    · rw [workerFut_told ht]; rfl
    · exact ht

end Verif.Fu
