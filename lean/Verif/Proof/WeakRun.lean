import Verif.Proof.WeakMem

namespace Verif.Wm

theorem undone_fn {s s' : Sys} {f g : Nat} {ms : List Msg} {view todo held} (hu : Undone s f)
    (hs : s' = { s with view := view, msgs := fn s.msgs (.mutex g) ms, todo := todo, held := held } := by rfl) : Undone s' f := by
  subst hs
  show fn s.msgs (.mutex g) ms (.done f) = [m0]
  rw [fn_ne _ _ (fun e => by cases e)]
  exact hu

theorem exec_lock {s s' : Sys} {t i a b : Nat} {L : ALoc} {k : List Instr} (ht : s.todo t = .lock L :: k) (h : exec s t i a b = some s') :
    ∃ m ∈ s.msgs L, free (s.msgs L) m.hi b = true ∧
      ((m.val = 0 ∧ s' = { s with view := fn s.view t (((s.view t).join m.view).reach L b), msgs := fn s.msgs L (⟨m.hi, b, 1, m.view⟩ :: s.msgs L), todo := fn s.todo t k, held := fn s.held t (L :: s.held t) })
        ∨ (m.val ≠ 0 ∧ s' = { s with view := fn s.view t (((s.view t).join m.view).reach L b), msgs := fn s.msgs L (⟨m.hi, b, 1, m.view⟩ :: s.msgs L), todo := fn s.todo t (.spin L :: .lock L :: k) })) := by
  simp only [exec, ht] at h
  cases hp : s.pick t L i with
  | none => rw [hp] at h; cases h
  | some m =>
    rw [hp] at h
    refine ⟨m, (pick_mem hp).1, ?_⟩
    by_cases hf : free (s.msgs L) m.hi b = true
    · refine ⟨hf, ?_⟩
      simp only [Sys.rmw, hf, if_true, Option.bind_eq_bind, Option.bind_some, Bool.false_eq_true, if_false] at h
      by_cases h0 : m.val = 0
      · rw [if_pos h0] at h; cases h; exact .inl ⟨h0, rfl⟩
      · rw [if_neg h0] at h; cases h; exact .inr ⟨h0, rfl⟩
    · simp only [Sys.rmw, hf, Option.bind_eq_bind, Option.bind_some] at h; cases h

theorem exec_spin {s s' : Sys} {t i a b : Nat} {L : ALoc} {k : List Instr} (ht : s.todo t = .spin L :: k) (h : exec s t i a b = some s') :
    ∃ m, s' = { s.load false t L m with todo := fn s.todo t k } ∨ s' = { s.load false t L m with todo := fn s.todo t (.spin L :: k) } := by
  simp only [exec, ht] at h
  cases hp : s.pick t L i with
  | none => rw [hp] at h; cases h
  | some m =>
    rw [hp] at h
    simp only [Option.bind_eq_bind, Option.bind_some] at h
    refine ⟨m, ?_⟩
    by_cases h1 : m.val = 1
    · rw [if_pos h1] at h; cases h
      exact .inr (by rw [todo_self ht]; rfl)
    · rw [if_neg h1] at h; cases h; exact .inl rfl

theorem exec_unlock {s s' : Sys} {t i a b : Nat} {L : ALoc} {k : List Instr} (ht : s.todo t = .unlock L :: k) (h : exec s t i a b = some s') :
    free (s.msgs L) a b = true ∧ (s.view t).ts L < b ∧
      s' = { s with view := fn s.view t ((s.view t).reach L b), msgs := fn s.msgs L (⟨a, b, 0, (s.view t).reach L b⟩ :: s.msgs L), todo := fn s.todo t k, held := fn s.held t ((s.held t).filter (· ≠ L)) } := by
  simp only [exec, ht, Sys.store] at h
  by_cases hf : (free (s.msgs L) a b && decide ((s.view t).ts L < b)) = true
  · simp only [hf, if_true, Option.bind_eq_bind, Option.bind_some] at h
    cases h
    simp only [Bool.and_eq_true, decide_eq_true_eq] at hf
    exact ⟨hf.1, hf.2, rfl⟩
  · simp only [hf, Option.bind_eq_bind] at h; cases h

theorem exec_setDone {s s' : Sys} {t i a b f : Nat} {k : List Instr} (ht : s.todo t = .setDone f :: k) (h : exec s t i a b = some s') :
    ∃ m ∈ s.msgs (.done f), free (s.msgs (.done f)) m.hi b = true ∧
      s' = { s with view := fn s.view t (((s.view t).join m.view).reach (.done f) b), msgs := fn s.msgs (.done f) (⟨m.hi, b, 1, (((s.view t).join m.view).reach (.done f) b).join m.view⟩ :: s.msgs (.done f)), todo := fn s.todo t k } := by
  simp only [exec, ht] at h
  cases hp : s.pick t (.done f) i with
  | none => rw [hp] at h; cases h
  | some m =>
    rw [hp] at h
    refine ⟨m, (pick_mem hp).1, ?_⟩
    by_cases hf : free (s.msgs (.done f)) m.hi b = true
    · simp only [Sys.rmw, hf, if_true, Option.bind_eq_bind, Option.bind_some] at h
      cases h
      exact ⟨hf, rfl⟩
    · simp only [Sys.rmw, hf, Option.bind_eq_bind, Option.bind_some] at h; cases h

theorem exec_await {s s' : Sys} {t i a b f : Nat} {k : List Instr} (ht : s.todo t = .await f :: k) (h : exec s t i a b = some s') :
    ∃ m ∈ s.msgs (.done f), (m.val ≠ 0 ∧ s' = { s.load true t (.done f) m with todo := fn s.todo t k })
      ∨ s' = { s.load true t (.done f) m with todo := fn s.todo t (.await f :: k) } := by
  simp only [exec, ht] at h
  cases hp : s.pick t (.done f) i with
  | none => rw [hp] at h; cases h
  | some m =>
    rw [hp] at h
    simp only [Option.bind_eq_bind, Option.bind_some] at h
    refine ⟨m, (pick_mem hp).1, ?_⟩
    by_cases h1 : m.val = 0
    · rw [if_pos h1] at h; cases h
      exact .inr (by rw [todo_self ht]; rfl)
    · rw [if_neg h1] at h; cases h; exact .inl ⟨h1, rfl⟩

theorem exec_poll {s s' : Sys} {t i a b f : Nat} {k : List Instr} (ht : s.todo t = .poll f :: k) (h : exec s t i a b = some s') :
    ∃ m ∈ s.msgs (.done f), (m.val ≠ 0 ∧ s' = { s.load false t (.done f) m with todo := fn s.todo t k, saw := fn s.saw t (f :: s.saw t) })
      ∨ s' = { s.load false t (.done f) m with todo := fn s.todo t (.poll f :: k) } := by
  simp only [exec, ht] at h
  cases hp : s.pick t (.done f) i with
  | none => rw [hp] at h; cases h
  | some m =>
    rw [hp] at h
    simp only [Option.bind_eq_bind, Option.bind_some] at h
    refine ⟨m, (pick_mem hp).1, ?_⟩
    by_cases h1 : m.val = 0
    · rw [if_pos h1] at h; cases h
      exact .inr (by rw [todo_self ht]; rfl)
    · rw [if_neg h1] at h; cases h; exact .inl ⟨h1, rfl⟩

theorem Inv.exec {P also s s'} {t i a b : Nat} (I : Inv P also s) (h : exec s t i a b = some s') : Inv P also s' := by
  have sh := I.sh t
  generalize ht : s.todo t = k at sh
  cases sh with
  | nil => simp [Wm.exec, ht] at h
  | lock =>
    obtain ⟨m, hm, hf, ⟨h0, q⟩ | ⟨h0, q⟩⟩ := exec_lock ht h
    · exact I.take [] (fun _ e => by cases e) hm h0 rfl hf q .nil
    · exact I.miss _ (fun _ e => by cases e) hm h0 rfl hf q .spin
  | spin =>
    obtain ⟨m, rfl | rfl⟩ := exec_spin ht h
    · exact I.load false t _ m _ .lock
    · exact I.load false t _ m _ .spin
  | unlock hh =>
    obtain ⟨h1, h2, q⟩ := exec_unlock ht h
    exact I.leave [] (fun _ e => by cases e) hh rfl h1 h2 q .nil
  | @write x v hp =>
    simp only [Wm.exec, ht] at h
    cases h
    refine I.access [] hp (val := fn s.val (.data x) v) (fun d' q => ?_) rfl (fun _ => .nil)
    rcases q with q | q
    · exact fn_ne _ _ q
    · cases q
  | read hp =>
    simp only [Wm.exec, ht] at h
    cases h
    exact I.access [] hp (val := s.val) (fun _ _ => rfl) rfl (fun _ => .nil)
  | set1 hw hset hu =>
    obtain ⟨m, hm, hf, ⟨h0, q⟩ | ⟨h0, q⟩⟩ := exec_lock ht h
    · refine I.take _ (fun _ e => by cases e) hm h0 rfl hf q ?_
      subst q
      exact .set3 hw hset (undone_fn hu) (by simp [fn_eq])
    · refine I.miss _ (fun _ e => by cases e) hm h0 rfl hf q ?_
      subst q
      exact .set2 hw hset (undone_fn hu)
  | set2 hw hset hu =>
    obtain ⟨m, rfl | rfl⟩ := exec_spin ht h
    · exact I.load false t _ m _ (.set1 hw hset hu)
    · exact I.load false t _ m _ (.set2 hw hset hu)
  | @set3 f v hw hset hu hh =>
    simp only [Wm.exec, ht] at h
    cases h
    refine I.access _ (.own (.inl rfl) hw hu) (val := fn s.val (.result f) v) (fun d' q => ?_) rfl (fun _ => .set4 hw ?_ hu hh)
    · rcases q with q | q
      · exact fn_ne _ _ q
      · cases q
    · simp only [fn_eq]; exact hset
  | set4 hw hset hu hh =>
    obtain ⟨h1, h2, q⟩ := exec_unlock ht h
    refine I.leave _ (fun _ e => by cases e) hh rfl h1 h2 q ?_
    subst q
    exact .set5 hw hset (undone_fn hu)
  | set5 hw hset hu =>
    obtain ⟨m, hm, hf, q⟩ := exec_setDone ht h
    exact I.finish hw hset hu hm hf rfl q
  | @get1 f =>
    obtain ⟨m, hm, ⟨h0, rfl⟩ | rfl⟩ := exec_await ht h
    · obtain ⟨d1, d2, d3, d4, d5⟩ := done_read I hm h0
      refine I.load true t _ m _ (.get2 d1 ?_)
      refine KnowsW.mono (s := s) d5 ?_
      simp only [Sys.load, fn_eq]
      exact (Vle.joinR _ _).trans (.reach _ _ _)
    · exact I.load true t _ m _ .get1
  | @get2 f hd hk =>
    simp only [Wm.exec, ht] at h
    cases h
    have I' := I.access [] (.see (.inl rfl) hd (.inl hk)) (val := s.val) (fun _ _ => rfl) rfl (fun _ => .nil)
    obtain ⟨b, v, x, h1, h2, h3, h4⟩ := hd
    have hset : s.set f = some (s.val (.result f)) := by rw [h4]; exact h3
    have hd' : Done P { s.access t (.result f) false with val := s.val, todo := fn s.todo t [] } f := by
      rcases I'.dn f with q | q
      · have q : s.msgs (.done f) = [m0] := q
        rw [h1] at q; cases q
      · exact q
    refine I'.addGot hd' ?_ hset
    intro d hf e he hwr
    have he : e ∈ fn s.evs (.result f) (⟨t, (s.view t).vc t + 1, false⟩ :: s.evs (.result f)) d := he
    rcases evs_fn he with ⟨q, rfl⟩ | q
    · subst q; cases hwr
    · refine Nat.le_trans (hk d hf e q hwr) ?_
      simp only [Sys.access, fn_eq]
      by_cases e' : e.tid = t
      · rw [e', fn_eq]; omega
      · rw [fn_ne _ _ e']; exact Nat.le_refl _
  | @poll f =>
    obtain ⟨m, hm, ⟨h0, rfl⟩ | rfl⟩ := exec_poll ht h
    · obtain ⟨d1, d2, d3, d4, d5⟩ := done_read I hm h0
      have I' := I.load false t (.done f) m [] .nil
      have hd' : Done P { s.load false t (.done f) m with todo := fn s.todo t [] } f := d1
      have hm' : m = ⟨1, m.hi, 1, m.view⟩ := (show ∀ m : Msg, m.lo = 1 → m.val = 1 → m = ⟨1, m.hi, 1, m.view⟩ by rintro ⟨_, _, _, _⟩ rfl rfl; rfl) m d3 d4
      refine I'.addSaw (b := m.hi) (w := m.view) hd' (by rw [← hm']; exact d2) ?_
      simp only [Sys.load, fn_eq]
      exact reach_at _ _ _
    · exact I.load false t _ m _ .poll

theorem Inv.call {P also s s'} {t : Nat} {c : Call} (I : Inv P also s) (ha : P.allows also s t c) (h : step s (.call t c) = some s') : Inv P also s' := by
  have ht : s.todo t = [] := by
    cases q : s.todo t with
    | nil => rfl
    | cons _ _ => simp [step, q] at h
  simp only [step, ht] at h
  -- a call that only puts something to do
  have easy : ∀ k, Shape P also s t k → Inv P also { s with todo := fn s.todo t k } := by
    intro k sh
    refine ⟨I.wf, I.lk, fun u => ?_, I.dn, I.un, I.wk, I.gt, I.sw, I.rc⟩
    by_cases e : u = t
    · subst e
      simp only [fn_eq]
      exact sh.frame (fun _ h => h) (fun _ _ h => ⟨h, rfl, rfl⟩) (fun _ h => h) (fun _ _ h => h)
    · simp only [fn_ne _ _ e]
      exact (I.sh u).frame (fun _ h => h) (fun _ _ h => ⟨h, rfl, rfl⟩) (fun _ h => h) (fun _ _ h => h)
  cases c with
  | lock l => cases h; exact easy _ .lock
  | unlock l => cases h; exact easy _ (.unlock ha)
  | write x v =>
    cases h
    refine easy _ (.write ?_)
    simp only [Plan.allows] at ha
    cases hx : P.home x with
    | lock l => rw [hx] at ha; exact .lock hx ha
    | future f => rw [hx] at ha; exact .own (.inr ⟨x, rfl, hx⟩) ha.1 (I.un f ha.2)
  | read x =>
    cases h
    refine easy _ (.read ?_)
    simp only [Plan.allows] at ha
    cases hx : P.home x with
    | lock l => rw [hx] at ha; exact .lock hx ha
    | future f =>
      rw [hx] at ha
      rcases ha with ha | ⟨v, ha⟩ | ⟨ha, hb⟩
      · exact .own (.inr ⟨x, rfl, hx⟩) ha.1 (I.un f ha.2)
      · exact .see (.inr ⟨x, rfl, hx⟩) (I.gt t f v ha).1 (.inl (I.gt t f v ha).2.1)
      · exact .see (.inr ⟨x, rfl, hx⟩) (I.sw t f hb).1 (.inr ha)
  | set f v =>
    cases h
    obtain ⟨hw, hn⟩ := ha
    have hset : ∀ g, g ≠ f → fn s.set f (some v) g = s.set g := fun g e => fn_ne _ _ e
    have hdn : ∀ g, Done P s g → g ≠ f := by
      rintro g ⟨b, w, x, h1, h2, h3, h4⟩ rfl
      rw [hn] at h3; cases h3
    have hd : ∀ g, Done P s g → Done P { s with todo := fn s.todo t (Call.code (.set f v)), set := fn s.set f (some v) } g := by
      intro g h
      have e := hdn g h
      obtain ⟨b, w, x, h1, h2, h3, h4⟩ := h
      exact ⟨b, w, x, h1, h2, by rw [← h3]; exact hset g e, h4⟩
    refine ⟨I.wf, I.lk, fun u => ?_, fun g => (I.dn g).imp id (hd g), fun g q => ?_, I.wk, fun u g x q => ?_, fun u g q => ?_, I.rc⟩
    · by_cases e : u = t
      · subst e
        simp only [fn_eq]
        exact .set1 hw (fn_eq _ _ _) (I.un f hn)
      · simp only [fn_ne _ _ e]
        exact (I.sh u).frame (fun _ h => h) (fun g hg h => ⟨h, hset g (fun q => e (by rw [hg, hw, q])), rfl⟩) hd (fun _ _ h => h)
    · have e : g ≠ f := fun e => by subst e; simp only [fn_eq] at q; cases q
      exact I.un g (by rw [← hset g e]; exact q)
    · obtain ⟨q1, q2, q3⟩ := I.gt u g x q
      exact ⟨hd g q1, q2, by rw [← q3]; exact hset g (hdn g q1)⟩
    · obtain ⟨q1, q2⟩ := I.sw u g q
      exact ⟨hd g q1, q2⟩
  | get f => cases h; exact easy _ .get1
  | wait f => cases h; exact easy _ .poll

theorem Run.inv {P also s} (h : Run P also s) : Inv P also s := by
  induction h with
  | init => exact .init
  | call _ ha hs ih => exact ih.call ha hs
  | run _ hs ih => exact ih.exec hs

end Verif.Wm
