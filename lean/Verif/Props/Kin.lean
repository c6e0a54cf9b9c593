import Verif.Proof.KinEnd
/-!
# C100: threads that start threads, and the memory they leave to each other

English: whatever threads start threads with `thrd_async`, in whatever order all of them run, no thread uses memory of another one that was given back: not the promise its result goes to, not the
scope of the thread that started it.
-/
namespace Verif.Props
open Verif Verif.Kn Verif.Kn.Spec

/-- The full statement: in no history of any number of threads memory given back is used. -/
def C100_Full : Prop := ∀ (h : List Act) (s : Sys), acts h init = some s → s.bad = false

/-- False: the main thread starts a thread and releases its scope; the thread begins. -/
theorem C100_full_false : ¬ C100_Full := fun h => by
  have := h [.async 0, .release 0, .step 1 false] _ rfl
  exact absurd this (by decide)

/-- False without any release: a thread starts a thread, returns and ends; the second thread then reads the scope of the first one, which ended with it. -/
theorem C100_full_false_nested : ∃ (h : List Act) (s : Sys), (∀ t, .release t ∉ h) ∧ acts h init = some s ∧ s.bad = true :=
  ⟨[.async 0, .step 1 false, .async 1, .step 1 false, .step 1 false, .step 1 false, .step 1 false, .step 1 false, .step 1 false, .step 1 false, .step 2 false], _,
    by intro t; simp, rfl, by decide⟩

/-- What holds: if every thread makes sure, by looking, that each thread it started is over before it releases its scope, returns or throws, and looks at no future started before its last
release, no memory given back is used, in any order of the steps of all threads. -/
theorem C100_patient_partial (h : List Act) (s : Sys) (p : Patient h) (e : acts h init = some s) : s.bad = false := (patient_inv p s e).ok

/-- And then every thread that is in its function still has its promise, and the thread that started it is still there, in its own function. -/
theorem C100_patient_alive (h : List Act) (s : Sys) (p : Patient h) (e : acts h init = some s) (c : Nat) (h0 : 0 < c) (hc : s.pc c = .body) :
    s.prom c = true ∧ s.pc (s.parent c) = .body := by
  have i := patient_inv p s e
  have hn := i.started c (by rw [hc]; simp)
  refine i.early c h0 hn ?_
  cases hf : s.flag c with
  | false => rfl
  | true => have := i.flags c hf; rw [hc] at this; simp at this

/-- Such histories never get stuck: as long as the main thread has not ended, each can be continued in the same way until every thread is over, and then still no memory given back was used.  However
threads started each other, there is always an order in which all of them can wait for their own. -/
theorem C100_patient_ends (h : List Act) (s : Sys) (p : Patient h) (e : acts h init = some s) (h0 : s.pc 0 ≠ .over) :
    ∃ (h' : List Act) (s' : Sys), Patient (h ++ h') ∧ acts (h ++ h') init = some s' ∧ s'.next = s.next ∧ (∀ t, t < s'.next → s'.pc t = .over) ∧ s'.bad = false := by
  obtain ⟨h', s', g, n, -, o⟩ := Go.all ⟨p, e⟩ h0 s.next (Nat.le_refl _)
  exact ⟨h', s', g.pat, g.run, n, fun t ht => o t (by omega) (by rw [← n]; exact ht), g.inv.ok⟩

/-- What does not, always: thread `t` has not released its scope so far, and does, or ends, before the function of a thread `c` it started is over.  Then, when that function is over, or `t` looks,
memory given back was used, whatever all threads do. -/
theorem C100_early (h h' : List Act) (s s₁ s₂ : Sys) (a : Act) (c t : Nat) (e : acts h init = some s) (h0 : 0 < c) (hc : c < s.next) (hp : s.parent c = t) (hf : s.flag c = false)
    (hr : .release t ∉ h) (ha : a = .release t ∨ s.pc t = .destroy ∧ ∃ x, a = .step t x) (e1 : act s a = some s₁) (e2 : acts h' s₁ = some s₂)
    (hu : s₂.flag c = true ∨ .poll t c ∈ h') : s₂.bad = true := by
  have i := reach e
  have hcl : s₁.prom c = false ∧ s₁.flag c = false ∧ s₁.next = s.next := by
    have arm : s.pc t ≠ .exit → s.pc t ≠ .over → s.armed t = true := by
      intro k1 k2
      cases hm : s.armed t with
      | true => rfl
      | false =>
        rcases i.armed t hm with k | k | k
        · exact absurd k hr
        · exact absurd k k1
        · exact absurd k k2
    have cl : s.armed t = true → (s.clean t).prom c = false ∧ (s.clean t).flag c = false ∧ (s.clean t).next = s.next := by
      intro hm
      rw [clean_prom, clean_flag, clean_next, if_pos ⟨hm, i.all t hm c h0 hc hp⟩]
      exact ⟨rfl, hf, rfl⟩
    rcases ha with ha | ⟨hd, x, ha⟩
    · subst ha
      simp only [act] at e1
      split at e1
      · next hb =>
        simp only [Option.some.injEq] at e1
        rw [← e1]
        exact cl (arm (by rw [hb]; simp) (by rw [hb]; simp))
      · simp at e1
    · subst ha
      simp only [act, hd] at e1
      simp only [Option.some.injEq] at e1
      rw [← e1]
      exact cl (arm (by rw [hd]; simp) (by rw [hd]; simp))
  exact lost_used h' s₁ s₂ c t e2 (by omega) hcl.1 hcl.2.1 hu

example : ∃ (h h' : List Act) (s s₁ s₂ : Sys), acts h init = some s ∧ 2 < s.next ∧ s.parent 2 = 1 ∧ s.flag 2 = false ∧ .release 1 ∉ h ∧ act s (.release 1) = some s₁ ∧ acts h' s₁ = some s₂ ∧
    s₂.flag 2 = true :=
  ⟨[.async 0, .step 1 false, .async 1, .step 2 false], [.step 2 false, .step 2 false, .step 2 false, .step 2 false, .step 2 false], _, _, _, rfl, by decide, rfl, rfl, by simp, rfl, rfl, rfl⟩

/-- A thread that begins, throws or stores its result after the thread that started it has ended uses the storage of a thread that is no more, whether that thread had released its scope or not. -/
theorem C100_orphan (s s' : Sys) (c : Nat) (x : Bool) (hg : s.gone (s.parent c) = true) (h0 : c ≠ 0)
    (hp : s.pc c = .begin ∨ s.pc c = .store ∨ s.pc c = .body ∧ x = true) (e : act s (.step c x) = some s') : s'.bad = true := by
  rcases hp with hp | hp | ⟨hp, hx⟩
  · simp only [act, hp, Option.some.injEq] at e
    rw [← e]; simp [Sys.useScope, hg]
  · simp only [act, hp, Option.some.injEq] at e
    rw [← e]; simp [Sys.useScope, hg]
  · simp only [act, hp, hx, if_neg h0, if_true, Option.some.injEq] at e
    rw [← e]; simp [Sys.useScope, hg]

/-- Thread 1 released its scope, started thread 2 and ended: the promise of 2 is still there, the scope is not. -/
example : ∃ (h : List Act) (s : Sys), acts h init = some s ∧ s.gone (s.parent 2) = true ∧ s.pc 2 = .begin ∧ s.prom 2 = true ∧ s.bad = false :=
  ⟨[.async 0, .step 1 false, .release 1, .async 1, .step 1 false, .step 1 false, .step 1 false, .step 1 false, .step 1 false, .step 1 false, .step 1 false], _, rfl, rfl, rfl, rfl, rfl⟩

/-- What a thread starts after it released its scope is never given back: not by another release, and not at the thread's end. -/
theorem C100_leak (h h' : List Act) (s s₁ s₂ : Sys) (t : Nat) (e : acts h init = some s) (hr : .release t ∈ h) (e1 : act s (.async t) = some s₁) (e2 : acts h' s₁ = some s₂) :
    s₂.prom s.next = true := by
  have i := reach e
  obtain ⟨h₁, h₂, rfl⟩ := List.append_of_mem hr
  have hm : s.armed t = false := by
    rw [acts_append, Option.bind_eq_some_iff] at e
    obtain ⟨x, k1, k2⟩ := e
    simp only [acts] at k2
    split at k2
    · simp at k2
    · rw [Option.bind_eq_some_iff] at k2
      obtain ⟨y, k2, k3⟩ := k2
      have hy : y.armed t = false := by
        simp only [act] at k2
        split at k2 <;> simp at k2
        rw [← k2, clean_armed, if_pos rfl]
      clear k1 k2 e1 i hr
      induction h₂ generalizing y with
      | nil => simp only [acts, Option.some.injEq] at k3; rw [← k3]; exact hy
      | cons a l ih =>
        simp only [acts] at k3
        split at k3
        · simp at k3
        · rw [Option.bind_eq_some_iff] at k3
          obtain ⟨z, k4, k5⟩ := k3
          exact ih z k5 ((act_did k4).armed t hy)
  have i1 := reach_act i e1
  simp only [act] at e1
  split at e1
  · simp only [Option.some.injEq] at e1
    rw [← e1] at e2 i1
    exact kept h' _ _ s₂ s.next i1 e2 i.pos (Nat.lt_succ_self _) (by simp [fn]) (by simpa [fn] using hm)
  · simp at e1

example : ∃ (s s₁ s₂ : Sys), acts [.async 0, .step 1 false, .release 1] init = some s ∧ act s (.async 1) = some s₁ ∧
    acts ([.release 1] ++ List.replicate 7 (.step 1 false)) s₁ = some s₂ ∧ s₂.pc 1 = .over ∧ s₂.prom 2 = true := ⟨_, _, _, rfl, rfl, rfl, rfl, rfl⟩

/-! ## A patient history -/

private theorem Kn.pAsync {h : List Act} {s : Sys} {t : Nat} (p : Patient h) (e : acts h init = some s) : Patient (h ++ [.async t]) :=
  .snoc p e (fun _ k => by cases k) (fun _ _ k => by cases k) (fun _ _ k => by cases k)

private theorem Kn.pStep {h : List Act} {s : Sys} {t : Nat} {x : Bool} (p : Patient h) (e : acts h init = some s) (hn : s.pc t ≠ .body) : Patient (h ++ [.step t x]) :=
  .snoc p e (fun _ k => by cases k) (fun _ _ k hb => by cases k; exact absurd hb hn) (fun _ _ k => by cases k)

private theorem Kn.pPoll {h : List Act} {s : Sys} {t c : Nat} (p : Patient h) (e : acts h init = some s) (hn : .release t ∉ h) : Patient (h ++ [.poll t c]) :=
  .snoc p e (fun _ k => by cases k) (fun _ _ k => by cases k) (fun _ _ k => by
    cases k
    rintro ⟨h₁, h₂, s₁, k, -⟩
    exact hn (by rw [k]; simp))

private theorem Kn.pRelease {h : List Act} {s : Sys} {t : Nat} (p : Patient h) (e : acts h init = some s) (k : ∀ c, 0 < c → c < s.next → s.parent c = t → Knows h t c) : Patient (h ++ [.release t]) :=
  .snoc p e (fun _ q => by cases q; exact k) (fun _ _ k => by cases k) (fun _ _ k => by cases k)

private theorem Kn.pEnd {h : List Act} {s : Sys} {t : Nat} {x : Bool} (p : Patient h) (e : acts h init = some s) (k : ∀ c, 0 < c → c < s.next → s.parent c = t → Knows h t c) : Patient (h ++ [.step t x]) :=
  .snoc p e (fun _ k => by cases k) (fun _ _ q _ => by cases q; exact k) (fun _ _ k => by cases k)

private theorem Kn.looked {h₁ h₂ : List Act} {t c : Nat} (k : (acts h₁ init).map (fun s => s.flag c) = some true) : Knows (h₁ ++ .poll t c :: h₂) t c := by
  cases e : acts h₁ init with
  | none => rw [e] at k; cases k
  | some s => rw [e] at k; exact .looked e (by simpa using k)

/-- The main thread starts 1, which starts 2; 2 throws; 1 waits for 2 and returns; the main thread waits for 1, releases its scope. -/
private def Kn.tree : List Act :=
  [.async 0, .step 1 false, .async 1, .step 2 false, .step 2 true, .step 2 false, .step 2 false, .step 2 false, .step 2 false, .poll 1 2, .step 1 false, .step 1 false, .step 1 false,
    .step 1 false, .step 1 false, .poll 0 1, .release 0]

private theorem Kn.tree_patient : Patient Kn.tree := by
  have p3 := Kn.pAsync (t := 1) (Kn.pStep (t := 1) (x := false) (Kn.pAsync (t := 0) .nil rfl) rfl (by decide)) rfl
  have p4 := Kn.pStep (t := 2) (x := false) p3 rfl (by decide +kernel)
  have p5 := Kn.pEnd (t := 2) (x := true) p4 rfl (fun c h0 h1 h2 => by
    exfalso
    have h1' : c < 3 := h1
    have : c = 1 ∨ c = 2 := by clear h1 h2; omega
    rcases this with rfl | rfl <;> exact absurd h2 (by decide +kernel))
  have p6 := Kn.pStep (t := 2) (x := false) p5 rfl (by decide +kernel)
  have p7 := Kn.pStep (t := 2) (x := false) p6 rfl (by decide +kernel)
  have p8 := Kn.pStep (t := 2) (x := false) p7 rfl (by decide +kernel)
  have p9 := Kn.pStep (t := 2) (x := false) p8 rfl (by decide +kernel)
  have p10 := Kn.pPoll (t := 1) (c := 2) p9 rfl (by simp)
  have p11 := Kn.pEnd (t := 1) (x := false) p10 rfl (fun c h0 h1 h2 => by
    have h1' : c < 3 := h1
    have : c = 1 ∨ c = 2 := by clear h1 h2; omega
    rcases this with rfl | rfl
    · exact absurd h2 (by decide +kernel)
    · exact Kn.looked (h₁ := Kn.tree.take 9) (h₂ := []) (by decide +kernel))
  have p12 := Kn.pStep (t := 1) (x := false) p11 rfl (by decide +kernel)
  have p13 := Kn.pStep (t := 1) (x := false) p12 rfl (by decide +kernel)
  have p14 := Kn.pStep (t := 1) (x := false) p13 rfl (by decide +kernel)
  have p15 := Kn.pStep (t := 1) (x := false) p14 rfl (by decide +kernel)
  have p16 := Kn.pPoll (t := 0) (c := 1) p15 rfl (by simp)
  exact Kn.pRelease (t := 0) p16 rfl (fun c h0 h1 h2 => by
    have h1' : c < 3 := h1
    have : c = 1 ∨ c = 2 := by clear h1 h2; omega
    rcases this with rfl | rfl
    · exact Kn.looked (h₁ := Kn.tree.take 15) (h₂ := []) (by decide +kernel)
    · exact absurd h2 (by decide +kernel))

example : Patient Kn.tree ∧ ∃ s, acts Kn.tree init = some s ∧ s.flag 1 = true ∧ s.flag 2 = true ∧ s.prom 1 = false := ⟨Kn.tree_patient, _, rfl, rfl, rfl, rfl⟩

/-- `C100_patient_ends` for it: threads 1 and 2 have still to leave, and the main thread to end. -/
example : ∃ h' s', Patient (Kn.tree ++ h') ∧ acts (Kn.tree ++ h') init = some s' ∧ s'.next = 3 ∧ (∀ t, t < s'.next → s'.pc t = .over) ∧ s'.bad = false :=
  C100_patient_ends Kn.tree _ Kn.tree_patient rfl (by decide +kernel)

end Verif.Props
