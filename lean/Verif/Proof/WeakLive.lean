import Verif.Proof.WeakRun

/-! No thread is ever stuck: there is always a message to read and time for a store. -/
namespace Verif.Wm

/-- A view does not go beyond the history. -/
def Within (ms : ALoc → List Msg) (v : View) : Prop := ∀ l, ∃ m ∈ ms l, v.ts l ≤ m.hi

structure Bd (s : Sys) : Prop where
  views : ∀ t, Within s.msgs (s.view t)
  msgs : ∀ l, ∀ m ∈ s.msgs l, Within s.msgs m.view

theorem Within.join {ms v w} (h : Within ms v) (k : Within ms w) : Within ms (v.join w) := by
  intro l
  obtain ⟨m, hm, q⟩ := h l
  obtain ⟨m', hm', q'⟩ := k l
  simp only [View.join]
  rcases Nat.le_total (v.ts l) (w.ts l) with e | e
  · rw [Nat.max_eq_right e]; exact ⟨m', hm', q'⟩
  · rw [Nat.max_eq_left e]; exact ⟨m, hm, q⟩

theorem Within.reach {ms v} {l : ALoc} {n : Nat} (h : Within ms v) (k : ∃ m ∈ ms l, n ≤ m.hi) : Within ms (v.reach l n) := by
  intro l'
  simp only [View.reach]
  by_cases e : l' = l
  · subst e
    rw [if_pos rfl]
    obtain ⟨m, hm, q⟩ := h l'
    obtain ⟨m', hm', q'⟩ := k
    rcases Nat.le_total (v.ts l') n with e | e
    · rw [Nat.max_eq_right e]; exact ⟨m', hm', q'⟩
    · rw [Nat.max_eq_left e]; exact ⟨m, hm, q⟩
  · rw [if_neg e]; exact h l'

theorem Within.more {ms : ALoc → List Msg} {v} {l : ALoc} {n : Msg} (h : Within ms v) : Within (fn ms l (n :: ms l)) v := by
  intro l'
  obtain ⟨m, hm, q⟩ := h l'
  by_cases e : l' = l
  · subst e; exact ⟨m, by rw [fn_eq]; exact List.mem_cons_of_mem _ hm, q⟩
  · exact ⟨m, by rw [fn_ne _ _ e]; exact hm, q⟩

theorem Within.new {ms : ALoc → List Msg} {l : ALoc} {n : Msg} : ∃ m ∈ fn ms l (n :: ms l) l, n.hi ≤ m.hi := ⟨n, by rw [fn_eq]; exact List.mem_cons_self, Nat.le_refl _⟩

theorem Bd.push {s s' : Sys} (B : Bd s) {t : Nat} {w : View} {l : ALoc} {n : Msg} (hv : s'.view = fn s.view t w) (hm : s'.msgs = fn s.msgs l (n :: s.msgs l))
    (h1 : Within s'.msgs w) (h2 : Within s'.msgs n.view) : Bd s' := by
  refine ⟨fun u => ?_, fun l' m q => ?_⟩
  · rw [hv]
    by_cases e : u = t
    · subst e; rw [fn_eq]; exact h1
    · rw [fn_ne _ _ e, hm]; exact (B.views u).more
  · have : m = n ∨ m ∈ s.msgs l' := by
      rw [hm] at q
      by_cases e : l' = l
      · subst e; rw [fn_eq] at q; exact List.mem_cons.1 q
      · rw [fn_ne _ _ e] at q; exact .inr q
    rcases this with rfl | q
    · exact h2
    · rw [hm]; exact (B.msgs l' m q).more

theorem Bd.look {s s' : Sys} (B : Bd s) {t : Nat} {w : View} (hv : s'.view = fn s.view t w) (hm : s'.msgs = s.msgs) (h1 : Within s.msgs w) : Bd s' := by
  refine ⟨fun u => ?_, fun l' m q => ?_⟩
  · rw [hv, hm]
    by_cases e : u = t
    · subst e; rw [fn_eq]; exact h1
    · rw [fn_ne _ _ e]; exact B.views u
  · rw [hm] at q ⊢; exact B.msgs l' m q

theorem Bd.rmw {s s' : Sys} (B : Bd s) {acq rel t l m v b} (hm : m ∈ s.msgs l) (h : s.rmw acq rel t l m v b = some s') : Bd s' := by
  unfold Sys.rmw at h
  split at h
  · cases h
    have old : Within s.msgs (if acq then (s.view t).join m.view else s.view t) := by
      split
      · exact (B.views t).join (B.msgs l m hm)
      · exact B.views t
    have hw : Within (fn s.msgs l (⟨m.hi, b, v, if rel then ((if acq then (s.view t).join m.view else s.view t).reach l b).join m.view else m.view⟩ :: s.msgs l))
        ((if acq then (s.view t).join m.view else s.view t).reach l b) := by
      exact Within.reach old.more Within.new
    refine B.push (t := t) (l := l) rfl rfl hw ?_
    cases rel with
    | true => exact hw.join (B.msgs l m hm).more
    | false => exact (B.msgs l m hm).more
  · cases h

theorem Bd.store {s s' : Sys} (B : Bd s) {rel t l v a b} (h : s.store rel t l v a b = some s') : Bd s' := by
  unfold Sys.store at h
  split at h
  · cases h
    have hw : Within (fn s.msgs l (⟨a, b, v, if rel then (s.view t).reach l b else .zero⟩ :: s.msgs l)) ((s.view t).reach l b) :=
      Within.reach (B.views t).more Within.new
    refine B.push (t := t) (l := l) rfl rfl hw ?_
    cases rel with
    | true => exact hw
    | false =>
      intro l'
      obtain ⟨m, q, _⟩ := hw l'
      exact ⟨m, q, Nat.zero_le _⟩
  · cases h

theorem Bd.load {s : Sys} (B : Bd s) {acq t l m} (hm : m ∈ s.msgs l) : Bd (s.load acq t l m) := by
  refine B.look (t := t) rfl rfl (Within.reach ?_ ⟨m, hm, Nat.le_refl _⟩)
  split
  · exact (B.views t).join (B.msgs l m hm)
  · exact B.views t

theorem Bd.access {s : Sys} (B : Bd s) {t d wr} : Bd (s.access t d wr) := B.look (t := t) rfl rfl (B.views t)

theorem Bd.same {s s' : Sys} (B : Bd s) (hv : s'.view = s.view) (hm : s'.msgs = s.msgs) : Bd s' := ⟨by rw [hv, hm]; exact B.views, by rw [hm]; exact B.msgs⟩

theorem Bd.exec {s s' : Sys} {t i a b : Nat} (B : Bd s) (h : exec s t i a b = some s') : Bd s' := by
  unfold Wm.exec at h
  split at h
  · cases h
  · next l k _ =>
    cases hp : s.pick t l i with
    | none => rw [hp] at h; cases h
    | some m =>
      rw [hp] at h
      simp only [Option.bind_eq_bind, Option.bind_some] at h
      cases hr : s.rmw true false t l m 1 b with
      | none => rw [hr] at h; cases h
      | some s1 =>
        rw [hr] at h
        have B1 := B.rmw (pick_mem hp).1 hr
        simp only [Option.bind_some] at h
        split at h <;> cases h <;> exact B1.same rfl rfl
  · next l k _ =>
    cases hp : s.pick t l i with
    | none => rw [hp] at h; cases h
    | some m =>
      rw [hp] at h
      simp only [Option.bind_eq_bind, Option.bind_some] at h
      have B1 := B.load (acq := false) (t := t) (pick_mem hp).1
      split at h <;> cases h <;> exact B1.same rfl rfl
  · next l k _ =>
    cases hr : s.store true t l 0 a b with
    | none => rw [hr] at h; cases h
    | some s1 =>
      rw [hr] at h
      simp only [Option.bind_eq_bind, Option.bind_some] at h
      cases h
      exact (B.store hr).same rfl rfl
  · next d v k _ => cases h; exact (B.access (t := t) (d := d) (wr := true)).same rfl rfl
  · next d k _ =>
    cases d with
    | data x => cases h; exact (B.access (t := t) (d := .data x) (wr := false)).same rfl rfl
    | result x => cases h; exact (B.access (t := t) (d := .result x) (wr := false)).same rfl rfl
  · next f k _ =>
    cases hp : s.pick t (.done f) i with
    | none => rw [hp] at h; cases h
    | some m =>
      rw [hp] at h
      simp only [Option.bind_eq_bind, Option.bind_some] at h
      cases hr : s.rmw true true t (.done f) m 1 b with
      | none => rw [hr] at h; cases h
      | some s1 =>
        rw [hr] at h
        simp only [Option.bind_some] at h
        cases h
        exact (B.rmw (pick_mem hp).1 hr).same rfl rfl
  · next f k _ =>
    cases hp : s.pick t (.done f) i with
    | none => rw [hp] at h; cases h
    | some m =>
      rw [hp] at h
      simp only [Option.bind_eq_bind, Option.bind_some] at h
      have B1 := B.load (acq := true) (t := t) (pick_mem hp).1
      split at h <;> cases h <;> exact B1.same rfl rfl
  · next f k _ =>
    cases hp : s.pick t (.done f) i with
    | none => rw [hp] at h; cases h
    | some m =>
      rw [hp] at h
      simp only [Option.bind_eq_bind, Option.bind_some] at h
      have B1 := B.load (acq := false) (t := t) (pick_mem hp).1
      split at h <;> cases h <;> exact B1.same rfl rfl

theorem Run.bd {P also s} (h : Run P also s) : Bd s := by
  induction h with
  | init => exact ⟨fun t l => ⟨m0, List.mem_cons_self, Nat.zero_le _⟩, fun l m hm l' => ⟨m0, List.mem_cons_self, by
      simp only [Wm.init, List.mem_singleton] at hm; subst hm; exact Nat.zero_le _⟩⟩
  | @call s s' t c _ ha hs ih =>
    unfold step at hs
    simp only at hs
    split at hs
    · cases hs; exact ih.same rfl rfl
    · cases hs
  | run _ hs ih => exact ih.exec hs

theorem pick_some {s : Sys} {t : Nat} {l : ALoc} {m : Msg} (hm : m ∈ s.msgs l) (h : (s.view t).ts l ≤ m.hi) : ∃ i, s.pick t l i = some m := by
  obtain ⟨i, q⟩ := List.getElem?_of_mem hm
  exact ⟨i, by unfold Sys.pick; rw [q]; exact if_pos h⟩

/-- There is a latest message. -/
theorem latest : ∀ (ms : List Msg), ms ≠ [] → ∃ m ∈ ms, ∀ k ∈ ms, k.hi ≤ m.hi := by
  intro ms
  induction ms with
  | nil => intro h; exact absurd rfl h
  | cons a ms ih =>
    intro _
    by_cases e : ms = []
    · subst e; exact ⟨a, List.mem_cons_self, fun k hk => by rw [List.mem_singleton.1 hk]; exact Nat.le_refl _⟩
    · obtain ⟨m, hm, q⟩ := ih e
      by_cases c : a.hi ≤ m.hi
      · exact ⟨m, List.mem_cons_of_mem _ hm, fun k hk => by
          rcases List.mem_cons.1 hk with rfl | hk
          · exact c
          · exact q k hk⟩
      · exact ⟨a, List.mem_cons_self, fun k hk => by
          rcases List.mem_cons.1 hk with rfl | hk
          · exact Nat.le_refl _
          · have := q k hk; omega⟩

theorem free_after {ms : List Msg} {m : Msg} (h : ∀ k ∈ ms, k.hi ≤ m.hi) : free ms m.hi (m.hi + 1) = true :=
  free_iff.2 ⟨by omega, fun k hk => .inl (h k hk)⟩

/-- The latest message may be read by everybody, and there is time after it. -/
theorem Bd.latest {s : Sys} (B : Bd s) (t : Nat) (l : ALoc) : ∃ m ∈ s.msgs l, (∀ k ∈ s.msgs l, k.hi ≤ m.hi) ∧ (s.view t).ts l ≤ m.hi := by
  obtain ⟨m', hm', q'⟩ := B.views t l
  obtain ⟨m, hm, q⟩ := Wm.latest (s.msgs l) (fun e => by rw [e] at hm'; cases hm')
  exact ⟨m, hm, q, Nat.le_trans q' (q m' hm')⟩

theorem Run.goes {P also s} (h : Run P also s) {t : Nat} (ht : s.todo t ≠ []) : ∃ i a b s', step s (.run t i a b) = some s' := by
  have B := h.bd
  simp only [step]
  cases hk : s.todo t with
  | nil => exact absurd hk ht
  | cons c k =>
    cases c with
    | lock l =>
      obtain ⟨m, hm, q1, q2⟩ := B.latest t l
      obtain ⟨i, hi⟩ := pick_some hm q2
      refine ⟨i, 0, m.hi + 1, ?_⟩
      simp only [exec, hk, hi, Option.bind_eq_bind, Option.bind_some, Sys.rmw, free_after q1, if_true]
      split <;> exact ⟨_, rfl⟩
    | spin l =>
      obtain ⟨m, hm, q1, q2⟩ := B.latest t l
      obtain ⟨i, hi⟩ := pick_some hm q2
      refine ⟨i, 0, 0, ?_⟩
      simp only [exec, hk, hi, Option.bind_eq_bind, Option.bind_some]
      split <;> exact ⟨_, rfl⟩
    | unlock l =>
      obtain ⟨m, hm, q1, q2⟩ := B.latest t l
      refine ⟨0, m.hi, m.hi + 1, ?_⟩
      have : (s.view t).ts l < m.hi + 1 := by omega
      simp only [exec, hk, Option.bind_eq_bind, Sys.store, free_after q1, this, decide_true, Bool.and_true, if_true, Option.bind_some]
      exact ⟨_, rfl⟩
    | write d v => exact ⟨0, 0, 0, _, by simp only [exec, hk]; rfl⟩
    | read d =>
      cases d with
      | data x => exact ⟨0, 0, 0, _, by simp only [exec, hk]; rfl⟩
      | result f => exact ⟨0, 0, 0, _, by simp only [exec, hk]; rfl⟩
    | setDone f =>
      obtain ⟨m, hm, q1, q2⟩ := B.latest t (.done f)
      obtain ⟨i, hi⟩ := pick_some hm q2
      refine ⟨i, 0, m.hi + 1, ?_⟩
      simp only [exec, hk, hi, Option.bind_eq_bind, Option.bind_some, Sys.rmw, free_after q1, if_true]
      exact ⟨_, rfl⟩
    | await f =>
      obtain ⟨m, hm, q1, q2⟩ := B.latest t (.done f)
      obtain ⟨i, hi⟩ := pick_some hm q2
      refine ⟨i, 0, 0, ?_⟩
      simp only [exec, hk, hi, Option.bind_eq_bind, Option.bind_some]
      split <;> exact ⟨_, rfl⟩
    | poll f =>
      obtain ⟨m, hm, q1, q2⟩ := B.latest t (.done f)
      obtain ⟨i, hi⟩ := pick_some hm q2
      refine ⟨i, 0, 0, ?_⟩
      simp only [exec, hk, hi, Option.bind_eq_bind, Option.bind_some]
      split <;> exact ⟨_, rfl⟩

/-- A lock nobody holds can be taken. -/
theorem Run.available {P also s} (h : Run P also s) {t : Nat} {L : ALoc} {k : List Instr} (hL : ∀ f, L ≠ .done f) (ht : s.todo t = .lock L :: k) (hn : ∀ u, L ∉ s.held u) :
    ∃ i b s', step s (.run t i 0 b) = some s' ∧ L ∈ s'.held t ∧ s'.todo t = k := by
  rcases h.inv.lk L hL with ⟨z, h1, h2, h3⟩ | ⟨u, h1, -⟩
  · obtain ⟨m', hm', q'⟩ := h.bd.views t L
    obtain ⟨i, hi⟩ := pick_some h1.mem (Nat.le_trans q' (h1.last m' hm'))
    refine ⟨i, z.hi + 1, ?_⟩
    simp only [step, exec, ht, hi, Option.bind_eq_bind, Option.bind_some, Sys.rmw, free_after h1.last, if_true, h1.zero]
    refine ⟨_, rfl, ?_, ?_⟩
    · simp only [fn_eq]; exact List.mem_cons_self
    · simp only [fn_eq]
  · exact absurd h1 (hn u)

theorem exec_todo {s s' : Sys} {t i a b : Nat} (h : exec s t i a b = some s') :
    ∃ c k, s.todo t = c :: k ∧ (∀ u, u ≠ t → s'.todo u = s.todo u) ∧ (∀ x ∈ k, x ∈ s'.todo t) ∧ s'.set = s.set ∧ ∀ l m, m ∈ s.msgs l → m ∈ s'.msgs l := by
  have more : ∀ (ms : ALoc → List Msg) l n l' m, m ∈ ms l' → m ∈ fn ms l (n :: ms l) l' := by
    intro ms l n l' m hm
    by_cases e : l' = l
    · subst e; rw [fn_eq]; exact List.mem_cons_of_mem _ hm
    · rw [fn_ne _ _ e]; exact hm
  cases hk : s.todo t with
  | nil => simp [Wm.exec, hk] at h
  | cons c k =>
    refine ⟨c, k, rfl, ?_⟩
    cases c with
    | lock l =>
      obtain ⟨m, hm, hf, ⟨h0, rfl⟩ | ⟨h0, rfl⟩⟩ := exec_lock hk h
      · exact ⟨fun u e => fn_ne _ _ e, fun x hx => by simpa only [fn_eq] using hx, rfl, more _ _ _⟩
      · exact ⟨fun u e => fn_ne _ _ e, fun x hx => by simp [fn_eq, hx], rfl, more _ _ _⟩
    | spin l =>
      obtain ⟨m, rfl | rfl⟩ := exec_spin hk h
      · exact ⟨fun u e => fn_ne _ _ e, fun x hx => by simpa only [fn_eq] using hx, rfl, fun _ _ h => h⟩
      · exact ⟨fun u e => fn_ne _ _ e, fun x hx => by simp [fn_eq, hx], rfl, fun _ _ h => h⟩
    | unlock l =>
      obtain ⟨h1, h2, rfl⟩ := exec_unlock hk h
      exact ⟨fun u e => fn_ne _ _ e, fun x hx => by simpa only [fn_eq] using hx, rfl, more _ _ _⟩
    | write d v =>
      simp only [exec, hk] at h
      cases h
      exact ⟨fun u e => fn_ne _ _ e, fun x hx => by simpa only [Sys.access, fn_eq] using hx, rfl, fun _ _ h => h⟩
    | read d =>
      simp only [exec, hk] at h
      cases d <;> cases h <;>
        exact ⟨fun u e => fn_ne _ _ e, fun x hx => by simpa only [Sys.access, fn_eq] using hx, rfl, fun _ _ h => h⟩
    | setDone f =>
      obtain ⟨m, hm, hf, rfl⟩ := exec_setDone hk h
      exact ⟨fun u e => fn_ne _ _ e, fun x hx => by simpa only [fn_eq] using hx, rfl, more _ _ _⟩
    | await f =>
      obtain ⟨m, hm, ⟨h0, rfl⟩ | rfl⟩ := exec_await hk h
      · exact ⟨fun u e => fn_ne _ _ e, fun x hx => by simpa only [fn_eq] using hx, rfl, fun _ _ h => h⟩
      · exact ⟨fun u e => fn_ne _ _ e, fun x hx => by simp [fn_eq, hx], rfl, fun _ _ h => h⟩
    | poll f =>
      obtain ⟨m, hm, ⟨h0, rfl⟩ | rfl⟩ := exec_poll hk h
      · exact ⟨fun u e => fn_ne _ _ e, fun x hx => by simpa only [fn_eq] using hx, rfl, fun _ _ h => h⟩
      · exact ⟨fun u e => fn_ne _ _ e, fun x hx => by simp [fn_eq, hx], rfl, fun _ _ h => h⟩

/-- A future that is set but not done is still being set. -/
theorem Run.pend {P also s} (h : Run P also s) : ∀ f, s.set f ≠ none → Undone s f → .setDone f ∈ s.todo (P.worker f) := by
  induction h with
  | init => intro f h; exact absurd rfl h
  | @call s s' t c hr ha hs ih =>
    intro f hset hu
    have ht : s.todo t = [] := by
      cases q : s.todo t with
      | nil => rfl
      | cons _ _ => simp [step, q] at hs
    simp only [step, ht] at hs
    cases hs
    by_cases e : s.set f = none
    · cases c with
      | set g v =>
        by_cases e' : f = g
        · subst e'
          simp only [← ha.1, fn_eq, Call.code]
          simp
        · simp only [fn_ne _ _ e'] at hset; exact absurd e hset
      | _ => exact absurd e hset
    · have := ih f e hu
      have e' : P.worker f ≠ t := fun q => by rw [q, ht] at this; cases this
      simp only [fn_ne _ _ e']; exact this
  | @run s s' t i a b hr hs ih =>
    intro f hset hu
    obtain ⟨c, k, h1, h2, h3, h4, h5⟩ := exec_todo hs
    have hu' : Undone s f := by
      rcases hr.inv.dn f with q | ⟨b, v, x, q, -⟩
      · exact q
      · have := h5 (.done f) ⟨1, b, 1, v⟩ (by rw [q]; exact List.mem_cons_self)
        rw [hu] at this
        simp [m0] at this
    have hm := ih f (by rw [← h4]; exact hset) hu'
    by_cases e : P.worker f = t
    · rw [e] at hm ⊢
      rw [h1] at hm
      rcases List.mem_cons.1 hm with q | q
      · exfalso
        subst q
        obtain ⟨m, hm', hf, rfl⟩ := exec_setDone h1 hs
        have : fn s.msgs (.done f) (_ :: s.msgs (.done f)) (.done f) = [m0] := hu
        rw [fn_eq, hu'] at this
        exact absurd (congrArg List.length this) (by simp)
      · exact h3 _ q
    · rw [h2 _ e]; exact hm

theorem Run.isDone {P also s} (h : Run P also s) {f v : Nat} (hs : s.set f = some v) (hd : s.todo (P.worker f) = []) : Done P s f := by
  rcases h.inv.dn f with q | q
  · have := h.pend f (by rw [hs]; intro e; cases e) q
    rw [hd] at this; cases this
  · exact q

/-- A future that was set can be fetched. -/
theorem Run.ready {P also s} (h : Run P also s) {t f v : Nat} {k : List Instr} (ht : s.todo t = .await f :: k) (hs : s.set f = some v) (hd : s.todo (P.worker f) = []) :
    ∃ i s', step s (.run t i 0 0) = some s' ∧ s'.todo t = k := by
  obtain ⟨b, w, x, q, -⟩ := h.isDone hs hd
  have hb : 1 < b := by
    have hw := h.inv.wf (.done f)
    exact hw.pos ⟨1, b, 1, w⟩ (by rw [q]; exact List.mem_cons_self)
  have hm : (⟨1, b, 1, w⟩ : Msg) ∈ s.msgs (.done f) := by rw [q]; exact List.mem_cons_self
  have hle : (s.view t).ts (.done f) ≤ b := by
    obtain ⟨m', hm', q'⟩ := h.bd.views t (.done f)
    rw [q] at hm'
    rcases List.mem_cons.1 hm' with rfl | hm'
    · exact q'
    · rw [List.mem_singleton.1 hm'] at q'
      simp only [m0] at q'
      omega
  obtain ⟨i, hi⟩ := pick_some (t := t) hm hle
  refine ⟨i, ?_⟩
  simp only [step, exec, ht, hi, Option.bind_eq_bind, Option.bind_some]
  exact ⟨_, rfl, fn_eq _ _ _⟩

/-- After `thrd_wait` the loop of `promise_get` ends at once. -/
theorem Run.after {P also s s'} (h : Run P also s) {t i a b f : Nat} {k : List Instr} (hs : f ∈ s.saw t) (ht : s.todo t = .await f :: k)
    (hx : step s (.run t i a b) = some s') : s'.todo t = k := by
  obtain ⟨-, b', w, q1, q2⟩ := h.inv.sw t f hs
  simp only [step, exec, ht] at hx
  cases hp : s.pick t (.done f) i with
  | none => rw [hp] at hx; cases hx
  | some m =>
    rw [hp] at hx
    obtain ⟨p1, p2⟩ := pick_mem hp
    have hb : 1 < b' := (h.inv.wf (.done f)).pos ⟨1, b', 1, w⟩ (by rw [q1]; exact List.mem_cons_self)
    rw [q1] at p1
    rcases List.mem_cons.1 p1 with p1 | p1
    · have h1 : ¬ m.val = 0 := by rw [p1]; exact Nat.one_ne_zero
      simp only [Option.bind_eq_bind, Option.bind_some, if_neg h1] at hx
      have hx := Option.some.inj hx
      rw [← hx]
      exact fn_eq _ _ _
    · rw [List.mem_singleton.1 p1] at p2
      simp only [m0] at p2
      omega

end Verif.Wm
