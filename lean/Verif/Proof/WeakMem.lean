import Verif.Spec.WeakMem
import Verif.Proof.WeakLock

/-! Every run that keeps to the plan is free of races. -/
namespace Verif.Wm

def m0 : Msg := ⟨0, 1, 0, .zero⟩

theorem fn_eq {α β : Type} [DecidableEq α] (f : α → β) (a : α) (b : β) : fn f a b a = b := if_pos rfl

theorem fn_ne {α β : Type} [DecidableEq α] (f : α → β) {a x : α} (b : β) (h : x ≠ a) : fn f a b x = f x := if_neg h

structure Vle (v w : View) : Prop where
  ts : ∀ l, v.ts l ≤ w.ts l
  vc : ∀ t, v.vc t ≤ w.vc t

theorem Vle.refl (v : View) : Vle v v := ⟨fun _ => Nat.le_refl _, fun _ => Nat.le_refl _⟩

theorem Vle.trans {u v w : View} (h : Vle u v) (k : Vle v w) : Vle u w := ⟨fun l => Nat.le_trans (h.ts l) (k.ts l), fun t => Nat.le_trans (h.vc t) (k.vc t)⟩

theorem Vle.joinL (v w : View) : Vle v (v.join w) := ⟨fun _ => Nat.le_max_left _ _, fun _ => Nat.le_max_left _ _⟩

theorem Vle.joinR (v w : View) : Vle w (v.join w) := ⟨fun _ => Nat.le_max_right _ _, fun _ => Nat.le_max_right _ _⟩

theorem Vle.reach (v : View) (l : ALoc) (n : Nat) : Vle v (v.reach l n) := by
  refine ⟨fun k => ?_, fun _ => Nat.le_refl _⟩
  simp only [View.reach]
  split
  · next h => subst h; exact Nat.le_max_left _ _
  · exact Nat.le_refl _

theorem reach_at (v : View) (l : ALoc) (n : Nat) : n ≤ (v.reach l n).ts l := by
  simp only [View.reach, if_true]; exact Nat.le_max_right _ _

/-- What belongs to a future. -/
def Fut (P : Plan) (f : Nat) (d : DLoc) : Prop := d = .result f ∨ ∃ x, d = .data x ∧ P.home x = .future f

theorem Fut.same {P : Plan} {f g : Nat} {d : DLoc} (h : Fut P f d) (k : Fut P g d) : f = g := by
  rcases h with h | ⟨x, h, hx⟩ <;> rcases k with k | ⟨y, k, hy⟩ <;> subst h <;> cases k
  · rfl
  · rw [hx] at hy; cases hy; rfl

def KnowsA (P : Plan) (s : Sys) (f : Nat) (v : View) : Prop := ∀ d, Fut P f d → ∀ e ∈ s.evs d, e.idx ≤ v.vc e.tid

def KnowsW (P : Plan) (s : Sys) (f : Nat) (v : View) : Prop := ∀ d, Fut P f d → ∀ e ∈ s.evs d, e.wr = true → e.idx ≤ v.vc e.tid

def KnowsL (P : Plan) (s : Sys) (L : ALoc) (v : View) : Prop := ∀ x l, L = .user l → P.home x = .lock l → ∀ e ∈ s.evs (.data x), e.idx ≤ v.vc e.tid

theorem KnowsA.mono {P s f v w} (h : KnowsA P s f v) (k : Vle v w) : KnowsA P s f w := fun d hd e he => Nat.le_trans (h d hd e he) (k.vc _)
theorem KnowsW.mono {P s f v w} (h : KnowsW P s f v) (k : Vle v w) : KnowsW P s f w := fun d hd e he q => Nat.le_trans (h d hd e he q) (k.vc _)
theorem KnowsL.mono {P s f v w} (h : KnowsL P s f v) (k : Vle v w) : KnowsL P s f w := fun d l hd hl e he => Nat.le_trans (h d l hd hl e he) (k.vc _)
theorem KnowsA.weak {P s f v} (h : KnowsA P s f v) : KnowsW P s f v := fun d hd e he _ => h d hd e he

def Undone (s : Sys) (f : Nat) : Prop := s.msgs (.done f) = [m0]

def Done (P : Plan) (s : Sys) (f : Nat) : Prop :=
  ∃ b v x, s.msgs (.done f) = [⟨1, b, 1, v⟩, m0] ∧ KnowsW P s f v ∧ s.set f = some x ∧ s.val (.result f) = x

theorem Done.not {P s f} (h : Done P s f) : ¬ Undone s f := by
  intro k
  obtain ⟨b, v, x, h, -⟩ := h
  rw [Undone, h] at k
  cases k

def Lk (P : Plan) (s : Sys) (L : ALoc) : Prop :=
  (∃ z, FreeL (s.msgs L) z ∧ KnowsL P s L z.view ∧ ∀ t, L ∉ s.held t)
    ∨ ∃ t, L ∈ s.held t ∧ (∀ u, L ∈ s.held u → u = t) ∧ HeldL (s.msgs L) ((s.view t).ts L) ∧ KnowsL P s L (s.view t)

/-- Thread `t` may access `d`. -/
inductive Perm (P : Plan) (also : Bool) (s : Sys) (t : Nat) : DLoc → Bool → Prop
  | lock {x l wr} : P.home x = .lock l → .user l ∈ s.held t → Perm P also s t (.data x) wr
  | own {f d wr} : Fut P f d → t = P.worker f → Undone s f → Perm P also s t d wr
  | see {f d} : Fut P f d → Done P s f → KnowsW P s f (s.view t) ∨ also = true → Perm P also s t d false

/-- Where in its call a thread is. -/
inductive Shape (P : Plan) (also : Bool) (s : Sys) (t : Nat) : List Instr → Prop
  | nil : Shape P also s t []
  | lock {l} : Shape P also s t [.lock (.user l)]
  | spin {l} : Shape P also s t [.spin (.user l), .lock (.user l)]
  | unlock {l} : .user l ∈ s.held t → Shape P also s t [.unlock (.user l)]
  | write {x v} : Perm P also s t (.data x) true → Shape P also s t [.write (.data x) v]
  | read {x} : Perm P also s t (.data x) false → Shape P also s t [.read (.data x)]
  | set1 {f v} : t = P.worker f → s.set f = some v → Undone s f → Shape P also s t [.lock (.mutex f), .write (.result f) v, .unlock (.mutex f), .setDone f]
  | set2 {f v} : t = P.worker f → s.set f = some v → Undone s f → Shape P also s t [.spin (.mutex f), .lock (.mutex f), .write (.result f) v, .unlock (.mutex f), .setDone f]
  | set3 {f v} : t = P.worker f → s.set f = some v → Undone s f → .mutex f ∈ s.held t → Shape P also s t [.write (.result f) v, .unlock (.mutex f), .setDone f]
  | set4 {f} : t = P.worker f → s.set f = some (s.val (.result f)) → Undone s f → .mutex f ∈ s.held t → Shape P also s t [.unlock (.mutex f), .setDone f]
  | set5 {f} : t = P.worker f → s.set f = some (s.val (.result f)) → Undone s f → Shape P also s t [.setDone f]
  | get1 {f} : Shape P also s t [.await f, .read (.result f)]
  | get2 {f} : Done P s f → KnowsW P s f (s.view t) → Shape P also s t [.read (.result f)]
  | poll {f} : Shape P also s t [.poll f]

structure Inv (P : Plan) (also : Bool) (s : Sys) : Prop where
  wf : ∀ l, WF (s.msgs l)
  lk : ∀ L, (∀ f, L ≠ .done f) → Lk P s L
  sh : ∀ t, Shape P also s t (s.todo t)
  dn : ∀ f, Undone s f ∨ Done P s f
  un : ∀ f, s.set f = none → Undone s f
  wk : ∀ f, Undone s f → KnowsA P s f (s.view (P.worker f))
  gt : ∀ t f v, (f, v) ∈ s.got t → Done P s f ∧ KnowsW P s f (s.view t) ∧ s.set f = some v
  sw : ∀ t f, f ∈ s.saw t → Done P s f ∧ ∃ b w, s.msgs (.done f) = [⟨1, b, 1, w⟩, m0] ∧ b ≤ (s.view t).ts (.done f)
  rc : also = false → s.raced = false

theorem Perm.frame {P also s s' t d wr} (h : Perm P also s t d wr) (hh : ∀ L, L ∈ s.held t → L ∈ s'.held t) (hw : ∀ f, t = P.worker f → Undone s f → Undone s' f)
    (hd : ∀ f, Done P s f → Done P s' f) (hk : ∀ f, Done P s f → KnowsW P s f (s.view t) → KnowsW P s' f (s'.view t)) : Perm P also s' t d wr := by
  cases h with
  | lock a b => exact .lock a (hh _ b)
  | own a b c => exact .own a b (hw _ b c)
  | see a b c => exact .see a (hd _ b) (c.imp (hk _ b) id)

theorem Shape.frame {P also s s' t k} (h : Shape P also s t k) (hh : ∀ L, L ∈ s.held t → L ∈ s'.held t)
    (hw : ∀ f, t = P.worker f → Undone s f → Undone s' f ∧ s'.set f = s.set f ∧ s'.val (.result f) = s.val (.result f))
    (hd : ∀ f, Done P s f → Done P s' f) (hk : ∀ f, Done P s f → KnowsW P s f (s.view t) → KnowsW P s' f (s'.view t)) : Shape P also s' t k := by
  have hp : ∀ d wr, Perm P also s t d wr → Perm P also s' t d wr := fun d wr q => q.frame hh (fun f a b => (hw f a b).1) hd hk
  cases h with
  | nil => exact .nil
  | lock => exact .lock
  | spin => exact .spin
  | unlock a => exact .unlock (hh _ a)
  | write a => exact .write (hp _ _ a)
  | read a => exact .read (hp _ _ a)
  | set1 a b c => obtain ⟨q1, q2, q3⟩ := hw _ a c; exact .set1 a (q2 ▸ b) q1
  | set2 a b c => obtain ⟨q1, q2, q3⟩ := hw _ a c; exact .set2 a (q2 ▸ b) q1
  | set3 a b c d => obtain ⟨q1, q2, q3⟩ := hw _ a c; exact .set3 a (q2 ▸ b) q1 (hh _ d)
  | set4 a b c d => obtain ⟨q1, q2, q3⟩ := hw _ a c; exact .set4 a (by rw [q2, q3]; exact b) q1 (hh _ d)
  | set5 a b c => obtain ⟨q1, q2, q3⟩ := hw _ a c; exact .set5 a (by rw [q2, q3]; exact b) q1
  | get1 => exact .get1
  | get2 a b => exact .get2 (hd _ a) (hk _ a b)
  | poll => exact .poll

/-- A step that leaves ordinary memory and the flags of the futures alone. -/
theorem Inv.grow {P also s s'} (I : Inv P also s) (t : Nat) (evs : s'.evs = s.evs) (val : s'.val = s.val) (set : s'.set = s.set) (got : s'.got = s.got) (saw : s'.saw = s.saw)
    (raced : s'.raced = s.raced) (done : ∀ f, s'.msgs (.done f) = s.msgs (.done f)) (view : ∀ u, Vle (s.view u) (s'.view u))
    (held : ∀ u, u ≠ t → s'.held u = s.held u) (todo : ∀ u, u ≠ t → s'.todo u = s.todo u)
    (wf : ∀ l, WF (s'.msgs l)) (lk : ∀ L, (∀ f, L ≠ .done f) → Lk P s' L) (sh : Shape P also s' t (s'.todo t)) : Inv P also s' := by
  have hu : ∀ f, Undone s' f ↔ Undone s f := fun f => by rw [Undone, Undone, done f]
  have hkw : ∀ f v, KnowsW P s' f v ↔ KnowsW P s f v := fun f v => by rw [KnowsW, KnowsW, evs]
  have hka : ∀ f v, KnowsA P s' f v ↔ KnowsA P s f v := fun f v => by rw [KnowsA, KnowsA, evs]
  have hd : ∀ f, Done P s' f ↔ Done P s f := fun f => by simp only [Done, done f, hkw, set, val]
  refine ⟨wf, lk, fun u => ?_, fun f => ?_, fun f q => ?_, fun f q => ?_, fun u f v q => ?_, fun u f q => ?_, fun q => ?_⟩
  · by_cases e : u = t
    · subst e; exact sh
    · rw [todo u e]
      exact (I.sh u).frame (fun L h => by rw [held u e]; exact h) (fun f _ h => ⟨(hu f).2 h, by rw [set], by rw [val]⟩) (fun f h => (hd f).2 h)
        (fun f _ h => (hkw f _).2 (h.mono (view u)))
  · rw [hu, hd]; exact I.dn f
  · rw [hu]; exact I.un f (set ▸ q)
  · rw [hka]; exact (I.wk f ((hu f).1 q)).mono (view _)
  · rw [got] at q
    obtain ⟨q1, q2, q3⟩ := I.gt u f v q
    exact ⟨(hd f).2 q1, (hkw _ _).2 (q2.mono (view u)), by rw [set]; exact q3⟩
  · rw [saw] at q
    obtain ⟨q1, b, w, q2, q3⟩ := I.sw u f q
    exact ⟨(hd f).2 q1, b, w, by rw [done]; exact q2, Nat.le_trans q3 ((view u).ts _)⟩
  · rw [raced]; exact I.rc q

theorem Lk.frame {P s s'} {L : ALoc} (h : Lk P s L) (msgs : s'.msgs L = s.msgs L) (evs : s'.evs = s.evs) (held : ∀ u, L ∈ s'.held u ↔ L ∈ s.held u) (view : ∀ u, Vle (s.view u) (s'.view u)) : Lk P s' L := by
  have hk : ∀ v, KnowsL P s' L v ↔ KnowsL P s L v := fun v => by rw [KnowsL, KnowsL, evs]
  rcases h with ⟨z, h1, h2, h3⟩ | ⟨t, h1, h2, h3, h4⟩
  · exact .inl ⟨z, by rw [msgs]; exact h1, (hk _).2 h2, fun t q => h3 t ((held t).1 q)⟩
  · exact .inr ⟨t, (held t).2 h1, fun u q => h2 u ((held u).1 q), by rw [msgs]; exact h3.mono ((view t).ts L), (hk _).2 (h4.mono (view t))⟩

theorem view_fn {s : Sys} {t : Nat} {w : View} (h : Vle (s.view t) w) (u : Nat) : Vle (s.view u) (fn s.view t w u) := by
  by_cases e : u = t
  · subst e; rw [fn_eq]; exact h
  · rw [fn_ne _ _ e]; exact .refl _

/-- A load. -/
theorem Inv.load {P also s} (I : Inv P also s) (acq : Bool) (t : Nat) (l : ALoc) (m : Msg) (k : List Instr)
    (sh : Shape P also { s.load acq t l m with todo := fn s.todo t k } t k) : Inv P also { s.load acq t l m with todo := fn s.todo t k } := by
  have hv : Vle (s.view t) ((if acq then (s.view t).join m.view else s.view t).reach l m.hi) := by
    refine .trans ?_ (.reach _ _ _)
    split
    · exact .joinL _ _
    · exact .refl _
  refine I.grow t rfl rfl rfl rfl rfl rfl (fun _ => rfl) (view_fn hv) (fun _ _ => rfl) (fun u e => fn_ne _ _ e) I.wf (fun L hL => ?_) ?_
  · exact (I.lk L hL).frame rfl rfl (fun _ => Iff.rfl) (view_fn hv)
  · show Shape P also _ t (fn s.todo t k t)
    rw [fn_eq]; exact sh

theorem pick_mem {s : Sys} {t : Nat} {l : ALoc} {i : Nat} {m : Msg} (h : s.pick t l i = some m) : m ∈ s.msgs l ∧ (s.view t).ts l ≤ m.hi := by
  unfold Sys.pick at h
  split at h
  · cases h
  · next q =>
    split at h
    · next r => cases h; exact ⟨List.mem_of_getElem? q, r⟩
    · cases h

/-- A message more. -/
theorem wf_fn {s : Sys} {l : ALoc} {a b v : Nat} {w : View} (h : ∀ l, WF (s.msgs l)) (hf : free (s.msgs l) a b = true) (l' : ALoc) :
    WF (fn s.msgs l (⟨a, b, v, w⟩ :: s.msgs l) l') := by
  by_cases e : l' = l
  · subst e; rw [fn_eq]; exact (h l').cons hf
  · rw [fn_ne _ _ e]; exact h l'

/-- `test_and_set` that finds the flag clear. -/
theorem Inv.take {P also s} (I : Inv P also s) {t b : Nat} {L : ALoc} {m : Msg} (k : List Instr) (hL : ∀ f, L ≠ .done f) (hm : m ∈ s.msgs L) (h0 : m.val = 0) {w : View}
    (hw : w = ((s.view t).join m.view).reach L b) (hf : free (s.msgs L) m.hi b = true) {s' : Sys}
    (hs : s' = { s with view := fn s.view t w, msgs := fn s.msgs L (⟨m.hi, b, 1, m.view⟩ :: s.msgs L), todo := fn s.todo t k, held := fn s.held t (L :: s.held t) })
    (sh : Shape P also s' t k) : Inv P also s' := by
  have hv : Vle (s.view t) w := hw ▸ (Vle.joinL _ _).trans (.reach _ _ _)
  have hz : Vle m.view w := hw ▸ (Vle.joinR _ _).trans (.reach _ _ _)
  have hb : b ≤ w.ts L := hw ▸ reach_at _ _ _
  subst hs
  refine I.grow t rfl rfl rfl rfl rfl rfl (fun f => fn_ne _ _ (Ne.symm (hL f))) (view_fn hv) (fun _ e => fn_ne _ _ e) (fun u e => fn_ne _ _ e) (wf_fn I.wf hf) (fun L' hL' => ?_) ?_
  · by_cases e : L' = L
    · subst e
      rcases I.lk L' hL with ⟨z, h1, h2, h3⟩ | ⟨u, h1, h2, h3, h4⟩
      · obtain ⟨q1, q2⟩ := h1.rmw0 (w := m.view) (I.wf L') hm h0 hf
        subst q1
        refine .inr ⟨t, ?_, fun u hu => ?_, ?_, ?_⟩
        · simp only [fn_eq, List.mem_cons, true_or]
        · by_cases e : u = t
          · exact e
          · simp only [fn_ne _ _ e] at hu; exact absurd hu (h3 u)
        · simp only [fn_eq]; exact q2.mono hb
        · simp only [fn_eq]; exact KnowsL.mono h2 hz
      · exact absurd h0 (h3.rmw (w := m.view) (I.wf L') hm hf).1
    · refine (I.lk L' hL').frame (fn_ne _ _ e) rfl (fun u => ?_) (view_fn hv)
      by_cases q : u = t
      · subst q; simp only [fn_eq, List.mem_cons, e, false_or]
      · simp only [fn_ne _ _ q]
  · show Shape P also _ t (fn s.todo t k t)
    rw [fn_eq]; exact sh

/-- `test_and_set` that finds the flag set. -/
theorem Inv.miss {P also s} (I : Inv P also s) {t b : Nat} {L : ALoc} {m : Msg} (k : List Instr) (hL : ∀ f, L ≠ .done f) (hm : m ∈ s.msgs L) (h0 : m.val ≠ 0) {w : View}
    (hw : w = ((s.view t).join m.view).reach L b) (hf : free (s.msgs L) m.hi b = true) {s' : Sys}
    (hs : s' = { s with view := fn s.view t w, msgs := fn s.msgs L (⟨m.hi, b, 1, m.view⟩ :: s.msgs L), todo := fn s.todo t k })
    (sh : Shape P also s' t k) : Inv P also s' := by
  have hv : Vle (s.view t) w := hw ▸ (Vle.joinL _ _).trans (.reach _ _ _)
  subst hs
  refine I.grow t rfl rfl rfl rfl rfl rfl (fun f => fn_ne _ _ (Ne.symm (hL f))) (view_fn hv) (fun _ e => rfl) (fun u e => fn_ne _ _ e) (wf_fn I.wf hf) (fun L' hL' => ?_) ?_
  · by_cases e : L' = L
    · subst e
      rcases I.lk L' hL with ⟨z, h1, h2, h3⟩ | ⟨u, h1, h2, h3, h4⟩
      · exact .inl ⟨z, by simp only [fn_eq]; exact h1.rmw1 (I.wf L') hm h0 hf, h2, h3⟩
      · refine .inr ⟨u, h1, h2, ?_, KnowsL.mono h4 (view_fn hv u)⟩
        simp only [fn_eq]
        exact ((h3.rmw (w := m.view) (I.wf L') hm hf).2).mono ((view_fn hv u).ts L')
    · exact (I.lk L' hL').frame (fn_ne _ _ e) rfl (fun u => Iff.rfl) (view_fn hv)
  · show Shape P also _ t (fn s.todo t k t)
    rw [fn_eq]; exact sh

/-- `clear`. -/
theorem Inv.leave {P also s} (I : Inv P also s) {t a b : Nat} {L : ALoc} (k : List Instr) (hL : ∀ f, L ≠ .done f) (hh : L ∈ s.held t) {w : View}
    (hw : w = (s.view t).reach L b) (hf : free (s.msgs L) a b = true) (hb : (s.view t).ts L < b) {s' : Sys}
    (hs : s' = { s with view := fn s.view t w, msgs := fn s.msgs L (⟨a, b, 0, w⟩ :: s.msgs L), todo := fn s.todo t k, held := fn s.held t ((s.held t).filter (· ≠ L)) })
    (sh : Shape P also s' t k) : Inv P also s' := by
  have hv : Vle (s.view t) w := hw ▸ .reach _ _ _
  subst hs
  refine I.grow t rfl rfl rfl rfl rfl rfl (fun f => fn_ne _ _ (Ne.symm (hL f))) (view_fn hv) (fun _ e => fn_ne _ _ e) (fun u e => fn_ne _ _ e) (wf_fn I.wf hf) (fun L' hL' => ?_) ?_
  · by_cases e : L' = L
    · subst e
      rcases I.lk L' hL with ⟨z, h1, h2, h3⟩ | ⟨u, h1, h2, h3, h4⟩
      · exact absurd hh (h3 t)
      · obtain rfl := h2 t hh
        refine .inl ⟨⟨a, b, 0, w⟩, ?_, KnowsL.mono h4 hv, fun u q => ?_⟩
        · simp only [fn_eq]; exact h3.store (I.wf L') hb hf
        · by_cases e : u = t
          · subst e; simp [fn_eq] at q
          · simp only [fn_ne _ _ e] at q; exact e (h2 u q)
    · refine (I.lk L' hL').frame (fn_ne _ _ e) rfl (fun u => ?_) (view_fn hv)
      by_cases q : u = t
      · subst q; simp [fn_eq, e]
      · simp only [fn_ne _ _ q]
  · show Shape P also _ t (fn s.todo t k t)
    rw [fn_eq]; exact sh

theorem evs_fn {s : Sys} {d d' : DLoc} {e n : Ev} (h : e ∈ fn s.evs d (n :: s.evs d) d') : (e = n ∧ d' = d) ∨ e ∈ s.evs d' := by
  by_cases q : d' = d
  · subst q; rw [fn_eq] at h
    exact (List.mem_cons.1 h).imp (fun h => ⟨h, rfl⟩) id
  · rw [fn_ne _ _ q] at h; exact .inr h

/-- An access to ordinary memory by somebody who may. -/
theorem Inv.access {P also s} (I : Inv P also s) {t : Nat} {d : DLoc} {wr : Bool} (k : List Instr) (hp : Perm P also s t d wr) {val : DLoc → Nat}
    (hval : ∀ d', d' ≠ d ∨ wr = false → val d' = s.val d') {s' : Sys} (hs : s' = { s.access t d wr with val := val, todo := fn s.todo t k })
    (sh : Inv P also { s' with todo := fn s'.todo t [] } → Shape P also s' t k) : Inv P also s' := by
  have hv : Vle (s.view t) { s.view t with vc := fn (s.view t).vc t ((s.view t).vc t + 1) } := by
    refine ⟨fun _ => Nat.le_refl _, fun u => ?_⟩
    by_cases e : u = t
    · subst e; simp only [fn_eq]; omega
    · simp only [fn_ne _ _ e]; omega
  have hv' : ∀ u, Vle (s.view u) (s'.view u) := by subst hs; exact view_fn hv
  have hn : ∀ e, e = (⟨t, (s.view t).vc t + 1, wr⟩ : Ev) → e.idx ≤ (s'.view t).vc e.tid := by
    rintro e rfl; subst hs; simp only [Sys.access, fn_eq]; omega
  -- what others know of
  have hw : ∀ f v v', Done P s f → KnowsW P s f v → Vle v v' → KnowsW P s' f v' := by
    intro f v v' hd hk hvv d' hf e he hwr
    have he' : e ∈ fn s.evs d (⟨t, (s.view t).vc t + 1, wr⟩ :: s.evs d) d' := by subst hs; exact he
    rcases evs_fn he' with ⟨q, rfl⟩ | q
    · exfalso
      subst q
      cases hp with
      | lock a b => rcases hf with hf | ⟨x, hf, hx⟩ <;> cases hf; rw [a] at hx; cases hx
      | own a b c => obtain rfl := a.same hf; exact hd.not c
      | see a b c => cases hwr
    · exact Nat.le_trans (hk d' hf e q hwr) (hvv.vc _)
  have hd : ∀ f, Done P s f → Done P s' f := by
    intro f hf
    have hf' := hf
    obtain ⟨b, v, x, h1, h2, h3, h4⟩ := hf
    refine ⟨b, v, x, by subst hs; exact h1, hw f v v hf' h2 (.refl _), by subst hs; exact h3, ?_⟩
    have : val (.result f) = s.val (.result f) := by
      refine hval _ ?_
      by_cases q : DLoc.result f = d
      · right
        subst q
        cases hp with
        | own a b c => obtain rfl := a.same (Or.inl rfl); exact absurd c hf'.not
        | see a b c => rfl
      · exact .inl q
    subst hs
    exact this.trans h4
  have hu : ∀ f, Undone s f ↔ Undone s' f := fun f => by subst hs; exact Iff.rfl
  have base : ∀ k', Shape P also { s' with todo := fn s'.todo t k' } t k' → Inv P also { s' with todo := fn s'.todo t k' } := by
    intro k' sh'
    refine ⟨?_, fun L hL => ?_, fun u => ?_, fun f => ?_, fun f q => ?_, fun f q => ?_, fun u f v q => ?_, fun u f q => ?_, fun q => ?_⟩
    · subst hs; exact I.wf
    · -- the locks
      have hl : ∀ v v', (∀ x l, d = .data x → P.home x = .lock l → L = .user l → Vle (s'.view t) v') → KnowsL P s L v → Vle v v' → KnowsL P s' L v' := by
        intro v v' h1 hk hvv x l hLl hx e he
        have he' : e ∈ fn s.evs d (⟨t, (s.view t).vc t + 1, wr⟩ :: s.evs d) (.data x) := by subst hs; exact he
        rcases evs_fn he' with ⟨q, q'⟩ | q
        · exact Nat.le_trans (hn e q) ((h1 x l q'.symm hx hLl).vc _)
        · exact Nat.le_trans (hk x l hLl hx e q) (hvv.vc _)
      have who : ∀ x l, d = .data x → P.home x = .lock l → L = .user l → L ∈ s.held t := by
        rintro x l rfl hx rfl
        cases hp with
        | lock a b => rw [a] at hx; cases hx; exact b
        | own a b c => rcases a with a | ⟨y, a, hy⟩ <;> cases a; rw [hx] at hy; cases hy
        | see a b c => rcases a with a | ⟨y, a, hy⟩ <;> cases a; rw [hx] at hy; cases hy
      rcases I.lk L hL with ⟨z, h1, h2, h3⟩ | ⟨u, h1, h2, h3, h4⟩
      · refine .inl ⟨z, by subst hs; exact h1, hl z.view z.view (fun x l a b c => absurd (who x l a b c) (h3 t)) h2 (.refl _), by subst hs; exact h3⟩
      · refine .inr ⟨u, by subst hs; exact h1, by subst hs; exact h2, ?_, ?_⟩
        · have : HeldL (s.msgs L) ((s'.view u).ts L) := h3.mono ((hv' u).ts L)
          subst hs; exact this
        · refine hl (s.view u) (s'.view u) (fun x l a b c => ?_) h4 (hv' u)
          rw [h2 t (who x l a b c)]; exact .refl _
    · by_cases e : u = t
      · subst e
        show Shape P also _ u (fn s'.todo u k' u)
        rw [fn_eq]; exact sh'
      · have : fn s'.todo t k' u = s.todo u := by rw [fn_ne _ _ e]; subst hs; exact fn_ne _ _ e
        show Shape P also _ u (fn s'.todo t k' u)
        rw [this]
        refine (I.sh u).frame (fun L h => by subst hs; exact h) (fun f hf h => ⟨(hu f).1 h, by subst hs; rfl, ?_⟩) (fun f h => hd f h)
          (fun f h1 h2 => hw f _ _ h1 h2 (hv' u))
        have hvf : val (.result f) = s.val (.result f) := by
          refine hval _ ?_
          by_cases q : DLoc.result f = d
          · right
            subst q
            cases hp with
            | own a b c => obtain rfl := a.same (Or.inl rfl); exact absurd (hf.trans b.symm) e
            | see a b c => rfl
          · exact .inl q
        subst hs
        exact hvf
    · exact (I.dn f).imp (hu f).1 (hd f)
    · exact (hu f).1 (I.un f (by subst hs; exact q))
    · have hq : Undone s f := (hu f).2 q
      intro d' hf e he
      have he' : e ∈ fn s.evs d (⟨t, (s.view t).vc t + 1, wr⟩ :: s.evs d) d' := by subst hs; exact he
      rcases evs_fn he' with ⟨q1, rfl⟩ | q1
      · cases hp with
        | lock a b => rcases hf with hf | ⟨x, hf, hx⟩ <;> cases hf; rw [a] at hx; cases hx
        | own a b c => obtain rfl := a.same hf; subst b; exact hn e q1
        | see a b c => obtain rfl := a.same hf; exact absurd hq b.not
      · exact Nat.le_trans (I.wk f hq d' hf e q1) ((hv' _).vc _)
    · obtain ⟨q1, q2, q3⟩ := I.gt u f v (by subst hs; exact q)
      exact ⟨hd f q1, hw f _ _ q1 q2 (hv' u), by subst hs; exact q3⟩
    · obtain ⟨q1, b, w, q2, q3⟩ := I.sw u f (by subst hs; exact q)
      exact ⟨hd f q1, b, w, by subst hs; exact q2, Nat.le_trans q3 ((hv' u).ts _)⟩
    · have hr := I.rc q
      have : ((s.evs d).any fun e => (wr || e.wr) && decide ((s.view t).vc e.tid < e.idx)) = false := by
        rw [List.any_eq_false]
        intro e he
        simp only [Bool.and_eq_true, Bool.or_eq_true, decide_eq_true_eq, not_and, Nat.not_lt]
        intro hwr
        cases hp with
        | @lock x l _ a b =>
          rcases I.lk (.user l) (fun _ h => by cases h) with ⟨z, h1, h2, h3⟩ | ⟨u, h1, h2, h3, h4⟩
          · exact absurd b (h3 t)
          · rw [h2 t b]; exact h4 _ l rfl a e he
        | own a b c => subst b; exact I.wk _ c d a e he
        | see a b c =>
          rcases c with c | c
          · exact c d a e he (by simpa using hwr)
          · rw [q] at c; cases c
      subst hs
      show (s.raced || _) = false
      rw [hr, this]; rfl
  have e1 : s' = { s' with todo := fn s'.todo t k } := by
    have : fn s'.todo t k = s'.todo := by
      funext u
      by_cases e : u = t
      · subst e; rw [fn_eq]; subst hs; exact (fn_eq _ _ _).symm
      · exact fn_ne _ _ e
    rw [this]
  have key := base k (e1 ▸ sh (base [] .nil))
  exact e1 ▸ key

/-- The last step of `promise_set`. -/
theorem Inv.finish {P also s} (I : Inv P also s) {t f b : Nat} {m : Msg} (ht : t = P.worker f) (hset : s.set f = some (s.val (.result f))) (hud : Undone s f)
    (hm : m ∈ s.msgs (.done f)) (hf : free (s.msgs (.done f)) m.hi b = true) {w : View} (hw : w = ((s.view t).join m.view).reach (.done f) b) {s' : Sys}
    (hs : s' = { s with view := fn s.view t w, msgs := fn s.msgs (.done f) (⟨m.hi, b, 1, w.join m.view⟩ :: s.msgs (.done f)), todo := fn s.todo t [] }) : Inv P also s' := by
  have hv : Vle (s.view t) w := hw ▸ (Vle.joinL _ _).trans (.reach _ _ _)
  have hm0 : m = m0 := by rw [hud] at hm; simpa using hm
  have other : ∀ g, g ≠ f → s'.msgs (.done g) = s.msgs (.done g) := fun g e => by subst hs; exact fn_ne _ _ (fun h => e (by cases h; rfl))
  have here : s'.msgs (.done f) = [⟨1, b, 1, w.join m.view⟩, m0] := by subst hs; simp only [fn_eq]; rw [hud, hm0]; rfl
  have hdf : Done P s' f := by
    refine ⟨b, w.join m.view, _, here, ?_, by subst hs; exact hset, by subst hs; rfl⟩
    have : KnowsW P s f w := ((ht ▸ I.wk f hud : KnowsA P s f (s.view t)).mono hv).weak
    subst hs
    exact KnowsW.mono this (.joinL _ _)
  have hne : ∀ g, Done P s g → g ≠ f := fun g h e => h.not (e ▸ hud)
  have hdo : ∀ g, Done P s g → Done P s' g := by
    intro g h
    have e := hne g h
    obtain ⟨b', v, x, h1, h2, h3, h4⟩ := h
    exact ⟨b', v, x, by rw [other g e]; exact h1, by subst hs; exact h2, by subst hs; exact h3, by subst hs; exact h4⟩
  have hv' : ∀ u, Vle (s.view u) (s'.view u) := by subst hs; exact view_fn hv
  have hkw : ∀ g v v', KnowsW P s g v → Vle v v' → KnowsW P s' g v' := fun g v v' h k => by subst hs; exact KnowsW.mono h k
  refine ⟨by subst hs; exact wf_fn I.wf hf, fun L hL => ?_, fun u => ?_, fun g => ?_, fun g q => ?_, fun g q => ?_, fun u g v q => ?_, fun u g q => ?_, by subst hs; exact I.rc⟩
  · refine (I.lk L hL).frame ?_ (by subst hs; rfl) (fun u => by subst hs; exact Iff.rfl) hv'
    subst hs; exact fn_ne _ _ (hL f)
  · by_cases e : u = t
    · subst e
      have : s'.todo u = [] := by subst hs; exact fn_eq _ _ _
      rw [this]; exact .nil
    · have : s'.todo u = s.todo u := by subst hs; exact fn_ne _ _ e
      rw [this]
      refine (I.sh u).frame (fun L h => by subst hs; exact h) (fun g hg h => ⟨?_, by subst hs; rfl, by subst hs; rfl⟩) hdo (fun g _ h => hkw _ _ _ h (hv' u))
      have e' : g ≠ f := fun q => e (by rw [hg, ht, q])
      rw [Undone, other g e']; exact h
  · by_cases e : g = f
    · subst e; exact .inr hdf
    · exact (I.dn g).imp (fun h => by rw [Undone, other g e]; exact h) (hdo g)
  · have q' : s.set g = none := by subst hs; exact q
    have e : g ≠ f := fun e => by rw [e, hset] at q'; cases q'
    rw [Undone, other g e]; exact I.un g q'
  · have e : g ≠ f := fun e => hdf.not (e ▸ q)
    have := (I.wk g (by rw [Undone, other g e] at q; exact q)).mono (hv' _)
    subst hs; exact this
  · obtain ⟨q1, q2, q3⟩ := I.gt u g v (by subst hs; exact q)
    exact ⟨hdo g q1, hkw _ _ _ q2 (hv' u), by subst hs; exact q3⟩
  · obtain ⟨q1, b', w', q2, q3⟩ := I.sw u g (by subst hs; exact q)
    exact ⟨hdo g q1, b', w', by rw [other g (hne g q1)]; exact q2, Nat.le_trans q3 ((hv' u).ts _)⟩

theorem Inv.addGot {P also s} (I : Inv P also s) {t f v : Nat} (h1 : Done P s f) (h2 : KnowsW P s f (s.view t)) (h3 : s.set f = some v) :
    Inv P also { s with got := fn s.got t ((f, v) :: s.got t) } := by
  refine ⟨I.wf, I.lk, fun u => ?_, I.dn, I.un, I.wk, fun u g x q => ?_, I.sw, I.rc⟩
  · exact (I.sh u).frame (fun _ h => h) (fun _ _ h => ⟨h, rfl, rfl⟩) (fun _ h => h) (fun _ _ h => h)
  · by_cases e : u = t
    · subst e
      simp only [fn_eq, List.mem_cons, Prod.mk.injEq] at q
      rcases q with ⟨rfl, rfl⟩ | q
      · exact ⟨h1, h2, h3⟩
      · exact I.gt u g x q
    · simp only [fn_ne _ _ e] at q
      exact I.gt u g x q

theorem Inv.addSaw {P also s} (I : Inv P also s) {t f b : Nat} {w : View} (h1 : Done P s f) (h2 : s.msgs (.done f) = [⟨1, b, 1, w⟩, m0]) (h3 : b ≤ (s.view t).ts (.done f)) :
    Inv P also { s with saw := fn s.saw t (f :: s.saw t) } := by
  refine ⟨I.wf, I.lk, fun u => ?_, I.dn, I.un, I.wk, I.gt, fun u g q => ?_, I.rc⟩
  · exact (I.sh u).frame (fun _ h => h) (fun _ _ h => ⟨h, rfl, rfl⟩) (fun _ h => h) (fun _ _ h => h)
  · by_cases e : u = t
    · subst e
      simp only [fn_eq, List.mem_cons] at q
      rcases q with rfl | q
      · exact ⟨h1, b, w, h2, h3⟩
      · exact I.sw u g q
    · simp only [fn_ne _ _ e] at q
      exact I.sw u g q

theorem Inv.init {P also} : Inv P also init := by
  refine ⟨fun l => ⟨fun m hm => ?_, fun m hm m' hm' _ => ?_⟩, fun L hL => .inl ⟨m0, ⟨?_, rfl, ?_, ?_⟩, ?_, ?_⟩, fun t => .nil, fun f => .inl rfl, fun f _ => rfl, ?_, ?_, ?_, fun _ => rfl⟩
  · simp [Wm.init] at hm; subst hm; decide
  · simp [Wm.init] at hm hm'; rw [hm, hm']
  · simp [Wm.init, m0]
  · intro m hm; simp [Wm.init] at hm; subst hm; decide
  · intro m hm; simp [Wm.init] at hm; subst hm; intro _ h; exact absurd rfl h
  · intro x l _ _ e he; cases he
  · intro t h; cases h
  · intro f _ d _ e he; cases he
  · intro t f v h; cases h
  · intro t f h; cases h

/-- A thread that stays where it is. -/
theorem todo_self {s : Sys} {t : Nat} {k : List Instr} (h : s.todo t = k) : fn s.todo t k = s.todo := by
  funext u
  by_cases e : u = t
  · subst e; rw [fn_eq, h]
  · exact fn_ne _ _ e

theorem done_read {P also s} (I : Inv P also s) {f : Nat} {m : Msg} (hm : m ∈ s.msgs (.done f)) (h : m.val ≠ 0) :
    Done P s f ∧ s.msgs (.done f) = [m, m0] ∧ m.lo = 1 ∧ m.val = 1 ∧ KnowsW P s f m.view := by
  rcases I.dn f with q | q
  · rw [q] at hm
    obtain rfl : m = m0 := by simpa using hm
    exact absurd rfl h
  · have q' := q
    obtain ⟨b, v, x, h1, h2, h3, h4⟩ := q
    rw [h1] at hm
    rcases List.mem_cons.1 hm with rfl | hm
    · exact ⟨q', h1, rfl, rfl, h2⟩
    · obtain rfl : m = m0 := by simpa using hm
      exact absurd rfl h

end Verif.Wm
