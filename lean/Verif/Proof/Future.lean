import Verif.Spec.Future
namespace Verif.Fu

/-! ## Stages -/

def WPc.stored : WPc → Bool
  | .unlock | .setDone | .leave | .exited => true
  | _ => false

def WPc.locked : WPc → Bool
  | .store | .unlock => true
  | _ => false

def WPc.told : WPc → Bool
  | .leave | .exited => true
  | _ => false

def GPc.pastWait : GPc → Bool
  | .read | .join | .free | .close | .fin | .returned _ | .threw _ | .crashed => true
  | _ => false

def GPc.pastRead : GPc → Bool
  | .join | .free | .close | .fin | .returned _ | .crashed => true
  | _ => false

def GPc.pastJoin : GPc → Bool
  | .free | .close | .fin | .returned _ | .threw _ | .crashed => true
  | _ => false

/-- `thrd_get` has not closed the promise. -/
def GPc.before : GPc → Bool
  | .idle | .check | .wait | .read | .join | .free | .close => true
  | _ => false

structure FInv (f : Fut) : Prop where
  result : f.p.result = if f.w.stored then f.job.out.block else none
  mutex : f.p.mutex = f.w.locked
  done : f.p.done = (f.w.told && f.p.isOpen)
  closed : f.p.isOpen = false → f.w = .exited
  throwing : (f.w = .noteErr ∨ f.w = .notePanic) → ∃ e, f.job.out = .throws e
  wait : f.g.pastWait = true → f.w.told = true
  join : f.g.pastJoin = true → f.w = .exited
  reg : f.g.pastRead = true → f.reg = f.job.out.block
  ret : ∀ v, f.g = .returned v → ∃ b, f.job.out.block = some b ∧ b.value = v
  crash : f.g = .crashed → f.job.out.block = none
  opened : f.g.before = true → f.g ≠ .idle → f.p.isOpen = true
  live : f.g.before = true → f.g ≠ .idle → f.g ≠ .close → f.live = true
  logic : f.g ≠ .logicError

theorem FInv.new (j : Job) : FInv (newFut j) := by
  constructor <;> simp [newFut, WPc.stored, WPc.locked, WPc.told, GPc.pastWait, GPc.pastJoin, GPc.pastRead, GPc.before]

/-- What the worker does to its future. -/
def workerFut (f : Fut) : Fut :=
  match f.w with
  | .clear => { f with w := .call }
  | .call => { f with w := match f.job.out with | .throws _ => .noteErr | _ => .test }
  | .noteErr => match f.job.out with | .throws _ => { f with w := .notePanic } | _ => f
  | .notePanic => match f.job.out with | .throws _ => { f with w := .test } | _ => f
  | .test => { f with w := if f.job.arg = .null then .crashed else .lock }
  | .lock => if f.p.mutex then f else { f with w := .store, p := { f.p with mutex := true } }
  | .store => { f with w := .unlock, p := { f.p with result := f.job.out.block.or f.p.result } }
  | .unlock => { f with w := .setDone, p := { f.p with mutex := false } }
  | .setDone => { f with w := .leave, p := { f.p with done := true } }
  | .leave => { f with w := .exited }
  | .exited | .crashed => f

theorem setFut_id {y : Sys} {i : Nat} {f : Fut} (h : y.futs i = some f) : (fun k => if k = i then some f else y.futs k) = y.futs := by
  funext k; by_cases hk : k = i
  · subst hk; rw [if_pos rfl, h]
  · rw [if_neg hk]

theorem workerStep_futs {y : Sys} {i : Nat} {f : Fut} (h : y.futs i = some f) :
    (workerStep y i f).futs = fun k => if k = i then some (workerFut f) else y.futs k := by
  have hid := (setFut_id h).symm
  obtain ⟨⟨s, arg, out⟩, w, ⟨o, d, m, r, fr⟩, live, g, reg, c⟩ := f
  cases w <;> cases out <;> cases m <;> first | rfl | exact hid

theorem workerStep_pool (y : Sys) (i : Nat) (f : Fut) : (workerStep y i f).pool = y.pool := by
  unfold workerStep
  cases f.w <;> dsimp only <;> first | rfl | (split <;> rfl)

theorem workerFut_keeps (f : Fut) : (workerFut f).job = f.job ∧ (workerFut f).g = f.g ∧ (workerFut f).reg = f.reg ∧ (workerFut f).live = f.live ∧
    (workerFut f).p.isOpen = f.p.isOpen ∧ (workerFut f).p.freed = f.p.freed ∧ (workerFut f).caller = f.caller := by
  obtain ⟨⟨s, arg, out⟩, w, ⟨o, d, m, r, fr⟩, live, g, reg, c⟩ := f
  cases w <;> cases out <;> cases m <;> exact ⟨rfl, rfl, rfl, rfl, rfl, rfl, rfl⟩

theorem workerFut_told {f : Fut} (h : f.w.told = true) : (workerFut f).w = .exited := by
  obtain ⟨⟨s, arg, out⟩, w, ⟨o, d, m, r, fr⟩, live, g, reg, c⟩ := f
  cases w <;> first | rfl | cases h

theorem workerFut_over {f : Fut} (h : f.w.over = true) : (workerFut f).w.over = true := by
  obtain ⟨⟨s, arg, out⟩, w, ⟨o, d, m, r, fr⟩, live, g, reg, c⟩ := f
  cases w <;> simp only [WPc.over] at h <;> cases out <;> cases m <;> cases arg <;> first | rfl | cases h

theorem workerFut_exited {f : Fut} (h : f.w = .exited) : workerFut f = f := by
  simp only [workerFut, h]

theorem FInv.worker {f : Fut} (I : FInv f) : FInv (workerFut f) := by
  obtain ⟨k1, k2, k3, k4, k5, k6, k7⟩ := workerFut_keeps f
  have I' := I
  obtain ⟨h1, h2, h3, h4, h5, h6, h7, h8, h9, h10, h11, h12, h13⟩ := I
  have ho : f.w ≠ .exited → f.p.isOpen = true := fun hne => by
    cases ho : f.p.isOpen with
    | true => rfl
    | false => exact absurd (h4 ho) hne
  refine ⟨?_, ?_, ?_, ?_, ?_, ?_, ?_, ?_, ?_, ?_, ?_, ?_, ?_⟩
  · rw [k1]
    clear h2 h3 h4 h6 h7 h8 h9 h10 h11 h12 h13 k1 k2 k3 k4 k5 k6 k7 I' ho
    obtain ⟨⟨s, arg, out⟩, w, ⟨o, d, m, r, fr⟩, live, g, reg, c⟩ := f
    simp only at h1
    subst h1
    cases w <;> cases out <;> cases m <;> cases arg <;> first | rfl
  · clear h3 h4 h6 h7 h8 h9 h10 h11 h12 h13 k1 k2 k3 k4 k5 k6 k7 I' ho
    obtain ⟨⟨s, arg, out⟩, w, ⟨o, d, m, r, fr⟩, live, g, reg, c⟩ := f
    simp only at h2
    subst h2
    cases w <;> cases out <;> cases arg <;> first | rfl
  · rw [k5]
    clear h4 h6 h7 h8 h9 h10 h11 h12 h13 k1 k2 k3 k4 k5 k6 k7 I'
    obtain ⟨⟨s, arg, out⟩, w, ⟨o, d, m, r, fr⟩, live, g, reg, c⟩ := f
    simp only at h2 h3 ho
    subst h2 h3
    cases w <;> cases out <;> cases arg <;> first | rfl | (simp [ho, workerFut, WPc.told])
  · rw [k5]
    intro h
    exact workerFut_told (by rw [h4 h]; rfl)
  · rw [k1]
    intro h
    clear h1 h3 h4 h6 h7 h8 h9 h10 h11 h12 h13 k1 k2 k3 k4 k5 k6 k7 I' ho
    obtain ⟨⟨s, arg, out⟩, w, ⟨o, d, m, r, fr⟩, live, g, reg, c⟩ := f
    simp only at h2
    subst h2
    cases out with
    | throws e => exact ⟨e, rfl⟩
    | _ => cases w <;> cases arg <;> simp [workerFut, WPc.locked] at h h5
  · rw [k2]; intro h; have := workerFut_told (h6 h); rw [this]; rfl
  · rw [k2]; intro h; exact workerFut_told (by rw [h7 h]; rfl)
  · rw [k1, k2, k3]; exact h8
  · rw [k1, k2]; exact h9
  · rw [k1, k2]; exact h10
  · rw [k2, k5]; exact h11
  · rw [k2, k4]; exact h12
  · rw [k2]; exact h13

/-- What the caller of `thrd_get` does to the future; `e` is what `promise_close` finds. -/
def getFut (e : Option Exn) (f : Fut) : Fut :=
  match f.g with
  | .check => { f with g := if f.live && f.p.isOpen then .wait else .logicError }
  | .wait => if f.p.done then { f with g := .read } else f
  | .read => { f with g := .join, reg := f.p.result }
  | .join => if f.w = .exited then { f with g := .free } else f
  | .free => { f with g := .close, live := false }
  | .close => match e with | some e => { f with g := .threw e, p := f.p.close } | none => { f with g := .fin, p := f.p.close }
  | .fin => match f.reg with | some b => { f with g := .returned b.value } | none => { f with g := .crashed }
  | _ => f

theorem FInv.getter {e : Option Exn} {f : Fut} (I : FInv f) : FInv (getFut e f) := by
  have I' := I
  obtain ⟨h1, h2, h3, h4, h5, h6, h7, h8, h9, h10, h11, h12, h13⟩ := I
  cases hg : f.g with
  | check =>
    have ho := h11 (by rw [hg]; rfl) (by rw [hg]; simp)
    have hl := h12 (by rw [hg]; rfl) (by rw [hg]; simp) (by rw [hg]; simp)
    have : getFut e f = { f with g := .wait } := by simp [getFut, hg, ho, hl]
    rw [this]
    exact ⟨h1, h2, h3, h4, h5, by simp [GPc.pastWait], by simp [GPc.pastJoin], by simp [GPc.pastRead], by simp, by simp, fun _ _ => ho, fun _ _ _ => hl,
      by simp⟩
  | wait =>
    have ho := h11 (by rw [hg]; rfl) (by rw [hg]; simp)
    have hl := h12 (by rw [hg]; rfl) (by rw [hg]; simp) (by rw [hg]; simp)
    cases hd : f.p.done with
    | false =>
      have : getFut e f = f := by simp [getFut, hg, hd]
      rw [this]; exact I'
    | true =>
      have : getFut e f = { f with g := .read } := by simp [getFut, hg, hd]
      rw [this]
      refine ⟨h1, h2, h3, h4, h5, fun _ => ?_, by simp [GPc.pastJoin], by simp [GPc.pastRead], by simp, by simp, fun _ _ => ho, fun _ _ _ => hl,
        by simp⟩
      rw [hd] at h3
      exact (Bool.and_eq_true _ _ ▸ h3.symm).1
  | read =>
    have ho := h11 (by rw [hg]; rfl) (by rw [hg]; simp)
    have hl := h12 (by rw [hg]; rfl) (by rw [hg]; simp) (by rw [hg]; simp)
    have hw := h6 (by rw [hg]; rfl)
    have : getFut e f = { f with g := .join, reg := f.p.result } := by simp [getFut, hg]
    rw [this]
    refine ⟨h1, h2, h3, h4, h5, fun _ => hw, by simp [GPc.pastJoin], fun _ => ?_, by simp, by simp, fun _ _ => ho, fun _ _ _ => hl, by simp⟩
    rw [h1]
    have : f.w.stored = true := by revert hw; cases f.w <;> simp [WPc.told, WPc.stored]
    rw [if_pos this]
  | join =>
    have ho := h11 (by rw [hg]; rfl) (by rw [hg]; simp)
    have hl := h12 (by rw [hg]; rfl) (by rw [hg]; simp) (by rw [hg]; simp)
    by_cases hw : f.w = .exited
    · have : getFut e f = { f with g := .free } := by simp [getFut, hg, hw]
      rw [this]
      exact ⟨h1, h2, h3, h4, h5, fun _ => h6 (by rw [hg]; rfl), fun _ => hw, fun _ => h8 (by rw [hg]; rfl), by simp, by simp, fun _ _ => ho,
        fun _ _ _ => hl, by simp⟩
    · have : getFut e f = f := by simp [getFut, hg, hw]
      rw [this]; exact I'
  | free =>
    have ho := h11 (by rw [hg]; rfl) (by rw [hg]; simp)
    have hw := h7 (by rw [hg]; rfl)
    have : getFut e f = { f with g := .close, live := false } := by simp [getFut, hg]
    rw [this]
    exact ⟨h1, h2, h3, h4, h5, fun _ => h6 (by rw [hg]; rfl), fun _ => hw, fun _ => h8 (by rw [hg]; rfl), by simp, by simp, fun _ _ => ho,
      by simp, by simp⟩
  | close =>
    have ho := h11 (by rw [hg]; rfl) (by rw [hg]; simp)
    have hw := h7 (by rw [hg]; rfl)
    have hc : f.p.close = { f.p with isOpen := false, mutex := false, done := false } := by simp [Prom.close, ho]
    cases e with
    | some e =>
      have : getFut (some e) f = { f with g := .threw e, p := f.p.close } := by simp [getFut, hg]
      rw [this, hc]
      exact ⟨h1, by simp [hw, WPc.locked], by simp, fun _ => hw, h5, fun _ => h6 (by rw [hg]; rfl), fun _ => hw, by simp [GPc.pastRead], by simp, by simp,
        by simp [GPc.before], by simp [GPc.before], by simp⟩
    | none =>
      have : getFut none f = { f with g := .fin, p := f.p.close } := by simp [getFut, hg]
      rw [this, hc]
      exact ⟨h1, by simp [hw, WPc.locked], by simp, fun _ => hw, h5, fun _ => h6 (by rw [hg]; rfl), fun _ => hw, fun _ => h8 (by rw [hg]; rfl), by simp, by simp,
        by simp [GPc.before], by simp [GPc.before], by simp⟩
  | fin =>
    have hr := h8 (by rw [hg]; rfl)
    have hw := h7 (by rw [hg]; rfl)
    cases hreg : f.reg with
    | some b =>
      have : getFut e f = { f with g := .returned b.value } := by simp [getFut, hg, hreg]
      rw [this]
      refine ⟨h1, h2, h3, h4, h5, fun _ => h6 (by rw [hg]; rfl), fun _ => hw, fun _ => hr, fun v hv => ?_, by simp,
        by simp [GPc.before], by simp [GPc.before], by simp⟩
      simp only [GPc.returned.injEq] at hv
      exact ⟨b, by rw [← hr, hreg], hv⟩
    | none =>
      have : getFut e f = { f with g := .crashed } := by simp [getFut, hg, hreg]
      rw [this]
      exact ⟨h1, h2, h3, h4, h5, fun _ => h6 (by rw [hg]; rfl), fun _ => hw, fun _ => hr, by simp, fun _ => by rw [← hr, hreg],
        by simp [GPc.before], by simp [GPc.before], by simp⟩
  | idle | returned | threw | logicError | crashed =>
    have : getFut e f = f := by simp [getFut, hg]
    rw [this]; exact I'

/-- The promise is released with its scope. -/
def cleanFut (y : Sys) (s : Nat) (f : Fut) : Fut := if f.job.scope = s ∧ y.spent s = false then { f with p := { f.p with freed := true } } else f

theorem FInv.clean {s : Nat} {f : Fut} (I : FInv f) : FInv (cleanFut y s f) := by
  unfold cleanFut
  split
  · obtain ⟨h1, h2, h3, h4, h5, h6, h7, h8, h9, h10, h11, h12, h13⟩ := I
    exact ⟨h1, h2, h3, h4, h5, h6, h7, h8, h9, h10, h11, h12, h13⟩
  · exact I

theorem raise_futs (y : Sys) (s : Nat) (e : Exn) : (y.raise s e).futs = fun k => (y.futs k).map (cleanFut y s) := rfl

/-- What a call of `thrd_get` leaves of the others. -/
theorem getStep_futs {y : Sys} {i : Nat} {f : Fut} (h : y.futs i = some f) (k : Nat) :
    (getStep y i f).futs k = (if k = i then some (getFut (y.pending f) f) else y.futs k).map
      (if f.g = .close ∧ (y.pending f).isSome then cleanFut y f.caller else id) := by
  have hid := setFut_id h
  cases hg : f.g with
  | close =>
    cases hp : y.pending f with
    | some e =>
      simp only [getStep, hg, hp, getFut, raise_futs, Option.isSome_some, and_self, if_true]
      rfl
    | none =>
      simp only [getStep, hg, hp, getFut, Option.isSome_none, Bool.false_eq_true, and_false, if_false, Option.map_id_fun, id]
      rfl
  | wait =>
    cases hd : f.p.done <;> simp [getStep, getFut, hg, hd, Sys.setFut, Sys.touch]
    exact fun hk => hk ▸ h
  | join =>
    by_cases hd : f.w = .exited <;> simp [getStep, getFut, hg, hd, Sys.setFut]
    exact fun hk => hk ▸ h
  | fin =>
    cases hr : f.reg <;> simp [getStep, getFut, hg, hr, Sys.setFut]
  | idle | returned | threw | logicError | crashed =>
    simp [getStep, getFut, hg]
    exact fun hk => hk ▸ h
  | check | read | free => simp [getStep, getFut, hg, Sys.setFut, Sys.touch]

theorem getStep_pool (y : Sys) (i : Nat) (f : Fut) : (getStep y i f).pool = y.pool := by
  unfold getStep
  cases hg : f.g <;> dsimp only <;> first | rfl | (split <;> rfl)

/-! ## The pool -/

theorem told_stored {w : WPc} (h : w.told = true) : w.stored = true := by
  cases w <;> first | rfl | cases h

def Filled (y : Sys) (k : Nat) : Prop :=
  ∀ j, j < k → ∀ i f, y.pool.ids[j]? = some i → y.futs i = some f →
    ∃ b, f.job.out.block = some b ∧ y.pool.slots[j]? = some ⟨true, some b.got⟩

def Fresh (y : Sys) (k : Nat) : Prop :=
  ∀ j, k ≤ j → ∀ i f, y.pool.ids[j]? = some i → y.futs i = some f → f.p.isOpen = true ∧ f.live = true

def Entry (y : Sys) (k : Nat) (P : Fut → Prop) : Prop := ∀ i f, y.pool.ids[k]? = some i → y.futs i = some f → P f

def Phase (y : Sys) : Prop :=
  match y.pool.s with
  | .idle => Fresh y 0
  | .wait k => k < y.pool.ids.length ∧ Filled y k ∧ Fresh y k
  | .read k => k < y.pool.ids.length ∧ Filled y k ∧ Fresh y k ∧ Entry y k (fun f => f.w.told = true)
  | .join k => k < y.pool.ids.length ∧ Filled y (k + 1) ∧ Fresh y k ∧ Entry y k (fun f => f.w.told = true)
  | .free k => k < y.pool.ids.length ∧ Filled y (k + 1) ∧ Fresh y k ∧ Entry y k (fun f => f.w = .exited)
  | .close k => k < y.pool.ids.length ∧ Filled y (k + 1) ∧ Fresh y (k + 1) ∧ Entry y k (fun f => f.w = .exited ∧ f.p.isOpen = true)
  | .clean | .synced => Filled y y.pool.ids.length
  | .crashed => ∃ i f, i ∈ y.pool.ids ∧ y.futs i = some f ∧ f.job.out.block = none
  | .threw _ => True

structure PInv (cpus own : Nat) (y : Sys) : Prop where
  nodup : y.pool.ids.Nodup
  len : y.pool.slots.length = y.pool.ids.length
  fits : y.pool.ids.length ≤ y.pool.room
  step : y.pool.room % cpus = 0
  oob : y.pool.oob = false
  known : ∀ i ∈ y.pool.ids, ∃ f, y.futs i = some f ∧ f.g = .idle ∧ f.job.scope = own
  phase : Phase y

/-- Changes that the pool does not notice. -/
structure Quiet (f f' : Fut) : Prop where
  job : f'.job = f.job
  told : f.w.told = true → f'.w.told = true
  exited : f.w = .exited → f'.w = .exited
  g : f'.g = f.g
  isOpen : f'.p.isOpen = f.p.isOpen
  live : f'.live = f.live

theorem Quiet.refl (f : Fut) : Quiet f f := ⟨rfl, id, id, rfl, rfl, rfl⟩

theorem PInv.quiet {cpus own : Nat} {y y' : Sys} (I : PInv cpus own y) (hp : y'.pool = y.pool)
    (hq : ∀ i ∈ y.pool.ids, ∀ f, y.futs i = some f → ∃ f', y'.futs i = some f' ∧ Quiet f f') : PInv cpus own y' := by
  have back : ∀ (j i : Nat) (f' : Fut), y.pool.ids[j]? = some i → y'.futs i = some f' → ∃ f, y.futs i = some f ∧ Quiet f f' := by
    intro j i f' h1 h2
    have hm := List.mem_of_getElem? h1
    obtain ⟨f, hf, _⟩ := I.known i hm
    obtain ⟨f2, h3, q⟩ := hq i hm f hf
    rw [h2] at h3
    cases h3
    exact ⟨f, hf, q⟩
  have hF : ∀ k, Filled y k → Filled y' k := by
    intro k H j hj i f' h1 h2
    rw [hp] at h1 ⊢
    obtain ⟨f, hf, q⟩ := back j i f' h1 h2
    rw [q.job]
    exact H j hj i f h1 hf
  have hR : ∀ k, Fresh y k → Fresh y' k := by
    intro k H j hj i f' h1 h2
    rw [hp] at h1
    obtain ⟨f, hf, q⟩ := back j i f' h1 h2
    rw [q.isOpen, q.live]
    exact H j hj i f h1 hf
  have hE : ∀ k (P Q : Fut → Prop), (∀ f f', Quiet f f' → P f → Q f') → Entry y k P → Entry y' k Q := by
    intro k P Q hpq H i f' h1 h2
    rw [hp] at h1
    obtain ⟨f, hf, q⟩ := back k i f' h1 h2
    exact hpq f f' q (H i f h1 hf)
  refine ⟨by rw [hp]; exact I.nodup, by rw [hp]; exact I.len, by rw [hp]; exact I.fits, by rw [hp]; exact I.step, by rw [hp]; exact I.oob, ?_, ?_⟩
  · intro i hi
    rw [hp] at hi
    obtain ⟨f, hf, hg, hs⟩ := I.known i hi
    obtain ⟨f', hf', q⟩ := hq i hi f hf
    exact ⟨f', hf', q.g.trans hg, by rw [q.job]; exact hs⟩
  · have H := I.phase
    unfold Phase at H ⊢
    rw [hp]
    cases hs : y.pool.s with
    | idle => rw [hs] at H; exact hR _ H
    | wait k => rw [hs] at H; exact ⟨H.1, hF _ H.2.1, hR _ H.2.2⟩
    | read k => rw [hs] at H; exact ⟨H.1, hF _ H.2.1, hR _ H.2.2.1, hE _ _ _ (fun _ _ q => q.told) H.2.2.2⟩
    | join k => rw [hs] at H; exact ⟨H.1, hF _ H.2.1, hR _ H.2.2.1, hE _ _ _ (fun _ _ q => q.told) H.2.2.2⟩
    | free k => rw [hs] at H; exact ⟨H.1, hF _ H.2.1, hR _ H.2.2.1, hE _ _ _ (fun _ _ q => q.exited) H.2.2.2⟩
    | close k =>
      rw [hs] at H
      exact ⟨H.1, hF _ H.2.1, hR _ H.2.2.1, hE _ _ _ (fun _ _ q h => ⟨q.exited h.1, q.isOpen.trans h.2⟩) H.2.2.2⟩
    | clean => rw [hs] at H; exact hF _ H
    | synced => rw [hs] at H; exact hF _ H
    | crashed =>
      rw [hs] at H
      obtain ⟨i, f, hi, hf, hb⟩ := H
      obtain ⟨f', hf', q⟩ := hq i hi f hf
      exact ⟨i, f', hi, hf', by rw [q.job]; exact hb⟩
    | threw e => trivial

theorem Quiet.worker (f : Fut) : Quiet f (workerFut f) := by
  obtain ⟨k1, k2, k3, k4, k5, k6, k7⟩ := workerFut_keeps f
  exact ⟨k1, fun h => by rw [workerFut_told h]; rfl, fun h => workerFut_told (by rw [h]; rfl), k2, k5, k4⟩

theorem Quiet.clean (s : Nat) (f : Fut) : Quiet f (cleanFut y s f) := by
  unfold cleanFut
  split
  · exact ⟨rfl, id, id, rfl, rfl, rfl⟩
  · exact Quiet.refl f

structure GInv (cpus own : Nat) (y : Sys) : Prop where
  fut : ∀ i f, y.futs i = some f → FInv f
  pool : PInv cpus own y

theorem entry_eq {y : Sys} {k i : Nat} {f : Fut} : y.entry k = some (i, f) ↔ y.pool.ids[k]? = some i ∧ y.futs i = some f := by
  unfold Sys.entry
  cases h : y.pool.ids[k]? with
  | none => simp
  | some j =>
    simp only [Option.map_eq_some_iff, Prod.mk.injEq, Option.some.injEq]
    constructor
    · rintro ⟨f', h1, rfl, rfl⟩; exact ⟨rfl, h1⟩
    · rintro ⟨rfl, h1⟩; exact ⟨f, h1, rfl, rfl⟩

theorem GInv.init (cpus own : Nat) : GInv cpus own init := by
  refine ⟨fun i f h => (by cases h), ⟨List.nodup_nil, rfl, Nat.le_refl _, Nat.zero_mod _, rfl, fun i h => (by cases h), ?_⟩⟩
  intro j _ i f h _
  simp [Fu.init] at h

theorem get_ne {ids : List Nat} {j k i : Nat} (hn : ids.Nodup) (h1 : ids[j]? = some i) (h2 : ids[k]? = some i) : j = k := by
  obtain ⟨hj, e1⟩ := List.getElem?_eq_some_iff.mp h1
  obtain ⟨hk, e2⟩ := List.getElem?_eq_some_iff.mp h2
  exact (List.getElem_inj hn).mp (e1.trans e2.symm)

theorem GInv.sync {cpus own : Nat} {y : Sys} (I : GInv cpus own y) : GInv cpus own (syncStep own y) := by
  have H := I.pool.phase
  unfold Phase at H
  have P := I.pool
  have ent : ∀ k, k < y.pool.ids.length → ∃ i f, y.entry k = some (i, f) ∧ y.pool.ids[k]? = some i ∧ y.futs i = some f ∧ f.g = .idle ∧ f.job.scope = own := by
    intro k hk
    have hm : y.pool.ids[k]? = some y.pool.ids[k] := List.getElem?_eq_getElem hk
    obtain ⟨f, hf, hg, hs⟩ := P.known _ (List.getElem_mem hk)
    exact ⟨_, f, entry_eq.mpr ⟨hm, hf⟩, hm, hf, hg, hs⟩
  cases hs : y.pool.s with
  | idle | synced | threw | crashed => simp only [syncStep, hs]; exact I
  | wait k =>
    rw [hs] at H
    obtain ⟨hk, hF, hR⟩ := H
    obtain ⟨i, f, he, hi, hf, hg, hsc⟩ := ent k hk
    simp only [syncStep, hs, he]
    cases hd : f.p.done with
    | false => exact ⟨I.fut, ⟨P.nodup, P.len, P.fits, P.step, P.oob, P.known, by
        have := P.phase; unfold Phase at this ⊢; rw [hs] at this; simp only [Bool.false_eq_true, if_false]; show Phase _; unfold Phase; simp only [Sys.touch, hs]; exact this⟩⟩
    | true =>
      refine ⟨I.fut, ⟨P.nodup, P.len, P.fits, P.step, P.oob, P.known, hk, hF, hR, ?_⟩⟩
      intro i' f' h1 h2
      change y.pool.ids[k]? = some i' at h1
      change y.futs i' = some f' at h2
      rw [hi] at h1; cases h1
      rw [hf] at h2; cases h2
      have := (I.fut i f hf).done
      rw [hd] at this
      exact (Bool.and_eq_true _ _ ▸ this.symm).1
  | read k =>
    rw [hs] at H
    obtain ⟨hk, hF, hR, hE⟩ := H
    obtain ⟨i, f, he, hi, hf, hg, hsc⟩ := ent k hk
    have hres : f.p.result = f.job.out.block := by
      rw [(I.fut i f hf).result]
      have : f.w.stored = true := by
        have hE' : f.w.told = true := hE i f hi hf
        exact told_stored hE'
      rw [if_pos this]
    simp only [syncStep, hs, he]
    cases hr : f.p.result with
    | none =>
      refine ⟨I.fut, ⟨P.nodup, P.len, P.fits, P.step, P.oob, P.known, i, f, List.mem_of_getElem? hi, hf, by rw [← hres, hr]⟩⟩
    | some b =>
      refine ⟨I.fut, ⟨P.nodup, by simp [P.len], P.fits, P.step, P.oob, P.known, hk, ?_, hR, hE⟩⟩
      intro j hj i' f' h1 h2
      change y.pool.ids[j]? = some i' at h1
      change y.futs i' = some f' at h2
      show ∃ b', f'.job.out.block = some b' ∧ (y.pool.slots.set k ⟨true, some b.got⟩)[j]? = _
      by_cases hjk : j = k
      · subst hjk
        rw [hi] at h1; cases h1
        rw [hf] at h2; cases h2
        exact ⟨b, by rw [← hres, hr], by rw [List.getElem?_set_self (by rw [P.len]; exact hk)]⟩
      · obtain ⟨b', h3, h4⟩ := hF j (by omega) i' f' h1 h2
        exact ⟨b', h3, by rw [List.getElem?_set_ne (Ne.symm hjk)]; exact h4⟩
  | join k =>
    rw [hs] at H
    obtain ⟨hk, hF, hR, hE⟩ := H
    obtain ⟨i, f, he, hi, hf, hg, hsc⟩ := ent k hk
    simp only [syncStep, hs, he]
    by_cases hw : f.w = .exited
    · rw [if_pos hw]
      refine ⟨I.fut, ⟨P.nodup, P.len, P.fits, P.step, P.oob, P.known, hk, hF, hR, ?_⟩⟩
      intro i' f' h1 h2
      change y.pool.ids[k]? = some i' at h1
      change y.futs i' = some f' at h2
      rw [hi] at h1; cases h1
      rw [hf] at h2; cases h2
      exact hw
    · rw [if_neg hw]; exact I
  | free k =>
    rw [hs] at H
    obtain ⟨hk, hF, hR, hE⟩ := H
    obtain ⟨i, f, he, hi, hf, hg, hsc⟩ := ent k hk
    simp only [syncStep, hs, he]
    have If := I.fut i f hf
    have back : ∀ j i' f', y.pool.ids[j]? = some i' → ((y.setFut i { f with live := false }).setS (.close k)).futs i' = some f' →
        (j = k ∧ i' = i ∧ f' = { f with live := false }) ∨ (j ≠ k ∧ y.futs i' = some f') := by
      intro j i' f' h1 h2
      change (if i' = i then _ else y.futs i') = some f' at h2
      by_cases hii : i' = i
      · subst hii
        rw [if_pos rfl] at h2
        cases h2
        exact .inl ⟨get_ne P.nodup h1 hi, rfl, rfl⟩
      · rw [if_neg hii] at h2
        exact .inr ⟨fun hj => hii (by subst hj; rw [hi] at h1; cases h1; rfl), h2⟩
    refine ⟨?_, ⟨P.nodup, P.len, P.fits, P.step, P.oob, ?_, hk, ?_, ?_, ?_⟩⟩
    · intro i' f' h2
      change (if i' = i then _ else y.futs i') = some f' at h2
      by_cases hii : i' = i
      · rw [if_pos hii] at h2
        cases h2
        obtain ⟨h1, h2, h3, h4, h5, h6, h7, h8, h9, h10, h11, h12, h13⟩ := If
        exact ⟨h1, h2, h3, h4, h5, h6, h7, h8, h9, h10, h11, fun _ h => absurd hg h, h13⟩
      · rw [if_neg hii] at h2; exact I.fut i' f' h2
    · intro i' hm
      obtain ⟨f', hf', hg', hs'⟩ := P.known i' hm
      show ∃ f', (if i' = i then _ else y.futs i') = some f' ∧ _
      by_cases hii : i' = i
      · subst hii; rw [if_pos rfl]; exact ⟨_, rfl, hg, hsc⟩
      · rw [if_neg hii]; exact ⟨f', hf', hg', hs'⟩
    · intro j hj i' f' h1 h2
      rcases back j i' f' h1 h2 with ⟨rfl, rfl, rfl⟩ | ⟨hne, h3⟩
      · exact hF j hj i' f hi hf
      · exact hF j hj i' f' h1 h3
    · intro j hj i' f' h1 h2
      rcases back j i' f' h1 h2 with ⟨rfl, rfl, rfl⟩ | ⟨hne, h3⟩
      · omega
      · exact hR j (by omega) i' f' h1 h3
    · intro i' f' h1 h2
      rcases back k i' f' h1 h2 with ⟨_, rfl, rfl⟩ | ⟨hne, h3⟩
      · exact ⟨hE i' f hi hf, (hR k (Nat.le_refl _) i' f hi hf).1⟩
      · exact absurd rfl hne
  | close k =>
    rw [hs] at H
    obtain ⟨hk, hF, hR, hE⟩ := H
    obtain ⟨i, f, he, hi, hf, hg, hsc⟩ := ent k hk
    have If := I.fut i f hf
    obtain ⟨hw, ho⟩ := hE i f hi hf
    have hc : f.p.close = { f.p with isOpen := false, mutex := false, done := false } := by simp [Prom.close, ho]
    have Ifc : FInv { f with p := f.p.close } := by
      rw [hc]
      obtain ⟨h1, h2, h3, h4, h5, h6, h7, h8, h9, h10, h11, h12, h13⟩ := If
      exact ⟨h1, by simp [hw, WPc.locked], by simp, fun _ => hw, h5, h6, h7, h8, h9, h10, fun _ h => absurd hg h, h12, h13⟩
    -- the state before the phase changes
    have base : ∀ (y2 : Sys) (m : Fut → Fut), (∀ f, Quiet f (m f)) → (∀ f, FInv f → FInv (m f)) → y2.pool = { y.pool with s := y2.pool.s } →
        (∀ k', y2.futs k' = ((if k' = i then some { f with p := f.p.close } else y.futs k')).map m) →
        (y2.pool.s = y.pool.head (k + 1) ∨ ∃ e, y2.pool.s = .threw e) → GInv cpus own y2 := by
      intro y2 m hm1 hm2 hpool hfut hph
      have fwd : ∀ i' f', y.futs i' = some f' → ∃ f2, y2.futs i' = some f2 ∧ f2.g = f'.g ∧ f2.job = f'.job ∧
          (i' ≠ i → f2.p.isOpen = f'.p.isOpen ∧ f2.live = f'.live) := by
        intro i' f' h1
        rw [hfut]
        by_cases hii : i' = i
        · subst hii
          rw [hf] at h1; cases h1
          rw [if_pos rfl]
          exact ⟨_, rfl, (hm1 _).g, (hm1 _).job, fun h => absurd rfl h⟩
        · rw [if_neg hii, h1]
          exact ⟨_, rfl, (hm1 _).g, (hm1 _).job, fun _ => ⟨(hm1 _).isOpen, (hm1 _).live⟩⟩
      have bwd : ∀ i' f2, i' ∈ y.pool.ids → y2.futs i' = some f2 → ∃ f', y.futs i' = some f' ∧ f2.job = f'.job ∧
          (i' ≠ i → f2.p.isOpen = f'.p.isOpen ∧ f2.live = f'.live) := by
        intro i' f2 hm h2
        obtain ⟨f', h1, _⟩ := P.known i' hm
        obtain ⟨f3, h3, h4, h5, h6⟩ := fwd i' f' h1
        rw [h2] at h3; cases h3
        exact ⟨f', h1, h5, h6⟩
      have hids : y2.pool.ids = y.pool.ids := by rw [hpool]
      have hslots : y2.pool.slots = y.pool.slots := by rw [hpool]
      have hF2 : Filled y2 (k + 1) := by
        intro j hj i' f2 h1 h2
        rw [hids] at h1
        rw [hslots]
        obtain ⟨f', h3, h4, _⟩ := bwd i' f2 (List.mem_of_getElem? h1) h2
        rw [h4]
        exact hF j hj i' f' h1 h3
      have hR2 : Fresh y2 (k + 1) := by
        intro j hj i' f2 h1 h2
        rw [hids] at h1
        obtain ⟨f', h3, h4, h5⟩ := bwd i' f2 (List.mem_of_getElem? h1) h2
        have hne : i' ≠ i := fun h => by
          subst h
          have := get_ne P.nodup h1 hi
          omega
        rw [(h5 hne).1, (h5 hne).2]
        exact hR j hj i' f' h1 h3
      refine ⟨?_, ⟨by rw [hids]; exact P.nodup, by rw [hids, hslots]; exact P.len, by rw [hpool]; exact P.fits, by rw [hpool]; exact P.step,
        by rw [hpool]; exact P.oob, ?_, ?_⟩⟩
      · intro i' f2 h2
        rw [hfut] at h2
        by_cases hii : i' = i
        · rw [if_pos hii] at h2
          simp only [Option.map_some, Option.some.injEq] at h2
          subst h2
          exact hm2 _ Ifc
        · rw [if_neg hii] at h2
          cases h3 : y.futs i' with
          | none => rw [h3] at h2; cases h2
          | some f' =>
            rw [h3] at h2
            simp only [Option.map_some, Option.some.injEq] at h2
            subst h2
            exact hm2 _ (I.fut i' f' h3)
      · intro i' hm
        rw [hids] at hm
        obtain ⟨f', h1, h2, h3⟩ := P.known i' hm
        obtain ⟨f2, h4, h5, h6, _⟩ := fwd i' f' h1
        exact ⟨f2, h4, h5.trans h2, by rw [h6]; exact h3⟩
      · unfold Phase
        rcases hph with h | ⟨e, h⟩
        · rw [h]
          unfold Pool.head
          by_cases hlt : k + 1 < y.pool.ids.length
          · rw [if_pos hlt]
            exact ⟨by rw [hids]; exact hlt, hF2, hR2⟩
          · rw [if_neg hlt]
            show Filled y2 _
            rw [hids, show y.pool.ids.length = k + 1 by omega]
            exact hF2
        · rw [h]; trivial
    simp only [syncStep, hs, he]
    cases hpd : y.pending f with
    | some e =>
      exact base _ (cleanFut y own) (Quiet.clean own) (fun _ => FInv.clean) rfl (fun _ => rfl) (.inr ⟨e, rfl⟩)
    | none =>
      exact base _ id (fun f => Quiet.refl f) (fun _ h => h) rfl (fun k' => by rw [Option.map_id_fun]; rfl) (.inl rfl)
  | clean =>
    rw [hs] at H
    simp only [syncStep, hs]
    have Q : PInv cpus own (y.cleanScope own) := P.quiet rfl (fun i _ f hf => ⟨cleanFut y own f, by
      show (y.futs i).map _ = _; rw [hf]; rfl, Quiet.clean own f⟩)
    refine ⟨?_, ⟨Q.nodup, Q.len, Q.fits, Q.step, Q.oob, Q.known, ?_⟩⟩
    · intro i f h
      change (y.futs i).map (cleanFut y own) = some f at h
      cases h3 : y.futs i with
      | none => rw [h3] at h; cases h
      | some f' =>
        rw [h3] at h
        simp only [Option.map_some, Option.some.injEq] at h
        subst h
        exact (I.fut i f' h3).clean
    · have := Q.phase
      unfold Phase at this
      rw [show (y.cleanScope own).pool.s = .clean from hs] at this
      exact this

/-- Futures that no pool owns are fit for `thrd_get`. -/
def Loose (y : Sys) : Prop := ∀ i f, y.futs i = some f → i ∉ y.pool.ids → f.g = .idle → f.p.isOpen = true ∧ f.live = true

theorem syncStep_ids (own : Nat) (y : Sys) : (syncStep own y).pool.ids = y.pool.ids := by
  unfold syncStep
  dsimp only
  repeat' split
  all_goals rfl

/-- `thrd_sync` leaves the futures of others alone, apart from the promises of its own scope. -/
theorem syncStep_other {own : Nat} {y : Sys} {i : Nat} (h : i ∉ y.pool.ids) :
    (syncStep own y).futs i = y.futs i ∨ (syncStep own y).futs i = (y.futs i).map (cleanFut y own) := by
  have ne : ∀ k i' f, y.entry k = some (i', f) → i ≠ i' := by
    intro k i' f he hii
    subst hii
    exact h (List.mem_of_getElem? (entry_eq.mp he).1)
  unfold syncStep
  dsimp only
  split
  case h_1 | h_2 | h_3 | h_4 => exact .inl rfl
  case h_5 => split; (split <;> exact .inl rfl); exact .inl rfl
  case h_6 => split; (split <;> exact .inl rfl); exact .inl rfl
  case h_7 => split; (split <;> exact .inl rfl); exact .inl rfl
  case h_8 =>
    split
    · rename_i he
      exact .inl (if_neg (ne _ _ _ he))
    · exact .inl rfl
  case h_9 =>
    split
    · rename_i he
      split
      · exact .inr (congrArg (Option.map (cleanFut y own)) (if_neg (ne _ _ _ he)))
      · exact .inl (if_neg (ne _ _ _ he))
    · exact .inl rfl
  case h_10 => exact .inr rfl

structure SInv (cpus own : Nat) (y : Sys) : Prop extends GInv cpus own y where
  loose : Loose y

theorem SInv.init (cpus own : Nat) : SInv cpus own init := ⟨GInv.init cpus own, fun i f h => (by cases h)⟩

theorem raise_ginv {cpus own : Nat} {y : Sys} (I : SInv cpus own y) (s : Nat) (e : Exn) : SInv cpus own (y.raise s e) := by
  have hf : ∀ i f', (y.raise s e).futs i = some f' → ∃ f, y.futs i = some f ∧ f' = cleanFut y s f := by
    intro i f' h
    change (y.futs i).map (cleanFut y s) = some f' at h
    cases h3 : y.futs i with
    | none => rw [h3] at h; cases h
    | some f =>
      rw [h3] at h
      simp only [Option.map_some, Option.some.injEq] at h
      exact ⟨f, rfl, h.symm⟩
  refine ⟨⟨?_, I.pool.quiet rfl ?_⟩, ?_⟩
  · intro i f' h
    obtain ⟨f, h1, rfl⟩ := hf i f' h
    exact (I.fut i f h1).clean
  · intro i _ f h
    exact ⟨cleanFut y s f, by show (y.futs i).map (cleanFut y s) = _; rw [h]; rfl, Quiet.clean s f⟩
  · intro i f' h hn hg
    obtain ⟨f, h1, rfl⟩ := hf i f' h
    rw [(Quiet.clean s f).isOpen, (Quiet.clean s f).live]
    exact I.loose i f h1 hn ((Quiet.clean s f).g ▸ hg)

theorem SInv.set {cpus own : Nat} {y y' : Sys} {i : Nat} {f' : Fut} (I : SInv cpus own y) (hp : y'.pool = y.pool)
    (hf : ∀ k, y'.futs k = if k = i then some f' else y.futs k) (h1 : FInv f')
    (h2 : i ∈ y.pool.ids → ∀ f, y.futs i = some f → Quiet f f') (h3 : i ∉ y.pool.ids → f'.g = .idle → f'.p.isOpen = true ∧ f'.live = true) :
    SInv cpus own y' := by
  refine ⟨⟨?_, I.pool.quiet hp ?_⟩, ?_⟩
  · intro k f h
    rw [hf] at h
    split at h
    · cases h; exact h1
    · exact I.fut k f h
  · intro k hk f h
    rw [hf]
    by_cases e : k = i
    · subst e; rw [if_pos rfl]; exact ⟨f', rfl, h2 hk f h⟩
    · rw [if_neg e]; exact ⟨f, h, Quiet.refl f⟩
  · intro k f h hn hg
    rw [hf] at h
    rw [hp] at hn
    split at h
    · next e => cases h; subst e; exact h3 hn hg
    · exact I.loose k f h hn hg

theorem getFut_idle {e : Option Exn} {f : Fut} (h : f.g = .idle) : getFut e f = f := by simp [getFut, h]

theorem getFut_notIdle {e : Option Exn} {f : Fut} (h : f.g ≠ .idle) : (getFut e f).g ≠ .idle := by
  cases hg : f.g with
  | idle => exact absurd hg h
  | check => simp only [getFut, hg]; split <;> simp
  | wait => simp only [getFut, hg]; split <;> simp [hg]
  | join => simp only [getFut, hg]; split <;> simp [hg]
  | close => simp only [getFut, hg]; split <;> simp
  | fin => simp only [getFut, hg]; split <;> simp
  | read | free => simp [getFut, hg]
  | returned | threw | logicError | crashed => simp [getFut, hg]

theorem SInv.step {cpus own : Nat} (hc : 0 < cpus) {y : Sys} (I : SInv cpus own y) (a : Act) : SInv cpus own (step cpus own y a) := by
  cases a with
  | async i j =>
    simp only [Fu.step]
    cases h : y.futs i with
    | some f => exact I
    | none =>
      exact I.set rfl (fun _ => rfl) (FInv.new j) (fun _ f hf => by rw [h] at hf; cases hf) (fun _ _ => ⟨rfl, rfl⟩)
  | worker i =>
    simp only [Fu.step]
    cases h : y.futs i with
    | none => exact I
    | some f =>
      refine I.set (workerStep_pool y i f) (fun k => congrFun (workerStep_futs h) k) (I.fut i f h).worker ?_ ?_
      · intro _ f' hf'
        rw [h] at hf'; cases hf'
        exact Quiet.worker f
      · intro hn hg
        rw [(Quiet.worker f).isOpen, (Quiet.worker f).live]
        exact I.loose i f h hn ((Quiet.worker f).g ▸ hg)
  | get i s =>
    simp only [Fu.step]
    cases h : y.futs i with
    | none => exact I
    | some f =>
      dsimp only
      by_cases hc' : f.g = .idle ∧ i ∉ y.pool.ids
      · rw [if_pos hc']
        obtain ⟨ho, hl⟩ := I.loose i f h hc'.2 hc'.1
        obtain ⟨h1, h2, h3, h4, h5, h6, h7, h8, h9, h10, h11, h12, h13⟩ := I.fut i f h
        refine I.set (i := i) (f' := { f with g := .check, caller := s }) rfl (fun _ => rfl) ?_ (fun hm => absurd hm hc'.2) (fun _ hg => (by cases hg))
        exact ⟨h1, h2, h3, h4, h5, by simp [GPc.pastWait], by simp [GPc.pastJoin], by simp [GPc.pastRead], by simp, by simp, fun _ _ => ho, fun _ _ _ => hl,
          by simp⟩
      · rw [if_neg hc']; exact I
  | getter i =>
    simp only [Fu.step]
    cases h : y.futs i with
    | none => exact I
    | some f =>
      have hfk := getStep_futs h
      by_cases hg : f.g = .idle
      · have : getStep y i f = y := by simp [getStep, hg]
        dsimp only
        rw [this]; exact I
      · have hi : i ∉ y.pool.ids := fun hm => by
          obtain ⟨f', hf', hg', _⟩ := I.pool.known i hm
          rw [h] at hf'; cases hf'
          exact hg hg'
        by_cases hcl : f.g = .close ∧ (y.pending f).isSome
        · simp only [hcl, and_self, if_true] at hfk
          obtain ⟨e, he⟩ := Option.isSome_iff_exists.mp hcl.2
          have hb : SInv cpus own (y.setFut i (getFut (y.pending f) f)) :=
            I.set rfl (fun _ => rfl) (I.fut i f h).getter (fun hm => absurd hm hi) (fun _ hg' => absurd hg' (getFut_notIdle hg))
          have : getStep y i f = ((y.touch (!f.live || f.p.freed)).setFut i (getFut (y.pending f) f)).raise f.caller e := by
            simp only [getStep, hcl.1, he, getFut]
          dsimp only
          rw [this]
          exact raise_ginv (I.set (y' := (y.touch (!f.live || f.p.freed)).setFut i (getFut (y.pending f) f)) rfl (fun _ => rfl) (I.fut i f h).getter (fun hm => absurd hm hi)
            (fun _ hg' => absurd hg' (getFut_notIdle hg))) _ _
        · simp only [hcl, if_false] at hfk
          refine I.set (f' := getFut (y.pending f) f) (getStep_pool y i f) (fun k => ?_) (I.fut i f h).getter (fun hm => absurd hm hi)
            (fun _ hg' => absurd hg' (getFut_notIdle hg))
          dsimp only
          rw [hfk k, Option.map_id_fun]
          rfl
  | oops s e => exact raise_ginv I s e
  | spawn i j =>
    simp only [Fu.step]
    cases h : y.futs i with
    | some f => exact I
    | none =>
      dsimp only
      by_cases hs : y.pool.s = .idle ∧ j.scope = own
      rotate_left
      · rw [if_neg hs]; exact I
      rw [if_pos hs]
      have P := I.pool
      have hni : i ∉ y.pool.ids := fun hm => by
        obtain ⟨f', hf', _⟩ := P.known i hm
        rw [h] at hf'; cases hf'
      have hroom : y.pool.ids.length + 1 ≤ (if y.pool.ids.length % cpus = 0 then y.pool.ids.length + cpus else y.pool.room) ∧
          (if y.pool.ids.length % cpus = 0 then y.pool.ids.length + cpus else y.pool.room) % cpus = 0 := by
        split
        · next h0 => exact ⟨by omega, by rw [Nat.add_mod_right]; exact h0⟩
        · next h0 =>
          refine ⟨?_, P.step⟩
          have := P.fits
          rcases Nat.lt_or_ge y.pool.ids.length y.pool.room with h1 | h1
          · exact h1
          · have : y.pool.ids.length = y.pool.room := by omega
            rw [this] at h0
            exact absurd P.step h0
      have hfut : ∀ k, (spawnStep cpus y i j).futs k = if k = i then some (newFut j) else y.futs k := fun _ => rfl
      refine ⟨⟨?_, ⟨?_, ?_, ?_, hroom.2, ?_, ?_, ?_⟩⟩, ?_⟩
      · intro k f hk
        rw [hfut] at hk
        split at hk
        · cases hk; exact FInv.new j
        · exact I.fut k f hk
      · show (y.pool.ids ++ [i]).Nodup
        rw [List.nodup_append]
        exact ⟨P.nodup, by simp, fun a ha b hb => by
          rw [List.mem_singleton] at hb; subst hb; exact fun e => hni (e ▸ ha)⟩
      · show (y.pool.slots ++ [_]).length = (y.pool.ids ++ [i]).length
        simp [P.len]
      · show (y.pool.ids ++ [i]).length ≤ _
        simp only [List.length_append, List.length_singleton]
        exact hroom.1
      · show (y.pool.oob || decide (_ ≤ y.pool.ids.length)) = false
        rw [P.oob, Bool.false_or]
        exact decide_eq_false (by omega)
      · intro k hk
        change k ∈ y.pool.ids ++ [i] at hk
        rw [hfut]
        rw [List.mem_append, List.mem_singleton] at hk
        rcases hk with hk | rfl
        · obtain ⟨f, hf, hg, hsc⟩ := P.known k hk
          rw [if_neg (fun e : k = i => hni (e ▸ hk))]
          exact ⟨f, hf, hg, hsc⟩
        · rw [if_pos rfl]; exact ⟨_, rfl, rfl, hs.2⟩
      · have H := P.phase
        unfold Phase at H ⊢
        rw [hs.1] at H
        rw [show (spawnStep cpus y i j).pool.s = .idle from hs.1]
        intro q _ k f h1 h2
        change (y.pool.ids ++ [i])[q]? = some k at h1
        rw [hfut] at h2
        split at h2
        · cases h2; exact ⟨rfl, rfl⟩
        · next hne =>
          rcases Nat.lt_or_ge q y.pool.ids.length with hq | hq
          · rw [List.getElem?_append_left hq] at h1
            exact H q (Nat.zero_le _) k f h1 h2
          · rw [List.getElem?_append_right hq] at h1
            have := List.mem_of_getElem? h1
            rw [List.mem_singleton] at this
            exact absurd this hne
      · intro k f h2 hn hg
        rw [hfut] at h2
        split at h2
        · cases h2; exact ⟨rfl, rfl⟩
        · exact I.loose k f h2 (fun hm => hn (List.mem_append_left _ hm)) hg
  | sync =>
    simp only [Fu.step]
    split
    rotate_left
    · exact I
    next hs =>
      have P := I.pool
      have H := P.phase
      unfold Phase at H
      rw [hs] at H
      refine ⟨⟨I.fut, ⟨P.nodup, P.len, P.fits, P.step, P.oob, P.known, ?_⟩⟩, I.loose⟩
      by_cases h0 : 0 < y.pool.ids.length
      · rw [show y.pool.head 0 = .wait 0 from if_pos h0]
        exact ⟨h0, fun j hj => absurd hj (Nat.not_lt_zero _), H⟩
      · rw [show y.pool.head 0 = .clean from if_neg h0]
        intro j hj
        change j < y.pool.ids.length at hj
        omega
  | syncer =>
    refine ⟨I.toGInv.sync, ?_⟩
    intro i f h hn hg
    change i ∉ (syncStep own y).pool.ids at hn
    change (syncStep own y).futs i = some f at h
    rw [syncStep_ids] at hn
    rcases syncStep_other hn with he | he
    · rw [he] at h; exact I.loose i f h hn hg
    · rw [he] at h
      cases h3 : y.futs i with
      | none => rw [h3] at h; cases h
      | some f' =>
        rw [h3] at h
        simp only [Option.map_some, Option.some.injEq] at h
        subst h
        rw [(Quiet.clean own f').isOpen, (Quiet.clean own f').live]
        exact I.loose i f' h3 hn ((Quiet.clean own f').g ▸ hg)

theorem SInv.run {cpus own : Nat} (hc : 0 < cpus) {y : Sys} (I : SInv cpus own y) (h : List Act) : SInv cpus own (run cpus own y h) := by
  induction h generalizing y with
  | nil => exact I
  | cons a h ih => exact ih (I.step hc a)

/-! ## One future followed through a run -/

theorem clean_w (s : Nat) (f : Fut) : (cleanFut y s f).w = f.w := by unfold cleanFut; split <;> rfl

/-- What `thrd_sync` keeps of a future. -/
theorem syncStep_fut {own : Nat} {y : Sys} {i : Nat} {f : Fut} (h : y.futs i = some f) :
    ∃ f', (syncStep own y).futs i = some f' ∧ f'.job = f.job ∧ f'.w = f.w ∧ f'.g = f.g := by
  have same : ∃ f', y.futs i = some f' ∧ f'.job = f.job ∧ f'.w = f.w ∧ f'.g = f.g := ⟨f, h, rfl, rfl, rfl⟩
  have cl : ∀ (g : Nat → Option Fut), (∃ f', g i = some f' ∧ f'.job = f.job ∧ f'.w = f.w ∧ f'.g = f.g) →
      ∃ f', (g i).map (cleanFut y own) = some f' ∧ f'.job = f.job ∧ f'.w = f.w ∧ f'.g = f.g := by
    rintro g ⟨f', h1, h2, h3, h4⟩
    rw [h1]
    exact ⟨_, rfl, (Quiet.clean own f').job.trans h2, (clean_w own f').trans h3, (Quiet.clean own f').g.trans h4⟩
  have st : ∀ i' f0 f1, y.futs i' = some f0 → Fut.job f1 = f0.job → Fut.w f1 = f0.w → Fut.g f1 = f0.g →
      ∃ f', (if i = i' then some f1 else y.futs i) = some f' ∧ f'.job = f.job ∧ f'.w = f.w ∧ f'.g = f.g := by
    intro i' f0 f1 h0 h1 h2 h3
    by_cases e : i = i'
    · subst e
      rw [h] at h0; cases h0
      rw [if_pos rfl]
      exact ⟨f1, rfl, h1, h2, h3⟩
    · rw [if_neg e]; exact same
  unfold syncStep
  dsimp only
  split
  case h_1 | h_2 | h_3 | h_4 => exact same
  case h_5 => split; (split <;> exact same); exact same
  case h_6 => split; (split <;> exact same); exact same
  case h_7 => split; (split <;> exact same); exact same
  case h_8 =>
    split
    · rename_i he
      exact st _ _ _ (entry_eq.mp he).2 rfl rfl rfl
    · exact same
  case h_9 =>
    split
    · rename_i he
      have h0 := (entry_eq.mp he).2
      split
      · exact cl (fun k => if k = _ then _ else y.futs k) (st _ _ _ h0 rfl rfl rfl)
      · exact st _ _ _ h0 rfl rfl rfl
    · exact same
  case h_10 => exact cl _ same

/-- What a step does to a future that exists. -/
theorem step_fut {cpus own : Nat} {y : Sys} {i : Nat} {f : Fut} (h : y.futs i = some f) (a : Act) :
    ∃ f', (step cpus own y a).futs i = some f' ∧ f'.job = f.job ∧ f'.w = (if isWorker i a then workerFut f else f).w ∧
      (f.g ≠ .idle → f'.g = (if isGetter i a then getFut (y.pending f) f else f).g) ∧ (f.g = .idle → f'.g = .idle ∨ f'.g = .check) := by
  have keep : ∀ {g' : GPc}, g' = f.g → (f.g ≠ .idle → g' = f.g) ∧ (f.g = .idle → g' = .idle ∨ g' = .check) :=
    fun e => ⟨fun _ => e, fun h => .inl (e.trans h)⟩
  have same : ∃ f', y.futs i = some f' ∧ f'.job = f.job ∧ f'.w = f.w ∧ (f.g ≠ .idle → f'.g = f.g) ∧ (f.g = .idle → f'.g = .idle ∨ f'.g = .check) :=
    ⟨f, h, rfl, rfl, keep rfl⟩
  cases a with
  | async k j =>
    simp only [Fu.step]
    cases hk : y.futs k with
    | some f' => exact same
    | none =>
      have : i ≠ k := fun e => by subst e; rw [h] at hk; cases hk
      exact ⟨f, by show (if i = k then _ else _) = _; rw [if_neg this, h], rfl, rfl, keep rfl⟩
  | worker k =>
    simp only [Fu.step]
    by_cases e : k = i
    · subst e
      simp only [h, isWorker, beq_self_eq_true, if_true, isGetter, Bool.false_eq_true, if_false]
      rw [workerStep_futs h]
      exact ⟨workerFut f, if_pos rfl, (workerFut_keeps f).1, rfl, keep (workerFut_keeps f).2.1⟩
    · have e' : (k == i) = false := by simpa using e
      simp only [isWorker, isGetter, e', Bool.false_eq_true, if_false]
      cases hk : y.futs k with
      | none => exact same
      | some f' =>
        dsimp only
        rw [workerStep_futs hk]
        exact ⟨f, (if_neg (Ne.symm e)).trans h, rfl, rfl, keep rfl⟩
  | get k s =>
    simp only [Fu.step]
    cases hk : y.futs k with
    | none => exact same
    | some f' =>
      dsimp only
      split
      · next hc =>
        by_cases e : i = k
        · subst e
          rw [h] at hk; cases hk
          exact ⟨{ f with g := .check, caller := s }, if_pos rfl, rfl, rfl, fun hn => absurd hc.1 hn, fun _ => .inr rfl⟩
        · exact ⟨f, by show (if i = k then _ else _) = _; rw [if_neg e, h], rfl, rfl, keep rfl⟩
      · exact same
  | getter k =>
    simp only [Fu.step]
    by_cases e : k = i
    · subst e
      simp only [h, isGetter, isWorker, beq_self_eq_true, if_true, Bool.false_eq_true, if_false]
      rw [getStep_futs h k, if_pos rfl]
      have hj : (getFut (y.pending f) f).job = f.job ∧ (getFut (y.pending f) f).w = f.w := by
        unfold getFut
        repeat' split
        all_goals exact ⟨rfl, rfl⟩
      split
      · exact ⟨_, rfl, (Quiet.clean _ _).job.trans hj.1, (clean_w _ _).trans hj.2, fun _ => (Quiet.clean _ _).g,
          fun hi => .inl ((Quiet.clean _ _).g.trans (by rw [getFut_idle hi]; exact hi))⟩
      · exact ⟨_, rfl, hj.1, hj.2, fun _ => rfl, fun hi => .inl (by rw [id, getFut_idle hi]; exact hi)⟩
    · have e' : (k == i) = false := by simpa using e
      simp only [isWorker, isGetter, e', Bool.false_eq_true, if_false]
      cases hk : y.futs k with
      | none => exact same
      | some f' =>
        dsimp only
        rw [getStep_futs hk i, if_neg (Ne.symm e), h]
        split
        · exact ⟨_, rfl, (Quiet.clean _ _).job, clean_w _ _, keep (Quiet.clean _ _).g⟩
        · exact ⟨_, rfl, rfl, rfl, keep rfl⟩
  | oops s e =>
    simp only [isWorker, isGetter, Bool.false_eq_true, if_false]
    exact ⟨cleanFut y s f, by show (y.futs i).map (cleanFut y s) = _; rw [h]; rfl, (Quiet.clean _ _).job, clean_w _ _, keep (Quiet.clean _ _).g⟩
  | spawn k j =>
    simp only [Fu.step]
    cases hk : y.futs k with
    | some f' => exact same
    | none =>
      have : i ≠ k := fun e => by subst e; rw [h] at hk; cases hk
      dsimp only
      split
      · exact ⟨f, by show (if i = k then _ else _) = _; rw [if_neg this, h], rfl, rfl, keep rfl⟩
      · exact same
  | sync =>
    simp only [Fu.step]
    split <;> exact same
  | syncer =>
    obtain ⟨f', h1, h2, h3, h4⟩ := syncStep_fut (own := own) h
    exact ⟨f', h1, h2, h3, keep h4⟩

/-- Steps a worker has left. -/
def WPc.rank : WPc → Nat
  | .clear => 10
  | .call => 9
  | .noteErr => 8
  | .notePanic => 7
  | .test => 6
  | .lock => 5
  | .store => 4
  | .unlock => 3
  | .setDone => 2
  | .leave => 1
  | .exited | .crashed => 0

theorem worker_rank {f : Fut} (I : FInv f) (ha : f.job.arg ≠ .null) (hw : f.w ≠ .crashed) :
    (workerFut f).w ≠ .crashed ∧ (workerFut f).w.rank ≤ f.w.rank - 1 := by
  have hm := I.mutex
  have ht := I.throwing
  obtain ⟨⟨s, arg, out⟩, w, ⟨o, d, m, r, fr⟩, live, g, reg, c⟩ := f
  simp only at hm ht ha hw
  subst hm
  cases w with
  | call => cases out <;> exact ⟨by simp [workerFut], by simp [workerFut, WPc.rank]⟩
  | noteErr | notePanic =>
    obtain ⟨e, rfl⟩ := ht (by simp)
    exact ⟨by simp [workerFut], by simp [workerFut, WPc.rank]⟩
  | test => simp only [workerFut, if_neg ha]; exact ⟨by simp, by simp [WPc.rank]⟩
  | crashed => exact absurd rfl hw
  | _ => exact ⟨by simp [workerFut, WPc.locked], by simp [workerFut, WPc.rank, WPc.locked]⟩

theorem rank_zero {w : WPc} (h : w.rank = 0) (hc : w ≠ .crashed) : w = .exited := by
  cases w <;> first | rfl | (simp [WPc.rank] at h; done) | exact absurd rfl hc

theorem times_cons (p : Act → Bool) (a : Act) (h : List Act) : times p (a :: h) = (if p a then 1 else 0) + times p h := by
  unfold times
  rw [List.filter_cons]
  split <;> simp [Nat.add_comm]

theorem run_worker {cpus own : Nat} (hc : 0 < cpus) (h : List Act) {y : Sys} (I : SInv cpus own y) {i : Nat} {f : Fut} (hf : y.futs i = some f)
    (ha : f.job.arg ≠ .null) (hw : f.w ≠ .crashed) :
    ∃ f', (run cpus own y h).futs i = some f' ∧ f'.job = f.job ∧ f'.w ≠ .crashed ∧ f'.w.rank ≤ f.w.rank - times (isWorker i) h ∧
      (f.g ≠ .idle → f'.g ≠ .idle) := by
  induction h generalizing y f with
  | nil => exact ⟨f, hf, rfl, hw, Nat.le_refl _, id⟩
  | cons a h ih =>
    obtain ⟨f1, h1, h2, h3, h4, _⟩ := step_fut (cpus := cpus) (own := own) hf a
    have hr : f1.w ≠ .crashed ∧ f1.w.rank ≤ f.w.rank - (if isWorker i a then 1 else 0) := by
      rw [h3]
      cases hb : isWorker i a
      · exact ⟨hw, Nat.le_refl _⟩
      · exact worker_rank (I.fut i f hf) ha hw
    obtain ⟨f', g1, g2, g3, g4, g5⟩ := ih (I.step hc a) h1 (by rw [h2]; exact ha) hr.1
    refine ⟨f', g1, g2.trans h2, g3, ?_, fun hn => g5 ?_⟩
    · rw [times_cons]
      have := hr.2
      omega
    · rw [h4 hn]
      cases isGetter i a
      · exact hn
      · exact getFut_notIdle hn

/-- Steps `thrd_get` has left. -/
def GPc.rank : GPc → Nat
  | .idle => 8
  | .check => 7
  | .wait => 6
  | .read => 5
  | .join => 4
  | .free => 3
  | .close => 2
  | .fin => 1
  | _ => 0

theorem getter_rank {e : Option Exn} {f : Fut} (I : FInv f) (hw : f.w = .exited) (hg : f.g ≠ .idle) : (getFut e f).g.rank ≤ f.g.rank - 1 := by
  cases hgg : f.g with
  | idle => exact absurd hgg hg
  | check =>
    simp only [getFut, hgg]
    split <;> simp [GPc.rank]
  | wait =>
    have ho := I.opened (by rw [hgg]; rfl) hg
    have hd : f.p.done = true := by rw [I.done, hw, ho]; rfl
    simp [getFut, hgg, hd, GPc.rank]
  | join => simp [getFut, hgg, hw, GPc.rank]
  | close => cases e <;> simp [getFut, hgg, GPc.rank]
  | fin => cases hr : f.reg <;> simp [getFut, hgg, hr, GPc.rank]
  | read | free => simp [getFut, hgg, GPc.rank]
  | returned | threw | logicError | crashed => simp [getFut, hgg, GPc.rank]

theorem run_getter {cpus own : Nat} (hc : 0 < cpus) (h : List Act) {y : Sys} (I : SInv cpus own y) {i : Nat} {f : Fut} (hf : y.futs i = some f)
    (hw : f.w = .exited) (hg : f.g ≠ .idle) :
    ∃ f', (run cpus own y h).futs i = some f' ∧ f'.job = f.job ∧ f'.g ≠ .idle ∧ f'.g.rank ≤ f.g.rank - times (isGetter i) h := by
  induction h generalizing y f with
  | nil => exact ⟨f, hf, rfl, hg, Nat.le_refl _⟩
  | cons a h ih =>
    obtain ⟨f1, h1, h2, h3, h4, _⟩ := step_fut (cpus := cpus) (own := own) hf a
    have hw1 : f1.w = .exited := by
      rw [h3]
      cases isWorker i a
      · exact hw
      · rw [workerFut_exited hw]; exact hw
    have hr : f1.g ≠ .idle ∧ f1.g.rank ≤ f.g.rank - (if isGetter i a then 1 else 0) := by
      rw [h4 hg]
      cases isGetter i a
      · exact ⟨hg, Nat.le_refl _⟩
      · exact ⟨getFut_notIdle hg, getter_rank (I.fut i f hf) hw hg⟩
    obtain ⟨f', g1, g2, g3, g4⟩ := ih (I.step hc a) h1 hw1 hr.1
    refine ⟨f', g1, g2.trans h2, g3, ?_⟩
    rw [times_cons]
    have := hr.2
    omega

theorem grank_zero {g : GPc} (h : g.rank = 0) : g.final = true := by
  cases g <;> first | rfl | (simp [GPc.rank] at h; done)

theorem run_append (cpus own : Nat) (y : Sys) (h1 h2 : List Act) : run cpus own y (h1 ++ h2) = run cpus own (run cpus own y h1) h2 :=
  List.foldl_append ..

/-! ## Exceptions, when a thread uses one future at a time -/

/-- What the creator's scope says about the worker. -/
def Told (y : Sys) (f : Fut) : Prop :=
  match f.w with
  | .clear => True
  | .call | .noteErr => y.err f.job.scope = none
  | .notePanic => ∀ e, f.job.out = .throws e → y.err f.job.scope = some e.name
  | _ =>
    match f.job.out with
    | .throws e => y.err f.job.scope = some e.name ∧ y.panic f.job.scope = e.panic
    | _ => y.err f.job.scope = none

structure EInv (y : Sys) : Prop where
  alone : ∀ i f, y.futs i = some f → f.g.final = false → ∀ k f', y.futs k = some f' → k ≠ i → f'.job.scope = f.job.scope → f'.g.final = true
  told : ∀ i f, y.futs i = some f → f.g.final = false → Told y f
  threw : ∀ i f, y.futs i = some f → ∀ e, f.g = .threw e → f.job.out = .throws e
  calm : ∀ i f, y.futs i = some f → (f.g = .fin ∨ f.g = .crashed) → ∀ e, f.job.out ≠ .throws e

theorem final_exited {f : Fut} (I : FInv f) (h : f.g.final = true) : f.w = .exited := by
  apply I.join
  have := I.logic
  cases hg : f.g <;> rw [hg] at h this <;> first | rfl | (cases h; done) | exact absurd rfl this

theorem Told.congr {y y' : Sys} {f f' : Fut} (h : Told y f) (he : y'.err f.job.scope = y.err f.job.scope) (hp : y'.panic f.job.scope = y.panic f.job.scope)
    (hj : f'.job = f.job) (hw : f'.w = f.w) : Told y' f' := by
  unfold Told at h ⊢
  rw [hj, hw, he, hp]
  exact h

theorem step_none {cpus own : Nat} {y : Sys} {i : Nat} (h : y.futs i = none) {a : Act} {f' : Fut} (h' : (step cpus own y a).futs i = some f') :
    ∃ j, f' = newFut j ∧ (a = .async i j ∨ a = .spawn i j) := by
  have cl : ∀ (s : Nat) (g : Nat → Option Fut), g i = none → (g i).map (cleanFut y s) ≠ some f' := by
    intro s g hg; rw [hg]; simp
  have no : y.futs i ≠ some f' := by rw [h]; simp
  cases a with
  | async k j =>
    simp only [Fu.step] at h'
    cases hk : y.futs k with
    | some f => rw [hk] at h'; exact absurd h' no
    | none =>
      rw [hk] at h'
      change (if i = k then some (newFut j) else y.futs i) = some f' at h'
      split at h'
      · next e => subst e; cases h'; exact ⟨j, rfl, .inl rfl⟩
      · exact absurd h' no
  | spawn k j =>
    simp only [Fu.step] at h'
    cases hk : y.futs k with
    | some f => rw [hk] at h'; exact absurd h' no
    | none =>
      rw [hk] at h'
      dsimp only at h'
      split at h'
      · change (if i = k then some (newFut j) else y.futs i) = some f' at h'
        split at h'
        · next e => subst e; cases h'; exact ⟨j, rfl, .inr rfl⟩
        · exact absurd h' no
      · exact absurd h' no
  | worker k =>
    simp only [Fu.step] at h'
    cases hk : y.futs k with
    | none => rw [hk] at h'; exact absurd h' no
    | some f =>
      rw [hk] at h'
      dsimp only at h'
      rw [workerStep_futs hk] at h'
      have : i ≠ k := fun e => by subst e; rw [h] at hk; cases hk
      exact absurd ((if_neg this).symm.trans h') no
  | get k s =>
    simp only [Fu.step] at h'
    cases hk : y.futs k with
    | none => rw [hk] at h'; exact absurd h' no
    | some f =>
      rw [hk] at h'
      dsimp only at h'
      have : i ≠ k := fun e => by subst e; rw [h] at hk; cases hk
      split at h'
      · exact absurd ((if_neg this).symm.trans h') no
      · exact absurd h' no
  | getter k =>
    simp only [Fu.step] at h'
    cases hk : y.futs k with
    | none => rw [hk] at h'; exact absurd h' no
    | some f =>
      rw [hk] at h'
      dsimp only at h'
      have : i ≠ k := fun e => by subst e; rw [h] at hk; cases hk
      rw [getStep_futs hk, if_neg this, h] at h'
      cases h'
  | oops s e => exact absurd h' (cl s y.futs h)
  | sync => simp only [Fu.step] at h'; split at h' <;> exact absurd h' no
  | syncer =>
    change (syncStep own y).futs i = some f' at h'
    have ne : ∀ k i' f, y.entry k = some (i', f) → i ≠ i' := by
      intro k i' f he hii
      subst hii
      rw [(entry_eq.mp he).2] at h; cases h
    revert h'
    unfold syncStep
    dsimp only
    split
    case h_1 | h_2 | h_3 | h_4 => exact fun h' => absurd h' no
    case h_5 => split; (split <;> exact fun h' => absurd h' no); exact fun h' => absurd h' no
    case h_6 => split; (split <;> exact fun h' => absurd h' no); exact fun h' => absurd h' no
    case h_7 => split; (split <;> exact fun h' => absurd h' no); exact fun h' => absurd h' no
    case h_8 =>
      split
      · rename_i he
        exact fun h' => absurd ((if_neg (ne _ _ _ he)).symm.trans h') no
      · exact fun h' => absurd h' no
    case h_9 =>
      split
      · rename_i he
        split
        · exact fun h' => absurd h' (cl own (fun k => if k = _ then _ else y.futs k) ((if_neg (ne _ _ _ he)).trans h))
        · exact fun h' => absurd ((if_neg (ne _ _ _ he)).symm.trans h') no
      · exact fun h' => absurd h' no
    case h_10 => exact fun h' => absurd h' (cl own y.futs h)

theorem getFut_final {e : Option Exn} {f : Fut} (h : f.g.final = true) : getFut e f = f := by
  cases hg : f.g <;> rw [hg] at h <;> first | (cases h; done) | simp [getFut, hg]

theorem EInv.of {cpus own : Nat} {y : Sys} {a : Act} (E : EInv y)
    (hn : ∀ i j, y.futs i = none → (a = .async i j ∨ a = .spawn i j) → ∀ k f, y.futs k = some f → f.job.scope = j.scope → f.g.final = true)
    (ht : ∀ i f f', y.futs i = some f → (step cpus own y a).futs i = some f' → f'.job = f.job → f'.w = (if isWorker i a then workerFut f else f).w →
      f.g.final = false → f'.g.final = false → Told (step cpus own y a) f')
    (hg : ∀ i f f', a = .getter i → y.futs i = some f → (step cpus own y a).futs i = some f' → f'.job = f.job → f'.g = (getFut (y.pending f) f).g →
      f.g ≠ .idle → (∀ e, f'.g = .threw e → f'.job.out = .throws e) ∧ ((f'.g = .fin ∨ f'.g = .crashed) → ∀ e, f'.job.out ≠ .throws e)) :
    EInv (step cpus own y a) := by
  have final : ∀ i f f', y.futs i = some f → (step cpus own y a).futs i = some f' → f.g.final = true → f'.g = f.g := by
    intro i f f' h h' hf
    obtain ⟨f1, h1, _, _, h4, _⟩ := step_fut (cpus := cpus) (own := own) h a
    rw [h'] at h1; cases h1
    rw [h4 (fun e => by rw [e] at hf; cases hf)]
    split
    · rw [getFut_final hf]
    · rfl
  refine ⟨?_, ?_, ?_, ?_⟩
  · intro i f' h' hf k f2' h2' hki hsc
    cases h2 : y.futs k with
    | none =>
      obtain ⟨j, rfl, hj⟩ := step_none h2 h2'
      cases h : y.futs i with
      | none =>
        obtain ⟨j', rfl, hj'⟩ := step_none h h'
        exfalso
        apply hki
        rcases hj with rfl | rfl <;> rcases hj' with h | h <;> cases h <;> rfl
      | some f =>
        obtain ⟨f1, h1, hjob, _⟩ := step_fut (cpus := cpus) (own := own) h a
        rw [h'] at h1; cases h1
        have := hn k j h2 hj i f h (by rw [← hjob]; exact hsc.symm)
        rw [final i f f' h h' this] at hf
        rw [hf] at this; cases this
    | some f2 =>
      obtain ⟨f21, h21, hjob2, _⟩ := step_fut (cpus := cpus) (own := own) h2 a
      rw [h2'] at h21; cases h21
      have key : f2.g.final = true := by
        cases h : y.futs i with
        | none =>
          obtain ⟨j', rfl, hj'⟩ := step_none h h'
          exact hn i j' h hj' k f2 h2 (by rw [← hjob2]; exact hsc)
        | some f =>
          obtain ⟨f1, h1, hjob, _⟩ := step_fut (cpus := cpus) (own := own) h a
          rw [h'] at h1; cases h1
          refine E.alone i f h ?_ k f2 h2 hki (by rw [← hjob, ← hjob2]; exact hsc)
          cases hff : f.g.final with
          | false => rfl
          | true => rw [final i f f' h h' hff, hff] at hf; cases hf
      rw [final k f2 f2' h2 h2' key]; exact key
  · intro i f' h' hf
    cases h : y.futs i with
    | none =>
      obtain ⟨j', rfl, hj'⟩ := step_none h h'
      trivial
    | some f =>
      obtain ⟨f1, h1, hjob, hw, _⟩ := step_fut (cpus := cpus) (own := own) h a
      rw [h'] at h1; cases h1
      refine ht i f f' h h' hjob hw ?_ hf
      cases hff : f.g.final with
      | false => rfl
      | true => rw [final i f f' h h' hff, hff] at hf; cases hf
  all_goals
    intro i f' h'
    cases h : y.futs i with
    | none =>
      obtain ⟨j', rfl, hj'⟩ := step_none h h'
      first | exact fun he => Or.elim he nofun nofun | exact fun e he => nomatch he
    | some f =>
      obtain ⟨f1, h1, hjob, hw, hg1, hg2⟩ := step_fut (cpus := cpus) (own := own) h a
      rw [h'] at h1; cases h1
      by_cases hi : f.g = .idle
      · rcases hg2 hi with h3 | h3 <;> rw [h3] <;> first | exact fun he => Or.elim he nofun nofun | exact fun e he => nomatch he
      · have := hg1 hi
        cases hb : isGetter i a with
        | false =>
          rw [hb] at this
          simp only [Bool.false_eq_true, if_false] at this
          rw [this, hjob]
          first | exact E.threw i f h | exact E.calm i f h
        | true =>
          rw [hb] at this
          simp only [if_true] at this
          have ha : a = .getter i := by
            cases a <;> simp [isGetter] at hb
            rw [hb]
          first | exact (hg i f f' ha h h' hjob this hi).1 | exact (hg i f f' ha h h' hjob this hi).2

theorem OneByOne.tail {cpus own : Nat} {y : Sys} {a : Act} {h : List Act} (H : OneByOne cpus own y (a :: h)) : OneByOne cpus own (step cpus own y a) h := H.2

theorem raise_err (y : Sys) (s : Nat) (e : Exn) (k : Nat) : (y.raise s e).err k = if k = s then some e.name else y.err k := rfl
theorem raise_panic (y : Sys) (s : Nat) (e : Exn) (k : Nat) : (y.raise s e).panic k = if k = s then e.panic else y.panic k := rfl

theorem workerStep_err_other {y : Sys} {i : Nat} {f : Fut} {s : Nat} (h : s ≠ f.job.scope) :
    (workerStep y i f).err s = y.err s ∧ (workerStep y i f).panic s = y.panic s := by
  unfold workerStep
  dsimp only
  repeat' split
  all_goals first | exact ⟨rfl, rfl⟩ | exact ⟨if_neg h, rfl⟩ | exact ⟨rfl, if_neg h⟩

theorem workerStep_err_exited {y : Sys} {i : Nat} {f : Fut} (h : f.w = .exited) : workerStep y i f = y := by
  simp [workerStep, h]

theorem Told.worker {y : Sys} {i : Nat} {f : Fut} (I : FInv f) (T : Told y f) {f' : Fut} (hj : f'.job = f.job) (hw : f'.w = (workerFut f).w) :
    Told (workerStep y i f) f' := by
  have hm := I.mutex
  have ht := I.throwing
  unfold Told at T ⊢
  rw [hj, hw]
  obtain ⟨⟨s, arg, out⟩, w, ⟨o, d, m, r, fr⟩, live, g, reg, c⟩ := f
  simp only at hm ht T ⊢
  subst hm
  cases w with
  | clear => exact if_pos rfl
  | call =>
    cases out with
    | throws e => exact T
    | _ => exact T
  | noteErr =>
    obtain ⟨e, rfl⟩ := ht (by simp)
    intro e' he'
    cases he'
    exact if_pos rfl
  | notePanic =>
    obtain ⟨e, rfl⟩ := ht (by simp)
    exact ⟨T e rfl, if_pos rfl⟩
  | test =>
    by_cases ha : arg = .null
    · simp only [workerFut, if_pos ha, workerStep]; exact T
    · simp only [workerFut, if_neg ha, workerStep]; exact T
  | lock => exact T
  | store => exact T
  | unlock => exact T
  | setDone => exact T
  | leave => exact T
  | exited => exact T
  | crashed => exact T

theorem syncStep_err {own : Nat} {y : Sys} {s : Nat} :
    ((syncStep own y).err s = y.err s ∧ (syncStep own y).panic s = y.panic s) ∨
    (s = own ∧ ∃ k i f e, y.pool.s = .close k ∧ y.entry k = some (i, f) ∧ y.pending f = some e ∧ (syncStep own y).err s = some e.name ∧
      (syncStep own y).panic s = e.panic) := by
  have same : (y.err s = y.err s ∧ y.panic s = y.panic s) := ⟨rfl, rfl⟩
  cases hs : y.pool.s with
  | close k =>
    cases he : y.entry k with
    | none => left; simp only [syncStep, hs, he, and_self]
    | some p =>
      obtain ⟨i, f⟩ := p
      cases hp : y.pending f with
      | none => left; simp only [syncStep, hs, he, hp]; exact same
      | some e =>
        by_cases hso : s = own
        · right
          refine ⟨hso, k, i, f, e, rfl, he, hp, ?_, ?_⟩
          · simp only [syncStep, hs, he, hp, raise_err, hso, if_true]
          · simp only [syncStep, hs, he, hp, raise_panic, hso, if_true]
        · left
          simp only [syncStep, hs, he, hp, raise_err, raise_panic, hso, if_false]
          exact same
  | idle | synced | threw | crashed => left; simp only [syncStep, hs, and_self]
  | clean => left; simp only [syncStep, hs]; exact same
  | free k =>
    left
    cases he : y.entry k <;> simp only [syncStep, hs, he] <;> first | exact same | exact ⟨trivial, trivial⟩
  | wait k =>
    left
    cases he : y.entry k with
    | none => simp only [syncStep, hs, he, and_self]
    | some p => simp only [syncStep, hs, he]; split <;> exact same
  | read k =>
    left
    cases he : y.entry k with
    | none => simp only [syncStep, hs, he, and_self]
    | some p => simp only [syncStep, hs, he]; split <;> exact same
  | join k =>
    left
    cases he : y.entry k with
    | none => simp only [syncStep, hs, he, and_self]
    | some p => simp only [syncStep, hs, he]; split <;> exact same

theorem pending_told {y : Sys} {f : Fut} (T : Told y f) (hw : f.w = .exited) (ho : f.p.isOpen = true) :
    y.pending f = match f.job.out with | .throws e => some e | _ => none := by
  unfold Told at T
  rw [hw] at T
  unfold Sys.pending
  rw [if_pos ho]
  cases hout : f.job.out with
  | throws e => rw [hout] at T; rw [T.1, T.2]; rfl
  | null | plain | returning => rw [hout] at T; dsimp only at T; rw [T]; rfl

theorem EInv.step {cpus own : Nat} {y : Sys} {a : Act} {h : List Act} (S : SInv cpus own y) (E : EInv y)
    (H : OneByOne cpus own y (a :: h)) : EInv (step cpus own y a) := by
  have H1 := H.1
  refine E.of ?_ ?_ ?_
  · rintro i j _ (rfl | rfl) <;> exact H1
  · intro i f f' hf hf' hj hw hff hff'
    have T := E.told i f hf hff
    cases a with
    | async k j =>
      refine T.congr ?_ ?_ hj hw <;> (simp only [Fu.step]; split <;> rfl)
    | spawn k j =>
      refine T.congr ?_ ?_ hj hw <;> (simp only [Fu.step]; split; (split <;> rfl); rfl)
    | sync =>
      refine T.congr ?_ ?_ hj hw <;> (simp only [Fu.step]; split <;> rfl)
    | get k s =>
      refine T.congr ?_ ?_ hj hw <;> (simp only [Fu.step]; split; rfl; (split <;> rfl))
    | oops s e =>
      have hs : f.job.scope ≠ s := fun e => by
        have := H1 i f hf e
        rw [hff] at this; cases this
      exact T.congr (by show (y.raise s e).err _ = _; rw [raise_err, if_neg hs]) (by show (y.raise s e).panic _ = _; rw [raise_panic, if_neg hs]) hj hw
    | worker k =>
      simp only [Fu.step]
      cases hk : y.futs k with
      | none =>
        have : k ≠ i := fun e => by subst e; rw [hf] at hk; cases hk
        exact T.congr rfl rfl hj (by rw [hw, isWorker, if_neg (by simpa using this)])
      | some fk =>
        dsimp only
        by_cases e : k = i
        · subst e
          rw [hf] at hk; cases hk
          exact Told.worker (S.fut k f hf) T hj (by rw [hw, isWorker, if_pos (by simp)])
        · have hw' : f'.w = f.w := by rw [hw, isWorker, if_neg (by simpa using e)]
          by_cases hsc : f.job.scope = fk.job.scope
          · have := E.alone i f hf hff k fk hk e hsc.symm
            rw [workerStep_err_exited (final_exited (S.fut k fk hk) this)]
            exact T.congr rfl rfl hj hw'
          · obtain ⟨h1, h2⟩ := workerStep_err_other (y := y) (i := k) hsc
            exact T.congr h1 h2 hj hw'
    | getter k =>
      have hw' : f'.w = f.w := hw
      simp only [Fu.step]
      cases hk : y.futs k with
      | none => exact T.congr rfl rfl hj hw'
      | some fk =>
        dsimp only
        by_cases hcl : fk.g = .close ∧ (y.pending fk).isSome
        · obtain ⟨e, he⟩ := Option.isSome_iff_exists.mp hcl.2
          have heq : getStep y k fk = ((y.touch (!fk.live || fk.p.freed)).setFut k { fk with g := .threw e, p := fk.p.close }).raise fk.caller e := by
            simp only [getStep, hcl.1, he]
          by_cases e' : k = i
          · subst e'
            rw [hf] at hk; cases hk
            exfalso
            simp only [Fu.step, hf] at hf'
            rw [getStep_futs hf, if_pos rfl] at hf'
            simp only [Option.map_some, Option.some.injEq] at hf'
            rw [← hf', if_pos hcl, (Quiet.clean _ _).g, he] at hff'
            simp [getFut, hcl.1, GPc.final] at hff'
          · have hs : f.job.scope ≠ fk.caller := fun e => by
              have := H1 fk hk i f hf (Ne.symm e') e
              rw [hff] at this; cases this
            rw [heq]
            exact T.congr (by rw [raise_err, if_neg hs]; rfl) (by rw [raise_panic, if_neg hs]; rfl) hj hw'
        · have : (getStep y k fk).err = y.err ∧ (getStep y k fk).panic = y.panic := by
            cases hg : fk.g with
            | close =>
              cases hp : y.pending fk with
              | some e => exact absurd ⟨hg, by rw [hp]; rfl⟩ hcl
              | none => simp only [getStep, hg, hp]; exact ⟨rfl, rfl⟩
            | idle | returned | threw | logicError | crashed => simp only [getStep, hg, and_self]
            | check | read | free => simp only [getStep, hg]; exact ⟨rfl, rfl⟩
            | wait | join | fin => simp only [getStep, hg]; split <;> exact ⟨rfl, rfl⟩
          exact T.congr (by rw [this.1]) (by rw [this.2]) hj hw'
    | syncer =>
      have hw' : f'.w = f.w := hw
      show Told (syncStep own y) f'
      rcases syncStep_err (own := own) (y := y) (s := f.job.scope) with ⟨h1, h2⟩ | ⟨hso, k, i', fk, e, hs, he, hp, h1, h2⟩
      · exact T.congr h1 h2 hj hw'
      · obtain ⟨he1, he2⟩ := entry_eq.mp he
        obtain ⟨f3, h3, h4, h5⟩ := S.pool.known i' (List.mem_of_getElem? he1)
        rw [he2] at h3; cases h3
        have hp' : (y.err fk.job.scope).map (fun n => (⟨n, y.panic fk.job.scope⟩ : Exn)) = some e := by
          unfold Sys.pending at hp
          split at hp
          · exact hp
          · cases hp
        rw [h5, ← hso] at hp'
        cases herr : y.err f.job.scope with
        | none => rw [herr] at hp'; cases hp'
        | some n =>
          rw [herr] at hp'
          simp only [Option.map_some, Option.some.injEq] at hp'
          subst hp'
          exact T.congr (h1.trans herr.symm) h2 hj hw'
  · rintro i f f' rfl hf hf' hj hg hi
    have I := S.fut i f hf
    rw [hj]
    cases hgg : f.g with
    | close =>
      have T := E.told i f hf (by rw [hgg]; rfl)
      have hw := I.join (by rw [hgg]; rfl)
      have ho := I.opened (by rw [hgg]; rfl) hi
      have hp := pending_told T hw ho
      rw [hp] at hg
      rw [hg]
      cases hout : f.job.out with
      | throws e =>
        simp only [getFut, hgg]
        exact ⟨fun e' he' => (by cases he'; rfl), fun h => (by rcases h with h | h <;> cases h)⟩
      | null | plain | returning =>
        simp only [getFut, hgg]
        exact ⟨fun e' he' => (by cases he'), fun _ e he => (by cases he)⟩
    | fin =>
      refine ⟨fun e he => ?_, fun _ => E.calm i f hf (.inl hgg)⟩
      rw [hg] at he
      simp only [getFut, hgg] at he
      split at he <;> cases he
    | crashed =>
      refine ⟨fun e he => ?_, fun _ => E.calm i f hf (.inr hgg)⟩
      rw [hg] at he
      simp only [getFut, hgg] at he
      cases he
    | threw e0 =>
      have : (getFut (y.pending f) f).g = f.g := by simp only [getFut, hgg]
      rw [this] at hg
      rw [hg]
      refine ⟨E.threw i f hf, fun h => ?_⟩
      rcases h with h | h <;> rw [hgg] at h <;> cases h
    | idle => exact absurd hgg hi
    | _ =>
      constructor
      · intro e he
        rw [hg] at he
        exfalso
        revert he
        simp only [getFut, hgg]
        try split
        all_goals simp [hgg]
      · intro he
        rw [hg] at he
        exfalso
        revert he
        simp only [getFut, hgg]
        try split
        all_goals simp [hgg]

theorem EInv.init : EInv init :=
  ⟨fun i f h => (by cases h), fun i f h => (by cases h), fun i f h => (by cases h), fun i f h => (by cases h)⟩

theorem EInv.run {cpus own : Nat} (hc : 0 < cpus) (h : List Act) {y : Sys} (S : SInv cpus own y) (E : EInv y) (H : OneByOne cpus own y h) :
    EInv (run cpus own y h) := by
  induction h generalizing y with
  | nil => exact E
  | cons a h ih => exact ih (S.step hc a) (E.step S H) H.2

end Verif.Fu
