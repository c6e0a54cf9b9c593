import Verif.Spec.Atomic
/-!
# The loops behave as the atomic machine: proofs
-/
namespace Verif.At

def Pc.abs {w : Nat} : Pc w → APc w
  | .idle => .idle
  | .start a op => .before a op
  | .got a op _ => .before a op
  | .done r => .after r

def St.abs {w : Nat} (st : St w) : ASt w := ⟨st.mem, fun i => (st.pc i).abs⟩

theorem abs_setPc {w : Nat} (st : St w) (i : Nat) (p : Pc w) :
    (st.setPc i p).abs = ⟨st.mem, upd st.abs.pc i p.abs⟩ := by
  simp only [St.abs, St.setPc, ASt.mk.injEq, true_and]
  funext j
  simp only [upd]
  split <;> rfl

theorem swap_pc {w : Nat} (st : St w) (a : Nat) (e d : BitVec w) : (swap st a e d).pc = st.pc := by
  unfold swap; split <;> rfl

theorem swap_mem {w : Nat} (st : St w) (a : Nat) (e d : BitVec w) :
    (swap st a e d).mem = upd st.mem a (if st.mem a = e then d else st.mem a) := by
  funext b
  by_cases h : st.mem a = e <;> by_cases hb : b = a <;> simp [swap, upd, St.setMem, h, hb]

theorem loop_meaning {w : Nat} (op : Op w) (h : op.loops = true) (v : BitVec w) :
    op.meaning v = (op.newValue v, op.loopRet v) := by
  cases op <;> first | rfl | (simp [Op.loops] at h)

/-- Every thread in the middle of a loop is running an operation that loops. -/
def Loops {w : Nat} (st : St w) : Prop := ∀ i a op old, st.pc i = .got a op old → op.loops = true

theorem upd_same {α : Type} (f : Nat → α) (i : Nat) {x : α} (h : f i = x) : upd f i x = f := by
  funext j; unfold upd; split <;> simp_all

theorem setPc_pc {w : Nat} (st : St w) (i j : Nat) (p : Pc w) :
    (st.setPc i p).pc j = if j = i then p else st.pc j := rfl

theorem Loops.setPc {w : Nat} {st : St w} (h : Loops st) (i : Nat) (p : Pc w)
    (hp : ∀ a op old, p = .got a op old → op.loops = true) : Loops (st.setPc i p) := by
  intro j a op old e
  rw [setPc_pc] at e
  split at e
  · exact hp a op old e
  · exact h j a op old e

theorem Loops.swap {w : Nat} {st : St w} (h : Loops st) (a : Nat) (e d : BitVec w) : Loops (swap st a e d) := by
  intro j b op old e
  rw [swap_pc] at e
  exact h j b op old e

theorem Loops.step {w : Nat} {st st' : St w} (h : Loops st) {p : Prim} {l : Lbl w}
    (hs : At.step p st l = some st') : Loops st' := by
  cases l with
  | call i a op =>
    simp only [At.step] at hs
    split at hs <;> try contradiction
    injection hs with hs; subst hs
    exact h.setPc _ _ (by intros; contradiction)
  | read i v =>
    simp only [At.step] at hs
    split at hs <;> try contradiction
    split at hs <;> try contradiction
    injection hs with hs; subst hs
    refine h.setPc _ _ ?_
    intro a op old e
    cases e
    assumption
  | cas i =>
    simp only [At.step] at hs
    split at hs
    · split at hs <;> (injection hs with hs; subst hs) <;>
        exact (h.swap _ _ _).setPc _ _ (by intros; contradiction)
    · injection hs with hs; subst hs
      exact (h.swap _ _ _).setPc _ _ (by intros; contradiction)
    · split at hs <;> (injection hs with hs; subst hs) <;>
        exact (h.swap _ _ _).setPc _ _ (by intros; contradiction)
    · contradiction
  | ret i r =>
    simp only [At.step] at hs
    split at hs <;> try contradiction
    split at hs <;> try contradiction
    injection hs with hs; subst hs
    exact h.setPc _ _ (by intros; contradiction)

theorem Atomically.of_eq {w : Nat} {mem : Nat → BitVec w} {t t' : List (Ev w)} {s s' : ASt w}
    (h : Atomically mem t s) (ht : t = t') (hs : s = s') : Atomically mem t' s' := by subst ht hs; exact h

/-- One step of the code is at most one step of the atomic machine. -/
theorem sim {w : Nat} {mem : Nat → BitVec w} {t : List (Ev w)} {st st' : St w} (hl : Loops st) {l : Lbl w}
    (hs : At.step .value st l = some st') (h : Atomically mem t st.abs) :
    Atomically mem (t ++ visible [l]) st'.abs := by
  cases l with
  | call i a op =>
    simp only [At.step] at hs
    split at hs <;> try contradiction
    rename_i hp
    injection hs with hs; subst hs
    rw [abs_setPc]
    exact h.call i a op (by simp only [St.abs, hp]; rfl)
  | read i v =>
    simp only [At.step] at hs
    split at hs <;> try contradiction
    rename_i a op hp
    split at hs <;> try contradiction
    injection hs with hs; subst hs
    refine h.of_eq (by simp [visible]) ?_
    rw [abs_setPc, upd_same]
    · rfl
    · simp only [St.abs, hp]; rfl
  | cas i =>
    have hv : t = t ++ visible [Lbl.cas (w := w) i] := by simp [visible]
    simp only [At.step] at hs
    split at hs
    · rename_i a op old hp
      have hb : st.abs.pc i = .before a op := by simp only [St.abs, hp]; rfl
      have hm := loop_meaning op (hl i a op old hp)
      by_cases e : st.mem a = old
      · rw [if_pos (show Prim.value.result (st.mem a) old = old from e)] at hs
        injection hs with hs; subst hs
        refine (h.effect i a op hb).of_eq hv ?_
        rw [abs_setPc, swap_mem, hm, if_pos e]
        simp only [St.abs, swap_pc, e]
        rfl
      · rw [if_neg (show ¬ Prim.value.result (st.mem a) old = old from e)] at hs
        injection hs with hs; subst hs
        refine h.of_eq hv ?_
        rw [abs_setPc, swap_mem, if_neg e, upd_same _ _ rfl, upd_same]
        · simp only [St.abs, swap_pc]
        · simp only [St.abs, swap_pc, hp]; rfl
    · rename_i a hp
      have hb : st.abs.pc i = .before a .load := by simp only [St.abs, hp]; rfl
      injection hs with hs; subst hs
      refine (h.effect i a .load hb).of_eq hv ?_
      rw [abs_setPc, swap_mem]
      have : (if st.mem a = 0 then (0 : BitVec w) else st.mem a) = st.mem a := by split <;> first | rfl | (rename_i h0; exact h0.symm)
      rw [this]
      simp only [St.abs, swap_pc]
      rfl
    · rename_i a e d hp
      have hb : st.abs.pc i = .before a (.compareExchange e d) := by simp only [St.abs, hp]; rfl
      by_cases he : st.mem a = e
      · rw [if_pos (show Prim.value.result (st.mem a) e = e from he)] at hs
        injection hs with hs; subst hs
        refine (h.effect i a _ hb).of_eq hv ?_
        rw [abs_setPc, swap_mem, if_pos he]
        simp only [St.abs, swap_pc, Op.meaning, he, if_true]
        rfl
      · rw [if_neg (show ¬ Prim.value.result (st.mem a) e = e from he)] at hs
        injection hs with hs; subst hs
        refine (h.effect i a _ hb).of_eq hv ?_
        rw [abs_setPc, swap_mem, if_neg he]
        simp only [St.abs, swap_pc, Op.meaning, he, if_false]
        rfl
    · contradiction
  | ret i r =>
    simp only [At.step] at hs
    split at hs <;> try contradiction
    rename_i r' hp
    split at hs <;> try contradiction
    rename_i e
    subst e
    injection hs with hs; subst hs
    rw [abs_setPc]
    exact h.ret i r (by simp only [St.abs, hp]; rfl)

theorem visible_cons {w : Nat} (l : Lbl w) (ls : List (Lbl w)) : visible (l :: ls) = visible [l] ++ visible ls := by
  cases l <;> rfl

theorem sim_run {w : Nat} {mem : Nat → BitVec w} (ls : List (Lbl w)) :
    ∀ {t : List (Ev w)} {st st' : St w}, Loops st → At.run .value st ls = some st' → Atomically mem t st.abs →
      Atomically mem (t ++ visible ls) st'.abs := by
  induction ls with
  | nil =>
    intro t st st' _ hs h
    simp only [At.run, Option.some.injEq] at hs
    subst hs
    simpa [visible] using h
  | cons l ls ih =>
    intro t st st' hl hs h
    simp only [At.run] at hs
    cases h1 : At.step .value st l with
    | none => simp [h1] at hs
    | some s1 =>
      simp only [h1, Option.bind_some] at hs
      have := ih (hl.step h1) hs (sim hl h1 h)
      rw [visible_cons, ← List.append_assoc]
      exact this

/-! ## Retries -/

theorem swap_same {w : Nat} (st : St w) (a b : Nat) (e d : BitVec w)
    (h : (swap st a e d).mem a = st.mem a) : (swap st a e d).mem b = st.mem b := by
  rw [swap_mem] at h ⊢
  simp only [upd, if_true] at h ⊢
  split <;> simp_all

/-- Is thread `i` bound to fail? -/
def pend {w : Nat} (i : Nat) (st : St w) : Nat :=
  match st.pc i with
  | .got a _ old => if st.mem a = old then 0 else 1
  | _ => 0

theorem pend_le {w : Nat} (i : Nat) (st : St w) : pend i st ≤ 1 := by
  unfold pend; split <;> (try split) <;> omega

theorem pend_eq {w : Nat} (i : Nat) {st st' : St w} (hp : st'.pc i = st.pc i) (hm : st'.mem = st.mem) :
    pend i st' = pend i st := by unfold pend; rw [hp, hm]

theorem pend_setPc {w : Nat} {i j : Nat} (hj : ¬ i = j) {st : St w} {p : Pc w} :
    pend i (st.setPc j p) = pend i st :=
  pend_eq i (by rw [setPc_pc, if_neg hj]) rfl

theorem pend_not {w : Nat} (i : Nat) {st : St w} (h : ∀ a op old, st.pc i ≠ .got a op old) : pend i st = 0 := by
  unfold pend
  split
  · exact absurd ‹_› (h _ _ _)
  · rfl

/-- A step costs at most one retry, and only one that another thread's change has paid for. -/
theorem retry_step {w : Nat} (i : Nat) {st st' : St w} {l : Lbl w} (hs : At.step .value st l = some st')
    (ha : accurate st l) : retry i st l + pend i st' ≤ changes i st l + pend i st := by
  cases l with
  | call j a op =>
    simp only [At.step] at hs
    split at hs <;> try contradiction
    rename_i hp
    injection hs with hs; subst hs
    by_cases hj : i = j
    · subst hj
      rw [pend_not i (by intro a op old; simp [setPc_pc])]
      simp [retry]
    · rw [pend_setPc hj]
      simp [retry]
  | read j v =>
    simp only [At.step] at hs
    split at hs <;> try contradiction
    rename_i a op hp
    split at hs <;> try contradiction
    injection hs with hs; subst hs
    by_cases hj : i = j
    · subst hj
      have : pend i (st.setPc i (.got a op v)) = 0 := by
        have := ha a op hp
        simp [pend, St.setPc, this]
      rw [this]
      simp [retry]
    · rw [pend_setPc hj]
      simp [retry]
  | ret j r =>
    simp only [At.step] at hs
    split at hs <;> try contradiction
    split at hs <;> try contradiction
    injection hs with hs; subst hs
    by_cases hj : i = j
    · subst hj
      rw [pend_not i (by intro a op old; simp [setPc_pc])]
      simp [retry]
    · rw [pend_setPc hj]
      simp [retry]
  | cas j =>
    by_cases hj : i = j
    · subst hj
      simp only [retry, changes]
      simp only [At.step] at hs
      split at hs
      · rename_i a op old hp
        have hn : pend i st' = 0 := by
          split at hs <;> (injection hs with hs; subst hs) <;>
            exact pend_not i (by intro a op old; simp [setPc_pc])
        rw [hn]
        simp only [pend, hp]
        split <;> simp_all
      · rename_i hp
        injection hs with hs; subst hs
        rw [pend_not i (by intro a op old; simp [setPc_pc])]
        simp [hp]
      · rename_i hp
        rw [pend_not i (st := st') (by
          split at hs <;> (injection hs with hs; subst hs) <;> (intro a op old; simp [setPc_pc]))]
        simp [hp]
      · contradiction
    · have hr : retry i st (.cas j) = 0 := by
        simp only [retry]
        split
        · rename_i h; exact absurd h.symm hj
        · rfl
      have hpc : st'.pc i = st.pc i := by
        simp only [At.step] at hs
        split at hs
        · split at hs <;> (injection hs with hs; subst hs) <;> simp [setPc_pc, hj, swap_pc]
        · injection hs with hs; subst hs; simp [setPc_pc, hj, swap_pc]
        · split at hs <;> (injection hs with hs; subst hs) <;> simp [setPc_pc, hj, swap_pc]
        · contradiction
      have key : ∀ c, (st.pc j).cell = some c → (∃ e d, st'.mem = (swap st c e d).mem) →
          pend i st' ≤ changes i st (.cas j) + pend i st := by
        intro c hc ⟨e, d, hm⟩
        by_cases hcc : st'.mem c = st.mem c
        · have : st'.mem = st.mem := by
            rw [hm] at hcc ⊢
            funext b
            exact swap_same st c b e d hcc
          rw [pend_eq i hpc this]
          omega
        · have : changes i st (.cas j) = 1 := by
            simp only [changes, hc, hs]
            rw [if_pos ⟨fun h => hj h.symm, hcc⟩]
          have := pend_le i st'
          omega
      rw [hr, Nat.zero_add]
      simp only [At.step] at hs
      split at hs
      · rename_i a op old hp
        refine key a (by rw [hp]; rfl) ⟨old, op.newValue old, ?_⟩
        split at hs <;> (injection hs with hs; subst hs) <;> rfl
      · rename_i a hp
        refine key a (by rw [hp]; rfl) ⟨0, 0, ?_⟩
        injection hs with hs; subst hs; rfl
      · rename_i a e d hp
        refine key a (by rw [hp]; rfl) ⟨e, d, ?_⟩
        split at hs <;> (injection hs with hs; subst hs) <;> rfl
      · contradiction

theorem retries_le {w : Nat} (i : Nat) (ls : List (Lbl w)) : ∀ (st : St w), Accurate st ls →
    total (retry i) st ls ≤ total (changes i) st ls + pend i st := by
  induction ls with
  | nil => intro st _; simp [total]
  | cons l ls ih =>
    intro st ha
    simp only [total]
    cases hs : At.step .value st l with
    | none => simp [Accurate, hs] at ha
    | some st' =>
      simp only [Accurate, hs] at ha
      have h1 := retry_step i hs ha.1
      have h2 := ih st' ha.2
      dsimp only
      omega

end Verif.At
