import Verif.Spec.Wait
/-!
# C76: waiting for processes on Windows
-/
namespace Verif.Props
open Verif Verif.Wt

/-- As POSIX has it, for every number of a process and `-1`, with and without `WNOHANG`. -/
def C76_Full : Prop := ∀ (e : Env) (pid : D) (want hang : Bool), e.query = true → (pid = -1 ∨ 0 < pid.toInt) →
  Spec.Right e pid want hang (waitpid e pid want (if hang then 0 else WNOHANG))

namespace C76

theorem reaped_status (code : D) : Spec.Exited ((code &&& 0xFF) <<< 8) code := by
  have e : ((code &&& 0xFF) <<< 8 : D).toNat = code.toNat % 256 * 256 := by
    rw [BitVec.toNat_shiftLeft, BitVec.toNat_and, show (0xFF : D).toNat = 2 ^ 8 - 1 from rfl, Nat.and_two_pow_sub_one_eq_mod, Nat.shiftLeft_eq]
    have : code.toNat % 2 ^ 8 < 256 := Nat.mod_lt _ (by decide)
    rw [Nat.mod_eq_of_lt (by omega)]
  have low : ((code &&& 0xFF) <<< 8 : D) &&& 0xFF = 0 := by
    apply BitVec.eq_of_toNat_eq
    rw [BitVec.toNat_and, e, show (0xFF : D).toNat = 2 ^ 8 - 1 from rfl, Nat.and_two_pow_sub_one_eq_mod]
    show _ = 0
    omega
  have low7 : ((code &&& 0xFF) <<< 8 : D) &&& 0x7F = 0 := by
    apply BitVec.eq_of_toNat_eq
    rw [BitVec.toNat_and, e, show (0x7F : D).toNat = 2 ^ 7 - 1 from rfl, Nat.and_two_pow_sub_one_eq_mod]
    show _ = 0
    omega
  refine ⟨?_, ?_, ?_, ?_⟩
  · simp only [WIFEXITED, WTERMSIG, low7, decide_true]
  · have h : (((code &&& 0xFF) <<< 8 : D) &&& (0xFF00 : D)) = (code &&& 0xFF) <<< 8 := by
      have q : ∀ x : BitVec 8, ((x.setWidth 32 : D) <<< 8) &&& (0xFF00 : D) = (x.setWidth 32 : D) <<< 8 := by
        intro x
        apply BitVec.eq_of_getLsbD_eq
        intro i hi
        have : (0xFF00 : D) = (BitVec.allOnes 8).setWidth 32 <<< 8 := by decide
        rw [this]
        simp only [BitVec.getLsbD_and, BitVec.getLsbD_shiftLeft, BitVec.getLsbD_setWidth, BitVec.getLsbD_allOnes]
        by_cases c : i - 8 < 8
        · simp [c]
          intros
          omega
        · have : x.getLsbD (i - 8) = false := BitVec.getLsbD_of_ge _ _ (by omega)
          simp [this]
      have w : (code &&& 0xFF : D) = (code.setWidth 8).setWidth 32 := by
        apply BitVec.eq_of_toNat_eq
        rw [BitVec.toNat_and, show (0xFF : D).toNat = 2 ^ 8 - 1 from rfl, Nat.and_two_pow_sub_one_eq_mod, BitVec.toNat_setWidth, BitVec.toNat_setWidth]
        have : code.toNat % 2 ^ 8 < 256 := Nat.mod_lt _ (by decide)
        rw [Nat.mod_eq_of_lt (by omega : code.toNat % 2 ^ 8 < 2 ^ 32)]
      rw [w]
      exact q _
    have m : ((code &&& 0xFF) <<< 8 : D).msb = false := by
      rw [BitVec.msb_eq_decide, e]
      have : code.toNat % 256 < 256 := Nat.mod_lt _ (by decide)
      simp only [decide_eq_false_iff_not]
      omega
    rw [WEXITSTATUS, h, BitVec.sshiftRight_eq_of_msb_false m, BitVec.toNat_ushiftRight, e, Nat.shiftRight_eq_div_pow]
    omega
  · simp only [WIFSIGNALED, WTERMSIG, low7]
    decide
  · simp only [WIFSTOPPED, low]
    decide

end C76

/-- A status that is stored is that of the process found, as far as Windows knows it, and the caller learns no more than the low eight bits of the exit code. -/
theorem C76_status (e : Env) (pid : D) (want : Bool) (options : D) (o : Out) (s : D) (h : waitpid e pid want options = .done o) (hs : o.status = some s) (hq : e.query = true) :
    ∃ ps p code, e.list = some ps ∧ p ∈ ps ∧ (if pid = -1 then p.parent = e.self else p.pid = pid) ∧
      (e.life p.pid = .ended code ∨ e.life p.pid = .running (some code)) ∧ Spec.Exited s code := by
  unfold waitpid waitInternal at h
  dsimp only at h
  split at h
  · cases h; cases hs
  split at h
  · cases h
  cases hl : e.list with
  | none => rw [hl] at h; cases h; cases hs
  | some ps =>
    rw [hl] at h
    dsimp only at h
    cases hf : ps.find? (fun p => if pid = -1 then p.parent = e.self else p.pid = pid) with
    | none => rw [hf] at h; cases h; cases hs
    | some p =>
      rw [hf] at h
      dsimp only at h
      have hp := List.find?_some hf
      have hm := List.mem_of_find?_eq_some hf
      cases ho : e.opens p.pid with
      | false => simp only [ho, Bool.not_false, if_true] at h; cases h; cases hs
      | true =>
        simp only [ho, Bool.not_true, Bool.false_eq_true, if_false] at h
        have done : ∀ code, reaped e p code want = .done o → Spec.Exited s code := by
          intro code q
          simp only [reaped, hq, if_true] at q
          cases q
          cases want with
          | false => cases hs
          | true => cases hs; exact C76.reaped_status code
        refine ⟨ps, p, ?_⟩
        cases hy : e.life p.pid with
        | ended code => rw [hy] at h; exact ⟨code, rfl, hm, by simpa using hp, .inl rfl, done code h⟩
        | running later =>
          rw [hy] at h
          dsimp only at h
          split at h
          · cases h; cases hs
          · cases later with
            | none => cases h
            | some code => exact ⟨code, rfl, hm, by simpa using hp, .inr rfl, done code h⟩

namespace C76
/-- Process 7 with children 8, which runs, and 9, which exited with 300. -/
def env : Env := ⟨7, some [⟨7, 1⟩, ⟨8, 7⟩, ⟨9, 7⟩], fun _ => true, fun p => if p = 9 then .ended 300 else .running none, true⟩
end C76

example : waitpid C76.env 9 true 0 = .done ⟨7, some 0x2C00, none, 0⟩ := by decide

/-- Whatever is found, the number returned is that of the parent of the process: for `wait`, the caller's own. -/
theorem C76_parent (e : Env) (pid : D) (want : Bool) (options : D) (o : Out) (h : waitpid e pid want options = .done o) (hn : o.errno = none) :
    (o.ret = 0 ∧ o.left = 2) ∨ ∃ ps p, e.list = some ps ∧ p ∈ ps ∧ (if pid = -1 then p.parent = e.self else p.pid = pid) ∧ o.ret = p.parent ∧ (pid = -1 → o.ret = e.self) := by
  unfold waitpid waitInternal at h
  dsimp only at h
  split at h
  · cases h; cases hn
  split at h
  · cases h
  cases hl : e.list with
  | none => rw [hl] at h; cases h; cases hn
  | some ps =>
    rw [hl] at h
    dsimp only at h
    cases hf : ps.find? (fun p => if pid = -1 then p.parent = e.self else p.pid = pid) with
    | none => rw [hf] at h; cases h; cases hn
    | some p =>
      rw [hf] at h
      dsimp only at h
      have hp := List.find?_some hf
      have hm := List.mem_of_find?_eq_some hf
      have hp : if pid = -1 then p.parent = e.self else p.pid = pid := by simpa using hp
      cases ho : e.opens p.pid with
      | false => simp only [ho, Bool.not_false, if_true] at h; cases h; cases hn
      | true =>
        simp only [ho, Bool.not_true, Bool.false_eq_true, if_false] at h
        have done : ∀ code, reaped e p code want = .done o → o.ret = p.parent ∧ (pid = -1 → o.ret = e.self) := by
          intro code q
          cases q
          refine ⟨rfl, fun q => ?_⟩
          rw [if_pos q] at hp
          exact hp
        cases hy : e.life p.pid with
        | ended code => rw [hy] at h; exact .inr ⟨ps, p, rfl, hm, hp, done code h⟩
        | running later =>
          rw [hy] at h
          dsimp only at h
          split at h
          · cases h; exact .inl ⟨rfl, rfl⟩
          · cases later with
            | none => cases h
            | some code => exact .inr ⟨ps, p, rfl, hm, hp, done code h⟩

theorem C76_full_false : ¬ C76_Full := by
  intro h
  have := h C76.env 9 true true rfl (.inr (by decide))
  have e : waitpid C76.env 9 true (if true then 0 else WNOHANG) = .done ⟨7, some 0x2C00, none, 0⟩ := by decide
  rw [e] at this
  obtain ⟨-, ⟨p, code, ⟨-, -, hp⟩, -, hr, -⟩ | ⟨hr, -⟩ | ⟨-, hr⟩⟩ := this
  · rcases hp with hp | hp
    · exact absurd hp (by decide)
    · rw [hp] at hr; exact absurd hr (by decide)
  · cases hr
  · cases hr

/-- Handles: all are closed when the call returns, except that two stay open whenever a process asked for with `WNOHANG` is still running. -/
theorem C76_handles (e : Env) (pid : D) (want : Bool) (options : D) (o : Out) (h : waitpid e pid want options = .done o) :
    (o.left = 0 ∨ o.left = 2) ∧ (o.left = 2 ↔ o = ⟨0, none, none, 2⟩) ∧
    (o.left = 2 → ∃ ps p l, e.list = some ps ∧ p ∈ ps ∧ e.life p.pid = .running l ∧ options &&& WNOHANG = WNOHANG) := by
  unfold waitpid waitInternal at h
  dsimp only at h
  have zero : ∀ o : Out, o.left = 0 → ((o.left = 0 ∨ o.left = 2) ∧ (o.left = 2 ↔ o = ⟨0, none, none, 2⟩) ∧
      (o.left = 2 → ∃ ps p l, e.list = some ps ∧ p ∈ ps ∧ e.life p.pid = .running l ∧ options &&& WNOHANG = WNOHANG)) := by
    intro o h0
    exact ⟨.inl h0, ⟨(fun q => by omega), (fun q => by rw [q])⟩, (fun q => by omega)⟩
  split at h
  · exact zero o (by cases h; rfl)
  split at h
  · cases h
  obtain hl | ⟨ps, hl⟩ : e.list = none ∨ ∃ ps, e.list = some ps := by cases e.list with
    | none => exact .inl rfl
    | some ps => exact .inr ⟨ps, rfl⟩
  · rw [hl] at h; exact zero o (by cases h; rfl)
  rw [hl] at h
  dsimp only at h
  split at h
  · exact zero o (by cases h; rfl)
  next p hf =>
  have hm := List.mem_of_find?_eq_some hf
  split at h
  · exact zero o (by cases h; rfl)
  split at h
  · exact zero o (by cases h; rfl)
  next later hy =>
  split at h
  · next hw =>
    refine ⟨.inr (by cases h; rfl), ⟨fun _ => by cases h; rfl, fun q => by rw [q]⟩, fun _ => ⟨ps, p, later, hl, hm, hy, ?_⟩⟩
    rw [BitVec.and_comm]
    simpa using hw
  · split at h
    · cases h
    · exact zero o (by cases h; rfl)

example : waitpid C76.env 8 true WNOHANG = .done ⟨0, none, none, 2⟩ := by decide

/-- What is right: asked about one child, listed and readable, the call tells rightly whether it is over, with its status; only the number is that of the parent, and handles
stay open. -/
theorem C76_one_partial (e : Env) (ps : List Proc) (p : Proc) (want hang : Bool) (hq : e.query = true) (hl : e.list = some ps) (hp : p ∈ ps) (hu : ∀ q ∈ ps, q.pid = p.pid → q = p)
    (ho : e.opens p.pid = true) (hpos : 0 < p.pid.toInt) :
    match e.life p.pid, hang with
    | .ended code, _ | .running (some code), true => ∃ s, Spec.Exited s code ∧ waitpid e p.pid want (if hang then 0 else WNOHANG) = .done ⟨p.parent, if want then some s else none, none, 0⟩
    | .running _, false => waitpid e p.pid want (if hang then 0 else WNOHANG) = .done ⟨0, none, none, 2⟩
    | .running none, true => waitpid e p.pid want (if hang then 0 else WNOHANG) = .never := by
  have hm1 : p.pid ≠ -1 := by rintro c; rw [c] at hpos; exact absurd hpos (by decide)
  have hfind : ps.find? (fun q => if p.pid = -1 then q.parent = e.self else q.pid = p.pid) = some p := by
    cases hf : ps.find? (fun q => if p.pid = -1 then q.parent = e.self else q.pid = p.pid) with
    | none =>
      have := List.find?_eq_none.1 hf p hp
      rw [if_neg hm1] at this
      exact absurd (decide_eq_true rfl) this
    | some q =>
      have h1 := List.find?_some hf
      have h2 := List.mem_of_find?_eq_some hf
      simp only [hm1, if_false, decide_eq_true_eq] at h1
      rw [hu q h2 h1]
  have hopt : ∀ b : Bool, (if b then (0 : D) else WNOHANG) &&& ~~~ (WUNTRACED ||| WNOWAIT ||| WCONTINUED ||| WNOHANG) = 0 := by decide
  have hno : (decide (WNOHANG &&& (if hang then (0 : D) else WNOHANG) = WNOHANG)) = !hang := by cases hang <;> decide
  have hw : waitpid e p.pid want (if hang then 0 else WNOHANG) = match e.life p.pid with
      | .ended code => reaped e p code want
      | .running later => if !hang then .done ⟨0, none, none, 2⟩ else match later with
        | none => .never
        | some code => reaped e p code want := by
    unfold waitpid waitInternal
    dsimp only
    rw [if_neg (by rw [hopt]; exact fun h => h rfl), if_neg (by rintro ⟨-, h⟩; omega), hl]
    dsimp only
    rw [hfind]
    simp only [ho, Bool.not_true, Bool.false_eq_true, if_false, hno]
    cases hang <;> rfl
  have good : ∀ code, ∃ s, Spec.Exited s code ∧ reaped e p code want = .done ⟨p.parent, if want then some s else none, none, 0⟩ := by
    intro code
    refine ⟨_, C76.reaped_status code, ?_⟩
    simp only [reaped, hq, if_true]
  rw [hw]
  cases hy : e.life p.pid with
  | ended code => cases hang <;> exact good code
  | running later =>
    cases hang with
    | false => cases later <;> rfl
    | true => cases later with
      | none => rfl
      | some code => exact good code

example : C76.env.list = some [⟨7, 1⟩, ⟨8, 7⟩, ⟨9, 7⟩] ∧ (∀ q ∈ [(⟨7, 1⟩ : Proc), ⟨8, 7⟩, ⟨9, 7⟩], q.pid = 9 → q = ⟨9, 7⟩) ∧ 0 < (9 : D).toInt := by decide

/-- `wait` waits for the child listed first, for ever if it runs for ever, whatever the others do. -/
theorem C76_first_child (e : Env) (ps : List Proc) (p : Proc) (want : Bool) (hl : e.list = some ps) (hf : ps.find? (fun q => decide (q.parent = e.self)) = some p) (ho : e.opens p.pid = true)
    (hr : e.life p.pid = .running none) : wait e want = .never := by
  unfold wait waitInternal
  dsimp only
  rw [if_neg (by decide), if_neg (by rintro ⟨h, -⟩; exact h rfl), hl]
  simp only [if_true, hf, ho, Bool.not_true, Bool.false_eq_true, if_false, hr]
  rfl

/-- Though the other child has ended. -/
example : wait C76.env true = .never ∧ ¬ Spec.Right C76.env (-1) true true .never := by
  refine ⟨by decide, fun h => ?_⟩
  have := h.2.2 ⟨9, 7⟩ ⟨⟨_, rfl, by decide⟩, by decide, .inl rfl⟩
  exact absurd this (by decide)

/-- Waiting for a process that is not a child does not fail. -/
theorem C76_stranger (e : Env) (ps : List Proc) (p : Proc) (code : D) (want : Bool) (hl : e.list = some ps) (hf : ps.find? (fun q => decide (q.pid = p.pid)) = some p) (ho : e.opens p.pid = true)
    (hr : e.life p.pid = .ended code) (hpos : 0 < p.pid.toInt) : ∃ s, waitpid e p.pid want 0 = .done ⟨p.parent, s, none, 0⟩ := by
  have hm1 : p.pid ≠ -1 := by rintro c; rw [c] at hpos; exact absurd hpos (by decide)
  unfold waitpid waitInternal
  dsimp only
  rw [if_neg (by decide), if_neg (by rintro ⟨-, h⟩; omega), hl]
  simp only [hm1, if_false, hf, ho, Bool.not_true, Bool.false_eq_true, hr, reaped]
  exact ⟨_, rfl⟩

example : waitpid { C76.env with self := 50 } 9 true 0 = .done ⟨7, some 0x2C00, none, 0⟩ := by decide

/-- Whenever a call fails, and then only, it returns `-1` and `errno` is set; nothing is stored as status. (No process has the number of its parent `-1`.) -/
theorem C76_failure (e : Env) (pid : D) (want : Bool) (options : D) (o : Out) (h : waitpid e pid want options = .done o) (hp : ∀ ps, e.list = some ps → ∀ p ∈ ps, p.parent ≠ -1) :
    (o.ret = -1 ↔ o.errno ≠ none) ∧ (o.ret = -1 → o.status = none ∧ o.left = 0) := by
  have fail : ∀ x, fails x = .done o → (o.ret = -1 ↔ o.errno ≠ none) ∧ (o.ret = -1 → o.status = none ∧ o.left = 0) := by
    intro x z
    cases z
    exact ⟨⟨fun _ => nofun, fun _ => rfl⟩, fun _ => ⟨rfl, rfl⟩⟩
  have over : ∀ p c, p.parent ≠ -1 → reaped e p c want = .done o → (o.ret = -1 ↔ o.errno ≠ none) ∧ (o.ret = -1 → o.status = none ∧ o.left = 0) := by
    intro p c n z
    cases z
    exact ⟨⟨fun q => absurd q n, fun q => absurd rfl q⟩, fun q => absurd q n⟩
  unfold waitpid waitInternal at h
  dsimp only at h
  split at h
  · exact fail _ h
  split at h
  · cases h
  split at h
  · exact fail _ h
  next ps hl =>
  split at h
  · exact fail _ h
  next p hf =>
  have hm := hp ps hl p (List.mem_of_find?_eq_some hf)
  split at h
  · exact fail _ h
  split at h
  · exact over _ _ hm h
  split at h
  · cases h
    exact ⟨⟨(fun q => absurd q (by decide)), fun q => absurd rfl q⟩, fun q => absurd q (by decide)⟩
  split at h
  · cases h
  · exact over _ _ hm h

example : waitpid C76.env 77 true 0 = .done ⟨-1, none, some .child, 0⟩ := by decide

/-- The other options are accepted and change nothing: whether the call waits depends on `WNOHANG` alone. -/
theorem C76_options (e : Env) (pid : D) (want : Bool) (a b c : Bool) (hang : Bool) :
    waitpid e pid want ((if a then WUNTRACED else 0) ||| (if b then WCONTINUED else 0) ||| (if c then WNOWAIT else 0) ||| (if hang then 0 else WNOHANG)) =
    waitpid e pid want (if hang then 0 else WNOHANG) := by
  have h1 : ∀ a b c hang : Bool, ((if a then WUNTRACED else 0) ||| (if b then WCONTINUED else 0) ||| (if c then WNOWAIT else 0) ||| (if hang then 0 else WNOHANG)) &&& ~~~ (WUNTRACED ||| WNOWAIT ||| WCONTINUED ||| WNOHANG) = 0 := by decide
  have h2 : ∀ a b c hang : Bool, (decide (WNOHANG &&& ((if a then WUNTRACED else 0) ||| (if b then WCONTINUED else 0) ||| (if c then WNOWAIT else 0) ||| (if hang then 0 else WNOHANG)) = WNOHANG)) =
      decide (WNOHANG &&& (if hang then 0 else WNOHANG) = WNOHANG) := by decide
  have h3 : ∀ hang : Bool, (if hang then (0 : D) else WNOHANG) &&& ~~~ (WUNTRACED ||| WNOWAIT ||| WCONTINUED ||| WNOHANG) = 0 := by decide
  unfold waitpid waitInternal
  rw [h1, h2, h3]

example : waitpid C76.env 8 true (WUNTRACED ||| WNOHANG) = .done ⟨0, none, none, 2⟩ := by decide

/-- Groups of processes end the program, and so does `waitid(P_ALL, …)`. -/
theorem C76_aborts (e : Env) (pid : D) (want : Bool) (hp : pid ≠ -1) (h0 : pid.toInt ≤ 0) : waitpid e pid want 0 = .aborts ∧ waitid e .all pid 0 = .aborts := by
  constructor
  · unfold waitpid waitInternal
    dsimp only
    rw [if_neg (by decide), if_pos ⟨hp, h0⟩]
  · unfold waitid waitInternal
    dsimp only
    rw [if_neg (by decide), if_pos (by decide)]

example : (-5 : D) ≠ -1 ∧ (-5 : D).toInt ≤ 0 := by decide

/-- `waitid` refuses `WEXITED`, without which it would not be asked to wait for anything; and what it stores in `errno` is not the number of an error. -/
theorem C76_waitid_refuses (e : Env) (t : Id) (id : D) (options : D) (ht : t ≠ .other) (ho : options.getLsbD 2 = true) : waitid e t id options = fails .minusInval := by
  have h : options &&& ~~~ (WUNTRACED ||| WNOWAIT ||| WCONTINUED ||| WNOHANG) ≠ 0 := by
    intro c
    have := congrArg (fun v => BitVec.getLsbD v 2) c
    simp only [BitVec.getLsbD_and, ho, Bool.true_and] at this
    exact absurd this (by decide)
  cases t with
  | other => exact absurd rfl ht
  | all => simp only [waitid, waitInternal, if_pos h]
  | pid => simp only [waitid, waitInternal, if_pos h]
  | pgid => simp only [waitid, waitInternal, if_pos h]

example : WEXITED.getLsbD 2 = true := by decide

/-- If Windows does not tell the exit code, the process counts as having exited with 0. -/
theorem C76_unknown_code (e : Env) (pid : D) (options : D) (o : Out) (s : D) (h : waitpid e pid true options = .done o) (hs : o.status = some s) (hq : e.query = false) : s = 0 := by
  unfold waitpid waitInternal at h
  dsimp only at h
  split at h
  · cases h; cases hs
  split at h
  · cases h
  split at h
  · cases h; cases hs
  split at h
  · cases h; cases hs
  split at h
  · cases h; cases hs
  split at h
  · simp only [reaped, hq] at h; cases h; cases hs; rfl
  split at h
  · cases h; cases hs
  split at h
  · cases h
  · simp only [reaped, hq] at h; cases h; cases hs; rfl

example : waitpid { C76.env with query := false } 9 true 0 = .done ⟨7, some 0, none, 0⟩ := by decide

/-- A status word is that of a process that exited, was killed by a signal or stopped; exactly one of them, except that a word whose low byte is 255 is none. -/
theorem C76_words (s : D) :
    (WIFEXITED s = true ↔ s.toNat % 128 = 0) ∧ (WIFSTOPPED s = true ↔ s.toNat % 256 = 127) ∧ (WIFSIGNALED s = true ↔ s.toNat % 128 ≠ 0 ∧ s.toNat % 128 ≠ 127) ∧
    (WIFEXITED s = false ∧ WIFSTOPPED s = false ∧ WIFSIGNALED s = false ↔ s.toNat % 256 = 255) := by
  have h7 : (s &&& 0x7F).toNat = s.toNat % 128 := by
    rw [BitVec.toNat_and, show (0x7F : D).toNat = 2 ^ 7 - 1 from rfl, Nat.and_two_pow_sub_one_eq_mod]
  have h8 : (s &&& 0xFF).toNat = s.toNat % 256 := by
    rw [BitVec.toNat_and, show (0xFF : D).toNat = 2 ^ 8 - 1 from rfl, Nat.and_two_pow_sub_one_eq_mod]
  have a : WIFEXITED s = true ↔ s.toNat % 128 = 0 := by
    rw [WIFEXITED, decide_eq_true_eq, ← BitVec.toNat_inj, WTERMSIG, h7]
    rfl
  have b : WIFSTOPPED s = true ↔ s.toNat % 256 = 127 := by
    simp only [WIFSTOPPED, decide_eq_true_eq]
    rw [← BitVec.toNat_inj, h8]
    rfl
  have c : WIFSIGNALED s = true ↔ s.toNat % 128 ≠ 0 ∧ s.toNat % 128 ≠ 127 := by
    have all : ∀ n : Fin 128, (0 < (((BitVec.ofNat 32 n.val + 1).setWidth 8).sshiftRight 1).toInt) ↔ n.val ≠ 0 ∧ n.val ≠ 127 := by decide +kernel
    have e : s &&& 0x7F = BitVec.ofNat 32 (s.toNat % 128) := by
      apply BitVec.eq_of_toNat_eq
      rw [h7, BitVec.toNat_ofNat]
      omega
    simp only [WIFSIGNALED, WTERMSIG, decide_eq_true_eq, e]
    exact all ⟨s.toNat % 128, Nat.mod_lt _ (by decide)⟩
  refine ⟨a, b, c, ?_⟩
  rw [← Bool.not_eq_true, ← Bool.not_eq_true, ← Bool.not_eq_true, a, b, c]
  omega

example : WIFSIGNALED 9 = true ∧ WIFSTOPPED 0x137F = true ∧ WIFEXITED 0x2C00 = true := by decide

/-- `wait`, `wait3`, `wait4` are `waitpid` for any child or for the one named; `waitid` is `waitpid`
without a status for a process, a group, or all; every call with `WEXITED` is refused, which is what
POSIX requires `waitid` to be given. -/
theorem C76_same (e : Env) (pid : D) (want : Bool) (options : D) :
    wait e want = waitpid e (-1) want 0 ∧ wait3 e want options = waitpid e (-1) want options ∧
    wait4 e pid want options = waitpid e pid want options ∧
    waitid e .pid pid options = waitpid e pid false options ∧
    waitid e .pgid pid options = waitpid e (-pid) false options ∧
    waitid e .all pid options = waitpid e 0 false options ∧
    waitpid e pid want (options ||| WEXITED) = fails .minusInval := by
  refine ⟨rfl, rfl, rfl, rfl, rfl, rfl, ?_⟩
  have h : (options ||| WEXITED) &&& ~~~ (WUNTRACED ||| WNOWAIT ||| WCONTINUED ||| WNOHANG) ≠ 0 := by
    intro c
    have := congrArg (fun v => BitVec.getLsbD v 2) c
    simp only [BitVec.getLsbD_and, BitVec.getLsbD_or] at this
    revert this
    simp only [show WEXITED.getLsbD 2 = true from by decide, Bool.or_true, Bool.true_and]
    decide
  simp only [waitpid, waitInternal, if_pos h]

example : wait4 C76.env 9 true 0 = waitpid C76.env 9 true 0 ∧ waitpid C76.env 9 true WEXITED = fails .minusInval := by
  decide

end Verif.Props
