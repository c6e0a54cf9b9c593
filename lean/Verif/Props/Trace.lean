import Verif.Spec.Trace
/-!
# C112: the call stack an exception came from
-/
namespace Verif.Props
open Verif Verif.Bt Verif.Bt.Spec

/-- **C112.**  Whatever handler prints `err_backtrace`, and for an exception nothing handles: what is printed is the call stack of the throw. -/
def C112_Full : Prop := ∀ p : Prog, ∀ x ∈ thread p, x.2 = .of x.1

/-- False: nothing in the inner block handles the throw; the outer one does. -/
theorem C112_full_false : ¬ C112_Full := fun h => by
  have := h (.block 7 (.block 9 (.throw 1) (fun _ => false) .skip .skip) (fun _ => true) .look .skip) (1, .mem 7) (by simp [thread, run, fill])
  cases this

/-- What the room of a block holds when a throw has come to it. -/
private def Bt.after (room : Trace) : Option Way → Trace
  | none => room
  | some w => if w.straight then .of w.e else room

private def Bt.room (s : Seen) : Trace := match s.last with
  | some x => .of x
  | none => .mem s.size

private def Bt.pair (s : Seen) : Nat × Trace := (s.e, Bt.room s)

private theorem Bt.room_then (w : Way) (e : Nat) (s : Seen) : Bt.room ⟨e, w.then s.last, s.size⟩ = Bt.after (Bt.room s) (some w) := by
  unfold Bt.room Way.then Bt.after
  by_cases k : w.straight = true <;> simp [k]

private theorem Bt.run_follow : ∀ (p : Prog) (h : Option Seen) (room : Trace),
    run p (h.map Bt.pair) room = ((follow p h).1.map Bt.pair, (follow p h).2.map (fun w => w.e), Bt.after room (follow p h).2) := by
  intro p
  induction p with
  | skip => intro h room; rfl
  | throw e => intro h room; rfl
  | get e => intro h room; rfl
  | rethrow => intro h room; cases h <;> rfl
  | look => intro h room; cases h <;> rfl
  | seq a b iha ihb =>
    intro h room
    have e := iha h room
    simp only [run, follow]
    rcases hf : follow a h with ⟨o, w⟩
    rw [hf] at e
    cases w with
    | none => rw [e]; simp only [Option.map_none, Bt.after]; rw [ihb h room]; simp; rfl
    | some w => rw [e]; rfl
  | block size body catches handler fin ihb ihh ihf =>
    intro h room
    have e := ihb h (.mem size)
    simp only [run, follow]
    rcases hf : follow body h with ⟨o, w⟩
    rw [hf] at e
    cases w with
    | none =>
      rw [e]
      have e3 := ihf none room
      simp only [Option.map_none] at e3 ⊢
      rw [e3]
      rcases follow fin none with ⟨of, wf⟩
      cases wf <;> simp [onward, Bt.after]
    | some w =>
      rw [e]
      simp only [Option.map_some]
      have hs : Bt.after (.mem size) (some w) = Bt.room ⟨w.e, w.then none, size⟩ := (Bt.room_then w w.e ⟨0, none, size⟩).symm
      rw [hs]
      by_cases hc : catches w.e = true
      · rw [if_pos hc, if_pos hc]
        have e2 := ihh (some ⟨w.e, w.then none, size⟩) (Bt.room ⟨w.e, w.then none, size⟩)
        simp only [Option.map_some] at e2
        rw [show Bt.pair ⟨w.e, w.then none, size⟩ = (w.e, Bt.room ⟨w.e, w.then none, size⟩) from rfl] at e2
        rw [e2]
        rcases follow handler (some ⟨w.e, w.then none, size⟩) with ⟨o', w'⟩
        cases w' with
        | none =>
          have e3 := ihf (some ⟨w.e, w.then none, size⟩) room
          simp only [Option.map_some] at e3
          rw [show Bt.pair ⟨w.e, w.then none, size⟩ = (w.e, Bt.room ⟨w.e, w.then none, size⟩) from rfl] at e3
          simp only [Option.map_none]
          rw [show Bt.after (Bt.room ⟨w.e, w.then none, size⟩) none = Bt.room ⟨w.e, w.then none, size⟩ from rfl, e3]
          rcases follow fin (some ⟨w.e, w.then none, size⟩) with ⟨of, wf⟩
          cases wf <;> simp [onward, Bt.after]
        | some w' =>
          have e3 := ihf (some ⟨w'.e, w'.then (w.then none), size⟩) room
          simp only [Option.map_some] at e3
          rw [show Bt.pair ⟨w'.e, w'.then (w.then none), size⟩ = (w'.e, Bt.after (Bt.room ⟨w.e, w.then none, size⟩) (some w')) from
            congrArg (Prod.mk w'.e) (Bt.room_then w' w'.e ⟨w.e, w.then none, size⟩)] at e3
          simp only [Option.map_some]
          rw [e3]
          rcases follow fin (some ⟨w'.e, w'.then (w.then none), size⟩) with ⟨of, wf⟩
          cases wf <;> simp [onward, Bt.after, fill]
      · rw [if_neg hc, if_neg hc]
        have e3 := ihf (some ⟨w.e, w.then none, size⟩) room
        simp only [Option.map_some] at e3
        rw [show Bt.pair ⟨w.e, w.then none, size⟩ = (w.e, Bt.room ⟨w.e, w.then none, size⟩) from rfl] at e3
        rw [e3]
        rcases follow fin (some ⟨w.e, w.then none, size⟩) with ⟨of, wf⟩
        cases wf <;> simp [onward, Bt.after, fill]

/-- **C112.**  What is printed, exactly, in every program: the call stack of the last throw that came straight to the block, whatever throw the block got last; and if none came straight - all came through
another block, or from another thread - what the memory of the block held before it. -/
theorem C112_exact_partial (p : Prog) :
    thread p = (follows p).map fun s => (s.e, match s.last with | some x => .of x | none => .mem s.size) := by
  have e := Bt.run_follow p none (.mem 0)
  simp only [Option.map_none] at e
  unfold thread follows
  rw [e]
  rcases follow p none with ⟨o, w⟩
  cases w with
  | none => simp only [Option.map_none]; rfl
  | some w =>
    simp only [Option.map_some, List.map_append, List.map_cons, List.map_nil]
    rw [show Bt.after (.mem 0) (some w) = Bt.room ⟨w.e, w.then none, 0⟩ from (Bt.room_then w w.e ⟨0, none, 0⟩).symm]; rfl

/-- **C112.**  So the statement holds of just those programs in which the last throw that came straight to a block is always the one the block got last. -/
theorem C112_right_iff (p : Prog) : (∀ x ∈ thread p, x.2 = .of x.1) ↔ ∀ s ∈ follows p, s.last = some s.e := by
  rw [C112_exact_partial p]
  constructor
  · intro h s hs
    have := h _ (List.mem_map_of_mem hs)
    cases k : s.last with
    | none => simp [k] at this
    | some x => simp [k] at this; rw [this]
  · intro h x hx
    obtain ⟨s, hs, rfl⟩ := List.mem_map.mp hx
    simp [h s hs]

private def Bt.Str (r : List Seen × Option Way) : Prop := (∀ s ∈ r.1, s.last = some s.e) ∧ ∀ w, r.2 = some w → w.straight = true

private theorem Bt.seq_str {a b : Prog} {h : Option Seen} (ha : Bt.Str (follow a h)) (hb : Bt.Str (follow b h)) : Bt.Str (follow (.seq a b) h) := by
  simp only [follow]
  rcases hf : follow a h with ⟨o, w⟩
  rw [hf] at ha
  cases w with
  | none =>
    refine ⟨fun s hs => ?_, hb.2⟩
    rcases List.mem_append.mp hs with k | k
    · exact ha.1 s k
    · exact hb.1 s k
  | some w => exact ha

private theorem Bt.look_str {h : Option Seen} (hh : ∀ s, h = some s → s.last = some s.e) : Bt.Str (follow .look h) := by
  refine ⟨fun s hs => hh s ?_, fun w k => by cases k⟩
  simpa [follow] using hs

private theorem Bt.plain_str {h : Option Seen} (hh : ∀ s, h = some s → s.last = some s.e) : ∀ p, Plain p → Bt.Str (follow p h)
  | .skip, _ => ⟨(fun s hs => by cases hs), (fun w k => by cases k)⟩
  | .throw e, _ => ⟨(fun s hs => by cases hs), (fun w k => by cases k; rfl)⟩
  | .look, _ => Bt.look_str hh
  | .seq a b, k => Bt.seq_str (Bt.plain_str hh a k.1) (Bt.plain_str hh b k.2)

private theorem Bt.calm {h : Option Seen} : ∀ p, Calm p → Plain p ∧ (follow p h).2 = none
  | .skip, _ => ⟨trivial, rfl⟩
  | .look, _ => ⟨trivial, rfl⟩
  | .seq a b, k => by
    have ha := Bt.calm (h := h) a k.1
    have hb := Bt.calm (h := h) b k.2
    refine ⟨⟨ha.1, hb.1⟩, ?_⟩
    simp only [follow]
    rcases hf : follow a h with ⟨o, w⟩
    rw [hf] at ha
    cases w with
    | none => exact hb.2
    | some w => cases ha.2

private theorem Bt.onward_str {o : List Seen} {f : List Seen × Option Way} (ho : ∀ s ∈ o, s.last = some s.e) (hf : Bt.Str f) (hn : f.2 = none) : Bt.Str (onward o f none) := by
  refine ⟨fun s hs => ?_, fun w k => by simp [onward, hn] at k⟩
  rcases List.mem_append.mp hs with k | k
  · exact ho s k
  · exact hf.1 s k

private theorem Bt.level_str : ∀ p, Level p → Bt.Str (follow p none)
  | .skip, _ => ⟨(fun s hs => by cases hs), (fun w k => by cases k)⟩
  | .throw e, _ => ⟨(fun s hs => by cases hs), (fun w k => by cases k; rfl)⟩
  | .look, _ => Bt.look_str (fun s k => by cases k)
  | .seq a b, k => Bt.seq_str (Bt.level_str a k.1) (Bt.level_str b k.2)
  | .block size body catches handler fin, k => by
    have hb := Bt.plain_str (h := none) (fun s k => by cases k) body k.1
    simp only [follow]
    rcases hf : follow body none with ⟨o, w⟩
    rw [hf] at hb
    cases w with
    | none =>
      have hc := Bt.calm (h := none) fin k.2.2.2
      exact Bt.onward_str hb.1 (Bt.plain_str (fun s k => by cases k) fin hc.1) hc.2
    | some w =>
      have hw : ∀ s, some (⟨w.e, w.then none, size⟩ : Seen) = some s → s.last = some s.e := by
        intro s q; cases q
        simp [Way.then, hb.2 w rfl]
      have hc := Bt.calm (h := some ⟨w.e, w.then none, size⟩) handler k.2.2.1
      have hs := Bt.plain_str hw handler hc.1
      have hcf := Bt.calm (h := some ⟨w.e, w.then none, size⟩) fin k.2.2.2
      simp only [k.2.1 w.e, if_true]
      rcases hg : follow handler (some ⟨w.e, w.then none, size⟩) with ⟨o', w'⟩
      rw [hg] at hc hs
      cases hc.2
      refine Bt.onward_str (fun s q => ?_) (Bt.plain_str hw fin hcf.1) hcf.2
      rcases List.mem_append.mp q with q | q
      · exact hb.1 s q
      · exact hs.1 s q

/-- **C112.**  What can be relied on: programs with no block within another (also not by calls), in which each block handles all that is thrown in it, handlers and `finally` sections throw nothing, and no
results of threads are taken. -/
theorem C112_level_partial (p : Prog) (h : Level p) : ∀ x ∈ thread p, x.2 = .of x.1 := by
  rw [C112_right_iff]
  have k := Bt.level_str p h
  unfold follows
  rcases hf : follow p none with ⟨o, w⟩
  rw [hf] at k
  cases w with
  | none => exact k.1
  | some w =>
    intro s hs
    rcases List.mem_append.mp hs with q | q
    · exact k.1 s q
    · cases List.mem_singleton.mp q; simp [Way.then, k.2 w rfl]

/-- Two blocks, then a throw outside. -/
example : let p : Prog := .seq (.block 3 (.seq .skip (.throw 1)) (fun _ => true) .look .look) (.seq (.block 4 (.throw 2) (fun _ => true) (.seq .look .look) .skip) (.throw 6))
    Level p ∧ thread p = [(1, .of 1), (1, .of 1), (2, .of 2), (2, .of 2), (6, .of 6)] := by
  simp [Level, Plain, Calm, thread, run, fill]

/-- **C112.**  Nothing handles a throw in a block: then what the program's end prints is empty, whatever was done before in the block. -/
theorem C112_uncaught_empty (size e : Nat) (a : Prog) (catches : Nat → Bool) (handler : Prog) (hc : catches e = false) (ha : follow a none = ([], none)) :
    thread (.block size (.seq a (.throw e)) catches handler .skip) = [(e, .mem 0)] := by
  rw [C112_exact_partial]
  simp [follows, follow, ha, hc, onward, Way.then]

/-- **C112.**  Printing reads beyond the room (256 addresses) exactly if no throw came straight to a block whose memory held a size over 256. -/
theorem C112_beyond (p : Prog) (depth : Nat → Nat) :
    (∃ x ∈ thread p, 256 < x.2.reads depth) ↔ ∃ s ∈ follows p, s.last = none ∧ 256 < s.size := by
  rw [C112_exact_partial p]
  constructor
  · rintro ⟨x, hx, k⟩
    obtain ⟨s, hs, rfl⟩ := List.mem_map.mp hx
    refine ⟨s, hs, ?_⟩
    cases q : s.last with
    | some x => simp only [q, Trace.reads] at k; omega
    | none => simp only [q, Trace.reads] at k; exact ⟨rfl, k⟩
  · rintro ⟨s, hs, k1, k2⟩
    exact ⟨_, List.mem_map_of_mem hs, by simpa [k1, Trace.reads] using k2⟩

/-- Handled straight; through a block; thrown on by a handler; from another thread; in a handler of another exception; in a `finally` section, after the handler threw another one from a block of its own: the
call stack of the first one is printed for the second. -/
example : thread (.block 3 (.throw 1) (· == 1) .look .skip) = [(1, .of 1)] ∧
    thread (.block 300 (.block 9 (.throw 1) (· == 2) .look .skip) (· == 1) .look .skip) = [(1, .mem 300)] ∧
    thread (.block 3 (.block 9 (.throw 1) (· == 1) (.seq .look .rethrow) .look) (· == 1) .look .skip) = [(1, .of 1), (1, .of 1), (1, .mem 3)] ∧
    thread (.block 3 (.get 1) (· == 1) .look .skip) = [(1, .mem 3)] ∧
    thread (.block 3 (.throw 1) (· == 1) (.seq (.block 4 (.throw 2) (· == 2) .look .skip) (.seq .look (.throw 5))) .skip) = [(2, .of 2), (1, .of 1), (5, .mem 0)] ∧
    thread (.block 3 (.block 4 (.throw 1) (· == 1) (.block 5 (.throw 2) (· == 1) .skip .skip) .look) (· == 2) .skip .skip) = [(2, .of 1)] ∧
    thread (.block 3 (.block 4 (.throw 1) (· == 1) .skip (.throw 2)) (· == 2) .look .skip) = [(2, .of 2)] := by
  decide

/-- The hypotheses of `C112_uncaught_empty`: something handled before the throw. -/
example : follow (.block 3 (.throw 1) (· == 1) .skip .skip) none = ([], none) := rfl

end Verif.Props
