import Verif.Proof.Dirent

/-!
# C75: directories on Windows

`opendir`, `readdir`, `rewinddir`, `closedir` as they are for Visual Studio. A stream reports every file found, once each, in the order of the search, then `NULL`; another
stream does not change that; rewinding begins anew; closing returns everything.
-/
namespace Verif.Props
open Verif Verif.Dd

/-- All of it, for every history of calls on open streams, whatever Windows answers. -/
def C75_Full : Prop := ∀ mb ops, Spec.Follows mb Dd.init Spec.init ops

/-- Nothing is answered wrongly as long as the absolute name of the directory does not change during `opendir`, and no error meets the search. -/
theorem C75_calls_partial (mb : List Nat → Option (List Nat)) (ops : List Op) (calm : ∀ op ∈ ops, Spec.Calm op) : Spec.Follows mb Dd.init Spec.init ops :=
  follows ops Bal.init Sim.init calm

namespace C75
/-- `C:\d`. -/
def path : List Nat := [67, 58, 92, 100]
def dot : Entry := ⟨[46], [], false, true⟩
def a : Entry := ⟨[97], [], false, false⟩
/-- A name that cannot be written in the code page, with a short name. -/
def long : Entry := ⟨[9731], [65, 126, 49], false, false⟩
/-- A name that cannot be written in the code page. -/
def snow : Entry := ⟨[9731], [], false, false⟩
def mb (s : List Nat) : Option (List Nat) := if s.all (· < 128) then some s else none
def files (p : List Nat) : List Entry := if p = [67, 58, 92, 100, 92, 42] then [dot, a, long, snow] else []
def ok : Answers := ⟨true, true, true, some [100], some path, some path, files⟩
/-- Run the calls; what they return. -/
def run : World → List Op → Option (List Ret)
  | _, [] => some []
  | w, op :: ops => match call mb w op with
    | none => none
    | some (w, r) => (run w ops).map (r :: ·)
/-- The world after calls. -/
def after : World → List Op → Option World
  | w, [] => some w
  | w, op :: ops => match call mb w op with
    | none => none
    | some (w, _) => after w ops
/-- Two streams of the same directory. -/
def ops : List Op := [.opendir [100] ok, .readdir 0 false, .opendir [100] ok, .readdir 1 false, .readdir 0 false, .readdir 0 false, .readdir 0 false, .readdir 0 false,
  .readdir 0 false, .readdir 1 false, .rewinddir 0 files, .readdir 0 false, .closedir 0, .closedir 1]
end C75

example : C75.run Dd.init C75.ops = some [.stream (some 0), .entry (some ⟨[46], 1, .dir⟩), .stream (some 1), .entry (some ⟨[46], 1, .dir⟩), .entry (some ⟨[97], 1, .reg⟩),
    .entry (some ⟨[65, 126, 49], 3, .reg⟩), .entry (some ⟨[63], 1, .unknown⟩), .entry none, .entry none, .entry (some ⟨[97], 1, .reg⟩), .unit, .entry (some ⟨[46], 1, .dir⟩),
    .unit, .unit] := by decide +kernel
example : ∀ op ∈ C75.ops, Spec.Calm op := by
  intro op h
  simp only [C75.ops, List.mem_cons, List.not_mem_nil, or_false] at h
  rcases h with rfl | rfl | rfl | rfl | rfl | rfl | rfl | rfl | rfl | rfl | rfl | rfl | rfl | rfl <;> first | rfl | trivial

/-- What `bad` stands for: it is set when a closed search is asked or closed or a block that is not allocated is freed, and never reset. -/
theorem C75_misuse_seen (w : World) (x b : Nat) (err : Bool) :
    (w.files x = none → (w.findClose x).bad = true ∧ (w.findNext x err).1.bad = true) ∧ (b ∉ w.heap → (w.free b).bad = true) ∧
    (w.bad = true → (w.findClose x).bad = true ∧ (w.findNext x err).1.bad = true ∧ (w.free b).bad = true ∧ w.malloc.1.bad = true) := by
  refine ⟨fun h => by simp [World.findClose, World.findNext, h], fun h => by simp [World.free, h], fun h => ⟨?_, ?_, by simp [World.free, h], h⟩⟩
  · unfold World.findClose
    split
    · rfl
    · exact h
  · unfold World.findNext
    split
    · rfl
    · exact h
    · split
      · exact h
      · exact h

example : ((Dd.init.findFirst [⟨[97], [], false, false⟩]).1.findClose 0).bad = false ∧
    (((Dd.init.findFirst [⟨[97], [], false, false⟩]).1.findClose 0).findClose 0).bad = true := by decide

/-- In every history, of calls with any answers, no search is used after it was closed, no block is freed twice, and once all streams opened have been closed there is no
memory allocated and no search open. -/
theorem C75_balance (mb : List Nat → Option (List Nat)) (h : List (Op × Ret)) (w : World) (H : Spec.Hist mb Dd.init h w) :
    w.bad = false ∧ (Spec.still [] h = [] → w.heap = [] ∧ ∀ x, w.files x = none) := by
  obtain ⟨B, hd⟩ := still_open H [] Bal.init fun d => by simp [Dd.init]
  refine ⟨B.bad, fun hs => ?_⟩
  have none : ∀ d s, w.dirs d ≠ some s := by
    intro d s q
    have := (hd d).1 (by rw [q]; intro e; cases e)
    rw [hs] at this
    cases this
  refine ⟨List.eq_nil_iff_forall_not_mem.2 fun b hb => ?_, fun x => ?_⟩
  · obtain ⟨d, s, q, -⟩ := (B.heap b).1 hb
    exact none d s q
  · cases e : w.files x with
    | none => rfl
    | some es =>
      obtain ⟨d, s, q, -⟩ := (B.files x).1 (by rw [e]; intro c; cases c)
      exact absurd q (none d s)

/-- An error ends the search as the end of the directory does, and leaves nothing behind either. -/
example : ∃ w, Spec.Hist C75.mb Dd.init [(.opendir [100] C75.ok, .stream (some 0)), (.readdir 0 true, .entry (some ⟨[46], 1, .dir⟩)), (.readdir 0 true, .entry none), (.closedir 0, .unit)] w :=
  ⟨_, .cons rfl (.cons rfl (.cons rfl (.cons rfl (.nil _))))⟩

/-- The absolute name grows between the two calls of `GetFullPathNameW`, because another thread changes the current directory: the second call needs more room than there
is, writes nothing and returns the size it needs, which is taken for a length. -/
theorem C75_path_changes (mb : List Nat → Option (List Nat)) (w : World) (n wn p q : List Nat) (f : List Nat → List Entry) (hn : n ≠ []) (hw : wn ≠ []) (hl : p.length < q.length) :
    call mb w (.opendir n ⟨true, true, true, some wn, some p, some q, f⟩) = none := by
  have g1 : (getFull (some p) 0).1 = p.length + 1 := by simp [getFull]
  have g2 : getFull (some q) (p.length + 1) = (q.length + 1, none) := by simp [getFull]; omega
  simp only [call, opendir, if_neg hn, Bool.not_true, Bool.false_eq_true, if_false, World.malloc, wopendir, if_neg hw, g1, g2, Nat.add_eq_zero_iff, and_false, pattern, Option.map_none,
    Nat.succ_ne_self]

example : ([67, 58, 92, 100] : List Nat).length < ([67, 58, 92, 101, 92, 100] : List Nat).length := by decide

theorem C75_full_false : ¬ C75_Full := by
  intro h
  obtain ⟨w', r, s', h1, -⟩ := h C75.mb [.opendir [100] ⟨true, true, true, some [100], some [67, 58, 92, 100], some [67, 58, 92, 101, 92, 100], C75.files⟩] trivial
  rw [C75_path_changes C75.mb Dd.init [100] [100] [67, 58, 92, 100] [67, 58, 92, 101, 92, 100] C75.files (by decide) (by decide) (by decide)] at h1
  cases h1

/-- An error while searching looks like the end of the directory: `readdir` says that there are no more files, and goes on saying so, though files are left. -/
theorem C75_error_silent (mb : List Nat → Option (List Nat)) (h : List (Op × Ret)) (w : World) (d : Nat) (s : Stream) (H : Spec.Hist mb Dd.init h w) (hd : w.dirs d = some s)
    (hc : s.cached = false) : ∃ w', call mb w (.readdir d true) = some (w', .entry none) ∧ ∀ err, ∃ w'', call mb w' (.readdir d err) = some (w'', .entry none) := by
  have B := (still_open H [] Bal.init fun d => by simp [Dd.init]).1
  cases hr : readdir w mb d true with
  | none => simp only [readdir, hd] at hr; cases hr
  | some q =>
    obtain ⟨w', r⟩ := q
    obtain ⟨s', g1, hr'⟩ := readdir_ends B hr
    rw [hd] at g1
    cases g1
    rcases hr' with ⟨g2, -⟩ | ⟨-, g3, rfl, rfl⟩ | ⟨x, e, es', -, -, -, g, -⟩ | ⟨x, es', -, -, -, -, rfl, rfl⟩
    · rw [hc] at g2; cases g2
    · refine ⟨_, call_read hr, fun err => ?_⟩
      simp only [call, readdir, fn_eq, dirent_next, hc, Bool.false_eq_true, if_false, g3, Option.map_some, Option.map_none]
      exact ⟨_, rfl⟩
    · cases g
    · refine ⟨_, call_read hr, fun err => ?_⟩
      simp only [call, readdir, fn_eq, dirent_next, hc, Bool.false_eq_true, if_false, Option.map_some, Option.map_none]
      exact ⟨_, rfl⟩

/-- Three of four files are never reported. -/
example : C75.run Dd.init [.opendir [100] C75.ok, .readdir 0 false, .readdir 0 true, .readdir 0 false] = some [.stream (some 0), .entry (some ⟨[46], 1, .dir⟩), .entry none, .entry none] := by
  decide +kernel
/-- An error with files left is not what the specification allows. -/
theorem C75_error_wrong : ¬ ∀ mb (ops : List Op), (∀ op ∈ ops, ∀ n a, op = .opendir n a → a.path1 = a.path2) → Spec.Follows mb Dd.init Spec.init ops := by
  intro h
  have h0 := h C75.mb [.opendir [100] C75.ok, .readdir 0 false, .readdir 0 true] (by
    intro op ho n a e
    subst e
    simp only [List.mem_cons, List.not_mem_nil, or_false, reduceCtorEq] at ho
    cases ho
    rfl)
  obtain ⟨w1, r1, s1, h1, c1, f1⟩ := h0 trivial
  have hf : Spec.found [100] C75.ok = some (C75.path, [C75.dot, C75.a, C75.long, C75.snow]) := by decide +kernel
  cases c1 with
  | failed q => rw [hf] at q; cases q
  | opened q =>
    rw [hf] at q
    cases q
    cases h1
    obtain ⟨w2, r2, s2, h2, c2, f2⟩ := f1 (by intro e; cases e)
    cases c2 with
    | ended q => cases q
    | read q x =>
      cases q
      cases h2
      obtain ⟨w3, r3, s3, h3, c3, -⟩ := f2 (by intro e; cases e)
      cases c3 with
      | ended q => cases q

/-- `_wreaddir` cuts names after 259 characters. -/
theorem C75_wide_names (e : Entry) : (toWdirent e).name = e.name.take 259 ∧ (toWdirent e).namlen = (e.name.take 259).length ∧ (toWdirent e).kind = kindOf e := by
  have := wcopy_take e.name 0
  simp only [Nat.sub_zero] at this
  exact ⟨this, by rw [← this]; rfl, rfl⟩

example : (toWdirent ⟨List.replicate 300 97, [], false, false⟩).namlen = 259 := by decide +kernel

end Verif.Props
