import Verif.Proof.ScopeProg
import Verif.Proof.ScopeTwice
import Verif.Proof.ScopeSafe
import Verif.Proof.ScopeCancel
/-!
# C21 - C26: scopes, deferred functions, scoped memory
-/
namespace Verif.Props
open Verif

/-- An allocator handing out fresh 4 KiB-aligned blocks (for the examples below). -/
def pages (n : Nat) (size : W) : Option Nat :=
  if size.toNat ≤ 4096 ∧ n < 1000 then some (4096 * (n + 1)) else none

theorem pages_real (body) (pd) : Env.Real { alloc := pages, body := body, ptrdiff := pd } := by
  intro n size addr h
  simp only [pages] at h
  split at h
  · cases h
    omega
  · cases h

/-- Functions that do nothing to scopes. -/
def quietEnv (pd : W → W) : Env := { alloc := pages, body := fun _ _ => [], ptrdiff := pd }

/-! ## C21 -/

/-- C21: for every program of deferrals, recoveries, allocations and releases over any number of
scopes, in which scope `s` is not registered on again after its release (what happens then is C23)
and not touched by the deferred functions themselves, the observable history of `s` keeps the LIFO
promise: deferred functions are called only by a release, always the newest outstanding one with its
own argument, and a release completes only when none is outstanding.  This holds for the history
at whatever point the program stops. -/
theorem C21_lifo (env : Env) (hreal : env.Real) (s : Nat) (hl : Leaves env s) (fuel : Nat)
    (ops : List Op) (hnr : NoReuse s ops) (hix : ∀ o ∈ ops, o.indexes s = false) :
    Lifo (events s (program env fuel ops).world) :=
  (program_hist hreal hl fuel ops hnr hix).chk

/-- C21 (well-defined): a program as above over functions that perform no scope operations, without
exceptions, that does not use deleted scopes, never does anything undefined and never loops: it
returns, or panics because memory ran out. -/
theorem C21_defined (env : Env) (hreal : env.Real) (hleaf : Leaf env) (fuel : Nat) (ops : List Op)
    (hnr : ∀ s, NoReuse s ops) (hdel : NoUseAfterDelete ops)
    (hops : ∀ o ∈ ops, ∀ s, o.indexes s = false ∧ o ≠ .setErr s) :
    (∃ w, program env (fuel + 1) ops = .ok w) ∨ (∃ w, program env (fuel + 1) ops = .panic w) :=
  seq_safe hreal hleaf fuel ops _ (fun s => ⟨[], invL_init s⟩) (fun _ => rfl) (fun _ _ => rfl)
    hnr hdel hops (fun _ _ => rfl)

/-- C21 (in one formula): deferring any list of functions and releasing calls them, each once, with
their arguments, in reverse order, provided no deferral was refused for lack of memory. -/
theorem C21_reverse (env : Env) (hreal : env.Real) (hleaf : Leaf env) (fuel s : Nat)
    (ds : List (Nat × Nat)) :
    ∃ w, program env (fuel + 1) (defers s ds ++ [.release s]) = .ok w ∧ firedList s w.trace = [] ∧
      ((∀ f x, Event.refused s f x ∉ w.trace) → ranList s w.trace = ds.reverse) := by
  obtain ⟨w, h1, h2, h3⟩ := (Plain.init s).finish hreal hleaf fuel ds
  exact ⟨w, h1, h2, fun hr => by rw [h3 hr]; simp [live, ranList]⟩

/-- Non-vacuity: two scopes interleaved, one function of scope 0 deferring on scope 1. -/
def c21Ops : List Op :=
  [.defer 0 1 10, .defer 1 2 20, .malloc 0 100 7, .defer 0 5 50, .release 0, .defer 1 3 30, .delete 1]
def c21Env : Env :=
  { alloc := pages, body := fun f _ => if f = 5 then [.defer 1 4 40] else [], ptrdiff := shiftDiff }

theorem c21_hyps : Leaves c21Env 0 ∧ NoReuse 0 c21Ops ∧ ∀ o ∈ c21Ops, o.indexes 0 = false := by
  refine ⟨?_, by unfold NoReuse; decide, by decide⟩
  intro f x o ho
  simp only [c21Env] at ho
  split at ho
  · simp only [List.mem_singleton] at ho
    subst ho
    decide
  · cases ho

example : c21Env.Real ∧ Leaves c21Env 0 ∧ NoReuse 0 c21Ops ∧ (∀ o ∈ c21Ops, o.indexes 0 = false) ∧
    ranList 0 (program c21Env 5 c21Ops).world.trace = [(5, 50), (7, 12288), (1, 10)] ∧
    ranList 1 (program c21Env 5 c21Ops).world.trace = [(3, 30), (4, 40), (2, 20)] := by
  refine ⟨pages_real _ _, c21_hyps.1, c21_hyps.2.1, c21_hyps.2.2, ?_, ?_⟩ <;> decide +kernel

/-! ## C22 -/

/-- C22 in full: whatever the deferred functions do. -/
def C22_Full : Prop :=
  ∀ (env : Env) (s fuel : Nat) (ops : List Op), env.Real → (∀ o ∈ ops, o.indexes s = false) →
    (∀ f x, timesRan s f x (events s (program env fuel ops).world)
      ≤ timesRegistered f x (events s (program env fuel ops).world)) ∧
    QuietAfterRelease s (events s (program env fuel ops).world)

/-- A deferred function that itself releases the scope (say, through `raii_deferred_clean`) is run
again by that release. -/
theorem C22_full_false : ¬ C22_Full := by
  intro h
  have := (h { alloc := pages, body := fun _ _ => [.release 0], ptrdiff := shiftDiff } 0 3
    [.defer 0 1 10, .release 0] (pages_real _ _) (by decide)).1 1 10
  revert this
  decide +kernel

/-- C22, partial: for every program, including ones that go on using the scope after releases, in
which the deferred functions leave scope `s` itself alone, nothing runs more often than it was
registered (so no block is freed twice), and nothing runs once a release is complete (so every
further release runs nothing).  Missing: deferred functions operating on their own scope, where it
is false. -/
theorem C22_idempotent_partial (env : Env) (hreal : env.Real) (s : Nat) (hl : Leaves env s) (fuel : Nat)
    (ops : List Op) (hix : ∀ o ∈ ops, o.indexes s = false) :
    (∀ f x, timesRan s f x (events s (program env fuel ops).world)
      ≤ timesRegistered f x (events s (program env fuel ops).world)) ∧
    QuietAfterRelease s (events s (program env fuel ops).world) :=
  ⟨(program_calm hreal hl fuel ops hix).once, (program_calm hreal hl fuel ops hix).quiet⟩

/-- Non-vacuity: release, register again, release twice. -/
example : Leaves (quietEnv shiftDiff) 0 ∧
    (∀ o ∈ [Op.defer 0 1 10, .release 0, .defer 0 1 10, .release 0, .release 0], o.indexes 0 = false) ∧
    ranList 0 (program (quietEnv shiftDiff) 1
      [.defer 0 1 10, .release 0, .defer 0 1 10, .release 0, .release 0]).world.trace = [(1, 10)] := by
  refine ⟨fun f x o (ho : o ∈ []) => by simp at ho, by decide, by decide +kernel⟩

/-! ## C23 -/

/-- C23 in full: every deferral runs no later than the next release, whatever the program. -/
def C23_Full : Prop :=
  ∀ (env : Env) (s fuel : Nat) (ops : List Op), env.Real → (∀ o ∈ ops, o.indexes s = false) →
    Lifo (events s (program env fuel ops).world)

/-- A deferral made on a scope after its release is dropped: the release cleared the type tag that
the next release tests. -/
theorem C23_full_false_reuse : ¬ Lifo (events 0 (program (quietEnv shiftDiff) 1
    [.defer 0 1 10, .release 0, .defer 0 2 20, .release 0]).world) := by
  unfold Lifo
  decide +kernel

/-- A deferral made by a deferred function on its own scope is dropped. -/
theorem C23_full_false_nested : ¬ Lifo (events 0 (program
    { alloc := pages, body := fun f _ => if f = 1 then [.defer 0 2 20] else [], ptrdiff := shiftDiff } 3
    [.defer 0 1 10, .release 0]).world) := by
  unfold Lifo
  decide +kernel

/-- A function deferring on its own scope when the array is full makes the release read the block
that the array has just outgrown. -/
theorem C23_nested_wild : ∃ w, program
    { alloc := pages, body := fun f _ => if f = 1 then [.defer 0 2 20] else [], ptrdiff := shiftDiff } 3
    (List.replicate 16 (.defer 0 1 10) ++ [.release 0]) = .wild w := by
  have h : (match program
    { alloc := pages, body := fun f _ => if f = 1 then [.defer 0 2 20] else [], ptrdiff := shiftDiff } 3
    (List.replicate 16 (.defer 0 1 10) ++ [.release 0]) with | .wild _ => true | _ => false) = true := by
    decide +kernel
  revert h
  split
  · exact fun _ => ⟨_, by assumption⟩
  · exact fun h => by cases h

theorem C23_full_false : ¬ C23_Full := fun h =>
  C23_full_false_reuse (h _ 0 1 _ (pages_real _ _) (by decide))

/-- C23, partial: on a scope not yet released and not touched by deferred functions, no deferral is
dropped: at the end of the release nothing is outstanding.  Missing: re-use after release, and
deferrals made by deferred functions on their own scope, for both of which it is false. -/
theorem C23_none_dropped_partial (env : Env) (hreal : env.Real) (s : Nat) (hl : Leaves env s) (fuel : Nat)
    (ops : List Op) (hnr : NoReuse s ops) (hix : ∀ o ∈ ops, o.indexes s = false) (w : World)
    (hend : program env fuel (ops ++ [.release s]) = .ok w) :
    checkRun { stack := [], opened := false } (events s w) = some { stack := [], opened := false } := by
  have hnr' : NoReuse s (ops ++ [.release s]) := by
    refine List.pairwise_append.2 ⟨hnr, List.pairwise_singleton _ _, fun a _ b hb _ => ?_⟩
    rw [List.mem_singleton.1 hb]
    rfl
  have hix' : ∀ o ∈ ops ++ [.release s], o.indexes s = false := by
    intro o ho
    rcases List.mem_append.1 ho with ho | ho
    · exact hix o ho
    · rw [List.mem_singleton.1 ho]; rfl
  have h := C21_lifo env hreal s hl fuel _ hnr' hix'
  rw [hend] at h
  obtain ⟨es, hes⟩ : ∃ es, events s w = es ++ [.relEnd s] := by
    unfold program at hend
    rw [seq_append] at hend
    cases hw : Out.seq (exec env fuel) ops { scopes := fun _ => freshScope, trace := [], tick := 0 } with
    | wild _ => rw [hw] at hend; cases hend
    | panic _ => rw [hw] at hend; cases hend
    | running _ => rw [hw] at hend; cases hend
    | ok w0 =>
      rw [hw] at hend
      simp only [Out.andThen, Out.seq] at hend
      cases fuel with
      | zero => cases hend
      | succ fuel =>
        unfold exec at hend
        simp only [Op.scope] at hend
        cases hd : (w0.scopes s).deleted with
        | true => simp [hd] at hend
        | false =>
          simp only [hd, Bool.false_eq_true, if_false] at hend
          cases hfree : deferredFree (fun f x => Out.seq (exec env fuel) (env.body f x)) s (w0.log (.relBegin s)) with
          | ok w1 =>
            rw [hfree] at hend
            simp only [Out.andThen] at hend
            cases hend
            exact ⟨events s w1, by simp [events, World.log, Event.scope]⟩
          | wild _ => rw [hfree] at hend; cases hend
          | panic _ => rw [hfree] at hend; cases hend
          | running _ => rw [hfree] at hend; cases hend
  have happ : ∀ (l1 l2 : List Event) c, checkRun c (l1 ++ l2) = (checkRun c l1).bind fun c => checkRun c l2 := by
    intro l1
    induction l1 with
    | nil => intro l2 c; rfl
    | cons e l1 ih =>
      intro l2 c
      show (checkStep c e).bind (fun c => checkRun c (l1 ++ l2)) = ((checkStep c e).bind _).bind _
      cases checkStep c e with
      | none => rfl
      | some c' => exact ih l2 c'
  unfold Lifo Out.world at h
  simp only at h
  rw [hes, happ] at h ⊢
  cases hc : checkRun { stack := [], opened := false } es with
  | none => rw [hc] at h; cases h
  | some c =>
    rw [hc] at h
    simp only [Option.bind_some, checkRun, checkStep] at h ⊢
    split
    · rename_i hcc
      rw [hcc.2]
      rfl
    · rename_i hcc
      rw [if_neg hcc] at h
      cases h

/-! ## C24 -/

/-- C24 in full, for a compiler's way of subtracting pointers: defer `pre`, then `(f, x)` (which
returns `i`), then `mid`; cancel `i`; defer `post`; release. -/
def C24_Full (ptrdiff : W → W) : Prop :=
  ∀ (env : Env), env.ptrdiff = ptrdiff → env.Real → Leaf env →
    ∀ (fuel s : Nat) (pre : List (Nat × Nat)) (f x : Nat) (mid post : List (Nat × Nat)) (w1 : World) (i : W),
      program env (fuel + 1) (defers s (pre ++ [(f, x)])) = .ok w1 →
      w1.trace.getLast? = some (.registered s f x i) →
      ∃ w, program env (fuel + 1) (defers s (pre ++ [(f, x)]) ++ (defers s mid ++
          .cancel s i :: (defers s post ++ [.release s]))) = .ok w ∧
        ((∀ f x, Event.refused s f x ∉ w.trace) → ranList s w.trace = (pre ++ mid ++ post).reverse)

/-- With an 8-byte aligned array block and a number of outstanding deferrals that is not a multiple
of 8, cancelling by *any* index, whatever the compiler's pointer subtraction, is undefined behaviour
or drops the newest deferral. -/
theorem C24_unaligned (env : Env) (hreal : env.Real) (fuel s : Nat) (ds : List (Nat × Nat)) (w : World)
    (b : Block Entry) (h : program env (fuel + 1) (defers s ds) = .ok w)
    (hr : ∀ f x, Event.refused s f x ∉ w.trace) (hb : (w.scopes s).defer.base = some b)
    (h8 : b.addr % 8 = 0) (hm : ds.length % 8 ≠ 0) (i : W) :
    (∃ w', exec env (fuel + 1) (.cancel s i) w = .wild w') ∨
    (∃ w', exec env (fuel + 1) (.cancel s i) w = .ok w' ∧ Plain s w' (ds.dropLast.map plain) ∧
      w'.trace = w.trace) := by
  unfold program at h
  obtain ⟨w', ds', t, k1, k2, k3, k4, k5⟩ := (Plain.init s).defers hreal fuel ds
  rw [h] at k1
  cases k1
  have hds := k5 fun f x hm => hr f x (by rw [k3]; simp [hm])
  subst hds
  rw [List.nil_append] at k2
  have hx : exec env (fuel + 1) (.cancel s i) w
      = deferredInternal s (getElement (w.scopes s) i) w := by
    unfold exec
    simp only [Op.scope, k2.del, Bool.false_eq_true, if_false]
  rw [hx]
  rcases cancel_miss i k2.arr hb h8 (by simpa using hm) rfl with hc | ⟨hc, hA⟩
  · exact .inl ⟨_, hc⟩
  · refine .inr ⟨_, hc, ⟨?_, ?_, ?_, ?_, ?_, ?_⟩, rfl⟩
    · simpa [List.map_dropLast] using hA
    · intro e he
      obtain ⟨d, -, rfl⟩ := List.mem_map.1 he
      simp [plain]
    · simpa using k2.type
    · simpa using k2.err
    · simpa using k2.del
    · simpa using k2.tail

set_option maxRecDepth 100000 in
theorem c25_setup (ptrdiff : W → W) : ∃ w1 b,
    program (quietEnv ptrdiff) (0 + 1) (defers 0 ([] ++ [(1, 10)])) = .ok w1 ∧
    (w1.scopes 0).defer.base = some b ∧ b.addr = 4096 ∧
    w1.trace = [.registered 0 1 10 (ptrdiff 4095)] :=
  ⟨(program (quietEnv ptrdiff) (0 + 1) (defers 0 ([] ++ [(1, 10)]))).world, _, rfl, rfl, rfl, rfl⟩

/-- Two deferrals, then cancel the first: no way of subtracting pointers makes that work. -/
theorem C24_full_false (ptrdiff : W → W) : ¬ C24_Full ptrdiff := by
  intro h
  have hr : (quietEnv ptrdiff).Real := pages_real (fun _ _ => []) ptrdiff
  obtain ⟨w1, b1, d1, d2, d3, d4⟩ := c25_setup ptrdiff
  have dl : w1.trace.getLast? = some (.registered 0 1 10 (ptrdiff 4095)) := by rw [d4]; rfl
  have dr : ∀ f x, Event.refused 0 f x ∉ w1.trace := by rw [d4]; simp
  obtain ⟨w, h1, h2⟩ := h (quietEnv ptrdiff) rfl hr (fun _ _ => rfl) 0 0 [] 1 10 [(2, 20)] [] w1
    (ptrdiff 4095) d1 dl
  obtain ⟨hp, -, hran, -⟩ := register_index hr 0 d1 dl dr d2
  obtain ⟨w2, b, -, k2, e2, -, k4, k5, k6, k7⟩ := indexed hr 0 d1 hp d2 [(2, 20)] (by decide)
  have e1 : program (quietEnv ptrdiff) (0 + 1) (defers 0 [(1, 10), (2, 20)]) = .ok w2 := by
    have : defers 0 [(1, 10), (2, 20)] = defers 0 ([] ++ [(1, 10)]) ++ defers 0 [(2, 20)] := rfl
    unfold program at d1 ⊢
    rw [this, seq_append, d1]
    exact k6
  rw [← List.append_assoc] at h1
  have hsplit : defers 0 ([] ++ [(1, 10)]) ++ defers 0 [(2, 20)] = defers 0 [(1, 10), (2, 20)] := rfl
  rw [hsplit] at h1
  have e1' := e1
  unfold program at h1 e1'
  rw [seq_append, e1'] at h1
  simp only [Out.andThen] at h1
  rcases C24_unaligned (quietEnv ptrdiff) hr 0 0 [(1, 10), (2, 20)] w2 b e1 (k7 dr) e2
    (by rw [k5, d3]) (by decide) (ptrdiff 4095) with ⟨w3, h3⟩ | ⟨w3, h3, h4, h5⟩
  · unfold Out.seq at h1
    rw [h3] at h1
    cases h1
  · unfold Out.seq at h1
    rw [h3] at h1
    simp only [Out.andThen] at h1
    obtain ⟨w4, g1, -, g3⟩ := h4.finish hr (fun _ _ => rfl) 0 []
    have hg : Out.ok w4 = Out.ok w := g1.symm.trans h1
    cases hg
    obtain ⟨w5, m1, m2⟩ := release_leaf (env := quietEnv ptrdiff) (fun _ _ => rfl) 0 h4.arr h4.ok h4.type h4.err h4.del
    simp only [defers, List.map_nil, List.nil_append, Out.seq] at g1
    have m1' : exec (quietEnv ptrdiff) (0 + 1) (.release 0) w3 = .ok w5 := m1
    rw [m1'] at g1
    cases g1
    have hno : ∀ f x, Event.refused 0 f x ∉ w.trace := by
      intro f x
      rw [m2, h5]
      have := k7 dr f x
      simp [plain, Entry.call, this]
    have r1 := h2 hno
    have r2 := g3 hno
    rw [r1, h5, k4, hran] at r2
    revert r2
    simp [live, plain]

/-- C24, partial (compilers that shift and multiply): cancelling works when it happens while the
number of outstanding deferrals is the first multiple of 8 not below the number at registration
(and the array block is 8-byte aligned and at an ordinary address).  Missing: every other moment;
there it does not work (`C24_unaligned`). -/
theorem C24_cancel_partial (env : Env) (hpd : env.ptrdiff = shiftDiff) (hreal : env.Real) (hleaf : Leaf env)
    (fuel s : Nat) (pre : List (Nat × Nat)) (f x : Nat) (mid post : List (Nat × Nat)) (w1 : World) (i : W)
    (b : Block Entry) (h1 : program env (fuel + 1) (defers s (pre ++ [(f, x)])) = .ok w1)
    (hlast : w1.trace.getLast? = some (.registered s f x i)) (hnr : ∀ f x, Event.refused s f x ∉ w1.trace)
    (hb : (w1.scopes s).defer.base = some b) (h8 : b.addr % 8 = 0)
    (hcount : pre.length + 1 + mid.length = (pre.length + 1 + 7) / 8 * 8)
    (haddr : pre.length + 1 + mid.length ≤ b.addr) :
    ∃ w, program env (fuel + 1) (defers s (pre ++ [(f, x)]) ++ (defers s mid ++
        .cancel s i :: (defers s post ++ [.release s]))) = .ok w ∧
      ((∀ f x, Event.refused s f x ∉ w.trace) → ranList s w.trace = (pre ++ mid ++ post).reverse) := by
  obtain ⟨hp, -, hran, hi⟩ := register_index hreal fuel h1 hlast hnr hb
  obtain ⟨w2, b2, k1, k2, k3, k6, k4, k5, -, -⟩ := indexed hreal fuel h1 hp hb mid (by omega)
  obtain ⟨w, l1, -, l3⟩ := cancel_works hreal hleaf fuel k2 k3
    (by rw [k5]; exact hit_shift hpd h8 hi (k2.arr.elems.trans (by simp; omega)) hcount (block_lt hp hb))
    (by rw [k5]; exact haddr) post
  exact ⟨w, k1 _ _ l1, fun hr => by rw [l3 hr, k4, hran]; simp⟩

/-- C24, partial (any compiler that follows the C standard): cancelling right away works when the
distance between the entry and the *number* of deferrals is a multiple of 24, the only case in which
the standard defines the pointer subtraction that computes the index. -/
theorem C24_standard_partial (env : Env) (hpd : StandardDiff env.ptrdiff) (hreal : env.Real) (hleaf : Leaf env)
    (fuel s : Nat) (pre : List (Nat × Nat)) (f x : Nat) (post : List (Nat × Nat)) (w1 : World) (i : W)
    (b : Block Entry) (h1 : program env (fuel + 1) (defers s (pre ++ [(f, x)])) = .ok w1)
    (hlast : w1.trace.getLast? = some (.registered s f x i)) (hnr : ∀ f x, Event.refused s f x ∉ w1.trace)
    (hb : (w1.scopes s).defer.base = some b)
    (h24 : (b.addr + pre.length * 32) % 24 = (pre.length + 1) % 24)
    (haddr : pre.length + 1 ≤ b.addr) (hlow : b.addr + pre.length * 32 < 2 ^ 63) :
    ∃ w, program env (fuel + 1) (defers s (pre ++ [(f, x)]) ++ (defers s [] ++
        .cancel s i :: (defers s post ++ [.release s]))) = .ok w ∧
      ((∀ f x, Event.refused s f x ∉ w.trace) → ranList s w.trace = (pre ++ post).reverse) := by
  obtain ⟨hp, -, hran, hi⟩ := register_index hreal fuel h1 hlast hnr hb
  obtain ⟨w2, b2, k1, k2, k3, k6, k4, k5, -, -⟩ := indexed hreal fuel h1 hp hb [] (by simp; omega)
  obtain ⟨w, l1, -, l3⟩ := cancel_works hreal hleaf fuel k2 k3
    (by rw [k5]; exact hit_standard hpd hi (k2.arr.elems.trans (by simp)) h24 haddr hlow)
    (by rw [k5]; simpa using haddr) post
  exact ⟨w, k1 _ _ l1, fun hr => by rw [l3 hr, k4, hran]; simp⟩

/-- Non-vacuity: eight deferrals, the third cancelled when all eight are there, one more, release. -/
example : (∃ b, ((program (quietEnv shiftDiff) 1 (defers 0 ([(1, 10), (2, 20)] ++ [(3, 30)]))).world.scopes 0).defer.base
      = some b ∧ b.addr % 8 = 0 ∧ 8 ≤ b.addr) ∧
    ranList 0 (program (quietEnv shiftDiff) 1 (defers 0 ([(1, 10), (2, 20)] ++ [(3, 30)]) ++
      (defers 0 [(4, 40), (5, 50), (6, 60), (7, 70), (8, 80)] ++ .cancel 0 0xAD ::
        (defers 0 [(9, 90)] ++ [.release 0])))).world.trace
      = [(9, 90), (8, 80), (7, 70), (6, 60), (5, 50), (4, 40), (2, 20), (1, 10)] := by
  refine ⟨⟨_, rfl, ?_⟩, ?_⟩ <;> decide +kernel

/-! ## C25 -/

/-- C25 in full. -/
def C25_Full (ptrdiff : W → W) : Prop :=
  ∀ (env : Env), env.ptrdiff = ptrdiff → env.Real → Leaf env →
    ∀ (fuel s : Nat) (pre : List (Nat × Nat)) (f x : Nat) (mid post : List (Nat × Nat)) (w1 : World) (i : W),
      program env (fuel + 1) (defers s (pre ++ [(f, x)])) = .ok w1 →
      w1.trace.getLast? = some (.registered s f x i) →
      ∃ w, program env (fuel + 1) (defers s (pre ++ [(f, x)]) ++ (defers s mid ++
          .fire s i :: (defers s post ++ [.release s]))) = .ok w ∧
        firedList s w.trace = [(f, x)] ∧
        ((∀ f x, Event.refused s f x ∉ w.trace) → ranList s w.trace = (pre ++ mid ++ post).reverse)

/-- With an 8-byte aligned array block and a number of outstanding deferrals that is not a multiple
of 8, firing by any index is undefined behaviour: a call through a misaligned address. -/
theorem C25_unaligned (env : Env) (hreal : env.Real) (fuel s : Nat) (ds : List (Nat × Nat)) (w : World)
    (b : Block Entry) (h : program env (fuel + 1) (defers s ds) = .ok w)
    (hr : ∀ f x, Event.refused s f x ∉ w.trace) (hb : (w.scopes s).defer.base = some b)
    (h8 : b.addr % 8 = 0) (hm : ds.length % 8 ≠ 0) (i : W) :
    exec env (fuel + 1) (.fire s i) w = .wild w := by
  unfold program at h
  obtain ⟨w', ds', t, k1, k2, k3, k4, k5⟩ := (Plain.init s).defers hreal fuel ds
  rw [h] at k1
  cases k1
  have hds := k5 fun f x hm => hr f x (by rw [k3]; simp [hm])
  subst hds
  rw [List.nil_append] at k2
  unfold exec
  simp only [Op.scope, k2.del, Bool.false_eq_true, if_false]
  rw [load_miss i k2.arr hb h8 (by simpa using hm) rfl]

/-- One deferral, then fire it: undefined behaviour, whatever the compiler's pointer subtraction. -/
theorem C25_full_false (ptrdiff : W → W) : ¬ C25_Full ptrdiff := by
  intro h
  have hr := pages_real (fun _ _ => []) ptrdiff
  obtain ⟨w2, b, e1, e2, e3, e4⟩ := c25_setup ptrdiff
  obtain ⟨w, h1, -⟩ := h (quietEnv ptrdiff) rfl hr (fun _ _ => rfl) 0 0 [] 1 10 [] [] w2
    (ptrdiff 4095) e1 (by rw [e4]; rfl)
  have e1' := e1
  unfold program at h1 e1'
  rw [seq_append, e1'] at h1
  have h3 := C25_unaligned (quietEnv ptrdiff) hr 0 0 ([] ++ [(1, 10)]) w2 b e1 (by rw [e4]; simp) e2
    (by rw [e3]) (by decide) (ptrdiff 4095)
  simp only [Out.andThen, defers, List.map_nil, List.nil_append, Out.seq, h3] at h1
  cases h1

/-- C25, partial: as `C24_cancel_partial`, for firing: `f(x)` runs at once, and the release runs
everything else and not it.  Missing: every other moment, where it does not work (`C25_unaligned`). -/
theorem C25_fire_partial (env : Env) (hpd : env.ptrdiff = shiftDiff) (hreal : env.Real) (hleaf : Leaf env)
    (fuel s : Nat) (pre : List (Nat × Nat)) (f x : Nat) (mid post : List (Nat × Nat)) (w1 : World) (i : W)
    (b : Block Entry) (h1 : program env (fuel + 1) (defers s (pre ++ [(f, x)])) = .ok w1)
    (hlast : w1.trace.getLast? = some (.registered s f x i)) (hnr : ∀ f x, Event.refused s f x ∉ w1.trace)
    (hb : (w1.scopes s).defer.base = some b) (h8 : b.addr % 8 = 0)
    (hcount : pre.length + 1 + mid.length = (pre.length + 1 + 7) / 8 * 8)
    (haddr : pre.length + 1 + mid.length ≤ b.addr) :
    ∃ w, program env (fuel + 1) (defers s (pre ++ [(f, x)]) ++ (defers s mid ++
        .fire s i :: (defers s post ++ [.release s]))) = .ok w ∧
      firedList s w.trace = [(f, x)] ∧
      ((∀ f x, Event.refused s f x ∉ w.trace) → ranList s w.trace = (pre ++ mid ++ post).reverse) := by
  obtain ⟨hp, hfired, hran, hi⟩ := register_index hreal fuel h1 hlast hnr hb
  obtain ⟨w2, b2, k1, k2, k3, k6, k4, k5, -, -⟩ := indexed hreal fuel h1 hp hb mid (by omega)
  obtain ⟨w, l1, l2, l3⟩ := fire_works hreal hleaf fuel k2 k3
    (by rw [k5]; exact hit_shift hpd h8 hi (k2.arr.elems.trans (by simp; omega)) hcount (block_lt hp hb))
    (by rw [k5]; exact haddr) post
  exact ⟨w, k1 _ _ l1, by rw [l2, k6, hfired]; simp, fun hr => by rw [l3 hr, k4, hran]; simp⟩

/-! ## C26 -/

/-- C26 in full. -/
def C26_Full : Prop :=
  ∀ (env : Env) (s fuel : Nat) (ops : List Op), env.Real → Leaves env s → NoReuse s ops →
    (∀ o ∈ ops, o.indexes s = false) → MemLifo (events s (program env fuel ops).world)

/-- When the array cannot grow the block is handed out without its release being recorded. -/
theorem C26_full_false : ¬ C26_Full := by
  intro h
  have := h { alloc := fun n size => if n = 2 then none else pages n size,
              body := fun _ _ => [], ptrdiff := shiftDiff }
    0 1 [.malloc 0 10 7, .release 0] ?_ (fun f x o (ho : o ∈ []) => by simp at ho)
    (by unfold NoReuse; decide) (by decide)
  · revert this
    unfold MemLifo
    decide +kernel
  · intro n size addr h
    simp only at h
    split at h
    · cases h
    · exact pages_real (fun _ _ => []) shiftDiff n size addr h

/-- C26, partial: in every program whose deferred functions leave scope `s` alone and that does not
register on `s` after its release, if no registration on `s` was refused for lack of memory then
each block handed out by `s` is passed to its release function exactly once, in reverse order, by the
release of `s` and never before.  Missing: the array's own allocation failing, where the block is
leaked. -/
theorem C26_freed_once_partial (env : Env) (hreal : env.Real) (s : Nat) (hl : Leaves env s) (fuel : Nat)
    (ops : List Op) (hnr : NoReuse s ops) (hix : ∀ o ∈ ops, o.indexes s = false)
    (hmem : ∀ f x, Event.refused s f x ∉ events s (program env fuel ops).world) :
    MemLifo (events s (program env fuel ops).world) :=
  (program_hist hreal hl fuel ops hnr hix).mem hmem

/-- Non-vacuity: the program of `C21`, with two allocations. -/
example : Event.allocated 0 12288 7 ∈ events 0 (program c21Env 5 c21Ops).world ∧
    ∀ e ∈ events 0 (program c21Env 5 c21Ops).world, (match e with | .refused .. => false | _ => true) = true := by
  decide +kernel

/-- After an allocation `raii_last_mid` (`src/raii.c:135-137`, and `raii_mid` for the thread's scope) gives
the index under which the release of the block was registered, `(size_t)-1` if it was not; whatever the
state of the scope, and no matter how the array's block answers. -/
theorem C26_mid (env : Env) (fuel s size f : Nat) (w w' : World)
    (h : exec env (fuel + 1) (.malloc s size f) w = .ok w') :
    ∃ p, w'.trace = w.trace ++ [.allocated s p f, .registered s f p (w'.scopes s).mid] ∨
      (w'.trace = w.trace ++ [.allocated s p f, .refused s f p] ∧ (w'.scopes s).mid = -1) := by
  have key : ∀ (p : Nat) (w1 : World), w1.trace = w.trace →
      ((deferAny env s f p false ((w1.set s { w1.scopes s with protector := true, isProtected := true }).log
        (.allocated s p f))).andThen fun w => .ok (w.set s { w.scopes s with mid := lastIndex w })) = .ok w' →
      w'.trace = w.trace ++ [.allocated s p f, .registered s f p (w'.scopes s).mid] ∨
      (w'.trace = w.trace ++ [.allocated s p f, .refused s f p] ∧ (w'.scopes s).mid = -1) := by
    intro p w1 ht h
    unfold deferAny at h
    dsimp only at h
    split at h
    · simp only [Out.andThen] at h
      cases h
      exact .inr ⟨by simp [World.log, World.ticked, ht], by simp [lastIndex, World.log]⟩
    · split at h
      · cases h
      · simp only [Out.andThen] at h
        cases h
        exact .inl (by simp [World.log, World.ticked, ht, lastIndex])
  replace h : (if (w.scopes s).deleted = true then Out.wild w else mallocFull env s size f w) = .ok w' := h
  by_cases hd : (w.scopes s).deleted = true
  · rw [if_pos hd] at h; cases h
  · rw [if_neg hd] at h
    unfold mallocFull at h
    split at h
    · cases h
    · rename_i p hp
      refine ⟨p, ?_⟩
      dsimp only at h
      split at h
      · exact key p w.ticked rfl h
      · split at h
        · cases h
        · exact key p w.ticked.ticked rfl h

example : ∃ w, exec c21Env 1 (.malloc 0 10 7) { scopes := fun _ => freshScope, trace := [], tick := 0 } = .ok w ∧
    (w.scopes 0).mid ≠ -1 := by
  refine ⟨_, rfl, ?_⟩; decide +kernel

end Verif.Props
