import Verif.Proof.ThrowTame
/-!
# C57: throwing while scoped memory is in use
-/
namespace Verif.Props
open Verif Verif.Tm

/-- C57 in full: whatever the history of blocks, scopes, allocations, protected pointers and throws,
nothing undefined happens, every block of a scope is handed to its release function when the scope is
released and at no other time, and a throw releases the pointers protected in the current block and
nothing else. -/
def C57_Full : Prop :=
  ∀ (mem : Nat → Nat) (os : List Op), (A.start mem).Legal os →
    ∃ N, ∀ n, N ≤ n → ∃ st, run n (start mem) os = some (some st) ∧ st.trace = ((A.start mem).run os).out

/-- The release functions called, in a history that starts with empty memory. -/
def calls (os : List Op) : Option (Option (List (Nat × Nat))) :=
  (run 20 (start fun _ => 0) os).map (·.map (·.trace))

/-- What should be called. -/
def due (os : List Op) : List (Nat × Nat) := ((A.start fun _ => 0).run os).out

/-- A block from the thread's scope, into which the user wrote 7. -/
def wroteSeven : List Op := [.init, .enter false, .alloc 0 100 1 false, .store 100 7, .throw]

theorem wroteSeven_legal : (A.start fun _ => 0).Legal wroteSeven := by
  simp [wroteSeven, A.Legal, A.legal, A.start, A.step, A.set, Apart]

/-- Throwing in a block that allocated scoped memory releases what is *written in* the memory: the
release function is called with the number 7, the first word of the block. -/
theorem C57_content_released : calls wroteSeven = some (some [(1, 7)]) ∧ due wroteSeven = [] := by decide

theorem C57_full_false : ¬ C57_Full := by
  intro h
  obtain ⟨N, h⟩ := h _ _ wroteSeven_legal
  obtain ⟨st, h1, h2⟩ := h (N + 20) (by omega)
  have : (run (N + 20) (start fun _ => 0) wroteSeven).map (·.map (·.trace)) = some (some [(1, 7)]) := rfl
  rw [h1] at this
  simp only [Option.map_some, Option.some.injEq, h2] at this
  exact absurd this (by decide)

/-- A zeroed block (`calloc`) allocated after a pointer was protected: the pointer is not released. -/
theorem C57_zeroed_hides :
    calls [.scope 5, .enter false, .store 10 55, .protect 0 10 2, .alloc 5 100 1 true, .throw] = some (some []) ∧
    due [.scope 5, .enter false, .store 10 55, .protect 0 10 2, .alloc 5 100 1 true, .throw] = [(2, 55)] := by
  decide

/-- Two blocks from one scope make the list of protected pointers a circle of one: the pointers
protected before are lost. -/
theorem C57_two_blocks_hide :
    calls [.scope 5, .enter false, .store 10 55, .protect 0 10 2, .alloc 5 100 1 true, .alloc 5 200 1 false,
      .store 200 7, .throw] = some (some [(1, 7)]) ∧
    due [.scope 5, .enter false, .store 10 55, .protect 0 10 2, .alloc 5 100 1 true, .alloc 5 200 1 false,
      .store 200 7, .throw] = [(2, 55)] := by
  decide

/-- Two blocks from one scope, the scope released, then a throw: freed memory is read. -/
theorem C57_reads_freed :
    calls [.scope 5, .enter false, .alloc 5 100 1 false, .alloc 5 200 1 false, .delete 5, .throw] = none ∧
    due [.scope 5, .enter false, .alloc 5 100 1 false, .alloc 5 200 1 false, .delete 5, .throw] =
      [(1, 200), (1, 100)] := by
  decide

/-- One block, its scope released inside an inner block, then a throw: freed memory is read. -/
theorem C57_reads_freed_nested :
    calls [.scope 5, .enter false, .alloc 5 100 1 false, .enter false, .delete 5, .leave, .throw] = none := by
  decide

/-- Releasing, inside an inner block, a scope used outside it hands the enclosing block's protected
pointers to the inner one: a throw the inner block catches releases them. -/
theorem C57_enclosing_released :
    calls [.enter false, .store 10 55, .protect 0 10 2, .scope 5, .alloc 5 100 1 false, .enter false, .delete 5,
      .throw] = some (some [(1, 100), (2, 55)]) ∧
    due [.enter false, .store 10 55, .protect 0 10 2, .scope 5, .alloc 5 100 1 false, .enter false, .delete 5,
      .throw] = [(1, 100)] := by
  decide

/-- The thread's scope first used inside a block: a throw caught there releases it for good, memory
allocated from it later is never released. -/
theorem C57_later_lost :
    calls [.enter false, .init, .alloc 0 100 1 false, .throw, .leave, .alloc 0 200 1 false, .finish] =
      some (some [(1, 100)]) ∧
    due [.enter false, .init, .alloc 0 100 1 false, .throw, .leave, .alloc 0 200 1 false, .finish] =
      [(1, 200), (1, 100)] := by
  decide

/-- With the wrong leftover value in the context's uninitialised field, a throw inside a block releases
the thread's memory allocated outside it, which the code after the handler still uses. -/
theorem C57_outer_freed :
    calls [.init, .alloc 0 100 1 false, .enter true, .throw] = some (some [(1, 100)]) ∧
    due [.init, .alloc 0 100 1 false, .enter true, .throw] = [] := by
  decide

/-- Outside every block, with scoped memory in use: protected pointers are not released. -/
theorem C57_root_hides :
    calls [.init, .store 10 55, .alloc 0 100 1 false, .protect 0 10 2, .throw] = some (some [(1, 100)]) ∧
    due [.init, .store 10 55, .alloc 0 100 1 false, .protect 0 10 2, .throw] = [(2, 55), (1, 100)] := by
  decide

/-- C57 for histories in which nothing is thrown in a block that allocated scoped memory or released a
scope (outside every block: in which nothing is protected there, and the thread's scope owns a block once
scoped memory was used there), the thread's scope is set up outside every block and the context's
uninitialised flag is clear: nothing undefined happens, every block is released with its scope and at no
other time, and a throw releases the pointers protected in its block and nothing else.
Missing: the other histories, for which it fails. -/
theorem C57_released_partial (mem : Nat → Nat) (os : List Op) (hl : (A.start mem).Legal os)
    (ht : (A.start mem).Tame [false] os) (n : Nat) (hn : os.length ≤ n) :
    ∃ st, run n (start mem) os = some (some st) ∧ st.trace = ((A.start mem).run os).out :=
  I.run (I.start mem) (m := 0) (by intro fr hf; simp [A.start] at hf; simp [hf]) (by omega) hl ht

/-- Scoped memory used outside, exceptions thrown and pointers protected inside. -/
def tameHistory : List Op :=
  [.init, .alloc 0 100 1 false, .scope 5, .alloc 5 200 3 true, .store 100 9, .store 10 55, .store 11 66,
   .enter false, .protect 0 10 2, .protect 1 11 2, .throw, .leave, .delete 5, .throw]

example : (A.start fun _ => 0).Legal tameHistory ∧ (A.start fun _ => 0).Tame [false] tameHistory ∧
    due tameHistory = [(2, 66), (2, 55), (3, 200), (1, 100)] := by
  refine ⟨?_, ?_, by decide⟩
  · simp [tameHistory, A.Legal, A.legal, A.start, A.step, A.set, Apart]
    intro a _ _ h _ _
    omega
  · simp [tameHistory, A.Tame, A.tame, A.start, A.step, A.set, flags, Op.touches, A.blocks]

example : calls tameHistory = some (some [(2, 66), (2, 55), (3, 200), (1, 100)]) := by decide

/-- Whatever the history, throwing ends: the list of protected pointers may be circular, but it is not
followed for ever. -/
theorem C57_ends (mem : Nat → Nat) (os : List Op) (n : Nat) (hn : 2 * os.length + 1 ≤ n) :
    run n (start mem) os ≠ some none :=
  run_ends (L := []) (by intro r rec h; cases h) (by simpa using hn)

/-- Whatever the history, releasing a scope that still has its deferrals calls the release function of
each of its blocks, newest first, with the block's address, and does nothing undefined: only throwing
can go wrong. -/
theorem C57_delete (mem : Nat → Nat) (os : List Op) (n : Nat) (st : St) (h : run n (start mem) os = some (some st))
    (s : Nat) (sc : Scope) (hs : st.scopes s = some sc) (hok : sc.ok = true) :
    ∃ st', step n st (.delete s) = some (some st') ∧ st'.trace = st.trace ++ sc.entries := by
  obtain ⟨st', e1, e2, _⟩ := delete_ok (G.run (G.start mem) h) hs
  exact ⟨st', by simp only [step, e1]; rfl, by rw [e2, hok]; rfl⟩

/-- A scope with two blocks, after a throw elsewhere. -/
example : ∃ st sc, run 20 (start fun _ => 0) [.scope 5, .alloc 5 100 1 true, .alloc 5 200 1 true, .enter false,
    .throw] = some (some st) ∧ st.scopes 5 = some sc ∧ sc.ok = true ∧ sc.entries = [(1, 200), (1, 100)] :=
  ⟨_, _, rfl, rfl, rfl, rfl⟩

/-- Whatever the history, a throw in the context that set up the thread's scope, once that scope owns
memory, releases the scope's blocks, newest first, each once, instead of the protected pointers. -/
theorem C57_thread_cleaned (mem : Nat → Nat) (os : List Op) (n : Nat) (st : St)
    (h : run n (start mem) os = some (some st)) (hc : st.cur.isRaii = true) (sc : Scope)
    (hs : st.scopes 0 = some sc) (hok : sc.ok = true) (hp : sc.isProtected = true) (hi : st.outer ≠ []) :
    ∃ st', step n st .throw = some (some st') ∧ st'.trace = st.trace ++ sc.entries := by
  have g := G.run (G.start mem) h
  have e1 : throwSet st = (st.setScope 0 (some { sc with err := true }), true) := by
    have : throwSet st = (st.setScope 0 (some { sc with err := true }), sc.isProtected) := by
      unfold throwSet unwindSet raiiInit
      simp [hc, hs]
    exact this.trans (congrArg (Prod.mk _) hp)
  have g1 : G (st.setScope 0 (some { sc with err := true })) := g.setScope 0 _ (.inr ⟨sc, hs, rfl, rfl⟩)
  obtain ⟨st1, f1, f2, f3, _⟩ := deferredFree_ok
    (st := st.setScope 0 (some { sc with err := true })) (s := 0) (sc := { sc with err := true })
    (by simp [St.setScope]) hok (fun r hr0 => by
      obtain ⟨k, _, _, a, b⟩ := g1.live 0 _ r (by simp [St.setScope]) hr0; exact ⟨a, b⟩)
  refine ⟨st1.setStack none, ?_, ?_⟩
  · simp only [step, Tm.throw, e1]
    have e2 : unwindStack n (st.setScope 0 (some { sc with err := true })) true = some (some (st1.setStack none)) := by
      unfold unwindStack
      rw [f1]; rfl
    rw [e2]
    have e3 : terminate (st1.setStack none) = some (st1.setStack none) := by
      unfold terminate
      rw [if_neg]
      show st1.outer ≠ []
      rw [f3.outer]; exact hi
    simp only [e3]
    rfl
  · show st1.trace = _
    rw [f2]; rfl

example : calls [.enter false, .init, .alloc 0 100 1 false, .alloc 0 200 1 false, .throw] =
    some (some [(1, 200), (1, 100)]) := by decide

end Verif.Props
