import Verif.Proof.ThreadStringsRun
import Verif.Props.Scope
/-!
# C78: strings handed out by a thread's scope
-/
namespace Verif.Props
open Verif Verif.Sm

/-- C78 in full: after any history of a thread, each call of the six string functions on arguments
the program may read either reports that memory ran out or delivers what was asked for; and a release
frees all that was handed out. -/
def C78_Full : Prop := ∀ (sys : Sys), sys.env.Real → Leaf sys.env → ∀ (m : Mem) (fuel : Nat) (cs : List Call) (st : St),
  run sys fuel cs (start m) = some st →
  (∀ c want, Asked (Mine sys st) sys.empty fuel st.mem c want →
    ((∃ st', step sys fuel c st = .panic st') ∧ Scarce sys st) ∨ Delivers sys fuel st c want) ∧
  (st.ready = true → 0 < fuel → Frees sys fuel st)

/-- **C78, partial.** Every call other than a thread's first being `raii_decode64` delivers: the right
bytes, apart from everything else, unchanged by whatever the thread calls later. -/
theorem C78_delivers_partial (sys : Sys) (hreal : sys.env.Real) (hleaf : Leaf sys.env) (m : Mem) (fuel : Nat)
    (cs : List Call) (st : St) (hrun : run sys fuel cs (start m) = some st) (c : Call)
    (want : Want) (ha : Asked (Mine sys st) sys.empty fuel st.mem c want)
    (hready : st.ready = true ∨ ∀ src, c ≠ .decode src) :
    ((∃ st', step sys fuel c st = .panic st') ∧ Scarce sys st) ∨ Delivers sys fuel st c want := by
  have hi := run_inv hreal hleaf (start_inv sys m) hrun
  have hmk : c.isMake = true := by cases ha <;> rfl
  have hst : step sys fuel c st = make sys fuel c { st with ready := true } := by
    obtain ⟨-, h | ⟨src, h⟩⟩ := step_make (sys := sys) (fuel := fuel) hmk st
    · exact h
    · rcases hready with hr | hr
      · subst h
        show make sys fuel _ st = _
        rw [← hr]
      · exact absurd h (hr src)
  rw [hst]
  rcases make_asked hreal (inv_ready hi) rfl (c := c) (fuel := fuel) (want := want) ha with h | ⟨v, st', h1, h2, h3⟩
  · exact .inl h
  · refine .inr ⟨v, st', by rw [hst]; exact h1, ?_, fun a hm => h2.user hm, (h2.inv (inv_ready hi)).apart, ?_, ?_⟩
    · rcases h3 with ⟨-, -, h⟩ | ⟨b, e1, -, h⟩
      · exact h _ _
      · exact h _ _ (fun a hab => ⟨rfl, .inr ⟨b, by rw [e1]; simp, hab⟩⟩)
    · rcases h3 with ⟨e1, e2, -⟩ | ⟨b, e1, e2, -⟩
      · exact .inl ⟨e2, e1⟩
      · exact .inr ⟨b, e1, e2⟩
    · intro later st2 hl hq
      rcases h3 with ⟨-, -, h⟩ | ⟨b, e1, -, h⟩
      · exact h _ _
      · obtain ⟨g1, g2⟩ := run_quiet hreal hleaf (h2.inv (inv_ready hi)) hl (b := b) (by rw [e1]; simp) (hq b e1)
        exact h _ _ (fun a hab => ⟨g2 a hab, .inr ⟨b, g1, hab⟩⟩)

/-- **C78, partial.** As long as the deferral array could grow and the scope was not released before,
a release frees every block handed out, newest first, each exactly once. -/
theorem C78_freed_partial (sys : Sys) (hreal : sys.env.Real) (hleaf : Leaf sys.env) (m : Mem) (fuel : Nat)
    (cs : List Call) (st : St) (hrun : run sys fuel cs (start m) = some st) (hr : st.ready = true)
    (hf : 0 < fuel) (hno : .release ∉ cs) (hmem : ∀ f x, Event.refused 0 f x ∉ st.w.trace) :
    Frees sys fuel st := by
  have hi := run_inv hreal hleaf (start_inv sys m) hrun
  obtain ⟨es, h1, h2, h3⟩ := hi.arr
  obtain ⟨h4, h5⟩ := h3 ⟨trivial, hno⟩
  replace h5 := h5 hmem
  obtain ⟨k, rfl⟩ : ∃ k, fuel = k + 1 := ⟨fuel - 1, by omega⟩
  obtain ⟨w', e1, -, -, ⟨-, -, e2⟩ | ⟨e2, -⟩⟩ :=
    release_full hleaf k h1 (fun e he => by rw [h2 e he]; simp) hi.err hi.del
  · have hcalls : es.reverse.filterMap (Entry.call 0) = st.live.map fun b => Event.ran 0 FREE b.addr := by
      have : ∀ l : List Entry, (∀ e ∈ l, e.func = .user FREE) →
          l.filterMap (Entry.call 0) = (l.map Entry.data).map (fun x => Event.ran 0 FREE x) := by
        intro l hl
        induction l with
        | nil => rfl
        | cons e l ih =>
          rw [List.filterMap_cons, ih (fun e he => hl e (by simp [he]))]
          simp [Entry.call, hl e (by simp)]
      rw [this _ (fun e he => h2 e (by simpa using he)), h5, List.map_map]
      rfl
    rw [hcalls] at e2
    let gone := w'.trace.drop st.w.trace.length
    refine ⟨{ st with w := w', live := st.live.filter fun b => .ran 0 FREE b.addr ∉ gone }, ?_, ?_, ?_⟩
    · rw [step, if_neg (by simp [hr]), e1]
    · simp only [List.filter_eq_nil_iff]
      intro b hb
      show ¬ decide (Event.ran 0 FREE b.addr ∉ w'.trace.drop st.w.trace.length) = true
      rw [e2, List.drop_left]
      simp only [List.cons_append, List.mem_cons, List.mem_append, List.mem_map]
      simp
      exact ⟨b, hb, rfl⟩
    · exact e2
  · exact absurd h4 e2

theorem run_append {sys : Sys} {fuel : Nat} : ∀ {cs ds : List Call} {st st1 : St}, run sys fuel cs st = some st1 →
    run sys fuel (cs ++ ds) st = run sys fuel ds st1
  | [], ds, st, st1, h => by cases h; rfl
  | c :: cs, ds, st, st1, h => by
    rw [List.cons_append, run]
    rw [run] at h
    split at h
    · exact run_append h
    · cases h

/-- **C78.** Encode, do anything (without releasing, and without storing into the text), decode: the
string comes back. -/
theorem C78_roundtrip (sys : Sys) (hreal : sys.env.Real) (hleaf : Leaf sys.env) (m : Mem) (fuel : Nat)
    (cs : List Call) (st : St) (hrun : run sys fuel cs (start m) = some st) (src : Nat) (s : List UInt8)
    (hs : Str (Mine sys st) st.mem src s) (hne : s ≠ []) (hl : s.length + 2 < 3 * 2 ^ 30)
    (hf : 2 * s.length + 4 < fuel) (p : Nat) (st1 : St)
    (henc : step sys fuel (.encode src) st = .ret (.ptr p) st1) (later : List Call) (st2 : St)
    (hlater : run sys fuel later st1 = some st2)
    (hq : ∀ b, st1.live = b :: st.live → ∀ c ∈ later, Quiet b c) (hready : st2.ready = true) :
    ((∃ st', step sys fuel (.decode p) st2 = .panic st') ∧ Scarce sys st2) ∨
      ∃ q st3, step sys fuel (.decode p) st2 = .ret (.ptr q) st3 ∧ Str (Mine sys st3) st3.mem q s := by
  have hlen := rfc4648_len s
  have h2 : ∃ q, Val.ptr p = .ptr q ∧ Str (Mine sys st2) st2.mem q (rfc4648 s) := by
    rcases C78_delivers_partial sys hreal hleaf m fuel cs st hrun _ _ (.encode hs (by omega) hl)
      (.inr (fun _ h => by cases h)) with ⟨⟨st', h⟩, -⟩ | ⟨v, st', h1, -, -, -, -, h3⟩
    · rw [h] at henc; cases henc
    · rw [h1] at henc
      cases henc
      exact h3 later st2 hlater hq
  obtain ⟨q, hq, hstr⟩ := h2
  cases hq
  have hrun2 : run sys fuel (cs ++ (.encode src :: later)) (start m) = some st2 := by
    rw [run_append hrun, run, henc]; exact hlater
  rcases C78_delivers_partial sys hreal hleaf m fuel _ st2 hrun2 _ _ (.decode hstr hne (by omega) (by omega))
    (.inl hready) with h | ⟨v, st', h1, ⟨q, rfl, h3, h4⟩, -⟩
  · exact .inl h
  · refine .inr ⟨q, st', h1, Holds.cstr h3 hs.1.1, fun i hi => h4 i (by simp; omega)⟩

/-! ## Where it fails -/

/-- **C78.** `raii_decode64` as the first call a thread makes never returns: `raii_local()` is NULL. -/
theorem C78_first_decode (sys : Sys) (fuel : Nat) (st : St) (hr : st.ready = false) (src : Nat) (s : List UInt8)
    (hs : Str (Mine sys st) st.mem src (rfc4648 s)) (hne : s ≠ []) (hf : (rfc4648 s).length < fuel)
    (hl : s.length < 2 ^ 63) (v : Val) (st' : St) : step sys fuel (.decode src) st ≠ .ret v st' := by
  rcases asked_content (sys := sys) (.decode hs hne hf hl : Asked _ _ fuel st.mem _ _) with ⟨-, h⟩ | ⟨size, -, -, h⟩
  · obtain ⟨p, hp, -⟩ := h (fun _ => True) st.mem; cases hp
  · obtain ⟨fill, count, h1, -⟩ := (h st.mem (fun _ _ => rfl)).ex
    rw [show step sys fuel (.decode src) st = make sys fuel (.decode src) st from rfl, make, h1]
    dsimp only
    unfold allocate
    split
    · simp
    · rw [if_pos hr]; simp

/-- A thread whose own memory is the first page, with the texts `Zm9vYmE=` at 16, `fooba` at 32,
`a,b` at 48, `,` at 56, `A===` at 64 and an empty string at 72. -/
def c78Mem : Mem := memOf 16 ("Zm9vYmE=".toUTF8.toList ++ List.replicate 8 0 ++ "fooba".toUTF8.toList ++
  List.replicate 11 0 ++ "a,b".toUTF8.toList ++ List.replicate 5 0 ++ ",".toUTF8.toList ++ List.replicate 7 0 ++
  "A===".toUTF8.toList) 0

/-- Fresh pages, refusing the requests for which `bad` holds. -/
def c78Sys (bad : Nat → Bool) : Sys :=
  { env := { alloc := fun n size => if bad n then none else pages n size, body := fun _ _ => [], ptrdiff := shiftDiff },
    user := fun a => decide (a < 4096), junk := fun _ => 0, empty := 72 }

theorem c78_real (bad : Nat → Bool) : (c78Sys bad).env.Real := by
  intro n size addr h
  simp only [c78Sys] at h
  split at h
  · cases h
  · exact pages_real (fun _ _ => []) shiftDiff n size addr h

theorem c78_leaf (bad : Nat → Bool) : Leaf (c78Sys bad).env := fun _ _ => rfl

theorem C78_full_false : ¬ C78_Full := by
  intro h
  have hs : Str (Mine (c78Sys fun _ => false) (start c78Mem)) (start c78Mem).mem 16 (rfc4648 "fooba".toUTF8.toList) := by
    refine ⟨by unfold CStr; decide +kernel, fun i hi => .inl ?_⟩
    have : (rfc4648 "fooba".toUTF8.toList).length = 8 := by decide +kernel
    simp only [c78Sys, decide_eq_true_eq]
    omega
  rcases (h (c78Sys fun _ => false) (c78_real _) (c78_leaf _) c78Mem 20 [] _ rfl).1 _ _
    (.decode hs (by decide +kernel) (by decide +kernel) (by decide +kernel)) with ⟨⟨st', h1⟩, -⟩ | ⟨v, st', h1, -⟩
  · have : (match step (c78Sys fun _ => false) 20 (.decode 16) (start c78Mem) with | .wild => true | _ => false) = true := by
      decide +kernel
    rw [h1] at this
    cases this
  · exact C78_first_decode _ 20 _ rfl 16 _ hs (by decide +kernel) (by decide +kernel) (by decide +kernel) v st' h1

/-- How a history ended: the blocks still held, and how often `free` was called. -/
def held (sys : Sys) (cs : List Call) : Option (List Blk × List Nat) :=
  (run sys 20 cs (start c78Mem)).map fun st => (st.live, st.w.trace.filterMap fun e =>
    match e with | .ran _ _ x => some x | _ => none)

/-- **C78.** If the deferral array cannot be allocated, `raii_concat` returns a string nobody frees;
and so is any string made after `raii_deferred_clean`. -/
theorem C78_lost : held (c78Sys fun n => n = 1) [.concat [32, 32], .release] = some ([⟨4096, 11⟩], []) ∧
    held (c78Sys fun _ => false) [.encode 32, .release, .encode 32, .release] = some ([⟨16384, 9⟩], [4096]) := by
  decide +kernel

/-- **C78.** A text with three padding characters: NULL is returned, but the block made for it stays
until the release. -/
theorem C78_padding : held (c78Sys fun _ => false) [.encode 32, .decode 64]
    = some ([⟨16384, 4⟩, ⟨4096, 9⟩], []) := by decide +kernel

/-- The release theorem says no more than can be had: with the refusal of `C78_lost` it fails. -/
theorem C78_frees_needs_memory : ∃ st, run (c78Sys fun n => n = 1) 20 [.concat [32, 32]] (start c78Mem) = some st ∧
    st.ready = true ∧ ¬ Frees (c78Sys fun n => n = 1) 20 st := by
  have h := C78_lost.1
  simp only [held, Option.map_eq_some_iff] at h
  obtain ⟨st2, h1, h2⟩ := h
  cases h3 : run (c78Sys fun n => n = 1) 20 [.concat [32, 32]] (start c78Mem) with
  | none =>
    have : (run (c78Sys fun n => n = 1) 20 [.concat [32, 32]] (start c78Mem)).isSome = true := by decide +kernel
    rw [h3] at this; cases this
  | some st =>
    refine ⟨st, rfl, ?_, ?_⟩
    · have : (run (c78Sys fun n => n = 1) 20 [.concat [32, 32]] (start c78Mem)).map St.ready = some true := by
        decide +kernel
      rw [h3] at this
      simpa using this
    · rintro ⟨st', k1, k2, -⟩
      rw [show [Call.concat [32, 32], .release] = [.concat [32, 32]] ++ [.release] from rfl, run_append h3, run, k1] at h1
      cases h1
      rw [k2] at h2
      cases h2

/-- Non-vacuity of `C78_delivers_partial`, `C78_freed_partial` and `C78_roundtrip`: a thread encodes
`fooba`, concatenates, splits, overwrites the string it began with, decodes the text it got, and
releases; everything is freed, newest first. -/
example : held (c78Sys fun _ => false) [.encode 32, .concat [32, 48], .split 48 (some 56), .write 32 [120, 0],
      .decode 4096, .memdup 16384 3, .release] =
      some ([], [4096 * 10, 4096 * 8, 4096 * 6, 16384, 4096]) ∧
    (run (c78Sys fun _ => false) 20 [.encode 32, .concat [32, 48], .split 48 (some 56), .write 32 [120, 0],
      .decode 4096, .memdup 16384 3] (start c78Mem)).map (fun st => (st.mem.sub (4096 * 8) 6, st.mem.sub (4096 * 10) 4)) =
      some ("fooba".toUTF8.toList ++ [0], "foo".toUTF8.toList ++ [0]) := by
  decide +kernel

end Verif.Props
