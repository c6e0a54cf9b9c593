import Verif.Proof.Tso
/-!
# C81: on x86 with its store buffers
-/
namespace Verif.Props
open Verif Verif.Ts

/-- C81: whatever a program does on x86 that keeps the discipline in the machine without queues, it can do in that machine: the threads are in the same
places with the same registers, memory differs only by what waits in the queue of one thread for each place, and when nothing waits it is the same. -/
theorem C81_sc {σ : Type} (p : Prog σ) (mem : Nat → Nat) (loc : Nat → σ) (o : Owner σ) (d : Disciplined p mem loc o) (t : Tso σ)
    (r : Reach p mem loc t) :
    ∃ s, Sc.Reach p mem loc s ∧ s.loc = t.loc ∧
      (∀ x, ∃ i, s.mem x = see t.mem (t.buf i) x ∧ ∀ j, j ≠ i → ∀ w ∈ t.buf j, w.1 ≠ x) ∧ ((∀ i, t.buf i = []) → s.mem = t.mem) := by
  obtain ⟨s, hs, h⟩ := sim d r
  refine ⟨s, hs, h.loc, h.mem, fun hb => funext fun x => ?_⟩
  obtain ⟨i, e, _⟩ := h.mem x
  rw [e, hb i]; rfl

/-- The machine without queues does nothing that x86 cannot do. -/
theorem C81_converse {σ : Type} (p : Prog σ) (mem : Nat → Nat) (loc : Nat → σ) (s : Sc σ) (r : Sc.Reach p mem loc s) :
    Reach p mem loc ⟨s.mem, fun _ => [], s.loc⟩ := emul r

/-- Threads that share memory by the atomic operations and plain loads only (as the loops of `catomic.h` do) see memory without queues. -/
theorem C81_atomics_only {σ : Type} (p : Prog σ) (mem : Nat → Nat) (loc : Nat → σ) (h : ∀ i l x v k, p i l ≠ .store x v k) (t : Tso σ)
    (r : Reach p mem loc t) : (∀ i, t.buf i = []) ∧ Sc.Reach p mem loc ⟨t.mem, t.loc⟩ := by
  have d : Disciplined p mem loc (fun _ _ => none) := by
    intro s _ i
    unfold Allowed Transfers
    cases hc : p i (s.loc i) with
    | load x k => exact ⟨.inl rfl, fun _ _ _ => .inl rfl⟩
    | store x v k => exact absurd hc (h _ _ _ _ _)
    | lock x f k => exact ⟨.inl rfl, fun _ _ _ => .inl rfl⟩
    | fence k => exact ⟨trivial, fun _ _ _ => .inl rfl⟩
    | halt => exact ⟨trivial, fun _ _ _ => .inl rfl⟩
  obtain ⟨s, hs, hm⟩ := sim d r
  have hb : ∀ i, t.buf i = [] := by
    intro i
    cases hb : t.buf i with
    | nil => rfl
    | cons w b => exact nomatch (hm.own i w (by rw [hb]; exact List.mem_cons_self))
  refine ⟨hb, ?_⟩
  have e : s = ⟨t.mem, t.loc⟩ := by
    obtain ⟨m, l⟩ := s
    have h1 : l = t.loc := hm.loc
    have h2 : m = t.mem := funext fun x => hm.free x rfl
    rw [h1, h2]
  exact e ▸ hs

/-- Two threads; each stores 1 to a place of its own (by `s`), then loads the other's: 2 + what it found is where it ends. -/
def crossing (s : Nat → Cmd Nat) : Prog Nat := fun i l =>
  if 2 ≤ i then .halt else if l = 0 then s i else if l = 1 then .load (1 - i) (fun v => 2 + v) else .halt

/-- With plain stores. -/
def crossingPlain : Prog Nat := crossing fun i => .store i 1 1

/-- With the atomic store of `catomic.h`, an exchange. -/
def crossingAtomic : Prog Nat := crossing fun i => .lock i (fun _ => 1) (fun _ => 1)

/-- What the machine without queues keeps. -/
theorem crossing_inv {p : Prog Nat} {s : Sc Nat}
    (hp : ∀ s s' : Sc Nat, ∀ i, s.step p i = some s' → i < 2 ∧
      (s.loc i = 0 ∧ s' = ⟨upd s.mem i 1, upd s.loc i 1⟩ ∨ s.loc i = 1 ∧ s' = ⟨s.mem, upd s.loc i (2 + s.mem (1 - i))⟩))
    (r : Sc.Reach p (fun _ => 0) (fun _ => 0) s) :
    (s.loc 0 = 0 ∨ s.mem 0 = 1) ∧ (s.loc 1 = 0 ∨ s.mem 1 = 1) ∧ ¬ (s.loc 0 = 2 ∧ s.loc 1 = 2) := by
  induction r with
  | start => exact ⟨.inl rfl, .inl rfl, fun h => nomatch h.1⟩
  | @step s s' i _ e ih =>
    obtain ⟨a, b, c⟩ := ih
    obtain ⟨hi, h⟩ := hp s s' i e
    have hi : i = 0 ∨ i = 1 := by omega
    rcases h with ⟨h, rfl⟩ | ⟨h, rfl⟩
    · rcases hi with rfl | rfl
      · refine ⟨.inr rfl, b, fun h => ?_⟩
        have := h.1; exact nomatch this
      · refine ⟨a, .inr rfl, fun h => ?_⟩
        have := h.2; exact nomatch this
    · rcases hi with rfl | rfl
      · have a2 : s.mem 0 = 1 := a.resolve_left (by omega)
        refine ⟨.inr a2, b, fun h2 => ?_⟩
        have e1 : 2 + s.mem 1 = 2 := h2.1
        have e2 : s.loc 1 = 2 := h2.2
        omega
      · have b2 : s.mem 1 = 1 := b.resolve_left (by omega)
        refine ⟨a, .inr b2, fun h2 => ?_⟩
        have e1 : s.loc 0 = 2 := h2.1
        have e2 : 2 + s.mem 0 = 2 := h2.2
        omega

theorem crossing_step {s0 : Nat → Cmd Nat} (h0 : ∀ i, s0 i = .store i 1 1 ∨ s0 i = .lock i (fun _ => 1) (fun _ => 1)) (s s' : Sc Nat) (i : Nat)
    (e : s.step (crossing s0) i = some s') : i < 2 ∧
      (s.loc i = 0 ∧ s' = ⟨upd s.mem i 1, upd s.loc i 1⟩ ∨ s.loc i = 1 ∧ s' = ⟨s.mem, upd s.loc i (2 + s.mem (1 - i))⟩) := by
  unfold Sc.step crossing at e
  by_cases hi : 2 ≤ i
  · rw [if_pos hi] at e; cases e
  · rw [if_neg hi] at e
    refine ⟨by omega, ?_⟩
    by_cases h1 : s.loc i = 0
    · rw [if_pos h1] at e
      rcases h0 i with h | h
      · rw [h] at e; cases e; exact .inl ⟨h1, rfl⟩
      · rw [h] at e; cases e; exact .inl ⟨h1, rfl⟩
    · rw [if_neg h1] at e
      by_cases h2 : s.loc i = 1
      · rw [if_pos h2] at e; cases e; exact .inr ⟨h2, rfl⟩
      · rw [if_neg h2] at e; cases e

/-- The discipline is needed: with plain stores both threads may find 0, although in the machine without queues they never do. -/
theorem C81_plain_stores : (∃ t, Reach crossingPlain (fun _ => 0) (fun _ => 0) t ∧ t.loc 0 = 2 ∧ t.loc 1 = 2) ∧
    ∀ s, Sc.Reach crossingPlain (fun _ => 0) (fun _ => 0) s → ¬ (s.loc 0 = 2 ∧ s.loc 1 = 2) := by
  exact ⟨⟨_, .step (.cpu 1) (.step (.cpu 0) (.step (.cpu 1) (.step (.cpu 0) .start rfl) rfl) rfl) rfl, rfl, rfl⟩,
    fun s r => (crossing_inv (crossing_step fun i => .inl rfl) r).2.2⟩

/-- With the atomic store they do not, on x86. -/
theorem C81_atomic_stores (t : Tso Nat) (r : Reach crossingAtomic (fun _ => 0) (fun _ => 0) t) : ¬ (t.loc 0 = 2 ∧ t.loc 1 = 2) := by
  refine (crossing_inv (crossing_step fun i => .inr rfl) (C81_atomics_only crossingAtomic _ _ ?_ t r).2).2.2
  intro i l x v k
  unfold crossingAtomic crossing
  split
  · exact nofun
  · split
    · exact nofun
    · split <;> exact nofun

/-- Non-vacuity: thread 0 goes first, finds 0, and thread 1 finds 1. -/
example : ∃ t, Reach crossingAtomic (fun _ => 0) (fun _ => 0) t ∧ t.loc 0 = 2 ∧ t.loc 1 = 3 :=
  ⟨_, .step (.cpu 1) (.step (.cpu 1) (.step (.cpu 0) (.step (.cpu 0) .start rfl) rfl) rfl) rfl, rfl, rfl⟩

/-! ## The lock -/

section
variable (mem : Nat → Nat) (todo : Nat → List Body) (h0 : mem 0 = 0) (hd : ∀ i, ∀ b ∈ todo i, b.Data)
include h0 hd

/-- Threads that do anything between lock and unlock keep the discipline: the data belong to the thread that holds the lock. -/
theorem C81_lock_disciplined : ∃ o, Disciplined (fun _ => locker) mem (fun i => after (todo i)) o :=
  ⟨holder, locker_disciplined h0 hd fun _ => rfl⟩

/-- On x86 at most one thread is between lock and unlock. -/
theorem C81_lock_exclusive (t : Tso Lk) (r : Reach (fun _ => locker) mem (fun i => after (todo i)) t) (i j : Nat) (hi : (t.loc i).Holds)
    (hj : (t.loc j).Holds) : i = j := by
  obtain ⟨s, L, _, _, hs⟩ := lock_word h0 hd (fun _ => rfl) r
  rw [← hs.loc] at hi hj
  exact L.unique hj hi

/-- When all threads are through on x86, no store waits, the lock is free, and memory is as if the sections had been run one after another. -/
theorem C81_lock_serial (t : Tso Lk) (r : Reach (fun _ => locker) mem (fun i => after (todo i)) t) (ho : ∀ i, t.loc i = .out) :
    (∀ i, t.buf i = []) ∧ t.mem 0 = 0 ∧ ∃ m, Serial todo mem (fun _ => []) m ∧ ∀ x, x ≠ 0 → t.mem x = m x := by
  obtain ⟨s, L, M, e, hs⟩ := lock_word h0 hd (fun _ => rfl) r
  have hn : ∀ i, ¬ (s.loc i).Holds := by intro i; rw [hs.loc, ho i]; exact id
  have hb : ∀ i, t.buf i = [] := by
    intro i
    cases hb : t.buf i with
    | nil => rfl
    | cons w b =>
      have := hs.own i w (by rw [hb]; exact List.mem_cons_self)
      rw [holder_none hn] at this; cases this
  refine ⟨hb, ?_, ?_⟩
  · rw [← e]
    rcases L.bit with h | h
    · exact h
    · obtain ⟨k, hk, _⟩ := L.one h; exact absurd hk (hn k)
  · cases M with
    | idle td m h _ ht hm =>
      refine ⟨m, ?_, fun x hx => ?_⟩
      · have e2 : td = fun _ => [] := funext fun i => by rw [← ht i, hs.loc, ho i]; rfl
        exact e2 ▸ h
      · rw [← hm x hx]; exact (hs.free x (holder_none hn x)).symm
    | busy td m h i b0 b l _ hi => exact absurd (by rw [hi]; trivial) (hn i)

/-- Whatever has happened on x86, every thread can still get through. -/
theorem C81_lock_through (t : Tso Lk) (r : Reach (fun _ => locker) mem (fun i => after (todo i)) t) (i : Nat) :
    ∃ t', Runs (fun _ => locker) t t' ∧ t'.loc i = .out := through h0 hd (fun _ => rfl) r i

end

/-- So counting under the lock counts: `n` threads that add 1 to a number as often as they like, under the lock, add up. -/
theorem C81_count (n : Nat) (k : Nat → Nat) (mem : Nat → Nat) (h0 : mem 0 = 0) (t : Tso Lk)
    (r : Reach (fun _ => locker) mem (fun i => after (List.replicate (if i < n then k i else 0) count)) t) (ho : ∀ i, t.loc i = .out) :
    t.mem 1 = mem 1 + ((List.range n).map k).sum := by
  obtain ⟨_, _, m, hs, hm⟩ := C81_lock_serial mem (fun i => List.replicate (if i < n then k i else 0) count) h0
    (fun i b hb => by rw [List.eq_of_mem_replicate hb]; exact ⟨by decide, fun v => ⟨by decide, trivial⟩⟩) t r ho
  have h := (serial_count (n := n) (fun i b hb => List.eq_of_mem_replicate hb) (fun i hi => by rw [if_neg (by omega)]; rfl) hs).2.2
  rw [hm 1 (by decide)]
  have z : ∀ l : List Nat, (l.map fun _ => ([] : List Body).length).sum = 0 := by
    intro l; induction l with
    | nil => rfl
    | cons a l ih => rw [List.map_cons, List.sum_cons, ih]; rfl
  rw [z] at h
  have e : ((List.range n).map fun i => (List.replicate (if i < n then k i else 0) count).length) = (List.range n).map k := by
    refine List.map_congr_left fun i hi => ?_
    rw [List.length_replicate, if_pos (List.mem_range.1 hi)]
  rw [e] at h
  exact h

/-- Non-vacuity: two threads count once each; thread 1 meets the lock taken, waits, and is let in; thread 0's store waits in its queue meanwhile. -/
example : ∃ t, Reach (fun _ => locker) (fun _ => 0) (fun i => after (List.replicate (if i < 2 then 1 else 0) count)) t ∧ (t.loc 0).Holds ∧
    t.buf 0 = [(1, 1)] ∧ t.mem 1 = 0 ∧ t.loc 1 = .spin count [] ∧
    ∃ t', Runs (fun _ => locker) t t' ∧ t'.loc 0 = .out ∧ t'.loc 1 = .out ∧ t'.mem 1 = 2 := by
  refine ⟨_, .step (.cpu 1) (.step (.cpu 0) (.step (.cpu 0) (.step (.cpu 0) .start rfl) rfl) rfl) rfl, trivial, rfl, rfl, rfl, ?_⟩
  exact ⟨_, .step (.cpu 1) (.step (.flush 1) (.step (.cpu 1) (.step (.cpu 1) (.step (.cpu 1) (.step (.cpu 1) (.step (.cpu 0)
    (.step (.flush 0) .refl rfl) rfl) rfl) rfl) rfl) rfl) rfl) rfl, rfl, rfl, rfl⟩

example : count.Data := ⟨by decide, fun _ => ⟨by decide, trivial⟩⟩

end Verif.Props
