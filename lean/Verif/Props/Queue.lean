import Verif.Proof.Queue
/-!
# Intrusive lists (C49)
-/
namespace Verif.Props
open Verif Verif.Bq

/-- **C49.**  From memory in any state, every legal history of the macros of a kind goes through without a bad pointer access, and then
everything a program can read from the lists is what the sequences say.  The heads and elements are arbitrary and may be many; lists of
one kind live side by side. -/
theorem C49_sequences (k : Kind) (m : Mem) : Behaves k m nothing := (Rep.nothing k m).behaves

/-- **C49.**  After any legal history, a `FOREACH_SAFE` loop whose body removes and frees some of the elements visits every element once,
in order, leaves exactly the others, and the lists go on behaving. -/
theorem C49_remove_while_walking (k : Kind) (m m1 : Mem) (fuel h : Nat) (os : List Op) (xs : List Nat) (p : Nat → Bool) (spoil : Nat → Mem → Mem)
    (hos : Legal fuel k nothing os) (hr : run fuel k os m = .ok m1) (hk : offers k (.remove h 0) = true) (hx : applyAll nothing os h = some xs)
    (hf : ∀ h' ys, applyAll nothing os h' = some ys → ys.length < fuel) (hsp : Spoils spoil) (n : Nat) (hn : xs.length < n) :
    ∃ m2, walkSafe (removing fuel k h p spoil) n (m1.next (.hd h)) m1 = some (xs, m2) ∧
      Shows k m2 ((applyAll nothing os).put h (xs.filter fun e => !p e)) ∧
      Behaves k m2 ((applyAll nothing os).put h (xs.filter fun e => !p e)) := by
  obtain ⟨m', e, H⟩ := (Rep.nothing k m).run os hos
  rw [hr] at e
  cases e
  have hput : (applyAll nothing os).put h ([] ++ xs) = applyAll nothing os := by
    funext j
    by_cases hj : j = h
    · subst hj; rw [put_same, hx]; rfl
    · rw [put_other _ _ hj]
  obtain ⟨m2, e2, H2⟩ := Rep.walkSafe (p := p) hk hsp (fun h' ys _ hy => hf h' ys hy) xs [] m1 n (by rw [hput]; exact H) (hf h xs hx) hn
  rw [← H.shows.first h xs hx] at e2
  exact ⟨m2, e2, H2.shows, H2.behaves⟩

/-- **C49.**  The same for tail queues walked backwards. -/
theorem C49_remove_while_walking_back (m m1 : Mem) (fuel h : Nat) (os : List Op) (xs : List Nat) (p : Nat → Bool) (spoil : Nat → Mem → Mem)
    (hos : Legal fuel .tailq nothing os) (hr : run fuel .tailq os m = .ok m1) (hx : applyAll nothing os h = some xs)
    (hf : ∀ h' ys, applyAll nothing os h' = some ys → ys.length < fuel) (hsp : Spoils spoil) (n : Nat) (hn : xs.length < n) :
    ∃ m2, walkBackSafe (removing fuel .tailq h p spoil) n (tailqLast h m1) m1 = some (xs.reverse, m2) ∧
      Shows .tailq m2 ((applyAll nothing os).put h (xs.filter fun e => !p e)) ∧
      Behaves .tailq m2 ((applyAll nothing os).put h (xs.filter fun e => !p e)) := by
  obtain ⟨m', e, H⟩ := (Rep.nothing .tailq m).run os hos
  rw [hr] at e
  cases e
  have hput : (applyAll nothing os).put h (xs ++ []) = applyAll nothing os := by
    funext j
    by_cases hj : j = h
    · subst hj; rw [put_same, hx]; simp
    · rw [put_other _ _ hj]
  obtain ⟨m2, e2, H2⟩ := Rep.walkBackSafe (p := p) hsp (fun h' ys _ hy => hf h' ys hy) xs.length xs [] m1 n rfl (by rw [hput]; exact H)
    (by simpa using hf h xs hx) hn
  rw [← H.shows.last rfl h xs hx] at e2
  rw [List.append_nil] at H2
  exact ⟨m2, e2, H2.shows, H2.behaves⟩

/-- Two tail queues; elements inserted at both ends, before and after others, one moved to the other queue, one replaced, the queues joined. -/
def queueHistory : List Op :=
  [.init 0, .init 1, .insertHead 0 10, .insertTail 0 11, .insertBefore 0 11 12, .insertAfter 0 11 13, .insertTail 1 20, .remove 0 10,
    .insertHead 1 10, .replace 0 12 14, .concat 0 1]

theorem queueHistory_legal : Legal 10 .tailq nothing queueHistory := Legal.of (B := 2) _ (fun _ _ => rfl) (by decide)

example : applyAll nothing queueHistory 0 = some [14, 11, 13, 10, 20] ∧ applyAll nothing queueHistory 1 = some [] := by decide

/-- The theorem at work: from garbage in memory. -/
example : ∃ m, run 10 .tailq queueHistory ⟨fun _ => some 7, fun _ => .el 3⟩ = .ok m ∧ walk m 6 (m.next (.hd 0)) = some [14, 11, 13, 10, 20] ∧
    walkBack m 6 (tailqLast 0 m) = some [20, 10, 13, 11, 14] := by
  obtain ⟨m, e, S⟩ := C49_sequences .tailq ⟨fun _ => some 7, fun _ => .el 3⟩ 10 _ queueHistory_legal
  have h0 : applyAll nothing queueHistory 0 = some [14, 11, 13, 10, 20] := by decide
  exact ⟨m, e, S.all 0 _ 6 h0 (by decide), S.backwards rfl 0 _ 6 h0 (by decide)⟩

/-- Removing the even elements during a walk, then writing over their memory. -/
example : ∃ m m2, walkSafe (removing 10 .tailq 0 (fun e => e % 2 == 0) fun e m => m.setNext (.el e) (some 99)) 6 (m.next (.hd 0)) m =
      some ([14, 11, 13, 10, 20], m2) ∧ walk m2 6 (m2.next (.hd 0)) = some [11, 13] := by
  obtain ⟨m, e, S⟩ := C49_sequences .tailq ⟨fun _ => some 7, fun _ => .el 3⟩ 10 _ queueHistory_legal
  have h0 : applyAll nothing queueHistory 0 = some [14, 11, 13, 10, 20] := by decide
  have hf : ∀ h' ys, applyAll nothing queueHistory h' = some ys → ys.length < 10 := by
    intro h ys hy
    by_cases h1 : h = 0
    · subst h1; rw [h0] at hy; cases hy; decide
    · by_cases h2 : h = 1
      · subst h2
        have h3 : applyAll nothing queueHistory 1 = some [] := by decide
        rw [h3] at hy; cases hy; decide
      · simp [applyAll, queueHistory, Op.apply, Seqs.put, nothing, h1, h2] at hy
  obtain ⟨m2, e2, S2, _⟩ := C49_remove_while_walking .tailq _ m 10 0 _ _ (fun e => e % 2 == 0) (fun e m => m.setNext (.el e) (some 99))
    queueHistory_legal e rfl h0 hf (fun e m l hl => ⟨by simp [Mem.setNext, hl], rfl⟩) 6 (by decide)
  exact ⟨m, m2, e2, S2.all 0 _ 6 (put_same _ _ _) (by decide)⟩

/-- Singly linked lists: the loop of `SLIST_REMOVE` finds an element in the middle. -/
def slistHistory : List Op := [.init 3, .insertHead 3 1, .insertHead 3 2, .insertAfter 3 1 5, .remove 3 1, .insertHead 3 1, .removeHead 3]

example : Legal 10 .slist nothing slistHistory ∧ applyAll nothing slistHistory 3 = some [2, 5] :=
  ⟨Legal.of (B := 4) _ (fun _ _ => rfl) (by decide), by decide⟩

end Verif.Props
