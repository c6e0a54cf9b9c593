import Verif.Spec.ArenaScope
import Verif.Proof.Arena
namespace Verif.Ar

/-- What growing an arena leaves alone. -/
structure Frame (h h' : Heap) (a : Nat) : Prop where
  alive : h'.alive = h.alive
  other : ∀ b, b ≠ a → h'.arenas b = h.arenas b
  next : (h.arenas a).next.isSome = true → (h'.arenas a).next.isSome = true
  thr : (h'.arenas a).threshold = (h.arenas a).threshold

theorem Frame.refl (h : Heap) (a : Nat) : Frame h h a := ⟨rfl, fun _ _ => rfl, id, rfl⟩

theorem Frame.trans {h h' h'' : Heap} {a : Nat} (x : Frame h h' a) (y : Frame h' h'' a) : Frame h h'' a :=
  ⟨y.alive.trans x.alive, fun b e => (y.other b e).trans (x.other b e), fun z => y.next (x.next z), y.thr.trans x.thr⟩

theorem frame_install {h : Heap} {a p : Nat} {l : Option Ptr} : Frame h (install h a p l) a := by
  refine ⟨rfl, fun b e => install_arena_ne h p l e, fun _ => ?_, ?_⟩ <;> rw [install_arena] <;> rfl

theorem grow_frame {oom : Nat → Nat → Bool} {a : Nat} {n : W} : ∀ (f : Nat) (h h' : Heap),
    grow oom a n f h = .ok h' ∨ grow oom a n f h = .null h' → Frame h h' a := by
  intro f
  induction f with
  | zero => intro h h' e; rcases e with e | e <;> cases e
  | succ f ih =>
    intro h h' e
    rw [grow] at e
    cases hd : diff (h.arenas a).limit (h.arenas a).avail with
    | none => simp only [hd] at e; rcases e with e | e <;> cases e
    | some d =>
      simp only [hd] at e
      by_cases hn : n.toInt ≤ d
      · simp only [if_pos hn] at e
        rcases e with e | e
        · cases e; exact Frame.refl _ _
        · cases e
      simp only [if_neg hn] at e
      cases hf : h.freeList with
      | some p =>
        simp only [hf] at e
        by_cases hl : h.live p = true
        · simp only [if_pos hl] at e
          have h2 := ih _ _ e
          refine Frame.trans ?_ h2
          exact ⟨rfl, fun b e => install_arena_ne _ _ _ e, fun _ => by rw [install_arena]; rfl, by rw [install_arena]⟩
        · simp only [if_neg hl] at e
          rcases e with e | e <;> cases e
      | none =>
        simp only [hf] at e
        have h1 : Frame h (h.setArena a { h.arenas a with total := (BitVec.ofNat 64 (h.arenas a).total + chunkSize n (h.arenas a).threshold).toNat }) a :=
          ⟨rfl, fun b e => setArena_ne _ _ e, fun z => by rw [setArena_same]; exact z, by rw [setArena_same]⟩
        refine h1.trans ?_
        generalize h.setArena a _ = g at e ⊢
        split at e
        · rcases e with e | e
          · cases e
          · cases e; exact Frame.refl _ _
        · split at e
          · rcases e with e | e <;> cases e
          · have h2 := ih _ _ e
            refine Frame.trans ?_ h2
            exact ⟨rfl, fun b e => install_arena_ne _ _ _ e, fun _ => by rw [install_arena]; rfl, by rw [install_arena]⟩

theorem handOut_frame' {a : Nat} {n : W} {h h' : Heap} {p : Ptr} (e : handOut a n h = .got h' p) :
    Frame h h' a ∧ (h'.arenas a).avail.isSome = true := by
  unfold handOut at e
  dsimp only at e
  cases hv : (h.arenas a).avail with
  | none => simp only [hv] at e; cases e
  | some q =>
    simp only [hv] at e
    cases hn : (h.arenas a).next with
    | none =>
      simp only [hn] at e
      cases e
      exact ⟨⟨rfl, fun b e => setArena_ne _ _ e, fun z => (by rw [hn] at z; cases z), by rw [setArena_same]⟩, by rw [setArena_same]; rfl⟩
    | some c =>
      simp only [hn] at e
      split at e
      · cases e
        refine ⟨⟨rfl, fun b e => setArena_ne _ _ e, fun z => ?_, ?_⟩, ?_⟩
        · show ((h.setArena a _).arenas a).next.isSome = true
          rw [setArena_same]; dsimp only; try rw [hn]
          try rfl
        · show ((h.setArena a _).arenas a).threshold = _
          rw [setArena_same]
        · show ((h.setArena a _).arenas a).avail.isSome = true
          rw [setArena_same]; rfl
      · cases e

theorem grow_not_got {oom : Nat → Nat → Bool} {a : Nat} {n : W} {g : Heap} {q : Ptr} : ∀ (f : Nat) (h : Heap),
    grow oom a n f h ≠ .got g q := by
  intro f
  induction f with
  | zero => intro h e; cases e
  | succ f ih =>
    intro h e
    rw [grow] at e
    dsimp only at e
    split at e
    · cases e
    · split at e
      · cases e
      · split at e
        · split at e
          · exact ih _ e
          · cases e
        · split at e
          · cases e
          · split at e
            · cases e
            · exact ih _ e

theorem alloc_frame {oom : Nat → Nat → Bool} {f : Nat} {h h' : Heap} {a : Nat} {n : W} :
    (∀ p, alloc oom f h a n = .got h' p → Frame h h' a ∧ (h'.arenas a).avail.isSome = true) ∧
    (alloc oom f h a n = .null h' → Frame h h' a) := by
  unfold alloc
  by_cases hl : h.alive a = true
  · rw [if_pos hl]
    cases hg : grow oom a (alignUp n) f h with
    | ok g =>
      have h1 := grow_frame f h g (.inl hg)
      refine ⟨fun p e => ?_, fun e => ?_⟩
      · have h2 := handOut_frame' e
        exact ⟨h1.trans h2.1, h2.2⟩
      · exfalso
        dsimp only [] at e
        unfold handOut at e
        dsimp only at e
        split at e
        · cases e
        · split at e
          · cases e
          · split at e <;> cases e
    | null g =>
      refine ⟨fun p e => (by cases e), fun e => ?_⟩
      cases e
      exact grow_frame f h _ (.inr hg)
    | got g q =>
      exfalso
      exact grow_not_got f h hg
    | wild => exact ⟨fun p e => (by cases e), fun e => (by cases e)⟩
    | running => exact ⟨fun p e => (by cases e), fun e => (by cases e)⟩
  · rw [if_neg hl]
    exact ⟨fun p e => (by cases e), fun e => (by cases e)⟩

/-- An arena with a chunk: clearing it while the free list is full reads the chunk it has just freed. -/
theorem clear_full {h : Heap} {a c : Nat} (hl : h.alive a = true) (hn : (h.arenas a).next = some c) (hv : h.live c = true)
    (ht : (h.chunks c).tag = .chunk) (hf : ((h.arenas a).threshold : Int) ≤ h.numFree) (f : Nat) :
    clear (f + 2) h (.arena a) = .wild := by
  rw [clear, if_pos (show h.valid (.arena a) = true from hl)]
  simp only [Heap.get, hn]
  rw [if_pos hv, if_pos ht, if_neg (by omega)]
  rw [if_pos]
  · rw [clear, if_neg]
    show ¬ (if c = c then false else _) = true
    rw [if_pos rfl]
    exact Bool.false_ne_true
  · exact hl

theorem free_used {h : Heap} {a c : Nat} (hl : h.alive a = true) (hg : (h.arenas a).tag = .arena)
    (hn : (h.arenas a).next = some c) (hv : h.live c = true)
    (ht : (h.chunks c).tag = .chunk) (hf : 0 ≤ h.numFree) (f : Nat) : free (f + 2) h a = .wild := by
  unfold free
  rw [if_pos hl, if_pos hg]
  rw [clear_full (h := { h with numFree := h.numFree + (h.arenas a).threshold + 1 }) (c := c) hl hn hv ht]
  show ((h.arenas a).threshold : Int) ≤ h.numFree + (h.arenas a).threshold + 1
  omega

theorem free_new {h : Heap} {a : Nat} (hl : h.alive a = true) (hg : (h.arenas a).tag = .arena)
    (hn : (h.arenas a).next = none) (f : Nat) : ∃ h', free (f + 1) h a = .ok h' ∧ h'.alive a = false ∧
      h'.numFree = h.numFree + (h.arenas a).threshold + 1 ∧ (∀ b, b ≠ a → h'.alive b = h.alive b ∧ h'.arenas b = h.arenas b) ∧
      h'.live = h.live ∧ h'.chunks = h.chunks ∧ h'.size = h.size := by
  unfold free
  rw [if_pos hl, if_pos hg, clear, if_pos]
  rotate_left
  · exact hl
  simp only [Heap.get, hn]
  exact ⟨_, rfl, if_pos rfl, rfl, fun b e => ⟨if_neg e, setArena_ne _ _ e⟩, rfl, rfl, rfl⟩

end Verif.Ar

namespace Verif.As
open Verif.Ar (W Heap Ptr Blk Frame)

/-- What holds between the operations of a proper program. -/
structure J (s : St) : Prop where
  inv : Ar.Inv s.heap s.blocks []
  arena : ∀ i, (s.scopes i).arena = if (s.scopes i).isArena then some i else none
  alive : ∀ i, (s.scopes i).isArena = true → s.heap.alive i = true
  fresh : ∀ i, (s.scopes i).made = false →
    s.heap.alive i = false ∧ (s.scopes i).live = false ∧ (s.scopes i).acts = [] ∧ (s.scopes i).isArena = false
  act : ∀ i f p, Act.user f (some p) ∈ (s.scopes i).acts → ∃ b ∈ s.blocks, b.p = p
  thr : ∀ a, s.heap.alive a = true → (s.heap.arenas a).threshold = 10
  used : ∀ b ∈ s.blocks, (s.heap.arenas b.a).next.isSome = true

theorem J_empty : J empty :=
  ⟨Ar.empty_inv, fun _ => rfl, fun _ h => (by cases h), fun _ _ => ⟨rfl, rfl, rfl, rfl⟩, fun _ _ _ h => (by cases h),
    fun _ h => (by cases h), fun _ h => (by cases h)⟩

@[simp] theorem setScope_same (s : St) (i : Nat) (x : Scope) : (s.setScope i x).scopes i = x := by simp [St.setScope]
theorem setScope_ne (s : St) {i j : Nat} (x : Scope) (e : j ≠ i) : (s.setScope i x).scopes j = s.scopes j := by
  simp [St.setScope, e]

/-- Changing the deferrals or the life of a scope. -/
theorem J.set {s : St} (j : J s) {i : Nat} {x : Scope} (hm : x.made = (s.scopes i).made ∨ x.made = true)
    (hi : x.isArena = (s.scopes i).isArena) (ha : x.arena = (s.scopes i).arena)
    (hf : x.made = false → x.live = false ∧ x.acts = [])
    (hacts : ∀ f p, Act.user f (some p) ∈ x.acts → ∃ b ∈ s.blocks, b.p = p) (k : Nat) (l : List Ev) :
    J { s.setScope i x with plains := k, log := l } := by
  refine ⟨j.inv, fun m => ?_, fun m => ?_, fun m => ?_, fun m => ?_, j.thr, j.used⟩ <;>
    by_cases e : m = i
  · subst e; show ((s.setScope m x).scopes m).arena = if ((s.setScope m x).scopes m).isArena then _ else _
    rw [setScope_same, ha, hi]; exact j.arena m
  · show ((s.setScope i x).scopes m).arena = if ((s.setScope i x).scopes m).isArena then _ else _
    rw [setScope_ne _ _ e]; exact j.arena m
  · subst e; show ((s.setScope m x).scopes m).isArena = true → _
    rw [setScope_same, hi]; exact j.alive m
  · show ((s.setScope i x).scopes m).isArena = true → _
    rw [setScope_ne _ _ e]; exact j.alive m
  · subst e; show ((s.setScope m x).scopes m).made = false → _ ∧ ((s.setScope m x).scopes m).live = _ ∧
      ((s.setScope m x).scopes m).acts = _ ∧ ((s.setScope m x).scopes m).isArena = _
    rw [setScope_same]
    intro h
    rcases hm with hm | hm
    · have := j.fresh m (hm ▸ h)
      exact ⟨this.1, (hf h).1, (hf h).2, hi.trans this.2.2.2⟩
    · rw [hm] at h; cases h
  · show ((s.setScope i x).scopes m).made = false → _ ∧ ((s.setScope i x).scopes m).live = _ ∧
      ((s.setScope i x).scopes m).acts = _ ∧ ((s.setScope i x).scopes m).isArena = _
    rw [setScope_ne _ _ e]; exact j.fresh m
  · subst e; show ∀ f p, Act.user f (some p) ∈ ((s.setScope m x).scopes m).acts → _
    rw [setScope_same]; exact hacts
  · show ∀ f p, Act.user f (some p) ∈ ((s.setScope i x).scopes m).acts → _
    rw [setScope_ne _ _ e]; exact j.act m

/-- A step of an arena. -/
theorem J.heap {s : St} (j : J s) {h' : Heap} {bs' : List Blk} {a : Nat} (hi : Ar.Inv h' bs' []) (fr : Frame s.heap h' a)
    (hb : bs' = s.blocks ∨ ∃ b, bs' = b :: s.blocks ∧ b.a = a ∧ (h'.arenas a).next.isSome = true) :
    J { s with heap := h', blocks := bs' } := by
  have hsub : ∀ b ∈ s.blocks, b ∈ bs' := by
    rcases hb with rfl | ⟨b, rfl, -⟩
    · exact fun _ h => h
    · exact fun _ h => List.mem_cons_of_mem _ h
  refine ⟨hi, j.arena, fun i h => ?_, fun i h => ?_, fun i f p h => ?_, fun b h => ?_, fun b h => ?_⟩
  · show h'.alive i = true; rw [fr.alive]; exact j.alive i h
  · have := j.fresh i h
    exact ⟨by show h'.alive i = false; rw [fr.alive]; exact this.1, this.2⟩
  · obtain ⟨b, h1, h2⟩ := j.act i f p h
    exact ⟨b, hsub b h1, h2⟩
  · have h : h'.alive b = true := h
    rw [fr.alive] at h
    show (h'.arenas b).threshold = 10
    by_cases e : b = a
    · subst e; rw [fr.thr]; exact j.thr _ h
    · rw [fr.other b e]; exact j.thr _ h
  · have old : ∀ b ∈ s.blocks, (h'.arenas b.a).next.isSome = true := by
      intro b h
      by_cases e : b.a = a
      · rw [e]; exact fr.next (e ▸ j.used b h)
      · rw [fr.other _ e]; exact j.used b h
    show (h'.arenas b.a).next.isSome = true
    rcases hb with rfl | ⟨c, rfl, h1, h2⟩
    · exact old b h
    · rcases List.mem_cons.1 h with rfl | h
      · rw [h1]; exact h2
      · exact old b h

/-- An arena that handed out a block has a chunk. -/
theorem next_of_avail {h : Heap} {bs : List Blk} {a : Nat} (i : Ar.Inv h bs []) (ha : h.alive a = true)
    (hv : (h.arenas a).avail.isSome = true) : (h.arenas a).next.isSome = true := by
  rcases i.cur a ⟨ha, by simp⟩ with x | ⟨c, o, x⟩
  · rw [x.avail] at hv; cases hv
  · rw [x.next]; rfl

theorem mallocArena_ok {oom : Nat → Nat → Bool} {s : St} (j : J s) {i : Nat} {n : W} (hl : (s.scopes i).live = true)
    (ha : (s.scopes i).isArena = true) (hn : 0 < n.toInt) (hm : Modest s i n.toNat) (f : Nat) :
    ∃ s' v, mallocArena oom (f + 3) s i n = .ok s' v ∧ J s' ∧ s'.scopes = s.scopes ∧ s'.plains = s.plains ∧ s'.log = s.log ∧
      (∀ k, k ≠ i → s'.heap.arenas k = s.heap.arenas k) := by
  have har := j.arena i
  rw [if_pos ha] at har
  unfold mallocArena
  rw [if_pos hl, har]
  dsimp only
  rcases Ar.alloc_ok (oom := oom) j.inv (a := i) ⟨j.alive i ha, by simp⟩ hn hm f with ⟨h', p, g1, g2⟩ | ⟨h', k, t, g1, g2, g3⟩
  · have fr := Ar.alloc_frame.1 p g1
    rw [g1]
    refine ⟨_, _, rfl, j.heap g2 fr.1 (.inr ⟨_, rfl, rfl, ?_⟩), rfl, rfl, rfl, fr.1.other⟩
    exact next_of_avail g2 (by rw [fr.1.alive]; exact j.alive i ha) fr.2
  · have fr := Ar.alloc_frame.2 g1
    rw [g1]
    exact ⟨_, _, rfl, j.heap g2 fr (.inl rfl), rfl, rfl, rfl, fr.other⟩

theorem signExtend_pos {c : BitVec 32} (h : 0 < c.toInt) :
    (c.signExtend 64).toInt = c.toInt ∧ (c.signExtend 64).toNat = c.toNat := by
  have h1 : (c.signExtend 64).toInt = c.toInt := BitVec.toInt_signExtend_of_le (by decide)
  refine ⟨h1, ?_⟩
  have h2 := Ar.toInt_small (Ar.toNat_of_pos (h1 ▸ h : 0 < (c.signExtend 64).toInt))
  have h3 : c.toInt = c.toNat := by
    rw [BitVec.toInt_eq_toNat_cond] at h ⊢
    have := c.isLt
    split <;> rename_i hx
    · rfl
    · rw [if_neg hx] at h; omega
  omega

theorem callocArena_ok {oom : Nat → Nat → Bool} {s : St} (j : J s) {i : Nat} {c : BitVec 32} {n : W}
    (hl : (s.scopes i).live = true) (ha : (s.scopes i).isArena = true) (hc : 0 < c.toInt) (hn : 0 < n.toInt)
    (hm : Modest s i (c.toNat * n.toNat)) (ho : ∀ k t, oom k t = false) (f : Nat) :
    ∃ s' v, callocArena oom (f + 3) s i c n = .ok s' v ∧ J s' ∧ s'.scopes = s.scopes ∧ s'.plains = s.plains ∧ s'.log = s.log ∧
      (∀ k, k ≠ i → s'.heap.arenas k = s.heap.arenas k) := by
  have har := j.arena i
  rw [if_pos ha] at har
  have hx := signExtend_pos hc
  unfold callocArena
  rw [if_pos hl, har]
  dsimp only
  obtain ⟨h', p, g1, g2⟩ := Ar.calloc_ok (oom := oom) j.inv (a := i) (c := c.signExtend 64) ⟨j.alive i ha, by simp⟩
    (hx.1 ▸ hc) hn (by rw [hx.2]; exact hm) f ho
  have g1' : Ar.alloc oom (f + 3) s.heap i (c.signExtend 64 * n) = .got h' p := by
    unfold Ar.calloc at g1
    split at g1
    · cases g1
    · exact g1
  have fr := Ar.alloc_frame.1 p g1'
  rw [g1]
  refine ⟨_, _, rfl, j.heap g2 fr.1 (.inr ⟨_, rfl, rfl, ?_⟩), rfl, rfl, rfl, fr.1.other⟩
  exact next_of_avail g2 (by rw [fr.1.alive]; exact j.alive i ha) fr.2

theorem plainAlloc_J {s : St} (j : J s) {i : Nat} (hl : (s.scopes i).live = true) :
    ∃ s', plainAlloc s i = .ok s' (.plain s.plains) ∧ J s' := by
  refine ⟨_, rfl, j.set (i := i) (x := { s.scopes i with acts := (s.scopes i).acts ++ [.release s.plains] })
    (.inl rfl) rfl rfl (fun h => ?_) (fun f p h => ?_) (s.plains + 1) s.log⟩
  · rw [(j.fresh i h).2.1] at hl; cases hl
  · rcases List.mem_append.1 h with h | h
    · exact j.act i f p h
    · rcases List.mem_cons.1 h with h | h
      · cases h
      · cases h

/-- One proper operation. -/
theorem step_ok {oom : Nat → Nat → Bool} {s : St} (j : J s) {o : Op} (hp : o.proper s)
    (hz : o.zeroes = true → ∀ k t, oom k t = false) (f : Nat) :
    ∃ s' v, step oom (f + 3) s o = .ok s' v ∧ J s' := by
  cases o with
  | init i =>
    have h0 := j.fresh i hp
    have ha := j.arena i
    rw [if_neg (by rw [h0.2.2.2]; exact Bool.false_ne_true)] at ha
    refine ⟨_, _, rfl, j.set (.inr rfl) h0.2.2.2.symm ha.symm (fun h => ?_) (fun f p h => ?_) s.plains s.log⟩
    · cases h
    · cases h
  | initArena i =>
    have h0 := j.fresh i hp
    have hne : ∀ k, s.heap.alive k = true → k ≠ i := fun k h e => by rw [e, h0.1] at h; cases h
    have hal : ∀ k, (Ar.init s.heap i 0).alive k = if k = i then true else s.heap.alive k := fun _ => rfl
    have har : ∀ k, k ≠ i → (Ar.init s.heap i 0).arenas k = s.heap.arenas k := fun k e => Ar.setArena_ne _ _ e
    have hars : (Ar.init s.heap i 0).arenas i = ⟨.arena, none, none, none, 10, 0, 0⟩ := Ar.setArena_same _ _ _
    refine ⟨_, _, rfl, Ar.init_ok j.inv h0.1 (by simp), fun m => ?_, fun m => ?_, fun m => ?_, fun m => ?_, fun m => ?_, fun b hb => ?_⟩
    · show ((s.setScope i _).scopes m).arena = if ((s.setScope i _).scopes m).isArena then _ else _
      by_cases e : m = i
      · subst e; rw [setScope_same]; rfl
      · rw [setScope_ne _ _ e]; exact j.arena m
    · show ((s.setScope i _).scopes m).isArena = true → _
      by_cases e : m = i
      · intro _; show (Ar.init s.heap i 0).alive m = true; rw [hal, if_pos e]
      · rw [setScope_ne _ _ e]; intro h; show (Ar.init s.heap i 0).alive m = true; rw [hal, if_neg e]; exact j.alive m h
    · show ((s.setScope i _).scopes m).made = false → (Ar.init s.heap i 0).alive m = false ∧ ((s.setScope i _).scopes m).live = false ∧
        ((s.setScope i _).scopes m).acts = [] ∧ ((s.setScope i _).scopes m).isArena = false
      by_cases e : m = i
      · subst e; rw [setScope_same]; intro h; cases h
      · rw [setScope_ne _ _ e, hal, if_neg e]; exact j.fresh m
    · show ∀ f p, Act.user f (some p) ∈ ((s.setScope i _).scopes m).acts → _
      by_cases e : m = i
      · subst e; rw [setScope_same]; intro f p h; cases h
      · rw [setScope_ne _ _ e]; exact j.act m
    · show (Ar.init s.heap i 0).alive m = true → ((Ar.init s.heap i 0).arenas m).threshold = 10
      by_cases e : m = i
      · subst e; intro _; rw [hars]
      · rw [hal, if_neg e, har m e]; exact j.thr m
    · have h1 := (j.inv.blks b hb).1.1
      show ((Ar.init s.heap i 0).arenas b.a).next.isSome = true
      rw [har _ (hne _ h1)]
      exact j.used b hb
  | mallocBy i n =>
    obtain ⟨hl, hn, hm⟩ := hp
    simp only [step, mallocBy]
    rw [if_pos hl]
    by_cases ha : (s.scopes i).isArena = true
    · rw [if_pos ha]
      obtain ⟨s', v, h1, h2, -⟩ := mallocArena_ok (oom := oom) j hl ha hn (hm ha) f
      exact ⟨s', v, h1, h2⟩
    · rw [if_neg ha]
      obtain ⟨s', h1, h2⟩ := plainAlloc_J j hl
      exact ⟨s', _, h1, h2⟩
  | mallocArena i n =>
    obtain ⟨hl, ha, hn, hm⟩ := hp
    obtain ⟨s', v, h1, h2, -⟩ := mallocArena_ok (oom := oom) j hl ha hn hm f
    exact ⟨s', v, h1, h2⟩
  | callocBy i c n =>
    obtain ⟨hl, hc, hn, hm⟩ := hp
    simp only [step, callocBy]
    rw [if_pos hl]
    by_cases ha : (s.scopes i).isArena = true
    · rw [if_pos ha]
      obtain ⟨s', v, h1, h2, -⟩ := callocArena_ok (oom := oom) j hl ha hc hn (hm ha) (hz rfl) f
      exact ⟨s', v, h1, h2⟩
    · rw [if_neg ha]
      obtain ⟨s', h1, h2⟩ := plainAlloc_J j hl
      exact ⟨s', _, h1, h2⟩
  | callocArena i c n =>
    obtain ⟨hl, ha, hc, hn, hm⟩ := hp
    obtain ⟨s', v, h1, h2, -⟩ := callocArena_ok (oom := oom) j hl ha hc hn hm (hz rfl) f
    exact ⟨s', v, h1, h2⟩
  | defer i g p =>
    obtain ⟨hl, hb⟩ := hp
    simp only [step, defer]
    rw [if_pos hl]
    refine ⟨_, _, rfl, j.set (i := i) (x := { s.scopes i with acts := (s.scopes i).acts ++ [.user g p] })
      (.inl rfl) rfl rfl (fun h => ?_) (fun f q h => ?_) s.plains s.log⟩
    · rw [(j.fresh i h).2.1] at hl; cases hl
    · rcases List.mem_append.1 h with h | h
      · exact j.act i f q h
      · rcases List.mem_cons.1 h with h | h
        · cases h; exact hb q rfl
        · cases h
  | delete i =>
    have hl : (s.scopes i).live = true := hp
    simp only [step, delete]
    rw [if_pos hl]
    refine ⟨_, _, rfl, j.set (i := i) (x := { s.scopes i with live := false, acts := [] })
      (.inl rfl) rfl rfl (fun h => ⟨rfl, rfl⟩) (fun f q h => (by cases h)) s.plains _⟩
  | freeArena i => exact hp.elim

theorem run_ok {oom : Nat → Nat → Bool} {f : Nat} (os : List Op) : ∀ (s : St), J s → Proper oom (f + 3) s os →
    ZeroSafe oom os → ∃ s', run oom (f + 3) s os = .ok s' .unit ∧ J s' := by
  induction os with
  | nil => intro s j _ _; exact ⟨s, rfl, j⟩
  | cons o os ih =>
    intro s j hp hz
    obtain ⟨s1, v, h1, j1⟩ := step_ok (oom := oom) j hp.1 (fun h => hz ⟨o, List.mem_cons_self, h⟩) f
    obtain ⟨s2, h2, j2⟩ := ih s1 j1 (hp.2 s1 v h1) (fun ⟨o', h, h'⟩ => hz ⟨o', List.mem_cons_of_mem _ h, h'⟩)
    exact ⟨s2, by rw [run, h1]; exact h2, j2⟩

/-- The scopes after one operation: what a program can tell of scope `i`. -/
theorem step_acts {oom : Nat → Nat → Bool} {f : Nat} {s s' : St} {v : Val} (j : J s) {o : Op} (hp : o.proper s)
    (hs : step oom f s o = .ok s' v) (i : Nat) :
    ((s'.scopes i).live = true ∨ (s'.scopes i).made = false → ∀ os, (s.scopes i).acts ++ acts i (fun m => (s.scopes m).isArena) s.plains (o :: os) =
      (s'.scopes i).acts ++ acts i (fun m => (s'.scopes m).isArena) s'.plains os) ∧
    ((s'.scopes i).live = true → (s.scopes i).live = true ∨ (s.scopes i).made = false) ∧
    ((s.scopes i).made = true → (s'.scopes i).made = true) := by
  have mal : ∀ k n, mallocArena oom f s k n = .ok s' v → s'.scopes = s.scopes ∧ s'.plains = s.plains := by
    intro k n h
    unfold mallocArena at h
    split at h
    · split at h
      · cases h
      · split at h <;> first | cases h; exact ⟨rfl, rfl⟩ | cases h
    · cases h
  have cal : ∀ k c n, callocArena oom f s k c n = .ok s' v → s'.scopes = s.scopes ∧ s'.plains = s.plains := by
    intro k c n h
    unfold callocArena at h
    split at h
    · split at h
      · cases h
      · split at h <;> first | cases h; exact ⟨rfl, rfl⟩ | cases h
    · cases h
  have pl : ∀ k, (s.scopes k).isArena = false → plainAlloc s k = .ok s' v →
      ((s'.scopes i).acts = if k = i then (s.scopes i).acts ++ [.release s.plains] else (s.scopes i).acts) ∧
      s'.plains = s.plains + 1 ∧ (fun m => (s'.scopes m).isArena) = (fun m => (s.scopes m).isArena) ∧
      (s'.scopes i).live = (s.scopes i).live ∧ (s'.scopes i).made = (s.scopes i).made := by
    intro k hk h
    unfold plainAlloc at h
    cases h
    refine ⟨?_, rfl, ?_, ?_, ?_⟩
    · show ((s.setScope k _).scopes i).acts = _
      by_cases e : k = i
      · subst e; rw [setScope_same, if_pos rfl]
      · rw [setScope_ne _ _ (Ne.symm e), if_neg e]
    · funext m
      show ((s.setScope k _).scopes m).isArena = _
      by_cases e : m = k
      · subst e; rw [setScope_same]
      · rw [setScope_ne _ _ e]
    · show ((s.setScope k _).scopes i).live = _
      by_cases e : i = k
      · subst e; rw [setScope_same]
      · rw [setScope_ne _ _ e]
    · show ((s.setScope k _).scopes i).made = _
      by_cases e : i = k
      · subst e; rw [setScope_same]
      · rw [setScope_ne _ _ e]
  cases o with
  | init k =>
    have h0 := j.fresh k hp
    have hp : (s.scopes k).made = false := hp
    simp only [step, init] at hs
    cases hs
    refine ⟨fun _ os => ?_, fun h => ?_, fun h => ?_⟩
    · have e1 : (fun m => ((s.setScope k ⟨true, true, false, none, []⟩).scopes m).isArena) =
          fun m => if m = k then false else (s.scopes m).isArena := by
        funext m
        by_cases e : m = k
        · subst e; rw [setScope_same, if_pos rfl]
        · rw [setScope_ne _ _ e, if_neg e]
      rw [e1]
      by_cases e : i = k
      · subst e; rw [setScope_same, h0.2.2.1]; rfl
      · rw [setScope_ne _ _ e]; rfl
    · by_cases e : i = k
      · subst e; exact .inr hp
      · rw [setScope_ne _ _ e] at h; exact .inl h
    · by_cases e : i = k
      · subst e; rw [setScope_same]
      · rw [setScope_ne _ _ e]; exact h
  | initArena k =>
    have h0 := j.fresh k hp
    have hp : (s.scopes k).made = false := hp
    simp only [step, initArena] at hs
    cases hs
    refine ⟨fun _ os => ?_, fun h => ?_, fun h => ?_⟩
    · show _ = ((s.setScope k ⟨true, true, true, some k, []⟩).scopes i).acts ++
        acts i (fun m => ((s.setScope k ⟨true, true, true, some k, []⟩).scopes m).isArena) s.plains os
      have e1 : (fun m => ((s.setScope k ⟨true, true, true, some k, []⟩).scopes m).isArena) =
          fun m => if m = k then true else (s.scopes m).isArena := by
        funext m
        by_cases e : m = k
        · subst e; rw [setScope_same, if_pos rfl]
        · rw [setScope_ne _ _ e, if_neg e]
      rw [e1]
      by_cases e : i = k
      · subst e; rw [setScope_same, h0.2.2.1]; rfl
      · rw [setScope_ne _ _ e]; rfl
    · by_cases e : i = k
      · subst e; exact .inr hp
      · have h : ((s.setScope k _).scopes i).live = true := h
        rw [setScope_ne _ _ e] at h; exact .inl h
    · show ((s.setScope k _).scopes i).made = true
      by_cases e : i = k
      · subst e; rw [setScope_same]
      · rw [setScope_ne _ _ e]; exact h
  | mallocBy k n =>
    simp only [step, mallocBy] at hs
    rw [if_pos hp.1] at hs
    by_cases ha : (s.scopes k).isArena = true
    · rw [if_pos ha] at hs
      obtain ⟨h1, h2⟩ := mal k n hs
      rw [h1, h2]
      exact ⟨fun _ os => by rw [acts, if_pos ha], .inl, id⟩
    · rw [if_neg ha] at hs
      obtain ⟨h1, h2, h3, h4, h5⟩ := pl k (by simpa using ha) hs
      refine ⟨fun _ os => ?_, fun h => .inl (h4 ▸ h), fun h => h5 ▸ h⟩
      rw [acts, if_neg ha, h1, h2, h3]
      by_cases e : k = i
      · rw [if_pos e, if_pos e, List.append_assoc]; rfl
      · rw [if_neg e, if_neg e]
  | callocBy k c n =>
    simp only [step, callocBy] at hs
    rw [if_pos hp.1] at hs
    by_cases ha : (s.scopes k).isArena = true
    · rw [if_pos ha] at hs
      obtain ⟨h1, h2⟩ := cal k c n hs
      rw [h1, h2]
      exact ⟨fun _ os => by rw [acts, if_pos ha], .inl, id⟩
    · rw [if_neg ha] at hs
      obtain ⟨h1, h2, h3, h4, h5⟩ := pl k (by simpa using ha) hs
      refine ⟨fun _ os => ?_, fun h => .inl (h4 ▸ h), fun h => h5 ▸ h⟩
      rw [acts, if_neg ha, h1, h2, h3]
      by_cases e : k = i
      · rw [if_pos e, if_pos e, List.append_assoc]; rfl
      · rw [if_neg e, if_neg e]
  | mallocArena k n =>
    obtain ⟨h1, h2⟩ := mal k n hs
    rw [h1, h2]
    exact ⟨fun _ os => rfl, .inl, id⟩
  | callocArena k c n =>
    obtain ⟨h1, h2⟩ := cal k c n hs
    rw [h1, h2]
    exact ⟨fun _ os => rfl, .inl, id⟩
  | defer k g p =>
    simp only [step, defer] at hs
    rw [if_pos hp.1] at hs
    cases hs
    have e1 : (fun m => ((s.setScope k { s.scopes k with acts := (s.scopes k).acts ++ [.user g p] }).scopes m).isArena) =
        fun m => (s.scopes m).isArena := by
      funext m
      by_cases e : m = k
      · subst e; rw [setScope_same]
      · rw [setScope_ne _ _ e]
    by_cases e : k = i
    · subst e
      refine ⟨fun _ os => ?_, fun h => ?_, fun h => ?_⟩
      · rw [e1, setScope_same, acts, if_pos rfl, List.append_assoc]; rfl
      · rw [setScope_same] at h; exact .inl h
      · rw [setScope_same]; exact h
    · refine ⟨fun _ os => ?_, fun h => ?_, fun h => ?_⟩
      · rw [e1, setScope_ne _ _ (Ne.symm e), acts, if_neg e]; rfl
      · rw [setScope_ne _ _ (Ne.symm e)] at h; exact .inl h
      · rw [setScope_ne _ _ (Ne.symm e)]; exact h
  | delete k =>
    simp only [step, delete] at hs
    rw [if_pos (show (s.scopes k).live = true from hp)] at hs
    cases hs
    have e1 : (fun m => ((deleteSt s k).scopes m).isArena) = fun m => (s.scopes m).isArena := by
      funext m
      show ((s.setScope k _).scopes m).isArena = _
      by_cases e : m = k
      · subst e; rw [setScope_same]
      · rw [setScope_ne _ _ e]
    rw [e1]
    have e2 : (deleteSt s k).scopes i = ((s.setScope k { s.scopes k with live := false, acts := [] }).scopes i) := rfl
    rw [e2]
    by_cases e : i = k
    · subst e
      rw [setScope_same]
      refine ⟨fun h => ?_, fun h => (by cases h), id⟩
      rcases h with h | h
      · cases h
      · have hp : (s.scopes i).live = true := hp
        rw [(j.fresh i h).2.1] at hp; cases hp
    · rw [setScope_ne _ _ e]
      exact ⟨fun _ os => rfl, .inl, id⟩
  | freeArena k => exact hp.elim

/-- The deferrals of a scope that is still there. -/
theorem run_acts {oom : Nat → Nat → Bool} {f : Nat} (os : List Op) : ∀ (s s' : St), J s → Proper oom (f + 3) s os →
    ZeroSafe oom os → run oom (f + 3) s os = .ok s' .unit → ∀ i, (s'.scopes i).live = true →
    (s'.scopes i).acts = (s.scopes i).acts ++ acts i (fun m => (s.scopes m).isArena) s.plains os ∧
    ((s.scopes i).live = true ∨ (s.scopes i).made = false) := by
  induction os with
  | nil =>
    intro s s' j _ _ hr i hl
    cases hr
    exact ⟨by simp [acts], .inl hl⟩
  | cons o os ih =>
    intro s s' j hp hz hr i hl
    obtain ⟨s1, v, h1, j1⟩ := step_ok (oom := oom) j hp.1 (fun h => hz ⟨o, List.mem_cons_self, h⟩) f
    rw [run, h1] at hr
    obtain ⟨h2, h3⟩ := ih s1 s' j1 (hp.2 s1 v h1) (fun ⟨o', h, h'⟩ => hz ⟨o', List.mem_cons_of_mem _ h, h'⟩) hr i hl
    obtain ⟨g1, g2, g3⟩ := step_acts j hp.1 h1 i
    have hcase : (s1.scopes i).live = true ∨ ((s1.scopes i).live = false ∧ (s1.scopes i).made = false) := by
      rcases h3 with h | h
      · exact .inl h
      · exact .inr ⟨(j1.fresh i h).2.1, h⟩
    rcases hcase with hc | ⟨hc, hm⟩
    · exact ⟨by rw [h2, g1 (.inl hc)], g2 hc⟩
    · have hm0 : (s.scopes i).made = false := by
        cases hx : (s.scopes i).made with
        | false => rfl
        | true => rw [g3 hx] at hm; cases hm
      refine ⟨?_, .inr hm0⟩
      rw [h2, g1 (.inr hm)]

/-- The deferrals of a proper program find their memory. -/
theorem acts_due {s : St} (j : J s) (i : Nat) : (s.scopes i).acts.map (Act.run s.heap) = (s.scopes i).acts.map Act.due := by
  refine List.map_congr_left fun x hx => ?_
  cases x with
  | release k => rfl
  | user f p =>
    cases p with
    | none => rfl
    | some p =>
      obtain ⟨b, hb, rfl⟩ := j.act i f p hx
      show Ev.ran f _ = Ev.ran f true
      rw [(j.inv.blks b hb).2.1.1]

/-- Nobody asked the scope for memory: its arena has no chunk. -/
theorem run_unused {oom : Nat → Nat → Bool} {f : Nat} (os : List Op) : ∀ (s s' : St), J s → Proper oom (f + 3) s os →
    ZeroSafe oom os → run oom (f + 3) s os = .ok s' .unit → ∀ i, (∀ o ∈ os, o.asks i = false) →
    (s.heap.alive i = true → (s.heap.arenas i).next = none) → s'.heap.alive i = true → (s'.heap.arenas i).next = none := by
  induction os with
  | nil => intro s s' _ _ _ hr i _ h; cases hr; exact h
  | cons o os ih =>
    intro s s' j hp hz hr i ha hn
    obtain ⟨s1, v, h1, j1⟩ := step_ok (oom := oom) j hp.1 (fun h => hz ⟨o, List.mem_cons_self, h⟩) f
    rw [run, h1] at hr
    refine ih s1 s' j1 (hp.2 s1 v h1) (fun ⟨o', h, h'⟩ => hz ⟨o', List.mem_cons_of_mem _ h, h'⟩) hr i
      (fun o' h => ha o' (List.mem_cons_of_mem _ h)) ?_
    have hai := ha o List.mem_cons_self
    have hpo := hp.1
    clear hp hz ih ha hr j1
    have alc : ∀ k, k ≠ i → (∃ h', s1.heap = h' ∧ Frame s.heap h' k) → s1.heap.alive i = true → (s1.heap.arenas i).next = none := by
      rintro k e ⟨_, rfl, fr⟩ h
      rw [fr.alive] at h
      rw [fr.other i (Ne.symm e)]
      exact hn h
    have mal : ∀ k n, mallocArena oom (f + 3) s k n = .ok s1 v → ∃ a, (s.scopes k).arena = some a ∧ Frame s.heap s1.heap a := by
      intro k n h
      unfold mallocArena at h
      split at h
      · split at h
        · cases h
        · rename_i a hka
          refine ⟨a, hka, ?_⟩
          split at h
          · rename_i h' p g; cases h; exact (Ar.alloc_frame.1 p g).1
          · rename_i h' g; cases h; exact Ar.alloc_frame.2 g
          · cases h
          · cases h
      · cases h
    have cal : ∀ k c n, callocArena oom (f + 3) s k c n = .ok s1 v → ∃ a, (s.scopes k).arena = some a ∧ Frame s.heap s1.heap a := by
      intro k c n h
      unfold callocArena at h
      split at h
      · split at h
        · cases h
        · rename_i a hka
          refine ⟨a, hka, ?_⟩
          split at h
          · rename_i h' p g
            cases h
            unfold Ar.calloc at g
            split at g
            · cases g
            · exact (Ar.alloc_frame.1 p g).1
          · cases h
          · cases h
      · cases h
    have same : ∀ k a, (s.scopes k).arena = some a → a = k := by
      intro k a h
      rw [j.arena k] at h
      split at h
      · cases h; rfl
      · cases h
    cases o with
    | init k => simp only [step, init] at h1; cases h1; exact hn
    | initArena k =>
      simp only [step, initArena] at h1; cases h1
      show (Ar.init s.heap k 0).alive i = true → ((Ar.init s.heap k 0).arenas i).next = none
      by_cases e : i = k
      · subst e
        intro _
        show ((s.heap.setArena i _).arenas i).next = none
        rw [Ar.setArena_same]
      · have e1 : (Ar.init s.heap k 0).alive i = s.heap.alive i := if_neg e
        have e2 : (Ar.init s.heap k 0).arenas i = s.heap.arenas i := Ar.setArena_ne _ _ e
        rw [e1, e2]; exact hn
    | mallocBy k n =>
      have e : k ≠ i := of_decide_eq_false hai
      simp only [step, mallocBy] at h1
      split at h1
      · split at h1
        · obtain ⟨a, h2, h3⟩ := mal k n h1
          cases same k a h2
          exact alc k e ⟨_, rfl, h3⟩
        · unfold plainAlloc at h1; cases h1; exact hn
      · cases h1
    | mallocArena k n =>
      have e : k ≠ i := of_decide_eq_false hai
      obtain ⟨a, h2, h3⟩ := mal k n h1
      cases same k a h2
      exact alc k e ⟨_, rfl, h3⟩
    | callocBy k c n =>
      have e : k ≠ i := of_decide_eq_false hai
      simp only [step, callocBy] at h1
      split at h1
      · split at h1
        · obtain ⟨a, h2, h3⟩ := cal k c n h1
          cases same k a h2
          exact alc k e ⟨_, rfl, h3⟩
        · unfold plainAlloc at h1; cases h1; exact hn
      · cases h1
    | callocArena k c n =>
      have e : k ≠ i := of_decide_eq_false hai
      obtain ⟨a, h2, h3⟩ := cal k c n h1
      cases same k a h2
      exact alc k e ⟨_, rfl, h3⟩
    | defer k g p =>
      simp only [step, defer] at h1
      split at h1
      · cases h1; exact hn
      · cases h1
    | delete k =>
      simp only [step, delete] at h1
      split at h1
      · cases h1; exact hn
      · cases h1
    | freeArena k => exact hpo.elim

end Verif.As
