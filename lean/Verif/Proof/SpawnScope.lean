import Verif.Spec.SpawnScope
/-! Helpers for C69. -/
namespace Verif.So

/-! ## Counting -/

def freesOf (ds : List Def) : List Nat := ds.filterMap fun | .free b => some b | .fn _ => none
def fnsOf (ds : List Def) : List Nat := ds.filterMap fun | .free _ => none | .fn n => some n

def Sc.own (s : Sc) (b : Nat) : Nat := (freesOf s.defers).count b + s.prot.toList.count b + s.store.toList.count b

def Fut.own (f : Fut) (b : Nat) : Nat := (if f.live then [f.obj].count b else 0) + if f.pend then [f.farg].count b else 0

def Pool.own (p : Pool) (b : Nat) : Nat :=
  if p.dead then 0 else [p.scopeBlk].count b + p.futArr.toList.count b + p.resArr.toList.count b + p.sc.own b

def World.own (w : World) (b : Nat) : Nat :=
  w.sc.own b + (w.futs.map fun f => f.own b).sum + (w.pools.map fun p => p.own b).sum

/-- `b` is one of the blocks from `n` up to `m`. -/
def ind (n m b : Nat) : Nat := if n ≤ b ∧ b < m then 1 else 0

def Cnt (w : World) : Prop := ∀ b, w.freed.count b + w.own b = ind 0 w.next b

theorem sum_set {α : Type} (g : α → Nat) : ∀ (l : List α) (i : Nat) (a a' : α), l[i]? = some a →
    ((l.set i a').map g).sum + g a = (l.map g).sum + g a'
  | [], _, _, _, h => by simp at h
  | x :: l, 0, a, a', h => by simp at h; subst h; simp; omega
  | x :: l, i + 1, a, a', h => by
    have := sum_set g l i a a' (by simpa using h)
    simp only [List.set_cons_succ, List.map_cons, List.sum_cons]; omega

theorem le_sum {α : Type} (g : α → Nat) (l : List α) (i : Nat) (a : α) (h : l[i]? = some a) : g a ≤ (l.map g).sum := by
  have := sum_set g l i a a h
  induction l generalizing i with
  | nil => simp at h
  | cons x l ih =>
    cases i with
    | zero => simp at h; subst h; simp
    | succ i => have := ih i (by simpa using h) (sum_set g l i a a (by simpa using h)); simp; omega

theorem mem_frees {ds : List Def} {b : Nat} (h : Def.free b ∈ ds) : 1 ≤ (freesOf ds).count b := by
  rw [List.one_le_count_iff]
  unfold freesOf
  rw [List.mem_filterMap]
  exact ⟨_, h, rfl⟩

theorem own_of_def {s : Sc} {b : Nat} (h : Def.free b ∈ s.defers) : 1 ≤ s.own b := by
  have := mem_frees h
  unfold Sc.own; omega

theorem Cnt.notFreed {w : World} (h : Cnt w) {b : Nat} (ho : 1 ≤ w.own b) : b ∉ w.freed := by
  intro hm
  have := List.one_le_count_iff.mpr hm
  have h1 := h b
  unfold ind at h1
  split at h1 <;> omega

theorem Cnt.lt {w : World} (h : Cnt w) {b : Nat} (ho : 1 ≤ w.own b) : b < w.next := by
  have h1 := h b
  unfold ind at h1
  split at h1 <;> omega

theorem Cnt.freedLt {w : World} (h : Cnt w) {b : Nat} (hm : b ∈ w.freed) : b < w.next := by
  have := List.one_le_count_iff.mpr hm
  have h1 := h b
  unfold ind at h1
  split at h1 <;> omega

theorem own_sc (w : World) (b : Nat) : w.sc.own b ≤ w.own b := by unfold World.own; omega
theorem own_fut {w : World} {i : Nat} {f : Fut} (h : w.futs[i]? = some f) (b : Nat) : f.own b ≤ w.own b := by
  have := le_sum (fun f : Fut => f.own b) w.futs i f h
  unfold World.own; omega
theorem own_pool {w : World} {k : Nat} {p : Pool} (h : w.pools[k]? = some p) (b : Nat) : p.own b ≤ w.own b := by
  have := le_sum (fun p : Pool => p.own b) w.pools k p h
  unfold World.own; omega

/-! ## Scopes grow -/

/-- `s'` is `s` with more deferrals, all of them releases of blocks taken from `n` up to `n'`. -/
structure Ext (s : Sc) (n : Nat) (s' : Sc) (n' : Nat) : Prop where
  le : n ≤ n'
  own : ∀ b, s'.own b = s.own b + ind n n' b
  armed : s'.armed = s.armed
  sub : ∀ d ∈ s.defers, d ∈ s'.defers
  fns : fnsOf s'.defers = fnsOf s.defers

theorem Ext.refl (s : Sc) (n : Nat) : Ext s n s n :=
  ⟨Nat.le_refl n, fun b => by unfold ind; split <;> omega, rfl, fun _ h => h, rfl⟩

theorem Ext.trans {s t u : Sc} {n m k : Nat} (h1 : Ext s n t m) (h2 : Ext t m u k) : Ext s n u k := by
  refine ⟨Nat.le_trans h1.le h2.le, fun b => ?_, h2.armed.trans h1.armed, fun d h => h2.sub d (h1.sub d h), h2.fns.trans h1.fns⟩
  rw [h2.own, h1.own]
  have := h1.le
  have := h2.le
  unfold ind
  split <;> split <;> split <;> omega

theorem freesOf_append (a b : List Def) : freesOf (a ++ b) = freesOf a ++ freesOf b := by unfold freesOf; simp
theorem fnsOf_append (a b : List Def) : fnsOf (a ++ b) = fnsOf a ++ fnsOf b := by unfold fnsOf; simp

theorem cnt1 (a b : Nat) : [a].count b = if a = b then 1 else 0 := by
  rw [List.count_singleton]; simp
theorem frees1 (a : Nat) : freesOf [.free a] = [a] := rfl
theorem frees0 (a : Nat) : freesOf [.fn a] = [] := rfl

theorem defer_store (s : Sc) (n : Nat) (d : Def) : (s.defer n d).2.store.isSome = true := by
  unfold Sc.defer
  cases h : s.store <;> simp [h]

theorem defer_mem (s : Sc) (n : Nat) (d : Def) : d ∈ (s.defer n d).2.defers := by
  unfold Sc.defer
  cases h : s.store <;> simp

theorem defer_sub (s : Sc) (n : Nat) (d : Def) : ∀ e ∈ s.defers, e ∈ (s.defer n d).2.defers := by
  intro e he
  unfold Sc.defer
  cases h : s.store <;> simp [he]

/-- A block is taken and its release deferred. -/
theorem take_defer (s : Sc) (n : Nat) : Ext s n (s.defer (n + 1) (.free n)).2 (s.defer (n + 1) (.free n)).1 := by
  unfold Sc.defer
  cases h : s.store with
  | none =>
    refine ⟨by simp; omega, fun b => ?_, rfl, fun d hd => by simp [hd], by simp [fnsOf_append]; rfl⟩
    simp only [Sc.own, h, freesOf_append, List.count_append, frees1, frees0, cnt1, Option.toList, List.count_nil, ind]
    repeat' split
    all_goals omega
  | some b0 =>
    refine ⟨by simp, fun b => ?_, rfl, fun d hd => by simp [hd], by simp [fnsOf_append]; rfl⟩
    simp only [Sc.own, h, freesOf_append, List.count_append, frees1, frees0, cnt1, Option.toList, List.count_nil, ind]
    repeat' split
    all_goals omega

/-- A function is deferred. -/
theorem defer_fn (s : Sc) (n x : Nat) : n ≤ (s.defer n (.fn x)).1 ∧ (∀ b, (s.defer n (.fn x)).2.own b = s.own b + ind n (s.defer n (.fn x)).1 b) ∧
    (s.defer n (.fn x)).2.armed = s.armed ∧ fnsOf (s.defer n (.fn x)).2.defers = fnsOf s.defers ++ [x] := by
  unfold Sc.defer
  cases h : s.store with
  | none =>
    refine ⟨by simp, fun b => ?_, rfl, by simp [fnsOf_append]; rfl⟩
    simp only [Sc.own, h, freesOf_append, List.count_append, frees1, frees0, cnt1, Option.toList, List.count_nil, ind]
    repeat' split
    all_goals omega
  | some b0 =>
    refine ⟨by simp, fun b => ?_, rfl, by simp [fnsOf_append]; rfl⟩
    simp only [Sc.own, h, freesOf_append, List.count_append, frees1, frees0, cnt1, Option.toList, List.count_nil, ind]
    repeat' split
    all_goals omega

theorem alloc_ext (s : Sc) (n : Nat) : (s.alloc n).1 = n ∧ Ext s n (s.alloc n).2.2 (s.alloc n).2.1 ∧
    Def.free n ∈ (s.alloc n).2.2.defers ∧ (s.alloc n).2.2.store.isSome = true := by
  refine ⟨rfl, ?_, defer_mem _ _ _, defer_store _ _ _⟩
  unfold Sc.alloc
  cases h : s.prot with
  | some p => exact take_defer s n
  | none =>
    dsimp only
    unfold Sc.defer
    cases hs : s.store with
    | none =>
      refine ⟨by simp; omega, fun b => ?_, rfl, fun d hd => by simp [hd], by simp [fnsOf_append]; rfl⟩
      simp only [Sc.own, h, hs, freesOf_append, List.count_append, frees1, frees0, cnt1, Option.toList, List.count_nil, ind]
      repeat' split
      all_goals omega
    | some b0 =>
      refine ⟨by simp, fun b => ?_, rfl, fun d hd => by simp [hd], by simp [fnsOf_append]; rfl⟩
      simp only [Sc.own, h, hs, freesOf_append, List.count_append, frees1, frees0, cnt1, Option.toList, List.count_nil, ind]
      repeat' split
      all_goals omega

theorem ind_split {n m k : Nat} (h1 : n ≤ m) (h2 : m ≤ k) (b : Nat) : ind n k b = ind n m b + ind m k b := by
  unfold ind
  split <;> split <;> split <;> omega

theorem alloc_lt (s : Sc) (n : Nat) : n < (s.alloc n).2.1 := by
  unfold Sc.alloc
  cases s.prot <;> dsimp only <;> unfold Sc.defer <;> split <;> simp <;> omega

/-! ## Releasing -/

theorem freesOf_reverse (ds : List Def) : freesOf ds.reverse = (freesOf ds).reverse := by unfold freesOf; rw [List.filterMap_reverse]
theorem fnsOf_reverse (ds : List Def) : fnsOf ds.reverse = (fnsOf ds).reverse := by unfold fnsOf; rw [List.filterMap_reverse]

theorem runDefs_eq : ∀ (ds : List Def) (w : World), (∀ b, w.freed.count b + (freesOf ds).count b ≤ 1) →
    w.runDefs ds = some { w with freed := w.freed ++ freesOf ds, ran := w.ran ++ fnsOf ds }
  | [], w, _ => by simp [World.runDefs, freesOf, fnsOf]
  | .fn n :: ds, w, h => by
    have e1 : freesOf (.fn n :: ds) = freesOf ds := rfl
    have e2 : fnsOf (.fn n :: ds) = n :: fnsOf ds := rfl
    rw [e1] at h
    simp only [World.runDefs, World.runDef, Option.bind_some]
    rw [runDefs_eq ds _ (by simpa using h), e1, e2]
    simp
  | .free b :: ds, w, h => by
    have e1 : freesOf (.free b :: ds) = b :: freesOf ds := rfl
    have e2 : fnsOf (.free b :: ds) = fnsOf ds := rfl
    rw [e1] at h
    have hb : b ∉ w.freed := by
      intro hm
      have := List.one_le_count_iff.mpr hm
      have h1 := h b
      simp at h1
      omega
    simp only [World.runDefs, World.runDef, World.free, if_neg hb, Option.bind_some]
    rw [runDefs_eq ds _ (by
      intro c
      have h1 := h c
      simp only [List.count_append, List.count_cons, List.count_nil] at h1 ⊢
      omega), e1, e2]
    simp

theorem free?_eq (w : World) (o : Option Nat) (h : ∀ b ∈ o, b ∉ w.freed) : w.free? o = some { w with freed := w.freed ++ o.toList } := by
  cases o with
  | none => simp [World.free?]
  | some b => simp [World.free?, World.free, h b rfl]

/-- The blocks a scope releases, in order. -/
def Sc.out (s : Sc) : List Nat := if s.armed then (freesOf s.defers).reverse ++ s.prot.toList ++ s.store.toList else []

theorem out_count {s : Sc} (h : s.armed = true) (b : Nat) : s.out.count b = s.own b := by
  unfold Sc.out Sc.own
  rw [if_pos h]
  simp [List.count_append, Nat.add_assoc]

theorem release_eq (w : World) (s : Sc) (h : ∀ b, w.freed.count b + s.own b ≤ 1) :
    w.release s = some { w with freed := w.freed ++ s.out, ran := w.ran ++ if s.armed then (fnsOf s.defers).reverse else [] } := by
  unfold World.release
  cases ha : s.armed with
  | false => simp [Sc.out, ha]
  | true =>
    rw [if_pos rfl, runDefs_eq _ _ (by
      intro b
      have := h b
      rw [freesOf_reverse, List.count_reverse]
      unfold Sc.own at this
      omega), Option.bind_some, free?_eq, Option.bind_some, free?_eq]
    · simp [Sc.out, ha, freesOf_reverse, fnsOf_reverse]
    · intro b hb hm
      have h1 := h b
      have := List.one_le_count_iff.mpr hm
      rw [Option.mem_def] at hb
      simp only [List.count_append, freesOf_reverse, List.count_reverse] at this
      simp [Sc.own, hb] at h1
      omega
    · intro b hb hm
      have h1 := h b
      have := List.one_le_count_iff.mpr hm
      rw [Option.mem_def] at hb
      simp only [List.count_append, freesOf_reverse, List.count_reverse] at this
      simp [Sc.own, hb] at h1
      omega

theorem touchAll_eq : ∀ (l : List Nat) (w : World), (∀ b ∈ l, b ∉ w.freed) → w.touchAll l = some w
  | [], w, _ => rfl
  | b :: l, w, h => by
    rw [World.touchAll, World.touch, if_neg (h b (by simp)), Option.bind_some, touchAll_eq l w (fun c hc => h c (by simp [hc]))]

theorem touchAll_none : ∀ (l : List Nat) (w : World) (b : Nat), b ∈ l → b ∈ w.freed → w.touchAll l = none
  | c :: l, w, b, hb, hf => by
    rw [World.touchAll, World.touch]
    by_cases hc : c ∈ w.freed
    · rw [if_pos hc]; rfl
    · rw [if_neg hc, Option.bind_some]
      rcases List.mem_cons.mp hb with e | e
      · subst e; exact absurd hf hc
      · exact touchAll_none l w b e hf

end Verif.So
