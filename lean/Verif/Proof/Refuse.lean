import Verif.Spec.Refuse
/-!
# Counting blocks

`I s h`: besides those held in `s`, the function under way has the blocks `h`; the others that live are lost, as many as the refusals cost.
-/
namespace Verif.Oo

def Scope.all (c : Scope) : List Nat := c.own ++ (c.tables ++ c.deferred)

def cs (l : List Scope) (x : Nat) : Nat := (l.map Scope.all).flatten.count x

theorem cs_append (l : List Scope) (c : Scope) (x : Nat) : cs (l ++ [c]) x = cs l x + c.all.count x := by
  simp [cs]

theorem cs_set (l : List Scope) (i : Nat) (c : Scope) (h : i < l.length) (x : Nat) :
    cs (l.set i c) x + (l.getD i .empty).all.count x = cs l x + c.all.count x := by
  induction l generalizing i with
  | nil => simp at h
  | cons a l ih =>
    cases i with
    | zero => simp [cs]; omega
    | succ i =>
      have := ih i (by simpa using h)
      simp [cs] at this ⊢; omega

def I (s : St) (h : List Nat) : Prop :=
  ∃ gone : List Nat, (∀ x, s.live.count x = h.count x + s.kept.count x + cs s.scopes x + gone.count x) ∧ (∀ x, s.live.count x ≤ 1) ∧
    (∀ x, s.next ≤ x → s.live.count x = 0) ∧ gone.length = total s.refused

theorem I.same {s t : St} {h : List Nat} (i : I s h) (e1 : t.live = s.live) (e2 : t.kept = s.kept) (e3 : t.scopes = s.scopes) (e4 : t.next = s.next)
    (e5 : t.refused = s.refused) : I t h := by
  obtain ⟨g, a, b, c, d⟩ := i
  exact ⟨g, by rw [e1, e2, e3]; exact a, by rw [e1]; exact b, by rw [e1, e4]; exact c, by rw [e5]; exact d⟩

theorem I.granted {s : St} {h : List Nat} (i : I s h) : I (granted s) (s.next :: h) := by
  obtain ⟨g, a, b, c, d⟩ := i
  refine ⟨g, fun x => ?_, fun x => ?_, fun x hx => ?_, d⟩
  · have := a x
    simp only [Oo.granted, List.count_cons] at this ⊢; omega
  · have h1 := b x
    have h2 := c x
    simp only [Oo.granted, List.count_cons]
    by_cases e : s.next = x
    · have := h2 (by omega); simp [e]; omega
    · simp [e]; exact h1
  · simp only [Oo.granted] at hx
    have h2 := c x (by omega)
    simp only [Oo.granted, List.count_cons]
    have : s.next ≠ x := by omega
    simp [this]; exact h2

theorem I.deny {s : St} {l h : List Nat} (k : Kind) (f : For) (i : I s (l ++ h)) (e : l.length = cost k f) : I (deny k f s) h := by
  obtain ⟨g, a, b, c, d⟩ := i
  refine ⟨l ++ g, fun x => ?_, b, c, ?_⟩
  · have := a x
    simp only [Oo.deny, List.count_append] at this ⊢; omega
  · simp only [Oo.deny, total, List.map_cons, List.sum_cons, List.length_append] at d ⊢
    rw [e, d]

theorem I.free {s : St} {l h : List Nat} (i : I s (l ++ h)) : I (free l s) h := by
  obtain ⟨g, a, b, c, d⟩ := i
  have key : ∀ x, (Oo.free l s).live.count x = if x ∈ l then 0 else s.live.count x := by
    intro x
    by_cases e : x ∈ l
    · simp only [e, if_true, Oo.free]
      apply List.count_eq_zero.2
      simp [e]
    · simp only [e, if_false, Oo.free]
      exact List.count_filter (by simp [e])
  refine ⟨g, fun x => ?_, fun x => ?_, fun x hx => ?_, d⟩
  · have h1 := a x
    have h2 := b x
    rw [key]
    simp only [List.count_append] at h1
    by_cases e : x ∈ l
    · have := List.count_pos_iff.2 e
      simp only [e, if_true, Oo.free]; omega
    · have := List.count_eq_zero.2 e
      simp only [e, if_false, Oo.free]; omega
  · rw [key]; split
    · omega
    · exact b x
  · rw [key]; split
    · rfl
    · exact c x hx

theorem I.put {s : St} {h h' : List Nat} {i : Nat} {c : Scope} (j : I s h) (hi : i < s.scopes.length)
    (e : ∀ x, h.count x + (s.at i).all.count x = h'.count x + c.all.count x) : I (s.put i c) h' := by
  obtain ⟨g, a, b, d, f⟩ := j
  refine ⟨g, fun x => ?_, b, d, f⟩
  have h1 := a x
  have h2 := e x
  have h3 := cs_set s.scopes i c hi x
  simp only [St.put, St.at] at h1 h2 h3 ⊢; omega

theorem I.add {s : St} {h h' : List Nat} {c : Scope} (j : I s h) (e : ∀ x, h.count x = h'.count x + c.all.count x) : I (s.add c) h' := by
  obtain ⟨g, a, b, d, f⟩ := j
  refine ⟨g, fun x => ?_, b, d, f⟩
  have h1 := a x
  have h2 := e x
  simp only [St.add, cs_append]; omega

theorem I.keep {s : St} {l h : List Nat} (j : I s (l ++ h)) : I (s.keep l) h := by
  obtain ⟨g, a, b, d, f⟩ := j
  refine ⟨g, fun x => ?_, b, d, f⟩
  have h1 := a x
  simp only [St.keep, List.count_append] at h1 ⊢; omega

theorem I.drop {s : St} {l h : List Nat} (j : I s h) (hl : l.Nodup) (hk : ∀ x ∈ l, x ∈ s.kept) : I (s.drop l) (l ++ h) := by
  obtain ⟨g, a, b, d, f⟩ := j
  refine ⟨g, fun x => ?_, b, d, f⟩
  have h1 := a x
  have h2 := b x
  simp only [St.drop, List.count_append]
  by_cases e : x ∈ l
  · have e1 : (s.kept.filter fun y => !l.contains y).count x = 0 := List.count_eq_zero.2 (by simp [e])
    have e2 : l.count x = 1 := by have := List.nodup_iff_count.1 hl x; have := List.count_pos_iff.2 e; omega
    have e3 := List.count_pos_iff.2 (hk x e)
    omega
  · have e1 : (s.kept.filter fun y => !l.contains y).count x = s.kept.count x := List.count_filter (by simp [e])
    have e2 := List.count_eq_zero.2 e
    omega

theorem I.perm {s : St} {h h' : List Nat} (j : I s h) (e : ∀ x, h.count x = h'.count x) : I s h' := by
  obtain ⟨g, a, b, d, f⟩ := j
  exact ⟨g, fun x => by rw [a x, e x], b, d, f⟩

variable (ok : Nat → Bool)

theorem defer_I {s : St} {e h : List Nat} {k : Kind} {f : For} {i : Nat} (j : I s (e ++ h)) (hi : i < s.scopes.length) (hc : e.length = cost k f) :
    I (defer ok k f i e s) h ∧ (defer ok k f i e s).scopes.length = s.scopes.length := by
  unfold Oo.defer; dsimp only
  by_cases c : (s.at i).entries.length % 16 = 0
  · rw [if_pos c]; unfold ask
    by_cases o : ok s.tick
    · simp only [o, if_true]
      refine ⟨?_, by simp [St.put, Oo.free, Oo.granted]⟩
      have j1 := j.granted
      have j2 : I ((granted s).put i { s.at i with array := [s.next], entries := e :: (s.at i).entries }) ((s.at i).array ++ h) := by
        refine j1.put (by simpa [Oo.granted] using hi) fun x => ?_
        simp [Scope.all, Scope.deferred, Oo.granted, St.at, List.count_cons]; omega
      exact j2.free
    · simp only [o, Bool.false_eq_true, if_false]
      exact ⟨j.deny k f hc, rfl⟩
  · rw [if_neg c]
    refine ⟨j.put hi fun x => ?_, by simp [St.put]⟩
    simp [Scope.all, Scope.deferred]; omega

theorem mallocFull_I {s : St} {h : List Nat} {k : Kind} {f1 f2 f3 : For} {i : Nat} (l1 : List Nat) (h' : List Nat) (j : I s h)
    (hi : i < s.scopes.length) (e1 : ∀ x, h.count x = l1.count x + h'.count x) (c1 : l1.length = cost k f1) (c2 : l1.length + 1 = cost k f2)
    (c3 : 1 = cost k f3) :
    ((mallocFull ok k f1 f2 f3 i s).1 = none → I (mallocFull ok k f1 f2 f3 i s).2 h') ∧
      ((mallocFull ok k f1 f2 f3 i s).1 ≠ none → I (mallocFull ok k f1 f2 f3 i s).2 h) ∧
      (mallocFull ok k f1 f2 f3 i s).2.scopes.length = s.scopes.length := by
  unfold Oo.mallocFull
  by_cases o : ok s.tick
  · simp only [ask, o, if_true]
    have j1 := j.granted
    cases hp : ((granted s).at i).protector with
    | cons p ps =>
      have j2 := defer_I ok (e := [s.next]) (k := k) (f := f3) (i := i) j1 hi c3
      exact ⟨fun e => by simp at e, fun _ => j2.1, j2.2⟩
    | nil =>
      dsimp only
      by_cases o2 : ok (granted s).tick
      · simp only [o2, if_true]
        have j2 := j1.granted
        have j3 : I ((granted (granted s)).put i { (granted (granted s)).at i with protector := [(granted s).next] }) ([s.next] ++ h) := by
          refine j2.put hi fun x => ?_
          have hp' : ((granted (granted s)).at i).protector = [] := hp
          simp [Scope.all, Scope.deferred, hp', List.count_cons]; omega
        have j4 := defer_I ok (k := k) (f := f3) (i := i) j3 (by simpa [St.put, Oo.granted] using hi) c3
        exact ⟨fun e => by simp at e, fun _ => j4.1, j4.2.trans (by simp [St.put, Oo.granted])⟩
      · simp only [o2, Bool.false_eq_true, if_false]
        refine ⟨fun _ => ?_, fun e => by simp at e, rfl⟩
        refine (j1.perm (h' := (s.next :: l1) ++ h') fun x => ?_).deny k f2 (by simpa using c2)
        have := e1 x
        simp [List.count_cons]; omega
  · simp only [ask, o, Bool.false_eq_true, if_false]
    refine ⟨fun _ => ?_, fun e => by simp at e, rfl⟩
    refine (j.perm (h' := l1 ++ h') fun x => ?_).deny k f1 c1
    have := e1 x
    simp; omega

theorem more_I {s : St} {v p : Nat} (n : Nat) (j : I s [v, p]) :
    (∀ w, (more ok v n s).1 = some w → I (more ok v n s).2 [w, p]) ∧ ((more ok v n s).1 = none → I (more ok v n s).2 []) ∧
      (more ok v n s).2.scopes = s.scopes := by
  induction n generalizing v s with
  | zero => exact ⟨fun w e => by simp only [more, Option.some.injEq] at e ⊢; exact e ▸ j, fun e => by simp [more] at e, rfl⟩
  | succ n ih =>
    unfold more ask
    by_cases o : ok s.tick
    · simp only [o, if_true]
      have j1 : I (granted s) ([v] ++ [s.next, p]) := j.granted.perm fun x => by simp [List.count_cons]; omega
      exact ih j1.free
    · simp only [o, Bool.false_eq_true, if_false]
      refine ⟨fun w e => by simp at e, fun _ => ?_, rfl⟩
      exact I.deny (l := [v, p]) .pack .more j rfl

theorem pack_I {s : St} (n : Nat) (j : I s []) : I (pack ok n s).2 [] ∧ (pack ok n s).2.scopes = s.scopes := by
  unfold pack
  by_cases o : ok s.tick
  · simp only [ask, o, if_true]
    have j1 := j.granted
    by_cases o2 : ok (granted s).tick
    · simp only [o2, if_true]
      have j2 := more_I ok n j1.granted
      rcases hm : more ok (granted s).next n (granted (granted s)) with ⟨_ | w, t⟩
      · rw [hm] at j2; exact ⟨j2.2.1 rfl, j2.2.2⟩
      · rw [hm] at j2
        refine ⟨I.keep (l := [s.next, w]) ((j2.1 w rfl).perm fun x => ?_), j2.2.2⟩
        simp [List.count_cons]; omega
    · simp only [o2, Bool.false_eq_true, if_false]
      exact ⟨I.deny (l := [s.next]) .pack .values j1 rfl, rfl⟩
  · simp only [ask, o, Bool.false_eq_true, if_false]
    exact ⟨I.deny (l := []) .pack .params j rfl, rfl⟩

theorem arena_I {s : St} (j : I s []) : I (arena ok s).2 [] ∧ s.scopes.length ≤ (arena ok s).2.scopes.length := by
  unfold arena
  by_cases o : ok s.tick
  · simp only [ask, o, if_true]
    have j1 := j.granted
    by_cases o2 : ok (granted s).tick
    · simp only [o2, if_true]
      refine ⟨I.keep (l := [(granted s).next]) (j1.granted.add fun x => ?_), by simp [St.keep, St.add, granted]⟩
      simp [Scope.all, Scope.deferred, Scope.empty, List.count_cons]; omega
    · simp only [o2, Bool.false_eq_true, if_false]
      exact ⟨I.deny (l := [s.next]) .arena .arena j1 rfl, Nat.le_refl _⟩
  · simp only [ask, o, Bool.false_eq_true, if_false]
    exact ⟨I.deny (l := []) .arena .self j rfl, Nat.le_refl _⟩

theorem guard_I {s : St} (j : I s []) : I (guard ok s).2 [] ∧ s.scopes.length ≤ (guard ok s).2.scopes.length := by
  unfold guard
  by_cases o : ok s.tick
  · simp only [ask, o, if_true]
    have j1 : I ((granted s).add { Scope.empty with own := [s.next] }) [] :=
      j.granted.add fun x => by simp [Scope.all, Scope.deferred, Scope.empty]
    exact ⟨j1.same rfl rfl rfl rfl rfl, by simp [St.add, granted]⟩
  · simp only [ask, o, Bool.false_eq_true, if_false]
    exact ⟨I.deny (l := []) .guard .self j rfl, Nat.le_refl _⟩

theorem pool_I {s : St} (j : I s []) : I (pool ok s).2 [] ∧ s.scopes.length ≤ (pool ok s).2.scopes.length := by
  unfold pool
  by_cases o : ok s.tick
  · simp only [ask, o, if_true]
    have j1 := j.granted
    by_cases o2 : ok (granted s).tick
    · simp only [o2, if_true]
      have j2 := j1.granted
      by_cases o3 : ok (granted (granted s)).tick
      · simp only [o3, if_true]
        have j3 := j2.granted
        by_cases o4 : ok (granted (granted (granted s))).tick
        · simp only [o4, if_true]
          refine ⟨I.same (j3.granted.add (h' := []) fun x => ?_) rfl rfl rfl rfl rfl, by simp [St.add, granted]⟩
          simp [Scope.all, Scope.deferred, Scope.empty, List.count_cons]; omega
        · simp only [o4, Bool.false_eq_true, if_false]
          have j4 : I (deny .pool .array (granted (granted (granted s)))) [(granted (granted s)).next, s.next] :=
            I.deny (l := [(granted s).next]) .pool .array (j3.perm fun x => by simp [List.count_cons]; omega) rfl
          refine ⟨I.same (j4.add (h' := []) fun x => ?_) rfl rfl rfl rfl rfl, by simp [St.add, granted, deny]⟩
          simp [Scope.all, Scope.deferred, Scope.empty, List.count_cons]; omega
      · simp only [o3, Bool.false_eq_true, if_false]
        exact ⟨I.deny (l := [(granted s).next, s.next]) .pool .protector j2 rfl, Nat.le_refl _⟩
    · simp only [o2, Bool.false_eq_true, if_false]
      exact ⟨I.deny (l := [s.next]) .pool .block j1 rfl, Nat.le_refl _⟩
  · simp only [ask, o, Bool.false_eq_true, if_false]
    exact ⟨I.deny (l := []) .pool .self j rfl, Nat.le_refl _⟩

theorem launch_I {s : St} {k : Kind} (hk : k = .async ∨ k = .spawn) (j : I s []) (h0 : 0 < s.scopes.length) :
    (∀ f g, (launch ok k s).1 = some (f, g) → I (launch ok k s).2 [g, f]) ∧ ((launch ok k s).1 = none → I (launch ok k s).2 []) ∧
      (launch ok k s).2.scopes.length = s.scopes.length := by
  have m := mallocFull_I ok (k := k) (f1 := .block) (f2 := .protector) (f3 := .array) (i := 0) [] [] j h0 (fun _ => rfl)
    (by rcases hk with rfl | rfl <;> rfl) (by rcases hk with rfl | rfl <;> rfl) (by rcases hk with rfl | rfl <;> rfl)
  unfold launch
  rcases hm : Oo.mallocFull ok k .block .protector .array 0 s with ⟨_ | b, t⟩
  · rw [hm] at m
    exact ⟨fun f g e => by simp at e, fun _ => m.1 rfl, m.2.2⟩
  · rw [hm] at m
    have j1 : I t [] := m.2.1 (by simp)
    have e1 : t.scopes.length = s.scopes.length := m.2.2
    by_cases o : ok t.tick
    · simp only [ask, o, if_true]
      have j2 := j1.granted
      by_cases o2 : ok (granted t).tick
      · simp only [o2, if_true]
        have j3 := j2.granted
        unfold may
        by_cases o3 : ok (granted (granted t)).tick
        · simp only [o3, if_true]
          refine ⟨fun f g e => ?_, fun e => by simp at e, e1⟩
          simp only [Option.some.injEq, Prod.mk.injEq] at e
          obtain ⟨rfl, rfl⟩ := e
          exact j3.same rfl rfl rfl rfl rfl
        · simp only [o3, Bool.false_eq_true, if_false]
          exact ⟨fun f g e => by simp at e, fun _ => I.deny (l := [(granted t).next, t.next]) k .thread j3 (by rcases hk with rfl | rfl <;> rfl), e1⟩
      · simp only [o2, Bool.false_eq_true, if_false]
        exact ⟨fun f g e => by simp at e, fun _ => I.deny (l := [t.next]) k .argument j2 (by rcases hk with rfl | rfl <;> rfl), e1⟩
    · simp only [ask, o, Bool.false_eq_true, if_false]
      exact ⟨fun f g e => by simp at e, fun _ => I.deny (l := []) k .future j1 (by rcases hk with rfl | rfl <;> rfl), e1⟩

theorem tables_split (c : Scope) (x : Nat) : c.tables.count x = (c.tables.take 1).count x + (c.tables.drop 1).count x := by
  rw [← List.count_append, List.take_append_drop]

theorem grow_I {s : St} {i cpus : Nat} (j : I s []) (hi : i < s.scopes.length) :
    I (grow ok i cpus s).2 [] ∧ (grow ok i cpus s).2.scopes.length = s.scopes.length := by
  unfold grow
  by_cases c : (s.at i).threads % cpus = 0
  · rw [if_pos c]
    by_cases o : ok s.tick
    · simp only [ask, o, if_true]
      have j1 := j.granted
      have j2 : I ((granted s).put i { (granted s).at i with tables := s.next :: ((granted s).at i).tables.drop 1 })
          (((granted s).at i).tables.take 1 ++ []) := by
        refine j1.put hi fun x => ?_
        have := tables_split ((granted s).at i) x
        simp [Scope.all, Scope.deferred, List.count_cons] at this ⊢; omega
      have j3 : I ((free (((granted s).at i).tables.take 1) (granted s)).put i
          { (granted s).at i with tables := s.next :: ((granted s).at i).tables.drop 1 }) [] := j2.free
      have e3 : ((free (((granted s).at i).tables.take 1) (granted s)).put i
          { (granted s).at i with tables := s.next :: ((granted s).at i).tables.drop 1 }).scopes.length = s.scopes.length := by
        simp [St.put, free, granted]
      generalize ((free (((granted s).at i).tables.take 1) (granted s)).put i
          { (granted s).at i with tables := s.next :: ((granted s).at i).tables.drop 1 }) = t at j3 e3 ⊢
      by_cases o2 : ok t.tick
      · simp only [o2, if_true]
        have j4 : I ((granted t).put i { (granted t).at i with tables := ((granted t).at i).tables.take 1 ++ [t.next] })
            (((granted t).at i).tables.drop 1 ++ []) := by
          refine j3.granted.put (by show i < t.scopes.length; omega) fun x => ?_
          have := tables_split ((granted t).at i) x
          simp [Scope.all, Scope.deferred, List.count_cons] at this ⊢; omega
        exact ⟨j4.free, by simp [St.put, free, granted]; exact e3⟩
      · simp only [o2, Bool.false_eq_true, if_false]
        exact ⟨I.deny (l := []) .spawn .tables j3 rfl, e3⟩
    · simp only [ask, o, Bool.false_eq_true, if_false]
      exact ⟨I.deny (l := []) .spawn .tables j rfl, rfl⟩
  · rw [if_neg c]; exact ⟨j, rfl⟩

theorem spawn_I {s : St} {i cpus : Nat} (j : I s []) (hi : i < s.scopes.length) :
    I (spawn ok i cpus s).2 [] ∧ (spawn ok i cpus s).2.scopes.length = s.scopes.length := by
  have g := grow_I ok (cpus := cpus) j hi
  unfold spawn
  rcases hg : grow ok i cpus s with ⟨_ | _, t⟩
  · rw [hg] at g; exact g
  · rw [hg] at g
    have g1 : I t [] := g.1
    have g2 : t.scopes.length = s.scopes.length := g.2
    have l := launch_I ok (k := .spawn) (.inr rfl) g1 (by omega)
    dsimp only
    rcases hl : launch ok .spawn t with ⟨_ | ⟨f, b⟩, u⟩
    · rw [hl] at l; exact ⟨l.2.1 rfl, l.2.2.trans g2⟩
    · rw [hl] at l
      have j1 : I (u.keep [b]) [f] := I.keep (l := [b]) (l.1 f b rfl)
      have e1 : (u.keep [b]).scopes.length = s.scopes.length := l.2.2.trans g2
      have m := mallocFull_I ok (k := .spawn) (f1 := .result) (f2 := .resultProtector) (f3 := .resultArray) (i := i) [f] [] j1 (by omega)
        (fun _ => rfl) rfl rfl rfl
      dsimp only
      rcases hm : Oo.mallocFull ok .spawn .result .resultProtector .resultArray i (u.keep [b]) with ⟨_ | r, v⟩
      · rw [hm] at m; exact ⟨m.1 rfl, m.2.2.trans e1⟩
      · rw [hm] at m
        have j2 : I v ([f] ++ []) := m.2.1 (by simp)
        have e2 : v.scopes.length = s.scopes.length := m.2.2.trans e1
        refine ⟨I.keep (l := [f]) (j2.put (by omega) fun x => ?_), by simp [St.keep, St.put]; exact e2⟩
        simp [Scope.all, Scope.deferred]

theorem at_out {s : St} {i : Nat} (h : ¬ i < s.scopes.length) : s.at i = .empty := by
  simp [St.at, List.getD_eq_getElem?_getD, List.getElem?_eq_none (Nat.le_of_not_lt h)]

theorem put_out {s : St} {i : Nat} {c : Scope} (h : ¬ i < s.scopes.length) : s.put i c = s := by
  simp [St.put, List.set_eq_of_length_le (Nat.le_of_not_lt h)]

theorem free_nil (s : St) : free [] s = s := by
  have : (s.live.filter fun b => !([] : List Nat).contains b) = s.live := List.filter_eq_self.2 fun _ _ => rfl
  unfold free; rw [this]

theorem release_len (i : Nat) (s : St) : (release i s).scopes.length = s.scopes.length := by
  unfold release; dsimp only
  split
  · rfl
  · simp [St.put, free]

theorem release_I {s : St} {i : Nat} (j : I s []) : I (release i s) [] ∧ (release i s).scopes.length = s.scopes.length := by
  refine ⟨?_, release_len i s⟩
  unfold release; dsimp only
  split
  · exact j
  · by_cases hi : i < s.scopes.length
    · have j1 : I (s.put i { s.at i with array := [], entries := [], protector := [], spent := true })
          (((s.at i).array ++ ((s.at i).entries.flatten ++ (s.at i).protector)) ++ []) :=
        j.put hi fun x => by simp [Scope.all, Scope.deferred]; omega
      exact j1.free
    · rw [at_out hi]
      exact ((put_out (s := free [] s) (i := i) hi).trans (free_nil s)).symm.subst (motive := fun t => I t []) j

theorem delete_len (i : Nat) (s : St) : (delete i s).scopes.length = s.scopes.length := by
  simp [delete, St.put, free, release_len]

theorem delete_I {s : St} {i : Nat} (j : I s []) : I (delete i s) [] ∧ (delete i s).scopes.length = s.scopes.length := by
  obtain ⟨j1, e1⟩ := release_I (i := i) j
  refine ⟨?_, delete_len i s⟩
  unfold delete; dsimp only
  generalize release i s = t at j1 e1
  by_cases hi : i < t.scopes.length
  · have j2 : I (t.put i { t.at i with own := [], tables := [] }) (((t.at i).own ++ (t.at i).tables) ++ []) :=
      j1.put hi fun x => by simp [Scope.all, Scope.deferred]; omega
    exact j2.free
  · rw [at_out hi]
    exact ((put_out (s := free [] t) (i := i) hi).trans (free_nil t)).symm.subst (motive := fun t => I t []) j1

theorem exec_I (o : Op) {s : St} (j : I s []) (h0 : 0 < s.scopes.length) : I (exec ok o s).2 [] ∧ s.scopes.length ≤ (exec ok o s).2.scopes.length := by
  cases o with
  | memory i =>
    unfold exec; dsimp only
    by_cases hi : i < s.scopes.length
    · rw [if_pos hi]
      have m := mallocFull_I ok (k := .memory) (f1 := .block) (f2 := .protector) (f3 := .array) (i := i) [] [] j hi (fun _ => rfl) rfl rfl rfl
      rcases hm : Oo.mallocFull ok .memory .block .protector .array i s with ⟨_ | r, v⟩
      · rw [hm] at m; exact ⟨m.1 rfl, Nat.le_of_eq m.2.2.symm⟩
      · rw [hm] at m; exact ⟨m.2.1 (by simp), Nat.le_of_eq m.2.2.symm⟩
    · rw [if_neg hi]; exact ⟨j, Nat.le_refl _⟩
  | deferral i =>
    unfold exec; dsimp only
    by_cases hi : i < s.scopes.length
    · rw [if_pos hi]
      have := defer_I ok (e := []) (h := []) (k := .deferral) (f := .array) (i := i) j hi rfl
      exact ⟨this.1, Nat.le_of_eq this.2.symm⟩
    · rw [if_neg hi]; exact ⟨j, Nat.le_refl _⟩
  | pack n => have := pack_I ok n j; exact ⟨this.1, by show _ ≤ (pack ok n s).2.scopes.length; rw [this.2]; exact Nat.le_refl _⟩
  | get i p v =>
    unfold exec; dsimp only
    by_cases hi : i < s.scopes.length ∧ p ∈ s.kept ∧ v ∈ s.kept ∧ p ≠ v
    · rw [if_pos hi]
      have j1 : I (s.drop [p, v]) ([p, v] ++ []) := j.drop (by simpa using hi.2.2.2) (by simp [hi.2.1, hi.2.2.1])
      have := defer_I ok (k := .get) (f := .array) (i := i) j1 hi.1 rfl
      exact ⟨this.1, Nat.le_of_eq this.2.symm⟩
    · rw [if_neg hi]; exact ⟨j, Nat.le_refl _⟩
  | scope =>
    unfold exec; dsimp only
    by_cases o : ok s.tick
    · simp only [ask, o, if_true]
      exact ⟨j.granted.add fun x => by simp [Scope.all, Scope.deferred, Scope.empty], by simp [St.add, granted]⟩
    · simp only [ask, o, Bool.false_eq_true, if_false]
      exact ⟨I.deny (l := []) .scope .self j rfl, Nat.le_refl _⟩
  | arena => exact arena_I ok j
  | guard => exact guard_I ok j
  | unguarded =>
    unfold exec; dsimp only
    cases s.guards with
    | nil => exact ⟨j, Nat.le_refl _⟩
    | cons g gs => exact ⟨(delete_I (i := g.1) j).1.same rfl rfl rfl rfl rfl, Nat.le_of_eq (delete_I (i := g.1) j).2.symm⟩
  | pool => exact pool_I ok j
  | async =>
    have l := launch_I ok (k := .async) (.inl rfl) j h0
    unfold exec; dsimp only
    rcases hl : launch ok .async s with ⟨_ | ⟨f, b⟩, u⟩
    · rw [hl] at l; exact ⟨l.2.1 rfl, Nat.le_of_eq l.2.2.symm⟩
    · rw [hl] at l
      exact ⟨I.keep (l := [f, b]) ((l.1 f b rfl).perm fun x => by simp [List.count_cons]; omega), Nat.le_of_eq l.2.2.symm⟩
  | spawn i cpus =>
    unfold exec; dsimp only
    by_cases hi : i < s.scopes.length
    · rw [if_pos hi]
      have := spawn_I ok (cpus := cpus) j hi
      exact ⟨this.1, Nat.le_of_eq this.2.symm⟩
    · rw [if_neg hi]; exact ⟨j, Nat.le_refl _⟩
  | done b =>
    unfold exec; dsimp only
    by_cases hb : b ∈ s.kept
    · rw [if_pos hb]
      exact ⟨I.free (l := [b]) (j.drop (l := [b]) (by simp) (by simp [hb])), Nat.le_refl _⟩
    · rw [if_neg hb]; exact ⟨j, Nat.le_refl _⟩
  | release i => exact ⟨(release_I j).1, Nat.le_of_eq (release_I j).2.symm⟩
  | delete i => exact ⟨(delete_I j).1, Nat.le_of_eq (delete_I j).2.symm⟩

theorem run_cons (o : Op) (os : List Op) (s : St) :
    (run ok (o :: os) s).2 = if (exec ok o s).1 = .undefined then (exec ok o s).2 else (run ok os (exec ok o s).2).2 := by
  rcases h : exec ok o s with ⟨_ | _ | _, t⟩ <;> simp [run, h]

theorem run_I (os : List Op) {s : St} (j : I s []) (h0 : 0 < s.scopes.length) : I (run ok os s).2 [] ∧ 0 < (run ok os s).2.scopes.length := by
  induction os generalizing s with
  | nil => exact ⟨j, h0⟩
  | cons o os ih =>
    have e := exec_I ok o j h0
    rw [run_cons]
    split
    · exact ⟨e.1, by omega⟩
    · exact ih e.1 (by omega)

theorem start_I : I start [] := ⟨[], fun x => by simp [start, cs, Scope.all, Scope.deferred, Scope.empty], fun x => by simp [start], fun x _ => by simp [start], rfl⟩

/-- What scopes that were released have been given since. -/
def St.stale (s : St) : List Nat := (s.scopes.map fun c => if c.spent then c.deferred else []).flatten

theorem cs_split (l : List Scope) (x : Nat) :
    cs l x = (l.map Scope.held).flatten.count x + (l.map fun c => if c.spent then c.deferred else []).flatten.count x := by
  induction l with
  | nil => rfl
  | cons c l ih =>
    have e : c.all.count x = c.held.count x + (if c.spent then c.deferred else []).count x := by
      unfold Scope.all Scope.held; cases c.spent <;> simp <;> omega
    have e2 : cs (c :: l) x = c.all.count x + cs l x := by simp [cs]
    rw [e2, e, ih]; simp; omega

/-- What the invariant says of lists. -/
theorem I.lost {s : St} (j : I s []) :
    s.lost.length = total s.refused + s.stale.length ∧ s.held.Nodup ∧ s.live.Nodup ∧ ∀ b ∈ s.held, b ∈ s.live := by
  obtain ⟨g, a, b, c, d⟩ := j
  have hc : ∀ x, s.held.count x + s.stale.count x = s.kept.count x + cs s.scopes x := fun x => by
    rw [cs_split]; simp [St.held, St.stale]; omega
  have hp : s.lost.Perm (g ++ s.stale) := by
    refine List.perm_iff_count.2 fun x => ?_
    have h1 := a x
    have h2 := b x
    have h3 := hc x
    simp only [List.count_nil] at h1
    rw [List.count_append]
    by_cases e : x ∈ s.held
    · have e1 : s.lost.count x = 0 := List.count_eq_zero.2 (by simp [St.lost, e])
      have := List.count_pos_iff.2 e
      omega
    · have e1 : s.lost.count x = s.live.count x := List.count_filter (by simp [e])
      have := List.count_eq_zero.2 e
      omega
  refine ⟨?_, List.nodup_iff_count.2 fun x => ?_, List.nodup_iff_count.2 b, fun x hx => ?_⟩
  · rw [hp.length_eq, List.length_append, d]
  · have h1 := a x
    have h2 := b x
    have h3 := hc x
    omega
  · have h1 := a x
    have h3 := hc x
    have := List.count_pos_iff.2 hx
    exact List.count_pos_iff.1 (by omega)

/-! ## The end of the program -/

theorem put_at (s : St) (i k : Nat) (c : Scope) : (s.put i c).at k = if k = i ∧ i < s.scopes.length then c else s.at k := by
  by_cases e : k = i
  · subst e
    by_cases hi : k < s.scopes.length
    · simp [St.put, St.at, List.getD_eq_getElem?_getD, hi]
    · rw [put_out hi, if_neg (by simp [hi])]
  · have : i ≠ k := fun h => e h.symm
    simp [St.put, St.at, List.getD_eq_getElem?_getD, e, this]

theorem release_spent (i : Nat) (s : St) : ((release i s).at i).spent = true ∨ (release i s).at i = .empty := by
  by_cases hi : i < s.scopes.length
  · left
    unfold release; dsimp only
    split
    · assumption
    · rw [put_at, if_pos ⟨rfl, hi⟩]
  · exact .inr (at_out (by rw [release_len]; exact hi))

theorem release_other (i k : Nat) (s : St) (h : k ≠ i) : (release i s).at k = s.at k := by
  unfold release; dsimp only
  split
  · rfl
  · rw [put_at, if_neg (fun e => h e.1)]; rfl

theorem delete_held (s : St) (i k : Nat) : ((delete i s).at k).held = if k = i then [] else (s.at k).held := by
  unfold delete; dsimp only
  rw [put_at]
  by_cases e : k = i
  · subst e
    rw [if_pos rfl]
    have hs := release_spent k s
    split
    · rcases hs with hs | hs
      · simp [Scope.held, hs]
      · rw [hs]; rfl
    · rename_i hk
      have hk : ¬ k < (release k s).scopes.length := fun x => hk ⟨rfl, x⟩
      have : (free (((release k s).at k).own ++ ((release k s).at k).tables) (release k s)).at k = (release k s).at k := rfl
      rw [this, at_out hk]; rfl
  · rw [if_neg (fun x => e x.1), if_neg e]
    have : (free (((release i s).at i).own ++ ((release i s).at i).tables) (release i s)).at k = (release i s).at k := rfl
    rw [this, release_other i k s e]

theorem release_refused (i : Nat) (s : St) : (release i s).refused = s.refused := by
  unfold release; dsimp only; split <;> rfl

theorem release_kept (i : Nat) (s : St) : (release i s).kept = s.kept := by
  unfold release; dsimp only; split <;> rfl

theorem delete_refused (i : Nat) (s : St) : (delete i s).refused = s.refused := release_refused i s

theorem delete_kept (i : Nat) (s : St) : (delete i s).kept = s.kept := release_kept i s

theorem run_append {os : List Op} {s : St} (h : .undefined ∉ (run ok os s).1) (ps : List Op) :
    (run ok (os ++ ps) s).2 = (run ok ps (run ok os s).2).2 := by
  induction os generalizing s with
  | nil => rfl
  | cons o os ih =>
    rcases he : exec ok o s with ⟨_ | _ | _, t⟩ <;> simp [run, he] at h ⊢ <;> exact ih h

/-- Ops that ask for nothing. -/
theorem quiet_exec {o : Op} (s : St) (h : o = .unguarded ∨ (∃ b, o = .done b) ∨ ∃ i, o = .delete i) :
    (exec ok o s).1 = .ok ∧ (exec ok o s).2.refused = s.refused ∧ (exec ok o s).2.scopes.length = s.scopes.length := by
  rcases h with rfl | ⟨b, rfl⟩ | ⟨i, rfl⟩
  · unfold exec; dsimp only
    cases s.guards with
    | nil => exact ⟨rfl, rfl, rfl⟩
    | cons g gs => exact ⟨rfl, delete_refused g.1 s, delete_len g.1 s⟩
  · unfold exec; dsimp only
    split <;> exact ⟨rfl, rfl, rfl⟩
  · exact ⟨rfl, delete_refused i s, delete_len i s⟩

theorem quiet_run {os : List Op} (h : ∀ o ∈ os, o = .unguarded ∨ (∃ b, o = .done b) ∨ ∃ i, o = .delete i) (s : St) :
    .undefined ∉ (run ok os s).1 ∧ (run ok os s).2.refused = s.refused ∧ (run ok os s).2.scopes.length = s.scopes.length := by
  induction os generalizing s with
  | nil => exact ⟨by simp [run], rfl, rfl⟩
  | cons o os ih =>
    have q := quiet_exec ok s (h o (by simp))
    have i := ih (fun o ho => h o (by simp [ho])) (exec ok o s).2
    rcases he : exec ok o s with ⟨r, t⟩
    rw [he] at q i
    obtain rfl : r = .ok := q.1
    simp only [run, he]
    exact ⟨by simpa using i.1, i.2.1.trans q.2.1, i.2.2.trans q.2.2⟩

theorem kept_unguarded (gs : List (Nat × Place)) (s : St) : (run ok (gs.map fun _ => Op.unguarded) s).2.kept = s.kept := by
  induction gs generalizing s with
  | nil => rfl
  | cons g gs ih =>
    rw [List.map_cons, run_cons, if_neg (by rw [(quiet_exec ok s (.inl rfl)).1]; simp), ih]
    unfold exec; dsimp only
    cases s.guards with
    | nil => rfl
    | cons g gs => exact delete_kept g.1 s

theorem kept_done (bs : List Nat) (s : St) : ∀ b, b ∈ (run ok (bs.map .done) s).2.kept ↔ b ∈ s.kept ∧ b ∉ bs := by
  induction bs generalizing s with
  | nil => simp [run]
  | cons c bs ih =>
    intro b
    rw [List.map_cons, run_cons, if_neg (by rw [(quiet_exec ok s (.inr (.inl ⟨c, rfl⟩))).1]; simp), ih]
    have e : b ∈ (exec ok (.done c) s).2.kept ↔ b ∈ s.kept ∧ b ≠ c := by
      unfold exec; dsimp only
      by_cases hc : c ∈ s.kept
      · rw [if_pos hc]; simp [free, St.drop]
      · rw [if_neg hc]
        exact ⟨fun h => ⟨h, fun e => hc (e ▸ h)⟩, fun h => h.1⟩
    rw [e]; simp [and_assoc]

theorem deleted (n : Nat) (s : St) :
    (run ok ((List.range n).map .delete) s).2.kept = s.kept ∧ ∀ k, k < n → ((run ok ((List.range n).map .delete) s).2.at k).held = [] := by
  induction n with
  | zero => exact ⟨rfl, fun k h => absurd h (by omega)⟩
  | succ n ih =>
    have q : .undefined ∉ (run ok ((List.range n).map .delete) s).1 :=
      (quiet_run ok (fun o ho => by simp only [List.mem_map] at ho; obtain ⟨i, _, rfl⟩ := ho; exact .inr (.inr ⟨i, rfl⟩)) s).1
    rw [List.range_succ, List.map_append, run_append ok q]
    generalize (run ok ((List.range n).map .delete) s).2 = t at ih ⊢
    have e : (run ok ([n].map Op.delete) t).2 = delete n t := rfl
    rw [e]
    refine ⟨(delete_kept n t).trans ih.1, fun k hk => ?_⟩
    rw [delete_held]
    split
    · rfl
    · exact ih.2 k (by omega)

theorem finish_quiet (s : St) : ∀ o ∈ finish s, o = .unguarded ∨ (∃ b, o = .done b) ∨ ∃ i, o = .delete i := by
  intro o ho
  simp only [finish, List.mem_append, List.mem_map] at ho
  rcases ho with ⟨_, _, rfl⟩ | ⟨b, _, rfl⟩ | ⟨i, _, rfl⟩
  · exact .inl rfl
  · exact .inr (.inl ⟨b, rfl⟩)
  · exact .inr (.inr ⟨i, rfl⟩)

/-- In the end nothing is held. -/
theorem finish_held (s : St) : (run ok (finish s) s).2.held = [] := by
  have q1 := quiet_run ok (os := s.guards.map fun _ => Op.unguarded) (fun o ho => by
    simp only [List.mem_map] at ho; obtain ⟨_, _, rfl⟩ := ho; exact .inl rfl) s
  have k1 := kept_unguarded ok s.guards s
  unfold finish
  rw [run_append ok q1.1]
  generalize (run ok (s.guards.map fun _ => Op.unguarded) s).2 = t at q1 k1 ⊢
  have q2 := quiet_run ok (os := s.kept.map .done) (fun o ho => by
    simp only [List.mem_map] at ho; obtain ⟨b, _, rfl⟩ := ho; exact .inr (.inl ⟨b, rfl⟩)) t
  have k2 := kept_done ok s.kept t
  rw [run_append ok q2.1]
  generalize (run ok (s.kept.map .done) t).2 = u at q2 k2 ⊢
  have hu : u.kept = [] := by
    refine List.eq_nil_iff_forall_not_mem.2 fun b hb => ?_
    have := (k2 b).1 hb
    rw [k1] at this
    exact this.2 this.1
  have d := deleted ok s.scopes.length u
  have q3 := quiet_run ok (os := (List.range s.scopes.length).map .delete) (fun o ho => by
    simp only [List.mem_map] at ho; obtain ⟨i, _, rfl⟩ := ho; exact .inr (.inr ⟨i, rfl⟩)) u
  generalize (run ok ((List.range s.scopes.length).map .delete) u).2 = v at d q3 ⊢
  have hl : v.scopes.length = s.scopes.length := q3.2.2.trans (q2.2.2.trans q1.2.2)
  have : (v.scopes.map Scope.held).flatten = [] := by
    rw [List.flatten_eq_nil_iff]
    intro l hm
    obtain ⟨c, hc, rfl⟩ := List.mem_map.1 hm
    obtain ⟨k, hk, rfl⟩ := List.mem_iff_getElem.1 hc
    have := d.2 k (by omega)
    simp only [St.at, List.getD_eq_getElem?_getD, List.getElem?_eq_getElem hk, Option.getD_some] at this
    exact this
  simp [St.held, d.1, hu, this]

/-! ## Nothing stale in proper histories -/

def Z (s : St) : Prop := ∀ c ∈ s.scopes, c.spent = true → c.deferred = []

theorem Z.stale {s : St} (z : Z s) : s.stale = [] := by
  unfold St.stale
  rw [List.flatten_eq_nil_iff]
  intro l hl
  obtain ⟨c, hc, rfl⟩ := List.mem_map.1 hl
  split
  · exact z c hc (by assumption)
  · rfl

theorem Z.put {s : St} (z : Z s) {i : Nat} {c : Scope} (h : c.spent = true → c.deferred = []) : Z (s.put i c) := by
  intro d hd
  rcases List.mem_or_eq_of_mem_set hd with hd | rfl
  · exact z d hd
  · exact h

theorem Z.add {s : St} (z : Z s) {c : Scope} (h : c.spent = true → c.deferred = []) : Z (s.add c) := by
  intro d hd
  rcases List.mem_append.1 hd with hd | hd
  · exact z d hd
  · rw [List.mem_singleton.1 hd]; exact h

theorem Z.at {s : St} (z : Z s) (i : Nat) (h : (s.at i).spent = true) : (s.at i).deferred = [] := by
  by_cases hi : i < s.scopes.length
  · have e : s.at i = s.scopes[i] := by simp [St.at, List.getD_eq_getElem?_getD, hi]
    rw [e] at h ⊢
    exact z _ (List.getElem_mem hi) h
  · rw [at_out hi]; rfl

/-- From `s` to `t`, something may be given to scope `i`. -/
def K (i : Nat) (s t : St) : Prop := (∀ k, (t.at k).spent = (s.at k).spent) ∧ ((s.at i).spent = false → Z s → Z t)

theorem K.same {i : Nat} {s t : St} (e : t.scopes = s.scopes) : K i s t := by
  refine ⟨fun k => by unfold St.at; rw [e], fun _ z => ?_⟩
  unfold Z; rw [e]; exact z

theorem K.trans {i : Nat} {s t u : St} (a : K i s t) (b : K i t u) : K i s u :=
  ⟨fun k => (b.1 k).trans (a.1 k), fun h z => b.2 ((a.1 i).trans h) (a.2 h z)⟩

theorem K.put {i : Nat} {s : St} {c : Scope} (e : c.spent = (s.at i).spent) : K i s (s.put i c) := by
  refine ⟨fun k => ?_, fun h z => z.put fun x => ?_⟩
  · rw [put_at]
    split
    · rename_i h; rw [h.1]; exact e
    · rfl
  · rw [e, h] at x; cases x

theorem defer_K (k : Kind) (f : For) (i : Nat) (e : List Nat) (s : St) : K i s (defer ok k f i e s) := by
  unfold defer ask; dsimp only
  by_cases c : (s.at i).entries.length % 16 = 0
  · rw [if_pos c]
    by_cases o : ok s.tick
    · simp only [o, if_true]
      exact K.trans (t := free (s.at i).array (granted s)) (K.same rfl) (K.put rfl)
    · simp only [o, Bool.false_eq_true, if_false]; exact K.same rfl
  · rw [if_neg c]; exact K.put rfl

theorem mallocFull_K (k : Kind) (f1 f2 f3 : For) (i : Nat) (s : St) : K i s (mallocFull ok k f1 f2 f3 i s).2 := by
  unfold mallocFull
  by_cases o : ok s.tick
  · simp only [ask, o, if_true]
    cases hp : ((granted s).at i).protector with
    | cons p ps => exact K.trans (t := granted s) (K.same rfl) (defer_K ok ..)
    | nil =>
      dsimp only
      by_cases o2 : ok (granted s).tick
      · simp only [o2, if_true]
        exact K.trans (t := granted (granted s)) (K.same rfl)
          (K.trans (t := (granted (granted s)).put i { (granted (granted s)).at i with protector := [(granted s).next] }) (K.put rfl) (defer_K ok ..))
      · simp only [o2, Bool.false_eq_true, if_false]; exact K.same rfl
  · simp only [ask, o, Bool.false_eq_true, if_false]; exact K.same rfl

theorem launch_K (k : Kind) (s : St) : K 0 s (launch ok k s).2 := by
  have m := mallocFull_K ok k .block .protector .array 0 s
  unfold launch
  rcases hm : Oo.mallocFull ok k .block .protector .array 0 s with ⟨_ | b, t⟩
  · rw [hm] at m; exact m
  · rw [hm] at m
    have m : K 0 s t := m
    refine m.trans ?_
    by_cases o : ok t.tick
    · simp only [ask, o, if_true]
      by_cases o2 : ok (granted t).tick
      · simp only [o2, if_true]
        unfold may
        by_cases o3 : ok (granted (granted t)).tick
        · simp only [o3, if_true]; exact K.same rfl
        · simp only [o3, Bool.false_eq_true, if_false]; exact K.same rfl
      · simp only [o2, Bool.false_eq_true, if_false]; exact K.same rfl
    · simp only [ask, o, Bool.false_eq_true, if_false]; exact K.same rfl

theorem grow_K (i c : Nat) (s : St) : K i s (grow ok i c s).2 := by
  unfold grow
  by_cases c : (s.at i).threads % c = 0
  · rw [if_pos c]
    by_cases o : ok s.tick
    · simp only [ask, o, if_true]
      have e : K i s ((free (((granted s).at i).tables.take 1) (granted s)).put i
          { (granted s).at i with tables := s.next :: ((granted s).at i).tables.drop 1 }) :=
        K.trans (t := free (((granted s).at i).tables.take 1) (granted s)) (K.same rfl) (K.put rfl)
      generalize ((free (((granted s).at i).tables.take 1) (granted s)).put i
          { (granted s).at i with tables := s.next :: ((granted s).at i).tables.drop 1 }) = t at e ⊢
      refine e.trans ?_
      by_cases o2 : ok t.tick
      · simp only [o2, if_true]
        exact K.trans (t := free (((granted t).at i).tables.drop 1) (granted t)) (K.same rfl) (K.put rfl)
      · simp only [o2, Bool.false_eq_true, if_false]; exact K.same rfl
    · simp only [ask, o, Bool.false_eq_true, if_false]; exact K.same rfl
  · rw [if_neg c]; exact K.same rfl

theorem more_scopes (v n : Nat) (s : St) : (more ok v n s).2.scopes = s.scopes := by
  induction n generalizing v s with
  | zero => rfl
  | succ n ih =>
    unfold more ask
    by_cases o : ok s.tick
    · simp only [o, if_true]; exact ih ..
    · simp only [o, Bool.false_eq_true, if_false]; rfl

theorem spawn_Z {i c : Nat} {s : St} (z : Z s) (h0 : (s.at 0).spent = false) (hi : (s.at i).spent = false) : Z (spawn ok i c s).2 := by
  have g := grow_K ok i c s
  unfold spawn
  rcases hg : grow ok i c s with ⟨_ | _, t⟩
  · rw [hg] at g; exact g.2 hi z
  · rw [hg] at g
    have g : K i s t := g
    have zt := g.2 hi z
    have l := launch_K ok .spawn t
    dsimp only
    rcases hl : launch ok .spawn t with ⟨_ | ⟨f, b⟩, u⟩
    · rw [hl] at l; exact l.2 ((g.1 0).trans h0) zt
    · rw [hl] at l
      have l : K 0 t u := l
      have zu := l.2 ((g.1 0).trans h0) zt
      have hu : ((u.keep [b]).at i).spent = false := ((l.1 i).trans (g.1 i)).trans hi
      have m := mallocFull_K ok .spawn .result .resultProtector .resultArray i (u.keep [b])
      dsimp only
      rcases hm : Oo.mallocFull ok .spawn .result .resultProtector .resultArray i (u.keep [b]) with ⟨_ | r, v⟩
      · rw [hm] at m; exact m.2 hu zu
      · rw [hm] at m
        have m : K i (u.keep [b]) v := m
        have zv : Z v := m.2 hu zu
        exact zv.put fun x => absurd ((m.1 i).trans hu) (by rw [show (v.at i).spent = true from x]; simp)

theorem release_Z {s : St} (i : Nat) (z : Z s) : Z (release i s) := by
  unfold release; dsimp only
  split
  · exact z
  · exact Z.put (s := free _ s) z fun _ => rfl

theorem delete_Z {s : St} (i : Nat) (z : Z s) : Z (delete i s) := by
  have z1 := release_Z i z
  exact Z.put (s := free _ (release i s)) z1 fun x => z1.at i x

theorem exec_Z (o : Op) {s : St} (z : Z s) (h : ∀ i ∈ o.uses, (s.at i).spent = false) : Z (exec ok o s).2 := by
  cases o with
  | memory i =>
    have m := mallocFull_K ok .memory .block .protector .array i s
    unfold exec; dsimp only
    split
    · rcases hm : Oo.mallocFull ok .memory .block .protector .array i s with ⟨_ | r, v⟩ <;> rw [hm] at m <;> exact m.2 (h i (by simp [Op.uses])) z
    · exact z
  | deferral i =>
    unfold exec; dsimp only
    split
    · exact (defer_K ok ..).2 (h i (by simp [Op.uses])) z
    · exact z
  | get i p v =>
    unfold exec; dsimp only
    split
    · exact (defer_K ok .get .array i [p, v] (s.drop [p, v])).2 (h i (by simp [Op.uses])) z
    · exact z
  | pack n =>
    have e : (exec ok (.pack n) s).2.scopes = s.scopes := by
      show (pack ok n s).2.scopes = s.scopes
      unfold pack
      by_cases o : ok s.tick
      · simp only [ask, o, if_true]
        by_cases o2 : ok (granted s).tick
        · simp only [o2, if_true]
          have m := more_scopes ok (granted s).next n (granted (granted s))
          rcases hm : more ok (granted s).next n (granted (granted s)) with ⟨_ | w, t⟩ <;> rw [hm] at m <;> exact m
        · simp only [o2, Bool.false_eq_true, if_false]; rfl
      · simp only [ask, o, Bool.false_eq_true, if_false]; rfl
    unfold Z; rw [e]; exact z
  | scope =>
    unfold exec ask; dsimp only
    by_cases o : ok s.tick
    · simp only [o, if_true]; exact Z.add (s := granted s) z (by simp [Scope.empty])
    · simp only [o, Bool.false_eq_true, if_false]; exact z
  | arena =>
    show Z (arena ok s).2
    unfold arena
    by_cases o : ok s.tick
    · simp only [ask, o, if_true]
      by_cases o2 : ok (granted s).tick
      · simp only [o2, if_true]; exact Z.add (s := granted (granted s)) z (by simp [Scope.empty])
      · simp only [o2, Bool.false_eq_true, if_false]; exact z
    · simp only [ask, o, Bool.false_eq_true, if_false]; exact z
  | guard =>
    show Z (guard ok s).2
    unfold guard
    by_cases o : ok s.tick
    · simp only [ask, o, if_true]; exact Z.add (s := granted s) z (by simp [Scope.empty])
    · simp only [ask, o, Bool.false_eq_true, if_false]; exact z
  | unguarded =>
    unfold exec; dsimp only
    cases s.guards with
    | nil => exact z
    | cons g gs => exact delete_Z g.1 z
  | pool =>
    show Z (pool ok s).2
    unfold pool
    by_cases o : ok s.tick
    · simp only [ask, o, if_true]
      by_cases o2 : ok (granted s).tick
      · simp only [o2, if_true]
        by_cases o3 : ok (granted (granted s)).tick
        · simp only [o3, if_true]
          by_cases o4 : ok (granted (granted (granted s))).tick
          · simp only [o4, if_true]; exact Z.add (s := granted (granted (granted (granted s)))) z (by simp [Scope.empty])
          · simp only [o4, Bool.false_eq_true, if_false]
            exact Z.add (s := deny .pool .array (granted (granted (granted s)))) z (by simp [Scope.empty])
        · simp only [o3, Bool.false_eq_true, if_false]; exact z
      · simp only [o2, Bool.false_eq_true, if_false]; exact z
    · simp only [ask, o, Bool.false_eq_true, if_false]; exact z
  | async =>
    have l := launch_K ok .async s
    unfold exec; dsimp only
    rcases hl : launch ok .async s with ⟨_ | ⟨f, b⟩, u⟩ <;> rw [hl] at l <;> exact l.2 (h 0 (by simp [Op.uses])) z
  | spawn i c =>
    unfold exec; dsimp only
    split
    · exact spawn_Z ok z (h 0 (by simp [Op.uses])) (h i (by simp [Op.uses]))
    · exact z
  | done b =>
    unfold exec; dsimp only
    split <;> exact z
  | release i => exact release_Z i z
  | delete i => exact delete_Z i z

theorem run_Z (os : List Op) {s : St} (z : Z s) (h : Proper ok os s) : Z (run ok os s).2 := by
  induction os generalizing s with
  | nil => exact z
  | cons o os ih =>
    have e := exec_Z ok o z h.1
    rw [run_cons]
    split
    · exact e
    · exact ih e h.2

theorem quiet_Z {os : List Op} (h : ∀ o ∈ os, o = .unguarded ∨ (∃ b, o = .done b) ∨ ∃ i, o = .delete i) {s : St} (z : Z s) : Z (run ok os s).2 := by
  refine run_Z ok os z ?_
  clear z
  induction os generalizing s with
  | nil => trivial
  | cons o os ih =>
    refine ⟨fun i hi => ?_, ih fun o ho => h o (by simp [ho])⟩
    rcases h o (by simp) with rfl | ⟨b, rfl⟩ | ⟨k, rfl⟩ <;> simp [Op.uses] at hi

theorem start_Z : Z start := fun c hc e => by
  simp [start] at hc; subst hc; cases e

/-! ## What the caller is told -/

/-- From `s` to `t` requests were refused, and `g` holds iff they were for arrays of deferrals only. -/
def Said (s t : St) (g : Prop) : Prop :=
  ∃ new, t.refused = new ++ s.refused ∧ (g ↔ ∀ r ∈ new, r.2 = .array ∨ r.2 = .resultArray)

theorem Said.refl {s t : St} {g : Prop} (e : t.refused = s.refused) (hg : g) : Said s t g := ⟨[], e, by simp [hg]⟩

theorem Said.trans {s t u : St} {a b : Prop} (h : Said s t a) (ha : a) (h' : Said t u b) : Said s u b := by
  obtain ⟨n, e, i⟩ := h
  obtain ⟨m, e', i'⟩ := h'
  refine ⟨m ++ n, by rw [e', e, List.append_assoc], ?_⟩
  rw [i']
  have := i.1 ha
  simp only [List.mem_append]
  exact ⟨fun h r hr => hr.elim (h r) (this r), fun h r hr => h r (.inl hr)⟩

theorem Said.deny {s t : St} {g : Prop} {k : Kind} {f : For} (e : t.refused = (k, f) :: s.refused) (i : g ↔ f = .array ∨ f = .resultArray) : Said s t g :=
  ⟨[(k, f)], e, by simp [i]⟩

theorem defer_said {s : St} {k : Kind} {f : For} {i : Nat} {e : List Nat} (hf : f = .array ∨ f = .resultArray) :
    Said s (defer ok k f i e s) True := by
  unfold defer ask; dsimp only
  by_cases c : (s.at i).entries.length % 16 = 0
  · rw [if_pos c]
    by_cases o : ok s.tick
    · simp only [o, if_true]; exact .refl rfl trivial
    · simp only [o, Bool.false_eq_true, if_false]; exact .deny rfl (by simp [hf])
  · rw [if_neg c]; exact .refl rfl trivial

theorem mallocFull_said {s : St} {k : Kind} {f1 f2 f3 : For} {i : Nat} (h1 : ¬ (f1 = .array ∨ f1 = .resultArray))
    (h2 : ¬ (f2 = .array ∨ f2 = .resultArray)) (h3 : f3 = .array ∨ f3 = .resultArray) :
    Said s (mallocFull ok k f1 f2 f3 i s).2 ((mallocFull ok k f1 f2 f3 i s).1 ≠ none) := by
  unfold Oo.mallocFull
  by_cases o : ok s.tick
  · simp only [ask, o, if_true]
    cases hp : ((granted s).at i).protector with
    | cons p ps =>
      dsimp only
      exact Said.trans (t := granted s) (.refl rfl trivial) trivial (by simpa using defer_said ok h3)
    | nil =>
      dsimp only
      by_cases o2 : ok (granted s).tick
      · simp only [o2, if_true]
        exact Said.trans (t := (granted (granted s)).put i { (granted (granted s)).at i with protector := [(granted s).next] }) (.refl rfl trivial) trivial
          (by simpa using defer_said ok h3)
      · simp only [o2, Bool.false_eq_true, if_false]
        exact .deny (k := k) (f := f2) rfl (by simp [h2])
  · simp only [ask, o, Bool.false_eq_true, if_false]
    exact .deny (k := k) (f := f1) rfl (by simp [h1])

theorem more_said {s : St} {v : Nat} (n : Nat) : Said s (more ok v n s).2 ((more ok v n s).1 ≠ none) := by
  induction n generalizing v s with
  | zero => exact .refl rfl (by simp [more])
  | succ n ih =>
    unfold more ask
    by_cases o : ok s.tick
    · simp only [o, if_true]
      exact Said.trans (t := free [v] (granted s)) (.refl rfl trivial) trivial ih
    · simp only [o, Bool.false_eq_true, if_false]
      exact .deny (k := .pack) (f := .more) rfl (by simp)

theorem grow_said {s : St} {i cpus : Nat} : Said s (grow ok i cpus s).2 ((grow ok i cpus s).1 = true) := by
  unfold grow
  by_cases c : (s.at i).threads % cpus = 0
  · rw [if_pos c]
    by_cases o : ok s.tick
    · simp only [ask, o, if_true]
      have e : ((free (((granted s).at i).tables.take 1) (granted s)).put i
          { (granted s).at i with tables := s.next :: ((granted s).at i).tables.drop 1 }).refused = s.refused := rfl
      generalize ((free (((granted s).at i).tables.take 1) (granted s)).put i
          { (granted s).at i with tables := s.next :: ((granted s).at i).tables.drop 1 }) = t at e ⊢
      by_cases o2 : ok t.tick
      · simp only [o2, if_true]; exact .refl e trivial
      · simp only [o2, Bool.false_eq_true, if_false]
        exact .deny (k := .spawn) (f := .tables) (by simp [deny, e]) (by simp)
    · simp only [ask, o, Bool.false_eq_true, if_false]
      exact .deny (k := .spawn) (f := .tables) rfl (by simp)
  · rw [if_neg c]; exact .refl rfl rfl

theorem launch_said {s : St} {k : Kind} : Said s (launch ok k s).2 ((launch ok k s).1 ≠ none) := by
  have m := mallocFull_said ok (s := s) (k := k) (f1 := .block) (f2 := .protector) (f3 := .array) (i := 0) (by simp) (by simp) (by simp)
  unfold launch
  rcases hm : Oo.mallocFull ok k .block .protector .array 0 s with ⟨_ | b, t⟩
  · rw [hm] at m; simpa using m
  · rw [hm] at m
    have m : Said s t (some b ≠ none) := m
    refine m.trans (by simp) ?_
    by_cases o : ok t.tick
    · simp only [ask, o, if_true]
      by_cases o2 : ok (granted t).tick
      · simp only [o2, if_true]
        unfold may
        by_cases o3 : ok (granted (granted t)).tick
        · simp only [o3, if_true]; exact .refl rfl (by simp)
        · simp only [o3, Bool.false_eq_true, if_false]; exact .deny (k := k) (f := .thread) rfl (by simp)
      · simp only [o2, Bool.false_eq_true, if_false]; exact .deny (k := k) (f := .argument) rfl (by simp)
    · simp only [ask, o, Bool.false_eq_true, if_false]; exact .deny (k := k) (f := .future) rfl (by simp)

theorem exec_said (o : Op) (s : St) : Said s (exec ok o s).2 ((exec ok o s).1 = .ok) := by
  cases o with
  | memory i =>
    unfold exec; dsimp only
    by_cases hi : i < s.scopes.length
    · rw [if_pos hi]
      have m := mallocFull_said ok (s := s) (k := .memory) (f1 := .block) (f2 := .protector) (f3 := .array) (i := i) (by simp) (by simp) (by simp)
      rcases hm : Oo.mallocFull ok .memory .block .protector .array i s with ⟨_ | r, v⟩ <;> rw [hm] at m <;> simpa using m
    · rw [if_neg hi]; exact .refl rfl rfl
  | deferral i =>
    unfold exec; dsimp only
    split
    · simpa using defer_said ok (s := s) (k := .deferral) (f := .array) (i := i) (e := []) (by simp)
    · exact .refl rfl rfl
  | pack n =>
    show Said s (pack ok n s).2 ((pack ok n s).1 = .ok)
    unfold pack
    by_cases o : ok s.tick
    · simp only [ask, o, if_true]
      by_cases o2 : ok (granted s).tick
      · simp only [o2, if_true]
        have m := more_said ok (s := granted (granted s)) (v := (granted s).next) n
        rcases hm : more ok (granted s).next n (granted (granted s)) with ⟨_ | w, t⟩ <;> rw [hm] at m
        · exact Said.trans (t := granted (granted s)) (.refl rfl trivial) trivial (by simpa using m)
        · have m : Said (granted (granted s)) t (some w ≠ none) := m
          exact Said.trans (t := granted (granted s)) (.refl rfl trivial) trivial (m.trans (by simp) (.refl rfl rfl))
      · simp only [o2, Bool.false_eq_true, if_false]; exact .deny (k := .pack) (f := .values) rfl (by simp)
    · simp only [ask, o, Bool.false_eq_true, if_false]; exact .deny (k := .pack) (f := .params) rfl (by simp)
  | get i p v =>
    unfold exec; dsimp only
    split
    · exact Said.trans (t := s.drop [p, v]) (.refl rfl trivial) trivial
        (by simpa using defer_said ok (s := s.drop [p, v]) (k := .get) (f := .array) (i := i) (e := [p, v]) (by simp))
    · exact .refl rfl rfl
  | scope =>
    unfold exec; dsimp only
    by_cases o : ok s.tick
    · simp only [ask, o, if_true]; exact .refl rfl trivial
    · simp only [ask, o, Bool.false_eq_true, if_false]; exact .deny (k := .scope) (f := .self) rfl (by simp)
  | arena =>
    show Said s (arena ok s).2 ((arena ok s).1 = .ok)
    unfold arena
    by_cases o : ok s.tick
    · simp only [ask, o, if_true]
      by_cases o2 : ok (granted s).tick
      · simp only [o2, if_true]; exact .refl rfl trivial
      · simp only [o2, Bool.false_eq_true, if_false]; exact .deny (k := .arena) (f := .arena) rfl (by simp)
    · simp only [ask, o, Bool.false_eq_true, if_false]; exact .deny (k := .arena) (f := .self) rfl (by simp)
  | guard =>
    show Said s (guard ok s).2 ((guard ok s).1 = .ok)
    unfold guard
    by_cases o : ok s.tick
    · simp only [ask, o, if_true]; exact .refl rfl trivial
    · simp only [ask, o, Bool.false_eq_true, if_false]
      exact .deny (k := .guard) (f := .self) rfl (by split <;> simp)
  | unguarded => have q := quiet_exec ok s (.inl rfl); exact .refl q.2.1 q.1
  | pool =>
    show Said s (pool ok s).2 ((pool ok s).1 = .ok)
    unfold pool
    by_cases o : ok s.tick
    · simp only [ask, o, if_true]
      by_cases o2 : ok (granted s).tick
      · simp only [o2, if_true]
        by_cases o3 : ok (granted (granted s)).tick
        · simp only [o3, if_true]
          by_cases o4 : ok (granted (granted (granted s))).tick
          · simp only [o4, if_true]; exact .refl rfl trivial
          · simp only [o4, Bool.false_eq_true, if_false]; exact .deny (k := .pool) (f := .array) rfl (by simp)
        · simp only [o3, Bool.false_eq_true, if_false]; exact .deny (k := .pool) (f := .protector) rfl (by simp)
      · simp only [o2, Bool.false_eq_true, if_false]; exact .deny (k := .pool) (f := .block) rfl (by simp)
    · simp only [ask, o, Bool.false_eq_true, if_false]; exact .deny (k := .pool) (f := .self) rfl (by simp)
  | async =>
    have l := launch_said ok (s := s) (k := .async)
    unfold exec; dsimp only
    rcases hl : launch ok .async s with ⟨_ | ⟨f, b⟩, u⟩ <;> rw [hl] at l
    · simpa using l
    · have l : Said s u (some (f, b) ≠ none) := l
      exact l.trans (by simp) (.refl rfl rfl)
  | spawn i cpus =>
    unfold exec; dsimp only
    split
    · unfold spawn
      have g := grow_said ok (s := s) (i := i) (cpus := cpus)
      rcases hg : grow ok i cpus s with ⟨_ | _, t⟩ <;> rw [hg] at g
      · simpa using g
      · have g : Said s t (true = true) := g
        refine g.trans rfl ?_
        have l := launch_said ok (s := t) (k := .spawn)
        dsimp only
        rcases hl : launch ok .spawn t with ⟨_ | ⟨f, b⟩, u⟩ <;> rw [hl] at l
        · simpa using l
        · have l : Said t u (some (f, b) ≠ none) := l
          refine l.trans (by simp) (Said.trans (t := u.keep [b]) (.refl rfl trivial) trivial ?_)
          have m := mallocFull_said ok (s := u.keep [b]) (k := .spawn) (f1 := .result) (f2 := .resultProtector) (f3 := .resultArray) (i := i)
            (by simp) (by simp) (by simp)
          dsimp only
          rcases hm : Oo.mallocFull ok .spawn .result .resultProtector .resultArray i (u.keep [b]) with ⟨_ | r, v⟩ <;> rw [hm] at m
          · simpa using m
          · have m : Said (u.keep [b]) v (some r ≠ none) := m
            exact m.trans (by simp) (.refl rfl rfl)
    · exact .refl rfl rfl
  | done b => have q := quiet_exec ok s (.inr (.inl ⟨b, rfl⟩)); exact .refl q.2.1 q.1
  | release i => exact .refl (release_refused i s) rfl
  | delete i => have q := quiet_exec ok s (.inr (.inr ⟨i, rfl⟩)); exact .refl q.2.1 q.1

theorem exec_undefined (o : Op) (s : St) : (exec ok o s).1 = .undefined ↔ o = .guard ∧ ok s.tick = false ∧ s.arena ≠ .guard := by
  cases o with
  | guard =>
    show (guard ok s).1 = .undefined ↔ _
    unfold guard ask
    by_cases o : ok s.tick
    · simp [o]
    · have e : (deny .guard .self s).arena = s.arena := rfl
      simp only [o, Bool.false_eq_true, if_false, e]
      by_cases a : s.arena = .guard <;> simp [a]
  | memory i => simp only [exec]; repeat' split
                all_goals simp_all
  | pack n => simp only [exec, pack]; repeat' split
              all_goals simp_all
  | scope => simp only [exec]; repeat' split
             all_goals simp_all
  | arena => simp only [exec, arena]; repeat' split
             all_goals simp_all
  | pool => simp only [exec, pool]; repeat' split
            all_goals simp_all
  | async => simp only [exec]; repeat' split
             all_goals simp_all
  | spawn i c => simp only [exec, spawn]; repeat' split
                 all_goals simp_all
  | unguarded => simp only [exec]; repeat' split
                 all_goals simp_all
  | deferral i => simp [exec]
  | get i p v => simp [exec]
  | done b => simp [exec]
  | release i => simp [exec]
  | delete i => simp [exec]

/-! ## With memory enough -/

section
variable (h : ∀ n, ok n = true)
include h

theorem ask_plenty (k : Kind) (f : For) (s : St) : ask ok k f s = (some s.next, granted s) := by simp [ask, h]

theorem defer_plenty (k : Kind) (f : For) (i : Nat) (e : List Nat) (s : St) : (defer ok k f i e s).refused = s.refused := by
  unfold defer; dsimp only
  rw [ask_plenty ok h]
  split <;> rfl

theorem mallocFull_plenty (k : Kind) (f1 f2 f3 : For) (i : Nat) (s : St) :
    ∃ b t, mallocFull ok k f1 f2 f3 i s = (some b, t) ∧ t.refused = s.refused := by
  unfold mallocFull
  simp only [ask_plenty ok h]
  split
  · exact ⟨_, _, rfl, defer_plenty ok h ..⟩
  · exact ⟨_, _, rfl, defer_plenty ok h ..⟩

theorem more_plenty (v n : Nat) (s : St) : ∃ b t, more ok v n s = (some b, t) ∧ t.refused = s.refused := by
  induction n generalizing v s with
  | zero => exact ⟨_, _, rfl, rfl⟩
  | succ n ih =>
    obtain ⟨b, t, e, r⟩ := ih s.next (free [v] (granted s))
    refine ⟨b, t, ?_, r⟩
    unfold more
    simp only [ask_plenty ok h]
    exact e

theorem grow_plenty (i c : Nat) (s : St) : ∃ t, grow ok i c s = (true, t) ∧ t.refused = s.refused := by
  unfold grow
  simp only [ask_plenty ok h]
  split <;> exact ⟨_, rfl, rfl⟩

theorem launch_plenty (k : Kind) (s : St) : ∃ p t, launch ok k s = (some p, t) ∧ t.refused = s.refused := by
  obtain ⟨b, t, e, r⟩ := mallocFull_plenty ok h k .block .protector .array 0 s
  unfold launch
  simp only [e, ask_plenty ok h, may, h, if_true]
  exact ⟨_, _, rfl, r⟩

theorem exec_plenty (o : Op) (s : St) (e : s.refused = []) : (exec ok o s).2.refused = [] ∧ (exec ok o s).1 = .ok := by
  rw [← e]
  cases o with
  | memory i =>
    obtain ⟨b, t, e, r⟩ := mallocFull_plenty ok h .memory .block .protector .array i s
    simp only [exec, e]
    split
    · exact ⟨r, rfl⟩
    · exact ⟨rfl, rfl⟩
  | deferral i =>
    simp only [exec]
    split
    · exact ⟨defer_plenty ok h .., trivial⟩
    · exact ⟨rfl, trivial⟩
  | pack n =>
    obtain ⟨b, t, e, r⟩ := more_plenty ok h (granted s).next n (granted (granted s))
    simp only [exec, pack, ask_plenty ok h, e]
    exact ⟨r, trivial⟩
  | get i p v =>
    simp only [exec]
    split
    · exact ⟨defer_plenty ok h .., trivial⟩
    · exact ⟨rfl, trivial⟩
  | scope => simp only [exec, ask_plenty ok h]; exact ⟨rfl, trivial⟩
  | arena => simp only [exec, arena, ask_plenty ok h]; exact ⟨rfl, trivial⟩
  | guard => simp only [exec, guard, ask_plenty ok h]; exact ⟨rfl, trivial⟩
  | pool => simp only [exec, pool, ask_plenty ok h]; exact ⟨rfl, trivial⟩
  | async =>
    obtain ⟨p, t, e, r⟩ := launch_plenty ok h .async s
    simp only [exec, e]
    exact ⟨r, trivial⟩
  | spawn i c =>
    simp only [exec, spawn]
    split
    · obtain ⟨t, e, r⟩ := grow_plenty ok h i c s
      obtain ⟨p, u, e2, r2⟩ := launch_plenty ok h .spawn t
      obtain ⟨b, v, e3, r3⟩ := mallocFull_plenty ok h .spawn .result .resultProtector .resultArray i (u.keep [p.2])
      simp only [e, e2, e3]
      exact ⟨r3.trans (r2.trans r), trivial⟩
    · exact ⟨rfl, rfl⟩
  | unguarded => exact ⟨(quiet_exec ok s (.inl rfl)).2.1, (quiet_exec ok s (.inl rfl)).1⟩
  | done b => exact ⟨(quiet_exec ok s (.inr (.inl ⟨b, rfl⟩))).2.1, (quiet_exec ok s (.inr (.inl ⟨b, rfl⟩))).1⟩
  | release i => exact ⟨release_refused i s, rfl⟩
  | delete i => exact ⟨delete_refused i s, rfl⟩

end

end Verif.Oo
