import Verif.Spec.WeakDeque

/-!
Views and what they cover.
-/
namespace Verif.Wd

variable {α : Type}

@[simp] theorem fn_same {α β : Type} [DecidableEq α] (f : α → β) (a : α) (b : β) : fn f a b a = b := if_pos rfl
theorem fn_ne {α β : Type} [DecidableEq α] {f : α → β} {a x : α} {b : β} (h : x ≠ a) : fn f a b x = f x := if_neg h

/-! ## Views -/

structure View.le (v w : View) : Prop where
  ts : ∀ l, v.ts l ≤ w.ts l
  clk : v.clk ≤ w.clk

theorem View.le.rfl {v : View} : v.le v := ⟨fun _ => Nat.le_refl _, Nat.le_refl _⟩

theorem View.le_join_left (v w : View) : v.le (v.join w) := ⟨fun _ => Nat.le_max_left _ _, Nat.le_max_left _ _⟩
theorem View.le_join_right (v w : View) : w.le (v.join w) := ⟨fun _ => Nat.le_max_right _ _, Nat.le_max_right _ _⟩

theorem View.le.trans {u v w : View} (h : u.le v) (k : v.le w) : u.le w := ⟨fun l => Nat.le_trans (h.ts l) (k.ts l), Nat.le_trans h.clk k.clk⟩

theorem View.le_reach (v : View) (l : Loc) (n : Nat) : v.le (v.reach l n) := by
  refine ⟨fun k => ?_, Nat.le_refl _⟩
  show _ ≤ if k = l then _ else _
  split
  · next h => rw [h]; exact Nat.le_max_left _ _
  · exact Nat.le_refl _

theorem View.reach_same (v : View) (l : Loc) (n : Nat) : (v.reach l n).ts l = max (v.ts l) n := if_pos rfl
theorem View.reach_ne {v : View} {l k : Loc} {n : Nat} (h : k ≠ l) : (v.reach l n).ts k = v.ts k := if_neg h

theorem View.reach_eq {v : View} {l : Loc} {n : Nat} (h : n ≤ v.ts l) : v.reach l n = v := by
  cases v with
  | mk ts clk =>
    refine congrArg (View.mk · clk) (funext fun k => ?_)
    show (if k = l then max (ts l) n else ts k) = ts k
    split
    · next e => rw [e]; exact Nat.max_eq_left h
    · rfl

theorem View.join_ts (v w : View) (l : Loc) : (v.join w).ts l = max (v.ts l) (w.ts l) := rfl

/-- What is known anyway need not be learned. -/
theorem View.join_reach {v w : View} {l : Loc} {n : Nat} (h : n ≤ v.ts l) : v.join (w.reach l n) = v.join w := by
  refine congrArg (View.mk · (max v.clk w.clk)) (funext fun k => ?_)
  show max (v.ts k) ((w.reach l n).ts k) = max (v.ts k) (w.ts k)
  by_cases e : k = l
  · subst e; rw [reach_same]; omega
  · rw [reach_ne e]

/-! ## What stands in the way of a thief -/

/-- The owner is in a call of `take` that will compare and exchange `top` at `t`. -/
def taking : OPc α → Nat → Prop
  | .fence b _, t => b = t
  | .look b r, t => b = t ∧ r = t
  | .cas b _ _, t => b = t
  | _, _ => False

/-- Message `q + 1` lowers `bottom` from `t + 1` to `t`. -/
def Low (s : St α) (q t : Nat) : Prop := s.bottom.val q = t + 1 ∧ s.bottom.val (q + 1) = t

/-- Since message `p` of `bottom` the owner has taken task `t`, and not by compare-and-exchange. -/
def Dead (s : St α) (p t : Nat) : Prop := ∃ q, p ≤ q ∧ q < s.bottom.last ∧ Low s q t ∧ ¬ (q + 1 = s.bottom.last ∧ taking s.o t)

theorem Dead.mono {s : St α} {p q t : Nat} (h : Dead s q t) (k : p ≤ q) : Dead s p t := by
  obtain ⟨r, h1, h2⟩ := h
  exact ⟨r, Nat.le_trans k h1, h2⟩

/-- How many tasks there have been that were not taken by the owner without compare-and-exchange: the task numbers below are in use. -/
def St.len (s : St α) : Nat :=
  match s.o with
  | .fence b _ | .look b _ | .cas b _ _ | .restore b => b + 1
  | _ => s.bottom.now

/-- The array that was in use at message `p` of `bottom`. -/
def St.arrAt (s : St α) (p : Nat) : Nat := (s.bottom.view p).ts .array

/-- The view knows task `t`, in the array it knows. -/
structure Covers (s : St α) (h : Nat → Option α × Nat) (w : View) (t : Nat) : Prop where
  ts : (s.cell (w.ts .array) (t % s.size (w.ts .array))).last ≤ w.ts (.cell (w.ts .array) (t % s.size (w.ts .array)))
  now : (s.cell (w.ts .array) (t % s.size (w.ts .array))).now = (h t).1
  clk : (h t).2 < w.clk

theorem Covers.mono {s : St α} {h : Nat → Option α × Nat} {v w : View} {t : Nat} (c : Covers s h v t) (k : v.le w) (e : w.ts .array = v.ts .array) : Covers s h w t := by
  refine ⟨?_, ?_, Nat.lt_of_lt_of_le c.clk k.clk⟩
  · rw [e]; exact Nat.le_trans c.ts (k.ts _)
  · rw [e]; exact c.now

/-- `h i` is the task pushed last at `i`, and which call of `push` that was. -/
structure Ok (s : St α) (h : Nat → Option α × Nat) (w : View) : Prop where
  top : w.ts .top ≤ s.top.last
  bot : w.ts .bottom ≤ s.bottom.last
  arr : w.ts .array ≤ s.array.last
  lo : s.arrAt (w.ts .bottom) ≤ w.ts .array
  hi : w.ts .bottom < s.bottom.last → w.ts .array ≤ s.arrAt (w.ts .bottom + 1)
  cell : ∀ a c, w.ts (.cell a c) ≤ (s.cell a c).last
  clk : w.clk ≤ s.calls.length
  cov : ∀ t, t < s.bottom.val (w.ts .bottom) → s.top.last ≤ t → ¬ Dead s (w.ts .bottom) t → Covers s h w t

/-- The arrays of `bottom` do not get older. -/
def Grows (s : St α) : Prop := ∀ p q, p ≤ q → q ≤ s.bottom.last → s.arrAt p ≤ s.arrAt q

theorem Ok.join {s : St α} {h : Nat → Option α × Nat} {v w : View} (g : Grows s) (a : Ok s h v) (b : Ok s h w) : Ok s h (v.join w) := by
  have key : ∀ {v w : View}, Ok s h v → Ok s h w → v.ts .bottom < w.ts .bottom → v.ts .array ≤ w.ts .array := by
    intro v w a b l
    have := a.hi (Nat.lt_of_lt_of_le l b.bot)
    have := g (v.ts .bottom + 1) (w.ts .bottom) l b.bot
    have := b.lo
    omega
  refine ⟨Nat.max_le.2 ⟨a.top, b.top⟩, Nat.max_le.2 ⟨a.bot, b.bot⟩, Nat.max_le.2 ⟨a.arr, b.arr⟩, ?_, ?_, fun x y => Nat.max_le.2 ⟨a.cell x y, b.cell x y⟩, Nat.max_le.2 ⟨a.clk, b.clk⟩, ?_⟩
  · rw [View.join_ts, View.join_ts]
    have h1 := a.lo
    have h2 := b.lo
    rcases Nat.le_total (v.ts .bottom) (w.ts .bottom) with l | l
    · rw [Nat.max_eq_right l]; omega
    · rw [Nat.max_eq_left l]; omega
  · rw [View.join_ts, View.join_ts]
    intro l
    rcases Nat.lt_trichotomy (v.ts .bottom) (w.ts .bottom) with m | m | m
    · rw [Nat.max_eq_right (Nat.le_of_lt m)] at l ⊢
      have := key a b m
      have := b.hi l
      omega
    · rw [m, Nat.max_self] at l ⊢
      have h1 := a.hi (m ▸ l)
      have h2 := b.hi l
      rw [m] at h1
      omega
    · rw [Nat.max_eq_left (Nat.le_of_lt m)] at l ⊢
      have := key b a m
      have := a.hi l
      omega
  · intro t
    rw [View.join_ts]
    have left : v.ts .array ≥ w.ts .array → Covers s h v t → Covers s h (v.join w) t := fun k c =>
      c.mono (View.le_join_left v w) (by rw [View.join_ts, Nat.max_eq_left k])
    have right : v.ts .array ≤ w.ts .array → Covers s h w t → Covers s h (v.join w) t := fun k c =>
      c.mono (View.le_join_right v w) (by rw [View.join_ts, Nat.max_eq_right k])
    intro h1 h2 h3
    rcases Nat.lt_trichotomy (v.ts .bottom) (w.ts .bottom) with m | m | m
    · rw [Nat.max_eq_right (Nat.le_of_lt m)] at h1 h3
      exact right (key a b m) (b.cov t h1 h2 h3)
    · rw [m, Nat.max_self] at h1 h3
      rcases Nat.le_total (v.ts .array) (w.ts .array) with k | k
      · exact right k (b.cov t h1 h2 h3)
      · exact left k (a.cov t (m ▸ h1) h2 (m ▸ h3))
    · rw [Nat.max_eq_left (Nat.le_of_lt m)] at h1 h3
      exact left (key b a m) (a.cov t h1 h2 h3)

theorem Ok.reachTop {s : St α} {h : Nat → Option α × Nat} {v : View} {i : Nat} (a : Ok s h v) (l : i ≤ s.top.last) : Ok s h (v.reach .top i) := by
  have e1 : (v.reach .top i).ts .bottom = v.ts .bottom := View.reach_ne (by decide)
  have e2 : (v.reach .top i).ts .array = v.ts .array := View.reach_ne (by decide)
  refine ⟨?_, e1 ▸ a.bot, e2 ▸ a.arr, by rw [e1, e2]; exact a.lo, by rw [e1, e2]; exact a.hi, fun x y => ?_, a.clk, fun t => ?_⟩
  · rw [View.reach_same]; exact Nat.max_le.2 ⟨a.top, l⟩
  · rw [View.reach_ne (by intro e; cases e)]; exact a.cell x y
  · rw [e1]; exact fun h1 h2 h3 => (a.cov t h1 h2 h3).mono (View.le_reach _ _ _) e2

theorem Ok.reachCell {s : St α} {h : Nat → Option α × Nat} {v : View} {x y i : Nat} (a : Ok s h v) (l : i ≤ (s.cell x y).last) : Ok s h (v.reach (.cell x y) i) := by
  have e1 : (v.reach (.cell x y) i).ts .bottom = v.ts .bottom := View.reach_ne (by intro e; cases e)
  have e2 : (v.reach (.cell x y) i).ts .array = v.ts .array := View.reach_ne (by intro e; cases e)
  have e3 : (v.reach (.cell x y) i).ts .top = v.ts .top := View.reach_ne (by intro e; cases e)
  refine ⟨e3 ▸ a.top, e1 ▸ a.bot, e2 ▸ a.arr, by rw [e1, e2]; exact a.lo, by rw [e1, e2]; exact a.hi, fun x' y' => ?_, a.clk, fun t => ?_⟩
  · by_cases e : Loc.cell x' y' = Loc.cell x y
    · rw [e, View.reach_same]; cases e; exact Nat.max_le.2 ⟨a.cell _ _, l⟩
    · rw [View.reach_ne e]; exact a.cell x' y'
  · rw [e1]; exact fun h1 h2 h3 => (a.cov t h1 h2 h3).mono (View.le_reach _ _ _) e2

theorem Ok.clock {s : St α} {h : Nat → Option α × Nat} {v : View} {n : Nat} (a : Ok s h v) (l : v.clk ≤ n) (k : n ≤ s.calls.length) : Ok s h { v with clk := n } :=
  ⟨a.top, a.bot, a.arr, a.lo, a.hi, a.cell, k, fun t h1 h2 h3 => (a.cov t h1 h2 h3).mono ⟨fun _ => Nat.le_refl _, l⟩ rfl⟩

/-! ## From one state to the next -/

structure Ext (s s' : St α) (h h' : Nat → Option α × Nat) : Prop where
  calls : s.calls.length ≤ s'.calls.length
  top : s.top.last ≤ s'.top.last
  bot : s.bottom.last ≤ s'.bottom.last
  arr : s.array.last ≤ s'.array.last
  bval : ∀ p, p ≤ s.bottom.last → s'.bottom.val p = s.bottom.val p
  bview : ∀ p, p ≤ s.bottom.last → s'.bottom.view p = s.bottom.view p
  cell : ∀ a c, (s.cell a c).last ≤ (s'.cell a c).last
  size : ∀ a, a ≤ s.array.last → s'.size a = s.size a
  dead : ∀ p t, p ≤ s.bottom.last → Dead s p t → Dead s' p t
  kill : ∀ p t, p ≤ s.bottom.last → t ≤ s.top.last → Dead s' p t → Dead s p t ∨ t < s'.top.last
  keep : ∀ p t a, p ≤ s.bottom.last → a ≤ s.array.last → t < s.bottom.val p → s'.top.last ≤ t → ¬ Dead s' p t →
    s'.cell a (t % s.size a) = s.cell a (t % s.size a) ∧ h' t = h t
  next : s.bottom.last < s'.bottom.last → s.array.last ≤ s'.arrAt (s.bottom.last + 1)

theorem Ext.arrAt {s s' : St α} {h h' : Nat → Option α × Nat} (e : Ext s s' h h') {p : Nat} (l : p ≤ s.bottom.last) : s'.arrAt p = s.arrAt p := by
  unfold St.arrAt; rw [e.bview p l]

theorem Ext.covers {s s' : St α} {h h' : Nat → Option α × Nat} (e : Ext s s' h h') {w : View} {p t : Nat} (ha : w.ts .array ≤ s.array.last) (hp : p ≤ s.bottom.last) (h1 : t < s.bottom.val p)
    (h2 : s'.top.last ≤ t) (h3 : ¬ Dead s' p t) (c : Covers s h w t) : Covers s' h' w t := by
  obtain ⟨k1, k2⟩ := e.keep p t _ hp ha h1 h2 h3
  refine ⟨?_, ?_, ?_⟩
  · rw [e.size _ ha, k1]; exact c.ts
  · rw [e.size _ ha, k1, k2]; exact c.now
  · rw [k2]; exact c.clk

theorem Ok.ext {s s' : St α} {h h' : Nat → Option α × Nat} (e : Ext s s' h h') {w : View} (a : Ok s h w) : Ok s' h' w := by
  refine ⟨Nat.le_trans a.top e.top, Nat.le_trans a.bot e.bot, Nat.le_trans a.arr e.arr, ?_, ?_, fun x y => Nat.le_trans (a.cell x y) (e.cell x y), Nat.le_trans a.clk e.calls, ?_⟩
  · rw [e.arrAt a.bot]; exact a.lo
  · intro l
    rcases Nat.lt_or_ge (w.ts .bottom) s.bottom.last with k | k
    · rw [e.arrAt k]; exact a.hi k
    · have q : w.ts .bottom = s.bottom.last := Nat.le_antisymm a.bot k
      rw [q] at l ⊢
      exact Nat.le_trans a.arr (e.next l)
  · intro t h1 h2 h3
    rw [e.bval _ a.bot] at h1
    exact e.covers a.arr a.bot h1 h2 h3 (a.cov t h1 (Nat.le_trans e.top h2) fun d => h3 (e.dead _ _ a.bot d))

/-- All the views there are. -/
structure Views (s : St α) (ok : View → Prop) : Prop where
  oc : ok s.ot.cur
  oa : ok s.ot.acq
  or : ok s.ot.rel
  tc : ∀ j, ok (s.tt j).cur
  ta : ∀ j, ok (s.tt j).acq
  sc : ok s.sc
  top : ∀ i, i ≤ s.top.last → ok (s.top.view i)
  bot : ∀ i, i ≤ s.bottom.last → ok (s.bottom.view i)
  cell : ∀ a c i, i ≤ (s.cell a c).last → ok ((s.cell a c).view i)
  arr : ∀ i, i ≤ s.array.last → ∃ w, ok w ∧ w.ts .array ≤ i ∧ s.array.view i = w.reach .array i

theorem Views.imp {s : St α} {p q : View → Prop} (v : Views s p) (f : ∀ w, p w → q w) : Views s q :=
  ⟨f _ v.oc, f _ v.oa, f _ v.or, fun j => f _ (v.tc j), fun j => f _ (v.ta j), f _ v.sc, fun i l => f _ (v.top i l), fun i l => f _ (v.bot i l), fun a c i l => f _ (v.cell a c i l),
    fun i l => let ⟨w, h1, h2⟩ := v.arr i l; ⟨w, f _ h1, h2⟩⟩

/-! ## The invariant -/

/-- What the owner has to itself. -/
structure Mine (s : St α) : Prop where
  bot : s.ot.cur.ts .bottom = s.bottom.last
  arr : s.ot.cur.ts .array = s.array.last
  cell : ∀ a c, s.ot.cur.ts (.cell a c) = (s.cell a c).last
  clk : s.ot.cur.clk = s.calls.length
  win : s.len - s.ot.cur.ts .top ≤ s.size s.array.last

/-- What is true where the owner is. -/
def OwnerAt (s : St α) (h : Nat → Option α × Nat) : Prop :=
  match s.o with
  | .idle => True
  | .take => 1 ≤ s.bottom.now
  | .push w => s.calls[s.calls.length - 1]? = some w ∧ s.calls ≠ []
  | .grow w b => s.calls[s.calls.length - 1]? = some w ∧ s.calls ≠ [] ∧ b = s.bottom.now
  | .publish w b t => s.calls[s.calls.length - 1]? = some w ∧ s.calls ≠ [] ∧ b = s.bottom.now ∧ t ≤ s.ot.cur.ts .top ∧ b - t ≤ s.size s.array.last
  | .put w b => s.calls[s.calls.length - 1]? = some w ∧ s.calls ≠ [] ∧ b = s.bottom.now ∧ b - s.ot.cur.ts .top < s.size s.array.last
  | .bump w b => b = s.bottom.now ∧ h b = (some w, s.calls.length - 1) ∧ s.calls[s.calls.length - 1]? = some w ∧ s.calls ≠ [] ∧
      (s.cell s.array.last (b % s.size s.array.last)).now = some w ∧ b + 1 - s.ot.cur.ts .top ≤ s.size s.array.last
  | .lower b t => b + 1 = s.bottom.now ∧ t ≤ s.ot.cur.ts .top
  | .fence b t => b = s.bottom.now ∧ t ≤ s.ot.cur.ts .top
  | .look b t => b = s.bottom.now ∧ t ≤ s.ot.cur.ts .top ∧ (t < b → s.top.last ≤ b)
  | .cas b t x => b = s.bottom.now ∧ t = b ∧ t ≤ s.ot.cur.ts .top ∧ x = (s.cell s.array.last (b % s.size s.array.last)).now
  | .restore b => b = s.bottom.now ∧ s.top.last = b + 1

/-- The owner has found room for its task. -/
def late : OPc α → Bool
  | .put _ _ | .bump _ _ => true
  | _ => false

/-- The view that relaxed stores of the owner send is as good as its own, except at the end of `push`. -/
def RelAt (s : St α) (h : Nat → Option α × Nat) : Prop :=
  late s.o = false → s.ot.rel.ts .array = s.array.last ∧ ∀ t, s.top.last ≤ t → t < s.len → Covers s h s.ot.rel t

/-- What is true where a thief is. -/
def ThiefAt (s : St α) (h : Nat → Option α × Nat) (v : View) : TPc α → Prop
  | .idle | .top => True
  | .fence t => t ≤ s.top.last
  | .bottom t => t ≤ s.top.last ∧ (Dead s (v.ts .bottom) t → t < s.top.last)
  | .array t => t ≤ s.top.last ∧ t < s.bottom.val (v.ts .bottom) ∧ (Dead s (v.ts .bottom) t → t < s.top.last)
  | .read t a => t ≤ s.top.last ∧ a = v.ts .array ∧ ∃ p, p ≤ s.bottom.last ∧ t < s.bottom.val p ∧ (Dead s p t → t < s.top.last) ∧
      (s.top.last ≤ t → Covers s h v t)
  | .cas t x => t ≤ s.top.last ∧ ∃ p, p ≤ s.bottom.last ∧ t < s.bottom.val p ∧ (Dead s p t → t < s.top.last) ∧
      (s.top.last ≤ t → x = (h t).1 ∧ (h t).2 < v.clk)

structure Inv (s : St α) (h : Nat → Option α × Nat) (pop : List (Option α)) : Prop where
  tv : ∀ i, i ≤ s.top.last → s.top.val i = i
  av : ∀ i, i ≤ s.array.last → s.array.val i = i
  sz : ∀ a, a ≤ s.array.last → 0 < s.size a
  new : ∀ a c, s.array.last < a → s.cell a c = .one none
  bs : ∀ q, q < s.bottom.last → s.bottom.val (q + 1) = s.bottom.val q + 1 ∨ s.bottom.val q = s.bottom.val (q + 1) + 1
  bself : ∀ p, p ≤ s.bottom.last → (s.bottom.view p).ts .bottom = p
  grows : Grows s
  views : Views s (Ok s h)
  mine : Mine s
  at_ : OwnerAt s h
  rel : RelAt s h
  tops : s.top.last ≤ s.len
  hist : ∀ t, t < s.len → (h t).2 < s.calls.length ∧ s.calls[(h t).2]? = (h t).1 ∧ (s.top.last ≤ t → (s.cell s.array.last (t % s.size s.array.last)).now = (h t).1)
  low : ∀ q, s.sc.ts .bottom ≤ q → q < s.bottom.last → s.bottom.val q = s.bottom.val (q + 1) + 1 → q + 1 = s.bottom.last ∧ ∃ b t, s.o = .fence b t
  thief : ∀ j, ThiefAt s h (s.tt j).cur (s.th j)
  got : (s.got.map Prod.fst).Perm (pop ++ (List.range s.top.last).map fun i => (h i).1)
  pushed : (s.pushed.map some).Perm (pop ++ (List.range s.len).map fun i => (h i).1)
  some_ : s.pushed ≠ [] → 1 ≤ s.len
  seen : Seen s

theorem Inv.between {s : St α} (bs : ∀ q, q < s.bottom.last → s.bottom.val (q + 1) = s.bottom.val q + 1 ∨ s.bottom.val q = s.bottom.val (q + 1) + 1) {p t : Nat} (hp : p ≤ s.bottom.last)
    (h1 : t < s.bottom.val p) (h2 : s.bottom.now ≤ t) : ∃ q, p ≤ q ∧ q < s.bottom.last ∧ Low s q t := by
  obtain ⟨n, hn⟩ : ∃ n, n = s.bottom.last - p := ⟨_, rfl⟩
  induction n generalizing p with
  | zero =>
    have : p = s.bottom.last := by omega
    subst this
    unfold Hist.now at h2
    omega
  | succ n ih =>
    have lt : p < s.bottom.last := by omega
    rcases Nat.lt_or_ge t (s.bottom.val (p + 1)) with k | k
    · obtain ⟨q, h3, h4⟩ := ih lt k (by omega)
      exact ⟨q, by omega, h4⟩
    · have := bs p lt
      exact ⟨p, Nat.le_refl _, lt, by omega, by omega⟩

/-- The owner knows all there is. -/
theorem Inv.own {s : St α} {h : Nat → Option α × Nat} {pop : List (Option α)} (I : Inv s h pop) {t : Nat} (h1 : s.top.last ≤ t) (h2 : t < s.len) : Covers s h s.ot.cur t := by
  have m := I.mine
  refine ⟨?_, ?_, ?_⟩
  · rw [m.arr, m.cell]; exact Nat.le_refl _
  · rw [m.arr]; exact (I.hist t h2).2.2 h1
  · rw [m.clk]
    exact (I.hist t h2).1

/-- A thief whose exchange can succeed is after a task that is there. -/
theorem Inv.there {s : St α} {h : Nat → Option α × Nat} {pop : List (Option α)} (I : Inv s h pop) {p t : Nat} (hp : p ≤ s.bottom.last) (h1 : t < s.bottom.val p) (h2 : Dead s p t → t < s.top.last)
    (h3 : s.top.last = t) : t < s.bottom.now ∨ taking s.o t := by
  rcases Nat.lt_or_ge t s.bottom.now with k | k
  · exact .inl k
  · obtain ⟨q, q1, q2, q3⟩ := Inv.between I.bs hp h1 k
    refine .inr ?_
    refine Classical.byContradiction fun c => ?_
    have := h2 ⟨q, q1, q2, q3, fun e => c e.2⟩
    omega

theorem ThiefAt.ext {s s' : St α} {h h' : Nat → Option α × Nat} (e : Ext s s' h h') {v : View} (ok : Ok s h v) {pc : TPc α} (a : ThiefAt s h v pc) : ThiefAt s' h' v pc := by
  have kill : ∀ {p t}, p ≤ s.bottom.last → t ≤ s.top.last → (Dead s p t → t < s.top.last) → Dead s' p t → t < s'.top.last := by
    intro p t hp ht k d
    rcases e.kill p t hp ht d with d | d
    · exact Nat.lt_of_lt_of_le (k d) e.top
    · exact d
  cases pc with
  | idle => trivial
  | top => trivial
  | fence t => exact Nat.le_trans a e.top
  | bottom t => exact ⟨Nat.le_trans a.1 e.top, kill ok.bot a.1 a.2⟩
  | array t => exact ⟨Nat.le_trans a.1 e.top, by rw [e.bval _ ok.bot]; exact a.2.1, kill ok.bot a.1 a.2.2⟩
  | read t x =>
    obtain ⟨a1, a2, p, a3, a4, a5, a6⟩ := a
    refine ⟨Nat.le_trans a1 e.top, a2, p, Nat.le_trans a3 e.bot, by rw [e.bval _ a3]; exact a4, kill a3 a1 a5, fun l => ?_⟩
    refine e.covers ok.arr a3 a4 l ?_ (a6 (Nat.le_trans e.top l))
    intro d
    have := kill a3 a1 a5 d
    omega
  | cas t x =>
    obtain ⟨a1, p, a3, a4, a5, a6⟩ := a
    refine ⟨Nat.le_trans a1 e.top, p, Nat.le_trans a3 e.bot, by rw [e.bval _ a3]; exact a4, kill a3 a1 a5, fun l => ?_⟩
    have nd : ¬ Dead s' p t := by
      intro d
      have := kill a3 a1 a5 d
      omega
    rw [(e.keep p t _ a3 ok.arr a4 l nd).2]
    exact a6 (Nat.le_trans e.top l)

theorem Inv.init {n : Nat} (hn : 0 < n) : Inv (init n : St α) (fun _ => (none, 0)) [] := by
  have ok : Ok (Wd.init n : St α) (fun _ => (none, 0)) .zero :=
    ⟨Nat.le_refl _, Nat.le_refl _, Nat.le_refl _, Nat.le_refl _, fun l => absurd l (Nat.lt_irrefl _), fun _ _ => Nat.le_refl _, Nat.le_refl _, fun t l => absurd l (Nat.not_lt_zero _)⟩
  refine ⟨fun i l => (Nat.le_zero.1 l).symm, fun i l => (Nat.le_zero.1 l).symm, fun _ _ => hn, fun _ _ _ => rfl, fun q l => absurd l (Nat.not_lt_zero _), fun p l => (Nat.le_zero.1 l).symm,
    fun _ _ _ _ => Nat.le_refl _, ?_, ?_, trivial, ?_, Nat.le_refl _, fun t l => absurd l (Nat.not_lt_zero _), fun q _ l => absurd l (Nat.not_lt_zero _), fun _ => trivial, ?_, ?_,
    fun c => absurd rfl c, fun x m => nomatch m⟩
  · refine ⟨ok, ok, ok, fun _ => ok, fun _ => ok, ok, fun _ _ => ok, fun _ _ => ok, fun _ _ _ _ => ok, fun i l => ⟨.zero, ok, Nat.zero_le _, ?_⟩⟩
    rw [Nat.le_zero.1 l]
    exact (View.reach_eq (Nat.le_refl _)).symm
  · exact ⟨rfl, rfl, fun _ _ => rfl, rfl, Nat.zero_le _⟩
  · exact fun _ => ⟨rfl, fun t _ l => absurd l (Nat.not_lt_zero _)⟩
  · exact List.Perm.refl _
  · exact List.Perm.refl _

end Verif.Wd
