import Verif.Proof.Scope
namespace Verif

/-- A live deferral: function, argument, and whether it was made by `raii_recover`. -/
abbrev Live := Nat × Nat × Bool

def Live.entry (p : Live) : Entry := { func := .user p.1, data := p.2.1, check := p.2.2 }
def Live.key (p : Live) : Nat × Nat := (p.1, p.2.1)

/-- No registration on `s` was refused. -/
def NoRefusal (s : Nat) (w : World) : Prop := ∀ f x, Event.refused s f x ∉ w.trace

theorem NoRefusal.of_log {s : Nat} {w : World} {e : Event} (h : NoRefusal s (w.log e)) : NoRefusal s w :=
  fun f x hm => h f x (by simp [World.log, hm])

/-- The checkers' state after the history of `s`. -/
structure Hist (s : Nat) (w : World) (stack : List (Nat × Nat)) (opened : Bool) : Prop where
  chk : checkRun ⟨[], false⟩ (events s w) = some ⟨stack, opened⟩
  mem : (∀ f x, Event.refused s f x ∉ events s w) →
    memRun ⟨[], false, none⟩ (events s w) = some ⟨stack, opened, none⟩

/-- The history of `s` so far keeps both promises. -/
structure HistOk (s : Nat) (w : World) : Prop where
  chk : Lifo (events s w)
  mem : (∀ f x, Event.refused s f x ∉ events s w) → MemLifo (events s w)

theorem Hist.ok {s w stack opened} (h : Hist s w stack opened) : HistOk s w :=
  ⟨by rw [Lifo, h.chk]; rfl, fun hr => by rw [MemLifo, h.mem hr]; rfl⟩

theorem Hist.same {s w w' stack opened} (h : Hist s w stack opened) (k : Same s w w') :
    Hist s w' stack opened := by
  constructor
  · rw [k.evs]; exact h.chk
  · rw [k.evs]; exact h.mem

theorem Hist.step {s w stack opened} (h : Hist s w stack opened) (e : Event) (he : e.scope = s)
    {stack' opened'} (h1 : checkStep ⟨stack, opened⟩ e = some ⟨stack', opened'⟩)
    (h2 : (∀ f x, e ≠ .refused s f x) → memStep ⟨stack, opened, none⟩ e = some ⟨stack', opened', none⟩) :
    Hist s (w.log e) stack' opened' := by
  constructor
  · rw [events_log_same w e he, checkRun_append, h.chk]
    simp [checkRun, h1]
  · intro hr
    rw [events_log_same w e he] at hr ⊢
    rw [memRun_append, h.mem (fun f x hm => hr f x (by simp [hm]))]
    simp [memRun, h2 (fun f x hx => hr f x (by simp [hx]))]

theorem Hist.registered {s w stack opened} (h : Hist s w stack opened) (f x : Nat) (i : W) :
    Hist s (w.log (.registered s f x i)) ((f, x) :: stack) opened :=
  h.step _ rfl rfl (fun _ => rfl)

theorem Hist.refused {s w stack opened} (h : Hist s w stack opened) (f x : Nat) :
    Hist s (w.log (.refused s f x)) stack opened :=
  h.step _ rfl rfl (fun hc => absurd rfl (hc f x))

theorem Hist.ran {s w f x stack} (h : Hist s w ((f, x) :: stack) true) :
    Hist s (w.log (.ran s f x)) stack true :=
  h.step _ rfl (by simp [checkStep]) (fun _ => by simp [memStep])

theorem Hist.relBegin {s w stack} (h : Hist s w stack false) : Hist s (w.log (.relBegin s)) stack true :=
  h.step _ rfl rfl (fun _ => rfl)

theorem Hist.relEnd {s w} (h : Hist s w [] true) : Hist s (w.log (.relEnd s)) [] false :=
  h.step _ rfl rfl (fun _ => rfl)

/-- A block is handed out and its registration is accepted. -/
theorem Hist.allocReg {s stack opened} {w w' : World} (h : Hist s w stack opened) (p f : Nat) (i : W)
    (hw : events s w' = events s w ++ [.allocated s p f, .registered s f p i]) :
    Hist s w' ((f, p) :: stack) opened := by
  constructor
  · rw [hw, checkRun_append, h.chk]; rfl
  · intro hr
    rw [hw] at hr ⊢
    rw [memRun_append, h.mem (fun f x hm => hr f x (by simp [hm]))]
    simp [memRun, memStep]

/-- A block is handed out and its registration is refused. -/
theorem Hist.allocRef {s stack opened} {w w' : World} (h : Hist s w stack opened) (p f : Nat)
    (hw : events s w' = events s w ++ [.allocated s p f, .refused s f p]) :
    Hist s w' stack opened := by
  constructor
  · rw [hw, checkRun_append, h.chk]; rfl
  · intro hr
    rw [hw] at hr
    exact absurd (by simp) (hr f p)

/-- The array of scope `s` holds the deferrals `ps`, oldest first. -/
def Holding (w : World) (s : Nat) (ps : List Live) : Prop :=
  ArrInv DEFER_SIZE (w.scopes s).defer (ps.map Live.entry)

theorem deferSize_pos : 0 < DEFER_SIZE.toNat := by decide

/-- What registering does to the scope and its history. -/
theorem deferAny_spec {env : Env} (hreal : env.Real) {s : Nat} {w : World} {ps : List Live}
    (hA : Holding w s ps) (f x : Nat) (b : Bool) :
    (∃ w', deferAny env s f x b w = .ok w' ∧ Holding w' s ps ∧
      events s w' = events s w ++ [.refused s f x] ∧ w'.scopes s = w.scopes s ∧
      w'.trace = w.trace ++ [.refused s f x]) ∨
    (∃ w' i a, deferAny env s f x b w = .ok w' ∧ Holding w' s (ps ++ [(f, x, b)]) ∧
      events s w' = events s w ++ [.registered s f x i] ∧
      w'.scopes s = { w.scopes s with defer := a } ∧ a.type = (w.scopes s).defer.type ∧
      w'.trace = w.trace ++ [.registered s f x i]) := by
  have hans : Allocator (env.alloc w.tick) := fun size addr h => hreal _ _ _ h
  have hp := arrPush_spec junkEntry DEFER_SIZE (w.scopes s).defer (ps.map Live.entry)
    (env.alloc w.tick) { func := .user f, data := x, check := b } deferSize_pos hans hA
  unfold arrPush at hp
  unfold deferAny
  dsimp only
  rcases hp with ⟨-, hp⟩ | ⟨-, p, a', blk, hp, hinv, hb, hty, hpp⟩
  · left
    rcases ha : arrAppend junkEntry (w.scopes s).defer DEFER_SIZE (env.alloc w.tick) with ⟨_ | p, a⟩
    · rw [ha] at hp
      simp only [Option.some.injEq, Prod.mk.injEq, true_and] at hp
      subst hp
      refine ⟨_, rfl, ?_, ?_, ?_, rfl⟩
      · simpa [Holding] using hA
      · rw [events_log_same (s := s) _ _ rfl]; rfl
      · simp
    · rw [ha] at hp
      simp at hp
  · right
    rcases ha : arrAppend junkEntry (w.scopes s).defer DEFER_SIZE (env.alloc w.tick) with ⟨_ | p', a⟩
    · rw [ha] at hp
      simp at hp
    · rw [ha] at hp
      simp only [Option.map_eq_some_iff, Prod.mk.injEq, Option.some.injEq] at hp
      obtain ⟨a'', h1, rfl, rfl⟩ := hp
      simp only [h1]
      refine ⟨_, _, a'', rfl, ?_, ?_, ?_, hty, rfl⟩
      · unfold Holding
        simpa [Live.entry] using hinv
      · rw [events_log_same (s := s) _ _ rfl]; rfl
      · simp

/-- What the loop needs: the block is where it was cached and its first cells are `ps`. -/
structure LoopInv (s cached : Nat) (w : World) (ps : List Live) : Prop where
  blk : ps ≠ [] → ∃ b, (w.scopes s).defer.base = some b ∧ b.addr = cached ∧
    ps.map Live.entry <+: b.cells

/-- A result that is not a normal return, reached with an acceptable history, because some user
function did not return normally. -/
structure Stuck (call : Nat → Nat → World → Out) (s : Nat) (o : Out) : Prop where
  notOk : ∀ w, o ≠ .ok w
  hist : HistOk s o.world
  cause : ∃ f x w, ∀ w', call f x w ≠ .ok w'

/-- Fields of scope `s` the release loop does not touch. -/
def Keeps (s : Nat) (w w' : World) : Prop :=
  (w'.scopes s).err = (w.scopes s).err ∧ (w'.scopes s).isProtected = (w.scopes s).isProtected ∧
  (w'.scopes s).protector = (w.scopes s).protector ∧ (w'.scopes s).deleted = (w.scopes s).deleted ∧
  (w'.scopes s).defer.type = (w.scopes s).defer.type ∧
  (w'.scopes s).defer.elements = (w.scopes s).defer.elements ∧
  baseAddr (w'.scopes s).defer = baseAddr (w.scopes s).defer

theorem runLoop_spec {call : Nat → Nat → World → Out} {s : Nat}
    (hcall : ∀ f x w, Same s w (call f x w).world) (cached : Nat) :
    ∀ (n : Nat) (ps : List Live) (w : World), ps.length = n → LoopInv s cached w ps →
      baseAddr (w.scopes s).defer = cached →
      Hist s w (ps.reverse.map Live.key) true →
      (∃ w', runLoop call s cached n w = .ok w' ∧ Hist s w' [] true ∧ Keeps s w w') ∨
      Stuck call s (runLoop call s cached n w) := by
  intro n
  induction n with
  | zero =>
    intro ps w hl _ _ hh
    have : ps = [] := List.eq_nil_of_length_eq_zero hl
    subst this
    exact .inl ⟨w, rfl, hh, rfl, rfl, rfl, rfl, rfl, rfl, rfl⟩
  | succ n ih =>
    intro ps w hl hi hb hh
    rcases List.eq_nil_or_concat ps with rfl | ⟨qs, ⟨f, x, c⟩, rfl⟩
    · simp at hl
    have hq : qs.length = n := by simpa using hl
    obtain ⟨blk, hbase, haddr, hpre⟩ := hi.blk (by simp)
    rw [List.concat_eq_append, List.map_append] at hpre
    obtain ⟨t, ht⟩ := hpre
    have hlen : n < blk.cells.length := by rw [← ht]; simp [hq]
    have hcell : blk.cells[n]? = some (Live.entry (f, x, c)) := by
      rw [← ht]; simp [← hq]
    have hslot : blk.slot DEFER_SIZE (entryAddr cached n) = some n := by
      rw [← haddr]; exact slot_mul blk DEFER_SIZE n deferSize_pos hlen
    unfold runLoop
    dsimp only
    rw [if_neg (by rw [hb]; simp)]
    have hload : arrLoad (w.scopes s).defer DEFER_SIZE (entryAddr cached n)
        = some (Live.entry (f, x, c)) := by
      simp only [arrLoad, hbase, hslot, Option.bind_some, hcell]
    rw [hload]
    dsimp only
    generalize hw1 : (if ((w.scopes s).err && (Live.entry (f, x, c)).check) = true then
      w.set s { w.scopes s with isRecovered := false } else w) = w1
    have hw1d : (w1.scopes s).defer = (w.scopes s).defer := by
      rw [← hw1]; split <;> simp
    have hw1e : events s w1 = events s w := by rw [← hw1]; split <;> simp
    have hk1 : Keeps s w w1 := by
      rw [← hw1]; split <;> simp [Keeps]
    have hh1 : Hist s w1 ((f, x) :: qs.reverse.map Live.key) true := by
      refine ⟨by rw [hw1e]; simpa [Live.key] using hh.chk, by rw [hw1e]; simpa [Live.key] using hh.mem⟩
    have hinv : invoke call (Event.ran s) (Live.entry (f, x, c)) w1 = call f x (w1.log (.ran s f x)) := rfl
    rw [hinv]
    have hsame := hcall f x (w1.log (.ran s f x))
    have hh2 := hh1.ran.same hsame
    rcases ho : call f x (w1.log (.ran s f x)) with w2 | w2 | w2 | w2
    · rw [ho] at hsame hh2
      simp only [Out.world] at hsame hh2
      have hsc : w2.scopes s = w1.scopes s := hsame.scope
      have hd2 : (w2.scopes s).defer = (w.scopes s).defer := by rw [hsc, hw1d]
      simp only [Out.andThen, hd2]
      rw [if_neg (by rw [hb]; simp), hload]
      simp only [arrStore, hbase, hslot, Option.map_some]
      have hset : ∀ v, ∃ t', qs.map Live.entry ++ t' = blk.cells.set n v := by
        intro v
        refine ⟨(([Live.entry (f, x, c)] ++ t).set 0 v), ?_⟩
        conv => rhs; rw [← ht, List.append_assoc, List.set_append_right _ _ (by simp [hq])]
        simp [hq]
      generalize hw3 : w2.set s { w2.scopes s with
        defer := { (w.scopes s).defer with base := some { blk with
          cells := blk.cells.set n { Live.entry (f, x, c) with data := 0 } } } } = w3
      have hw3s : w3.scopes s = { w2.scopes s with
        defer := { (w.scopes s).defer with base := some { blk with
          cells := blk.cells.set n { Live.entry (f, x, c) with data := 0 } } } } := by
        rw [← hw3]; simp
      have hb3 : baseAddr (w3.scopes s).defer = cached := by
        rw [hw3s]; simp [baseAddr, haddr]
      have hh3 : Hist s w3 (qs.reverse.map Live.key) true := by
        rw [← hw3]; exact ⟨hh2.chk, hh2.mem⟩
      have hi3 : LoopInv s cached w3 qs := by
        constructor
        intro _
        rw [hw3s]
        exact ⟨_, rfl, haddr, hset _⟩
      have hk3 : Keeps s w w3 := by
        obtain ⟨e1, e2, e3, e4, e5, e6, e7⟩ := hk1
        refine ⟨?_, ?_, ?_, ?_, ?_, ?_, hb3.trans hb.symm⟩
        · rw [hw3s]; show (w2.scopes s).err = _; rw [hsc]; exact e1
        · rw [hw3s]; show (w2.scopes s).isProtected = _; rw [hsc]; exact e2
        · rw [hw3s]; show (w2.scopes s).protector = _; rw [hsc]; exact e3
        · rw [hw3s]; show (w2.scopes s).deleted = _; rw [hsc]; exact e4
        · rw [hw3s]
        · rw [hw3s]
      rcases ih qs w3 hq hi3 hb3 hh3 with ⟨w', e1, e2, e3⟩ | hst
      · left
        refine ⟨w', e1, e2, ?_⟩
        obtain ⟨a1, a2, a3, a4, a5, a6, a7⟩ := hk3
        obtain ⟨b1, b2, b3, b4, b5, b6, b7⟩ := e3
        exact ⟨b1.trans a1, b2.trans a2, b3.trans a3, b4.trans a4, b5.trans a5, b6.trans a6, b7.trans a7⟩
      · exact .inr hst
    all_goals
      rw [ho] at hh2
      exact .inr ⟨by simp [Out.andThen], hh2.ok, ⟨f, x, _, by rw [ho]; simp⟩⟩

end Verif

namespace Verif

/-- A result that is not a normal return, with an acceptable history, and why. -/
structure Stopped (call : Nat → Nat → World → Out) (err : Bool) (s : Nat) (o : Out) : Prop where
  notOk : ∀ w, o ≠ .ok w
  hist : HistOk s o.world
  cause : (∃ f x w, ∀ w', call f x w ≠ .ok w') ∨ err = true

theorem Holding.loopInv {w : World} {s : Nat} {ps : List Live} (h : Holding w s ps) :
    LoopInv s (baseAddr (w.scopes s).defer) w ps := by
  constructor
  intro hne
  obtain ⟨b, hb, -, -, -, -, hpre⟩ := ArrInv.blk h (by simpa using hne)
  exact ⟨b, hb, by simp [baseAddr, hb], hpre⟩

theorem holding_reset (w : World) (s : Nat) (sc : Scope) (hsc : sc.defer = arrReset sc.defer) :
    Holding (w.set s sc) s [] := by
  refine ⟨?_, fun h => absurd rfl h⟩
  simp only [World.set_same]
  rw [hsc]; rfl

/-- Release of a scope whose array is live: everything outstanding runs, newest first, and the scope
is left empty and no longer recognised as live. -/
theorem deferredFree_spec {call : Nat → Nat → World → Out} {s : Nat}
    (hcall : ∀ f x w, Same s w (call f x w).world) {w : World} {ps : List Live}
    (hA : Holding w s ps) (hty : (w.scopes s).defer.type = RAII_DEF_ARR)
    (hh : Hist s w (ps.reverse.map Live.key) true) :
    (∃ w', deferredFree call s w = .ok w' ∧ Hist s w' [] true ∧ Holding w' s [] ∧
      (w'.scopes s).defer.type = 0 ∧ (w'.scopes s).err = (w.scopes s).err ∧
      (w'.scopes s).deleted = (w.scopes s).deleted) ∨
    Stopped call (w.scopes s).err s (deferredFree call s w) := by
  unfold deferredFree deferredRun
  dsimp only
  rw [if_pos hty]
  generalize hw0 : w.set s { w.scopes s with isRecovered := !(w.scopes s).err } = w0
  have hd0 : (w0.scopes s).defer = (w.scopes s).defer := by rw [← hw0]; simp
  have he0 : (w0.scopes s).err = (w.scopes s).err := by rw [← hw0]; simp
  have hl0 : (w0.scopes s).deleted = (w.scopes s).deleted := by rw [← hw0]; simp
  have hA0 : Holding w0 s ps := by unfold Holding; rw [hd0]; exact hA
  have hh0 : Hist s w0 (ps.reverse.map Live.key) true := by rw [← hw0]; exact ⟨hh.chk, hh.mem⟩
  have hn : (w.scopes s).defer.elements.toNat = ps.length := by simpa using ArrInv.elems hA
  rw [hn]
  have hloop := runLoop_spec hcall (baseAddr (w.scopes s).defer) ps.length ps w0 rfl
    (by rw [← hd0]; exact hA0.loopInv) (by rw [hd0]) hh0
  rcases hloop with ⟨w1, e1, e2, k1, k2, k3, k4, k5, k6, k7⟩ | hst
  · rw [e1]
    simp only [Out.andThen]
    by_cases hc : ((w1.scopes s).isProtected && (w1.scopes s).protector && (w1.scopes s).err &&
        decide (ps.length = 0)) = true
    · right
      rw [if_pos hc]
      refine ⟨by simp, e2.ok, .inr ?_⟩
      simp only [Bool.and_eq_true] at hc
      rw [← he0, ← k1]; exact hc.1.2
    · left
      rw [if_neg hc]
      refine ⟨_, rfl, ⟨e2.chk, e2.mem⟩, holding_reset _ _ _ rfl, by simp [arrReset], ?_, ?_⟩
      · simp [k1, he0]
      · simp [k4, hl0]
  · right
    cases ho : runLoop call s (baseAddr (w.scopes s).defer) ps.length w0 with
    | ok w' => exact absurd ho (hst.notOk w')
    | wild w' => rw [ho] at hst; exact ⟨by simp [Out.andThen], hst.hist, .inl hst.cause⟩
    | panic w' => rw [ho] at hst; exact ⟨by simp [Out.andThen], hst.hist, .inl hst.cause⟩
    | running w' => rw [ho] at hst; exact ⟨by simp [Out.andThen], hst.hist, .inl hst.cause⟩

/-- What allocating on a scope does. -/
theorem mallocFull_spec {env : Env} (hreal : env.Real) {s : Nat} {w : World} {ps : List Live}
    (hA : Holding w s ps) (size f : Nat) :
    (∃ w', mallocFull env s size f w = .panic w' ∧ Same s w w') ∨
    (∃ w' p, mallocFull env s size f w = .ok w' ∧ Holding w' s ps ∧
      events s w' = events s w ++ [.allocated s p f, .refused s f p] ∧
      (w'.scopes s).defer.type = (w.scopes s).defer.type ∧ (w'.scopes s).err = (w.scopes s).err ∧
      (w'.scopes s).deleted = (w.scopes s).deleted) ∨
    (∃ w' p i, mallocFull env s size f w = .ok w' ∧ Holding w' s (ps ++ [(f, p, false)]) ∧
      events s w' = events s w ++ [.allocated s p f, .registered s f p i] ∧
      (w'.scopes s).defer.type = (w.scopes s).defer.type ∧ (w'.scopes s).err = (w.scopes s).err ∧
      (w'.scopes s).deleted = (w.scopes s).deleted) := by
  have key : ∀ (p : Nat) (w1 : World), Same s w w1 →
      (∃ w', (deferAny env s f p false ((w1.set s { w1.scopes s with protector := true, isProtected := true }).log
        (.allocated s p f))).andThen (fun w => .ok (w.set s { w.scopes s with mid := lastIndex w })) = .ok w' ∧
        Holding w' s ps ∧ events s w' = events s w ++ [.allocated s p f, .refused s f p] ∧
        (w'.scopes s).defer.type = (w.scopes s).defer.type ∧ (w'.scopes s).err = (w.scopes s).err ∧
        (w'.scopes s).deleted = (w.scopes s).deleted) ∨
      (∃ w' i, (deferAny env s f p false ((w1.set s { w1.scopes s with protector := true, isProtected := true }).log
        (.allocated s p f))).andThen (fun w => .ok (w.set s { w.scopes s with mid := lastIndex w })) = .ok w' ∧
        Holding w' s (ps ++ [(f, p, false)]) ∧
        events s w' = events s w ++ [.allocated s p f, .registered s f p i] ∧
        (w'.scopes s).defer.type = (w.scopes s).defer.type ∧ (w'.scopes s).err = (w.scopes s).err ∧
        (w'.scopes s).deleted = (w.scopes s).deleted) := by
    intro p w1 hs
    generalize hw2 : (w1.set s { w1.scopes s with protector := true, isProtected := true }).log
        (.allocated s p f) = w2
    have hsc2 : w2.scopes s = { w1.scopes s with protector := true, isProtected := true } := by
      rw [← hw2]; simp
    have hev2 : events s w2 = events s w ++ [.allocated s p f] := by
      rw [← hw2, events_log_same (s := s) _ _ rfl, events_set, hs.evs]
    have hA2 : Holding w2 s ps := by
      unfold Holding; rw [hsc2]; show ArrInv _ (w1.scopes s).defer _; rw [hs.scope]; exact hA
    rcases deferAny_spec hreal hA2 f p false with ⟨w3, e1, e2, e3, e4, -⟩ | ⟨w3, i, a, e1, e2, e3, e4, e5, -⟩
    · left
      rw [e1]
      refine ⟨_, rfl, ?_, ?_, ?_, ?_, ?_⟩
      · unfold Holding at e2 ⊢; simpa using e2
      · rw [events_set, e3, hev2]; simp
      · rw [World.set_same]; show (w3.scopes s).defer.type = _; rw [e4, hsc2]
        show (w1.scopes s).defer.type = _; rw [hs.scope]
      · rw [World.set_same]; show (w3.scopes s).err = _; rw [e4, hsc2]
        show (w1.scopes s).err = _; rw [hs.scope]
      · rw [World.set_same]; show (w3.scopes s).deleted = _; rw [e4, hsc2]
        show (w1.scopes s).deleted = _; rw [hs.scope]
    · right
      rw [e1]
      refine ⟨_, i, rfl, ?_, ?_, ?_, ?_, ?_⟩
      · unfold Holding at e2 ⊢; simpa using e2
      · rw [events_set, e3, hev2]; simp
      · rw [World.set_same]; show (w3.scopes s).defer.type = _; rw [e4]; show a.type = _; rw [e5, hsc2]
        show (w1.scopes s).defer.type = _; rw [hs.scope]
      · rw [World.set_same]; show (w3.scopes s).err = _; rw [e4]; show (w2.scopes s).err = _; rw [hsc2]
        show (w1.scopes s).err = _; rw [hs.scope]
      · rw [World.set_same]; show (w3.scopes s).deleted = _; rw [e4]; show (w2.scopes s).deleted = _; rw [hsc2]
        show (w1.scopes s).deleted = _; rw [hs.scope]
  unfold mallocFull
  split
  · exact .inl ⟨_, rfl, Same.ticked s w⟩
  · rename_i p hp
    dsimp only
    split
    · rcases key p w.ticked (Same.ticked s w) with ⟨w', h⟩ | ⟨w', i, h⟩
      · exact .inr (.inl ⟨w', p, h⟩)
      · exact .inr (.inr ⟨w', p, i, h⟩)
    · split
      · exact .inl ⟨_, rfl, (Same.ticked s w).trans (Same.ticked s _)⟩
      · rcases key p w.ticked.ticked ((Same.ticked s w).trans (Same.ticked s _)) with ⟨w', h⟩ | ⟨w', i, h⟩
        · exact .inr (.inl ⟨w', p, h⟩)
        · exact .inr (.inr ⟨w', p, i, h⟩)

end Verif
