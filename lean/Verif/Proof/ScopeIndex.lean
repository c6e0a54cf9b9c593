import Verif.Proof.ScopeSafe
namespace Verif

/-- The call an entry makes when its scope is released. -/
def Entry.call (s : Nat) (e : Entry) : Option Event :=
  match e.func with
  | .user f => some (.ran s f e.data)
  | _ => none

def callLeaf : Nat → Nat → World → Out := fun _ _ w => .ok w

theorem deferAny_entries {env : Env} (hreal : env.Real) {s : Nat} {w : World} {es : List Entry}
    (hA : ArrInv DEFER_SIZE (w.scopes s).defer es) (f x : Nat) (b : Bool) :
    (es.length % 16 = 0 ∧ ∃ w', deferAny env s f x b w = .ok w' ∧ w'.scopes s = w.scopes s ∧
      w'.trace = w.trace ++ [.refused s f x]) ∨
    (∃ w' p a blk, deferAny env s f x b w = .ok w' ∧ w'.scopes s = { w.scopes s with defer := a } ∧
      ArrInv DEFER_SIZE a (es ++ [⟨.user f, x, b⟩]) ∧ a.type = (w.scopes s).defer.type ∧
      a.base = some blk ∧ p.toNat = blk.addr + es.length * 32 ∧
      w'.trace = w.trace ++ [.registered s f x (env.ptrdiff (p - a.elements))]) := by
  have hans : Allocator (env.alloc w.tick) := fun size addr h => hreal _ _ _ h
  have hp := arrPush_spec junkEntry DEFER_SIZE (w.scopes s).defer es
    (env.alloc w.tick) { func := .user f, data := x, check := b } deferSize_pos hans hA
  unfold arrPush at hp
  unfold deferAny
  dsimp only
  rcases hp with ⟨hgf, hp⟩ | ⟨-, p, a', blk, hp, hinv, hb, hty, hpp⟩
  · left
    refine ⟨hgf.1, ?_⟩
    rcases ha : arrAppend junkEntry (w.scopes s).defer DEFER_SIZE (env.alloc w.tick) with ⟨_ | p, a⟩
    · rw [ha] at hp
      simp only [Option.some.injEq, Prod.mk.injEq, true_and] at hp
      exact ⟨_, rfl, by simp [hp], rfl⟩
    · rw [ha] at hp
      simp at hp
  · right
    rcases ha : arrAppend junkEntry (w.scopes s).defer DEFER_SIZE (env.alloc w.tick) with ⟨_ | p', a⟩
    · rw [ha] at hp
      simp at hp
    · rw [ha] at hp
      simp only [Option.map_eq_some_iff, Prod.mk.injEq, Option.some.injEq] at hp
      obtain ⟨a'', h1, rfl, rfl⟩ := hp
      simp only [h1]
      exact ⟨_, p', a'', blk, rfl, by simp, hinv, hty, hb, hpp, rfl⟩

theorem runLoop_leaf {s : Nat} (cached : Nat) :
    ∀ (n : Nat) (es : List Entry) (w : World), es.length = n → (∀ e ∈ es, e.func ≠ .garbage) →
      (es ≠ [] → ∃ b, (w.scopes s).defer.base = some b ∧ b.addr = cached ∧ es <+: b.cells) →
      baseAddr (w.scopes s).defer = cached →
      ∃ w', runLoop callLeaf s cached n w = .ok w' ∧
        w'.trace = w.trace ++ es.reverse.filterMap (Entry.call s) ∧ Keeps s w w' := by
  intro n
  induction n with
  | zero =>
    intro es w hl _ _ _
    have : es = [] := List.eq_nil_of_length_eq_zero hl
    subst this
    exact ⟨w, rfl, by simp, rfl, rfl, rfl, rfl, rfl, rfl, rfl⟩
  | succ n ih =>
    intro es w hl hng hi hb
    rcases List.eq_nil_or_concat es with rfl | ⟨qs, e, rfl⟩
    · simp at hl
    rw [List.concat_eq_append] at *
    have hq : qs.length = n := by simpa using hl
    obtain ⟨blk, hbase, haddr, t, ht⟩ := hi (by simp)
    have hlen : n < blk.cells.length := by rw [← ht]; simp [hq]
    have hcell : blk.cells[n]? = some e := by
      rw [← ht]; simp [← hq]
    have hslot : blk.slot DEFER_SIZE (entryAddr cached n) = some n := by
      rw [← haddr]; exact slot_mul blk DEFER_SIZE n deferSize_pos hlen
    have hload : arrLoad (w.scopes s).defer DEFER_SIZE (entryAddr cached n) = some e := by
      simp only [arrLoad, hbase, hslot, Option.bind_some, hcell]
    unfold runLoop
    dsimp only
    rw [if_neg (by rw [hb]; simp), hload]
    dsimp only
    generalize hw1 : (if ((w.scopes s).err && e.check) = true then
      w.set s { w.scopes s with isRecovered := false } else w) = w1
    have hw1d : (w1.scopes s).defer = (w.scopes s).defer := by
      rw [← hw1]; split <;> simp
    have hw1t : w1.trace = w.trace := by rw [← hw1]; split <;> simp
    have hk1 : Keeps s w w1 := by
      rw [← hw1]; split <;> simp [Keeps]
    have hinv : ∃ w2, invoke callLeaf (Event.ran s) e w1 = .ok w2 ∧ w2.scopes = w1.scopes ∧
        w2.trace = w1.trace ++ (e.call s).toList := by
      unfold invoke callLeaf Entry.call
      have hg := hng e (by simp)
      cases hf : e.func with
      | garbage => exact absurd hf hg
      | canceled => exact ⟨_, rfl, rfl, by simp⟩
      | user f => exact ⟨_, rfl, rfl, rfl⟩
    obtain ⟨w2, e1, e2, e3⟩ := hinv
    rw [e1]
    have hd2 : (w2.scopes s).defer = (w.scopes s).defer := by rw [e2, hw1d]
    simp only [Out.andThen, hd2]
    rw [if_neg (by rw [hb]; simp), hload]
    simp only [arrStore, hbase, hslot, Option.map_some]
    have hset : ∀ v, ∃ t', qs ++ t' = blk.cells.set n v := by
      intro v
      refine ⟨(([e] ++ t).set 0 v), ?_⟩
      conv => rhs; rw [← ht, List.append_assoc, List.set_append_right _ _ (by simp [hq])]
      simp [hq]
    generalize hw3 : w2.set s { w2.scopes s with
      defer := { (w.scopes s).defer with base := some { blk with
        cells := blk.cells.set n { e with data := 0 } } } } = w3
    have hw3s : w3.scopes s = { w2.scopes s with
      defer := { (w.scopes s).defer with base := some { blk with
        cells := blk.cells.set n { e with data := 0 } } } } := by
      rw [← hw3]; simp
    have hb3 : baseAddr (w3.scopes s).defer = cached := by
      rw [hw3s]; simp [baseAddr, haddr]
    have hk3 : Keeps s w w3 := by
      obtain ⟨a1, a2, a3, a4, a5, a6, a7⟩ := hk1
      refine ⟨?_, ?_, ?_, ?_, ?_, ?_, hb3.trans hb.symm⟩
      · rw [hw3s]; show (w2.scopes s).err = _; rw [e2]; exact a1
      · rw [hw3s]; show (w2.scopes s).isProtected = _; rw [e2]; exact a2
      · rw [hw3s]; show (w2.scopes s).protector = _; rw [e2]; exact a3
      · rw [hw3s]; show (w2.scopes s).deleted = _; rw [e2]; exact a4
      · rw [hw3s]
      · rw [hw3s]
    obtain ⟨w', k1, k2, k3⟩ := ih qs w3 hq (fun e he => hng e (by simp [he]))
      (fun _ => by rw [hw3s]; exact ⟨_, rfl, haddr, hset _⟩) hb3
    refine ⟨w', k1, ?_, ?_⟩
    · have ht3 : w3.trace = w.trace ++ (e.call s).toList := by rw [← hw3, World.set_trace, e3, hw1t]
      rw [k2, ht3, List.reverse_append]
      simp only [List.reverse_cons, List.reverse_nil, List.nil_append, List.singleton_append,
        List.append_assoc]
      rw [List.filterMap_cons]
      cases e.call s <;> simp
    · obtain ⟨a1, a2, a3, a4, a5, a6, a7⟩ := hk3
      obtain ⟨b1, b2, b3, b4, b5, b6, b7⟩ := k3
      exact ⟨b1.trans a1, b2.trans a2, b3.trans a3, b4.trans a4, b5.trans a5, b6.trans a6, b7.trans a7⟩

/-- Release of a live scope without error whose functions perform no scope operation. -/
theorem release_leaf {env : Env} (hleaf : Leaf env) (fuel : Nat) {s : Nat} {w : World} {es : List Entry}
    (hA : ArrInv DEFER_SIZE (w.scopes s).defer es) (hng : ∀ e ∈ es, e.func ≠ .garbage)
    (hty : (w.scopes s).defer.type = RAII_DEF_ARR) (herr : (w.scopes s).err = false)
    (hdel : (w.scopes s).deleted = false) :
    ∃ w', exec env (fuel + 1) (.release s) w = .ok w' ∧
      w'.trace = w.trace ++ (.relBegin s :: es.reverse.filterMap (Entry.call s) ++ [.relEnd s]) := by
  have hcall : (fun f x => Out.seq (exec env fuel) (env.body f x)) = callLeaf := by
    funext f x w; rw [hleaf f x]; rfl
  unfold exec
  simp only [Op.scope, hdel, Bool.false_eq_true, if_false]
  rw [hcall]
  unfold deferredFree deferredRun
  dsimp only
  rw [if_pos (by simpa using hty)]
  generalize hw0 : (w.log (.relBegin s)).set s { (w.log (.relBegin s)).scopes s with
    isRecovered := !((w.log (.relBegin s)).scopes s).err } = w0
  have hd0 : (w0.scopes s).defer = (w.scopes s).defer := by rw [← hw0]; simp
  have he0 : (w0.scopes s).err = false := by rw [← hw0]; simp [herr]
  have hn : ((w.log (.relBegin s)).scopes s).defer.elements.toNat = es.length := hA.elems
  rw [hn]
  obtain ⟨w1, k1, k2, k3⟩ := runLoop_leaf (s := s) (baseAddr ((w.log (.relBegin s)).scopes s).defer)
    es.length es w0 rfl hng (by
      intro hne
      obtain ⟨b, hb, -, -, -, -, hpre⟩ := hA.blk hne
      refine ⟨b, by rw [hd0]; exact hb, ?_, hpre⟩
      simp [baseAddr, hb]) (by rw [hd0]; simp)
  rw [k1]
  simp only [Out.andThen]
  have he1 : (w1.scopes s).err = false := by rw [k3.1]; exact he0
  rw [if_neg (by simp [he1])]
  refine ⟨_, rfl, ?_⟩
  simp only [World.log, World.set_trace]
  rw [k2, ← hw0]
  simp [World.log]

/-- `raii_deferred_cancel` with an index that does lead to slot `k`. -/
theorem cancel_hit {s : Nat} {w : World} {es : List Entry} {b : Block Entry} {p : W} {k : Nat}
    (hA : ArrInv DEFER_SIZE (w.scopes s).defer es) (hb : (w.scopes s).defer.base = some b)
    (hk : k < es.length) (hp : p.toNat = b.addr + k * 32)
    (hhigh : es.length ≤ b.addr) (htail : (w.scopes s).tail = 0) :
    ∃ w' a e, deferredInternal s p w = .ok w' ∧ es[k]? = some e ∧
      w'.scopes s = { w.scopes s with defer := a } ∧
      ArrInv DEFER_SIZE a (es.set k { e with func := .canceled, check := false }) ∧
      a.type = (w.scopes s).defer.type ∧ w'.trace = w.trace := by
  obtain ⟨b', hb', hsz, hcap, h0, hA64, t, ht⟩ := hA.blk (by rintro rfl; simp at hk)
  rw [hb] at hb'
  cases hb'
  have hkc : k < b.cells.length := by rw [← ht]; simp; omega
  have hslot : b.slot DEFER_SIZE p.toNat = some k := by
    rw [hp]; exact slot_mul b DEFER_SIZE k deferSize_pos hkc
  have hcell : b.cells[k]? = some es[k] := by
    rw [← ht, List.getElem?_append_left hk, List.getElem?_eq_getElem hk]
  have hne : p ≠ getElement (w.scopes s) ((w.scopes s).tail - 1) := by
    intro hc
    have h1 := congrArg BitVec.toNat hc
    rw [hp, htail] at h1
    have h2 : (getElement (w.scopes s) (0 - 1)).toNat
        = ((w.scopes s).defer.elements.toNat + (2 ^ 64 - 24)) % 2 ^ 64 := by
      unfold getElement
      rw [BitVec.toNat_add]
      rfl
    rw [h2, hA.elems] at h1
    have h32 : (k + 1) * 32 ≤ b.size := Nat.le_trans (Nat.mul_le_mul_right 32 hkc) hsz
    by_cases hl : es.length < 24
    · rw [Nat.mod_eq_of_lt (by omega)] at h1
      omega
    · have : es.length + (2 ^ 64 - 24) = es.length - 24 + 2 ^ 64 := by omega
      rw [this, Nat.add_mod_right, Nat.mod_eq_of_lt (by omega)] at h1
      omega
  unfold deferredInternal
  dsimp only
  rw [if_neg hne]
  have hload : arrLoad (w.scopes s).defer DEFER_SIZE p.toNat = some es[k] := by
    simp only [arrLoad, hb, hslot, Option.bind_some, hcell]
  rw [hload]
  simp only [arrStore, hb, hslot, Option.map_some]
  refine ⟨_, _, es[k], rfl, List.getElem?_eq_getElem hk, World.set_same .., ⟨?_, fun _ => ?_⟩, rfl, rfl⟩
  · simpa using hA.elems
  · refine ⟨_, rfl, by simpa using hsz, by simpa using hcap, h0, hA64, t, ?_⟩
    rw [← ht, List.set_append_left _ _ hk]

/-- With an 8-byte aligned block and a number of entries that is not a multiple of 8, no index leads
to a slot. -/
theorem load_miss {s : Nat} {w : World} {es : List Entry} {b : Block Entry} {p : W} (i : W)
    (hA : ArrInv DEFER_SIZE (w.scopes s).defer es) (hb : (w.scopes s).defer.base = some b)
    (h8 : b.addr % 8 = 0) (hm : es.length % 8 ≠ 0) (hp : p = getElement (w.scopes s) i) :
    arrLoad (w.scopes s).defer DEFER_SIZE p.toNat = none := by
  have hmod : p.toNat % 8 = es.length % 8 := by
    rw [hp]
    unfold getElement
    rw [BitVec.toNat_add, BitVec.toNat_mul, hA.elems]
    have : ARRAY_SIZE.toNat = 24 := rfl
    rw [this]
    omega
  have hslot : b.slot DEFER_SIZE p.toNat = none := by
    unfold Block.slot
    rw [if_neg]
    rintro ⟨h1, h2, -⟩
    have : DEFER_SIZE.toNat = 32 := rfl
    rw [this] at h2
    omega
  simp only [arrLoad, hb, hslot, Option.bind_none]

/-- With an 8-byte aligned block and a number of entries that is not a multiple of 8, no index leads
to a slot: cancelling either is undefined behaviour or silently drops the newest deferral. -/
theorem cancel_miss {s : Nat} {w : World} {es : List Entry} {b : Block Entry} {p : W} (i : W)
    (hA : ArrInv DEFER_SIZE (w.scopes s).defer es) (hb : (w.scopes s).defer.base = some b)
    (h8 : b.addr % 8 = 0) (hm : es.length % 8 ≠ 0)
    (hp : p = getElement (w.scopes s) i) :
    deferredInternal s p w = .wild w ∨
    (deferredInternal s p w = .ok (w.set s { w.scopes s with
        defer := { (w.scopes s).defer with elements := (w.scopes s).defer.elements - 1 } }) ∧
      ArrInv DEFER_SIZE { (w.scopes s).defer with elements := (w.scopes s).defer.elements - 1 } es.dropLast) := by
  have hload := load_miss i hA hb h8 hm hp
  have hlen : 0 < es.length := by omega
  unfold deferredInternal
  dsimp only
  by_cases hc : p = getElement (w.scopes s) ((w.scopes s).tail - 1)
  · right
    rw [if_pos hc]
    refine ⟨rfl, ?_, fun hne => ?_⟩
    · show ((w.scopes s).defer.elements - 1).toNat = _
      have h1 : (1 : W).toNat = 1 := rfl
      rw [BitVec.toNat_sub_of_le (by rw [BitVec.le_def, hA.elems, h1]; omega), hA.elems, h1]
      simp
    · obtain ⟨b', hb', hsz, hcap, h0, hA64, hpre⟩ := hA.blk (by rintro rfl; simp at hlen)
      refine ⟨b', hb', hsz, ?_, h0, hA64, (List.dropLast_prefix es).trans hpre⟩
      simp only [List.length_dropLast]
      omega
  · left
    rw [if_neg hc]
    rw [hload]

/-- The entry a plain deferral stores. -/
def plain (d : Nat × Nat) : Entry := ⟨.user d.1, d.2, false⟩

/-- Events that only report registrations. -/
def Event.isReg (s : Nat) : Event → Bool
  | .registered t _ _ _ | .refused t _ _ => t = s
  | _ => false

theorem defers_spec {env : Env} (hreal : env.Real) (fuel : Nat) {s : Nat} :
    ∀ (ds : List (Nat × Nat)) (es : List Entry) (w : World),
      ArrInv DEFER_SIZE (w.scopes s).defer es → (w.scopes s).deleted = false →
      ∃ w' a ds' t, Out.seq (exec env (fuel + 1)) (defers s ds) w = .ok w' ∧
        w'.scopes s = { w.scopes s with defer := a } ∧ a.type = (w.scopes s).defer.type ∧
        ArrInv DEFER_SIZE a (es ++ ds'.map plain) ∧ w'.trace = w.trace ++ t ∧
        (∀ e ∈ t, e.isReg s = true) ∧ ((∀ f x, Event.refused s f x ∉ t) → ds' = ds) := by
  intro ds
  induction ds with
  | nil =>
    intro es w hA hd
    exact ⟨w, _, [], [], rfl, rfl, rfl, by simpa using hA, by simp, by simp, fun _ => rfl⟩
  | cons d ds ih =>
    intro es w hA hd
    obtain ⟨f, x⟩ := d
    have hx : exec env (fuel + 1) (.defer s f x) w = deferAny env s f x false w := by
      unfold exec
      simp [Op.scope, hd]
    show ∃ w' a ds' t, (exec env (fuel + 1) (.defer s f x) w).andThen _ = _ ∧ _
    rw [hx]
    rcases deferAny_entries hreal hA f x false with ⟨-, w1, h1, h2, h3⟩ | ⟨w1, p, a1, blk, h1, h2, h3, h4, -, -, h5⟩
    · rw [h1]
      obtain ⟨w', a, ds', t, k1, k2, k3, k4, k5, k6, k7⟩ := ih es w1 (by rw [h2]; exact hA) (by rw [h2]; exact hd)
      refine ⟨w', a, ds', .refused s f x :: t, k1, by rw [k2, h2], by rw [k3, h2], k4, by rw [k5, h3]; simp, ?_, ?_⟩
      · intro e he
        rcases List.mem_cons.1 he with rfl | he
        · simp [Event.isReg]
        · exact k6 e he
      · intro hr
        exact absurd List.mem_cons_self (hr f x)
    · rw [h1]
      obtain ⟨w', a, ds', t, k1, k2, k3, k4, k5, k6, k7⟩ := ih (es ++ [⟨.user f, x, false⟩]) w1
        (by rw [h2]; exact h3) (by rw [h2]; exact hd)
      refine ⟨w', a, (f, x) :: ds', .registered s f x (env.ptrdiff (p - a1.elements)) :: t, k1, by rw [k2, h2], by rw [k3, h2]; exact h4,
        by simpa [plain] using k4, by rw [k5, h5]; simp, ?_, ?_⟩
      · intro e he
        rcases List.mem_cons.1 he with rfl | he
        · simp [Event.isReg]
        · exact k6 e he
      · intro hr
        rw [k7 fun f x hm => hr f x (List.mem_cons_of_mem _ hm)]

theorem seq_append (f : Op → World → Out) :
    ∀ (a b : List Op) (w : World), Out.seq f (a ++ b) w = (Out.seq f a w).andThen (Out.seq f b) := by
  intro a
  induction a with
  | nil => intro b w; rfl
  | cons o a ih =>
    intro b w
    show (f o w).andThen (Out.seq f (a ++ b)) = ((f o w).andThen (Out.seq f a)).andThen _
    cases f o w with
    | ok w' => exact ih b w'
    | _ => rfl

end Verif
