import Verif.Proof.ScopeIndex
namespace Verif

theorem arrPush_addr {α} (junk : α) (es : W) (a a' : Arr α) (vs : List α) (ans : W → Option Nat) (v : α)
    (hes : 0 < es.toNat) (hans : Allocator ans) (h : ArrInv es a vs) (hn : vs.length % 16 ≠ 0) {q : Option W}
    (hp : arrPush junk es a ans v = some (q, a')) :
    (a'.base.map Block.addr).getD 0 = (a.base.map Block.addr).getD 0 := by
  unfold arrPush at hp
  rcases arrAppend_spec junk es a vs ans hes hans h with ⟨h1, h2⟩ | ⟨h1, p, a1, b, h2, h3, h4, h5, h6, h7, h8, h9', h9, h10, h11⟩
  · rw [h2] at hp
    simp only [Option.some.injEq, Prod.mk.injEq] at hp
    rw [← hp.2]
  · rw [h2] at hp
    have hk : vs.length < b.cells.length := by omega
    simp only [arrStore, h4, h6, slot_mul b es _ hes hk, Option.map_some, Option.some.injEq, Prod.mk.injEq] at hp
    rw [← hp.2, h11 hn]
    rfl

theorem deferAny_addr {env : Env} (hreal : env.Real) {s : Nat} {w w' : World} {es : List Entry}
    (hA : ArrInv DEFER_SIZE (w.scopes s).defer es) (f x : Nat) (b : Bool)
    (h : deferAny env s f x b w = .ok w') (hn : es.length % 16 ≠ 0) :
    baseAddr (w'.scopes s).defer = baseAddr (w.scopes s).defer := by
  have hans : Allocator (env.alloc w.tick) := fun size addr h => hreal _ _ _ h
  have key := fun a' q => arrPush_addr junkEntry DEFER_SIZE (w.scopes s).defer a' es
    (env.alloc w.tick) { func := .user f, data := x, check := b } deferSize_pos hans hA hn (q := q)
  unfold arrPush at key
  unfold deferAny at h
  dsimp only at h
  rcases ha : arrAppend junkEntry (w.scopes s).defer DEFER_SIZE (env.alloc w.tick) with ⟨_ | p, a⟩
  · rw [ha] at key h
    cases h
    simpa [baseAddr] using key a none rfl
  · rw [ha] at key h
    dsimp only at h key
    split at h
    · cases h
    · rename_i a'' h1
      cases h
      simpa [baseAddr] using key a'' (some p) (by rw [h1]; rfl)

/-- State of a scope on which only plain deferrals were made. -/
structure Plain (s : Nat) (w : World) (es : List Entry) : Prop where
  arr : ArrInv DEFER_SIZE (w.scopes s).defer es
  ok : ∀ e ∈ es, e.func ≠ .garbage
  type : (w.scopes s).defer.type = RAII_DEF_ARR
  err : (w.scopes s).err = false
  del : (w.scopes s).deleted = false
  tail : (w.scopes s).tail = 0

theorem Plain.init (s : Nat) : Plain s { scopes := fun _ => freshScope, trace := [], tick := 0 } [] :=
  ⟨arrInit_inv _, by simp, rfl, rfl, rfl, rfl⟩

theorem Plain.defers {env : Env} (hreal : env.Real) (fuel : Nat) {s : Nat} {w : World} {es : List Entry}
    (h : Plain s w es) (ds : List (Nat × Nat)) :
    ∃ w' ds' t, Out.seq (exec env (fuel + 1)) (Verif.defers s ds) w = .ok w' ∧
      Plain s w' (es ++ ds'.map plain) ∧ w'.trace = w.trace ++ t ∧ (∀ e ∈ t, e.isReg s = true) ∧
      ((∀ f x, Event.refused s f x ∉ t) → ds' = ds) := by
  obtain ⟨w', a, ds', t, k1, k2, k3, k4, k5, k6, k7⟩ := defers_spec hreal fuel ds es w h.arr h.del
  refine ⟨w', ds', t, k1, ⟨by rw [k2]; exact k4, ?_, by rw [k2]; exact k3.trans h.type, by rw [k2]; exact h.err,
    by rw [k2]; exact h.del, by rw [k2]; exact h.tail⟩, k5, k6, k7⟩
  intro e he
  rcases List.mem_append.1 he with he | he
  · exact h.ok e he
  · obtain ⟨d, -, rfl⟩ := List.mem_map.1 he
    simp [plain]

/-- While the last, not yet full, group of 16 slots is being filled, nothing is refused and the block
does not move. -/
theorem Plain.group {env : Env} (hreal : env.Real) (fuel : Nat) {s : Nat} :
    ∀ (ds : List (Nat × Nat)) (es : List Entry) (w : World), Plain s w es →
      (ds ≠ [] → es.length % 16 ≠ 0) → es.length % 16 + ds.length ≤ 16 →
      ∃ w' t, Out.seq (exec env (fuel + 1)) (Verif.defers s ds) w = .ok w' ∧
        Plain s w' (es ++ ds.map plain) ∧ w'.trace = w.trace ++ t ∧ (∀ e ∈ t, e.isReg s = true) ∧
        (∀ f x, Event.refused s f x ∉ t) ∧
        baseAddr (w'.scopes s).defer = baseAddr (w.scopes s).defer := by
  intro ds
  induction ds with
  | nil => intro es w h _ _; exact ⟨w, [], rfl, by simpa using h, by simp, by simp, by simp, rfl⟩
  | cons d ds ih =>
    intro es w h hn hle
    obtain ⟨f, x⟩ := d
    have hx : exec env (fuel + 1) (.defer s f x) w = deferAny env s f x false w := by
      unfold exec
      simp [Op.scope, h.del]
    show ∃ w' t, (exec env (fuel + 1) (.defer s f x) w).andThen (Out.seq _ (Verif.defers s ds)) = _ ∧ _
    rw [hx]
    have hn' := hn (by simp)
    simp only [List.length_cons] at hle
    rcases deferAny_entries hreal h.arr f x false with ⟨h0, -⟩ | ⟨w1, p, a1, blk, h1, h2, h3, h4, -, -, h5⟩
    · exact absurd h0 hn'
    · rw [h1]
      have hp1 : Plain s w1 (es ++ [plain (f, x)]) := by
        refine ⟨by rw [h2]; exact h3, ?_, by rw [h2]; exact h4.trans h.type, by rw [h2]; exact h.err,
          by rw [h2]; exact h.del, by rw [h2]; exact h.tail⟩
        intro e he
        rcases List.mem_append.1 he with he | he
        · exact h.ok e he
        · rw [List.mem_singleton.1 he]; simp [plain]
      obtain ⟨w', t, k1, k2, k3, k4, k6, k5⟩ := ih _ w1 hp1
        (by
          intro hne
          have := List.length_pos_iff.2 hne
          simp only [List.length_append, List.length_singleton]
          omega)
        (by simp only [List.length_append, List.length_singleton]; omega)
      refine ⟨w', .registered s f x (env.ptrdiff (p - a1.elements)) :: t, k1, by simpa using k2,
        by rw [k3, h5]; simp, ?_, ?_, k5.trans (deferAny_addr hreal h.arr f x false h1 hn')⟩
      · intro e he
        rcases List.mem_cons.1 he with rfl | he
        · simp [Event.isReg]
        · exact k4 e he
      · intro f' x' he
        rcases List.mem_cons.1 he with he | he
        · cases he
        · exact k6 f' x' he

theorem ranList_reg {s : Nat} {t : List Event} (h : ∀ e ∈ t, e.isReg s = true) : ranList s t = [] := by
  unfold ranList
  rw [List.filterMap_eq_nil_iff]
  intro e he
  have := h e he
  cases e <;> simp_all [Event.isReg]

theorem firedList_reg {s : Nat} {t : List Event} (h : ∀ e ∈ t, e.isReg s = true) : firedList s t = [] := by
  unfold firedList
  rw [List.filterMap_eq_nil_iff]
  intro e he
  have := h e he
  cases e <;> simp_all [Event.isReg]

theorem ranList_append (s : Nat) (a b : List Event) : ranList s (a ++ b) = ranList s a ++ ranList s b := by
  simp [ranList]

theorem firedList_append (s : Nat) (a b : List Event) : firedList s (a ++ b) = firedList s a ++ firedList s b := by
  simp [firedList]

/-- What release calls for the entries `es`. -/
def live (es : List Entry) : List (Nat × Nat) :=
  es.filterMap fun e => match e.func with
    | .user f => some (f, e.data)
    | _ => none

theorem ranList_calls (s : Nat) (es : List Entry) : ranList s (es.filterMap (Entry.call s)) = live es := by
  unfold ranList live
  rw [List.filterMap_filterMap]
  congr 1
  funext e
  unfold Entry.call
  cases e.func <;> simp

theorem firedList_calls (s : Nat) (es : List Entry) : firedList s (es.filterMap (Entry.call s)) = [] := by
  unfold firedList
  rw [List.filterMap_filterMap, List.filterMap_eq_nil_iff]
  intro e _
  unfold Entry.call
  cases e.func <;> simp

theorem live_plain (ds : List (Nat × Nat)) : live (ds.map plain) = ds := by
  unfold live plain
  rw [List.filterMap_map]
  simp [Function.comp_def]

/-- Defer `post`, then release. -/
theorem Plain.finish {env : Env} (hreal : env.Real) (hleaf : Leaf env) (fuel : Nat) {s : Nat} {w : World} {es : List Entry}
    (h : Plain s w es) (post : List (Nat × Nat)) :
    ∃ w', Out.seq (exec env (fuel + 1)) (Verif.defers s post ++ [.release s]) w = .ok w' ∧
      firedList s w'.trace = firedList s w.trace ∧
      ((∀ f x, Event.refused s f x ∉ w'.trace) →
        ranList s w'.trace = ranList s w.trace ++ (post.reverse ++ live es.reverse)) := by
  obtain ⟨w1, ds', t, k1, k2, k3, k4, k5⟩ := h.defers hreal fuel post
  obtain ⟨w2, l1, l2⟩ := release_leaf hleaf fuel k2.arr k2.ok k2.type k2.err k2.del
  have hrel : ranList s [.relBegin s] = [] := rfl
  refine ⟨w2, ?_, ?_, ?_⟩
  · rw [seq_append, k1]
    simp only [Out.andThen, Out.seq, l1]
  · rw [l2, k3]
    simp only [List.cons_append]
    rw [show ∀ (l : List Event), Event.relBegin s :: l = [Event.relBegin s] ++ l from fun _ => rfl]
    simp only [firedList_append, firedList_reg k4, firedList_calls]
    simp [firedList]
  · intro hr
    have hds : ds' = post := k5 fun f x hm => hr f x (by rw [l2, k3]; simp [hm])
    subst hds
    rw [l2, k3]
    simp only [List.cons_append]
    rw [show ∀ (l : List Event), Event.relBegin s :: l = [Event.relBegin s] ++ l from fun _ => rfl]
    simp only [ranList_append, ranList_reg k4, ranList_calls]
    rw [List.reverse_append, ← List.map_reverse]
    have : ∀ a b, live (a ++ b) = live a ++ live b := by simp [live]
    rw [this, live_plain]
    simp [ranList]

theorem plain_canceled_live (pre mid : List (Nat × Nat)) (e : Entry) (he : e.func = .canceled) (f x : Nat) :
    live (((pre ++ (f, x) :: mid).map plain).set pre.length e).reverse = mid.reverse ++ pre.reverse := by
  have : ((pre ++ (f, x) :: mid).map plain).set pre.length e = pre.map plain ++ e :: mid.map plain := by
    rw [List.map_append, List.map_cons, List.set_append_right _ _ (by simp)]
    simp
  rw [this]
  simp only [List.reverse_append, List.reverse_cons, ← List.map_reverse]
  have ha : ∀ a b, live (a ++ b) = live a ++ live b := by simp [live]
  rw [ha, ha, live_plain, live_plain]
  simp [live, he]

/-- Cancelling through an index that leads to the slot of the deferral. -/
theorem cancel_works {env : Env} (hreal : env.Real) (hleaf : Leaf env) (fuel : Nat) {s : Nat} {w : World}
    {pre mid : List (Nat × Nat)} {f x : Nat} {b : Block Entry} {i : W}
    (h : Plain s w ((pre ++ (f, x) :: mid).map plain)) (hb : (w.scopes s).defer.base = some b)
    (hi : (getElement (w.scopes s) i).toNat = b.addr + pre.length * 32)
    (hhigh : pre.length + 1 + mid.length ≤ b.addr) (post : List (Nat × Nat)) :
    ∃ w', Out.seq (exec env (fuel + 1)) (.cancel s i :: (defers s post ++ [.release s])) w = .ok w' ∧
      firedList s w'.trace = firedList s w.trace ∧
      ((∀ f x, Event.refused s f x ∉ w'.trace) →
        ranList s w'.trace = ranList s w.trace ++ (pre ++ mid ++ post).reverse) := by
  obtain ⟨w1, a, e, k1, k2, k3, k4, k5, k6⟩ := cancel_hit h.arr hb (k := pre.length) (by simp) hi
    (by simp; omega) h.tail
  have hx : exec env (fuel + 1) (.cancel s i) w = .ok w1 := by
    unfold exec
    simp only [Op.scope, h.del, Bool.false_eq_true, if_false]
    exact k1
  have hp : Plain s w1 (((pre ++ (f, x) :: mid).map plain).set pre.length
      { e with func := .canceled, check := false }) := by
    refine ⟨by rw [k3]; exact k4, ?_, by rw [k3]; exact k5.trans h.type, by rw [k3]; exact h.err,
      by rw [k3]; exact h.del, by rw [k3]; exact h.tail⟩
    intro e' he
    rcases List.mem_or_eq_of_mem_set he with he | rfl
    · exact h.ok e' he
    · simp
  obtain ⟨w', l1, l2, l3⟩ := hp.finish hreal hleaf fuel post
  refine ⟨w', ?_, by rw [l2, k6], fun hr => ?_⟩
  · show (exec env (fuel + 1) (.cancel s i) w).andThen _ = _
    rw [hx]
    exact l1
  · rw [l3 hr, k6, plain_canceled_live pre mid _ rfl f x]
    simp

/-- Firing through an index that leads to the slot of the deferral. -/
theorem fire_works {env : Env} (hreal : env.Real) (hleaf : Leaf env) (fuel : Nat) {s : Nat} {w : World}
    {pre mid : List (Nat × Nat)} {f x : Nat} {b : Block Entry} {i : W}
    (h : Plain s w ((pre ++ (f, x) :: mid).map plain)) (hb : (w.scopes s).defer.base = some b)
    (hi : (getElement (w.scopes s) i).toNat = b.addr + pre.length * 32)
    (hhigh : pre.length + 1 + mid.length ≤ b.addr) (post : List (Nat × Nat)) :
    ∃ w', Out.seq (exec env (fuel + 1)) (.fire s i :: (defers s post ++ [.release s])) w = .ok w' ∧
      firedList s w'.trace = firedList s w.trace ++ [(f, x)] ∧
      ((∀ f x, Event.refused s f x ∉ w'.trace) →
        ranList s w'.trace = ranList s w.trace ++ (pre ++ mid ++ post).reverse) := by
  have hes : ((pre ++ (f, x) :: mid).map plain)[pre.length]? = some (plain (f, x)) := by simp
  have hload : arrLoad (w.scopes s).defer DEFER_SIZE (getElement (w.scopes s) i).toNat = some (plain (f, x)) := by
    obtain ⟨b', hb', hsz, hcap, h0, hA64, t, ht⟩ := h.arr.blk (by simp)
    rw [hb] at hb'
    cases hb'
    have hkc : pre.length < b.cells.length := by rw [← ht]; simp
    have hslot : b.slot DEFER_SIZE (getElement (w.scopes s) i).toNat = some pre.length := by
      rw [hi]; exact slot_mul b DEFER_SIZE _ deferSize_pos hkc
    have hcell : b.cells[pre.length]? = some (plain (f, x)) := by
      rw [← ht, List.getElem?_append_left (by simp), hes]
    simp only [arrLoad, hb, hslot, Option.bind_some, hcell]
  let w0 := w.log (.fired s f x)
  have h0 : Plain s w0 ((pre ++ (f, x) :: mid).map plain) := ⟨h.arr, h.ok, h.type, h.err, h.del, h.tail⟩
  obtain ⟨w1, a, e, k1, k2, k3, k4, k5, k6⟩ := cancel_hit h0.arr hb (k := pre.length) (by simp) hi
    (by simp; omega) h.tail
  have hx : exec env (fuel + 1) (.fire s i) w = .ok w1 := by
    unfold exec
    simp only [Op.scope, h.del, Bool.false_eq_true, if_false]
    rw [hload]
    simp only [invoke, plain, hleaf f x, Out.seq, Out.andThen]
    exact k1
  have hp : Plain s w1 (((pre ++ (f, x) :: mid).map plain).set pre.length
      { e with func := .canceled, check := false }) := by
    refine ⟨by rw [k3]; exact k4, ?_, by rw [k3]; exact k5.trans h.type, by rw [k3]; exact h.err,
      by rw [k3]; exact h.del, by rw [k3]; exact h.tail⟩
    intro e' he
    rcases List.mem_or_eq_of_mem_set he with he | rfl
    · exact h.ok e' he
    · simp
  obtain ⟨w', l1, l2, l3⟩ := hp.finish hreal hleaf fuel post
  refine ⟨w', ?_, ?_, fun hr => ?_⟩
  · show (exec env (fuel + 1) (.fire s i) w).andThen _ = _
    rw [hx]
    exact l1
  · rw [l2, k6]
    show firedList s (w.trace ++ [.fired s f x]) = _
    rw [firedList_append]
    simp [firedList]
  · rw [l3 hr, k6, plain_canceled_live pre mid _ rfl f x]
    show ranList s (w.trace ++ [.fired s f x]) ++ _ = _
    rw [ranList_append]
    simp [ranList]

/-- What registering `(f, x)` after `pre` returned, and the state then. -/
theorem register_index {env : Env} (hreal : env.Real) (fuel : Nat) {s : Nat} {pre : List (Nat × Nat)} {f x : Nat}
    {w1 : World} {i : W} {b : Block Entry}
    (h1 : program env (fuel + 1) (defers s (pre ++ [(f, x)])) = .ok w1)
    (hlast : w1.trace.getLast? = some (.registered s f x i)) (hnr : ∀ f x, Event.refused s f x ∉ w1.trace)
    (hb : (w1.scopes s).defer.base = some b) :
    Plain s w1 ((pre ++ [(f, x)]).map plain) ∧ firedList s w1.trace = [] ∧ ranList s w1.trace = [] ∧
      i = env.ptrdiff (BitVec.ofNat 64 (b.addr + pre.length * 32) - BitVec.ofNat 64 (pre.length + 1)) := by
  unfold program at h1
  obtain ⟨w', ds', t, k1, k2, k3, k4, k5⟩ := (Plain.init s).defers hreal fuel (pre ++ [(f, x)])
  rw [h1] at k1
  cases k1
  have hds := k5 fun f x hm => hnr f x (by rw [k3]; simp [hm])
  subst hds
  refine ⟨k2, ?_, ?_, ?_⟩
  · rw [k3]; simpa using firedList_reg k4
  · rw [k3]; simpa using ranList_reg k4
  · have hsplit : defers s (pre ++ [(f, x)]) = defers s pre ++ [.defer s f x] := by simp [defers]
    rw [hsplit, seq_append] at h1
    obtain ⟨w0, ds0, t0, l1, l2, l3, l4, l5⟩ := (Plain.init s).defers hreal fuel pre
    rw [l1] at h1
    simp only [Out.andThen, Out.seq] at h1
    have hx : exec env (fuel + 1) (.defer s f x) w0 = deferAny env s f x false w0 := by
      unfold exec
      simp [Op.scope, l2.del]
    rw [hx] at h1
    rcases deferAny_entries hreal l2.arr f x false with ⟨-, w1', m1, m2, m3⟩ | ⟨w1', p, a1, blk, m1, m2, m3, m4, m5, m6, m7⟩
    · rw [m1] at h1
      cases h1
      exact absurd (by rw [m3]; simp) (hnr f x)
    · rw [m1] at h1
      cases h1
      have hds0 : ds0 = pre := l5 fun f x hm => hnr f x (by rw [m7, l3]; simp [hm])
      subst hds0
      rw [m7] at hlast
      simp only [List.getLast?_append, List.getLast?_singleton, Option.some_or, Option.some.injEq,
        Event.registered.injEq] at hlast
      have hbb : b = blk := by
        rw [m2] at hb
        exact Option.some.inj (hb.symm.trans m5)
      subst hbb
      rw [← hlast.2.2.2]
      congr 2
      · rw [← BitVec.toNat_inj, m6, BitVec.toNat_ofNat, Nat.mod_eq_of_lt]
        · simp
        · have := p.isLt
          rw [m6] at this
          simpa using this
      · rw [← BitVec.toNat_inj, m3.elems, BitVec.toNat_ofNat, Nat.mod_eq_of_lt]
        · simp
        · have := a1.elements.isLt
          rw [m3.elems] at this
          simpa using this

theorem shiftDiff_mul (d : W) : ARRAY_SIZE * shiftDiff d = d - d % 8 := by
  unfold shiftDiff
  have h : ∀ q : W, ARRAY_SIZE * (q * 0xAAAAAAAAAAAAAAAB) = q * 8 := by
    intro q
    rw [BitVec.mul_comm ARRAY_SIZE, BitVec.mul_assoc]
    rfl
  rw [h]
  rw [← BitVec.toInt_inj]
  have h8 : (8 : W).toInt = 8 := rfl
  have hm : (d % 8).toInt = d.toNat % 8 := by
    rw [BitVec.toInt_eq_toNat_of_lt]
    · rw [BitVec.toNat_umod]; rfl
    · rw [BitVec.toNat_umod]; have : (8 : W).toNat = 8 := rfl
      rw [this]; omega
  rw [BitVec.toInt_mul, BitVec.toInt_sub, BitVec.toInt_sshiftRight, h8, hm]
  congr 1
  rw [Int.shiftRight_eq_div_pow]
  have hd : d.toInt % 8 = d.toNat % 8 := by
    rw [BitVec.toInt_eq_toNat_cond]
    split <;> omega
  omega

/-- After registering `(f, x)` and then `mid` without leaving the current group of 16 slots. -/
theorem indexed {env : Env} (hreal : env.Real) (fuel : Nat) {s : Nat} {pre : List (Nat × Nat)} {f x : Nat}
    {w1 : World} {b : Block Entry} (h1 : program env (fuel + 1) (defers s (pre ++ [(f, x)])) = .ok w1)
    (hp : Plain s w1 ((pre ++ [(f, x)]).map plain)) (hb : (w1.scopes s).defer.base = some b)
    (mid : List (Nat × Nat)) (hle : pre.length + 1 + mid.length ≤ (pre.length + 1 + 15) / 16 * 16) :
    ∃ w2 b2, (∀ ops w, Out.seq (exec env (fuel + 1)) ops w2 = .ok w →
        program env (fuel + 1) (defers s (pre ++ [(f, x)]) ++ (defers s mid ++ ops)) = .ok w) ∧
      Plain s w2 ((pre ++ (f, x) :: mid).map plain) ∧ (w2.scopes s).defer.base = some b2 ∧
      firedList s w2.trace = firedList s w1.trace ∧ ranList s w2.trace = ranList s w1.trace ∧
      b2.addr = b.addr ∧ Out.seq (exec env (fuel + 1)) (defers s mid) w1 = .ok w2 ∧
      ((∀ f x, Event.refused s f x ∉ w1.trace) → ∀ f x, Event.refused s f x ∉ w2.trace) := by
  have hmod : mid ≠ [] → ((pre ++ [(f, x)]).map plain).length % 16 ≠ 0 := by
    intro hne
    have := List.length_pos_iff.2 hne
    simp only [List.length_map, List.length_append, List.length_singleton]
    omega
  have hle' : ((pre ++ [(f, x)]).map plain).length % 16 + mid.length ≤ 16 := by
    simp only [List.length_map, List.length_append, List.length_singleton]
    omega
  obtain ⟨w2, t, k1, k2, k3, k4, k6, k5⟩ := Plain.group hreal fuel mid _ w1 hp hmod hle'
  have hp2 : Plain s w2 ((pre ++ (f, x) :: mid).map plain) := by simpa using k2
  obtain ⟨b2, hb2, -⟩ := hp2.arr.blk (by simp)
  refine ⟨w2, b2, ?_, hp2, hb2, ?_, ?_, ?_, k1, ?_⟩
  · intro ops w hops
    unfold program at h1 ⊢
    rw [seq_append, h1]
    simp only [Out.andThen]
    rw [seq_append, k1]
    exact hops
  · rw [k3, firedList_append, firedList_reg k4]; simp
  · rw [k3, ranList_append, ranList_reg k4]; simp
  · simpa [baseAddr, hb, hb2] using k5
  · intro h f' x' hm
    rw [k3] at hm
    rcases List.mem_append.1 hm with hm | hm
    · exact h f' x' hm
    · exact k6 f' x' hm

/-- The index a shifting compiler computes leads back to the slot at the right moment. -/
theorem hit_shift {env : Env} (hpd : env.ptrdiff = shiftDiff) {b : Block Entry} (h8 : b.addr % 8 = 0)
    {n : Nat} {i : W} (hi : i = env.ptrdiff (BitVec.ofNat 64 (b.addr + n * 32) - BitVec.ofNat 64 (n + 1)))
    {sc : Scope} {m : Nat} (hm : sc.defer.elements.toNat = m) (hcount : m = (n + 1 + 7) / 8 * 8)
    (hlt : b.addr + n * 32 < 2 ^ 64) :
    (getElement sc i).toNat = b.addr + n * 32 := by
  unfold getElement
  have hm64 : m < 2 ^ 64 := by rw [← hm]; exact sc.defer.elements.isLt
  rw [hi, hpd, shiftDiff_mul]
  have hd : (BitVec.ofNat 64 (b.addr + n * 32) - BitVec.ofNat 64 (n + 1)).toNat % 8 = m - (n + 1) := by
    rw [BitVec.toNat_sub, BitVec.toNat_ofNat, BitVec.toNat_ofNat, Nat.mod_eq_of_lt hlt,
      Nat.mod_eq_of_lt (a := n + 1) (by omega)]
    omega
  have hmd : (BitVec.ofNat 64 (b.addr + n * 32) - BitVec.ofNat 64 (n + 1)) % 8 = BitVec.ofNat 64 m - BitVec.ofNat 64 (n + 1) := by
    rw [← BitVec.toNat_inj, BitVec.toNat_umod]
    have : (8 : W).toNat = 8 := rfl
    rw [this, hd, BitVec.toNat_sub_of_le, BitVec.toNat_ofNat, BitVec.toNat_ofNat, Nat.mod_eq_of_lt hm64,
      Nat.mod_eq_of_lt (a := n + 1) (by omega)]
    rw [BitVec.le_def, BitVec.toNat_ofNat, BitVec.toNat_ofNat, Nat.mod_eq_of_lt hm64,
      Nat.mod_eq_of_lt (a := n + 1) (by omega)]
    omega
  have he : sc.defer.elements = BitVec.ofNat 64 m := by
    rw [← BitVec.toNat_inj, hm, BitVec.toNat_ofNat, Nat.mod_eq_of_lt hm64]
  rw [hmd, he]
  have : BitVec.ofNat 64 m + (BitVec.ofNat 64 (b.addr + n * 32) - BitVec.ofNat 64 (n + 1)
      - (BitVec.ofNat 64 m - BitVec.ofNat 64 (n + 1))) = BitVec.ofNat 64 (b.addr + n * 32) := by
    generalize BitVec.ofNat 64 m = p
    generalize BitVec.ofNat 64 (b.addr + n * 32) = q
    generalize BitVec.ofNat 64 (n + 1) = r
    grind
  rw [this, BitVec.toNat_ofNat, Nat.mod_eq_of_lt hlt]

/-- The index a standard-conforming compiler computes leads back to the slot right away, if the
standard defines it. -/
theorem hit_standard {env : Env} (hpd : StandardDiff env.ptrdiff) {b : Block Entry}
    {n : Nat} {i : W} (hi : i = env.ptrdiff (BitVec.ofNat 64 (b.addr + n * 32) - BitVec.ofNat 64 (n + 1)))
    {sc : Scope} (hm : sc.defer.elements.toNat = n + 1)
    (h24 : (b.addr + n * 32) % 24 = (n + 1) % 24) (hle : n + 1 ≤ b.addr)
    (hlt : b.addr + n * 32 < 2 ^ 63) :
    (getElement sc i).toNat = b.addr + n * 32 := by
  unfold getElement
  have hm64 : n + 1 < 2 ^ 64 := by rw [← hm]; exact sc.defer.elements.isLt
  have hd : BitVec.ofNat 64 (b.addr + n * 32) - BitVec.ofNat 64 (n + 1)
      = BitVec.ofNat 64 (24 * ((b.addr + n * 32 - (n + 1)) / 24)) := by
    have : 24 * ((b.addr + n * 32 - (n + 1)) / 24) = b.addr + n * 32 - (n + 1) := by omega
    rw [this, ← BitVec.toNat_inj, BitVec.toNat_sub_of_le, BitVec.toNat_ofNat, BitVec.toNat_ofNat, BitVec.toNat_ofNat,
      Nat.mod_eq_of_lt (by omega), Nat.mod_eq_of_lt (by omega), Nat.mod_eq_of_lt (by omega)]
    rw [BitVec.le_def, BitVec.toNat_ofNat, BitVec.toNat_ofNat, Nat.mod_eq_of_lt (by omega), Nat.mod_eq_of_lt (by omega)]
    omega
  rw [hi, hd, hpd _ (by omega), BitVec.toNat_add, BitVec.toNat_mul, hm, BitVec.toNat_ofNat]
  have : ARRAY_SIZE.toNat = 24 := rfl
  rw [this]
  omega

theorem block_lt {s : Nat} {w : World} {pre : List (Nat × Nat)} {f x : Nat} {b : Block Entry}
    (hp : Plain s w ((pre ++ [(f, x)]).map plain)) (hb : (w.scopes s).defer.base = some b) :
    b.addr + pre.length * 32 < 2 ^ 64 := by
  obtain ⟨b', hb', hsz, hcap, h0, hA64, -⟩ := hp.arr.blk (by simp)
  rw [hb] at hb'
  cases hb'
  have h32 : DEFER_SIZE.toNat = 32 := rfl
  simp only [List.length_map, List.length_append, List.length_singleton] at hcap
  rw [h32] at hsz
  omega

end Verif
