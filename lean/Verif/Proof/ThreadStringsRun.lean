import Verif.Proof.ThreadStrings
namespace Verif.Sm
open Verif.Props

/-! ## Registering a block -/

/-- What registering `f` for the block `p` on scope `s` did: accepted or refused. -/
structure Reg (s f p : Nat) (es : List Entry) (w w' : World) (es' : List Entry) : Prop where
  arr : ArrInv DEFER_SIZE (w'.scopes s).defer es'
  how : (es' = es ∧ w'.trace = w.trace ++ [.allocated s p f, .refused s f p]) ∨
    (es' = es ++ [⟨.user f, p, false⟩] ∧ ∃ i, w'.trace = w.trace ++ [.allocated s p f, .registered s f p i])
  type : (w'.scopes s).defer.type = (w.scopes s).defer.type
  err : (w'.scopes s).err = (w.scopes s).err
  del : (w'.scopes s).deleted = (w.scopes s).deleted

theorem deferAny_reg {env : Env} (hreal : env.Real) {s f p : Nat} {w : World} {es : List Entry}
    (hA : ArrInv DEFER_SIZE (w.scopes s).defer es) {w1 : World} (hs : (w1.scopes s).defer = (w.scopes s).defer)
    (herr : (w1.scopes s).err = (w.scopes s).err) (hdel : (w1.scopes s).deleted = (w.scopes s).deleted)
    (ht : w1.trace = w.trace ++ [.allocated s p f]) :
    ∃ w' es', deferAny env s f p false w1 = .ok w' ∧ Reg s f p es w w' es' := by
  rcases deferAny_entries hreal (w := w1) (es := es) (by rw [hs]; exact hA) f p false with
    ⟨-, w', h1, h2, h3⟩ | ⟨w', q, a, blk, h1, h2, h3, h4, -, -, h5⟩
  · refine ⟨w', es, h1, ?_, .inl ⟨rfl, by rw [h3, ht]; simp⟩, ?_, ?_, ?_⟩
    · rw [h2, hs]; exact hA
    · rw [h2, hs]
    · rw [h2, herr]
    · rw [h2, hdel]
  · refine ⟨w', es ++ [⟨.user f, p, false⟩], h1, ?_, .inr ⟨rfl, _, by rw [h5, ht, List.append_assoc]; rfl⟩, ?_, ?_, ?_⟩
    · rw [h2]; exact h3
    · rw [h2]; exact h4.trans (by rw [hs])
    · rw [h2]; exact herr
    · rw [h2]; exact hdel

theorem mallocFull_reg {env : Env} (hreal : env.Real) {s size f p : Nat} {w : World} {es : List Entry}
    (hA : ArrInv DEFER_SIZE (w.scopes s).defer es) (hp : env.alloc w.tick (BitVec.ofNat 64 size) = some p) :
    ((∃ w', mallocFull env s size f w = .panic w') ∧ env.alloc (w.tick + 1) 40 = none) ∨
    ∃ w' es', mallocFull env s size f w = .ok w' ∧ Reg s f p es w w' es' := by
  have key : ∀ w1 : World, w1.scopes = w.scopes → w1.trace = w.trace →
      ∃ w' es', ((deferAny env s f p false ((w1.set s { w1.scopes s with protector := true, isProtected := true }).log
        (.allocated s p f))).andThen fun w => .ok (w.set s { w.scopes s with mid := lastIndex w })) = .ok w' ∧
        Reg s f p es w w' es' := by
    intro w1 hs ht
    obtain ⟨w', es', h1, h2⟩ := deferAny_reg hreal (f := f) (p := p) hA
      (w1 := (w1.set s { w1.scopes s with protector := true, isProtected := true }).log (.allocated s p f))
      (by simp [hs]) (by simp [hs]) (by simp [hs]) (by simp [World.log, ht])
    rw [h1]
    refine ⟨_, es', rfl, ?_, ?_, ?_, ?_, ?_⟩
    · simpa using h2.arr
    · simpa using h2.how
    · simpa using h2.type
    · simpa using h2.err
    · simpa using h2.del
  unfold mallocFull
  rw [hp]
  dsimp only
  split
  · exact .inr (key _ rfl rfl)
  · split
    · rename_i h
      exact .inl ⟨⟨_, rfl⟩, h⟩
    · exact .inr (key _ rfl rfl)

/-! ## The allocator -/

theorem envAt_real {sys : Sys} (h : sys.env.Real) (st : St) : (envAt sys st).Real := by
  intro n size addr ha
  unfold envAt at ha
  dsimp only at ha
  split at ha
  · cases ha
  · rename_i p hp
    split at ha
    · cases ha; exact h n size _ hp
    · cases ha

theorem grant_alloc {sys : Sys} {st : St} {size p : Nat} (hg : grant sys st size = some p) :
    size < 2 ^ 64 ∧ (envAt sys st).alloc st.w.tick (BitVec.ofNat 64 size) = some p := by
  unfold grant at hg
  split at hg
  · exact ⟨by assumption, hg⟩
  · cases hg

theorem grant_some {sys : Sys} (h : sys.env.Real) {st : St} {size p : Nat}
    (hg : grant sys st size = some p) : 0 < p ∧ p + size ≤ 2 ^ 64 ∧ clear sys.user st.live p size = true := by
  obtain ⟨hs, hg⟩ := grant_alloc hg
  have h1 := envAt_real h st _ _ _ hg
  rw [BitVec.toNat_ofNat, Nat.mod_eq_of_lt hs] at h1
  refine ⟨h1.1, h1.2, ?_⟩
  unfold envAt at hg
  dsimp only at hg
  split at hg
  · cases hg
  · split at hg
    · rename_i hc
      cases hg
      rw [BitVec.toNat_ofNat, Nat.mod_eq_of_lt hs] at hc
      simpa using hc
    · cases hg

theorem clear_user {user : Nat → Bool} {bs : List Blk} {p n : Nat} (h : clear user bs p n = true) :
    ∀ a, p ≤ a → a < p + n → user a = false := by
  intro a h1 h2
  unfold clear at h
  simp only [Bool.and_eq_true, List.all_eq_true, List.mem_range] at h
  have := h.1 (a - p) (by omega)
  rw [show p + (a - p) = a by omega] at this
  simpa using this

theorem clear_live {user : Nat → Bool} {bs : List Blk} {p n : Nat} (h : clear user bs p n = true) :
    ∀ b ∈ bs, ∀ a, p ≤ a → a < p + n → ¬ b.has a := by
  intro b hb a h1 h2 h3
  unfold clear at h
  simp only [Bool.and_eq_true, List.all_eq_true, Bool.or_eq_true, decide_eq_true_eq] at h
  have := h.2 b hb
  unfold Blk.has at h3
  omega

theorem clear_mine {sys : Sys} {st : St} {p n : Nat} (h : clear sys.user st.live p n = true) {a : Nat}
    (hm : Mine sys st a) : ¬ (p ≤ a ∧ a < p + n) := by
  rintro ⟨h1, h2⟩
  rcases hm with hm | ⟨b, hb, hm⟩
  · rw [clear_user h a h1 h2] at hm; cases hm
  · exact clear_live h b hb a h1 h2 hm

theorem Apart.cons {user : Nat → Bool} {bs : List Blk} {p n : Nat} (h : Apart user bs)
    (hc : clear user bs p n = true) : Apart user (⟨p, n⟩ :: bs) := by
  refine ⟨List.pairwise_cons.2 ⟨?_, h.1⟩, ?_⟩
  · rintro b hb a ⟨h1, h2⟩
    exact clear_live hc b hb a h1.1 h1.2 h2
  · intro b hb a ha
    rcases List.mem_cons.1 hb with rfl | hb
    · exact clear_user hc a ha.1 ha.2
    · exact h.2 b hb a ha

/-! ## The invariant -/

/-- What holds of the thread at every point; `ph`: the scope has not been released. -/
structure Inv (sys : Sys) (st : St) (ph : Prop) : Prop where
  apart : Apart sys.user st.live
  arr : ∃ es, ArrInv DEFER_SIZE (st.w.scopes 0).defer es ∧ (∀ e ∈ es, e.func = .user FREE) ∧
    (ph → (st.w.scopes 0).defer.type = RAII_DEF_ARR ∧
      (NoRefusal 0 st.w → es.reverse.map Entry.data = st.live.map Blk.addr))
  err : (st.w.scopes 0).err = false
  del : (st.w.scopes 0).deleted = false

theorem start_inv (sys : Sys) (m : Mem) : Inv sys (start m) True := by
  refine ⟨⟨List.Pairwise.nil, fun b hb => by cases hb⟩, ⟨[], arrInit_inv _, by simp, fun _ => ⟨rfl, fun _ => rfl⟩⟩, rfl, rfl⟩

theorem Inv.of_eq {sys : Sys} {st st' : St} {ph : Prop} (h : Inv sys st ph) (hw : st'.w = st.w)
    (hl : st'.live = st.live) : Inv sys st' ph := by
  refine ⟨by rw [hl]; exact h.apart, ?_, by rw [hw]; exact h.err, by rw [hw]; exact h.del⟩
  rw [hw, hl]; exact h.arr

/-- What `allocate` does when it succeeds. -/
structure Got (sys : Sys) (st : St) (size p : Nat) (st1 : St) : Prop where
  pos : 0 < p
  fits : p + size ≤ 2 ^ 64
  clr : clear sys.user st.live p size = true
  mem : st1.mem = poke st.mem p (List.replicate size 0)
  live : st1.live = ⟨p, size⟩ :: st.live
  ready : st1.ready = st.ready
  inv : ∀ ph, Inv sys st ph → Inv sys st1 ph

theorem register_spec {sys : Sys} (hreal : sys.env.Real) {st : St} (c : Call) {size p : Nat} {es : List Entry}
    (hA : ArrInv DEFER_SIZE (st.w.scopes 0).defer es) (hg : grant sys st size = some p) :
    ((∃ w, register sys st c size p = .panic w) ∧ Scarce sys st) ∨
    ∃ w' es', register sys st c size p = .ok w' ∧ Reg 0 FREE p es st.w w' es' := by
  have hm := mallocFull_reg (f := FREE) (envAt_real hreal st) hA (grant_alloc hg).2
  have hm' : ((∃ w, mallocFull (envAt sys st) 0 size FREE st.w = .panic w) ∧ Scarce sys st) ∨
      ∃ w' es', mallocFull (envAt sys st) 0 size FREE st.w = .ok w' ∧ Reg 0 FREE p es st.w w' es' := by
    rcases hm with ⟨h1, h2⟩ | h
    · refine .inl ⟨h1, .inr ?_⟩
      unfold envAt at h2
      dsimp only at h2
      split at h2
      · assumption
      · rw [if_pos (by left; omega)] at h2; cases h2
    · exact .inr h
  cases c with
  | concat args =>
    exact .inr (deferAny_reg (envAt_real hreal st) (f := FREE) (p := p) hA
      (w1 := st.w.ticked.log (.allocated 0 p FREE)) rfl rfl rfl rfl)
  | memdup src len => exact hm'
  | replace h n r => exact hm'
  | encode src => exact hm'
  | decode src => exact hm'
  | split s d => exact hm'
  | write a bs => exact hm'
  | release => exact hm'

theorem allocate_spec {sys : Sys} (hreal : sys.env.Real) {st : St} {ph0 : Prop} (hi : Inv sys st ph0)
    (hr : st.ready = true) (c : Call) (size : Nat) (k : Nat → St → Res) :
    ((∃ st', allocate sys st c size k = .panic st') ∧ Scarce sys st) ∨
    ∃ p st1, allocate sys st c size k = k p st1 ∧ Got sys st size p st1 := by
  unfold allocate
  cases hg : grant sys st size with
  | none => exact .inl ⟨⟨_, rfl⟩, .inl ⟨size, hg⟩⟩
  | some p =>
    obtain ⟨g1, g2, g3⟩ := grant_some hreal hg
    obtain ⟨es0, hA0, -, -⟩ := hi.arr
    dsimp only
    rw [hr, if_neg (by simp)]
    rcases register_spec hreal c hA0 hg with ⟨⟨w, h1⟩, h2⟩ | ⟨w', es', h1, h2⟩
    · rw [h1]; exact .inl ⟨⟨_, rfl⟩, h2⟩
    · rw [h1]
      refine .inr ⟨p, _, rfl, g1, g2, g3, rfl, rfl, hr.symm, fun ph h => ?_⟩
      obtain ⟨es, hA, he, hph⟩ := h.arr
      rcases register_spec hreal c hA hg with ⟨⟨w2, h3⟩, -⟩ | ⟨w2, es2, h3, h4⟩
      · rw [h1] at h3; cases h3
      · rw [h1] at h3
        cases h3
        refine ⟨h.apart.cons g3, ⟨es2, h4.arr, ?_, ?_⟩, h4.err.trans h.err, h4.del.trans h.del⟩
        · rcases h4.how with ⟨rfl, -⟩ | ⟨rfl, -⟩
          · exact he
          · intro e hm
            rcases List.mem_append.1 hm with hm | hm
            · exact he e hm
            · simp only [List.mem_singleton] at hm; subst hm; rfl
        · intro hp
          refine ⟨h4.type.trans (hph hp).1, fun hno => ?_⟩
          rcases h4.how with ⟨rfl, ht⟩ | ⟨rfl, i, ht⟩
          · exact absurd (by rw [ht]; simp) (hno FREE p)
          · have : NoRefusal 0 st.w := fun f x hm => hno f x (by rw [ht]; simp [hm])
            simp [(hph hp).2 this]

/-! ## Release -/

theorem release_full {env : Env} (hleaf : Leaf env) (fuel : Nat) {s : Nat} {w : World} {es : List Entry}
    (hA : ArrInv DEFER_SIZE (w.scopes s).defer es) (hng : ∀ e ∈ es, e.func ≠ .garbage)
    (herr : (w.scopes s).err = false) (hdel : (w.scopes s).deleted = false) :
    ∃ w', exec env (fuel + 1) (.release s) w = .ok w' ∧ (w'.scopes s).err = false ∧
      (w'.scopes s).deleted = false ∧
      (((w.scopes s).defer.type = RAII_DEF_ARR ∧ ArrInv DEFER_SIZE (w'.scopes s).defer ([] : List Entry) ∧
        w'.trace = w.trace ++ (.relBegin s :: es.reverse.filterMap (Entry.call s) ++ [.relEnd s])) ∨
       ((w.scopes s).defer.type ≠ RAII_DEF_ARR ∧ ArrInv DEFER_SIZE (w'.scopes s).defer es ∧
        w'.trace = w.trace ++ [.relBegin s, .relEnd s])) := by
  have hcall : (fun f x => Out.seq (exec env fuel) (env.body f x)) = callLeaf := by
    funext f x w; rw [hleaf f x]; rfl
  unfold exec
  simp only [Op.scope, hdel, Bool.false_eq_true, if_false]
  rw [hcall]
  unfold deferredFree
  by_cases hty : (w.scopes s).defer.type = RAII_DEF_ARR
  · rw [if_pos (by simpa using hty)]
    unfold deferredRun
    dsimp only
    generalize hw0 : (w.log (.relBegin s)).set s { (w.log (.relBegin s)).scopes s with
      isRecovered := !((w.log (.relBegin s)).scopes s).err } = w0
    have hd0 : (w0.scopes s).defer = (w.scopes s).defer := by rw [← hw0]; simp
    have he0 : (w0.scopes s).err = false := by rw [← hw0]; simp [herr]
    have hl0 : (w0.scopes s).deleted = false := by rw [← hw0]; simp [hdel]
    have hn : ((w.log (.relBegin s)).scopes s).defer.elements.toNat = es.length := hA.elems
    rw [hn]
    obtain ⟨w1, k1, k2, k3⟩ := runLoop_leaf (s := s) (baseAddr ((w.log (.relBegin s)).scopes s).defer)
      es.length es w0 rfl hng (by
        intro hne
        obtain ⟨b, hb, -, -, -, -, hpre⟩ := hA.blk hne
        refine ⟨b, by rw [hd0]; exact hb, ?_, hpre⟩
        simp [baseAddr, hb]) (by rw [hd0]; simp)
    rw [k1]
    simp only [Out.andThen]
    have he1 : (w1.scopes s).err = false := by rw [k3.1]; exact he0
    have hl1 : (w1.scopes s).deleted = false := by
      obtain ⟨a1, a2, a3, a4, a5, a6, a7⟩ := k3
      first | exact a2.trans hl0 | exact a3.trans hl0 | exact a4.trans hl0 | exact a5.trans hl0 | exact a6.trans hl0 | exact a7.trans hl0
    rw [if_neg (by simp [he1])]
    refine ⟨_, rfl, by simpa using he1, by simpa using hl1, .inl ⟨hty, ⟨by simp [arrReset], fun h => absurd rfl h⟩, ?_⟩⟩
    simp only [World.log, World.set_trace]
    rw [k2, ← hw0]
    simp [World.log]
  · rw [if_neg (by simpa using hty)]
    refine ⟨_, rfl, by simpa using herr, by simpa using hdel, .inr ⟨hty, by simpa using hA, ?_⟩⟩
    simp [World.log]

/-! ## Steps -/

theorem ofRet_fill {r : Ret} {size : Nat} {fill : Nat → List UInt8} {count : Option (BitVec 32)}
    (h : Content.ofRet r = .block size fill count) (p : Nat) : (fill p).length = size := by
  cases r with
  | ok b => rw [ofRet_block] at h; cases h; rfl
  | null => cases h
  | fault => cases h
  | running => cases h

theorem content_fill {sys : Sys} {fuel : Nat} {m : Mem} {c : Call} {size : Nat} {fill : Nat → List UInt8}
    {count : Option (BitVec 32)} (h : content sys fuel m c = .block size fill count) (p : Nat) :
    (fill p).length = size := by
  cases c with
  | memdup src len => exact ofRet_fill h p
  | concat args => exact ofRet_fill h p
  | replace a b c => exact ofRet_fill h p
  | encode src => exact ofRet_fill h p
  | decode src =>
    rw [content] at h
    split at h
    · split at h
      · cases h
      · dsimp only at h; split at h <;> cases h
    · exact ofRet_fill h p
  | split s d =>
    rw [content] at h
    split at h
    · cases h
    · cases h
    · cases h
    · cases h; exact splitBytes_length _ _ _
  | write a bs => cases h
  | release => cases h

/-- What a returning call did: nothing, or one new block. -/
def Did (sys : Sys) (st st' : St) : Prop :=
  (st'.w = st.w ∧ st'.live = st.live ∧ st'.mem = st.mem ∧ st'.ready = st.ready) ∨
  ∃ size p st1, Got sys st size p st1 ∧ st'.w = st1.w ∧ st'.live = st1.live ∧ st'.ready = st1.ready ∧
    ∀ a, ¬ (p ≤ a ∧ a < p + size) → st'.mem a = st.mem a

theorem poke_zero_out {m : Mem} {p a size : Nat} (h : ¬ (p ≤ a ∧ a < p + size)) :
    poke m p (List.replicate size 0) a = m a := poke_out (by simpa using h)

theorem make_did {sys : Sys} (hreal : sys.env.Real) {fuel : Nat} {c : Call} {st st' : St} {v : Val} {ph : Prop}
    (hi : Inv sys st ph) (h : make sys fuel c st = .ret v st') : Did sys st st' := by
  by_cases hr : st.ready = true
  · unfold make at h
    split at h
    · cases h; exact .inl ⟨rfl, rfl, rfl, rfl⟩
    · cases h
    · cases h
    · rename_i size hc
      rcases allocate_spec hreal hi hr c size (fun _ st => .ret .null st) with ⟨⟨s, h1⟩, -⟩ | ⟨p, st1, h1, h2⟩
      · rw [h1] at h; cases h
      · rw [h1] at h
        cases h
        refine .inr ⟨size, p, _, h2, rfl, rfl, rfl, fun a ha => ?_⟩
        rw [h2.mem]; exact poke_zero_out ha
    · rename_i size fill count hc
      rcases allocate_spec hreal hi hr c size (fillIn sys fuel c size) with ⟨⟨s, h1⟩, -⟩ | ⟨p, st1, h1, h2⟩
      · rw [h1] at h; cases h
      · rw [h1] at h
        unfold fillIn at h
        split at h
        · rename_i size' fill' count' hc'
          split at h
          · rename_i hsz
            cases h
            refine .inr ⟨size, p, st1, h2, rfl, rfl, rfl, fun a ha => ?_⟩
            show poke st1.mem p (fill' p) a = _
            rw [poke_out (by rw [content_fill hc' p, hsz]; exact ha), h2.mem]
            exact poke_zero_out ha
          · cases h
        · cases h
  · unfold make at h
    split at h
    · cases h; exact .inl ⟨rfl, rfl, rfl, rfl⟩
    · cases h
    · cases h
    · unfold allocate at h
      split at h
      · cases h
      · rw [if_pos (by simpa using hr)] at h; cases h
    · unfold allocate at h
      split at h
      · cases h
      · rw [if_pos (by simpa using hr)] at h; cases h

theorem Did.inv {sys : Sys} {st st' : St} {ph : Prop} (h : Did sys st st') (hi : Inv sys st ph) :
    Inv sys st' ph := by
  rcases h with ⟨h1, h2, -, -⟩ | ⟨size, p, st1, h1, h2, h3, -, -⟩
  · exact hi.of_eq h1 h2
  · exact (h1.inv ph hi).of_eq h2 h3

theorem Did.frame {sys : Sys} {st st' : St} (h : Did sys st st') {b : Blk} (hb : b ∈ st.live) :
    b ∈ st'.live ∧ ∀ a, b.has a → st'.mem a = st.mem a := by
  rcases h with ⟨-, h2, h3, -⟩ | ⟨size, p, st1, h1, -, h3, -, h5⟩
  · exact ⟨by rw [h2]; exact hb, fun a _ => by rw [h3]⟩
  · refine ⟨by rw [h3, h1.live]; exact List.mem_cons_of_mem _ hb, fun a ha => h5 a ?_⟩
    exact clear_mine h1.clr (.inr ⟨b, hb, ha⟩)

theorem Did.user {sys : Sys} {st st' : St} (h : Did sys st st') {a : Nat} (ha : Mine sys st a) :
    st'.mem a = st.mem a := by
  rcases h with ⟨-, -, h3, -⟩ | ⟨size, p, st1, h1, -, h3, -, h5⟩
  · rw [h3]
  · exact h5 a (clear_mine h1.clr ha)

theorem inv_ready {sys : Sys} {st : St} {ph : Prop} (hi : Inv sys st ph) :
    Inv sys { st with ready := true } ph := hi.of_eq rfl rfl

/-- A step other than a store or a release. -/
def Call.isMake : Call → Bool
  | .write _ _ | .release => false
  | _ => true

theorem step_make {sys : Sys} {fuel : Nat} {c : Call} (hc : c.isMake = true) (st : St) :
    (∃ r, step sys fuel c st = make sys fuel c { st with ready := r }) ∧
    (step sys fuel c st = make sys fuel c { st with ready := true } ∨ ∃ src, c = .decode src) := by
  cases c with
  | decode src => exact ⟨⟨st.ready, rfl⟩, .inr ⟨src, rfl⟩⟩
  | memdup a b => exact ⟨⟨true, rfl⟩, .inl rfl⟩
  | concat a => exact ⟨⟨true, rfl⟩, .inl rfl⟩
  | replace a b c => exact ⟨⟨true, rfl⟩, .inl rfl⟩
  | encode a => exact ⟨⟨true, rfl⟩, .inl rfl⟩
  | split a b => exact ⟨⟨true, rfl⟩, .inl rfl⟩
  | write a b => cases hc
  | release => cases hc

theorem step_did {sys : Sys} (hreal : sys.env.Real) {fuel : Nat} {c : Call} {st st' : St} {v : Val} {ph : Prop}
    (hc : c.isMake = true) (hi : Inv sys st ph) (h : step sys fuel c st = .ret v st') :
    ∃ r, Did sys { st with ready := r } st' := by
  obtain ⟨⟨r, hr⟩, -⟩ := step_make (sys := sys) (fuel := fuel) hc st
  rw [hr] at h
  exact ⟨r, make_did hreal (hi.of_eq rfl rfl) h⟩

theorem step_inv {sys : Sys} (hreal : sys.env.Real) (hleaf : Leaf sys.env) {fuel : Nat} {c : Call} {st st' : St}
    {v : Val} {ph : Prop} (hi : Inv sys st ph) (h : step sys fuel c st = .ret v st') :
    Inv sys st' (ph ∧ c ≠ .release) := by
  by_cases hc : c.isMake = true
  · obtain ⟨r, hd⟩ := step_did hreal hc hi h
    have := hd.inv (hi.of_eq (st' := { st with ready := r }) rfl rfl)
    exact ⟨this.apart, by
      obtain ⟨es, h1, h2, h3⟩ := this.arr
      exact ⟨es, h1, h2, fun hp => h3 hp.1⟩, this.err, this.del⟩
  · cases c with
    | write a bs =>
      cases h
      obtain ⟨es, h1, h2, h3⟩ := hi.arr
      exact ⟨hi.apart, ⟨es, h1, h2, fun hp => h3 hp.1⟩, hi.err, hi.del⟩
    | release =>
      simp only [step] at h
      split at h
      · cases h
      · obtain ⟨es, h1, h2, h3⟩ := hi.arr
        cases fuel with
        | zero => simp [exec] at h
        | succ fuel =>
          obtain ⟨w', e1, e2, e3, e4⟩ := release_full hleaf fuel h1 (fun e he => by rw [h2 e he]; simp) hi.err hi.del
          rw [e1] at h
          cases h
          refine ⟨⟨hi.apart.1.filter _, fun b hb => hi.apart.2 b (List.mem_filter.1 hb).1⟩, ?_, e2, e3⟩
          rcases e4 with ⟨-, e4, -⟩ | ⟨-, e4, -⟩
          · exact ⟨[], e4, by simp, fun hp => absurd rfl hp.2⟩
          · exact ⟨es, e4, h2, fun hp => absurd rfl hp.2⟩
    | memdup a b => exact absurd rfl hc
    | concat a => exact absurd rfl hc
    | replace a b c => exact absurd rfl hc
    | encode a => exact absurd rfl hc
    | decode a => exact absurd rfl hc
    | split a b => exact absurd rfl hc

theorem run_inv {sys : Sys} (hreal : sys.env.Real) (hleaf : Leaf sys.env) {fuel : Nat} : ∀ {cs : List Call}
    {st st' : St} {ph : Prop}, Inv sys st ph → run sys fuel cs st = some st' →
    Inv sys st' (ph ∧ .release ∉ cs)
  | [], st, st', ph, hi, h => by
    cases h
    obtain ⟨es, h1, h2, h3⟩ := hi.arr
    exact ⟨hi.apart, ⟨es, h1, h2, fun hp => h3 hp.1⟩, hi.err, hi.del⟩
  | c :: cs, st, st', ph, hi, h => by
    unfold run at h
    split at h
    · rename_i v st1 hs
      have := run_inv hreal hleaf (step_inv hreal hleaf hi hs) h
      obtain ⟨es, h1, h2, h3⟩ := this.arr
      refine ⟨this.apart, ⟨es, h1, h2, fun hp => h3 ⟨⟨hp.1, ?_⟩, ?_⟩⟩, this.err, this.del⟩
      · rintro rfl; exact hp.2 (by simp)
      · intro hm; exact hp.2 (by simp [hm])
    · cases h

theorem step_quiet {sys : Sys} (hreal : sys.env.Real) {fuel : Nat} {c : Call} {st st' : St} {v : Val} {ph : Prop}
    (hi : Inv sys st ph) (h : step sys fuel c st = .ret v st') {b : Blk} (hb : b ∈ st.live) (hq : Quiet b c) :
    b ∈ st'.live ∧ ∀ a, b.has a → st'.mem a = st.mem a := by
  by_cases hc : c.isMake = true
  · obtain ⟨r, hd⟩ := step_did hreal hc hi h
    exact hd.frame hb
  · cases c with
    | write a bs =>
      cases h
      refine ⟨hb, fun x hx => poke_out ?_⟩
      rintro ⟨h1, h2⟩
      exact hq (x - a) (by omega) (by rw [show a + (x - a) = x by omega]; exact hx)
    | release => exact absurd hq (by simp [Quiet])
    | memdup a b => exact absurd rfl hc
    | concat a => exact absurd rfl hc
    | replace a b c => exact absurd rfl hc
    | encode a => exact absurd rfl hc
    | decode a => exact absurd rfl hc
    | split a b => exact absurd rfl hc

theorem run_quiet {sys : Sys} (hreal : sys.env.Real) (hleaf : Leaf sys.env) {fuel : Nat} : ∀ {cs : List Call}
    {st st' : St} {ph : Prop}, Inv sys st ph → run sys fuel cs st = some st' → ∀ {b : Blk}, b ∈ st.live →
    (∀ c ∈ cs, Quiet b c) → b ∈ st'.live ∧ ∀ a, b.has a → st'.mem a = st.mem a
  | [], st, st', ph, hi, h, b, hb, _ => by cases h; exact ⟨hb, fun _ _ => rfl⟩
  | c :: cs, st, st', ph, hi, h, b, hb, hq => by
    unfold run at h
    split at h
    · rename_i v st1 hs
      obtain ⟨h1, h2⟩ := step_quiet hreal hi hs hb (hq c (by simp))
      obtain ⟨h3, h4⟩ := run_quiet hreal hleaf (step_inv hreal hleaf hi hs) h h1 (fun c hc => hq c (by simp [hc]))
      exact ⟨h3, fun a ha => (h4 a ha).trans (h2 a ha)⟩
    · cases h

/-- What a call that was asked properly does. -/
theorem make_asked {sys : Sys} (hreal : sys.env.Real) {fuel : Nat} {c : Call} {st : St} {ph : Prop}
    {want : Want} (hi : Inv sys st ph) (hr : st.ready = true)
    (ha : Asked (Mine sys st) sys.empty fuel st.mem c want) :
    ((∃ st', make sys fuel c st = .panic st') ∧ Scarce sys st) ∨
    ∃ v st', make sys fuel c st = .ret v st' ∧ Did sys st st' ∧
      ((st'.live = st.live ∧ v = .null ∧ ∀ mine' m', want mine' m' v) ∨
       ∃ b, st'.live = b :: st.live ∧ (v = .ptr b.addr ∨ ∃ n, v = .words b.addr n) ∧
        ∀ (mine' : Nat → Prop) (m' : Mem), (∀ a, b.has a → m' a = st'.mem a ∧ mine' a) → want mine' m' v) := by
  rcases asked_content ha with ⟨h1, h2⟩ | ⟨size, hs0, hs, hm⟩
  · refine .inr ⟨.null, st, ?_, .inl ⟨rfl, rfl, rfl, rfl⟩, .inl ⟨rfl, rfl, h2⟩⟩
    unfold make; rw [h1]
  · obtain ⟨fill, count, e1, -, -⟩ := (hm st.mem (fun _ _ => rfl)).ex
    have hmk : make sys fuel c st = allocate sys st c size (fillIn sys fuel c size) := by
      unfold make; rw [e1]
    rw [hmk]
    rcases allocate_spec hreal hi hr c size (fillIn sys fuel c size) with h | ⟨p, st1, h1, h2⟩
    · exact .inl h
    · obtain ⟨fill', count', f1, f2, f3⟩ := (hm st1.mem (fun a hmine => by
        rw [h2.mem]; exact poke_zero_out (clear_mine h2.clr hmine))).ex
      have hret : make sys fuel c st = .ret (valOf count' p) { st1 with mem := poke st1.mem p (fill' p) } := by
        rw [hmk, h1, fillIn, f1]
        exact if_pos rfl
      have hd := make_did hreal hi hret
      rw [← hmk]
      refine .inr ⟨_, _, hret, hd, .inr ⟨⟨p, size⟩, h2.live, ?_, ?_⟩⟩
      · cases count' with
        | none => exact .inl rfl
        | some n => exact .inr ⟨n, rfl⟩
      · intro mine' m' hm'
        refine f3 p mine' m' h2.pos h2.fits ?_ (fun i hi' => (hm' (p + i) ⟨by simp, by show p + i < p + size; omega⟩).2)
        intro i hi'
        rw [(hm' (p + i) ⟨by simp, by have := f2 p; show p + i < p + size; omega⟩).1]
        exact poke_holds st1.mem p (fill' p) i hi'

end Verif.Sm
