import Verif.Spec.Arena
namespace Verif.Ar

theorem and_not_one (x : W) : x &&& ~~~(1 : W) = (x >>> 1) <<< 1 := by
  apply BitVec.eq_of_getLsbD_eq
  intro i hi
  rw [BitVec.getLsbD_and, BitVec.getLsbD_not, BitVec.getLsbD_shiftLeft, BitVec.getLsbD_ushiftRight]
  have h1 : (1#64).getLsbD i = decide (i = 0) := by
    rw [BitVec.getLsbD_one]
    by_cases h : i = 0 <;> simp [h]
  cases i with
  | zero => simp
  | succ j =>
    rw [show (1 : W) = 1#64 from rfl, h1]
    simp [hi, Nat.add_comm 1 j]

theorem alignUp_toNat (n : W) (h : n.toNat + 1 < 2 ^ 64) : (alignUp n).toNat = n.toNat + n.toNat % 2 := by
  unfold alignUp
  rw [and_not_one, BitVec.toNat_shiftLeft, BitVec.toNat_ushiftRight, BitVec.toNat_add,
    Nat.shiftRight_eq_div_pow, Nat.shiftLeft_eq]
  have : (1 : W).toNat = 1 := rfl
  rw [this, Nat.mod_eq_of_lt h]
  have h2 : (n.toNat + 1) / 2 ^ 1 * 2 ^ 1 = n.toNat + n.toNat % 2 := by omega
  rw [h2, Nat.mod_eq_of_lt (by omega)]

theorem toInt_small {n : W} (h : n.toNat < 2 ^ 63) : n.toInt = (n.toNat : Int) := by
  rw [BitVec.toInt_eq_toNat_of_lt (by omega)]

theorem toNat_of_pos {n : W} (h : 0 < n.toInt) : n.toNat < 2 ^ 63 := by
  by_cases hn : n.toNat < 2 ^ 63
  · exact hn
  · rw [BitVec.toInt_eq_toNat_cond, if_neg (by omega)] at h
    have := n.isLt
    omega

theorem chunkSize_toNat {n : W} {t : Nat} (h : n.toNat + t * 1024 + 512 < 2 ^ 63) :
    (chunkSize n t).toNat = headerSize + n.toNat + t * 1024 + (n.toNat % 2) := by
  have h1 : (BitVec.ofNat 64 headerSize + n + BitVec.ofNat 64 (t * 1024)).toNat = headerSize + n.toNat + t * 1024 := by
    rw [BitVec.toNat_add, BitVec.toNat_add, BitVec.toNat_ofNat, BitVec.toNat_ofNat]
    unfold headerSize
    rw [Nat.mod_eq_of_lt (show t * 1024 < 2 ^ 64 by omega), Nat.mod_eq_of_lt (show 256 < 2 ^ 64 by omega),
      Nat.mod_eq_of_lt (show 256 + n.toNat < 2 ^ 64 by omega), Nat.mod_eq_of_lt (by omega)]
  unfold chunkSize
  rw [alignUp_toNat _ (by rw [h1]; unfold headerSize; omega), h1]
  unfold headerSize
  omega

/-- An arena in use. -/
structure CurOk (h : Heap) (a : Nat) (c : Nat) (o : Int) : Prop where
  next : (h.arenas a).next = some c
  avail : (h.arenas a).avail = some ⟨c, o⟩
  limit : (h.arenas a).limit = some ⟨c, h.size c⟩
  live : h.live c = true
  lt : c < h.fresh
  lo : (headerSize : Int) ≤ o
  hi : o ≤ h.size c
  even : o % 2 = 0
  evenSize : h.size c % 2 = 0
  tag : (h.chunks c).tag = .chunk

structure NewOk (h : Heap) (a : Nat) : Prop where
  next : (h.arenas a).next = none
  avail : (h.arenas a).avail = none
  limit : (h.arenas a).limit = none

/-- An arena the program may use. -/
def Active (h : Heap) (gone : List Nat) (a : Nat) : Prop := h.alive a = true ∧ a ∉ gone

/-- A chunk nobody uses. -/
structure Unused (h : Heap) (bs : List Blk) (gone : List Nat) (p : Nat) : Prop where
  live : h.live p = true
  lt : p < h.fresh
  size : headerSize ≤ h.size p
  evenSize : h.size p % 2 = 0
  cur : ∀ a, Active h gone a → (h.arenas a).next ≠ some p
  blk : ∀ b ∈ bs, b.p.blk ≠ p

structure Inv (h : Heap) (bs : List Blk) (gone : List Nat) : Prop where
  tag : ∀ a, Active h gone a → (h.arenas a).tag = .arena ∧ 0 < (h.arenas a).threshold ∧ (h.arenas a).total % 2 = 0
  cur : ∀ a, Active h gone a → NewOk h a ∨ ∃ c o, CurOk h a c o
  dist : ∀ a b c, Active h gone a → Active h gone b → (h.arenas a).next = some c → (h.arenas b).next = some c → a = b
  free : ∀ p, h.freeList = some p → Unused h bs gone p ∧ (h.chunks p).next = none ∧ (h.chunks p).limit = some ⟨p, h.size p⟩
  num : h.numFree = if h.freeList.isSome then 1 else 0
  blks : ∀ b ∈ bs, Active h gone b.a ∧ b.inside h ∧ b.p.blk < h.fresh ∧ 0 < b.len
  top : ∀ b ∈ bs, ∀ a, Active h gone a → ∀ o, (h.arenas a).next = some b.p.blk → (h.arenas a).avail = some o →
    a = b.a ∧ b.p.off + b.len ≤ o.off
  pair : bs.Pairwise Blk.apart
  own : ∀ b ∈ bs, ∀ c ∈ bs, b.p.blk = c.p.blk → b.a = c.a
  junk : ∀ a, h.alive a = false → ∀ b ∈ bs, b.a ≠ a

theorem Inv.fine {h : Heap} {bs : List Blk} {gone : List Nat} (i : Inv h bs gone) : Fine h bs :=
  ⟨fun b hb => (i.blks b hb).2.1, i.pair, i.own⟩

@[simp] theorem setArena_same (h : Heap) (a : Nat) (x : Hdr) : (h.setArena a x).arenas a = x := by simp [Heap.setArena]
theorem setArena_ne (h : Heap) {a b : Nat} (x : Hdr) (e : b ≠ a) : (h.setArena a x).arenas b = h.arenas b := by
  simp [Heap.setArena, e]
@[simp] theorem setChunk_same (h : Heap) (a : Nat) (x : Hdr) : (h.setChunk a x).chunks a = x := by simp [Heap.setChunk]
theorem setChunk_ne (h : Heap) {a b : Nat} (x : Hdr) (e : b ≠ a) : (h.setChunk a x).chunks b = h.chunks b := by
  simp [Heap.setChunk, e]

theorem install_arena (h : Heap) (a p : Nat) (l : Option Ptr) : (install h a p l).arenas a =
    { h.arenas a with avail := some ⟨p, headerSize⟩, limit := l, next := some p } := by
  simp [install]
theorem install_arena_ne (h : Heap) {a b : Nat} (p : Nat) (l : Option Ptr) (e : b ≠ a) :
    (install h a p l).arenas b = h.arenas b := by
  simp [install, Heap.setArena, Heap.setChunk, e]
theorem install_chunk (h : Heap) (a p : Nat) (l : Option Ptr) : (install h a p l).chunks p =
    { h.arenas a with tag := .chunk } := by
  simp [install, Heap.setArena]
theorem install_chunk_ne (h : Heap) (a : Nat) {p c : Nat} (l : Option Ptr) (e : c ≠ p) :
    (install h a p l).chunks c = h.chunks c := by
  simp [install, Heap.setArena, Heap.setChunk, e]

/-- Giving an unused chunk to an arena. -/
theorem install_inv {h : Heap} {bs : List Blk} {gone : List Nat} (i : Inv h bs gone) {a p : Nat}
    (ha : Active h gone a) (hp : Unused h bs gone p) (hf : h.freeList ≠ some p) :
    Inv (install h a p (some ⟨p, h.size p⟩)) bs gone ∧
    CurOk (install h a p (some ⟨p, h.size p⟩)) a p headerSize := by
  have hcur : CurOk (install h a p (some ⟨p, h.size p⟩)) a p headerSize := by
    refine ⟨by rw [install_arena], by rw [install_arena], by rw [install_arena]; rfl, hp.live, hp.lt, Int.le_refl _, ?_, by decide, hp.evenSize, by rw [install_chunk]⟩
    have := hp.size
    show (headerSize : Int) ≤ ((h.size p : Nat) : Int)
    omega
  have hact : ∀ b, Active (install h a p (some ⟨p, h.size p⟩)) gone b ↔ Active h gone b := fun b => Iff.rfl
  refine ⟨⟨?_, ?_, ?_, ?_, i.num, i.blks, ?_, i.pair, i.own, i.junk⟩, hcur⟩
  · intro b hb
    by_cases e : b = a
    · rw [e, install_arena]; exact i.tag a ha
    · rw [install_arena_ne _ _ _ e]; exact i.tag b hb
  · intro b hb
    by_cases e : b = a
    · rw [e]; exact .inr ⟨p, _, hcur⟩
    · rcases i.cur b hb with hn | ⟨c, o, hc⟩
      · exact .inl ⟨by rw [install_arena_ne _ _ _ e]; exact hn.next, by rw [install_arena_ne _ _ _ e]; exact hn.avail,
          by rw [install_arena_ne _ _ _ e]; exact hn.limit⟩
      · have hcp : c ≠ p := fun hcp => hp.cur b hb (hcp ▸ hc.next)
        exact .inr ⟨c, o, by rw [install_arena_ne _ _ _ e]; exact hc.next, by rw [install_arena_ne _ _ _ e]; exact hc.avail,
          by rw [install_arena_ne _ _ _ e]; exact hc.limit, hc.live, hc.lt, hc.lo, hc.hi, hc.even, hc.evenSize,
          by rw [install_chunk_ne _ _ _ hcp]; exact hc.tag⟩
  · intro b b' c hb hb' h1 h2
    by_cases e : b = a <;> by_cases e' : b' = a
    · rw [e, e']
    · rw [e, install_arena] at h1
      rw [install_arena_ne _ _ _ e'] at h2
      cases h1
      exact absurd h2 (hp.cur b' hb')
    · rw [install_arena_ne _ _ _ e] at h1
      rw [e', install_arena] at h2
      cases h2
      exact absurd h1 (hp.cur b hb)
    · rw [install_arena_ne _ _ _ e] at h1
      rw [install_arena_ne _ _ _ e'] at h2
      exact i.dist b b' c hb hb' h1 h2
  · intro q hq
    have hqp : q ≠ p := fun e => hf (by rw [← e]; exact hq)
    obtain ⟨hu, hn, hl⟩ := i.free q hq
    refine ⟨⟨hu.live, hu.lt, hu.size, hu.evenSize, ?_, hu.blk⟩, by rw [install_chunk_ne _ _ _ hqp]; exact hn,
      by rw [install_chunk_ne _ _ _ hqp]; exact hl⟩
    intro b hb
    by_cases e : b = a
    · rw [e, install_arena]; simp only [ne_eq, Option.some.injEq]; exact Ne.symm hqp
    · rw [install_arena_ne _ _ _ e]; exact hu.cur b hb
  · intro b hb c hc o h1 h2
    by_cases e : c = a
    · rw [e, install_arena] at h1
      cases h1
      exact absurd rfl (hp.blk b hb)
    · rw [install_arena_ne _ _ _ e] at h1 h2
      exact i.top b hb c hc o h1 h2

/-- What `grow` needs. -/
theorem grow_enough {oom : Nat → Nat → Bool} {h : Heap} {a c : Nat} {o : Int} {n : W} (hc : CurOk h a c o) (f : Nat)
    (hn : n.toInt ≤ h.size c - o) : grow oom a n (f + 1) h = .ok h := by
  unfold grow
  dsimp only
  rw [hc.limit, hc.avail]
  simp only [diff, if_true]
  rw [if_pos hn]

/-- From an arena in a state with the free list empty. -/
theorem grow_malloc {oom : Nat → Nat → Bool} {h : Heap} {bs : List Blk} {gone : List Nat} (i : Inv h bs gone) {a : Nat} {n : W}
    (ha : Active h gone a) (hn : 0 < n.toInt)
    (hm : (h.arenas a).total + n.toNat + (h.arenas a).threshold * 1024 + 512 < 2 ^ 63) (hf : h.freeList = none) (f : Nat) :
    (∃ h' c o, grow oom a n (f + 2) h = .ok h' ∧ Inv h' bs gone ∧ CurOk h' a c o ∧ n.toInt ≤ h'.size c - o ∧
      h'.alive = h.alive ∧ (∀ b, b ≠ a → h'.arenas b = h.arenas b) ∧ h'.freeList = none ∧
      (h' = h ∨ c = h.fresh ∧ h'.fresh = h.fresh + 1 ∧ (h'.arenas a).total = h'.size c ∧ ∀ d, d < h.fresh → h'.size d = h.size d)) ∨
    (∃ h', grow oom a n (f + 2) h = .null h' ∧ Inv h' bs gone ∧ h'.alive = h.alive ∧ oom h.fresh (h'.arenas a).total = true) := by
  have hs := toInt_small (toNat_of_pos hn)
  have hdiff : ∃ d, diff (h.arenas a).limit (h.arenas a).avail = some d ∧
      (n.toInt ≤ d → ∃ c o, CurOk h a c o ∧ d = h.size c - o) := by
    rcases i.cur a ha with hn' | ⟨c, o, hc⟩
    · refine ⟨0, by rw [hn'.limit, hn'.avail]; rfl, fun hle => ?_⟩
      omega
    · exact ⟨h.size c - o, by rw [hc.limit, hc.avail]; simp [diff], fun _ => ⟨c, o, hc, rfl⟩⟩
  obtain ⟨d, hd, hd'⟩ := hdiff
  by_cases hle : n.toInt ≤ d
  · obtain ⟨c, o, hc, hdd⟩ := hd' hle
    exact .inl ⟨h, c, o, grow_enough hc _ (by omega), i, hc, by omega, rfl, fun _ _ => rfl, hf, .inl rfl⟩
  · have hcs := chunkSize_toNat (n := n) (t := (h.arenas a).threshold) (by omega)
    have htot : (BitVec.ofNat 64 (h.arenas a).total + chunkSize n (h.arenas a).threshold).toNat =
        (h.arenas a).total + (headerSize + n.toNat + (h.arenas a).threshold * 1024 + n.toNat % 2) := by
      rw [BitVec.toNat_add, hcs, BitVec.toNat_ofNat]
      unfold headerSize
      rw [Nat.mod_eq_of_lt (show (h.arenas a).total < 2 ^ 64 by omega), Nat.mod_eq_of_lt (by omega)]
    generalize htt : (BitVec.ofNat 64 (h.arenas a).total + chunkSize n (h.arenas a).threshold).toNat = total at htot
    have htev : total % 2 = 0 := by
      have := (i.tag a ha).2.2
      rw [htot]
      unfold headerSize
      omega
    -- the arena with the new total
    have iT : Inv (h.setArena a { h.arenas a with total := total }) bs gone := by
      have key : ∀ b, (((h.setArena a { h.arenas a with total := total }).arenas b).next = (h.arenas b).next) ∧
          (((h.setArena a { h.arenas a with total := total }).arenas b).avail = (h.arenas b).avail) ∧
          (((h.setArena a { h.arenas a with total := total }).arenas b).limit = (h.arenas b).limit) ∧
          (((h.setArena a { h.arenas a with total := total }).arenas b).tag = (h.arenas b).tag) ∧
          (((h.setArena a { h.arenas a with total := total }).arenas b).threshold = (h.arenas b).threshold) := by
        intro b
        by_cases e : b = a
        · rw [e, setArena_same]; exact ⟨rfl, rfl, rfl, rfl, rfl⟩
        · rw [setArena_ne _ _ e]; exact ⟨rfl, rfl, rfl, rfl, rfl⟩
      refine ⟨?_, ?_, ?_, ?_, i.num, i.blks, ?_, i.pair, i.own, i.junk⟩
      · intro b hb
        rw [(key b).2.2.2.1, (key b).2.2.2.2]
        refine ⟨(i.tag b hb).1, (i.tag b hb).2.1, ?_⟩
        by_cases e : b = a
        · rw [e, setArena_same]; exact htev
        · rw [setArena_ne _ _ e]; exact (i.tag b hb).2.2
      · intro b hb
        rcases i.cur b hb with hn | ⟨c, o, hc⟩
        · exact .inl ⟨by rw [(key b).1]; exact hn.next, by rw [(key b).2.1]; exact hn.avail, by rw [(key b).2.2.1]; exact hn.limit⟩
        · exact .inr ⟨c, o, by rw [(key b).1]; exact hc.next, by rw [(key b).2.1]; exact hc.avail, by rw [(key b).2.2.1]; exact hc.limit,
            hc.live, hc.lt, hc.lo, hc.hi, hc.even, hc.evenSize, hc.tag⟩
      · intro b b' c hb hb' h1 h2
        rw [(key b).1] at h1
        rw [(key b').1] at h2
        exact i.dist b b' c hb hb' h1 h2
      · intro p hp
        obtain ⟨hu, h1, h2⟩ := i.free p hp
        exact ⟨⟨hu.live, hu.lt, hu.size, hu.evenSize, fun b hb => by rw [(key b).1]; exact hu.cur b hb, hu.blk⟩, h1, h2⟩
      · intro b hb c hc o h1 h2
        rw [(key c).1] at h1
        rw [(key c).2.1] at h2
        exact i.top b hb c hc o h1 h2
    unfold grow
    dsimp only
    rw [hd]
    dsimp only
    rw [if_neg hle, hf]
    dsimp only
    rw [htt]
    cases hoom : oom (h.setArena a { h.arenas a with total := total }).fresh total with
    | true =>
      refine .inr ⟨_, if_pos rfl, iT, rfl, by rw [setArena_same]; exact hoom⟩
    | false =>
      refine .inl ?_
      generalize hT : h.setArena a { h.arenas a with total := total } = hh at iT
      have hfr : hh.fresh = h.fresh := by rw [← hT]; rfl
      have hfl : hh.freeList = none := by rw [← hT]; exact hf
      have hal : hh.alive = h.alive := by rw [← hT]; rfl
      -- the new chunk
      have iF : Inv { hh with size := fun c => if c = hh.fresh then total else hh.size c
                              live := fun c => if c = hh.fresh then true else hh.live c
                              fresh := hh.fresh + 1 } bs gone := by
        have hin : ∀ b : Blk, b.p.blk < hh.fresh → b.inside hh → b.inside { hh with
            size := fun c => if c = hh.fresh then total else hh.size c
            live := fun c => if c = hh.fresh then true else hh.live c
            fresh := hh.fresh + 1 } := by
          rintro b hlt ⟨h1, h2, h3, h4⟩
          have hne : b.p.blk ≠ hh.fresh := Nat.ne_of_lt hlt
          refine ⟨?_, h2, ?_, h4⟩
          · show (if b.p.blk = hh.fresh then true else hh.live b.p.blk) = true
            rw [if_neg hne]; exact h1
          · show _ ≤ (((if b.p.blk = hh.fresh then total else hh.size b.p.blk) : Nat) : Int)
            rw [if_neg hne]; exact h3
        refine ⟨iT.tag, ?_, iT.dist, ?_, iT.num, ?_, iT.top, iT.pair, iT.own, iT.junk⟩
        · intro b hb
          rcases iT.cur b hb with hn | ⟨c, o, hc⟩
          · exact .inl ⟨hn.next, hn.avail, hn.limit⟩
          · have hne : c ≠ hh.fresh := Nat.ne_of_lt hc.lt
            refine .inr ⟨c, o, hc.next, hc.avail, ?_, ?_, Nat.lt_succ_of_lt hc.lt, hc.lo, ?_, hc.even, ?_, hc.tag⟩
            · show (hh.arenas b).limit = some ⟨c, ((if c = hh.fresh then total else hh.size c : Nat) : Int)⟩
              rw [if_neg hne]; exact hc.limit
            · show (if c = hh.fresh then true else hh.live c) = true
              rw [if_neg hne]; exact hc.live
            · show o ≤ ((if c = hh.fresh then total else hh.size c : Nat) : Int)
              rw [if_neg hne]; exact hc.hi
            · show (if c = hh.fresh then total else hh.size c) % 2 = 0
              rw [if_neg hne]; exact hc.evenSize
        · intro p hp
          rw [show ({ hh with size := _, live := _, fresh := _ } : Heap).freeList = hh.freeList from rfl, hfl] at hp
          cases hp
        · intro b hb
          obtain ⟨h1, h2, h3, h4⟩ := iT.blks b hb
          exact ⟨h1, hin b h3 h2, Nat.lt_succ_of_lt h3, h4⟩
      have hu : Unused { hh with size := fun c => if c = hh.fresh then total else hh.size c
                                 live := fun c => if c = hh.fresh then true else hh.live c
                                 fresh := hh.fresh + 1 } bs gone hh.fresh := by
        refine ⟨if_pos rfl, Nat.lt_succ_self _, ?_, ?_, ?_, ?_⟩
        · show headerSize ≤ if hh.fresh = hh.fresh then total else _
          rw [if_pos rfl, htot]; omega
        · show (if hh.fresh = hh.fresh then total else _) % 2 = 0
          rw [if_pos rfl]; exact htev
        · intro b hb hx
          rcases iT.cur b hb with hn | ⟨c, o, hc⟩
          · have := hn.next
            rw [show (hh.arenas b).next = some hh.fresh from hx] at this
            cases this
          · have := hc.next
            rw [show (hh.arenas b).next = some hh.fresh from hx] at this
            cases this
            exact Nat.lt_irrefl _ hc.lt
        · intro b hb
          exact Nat.ne_of_lt (iT.blks b hb).2.2.1
      have haT : Active { hh with size := fun c => if c = hh.fresh then total else hh.size c
                                  live := fun c => if c = hh.fresh then true else hh.live c
                                  fresh := hh.fresh + 1 } gone a := ⟨by show hh.alive a = true; rw [hal]; exact ha.1, ha.2⟩
      obtain ⟨i', c'⟩ := install_inv iF haT hu (by show hh.freeList ≠ _; rw [hfl]; simp)
      have hsz : ({ hh with size := fun c => if c = hh.fresh then total else hh.size c
                            live := fun c => if c = hh.fresh then true else hh.live c
                            fresh := hh.fresh + 1 } : Heap).size hh.fresh = total := if_pos rfl
      rw [hsz] at i' c'
      have hsz' : ∀ l, (install { hh with size := fun c => if c = hh.fresh then total else hh.size c
                                          live := fun c => if c = hh.fresh then true else hh.live c
                                          fresh := hh.fresh + 1 } a hh.fresh l).size hh.fresh = total := fun _ => if_pos rfl
      refine ⟨_, hh.fresh, headerSize, ?_, i', c', ?_, hal, ?_, hfl, .inr ⟨hfr, by rw [← hfr]; rfl, ?_, ?_⟩⟩
      · rw [if_neg (by simp), if_neg (by unfold arenaSize; rw [htot]; unfold headerSize; omega)]
        refine grow_enough c' f ?_
        rw [hsz', htot, hs]
        unfold headerSize
        omega
      · rw [hsz', htot, hs]
        unfold headerSize
        omega
      · intro b e
        rw [install_arena_ne _ _ _ e, ← hT]
        exact setArena_ne _ _ e
      · rw [install_arena, hsz', ← hT]
        show ((h.setArena a { h.arenas a with total := total }).arenas a).total = total
        rw [setArena_same]
      · intro d hd
        show (if d = hh.fresh then total else hh.size d) = h.size d
        rw [if_neg (by omega), ← hT]
        rfl

theorem grow_ok {oom : Nat → Nat → Bool} {h : Heap} {bs : List Blk} {gone : List Nat} (i : Inv h bs gone) {a : Nat} {n : W}
    (ha : Active h gone a) (hn : 0 < n.toInt)
    (hm : (h.arenas a).total + n.toNat + (h.arenas a).threshold * 1024 + 512 < 2 ^ 63) (f : Nat) :
    (∃ h' c o, grow oom a n (f + 3) h = .ok h' ∧ Inv h' bs gone ∧ CurOk h' a c o ∧ n.toInt ≤ h'.size c - o ∧
      h'.alive = h.alive ∧ (h' = h ∨ (h.arenas a).next ≠ some c)) ∨
    (∃ h' k t, grow oom a n (f + 3) h = .null h' ∧ Inv h' bs gone ∧ h'.alive = h.alive ∧ oom k t = true) := by
  cases hf : h.freeList with
  | none =>
    rcases grow_malloc i ha hn hm hf (f + 1) with ⟨h', c, o, g1, g2, g3, g4, g5, g6, g7, g8⟩ | ⟨h', g1, g2, g3, g4⟩
    · refine .inl ⟨h', c, o, g1, g2, g3, g4, g5, ?_⟩
      rcases g8 with g8 | ⟨g8, -⟩
      · exact .inl g8
      · refine .inr fun hx => ?_
        rcases i.cur a ha with hy | ⟨c', o', hc⟩
        · rw [hy.next] at hx; cases hx
        · rw [hc.next] at hx
          cases hx
          exact Nat.ne_of_lt hc.lt g8
    · exact .inr ⟨h', _, _, g1, g2, g3, g4⟩
  | some p =>
    have hdiff : ∃ d, diff (h.arenas a).limit (h.arenas a).avail = some d ∧
        (n.toInt ≤ d → ∃ c o, CurOk h a c o ∧ d = h.size c - o) := by
      rcases i.cur a ha with hn' | ⟨c, o, hc⟩
      · refine ⟨0, by rw [hn'.limit, hn'.avail]; rfl, fun hle => ?_⟩
        omega
      · exact ⟨h.size c - o, by rw [hc.limit, hc.avail]; simp [diff], fun _ => ⟨c, o, hc, rfl⟩⟩
    obtain ⟨d, hd, hd'⟩ := hdiff
    by_cases hle : n.toInt ≤ d
    · obtain ⟨c, o, hc, hdd⟩ := hd' hle
      exact .inl ⟨h, c, o, grow_enough hc _ (by omega), i, hc, by omega, rfl, .inl rfl⟩
    · obtain ⟨hu, hnx, hlm⟩ := i.free p hf
      have i1 : Inv { h with freeList := none, numFree := h.numFree - 1 } bs gone := by
        refine ⟨i.tag, ?_, i.dist, (fun q hq => by cases hq), ?_, i.blks, i.top, i.pair, i.own, i.junk⟩
        · intro b hb
          rcases i.cur b hb with hx | ⟨c, o, hc⟩
          · exact .inl ⟨hx.next, hx.avail, hx.limit⟩
          · exact .inr ⟨c, o, hc.next, hc.avail, hc.limit, hc.live, hc.lt, hc.lo, hc.hi, hc.even, hc.evenSize, hc.tag⟩
        · show h.numFree - 1 = 0
          rw [i.num, hf]; rfl
      have hu1 : Unused { h with freeList := none, numFree := h.numFree - 1 } bs gone p := ⟨hu.live, hu.lt, hu.size, hu.evenSize, hu.cur, hu.blk⟩
      have ha1 : Active { h with freeList := none, numFree := h.numFree - 1 } gone a := ha
      obtain ⟨i2, c2⟩ := install_inv i1 ha1 hu1 (by simp)
      have hstep : grow oom a n (f + 3) h =
          grow oom a n (f + 2) (install { h with freeList := none, numFree := h.numFree - 1 } a p (some ⟨p, h.size p⟩)) := by
        rw [grow]
        dsimp only
        rw [hd]
        dsimp only
        rw [if_neg hle, hf]
        dsimp only
        rw [if_pos hu.live, hnx, hlm]
      rw [hstep]
      rcases grow_malloc (oom := oom) i2 ha1 hn (by rw [install_arena]; exact hm) rfl f with
        ⟨h', c, o, g1, g2, g3, g4, g5, g6, g7, g8⟩ | ⟨h', g1, g2, g3, g4⟩
      · refine .inl ⟨h', c, o, g1, g2, g3, g4, g5, .inr ?_⟩
        rcases g8 with g8 | ⟨g8, -⟩
        · rw [g8] at g3
          have := g3.next
          rw [install_arena] at this
          cases this
          exact hu.cur a ha
        · intro hx
          rcases i.cur a ha with hy | ⟨c', o', hc⟩
          · rw [hy.next] at hx; cases hx
          · rw [hc.next] at hx
            cases hx
            exact Nat.ne_of_lt hc.lt g8
      · exact .inr ⟨h', _, _, g1, g2, g3, g4⟩

/-- Handing out a block. -/
theorem handOut_ok {h : Heap} {bs : List Blk} {gone : List Nat} (i : Inv h bs gone) {a c : Nat} {o : Int} {k : W} {len : Int}
    (ha : Active h gone a) (hc : CurOk h a c o) (hk : k.toInt ≤ h.size c - o) (hl : 0 < len) (hlk : len ≤ k.toInt)
    (he : k.toInt % 2 = 0) :
    ∃ h', handOut a k h = .got h' ⟨c, o⟩ ∧ Inv h' (⟨a, ⟨c, o⟩, len⟩ :: bs) gone ∧ h'.alive = h.alive := by
  unfold handOut
  dsimp only
  rw [hc.avail, hc.next]
  dsimp only
  rw [if_pos hc.live]
  refine ⟨_, rfl, ?_, rfl⟩
  generalize hh : (h.setArena a { h.arenas a with bytes := k.toInt, avail := some ⟨c, o + k.toInt⟩, next := some c }).setChunk c
      { h.chunks c with bytes := (h.arenas a).bytes } = h'
  have hA : ∀ b, h'.alive b = h.alive b := by intro b; rw [← hh]; rfl
  have hact : ∀ b, Active h' gone b ↔ Active h gone b := fun b => by unfold Active; rw [hA]
  have h1 : h'.arenas a = { h.arenas a with bytes := k.toInt, avail := some ⟨c, o + k.toInt⟩, next := some c } := by
    rw [← hh]; simp [Heap.setArena, Heap.setChunk]
  have h2 : ∀ b, b ≠ a → h'.arenas b = h.arenas b := by
    intro b e; rw [← hh]; simp [Heap.setArena, Heap.setChunk, e]
  have h3 : ∀ d, (h'.chunks d).tag = (h.chunks d).tag ∧ (h'.chunks d).next = (h.chunks d).next ∧ (h'.chunks d).limit = (h.chunks d).limit := by
    intro d
    rw [← hh]
    by_cases e : d = c
    · rw [e, setChunk_same]; exact ⟨rfl, rfl, rfl⟩
    · rw [setChunk_ne _ _ e]; exact ⟨rfl, rfl, rfl⟩
  have h4 : h'.size = h.size := by rw [← hh]; rfl
  have h5 : h'.live = h.live := by rw [← hh]; rfl
  have h6 : h'.fresh = h.fresh := by rw [← hh]; rfl
  have h7 : h'.freeList = h.freeList := by rw [← hh]; rfl
  have h8 : h'.numFree = h.numFree := by rw [← hh]; rfl
  have hnx : ∀ b, (h'.arenas b).next = (h.arenas b).next := by
    intro b
    by_cases e : b = a
    · rw [e, h1]; exact hc.next.symm
    · rw [h2 b e]
  have hins : ∀ b : Blk, b.inside h' ↔ b.inside h := by intro b; unfold Blk.inside; rw [h4, h5]
  refine ⟨?_, ?_, ?_, ?_, ?_, ?_, ?_, ?_, ?_, ?_⟩
  · intro b hb
    by_cases e : b = a
    · rw [e, h1]; exact i.tag a ha
    · rw [h2 b e]; exact i.tag b ((hact b).1 hb)
  · intro b hb
    by_cases e : b = a
    · refine .inr ⟨c, o + k.toInt, ?_⟩
      rw [e]
      refine ⟨by rw [h1], by rw [h1], by rw [h1, h4]; exact hc.limit, by rw [h5]; exact hc.live, by rw [h6]; exact hc.lt, ?_, ?_, ?_, by rw [h4]; exact hc.evenSize, by rw [(h3 c).1]; exact hc.tag⟩
      · have := hc.lo; omega
      · rw [h4]; omega
      · have := hc.even; omega
    · rcases i.cur b ((hact b).1 hb) with hn | ⟨d, p, hd⟩
      · exact .inl ⟨by rw [h2 b e]; exact hn.next, by rw [h2 b e]; exact hn.avail, by rw [h2 b e]; exact hn.limit⟩
      · exact .inr ⟨d, p, by rw [h2 b e]; exact hd.next, by rw [h2 b e]; exact hd.avail, by rw [h2 b e, h4]; exact hd.limit,
          by rw [h5]; exact hd.live, by rw [h6]; exact hd.lt, hd.lo, by rw [h4]; exact hd.hi, hd.even, by rw [h4]; exact hd.evenSize, by rw [(h3 d).1]; exact hd.tag⟩
  · intro b b' d hb hb' q1 q2
    rw [hnx] at q1 q2
    exact i.dist b b' d ((hact b).1 hb) ((hact b').1 hb') q1 q2
  · intro p hp
    rw [h7] at hp
    obtain ⟨hu, q1, q2⟩ := i.free p hp
    refine ⟨⟨by rw [h5]; exact hu.live, by rw [h6]; exact hu.lt, by rw [h4]; exact hu.size, by rw [h4]; exact hu.evenSize,
      fun b hb => by rw [hnx]; exact hu.cur b ((hact b).1 hb), ?_⟩, by rw [(h3 p).2.1]; exact q1, by rw [(h3 p).2.2, h4]; exact q2⟩
    intro b hb
    rcases List.mem_cons.1 hb with rfl | hb
    · intro e
      exact hu.cur a ha (by rw [hc.next]; exact congrArg some e)
    · exact hu.blk b hb
  · rw [h8, h7]; exact i.num
  · intro b hb
    rcases List.mem_cons.1 hb with rfl | hb
    · exact ⟨(hact a).2 ha, (hins _).2 ⟨hc.live, hc.lo, by dsimp only; omega, hc.even⟩, by rw [h6]; exact hc.lt, hl⟩
    · obtain ⟨q1, q2, q3, q4⟩ := i.blks b hb
      exact ⟨(hact _).2 q1, (hins _).2 q2, by rw [h6]; exact q3, q4⟩
  · intro b hb d hd p q1 q2
    rw [hnx] at q1
    by_cases e : d = a
    · rw [e, h1] at q2
      cases q2
      rcases List.mem_cons.1 hb with rfl | hb
      · exact ⟨e, by dsimp only; omega⟩
      · rw [e] at q1
        obtain ⟨t1, t2⟩ := i.top b hb a ha ⟨c, o⟩ q1 hc.avail
        refine ⟨e.trans t1, ?_⟩
        dsimp only at t2 ⊢
        omega
    · rw [h2 d e] at q2
      rcases List.mem_cons.1 hb with rfl | hb
      · exact absurd (i.dist d a c ((hact d).1 hd) ha q1 hc.next) e
      · exact i.top b hb d ((hact d).1 hd) p q1 q2
  · refine List.pairwise_cons.2 ⟨fun b hb => ?_, i.pair⟩
    by_cases e : b.p.blk = c
    · have := (i.top b hb a ha ⟨c, o⟩ (by rw [hc.next, e]) hc.avail).2
      exact .inr (.inr this)
    · exact .inl (Ne.symm e)
  · intro b hb d hd e
    rcases List.mem_cons.1 hb with rfl | hb <;> rcases List.mem_cons.1 hd with rfl | hd
    · rfl
    · exact (i.top d hd a ha ⟨c, o⟩ (by rw [hc.next]; exact congrArg some e) hc.avail).1
    · exact (i.top b hb a ha ⟨c, o⟩ (by rw [hc.next]; exact congrArg some e.symm) hc.avail).1.symm
    · exact i.own b hb d hd e
  · intro b hb d hd e
    have := (hA b).symm.trans hb
    rcases List.mem_cons.1 hd with rfl | hd
    · rw [← e, ha.1] at this; cases this
    · exact i.junk b this d hd e

/-- One allocation. -/
theorem alloc_ok {oom : Nat → Nat → Bool} {h : Heap} {bs : List Blk} {gone : List Nat} (i : Inv h bs gone) {a : Nat} {n : W}
    (ha : Active h gone a) (hn : 0 < n.toInt)
    (hm : (h.arenas a).total + n.toNat + (h.arenas a).threshold * 1024 + 1024 < 2 ^ 63) (f : Nat) :
    (∃ h' p, alloc oom (f + 3) h a n = .got h' p ∧ Inv h' (⟨a, p, n.toInt⟩ :: bs) gone) ∨
    (∃ h' k t, alloc oom (f + 3) h a n = .null h' ∧ Inv h' bs gone ∧ oom k t = true) := by
  have hs := toInt_small (toNat_of_pos hn)
  have hal := alignUp_toNat n (by omega)
  have hki : (alignUp n).toInt = n.toNat + n.toNat % 2 := by
    rw [toInt_small (by omega), hal]; omega
  unfold alloc
  rw [if_pos ha.1]
  rcases grow_ok (oom := oom) i ha (n := alignUp n) (by omega) (by omega) f with ⟨h', c, o, g1, g2, g3, g4, g5, -⟩ | ⟨h', k, t, g1, g2, g3, g4⟩
  · rw [g1]
    dsimp only
    obtain ⟨h'', k1, k2, -⟩ := handOut_ok (len := n.toInt) g2 (a := a) ⟨by rw [g5]; exact ha.1, ha.2⟩ g3 g4 hn (by omega) (by omega)
    exact .inl ⟨h'', _, k1, k2⟩
  · rw [g1]
    exact .inr ⟨h', k, t, rfl, g2, g4⟩

/-- Initialising an arena. -/
theorem init_ok {h : Heap} {bs : List Blk} {gone : List Nat} (i : Inv h bs gone) {a t : Nat}
    (ha : h.alive a = false) (hg : a ∉ gone) : Inv (init h a t) bs gone := by
  have h1 : (init h a t).arenas a = ⟨.arena, none, none, none, if t = 0 then 10 else t, 0, 0⟩ := by
    simp [init, Heap.setArena]
  have h2 : ∀ b, b ≠ a → (init h a t).arenas b = h.arenas b := by
    intro b e; simp [init, Heap.setArena, e]
  have hact : ∀ b, b ≠ a → (Active (init h a t) gone b ↔ Active h gone b) := by
    intro b e; simp [Active, init, e]
  have hnx : ∀ b c, Active (init h a t) gone b → ((init h a t).arenas b).next = some c →
      b ≠ a ∧ Active h gone b ∧ (h.arenas b).next = some c := by
    intro b c hb hx
    have e : b ≠ a := by
      rintro rfl
      rw [h1] at hx
      cases hx
    rw [h2 b e] at hx
    exact ⟨e, (hact b e).1 hb, hx⟩
  refine ⟨?_, ?_, ?_, ?_, i.num, ?_, ?_, i.pair, i.own, ?_⟩
  · intro b hb
    by_cases e : b = a
    · rw [e, h1]
      refine ⟨rfl, ?_, rfl⟩
      dsimp only
      split <;> omega
    · rw [h2 b e]; exact i.tag b ((hact b e).1 hb)
  · intro b hb
    by_cases e : b = a
    · rw [e]; exact .inl ⟨by rw [h1], by rw [h1], by rw [h1]⟩
    · rcases i.cur b ((hact b e).1 hb) with hx | ⟨c, o, hc⟩
      · exact .inl ⟨by rw [h2 b e]; exact hx.next, by rw [h2 b e]; exact hx.avail, by rw [h2 b e]; exact hx.limit⟩
      · exact .inr ⟨c, o, by rw [h2 b e]; exact hc.next, by rw [h2 b e]; exact hc.avail, by rw [h2 b e]; exact hc.limit,
          hc.live, hc.lt, hc.lo, hc.hi, hc.even, hc.evenSize, hc.tag⟩
  · intro b b' c hb hb' q1 q2
    obtain ⟨-, e2, e3⟩ := hnx b c hb q1
    obtain ⟨-, f2, f3⟩ := hnx b' c hb' q2
    exact i.dist b b' c e2 f2 e3 f3
  · intro p hp
    obtain ⟨hu, q1, q2⟩ := i.free p hp
    refine ⟨⟨hu.live, hu.lt, hu.size, hu.evenSize, ?_, hu.blk⟩, q1, q2⟩
    intro b hb hx
    obtain ⟨-, e2, e3⟩ := hnx b p hb hx
    exact hu.cur b e2 e3
  · intro b hb
    obtain ⟨q1, q2⟩ := i.blks b hb
    have e : b.a ≠ a := by
      intro e
      rw [e, ] at q1
      rw [q1.1] at ha
      cases ha
    exact ⟨(hact _ e).2 q1, q2⟩
  · intro b hb c hc o q1 q2
    obtain ⟨e1, e2, e3⟩ := hnx c _ hc q1
    rw [h2 c e1] at q2
    exact i.top b hb c e2 o e3 q2
  · intro b hb c hc e
    have : b ≠ a := by
      rintro rfl
      simp [init] at hb
    simp only [init, if_neg this] at hb
    exact i.junk b hb c hc e

/-- Clearing while nothing waits for re-use. -/
theorem clear_ok {h : Heap} {bs : List Blk} {gone : List Nat} (i : Inv h bs gone) {a : Nat}
    (ha : Active h gone a) (hf : h.freeList = none) (f : Nat) :
    ∃ h', clear (f + 2) h (.arena a) = .ok h' ∧ Inv h' (bs.filter fun b => b.a ≠ a) (a :: gone) := by
  have hsub : ∀ b, b ∈ bs.filter (fun b => b.a ≠ a) ↔ b ∈ bs ∧ b.a ≠ a := by
    intro b; simp
  rcases i.cur a ha with hx | ⟨c, o, hc⟩
  · refine ⟨h, ?_, ?_⟩
    · rw [clear]
      have : h.valid (.arena a) = true := ha.1
      rw [if_pos this]
      show (match (h.arenas a).next with | none => _ | some p => _) = _
      rw [hx.next]
    · have hact : ∀ b, Active h (a :: gone) b → Active h gone b := fun b hb => ⟨hb.1, fun hg => hb.2 (List.mem_cons_of_mem _ hg)⟩
      refine ⟨fun b hb => i.tag b (hact b hb), fun b hb => i.cur b (hact b hb),
        fun b b' c hb hb' => i.dist b b' c (hact b hb) (hact b' hb'), ?_, i.num, ?_, ?_,
        i.pair.filter _, ?_, ?_⟩
      · intro p hp; rw [hf] at hp; cases hp
      · intro b hb
        obtain ⟨h1, h2⟩ := (hsub b).1 hb
        obtain ⟨q1, q2⟩ := i.blks b h1
        exact ⟨⟨q1.1, by simp [h2, q1.2]⟩, q2⟩
      · intro b hb d hd
        exact i.top b ((hsub b).1 hb).1 d (hact d hd)
      · intro b hb d hd
        exact i.own b ((hsub b).1 hb).1 d ((hsub d).1 hd).1
      · intro b hb d hd
        exact i.junk b hb d ((hsub d).1 hd).1
  · have hnum : h.numFree = 0 := by rw [i.num, hf]; rfl
    have hthr := (i.tag a ha).2.1
    generalize hk : (if (h.chunks c).bytes = (0 : Int) then (h.arenas a).bytes else (h.chunks c).bytes) = k
    refine ⟨{ h with
        arenas := fun b => if b = a then { h.arenas a with avail := (h.arenas a).avail.map fun q => ⟨q.blk, q.off - k⟩ } else h.arenas b
        chunks := fun d => if d = c then { h.chunks c with next := none, limit := (h.arenas a).limit } else h.chunks d
        freeList := some c, numFree := 1 }, ?_, ?_⟩
    · rw [clear]
      have : h.valid (.arena a) = true := ha.1
      rw [if_pos this]
      show (match (h.arenas a).next with | none => _ | some p => _) = _
      rw [hc.next]
      dsimp only
      rw [if_pos hc.live, if_pos hc.tag, if_pos (by rw [hnum]; simpa [Heap.get] using hthr), clear]
      simp only [Heap.valid, Heap.get, Heap.put, Heap.setArena, Heap.setChunk, hf, hc.live, if_true, hnum]
      subst hk
      simp only [Int.zero_add]
      congr 2
      funext d
      by_cases e : d = c <;> simp [e]
    · refine ⟨?_, ?_, ?_, ?_, rfl, ?_, ?_, i.pair.filter _, ?_, ?_⟩
      all_goals skip
      · intro b hb
        have e : b ≠ a := fun e => hb.2 (by simp [e])
        have hb' : Active h gone b := ⟨hb.1, fun hg => hb.2 (List.mem_cons_of_mem _ hg)⟩
        show (if b = a then _ else h.arenas b).tag = _ ∧ 0 < (if b = a then _ else h.arenas b).threshold ∧ (if b = a then _ else h.arenas b).total % 2 = 0
        rw [if_neg e]
        exact i.tag b hb'
      · intro b hb
        have e : b ≠ a := fun e => hb.2 (by simp [e])
        have hb' : Active h gone b := ⟨hb.1, fun hg => hb.2 (List.mem_cons_of_mem _ hg)⟩
        rcases i.cur b hb' with hx | ⟨d, p, hd⟩
        · exact .inl ⟨by simp only [if_neg e]; exact hx.next, by simp only [if_neg e]; exact hx.avail, by simp only [if_neg e]; exact hx.limit⟩
        · have hdc : d ≠ c := fun hdc => e (i.dist b a c hb' ha (hdc ▸ hd.next) hc.next)
          exact .inr ⟨d, p, by simp only [if_neg e]; exact hd.next, by simp only [if_neg e]; exact hd.avail, by simp only [if_neg e]; exact hd.limit,
            hd.live, hd.lt, hd.lo, hd.hi, hd.even, hd.evenSize, by simp only [if_neg hdc]; exact hd.tag⟩
      · intro b b' d hb hb' q1 q2
        have e : b ≠ a := fun e => hb.2 (by simp [e])
        have e' : b' ≠ a := fun e => hb'.2 (by simp [e])
        simp only [if_neg e] at q1
        simp only [if_neg e'] at q2
        exact i.dist b b' d ⟨hb.1, fun hg => hb.2 (List.mem_cons_of_mem _ hg)⟩ ⟨hb'.1, fun hg => hb'.2 (List.mem_cons_of_mem _ hg)⟩ q1 q2
      · intro p hp
        cases hp
        refine ⟨⟨hc.live, hc.lt, ?_, hc.evenSize, ?_, ?_⟩, ?_, ?_⟩
        · have h1 := hc.lo
          have h2 := hc.hi
          show headerSize ≤ h.size c
          omega
        · intro b hb hx
          have e : b ≠ a := fun e => hb.2 (by simp [e])
          simp only [if_neg e] at hx
          exact e (i.dist b a c ⟨hb.1, fun hg => hb.2 (List.mem_cons_of_mem _ hg)⟩ ha hx hc.next)
        · intro b hb hx
          obtain ⟨q1, q2⟩ := (hsub b).1 hb
          exact q2 (i.top b q1 a ha ⟨c, o⟩ (by rw [hc.next, hx]) hc.avail).1.symm
        · simp
        · simp only [if_pos]
          exact hc.limit
      · intro b hb
        obtain ⟨h1, h2⟩ := (hsub b).1 hb
        obtain ⟨q1, q2⟩ := i.blks b h1
        exact ⟨⟨q1.1, by simp [h2, q1.2]⟩, q2⟩
      · intro b hb d hd p q1 q2
        have e : d ≠ a := fun e => hd.2 (by simp [e])
        simp only [if_neg e] at q1 q2
        exact i.top b ((hsub b).1 hb).1 d ⟨hd.1, fun hg => hd.2 (List.mem_cons_of_mem _ hg)⟩ p q1 q2
      · intro b hb d hd
        exact i.own b ((hsub b).1 hb).1 d ((hsub d).1 hd).1
      · intro b hb d hd
        exact i.junk b hb d ((hsub d).1 hd).1

theorem empty_inv : Inv empty [] [] := by
  constructor <;> simp [empty, Active]

theorem mul_toNat {c n : W} (h : c.toNat * n.toNat < 2 ^ 63) : (c * n).toNat = c.toNat * n.toNat := by
  rw [BitVec.toNat_mul, Nat.mod_eq_of_lt (by omega)]

theorem mul_toInt {c n : W} (hc : 0 < c.toInt) (hn : 0 < n.toInt) (h : c.toNat * n.toNat < 2 ^ 63) :
    (c * n).toInt = c.toInt * n.toInt := by
  rw [toInt_small (toNat_of_pos hc), toInt_small (toNat_of_pos hn), toInt_small (by rw [mul_toNat h]; exact h), mul_toNat h,
    Int.natCast_mul]

theorem calloc_ok {oom : Nat → Nat → Bool} {h : Heap} {bs : List Blk} {gone : List Nat} (i : Inv h bs gone) {a : Nat} {c n : W}
    (ha : Active h gone a) (hc : 0 < c.toInt) (hn : 0 < n.toInt)
    (hm : (h.arenas a).total + c.toNat * n.toNat + (h.arenas a).threshold * 1024 + 1024 < 2 ^ 63) (f : Nat)
    (ho : ∀ k t, oom k t = false) :
    ∃ h' p, calloc oom (f + 3) h a c n = .got h' p ∧ Inv h' (⟨a, p, c.toInt * n.toInt⟩ :: bs) gone := by
  have hlt : c.toNat * n.toNat < 2 ^ 63 := by omega
  have he := mul_toInt hc hn hlt
  have hpos : 0 < (c * n).toInt := by rw [he]; exact Int.mul_pos hc hn
  unfold calloc
  rcases alloc_ok (oom := oom) i ha hpos (by rw [mul_toNat hlt]; exact hm) f with ⟨h', p, g1, g2⟩ | ⟨h', k, t, g1, g2, g3⟩
  · rw [g1]
    rw [he] at g2
    exact ⟨h', p, rfl, g2⟩
  · rw [ho] at g3; cases g3

/-- A quiet history. -/
theorem quiet_ok {oom : Nat → Nat → Bool} {f : Nat} (os : List Op) :
    ∀ (h : Heap) (bs : List Blk) (gone : List Nat), Inv h bs gone → Quiet oom (f + 3) gone h bs os →
    ((∃ a c n, Op.calloc a c n ∈ os) → ∀ k t, oom k t = false) →
    ∃ h' bs' gone', runOps oom (f + 3) h bs os = .at h' bs' ∧ Inv h' bs' gone' := by
  induction os with
  | nil => intro h bs gone i _ _; exact ⟨h, bs, gone, rfl, i⟩
  | cons o os ih =>
    intro h bs gone i hq hcal
    obtain ⟨⟨hl, hm, hqu⟩, hrest⟩ := hq
    have hcal' : (∃ a c n, Op.calloc a c n ∈ os) → ∀ k t, oom k t = false := by
      rintro ⟨a, c, n, hx⟩
      exact hcal ⟨a, c, n, List.mem_cons_of_mem _ hx⟩
    have key : ∃ h' bs', stepOp oom (f + 3) h bs o = .at h' bs' ∧ Inv h' bs' (o.gone gone) := by
      cases o with
      | init a t => exact ⟨_, _, rfl, init_ok i hl.1 hqu⟩
      | alloc a n =>
        rcases alloc_ok (oom := oom) i (a := a) ⟨hl.1, hqu⟩ hl.2 hm f with ⟨h', p, g1, g2⟩ | ⟨h', k, t, g1, g2, g3⟩
        · exact ⟨h', _, by simp only [stepOp, g1], g2⟩
        · exact ⟨h', _, by simp only [stepOp, g1], g2⟩
      | calloc a c n =>
        obtain ⟨h', p, g1, g2⟩ := calloc_ok (oom := oom) i (a := a) ⟨hl.1, hqu⟩ hl.2.1 hl.2.2 hm f
          (hcal ⟨a, c, n, List.mem_cons_self⟩)
        exact ⟨h', _, by simp only [stepOp, g1], g2⟩
      | clear a =>
        obtain ⟨h', g1, g2⟩ := clear_ok i (a := a) ⟨hl, hqu.1⟩ hqu.2 (f + 1)
        exact ⟨h', _, by simp only [stepOp, g1], g2⟩
      | free a => exact hqu.elim
    obtain ⟨h', bs', k1, k2⟩ := key
    obtain ⟨h'', bs'', g'', r1, r2⟩ := ih h' bs' _ k2 (hrest h' bs' k1) hcal'
    exact ⟨h'', bs'', g'', by rw [runOps, k1]; exact r1, r2⟩

/-- What handing out leaves alone. -/
theorem handOut_frame {a : Nat} {k : W} {h h' : Heap} {p : Ptr} (he : handOut a k h = .got h' p) :
    (∀ b, (h'.arenas b).total = (h.arenas b).total ∧ (h'.arenas b).next = (h.arenas b).next) ∧ h'.size = h.size ∧ h'.fresh = h.fresh ∧
    h'.freeList = h.freeList ∧ h'.alive = h.alive ∧
    (h'.arenas a).limit = (h.arenas a).limit ∧ (h'.arenas a).avail = some ⟨p.blk, p.off + k.toInt⟩ ∧
    (h'.arenas a).tag = (h.arenas a).tag := by
  have key : ∀ (x : Hdr) b, x.total = (h.arenas a).total → x.next = (h.arenas a).next →
      ((if b = a then x else h.arenas b).total = (h.arenas b).total ∧ (if b = a then x else h.arenas b).next = (h.arenas b).next) := by
    intro x b h1 h2
    by_cases e : b = a
    · rw [if_pos e, e]; exact ⟨h1, h2⟩
    · rw [if_neg e]; exact ⟨rfl, rfl⟩
  unfold handOut at he
  dsimp only at he
  cases hav : (h.arenas a).avail with
  | none => rw [hav] at he; cases he
  | some q =>
    rw [hav] at he
    dsimp only at he
    cases hnx : (h.arenas a).next with
    | none =>
      rw [hnx] at he
      cases he
      refine ⟨fun b => key _ b rfl hnx.symm, rfl, rfl, rfl, rfl, ?_⟩
      simp [Heap.setArena]
    | some c =>
      rw [hnx] at he
      dsimp only at he
      split at he
      · cases he
        refine ⟨fun b => key _ b rfl hnx.symm, rfl, rfl, rfl, rfl, ?_⟩
        simp [Heap.setArena, Heap.setChunk]
      · cases he

/-- The accounting of arenas whose memory never came from another arena. -/
structure Acc (h : Heap) : Prop where
  free : h.freeList = none
  tot : ∀ a, h.alive a = true → (h.arenas a).total = match (h.arenas a).next with | none => 0 | some c => h.size c

theorem alloc_acc {oom : Nat → Nat → Bool} {h : Heap} {bs : List Blk} (i : Inv h bs []) (ac : Acc h) {a : Nat} {n : W}
    (ha : h.alive a = true) (hn : 0 < n.toInt) (ho : ∀ k t, oom k t = false)
    (hm : (h.arenas a).total + n.toNat + (h.arenas a).threshold * 1024 + 1024 < 2 ^ 63) (f : Nat) :
    ∃ h' p, alloc oom (f + 3) h a n = .got h' p ∧ Inv h' (⟨a, p, n.toInt⟩ :: bs) [] ∧ Acc h' ∧ h'.alive = h.alive ∧
      (∀ b, b ≠ a → (h'.arenas b).total = (h.arenas b).total) ∧
      (newChunk h h' = [] ∧ (h'.arenas a).total = (h.arenas a).total ∨ newChunk h h' = [(h'.arenas a).total]) := by
  have hs := toInt_small (toNat_of_pos hn)
  have hal := alignUp_toNat n (by omega)
  have hki : (alignUp n).toInt = n.toNat + n.toNat % 2 := by
    rw [toInt_small (by omega), hal]; omega
  have hact : Active h [] a := ⟨ha, by simp⟩
  unfold alloc
  rw [if_pos ha]
  rcases grow_malloc (oom := oom) i hact (n := alignUp n) (by omega) (by omega) ac.free (f + 1) with
    ⟨h', c, o, g1, g2, g3, g4, g5, g6, g7, g8⟩ | ⟨h', g1, g2, g3, g4⟩
  · rw [show f + 1 + 2 = f + 3 from rfl] at g1
    rw [g1]
    dsimp only
    obtain ⟨h'', k1, k2, k3⟩ := handOut_ok (len := n.toInt) g2 (a := a) ⟨by rw [g5]; exact ha, by simp⟩ g3 g4 hn (by omega) (by omega)
    obtain ⟨f1, f2, f3, f4, f5, -⟩ := handOut_frame k1
    have htot : (h'.arenas a).total = h'.size c := by
      rcases g8 with rfl | ⟨-, -, g8, -⟩
      · rw [ac.tot a ha, g3.next]
      · exact g8
    refine ⟨h'', _, k1, k2, ⟨by rw [f4]; exact g7, ?_⟩, by rw [f5, g5], fun b e => by rw [(f1 b).1, g6 b e], ?_⟩
    · intro b hb
      rw [(f1 b).1, (f1 b).2, f2]
      by_cases e : b = a
      · rw [e, g3.next, htot]
      · rw [g6 b e]
        have hb' : h.alive b = true := by rw [← g5, ← f5]; exact hb
        rw [ac.tot b hb']
        cases hnx : (h.arenas b).next with
        | none => rfl
        | some d =>
          rcases i.cur b ⟨hb', by simp⟩ with hx | ⟨d', p, hd⟩
          · rw [hx.next] at hnx; cases hnx
          · rw [hd.next] at hnx
            cases hnx
            rcases g8 with rfl | ⟨-, -, -, g8⟩
            · rfl
            · exact (g8 d hd.lt).symm
    · rw [(f1 a).1]
      unfold newChunk
      rw [f3, f2]
      rcases g8 with rfl | ⟨g8, g9, -, -⟩
      · left; exact ⟨if_neg (by omega), rfl⟩
      · right; rw [if_pos (by omega), htot, g8]
  · rw [ho] at g4; cases g4

theorem quiet_of_plain {oom : Nat → Nat → Bool} {f : Nat} (os : List Op) : ∀ (h : Heap) (bs : List Blk),
    (∀ o ∈ os, o.allocates = true) → Always oom f Op.plain h bs os → Quiet oom f [] h bs os := by
  induction os with
  | nil => intros; trivial
  | cons o os ih =>
    intro h bs ha hw
    have ho : o.gone [] = [] ∧ o.quiet [] h := by
      have := ha o List.mem_cons_self
      cases o <;> simp [Op.allocates, Op.gone, Op.quiet] at this ⊢
    refine ⟨⟨hw.1.1, hw.1.2, ho.2⟩, fun h' bs' hs => ?_⟩
    rw [ho.1]
    exact ih h' bs' (fun o' h' => ha o' (List.mem_cons_of_mem _ h')) (hw.2 h' bs' hs)

theorem plain_inv {oom : Nat → Nat → Bool} {f : Nat} (os : List Op) : ∀ (h : Heap) (bs : List Blk), Inv h bs [] →
    (∀ o ∈ os, o.allocates = true) → Always oom (f + 3) Op.plain h bs os →
    ((∃ a c n, Op.calloc a c n ∈ os) → ∀ k t, oom k t = false) →
    ∃ h' bs', runOps oom (f + 3) h bs os = .at h' bs' ∧ Inv h' bs' [] := by
  induction os with
  | nil => intro h bs i _ _ _; exact ⟨h, bs, rfl, i⟩
  | cons o os ih =>
    intro h bs i ha hw hcal
    obtain ⟨⟨hl, hm⟩, hrest⟩ := hw
    have hcal' : (∃ a c n, Op.calloc a c n ∈ os) → ∀ k t, oom k t = false := by
      rintro ⟨a, c, n, hx⟩
      exact hcal ⟨a, c, n, List.mem_cons_of_mem _ hx⟩
    have key : ∃ h' bs', stepOp oom (f + 3) h bs o = .at h' bs' ∧ Inv h' bs' [] := by
      have hal := ha o List.mem_cons_self
      cases o with
      | init a t => exact ⟨_, _, rfl, init_ok i hl.1 (by simp)⟩
      | alloc a n =>
        rcases alloc_ok (oom := oom) i (a := a) ⟨hl.1, by simp⟩ hl.2 hm f with ⟨h', p, g1, g2⟩ | ⟨h', k, t, g1, g2, g3⟩
        · exact ⟨h', _, by simp only [stepOp, g1], g2⟩
        · exact ⟨h', _, by simp only [stepOp, g1], g2⟩
      | calloc a c n =>
        obtain ⟨h', p, g1, g2⟩ := calloc_ok (oom := oom) i (a := a) ⟨hl.1, by simp⟩ hl.2.1 hl.2.2 hm f
          (hcal ⟨a, c, n, List.mem_cons_self⟩)
        exact ⟨h', _, by simp only [stepOp, g1], g2⟩
      | clear a => cases hal
      | free a => cases hal
    obtain ⟨h', bs', k1, k2⟩ := key
    obtain ⟨h'', bs'', r1, r2⟩ := ih h' bs' k2 (fun o' h' => ha o' (List.mem_cons_of_mem _ h')) (hrest h' bs' k1) hcal'
    exact ⟨h'', bs'', by rw [runOps, k1]; exact r1, r2⟩

theorem total_ok {oom : Nat → Nat → Bool} {f : Nat} (ho : ∀ k t, oom k t = false) (a : Nat) (os : List Op) :
    ∀ (h : Heap) (bs : List Blk) (l : List Nat), Inv h bs [] → Acc h →
    (∀ o ∈ os, o.allocates = true) → Always oom (f + 3) Op.plain h bs os →
    (if h.alive a then (h.arenas a).total = l.headD 0 else l = []) →
    ∃ h' bs', runOps oom (f + 3) h bs os = .at h' bs' ∧
      (h'.alive a = true → (h'.arenas a).total = (asked oom (f + 3) a h bs os l).headD 0 ∧ (h'.arenas a).tag = .arena) := by
  induction os with
  | nil =>
    intro h bs l i ac _ _ hl
    refine ⟨h, bs, rfl, fun hal => ?_⟩
    rw [if_pos hal] at hl
    exact ⟨hl, (i.tag a ⟨hal, by simp⟩).1⟩
  | cons o os ih =>
    intro h bs l i ac ha hw hl
    obtain ⟨⟨hlg, hm⟩, hrest⟩ := hw
    -- one allocation
    have allocCase : ∀ (b : Nat) (h' : Heap) (l' : List Nat), h.alive b = true → h'.alive = h.alive →
        (∀ c, c ≠ b → (h'.arenas c).total = (h.arenas c).total) →
        (newChunk h h' = [] ∧ (h'.arenas b).total = (h.arenas b).total ∨ newChunk h h' = [(h'.arenas b).total]) →
        l' = (if some b = some a then newChunk h h' ++ l else l) →
        (if h'.alive a then (h'.arenas a).total = l'.headD 0 else l' = []) := by
      intro b h' l' hb h1 h2 h3 hl'
      rw [h1]
      by_cases e : b = a
      · rw [e] at hb h2 h3
        rw [if_pos (congrArg some e)] at hl'
        rw [if_pos hb] at hl ⊢
        rcases h3 with ⟨h3, h4⟩ | h3
        · rw [hl', h3, h4]; exact hl
        · rw [hl', h3]; rfl
      · rw [if_neg (by simpa using e)] at hl'
        rw [hl', h2 a (Ne.symm e)]
        exact hl
    have key : ∃ h' bs', stepOp oom (f + 3) h bs o = .at h' bs' ∧ Inv h' bs' [] ∧ Acc h' ∧
        (if h'.alive a then (h'.arenas a).total = (if o.allocIn = some a then newChunk h h' ++ l else l).headD 0
         else (if o.allocIn = some a then newChunk h h' ++ l else l) = []) := by
      have hal := ha o List.mem_cons_self
      cases o with
      | init b t =>
        refine ⟨_, _, rfl, init_ok i hlg.1 (by simp), ⟨ac.free, ?_⟩, ?_⟩
        · intro c hc
          by_cases e : c = b
          · simp [init, Heap.setArena, e]
          · simp only [init, Heap.setArena, if_neg e]
            simp only [init, if_neg e] at hc
            exact ac.tot c hc
        · have hne : ¬ ((Op.init b t).allocIn = some a) := by simp [Op.allocIn]
          simp only [if_neg hne]
          by_cases e : a = b
          · rw [← e] at hlg
            rw [hlg.1] at hl
            have hl : l = [] := by simpa using hl
            rw [hl]
            simp [init, Heap.setArena, e]
          · simp only [init, Heap.setArena, if_neg e]
            exact hl
      | alloc b n =>
        obtain ⟨h', p, g1, g2, g3, g4, g5, g6⟩ := alloc_acc (oom := oom) i ac (a := b) hlg.1 hlg.2 ho hm f
        exact ⟨h', _, by simp only [stepOp, g1], g2, g3, allocCase b h' _ hlg.1 g4 g5 g6 rfl⟩
      | calloc b c n =>
        have hlt : c.toNat * n.toNat < 2 ^ 63 := by
          have : (h.arenas b).total + c.toNat * n.toNat + (h.arenas b).threshold * 1024 + 1024 < 2 ^ 63 := hm
          omega
        have he := mul_toInt hlg.2.1 hlg.2.2 hlt
        have hpos : 0 < (c * n).toInt := by rw [he]; exact Int.mul_pos hlg.2.1 hlg.2.2
        obtain ⟨h', p, g1, g2, g3, g4, g5, g6⟩ := alloc_acc (oom := oom) i ac (a := b) hlg.1 hpos ho
          (by rw [mul_toNat hlt]; exact hm) f
        rw [he] at g2
        exact ⟨h', _, by simp only [stepOp, calloc, g1], g2, g3, allocCase b h' _ hlg.1 g4 g5 g6 rfl⟩
      | clear b => cases hal
      | free b => cases hal
    obtain ⟨h', bs', k1, k2, k3, k4⟩ := key
    obtain ⟨h'', bs'', r1, r2⟩ := ih h' bs' _ k2 k3 (fun o' h' => ha o' (List.mem_cons_of_mem _ h')) (hrest h' bs' k1) k4
    refine ⟨h'', bs'', by rw [runOps, k1]; exact r1, fun hx => ?_⟩
    rw [asked, k1]
    exact r2 hx

/-- What capacity means, in a state satisfying the invariant. -/
theorem capacity_ok {h : Heap} {bs : List Blk} {gone : List Nat} (i : Inv h bs gone) {a : Nat} (ha : Active h gone a) :
    ∃ d : Int, capacity h a = some d ∧ 0 ≤ d ∧ ∀ (oom : Nat → Nat → Bool) (f : Nat) (n : W), 0 < n.toInt →
      (h.arenas a).total + n.toNat + (h.arenas a).threshold * 1024 + 1024 < 2 ^ 63 →
      (n.toInt ≤ d → ∃ h' p, alloc oom (f + 3) h a n = .got h' p ∧ (h.arenas a).next = some p.blk ∧ h'.fresh = h.fresh ∧
        h'.freeList = h.freeList ∧ capacity h' a = some (d - (n.toInt + n.toInt % 2))) ∧
      (d < n.toInt → ∀ h' p, alloc oom (f + 3) h a n = .got h' p → (h.arenas a).next ≠ some p.blk) := by
  have htag := (i.tag a ha).1
  have hdiff : ∃ d : Int, diff (h.arenas a).limit (h.arenas a).avail = some d ∧ 0 ≤ d ∧ d % 2 = 0 ∧
      (0 < d → ∃ c o, CurOk h a c o ∧ d = h.size c - o) := by
    rcases i.cur a ha with hx | ⟨c, o, hc⟩
    · exact ⟨0, by rw [hx.limit, hx.avail]; rfl, by omega, by omega, fun hd => by omega⟩
    · have h1 := hc.hi
      have h2 := hc.even
      have h3 := hc.evenSize
      exact ⟨h.size c - o, by rw [hc.limit, hc.avail]; simp [diff], by omega, by omega, fun _ => ⟨c, o, hc, rfl⟩⟩
  obtain ⟨d, hd, hd0, hd2, hdc⟩ := hdiff
  refine ⟨d, by unfold capacity; rw [if_pos htag, hd], hd0, ?_⟩
  intro oom f n hn hm
  have hs := toInt_small (toNat_of_pos hn)
  have hal := alignUp_toNat n (by omega)
  have hki : (alignUp n).toInt = n.toNat + n.toNat % 2 := by
    rw [toInt_small (by omega), hal]; omega
  constructor
  · intro hle
    obtain ⟨c, o, hc, hdd⟩ := hdc (by omega)
    have hle' : (alignUp n).toInt ≤ h.size c - o := by omega
    obtain ⟨h', k1, -, -⟩ := handOut_ok (len := n.toInt) i ha hc hle' hn (by omega) (by omega)
    obtain ⟨f1, f2, f3, f4, f5, f6, f7, f8⟩ := handOut_frame k1
    refine ⟨h', ⟨c, o⟩, ?_, hc.next, f3, f4, ?_⟩
    · unfold alloc
      rw [if_pos ha.1, grow_enough hc (f + 2) hle']
      exact k1
    · unfold capacity
      rw [f8, if_pos htag, f6, f7, hc.limit]
      simp only [diff, if_true]
      refine congrArg some ?_
      rw [hki]
      omega
  · intro hlt h' p hgot hnx
    unfold alloc at hgot
    rw [if_pos ha.1] at hgot
    rcases grow_ok (oom := oom) i ha (n := alignUp n) (by omega) (by omega) f with
      ⟨h1, c, o, g1, g2, g3, g4, g5, g6⟩ | ⟨h1, k, t, g1, g2, g3, g4⟩
    · rw [g1] at hgot
      dsimp only at hgot
      unfold handOut at hgot
      dsimp only at hgot
      rw [g3.avail, g3.next] at hgot
      dsimp only at hgot
      rw [if_pos g3.live] at hgot
      cases hgot
      rcases g6 with rfl | g6
      · rw [g3.limit, g3.avail] at hd
        simp only [diff, if_true, Option.some.injEq] at hd
        omega
      · exact g6 hnx
    · rw [g1] at hgot
      cases hgot

end Verif.Ar
