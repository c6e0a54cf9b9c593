import Verif.Spec.Asm
namespace Verif.Xa
variable {W : Nat}

theorem peek_lt (mem : BitVec W → BitVec 8) (n : Nat) (p : BitVec W) : peek mem n p < 256 ^ n := by
  induction n generalizing p with
  | zero => exact Nat.one_pos
  | succ n ih =>
    have h1 := ih (p + 1)
    have h2 := (mem p).isLt
    unfold peek
    rw [Nat.pow_succ]
    omega

theorem inside_succ {p q : BitVec W} {n : Nat} (h : Inside (p + 1) n q) : Inside p (n + 1) q := by
  obtain ⟨k, hk, e⟩ := h
  refine ⟨k + 1, by omega, ?_⟩
  rw [e, BitVec.add_assoc, BitVec.add_comm 1, BitVec.ofNat_add]
  rfl

theorem inside_zero {p : BitVec W} {n : Nat} : Inside p (n + 1) p := ⟨0, by omega, by simp⟩

theorem poke_out {mem : BitVec W → BitVec 8} {n : Nat} {p q : BitVec W} {v : Nat} (h : ¬ Inside p n q) : poke mem n p v q = mem q := by
  induction n generalizing mem p v with
  | zero => rfl
  | succ n ih =>
    unfold poke
    rw [ih (fun hi => h (inside_succ hi))]
    exact if_neg (fun e : q = p => h (by rw [e]; exact inside_zero))

theorem peek_congr {mem mem' : BitVec W → BitVec 8} {n : Nat} {p : BitVec W} (h : ∀ q, Inside p n q → mem q = mem' q) :
    peek mem n p = peek mem' n p := by
  induction n generalizing p with
  | zero => rfl
  | succ n ih =>
    unfold peek
    rw [ih (fun q hq => h q (inside_succ hq)), h p inside_zero]

theorem not_inside_succ {p : BitVec W} {n : Nat} (h : n + 1 ≤ 2 ^ W) : ¬ Inside (p + 1) n p := by
  rintro ⟨k, hk, e⟩
  have e1 := congrArg BitVec.toNat e
  rw [BitVec.add_assoc, BitVec.toNat_add, BitVec.toNat_add, show (1 : BitVec W) = BitVec.ofNat W 1 from rfl, BitVec.toNat_ofNat, BitVec.toNat_ofNat] at e1
  have hp := p.isLt
  have h2 : k < 2 ^ W := by omega
  rw [Nat.mod_eq_of_lt h2] at e1
  have h3 : (1 % 2 ^ W + k) % 2 ^ W = 1 + k ∨ 1 + k = 2 ^ W := by
    by_cases hw : 1 + k < 2 ^ W
    · left
      rw [Nat.mod_eq_of_lt (by omega : 1 < 2 ^ W), Nat.mod_eq_of_lt hw]
    · omega
  rcases h3 with h3 | h3
  · rw [h3] at e1
    have h1k : 1 + k < 2 ^ W := h3 ▸ Nat.mod_lt _ (by omega)
    by_cases hc : p.toNat + (1 + k) < 2 ^ W
    · rw [Nat.mod_eq_of_lt hc] at e1; omega
    · rw [Nat.mod_eq_sub_mod (by omega), Nat.mod_eq_of_lt (by omega)] at e1
      omega
  · omega

theorem peek_poke {mem : BitVec W → BitVec 8} {n : Nat} {p : BitVec W} {v : Nat} (h : n ≤ 2 ^ W) : peek (poke mem n p v) n p = v % 256 ^ n := by
  induction n generalizing mem p v with
  | zero => exact (Nat.mod_one v).symm
  | succ n ih =>
    unfold poke peek
    rw [ih (by omega), poke_out (not_inside_succ h), if_pos rfl, BitVec.toNat_ofNat, show 256 ^ (n + 1) = 256 * 256 ^ n from (Nat.pow_succ ..).trans (Nat.mul_comm _ _), Nat.mod_mul]

theorem peek_poke_apart {mem : BitVec W → BitVec 8} {n k : Nat} {p q : BitVec W} {v : Nat} (h : Apart p n q k) :
    peek (poke mem k q v) n p = peek mem n p :=
  peek_congr fun x hx => poke_out (h x hx)

theorem poke_peek (mem : BitVec W → BitVec 8) (n : Nat) (p : BitVec W) : poke mem n p (peek mem n p) = mem := by
  induction n generalizing mem p with
  | zero => rfl
  | succ n ih =>
    unfold poke peek
    have h2 := (mem p).isLt
    have e1 : (fun q => if q = p then BitVec.ofNat 8 ((mem p).toNat + 256 * peek mem n (p + 1)) else mem q) = mem := by
      funext q
      by_cases e : q = p
      · rw [if_pos e, e]
        apply BitVec.eq_of_toNat_eq
        rw [BitVec.toNat_ofNat]
        omega
      · rw [if_neg e]
    rw [e1, show ((mem p).toNat + 256 * peek mem n (p + 1)) / 256 = peek mem n (p + 1) by omega]
    exact ih mem (p + 1)

theorem bytes_le {W n : Nat} (h : 8 * n ≤ W) : n ≤ 2 ^ W := by
  have : W < 2 ^ W := Nat.lt_two_pow_self
  omega

theorem pow_dvd {W n : Nat} (h : 8 * n ≤ W) : 256 ^ n ∣ 2 ^ W := by
  rw [show (256 : Nat) = 2 ^ 8 from rfl, ← Nat.pow_mul]
  exact Nat.pow_dvd_pow 2 h

theorem St.set_same (s : St W) (r : Reg) (v : BitVec W) : (s.set r v).reg r = v := if_pos rfl

theorem St.set_ne (s : St W) {r q : Reg} (v : BitVec W) (h : q ≠ r) : (s.set r v).reg q = s.reg q := if_neg h

theorem St.low_setLow {n : Nat} (s : St W) (r : Reg) {v : Nat} (h : 8 * n ≤ W) (hv : v < 256 ^ n) : (s.setLow n r v).low n r = v := by
  unfold St.low St.setLow
  rw [St.set_same, BitVec.toNat_ofNat, Nat.mod_mod_of_dvd _ (pow_dvd h)]
  split
  · rw [Nat.add_comm, Nat.add_mul_mod_self_right, Nat.mod_eq_of_lt hv]
  · exact Nat.mod_eq_of_lt hv

theorem St.setLow_ne {n : Nat} (s : St W) {r q : Reg} (v : Nat) (h : q ≠ r) : (s.setLow n r v).reg q = s.reg q := if_neg h

theorem St.low_setLow_ne {n k : Nat} (s : St W) {r q : Reg} (v : Nat) (h : q ≠ r) : (s.setLow n r v).low k q = s.low k q := by
  unfold St.low; rw [St.setLow_ne s v h]

theorem low_lt (s : St W) (n : Nat) (r : Reg) : s.low n r < 256 ^ n := Nat.mod_lt _ (Nat.pow_pos (by decide))

theorem cmpxchg_spec {n : Nat} {m : MemOp W} {r : Reg} (h : 8 * n ≤ W) (s : St W) :
    (exec s (.cmpxchg n r m)).low n .a = peek s.mem n (m.addr s) ∧
    peek (exec s (.cmpxchg n r m)).mem n (m.addr s) = casValue (s.low n .a) (s.low n r) (peek s.mem n (m.addr s)) ∧
    Elsewhere (Inside (m.addr s) n) s (exec s (.cmpxchg n r m)) ∧ Keeps (· = .a) s (exec s (.cmpxchg n r m)) := by
  unfold exec casValue
  dsimp only
  by_cases e : peek s.mem n (m.addr s) = s.low n .a
  · rw [if_pos e, if_pos e]
    refine ⟨e.symm, ?_, fun q hq => poke_out hq, fun _ _ => rfl⟩
    rw [peek_poke (bytes_le h)]
    exact Nat.mod_eq_of_lt (low_lt s n r)
  · rw [if_neg e, if_neg e]
    exact ⟨St.low_setLow _ _ h (peek_lt _ _ _), rfl, fun _ _ => rfl, fun q hq => St.setLow_ne _ _ hq⟩

theorem xchg_spec {n : Nat} {m : MemOp W} {r : Reg} (h : 8 * n ≤ W) (s : St W) :
    (exec s (.xchg n r m)).low n r = peek s.mem n (m.addr s) ∧ peek (exec s (.xchg n r m)).mem n (m.addr s) = s.low n r ∧
    Elsewhere (Inside (m.addr s) n) s (exec s (.xchg n r m)) ∧ Keeps (· = r) s (exec s (.xchg n r m)) := by
  refine ⟨St.low_setLow s r h (peek_lt _ _ _), ?_, fun q hq => poke_out hq, fun q hq => St.setLow_ne _ _ hq⟩
  show peek (poke _ _ _ _) _ _ = _
  rw [peek_poke (bytes_le h)]
  exact Nat.mod_eq_of_lt (low_lt s n r)

theorem xadd_spec {n : Nat} {m : MemOp W} {r : Reg} (h : 8 * n ≤ W) (s : St W) :
    (exec s (.xadd n r m)).low n r = peek s.mem n (m.addr s) ∧
    peek (exec s (.xadd n r m)).mem n (m.addr s) = (peek s.mem n (m.addr s) + s.low n r) % 256 ^ n ∧
    Elsewhere (Inside (m.addr s) n) s (exec s (.xadd n r m)) ∧ Keeps (· = r) s (exec s (.xadd n r m)) :=
  ⟨St.low_setLow s r h (peek_lt _ _ _), peek_poke (bytes_le h), fun _ hq => poke_out hq, fun _ hq => St.setLow_ne _ _ hq⟩

theorem add0_spec (n : Nat) (m : MemOp W) (s : St W) : exec s (.add0 n m) = s := by
  show { s with mem := poke s.mem n (m.addr s) (peek s.mem n (m.addr s)) } = s
  rw [poke_peek]

theorem cmpxchg8b_spec {m : MemOp 32} (s : St 32) :
    (exec s (.cmpxchg8b m)).low 4 .a + 2 ^ 32 * (exec s (.cmpxchg8b m)).low 4 .d = peek s.mem 8 (m.addr s) ∧
    peek (exec s (.cmpxchg8b m)).mem 8 (m.addr s) =
      casValue (s.low 4 .a + 2 ^ 32 * s.low 4 .d) (s.low 4 .b + 2 ^ 32 * s.low 4 .c) (peek s.mem 8 (m.addr s)) ∧
    Elsewhere (Inside (m.addr s) 8) s (exec s (.cmpxchg8b m)) ∧ Keeps (fun r => r = .a ∨ r = .d) s (exec s (.cmpxchg8b m)) := by
  unfold exec casValue
  dsimp only
  by_cases e : peek s.mem 8 (m.addr s) = s.low 4 .a + 2 ^ 32 * s.low 4 .d
  · rw [if_pos e, if_pos e]
    refine ⟨e.symm, ?_, fun q hq => poke_out hq, fun _ _ => rfl⟩
    rw [peek_poke (by decide)]
    have h1 := low_lt s 4 .b
    have h2 := low_lt s 4 .c
    omega
  · rw [if_neg e, if_neg e]
    have h := peek_lt s.mem 8 (m.addr s)
    refine ⟨?_, rfl, fun _ _ => rfl, fun q hq => ?_⟩
    · rw [St.low_setLow_ne _ _ (by decide), St.low_setLow _ _ (by decide) (by omega), St.low_setLow _ _ (by decide) (by omega)]
      omega
    · rw [St.setLow_ne _ _ (fun e => hq (.inr e)), St.setLow_ne _ _ (fun e => hq (.inl e))]

theorem addr_congr {m : MemOp W} {s s' : St W} (h : ∀ r, m.Uses r → s'.reg r = s.reg r) : m.addr s' = m.addr s := by
  obtain ⟨base, index, disp⟩ := m
  unfold MemOp.addr
  dsimp only
  cases base with
  | none =>
    cases index with
    | none => rfl
    | some rk => dsimp only; rw [h rk.1 (.inr ⟨rk.2, rfl⟩)]
  | some r =>
    dsimp only
    rw [h r (.inl rfl)]
    cases index with
    | none => rfl
    | some rk => dsimp only; rw [h rk.1 (.inr ⟨rk.2, rfl⟩)]

theorem ofNat_toNat' (x : BitVec W) : BitVec.ofNat W x.toNat = x := by
  apply BitVec.eq_of_toNat_eq
  rw [BitVec.toNat_ofNat]
  exact Nat.mod_eq_of_lt x.isLt

theorem Apart.symm {p q : BitVec W} {n k : Nat} (h : Apart p n q k) : Apart q k p n := fun x h1 h2 => h x h2 h1

/-- After `push ebx`. -/
def pushed (s : St 32) : St 32 := { s.set .sp (s.reg .sp - 4) with mem := poke s.mem 4 (s.reg .sp - 4) (s.reg .b).toNat }

theorem push_eq (s : St 32) : exec s (.push .b) = pushed s := rfl

theorem pushed_sp (s : St 32) : (pushed s).reg .sp = s.reg .sp - 4 := St.set_same s .sp _

theorem pushed_ne (s : St 32) {q : Reg} (h : q ≠ .sp) : (pushed s).reg q = s.reg q := St.set_ne s _ h

/-- After `push ebx; xchg r, ebx`. -/
def mid (s : St 32) (r : Reg) : St 32 := ((pushed s).set r ((pushed s).reg .b)).set .b ((pushed s).reg r)

theorem swap_eq (s : St 32) (r : Reg) : exec (pushed s) (.swap r .b) = mid s r := rfl

/-- `pop ebx`. -/
def popped (t : St 32) : St 32 := (t.set .sp (t.reg .sp + 4)).set .b (BitVec.ofNat 32 (peek t.mem 4 (t.reg .sp)))

theorem pop_eq (t : St 32) : exec t (.pop .b) = popped t := rfl

theorem mid_sp (s : St 32) {r : Reg} (hr : r ≠ .sp) : (mid s r).reg .sp = s.reg .sp - 4 := by
  unfold mid
  rw [St.set_ne _ _ (by decide), St.set_ne _ _ (fun e => hr e.symm), pushed_sp]

theorem mid_b (s : St 32) {r : Reg} (hr : r ≠ .sp) : (mid s r).reg .b = s.reg r := by
  unfold mid
  rw [St.set_same, pushed_ne s hr]

theorem mid_r (s : St 32) {r : Reg} (hr : r ≠ .b) : (mid s r).reg r = s.reg .b := by
  unfold mid
  rw [St.set_ne _ _ hr, St.set_same, pushed_ne s (by decide)]

theorem mid_ne (s : St 32) {r q : Reg} (h1 : q ≠ .sp) (h2 : q ≠ .b) (h3 : q ≠ r) : (mid s r).reg q = s.reg q := by
  unfold mid
  rw [St.set_ne _ _ h2, St.set_ne _ _ h3, pushed_ne s h1]

theorem mid_mem (s : St 32) (r : Reg) : (mid s r).mem = poke s.mem 4 (s.reg .sp - 4) (s.reg .b).toNat := rfl

theorem mid_low (s : St 32) {r q : Reg} (h1 : q ≠ .sp) (h2 : q ≠ .b) (h3 : q ≠ r) : (mid s r).low 4 q = s.low 4 q := by
  unfold St.low; rw [mid_ne s h1 h2 h3]

/-- The 64-bit compare-and-swap, at the address the memory operand has after the first two instructions. -/
theorem cas64_spec {s : St 32} {r : Reg} {m : MemOp 32} {p : BitVec 32} (hr : r ≠ .a ∧ r ≠ .d ∧ r ≠ .c ∧ r ≠ .sp) (hm : m.addr (mid s r) = p)
    (hp : Apart p 8 (s.reg .sp - 4) 4) :
    (runs s (gccCas64 r m)).low 4 .a + 2 ^ 32 * (runs s (gccCas64 r m)).low 4 .d = peek s.mem 8 p ∧
    peek (runs s (gccCas64 r m)).mem 8 p = casValue (s.low 4 .a + 2 ^ 32 * s.low 4 .d) (s.low 4 r + 2 ^ 32 * s.low 4 .c) (peek s.mem 8 p) ∧
    Elsewhere (fun x => Inside p 8 x ∨ Inside (s.reg .sp - 4) 4 x) s (runs s (gccCas64 r m)) ∧
    Keeps (fun x => x = .a ∨ x = .d ∨ x = r ∧ r ≠ .b) s (runs s (gccCas64 r m)) ∧ (r ≠ .b → (runs s (gccCas64 r m)).reg r = s.reg .b) := by
  obtain ⟨ha, hd, hc, hs⟩ := hr
  subst hm
  obtain ⟨c1, c2, c3, c4⟩ := cmpxchg8b_spec (m := m) (mid s r)
  have e0 : peek (mid s r).mem 8 (m.addr (mid s r)) = peek s.mem 8 (m.addr (mid s r)) := peek_poke_apart hp
  have eb : (mid s r).low 4 .b = s.low 4 r := by unfold St.low; rw [mid_b s hs]
  rw [e0, mid_low s (by decide) (by decide) (fun e => ha e.symm), mid_low s (by decide) (by decide) (fun e => hd e.symm),
    mid_low s (by decide) (by decide) (fun e => hc e.symm), eb] at c2
  rw [e0] at c1
  have er : runs s (gccCas64 r m) = popped (exec (mid s r) (.cmpxchg8b m)) := by
    simp only [runs, gccCas64, List.foldl_cons, List.foldl_nil, push_eq, swap_eq, pop_eq]
  generalize exec (mid s r) (.cmpxchg8b m) = t at c1 c2 c3 c4 er
  have hsp : t.reg .sp = s.reg .sp - 4 := by rw [c4 .sp (by simp), mid_sp s hs]
  have hpop : peek t.mem 4 (s.reg .sp - 4) = (s.reg .b).toNat := by
    have : peek t.mem 4 (s.reg .sp - 4) = peek (mid s r).mem 4 (s.reg .sp - 4) := peek_congr fun q hq => c3 q (hp.symm q hq)
    rw [this, mid_mem, peek_poke (by decide)]
    exact Nat.mod_eq_of_lt (s.reg .b).isLt
  have tm : (runs s (gccCas64 r m)).mem = t.mem := by rw [er]; rfl
  have tb : (runs s (gccCas64 r m)).reg .b = s.reg .b := by
    rw [er]
    unfold popped
    rw [St.set_same, hsp, hpop]
    exact ofNat_toNat' _
  have ts : (runs s (gccCas64 r m)).reg .sp = s.reg .sp := by
    rw [er]
    unfold popped
    rw [St.set_ne _ _ (by decide), St.set_same, hsp]
    exact BitVec.sub_add_cancel _ _
  have tn : ∀ q, q ≠ .b → q ≠ .sp → (runs s (gccCas64 r m)).reg q = t.reg q := by
    intro q h1 h2
    rw [er]
    unfold popped
    rw [St.set_ne _ _ h1, St.set_ne _ _ h2]
  refine ⟨?_, by rw [tm]; exact c2, ?_, ?_, ?_⟩
  · unfold St.low at c1 ⊢
    rw [tn .a (by decide) (by decide), tn .d (by decide) (by decide)]
    exact c1
  · intro q hq
    rw [tm, c3 q (fun h => hq (.inl h)), mid_mem]
    exact poke_out fun h => hq (.inr h)
  · intro q hq
    by_cases h1 : q = .b
    · rw [h1, tb]
    by_cases h2 : q = .sp
    · rw [h2, ts]
    have h3 : q ≠ r := fun e => hq (.inr (.inr ⟨e, fun e' => h1 (e.trans e')⟩))
    rw [tn q h1 h2, c4 q (fun h => hq (h.elim .inl (fun h => .inr (.inl h)))), mid_ne s h2 h1 h3]
  · intro hb
    rw [tn r hb hs, c4 r (fun h => h.elim ha hd), mid_r s hb]

/-- When the memory operand is not disturbed by the first two instructions. -/
theorem mid_addr {s : St 32} {r : Reg} {m : MemOp 32} (hs : r ≠ .sp) (h1 : ¬ m.Uses .sp) (h2 : r = .b ∨ ¬ m.Uses .b ∧ ¬ m.Uses r) :
    m.addr (mid s r) = m.addr s := by
  apply addr_congr
  intro q hq
  have q1 : q ≠ .sp := fun e => h1 (e ▸ hq)
  rcases h2 with h2 | ⟨h2, h3⟩
  · by_cases e : q = .b
    · rw [e, mid_b s hs, h2]
    · exact mid_ne s q1 e (fun h => e (h.trans h2))
  · exact mid_ne s q1 (fun e => h2 (e ▸ hq)) (fun e => h3 (e ▸ hq))

/-! ## Microsoft syntax -/

theorem load_mem (s : St W) (n : Nat) (r : Reg) (m : MemOp W) : (exec s (.load n r m)).mem = s.mem := rfl

theorem load_low (s : St W) {n : Nat} (r : Reg) (m : MemOp W) (h : 8 * n ≤ W) : (exec s (.load n r m)).low n r = peek s.mem n (m.addr s) :=
  St.low_setLow s r h (peek_lt _ _ _)

theorem load_ne (s : St W) {n : Nat} {r q : Reg} (m : MemOp W) (h : q ≠ r) : (exec s (.load n r m)).reg q = s.reg q := St.setLow_ne s _ h

theorem load_low_ne (s : St W) {n k : Nat} {r q : Reg} (m : MemOp W) (h : q ≠ r) : (exec s (.load n r m)).low k q = s.low k q :=
  St.low_setLow_ne s _ h

theorem load4_reg (s : St 32) (r : Reg) (m : MemOp 32) : (exec s (.load 4 r m)).reg r = BitVec.ofNat 32 (peek s.mem 4 (m.addr s)) := St.set_same s r _

theorem var_addr (s : St 32) (off : BitVec 32) : (var off).addr s = s.reg .bp + off := by
  show s.reg .bp + 0 + off = _
  rw [show (0 : BitVec 32) = 0#32 from rfl, BitVec.add_zero]

theorem at_addr (s : St 32) (r : Reg) : (at_ r).addr s = s.reg r := by
  show s.reg r + 0 + 0 = _
  rw [show (0 : BitVec 32) = 0#32 from rfl, BitVec.add_zero, BitVec.add_zero]

theorem var_load (s : St 32) {n : Nat} {r : Reg} (m : MemOp 32) (off : BitVec 32) (h : r ≠ .bp) :
    (var off).addr (exec s (.load n r m)) = (var off).addr s := by
  rw [var_addr, var_addr, load_ne s m (fun e => h e.symm)]

/-- The end of the operations: the result is stored. -/
theorem store_spec {s t : St 32} {n : Nat} {off p : BitVec 32} {r : Reg} {v f : Nat} {R : Reg → Prop} (hn : 8 * n ≤ 32) (ha : Apart p n (s.reg .bp + off) n)
    (h1 : t.low n r = v) (h2 : peek t.mem n p = f) (h3 : Elsewhere (Inside p n) s t) (h4 : Keeps R s t) (hb : ¬ R .bp) :
    peek (exec t (.store n (var off) r)).mem n (s.reg .bp + off) = v ∧ peek (exec t (.store n (var off) r)).mem n p = f ∧
    Elsewhere (fun x => Inside p n x ∨ Inside (s.reg .bp + off) n x) s (exec t (.store n (var off) r)) ∧ Keeps R s (exec t (.store n (var off) r)) := by
  have e : (exec t (.store n (var off) r)).mem = poke t.mem n (s.reg .bp + off) v := by
    show poke t.mem n ((var off).addr t) (t.low n r) = _
    rw [h1, var_addr, h4 .bp hb]
  rw [e]
  refine ⟨?_, by rw [peek_poke_apart ha]; exact h2, ?_, h4⟩
  · rw [peek_poke (bytes_le hn)]
    exact Nat.mod_eq_of_lt (h1 ▸ low_lt t n r)
  · intro q hq
    rw [e, poke_out (fun h => hq (.inr h)), h3 q (fun h => hq (.inl h))]

theorem keeps_cad (s : St 32) {n k l : Nat} (m1 m2 m3 : MemOp 32) {q : Reg} (hq : ¬ (q = .a ∨ q = .c ∨ q = .d)) :
    (exec (exec (exec s (.load n .c m1)) (.load k .a m2)) (.load l .d m3)).reg q = s.reg q := by
  rw [load_ne _ _ (fun e => hq (.inr (.inr e))), load_ne _ _ (fun e => hq (.inl e)), load_ne _ _ (fun e => hq (.inr (.inl e)))]

theorem msCas_spec (s : St 32) (f : Frame) {n : Nat} (hn : 8 * n ≤ 32) {p : BitVec 32} (hp : BitVec.ofNat 32 (peek s.mem 4 (s.reg .bp + f.dst)) = p)
    (ha : Apart p n (s.reg .bp + f.result) n) :
    peek (runs s (msCas f n)).mem n (s.reg .bp + f.result) = peek s.mem n p ∧
    peek (runs s (msCas f n)).mem n p = casValue (peek s.mem n (s.reg .bp + f.expected)) (peek s.mem n (s.reg .bp + f.desired)) (peek s.mem n p) ∧
    Elsewhere (fun x => Inside p n x ∨ Inside (s.reg .bp + f.result) n x) s (runs s (msCas f n)) ∧
    Keeps (fun q => q = .a ∨ q = .c ∨ q = .d) s (runs s (msCas f n)) := by
  let t := exec (exec (exec s (.load 4 .c (var f.dst))) (.load n .a (var f.expected))) (.load n .d (var f.desired))
  have tm : t.mem = s.mem := rfl
  have tc : (at_ .c).addr t = p := by
    rw [at_addr]
    show (exec (exec (exec s _) _) _).reg .c = _
    rw [load_ne _ _ (by decide), load_ne _ _ (by decide), load4_reg, var_addr, hp]
  have ta : t.low n .a = peek s.mem n (s.reg .bp + f.expected) := by
    show (exec (exec (exec s _) _) _).low n .a = _
    rw [load_low_ne _ _ (by decide), load_low _ _ _ hn, var_load _ _ _ (by decide), var_addr]
    rfl
  have td : t.low n .d = peek s.mem n (s.reg .bp + f.desired) := by
    show (exec (exec (exec s _) _) _).low n .d = _
    rw [load_low _ _ _ hn, var_load _ _ _ (by decide), var_load _ _ _ (by decide), var_addr]
    rfl
  have tk : Keeps (fun q => q = .a ∨ q = .c ∨ q = .d) s t := fun q hq => keeps_cad s _ _ _ hq
  obtain ⟨c1, c2, c3, c4⟩ := cmpxchg_spec (n := n) (m := at_ .c) (r := .d) hn t
  rw [tc, tm] at c1 c2
  rw [tc] at c3
  rw [ta, td] at c2
  have er : runs s (msCas f n) = exec (exec t (.cmpxchg n .d (at_ .c))) (.store n (var f.result) .a) := rfl
  rw [er]
  exact store_spec hn ha c1 c2 (fun q hq => by rw [c3 q hq, tm]) (fun q hq => by rw [c4 q (fun e => hq (.inl e)), tk q hq]) (by simp)

theorem msExchange_spec (s : St 32) (f : Frame) {n : Nat} (hn : 8 * n ≤ 32) {p : BitVec 32} (hp : BitVec.ofNat 32 (peek s.mem 4 (s.reg .bp + f.dst)) = p)
    (ha : Apart p n (s.reg .bp + f.result) n) :
    peek (runs s (msExchange f n)).mem n (s.reg .bp + f.result) = peek s.mem n p ∧
    peek (runs s (msExchange f n)).mem n p = peek s.mem n (s.reg .bp + f.src) ∧
    Elsewhere (fun x => Inside p n x ∨ Inside (s.reg .bp + f.result) n x) s (runs s (msExchange f n)) ∧
    Keeps (fun q => q = .a ∨ q = .c) s (runs s (msExchange f n)) := by
  let t := exec (exec s (.load 4 .c (var f.dst))) (.load n .a (var f.src))
  have tm : t.mem = s.mem := rfl
  have tc : (at_ .c).addr t = p := by
    rw [at_addr]
    show (exec (exec s _) _).reg .c = _
    rw [load_ne _ _ (by decide), load4_reg, var_addr, hp]
  have ta : t.low n .a = peek s.mem n (s.reg .bp + f.src) := by
    show (exec (exec s _) _).low n .a = _
    rw [load_low _ _ _ hn, var_load _ _ _ (by decide), var_addr]
    rfl
  have tk : Keeps (fun q => q = .a ∨ q = .c) s t := fun q hq => by
    show (exec (exec s _) _).reg q = _
    rw [load_ne _ _ (fun e => hq (.inl e)), load_ne _ _ (fun e => hq (.inr e))]
  obtain ⟨c1, c2, c3, c4⟩ := xchg_spec (n := n) (m := at_ .c) (r := .a) hn t
  rw [tc, tm] at c1
  rw [tc] at c2
  rw [tc] at c3
  rw [ta] at c2
  have er : runs s (msExchange f n) = exec (exec t (.xchg n .a (at_ .c))) (.store n (var f.result) .a) := rfl
  rw [er]
  exact store_spec hn ha c1 c2 (fun q hq => by rw [c3 q hq, tm]) (fun q hq => by rw [c4 q (fun e => hq (.inl e)), tk q hq]) (by simp)

theorem msFetchAdd_spec (s : St 32) (f : Frame) {n : Nat} (hn : 8 * n ≤ 32) {p : BitVec 32} (hp : BitVec.ofNat 32 (peek s.mem 4 (s.reg .bp + f.dst)) = p)
    (ha : Apart p n (s.reg .bp + f.result) n) :
    peek (runs s (msFetchAdd f n)).mem n (s.reg .bp + f.result) = peek s.mem n p ∧
    peek (runs s (msFetchAdd f n)).mem n p = (peek s.mem n p + peek s.mem n (s.reg .bp + f.src)) % 256 ^ n ∧
    Elsewhere (fun x => Inside p n x ∨ Inside (s.reg .bp + f.result) n x) s (runs s (msFetchAdd f n)) ∧
    Keeps (fun q => q = .a ∨ q = .c) s (runs s (msFetchAdd f n)) := by
  let t := exec (exec s (.load 4 .c (var f.dst))) (.load n .a (var f.src))
  have tm : t.mem = s.mem := rfl
  have tc : (at_ .c).addr t = p := by
    rw [at_addr]
    show (exec (exec s _) _).reg .c = _
    rw [load_ne _ _ (by decide), load4_reg, var_addr, hp]
  have ta : t.low n .a = peek s.mem n (s.reg .bp + f.src) := by
    show (exec (exec s _) _).low n .a = _
    rw [load_low _ _ _ hn, var_load _ _ _ (by decide), var_addr]
    rfl
  have tk : Keeps (fun q => q = .a ∨ q = .c) s t := fun q hq => by
    show (exec (exec s _) _).reg q = _
    rw [load_ne _ _ (fun e => hq (.inl e)), load_ne _ _ (fun e => hq (.inr e))]
  obtain ⟨c1, c2, c3, c4⟩ := xadd_spec (n := n) (m := at_ .c) (r := .a) hn t
  rw [tc, tm] at c1
  rw [tc, tm] at c2
  rw [tc] at c3
  rw [ta] at c2
  have er : runs s (msFetchAdd f n) = exec (exec t (.xadd n .a (at_ .c))) (.store n (var f.result) .a) := rfl
  rw [er]
  exact store_spec hn ha c1 c2 (fun q hq => by rw [c3 q hq, tm]) (fun q hq => by rw [c4 q (fun e => hq (.inl e)), tk q hq]) (by simp)

theorem msCas64_spec (s : St 32) (f : Frame) {p : BitVec 32} (hp : BitVec.ofNat 32 (peek s.mem 4 (s.reg .bp + f.dst)) = p)
    (h1 : Apart p 8 (s.reg .bp + f.result) 4) (h2 : Apart p 8 (s.reg .bp + f.resultEDX) 4)
    (h3 : Apart (s.reg .bp + f.result) 4 (s.reg .bp + f.resultEDX) 4) :
    peek (runs s (msCas64 f)).mem 4 (s.reg .bp + f.result) + 2 ^ 32 * peek (runs s (msCas64 f)).mem 4 (s.reg .bp + f.resultEDX) = peek s.mem 8 p ∧
    peek (runs s (msCas64 f)).mem 8 p = casValue (peek s.mem 4 (s.reg .bp + f.expected) + 2 ^ 32 * peek s.mem 4 (s.reg .bp + (f.expected + 4)))
      (peek s.mem 4 (s.reg .bp + f.desired) + 2 ^ 32 * peek s.mem 4 (s.reg .bp + (f.desired + 4))) (peek s.mem 8 p) ∧
    Elsewhere (fun x => Inside p 8 x ∨ Inside (s.reg .bp + f.result) 4 x ∨ Inside (s.reg .bp + f.resultEDX) 4 x) s (runs s (msCas64 f)) ∧
    Keeps (fun q => q = .a ∨ q = .b ∨ q = .c ∨ q = .d ∨ q = .si) s (runs s (msCas64 f)) := by
  let t := exec (exec (exec (exec (exec s (.load 4 .si (var f.dst))) (.load 4 .a (var f.expected))) (.load 4 .d (var (f.expected + 4))))
    (.load 4 .b (var f.desired))) (.load 4 .c (var (f.desired + 4)))
  have tm : t.mem = s.mem := rfl
  have tc : (at_ .si).addr t = p := by
    rw [at_addr]
    show (exec (exec (exec (exec (exec s _) _) _) _) _).reg .si = _
    rw [load_ne _ _ (by decide), load_ne _ _ (by decide), load_ne _ _ (by decide), load_ne _ _ (by decide), load4_reg, var_addr, hp]
  have ta : t.low 4 .a = peek s.mem 4 (s.reg .bp + f.expected) := by
    show (exec (exec (exec (exec (exec s _) _) _) _) _).low 4 .a = _
    rw [load_low_ne _ _ (by decide), load_low_ne _ _ (by decide), load_low_ne _ _ (by decide), load_low _ _ _ (by decide), var_load _ _ _ (by decide), var_addr]
    rfl
  have td : t.low 4 .d = peek s.mem 4 (s.reg .bp + (f.expected + 4)) := by
    show (exec (exec (exec (exec (exec s _) _) _) _) _).low 4 .d = _
    rw [load_low_ne _ _ (by decide), load_low_ne _ _ (by decide), load_low _ _ _ (by decide), var_load _ _ _ (by decide), var_load _ _ _ (by decide), var_addr]
    rfl
  have tb : t.low 4 .b = peek s.mem 4 (s.reg .bp + f.desired) := by
    show (exec (exec (exec (exec (exec s _) _) _) _) _).low 4 .b = _
    rw [load_low_ne _ _ (by decide), load_low _ _ _ (by decide), var_load _ _ _ (by decide), var_load _ _ _ (by decide), var_load _ _ _ (by decide), var_addr]
    rfl
  have tcc : t.low 4 .c = peek s.mem 4 (s.reg .bp + (f.desired + 4)) := by
    show (exec (exec (exec (exec (exec s _) _) _) _) _).low 4 .c = _
    rw [load_low _ _ _ (by decide), var_load _ _ _ (by decide), var_load _ _ _ (by decide), var_load _ _ _ (by decide), var_load _ _ _ (by decide), var_addr]
    rfl
  have tk : Keeps (fun q => q = .a ∨ q = .b ∨ q = .c ∨ q = .d ∨ q = .si) s t := fun q hq => by
    show (exec (exec (exec (exec (exec s _) _) _) _) _).reg q = _
    rw [load_ne _ _ (fun e => hq (by simp [e])), load_ne _ _ (fun e => hq (by simp [e])), load_ne _ _ (fun e => hq (by simp [e])),
      load_ne _ _ (fun e => hq (by simp [e])), load_ne _ _ (fun e => hq (by simp [e]))]
  obtain ⟨c1, c2, c3, c4⟩ := cmpxchg8b_spec (m := at_ .si) t
  rw [tc, tm] at c1
  rw [tc, tm, ta, td, tb, tcc] at c2
  rw [tc] at c3
  have er : runs s (msCas64 f) = exec (exec (exec t (.cmpxchg8b (at_ .si))) (.store 4 (var f.result) .a)) (.store 4 (var f.resultEDX) .d) := rfl
  rw [er]
  generalize exec t (.cmpxchg8b (at_ .si)) = u at c1 c2 c3 c4
  have uk : Keeps (fun q => q = .a ∨ q = .b ∨ q = .c ∨ q = .d ∨ q = .si) s u := fun q hq => by
    rw [c4 q (fun e => hq (e.elim .inl fun e => .inr (.inr (.inr (.inl e))))), tk q hq]
  have um : (exec (exec u (.store 4 (var f.result) .a)) (.store 4 (var f.resultEDX) .d)).mem =
      poke (poke u.mem 4 (s.reg .bp + f.result) (u.low 4 .a)) 4 (s.reg .bp + f.resultEDX) (u.low 4 .d) := by
    show poke (poke u.mem 4 ((var f.result).addr u) (u.low 4 .a)) 4 ((var f.resultEDX).addr u) (u.low 4 .d) = _
    rw [var_addr, var_addr, uk .bp (by simp)]
  refine ⟨?_, ?_, ?_, uk⟩
  · rw [um, peek_poke_apart h3, peek_poke (by decide), peek_poke (by decide), Nat.mod_eq_of_lt (low_lt u 4 .a), Nat.mod_eq_of_lt (low_lt u 4 .d)]
    exact c1
  · rw [um, peek_poke_apart h2, peek_poke_apart h1]
    exact c2
  · intro q hq
    rw [um, poke_out (fun h => hq (.inr (.inr h))), poke_out (fun h => hq (.inr (.inl h))), c3 q (fun h => hq (.inl h)), tm]

end Verif.Xa
