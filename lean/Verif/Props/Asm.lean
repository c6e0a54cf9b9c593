import Verif.Proof.Asm
/-!
# C80: the atomic operations in assembly language
-/
namespace Verif.Props
open Verif Verif.Xa

/-- C80, of the 64-bit compare-and-swap of 32-bit machines (the other operations: `C80_cas` to `C80_ms_fence`): wherever the compiler found `*dst`
and whatever register it chose for the lower half of `desired` (not one of those that are taken, nor the stack pointer), the object not being below
the top of the stack, the code exchanges the object if it holds `expected`, returns what it held, and leaves all else alone. -/
def C80_Full : Prop := ∀ (r : Reg) (m : MemOp 32) (s : St 32) (p : BitVec 32), r ≠ .a ∧ r ≠ .d ∧ r ≠ .c ∧ r ≠ .sp → m.addr s = p →
  Apart p 8 (s.reg .sp - 4) 4 →
  Cas64Right s (runs s (gccCas64 r m)) p (s.low 4 .a + 2 ^ 32 * s.low 4 .d) (s.low 4 r + 2 ^ 32 * s.low 4 .c)

/-- A machine: the stack at 0x1000, an object at 0x2000 that holds 5, `ebx` and `esi` as they happen to be. -/
def machine : St 32 :=
  { reg := fun | .b => 0x77 | .si => 9 | .sp => 0x1000 | .di => 0x2000 | .a => 5 | _ => 0,
    mem := fun p => if p = 0x2000 then 5 else 0 }

theorem machine_apart : Apart (0x2000 : BitVec 32) 8 (machine.reg .sp - 4) 4 := by
  rintro x ⟨k, hk, rfl⟩ ⟨l, hl, e⟩
  have e := congrArg BitVec.toNat e
  have e2 : machine.reg .sp - 4 = 0xffc := by decide
  rw [e2, BitVec.toNat_add, BitVec.toNat_add, BitVec.toNat_ofNat, BitVec.toNat_ofNat] at e
  have h1 : (0x2000 : BitVec 32).toNat = 0x2000 := rfl
  have h2 : (0xffc : BitVec 32).toNat = 0xffc := rfl
  rw [h1, h2] at e
  omega

/-- With the lower half of `desired` in any register but `ebx`, that register is not what it was afterwards, although the code tells the compiler that
it does not change it: it holds what `ebx` holds. -/
theorem C80_operand_lost (r : Reg) (m : MemOp 32) (s : St 32) (p : BitVec 32) (hr : r ≠ .a ∧ r ≠ .d ∧ r ≠ .c ∧ r ≠ .sp) (hb : r ≠ .b)
    (hm : m.addr s = p) (hp : Apart p 8 (s.reg .sp - 4) 4) (h1 : ¬ m.Uses .sp) (h2 : ¬ m.Uses .b ∧ ¬ m.Uses r) :
    (runs s (gccCas64 r m)).reg r = s.reg .b :=
  (cas64_spec hr ((mid_addr hr.2.2.2 h1 (.inr h2)).trans hm) hp).2.2.2.2 hb

theorem C80_full_false : ¬ C80_Full := by
  intro h
  have h1 := (h .si ⟨some .di, none, 0⟩ machine 0x2000 (by decide) (by decide) machine_apart).2.2.2 .si (by decide)
  revert h1
  decide

/-- C80, proved part: it is so if the memory operand does not involve the stack pointer, and either the register chosen is `ebx` or the memory
operand involves neither it nor `ebx` - except that the register chosen, if it is not `ebx`, is lost.  Missing: the other choices of the compiler, for
which it is false. -/
theorem C80_cas64_partial (r : Reg) (m : MemOp 32) (s : St 32) (p : BitVec 32) (hr : r ≠ .a ∧ r ≠ .d ∧ r ≠ .c ∧ r ≠ .sp) (hm : m.addr s = p)
    (hp : Apart p 8 (s.reg .sp - 4) 4) (h1 : ¬ m.Uses .sp) (h2 : r = .b ∨ ¬ m.Uses .b ∧ ¬ m.Uses r) :
    (runs s (gccCas64 r m)).low 4 .a + 2 ^ 32 * (runs s (gccCas64 r m)).low 4 .d = peek s.mem 8 p ∧
    peek (runs s (gccCas64 r m)).mem 8 p = casValue (s.low 4 .a + 2 ^ 32 * s.low 4 .d) (s.low 4 r + 2 ^ 32 * s.low 4 .c) (peek s.mem 8 p) ∧
    Elsewhere (fun x => Inside p 8 x ∨ Inside (s.reg .sp - 4) 4 x) s (runs s (gccCas64 r m)) ∧
    Keeps (fun x => x = .a ∨ x = .d ∨ x = r ∧ r ≠ .b) s (runs s (gccCas64 r m)) := by
  have h := cas64_spec hr ((mid_addr hr.2.2.2 h1 h2).trans hm) hp
  exact ⟨h.1, h.2.1, h.2.2.1, h.2.2.2.1⟩

/-- With `ebx` all of it is so. -/
theorem C80_cas64_ebx (m : MemOp 32) (s : St 32) (p : BitVec 32) (hm : m.addr s = p) (hp : Apart p 8 (s.reg .sp - 4) 4) (h1 : ¬ m.Uses .sp) :
    Cas64Right s (runs s (gccCas64 .b m)) p (s.low 4 .a + 2 ^ 32 * s.low 4 .d) (s.low 4 .b + 2 ^ 32 * s.low 4 .c) := by
  obtain ⟨a1, a2, a3, a4⟩ := C80_cas64_partial .b m s p (by decide) hm hp h1 (.inl rfl)
  exact ⟨a1, a2, a3, fun q hq => a4 q fun h => h.elim (fun h => hq (.inl h)) fun h => h.elim (fun h => hq (.inr h)) fun h => h.2 rfl⟩

/-- Non-vacuity: the object at 0x2000, addressed by `edi`, is exchanged for 9; with `esi`, then with `ebx`. -/
example : (MemOp.addr ⟨some .di, none, 0⟩ machine = 0x2000) ∧ peek (runs machine (gccCas64 .si ⟨some .di, none, 0⟩)).mem 8 0x2000 = 9 ∧
    (runs machine (gccCas64 .si ⟨some .di, none, 0⟩)).reg .si = 0x77 ∧
    peek (runs machine (gccCas64 .b ⟨some .di, none, 0⟩)).mem 8 0x2000 = 0x77 ∧ Apart (0x2000 : BitVec 32) 8 (machine.reg .sp - 4) 4 :=
  ⟨by decide, by decide, by decide, by decide, machine_apart⟩

/-- If the object is addressed through the stack pointer, as a local variable may be, the exchange is done 4 bytes below it. -/
theorem C80_stack_operand (r : Reg) (s : St 32) (disp : BitVec 32) (hr : r ≠ .a ∧ r ≠ .d ∧ r ≠ .c ∧ r ≠ .sp) (p : BitVec 32)
    (hm : MemOp.addr ⟨some .sp, none, disp⟩ s = p) (hp : Apart (p - 4) 8 (s.reg .sp - 4) 4) :
    peek (runs s (gccCas64 r ⟨some .sp, none, disp⟩)).mem 8 (p - 4) =
      casValue (s.low 4 .a + 2 ^ 32 * s.low 4 .d) (s.low 4 r + 2 ^ 32 * s.low 4 .c) (peek s.mem 8 (p - 4)) := by
  refine (cas64_spec hr ?_ hp).2.1
  subst hm
  show (mid s r).reg .sp + 0 + disp = s.reg .sp + 0 + disp - 4
  rw [mid_sp s hr.2.2.2, BitVec.sub_eq_add_neg, BitVec.sub_eq_add_neg]
  ac_rfl

/-- Non-vacuity: the object is at 16 bytes above the stack pointer; what is exchanged is at 12. -/
example : peek (runs { machine with mem := fun p => if p = 0x100c then 5 else 0 } (gccCas64 .si ⟨some .sp, none, 16⟩)).mem 8 0x100c = 9 := by decide

/-- If it is addressed through `ebx`, the exchange is done where the lower half of `desired` points to. -/
theorem C80_ebx_operand (r : Reg) (s : St 32) (disp : BitVec 32) (hr : r ≠ .a ∧ r ≠ .d ∧ r ≠ .c ∧ r ≠ .sp)
    (hp : Apart (s.reg r + disp) 8 (s.reg .sp - 4) 4) :
    peek (runs s (gccCas64 r ⟨some .b, none, disp⟩)).mem 8 (s.reg r + disp) =
      casValue (s.low 4 .a + 2 ^ 32 * s.low 4 .d) (s.low 4 r + 2 ^ 32 * s.low 4 .c) (peek s.mem 8 (s.reg r + disp)) := by
  refine (cas64_spec hr ?_ hp).2.1
  show (mid s r).reg .b + 0 + disp = s.reg r + disp
  rw [mid_b s hr.2.2.2]
  ac_rfl

/-- Non-vacuity: `ebx` points to the object, which is not touched; the 8 bytes at address 9 are. -/
example : let s : St 32 := { machine with reg := fun | .b => 0x2000 | .si => 9 | .sp => 0x1000 | _ => 0 }
    MemOp.addr ⟨some .b, none, 0⟩ s = 0x2000 ∧ peek (runs s (gccCas64 .si ⟨some .b, none, 0⟩)).mem 8 0x2000 = 5 ∧
    peek (runs s (gccCas64 .si ⟨some .b, none, 0⟩)).mem 8 9 = 9 := by decide

/-- What becomes of a loop (`include/catomic.h:1520-1522`, `1611-1614`, `1682-1685` and those like it): the compiler, told that the register is not
changed, need not load it again, and the second time the lower half of what is stored is what `ebx` held. -/
theorem C80_retry (r : Reg) (m : MemOp 32) (s s2 : St 32) (p : BitVec 32) (hr : r ≠ .a ∧ r ≠ .d ∧ r ≠ .c ∧ r ≠ .sp) (hb : r ≠ .b) (hm : m.addr s = p)
    (hp : Apart p 8 (s.reg .sp - 4) 4) (h1 : ¬ m.Uses .sp) (h2 : ¬ m.Uses .b ∧ ¬ m.Uses r)
    (k : Keeps (fun x => x = .a ∨ x = .d) (runs s (gccCas64 r m)) s2) (hm2 : m.addr s2 = p)
    (he : s2.low 4 .a + 2 ^ 32 * s2.low 4 .d = peek s2.mem 8 p) :
    peek (runs s2 (gccCas64 r m)).mem 8 p = s.low 4 .b + 2 ^ 32 * s.low 4 .c := by
  have hk := (C80_cas64_partial r m s p hr hm hp h1 (.inr h2)).2.2.2
  have e1 : s2.reg r = s.reg .b := by
    rw [k r (fun h => h.elim hr.1 hr.2.1)]
    exact C80_operand_lost r m s p hr hb hm hp h1 h2
  have e2 : s2.reg .c = s.reg .c := by
    rw [k .c (by decide), hk .c (fun h => h.elim (fun h => by cases h) fun h => h.elim (fun h => by cases h) fun h => hr.2.2.1 h.1.symm)]
  have e3 : s2.reg .sp = s.reg .sp := by
    rw [k .sp (by decide), hk .sp (fun h => h.elim (fun h => by cases h) fun h => h.elim (fun h => by cases h) fun h => hr.2.2.2 h.1.symm)]
  rw [(C80_cas64_partial r m s2 p hr hm2 (by rw [e3]; exact hp) h1 (.inr h2)).2.1]
  unfold casValue
  rw [if_pos he.symm]
  unfold St.low
  rw [e1, e2]

/-- Non-vacuity: the code wants to store 9 and finds 6 instead of 5; the second time it stores 0x77. -/
example : let s : St 32 := { machine with mem := fun p => if p = 0x2000 then 6 else 0 }
    let s1 := runs s (gccCas64 .si ⟨some .di, none, 0⟩)
    peek s1.mem 8 0x2000 = 6 ∧ s1.low 4 .a + 2 ^ 32 * s1.low 4 .d = peek s1.mem 8 0x2000 ∧
    peek (runs s1 (gccCas64 .si ⟨some .di, none, 0⟩)).mem 8 0x2000 = 0x77 := by decide

/-! ## The other operations -/

/-- The compare-and-swaps of 1, 2, 4 and, on 64-bit machines, 8 bytes: wherever the compiler found the object, the object is exchanged if it holds
`expected`, what it held is returned, and nothing else is changed. -/
theorem C80_cas {W : Nat} (n : Nat) (hn : 8 * n ≤ W) (m : MemOp W) (s : St W) (p : BitVec W) (hm : m.addr s = p) :
    (runs s (gccCas n m)).low n .a = peek s.mem n p ∧
    peek (runs s (gccCas n m)).mem n p = casValue (s.low n .a) (s.low n .d) (peek s.mem n p) ∧
    Elsewhere (Inside p n) s (runs s (gccCas n m)) ∧ Keeps (· = .a) s (runs s (gccCas n m)) := by
  subst hm; exact cmpxchg_spec hn s

example : peek (runs { machine with reg := fun | .a => 5 | .d => 0x1234 | .bp => 0x1ff0 | _ => 0 } (gccCas 2 ⟨some .bp, none, 16⟩)).mem 4 0x2000 = 0x1234 ∧
    (runs { machine with reg := fun | .a => 0xff0007 | .bp => 0x1ff0 | _ => 0 } (gccCas 2 ⟨some .bp, none, 16⟩)).reg .a = 0xff0005 := by decide

theorem C80_exchange {W : Nat} (n : Nat) (hn : 8 * n ≤ W) (m : MemOp W) (s : St W) (p : BitVec W) (hm : m.addr s = p) :
    (runs s (gccExchange n m)).low n .a = peek s.mem n p ∧ peek (runs s (gccExchange n m)).mem n p = s.low n .a ∧
    Elsewhere (Inside p n) s (runs s (gccExchange n m)) ∧ Keeps (· = .a) s (runs s (gccExchange n m)) := by
  subst hm; exact xchg_spec hn s

example : peek (runs { machine with reg := fun | .a => 0x1234 | .si => 0x400 | _ => 0 } (gccExchange 1 ⟨none, some (.si, 8), 0⟩)).mem 4 0x2000 = 0x34 := by
  decide

theorem C80_fetch_add {W : Nat} (n : Nat) (hn : 8 * n ≤ W) (m : MemOp W) (s : St W) (p : BitVec W) (hm : m.addr s = p) :
    (runs s (gccFetchAdd n m)).low n .a = peek s.mem n p ∧ peek (runs s (gccFetchAdd n m)).mem n p = (peek s.mem n p + s.low n .a) % 256 ^ n ∧
    Elsewhere (Inside p n) s (runs s (gccFetchAdd n m)) ∧ Keeps (· = .a) s (runs s (gccFetchAdd n m)) := by
  subst hm; exact xadd_spec hn s

example : peek (runs { machine with reg := fun | .a => 0xff | .di => 0x2000 | _ => 0 } (gccFetchAdd 1 ⟨some .di, none, 0⟩)).mem 4 0x2000 = 4 := by decide

/-- The fence changes nothing. -/
theorem C80_fence {W : Nat} (s : St W) : runs s gccFence = s := add0_spec _ _ s

example : (runs machine gccFence).mem 0x2000 = 5 := by rw [C80_fence]; decide

/-! ## Microsoft syntax -/

/-- The compare-and-swaps of 1, 2 and 4 bytes: with the variables anywhere in the stack frame, the object not overlapping the variable `result`. -/
theorem C80_ms_cas (s : St 32) (f : Frame) (n : Nat) (hn : 8 * n ≤ 32) (p : BitVec 32) (hp : BitVec.ofNat 32 (peek s.mem 4 (s.reg .bp + f.dst)) = p)
    (ha : Apart p n (s.reg .bp + f.result) n) :
    peek (runs s (msCas f n)).mem n (s.reg .bp + f.result) = peek s.mem n p ∧
    peek (runs s (msCas f n)).mem n p = casValue (peek s.mem n (s.reg .bp + f.expected)) (peek s.mem n (s.reg .bp + f.desired)) (peek s.mem n p) ∧
    Elsewhere (fun x => Inside p n x ∨ Inside (s.reg .bp + f.result) n x) s (runs s (msCas f n)) ∧
    Keeps (fun q => q = .a ∨ q = .c ∨ q = .d) s (runs s (msCas f n)) := msCas_spec s f hn hp ha

/-- A frame: the variables at 8, 12, 20, 28, -4 and -8 from `ebp`, which is 0x1000. -/
def aFrame : Frame := ⟨8, 12, 20, 28, -4, -8⟩

/-- `dst` is 0x2000, the object 5, `expected` 5, `desired` 7, `src` 3. -/
def aMachine : St 32 :=
  { reg := fun | .bp => 0x1000 | _ => 0,
    mem := fun p => if p = 0x1009 then 0x20 else if p = 0x2000 then 5 else if p = 0x100c then 5 else if p = 0x1014 then 7 else if p = 0x101c then 3 else 0 }

example : peek (runs aMachine (msCas aFrame 4)).mem 4 0x2000 = 7 ∧ peek (runs aMachine (msCas aFrame 4)).mem 4 0xffc = 5 := by decide +kernel

theorem C80_ms_cas64 (s : St 32) (f : Frame) (p : BitVec 32) (hp : BitVec.ofNat 32 (peek s.mem 4 (s.reg .bp + f.dst)) = p)
    (h1 : Apart p 8 (s.reg .bp + f.result) 4) (h2 : Apart p 8 (s.reg .bp + f.resultEDX) 4)
    (h3 : Apart (s.reg .bp + f.result) 4 (s.reg .bp + f.resultEDX) 4) :
    peek (runs s (msCas64 f)).mem 4 (s.reg .bp + f.result) + 2 ^ 32 * peek (runs s (msCas64 f)).mem 4 (s.reg .bp + f.resultEDX) = peek s.mem 8 p ∧
    peek (runs s (msCas64 f)).mem 8 p = casValue (peek s.mem 4 (s.reg .bp + f.expected) + 2 ^ 32 * peek s.mem 4 (s.reg .bp + (f.expected + 4)))
      (peek s.mem 4 (s.reg .bp + f.desired) + 2 ^ 32 * peek s.mem 4 (s.reg .bp + (f.desired + 4))) (peek s.mem 8 p) ∧
    Elsewhere (fun x => Inside p 8 x ∨ Inside (s.reg .bp + f.result) 4 x ∨ Inside (s.reg .bp + f.resultEDX) 4 x) s (runs s (msCas64 f)) ∧
    Keeps (fun q => q = .a ∨ q = .b ∨ q = .c ∨ q = .d ∨ q = .si) s (runs s (msCas64 f)) := msCas64_spec s f hp h1 h2 h3

example : peek (runs aMachine (msCas64 aFrame)).mem 8 0x2000 = 7 ∧ peek (runs aMachine (msCas64 aFrame)).mem 4 0xffc = 5 ∧
    BitVec.ofNat 32 (peek aMachine.mem 4 (aMachine.reg .bp + aFrame.dst)) = 0x2000 := by decide +kernel

theorem C80_ms_exchange (s : St 32) (f : Frame) (n : Nat) (hn : 8 * n ≤ 32) (p : BitVec 32) (hp : BitVec.ofNat 32 (peek s.mem 4 (s.reg .bp + f.dst)) = p)
    (ha : Apart p n (s.reg .bp + f.result) n) :
    peek (runs s (msExchange f n)).mem n (s.reg .bp + f.result) = peek s.mem n p ∧
    peek (runs s (msExchange f n)).mem n p = peek s.mem n (s.reg .bp + f.src) ∧
    Elsewhere (fun x => Inside p n x ∨ Inside (s.reg .bp + f.result) n x) s (runs s (msExchange f n)) ∧
    Keeps (fun q => q = .a ∨ q = .c) s (runs s (msExchange f n)) := msExchange_spec s f hn hp ha

example : peek (runs aMachine (msExchange aFrame 4)).mem 4 0x2000 = 3 ∧ peek (runs aMachine (msExchange aFrame 4)).mem 4 0xffc = 5 := by decide +kernel

theorem C80_ms_fetch_add (s : St 32) (f : Frame) (n : Nat) (hn : 8 * n ≤ 32) (p : BitVec 32) (hp : BitVec.ofNat 32 (peek s.mem 4 (s.reg .bp + f.dst)) = p)
    (ha : Apart p n (s.reg .bp + f.result) n) :
    peek (runs s (msFetchAdd f n)).mem n (s.reg .bp + f.result) = peek s.mem n p ∧
    peek (runs s (msFetchAdd f n)).mem n p = (peek s.mem n p + peek s.mem n (s.reg .bp + f.src)) % 256 ^ n ∧
    Elsewhere (fun x => Inside p n x ∨ Inside (s.reg .bp + f.result) n x) s (runs s (msFetchAdd f n)) ∧
    Keeps (fun q => q = .a ∨ q = .c) s (runs s (msFetchAdd f n)) := msFetchAdd_spec s f hn hp ha

example : peek (runs aMachine (msFetchAdd aFrame 4)).mem 4 0x2000 = 8 ∧ peek (runs aMachine (msFetchAdd aFrame 4)).mem 4 0xffc = 5 := by decide +kernel

theorem C80_ms_fence (s : St 32) : runs s msFence = s := add0_spec _ _ s

example : (runs aMachine msFence).reg .bp = 0x1000 := by rw [C80_ms_fence]; decide

end Verif.Props
