/-!
# The atomic operations written in assembly language

`include/catomic.h:279-346`, `364-412`, `477-525`, `592-599` (Microsoft syntax, 32-bit) and `1334-1640` (GCC syntax, 32- and 64-bit): a small x86.
Registers hold `W` bits (32 or 64), memory holds bytes.  The instructions used are modelled one by one; flags are not, as nothing here reads them.
A locked instruction is one step (other threads: C58; store buffers: C81).  In GCC syntax the compiler chooses where the operands are: the memory
operand is any base, index and displacement, and a register marked `"r"` is any register.  Two things are simplified.  The operands of 64 bits that
the 32-bit code passes with `"a"`, `"d"`, `"r"`, `"c"` (their upper halves are 0) are taken to be their lower halves.  What the compiler does with
memory accesses around an `__asm__` without a `"memory"` clobber is not modelled.
-/
namespace Verif.Xa

inductive Reg
  | a | b | c | d | si | di | bp | sp
  /-- `r8` to `r15`. -/
  | x (n : Fin 8)
  deriving DecidableEq, Repr

structure St (W : Nat) where
  reg : Reg → BitVec W
  mem : BitVec W → BitVec 8

variable {W : Nat}

/-- The `n` bytes at `p`, the lowest first. -/
def peek (mem : BitVec W → BitVec 8) : Nat → BitVec W → Nat
  | 0, _ => 0
  | n + 1, p => (mem p).toNat + 256 * peek mem n (p + 1)

/-- Write the lowest `n` bytes of `v` at `p`, the lowest first. -/
def poke (mem : BitVec W → BitVec 8) : Nat → BitVec W → Nat → BitVec W → BitVec 8
  | 0, _, _ => mem
  | n + 1, p, v => poke (fun q => if q = p then BitVec.ofNat 8 v else mem q) n (p + 1) (v / 256)

def St.set (s : St W) (r : Reg) (v : BitVec W) : St W := { s with reg := fun q => if q = r then v else s.reg q }

/-- The lowest `n` bytes of a register: `al`, `ax`, `eax`, `rax`. -/
def St.low (s : St W) (n : Nat) (r : Reg) : Nat := (s.reg r).toNat % 256 ^ n

/-- Write to the lowest `n` bytes of a register.  Writing 1 or 2 bytes leaves the rest, writing 4 sets the rest to 0. -/
def St.setLow (s : St W) (n : Nat) (r : Reg) (v : Nat) : St W :=
  s.set r (BitVec.ofNat W (if n < 4 then (s.reg r).toNat / 256 ^ n * 256 ^ n + v else v))

/-- `disp(base, index, scale)`. -/
structure MemOp (W : Nat) where
  base : Option Reg
  index : Option (Reg × BitVec W)
  disp : BitVec W

def MemOp.addr (m : MemOp W) (s : St W) : BitVec W :=
  (match m.base with | some r => s.reg r | none => 0) + (match m.index with | some (r, k) => s.reg r * k | none => 0) + m.disp

inductive Instr (W : Nat)
  /-- `lock cmpxchg r, m` on `n` bytes. -/
  | cmpxchg (n : Nat) (r : Reg) (m : MemOp W)
  /-- `lock xchg r, m`. -/
  | xchg (n : Nat) (r : Reg) (m : MemOp W)
  /-- `lock xadd r, m`. -/
  | xadd (n : Nat) (r : Reg) (m : MemOp W)
  /-- `lock cmpxchg8b m`. -/
  | cmpxchg8b (m : MemOp W)
  /-- `lock add $0, m` on `n` bytes. -/
  | add0 (n : Nat) (m : MemOp W)
  | push (r : Reg)
  | pop (r : Reg)
  /-- `xchg r, q`, both registers. -/
  | swap (r q : Reg)
  /-- `mov r, [m]` on `n` bytes. -/
  | load (n : Nat) (r : Reg) (m : MemOp W)
  /-- `mov [m], r` on `n` bytes. -/
  | store (n : Nat) (m : MemOp W) (r : Reg)

/-- What an instruction does, after the Intel manual. -/
def exec (s : St W) : Instr W → St W
  | .cmpxchg n r m =>
    if peek s.mem n (m.addr s) = s.low n .a then { s with mem := poke s.mem n (m.addr s) (s.low n r) }
    else s.setLow n .a (peek s.mem n (m.addr s))
  | .xchg n r m => { s.setLow n r (peek s.mem n (m.addr s)) with mem := poke s.mem n (m.addr s) (s.low n r) }
  | .xadd n r m => { s.setLow n r (peek s.mem n (m.addr s)) with mem := poke s.mem n (m.addr s) (peek s.mem n (m.addr s) + s.low n r) }
  | .cmpxchg8b m =>
    if peek s.mem 8 (m.addr s) = s.low 4 .a + 2 ^ 32 * s.low 4 .d then { s with mem := poke s.mem 8 (m.addr s) (s.low 4 .b + 2 ^ 32 * s.low 4 .c) }
    else (s.setLow 4 .a (peek s.mem 8 (m.addr s) % 2 ^ 32)).setLow 4 .d (peek s.mem 8 (m.addr s) / 2 ^ 32)
  | .add0 n m => { s with mem := poke s.mem n (m.addr s) (peek s.mem n (m.addr s)) }
  | .push r => { s.set .sp (s.reg .sp - BitVec.ofNat W (W / 8)) with mem := poke s.mem (W / 8) (s.reg .sp - BitVec.ofNat W (W / 8)) (s.reg r).toNat }
  | .pop r => (s.set .sp (s.reg .sp + BitVec.ofNat W (W / 8))).set r (BitVec.ofNat W (peek s.mem (W / 8) (s.reg .sp)))
  | .swap r q => (s.set r (s.reg q)).set q (s.reg r)
  | .load n r m => s.setLow n r (peek s.mem n (m.addr s))
  | .store n m r => { s with mem := poke s.mem n (m.addr s) (s.low n r) }

def runs (s : St W) (is : List (Instr W)) : St W := is.foldl exec s

/-! ## GCC syntax -/

/-- `c89atomic_compare_and_swap_8`, `_16`, `_32` and, on 64-bit machines, `_64`: `include/catomic.h:1369`, `1388`, `1407`, `1438`.  `m` is where the
compiler found `*dst`. -/
def gccCas (n : Nat) (m : MemOp W) : List (Instr W) := [.cmpxchg n .d m]

/-- `c89atomic_exchange_explicit_*`: `include/catomic.h:1460`, `1481`, `1502`, `1527`. -/
def gccExchange (n : Nat) (m : MemOp W) : List (Instr W) := [.xchg n .a m]

/-- `c89atomic_fetch_add_explicit_*`: `include/catomic.h:1550`, `1571`, `1592`, `1625`. -/
def gccFetchAdd (n : Nat) (m : MemOp W) : List (Instr W) := [.xadd n .a m]

/-- `c89atomic_thread_fence`: `include/catomic.h:1353`, `1355`. -/
def gccFence : List (Instr W) := [.add0 (W / 8) ⟨some .sp, none, 0⟩]

/-- `c89atomic_compare_and_swap_64` on 32-bit machines: `include/catomic.h:1434`.  `r` is the register the compiler chose for the lower half of
`desired`. -/
def gccCas64 (r : Reg) (m : MemOp 32) : List (Instr 32) := [.push .b, .swap r .b, .cmpxchg8b m, .pop .b]

/-! ## Microsoft syntax; `W = 32`.  The variables are in the stack frame. -/

/-- A variable: its offset from `ebp`. -/
def var (off : BitVec 32) : MemOp 32 := ⟨some .bp, none, off⟩

def at_ (r : Reg) : MemOp 32 := ⟨some r, none, 0⟩

/-- Where the variables are. -/
structure Frame where
  dst : BitVec 32
  expected : BitVec 32
  desired : BitVec 32
  src : BitVec 32
  result : BitVec 32
  resultEDX : BitVec 32

/-- `c89atomic_compare_and_swap_8`, `_16`, `_32`: `include/catomic.h:284-290`, `300-306`, `316-322`. -/
def msCas (f : Frame) (n : Nat) : List (Instr 32) :=
  [.load 4 .c (var f.dst), .load n .a (var f.expected), .load n .d (var f.desired), .cmpxchg n .d (at_ .c), .store n (var f.result) .a]

/-- `c89atomic_compare_and_swap_64`: `include/catomic.h:333-342`; `result` is `resultEAX`. -/
def msCas64 (f : Frame) : List (Instr 32) :=
  [.load 4 .si (var f.dst), .load 4 .a (var f.expected), .load 4 .d (var (f.expected + 4)), .load 4 .b (var f.desired),
   .load 4 .c (var (f.desired + 4)), .cmpxchg8b (at_ .si), .store 4 (var f.result) .a, .store 4 (var f.resultEDX) .d]

/-- `c89atomic_exchange_explicit_8`, `_16`, `_32`: `include/catomic.h:371-376`, `387-392`, `403-408`. -/
def msExchange (f : Frame) (n : Nat) : List (Instr 32) :=
  [.load 4 .c (var f.dst), .load n .a (var f.src), .xchg n .a (at_ .c), .store n (var f.result) .a]

/-- `c89atomic_fetch_add_explicit_8`, `_16`, `_32`: `include/catomic.h:484-489`, `500-505`, `516-521`. -/
def msFetchAdd (f : Frame) (n : Nat) : List (Instr 32) :=
  [.load 4 .c (var f.dst), .load n .a (var f.src), .xadd n .a (at_ .c), .store n (var f.result) .a]

/-- `c89atomic_thread_fence`: `include/catomic.h:596-598`. -/
def msFence : List (Instr 32) := [.add0 4 (at_ .sp)]

end Verif.Xa
