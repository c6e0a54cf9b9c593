/-!
# Atomic operations built from compare-and-swap

`include/catomic.h` builds most atomic operations, on compilers without C11 atomics, from one primitive,
`c89atomic_compare_and_swap_N`, in loops.  Any number of threads run operations on cells of `w` bits;
a step is one memory access.  The plain read `oldValue = *dst` may yield *any* value (on 32-bit builds a
64-bit read is not one access), so the label of the step says which.
-/
namespace Verif.At

/-- The operations.  `include/catomic.h:462-999` (MSVC), `1164-1199` (legacy GCC), `1513-1910` (inline
assembly and tcc builds), `1915-1997` (`compare_exchange`, everywhere but modern GCC). -/
inductive Op (w : Nat)
  | fetchAdd (x : BitVec w)
  | fetchSub (x : BitVec w)
  | fetchAnd (x : BitVec w)
  | fetchOr (x : BitVec w)
  | fetchXor (x : BitVec w)
  | exchange (x : BitVec w)
  | store (x : BitVec w)
  | testAndSet
  | clear
  | load
  | compareExchange (expected desired : BitVec w)
  deriving DecidableEq, Repr

/-- What an operation returns: a value (for `compareExchange` what `*expected` holds afterwards, for
`store` and `clear` nothing: 0) and the flag of `compareExchange`. -/
structure Ret (w : Nat) where
  val : BitVec w
  flag : Bool
  deriving DecidableEq, Repr

/-- The `newValue` of the loops: `include/catomic.h:582`, `684-729`, `750-807`, `829-886`, `908-965`,
`1613`, `1642-1684`, `1700-1742`, `1758-1800`, `1816-1858`; of `exchange` the new value is the argument
(`466-468`, `1169-1171`); `test_and_set` is `exchange` of 1 (`975-986`, `1898-1901`), `store` an
`exchange` whose result is dropped (`1893-1896`), `clear` a `store` of 0 (`989-1000`, `1903-1906`). -/
def Op.newValue {w : Nat} : Op w → BitVec w → BitVec w
  | .fetchAdd x, old => old + x
  | .fetchSub x, old => old - x
  | .fetchAnd x, old => old &&& x
  | .fetchOr x, old => old ||| x
  | .fetchXor x, old => old ^^^ x
  | .exchange x, _ => x
  | .store x, _ => x
  | .testAndSet, _ => 1
  | .clear, _ => 0
  | .load, old => old
  | .compareExchange _ desired, _ => desired

/-- What the loops return once the exchange succeeded. -/
def Op.loopRet {w : Nat} : Op w → BitVec w → Ret w
  | .store _, _ | .clear, _ => ⟨0, true⟩
  | _, old => ⟨old, true⟩

/-- Where a thread is. -/
inductive Pc (w : Nat)
  | idle
  /-- Called; about to read (loops) or to compare-and-swap (`load`, `compareExchange`). -/
  | start (a : Nat) (op : Op w)
  /-- Read `old`; about to compare-and-swap. -/
  | got (a : Nat) (op : Op w) (old : BitVec w)
  | done (r : Ret w)
  deriving DecidableEq, Repr

structure St (w : Nat) where
  mem : Nat → BitVec w
  pc : Nat → Pc w

/-- The primitive: the value to be returned, given whether the cell held the expected value, the value
it held.  On x86, MSVC and GCC the value the cell held (`include/catomic.h:280-346`, `1096-1133`,
`1361-1370`); tcc on other processors returns the *flag* of `atomic_compare_exchange_strong`
(`1371-1372`, `1390-1391`, `1409-1410`, `1439-1440`). -/
inductive Prim
  | value
  | flag
  deriving DecidableEq, Repr

def Prim.result {w : Nat} (p : Prim) (held expected : BitVec w) : BitVec w :=
  match p with
  | .value => held
  | .flag => if held = expected then 1 else 0

def St.setMem {w : Nat} (st : St w) (a : Nat) (x : BitVec w) : St w :=
  { st with mem := fun b => if b = a then x else st.mem b }

def St.setPc {w : Nat} (st : St w) (i : Nat) (p : Pc w) : St w :=
  { st with pc := fun j => if j = i then p else st.pc j }

/-- What a thread does. -/
inductive Lbl (w : Nat)
  /-- Thread `i` calls an operation on cell `a`. -/
  | call (i a : Nat) (op : Op w)
  /-- The plain read, which yielded `v`. -/
  | read (i : Nat) (v : BitVec w)
  /-- The compare-and-swap, and the test that ends the loop. -/
  | cas (i : Nat)
  /-- The operation returns. -/
  | ret (i : Nat) (r : Ret w)
  deriving DecidableEq, Repr

/-- Is the operation a loop? -/
def Op.loops {w : Nat} : Op w → Bool
  | .load | .compareExchange _ _ => false
  | _ => true

/-- The compare-and-swap itself. -/
def swap {w : Nat} (st : St w) (a : Nat) (expected desired : BitVec w) : St w :=
  if st.mem a = expected then st.setMem a desired else st

/-- One step. -/
def step {w : Nat} (p : Prim) (st : St w) : Lbl w → Option (St w)
  | .call i a op => match st.pc i with
    | .idle => some (st.setPc i (.start a op))
    | _ => none
  | .read i v => match st.pc i with
    | .start a op => if op.loops then some (st.setPc i (.got a op v)) else none
    | _ => none
  | .cas i => match st.pc i with
    -- the loops
    | .got a op old =>
      let result := p.result (st.mem a) old
      let st := swap st a old (op.newValue old)
      if result = old then some (st.setPc i (.done (op.loopRet old)))
      else some (st.setPc i (.start a op))
    -- `include/catomic.h:1869-1891`, `614-657`
    | .start a .load => some ((swap st a 0 0).setPc i (.done ⟨p.result (st.mem a) 0, true⟩))
    -- `include/catomic.h:1917-1997`
    | .start a (.compareExchange e d) =>
      let result := p.result (st.mem a) e
      let st := swap st a e d
      if result = e then some (st.setPc i (.done ⟨e, true⟩)) else some (st.setPc i (.done ⟨result, false⟩))
    | _ => none
  | .ret i r => match st.pc i with
    | .done r' => if r = r' then some (st.setPc i .idle) else none
    | _ => none

/-- An execution. -/
def run {w : Nat} (p : Prim) (st : St w) : List (Lbl w) → Option (St w)
  | [] => some st
  | l :: ls => (step p st l).bind (run p · ls)

/-- No thread is in an operation. -/
def start {w : Nat} (mem : Nat → BitVec w) : St w := ⟨mem, fun _ => .idle⟩

end Verif.At
