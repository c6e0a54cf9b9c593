import Verif.Model.Scope
import Verif.Model.Strings
/-!
# The strings a thread's scope hands out

`raii_memdup`, `raii_split`, `raii_concat`, `raii_replace`, `raii_encode64`, `raii_decode64`
(`src/raii.c:169-198`), called one after the other by one thread on one memory, their arguments
being anything that lies in it, results of earlier calls included.  What the functions compute is
`Verif.Model.Strings` and `Verif.Model.Base64`; what registering a block does is
`Verif.Model.Scope`, with scope 0 for the thread's scope.  Here they are put together: the block
has an address, the allocator decides it, the bytes go to memory, and `free` of the block is
deferred on the scope.

Simplifications: the blocks of the deferral array and of the protector hold no bytes of this memory
(a real allocator keeps them apart from the blocks handed out, and only the scope's code writes to
them); the allocator's answer for a result block is taken only if it lies apart from the program's
own memory and from the blocks handed out and not freed, anything else counts as "no memory";
`*count` of `raii_split` is part of the returned value; what `free` does to the bytes of a block is
not modelled.
-/
namespace Verif.Sm

/-- The number standing for the function `free` in a deferral. -/
def FREE : Nat := 1

/-- A block handed out. -/
structure Blk where
  addr : Nat
  size : Nat
  deriving DecidableEq, Repr

/-- What the thread runs in: the allocator (and how the compiler subtracts pointers), the addresses
of the program's own memory, the initial contents of `str_decode64_ex`'s local array, the address
of the literal `""` of `src/swar.c:628`. -/
structure Sys where
  env : Env
  user : Nat → Bool
  junk : Nat → UInt8
  empty : Nat

/-- The thread: memory, whether `raii_init` was called on it before (`raii_local() != NULL`), its
scope, the blocks handed out and not freed (newest first). -/
structure St where
  mem : Mem
  ready : Bool
  w : World
  live : List Blk

/-- A thread that has called nothing yet, on memory `m`. -/
def start (m : Mem) : St :=
  { mem := m, ready := false, w := { scopes := fun _ => freshScope, trace := [], tick := 0 }, live := [] }

/-- What a thread does. -/
inductive Call
  | memdup (src : Nat) (len : W)
  | concat (args : List Nat)
  | replace (h n r : Option Nat)
  | encode (src : Nat)
  | decode (src : Nat)
  | split (s : Nat) (delim : Option Nat)
  /-- The program stores bytes itself. -/
  | write (a : Nat) (bs : List UInt8)
  /-- `raii_deferred_clean()`. -/
  | release

/-- What a call returns. -/
inductive Val
  | null
  | ptr (p : Nat)
  | words (p : Nat) (count : BitVec 32)
  | unit
  deriving DecidableEq, Repr

/-- How a call ends. -/
inductive Res
  | ret (v : Val) (st : St)
  /-- `raii_panic` -/
  | panic (st : St)
  /-- undefined behaviour -/
  | wild
  | running

/-- Store a list of bytes. -/
def poke (m : Mem) (p : Nat) (bs : List UInt8) : Mem :=
  fun a => if p ≤ a ∧ a < p + bs.length then bs.getD (a - p) 0 else m a

/-- The bytes of a pointer, little endian. -/
def ptrBytes (a : Nat) : List UInt8 := (List.range 8).map fun i => wordByte (BitVec.ofNat 64 a) i

/-- What slot `o` of a block of `str_split_ex` at `p` with `n` slots holds: NULL, or the address of
offset `off` of the string part. -/
def slotAddr (p n : Nat) (o : Option Nat) : Nat :=
  match o with
  | none => 0
  | some off => p + n * 8 + off

/-- `src/swar.c:651-661`: the whole block of `str_split_ex` at address `p`: the pointer slots
followed by the string part. -/
def splitBytes (ptrs : List (Option Nat)) (block : List UInt8) (p : Nat) : List UInt8 :=
  (ptrs.map fun o => ptrBytes (slotAddr p ptrs.length o)).flatten ++ block

/-- What a call makes of the memory it reads. -/
inductive Content
  /-- returns NULL without allocating -/
  | null
  /-- allocates, registers, returns NULL (`src/swar.c:866-867`) -/
  | lose (size : Nat)
  /-- allocates `size` bytes and returns the block, which at address `p` holds `fill p` -/
  | block (size : Nat) (fill : Nat → List UInt8) (count : Option (BitVec 32))
  | fault
  | running

def Content.ofRet : Ret → Content
  | .null => .null
  | .ok b => .block b.length (fun _ => b) none
  | .fault => .fault
  | .running => .running

/-- The functions of `src/swar.c:627-875` as the calls of `src/raii.c:169-198` use them.  A NULL of
`str_decode64_ex` is returned before allocating if there is nothing to decode (`src/swar.c:838-839`),
and otherwise after the block was registered.  The size asked for by `str_split_ex` is eight bytes
for each slot and the string part. -/
def content (sys : Sys) (fuel : Nat) (m : Mem) : Call → Content
  | .memdup src len => .ofRet (strMemdup m src len)
  | .concat args => .ofRet (strConcat m args fuel)
  | .replace h n r => .ofRet (strReplace m h n r fuel)
  | .encode src => .ofRet (strEncode64 m src fuel)
  | .decode src =>
    match strDecode64 m src fuel sys.junk with
    | .null =>
      match (simdStrlen m src fuel).result with
      | none => .running
      | some len =>
        let count := countValid m src 0 len
        if count = 0 ∨ count % 4 ≠ 0 then .null else .lose (count / 4 * 3 + 1)
    | r => .ofRet r
  | .split s delim =>
    match strSplit m s sys.empty delim fuel with
    | .null => .null
    | .fault => .fault
    | .running => .running
    | .ok ptrs block count =>
      .block (ptrs.length * 8 + block.length) (splitBytes ptrs block) (some count)
  | .write _ _ => .null
  | .release => .null

/-- Does `[p, p + n)` lie apart from the program's own memory and from the blocks `bs`? -/
def clear (user : Nat → Bool) (bs : List Blk) (p n : Nat) : Bool :=
  (List.range n).all (fun i => !user (p + i)) &&
    bs.all fun b => decide (p + n ≤ b.addr) || decide (b.addr + b.size ≤ p)

/-- The allocator as the calls meet it: the next request is for a result block. -/
def envAt (sys : Sys) (st : St) : Env :=
  { sys.env with alloc := fun n size =>
      match sys.env.alloc n size with
      | none => none
      | some p => if n ≠ st.w.tick ∨ clear sys.user st.live p size.toNat then some p else none }

/-- `src/raii.c:139-147` `try_calloc` of a result block: where, if anywhere.  Strings whose block
would be larger than the address space do not exist; here there is no memory for them. -/
def grant (sys : Sys) (st : St) (size : Nat) : Option Nat :=
  if size < 2 ^ 64 then (envAt sys st).alloc st.w.tick (BitVec.ofNat 64 size) else none

/-- How the block at `p` is registered: `calloc_full(defer, 1, size, RAII_FREE)`
(`src/raii.c:248-259`; `src/swar.c:647`, `:714`, `:739`, `:796`, `:842`), except in `str_concat_ex`:
`try_calloc` and then `raii_deferred(defer, RAII_FREE, res)` (`src/swar.c:677`, `:688-689`). -/
def register (sys : Sys) (st : St) (c : Call) (size p : Nat) : Out :=
  match c with
  | .concat _ => deferAny (envAt sys st) 0 FREE p false (st.w.ticked.log (.allocated 0 p FREE))
  | _ => mallocFull (envAt sys st) 0 size FREE st.w

/-- Allocate a block, register it, then let `k` fill it (`mem` then has the block zeroed). -/
def allocate (sys : Sys) (st : St) (c : Call) (size : Nat) (k : Nat → St → Res) : Res :=
  match grant sys st size with
  | none => .panic { st with w := st.w.ticked }
  | some p =>
    -- `scope->protector` with a NULL scope
    if st.ready = false then .wild
    else match register sys st c size p with
      | .ok w => k p { st with w := w, mem := poke st.mem p (List.replicate size 0), live := ⟨p, size⟩ :: st.live }
      | .panic w => .panic { st with w := w }
      | .wild _ => .wild
      | .running _ => .running

/-- What a block at `p` is returned as: an address, and `*count` where there is one. -/
def valOf (count : Option (BitVec 32)) (p : Nat) : Val :=
  match count with
  | none => .ptr p
  | some n => .words p n

/-- The bytes are read once more after the block was zeroed, and stored in it; if the arguments
overlap it, the outcome is `wild`. -/
def fillIn (sys : Sys) (fuel : Nat) (c : Call) (size p : Nat) (st : St) : Res :=
  match content sys fuel st.mem c with
  | .block size' fill count =>
    if size' = size then .ret (valOf count p) { st with mem := poke st.mem p (fill p) } else .wild
  | _ => .wild

/-- A call of `src/raii.c:169-198` once the scope argument is evaluated. -/
def make (sys : Sys) (fuel : Nat) (c : Call) (st : St) : Res :=
  match content sys fuel st.mem c with
  | .null => .ret .null st
  | .fault => .wild
  | .running => .running
  | .lose size => allocate sys st c size fun _ st => .ret .null st
  | .block size _ _ => allocate sys st c size (fillIn sys fuel c size)

/-- One step of the thread.  `raii_memdup`, `raii_split`, `raii_concat`, `raii_replace`,
`raii_encode64` (`src/raii.c:169-194`) go through `raii_init()`, which makes the scope on the first
call; `raii_decode64` (`src/raii.c:196-198`) goes through `raii_local()`.
`raii_deferred_clean` (`src/raii.c:445-447`) releases `raii_local()`. -/
def step (sys : Sys) (fuel : Nat) (c : Call) (st : St) : Res :=
  match c with
  | .write a bs => .ret .unit { st with mem := poke st.mem a bs }
  | .release =>
    if st.ready = false then .wild
    else match exec sys.env fuel (.release 0) st.w with
      | .ok w =>
        let gone := w.trace.drop st.w.trace.length
        .ret .unit { st with w := w, live := st.live.filter fun b => .ran 0 FREE b.addr ∉ gone }
      | .panic w => .panic { st with w := w }
      | .wild _ => .wild
      | .running _ => .running
  | .decode _ => make sys fuel c st
  | _ => make sys fuel c { st with ready := true }

/-- A history: steps one after the other, all of which returned. -/
def run (sys : Sys) (fuel : Nat) : List Call → St → Option St
  | [], st => some st
  | c :: cs, st =>
    match step sys fuel c st with
    | .ret _ st => run sys fuel cs st
    | _ => none

end Verif.Sm
