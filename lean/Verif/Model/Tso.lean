/-!
# x86: store buffers

The machine the atomic operations in assembly language (`Model/Asm.lean`) run on, after Sewell, Sarkar, Owens, Zappa Nardelli and Myreen, "x86-TSO":
every processor has a queue of stores that have not reached memory; a load takes the newest of its own stores to the place, or else memory; an
instruction with the prefix `lock` waits until the queue of its processor is empty, and is one step.  Every operation of `include/catomic.h:1334-1912`
and `279-657` is such an instruction (`store` and `clear` are exchanges, `1893-1906`; `load` is a compare-and-swap, `1869-1891`; the fence is a locked
addition, `1353`, `1355`), or a loop of plain loads and such instructions.
-/
namespace Verif.Ts

/-- What a thread does next. -/
inductive Cmd (σ : Type)
  /-- A plain load. -/
  | load (x : Nat) (k : Nat → σ)
  /-- A plain store. -/
  | store (x v : Nat) (k : σ)
  /-- A locked instruction: what it does to the place, and how the thread goes on, given what the place held. -/
  | lock (x : Nat) (f : Nat → Nat) (k : Nat → σ)
  /-- The fence. -/
  | fence (k : σ)
  /-- Nothing. -/
  | halt

/-- A program: what thread `i` does next, given where it is (its registers and its place in its code). -/
abbrev Prog (σ : Type) := Nat → σ → Cmd σ

variable {σ : Type}

def upd {β : Type} (f : Nat → β) (i : Nat) (v : β) : Nat → β := fun j => if j = i then v else f j

/-- The machine.  `buf i`: the stores of thread `i` that have not reached memory, the oldest first. -/
structure Tso (σ : Type) where
  mem : Nat → Nat
  buf : Nat → List (Nat × Nat)
  loc : Nat → σ

/-- What a load of `x` sees through a queue. -/
def see (mem : Nat → Nat) (b : List (Nat × Nat)) (x : Nat) : Nat := b.foldl (fun v s => if s.1 = x then s.2 else v) (mem x)

inductive Act
  /-- Thread `i` executes its next instruction. -/
  | cpu (i : Nat)
  /-- The oldest waiting store of thread `i` reaches memory. -/
  | flush (i : Nat)

/-- One step; `none`: the step is not possible now. -/
def step (p : Prog σ) (t : Tso σ) : Act → Option (Tso σ)
  | .cpu i =>
    match p i (t.loc i) with
    | .load x k => some { t with loc := upd t.loc i (k (see t.mem (t.buf i) x)) }
    | .store x v k => some { t with buf := upd t.buf i (t.buf i ++ [(x, v)]), loc := upd t.loc i k }
    | .lock x f k =>
      match t.buf i with
      | [] => some { t with mem := upd t.mem x (f (t.mem x)), loc := upd t.loc i (k (t.mem x)) }
      | _ :: _ => none
    | .fence k =>
      match t.buf i with
      | [] => some { t with loc := upd t.loc i k }
      | _ :: _ => none
    | .halt => none
  | .flush i =>
    match t.buf i with
    | [] => none
    | (x, v) :: b => some { t with mem := upd t.mem x v, buf := upd t.buf i b }

/-- Where the machine can get. -/
inductive Reach (p : Prog σ) (mem : Nat → Nat) (loc : Nat → σ) : Tso σ → Prop
  | start : Reach p mem loc ⟨mem, fun _ => [], loc⟩
  | step {t t'} (a : Act) : Reach p mem loc t → step p t a = some t' → Reach p mem loc t'

/-! ## The lock, as these builds have it -/

/-- What a thread does while it holds the lock: any loads and stores, each depending on what was loaded. -/
inductive Body
  | done
  | load (x : Nat) (k : Nat → Body)
  | store (x v : Nat) (k : Body)

/-- Where a thread that uses the lock is. -/
inductive Lk
  /-- Before the test-and-set of `include/catomic.h:2564`, with what it will do in the section and the sections to come. -/
  | tas (b : Body) (later : List Body)
  /-- In the waiting loop, `include/catomic.h:2568`. -/
  | spin (b : Body) (later : List Body)
  /-- Holds the lock. -/
  | held (b : Body) (later : List Body)
  /-- Through. -/
  | out

/-- After the unlock: the next section. -/
def after : List Body → Lk
  | [] => .out
  | b :: r => .tas b r

/-- A thread that uses the lock at place 0: `include/catomic.h:2561-2577`, with `test_and_set` an exchange for 1 (`1898`, `1909`), the load a
compare-and-swap of 0 for 0 (`1869-1873`, `1911`), and `clear` an exchange for 0 (`1893`, `1903`, `1910`). -/
def locker : Lk → Cmd Lk
  | .tas b l => .lock 0 (fun _ => 1) (fun v => if v = 0 then .held b l else .spin b l)
  | .spin b l => .lock 0 (fun v => if v = 0 then 0 else v) (fun v => if v = 1 then .spin b l else .tas b l)
  | .held .done l => .lock 0 (fun _ => 0) (fun _ => after l)
  | .held (.load x k) l => .load x (fun v => .held (k v) l)
  | .held (.store x v k) l => .store x v (.held k l)
  | .out => .halt

end Verif.Ts
