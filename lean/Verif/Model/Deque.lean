/-!
# The work-stealing deque of `examples/work-steal.c`

One owner pushes and takes, any number of thieves steal; their steps interleave in any way, one access to shared memory at a time
(sequential consistency: the weaker orders the code asks for are not modelled, so that a claim refuted here is refuted for every machine, and a
claim proved here is proved for machines and compilers that do not reorder these accesses).

`top` and `bottom` are natural numbers ("Assume that they never overflow", `work-steal.c:57`), but `bottom - 1` wraps as a `size_t` does.
Accesses of the owner to what only the owner writes (`bottom`, `array`, the buffers) are merged with the neighbouring access to `top` or the
neighbouring write.  Allocation succeeds.  Only `bottom - 1` can wrap; `b + 1` is not reduced modulo `2 ^ 64`, nor is `b - t` in `push`, which matters only after the wrap.
-/
namespace Verif.Dq

/-- `array_t`, `work-steal.c:50-53`; a cell that was never written holds `none`. -/
structure Arr (α : Type) where
  size : Nat
  buf : Nat → Option α

/-- Where the owner is. -/
inductive OPc (α : Type)
  | idle
  /-- `push` has been called. -/
  | push (w : α)
  /-- `push` found the array full and is in `resize`, before `work-steal.c:76`. -/
  | grow (w : α) (b : Nat)
  /-- In `resize` after `work-steal.c:76`; `t` is what was read there. -/
  | publish (w : α) (b t : Nat)
  /-- Before `work-steal.c:106`. -/
  | put (w : α) (b : Nat)
  /-- Before `work-steal.c:108`. -/
  | bump (w : α) (b : Nat)
  /-- `take` has been called. -/
  | take
  /-- `take` before `work-steal.c:115`. -/
  | lower (b t : Nat)
  /-- `take` before `work-steal.c:118`. -/
  | look (b t : Nat)
  /-- `take` before `work-steal.c:123`. -/
  | cas (b t : Nat) (x : Option α)
  /-- `take` before `work-steal.c:128` or `work-steal.c:132`. -/
  | restore (b : Nat)

/-- Where a thief is. -/
inductive TPc (α : Type)
  | idle
  /-- Before `work-steal.c:138`. -/
  | top
  /-- Before `work-steal.c:140`. -/
  | bottom (t : Nat)
  /-- Before `work-steal.c:144`. -/
  | array (t : Nat)
  /-- Before `work-steal.c:145`; `a` is the array read. -/
  | read (t a : Nat)
  /-- Before `work-steal.c:146`. -/
  | cas (t : Nat) (x : Option α)

/-- `deque_t`, `work-steal.c:56-60`.  `arrs k` is the `k`-th array made, `cur` the one in use.  `pushed`: the tasks whose `push` is over;
`got`: what the calls of `take` and `steal` that obtained something obtained; both newest first. -/
structure Dq (α : Type) where
  top : Nat
  bottom : Nat
  arrs : Nat → Arr α
  cur : Nat
  o : OPc α
  th : Nat → TPc α
  pushed : List α
  got : List (Option α)

inductive Act (α : Type)
  /-- The owner calls `push(w)`. -/
  | push (w : α)
  /-- The owner calls `take`. -/
  | take
  /-- One step of the owner. -/
  | owner
  /-- Thief `j` calls `steal`. -/
  | steal (j : Nat)
  /-- One step of thief `j`. -/
  | thief (j : Nat)

variable {α : Type}

/-- `init`, `work-steal.c:62-68`. -/
def init (size : Nat) : Dq α :=
  { top := 0, bottom := 0, arrs := fun _ => ⟨size, fun _ => none⟩, cur := 0, o := .idle, th := fun _ => .idle, pushed := [], got := [] }

/-- The array in use. -/
def Dq.arr (q : Dq α) : Arr α := q.arrs q.cur

/-- `size_t` arithmetic: `b - 1`. -/
def pred (b : Nat) : Nat := if b = 0 then 2 ^ 64 - 1 else b - 1

/-- The copy loop of `resize`, `work-steal.c:78-79`: `for (i = t; i < b; i++) new->buffer[i % new_size] = a->buffer[i % old_size];` -/
def copy (old : Arr α) (size : Nat) (t : Nat) : Nat → (Nat → Option α)
  | 0 => fun _ => none
  | n + 1 => fun k => if k = (t + n) % size then old.buf ((t + n) % old.size) else copy old size t n k

def Dq.setArr (q : Dq α) (k : Nat) (a : Arr α) : Dq α := { q with arrs := fun i => if i = k then a else q.arrs i }

def Dq.setTh (q : Dq α) (j : Nat) (p : TPc α) : Dq α := { q with th := fun i => if i = j then p else q.th i }

/-- `push`, `resize` and `take`: `work-steal.c:70-80`, `work-steal.c:98-109`, `work-steal.c:111-135`. -/
def ownerStep (q : Dq α) : Dq α :=
  match q.o with
  | .idle => q
  | .push w => if q.bottom - q.top > q.arr.size - 1 then { q with o := .grow w q.bottom } else { q with o := .put w q.bottom }
  | .grow w b => { q with o := .publish w b q.top }
  | .publish w b t =>
    { q.setArr (q.cur + 1) ⟨q.arr.size * 2, copy q.arr (q.arr.size * 2) t (q.bottom - t)⟩ with cur := q.cur + 1, o := .put w b }
  | .put w b =>
    { q.setArr q.cur { q.arr with buf := fun k => if k = b % q.arr.size then some w else q.arr.buf k } with o := .bump w b }
  | .bump w b => { q with bottom := b + 1, o := .idle, pushed := w :: q.pushed }
  | .take => { q with o := .lower (pred q.bottom) q.top }
  | .lower b t => { q with bottom := b, o := .look b t }
  | .look b t =>
    if t ≤ b then
      if t = b then { q with o := .cas b t (q.arr.buf (b % q.arr.size)) }
      else { q with o := .idle, got := q.arr.buf (b % q.arr.size) :: q.got }
    else { q with o := .restore b }
  | .cas b t x => if q.top = t then { q with top := t + 1, o := .restore b, got := x :: q.got } else { q with o := .restore b }
  | .restore b => { q with bottom := b + 1, o := .idle }

/-- `steal`, `work-steal.c:137-153`. -/
def thiefStep (q : Dq α) (j : Nat) : Dq α :=
  match q.th j with
  | .idle => q
  | .top => q.setTh j (.bottom q.top)
  | .bottom t => if t < q.bottom then q.setTh j (.array t) else q.setTh j .idle
  | .array t => q.setTh j (.read t q.cur)
  | .read t a => q.setTh j (.cas t ((q.arrs a).buf (t % (q.arrs a).size)))
  | .cas t x => if q.top = t then { q.setTh j .idle with top := t + 1, got := x :: q.got } else q.setTh j .idle

/-- One step of the whole.  Calls by a thread that is in another call do nothing. -/
def step (q : Dq α) : Act α → Dq α
  | .push w => match q.o with | .idle => { q with o := .push w } | _ => q
  | .take => match q.o with | .idle => { q with o := .take } | _ => q
  | .owner => ownerStep q
  | .steal j => match q.th j with | .idle => q.setTh j .top | _ => q
  | .thief j => thiefStep q j

def run (q : Dq α) (h : List (Act α)) : Dq α := h.foldl step q

end Verif.Dq
