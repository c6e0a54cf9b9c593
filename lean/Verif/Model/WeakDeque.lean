/-!
# The work-stealing deque of `examples/work-steal.c` with the memory orders it asks for

`Model/Deque` has the same code on a machine that does one access after the other. Here the machine is the operational one of C11 with views: every atomic object has
its modification order, a list of messages counted from 0; every thread knows, for each object, a message before which it may not read (`View.ts`), and how many
calls of `push` happened before (`View.clk`). A load picks any message not before that one. An acquire load takes over the view that came with the message; what a relaxed
load was given counts after the next acquire fence (`Thr.acq`). A relaxed store sends the view of the last release fence (`Thr.rel`). A successful compare-and-exchange
reads the last message, a failing one reads any message that has another value. A fence with `memory_order_seq_cst` is an acquire and a release fence, and exchanges what it
knows with all fences of the kind before it (`St.sc`).

The modification orders grow at their end only. That is no restriction here: `bottom`, `array` and the cells are written by one thread, and `top` only by
compare-and-exchange, each of which directly follows the message it reads.

Two points where the standard says something in between are parameters (`Mach`), and what is proved is proved for all of them: whether `memory_order_consume` is acquire or
relaxed; whether `seq_cst` operations other than fences are merely acquire and release, or as good as fences.

Simplified: accesses of the owner to what only it writes (`bottom`, `array`, the cells) see its last store, as coherence demands. The size of an array is known to whoever
knows the array (`atomic_init(&new->size, ..)` is not a point of failure here). Reading from a store that has not been made yet (load buffering) is not possible. `top` and
`bottom` are natural numbers, except for `bottom - 1`, as in `Model/Deque`. Allocation succeeds.
-/
namespace Verif.Wd

inductive Loc
  | top
  | bottom
  | array
  | cell (a i : Nat)
  deriving DecidableEq

structure View where
  ts : Loc → Nat
  clk : Nat

def View.zero : View := ⟨fun _ => 0, 0⟩

def View.join (v w : View) : View := ⟨fun l => max (v.ts l) (w.ts l), max v.clk w.clk⟩

def View.reach (v : View) (l : Loc) (n : Nat) : View := { v with ts := fun k => if k = l then max (v.ts l) n else v.ts k }

def fn {α β : Type} [DecidableEq α] (f : α → β) (a : α) (b : β) : α → β := fun x => if x = a then b else f x

/-- The modification order of an atomic object: messages 0 to `last`. -/
structure Hist (β : Type) where
  last : Nat
  val : Nat → β
  view : Nat → View

/-- An object that was only initialised. -/
def Hist.one {β : Type} (v : β) : Hist β := ⟨0, fun _ => v, fun _ => .zero⟩

def Hist.add {β : Type} (h : Hist β) (v : β) (w : View) : Hist β := ⟨h.last + 1, fn h.val (h.last + 1) v, fn h.view (h.last + 1) w⟩

/-- The value in the last message. -/
def Hist.now {β : Type} (h : Hist β) : β := h.val h.last

/-- What a thread knows, what it will know after an acquire fence, what it knew at its last release fence. -/
structure Thr where
  cur : View
  acq : View
  rel : View

/-- A thread may read message `i`. -/
def Thr.may {β : Type} (th : Thr) (l : Loc) (h : Hist β) (i : Nat) : Bool := decide (th.cur.ts l ≤ i) && decide (i ≤ h.last)

/-- The thread after it has read message `i`. -/
def Thr.load {β : Type} (acq : Bool) (th : Thr) (l : Loc) (h : Hist β) (i : Nat) : Thr :=
  let c := (if acq then th.cur.join (h.view i) else th.cur).reach l i
  { th with cur := c, acq := (th.acq.join c).join (h.view i) }

/-- The view that goes with a relaxed store. -/
def Thr.sent {β : Type} (th : Thr) (l : Loc) (h : Hist β) : View := th.rel.reach l (h.last + 1)

/-- The thread after a store. -/
def Thr.stored {β : Type} (th : Thr) (l : Loc) (h : Hist β) : Thr := { th with cur := th.cur.reach l (h.last + 1) }

/-- `atomic_thread_fence(memory_order_release)`. -/
def Thr.release (th : Thr) : Thr := { th with rel := th.cur }

/-- What a thread knows after `atomic_thread_fence(memory_order_seq_cst)`. -/
def Thr.fenced (th : Thr) (sc : View) : View := (th.cur.join th.acq).join sc

/-- How the machine reads what the standard leaves open: `consume`: `memory_order_consume` is acquire. `strong`: `seq_cst` operations are as good as fences. -/
structure Mach where
  consume : Bool
  strong : Bool

/-- Where the owner is; the lines are those before which it stands. -/
inductive OPc (α : Type)
  | idle
  /-- `push`, `work-steal.c:100`. -/
  | push (w : α)
  /-- `resize`, `work-steal.c:76`. -/
  | grow (w : α) (b : Nat)
  /-- `resize`, `work-steal.c:78`. -/
  | publish (w : α) (b t : Nat)
  /-- `push`, `work-steal.c:106`. -/
  | put (w : α) (b : Nat)
  /-- `push`, `work-steal.c:107`. -/
  | bump (w : α) (b : Nat)
  /-- `take`, `work-steal.c:113`. -/
  | take
  /-- `take`, `work-steal.c:115`. -/
  | lower (b t : Nat)
  /-- `take`, `work-steal.c:116`. -/
  | fence (b t : Nat)
  /-- `take`, `work-steal.c:118`. -/
  | look (b t : Nat)
  /-- `take`, `work-steal.c:123`. -/
  | cas (b t : Nat) (x : Option α)
  /-- `take`, `work-steal.c:128` or `work-steal.c:132`. -/
  | restore (b : Nat)

/-- Where a thief is. -/
inductive TPc (α : Type)
  | idle
  /-- `work-steal.c:138`. -/
  | top
  /-- `work-steal.c:139`. -/
  | fence (t : Nat)
  /-- `work-steal.c:140`. -/
  | bottom (t : Nat)
  /-- `work-steal.c:144`. -/
  | array (t : Nat)
  /-- `work-steal.c:145`. -/
  | read (t a : Nat)
  /-- `work-steal.c:146`. -/
  | cas (t : Nat) (x : Option α)

/-- `deque_t`, `work-steal.c:56-60`; the arrays have numbers, `cell a i` is `buffer[i]` of array `a`, `none` for what `malloc` left there. `ot`, `tt`: what the owner
and the thieves know. `calls`: what `push` was called with, oldest first; `pushed`: what it has returned for, newest first. `got`: what `take` and `steal` have returned, newest
first, and of how many calls of `push` the caller then knows. -/
structure St (α : Type) where
  top : Hist Nat
  bottom : Hist Nat
  array : Hist Nat
  cell : Nat → Nat → Hist (Option α)
  size : Nat → Nat
  sc : View
  ot : Thr
  o : OPc α
  tt : Nat → Thr
  th : Nat → TPc α
  calls : List α
  pushed : List α
  got : List (Option α × Nat)

/-- The numbers say which message is read. -/
inductive Act (α : Type)
  | push (w : α)
  | take
  | owner (i : Nat)
  | steal (j : Nat)
  | thief (j i : Nat)

variable {α : Type}

def Thr.zero : Thr := ⟨.zero, .zero, .zero⟩

/-- `init`, `work-steal.c:62-68`, before there are thieves. -/
def init (size : Nat) : St α :=
  { top := .one 0, bottom := .one 0, array := .one 0, cell := fun _ _ => .one none, size := fun _ => size, sc := .zero, ot := .zero, o := .idle, tt := fun _ => .zero, th := fun _ => .idle,
    calls := [], pushed := [], got := [] }

/-- `size_t` arithmetic: `b - 1`. -/
def pred (b : Nat) : Nat := if b = 0 then 2 ^ 64 - 1 else b - 1

/-- The cells of array `k` after the loop `work-steal.c:78-79` has copied `n` cells, starting with `t`; `rel` is the view relaxed stores send. -/
def copy (old : Nat → Hist (Option α)) (k oldSize size : Nat) (rel : View) (t : Nat) : Nat → Nat → Hist (Option α)
  | 0 => fun _ => .one none
  | n + 1 => fun c =>
    if c = (t + n) % size then
      (copy old k oldSize size rel t n c).add (old ((t + n) % oldSize)).now (rel.reach (.cell k c) ((copy old k oldSize size rel t n c).last + 1))
    else copy old k oldSize size rel t n c

/-- A view that knows all of the new array `k`. -/
def View.fill (v : View) (k : Nat) (cells : Nat → Hist (Option α)) : View :=
  { v with ts := fun l => match l with | .cell a c => if a = k then (cells c).last else v.ts l | l => v.ts l }

/-- The view a successful compare-and-exchange of `top` leaves. -/
def casView (M : Mach) (s : St α) (th : Thr) : View :=
  (if M.strong then ((th.cur.join (s.top.view s.top.last)).join s.sc) else th.cur.join (s.top.view s.top.last)).reach .top (s.top.last + 1)

/-- The state of memory after a successful compare-and-exchange of `top`. -/
def casDone (M : Mach) (s : St α) (v : Nat) (w : View) : St α :=
  { s with top := s.top.add v w, sc := if M.strong then s.sc.join w else s.sc }

/-- `push`, `resize` and `take`: `work-steal.c:70-80`, `work-steal.c:98-109`, `work-steal.c:111-135`. -/
def ownerStep (M : Mach) (s : St α) (i : Nat) : Option (St α) :=
  match s.o with
  | .idle => none
  | .push w =>
    if s.ot.may .top s.top i then
      some { s with ot := s.ot.load true .top s.top i,
                    o := if s.bottom.now - s.top.val i > s.size s.array.now - 1 then .grow w s.bottom.now else .put w s.bottom.now }
    else none
  | .grow w b => if s.ot.may .top s.top i then some { s with ot := s.ot.load false .top s.top i, o := .publish w b (s.top.val i) } else none
  | .publish w b t =>
    let k := s.array.last + 1
    let n := s.size s.array.now * 2
    let cells := copy (s.cell s.array.now) k (s.size s.array.now) n s.ot.rel t (s.bottom.now - t)
    let v := s.ot.cur.fill k cells
    some { s with cell := fn s.cell k cells, size := fn s.size k n, sc := if M.strong then s.sc.join v else s.sc, array := s.array.add k (s.ot.sent .array s.array),
                  ot := { s.ot with cur := v.reach .array k }, o := .put w b }
  | .put w b =>
    let a := s.array.now
    let c := b % s.size a
    some { s with cell := fn s.cell a (fn (s.cell a) c ((s.cell a c).add (some w) (s.ot.sent (.cell a c) (s.cell a c)))), ot := s.ot.stored (.cell a c) (s.cell a c), o := .bump w b }
  | .bump w b =>
    some { s with ot := s.ot.release.stored .bottom s.bottom, bottom := s.bottom.add (b + 1) (s.ot.release.sent .bottom s.bottom), o := .idle, pushed := w :: s.pushed }
  | .take => if s.ot.may .top s.top i then some { s with ot := s.ot.load false .top s.top i, o := .lower (pred s.bottom.now) (s.top.val i) } else none
  | .lower b t => some { s with ot := s.ot.stored .bottom s.bottom, bottom := s.bottom.add b (s.ot.sent .bottom s.bottom), o := .fence b t }
  | .fence b t => some { s with ot := ⟨s.ot.fenced s.sc, s.ot.fenced s.sc, s.ot.fenced s.sc⟩, sc := s.ot.fenced s.sc, o := .look b t }
  | .look b t =>
    let x := (s.cell s.array.now (b % s.size s.array.now)).now
    if t ≤ b then
      if t = b then some { s with o := .cas b t x }
      else some { s with o := .idle, got := (x, s.ot.cur.clk) :: s.got }
    else some { s with o := .restore b }
  | .cas b t x =>
    if s.ot.may .top s.top i then
      if s.top.val i = t then
        if i = s.top.last then some { casDone M s (t + 1) (casView M s s.ot) with ot := { s.ot with cur := casView M s s.ot }, o := .restore b, got := (x, (casView M s s.ot).clk) :: s.got }
        else none
      else some { s with ot := s.ot.load false .top s.top i, o := .restore b }
    else none
  | .restore b => some { s with ot := s.ot.stored .bottom s.bottom, bottom := s.bottom.add (b + 1) (s.ot.sent .bottom s.bottom), o := .idle }

/-- `steal`, `work-steal.c:137-153`. -/
def thiefStep (M : Mach) (s : St α) (j i : Nat) : Option (St α) :=
  match s.th j with
  | .idle => none
  | .top => if (s.tt j).may .top s.top i then some { s with tt := fn s.tt j ((s.tt j).load true .top s.top i), th := fn s.th j (.fence (s.top.val i)) } else none
  | .fence t =>
    let v := (s.tt j).fenced s.sc
    some { s with tt := fn s.tt j ⟨v, v, v⟩, sc := v, th := fn s.th j (.bottom t) }
  | .bottom t =>
    if (s.tt j).may .bottom s.bottom i then
      some { s with tt := fn s.tt j ((s.tt j).load true .bottom s.bottom i), th := fn s.th j (if t < s.bottom.val i then .array t else .idle) }
    else none
  | .array t =>
    if (s.tt j).may .array s.array i then
      some { s with tt := fn s.tt j ((s.tt j).load M.consume .array s.array i), th := fn s.th j (.read t (s.array.val i)) }
    else none
  | .read t a =>
    let c := t % s.size a
    if (s.tt j).may (.cell a c) (s.cell a c) i then
      some { s with tt := fn s.tt j ((s.tt j).load false (.cell a c) (s.cell a c) i), th := fn s.th j (.cas t ((s.cell a c).val i)) }
    else none
  | .cas t x =>
    if (s.tt j).may .top s.top i then
      if s.top.val i = t then
        if i = s.top.last then
          some { casDone M s (t + 1) (casView M s (s.tt j)) with tt := fn s.tt j { s.tt j with cur := casView M s (s.tt j) }, th := fn s.th j .idle, got := (x, (casView M s (s.tt j)).clk) :: s.got }
        else none
      else some { s with tt := fn s.tt j ((s.tt j).load false .top s.top i), th := fn s.th j .idle }
    else none

/-- One step of the whole; `none`: not possible. A call of `push` is the next event of the owner. -/
def step (M : Mach) (s : St α) : Act α → Option (St α)
  | .push w =>
    match s.o with
    | .idle => some { s with o := .push w, calls := s.calls ++ [w], ot := { s.ot with cur := { s.ot.cur with clk := s.calls.length + 1 } } }
    | _ => none
  | .take => match s.o with | .idle => some { s with o := .take } | _ => none
  | .owner i => ownerStep M s i
  | .steal j => match s.th j with | .idle => some { s with th := fn s.th j .top } | _ => none
  | .thief j i => thiefStep M s j i

end Verif.Wd
