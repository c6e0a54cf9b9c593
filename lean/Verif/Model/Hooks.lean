/-!
# Functions called on a throw, and the data attached to a context

`ex_data_set`, `ex_data_get`, `ex_swap_set`, `ex_swap_reset`, `ex_unwind_set` (`src/except.c:292-311`), the functions a program may install with `exception_setup_func` and
`exception_unwind_func`, and what `ex_throw`, blocks (`ex_try` … `ex_catch_any` … `ex_end_try`) and guarded sections do with both.  One thread, not Windows, whose scope is already there
(`raii_init` was called); calls act on the current context.

Simplified: what a scope's deferrals do (C02, C57), which protected pointers are released (C57), exceptions other than by number, finally clauses; whether an exception is marked as handled in a
section (C33) is an input.
-/
namespace Verif.Hk

/-- `include/exception.h:379-430` `ex_context_s`, the fields that matter here. -/
structure Ctx where
  data : Nat
  prev : Nat
  isUnwind : Bool
  isGuarded : Bool
  isRaii : Bool
  deriving DecidableEq, Repr

/-- Calls on a context. -/
inductive Op
  | data (d : Nat)
  | swap (d : Nat)
  | reset
  | unwind (b : Bool)
  deriving DecidableEq, Repr

/-- `src/except.c:292-311`. -/
def Ctx.op (c : Ctx) : Op → Ctx
  | .data d => { c with data := d }
  | .swap d => { c with prev := c.data, data := d }
  | .reset => { c with data := c.prev }
  | .unwind b => { c with isUnwind := b }

/-- `exception_setup_func`: none, `guard_set`, or the program's own, number `n`, which makes the calls `f` on the context it is given. -/
inductive Setup
  | none
  | guard
  | user (n : Nat) (f : List Op)
  deriving DecidableEq, Repr

/-- `exception_unwind_func`: none, `raii_deferred_free`, or the program's own. -/
inductive Unwind
  | none
  | free
  | user (u : Nat)
  deriving DecidableEq, Repr

inductive Ev
  | op (o : Op)
  /-- `ex_data_get` returned it. -/
  | got (d : Nat)
  /-- A block or section begins; its context has this in `data`. -/
  | enter (d : Nat)
  | leave
  /-- The program's setup function is called with the exception. -/
  | setup (n e : Nat)
  /-- The program's unwind function is called with the data. -/
  | unwind (u d : Nat)
  /-- `raii_deferred_free` of the scope. -/
  | freed (a : Nat)
  /-- `raii_deferred_clean`. -/
  | cleaned
  /-- Protected pointers are released. -/
  | walked
  deriving DecidableEq, Repr

inductive Out
  | ok
  | thrown (e : Nat)
  | dead
  deriving DecidableEq, Repr

/-- The address of the thread's scope, and which scopes hold memory (`is_protected`). -/
structure World where
  scope : Nat
  prot : Nat → Bool

/-- `base`: the current context is the thread's own, outside all blocks.  `arena`: the scope of the innermost section. -/
structure St where
  ctx : Ctx
  base : Bool
  arena : Nat
  setup : Setup
  unwind : Unwind
  deriving DecidableEq, Repr

/-- `src/except.c:395-399`, with `guard_set` (`src/raii.c:524-531`) and `raii_unwind_set` (`src/raii.c:91-97`). -/
def setUp (w : World) (s : St) (e : Nat) (c : Ctx) : List Ev × Ctx :=
  match s.setup with
  | .user n f => (.setup n e :: f.map .op, f.foldl Ctx.op c)
  | .guard => ([], { c with isGuarded := true, prev := c.data, data := s.arena, isUnwind := w.prot s.arena })
  | .none => ([], if c.isRaii then { c with prev := c.data, data := w.scope, isUnwind := w.prot w.scope } else c)

/-- `src/except.c:106-133` `ex_unwind_stack`. -/
def unwindStack (w : World) (s : St) (c : Ctx) : Ev :=
  if c.isUnwind then
    match s.unwind with
    | .user u => .unwind u c.data
    | .free => .freed c.data
    | .none => if c.isRaii && c.data == w.scope then .cleaned else .walked
  else .walked

/-- `src/except.c:378-416` `ex_throw`. -/
def throwIn (w : World) (s : St) (e : Nat) : List Ev × St × Out :=
  let r := setUp w s e { s.ctx with isUnwind := false }
  (r.1 ++ [unwindStack w s r.2], { s with ctx := r.2 }, if s.base then .dead else .thrown e)

inductive Prog
  | done
  | op (o : Op) (k : Prog)
  | get (k : Prog)
  /-- Installs functions. -/
  | hooks (a : Setup) (b : Unwind) (k : Prog)
  | throw (e : Nat)
  /-- A block whose context holds `g` before it is set; `h` is the handler. -/
  | block (g : Ctx) (b h k : Prog)
  /-- A guarded section with scope `a`; `handled`: an exception is marked as handled. -/
  | guard (a : Nat) (g : Ctx) (handled : Bool) (b k : Prog)
  deriving DecidableEq, Repr

/-- `include/raii.h:531-545`: the state in a guarded section. -/
def inside (a : Nat) (g : Ctx) : St := { ctx := g, base := false, arena := a, setup := .guard, unwind := .free }

/-- `src/raii.c:533-539` `guard_reset`, called by `include/raii.h:570` when the context is the enclosing one again. -/
def outside (s : St) : St := { s with ctx := { s.ctx with data := s.ctx.prev, isGuarded := false } }

def run (w : World) : Prog → St → List Ev × St × Out
  | .done, s => ([], s, .ok)
  | .op o k, s => let r := run w k { s with ctx := s.ctx.op o }; (.op o :: r.1, r.2)
  -- `src/except.c:300-302`
  | .get k, s => let r := run w k s; (.got s.ctx.data :: r.1, r.2)
  | .hooks a b k, s => run w k { s with setup := a, unwind := b }
  | .throw e, s => throwIn w s e
  -- `include/exception.h:297-360`: `ex_try` sets none of these fields; the handler runs in the same context, and what it throws goes on in the enclosing one
  | .block g b h k, s =>
    let r := run w b { s with ctx := g, base := false }
    match r.2.2 with
    | .dead => (.enter g.data :: r.1, r.2)
    | .ok => let q := run w k { r.2.1 with ctx := s.ctx, base := s.base }; (.enter g.data :: r.1 ++ .leave :: q.1, q.2)
    | .thrown _ =>
      let u := run w h r.2.1
      match u.2.2 with
      | .dead => (.enter g.data :: r.1 ++ u.1, u.2)
      | .ok => let q := run w k { u.2.1 with ctx := s.ctx, base := s.base }; (.enter g.data :: r.1 ++ u.1 ++ .leave :: q.1, q.2)
      | .thrown e => let q := throwIn w { u.2.1 with ctx := s.ctx, base := s.base } e; (.enter g.data :: r.1 ++ u.1 ++ .leave :: q.1, q.2)
  -- `include/raii.h:531-572`
  | .guard a g handled b k, s =>
    let r := run w b (inside a g)
    match r.2.2 with
    | .dead => (.enter g.data :: r.1, r.2)
    | .ok => let q := run w k (outside s); (.enter g.data :: r.1 ++ .freed a :: .leave :: q.1, q.2)
    | .thrown e =>
      let q := if handled then run w k (outside s) else throwIn w (outside s) e
      (.enter g.data :: r.1 ++ .freed a :: .leave :: q.1, q.2)

/-- After `raii_init` (`src/raii.c:103-131`) in a new thread. -/
def start (w : World) : St :=
  { ctx := { data := w.scope, prev := w.scope, isUnwind := false, isGuarded := false, isRaii := true }, base := true, arena := 0, setup := .none, unwind := .none }

/-- `src/raii.c:118-122`: `raii_init`, when it makes the scope, in whatever context is current. -/
def firstInit (w : World) (c : Ctx) : Ctx := { c with data := w.scope, prev := w.scope, isRaii := true }

end Verif.Hk
