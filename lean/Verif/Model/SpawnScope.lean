/-!
# Who owns what: the thread's scope, futures and spawn scopes (`src/future.c`, `src/raii.c`)

One thread that allocates from its scope, defers, starts futures, opens spawn scopes, joins and destroys them.  Every block of memory the
library takes from the allocator on its behalf has a number; `freed` lists the blocks given back, in order.  An access to a block that was
given back, and giving it back again, is the outcome `none`.

Simplified: allocation succeeds, `thrd_create` and `thrd_join` succeed; no function throws (see C39) and each returns a value (see C38, C40);
a worker runs from its start to its end in one step (see C56 for what threads do to one scope at the same time); a call that would wait
changes nothing; the storage of a deferral array is one block (see C20); the argument pack is not counted (see C44);
`thrd_get` and `thrd_sync` look once more at the future they have just freed (`future.c:115`, `future.c:281`, see C41): these two reads are not
counted, so that what follows can be described at all; the exception context's list of protected pointers is dropped.
-/
namespace Verif.So

/-- A deferral: release of a block, or a function of the user. -/
inductive Def
  | free (b : Nat)
  | fn (n : Nat)
  deriving DecidableEq

/-- `memory_t`: its deferrals (oldest first), the storage they are in, the protector record, and whether the array's type is still
`RAII_DEF_ARR`. -/
structure Sc where
  armed : Bool
  defers : List Def
  store : Option Nat
  prot : Option Nat

/-- `raii_init`, `raii.c:103-117`; `unique_init`, `raii.c:200-210`. -/
def Sc.fresh : Sc := ⟨true, [], none, none⟩

/-- What the thread function returns: a word, or `thrd_returning` of a block. -/
inductive Job
  | word
  | block
  deriving DecidableEq

/-- A future: the object, the promise, the argument of the worker (`pend`: not released by the worker yet), the result the worker left in the promise, the
block it returned, if any.  `live`: the object was not freed. -/
structure Fut where
  job : Job
  obj : Nat
  prom : Nat
  farg : Nat
  live : Bool
  pend : Bool
  box : Nat
  val : Option Nat
  pool : Option Nat

/-- A result handle: the record, the value `thrd_sync` puts there, the copy of the returned block. -/
structure Hnd where
  hdl : Nat
  box : Option Nat
  ext : Option Nat

/-- `struct future_pool`, `raii.h:241-249`: the scope, the block of the record itself, the two arrays, the futures, the result handles. -/
structure Pool where
  scopeBlk : Nat
  self : Nat
  sc : Sc
  futArr : Option Nat
  resArr : Option Nat
  fids : List Nat
  hnds : List Hnd
  dead : Bool

/-- `next`: number of blocks taken so far; `mine`: the user's own blocks; `ran`: the user's deferrals that ran; `arena`: `raii_local()->arena`. -/
structure World where
  next : Nat
  freed : List Nat
  ran : List Nat
  sc : Sc
  mine : List Nat
  futs : List Fut
  pools : List Pool
  arena : Option Nat

def init : World := ⟨0, [], [], .fresh, [], [], [], none⟩

inductive Act
  /-- `malloc_default`, `calloc_default`. -/
  | alloc
  /-- `raii_defer` of function `n`. -/
  | defer (n : Nat)
  /-- The program reads the `k`-th block it allocated. -/
  | use (k : Nat)
  /-- `thrd_scope`. -/
  | scope
  /-- `thrd_spawn`. -/
  | spawn (j : Job)
  /-- `thrd_async`. -/
  | async (j : Job)
  /-- The worker of the `i`-th future runs. -/
  | finish (i : Nat)
  /-- `thrd_get` on the `i`-th future. -/
  | get (i : Nat)
  /-- `thrd_sync` on the `k`-th spawn scope. -/
  | sync (k : Nat)
  /-- `thrd_result` on the `i`-th handle of the `k`-th spawn scope, and a read of what it points to. -/
  | result (k i : Nat)
  /-- `thrd_destroy` on the `k`-th spawn scope. -/
  | destroy (k : Nat)
  /-- The thread ends, `raii_destroy`. -/
  | done

/-- A new block. -/
def World.take (w : World) : Nat × World := (w.next, { w with next := w.next + 1 })

/-- An access to block `b`. -/
def World.touch (w : World) (b : Nat) : Option World := if b ∈ w.freed then none else some w

/-- An access to each of the blocks. -/
def World.touchAll (w : World) : List Nat → Option World
  | [] => some w
  | b :: r => (w.touch b).bind fun w => w.touchAll r

/-- `RAII_FREE`. -/
def World.free (w : World) (b : Nat) : Option World := if b ∈ w.freed then none else some { w with freed := w.freed ++ [b] }

/-- `RAII_FREE` of a pointer that may be NULL. -/
def World.free? (w : World) : Option Nat → Option World
  | none => some w
  | some b => w.free b

/-- `raii_deferred_any`, `raii.c:449-465`: the next number, and the scope with one more deferral.  The array gets its storage with the first one. -/
def Sc.defer (s : Sc) (n : Nat) (d : Def) : Nat × Sc :=
  match s.store with
  | none => (n + 1, { s with defers := s.defers ++ [d], store := some n })
  | some _ => (n, { s with defers := s.defers ++ [d] })

/-- `malloc_full`, `raii.c:220-231`; `calloc_full`, `raii.c:248-259`: the block, the next number, the scope. -/
def Sc.alloc (s : Sc) (n : Nat) : Nat × Nat × Sc :=
  let r : Nat × Sc := match s.prot with
    | none => (n + 2, { s with prot := some (n + 1) })
    | some _ => (n + 1, s)
  (n, r.2.defer r.1 (.free n))

/-- `calloc_default`, `malloc_default`: from the thread's scope. -/
def World.mine? (w : World) : Nat × World :=
  let r := w.sc.alloc w.next
  (r.1, { w with next := r.2.1, sc := r.2.2 })

/-- One deferral runs. -/
def World.runDef (w : World) : Def → Option World
  | .free b => w.free b
  | .fn n => some { w with ran := w.ran ++ [n] }

/-- The loop of `raii_deferred_run`, `raii.c:403-412`, over the deferrals, newest first. -/
def World.runDefs (w : World) : List Def → Option World
  | [] => some w
  | d :: r => (w.runDef d).bind fun w => w.runDefs r

/-- `raii_deferred_free`, `raii.c:436-443`, with `raii_deferred_run`, `raii.c:395-428` (releases the protector) and `raii_array_reset`,
`raii.c:16-26` (releases the storage): if the array's type is `RAII_DEF_ARR`.  Says how the world is left apart from the scope. -/
def World.release (w : World) (s : Sc) : Option World :=
  if s.armed then ((w.runDefs s.defers.reverse).bind fun w => w.free? s.prot).bind fun w => w.free? s.store
  else some w

/-- The scope after `raii_deferred_free`: `raii_array_reset` zeroes the array, its type included. -/
def Sc.released (s : Sc) : Sc := if s.armed then ⟨false, [], none, none⟩ else s

/-- `raii_deferred_clean`, `raii.c:445-447`; `raii_destroy`, `raii.c:310-312`. -/
def World.clean (w : World) : Option World := (w.release w.sc).map fun v => { v with sc := w.sc.released }

/-- `thrd_scope`, `future.c:203-218`. -/
def World.scope (w : World) : World :=
  let (b, w) := w.take
  let r := Sc.fresh.alloc w.next
  { w with next := r.2.1, pools := w.pools ++ [⟨b, r.1, r.2.2, none, none, [], [], false⟩], arena := some w.pools.length }

/-- `try_realloc`, `raii.c:159-167`: a new block for the old one. -/
def World.realloc (w : World) (old : Option Nat) : Option (Nat × World) :=
  let (b, w) := w.take
  (w.free? old).map fun w => (b, w)

/-- `promise_create`, `future.c:13-21`; `future_create`, `future.c:55-61`; the worker's argument, `future.c:94` and `future.c:233`. -/
def World.start (w : World) (j : Job) (pool : Option Nat) : World :=
  let (p, w) := w.mine?
  let (o, w) := w.take
  let (a, w) := w.take
  { w with futs := w.futs ++ [⟨j, o, p, a, true, true, 0, none, pool⟩] }

/-- The arrays of the pool are made larger, `future.c:225-228`. -/
def World.grow (cpus : Nat) (w : World) (k : Nat) (p : Pool) : Option (Pool × World) :=
  if p.fids.length % cpus = 0 then
    (w.realloc p.futArr).bind fun (f, w) =>
    let p := { p with futArr := some f }
    (w.realloc p.resArr).map fun (r, w) =>
    let p := { p with resArr := some r }
    (p, { w with pools := w.pools.set k p })
  else some (p, w)

/-- `thrd_spawn`, `future.c:220-250`: into the spawn scope `raii_local()->arena` points to; panics if there is none. -/
def World.spawn (cpus : Nat) (w : World) (j : Job) : Option World :=
  match w.arena with
  | none => none
  | some k =>
    match w.pools[k]? with
    | none => none
    | some p =>
      (w.touch p.self).bind fun w => (w.grow cpus k p).bind fun (p, w) =>
      let w := w.start j (some k)
      (w.touchAll [p.self, p.scopeBlk]).map fun w =>
      let r := p.sc.alloc w.next
      { w with next := r.2.1, pools := w.pools.set k { p with sc := r.2.2, fids := p.fids ++ [w.futs.length - 1],
                                                              hnds := p.hnds ++ [⟨r.1, none, none⟩] } }

/-- What the thread function does to return a block: `thrd_returning`, `future.c:134-142`, defers its release in the thread's scope. -/
def World.returned (w : World) : Job → Option Nat × World
  | .word => (none, w)
  | .block =>
    let (v, w) := w.take
    let r := w.sc.defer w.next (.free v)
    (some v, { w with next := r.1, sc := r.2 })

/-- `thrd_raii_wrapper`, `future.c:70-91`, with `promise_set`, `future.c:23-36`. -/
def World.finish (w : World) (i : Nat) : Option World :=
  match w.futs[i]? with
  | none => some w
  | some f =>
    if f.pend then
      (w.touchAll [f.farg, f.prom]).bind fun w =>
      let (v, w) := w.returned f.job
      let (b, w) := w.mine?
      (w.free f.farg).map fun w => { w with futs := w.futs.set i { f with pend := false, box := b, val := v } }
    else some w

/-- `thrd_get`, `future.c:111-123`. -/
def World.get (w : World) (i : Nat) : Option World :=
  match w.futs[i]? with
  | none => some w
  | some f =>
    if f.pend then some w
    else (w.touchAll [f.obj, f.prom, f.box]).bind fun w => (w.free f.obj).map fun w =>
      { w with futs := w.futs.set i { f with live := false } }

/-- The copy of a returned block, `future.c:271-274`: into the spawn scope. -/
def World.copied (w : World) (sc : Sc) : Option Nat → Option (Option Nat × Sc × World)
  | none => some (none, sc, w)
  | some v =>
    let q := sc.alloc w.next
    (w.touch v).map fun w => (some q.1, q.2.2, { w with next := q.2.1 })

/-- The body of the loop of `thrd_sync`, `future.c:267-282`, for entry `n` of spawn scope `k`, future `i`. -/
def World.syncOne (w : World) (k n i : Nat) : Option World :=
  match w.pools[k]?, w.futs[i]? with
  | some p, some f =>
    match p.hnds[n]? with
    | none => none
    | some h =>
      (w.touchAll ([p.self, p.scopeBlk] ++ p.futArr.toList ++ p.resArr.toList ++ [f.obj, f.prom, f.box, h.hdl])).bind fun w =>
      let r := p.sc.alloc w.next
      let box := r.1
      let w := { w with next := r.2.1 }
      (w.copied r.2.2 f.val).bind fun (ext, sc, w) =>
      let p := { p with sc := sc, hnds := p.hnds.set n { h with box := some box, ext := ext } }
      let w := { w with pools := w.pools.set k p }
      (w.free f.obj).map fun w => { w with futs := w.futs.set i { f with live := false } }
  | _, _ => none

/-- The loop of `thrd_sync`. -/
def World.syncAll (w : World) (k : Nat) : Nat → List Nat → Option World
  | _, [] => some w
  | n, i :: r => (w.syncOne k n i).bind fun w => w.syncAll k (n + 1) r

/-- `thrd_sync`, `future.c:261-286`. -/
def World.sync (w : World) (k : Nat) : Option World :=
  match w.pools[k]? with
  | none => some w
  | some p =>
    (w.touchAll [p.self]).bind fun w =>
    if p.fids.any (fun i => (w.futs[i]?).any fun f => f.pend) then some w
    else (w.syncAll k 0 p.fids).bind fun w => w.clean

/-- `thrd_result`, `future.c:144-149`, and a read of the value. -/
def World.result (w : World) (k i : Nat) : Option World :=
  match (w.pools[k]?).bind fun p => p.hnds[i]? with
  | none => some w
  | some h => w.touchAll ([h.hdl] ++ h.box.toList ++ h.ext.toList)

/-- `thrd_destroy`, `future.c:295-305`, with `raii_delete`, `raii.c:276-292`. -/
def World.destroy (w : World) (k : Nat) : Option World :=
  match w.pools[k]? with
  | none => some w
  | some p =>
    (w.touchAll [p.self, p.scopeBlk]).bind fun w => (w.free? p.futArr).bind fun w => (w.free? p.resArr).bind fun w =>
    (w.release p.sc).bind fun w => (w.free p.scopeBlk).map fun w =>
    { w with pools := w.pools.set k { p with dead := true, sc := p.sc.released } }

def step (cpus : Nat) (w : World) : Act → Option World
  | .alloc => some { w.mine?.2 with mine := w.mine ++ [w.mine?.1] }
  | .defer n => let r := w.sc.defer w.next (.fn n); some { w with next := r.1, sc := r.2 }
  | .use k => match w.mine[k]? with
    | none => some w
    | some b => w.touch b
  | .scope => some w.scope
  | .spawn j => w.spawn cpus j
  | .async j => some (w.start j none)
  | .finish i => w.finish i
  | .get i => w.get i
  | .sync k => w.sync k
  | .result k i => w.result k i
  | .destroy k => w.destroy k
  | .done => w.clean

/-- A whole history; `none`: freed memory was accessed, or freed again. -/
def run (cpus : Nat) (w : World) : List Act → Option World
  | [] => some w
  | a :: r => (step cpus w a).bind fun w => run cpus w r

end Verif.So
