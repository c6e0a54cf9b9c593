import Verif.Model.SpawnScope
/-!
# Specification for C69

What a program may do, told from the calls it makes alone: nothing here looks at blocks or at what was freed.
-/
namespace Verif.So

/-- What the program knows of a future: the spawn scope it belongs to, whether its function has ended, whether its value was fetched. -/
structure CF where
  pool : Option Nat
  ended : Bool
  got : Bool

/-- What the program knows of a spawn scope: joined, destroyed. -/
structure CP where
  synced : Bool
  dead : Bool

/-- How many blocks and futures there were when a spawn scope was first joined. -/
structure Mark where
  allocs : Nat
  futs : Nat

/-- Number of blocks allocated, futures, spawn scopes, the first join, whether anything was allocated, deferred or started after that, whether the
thread has ended. -/
structure Book where
  allocs : Nat
  futs : List CF
  pools : List CP
  mark : Option Mark
  late : Bool
  over : Bool

def Book.empty : Book := ⟨0, [], [], none, false, false⟩

/-- The functions spawned into scope `k`. -/
def Book.members (c : Book) (k : Nat) : List CF := c.futs.filter fun f => f.pool == some k

/-- Whether a call is in order.  `thrd_spawn` concerns the scope opened last, which must not have been joined or destroyed; `thrd_get` is for futures
of `thrd_async`, once; a spawn scope is joined once, after its functions have ended, and destroyed once, joined before if anything was spawned; the
thread ends when all its functions have ended, all values were fetched, all spawn scopes were destroyed. -/
def Book.allows (c : Book) : Act → Bool
  | .alloc | .defer _ | .scope | .async _ => !c.over
  | .use k => !c.over && decide (k < c.allocs)
  | .spawn _ => !c.over && c.pools.getLast?.any fun p => !p.synced && !p.dead
  | .finish i => !c.over && (c.futs[i]?).any fun f => !f.ended
  | .get i => !c.over && (c.futs[i]?).any fun f => f.ended && !f.got && f.pool.isNone
  | .sync k => !c.over && ((c.pools[k]?).any fun p => !p.synced && !p.dead) && (c.members k).all fun f => f.ended
  | .result k i => !c.over && ((c.pools[k]?).any fun p => p.synced && !p.dead) && decide (i < (c.members k).length)
  | .destroy k => !c.over && (c.pools[k]?).any fun p => !p.dead && (p.synced || (c.members k).isEmpty)
  | .done => !c.over && c.futs.all (fun f => f.ended && f.got) && c.pools.all fun p => p.dead

/-- The book after a call.  Joining a scope fetches the values of its functions. -/
def Book.after (c : Book) : Act → Book
  | .alloc => { c with allocs := c.allocs + 1, late := c.late || c.mark.isSome }
  | .defer _ => { c with late := c.late || c.mark.isSome }
  | .use _ | .result _ _ => c
  | .scope => { c with pools := c.pools ++ [⟨false, false⟩] }
  | .spawn _ => { c with futs := c.futs ++ [⟨some (c.pools.length - 1), false, false⟩], late := c.late || c.mark.isSome }
  | .async _ => { c with futs := c.futs ++ [⟨none, false, false⟩], late := c.late || c.mark.isSome }
  | .finish i => { c with futs := c.futs.modify i fun f => { f with ended := true } }
  | .get i => { c with futs := c.futs.modify i fun f => { f with got := true } }
  | .sync k => { c with futs := c.futs.map (fun f => if f.pool == some k then { f with got := true } else f),
                        pools := c.pools.modify k (fun p => { p with synced := true }),
                        mark := c.mark.or (some ⟨c.allocs, c.futs.length⟩) }
  | .destroy k => { c with pools := c.pools.modify k fun p => { p with dead := true } }
  | .done => { c with over := true }

/-- The book of a history in which every call is in order. -/
def Book.read (c : Book) : List Act → Option Book
  | [] => some c
  | a :: r => if c.allows a then (c.after a).read r else none

/-- A history that keeps the rules. -/
def Proper (h : List Act) : Prop := (Book.empty.read h).isSome = true

/-- A history that keeps the rules up to the end of the thread. -/
def Complete (h : List Act) : Prop := (Book.empty.read h).any (fun c => c.over) = true

/-- Block `k` was allocated before the first join. -/
def Book.oldA (c : Book) (k : Nat) : Bool := c.mark.any fun m => decide (k < m.allocs)

/-- Future `i` was started before the first join. -/
def Book.oldF (c : Book) (i : Nat) : Bool := c.mark.any fun m => decide (i < m.futs)

/-- The call concerns, after the first join, a block allocated or a future started before it. -/
def Book.stale (c : Book) : Act → Bool
  | .use k => c.oldA k
  | .finish i | .get i => c.oldF i
  | .sync k => c.futs.zipIdx.any fun p => p.1.pool == some k && c.oldF p.2
  | _ => false

/-- There is such a call in the history. -/
def Book.staleIn (c : Book) : List Act → Bool
  | [] => false
  | a :: r => c.stale a || (c.after a).staleIn r

def Stale (h : List Act) : Prop := Book.empty.staleIn h = true

/-- After the first join nothing is allocated, deferred or started. -/
def Quiet (h : List Act) : Prop := (Book.empty.read h).any (fun c => !c.late) = true

instance (h : List Act) : Decidable (Proper h) := inferInstanceAs (Decidable (_ = true))
instance (h : List Act) : Decidable (Complete h) := inferInstanceAs (Decidable (_ = true))
instance (h : List Act) : Decidable (Stale h) := inferInstanceAs (Decidable (_ = true))
instance (h : List Act) : Decidable (Quiet h) := inferInstanceAs (Decidable (_ = true))

/-- The functions deferred before the first join, in order. -/
def deferredBefore : List Act → List Nat
  | [] => []
  | .defer n :: r => n :: deferredBefore r
  | .sync _ :: _ => []
  | _ :: r => deferredBefore r

/-- All functions deferred, in order. -/
def deferred : List Act → List Nat
  | [] => []
  | .defer n :: r => n :: deferred r
  | _ :: r => deferred r

end Verif.So
