import Verif.Model.Refuse
/-!
# What running out of memory should do, and what it costs

Nothing should be lost: whatever is refused, each block granted is still to be freed by somebody.
-/
namespace Verif.Oo

/-- The blocks that came to the scope by deferrals, with the array and the protector. -/
def Scope.deferred (c : Scope) : List Nat := c.array ++ (c.entries.flatten ++ c.protector)

/-- The blocks the scope will free. -/
def Scope.held (c : Scope) : List Nat := c.own ++ (c.tables ++ if c.spent then [] else c.deferred)

/-- The blocks that will be freed: the scopes' and those their holders have. -/
def St.held (s : St) : List Nat := s.kept ++ (s.scopes.map Scope.held).flatten

/-- The blocks that nobody will free. -/
def St.lost (s : St) : List Nat := s.live.filter fun b => !s.held.contains b

/-- How many blocks are lost when such a request is refused. -/
def cost : Kind → For → Nat
  -- the block, when its scope has no protector yet, or no room for its deferral
  | .memory, .protector => 1
  | .memory, .array => 1
  -- the pack; the pack and its values
  | .pack, .values => 1
  | .pack, .more => 2
  -- the pack is nobody's: `get_args` does not try again
  | .get, .array => 2
  -- the scope
  | .arena, .arena => 1
  -- the scope; the scope and the pool; the pool
  | .pool, .block => 1
  | .pool, .protector => 2
  | .pool, .array => 1
  -- the promise
  | .async, .protector => 1
  | .async, .array => 1
  | .spawn, .protector => 1
  | .spawn, .array => 1
  -- the future; the future and the argument
  | .async, .argument => 1
  | .async, .thread => 2
  | .spawn, .argument => 1
  | .spawn, .thread => 2
  -- the future of a thread that runs; that and the result (only if the pool's scope was released before); the result
  | .spawn, .result => 1
  | .spawn, .resultProtector => 2
  | .spawn, .resultArray => 1
  | _, _ => 0

def total (l : List (Kind × For)) : Nat := (l.map fun r => cost r.1 r.2).sum

/-- The end of the program: guards are left, threads end, futures and packs are given back, scopes are deleted. -/
def finish (s : St) : List Op :=
  s.guards.map (fun _ => .unguarded) ++ (s.kept.map .done ++ (List.range s.scopes.length).map .delete)

/-- The scopes a call gives something to free. -/
def Op.uses : Op → List Nat
  | .memory i => [i]
  | .deferral i => [i]
  | .get i _ _ => [i]
  | .async => [0]
  | .spawn i _ => [0, i]
  | _ => []

/-- No call gives something to a scope that was released: it would be lost without any refusal. -/
def Proper (ok : Nat → Bool) : List Op → St → Prop
  | [], _ => True
  | o :: os, s => (∀ i ∈ o.uses, (s.at i).spent = false) ∧ Proper ok os (exec ok o s).2

instance properDecidable (ok : Nat → Bool) : ∀ (os : List Op) (s : St), Decidable (Proper ok os s)
  | [], _ => isTrue trivial
  | o :: os, s =>
    have := properDecidable ok os (exec ok o s).2
    inferInstanceAs (Decidable (_ ∧ _))

/-- C82 in full: whatever is refused, nothing undefined happens, and at the end of the program every block has been freed. -/
def C82_Full : Prop :=
  ∀ (ok : Nat → Bool) (os : List Op), Proper ok os start →
    .undefined ∉ (run ok os start).1 ∧
      (run ok (finish (run ok os start).2) (run ok os start).2).2.live = []

end Verif.Oo
