import Verif.Model.Blocks
/-!
# Which `try` blocks are text that C accepts
-/
namespace Verif.Bl

/-- The text leaves open what is open and closes nothing of it. -/
def Fits (m : Macros) (c : Code) : Prop := ∀ open' : List Br, parse (open', false) (c.text m) = some (open', false)

/-- One handler; then `finally` and `end_try`, or `end_trying`. -/
def shape : Clauses → End → Bool
  | .cons .catch _ (.cons .finally _ .nil), .endTry => true
  | .cons .catch _ .nil, .endTrying => true
  | _, _ => false

mutual
/-- All blocks, also those inside others, are such. -/
def Code.shaped : Code → Bool
  | .skip => true
  | .seq a b => a.shaped && b.shaped
  | .blk body cs e => shape cs e && body.shaped && cs.shaped
def Clauses.shaped : Clauses → Bool
  | .nil => true
  | .cons _ code rest => code.shaped && rest.shaped
end

end Verif.Bl
