import Verif.Model.Except
/-!
# The text of `try` blocks

`include/exception.h:220-281` (Windows), `297-360` (POSIX), `include/raii.h:606-620`: what is left of the macros when all but braces, the keywords
of structured exceptions and mentions of the block's variable `ex_err` is dropped; and what the C grammar and scopes ask of that.
-/
namespace Verif.Bl

/-- Kinds of blocks. -/
inductive Br
  /-- The block that declares `ex_err`. -/
  | decl
  /-- After `__try`, `__except`, `__finally`. -/
  | tryB | except | finB
  | other
  deriving DecidableEq, Repr

inductive Tok
  | op (b : Br)
  | cl
  /-- `ex_err`. -/
  | use
  deriving DecidableEq, Repr

/-- The blocks that are open, the innermost first, and whether the last token closed a `__try` block. -/
abbrev PSt := List Br × Bool

/-- C: `__except` or `__finally` must follow a `__try` block and nothing else may, `ex_err` must be in scope, no more is closed than is open. -/
def tok (s : PSt) : Tok → Option PSt
  | .op b => if (b = .except ∨ b = .finB) = (s.2 = true) then some (b :: s.1, false) else none
  | .cl =>
    if s.2 = true then none
    else match s.1 with
      | [] => none
      | b :: l => some (l, b == .tryB)
  | .use => if s.2 = false ∧ .decl ∈ s.1 then some s else none

def parse (s : PSt) : List Tok → Option PSt
  | [] => some s
  | t :: ts =>
    match tok s t with
    | some s' => parse s' ts
    | none => none

/-- `catch(E)`, `catch_any`, `catch_if` have the same braces. -/
inductive Clause
  | catch
  | finally
  | finality
  deriving DecidableEq, Repr

inductive End
  | endTry
  | endTrying
  deriving DecidableEq, Repr

structure Macros where
  start : List Tok
  clause : Clause → List Tok
  fin : End → List Tok

/-- POSIX: `include/exception.h:297-313`, `315-330`, `351-360` (handlers), `332-339`, `341-349`; `include/raii.h:618-619`. -/
def posix : Macros where
  start := [.op .decl, .use, .op .other, .op .other]
  clause
    | .catch => [.cl, .cl, .use, .op .other, .op .other, .use]
    | .finally => [.cl, .cl, .op .other, .op .other, .use]
    | .finality => [.cl, .cl, .use, .op .other, .op .other, .use] ++ [.cl, .cl, .op .other, .op .other, .use]
  fin
    | .endTry => [.cl, .cl, .use, .cl]
    | .endTrying => [.cl, .cl, .use, .cl]

/-- Windows: `include/exception.h:220-236`, `238-242`, `264-273` (handlers), `244-251`, `253-262`, `275-279`, `281`. -/
def windows : Macros where
  start := [.op .decl, .use, .op .other, .op .tryB]
  clause
    | .catch => [.cl, .op .except, .use, .op .other, .use]
    | .finally => [.cl, .cl, .cl, .op .other, .use]
    | .finality => [.cl, .op .finB, .use]
  fin
    | .endTry => [.cl, .use, .cl]
    | .endTrying => [.cl, .cl, .cl, .op .other, .use] ++ [.cl, .use, .cl]

mutual
/-- User code: all that matters is the `try` blocks in it. -/
inductive Code
  | skip
  | seq (a b : Code)
  /-- `try { body } clauses e` -/
  | blk (body : Code) (cs : Clauses) (e : End)
inductive Clauses
  | nil
  /-- `c { code }` -/
  | cons (c : Clause) (code : Code) (rest : Clauses)
end

mutual
def Code.text (m : Macros) : Code → List Tok
  | .skip => []
  | .seq a b => a.text m ++ b.text m
  | .blk body cs e => m.start ++ (.op .other :: (body.text m ++ (.cl :: (cs.text m ++ m.fin e))))
def Clauses.text (m : Macros) : Clauses → List Tok
  | .nil => []
  | .cons c code rest => m.clause c ++ (.op .other :: (code.text m ++ (.cl :: rest.text m)))
end

/-- `include/raii.h:618`: `try { body } finality { fin } end_try` for POSIX, in the programs of `Verif.Model.Except`. -/
def finality (body fin : Ex.Stmt) : Ex.Stmt := .tryFinally body (.cons .any .skip .nil) fin

end Verif.Bl
