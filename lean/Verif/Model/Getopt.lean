/-!
# Command line options: `getopt` (`include/compat/getopt.c`)

`getopt` is `_getopt_internal` without long options (`getopt.c:1168-1178`); `getopt_long` is declared in `getopt.h` but defined nowhere,
and the parts for long options, which `getopt` does not reach, are in `Verif.Model.GetoptLong`.  A string is the list of its bytes, without the final NUL; `argv` is the
list of its elements, `argc` its length.  The variables are `int`s; here natural numbers (the program does not make `optind` negative).
Messages to the user are left out.  `none`: an element outside `argv` is read or written, or NULL is dereferenced.
-/
namespace Verif.Go

abbrev Str := List Nat

/-- `'-'`. -/
def dash : Nat := 45
/-- `'+'`. -/
def plus : Nat := 43
/-- `':'`. -/
def colon : Nat := 58
/-- `'?'`. -/
def quest : Nat := 63
/-- `'W'`. -/
def capW : Nat := 87
/-- `';'`. -/
def semi : Nat := 59

/-- `ordering`, `getopt.c:188-191`. -/
inductive Order
  | requireOrder
  | permute
  | returnInOrder
  deriving DecidableEq

/-- The variables of the file, `getopt.c:116-194` and `252-253`, and `argv`.  `next` is what `nextchar` points to; NULL and the empty string are
not distinguished (the code does not either, `getopt.c:546`). -/
structure St where
  argv : List Str
  optind : Nat
  first : Nat
  last : Nat
  next : Str
  order : Order
  inited : Bool
  deriving DecidableEq

/-- What a call tells its caller: the value returned, `optarg`, and what `optopt` was set to, if it was. -/
structure Out where
  code : Int
  optarg : Option Str
  optopt : Option Nat
  deriving DecidableEq

/-- A `char` as an `int`, where `char` is signed. -/
def ofChar (c : Nat) : Int := if c < 128 then c else (c : Int) - 256

/-- Exchanging two elements of `argv`, `getopt.c:348-350`. -/
def swap (l : List Str) (i j : Nat) : Option (List Str) :=
  match l[i]?, l[j]? with
  | some a, some b => some ((l.set i b).set j a)
  | _, _ => none

/-- The loops of `getopt.c:346-352` and `363-369`: `n` elements from `i` on with `n` from `j` on. -/
def swaps (l : List Str) (i j : Nat) : Nat → Option (List Str)
  | 0 => some l
  | n + 1 => (swap l i j).bind fun l => swaps l (i + 1) (j + 1) n

/-- The loop of `exchange`, `getopt.c:337-373`.  The first argument bounds the number of rounds: each makes `top - bottom` smaller. -/
def exchangeLoop : Nat → List Str → Nat → Nat → Nat → Option (List Str)
  | 0, l, _, _, _ => some l
  | n + 1, l, bottom, middle, top =>
    if top > middle ∧ middle > bottom then
      if top - middle > middle - bottom then
        (swaps l bottom (top - (middle - bottom)) (middle - bottom)).bind fun l => exchangeLoop n l bottom middle (top - (middle - bottom))
      else
        (swaps l bottom middle (top - middle)).bind fun l => exchangeLoop n l (bottom + (top - middle)) middle top
    else some l

/-- `exchange`, `getopt.c:301-379`. -/
def exchange (s : St) : Option St :=
  (exchangeLoop (s.optind - s.first) s.argv s.first s.last s.optind).map fun l =>
    { s with argv := l, first := s.first + (s.optind - s.last), last := s.optind }

/-- `_getopt_initialize`, `getopt.c:386-450`; `posix`: the environment has `POSIXLY_CORRECT`. -/
def setUp (posix : Bool) (opts : Str) (s : St) : St × Str :=
  let s := { s with first := s.optind, last := s.optind, next := [] }
  match opts with
  | c :: o =>
    if c = dash then ({ s with order := .returnInOrder }, o)
    else if c = plus then ({ s with order := .requireOrder }, o)
    else ({ s with order := if posix then .requireOrder else .permute }, opts)
  | [] => ({ s with order := if posix then .requireOrder else .permute }, opts)

/-- `NONOPTION_P`, `getopt.c:543`. -/
def isOperand : Str → Bool
  | c :: _ :: _ => c != dash
  | _ => true

/-- The loop of `getopt.c:570-571`: `optind` where it stops. -/
def skip : List Str → Nat → Nat
  | [], i => i
  | a :: r, i => if isOperand a then skip r (i + 1) else i

/-- `getopt.c:550-555`: in case the program has moved `optind` back. -/
def clamp (s : St) : St :=
  { s with last := if s.last > s.optind then s.optind else s.last, first := if s.first > s.optind then s.optind else s.first }

/-- `getopt.c:559-565`. -/
def moveBack (s : St) : Option St :=
  if s.first ≠ s.last ∧ s.last ≠ s.optind then exchange s
  else if s.last ≠ s.optind then some { s with first := s.optind } else some s

/-- `getopt.c:567-572`. -/
def skipOver (s : St) : St :=
  { s with optind := skip (s.argv.drop s.optind) s.optind, last := skip (s.argv.drop s.optind) s.optind }

/-- `getopt.c:550-573`. -/
def settle (s : St) : Option St :=
  if (clamp s).order = .permute then (moveBack (clamp s)).map skipOver else some (clamp s)

/-- `getopt.c:582-590`; `optind` is past the two dashes. -/
def endOptions (s : St) : Option St :=
  (if s.first ≠ s.last ∧ s.last ≠ s.optind then exchange s
    else if s.first = s.last then some { s with first := s.optind } else some s).map fun s =>
      { s with last := s.argv.length, optind := s.argv.length }

/-- `getopt.c:575-591`. -/
def dashes (s : St) : Option St :=
  if s.optind ≠ s.argv.length then
    match s.argv[s.optind]? with
    | none => none
    | some a => if a = [dash, dash] then endOptions { s with optind := s.optind + 1 } else some s
  else some s

/-- `my_index`, `getopt.c:218-230`: what it points to. -/
def index : Str → Nat → Option Str
  | [], _ => none
  | a :: r, c => if a = c then some (a :: r) else index r c

/-- The next letter of the element being scanned, `getopt.c:867-1166`. -/
def short (opts : Str) (c : Nat) (rest : Str) (s : St) : Option (Out × St) :=
  let s := { s with next := rest, optind := if rest = [] then s.optind + 1 else s.optind }
  let miss := if opts.head? = some colon then colon else quest
  match index opts c with
  | none => some (⟨quest, none, some c⟩, s)
  | some t =>
    if c = colon then some (⟨quest, none, some c⟩, s)
    else if t[1]? = some semi ∧ c = capW then
      -- `getopt.c:927-966`; then `longopts`, which is NULL, is dereferenced, `getopt.c:976`
      if rest = [] ∧ s.optind = s.argv.length then some (⟨miss, none, some c⟩, s) else none
    else if t[1]? = some colon then
      if t[2]? = some colon then
        if rest ≠ [] then some (⟨ofChar c, some rest, none⟩, { s with optind := s.optind + 1, next := [] })
        else some (⟨ofChar c, none, none⟩, { s with next := [] })
      else if rest ≠ [] then some (⟨ofChar c, some rest, none⟩, { s with optind := s.optind + 1, next := [] })
      else if s.optind = s.argv.length then some (⟨miss, none, some c⟩, { s with next := [] })
      else
        match s.argv[s.optind]? with
        | none => none
        | some a => some (⟨ofChar c, some a, none⟩, { s with optind := s.optind + 1, next := [] })
    else some (⟨ofChar c, none, none⟩, s)

/-- `getopt.c:593-621`, and on to the first letter. -/
def element (opts : Str) (s : St) : Option (Out × St) :=
  if s.optind = s.argv.length then
    some (⟨-1, none, none⟩, if s.first ≠ s.last then { s with optind := s.first } else s)
  else
    match s.argv[s.optind]? with
    | none => none
    | some a =>
      if isOperand a then
        if s.order = .requireOrder then some (⟨-1, none, none⟩, s)
        else some (⟨1, some a, none⟩, { s with optind := s.optind + 1 })
      else
        match a with
        | _ :: c :: r => short opts c r s
        | _ => none

/-- `getopt.c:526-532`: the first call, or a program that wants to begin anew. -/
def begin (posix : Bool) (opts : Str) (s : St) : St × Str :=
  if s.optind = 0 ∨ s.inited = false then
    ({ (setUp posix opts { s with optind := if s.optind = 0 then 1 else s.optind }).1 with inited := true },
      (setUp posix opts { s with optind := if s.optind = 0 then 1 else s.optind }).2)
  else (s, opts)

/-- `getopt.c:546-1166`. -/
def scan (opts : Str) (s : St) : Option (Out × St) :=
  match s.next with
  | c :: r => short opts c r s
  | [] => (settle s).bind fun s => (dashes s).bind fun s => element opts s

/-- `getopt`, `getopt.c:1168-1178`, with `_getopt_internal`, `getopt.c:508-1166`. -/
def getopt (posix : Bool) (opts : Str) (s : St) : Option (Out × St) :=
  if s.argv.length < 1 then some (⟨-1, none, none⟩, s)
  else scan (begin posix opts s).2 (begin posix opts s).1

/-- The variables before the first call, `getopt.c:131`, `137`. -/
def start (argv : List Str) : St := ⟨argv, 1, 0, 0, [], .requireOrder, false⟩

end Verif.Go
