import Verif.Model.Getopt
/-!
# What a command line means

How the words after the program's name are to be read, given the option letters of the program.
-/
namespace Verif.Go

/-- Whether an option takes an argument. -/
inductive Kind
  | flag
  | optional
  | required
  deriving DecidableEq

/-- The letters an option string lists: `a` a flag, `a:` with an argument, `a::` with an optional argument. -/
def letters : Str → List (Nat × Kind)
  | [] => []
  | [c] => [(c, .flag)]
  | c :: d :: r =>
    if d = colon then
      match r with
      | e :: r' => if e = colon then (c, .optional) :: letters r' else (c, .required) :: letters (e :: r')
      | [] => [(c, .required)]
    else (c, .flag) :: letters (d :: r)

/-- The kind of a letter; the colon is not one. -/
def kind (opts : Str) (c : Nat) : Option Kind :=
  if c = colon then none else ((letters opts).find? fun p => p.1 = c).map Prod.snd

/-- What is reported for a missing argument: a colon if the option string begins with one. -/
def missing (opts : Str) : Int := if opts.head? = some colon then colon else quest

/-- The option `c` was found, with this argument. -/
def found (c : Nat) (arg : Option Str) : Out := ⟨ofChar c, arg, none⟩

/-- An unknown letter. -/
def unknown (c : Nat) : Out := ⟨quest, none, some c⟩

/-- The letters of one word: what they say, and the letter that still needs an argument from the next word. -/
def cluster (K : Nat → Option Kind) : Str → List Out × Option Nat
  | [] => ([], none)
  | c :: r =>
    match K c with
    | none => (unknown c :: (cluster K r).1, (cluster K r).2)
    | some .flag => (found c none :: (cluster K r).1, (cluster K r).2)
    | some .optional => ([found c (if r = [] then none else some r)], none)
    | some .required => if r = [] then ([], some c) else ([found c (some r)], none)

/-- The reading of a command line: what is reported, the words that are options and arguments of options, the other words. -/
structure Parsed where
  told : List Out
  opts : List Str
  operands : List Str
  deriving DecidableEq

/-- A word is an option if it begins with a dash and is longer. -/
def isOption (a : Str) : Bool := decide (a.head? = some dash ∧ a ≠ [dash])

def parse (order : Order) (K : Nat → Option Kind) (miss : Int) : List Str → Parsed
  | [] => ⟨[], [], []⟩
  | a :: r =>
    if a = [dash, dash] then ⟨[], [a], r⟩
    else if isOption a then
      match (cluster K a.tail).2 with
      | none => ⟨(cluster K a.tail).1 ++ (parse order K miss r).told, a :: (parse order K miss r).opts, (parse order K miss r).operands⟩
      | some c =>
        match r with
        | [] => ⟨(cluster K a.tail).1 ++ [⟨miss, none, some c⟩], [a], []⟩
        | b :: r' =>
          ⟨(cluster K a.tail).1 ++ found c (some b) :: (parse order K miss r').told, a :: b :: (parse order K miss r').opts,
            (parse order K miss r').operands⟩
    else
      match order with
      | .requireOrder => ⟨[], [], a :: r⟩
      | .permute => ⟨(parse order K miss r).told, (parse order K miss r).opts, a :: (parse order K miss r).operands⟩
      | .returnInOrder =>
        ⟨⟨1, some a, none⟩ :: (parse order K miss r).told, a :: (parse order K miss r).opts, (parse order K miss r).operands⟩

/-- A dash or a plus in front of the option letters is not one of them. -/
def marked (opts : Str) : Bool := decide (opts.head? = some dash ∨ opts.head? = some plus)

/-- The option letters without such a mark. -/
def body (opts : Str) : Str := if marked opts then opts.tail else opts

/-- How operands among the options are dealt with: after a dash each is reported, after a plus (or where the environment says so) the first one
ends the options, and otherwise they are passed by. -/
def orderOf (posix : Bool) (opts : Str) : Order :=
  if opts.head? = some dash then .returnInOrder else if opts.head? = some plus ∨ posix = true then .requireOrder else .permute

/-- The reading of the words `args` for the option string `opts`. -/
def reading (posix : Bool) (opts : Str) (args : List Str) : Parsed :=
  parse (orderOf posix opts) (kind (body opts)) (missing (body opts)) args

/-- The loop every program has: `while ((c = getopt(argc, argv, opts)) != -1)`.  From state `s` it ends, in `s'`, after these reports. -/
inductive Drives (posix : Bool) (opts : Str) : St → List Out → St → Prop
  | done {s s' : St} {o : Out} : getopt posix opts s = some (o, s') → o.code = -1 → Drives posix opts s [] s'
  | more {s s' s'' : St} {o : Out} {l : List Out} :
    getopt posix opts s = some (o, s') → o.code ≠ -1 → Drives posix opts s' l s'' → Drives posix opts s (o :: l) s''

/-- The loop over the command line `prog args` ends, it has reported just what the reading says, and then `argv` is the program's name, the options
with their arguments, and the operands, in that order, and `optind` is where the operands begin. -/
def Reads (posix : Bool) (opts : Str) (prog : Str) (args : List Str) : Prop :=
  ∃ s', Drives posix opts (start (prog :: args)) (reading posix opts args).told s' ∧
    s'.argv = prog :: ((reading posix opts args).opts ++ (reading posix opts args).operands) ∧
    s'.optind = 1 + (reading posix opts args).opts.length

/-- What a program may have done with `getopt` and `optind` since it began with this `argv`. -/
inductive Came (argv : List Str) : St → Prop
  | start : Came argv (start argv)
  | call {s s' : St} {o : Out} (posix : Bool) (opts : Str) : Came argv s → getopt posix opts s = some (o, s') → Came argv s'
  | set {s : St} (n : Nat) : Came argv s → Came argv { s with optind := n }

end Verif.Go
