import Verif.Spec.Getopt
import Verif.Model.GetoptLong
/-!
# What a command line with long options means
-/
namespace Verif.Go

/-- The value in `name=value`, if there is one. -/
def valueOf (w : Str) : Option Str := if equals ∈ w then some (w.drop ((nameOf w).length + 1)) else none

/-- Two entries of the table mean the same option. -/
def LOpt.same (p q : LOpt) : Bool := decide (p.hasArg = q.hasArg ∧ p.flag = q.flag ∧ p.val = q.val)

/-- What a name stands for. -/
inductive Pick
  | is (i : Nat) (p : LOpt)
  | ambiguous
  | unknown
  deriving DecidableEq

/-- The entry of that name (the first, if there are several), or else the one of which it is an abbreviation: if it abbreviates several names, the
first of them, provided that they all mean the same option; where one dash is enough (`alone`), there must be no other. -/
def pick (alone : Bool) (T : List LOpt) (n : Str) : Pick :=
  match T.zipIdx.find? fun x => x.1.name = n with
  | some (p, i) => .is i p
  | none =>
    match T.zipIdx.filter fun x => n.isPrefixOf x.1.name with
    | [] => .unknown
    | (p, i) :: r => if r.all fun x => !alone && p.same x.1 then .is i p else .ambiguous

/-- The long option `p`, number `i`, was found, with this argument: its value is returned, or put into its variable. -/
def given (i : Nat) (p : LOpt) (arg : Option Str) : LOut :=
  ⟨if p.flag.isSome then 0 else p.val, arg, none, some i, p.flag.map fun f => (f, p.val)⟩

/-- No option goes by that name, or it is not clear which. -/
def nameless : LOut := ⟨quest, none, some 0, none, none⟩

/-- What is reported if there is no next word, and if there is. -/
structure Wants where
  miss : LOut
  got : Str → LOut

/-- The word `w`, after its dashes, as a long option: what it says, and what the next word is needed for. -/
def longWord (alone : Bool) (miss : Int) (T : List LOpt) (w : Str) : List LOut × Option Wants :=
  match pick alone T (nameOf w) with
  | .unknown => ([nameless], none)
  | .ambiguous => ([nameless], none)
  | .is i p =>
    match valueOf w with
    | some v => if p.hasArg = 0 then ([⟨quest, none, some p.val, none, none⟩], none) else ([given i p (some v)], none)
    | none =>
      if p.hasArg = 1 then ([], some ⟨⟨miss, none, some p.val, none, none⟩, fun b => given i p (some b)⟩)
      else ([given i p none], none)

/-- The word as letters. -/
def shortWord (K : Nat → Option Kind) (miss : Int) (w : Str) : List LOut × Option Wants :=
  ((cluster K w).1.map Out.lift,
    (cluster K w).2.map fun c => ⟨Out.lift ⟨miss, none, some c⟩, fun b => (found c (some b)).lift⟩)

/-- A word of options.  Two dashes: a long option.  One dash, where that is enough: if it is not just one of the letters, a long option, but if there
is none of that name and the first is one of the letters, these.  Else letters. -/
def wordL (alone : Bool) (K : Nat → Option Kind) (listed : Nat → Bool) (miss : Int) (T : List LOpt) (a : Str) : List LOut × Option Wants :=
  match a.tail with
  | [] => ([], none)
  | c :: w =>
    if c = dash then longWord alone miss T w
    else if alone && (w != [] || !listed c) then
      if pick alone T (nameOf (c :: w)) = .unknown then
        if listed c then shortWord K miss (c :: w) else ([nameless], none)
      else longWord alone miss T (c :: w)
    else shortWord K miss (c :: w)

/-- The reading of a command line. -/
structure ParsedL where
  told : List LOut
  opts : List Str
  operands : List Str

def parseL (order : Order) (R : Str → List LOut × Option Wants) : List Str → ParsedL
  | [] => ⟨[], [], []⟩
  | a :: r =>
    if a = [dash, dash] then ⟨[], [a], r⟩
    else if isOption a then
      match (R a).2 with
      | none => ⟨(R a).1 ++ (parseL order R r).told, a :: (parseL order R r).opts, (parseL order R r).operands⟩
      | some n =>
        match r with
        | [] => ⟨(R a).1 ++ [n.miss], [a], []⟩
        | b :: r' =>
          ⟨(R a).1 ++ n.got b :: (parseL order R r').told, a :: b :: (parseL order R r').opts, (parseL order R r').operands⟩
    else
      match order with
      | .requireOrder => ⟨[], [], a :: r⟩
      | .permute => ⟨(parseL order R r).told, (parseL order R r).opts, a :: (parseL order R r).operands⟩
      | .returnInOrder =>
        ⟨⟨1, some a, none, none, none⟩ :: (parseL order R r).told, a :: (parseL order R r).opts, (parseL order R r).operands⟩

/-- The reading of the words `args` for the letters `opts` and the table `T`. -/
def readingL (alone posix : Bool) (opts : Str) (T : List LOpt) (args : List Str) : ParsedL :=
  parseL (orderOf posix opts)
    (wordL alone (kind (body opts)) (fun c => decide (c ∈ body opts)) (missing (body opts)) T) args

/-- The loop `while ((c = _getopt_internal(...)) != -1)`. -/
inductive DrivesL (alone posix : Bool) (opts : Str) (T : List LOpt) : St → List LOut → St → Prop
  | done {s s' : St} {o : LOut} : getoptL alone posix opts T s = some (o, s') → o.code = -1 → DrivesL alone posix opts T s [] s'
  | more {s s' s'' : St} {o : LOut} {l : List LOut} :
    getoptL alone posix opts T s = some (o, s') → o.code ≠ -1 → DrivesL alone posix opts T s' l s'' → DrivesL alone posix opts T s (o :: l) s''

/-- The loop over the command line ends, it has reported just what the reading says, and `argv` and `optind` are as they should be. -/
def ReadsL (alone posix : Bool) (opts : Str) (T : List LOpt) (prog : Str) (args : List Str) : Prop :=
  ∃ s', DrivesL alone posix opts T (start (prog :: args)) (readingL alone posix opts T args).told s' ∧
    s'.argv = prog :: ((readingL alone posix opts T args).opts ++ (readingL alone posix opts T args).operands) ∧
    s'.optind = 1 + (readingL alone posix opts T args).opts.length

/-- The states a program comes to that does nothing but call it with these letters and this table. -/
inductive CalledL (alone posix : Bool) (opts : Str) (T : List LOpt) (argv : List Str) : St → Prop
  | start : CalledL alone posix opts T argv (start argv)
  | call {s s' : St} {o : LOut} : CalledL alone posix opts T argv s → getoptL alone posix opts T s = some (o, s') → CalledL alone posix opts T argv s'

/-- What a program may have done, with whatever letters and tables, and with `optind`. -/
inductive CameL (argv : List Str) : St → Prop
  | start : CameL argv (start argv)
  | call {s s' : St} {o : LOut} (alone posix : Bool) (opts : Str) (T : List LOpt) : CameL argv s → getoptL alone posix opts T s = some (o, s') → CameL argv s'
  | set {s : St} (n : Nat) : CameL argv s → CameL argv { s with optind := n }

/-- Where one dash is enough: a word that is no long option and is read as several letters. -/
def splits (K : Nat → Option Kind) (listed : Nat → Bool) (T : List LOpt) (a : Str) : Bool :=
  match a.tail with
  | c :: w => decide (c ≠ dash) && w != [] && pick true T (nameOf (c :: w)) = .unknown && listed c && (K c = none || K c = some .flag)
  | [] => false

end Verif.Go
