import Verif.Model.Getopt
/-!
# Long options: `_getopt_internal` with a table of long options (`include/compat/getopt.c`)

`getopt_long` and `getopt_long_only` are declared in `getopt.h:158-163` for this function with `long_only` 0 and 1 (they are defined nowhere in the
tree, so that a program has to call `_getopt_internal`, `getopt.h:166`, itself).  Conventions as in `Verif.Model.Getopt`: a string is the list of
its bytes, `none` is an access outside `argv`.  The table is the list of its entries, without the last one, whose name is NULL; it is not NULL
itself.  The lengths compared at `getopt.c:656` are below 2^32.
-/
namespace Verif.Go

/-- `'='`. -/
def equals : Nat := 61

/-- `struct option`, `getopt.h:99-111`; `flag` is the address of a variable, or NULL. -/
structure LOpt where
  name : Str
  hasArg : Nat
  flag : Option Nat
  val : Int
  deriving DecidableEq

/-- What a call tells its caller: the value returned, `optarg`, what `optopt` was set to if it was, what `*longind` was set to if it was, and the
variable assigned through `flag` with its new value. -/
structure LOut where
  code : Int
  optarg : Option Str
  optopt : Option Int
  longind : Option Nat
  assigned : Option (Nat × Int)
  deriving DecidableEq

/-- A report about a short option: `optopt = c` at `getopt.c:910` and the like. -/
def Out.lift (o : Out) : LOut := ⟨o.code, o.optarg, o.optopt.map ofChar, none, none⟩

/-- The loop of `getopt.c:641-642` and `971-972`: the name, up to `=`. -/
def nameOf (w : Str) : Str := w.takeWhile (· ≠ equals)

/-- What `nameend` points to after it: empty, or `=` and the value. -/
def atEnd (w : Str) : Str := w.dropWhile (· ≠ equals)

/-- The variables `pfound` with `indfound`, `exact` and `ambig`, `getopt.c:634-639`. -/
structure Hit where
  found : Option (Nat × LOpt)
  exact : Bool
  ambig : Bool
  deriving DecidableEq

/-- The loop of `getopt.c:646-672` over the entries from number `i` on; `clash` says whether a second abbreviation makes the name ambiguous.
`strncmp` of as many bytes as the name has: the entry's name begins with it. -/
def searchFrom (clash : LOpt → LOpt → Bool) (n : Str) : List LOpt → Nat → Hit → Hit
  | [], _, h => h
  | p :: ps, i, h =>
    if n.isPrefixOf p.name then
      if n.length = p.name.length then { h with found := some (i, p), exact := true }
      else
        match h.found with
        | none => searchFrom clash n ps (i + 1) { h with found := some (i, p) }
        | some (_, q) => searchFrom clash n ps (i + 1) { h with ambig := h.ambig || clash q p }
    else searchFrom clash n ps (i + 1) h

/-- `getopt.c:666-669`. -/
def clashes (longOnly : Bool) (q p : LOpt) : Bool := longOnly || q.hasArg != p.hasArg || q.flag != p.flag || q.val != p.val

/-- `getopt.c:634-672`. -/
def search (longOnly : Bool) (T : List LOpt) (n : Str) : Hit := searchFrom (clashes longOnly) n T 0 ⟨none, false, false⟩

/-- `getopt.c:974-999`: the same for `-W name`, where any second abbreviation will do. -/
def searchW (T : List LOpt) (n : Str) : Hit := searchFrom (fun _ _ => true) n T 0 ⟨none, false, false⟩

/-- `getopt.c:799-808` and `1078-1087`: the option was found. -/
def taken (i : Nat) (p : LOpt) (arg : Option Str) : LOut :=
  match p.flag with
  | some f => ⟨0, arg, none, some i, some (f, p.val)⟩
  | none => ⟨p.val, arg, none, some i, none⟩

/-- `getopt.c:697-809`: the option found is `p`, entry `i`; `e` is what `nameend` points to. -/
def longFound (opts : Str) (i : Nat) (p : LOpt) (e : Str) (s : St) : Option (LOut × St) :=
  let s := { s with optind := s.optind + 1, next := [] }
  match e with
  | _ :: v =>
    if p.hasArg ≠ 0 then some (taken i p (some v), s)
    else some (⟨quest, none, some p.val, none, none⟩, s)
  | [] =>
    if p.hasArg = 1 then
      if s.optind < s.argv.length then
        match s.argv[s.optind]? with
        | none => none
        | some a => some (taken i p (some a), { s with optind := s.optind + 1 })
      else some (⟨if opts.head? = some colon then colon else quest, none, some p.val, none, none⟩, s)
    else some (taken i p none, s)

/-- `getopt.c:674-695` and `856-859`: no option, or too many, go by that name. -/
def longBad (s : St) : LOut × St := (⟨quest, none, some 0, none, none⟩, { s with optind := s.optind + 1, next := [] })

/-- `getopt.c:1001-1092`: `-W` with its argument `w`; `optind` is past it. -/
def dashW (opts : Str) (T : List LOpt) (w : Str) (s : St) : Option (LOut × St) :=
  let h := searchW T (nameOf w)
  if h.ambig && !h.exact then
    -- `getopt.c:1020-1022`: `optind` is moved once more
    some (⟨quest, some w, none, none, none⟩, { s with optind := s.optind + 1, next := [] })
  else
    match h.found with
    | some (i, p) =>
      match atEnd w with
      | _ :: v =>
        if p.hasArg ≠ 0 then some (taken i p (some v), { s with next := [] })
        else some (⟨quest, some w, none, none, none⟩, { s with next := [] })
      | [] =>
        if p.hasArg = 1 then
          if s.optind < s.argv.length then
            match s.argv[s.optind]? with
            | none => none
            | some a => some (taken i p (some a), { s with optind := s.optind + 1, next := [] })
          else some (⟨if opts.head? = some colon then colon else quest, some w, none, none, none⟩, { s with next := [] })
        -- `optarg` still is the argument of `-W`
        else some (taken i p (some w), { s with next := [] })
    | none => some (⟨capW, some w, none, none, none⟩, { s with next := [] })

/-- The next letter, `getopt.c:866-1166`; all but `W;` as without long options. -/
def shortL (opts : Str) (T : List LOpt) (c : Nat) (rest : Str) (s : St) : Option (LOut × St) :=
  match index opts c with
  | some t =>
    if c ≠ colon ∧ t[1]? = some semi ∧ c = capW then
      let s := { s with next := rest, optind := if rest = [] then s.optind + 1 else s.optind }
      if rest ≠ [] then dashW opts T rest { s with optind := s.optind + 1 }
      else if s.optind = s.argv.length then some (⟨if opts.head? = some colon then colon else quest, none, some (ofChar c), none, none⟩, s)
      else
        match s.argv[s.optind]? with
        | none => none
        | some a => dashW opts T a { s with optind := s.optind + 1 }
    else (short opts c rest s).map fun r => (r.1.lift, r.2)
  | none => (short opts c rest s).map fun r => (r.1.lift, r.2)

/-- `getopt.c:630-632`: whether the element `a`, of which `w` is left, is looked up in the table; reading a byte behind the end is
reading the final NUL. -/
def isLong (longOnly : Bool) (opts : Str) (a : Str) : Bool :=
  a[1]? = some dash || longOnly && (decide (2 < a.length) || (a[1]?.bind fun c => index opts c).isNone)

/-- `getopt.c:630-866`: what is left of the current element `a`. -/
def decode (longOnly : Bool) (opts : Str) (T : List LOpt) (a w : Str) (s : St) : Option (LOut × St) :=
  let letters : Option (LOut × St) := match w with
    | c :: r => shortL opts T c r s
    | [] => none
  if isLong longOnly opts a then
    let h := search longOnly T (nameOf w)
    if h.ambig && !h.exact then some (longBad s)
    else
      match h.found with
      | some (i, p) => longFound opts i p (atEnd w) s
      | none =>
        if !longOnly || a[1]? = some dash || (w.head?.bind fun c => index opts c).isNone then some (longBad s)
        else letters
  else letters

/-- `getopt.c:593-622`, and on. -/
def elementL (longOnly : Bool) (opts : Str) (T : List LOpt) (s : St) : Option (LOut × St) :=
  if s.optind = s.argv.length then
    some (⟨-1, none, none, none, none⟩, if s.first ≠ s.last then { s with optind := s.first } else s)
  else
    match s.argv[s.optind]? with
    | none => none
    | some a =>
      if isOperand a then
        if s.order = .requireOrder then some (⟨-1, none, none, none, none⟩, s)
        else some (⟨1, some a, none, none, none⟩, { s with optind := s.optind + 1 })
      else decode longOnly opts T a (if a[1]? = some dash then a.drop 2 else a.drop 1) s

/-- `getopt.c:546-1166`. -/
def scanL (longOnly : Bool) (opts : Str) (T : List LOpt) (s : St) : Option (LOut × St) :=
  match s.next with
  | c :: r =>
    match s.argv[s.optind]? with
    | none => none
    | some a => decode longOnly opts T a (c :: r) s
  | [] => (settle s).bind fun s => (dashes s).bind fun s => elementL longOnly opts T s

/-- `_getopt_internal` with a table, `getopt.c:508-1166`. -/
def getoptL (longOnly posix : Bool) (opts : Str) (T : List LOpt) (s : St) : Option (LOut × St) :=
  if s.argv.length < 1 then some (⟨-1, none, none, none, none⟩, s)
  else scanL longOnly (begin posix opts s).2 T (begin posix opts s).1

end Verif.Go
