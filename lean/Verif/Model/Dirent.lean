/-!
# Directories on Windows

`opendir`, `readdir`, `rewinddir`, `closedir` of `include/compat/dirent_msvc.h`, which `dirent.h` includes when compiled with Visual Studio.

What Windows and the C library answer comes with each call: whether `malloc` succeeds, what the absolute name of the directory is at each of the two calls of
`GetFullPathNameW` (another thread may change the current directory in between), what a search finds at that moment, whether `FindNextFileW` meets an error. Strings are
lists of characters without the terminating zero. `errno` is not modelled.
-/
namespace Verif.Dd

/-- `PATH_MAX`, `dirent_msvc.h:57-60`; `limits.h:13-15`. -/
def pathMax : Nat := 260

/-- What a search reports of a file, `WIN32_FIND_DATAW`: the name, the short name (empty: none), two of the attributes. -/
structure Entry where
  name : List Nat
  alt : List Nat
  device : Bool
  dir : Bool
  deriving DecidableEq

inductive Kind
  | chr | dir | reg | unknown
  deriving DecidableEq

/-- `struct dirent`, `dirent_msvc.h:99-105`, without the fields that are always the same. -/
structure Dirent where
  name : List Nat
  namlen : Nat
  kind : Kind
  deriving DecidableEq

/-- `DIR` with its `_WDIR`, `dirent_msvc.h:84-91`, `dirent_msvc.h:108-112`. `blocks` are the blocks of memory it consists of. -/
structure Stream where
  blocks : List Nat
  data : Option Entry
  cached : Bool
  handle : Option Nat
  patt : List Nat

/-- `heap`: blocks allocated. `files`: searches that are open, with what they have still to report. `bad`: a closed search was used, or a block that is not allocated freed. -/
structure World where
  heap : List Nat
  nextB : Nat
  files : Nat → Option (List Entry)
  nextH : Nat
  dirs : Nat → Option Stream
  nextD : Nat
  bad : Bool

def init : World := ⟨[], 0, fun _ => none, 0, fun _ => none, 0, false⟩

def fn {β : Type} (f : Nat → β) (a : Nat) (b : β) : Nat → β := fun x => if x = a then b else f x

def World.malloc (w : World) : World × Nat := ({ w with heap := w.nextB :: w.heap, nextB := w.nextB + 1 }, w.nextB)

def World.free (w : World) (b : Nat) : World := { w with heap := w.heap.filter (· ≠ b), bad := w.bad || !w.heap.contains b }

def World.freeAll (w : World) (bs : List Nat) : World := bs.foldl World.free w

/-- `FindFirstFileW`, given what there is to find. It fails when there is nothing. -/
def World.findFirst (w : World) : List Entry → World × Option (Nat × Entry)
  | [] => (w, none)
  | e :: es => ({ w with files := fn w.files w.nextH (some es), nextH := w.nextH + 1 }, some (w.nextH, e))

/-- `FindNextFileW`. -/
def World.findNext (w : World) (h : Nat) (err : Bool) : World × Option Entry :=
  match w.files h with
  | none => ({ w with bad := true }, none)
  | some [] => (w, none)
  | some (e :: es) => if err then (w, none) else ({ w with files := fn w.files h (some es) }, some e)

/-- `FindClose`. -/
def World.findClose (w : World) (h : Nat) : World :=
  match w.files h with
  | none => { w with bad := true }
  | some _ => { w with files := fn w.files h none }

/-- `GetFullPathNameW` with room for `n` characters: what it returns, and what it has written. -/
def getFull (path : Option (List Nat)) (n : Nat) : Nat × Option (List Nat) :=
  match path with
  | none => (0, none)
  | some p => if p.length < n then (p.length, some p) else (p.length + 1, none)

/-- `\`, `/`, `:`; `dirent_msvc.h:183-188`. -/
def isSep (c : Nat) : Bool := c = 92 || c = 47 || c = 58

/-- `dirent_msvc.h:177-195`: `\*` is appended after `m` characters in a block of `2 * n + 16` bytes. `none`: something is read or written outside of the block, or the
characters before were never written. -/
def pattern (n m : Nat) (written : Option (List Nat)) : Option (List Nat) :=
  match written with
  | none => none
  | some p =>
    let e := if isSep (p.getD (m - 1) 0) then m else m + 1
    if 2 * (e + 2) ≤ 2 * n + 16 then some (p ++ (if isSep (p.getD (m - 1) 0) then [] else [92]) ++ [42]) else none

/-- What is answered during `opendir`: `malloc` three times, the name in wide characters, the absolute name twice, what searches find. -/
structure Answers where
  mDir : Bool
  mWdir : Bool
  mPatt : Bool
  wide : Option (List Nat)
  path1 : Option (List Nat)
  path2 : Option (List Nat)
  finds : List Nat → List Entry

/-- `dirent_first`, `dirent_msvc.h:348-369`. -/
def dirent_first (w : World) (s : Stream) (found : List Entry) : World × Stream :=
  match w.findFirst found with
  | (w, some (h, e)) => (w, { s with handle := some h, data := some e, cached := true })
  | (w, none) => (w, { s with handle := none, cached := false })

/-- `dirent_next`, `dirent_msvc.h:372-405`. -/
def dirent_next (w : World) (s : Stream) (err : Bool) : World × Stream × Option Entry :=
  if s.cached then (w, { s with cached := false }, s.data)
  else
    match s.handle with
    | some h =>
      match w.findNext h err with
      | (w, some e) => (w, { s with data := some e }, some e)
      | (w, none) => (w.findClose h, { s with handle := none }, none)
    | none => (w, s, none)

/-- `_wclosedir`, `dirent_msvc.h:299-327`, of a stream with these blocks. -/
def wclosedir (w : World) (s : Stream) : World :=
  let w := match s.handle with
    | some h => w.findClose h
    | none => w
  w.freeAll s.blocks

/-- `_wopendir`, `dirent_msvc.h:142-232`. The outer `none`: undefined behaviour. The names of the blocks are those of `_WDIR` and `patt`. -/
def wopendir (w : World) (name : List Nat) (a : Answers) : Option (World × Option Stream) :=
  if name = [] then some (w, none)
  else if !a.mWdir then some (w, none)
  else
    let (w, b) := w.malloc
    let s : Stream := ⟨[b], none, false, none, []⟩
    let n := (getFull a.path1 0).1
    if !a.mPatt then some (wclosedir w s, none)
    else
      let (w, p) := w.malloc
      let s := { s with blocks := [p, b] }
      let (m, written) := getFull a.path2 n
      if m = 0 then some (wclosedir w s, none)
      else
        match pattern n m written with
        | none => none
        | some patt =>
          let (w, s) := dirent_first w { s with patt := patt } (a.finds patt)
          match s.handle with
          | some _ => some (w, some s)
          | none => some (wclosedir w s, none)

/-- `opendir`, `dirent_msvc.h:410-464`; the answer is the number of the stream. -/
def opendir (w : World) (name : List Nat) (a : Answers) : Option (World × Option Nat) :=
  if name = [] then some (w, none)
  else if !a.mDir then some (w, none)
  else
    let (w, d) := w.malloc
    match a.wide with
    | none => some (w.free d, none)
    | some wname =>
      match wopendir w wname a with
      | none => none
      | some (w, none) => some (w.free d, none)
      | some (w, some s) => some ({ w with dirs := fn w.dirs w.nextD (some { s with blocks := s.blocks ++ [d] }), nextD := w.nextD + 1 }, some w.nextD)

/-- `wcstombs_s` into `PATH_MAX` bytes, given how the name is written in the code page (`none`: not at all). -/
def conv (mb : List Nat → Option (List Nat)) (s : List Nat) : Option (List Nat) :=
  match mb s with
  | none => none
  | some b => if b.length < pathMax then some b else none

/-- `dirent_msvc.h:520-528`. -/
def kindOf (e : Entry) : Kind := if e.device then .chr else if e.dir then .dir else .reg

/-- `dirent_msvc.h:491-548`: what `readdir` makes of what was found. -/
def toDirent (mb : List Nat → Option (List Nat)) (e : Entry) : Dirent :=
  let c := match conv mb e.name with
    | some b => some b
    | none => if e.alt ≠ [] then conv mb e.alt else none
  match c with
  | some b => ⟨b, (b.length + 1) - 1, kindOf e⟩
  | none => ⟨[63], 1, .unknown⟩

/-- The copying loop of `_wreaddir`, `dirent_msvc.h:260-265`; `n` rounds were made. -/
def wcopy : List Nat → Nat → List Nat
  | [], _ => []
  | c :: cs, n => if n + 1 < pathMax then c :: wcopy cs (n + 1) else []

/-- `_wreaddir`, `dirent_msvc.h:252-282`. -/
def toWdirent (e : Entry) : Dirent := ⟨wcopy e.name 0, (wcopy e.name 0).length, kindOf e⟩

/-- `readdir`, `dirent_msvc.h:479-556`. `none`: not an open stream. -/
def readdir (w : World) (mb : List Nat → Option (List Nat)) (d : Nat) (err : Bool) : Option (World × Option Dirent) :=
  match w.dirs d with
  | none => none
  | some s =>
    let (w, s, e) := dirent_next w s err
    some ({ w with dirs := fn w.dirs d (some s) }, e.map (toDirent mb))

/-- `rewinddir`, `dirent_msvc.h:333-345`, `dirent_msvc.h:587-592`. -/
def rewinddir (w : World) (d : Nat) (finds : List Nat → List Entry) : Option World :=
  match w.dirs d with
  | none => none
  | some s =>
    let w := match s.handle with
      | some h => w.findClose h
      | none => w
    let (w, s) := dirent_first w s (finds s.patt)
    some { w with dirs := fn w.dirs d (some s) }

/-- `closedir`, `dirent_msvc.h:561-582`. -/
def closedir (w : World) (d : Nat) : Option World :=
  match w.dirs d with
  | none => none
  | some s =>
    let w := wclosedir w s
    some { w with dirs := fn w.dirs d none }

inductive Op
  | opendir (name : List Nat) (a : Answers)
  | readdir (d : Nat) (err : Bool)
  | rewinddir (d : Nat) (finds : List Nat → List Entry)
  | closedir (d : Nat)

inductive Ret
  | stream (d : Option Nat)
  | entry (e : Option Dirent)
  | unit
  deriving DecidableEq

/-- A call. `none`: undefined behaviour. -/
def call (mb : List Nat → Option (List Nat)) (w : World) : Op → Option (World × Ret)
  | .opendir n a => (opendir w n a).map fun (w, r) => (w, .stream r)
  | .readdir d err => (readdir w mb d err).map fun (w, r) => (w, .entry r)
  | .rewinddir d f => (rewinddir w d f).map fun w => (w, .unit)
  | .closedir d => (closedir w d).map fun w => (w, .unit)

end Verif.Dd
