import Verif.Model.Mman
/-!
# What Windows does with a request

From the documentation of `CreateFileMapping`, `MapViewOfFile`, `VirtualProtect`; where the documentation leaves it
open (a protection of 0) both possibilities are allowed by a parameter.  Reasons for which the system may
refuse beyond those below (no memory, a handle without the access) only make more requests fail.
-/
namespace Verif.Mm

/-- What can be done with memory. -/
structure Rights where
  r : Bool
  w : Bool
  x : Bool
  deriving DecidableEq

/-- The rights of a page protection; `none`: not a protection. -/
def pageRights (p : D) : Option Rights :=
  if p = 0x01 then some ⟨false, false, false⟩       -- PAGE_NOACCESS
  else if p = 0x02 then some ⟨true, false, false⟩   -- PAGE_READONLY
  else if p = 0x04 then some ⟨true, true, false⟩    -- PAGE_READWRITE
  else if p = 0x08 then some ⟨true, true, false⟩    -- PAGE_WRITECOPY
  else if p = 0x10 then some ⟨false, false, true⟩   -- PAGE_EXECUTE
  else if p = 0x20 then some ⟨true, false, true⟩    -- PAGE_EXECUTE_READ
  else if p = 0x40 then some ⟨true, true, true⟩     -- PAGE_EXECUTE_READWRITE
  else if p = 0x80 then some ⟨true, true, true⟩     -- PAGE_EXECUTE_WRITECOPY
  else none

/-- Bit `k` is set. -/
def has (v : D) (k : Nat) : Bool := v.getLsbD k

/-- The rights of a view: `FILE_MAP_WRITE` (bit 1) gives reading and writing, `FILE_MAP_READ` (bit 2) reading,
`FILE_MAP_EXECUTE` (bit 5) executing. -/
def viewRights (access : D) : Rights := ⟨has access 2 || has access 1, has access 1, has access 5⟩

/-- The rights a section gives; `zero`: a protection of 0 is taken for `PAGE_READONLY`. -/
def sectionRights (zero : Bool) (p : D) : Option Rights :=
  if p = 0 then if zero then some ⟨true, false, false⟩ else none else pageRights p

def join (hi lo : D) : Nat := hi.toNat * 2 ^ 32 + lo.toNat

/-- A mapped view: where it starts in the file, how long it is, the rights, whether stores go to the file. -/
structure View where
  off : Nat
  len : Nat
  rights : Rights
  shared : Bool
  deriving DecidableEq

/-- The file: its bytes; the length is its size. -/
abbrev File := List UInt8

/-- The size of the section: for a file, 0 stands for the file's size. -/
def sectionSize (q : Req) (f : File) : Nat :=
  if join q.sizeHigh q.sizeLow = 0 ∧ q.anonymous = false then f.length else join q.sizeHigh q.sizeLow

/-- The file after a larger section was made for it. -/
def extended (q : Req) (f : File) : File :=
  if q.anonymous then f else f ++ List.replicate (sectionSize q f - f.length) 0

/-- `MapViewOfFile` on a section that gives the rights `s`.  Only `FILE_MAP_COPY` (bit 0) makes a view private. -/
def mapView (s : Rights) (q : Req) (f : File) : Option View :=
  let v := viewRights q.access
  if (v.r && !s.r) || (v.w && !s.w) || (v.x && !s.x) then none
  else if sectionSize q f < join q.offHigh q.offLow + q.len.toNat then none
  else some ⟨join q.offHigh q.offLow, q.len.toNat, v, !has q.access 0⟩

/-- `CreateFileMapping`, then `MapViewOfFile`: the file (extended with zeros if the section is larger and
writable) and the view, if they succeed. -/
def system (zero : Bool) (q : Req) (f : File) : File × Option View :=
  match sectionRights zero q.protect with
  | none => (f, none)
  | some s =>
    if sectionSize q f = 0 then (f, none)
    else if q.anonymous = false ∧ f.length < sectionSize q f ∧ s.w = false then (f, none)
    else (extended q f, mapView s q f)

/-- A store through the view. -/
def store (v : View) (i : Nat) (b : UInt8) (f : File) : File :=
  if v.rights.w ∧ v.shared ∧ i < v.len then f.set (v.off + i) b else f

/-- `mmap` as a whole. -/
def Ask.run (zero : Bool) (a : Ask) (f : File) : File × Option View :=
  match a with
  | .refused => (f, none)
  | .asked q => system zero q f

/-- What the caller asked for: `PROT_READ` is bit 0, `PROT_WRITE` bit 1, `PROT_EXEC` bit 2. -/
def wants (prot : D) : Rights := ⟨has prot 0, has prot 1, has prot 2⟩

end Verif.Mm
