/-!
# `mmap` and `mprotect` on Windows (`src/mman.c`)

What they ask the system for.  What the system does with it is in `Verif.Spec.Mman`.
-/
namespace Verif.Mm

abbrev D := BitVec 32
abbrev Q := BitVec 64

/-- `include/compat/sys/mman.h:52-63`. -/
def PROT_NONE : D := 0
def PROT_READ : D := 1
def PROT_WRITE : D := 2
def PROT_EXEC : D := 4
def MAP_SHARED : D := 1
def MAP_PRIVATE : D := 2
def MAP_FIXED : D := 0x10
def MAP_ANONYMOUS : D := 0x20

/-- Windows' constants: `PAGE_*` and `FILE_MAP_*`. -/
def PAGE_READONLY : D := 0x02
def PAGE_READWRITE : D := 0x04
def PAGE_EXECUTE_READ : D := 0x20
def PAGE_EXECUTE_READWRITE : D := 0x40
def FILE_MAP_WRITE : D := 0x02
def FILE_MAP_READ : D := 0x04
def FILE_MAP_EXECUTE : D := 0x20

/-- `src/mman.c:36-49` `__map_mmap_prot_page`. -/
def protPage (prot : D) : D :=
  if prot = PROT_NONE then 0
  else if prot &&& PROT_EXEC ≠ 0 then
    if prot &&& PROT_WRITE ≠ 0 then PAGE_EXECUTE_READWRITE else PAGE_EXECUTE_READ
  else
    if prot &&& PROT_WRITE ≠ 0 then PAGE_READWRITE else PAGE_READONLY

/-- `src/mman.c:51-65` `__map_mmap_prot_file`. -/
def protFile (prot : D) : D :=
  if prot = PROT_NONE then 0
  else
    let a : D := 0
    let a := if prot &&& PROT_READ ≠ 0 then a ||| FILE_MAP_READ else a
    let a := if prot &&& PROT_WRITE ≠ 0 then a ||| FILE_MAP_WRITE else a
    if prot &&& PROT_EXEC ≠ 0 then a ||| FILE_MAP_EXECUTE else a

/-- The arguments of `CreateFileMapping` and `MapViewOfFile[Ex]`. -/
structure Req where
  anonymous : Bool
  protect : D
  sizeHigh : D
  sizeLow : D
  access : D
  offHigh : D
  offLow : D
  len : Q
  fixed : Bool

/-- What `mmap` does before any system call: refuse (`EINVAL`), or ask. -/
inductive Ask
  | refused
  | asked (q : Req)

/-- `src/mman.c:67-128` `mmap`, 64-bit build: `OffsetType` is `int64_t`. -/
def mmap64 (len : Q) (prot flags : D) (off : Q) : Ask :=
  let maxSize := off + len
  if len = 0 ∨ prot = PROT_EXEC then .refused
  else .asked
    { anonymous := flags &&& MAP_ANONYMOUS ≠ 0
      protect := protPage prot
      sizeHigh := (maxSize.sshiftRight 32 &&& 0xFFFFFFFF).setWidth 32
      sizeLow := (maxSize &&& 0xFFFFFFFF).setWidth 32
      access := protFile prot
      offHigh := (off.sshiftRight 32 &&& 0xFFFFFFFF).setWidth 32
      offLow := (off &&& 0xFFFFFFFF).setWidth 32
      len := len
      fixed := flags &&& MAP_FIXED ≠ 0 }

/-- The same, 32-bit build: `OffsetType` is `uint32_t`, `size_t` has 32 bits. -/
def mmap32 (len : D) (prot flags : D) (off : D) : Ask :=
  if len = 0 ∨ prot = PROT_EXEC then .refused
  else .asked
    { anonymous := flags &&& MAP_ANONYMOUS ≠ 0
      protect := protPage prot
      sizeHigh := 0
      sizeLow := off + len
      access := protFile prot
      offHigh := 0
      offLow := off
      len := len.setWidth 64
      fixed := flags &&& MAP_FIXED ≠ 0 }

/-- `src/mman.c:139-149` `mprotect`: the protection asked of `VirtualProtect`. -/
def mprotect (prot : D) : D := protPage prot

end Verif.Mm
