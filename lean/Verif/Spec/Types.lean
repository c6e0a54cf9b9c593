import Verif.Model.Types
/-!
# The documented tags
-/
namespace Verif.Ty

/-- Every tag of the enumeration, in order (`include/raii.h:30-91`). -/
inductive Name
  | NULL
  | INT | ENUM | INTEGER | UINT | SLONG | ULONG | LLONG | MAXSIZE | FLOAT | DOUBLE | BOOL | SHORT | USHORT | CHAR | UCHAR
  | UCHAR_P | CHAR_P | CONST_CHAR | STRING | ARRAY | HASH | OBJ | PTR | FUNC
  | NAN
  | DEF_ARR | DEF_FUNC | ROUTINE | OA_HASH | REFLECT_TYPE | REFLECT_INFO | REFLECT_VALUE | MAP_VALUE | MAP_STRUCT | MAP_ITER
  | MAP_ARR | ERR_PTR | ERR_CONTEXT | PROMISE | FUTURE | FUTURE_ARG | EVENT_ARG | ARGS | PROCESS | SCHED | CHANNEL | STRUCT
  | UNION | VALUE
  | NO_INSTANCE
  | ARENA | THREAD | GUARDED_STATUS | QUEUE | SPAWN | POOL | SYNC | COUNT
  deriving DecidableEq

/-- The number the compiler gives it: its position. -/
def Name.tag (n : Name) : Tag := BitVec.ofNat 32 n.ctorIdx

/-- Plain values. -/
def values : List Name :=
  [.INT, .ENUM, .INTEGER, .UINT, .SLONG, .ULONG, .LLONG, .MAXSIZE, .FLOAT, .DOUBLE, .BOOL, .SHORT, .USHORT, .CHAR, .UCHAR,
   .UCHAR_P, .CHAR_P, .CONST_CHAR, .STRING, .ARRAY, .HASH, .OBJ, .PTR, .FUNC]

/-- Objects of the library. -/
def instances : List Name :=
  [.DEF_ARR, .DEF_FUNC, .ROUTINE, .OA_HASH, .REFLECT_TYPE, .REFLECT_INFO, .REFLECT_VALUE, .MAP_VALUE, .MAP_STRUCT, .MAP_ITER,
   .MAP_ARR, .ERR_PTR, .ERR_CONTEXT, .PROMISE, .FUTURE, .FUTURE_ARG, .EVENT_ARG, .ARGS, .PROCESS, .SCHED, .CHANNEL, .STRUCT,
   .UNION, .VALUE]

end Verif.Ty
