import Verif.Model.Seh
/-!
# What try blocks promise
-/
namespace Verif.Seh

/-- The name of the exception a fault is, `src/except.c:610-619`. -/
def faultName : BitVec 32 → Option Name
  | 0xC0000005#32 => some (str "sig_segv")
  | 0xC000008C#32 => some (str "array_bounds_exceeded")
  | 0xC000008E#32 => some (str "sig_fpe")
  | 0xC0000094#32 => some (str "divide_by_zero")
  | 0xC000001D#32 => some (str "sig_ill")
  | 0xC0000095#32 => some (str "int_overflow")
  | 0xC00000FD#32 => some (str "stack_overflow")
  | 0xC0000008#32 => some (str "invalid_handle")
  | 0xC000013A#32 => some (str "sig_int")
  | _ => none

/-- `catch(X)` is for exceptions named `X`, `catch_any` for all. -/
def Catch.accepts : Catch → Name → Bool
  | .one x, n => x == n
  | .any, _ => true

/-- Left, or left by an exception with this name. -/
inductive Exit
  | done
  | exn (n : Name)
  deriving DecidableEq, Repr

/-- What a program should do.  The first argument is the exception the handler around is for. -/
def sem : Option Name → Prog → List Ev × Exit
  | _, .skip => ([], .done)
  | _, .say k => ([.said k], .done)
  | _, .throw e => ([], .exn e)
  | _, .raise _ n => ([], .exn n)
  | _, .fault code => ([], .exn ((faultName code).getD []))
  | some n, .rethrow => ([], .exn n)
  | none, .rethrow => ([], .done)
  | o, .seq a b =>
    match sem o a with
    | (t, .done) => (t ++ (sem o b).1, (sem o b).2)
    | r => r
  | _, .tryCatch body c h k =>
    match sem none body with
    | (t, .done) => (t ++ [.fin k], .done)
    | (t, .exn n) =>
      if c.accepts n then (t ++ [.caught (.str n)] ++ (sem (some n) h).1 ++ [.fin k], (sem (some n) h).2)
      else (t ++ [.fin k], .exn n)

/-- `rethrow` only in handlers, and only faults that have a name.  The flag: in a handler. -/
def Prog.sensible : Bool → Prog → Bool
  | b, .rethrow => b
  | _, .fault code => (faultName code).isSome
  | b, .seq a c => a.sensible b && c.sensible b
  | _, .tryCatch body _ h _ => body.sensible false && h.sensible true
  | _, _ => true

/-- How the process should end. -/
def Exit.toEnd : Exit → End
  | .done => .done
  | .exn _ => .terminated

/-- The program did what it should. -/
def Meets (o : End × List Ev) (p : Prog) : Prop := o = ((sem none p).2.toEnd, (sem none p).1)

/-- Where a statement is: outside, in the block of a `catch`, or in a handler, from which `rethrow` may be used or not. -/
inductive Place
  | top
  | body (c : Catch)
  | handler (re : Bool)
  deriving DecidableEq, Repr

/-- An exception `x` leaving a try block at this place is one that the next block is for. -/
def Place.welcomes : Place → Catch → Bool
  | .body c, .one x => c.accepts x
  | _, _ => false

/-- Every exception is one that the innermost block around is for: by its exact name, or signals and faults by
`catch_any`; what leaves a handler leaves it by `rethrow`, and the handler is for one name. -/
def Prog.mild : Place → Prog → Bool
  | _, .skip => true
  | _, .say _ => true
  | .body c, .throw e => c.accepts e
  | _, .throw _ => false
  | .body .any, .raise _ _ => true
  | _, .raise _ _ => false
  | .body .any, .fault code => (faultName code).isSome
  | _, .fault _ => false
  | .handler re, .rethrow => re
  | _, .rethrow => false
  | pl, .seq a b => a.mild pl && b.mild pl
  | pl, .tryCatch body c h _ => body.mild (.body c) && h.mild (.handler (pl.welcomes c))

/-- What new contexts hold in `caught` is not the code of an exception. -/
def JunkOk (junk : Nat → Msg × BitVec 32) : Prop := ∀ i, (junk i).2 ∉ sehRows.map Prod.fst

end Verif.Seh
