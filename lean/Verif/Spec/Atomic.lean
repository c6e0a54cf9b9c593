import Verif.Model.Atomic
/-!
# What atomic means

The same calls and returns, on a machine that performs each operation in one indivisible step, at some
moment between its call and its return.
-/
namespace Verif.At

/-- The meaning of an operation: what the cell holds afterwards, and what is returned. -/
def Op.meaning {w : Nat} : Op w → BitVec w → BitVec w × Ret w
  | .fetchAdd x, v => (v + x, ⟨v, true⟩)
  | .fetchSub x, v => (v - x, ⟨v, true⟩)
  | .fetchAnd x, v => (v &&& x, ⟨v, true⟩)
  | .fetchOr x, v => (v ||| x, ⟨v, true⟩)
  | .fetchXor x, v => (v ^^^ x, ⟨v, true⟩)
  | .exchange x, v => (x, ⟨v, true⟩)
  | .store x, _ => (x, ⟨0, true⟩)
  | .testAndSet, v => (1, ⟨v, true⟩)
  | .clear, _ => (0, ⟨0, true⟩)
  | .load, v => (v, ⟨v, true⟩)
  | .compareExchange e d, v => if v = e then (d, ⟨e, true⟩) else (v, ⟨v, false⟩)

/-- A thread of the atomic machine: in no operation, before it took effect, after it. -/
inductive APc (w : Nat)
  | idle
  | before (a : Nat) (op : Op w)
  | after (r : Ret w)
  deriving DecidableEq

structure ASt (w : Nat) where
  mem : Nat → BitVec w
  pc : Nat → APc w

/-- What is visible: calls and returns. -/
inductive Ev (w : Nat)
  | call (i a : Nat) (op : Op w)
  | ret (i : Nat) (r : Ret w)
  deriving DecidableEq

def upd {α : Type} (f : Nat → α) (i : Nat) (x : α) : Nat → α := fun j => if j = i then x else f j

/-- The executions of the atomic machine, with what is visible of them. -/
inductive Atomically {w : Nat} (mem : Nat → BitVec w) : List (Ev w) → ASt w → Prop
  | start : Atomically mem [] ⟨mem, fun _ => .idle⟩
  | call {t s} (i a : Nat) (op : Op w) : Atomically mem t s → s.pc i = .idle →
      Atomically mem (t ++ [.call i a op]) { s with pc := upd s.pc i (.before a op) }
  /-- The whole operation at once. -/
  | effect {t s} (i a : Nat) (op : Op w) : Atomically mem t s → s.pc i = .before a op →
      Atomically mem t ⟨upd s.mem a (op.meaning (s.mem a)).1, upd s.pc i (.after (op.meaning (s.mem a)).2)⟩
  | ret {t s} (i : Nat) (r : Ret w) : Atomically mem t s → s.pc i = .after r →
      Atomically mem (t ++ [.ret i r]) { s with pc := upd s.pc i .idle }

/-- What is visible of an execution of the code. -/
def visible {w : Nat} : List (Lbl w) → List (Ev w)
  | [] => []
  | .call i a op :: ls => .call i a op :: visible ls
  | .ret i r :: ls => .ret i r :: visible ls
  | _ :: ls => visible ls

/-! ## How often an operation is retried -/

/-- The cell a thread is at. -/
def Pc.cell {w : Nat} : Pc w → Option Nat
  | .start a _ => some a
  | .got a _ _ => some a
  | _ => none

/-- The plain read reads what the cell holds. -/
def accurate {w : Nat} (st : St w) : Lbl w → Prop
  | .read i v => ∀ a op, st.pc i = .start a op → v = st.mem a
  | _ => True

/-- An execution in which every plain read does. -/
def Accurate {w : Nat} (st : St w) : List (Lbl w) → Prop
  | [] => True
  | l :: ls => match step .value st l with
    | some st' => accurate st l ∧ Accurate st' ls
    | none => False

/-- 1 if the step is a compare-and-swap of thread `i` that failed and sends it round its loop again. -/
def retry {w : Nat} (i : Nat) (st : St w) : Lbl w → Nat
  | .cas j => if j = i then
      match st.pc i with
      | .got a _ old => if st.mem a = old then 0 else 1
      | _ => 0
    else 0
  | _ => 0

/-- 1 if the step is one of another thread that changes the cell it works on. -/
def changes {w : Nat} (i : Nat) (st : St w) : Lbl w → Nat
  | .cas j => match (st.pc j).cell, step .value st (.cas j) with
    | some c, some st' => if j ≠ i ∧ st'.mem c ≠ st.mem c then 1 else 0
    | _, _ => 0
  | _ => 0

/-- Summed over an execution. -/
def total {w : Nat} (f : St w → Lbl w → Nat) : St w → List (Lbl w) → Nat
  | _, [] => 0
  | st, l :: ls => f st l + match step .value st l with
    | some st' => total f st' ls
    | none => 0

end Verif.At
