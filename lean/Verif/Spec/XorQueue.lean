import Verif.Model.XorQueue
/-!
# XOR queues as sequences
-/
namespace Verif.Xq

/-- The operations; `init` with the cookie drawn. -/
inductive Op
  | init (h c : W)
  | insertHead (h e : W)
  | insertTail (h e : W)
  /-- Insert `e` after `s`, which is in queue `h`. -/
  | insertAfter (h s e : W)
  | removeHead (h : W)
  /-- Remove the element after `s`. -/
  | removeAfter (h s : W)

/-- The macro called. -/
def exec (wide : Bool) (off : W) : Op → Mem → Option Mem
  | .init h c, m => some (Xq.init wide h c m)
  | .insertHead h e, m => some (Xq.insertHead wide off h e m)
  | .insertTail h e, m => some (Xq.insertTail wide off h e m)
  | .insertAfter h s e, m => some (Xq.insertAfter wide off h s e m)
  | .removeHead h, m => Xq.removeHead wide off h m
  | .removeAfter h s, m => Xq.removeAfter wide off h s m

/-- A history of macros. -/
def run (wide : Bool) (off : W) : List Op → Mem → Option Mem
  | [], m => some m
  | o :: os, m => (exec wide off o m).bind (run wide off os)

/-- The sequences; `none` for a head that was not initialised. -/
abbrev Seqs := W → Option (List W)

def Seqs.put (σ : Seqs) (h : W) (xs : List W) : Seqs := fun k => if k = h then some xs else σ k

/-- `e` after `s`. -/
def after (s e : W) : List W → List W
  | [] => []
  | x :: xs => if x = s then x :: e :: xs else x :: after s e xs

/-- Without the element after `s`. -/
def without (s : W) : List W → List W
  | x :: y :: xs => if x = s then x :: xs else x :: without s (y :: xs)
  | xs => xs

def Op.apply (σ : Seqs) : Op → Seqs
  | .init h _ => σ.put h []
  | .insertHead h e => σ.put h (e :: (σ h).getD [])
  | .insertTail h e => σ.put h ((σ h).getD [] ++ [e])
  | .insertAfter h s e => σ.put h (after s e ((σ h).getD []))
  | .removeHead h => σ.put h ((σ h).getD []).tail
  | .removeAfter h s => σ.put h (without s ((σ h).getD []))

/-- The element is in no queue. -/
def Seqs.free (σ : Seqs) (e : W) : Prop := ∀ h xs, σ h = some xs → e ∉ xs

/-- Which addresses are those of heads and elements. -/
structure Layout where
  off : W
  head : W → Prop
  elem : W → Prop

/-- The fields of heads and elements. -/
inductive Field
  | first (h : W)
  | last (h : W)
  | cookie (h : W)
  | link (e : W)
  deriving DecidableEq

def Field.valid (L : Layout) : Field → Prop
  | .first h | .last h | .cookie h => L.head h
  | .link e => L.elem e

def Field.addr (L : Layout) : Field → W
  | .first h => firstAt h
  | .last h => lastAt h
  | .cookie h => cookieAt h
  | .link e => e + L.off

/-- The objects are apart and none is at NULL; if an `unsigned long` has 32 bits, all are below 4 GB. -/
structure Layout.Ok (L : Layout) (wide : Bool) : Prop where
  apart : ∀ f g : Field, f.valid L → g.valid L → f.addr L = g.addr L → f = g
  notNull : ∀ e, L.elem e → e ≠ 0
  low : wide = false → (∀ h, L.head h → h.toNat < 2 ^ 32) ∧ ∀ e, L.elem e → e.toNat < 2 ^ 32 ∧ (e + L.off).toNat < 2 ^ 32

/-- What is asked of the caller: heads are initialised, elements to be inserted are in no queue, those named are in the queue, there is
something to remove. -/
def Op.legal (L : Layout) (σ : Seqs) : Op → Prop
  | .init h _ => L.head h
  | .insertHead h e | .insertTail h e => (∃ xs, σ h = some xs) ∧ σ.free e ∧ L.elem e
  | .insertAfter h s e => (∃ xs, σ h = some xs ∧ s ∈ xs) ∧ σ.free e ∧ L.elem e
  | .removeHead h => ∃ x xs, σ h = some (x :: xs)
  | .removeAfter h s => ∃ a y b, σ h = some (a ++ s :: y :: b)

def Legal (L : Layout) : Seqs → List Op → Prop
  | _, [] => True
  | σ, o :: os => o.legal L σ ∧ Legal L (o.apply σ) os

def applyAll (σ : Seqs) (os : List Op) : Seqs := os.foldl Op.apply σ

/-- No head initialised. -/
def nothing : Seqs := fun _ => none

/-- The element after `e`, 0 at the end. -/
def follow (e : W) : List W → W
  | x :: xs => if x = e then xs.headD 0 else follow e xs
  | [] => 0

/-- What a program reads are the sequences. -/
structure Shows (wide : Bool) (off : W) (m : Mem) (σ : Seqs) : Prop where
  first : ∀ h xs, σ h = some xs → Xq.first wide h m = xs.headD 0
  empty : ∀ h xs, σ h = some xs → Xq.isEmpty wide h m = xs.isEmpty
  next : ∀ h xs e, σ h = some xs → e ∈ xs → Xq.next wide off h e m = follow e xs
  all : ∀ h xs n, σ h = some xs → xs.length < n → walk wide off h m n (Xq.first wide h m) = some xs
  /-- A loop may free what it visits. -/
  safe : ∀ h xs n (f : W → Mem → Mem), σ h = some xs → xs.length < n →
    (∀ e ∈ xs, ∀ m a, a ≠ e + off → f e m a = m a) →
    ∃ m', walkSafe wide off h f n (Xq.first wide h m) m = some (xs, m')

end Verif.Xq
