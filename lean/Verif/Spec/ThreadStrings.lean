import Verif.Model.ThreadStrings
import Verif.Spec.Strings
import Verif.Spec.Numbers
import Verif.Spec.StringOps
import Verif.Spec.Base64
/-!
# Specification of the strings a thread's scope hands out
-/
namespace Verif.Sm

/-- The bytes of a block. -/
def Blk.has (b : Blk) (a : Nat) : Prop := b.addr ≤ a ∧ a < b.addr + b.size

/-- Memory the program may read: its own, and what was handed out and is not freed. -/
def Mine (sys : Sys) (st : St) (a : Nat) : Prop := sys.user a = true ∨ ∃ b ∈ st.live, b.has a

/-- The C string `s` lies at `p`, in memory the program may read. -/
def Str (mine : Nat → Prop) (m : Mem) (p : Nat) (s : List UInt8) : Prop :=
  CStr m p s ∧ ∀ i ≤ s.length, mine (p + i)

/-- The pointer stored in the eight bytes at `p`. -/
def pointer (m : Mem) (p : Nat) : Nat := (cast64 m p).toNat

/-- The bytes `s` lie at `p`, in memory the program may read. -/
def Bytes (mine : Nat → Prop) (m : Mem) (p : Nat) (s : List UInt8) : Prop :=
  Holds m p s ∧ ∀ i < s.length, mine (p + i)

/-- What has to be true of a returned value, given what the program may read and the memory. -/
abbrev Want := (Nat → Prop) → Mem → Val → Prop

/-- What the caller asks for, and what has to be true of the returned value. -/
inductive Asked (mine : Nat → Prop) (empty fuel : Nat) (m : Mem) : Call → Want → Prop
  /-- a copy of any bytes, with a terminator -/
  | memdup {src s} : Bytes mine m src s → s.length + 1 < 2 ^ 64 →
      Asked mine empty fuel m (.memdup src (BitVec.ofNat 64 s.length))
        fun mine' m' v => ∃ p, v = .ptr p ∧ Bytes mine' m' p (s ++ [0])
  /-- the strings one after the other -/
  | concat {args : List Nat} {ss : List (List UInt8)} : args.length = ss.length →
      (∀ k (h : k < args.length) (h' : k < ss.length), Str mine m args[k] ss[k] ∧ ss[k].length < fuel) →
      ss.flatten.length + 1 < 2 ^ 64 →
      Asked mine empty fuel m (.concat args) fun mine' m' v => ∃ p, v = .ptr p ∧ Str mine' m' p ss.flatten
  /-- each occurrence of `n` in `h` turned into `r` -/
  | replace {p q w : Nat} {h n r : List UInt8} {ts} : Str mine m p h → Str mine m q n → Str mine m w r →
      n ≠ [] → h.length + n.length + r.length + 1 ≤ fuel → h.length < 2 ^ 64 →
      IsSplit n h ts → 1 < ts.length → (joinWith r ts).length + 1 < 2 ^ 64 →
      Asked mine empty fuel m (.replace (some p) (some q) (some w))
        fun mine' m' v => ∃ p, v = .ptr p ∧ Str mine' m' p (joinWith r ts)
  /-- nothing to replace -/
  | replaceNone {p q w : Nat} {h n r : List UInt8} : Str mine m p h → Str mine m q n → Str mine m w r →
      n ≠ [] → h.length + n.length + r.length + 1 ≤ fuel → h.length < 2 ^ 64 →
      (∀ i, ¬ OccursAt h n i) →
      Asked mine empty fuel m (.replace (some p) (some q) (some w)) fun _ _ v => v = .null
  /-- the base64 text of a string -/
  | encode {src s} : Str mine m src s → s.length < fuel → s.length + 2 < 3 * 2 ^ 30 →
      Asked mine empty fuel m (.encode src) fun mine' m' v => ∃ p, v = .ptr p ∧ Str mine' m' p (rfc4648 s)
  /-- the string a base64 text stands for -/
  | decode {src s} : Str mine m src (rfc4648 s) → s ≠ [] → (rfc4648 s).length < fuel → s.length < 2 ^ 63 →
      Asked mine empty fuel m (.decode src) fun mine' m' v => ∃ p, v = .ptr p ∧ Bytes mine' m' p (s ++ [0])
  /-- the words between the delimiters, as an array of pointers closed by NULL (strings of length 8
  are the defect of C16) -/
  | split {p q : Nat} {s d : List UInt8} {ts} : Str mine m p s → Str mine m q d → Str mine m empty [] →
      s ≠ [] → d ≠ [] → s.length ≠ 8 → s.length + d.length + 1 ≤ fuel → s.length < 2 ^ 59 → IsSplit d s ts →
      Asked mine empty fuel m (.split p (some q)) fun mine' m' v => ∃ a, v = .words a (BitVec.ofNat 32 ts.length) ∧
        (∀ i < 8 * (ts.length + 1), mine' (a + i)) ∧
        (∀ k (h : k < ts.length), Str mine' m' (pointer m' (a + 8 * k)) ts[k]) ∧
        pointer m' (a + 8 * ts.length) = 0

/-- Calls that are not stores to the block `b` and do not release. -/
def Quiet (b : Blk) : Call → Prop
  | .write a bs => ∀ i < bs.length, ¬ b.has (a + i)
  | .release => False
  | _ => True

/-- No two of the blocks share a byte, and none shares one with the program's own memory. -/
def Apart (user : Nat → Bool) (bs : List Blk) : Prop :=
  bs.Pairwise (fun b c => ∀ a, ¬ (b.has a ∧ c.has a)) ∧ ∀ b ∈ bs, ∀ a, b.has a → user a = false

/-- The allocator did not give the memory a call asked for: the block or the protector. -/
def Scarce (sys : Sys) (st : St) : Prop :=
  (∃ size, grant sys st size = none) ∨ sys.env.alloc (st.w.tick + 1) 40 = none

/-- The call returned what was asked for; nothing the program could read changed; the result lies
apart from everything else, and stays what it is until the scope is released or the program itself
stores into it. -/
def Delivers (sys : Sys) (fuel : Nat) (st : St) (c : Call) (want : Want) : Prop :=
  ∃ v st', step sys fuel c st = .ret v st' ∧ want (Mine sys st') st'.mem v ∧ (∀ a, Mine sys st a → st'.mem a = st.mem a) ∧
    Apart sys.user st'.live ∧
    ((v = .null ∧ st'.live = st.live) ∨
      ∃ b, st'.live = b :: st.live ∧ (v = .ptr b.addr ∨ ∃ n, v = .words b.addr n)) ∧
    ∀ later st2, run sys fuel later st' = some st2 →
      (∀ b, st'.live = b :: st.live → ∀ c' ∈ later, Quiet b c') → want (Mine sys st2) st2.mem v

/-- Releasing frees every block handed out, newest first, each once, and nothing else. -/
def Frees (sys : Sys) (fuel : Nat) (st : St) : Prop :=
  ∃ st', step sys fuel .release st = .ret .unit st' ∧ st'.live = [] ∧
    st'.w.trace = st.w.trace ++ (.relBegin 0 :: st.live.map (fun b => .ran 0 FREE b.addr) ++ [.relEnd 0])

end Verif.Sm
