import Verif.Spec.Blocks
import Verif.Props.Except
/-!
# C96, C97 — `finality`; the text of `try` blocks

C96: after `try { body } finality { fin } end_try`, `fin` has run once, after the body, and an exception of the body has been passed on to the enclosing block.

C97: a `try` block with any handlers, with `finally` or without, ended by `end_try` or `end_trying`, is a statement, in both builds: whatever can be written for one compiles for the other.
-/
namespace Verif.Props
open Verif Verif.Bl

/-! ## C96 -/

/-- **C96**, full (POSIX): the block ends as its body does, unless `fin` throws. -/
def C96_Full : Prop :=
  ∀ (w : Ex.World), w.calm → ∀ (n self : Nat) (st : Ex.St), st.ready → ∀ (body : Ex.Stmt) (k : Nat),
    body.wf false false = true → k ∉ body.acts →
    let r := Ex.eval none body
    let o := Ex.exec w (n + 2) self (finality body (.mark k)) st
    Ex.marks o.st.trace = Ex.marks st.trace ++ r.1 ++ [k] ∧ Ex.Ends st o r.2

/-- **C96**: `fin` runs once and after the body.  Missing: the exception is not passed on, whatever it is; the block ends normally. -/
theorem C96_finality_partial (w : Ex.World) (hw : w.calm) (n self : Nat) (st : Ex.St) (hst : st.ready) (body : Ex.Stmt) (k : Nat)
    (hwf : body.wf false false = true) :
    let r := Ex.eval none body
    let o := Ex.exec w (n + 2) self (finality body (.mark k)) st
    Ex.marks o.st.trace = Ex.marks st.trace ++ r.1 ++ [k] ∧ Ex.Ends st o .done := by
  have hwf' : (finality body (.mark k)).wf false false = true := by
    simpa [finality, Ex.Stmt.wf, Ex.Handlers.wf] using hwf
  have h := C28_finally_any w hw n self st hst body (.mark k) (.cons .any .skip .nil) hwf'
  have hr := Ex.eval_ne_returned body false none hwf
  have e1 : Ex.eval none (.tryCatch body (.cons .any .skip .nil)) = ((Ex.eval none body).1, .done) := by
    rw [Ex.eval]
    obtain ⟨t, o, e⟩ : ∃ t o, Ex.eval none body = (t, o) := ⟨_, _, rfl⟩
    rw [e] at hr
    cases o with
    | done => simp [e]
    | returned => exact absurd rfl hr
    | thrown x => simp [e, Ex.evalH, Ex.eval]
  simp only [e1] at h
  simpa [finality, Ex.eval] using h

/-- With any `fin`: what it throws goes on, what the body throws does not. -/
theorem C96_any (w : Ex.World) (hw : w.calm) (n self : Nat) (st : Ex.St) (hst : st.ready) (body fin : Ex.Stmt)
    (hwf : body.wf false false = true) (hf : fin.wf false false = true) :
    let o := Ex.exec w (n + 2) self (finality body fin) st
    Ex.marks o.st.trace = Ex.marks st.trace ++ (Ex.eval none body).1 ++ (Ex.eval none fin).1 ∧ Ex.Ends st o (Ex.eval none fin).2 := by
  have hwf' : (finality body fin).wf false false = true := by
    simp [finality, Ex.Stmt.wf, Ex.Handlers.wf, hwf, hf]
  have h := C28_finally_any w hw n self st hst body fin (.cons .any .skip .nil) hwf'
  have hr := Ex.eval_ne_returned body false none hwf
  have e1 : Ex.eval none (.tryCatch body (.cons .any .skip .nil)) = ((Ex.eval none body).1, .done) := by
    rw [Ex.eval]
    obtain ⟨t, o, e⟩ : ∃ t o, Ex.eval none body = (t, o) := ⟨_, _, rfl⟩
    rw [e] at hr
    cases o with
    | done => simp [e]
    | returned => exact absurd rfl hr
    | thrown x => simp [e, Ex.evalH, Ex.eval]
  simp only [e1] at h
  refine ⟨h.1, ?_⟩
  have h2 := h.2
  cases hx : (Ex.eval none fin).2 <;> rw [hx] at h2 <;> exact h2

/-- A block inside one that catches everything: the handler of the outer block never runs. -/
theorem C96_swallowed (e : Ex.Exn) (k h : Nat) :
    Ex.eval none (.tryCatch (finality (.throw e) (.mark k)) (.cons .any (.mark h) .nil)) = ([k], .done) := by
  simp [finality, Ex.eval, Ex.evalH]

theorem C96_full_false : ¬ C96_Full := by
  intro h
  have hr : (Ex.start false).ready := ⟨Nat.zero_lt_one, rfl⟩
  have h1 := (h plainWorld plainWorld_calm 0 0 (Ex.start false) hr (.throw ⟨1, 0, 0, 0, none⟩) 7 rfl (by simp [Ex.Stmt.acts])).2
  have h2 := (C96_finality_partial plainWorld plainWorld_calm 0 0 (Ex.start false) hr (.throw ⟨1, 0, 0, 0, none⟩) 7 rfl).2
  have h3 := h1.2
  have h4 : Ex.exec plainWorld (0 + 2) 0 (finality (.throw ⟨1, 0, 0, 0, none⟩) (.mark 7)) (Ex.start false) = .ok _ := h2
  rw [h4] at h3
  simp [Ex.start] at h3

example : (Ex.Stmt.seq (.mark 1) (.throw ⟨1, 0, 0, 0, none⟩)).wf false false = true ∧ (Ex.start false).cur = 0 := ⟨rfl, rfl⟩

/-! ## C97 -/

/-- **C97**, full. -/
def C97_Full : Prop := ∀ c : Code, Fits Bl.posix c ∧ Fits Bl.windows c

theorem parse_append (s : PSt) (a b : List Tok) : parse s (a ++ b) = (parse s a).bind (fun s' => parse s' b) := by
  induction a generalizing s with
  | nil => rfl
  | cons t ts ih =>
    simp only [List.cons_append, parse]
    cases tok s t with
    | none => rfl
    | some s' => exact ih s'

/-- The block's own braces are open. -/
def inside : List Br → List Br := fun l => .other :: .other :: .decl :: l

mutual
theorem fits_posix (c : Code) (l : List Br) : parse (l, false) (c.text Bl.posix) = some (l, false) := by
  cases c with
  | skip => rfl
  | seq a b => rw [Code.text, parse_append, fits_posix a l]; exact fits_posix b l
  | blk body cs e =>
    rw [Code.text, parse_append]
    have h1 : parse (l, false) Bl.posix.start = some (inside l, false) := by simp [Bl.posix, parse, tok, inside]
    rw [h1]
    show parse (inside l, false) (.op .other :: _) = _
    rw [parse]
    simp only [tok, reduceCtorEq, or_self, Bool.false_eq_true, if_true]
    rw [parse_append, fits_posix body (.other :: inside l)]
    show parse (.other :: inside l, false) (.cl :: _) = _
    rw [parse]
    simp only [tok, Bool.false_eq_true, if_false]
    have : (Br.other == Br.tryB) = false := by decide
    rw [this, parse_append, fits_clauses cs l]
    show parse (inside l, false) (Bl.posix.fin e) = _
    cases e <;> simp [Bl.posix, parse, tok, inside]
theorem fits_clauses (cs : Clauses) (l : List Br) : parse (inside l, false) (cs.text Bl.posix) = some (inside l, false) := by
  cases cs with
  | nil => rfl
  | cons c code rest =>
    rw [Clauses.text, parse_append]
    have h1 : parse (inside l, false) (Bl.posix.clause c) = some (inside l, false) := by
      cases c <;> simp [Bl.posix, parse, tok, inside]
    rw [h1]
    show parse (inside l, false) (.op .other :: _) = _
    rw [parse]
    simp only [tok, reduceCtorEq, or_self, Bool.false_eq_true, if_true]
    rw [parse_append, fits_posix code (.other :: inside l)]
    show parse (.other :: inside l, false) (.cl :: _) = _
    rw [parse]
    simp only [tok, Bool.false_eq_true, if_false]
    have : (Br.other == Br.tryB) = false := by decide
    rw [this]
    exact fits_clauses rest l
end

/-- **C97** for POSIX: all blocks. -/
theorem C97_posix (c : Code) : Fits Bl.posix c := fits_posix c

/-- What a user's block `{ code }` does. -/
theorem parse_user (m : Macros) (code : Code) (l : List Br) (rest : List Tok) (h : Fits m code) :
    parse (l, false) (.op .other :: (code.text m ++ (.cl :: rest))) = parse (l, false) rest := by
  rw [parse]
  simp only [tok, reduceCtorEq, or_self, Bool.false_eq_true, if_true]
  rw [parse_append, h (.other :: l)]
  show parse (.other :: l, false) (.cl :: _) = _
  rw [parse]
  simp only [tok, Bool.false_eq_true, if_false]
  rfl

/-- The code of each clause fits. -/
def codeFits : Clauses → Prop
  | .nil => True
  | .cons _ code rest => Fits Bl.windows code ∧ codeFits rest

theorem shape_fits (cs : Clauses) (e : End) (hc : codeFits cs) (h1 : shape cs e = true) (l : List Br) :
    parse (.tryB :: .other :: .decl :: l, false) (cs.text Bl.windows ++ Bl.windows.fin e) = some (l, false) := by
  cases cs with
  | nil => cases e <;> simp [shape] at h1
  | cons c code rest =>
    cases c with
    | «finally» => cases e <;> simp [shape] at h1
    | finality => cases e <;> simp [shape] at h1
    | «catch» =>
      rw [Clauses.text, List.append_assoc, parse_append]
      have h5 : parse (.tryB :: .other :: .decl :: l, false) (Bl.windows.clause .catch) = some (.other :: .except :: .other :: .decl :: l, false) := by
        simp [Bl.windows, parse, tok]
      rw [h5]
      simp only [List.cons_append, List.append_assoc, Option.bind_some]
      rw [parse_user _ _ _ _ hc.1]
      cases rest with
      | nil =>
        cases e with
        | endTry => simp [shape] at h1
        | endTrying => simp [Clauses.text, Bl.windows, parse, tok]
      | cons c' code' rest' =>
        cases rest' with
        | cons _ _ _ => cases c' <;> cases e <;> simp [shape] at h1
        | nil =>
          cases e with
          | endTrying => cases c' <;> simp [shape] at h1
          | endTry =>
            cases c' with
            | «catch» => simp [shape] at h1
            | finality => simp [shape] at h1
            | «finally» =>
              rw [Clauses.text, List.append_assoc, parse_append]
              have h7 : parse (.other :: .except :: .other :: .decl :: l, false) (Bl.windows.clause .finally) = some (.other :: .decl :: l, false) := by
                simp [Bl.windows, parse, tok]
              rw [h7]
              simp only [List.cons_append, List.append_assoc, Option.bind_some]
              rw [parse_user _ _ _ _ hc.2.1]
              simp [Clauses.text, Bl.windows, parse, tok]

theorem parse_blk (body : Code) (cs : Clauses) (e : End) (hb : Fits Bl.windows body) (l : List Br) :
    parse (l, false) ((Code.blk body cs e).text Bl.windows) = parse (.tryB :: .other :: .decl :: l, false) (cs.text Bl.windows ++ Bl.windows.fin e) := by
  have h4 : parse (l, false) Bl.windows.start = some (.tryB :: .other :: .decl :: l, false) := by simp [Bl.windows, parse, tok]
  rw [Code.text, parse_append, h4]
  simp only [Option.bind_some]
  rw [parse_user _ _ _ _ hb]

mutual
theorem fits_windows (c : Code) (hc : c.shaped = true) : Fits Bl.windows c := by
  cases c with
  | skip => intro l; rfl
  | seq a b =>
    intro l
    simp only [Code.shaped, Bool.and_eq_true] at hc
    rw [Code.text, parse_append, fits_windows a hc.1 l]
    exact fits_windows b hc.2 l
  | blk body cs e =>
    intro l
    simp only [Code.shaped, Bool.and_eq_true] at hc
    obtain ⟨⟨h1, h2⟩, h3⟩ := hc
    rw [parse_blk _ _ _ (fits_windows body h2)]
    exact shape_fits cs e (fits_windows_clauses cs h3) h1 l
theorem fits_windows_clauses (cs : Clauses) (hc : cs.shaped = true) : codeFits cs := by
  cases cs with
  | nil => trivial
  | cons c code rest =>
    simp only [Clauses.shaped, Bool.and_eq_true] at hc
    exact ⟨fits_windows code hc.1, fits_windows_clauses rest hc.2⟩
end

/-- **C97** for Windows: blocks with one handler, then `finally` and `end_try` or only `end_trying`.  Missing: all others (`C97_windows_only`). -/
theorem C97_windows_partial (c : Code) (hc : c.shaped = true) : Fits Bl.windows c := fits_windows c hc

/-- How many more blocks a text opens than it closes. -/
def depth : List Tok → Int
  | [] => 0
  | .op _ :: ts => 1 + depth ts
  | .cl :: ts => depth ts - 1
  | .use :: ts => depth ts

theorem depth_append (a b : List Tok) : depth (a ++ b) = depth a + depth b := by
  induction a with
  | nil => simp [depth]
  | cons t ts ih => cases t <;> simp only [List.cons_append, depth, ih] <;> omega

theorem parse_depth (ts : List Tok) (s s' : PSt) (h : parse s ts = some s') : (s'.1.length : Int) = s.1.length + depth ts := by
  induction ts generalizing s with
  | nil => simp only [parse, Option.some.injEq] at h; subst h; simp [depth]
  | cons t ts ih =>
    rw [parse] at h
    cases t with
    | op b =>
      simp only [tok] at h
      split at h
      · rename_i s1 h1
        split at h1
        · simp only [Option.some.injEq] at h1
          subst h1
          have := ih _ h
          simp only [List.length_cons, depth] at this ⊢
          omega
        · cases h1
      · cases h
    | cl =>
      simp only [tok] at h
      split at h
      · rename_i s1 h1
        split at h1
        · cases h1
        · split at h1
          · cases h1
          · rename_i b l hb
            simp only [Option.some.injEq] at h1
            subst h1
            have := ih _ h
            simp only [depth, hb, List.length_cons] at this ⊢
            omega
      · cases h
    | use =>
      simp only [tok] at h
      split at h
      · rename_i s1 h1
        split at h1
        · simp only [Option.some.injEq] at h1
          subst h1
          exact ih _ h
        · cases h1
      · cases h

theorem depth_fits (m : Macros) (c : Code) (h : Fits m c) : depth (c.text m) = 0 := by
  have := parse_depth _ _ _ (h [])
  simpa using this.symm

def onlyFinally : Clauses → Bool
  | .nil => true
  | .cons c _ rest => c == .finally && onlyFinally rest

def howMany : Clauses → Nat
  | .nil => 0
  | .cons _ _ rest => howMany rest + 1

/-- Once the `__try` block is closed only `finally` can follow. -/
theorem only_finally (cs : Clauses) (hc : codeFits cs) (s : List Br) (hs : s.head? ≠ some .tryB) (rest : List Tok) (s' : PSt)
    (h : parse (s, false) (cs.text Bl.windows ++ rest) = some s') : onlyFinally cs = true := by
  cases cs with
  | nil => rfl
  | cons c code cs =>
    rw [Clauses.text, List.append_assoc, parse_append] at h
    simp only [List.cons_append, List.append_assoc] at h
    have no : ∀ (b : Br) (ts : List Tok), (b = .except ∨ b = .finB) → parse (s, false) (.cl :: .op b :: ts) = none := by
      intro b ts hb
      cases s with
      | nil => rfl
      | cons x l =>
        have hx : (x == Br.tryB) = false := by
          cases x <;> first | rfl | exact absurd rfl hs
        simp only [parse, tok, Bool.false_eq_true, if_false, hx, hb]
        simp
    cases c with
    | «catch» =>
      have : parse (s, false) (Bl.windows.clause .catch) = none := no .except _ (.inl rfl)
      rw [this] at h
      cases h
    | finality =>
      have : parse (s, false) (Bl.windows.clause .finality) = none := no .finB _ (.inr rfl)
      rw [this] at h
      cases h
    | «finally» =>
      have key : ∀ s1, parse (s, false) (Bl.windows.clause .finally) = some s1 → ∃ l, s1 = (.other :: l, false) := by
        intro s1 h1
        have e : Bl.windows.clause .finally = [.cl, .cl, .cl, .op .other] ++ [.use] := rfl
        rw [e, parse_append] at h1
        cases h2 : parse (s, false) [.cl, .cl, .cl, .op .other] with
        | none => rw [h2] at h1; cases h1
        | some s2 =>
          rw [h2] at h1
          have h3 : ∃ l, s2 = (.other :: l, false) := by
            have e : ([.cl, .cl, .cl, .op .other] : List Tok) = [.cl, .cl, .cl] ++ [.op .other] := rfl
            rw [e, parse_append] at h2
            cases h4 : parse (s, false) [.cl, .cl, .cl] with
            | none => rw [h4] at h2; cases h2
            | some s3 =>
              rw [h4] at h2
              simp only [Option.bind_some, parse, tok] at h2
              split at h2
              · rename_i s4 h5
                split at h5
                · simp only [Option.some.injEq] at h5 h2
                  subst h5
                  exact ⟨_, h2.symm⟩
                · cases h5
              · cases h2
          obtain ⟨l, rfl⟩ := h3
          simp only [Option.bind_some, parse, tok] at h1
          split at h1
          · rename_i s4 h5
            split at h5
            · simp only [Option.some.injEq] at h5 h1
              subst h5
              exact ⟨l, h1.symm⟩
            · cases h5
          · cases h1
      cases h1 : parse (s, false) (Bl.windows.clause .finally) with
      | none => rw [h1] at h; cases h
      | some s1 =>
        rw [h1] at h
        obtain ⟨l, rfl⟩ := key s1 h1
        simp only [Option.bind_some] at h
        rw [parse_user _ _ _ _ hc.1] at h
        have := only_finally cs hc.2 (.other :: l) (by simp) rest s' h
        simp [onlyFinally, this]

theorem depth_finally (cs : Clauses) (hc : codeFits cs) (ho : onlyFinally cs = true) : depth (cs.text Bl.windows) = -2 * (howMany cs : Int) := by
  cases cs with
  | nil => rfl
  | cons c code rest =>
    simp only [onlyFinally, Bool.and_eq_true, beq_iff_eq] at ho
    have h1 := depth_finally rest hc.2 ho.2
    obtain ⟨rfl, -⟩ := ho
    rw [Clauses.text, depth_append]
    have h2 : depth (Bl.windows.clause .finally) = -2 := rfl
    simp only [depth, depth_append, depth_fits _ _ hc.1, h1, h2, howMany]
    omega

/-- For Windows no other block is a statement, wherever it is written, if what is inside is. -/
theorem C97_windows_only (body : Code) (cs : Clauses) (e : End) (hb : Fits Bl.windows body) (hc : codeFits cs) (l : List Br) :
    parse (l, false) ((Code.blk body cs e).text Bl.windows) = some (l, false) ↔ shape cs e = true := by
  rw [parse_blk _ _ _ hb]
  refine ⟨fun h => ?_, fun h => shape_fits cs e hc h l⟩
  have hd := parse_depth _ _ _ h
  have he : depth (Bl.windows.fin e) = if e = .endTry then -2 else -4 := by cases e <;> rfl
  simp only [List.length_cons, depth_append, he] at hd
  cases cs with
  | nil => cases e <;> simp [Clauses.text, Bl.windows, parse, tok] at h
  | cons c code rest =>
    rw [Clauses.text, List.append_assoc, parse_append] at h
    simp only [List.cons_append, List.append_assoc] at h
    rw [Clauses.text, depth_append] at hd
    simp only [depth, depth_append, depth_fits _ _ hc.1] at hd
    cases c with
    | «finally» =>
      have : parse (.tryB :: .other :: .decl :: l, false) (Bl.windows.clause .finally) = none := by simp [Bl.windows, parse, tok]
      rw [this] at h
      cases h
    | finality =>
      have h1 : parse (.tryB :: .other :: .decl :: l, false) (Bl.windows.clause .finality) = some (.finB :: .other :: .decl :: l, false) := by
        simp [Bl.windows, parse, tok]
      rw [h1] at h
      simp only [Option.bind_some] at h
      rw [parse_user _ _ _ _ hc.1] at h
      have ho := only_finally rest hc.2 _ (by simp) _ _ h
      rw [depth_finally rest hc.2 ho] at hd
      simp only [Bl.windows, depth] at hd
      cases e <;> simp at hd <;> omega
    | «catch» =>
      have h1 : parse (.tryB :: .other :: .decl :: l, false) (Bl.windows.clause .catch) = some (.other :: .except :: .other :: .decl :: l, false) := by
        simp [Bl.windows, parse, tok]
      rw [h1] at h
      simp only [Option.bind_some] at h
      rw [parse_user _ _ _ _ hc.1] at h
      have ho := only_finally rest hc.2 _ (by simp) _ _ h
      rw [depth_finally rest hc.2 ho] at hd
      simp only [Bl.windows, depth] at hd
      cases rest with
      | nil =>
        cases e with
        | endTry => simp [howMany] at hd; omega
        | endTrying => rfl
      | cons c' code' rest' =>
        simp only [onlyFinally, Bool.and_eq_true, beq_iff_eq] at ho
        obtain ⟨rfl, -⟩ := ho
        cases rest' with
        | nil =>
          cases e with
          | endTry => rfl
          | endTrying => simp [howMany] at hd; omega
        | cons _ _ _ => cases e <;> simp [howMany] at hd <;> omega

/-- So: no block with two handlers, none with `finally` alone, none with a handler and `end_try` alone, none with `finality`. -/
theorem C97_windows_not (body code code' : Code) (l : List Br) (hb : Fits Bl.windows body) (hc : Fits Bl.windows code) (hc' : Fits Bl.windows code') (e : End) :
    parse (l, false) ((Code.blk body (.cons .catch code (.cons .catch code' .nil)) e).text Bl.windows) ≠ some (l, false) ∧
    parse (l, false) ((Code.blk body (.cons .finally code .nil) e).text Bl.windows) ≠ some (l, false) ∧
    parse (l, false) ((Code.blk body (.cons .catch code .nil) .endTry).text Bl.windows) ≠ some (l, false) ∧
    parse (l, false) ((Code.blk body (.cons .finality code .nil) e).text Bl.windows) ≠ some (l, false) := by
  refine ⟨?_, ?_, ?_, ?_⟩
  · rw [Ne, C97_windows_only _ _ _ hb (show codeFits (.cons _ code (.cons _ code' .nil)) from ⟨hc, hc', trivial⟩)]; cases e <;> simp [shape]
  · rw [Ne, C97_windows_only _ _ _ hb (show codeFits (.cons _ code .nil) from ⟨hc, trivial⟩)]; cases e <;> simp [shape]
  · rw [Ne, C97_windows_only _ _ _ hb (show codeFits (.cons _ code .nil) from ⟨hc, trivial⟩)]; simp [shape]
  · rw [Ne, C97_windows_only _ _ _ hb (show codeFits (.cons _ code .nil) from ⟨hc, trivial⟩)]; cases e <;> simp [shape]

theorem C97_full_false : ¬ C97_Full := by
  intro h
  have h1 := (h (.blk .skip (.cons .finality .skip .nil) .endTry)).2 []
  revert h1
  decide

/-- A block with `finality` and `end_trying` that is inside no other: it uses the variable where there is none. -/
theorem C97_out_of_scope (body code : Code) (l : List Br) (hb : Fits Bl.windows body) (hc : Fits Bl.windows code) (hl : .decl ∉ l) :
    parse (l, false) ((Code.blk body (.cons .finality code .nil) .endTrying).text Bl.windows) = none := by
  rw [parse_blk _ _ _ hb, Clauses.text, List.append_assoc, parse_append]
  have h1 : parse (.tryB :: .other :: .decl :: l, false) (Bl.windows.clause .finality) = some (.finB :: .other :: .decl :: l, false) := by
    simp [Bl.windows, parse, tok]
  rw [h1]
  simp only [List.cons_append, List.append_assoc, Option.bind_some]
  rw [parse_user _ _ _ _ hc]
  simp [Clauses.text, Bl.windows, parse, tok, hl]

/-- The blocks with `finality` of the repository's test (`tests/test-exceptions.c:158-161`, `183-187`), with `end_try` and `end_trying`: neither is a statement, the first leaves a
brace open, the second closes one too many; one after the other they are, and the second uses the first one's variable. -/
theorem C97_test (l : List Br) :
    Fits Bl.windows (.seq (.blk .skip (.cons .finality .skip .nil) .endTry) (.blk .skip (.cons .finality .skip .nil) .endTrying)) ∧
    parse (l, false) ((Code.blk .skip (.cons .finality .skip .nil) .endTry).text Bl.windows) = some (.decl :: l, false) := by
  refine ⟨fun l => ?_, ?_⟩
  · simp [Code.text, Clauses.text, Bl.windows, parse, tok]
  · simp [Code.text, Clauses.text, Bl.windows, parse, tok]

/-- The block of the README, inside another. -/
example : (Code.blk (.blk .skip (.cons .catch .skip (.cons .finally .skip .nil)) .endTry) (.cons .catch .skip .nil) .endTrying).shaped = true := by decide

end Verif.Props
