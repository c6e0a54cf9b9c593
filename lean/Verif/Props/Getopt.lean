import Verif.Proof.GetoptRun
/-!
# C71: what `getopt` makes of a command line
-/
namespace Verif.Props
open Verif Verif.Go

/-- C71, in full: for every option string and every command line, the loop `while (getopt(...) != -1)` reports what the command line says and
leaves `argv` and `optind` as documented. -/
def C71_Full : Prop := ∀ (posix : Bool) (opts prog : Str) (args : List Str), (∀ c ∈ opts, 0 < c ∧ c < 256) → Reads posix opts prog args

/-- The loop has only one outcome. -/
theorem C71_unique {posix : Bool} {opts : Str} {s s1 s2 : St} {l1 l2 : List Out} (h1 : Drives posix opts s l1 s1) (h2 : Drives posix opts s l2 s2) :
    l1 = l2 ∧ s1 = s2 := by
  induction h1 generalizing l2 s2 with
  | done a b =>
    cases h2 with
    | done c d => rw [a] at c; cases c; exact ⟨rfl, rfl⟩
    | more c d e => rw [a] at c; cases c; exact absurd b d
  | more a b _ ih =>
    cases h2 with
    | done c d => rw [a] at c; cases c; exact absurd d b
    | more c d e =>
      rw [a] at c; cases c
      obtain ⟨rfl, rfl⟩ := ih e
      exact ⟨rfl, rfl⟩

/-- Option string `+a`, command line `p -a -+`: the plus is reported as if it were an option of the program (the mark is only taken off in the first
call, `getopt.c:530`). -/
theorem C71_mark_accepted : ∃ s', Drives false [plus, 97] (start [[112], [dash, 97], [dash, plus]]) [found 97 none, found plus none] s' :=
  ⟨_, .more rfl (by decide) (.more rfl (by decide) (.done rfl rfl))⟩

/-- Option string `+:a:`, command line `p -xa`: the missing argument is reported as `?` although the letters begin with a colon. -/
theorem C71_mark_missing : ∃ s', Drives false [plus, colon, 97, colon] (start [[112], [dash, 120, 97]]) [unknown 120, ⟨quest, none, some 97⟩] s' :=
  ⟨_, .more rfl (by decide) (.more rfl (by decide) (.done rfl rfl))⟩

/-- Option string `W;`, command line `p -W x`: NULL is dereferenced. -/
theorem C71_W_crashes : getopt false [capW, semi] (start [[112], [dash, capW], [120]]) = none := rfl

/-- The letter 255: reported as -1, the end of the options. -/
theorem C71_letter_255 : ∃ s', Drives false [255] (start [[112], [dash, 255], [dash, 255]]) [] s' := ⟨_, .done rfl rfl⟩

theorem C71_full_false : ¬ C71_Full := by
  intro h
  obtain ⟨s1, h1, _⟩ := h false [plus, 97] [112] [[dash, 97], [dash, plus]] (by decide)
  obtain ⟨s2, h2⟩ := C71_mark_accepted
  exact absurd (C71_unique h1 h2).1 (by decide)

/-- **C71**, for option strings without a mark (a dash or plus in front), without `W;` and without the letter 255: for every such option string and
every command line, the loop ends and has reported exactly what the command line says. -/
theorem C71_reads_partial (posix : Bool) (opts prog : Str) (args : List Str) (hm : marked opts = false) (hw : ¬ [capW, semi] <:+: opts)
    (hf : 255 ∉ opts) : Reads posix opts prog args := by
  have hF : Fits (fun _ => True) (kind opts) (missing opts) opts :=
    ⟨fun c _ hc => by rw [cls_index opts c hc]; unfold kind; rw [if_neg hc], rfl, hw, hf, rfl⟩
  simp only [marked, decide_eq_false_iff_not, not_or] at hm
  have hb : body opts = opts := by
    unfold body marked
    rw [if_neg]
    simp [hm.1, hm.2]
  have ho : orderOf posix opts = if posix then .requireOrder else .permute := by
    unfold orderOf
    rw [if_neg hm.1]
    cases posix <;> simp [hm.2]
  have hbeg : begin posix opts (start (prog :: args)) =
      (⟨prog :: args, 1, 1, 1, [], if posix then .requireOrder else .permute, true⟩, opts) := by
    cases opts with
    | nil => rfl
    | cons c o =>
      have h1 : c ≠ dash := fun e => hm.1 (by rw [e]; rfl)
      have h2 : c ≠ plus := fun e => hm.2 (by rw [e]; rfl)
      simp [begin, setUp, start, h1, h2]
  have hA : At (⟨prog :: args, 1, 1, 1, [], if posix then .requireOrder else .permute, true⟩ : St) [prog] [] [] args :=
    ⟨rfl, by simp, rfl, rfl, rfl, rfl, rfl⟩
  obtain ⟨s', g1, g2, g3⟩ := parse_good (posix := posix) hF (args.length + 1) args (by omega) (fun _ _ _ _ _ _ => trivial) hF hA rfl (fun _ => rfl)
  unfold Reads reading
  rw [hb, ho]
  refine ⟨s', Step.drives ?_, by simpa using g2, by simpa [Nat.add_comm] using g3⟩
  unfold getopt
  rw [if_neg (by simp [start]), hbeg]
  exact g1

/-- `p x -ab y -bz -- -a`, for `ab:`: the operands are moved behind the options. -/
example : ∃ s', Drives false [97, 98, colon] (start [[112], [120], [dash, 97, 98], [121], [122], [dash, 98, 122], [dash, dash], [dash, 97]])
    [found 97 none, found 98 (some [121]), found 98 (some [122])] s' ∧
    s'.argv = [[112], [dash, 97, 98], [121], [dash, 98, 122], [dash, dash], [120], [122], [dash, 97]] ∧ s'.optind = 5 :=
  C71_reads_partial false [97, 98, colon] [112] [[120], [dash, 97, 98], [121], [122], [dash, 98, 122], [dash, dash], [dash, 97]] (by decide)
    (by decide) (by decide)

/-- The same with a mark: as far as no word of options has the mark among its letters, and the letters do not begin with a colon. -/
theorem C71_marked_partial (posix : Bool) (m : Nat) (opts prog : Str) (args : List Str) (hm : m = dash ∨ m = plus) (hc : opts.head? ≠ some colon)
    (hw : ¬ [capW, semi] <:+: opts) (hf : 255 ∉ opts) (ha : ∀ a ∈ args, isOption a = true → a ≠ [dash, dash] → m ∉ a.tail) :
    Reads posix (m :: opts) prog args := by
  have hF : Fits (fun c => c ≠ m) (kind opts) (missing opts) opts :=
    ⟨fun c _ hc => by rw [cls_index opts c hc]; unfold kind; rw [if_neg hc], rfl, hw, hf, rfl⟩
  have hm1 : m ≠ capW := by rintro rfl; revert hm; decide
  have hm2 : m ≠ 255 := by rintro rfl; revert hm; decide
  have hm3 : m ≠ colon := by rintro rfl; revert hm; decide
  have hF' : Fits (fun c => c ≠ m) (kind opts) (missing opts) (m :: opts) := by
    refine ⟨fun c hcm hc => ?_, rfl, ?_, ?_, ?_⟩
    · rw [show index (m :: opts) c = index opts c by simp [index, Ne.symm hcm]]
      exact hF.look c hcm hc
    · intro h
      obtain ⟨a, b, h⟩ := h
      cases a with
      | nil => exact hm1 (by simpa using (List.cons.inj h).1.symm)
      | cons x a => exact hw ⟨a, b, by simpa using (List.cons.inj h).2⟩
    · simp [hf, Ne.symm hm2]
    · unfold missing
      rw [if_neg hc, if_neg (by simpa using hm3)]
  have hb : body (m :: opts) = opts := by
    unfold body marked
    rw [if_pos]
    · rfl
    · simpa using hm
  have hbeg : begin posix (m :: opts) (start (prog :: args)) = (⟨prog :: args, 1, 1, 1, [], orderOf posix (m :: opts), true⟩, opts) := by
    obtain rfl | rfl := hm
    · rfl
    · rfl
  have hA : At (⟨prog :: args, 1, 1, 1, [], orderOf posix (m :: opts), true⟩ : St) [prog] [] [] args :=
    ⟨rfl, by simp, rfl, rfl, rfl, rfl, rfl⟩
  obtain ⟨s', g1, g2, g3⟩ := parse_good (posix := posix) hF' (args.length + 1) args (by omega)
    (fun a h1 h2 h3 c h4 h5 => ha a h1 h2 h3 (h5 ▸ h4)) hF hA rfl (fun _ => rfl)
  unfold Reads reading
  rw [hb]
  refine ⟨s', Step.drives ?_, by simpa using g2, by simpa [Nat.add_comm] using g3⟩
  unfold getopt
  rw [if_neg (by simp [start]), hbeg]
  exact g1

/-- `p -a x -a` for `+a` (the operand ends the options) and for `-a` (it is reported). -/
example : Reads false [plus, 97] [112] [[dash, 97], [120], [dash, 97]] ∧
    (reading false [plus, 97] [[dash, 97], [120], [dash, 97]]).told = [found 97 none] ∧
    Reads false [dash, 97] [112] [[dash, 97], [120], [dash, 97]] ∧
    (reading false [dash, 97] [[dash, 97], [120], [dash, 97]]).told = [found 97 none, ⟨1, some [120], none⟩, found 97 none] :=
  ⟨C71_marked_partial _ _ _ _ _ (.inr rfl) (by decide) (by decide) (by decide) (by decide), by decide,
    C71_marked_partial _ _ _ _ _ (.inl rfl) (by decide) (by decide) (by decide) (by decide), by decide⟩

/-- The reading leaves out no word and adds none, and keeps the order of the options and that of the operands; where operands are not passed by, it
changes the order of no words. -/
theorem C71_words (order : Order) (K : Nat → Option Kind) (miss : Int) (args : List Str) :
    ((parse order K miss args).opts ++ (parse order K miss args).operands).Perm args ∧ (parse order K miss args).opts.Sublist args ∧
      (parse order K miss args).operands.Sublist args ∧
      (order ≠ .permute → (parse order K miss args).opts ++ (parse order K miss args).operands = args) := by
  induction hn : args.length using Nat.strongRecOn generalizing args with
  | ind n ih =>
    subst hn
    match args with
    | [] => exact ⟨List.Perm.refl _, List.Sublist.refl _, List.Sublist.refl _, fun _ => rfl⟩
    | a :: r =>
      by_cases haa : a = [dash, dash]
      · subst haa
        rw [parse_dd]
        exact ⟨List.Perm.refl _, by simp, by simp, fun _ => rfl⟩
      · obtain ⟨p1, p2, p3, p4⟩ := ih r.length (by simp) r rfl
        cases ho : isOption a with
        | false =>
          rw [parse_operand _ _ _ ho]
          cases order with
          | requireOrder => exact ⟨by simp, by simp, by simp, fun _ => rfl⟩
          | permute => exact ⟨List.perm_middle.trans (p1.cons a), p2.cons a, p3.cons_cons a, fun h => absurd rfl h⟩
          | returnInOrder => exact ⟨p1.cons a, p2.cons_cons a, p3.cons a, fun h => by simp [p4 h]⟩
        | true =>
          rw [parse_option _ _ _ ho haa]
          cases (cluster K a.tail).2 with
          | none => exact ⟨p1.cons a, p2.cons_cons a, p3.cons a, fun h => by simp [p4 h]⟩
          | some c =>
            cases r with
            | nil => exact ⟨by simp, by simp, by simp, fun _ => rfl⟩
            | cons b r' =>
              obtain ⟨q1, q2, q3, q4⟩ := ih r'.length (by simp; omega) r' rfl
              exact ⟨(q1.cons b).cons a, (q2.cons_cons b).cons_cons a, (q3.cons b).cons a, fun h => by simp [q4 h]⟩

/-- Whatever calls are made, with whatever option strings, and whatever the program puts into `optind` between them: `argv` has the same words, and
the program's name stays where it is. -/
theorem C71_argv {argv : List Str} {s : St} (h : Came argv s) : s.argv.Perm argv ∧ s.argv.head? = argv.head? := by
  have : s.argv.Perm argv ∧ s.argv.head? = argv.head? ∧ (s.inited = true → 0 < s.first) := by
    induction h with
    | start => exact ⟨List.Perm.refl _, rfl, fun h => by cases h⟩
    | call posix opts _ hc ih =>
      obtain ⟨a, b, c⟩ := getopt_same hc ih.2.2
      exact ⟨a.trans ih.1, b.trans ih.2.1, c⟩
    | set n _ ih => exact ih
  exact ⟨this.1, this.2.1⟩

example : ∃ s, Came [[112], [120], [dash, 97], [121], [dash, 98]] s ∧ s.argv = [[112], [dash, 97], [120], [121], [dash, 98]] :=
  ⟨_, .call false [98] (.set 3 (.call false [97] (.call false [97, 98] .start rfl) rfl)) rfl, rfl⟩

/-- Setting `optind` to 0 begins anew: what follows is what follows a program's first call with the words as they are now. -/
theorem C71_restart (posix : Bool) (opts : Str) (s : St) (h : s.argv ≠ []) (l : List Out) (s' : St) :
    Drives posix opts { s with optind := 0 } l s' ↔ Drives posix opts (start s.argv) l s' := by
  have e : getopt posix opts { s with optind := 0 } = getopt posix opts (start s.argv) := by
    have hl : ¬ s.argv.length < 1 := by
      have := List.length_pos_iff.mpr h
      omega
    have : begin posix opts { s with optind := 0 } = begin posix opts ⟨s.argv, 1, 0, 0, [], .requireOrder, false⟩ := by
      unfold begin setUp
      cases opts with
      | nil => simp
      | cons c o =>
        by_cases h1 : c = dash
        · simp only [if_pos h1]; rfl
        · by_cases h2 : c = plus
          · simp only [if_neg h1, if_pos h2]; rfl
          · simp only [if_neg h1, if_neg h2]; rfl
    unfold getopt
    rw [if_neg hl, if_neg (show ¬ (start s.argv).argv.length < 1 from hl), this]
    rfl
  constructor
  · intro hd
    cases hd with
    | done a b => exact .done (e ▸ a) b
    | more a b c => exact .more (e ▸ a) b c
  · intro hd
    cases hd with
    | done a b => exact .done (e ▸ a) b
    | more a b c => exact .more (e ▸ a) b c

example : ∃ s', Drives false [97] { (⟨[[112], [dash, 97, 97]], 1, 2, 2, [97], .permute, true⟩ : St) with optind := 0 }
    [found 97 none, found 97 none] s' :=
  ⟨_, (C71_restart false [97] ⟨[[112], [dash, 97, 97]], 1, 2, 2, [97], .permute, true⟩ (by decide) [found 97 none, found 97 none] _).mpr (.more rfl (by decide) (.more rfl (by decide) (.done rfl rfl)))⟩

/-- An option letter is reported as a signed `char` of eight bits. -/
theorem C71_char (c : Nat) (h : c < 256) : ofChar c = (BitVec.ofNat 8 c).toInt := by
  have : ∀ c : Fin 256, ofChar c.1 = (BitVec.ofNat 8 c.1).toInt := by decide +kernel
  exact this ⟨c, h⟩

/-- Without any word, not even the program's name, there is nothing to report and nothing changes. -/
theorem C71_no_words (posix : Bool) (opts : Str) (s : St) (h : s.argv = []) : getopt posix opts s = some (⟨-1, none, none⟩, s) := by
  simp [getopt, h]

end Verif.Props
