import Verif.Proof.GetoptLong
/-!
# C88: what `_getopt_internal` makes of a command line with long options
-/
namespace Verif.Props
open Verif Verif.Go

/-- No long option returns -1, the sign for the end. -/
def SaneTable (T : List LOpt) : Prop := ∀ p ∈ T, p.flag = none → p.val ≠ -1

/-- C88, in full: for every option string (without `W;`), every table and every command line, whether or not one dash is enough for a long option, the
loop reports what the command line says and leaves `argv` and `optind` as documented; and for every option string whatever no call
reads outside `argv`. -/
def C88_Full : Prop :=
  (∀ (alone posix : Bool) (opts : Str) (T : List LOpt) (prog : Str) (args : List Str), (∀ c ∈ opts, 0 < c ∧ c < 128) → ¬ [capW, semi] <:+: opts →
    marked opts = false → SaneTable T → ReadsL alone posix opts T prog args) ∧
  ∀ (alone posix : Bool) (opts : Str) (T : List LOpt) (argv : List Str) (s : St), (∀ c ∈ opts, 0 < c ∧ c < 128) →
    CalledL alone posix opts T argv s → (getoptL alone posix opts T s).isSome

/-- The loop has only one outcome. -/
theorem C88_unique {alone posix : Bool} {opts : Str} {T : List LOpt} {s s1 s2 : St} {l1 l2 : List LOut} (h1 : DrivesL alone posix opts T s l1 s1)
    (h2 : DrivesL alone posix opts T s l2 s2) : l1 = l2 ∧ s1 = s2 := by
  induction h1 generalizing l2 s2 with
  | done a b =>
    cases h2 with
    | done c d => rw [a] at c; cases c; exact ⟨rfl, rfl⟩
    | more c d e => rw [a] at c; cases c; exact absurd b d
  | more a b _ ih =>
    cases h2 with
    | done c d => rw [a] at c; cases c; exact absurd d b
    | more c d e =>
      rw [a] at c; cases c
      obtain ⟨rfl, rfl⟩ := ih e
      exact ⟨rfl, rfl⟩

/-- `bar`, without argument, value 7. -/
def optBar : LOpt := ⟨[98, 97, 114], 0, none, 7⟩

/-- Letters `ab`, the long option `bar`, one dash enough, command line `p -ab`: reported are the letter `a` and then, in the middle of the word, the long
option `bar`, where the command line says `-a -b`. -/
theorem C88_middle_of_word :
    (∃ s', DrivesL true false [97, 98] [optBar] (start [[112], [dash, 97, 98]]) [(found 97 none).lift, given 0 optBar none] s') ∧
      (readingL true false [97, 98] [optBar] [[dash, 97, 98]]).told = [(found 97 none).lift, (found 98 none).lift] :=
  ⟨⟨_, .more rfl (by decide) (.more rfl (by decide) (.done rfl rfl))⟩, by decide⟩

/-- `foo` and `fob`, with values 1 and 2. -/
def optsFo : List LOpt := [⟨[102, 111, 111], 0, none, 1⟩, ⟨[102, 111, 98], 0, none, 2⟩]

/-- Letters `W;`, command line `p -W fo`, where `fo` could be `foo` or `fob`: after the report of this, the next call reads behind the end of `argv`. -/
theorem C88_W_overruns : ∃ s, CalledL false false [capW, semi] optsFo [[112], [dash, capW], [102, 111]] s ∧ s.optind = 4 ∧
    getoptL false false [capW, semi] optsFo s = none :=
  ⟨_, .call .start rfl, rfl, rfl⟩

/-- With letters `W;a` and `p -W fo -a`: the word after is swallowed, `-a` is never reported. -/
theorem C88_W_swallows : ∃ s', DrivesL false false [capW, semi, 97] optsFo (start [[112], [dash, capW], [102, 111], [dash, 97]])
    [⟨quest, some [102, 111], none, none, none⟩] s' ∧ s'.optind = 4 :=
  ⟨_, .more rfl (by decide) (.done rfl rfl), rfl⟩

theorem C88_full_false : ¬ C88_Full := by
  intro h
  obtain ⟨s, h1, _, h2⟩ := C88_W_overruns
  have := h.2 _ _ _ _ _ _ (by decide) h1
  rw [h2] at this
  cases this

/-- Nor is the first half true. -/
theorem C88_first_half_false : ¬ ∀ (posix : Bool) (opts : Str) (T : List LOpt) (prog : Str) (args : List Str), (∀ c ∈ opts, 0 < c ∧ c < 128) →
    ¬ [capW, semi] <:+: opts → marked opts = false → SaneTable T → ReadsL true posix opts T prog args := by
  intro h
  obtain ⟨s1, h1, _⟩ := h false [97, 98] [optBar] [112] [[dash, 97, 98]] (by decide) (by decide) (by decide) (by unfold SaneTable; decide)
  obtain ⟨⟨s2, h2⟩, h3⟩ := C88_middle_of_word
  rw [h3] at h1
  exact absurd (C88_unique h1 h2).1 (by decide)

theorem index_isNone (opts : Str) (c : Nat) : (index opts c).isNone = !decide (c ∈ opts) := by
  induction opts with
  | nil => rfl
  | cons a r ih =>
    unfold index
    by_cases h : a = c
    · subst h; simp
    · rw [if_neg h, ih]
      simp [Ne.symm h]

/-- **C88**: for every option string without a mark, `W;` and the letter 255, every table and every command line: the loop ends and has reported exactly
what the command line says -- if one dash is enough for long options, then as far as no word has to be split into several letters. -/
theorem C88_reads_partial (alone posix : Bool) (opts : Str) (T : List LOpt) (prog : Str) (args : List Str) (hm : marked opts = false)
    (hw : ¬ [capW, semi] <:+: opts) (hf : 255 ∉ opts) (hT : SaneTable T)
    (hs : alone = true → ∀ a ∈ args, splits (kind opts) (fun c => decide (c ∈ opts)) T a = false) : ReadsL alone posix opts T prog args := by
  have hF : Fits (fun _ => True) (kind opts) (missing opts) opts :=
    ⟨fun c _ hc => by rw [cls_index opts c hc]; unfold kind; rw [if_neg hc], rfl, hw, hf, rfl⟩
  have hL : Lists (fun _ => True) (fun c => decide (c ∈ opts)) opts := fun c _ => index_isNone opts c
  simp only [marked, decide_eq_false_iff_not, not_or] at hm
  have hb : body opts = opts := by
    unfold body marked
    rw [if_neg]
    simp [hm.1, hm.2]
  have ho : orderOf posix opts = if posix then .requireOrder else .permute := by
    unfold orderOf
    rw [if_neg hm.1]
    cases posix <;> simp [hm.2]
  have hbeg : begin posix opts (start (prog :: args)) =
      (⟨prog :: args, 1, 1, 1, [], if posix then .requireOrder else .permute, true⟩, opts) := by
    cases opts with
    | nil => rfl
    | cons c o =>
      have h1 : c ≠ dash := fun e => hm.1 (by rw [e]; rfl)
      have h2 : c ≠ plus := fun e => hm.2 (by rw [e]; rfl)
      simp [begin, setUp, start, h1, h2]
  have hA : At (⟨prog :: args, 1, 1, 1, [], if posix then .requireOrder else .permute, true⟩ : St) [prog] [] [] args :=
    ⟨rfl, by simp, rfl, rfl, rfl, rfl, rfl⟩
  have hW : WordsL alone posix opts opts T (wordL alone (kind opts) (fun c => decide (c ∈ opts)) (missing opts) T)
      (fun a => alone = true → splits (kind opts) (fun c => decide (c ∈ opts)) T a = false) :=
    fun {_} h1 h2 h3 {_ _ _ _ _} h4 h5 h6 h7 h8 => word_step hF hF hL hT h1 h2 (fun _ _ _ => trivial) h3 h4 h5 h6 h7 h8
  obtain ⟨s', g1, g2, g3⟩ := parse_goodL hW (args.length + 1) args (by omega) (fun a ha h => hs h a ha) hW hA rfl (fun _ => rfl)
  unfold ReadsL readingL
  rw [hb, ho]
  refine ⟨s', StepL.drives ?_, by simpa using g2, by simpa [Nat.add_comm] using g3⟩
  unfold getoptL
  rw [if_neg (by simp [start]), hbeg]
  exact g1

/-- A table: `file` with an argument, `fast` setting variable 5 to 9, `slow` with an optional argument. -/
def tableEx : List LOpt := [⟨[102, 105, 108, 101], 1, none, 102⟩, ⟨[102, 97, 115, 116], 0, some 5, 9⟩, ⟨[115, 108, 111, 119], 2, none, 115⟩]

/-- `p x --fi y --fa -v --slow=3 --f --zap --file` for the letters `v`. -/
example : ∃ s', DrivesL false false [118] tableEx
      (start [[112], [120], [dash, dash, 102, 105], [121], [dash, dash, 102, 97], [dash, 118], [dash, dash, 115, 108, 111, 119, equals, 51],
        [dash, dash, 102], [dash, dash, 122, 97, 112], [dash, dash, 102, 105, 108, 101]])
      [⟨102, some [121], none, some 0, none⟩, ⟨0, none, none, some 1, some (5, 9)⟩, ⟨118, none, none, none, none⟩, ⟨115, some [51], none, some 2, none⟩,
        ⟨quest, none, some 0, none, none⟩, ⟨quest, none, some 0, none, none⟩, ⟨quest, none, some 102, none, none⟩] s' ∧
      s'.optind = 9 := by
  obtain ⟨s', h1, _, h3⟩ := C88_reads_partial false false [118] tableEx [112]
    [[120], [dash, dash, 102, 105], [121], [dash, dash, 102, 97], [dash, 118], [dash, dash, 115, 108, 111, 119, equals, 51],
      [dash, dash, 102], [dash, dash, 122, 97, 112], [dash, dash, 102, 105, 108, 101]] (by decide) (by decide) (by decide) (by unfold SaneTable; decide) (by decide)
  exact ⟨s', h1, h3⟩

/-- One dash: `p -fast -v -slow -fi`, with the letter `v`. -/
example : ∃ s', DrivesL true false [118] tableEx
      (start [[112], [dash, 102, 97, 115, 116], [dash, 118], [dash, 115, 108, 111, 119], [dash, 120], [dash, 102, 105, equals]])
      [⟨0, none, none, some 1, some (5, 9)⟩, ⟨118, none, none, none, none⟩, ⟨115, none, none, some 2, none⟩, ⟨quest, none, some 0, none, none⟩,
        ⟨102, some [], none, some 0, none⟩] s' := by
  obtain ⟨s', h1, _, h3⟩ := C88_reads_partial true false [118] tableEx [112]
    [[dash, 102, 97, 115, 116], [dash, 118], [dash, 115, 108, 111, 119], [dash, 120], [dash, 102, 105, equals]] (by decide) (by decide) (by decide)
    (by unfold SaneTable; decide) (by decide)
  exact ⟨s', h1⟩

/-- The same with a mark in front: as far as no word of letters has the mark in it, and the letters do not begin with a colon. -/
theorem C88_marked_partial (alone posix : Bool) (m : Nat) (opts : Str) (T : List LOpt) (prog : Str) (args : List Str) (hm : m = dash ∨ m = plus)
    (hc : opts.head? ≠ some colon) (hw : ¬ [capW, semi] <:+: opts) (hf : 255 ∉ opts) (hT : SaneTable T)
    (hs : alone = true → ∀ a ∈ args, splits (kind opts) (fun c => decide (c ∈ opts)) T a = false)
    (ha : ∀ a ∈ args, a[1]? ≠ some dash → m ∉ a.tail) : ReadsL alone posix (m :: opts) T prog args := by
  have hF : Fits (fun c => c ≠ m) (kind opts) (missing opts) opts :=
    ⟨fun c _ hc => by rw [cls_index opts c hc]; unfold kind; rw [if_neg hc], rfl, hw, hf, rfl⟩
  have hL : Lists (fun c => c ≠ m) (fun c => decide (c ∈ opts)) opts := fun c _ => index_isNone opts c
  have hL' : Lists (fun c => c ≠ m) (fun c => decide (c ∈ opts)) (m :: opts) := fun c h => by
    rw [index_isNone]; simp [h]
  have hm1 : m ≠ capW := by rintro rfl; revert hm; decide
  have hm2 : m ≠ 255 := by rintro rfl; revert hm; decide
  have hm3 : m ≠ colon := by rintro rfl; revert hm; decide
  have hF' : Fits (fun c => c ≠ m) (kind opts) (missing opts) (m :: opts) := by
    refine ⟨fun c hcm hc => ?_, rfl, ?_, ?_, ?_⟩
    · rw [show index (m :: opts) c = index opts c by simp [index, Ne.symm hcm]]
      exact hF.look c hcm hc
    · intro h
      obtain ⟨a, b, h⟩ := h
      cases a with
      | nil => exact hm1 (by simpa using (List.cons.inj h).1.symm)
      | cons x a => exact hw ⟨a, b, by simpa using (List.cons.inj h).2⟩
    · simp [hf, Ne.symm hm2]
    · unfold missing
      rw [if_neg hc, if_neg (by simpa using hm3)]
  have hb : body (m :: opts) = opts := by
    unfold body marked
    rw [if_pos]
    · rfl
    · simpa using hm
  have hbeg : begin posix (m :: opts) (start (prog :: args)) = (⟨prog :: args, 1, 1, 1, [], orderOf posix (m :: opts), true⟩, opts) := by
    obtain rfl | rfl := hm
    · rfl
    · rfl
  have hA : At (⟨prog :: args, 1, 1, 1, [], orderOf posix (m :: opts), true⟩ : St) [prog] [] [] args :=
    ⟨rfl, by simp, rfl, rfl, rfl, rfl, rfl⟩
  have hW : ∀ {o1 : Str}, Fits (fun c => c ≠ m) (kind opts) (missing opts) o1 → Lists (fun c => c ≠ m) (fun c => decide (c ∈ opts)) o1 →
      WordsL alone posix (m :: opts) o1 T (wordL alone (kind opts) (fun c => decide (c ∈ opts)) (missing opts) T)
      (fun a => (alone = true → splits (kind opts) (fun c => decide (c ∈ opts)) T a = false) ∧ (a[1]? ≠ some dash → m ∉ a.tail)) :=
    fun {_} k1 k2 {_} h1 h2 h3 {_ _ _ _ _} h4 h5 h6 h7 h8 =>
      word_step hF' k1 k2 hT h1 h2 (fun q c hc e => h3.2 q (e ▸ hc)) h3.1 h4 h5 h6 h7 h8
  obtain ⟨s', g1, g2, g3⟩ := parse_goodL (hW hF' hL') (args.length + 1) args (by omega) (fun a h => ⟨fun h' => hs h' a h, ha a h⟩) (hW hF hL) hA rfl
    (fun _ => rfl)
  unfold ReadsL readingL
  rw [hb]
  refine ⟨s', StepL.drives ?_, by simpa using g2, by simpa [Nat.add_comm] using g3⟩
  unfold getoptL
  rw [if_neg (by simp [start]), hbeg]
  exact g1

/-- `p --fast x -v` for `+v` and for `-v`. -/
example : ReadsL false false [plus, 118] tableEx [112] [[dash, dash, 102, 97, 115, 116], [120], [dash, 118]] ∧
    (readingL false false [plus, 118] tableEx [[dash, dash, 102, 97, 115, 116], [120], [dash, 118]]).told = [⟨0, none, none, some 1, some (5, 9)⟩] ∧
    ReadsL false false [dash, 118] tableEx [112] [[dash, dash, 102, 97, 115, 116], [120], [dash, 118]] ∧
    (readingL false false [dash, 118] tableEx [[dash, dash, 102, 97, 115, 116], [120], [dash, 118]]).told =
      [⟨0, none, none, some 1, some (5, 9)⟩, ⟨1, some [120], none, none, none⟩, ⟨118, none, none, none, none⟩] :=
  ⟨C88_marked_partial _ _ _ _ _ _ _ (.inr rfl) (by decide) (by decide) (by decide) (by unfold SaneTable; decide) (by decide) (by decide), by decide,
    C88_marked_partial _ _ _ _ _ _ _ (.inl rfl) (by decide) (by decide) (by decide) (by unfold SaneTable; decide) (by decide) (by decide), by decide⟩

/-- The characters that have a meaning. -/
theorem C88_characters : dash = '-'.toNat ∧ plus = '+'.toNat ∧ colon = ':'.toNat ∧ semi = ';'.toNat ∧ quest = '?'.toNat ∧ capW = 'W'.toNat ∧
    equals = '='.toNat := by decide

/-- `name=value` is read as the name and the value, the first `=` being what separates them, and a word without `=` is all name. -/
theorem C88_value (n v : Str) (h : '='.toNat ∉ n) :
    nameOf (n ++ '='.toNat :: v) = n ∧ valueOf (n ++ '='.toNat :: v) = some v ∧ nameOf n = n ∧ valueOf n = none := by
  have e : '='.toNat = equals := rfl
  rw [e] at h ⊢
  have ht : n.takeWhile (· ≠ equals) = n := by
    clear e
    induction n with
    | nil => rfl
    | cons c n ih =>
      have hc : c ≠ equals := fun hc => h (by simp [hc])
      rw [List.takeWhile_cons_of_pos (by simpa using hc), ih (fun hn => h (List.mem_cons_of_mem _ hn))]
  have hn : nameOf (n ++ equals :: v) = n := by
    unfold nameOf
    rw [List.takeWhile_append, ht]
    simp
  refine ⟨hn, ?_, ht, by simp [valueOf, h]⟩
  unfold valueOf
  rw [hn, if_pos (by simp)]
  simp [List.drop_append]

/-- `of=a=b`. -/
example : nameOf [111, 102, 61, 97, 61, 98] = [111, 102] ∧ valueOf [111, 102, 61, 97, 61, 98] = some [97, 61, 98] := by
  have := C88_value [111, 102] [97, 61, 98] (by decide)
  exact ⟨this.1, this.2.1⟩

/-- What a name stands for: an entry of the table that begins with it, and if there is one of just that name, one of just that name and none before it;
it is unknown just if no entry begins with it; and it is ambiguous only if two entries begin with it and none is it. -/
theorem C88_pick (alone : Bool) (T : List LOpt) (n : Str) :
    (∀ i p, pick alone T n = .is i p → T[i]? = some p ∧ n <+: p.name ∧
      ((∃ q ∈ T, q.name = n) → p.name = n ∧ ∀ j < i, ∀ q, T[j]? = some q → q.name ≠ n)) ∧
    (pick alone T n = .unknown ↔ ∀ q ∈ T, ¬ n <+: q.name) ∧
    (pick alone T n = .ambiguous → (∀ q ∈ T, q.name ≠ n) ∧
      ∃ (i j : Nat) (p q : LOpt), i < j ∧ T[i]? = some p ∧ T[j]? = some q ∧ n <+: p.name ∧ n <+: q.name ∧
        (alone = false → p.hasArg ≠ q.hasArg ∨ p.flag ≠ q.flag ∨ p.val ≠ q.val)) := by
  have hidx : ∀ {p : LOpt} {i : Nat}, (p, i) ∈ T.zipIdx → T[i]? = some p := fun h => by
    rw [List.mem_zipIdx_iff_getElem?] at h
    exact h
  unfold pick
  cases hf : T.zipIdx.find? (fun x => x.1.name = n) with
  | some x =>
    obtain ⟨p, i⟩ := x
    have h1 := hidx (List.mem_of_find?_eq_some hf)
    have h2 : p.name = n := by simpa using List.find?_some hf
    have hpT : p ∈ T := List.mem_of_getElem? h1
    dsimp only
    refine ⟨?_, ?_, by rintro ⟨⟩⟩
    · rintro _ _ ⟨⟩
      refine ⟨h1, by rw [h2]; exact List.prefix_refl _, fun _ => ⟨h2, fun j hj q hq e => ?_⟩⟩
      rw [List.find?_eq_some_iff_getElem] at hf
      obtain ⟨_, k, hk, hk2, hk3⟩ := hf
      rw [List.getElem_zipIdx] at hk2
      simp only [Nat.zero_add, Prod.mk.injEq] at hk2
      have := hk3 j (by omega)
      rw [List.getElem_zipIdx] at this
      rw [List.length_zipIdx] at hk
      rw [List.getElem?_eq_getElem (by omega)] at hq
      simp only [Option.some.injEq] at hq
      rw [hq] at this
      simp [e] at this
    · constructor
      · rintro ⟨⟩
      · intro h
        exact absurd (by rw [h2]; exact List.prefix_refl _) (h p hpT)
  | none =>
    have hno : ∀ q ∈ T, q.name ≠ n := by
      intro q hq e
      obtain ⟨i, hi⟩ := List.getElem?_of_mem hq
      have hmem : (q, i) ∈ T.zipIdx := by rw [List.mem_zipIdx_iff_getElem?]; exact hi
      have := List.find?_eq_none.mp hf _ hmem
      simp [e] at this
    dsimp only
    cases hfi : T.zipIdx.filter fun x => n.isPrefixOf x.1.name with
    | nil =>
      refine ⟨by rintro _ _ ⟨⟩, ⟨fun _ q hq hp => ?_, fun _ => rfl⟩, by rintro ⟨⟩⟩
      obtain ⟨i, hi⟩ := List.getElem?_of_mem hq
      have hmem : (q, i) ∈ T.zipIdx := by rw [List.mem_zipIdx_iff_getElem?]; exact hi
      have := List.filter_eq_nil_iff.mp hfi _ hmem
      rw [List.isPrefixOf_iff_prefix] at this
      exact this hp
    | cons x r =>
      obtain ⟨p, i⟩ := x
      have hm : ∀ y ∈ (p, i) :: r, y ∈ T.zipIdx ∧ n <+: y.1.name := by
        intro y hy
        rw [← hfi, List.mem_filter, List.isPrefixOf_iff_prefix] at hy
        exact hy
      have hp := hm _ (List.mem_cons_self ..)
      have hpT : p ∈ T := List.mem_of_getElem? (hidx hp.1)
      dsimp only
      have hunk : ¬ ∀ q ∈ T, ¬ n <+: q.name := fun h => h p hpT hp.2
      split
      · refine ⟨?_, ⟨by rintro ⟨⟩, fun h => absurd h hunk⟩, by rintro ⟨⟩⟩
        rintro _ _ ⟨⟩
        exact ⟨hidx hp.1, hp.2, fun ⟨q, hq, e⟩ => absurd e (hno q hq)⟩
      · rename_i hall
        refine ⟨by rintro _ _ ⟨⟩, ⟨by rintro ⟨⟩, fun h => absurd h hunk⟩, fun _ => ⟨hno, ?_⟩⟩
        rw [Bool.not_eq_true, List.all_eq_false] at hall
        obtain ⟨⟨q, j⟩, hq, hne⟩ := hall
        have hqm := hm _ (List.mem_cons_of_mem _ hq)
        have hlt : i < j := by
          have hs : ((p, i) :: r).Sublist T.zipIdx := by rw [← hfi]; exact List.filter_sublist
          have hpw : T.zipIdx.Pairwise fun a b => a.2 < b.2 := by
            rw [List.pairwise_iff_getElem]
            intro a b ha hb hab
            rw [List.getElem_zipIdx, List.getElem_zipIdx]
            simpa using hab
          have := (hpw.sublist hs)
          rw [List.pairwise_cons] at this
          exact this.1 _ hq
        refine ⟨i, j, p, q, hlt, hidx hp.1, hidx hqm.1, hp.2, hqm.2, fun h => ?_⟩
        subst h
        simp only [Bool.not_false, Bool.true_and, LOpt.same, decide_eq_true_eq] at hne
        by_cases h1 : p.hasArg = q.hasArg
        · by_cases h2 : p.flag = q.flag
          · exact .inr (.inr fun h3 => hne ⟨h1, h2, h3⟩)
          · exact .inr (.inl h2)
        · exact .inl h1

/-- `fa` is `fast`, `f` is ambiguous, `x` unknown; with `f` itself in the table, `f` is that. -/
example : pick false tableEx [102, 97] = .is 1 ⟨[102, 97, 115, 116], 0, some 5, 9⟩ ∧ pick false tableEx [102] = .ambiguous ∧
    pick false tableEx [120] = .unknown ∧ pick true (tableEx ++ [⟨[102], 0, none, 3⟩]) [102] = .is 3 ⟨[102], 0, none, 3⟩ := by decide

/-- Where two dashes are needed, an abbreviation of several names that all mean the same option is that option; where one is enough it is not. -/
theorem C88_synonyms (T : List LOpt) (n : Str) (p : LOpt) (h : ∃ q ∈ T, n <+: q.name)
    (hs : ∀ q ∈ T, n <+: q.name → q.hasArg = p.hasArg ∧ q.flag = p.flag ∧ q.val = p.val) :
    ∃ i q, pick false T n = .is i q ∧ q.hasArg = p.hasArg ∧ q.flag = p.flag ∧ q.val = p.val := by
  obtain ⟨h1, h2, h3⟩ := C88_pick false T n
  cases hp : pick false T n with
  | is i q =>
    obtain ⟨a, b, _⟩ := h1 i q hp
    exact ⟨i, q, rfl, hs q (List.mem_of_getElem? a) b⟩
  | unknown =>
    obtain ⟨q, hq, hn⟩ := h
    exact absurd hn (h2.mp hp q hq)
  | ambiguous =>
    obtain ⟨_, i, j, a, b, _, ha, hb, na, nb, hd⟩ := h3 hp
    obtain ⟨a1, a2, a3⟩ := hs a (List.mem_of_getElem? ha) na
    obtain ⟨b1, b2, b3⟩ := hs b (List.mem_of_getElem? hb) nb
    rcases hd rfl with h | h | h
    · exact absurd (a1.trans b1.symm) h
    · exact absurd (a2.trans b2.symm) h
    · exact absurd (a3.trans b3.symm) h

/-- `colour` and `color`, abbreviated `col`. -/
example : pick false [⟨[99, 111, 108, 111, 117, 114], 0, none, 4⟩, ⟨[99, 111, 108, 111, 114], 0, none, 4⟩] [99, 111, 108] =
      .is 0 ⟨[99, 111, 108, 111, 117, 114], 0, none, 4⟩ ∧
    pick true [⟨[99, 111, 108, 111, 117, 114], 0, none, 4⟩, ⟨[99, 111, 108, 111, 114], 0, none, 4⟩] [99, 111, 108] = .ambiguous := by decide

/-- `-W name` where the name stands for an option: the value returned, the number, the variable assigned and the words used up are those of
`--name`; but `optarg` is the name itself where there should be none. -/
theorem C88_W_like_long (opts : Str) (T : List LOpt) (w : Str) (s : St) (i : Nat) (p : LOpt) (h : pick true T (nameOf w) = .is i p) :
    ∃ f : LOut → LOut, (∀ o, (f o).code = o.code ∧ (f o).longind = o.longind ∧ (f o).assigned = o.assigned) ∧
      dashW opts T w { s with optind := s.optind + 1 } = (longFound opts i p (atEnd w) s).map (fun r => (f r.1, r.2)) ∧
      (p.hasArg = 0 → equals ∉ w → dashW opts T w { s with optind := s.optind + 1 } =
        some (given i p (some w), { s with optind := s.optind + 1, next := [] })) := by
  have hs := searchW_pick T (nameOf w)
  rw [h] at hs
  unfold Hit.pick at hs
  have ham : ((searchW T (nameOf w)).ambig && !(searchW T (nameOf w)).exact) = false := by
    cases ha : ((searchW T (nameOf w)).ambig && !(searchW T (nameOf w)).exact) with
    | false => rfl
    | true => rw [ha] at hs; simp at hs
  rw [ham] at hs
  have hfo : (searchW T (nameOf w)).found = some (i, p) := by
    cases hfo : (searchW T (nameOf w)).found with
    | none => rw [hfo] at hs; simp at hs
    | some x => rw [hfo] at hs; simp only [Bool.false_eq_true, ↓reduceIte, Pick.is.injEq] at hs; rw [← hs.1, ← hs.2]
  have hv := atEnd_value w
  have e : dashW opts T w { s with optind := s.optind + 1 } =
      match atEnd w with
      | _ :: v => if p.hasArg ≠ 0 then some (taken i p (some v), { s with optind := s.optind + 1, next := [] })
        else some (⟨quest, some w, none, none, none⟩, { s with optind := s.optind + 1, next := [] })
      | [] => if p.hasArg = 1 then
          if s.optind + 1 < s.argv.length then
            match s.argv[s.optind + 1]? with
            | none => none
            | some a => some (taken i p (some a), { s with optind := s.optind + 2, next := [] })
          else some (⟨if opts.head? = some colon then colon else quest, some w, none, none, none⟩, { s with optind := s.optind + 1, next := [] })
        else some (taken i p (some w), { s with optind := s.optind + 1, next := [] }) := by
    unfold dashW
    dsimp only
    rw [ham, hfo]
    rfl
  rw [e]
  unfold longFound
  dsimp only
  cases hae : atEnd w with
  | cons x v =>
    rw [hae] at hv
    dsimp only
    by_cases h0 : p.hasArg = 0
    · refine ⟨fun o => ⟨o.code, some w, none, o.longind, o.assigned⟩, fun o => ⟨rfl, rfl, rfl⟩, by simp [h0], fun _ hq => ?_⟩
      unfold valueOf at hv
      rw [if_neg hq] at hv
      cases hv
    · exact ⟨id, fun o => ⟨rfl, rfl, rfl⟩, by simp [h0], fun hq => absurd hq h0⟩
  | nil =>
    dsimp only
    by_cases h1 : p.hasArg = 1
    · by_cases h2 : s.optind + 1 < s.argv.length
      · refine ⟨id, fun o => ⟨rfl, rfl, rfl⟩, ?_, fun hq => by omega⟩
        simp only [h1, ↓reduceIte, h2]
        cases s.argv[s.optind + 1]? <;> rfl
      · refine ⟨fun o => ⟨o.code, some w, none, o.longind, o.assigned⟩, fun o => ⟨rfl, rfl, rfl⟩, ?_, fun hq => by omega⟩
        simp [h1, h2]
    · refine ⟨fun o => { o with optarg := some w }, fun o => ⟨rfl, rfl, rfl⟩, ?_, fun _ _ => ?_⟩
      · simp only [h1, ↓reduceIte, Option.map_some, Option.some.injEq, Prod.mk.injEq, and_true]
        unfold taken
        cases p.flag <;> rfl
      · simp only [h1, ↓reduceIte]
        rw [taken_eq]

/-- `-W name` where the name stands for none: `W` is returned with the name in `optarg`, and the next word is next; but where it could stand for several,
the next word is passed by, whatever it is (`--name` does not do so, `C88_reads_partial`). -/
theorem C88_W_otherwise (opts : Str) (T : List LOpt) (w : Str) (s : St) :
    (pick true T (nameOf w) = .unknown → dashW opts T w s = some (⟨capW, some w, none, none, none⟩, { s with next := [] })) ∧
    (pick true T (nameOf w) = .ambiguous →
      dashW opts T w s = some (⟨quest, some w, none, none, none⟩, { s with optind := s.optind + 1, next := [] })) := by
  have hs := searchW_pick T (nameOf w)
  refine ⟨fun h => ?_, fun h => ?_⟩ <;> rw [h] at hs <;> unfold Hit.pick at hs <;> unfold dashW <;> dsimp only
  · split at hs
    · cases hs
    · rename_i ha
      rw [if_neg ha]
      split at hs
      · cases hs
      · rename_i hn
        rw [hn]
  · split at hs
    · rename_i ha
      rw [if_pos ha]
    · split at hs <;> cases hs

example : pick true tableEx [122] = .unknown ∧ pick true tableEx [102] = .ambiguous := by decide

/-- `-W fast`: `optarg` is `fast`, after `--fast` it is NULL. -/
example : ∃ s' s'', DrivesL false false [capW, semi] tableEx (start [[112], [dash, capW], [102, 97, 115, 116]])
      [⟨0, some [102, 97, 115, 116], none, some 1, some (5, 9)⟩] s' ∧
    DrivesL false false [capW, semi] tableEx (start [[112], [dash, dash, 102, 97, 115, 116]]) [⟨0, none, none, some 1, some (5, 9)⟩] s'' :=
  ⟨_, _, .more rfl (by decide) (.done rfl rfl), .more rfl (by decide) (.done rfl rfl)⟩

/-- The reading leaves out no word and adds none, and keeps the order of the options and that of the operands. -/
theorem C88_words (order : Order) (R : Str → List LOut × Option Wants) (args : List Str) :
    ((parseL order R args).opts ++ (parseL order R args).operands).Perm args ∧ (parseL order R args).opts.Sublist args ∧
      (parseL order R args).operands.Sublist args ∧
      (order ≠ .permute → (parseL order R args).opts ++ (parseL order R args).operands = args) := by
  induction hn : args.length using Nat.strongRecOn generalizing args with
  | ind n ih =>
    subst hn
    match args with
    | [] => exact ⟨List.Perm.refl _, List.Sublist.refl _, List.Sublist.refl _, fun _ => rfl⟩
    | a :: r =>
      by_cases haa : a = [dash, dash]
      · subst haa
        rw [parseL_dd]
        exact ⟨List.Perm.refl _, by simp, by simp, fun _ => rfl⟩
      · obtain ⟨p1, p2, p3, p4⟩ := ih r.length (by simp) r rfl
        cases ho : isOption a with
        | false =>
          rw [parseL_operand _ _ _ ho]
          cases order with
          | requireOrder => exact ⟨by simp, by simp, by simp, fun _ => rfl⟩
          | permute => exact ⟨List.perm_middle.trans (p1.cons a), p2.cons a, p3.cons_cons a, fun h => absurd rfl h⟩
          | returnInOrder => exact ⟨p1.cons a, p2.cons_cons a, p3.cons a, fun h => by simp [p4 h]⟩
        | true =>
          rw [parseL_option _ _ _ ho haa]
          cases (R a).2 with
          | none => exact ⟨p1.cons a, p2.cons_cons a, p3.cons a, fun h => by simp [p4 h]⟩
          | some c =>
            cases r with
            | nil => exact ⟨by simp, by simp, by simp, fun _ => rfl⟩
            | cons b r' =>
              obtain ⟨q1, q2, q3, q4⟩ := ih r'.length (by simp; omega) r' rfl
              exact ⟨(q1.cons b).cons a, (q2.cons_cons b).cons_cons a, (q3.cons b).cons a, fun h => by simp [q4 h]⟩

/-- `x --file y`: the operand is moved behind. -/
example : (readingL false false [118] tableEx [[120], [dash, dash, 102, 105, 108, 101], [121]]).opts = [[dash, dash, 102, 105, 108, 101], [121]] ∧
    (readingL false false [118] tableEx [[120], [dash, dash, 102, 105, 108, 101], [121]]).operands = [[120]] := by decide

/-- Whatever calls are made, with whatever letters (`W;` among them) and tables, and whatever the program puts into `optind`: `argv` has the same
words, and the program's name stays where it is. -/
theorem C88_argv {argv : List Str} {s : St} (h : CameL argv s) : s.argv.Perm argv ∧ s.argv.head? = argv.head? := by
  have : s.argv.Perm argv ∧ s.argv.head? = argv.head? ∧ (s.inited = true → 0 < s.first) := by
    induction h with
    | start => exact ⟨List.Perm.refl _, rfl, fun h => by cases h⟩
    | call alone posix opts T _ hc ih =>
      obtain ⟨a, b, c⟩ := getoptL_same hc ih.2.2
      exact ⟨a.trans ih.1, b.trans ih.2.1, c⟩
    | set n _ ih => exact ih
  exact ⟨this.1, this.2.1⟩

example : ∃ s, CameL [[112], [120], [dash, dash, 102, 97], [121]] s ∧ s.argv = [[112], [dash, dash, 102, 97], [120], [121]] :=
  ⟨_, .call false false [118] tableEx (.call false false [118] tableEx .start rfl) rfl, rfl⟩

/-- Without any word, not even the program's name, there is nothing to report and nothing changes. -/
theorem C88_no_words (alone posix : Bool) (opts : Str) (T : List LOpt) (s : St) (h : s.argv = []) : getoptL alone posix opts T s = some (⟨-1, none, none, none, none⟩, s) := by
  simp [getoptL, h]

/-- `-W` as the last word, with `W;` in the option string: the argument is missing, which is reported as for any letter, and the word is done with. -/
theorem C88_W_missing (opts : Str) (T : List LOpt) (t : Str) (s : St) (h : index opts capW = some t) (ht : t[1]? = some semi) (hs : s.optind + 1 = s.argv.length) :
    shortL opts T capW [] s = some (⟨if opts.head? = some colon then colon else quest, none, some capW, none, none⟩, { s with next := [], optind := s.argv.length }) := by
  have h1 : capW ≠ colon := by decide
  have h2 : ofChar capW = capW := by decide
  simp [shortL, h, h1, ht, hs, h2]

example : ∃ s', DrivesL false false [capW, semi] optsFo (start [[112], [dash, capW]]) [⟨quest, none, some capW, none, none⟩] s' :=
  ⟨_, .more rfl (by decide) (.done rfl rfl)⟩

end Verif.Props
