import Verif.Spec.GetoptLong
import Verif.Proof.GetoptRun
namespace Verif.Go

/-! ## Looking a name up -/

theorem exact_iff (n m : Str) : (n.isPrefixOf m = true ∧ n.length = m.length) ↔ m = n := by
  constructor
  · rintro ⟨h1, h2⟩
    rw [List.isPrefixOf_iff_prefix] at h1
    exact (h1.eq_of_length h2).symm
  · rintro rfl
    exact ⟨by simp, rfl⟩

theorem searchFrom_exact (clash : LOpt → LOpt → Bool) (n : Str) (T : List LOpt) : ∀ (i : Nat) (h : Hit) {p : LOpt} {k : Nat},
    (T.zipIdx i).find? (fun x => x.1.name = n) = some (p, k) → (searchFrom clash n T i h).found = some (k, p) ∧ (searchFrom clash n T i h).exact = true := by
  induction T with
  | nil => intro i h p k hf; cases hf
  | cons q T ih =>
    intro i h p k hf
    rw [List.zipIdx_cons, List.find?_cons] at hf
    unfold searchFrom
    by_cases hq : q.name = n
    · have := (exact_iff n q.name).mpr hq
      rw [if_pos this.1, if_pos this.2]
      simp only [hq, decide_true, Option.some.injEq, Prod.mk.injEq] at hf
      obtain ⟨rfl, rfl⟩ := hf
      exact ⟨rfl, rfl⟩
    · simp only [hq, decide_false] at hf
      split
      · rename_i hp
        rw [if_neg fun e => hq ((exact_iff n q.name).mp ⟨hp, e⟩)]
        split
        · exact ih _ _ hf
        · exact ih _ _ hf
      · exact ih _ _ hf

theorem searchFrom_later (clash : LOpt → LOpt → Bool) (n : Str) (T : List LOpt) : ∀ (i : Nat) (j : Nat) (q : LOpt) (b : Bool),
    (T.zipIdx i).find? (fun x => x.1.name = n) = none →
    searchFrom clash n T i ⟨some (j, q), false, b⟩ =
      ⟨some (j, q), false, b || ((T.zipIdx i).filter fun x => n.isPrefixOf x.1.name).any fun x => clash q x.1⟩ := by
  induction T with
  | nil => intro i j q b _; simp [searchFrom]
  | cons p T ih =>
    intro i j q b hf
    rw [List.zipIdx_cons, List.find?_cons] at hf
    by_cases hq : p.name = n
    · simp [hq] at hf
    · simp only [hq, decide_false] at hf
      unfold searchFrom
      rw [List.zipIdx_cons, List.filter_cons]
      by_cases hp : n.isPrefixOf p.name = true
      · rw [if_pos hp, if_neg fun e => hq ((exact_iff n p.name).mp ⟨hp, e⟩)]
        dsimp only
        rw [ih _ _ _ _ hf, if_pos hp, List.any_cons, Bool.or_assoc]
      · rw [if_neg hp, ih _ _ _ _ hf, if_neg hp]

theorem searchFrom_first (clash : LOpt → LOpt → Bool) (n : Str) (T : List LOpt) : ∀ (i : Nat),
    (T.zipIdx i).find? (fun x => x.1.name = n) = none →
    searchFrom clash n T i ⟨none, false, false⟩ =
      match (T.zipIdx i).filter fun x => n.isPrefixOf x.1.name with
      | [] => ⟨none, false, false⟩
      | (p, k) :: r => ⟨some (k, p), false, r.any fun x => clash p x.1⟩ := by
  induction T with
  | nil => intro i _; rfl
  | cons p T ih =>
    intro i hf
    rw [List.zipIdx_cons, List.find?_cons] at hf
    by_cases hq : p.name = n
    · simp [hq] at hf
    · simp only [hq, decide_false] at hf
      unfold searchFrom
      rw [List.zipIdx_cons, List.filter_cons]
      by_cases hp : n.isPrefixOf p.name = true
      · rw [if_pos hp, if_neg fun e => hq ((exact_iff n p.name).mp ⟨hp, e⟩)]
        dsimp only
        rw [searchFrom_later _ _ _ _ _ _ _ hf, if_pos hp, Bool.false_or]
      · rw [if_neg hp, ih _ hf, if_neg hp]

/-- What the search is used for. -/
def Hit.pick (h : Hit) : Pick :=
  if h.ambig && !h.exact then .ambiguous
  else match h.found with
    | some (i, p) => .is i p
    | none => .unknown

theorem searchFrom_pick (clash : LOpt → LOpt → Bool) (alone : Bool) (hc : ∀ p q, clash p q = !(!alone && p.same q)) (T : List LOpt) (n : Str) :
    (searchFrom clash n T 0 ⟨none, false, false⟩).pick = pick alone T n := by
  unfold pick
  cases hf : T.zipIdx.find? (fun x => x.1.name = n) with
  | some x =>
    obtain ⟨p, i⟩ := x
    obtain ⟨h1, h2⟩ := searchFrom_exact clash n T 0 ⟨none, false, false⟩ hf
    unfold Hit.pick
    rw [h1, h2]
    simp
  | none =>
    rw [searchFrom_first clash n T 0 hf]
    dsimp only
    cases T.zipIdx.filter fun x => n.isPrefixOf x.1.name with
    | nil => rfl
    | cons x r =>
      obtain ⟨p, i⟩ := x
      dsimp only [Hit.pick]
      have : (r.any fun x => clash p x.1) = !(r.all fun x => !alone && p.same x.1) := by
        rw [List.not_all_eq_any_not]
        congr 1
        funext x
        exact hc _ _
      rw [this]
      cases (r.all fun x => !alone && p.same x.1) <;> rfl

theorem search_pick (alone : Bool) (T : List LOpt) (n : Str) : (search alone T n).pick = pick alone T n := by
  refine searchFrom_pick _ _ (fun p q => ?_) T n
  unfold clashes LOpt.same
  cases alone
  · simp only [Bool.not_false, Bool.true_and, Bool.false_or]
    by_cases h1 : p.hasArg = q.hasArg <;> by_cases h2 : p.flag = q.flag <;> by_cases h3 : p.val = q.val <;> simp [h1, h2, h3]
  · rfl

theorem searchW_pick (T : List LOpt) (n : Str) : (searchW T n).pick = pick true T n :=
  searchFrom_pick (fun _ _ => true) true (fun _ _ => rfl) T n

theorem atEnd_value (w : Str) : (match atEnd w with | _ :: v => some v | [] => none) = valueOf w := by
  unfold valueOf nameOf atEnd
  induction w with
  | nil => rfl
  | cons c w ih =>
    by_cases h : c = equals
    · subst h; simp
    · simp only [List.dropWhile_cons, List.takeWhile_cons, ne_eq, h, not_false_eq_true, decide_true, ↓reduceIte, List.length_cons, List.drop_succ_cons,
        List.mem_cons]
      rw [ih]
      simp [Ne.symm h]

/-- What the code does with an element that is looked up. -/
theorem decode_eq (alone : Bool) (opts : Str) (T : List LOpt) (a w : Str) (s : St) : decode alone opts T a w s =
    if isLong alone opts a then
      match pick alone T (nameOf w) with
      | .ambiguous => some (longBad s)
      | .is i p => longFound opts i p (atEnd w) s
      | .unknown =>
        if !alone || a[1]? = some dash || (w.head?.bind fun c => index opts c).isNone then some (longBad s)
        else match w with
          | c :: r => shortL opts T c r s
          | [] => none
    else match w with
      | c :: r => shortL opts T c r s
      | [] => none := by
  unfold decode
  dsimp only
  rw [← search_pick]
  unfold Hit.pick
  split
  · split
    · rfl
    · cases (search alone T (nameOf w)).found with
      | none => rfl
      | some x => rfl
  · rfl

/-! ## The loop -/

def StepL (alone posix : Bool) (opts : Str) (T : List LOpt) (x : Option (LOut × St)) (l : List LOut) (s' : St) : Prop :=
  ∃ o s1, x = some (o, s1) ∧ ((o.code = -1 ∧ l = [] ∧ s' = s1) ∨ (o.code ≠ -1 ∧ ∃ l', l = o :: l' ∧ DrivesL alone posix opts T s1 l' s'))

variable {alone posix : Bool} {opts : Str} {T : List LOpt}

theorem StepL.more {o : LOut} {s1 s' : St} {l : List LOut} (h : o.code ≠ -1) (hd : DrivesL alone posix opts T s1 l s') :
    StepL alone posix opts T (some (o, s1)) (o :: l) s' := ⟨o, s1, rfl, .inr ⟨h, l, rfl, hd⟩⟩

theorem StepL.done {o : LOut} {s1 : St} (h : o.code = -1) : StepL alone posix opts T (some (o, s1)) [] s1 :=
  ⟨o, s1, rfl, .inl ⟨h, rfl, rfl⟩⟩

theorem StepL.drives {s s' : St} {l : List LOut} (h : StepL alone posix opts T (getoptL alone posix opts T s) l s') :
    DrivesL alone posix opts T s l s' := by
  obtain ⟨o, s1, h1, ⟨h2, rfl, rfl⟩ | ⟨h2, l', rfl, h3⟩⟩ := h
  · exact .done h1 h2
  · exact .more h1 h2 h3

theorem getoptL_later (alone posix : Bool) (opts : Str) (T : List LOpt) {s : St} (h1 : 0 < s.argv.length) (h2 : 0 < s.optind) (h3 : s.inited = true) :
    getoptL alone posix opts T s = scanL alone opts T s := by
  unfold getoptL begin
  rw [if_neg (by omega), if_neg (by rw [h3]; rintro (h | h); · omega
                                    · cases h)]

/-- After a word. -/
def finL (need : Option Wants) (s : St) : Option (List LOut × St) :=
  match need with
  | none => some ([], { s with next := [], optind := s.optind + 1 })
  | some n =>
    if s.optind + 1 = s.argv.length then some ([n.miss], { s with next := [], optind := s.optind + 1 })
    else s.argv[s.optind + 1]?.map fun b => ([n.got b], { s with next := [], optind := s.optind + 2 })

variable {ok : Nat → Prop} {K : Nat → Option Kind} {miss : Int}

theorem shortL_eq (hF : Fits ok K miss opts) (T : List LOpt) (c : Nat) (rest : Str) (s : St) :
    shortL opts T c rest s = (short opts c rest s).map fun r => (r.1.lift, r.2) := by
  unfold shortL
  cases hi : index opts c with
  | none => rfl
  | some t =>
    obtain ⟨h1, h2⟩ := index_suffix _ _ hi
    have hw : ¬ (c ≠ colon ∧ t[1]? = some semi ∧ c = capW) := by
      rintro ⟨_, ht, rfl⟩
      refine hF.noW (List.IsInfix.trans ?_ h2.isInfix)
      match t, h1, ht with
      | a :: b :: t', h1, ht =>
        cases h1; cases ht
        exact ⟨[], t', rfl⟩
    dsimp only
    rw [if_neg hw]

/-- Letters, when this is the last call for them. -/
theorem single_step {opts1 : Str} (h1 : Fits ok K miss opts1) {c : Nat} (hc : ok c) {r : Str}
    (hr : r = [] ∨ K c = some .optional ∨ K c = some .required) {s s2 s' : St} {l L : List LOut}
    (hf : finL (shortWord K miss (c :: r)).2 s = some (l, s2)) (hd : DrivesL alone posix opts T s2 L s') :
    StepL alone posix opts T (shortL opts1 T c r s) ((shortWord K miss (c :: r)).1 ++ l ++ L) s' := by
  rw [shortL_eq h1, short_spec h1 c hc]
  unfold shortWord at hf ⊢
  rw [cluster.eq_2] at hf ⊢
  cases hk : K c with
  | none =>
    obtain rfl : r = [] := by simpa [hk] using hr
    rw [hk] at hf
    cases hf
    exact StepL.more (show (quest : Int) ≠ -1 by decide) hd
  | some k =>
    have hcode := K_code h1 hc hk
    rw [hk] at hf
    cases k with
    | flag =>
      obtain rfl : r = [] := by simpa [hk] using hr
      cases hf; exact StepL.more hcode hd
    | optional => cases hf; exact StepL.more hcode hd
    | required =>
      dsimp only at hf ⊢
      by_cases hr : r = []
      · subst hr
        simp only [↓reduceIte] at hf ⊢
        dsimp only [finL, Option.map] at hf
        by_cases h6 : s.optind + 1 = s.argv.length
        · rw [if_pos h6] at hf ⊢
          cases hf
          exact StepL.more (o := Out.lift ⟨miss, none, some c⟩) (miss_code h1) hd
        · rw [if_neg h6] at hf ⊢
          cases hb : s.argv[s.optind + 1]? with
          | none => rw [hb] at hf; cases hf
          | some b =>
            rw [hb] at hf
            cases hf
            exact StepL.more (o := (found c (some b)).lift) hcode hd
      · rw [if_neg hr] at hf
        rw [if_neg hr, if_neg hr]
        cases hf
        exact StepL.more (o := (found c (some r)).lift) hcode hd

/-- Letters, where two dashes are needed for a long option. -/
theorem cluster_stepL (hF : Fits ok K miss opts) {a : Str} (ha1 : a[1]? ≠ some dash) (r : Str) : ∀ {opts1 : Str} {c : Nat} {s s2 s' : St} {l L : List LOut},
    Fits ok K miss opts1 → (∀ d ∈ c :: r, ok d) → s.argv[s.optind]? = some a → 0 < s.optind → s.inited = true →
    finL (shortWord K miss (c :: r)).2 s = some (l, s2) →
    DrivesL false posix opts T s2 L s' → StepL false posix opts T (shortL opts1 T c r s) ((shortWord K miss (c :: r)).1 ++ l ++ L) s' := by
  induction r with
  | nil =>
    intro opts1 c s s2 s' l L h1 hok ha hp hi hf hd
    exact single_step h1 (hok c (List.mem_cons_self ..)) (.inl rfl) hf hd
  | cons e r ih =>
    intro opts1 c s s2 s' l L h1 hok ha hp hi hf hd
    have hc := hok c (List.mem_cons_self ..)
    by_cases hk : K c = some .optional ∨ K c = some .required
    · exact single_step h1 hc (.inr hk) hf hd
    · rw [not_or] at hk
      have go : ∀ {l'}, finL (shortWord K miss (e :: r)).2 s = some (l', s2) → DrivesL false posix opts T { s with next := e :: r }
          ((shortWord K miss (e :: r)).1 ++ l' ++ L) s' := by
        intro l' hf
        apply StepL.drives
        rw [getoptL_later _ _ _ _ (by have := (List.getElem?_eq_some_iff.mp ha).1; show 0 < s.argv.length; omega) (by exact hp) (by exact hi)]
        unfold scanL
        dsimp only
        rw [ha]
        dsimp only
        rw [decode_eq, if_neg (by simp [isLong, ha1])]
        exact ih (s := { s with next := e :: r }) hF (fun d hd => hok d (List.mem_cons_of_mem _ hd)) ha hp hi hf hd
      rw [shortL_eq h1, short_spec h1 c hc]
      unfold shortWord at hf ⊢
      rw [cluster.eq_2] at hf ⊢
      cases hk' : K c with
      | none =>
        rw [hk'] at hf
        exact StepL.more (o := (unknown c).lift) (show (quest : Int) ≠ -1 by decide) (go hf)
      | some k =>
        have hcode := K_code h1 hc hk'
        rw [hk'] at hf
        cases k with
        | flag => exact StepL.more (o := (found c none).lift) hcode (go hf)
        | optional => exact absurd hk' hk.1
        | required => exact absurd hk' hk.2

theorem taken_eq (i : Nat) (p : LOpt) (arg : Option Str) : taken i p arg = given i p arg := by
  unfold taken given
  cases p.flag <;> rfl

/-- A long option. -/
theorem long_step {opts1 : Str} (hT : ∀ p ∈ T, p.flag = none → p.val ≠ -1) (hm : missing opts1 = miss) {w : Str} {s s2 s' : St}
    {l L : List LOut} (hlen : s.optind < s.argv.length) (hf : finL (longWord alone miss T w).2 s = some (l, s2)) (hd : DrivesL alone posix opts T s2 L s') :
    StepL alone posix opts T
      (match pick alone T (nameOf w) with
        | .ambiguous => some (longBad s)
        | .is i p => longFound opts1 i p (atEnd w) s
        | .unknown => some (longBad s)) ((longWord alone miss T w).1 ++ l ++ L) s' := by
  have hmc : miss ≠ -1 := by
    rw [← hm]
    unfold missing
    split <;> decide
  have hmm : (if opts1.head? = some colon then (colon : Int) else quest) = miss := hm
  have hmem : ∀ {i p}, pick alone T (nameOf w) = .is i p → p ∈ T := by
    intro i p h
    unfold pick at h
    split at h
    · rename_i q j hq
      cases h
      exact List.fst_mem_of_mem_zipIdx (List.mem_of_find?_eq_some hq)
    · split at h
      · cases h
      · rename_i q j r hq
        split at h
        · cases h
          have : (p, i) ∈ T.zipIdx.filter fun x => (nameOf w).isPrefixOf x.1.name := by rw [hq]; exact List.mem_cons_self ..
          exact List.fst_mem_of_mem_zipIdx (List.mem_filter.mp this).1
        · cases h
  have hg : ∀ {i p}, p ∈ T → ∀ arg, (given i p arg).code ≠ -1 := by
    intro i p hp arg
    unfold given
    dsimp only
    cases hfl : p.flag with
    | none => exact hT p hp hfl
    | some f => show (0 : Int) ≠ -1; decide
  unfold longWord at hf ⊢
  cases hp : pick alone T (nameOf w) with
  | ambiguous => rw [hp] at hf; cases hf; exact StepL.more (o := nameless) (show (quest : Int) ≠ -1 by decide) hd
  | unknown => rw [hp] at hf; cases hf; exact StepL.more (o := nameless) (show (quest : Int) ≠ -1 by decide) hd
  | is i p =>
    rw [hp] at hf
    have hpT := hmem hp
    dsimp only at hf ⊢
    have hv := atEnd_value w
    unfold longFound
    dsimp only
    cases he : atEnd w with
    | cons x v =>
      rw [he] at hv
      dsimp only at hv ⊢
      rw [← hv] at hf ⊢
      dsimp only at hf ⊢
      by_cases h0 : p.hasArg = 0
      · rw [if_pos h0] at hf
        cases hf
        simp only [h0, ne_eq, not_true_eq_false, ↓reduceIte]
        exact StepL.more (o := ⟨quest, none, some p.val, none, none⟩) (show (quest : Int) ≠ -1 by decide) hd
      · rw [if_neg h0] at hf
        cases hf
        simp only [h0, ne_eq, not_false_eq_true, ↓reduceIte]
        rw [taken_eq]
        exact StepL.more (hg hpT _) hd
    | nil =>
      rw [he] at hv
      dsimp only at hv ⊢
      rw [← hv] at hf ⊢
      dsimp only at hf ⊢
      by_cases h1 : p.hasArg = 1
      · rw [if_pos h1] at hf
        simp only [h1, ↓reduceIte]
        dsimp only [finL] at hf
        by_cases h6 : s.optind + 1 = s.argv.length
        · rw [if_pos h6] at hf
          cases hf
          rw [if_neg (by omega), hmm]
          exact StepL.more (o := ⟨miss, none, some p.val, none, none⟩) hmc hd
        · rw [if_neg h6] at hf
          rw [if_pos (by omega)]
          cases hb : s.argv[s.optind + 1]? with
          | none => rw [hb] at hf; cases hf
          | some b =>
            rw [hb] at hf
            cases hf
            dsimp only
            rw [taken_eq]
            exact StepL.more (o := given i p (some b)) (hg hpT _) hd
      · rw [if_neg h1] at hf
        cases hf
        simp only [h1, ↓reduceIte]
        rw [taken_eq]
        exact StepL.more (o := given i p none) (hg hpT _) hd

/-! ## Words -/

/-- What the code does with the element `a`: after its dash or dashes. -/
def body1 (a : Str) : Str := if a[1]? = some dash then a.drop 2 else a.drop 1

/-- The option string knows these letters, as far as `ok` goes. -/
def Lists (ok : Nat → Prop) (listed : Nat → Bool) (opts : Str) : Prop := ∀ c, ok c → (index opts c).isNone = !listed c

variable {listed : Nat → Bool}

theorem word_step (hF : Fits ok K miss opts) {opts1 : Str} (hF1 : Fits ok K miss opts1) (hL1 : Lists ok listed opts1)
    (hT : ∀ p ∈ T, p.flag = none → p.val ≠ -1) {a : Str} (hopt : isOption a = true) (hdd : a ≠ [dash, dash])
    (hok : a[1]? ≠ some dash → ∀ c ∈ a.tail, ok c) (hsp : alone = true → splits K listed T a = false) {s s2 s' : St} {l L : List LOut}
    (ha : s.argv[s.optind]? = some a) (hp : 0 < s.optind) (hi : s.inited = true)
    (hf : finL (wordL alone K listed miss T a).2 s = some (l, s2)) (hd : DrivesL alone posix opts T s2 L s') :
    StepL alone posix opts T (decode alone opts1 T a (body1 a) s) ((wordL alone K listed miss T a).1 ++ l ++ L) s' := by
  have hlen := (List.getElem?_eq_some_iff.mp ha).1
  match a, hopt, hdd, hok, hsp, ha, hf with
  | [], hopt, _, _, _, _, _ => cases hopt
  | [x], hopt, _, _, _, _, _ =>
    exfalso
    simp only [isOption, List.head?_cons, Option.some.injEq, decide_eq_true_eq] at hopt
    exact hopt.2 (by rw [hopt.1])
  | x :: c :: w, hopt, hdd, hok, hsp, ha, g =>
    unfold wordL at g ⊢
    dsimp only [List.tail_cons] at g ⊢
    rw [decode_eq]
    by_cases hc : c = dash
    · subst hc
      rw [if_pos rfl] at g ⊢
      have hb : body1 (x :: dash :: w) = w := rfl
      rw [if_pos (by simp [isLong]), hb]
      have := long_step (opts1 := opts1) hT hF1.miss hlen g hd
      revert this
      cases pick alone T (nameOf w) with
      | ambiguous => exact id
      | is i p => exact id
      | unknown =>
        dsimp only
        rw [if_pos (by simp)]
        exact id
    · rw [if_neg hc] at g ⊢
      have hb : body1 (x :: c :: w) = c :: w := by
        unfold body1
        rw [if_neg (by simpa using hc)]
        rfl
      have hok' := hok (by simpa using hc)
      simp only [List.tail_cons] at hok'
      have hlc := hL1 c (hok' c (List.mem_cons_self ..))
      rw [hb]
      have hisL : isLong alone opts1 (x :: c :: w) = (alone && (w != [] || !listed c)) := by
        unfold isLong
        rw [show (decide ((x :: c :: w)[1]? = some dash)) = false by simpa using hc]
        simp only [Bool.false_or, List.length_cons, List.getElem?_cons_succ, List.getElem?_cons_zero, Option.bind_some, hlc]
        cases w <;> simp
      rw [hisL]
      cases hcond : (alone && (w != [] || !listed c)) with
      | false =>
        rw [hcond] at g
        simp only [Bool.false_eq_true, ↓reduceIte] at g ⊢
        cases alone with
        | false => exact cluster_stepL hF (a := x :: c :: w) (by simpa using hc) w hF1 hok' ha hp hi g hd
        | true =>
          have hw : w = [] := by
            cases w with
            | nil => rfl
            | cons e w => simp at hcond
          exact single_step hF1 (hok' c (List.mem_cons_self ..)) (.inl hw) g hd
      | true =>
        rw [hcond] at g
        simp only [↓reduceIte] at g ⊢
        have halone : alone = true := by
          cases alone
          · simp at hcond
          · rfl
        subst halone
        by_cases hu : pick true T (nameOf (c :: w)) = .unknown
        · rw [if_pos hu] at g ⊢
          rw [hu]
          dsimp only
          have e1 : (!true || decide ((x :: c :: w)[1]? = some dash) || ((c :: w).head?.bind fun c => index opts1 c).isNone) = !listed c := by
            rw [show (decide ((x :: c :: w)[1]? = some dash)) = false by simpa using hc]
            simpa using hlc
          rw [e1]
          cases hli : listed c with
          | false =>
            rw [hli] at g
            simp only [Bool.false_eq_true, ↓reduceIte] at g ⊢
            cases g
            exact StepL.more (o := nameless) (show (quest : Int) ≠ -1 by decide) hd
          | true =>
            rw [hli] at g
            simp only [Bool.not_true, Bool.false_eq_true, ↓reduceIte] at g ⊢
            have hs := hsp rfl
            have hr : w = [] ∨ K c = some .optional ∨ K c = some .required := by
              by_cases hw : w = []
              · exact .inl hw
              · refine .inr ?_
                simp only [splits, List.tail_cons, hu, hli, ne_eq, hc, not_false_eq_true, decide_true, Bool.and_true, Bool.true_and,
                  Bool.and_eq_false_iff] at hs
                cases hk : K c with
                | none => simp [hk, hw] at hs
                | some k => cases k <;> simp [hk, hw] at hs ⊢
            exact single_step hF1 (hok' c (List.mem_cons_self ..)) hr g hd
        · rw [if_neg hu] at g ⊢
          have := long_step (opts1 := opts1) hT hF1.miss hlen g hd
          revert this hu
          cases pick true T (nameOf (c :: w)) with
          | ambiguous => exact fun _ => id
          | is i p => exact fun _ => id
          | unknown => exact fun h => absurd rfl h

/-! ## The whole command line -/

variable {R : Str → List LOut × Option Wants}

theorem parseL_dd (order : Order) (r : List Str) : parseL order R ([dash, dash] :: r) = ⟨[], [[dash, dash]], r⟩ := by
  unfold parseL
  rw [if_pos rfl]

theorem parseL_operand (order : Order) (a : Str) (r : List Str) (h : isOption a = false) : parseL order R (a :: r) =
    match order with
    | .requireOrder => ⟨[], [], a :: r⟩
    | .permute => ⟨(parseL order R r).told, (parseL order R r).opts, a :: (parseL order R r).operands⟩
    | .returnInOrder =>
      ⟨⟨1, some a, none, none, none⟩ :: (parseL order R r).told, a :: (parseL order R r).opts, (parseL order R r).operands⟩ := by
  have hn : a ≠ [dash, dash] := by rintro rfl; cases h
  rw [parseL.eq_def]
  dsimp only
  rw [if_neg hn, h]
  cases order <;> rfl

theorem parseL_option (order : Order) (a : Str) (r : List Str) (h : isOption a = true) (hn : a ≠ [dash, dash]) : parseL order R (a :: r) =
    match (R a).2 with
    | none => ⟨(R a).1 ++ (parseL order R r).told, a :: (parseL order R r).opts, (parseL order R r).operands⟩
    | some n =>
      match r with
      | [] => ⟨(R a).1 ++ [n.miss], [a], []⟩
      | b :: r' =>
        ⟨(R a).1 ++ n.got b :: (parseL order R r').told, a :: b :: (parseL order R r').opts, (parseL order R r').operands⟩ := by
  rw [parseL.eq_def]
  dsimp only
  rw [if_neg hn, h, if_pos rfl]
  rfl

theorem parseL_operands (ops : List Str) (rest : List Str) (h : ∀ a ∈ ops, isOperand a = true) :
    parseL .permute R (ops ++ rest) =
      ⟨(parseL .permute R rest).told, (parseL .permute R rest).opts, ops ++ (parseL .permute R rest).operands⟩ := by
  induction ops with
  | nil => rfl
  | cons a ops ih =>
    have ha := h a (List.mem_cons_self ..)
    rw [operand_iff] at ha
    simp only [Bool.not_eq_true'] at ha
    rw [List.cons_append, parseL_operand _ _ _ ha]
    simp [ih (fun b hb => h b (List.mem_cons_of_mem _ hb))]

def GoodL (alone posix : Bool) (opts : Str) (T : List LOpt) (x : Option (LOut × St)) (dn sk pd : List Str) (P : ParsedL) : Prop :=
  ∃ s', StepL alone posix opts T x P.told s' ∧ s'.argv = dn ++ pd ++ P.opts ++ (sk ++ P.operands) ∧ s'.optind = (dn ++ pd ++ P.opts).length

/-- Each word of options is dealt with as `R` says. -/
def WordsL (alone posix : Bool) (opts opts1 : Str) (T : List LOpt) (R : Str → List LOut × Option Wants) (fine : Str → Prop) : Prop :=
  ∀ {a : Str}, isOption a = true → a ≠ [dash, dash] → fine a → ∀ {s s2 s' : St} {l L : List LOut}, s.argv[s.optind]? = some a → 0 < s.optind →
    s.inited = true → finL (R a).2 s = some (l, s2) → DrivesL alone posix opts T s2 L s' →
    StepL alone posix opts T (decode alone opts1 T a (body1 a) s) ((R a).1 ++ l ++ L) s'

theorem tail_goodL {fine : Str → Prop} {opts1 : Str} (hW : WordsL alone posix opts opts1 T R fine) {order : Order} {rest : List Str}
    (ih : ∀ rest' : List Str, rest'.length < rest.length → (∀ a ∈ rest', fine a) → ∀ {s : St} {dn sk pd : List Str}, At s dn sk pd rest' →
      s.order = order → (order ≠ .permute → sk = []) → GoodL alone posix opts T (scanL alone opts T s) dn sk pd (parseL order R rest'))
    (hok : ∀ a ∈ rest, fine a) {s : St} {dn sk pd : List Str} (h : At s dn sk pd rest) (ho : s.order = order) (hsk : order ≠ .permute → sk = [])
    (hpd : sk = [] ∨ pd = []) (hop : order = .permute → ∀ a ∈ rest.head?, isOperand a = false) :
    GoodL alone posix opts T ((dashes s).bind fun s => elementL alone opts1 T s) dn sk pd (parseL order R rest) := by
  have hl := at_length h
  have hpos : 0 < s.optind := by
    rw [h.optind]
    have := List.length_pos_iff.mpr h.pos
    omega
  match rest, ih, hok, h, hop, hl with
  | [], ih, hok, h, hop, hl =>
    have hd : dashes s = some s := by unfold dashes; rw [if_neg (by simp [hl])]
    rw [hd, Option.bind_some]
    unfold elementL
    rw [if_pos (by simp [hl])]
    refine ⟨_, StepL.done rfl, ?_, ?_⟩
    · obtain rfl | rfl := hpd <;> split <;> simp [parseL, h.argv]
    · by_cases h1 : s.first = s.last
      · have hs : sk = [] := List.eq_nil_of_length_eq_zero (by have := h.last; have := h.first; omega)
        subst hs
        simp [h1, parseL, h.optind]
      · have : pd = [] := by
          obtain rfl | h2 := hpd
          · exact absurd (by rw [h.first, h.last]; rfl) h1
          · exact h2
        subst this
        rw [if_pos h1]
        simp [parseL, h.first]
  | a :: r, ih, hok, h, hop, hl =>
    by_cases haa : a = [dash, dash]
    · subst haa
      obtain ⟨s1, hd, e1, e2, e3, e4⟩ := dashes_at h
      rw [hd, Option.bind_some]
      unfold elementL
      rw [if_pos e4, parseL_dd]
      refine ⟨_, StepL.done rfl, ?_, ?_⟩
      · split <;> simp [e1]
      · by_cases h1 : s1.first = s1.last
        · simp only [h1, ne_eq, not_true_eq_false, ↓reduceIte]
          rw [e4, ← e3, ← h1, e2]
          simp; omega
        · simp only [ne_eq, h1, not_false_eq_true, ↓reduceIte]
          rw [e2]
          simp; omega
    · have hd : dashes s = some s := by
        unfold dashes
        rw [if_pos (by simp [hl]), at_get h]
        simp only [haa, ↓reduceIte]
      rw [hd, Option.bind_some]
      unfold elementL
      rw [if_neg (by simp [hl]), at_get h]
      dsimp only
      cases hb : isOperand a with
      | true =>
        have hno : order ≠ .permute := by
          intro e
          rw [hop e a rfl] at hb
          cases hb
        have hb' := hb
        rw [operand_iff] at hb'
        simp only [Bool.not_eq_true'] at hb'
        have := hsk hno
        subst this
        rw [parseL_operand _ _ _ hb']
        simp only [↓reduceIte]
        cases order with
        | permute => exact absurd rfl hno
        | requireOrder =>
          rw [if_pos ho]
          exact ⟨_, StepL.done rfl, by simp [h.argv], by simp [h.optind]⟩
        | returnInOrder =>
          rw [if_neg (by rw [ho]; decide)]
          have hA : At { s with optind := s.optind + 1 } dn [] (pd ++ [a]) r :=
            ⟨by simp [h.argv], h.pos, h.first, h.last, by simp [h.optind]; omega, h.next, h.inited⟩
          obtain ⟨s', g1, g2, g3⟩ := ih r (by simp) (fun b hb => hok b (List.mem_cons_of_mem _ hb)) hA ho (fun _ => rfl)
          refine ⟨s', StepL.more (show (1 : Int) ≠ -1 by decide) (StepL.drives ?_), ?_, ?_⟩
          · rw [getoptL_later alone posix opts T (s := { s with optind := s.optind + 1 }) (by simp; omega) (Nat.succ_pos _) h.inited]
            exact g1
          · simpa using g2
          · simpa using g3
      | false =>
        simp only [Bool.false_eq_true, ↓reduceIte]
        have hb' := hb
        rw [operand_iff] at hb'
        simp only [Bool.not_eq_false'] at hb'
        have hfine := hok a (List.mem_cons_self ..)
        change GoodL alone posix opts T (decode alone opts1 T a (body1 a) s) dn sk pd _
        rw [parseL_option _ _ _ hb' haa]
        have key : ∀ {l : List LOut} {n : Nat} {q r' : List Str}, finL (R a).2 s = some (l, { s with next := [], optind := s.optind + n }) →
            a :: r = q ++ r' → q.length = n → 0 < n →
            GoodL alone posix opts T (decode alone opts1 T a (body1 a) s) dn sk pd ⟨(R a).1 ++ l ++ (parseL order R r').told,
              q ++ (parseL order R r').opts, (parseL order R r').operands⟩ := by
          intro l n q r' hf hq hn h0
          have hlen : r'.length < (a :: r).length := by rw [hq]; simp; omega
          have hA : At { s with next := [], optind := s.optind + n } dn sk (pd ++ q) r' :=
            ⟨by simp [h.argv, hq], h.pos, h.first, h.last, by simp [h.optind, hn]; omega, rfl, h.inited⟩
          obtain ⟨s', g1, g2, g3⟩ := ih r' hlen (fun b hb => hok b (by rw [hq]; exact List.mem_append_right _ hb)) hA ho hsk
          refine ⟨s', hW hb' haa hfine (at_get h) hpos h.inited hf (StepL.drives ?_), ?_, ?_⟩
          · rw [getoptL_later alone posix opts T (s := { s with next := [], optind := s.optind + n }) (by simp; omega) (by simp; omega) h.inited]
            exact g1
          · simpa using g2
          · simpa using g3
        cases hcl : (R a).2 with
        | none =>
          rw [hcl] at key
          have := key (l := []) (n := 1) (q := [a]) (r' := r) rfl rfl rfl (by omega)
          simpa using this
        | some d =>
          rw [hcl] at key
          cases r with
          | nil =>
            have := key (l := [d.miss]) (n := 1) (q := [a]) (r' := []) (by
              unfold finL; dsimp only; rw [if_pos (by simp [hl])]) rfl rfl (by omega)
            simpa [parseL] using this
          | cons b r' =>
            have := key (l := [d.got b]) (n := 2) (q := [a, b]) (r' := r') (by
              unfold finL; dsimp only; rw [if_neg (by simp [hl]), at_get1 h]; rfl) rfl rfl (by omega)
            simpa using this

theorem parse_goodL {fine : Str → Prop} (hW : WordsL alone posix opts opts T R fine) {order : Order} (n : Nat) : ∀ (rest : List Str), rest.length < n →
    (∀ a ∈ rest, fine a) → ∀ {opts1 : Str}, WordsL alone posix opts opts1 T R fine → ∀ {s : St} {dn sk pd : List Str}, At s dn sk pd rest → s.order = order →
      (order ≠ .permute → sk = []) → GoodL alone posix opts T (scanL alone opts1 T s) dn sk pd (parseL order R rest) := by
  induction n with
  | zero => intro rest h; omega
  | succ n ih =>
    intro rest hn hok opts1 hF1 s dn sk pd h ho hsk
    unfold scanL
    rw [h.next]
    dsimp only
    by_cases hm : order = .permute
    · subst hm
      obtain ⟨ops, rest, rfl, h1, h2⟩ := split_operands rest
      obtain ⟨s', e, hA, ho'⟩ := settle_at h ho h1 h2
      rw [e, Option.bind_some]
      have := tail_goodL (posix := posix) hF1 (order := .permute) (rest := rest)
        (fun r' hr' hok' {s dn sk pd} hA ho hsk => ih r' (by simp at hn; omega) hok' hW hA ho hsk)
        (fun a ha => hok a (List.mem_append_right _ ha)) hA (ho'.trans ho) (fun h => absurd rfl h) (.inr rfl) (fun _ => h2)
      obtain ⟨s2, g1, g2, g3⟩ := this
      rw [parseL_operands ops rest h1]
      exact ⟨s2, g1, by simpa using g2, by simpa using g3⟩
    · rw [settle_at' h (by rw [ho]; exact hm), Option.bind_some]
      exact tail_goodL (posix := posix) hF1 (fun r' hr' hok' {s dn sk pd} hA ho hsk => ih r' (by omega) hok' hW hA ho hsk)
        hok h ho hsk (.inl (hsk hm)) (fun e => absurd e hm)

/-! ## The words stay the same -/

theorem Same.of {s s2 : St} (h1 : 0 < s.first) (h2 : 0 < s.optind) (a : s2.argv = s.argv) (b : s2.first = s.first) (c : s.optind ≤ s2.optind)
    (d : s2.inited = s.inited) : Same s s2 := ⟨by rw [a], by rw [a], by omega, by omega, d⟩

theorem dashW_same {opts : Str} {T : List LOpt} {w : Str} {s s' : St} {o : LOut} (h : dashW opts T w s = some (o, s')) (h1 : 0 < s.first)
    (h2 : 0 < s.optind) : Same s s' := by
  unfold dashW at h
  dsimp only at h
  repeat' split at h
  all_goals first | (cases h; done) | (cases h; refine Same.of h1 h2 rfl rfl ?_ rfl; dsimp only; omega)

theorem shortL_same {opts : Str} {T : List LOpt} {c : Nat} {rest : Str} {s s' : St} {o : LOut} (h : shortL opts T c rest s = some (o, s'))
    (h1 : 0 < s.first) (h2 : 0 < s.optind) : Same s s' := by
  have hs : ∀ {x : Option (LOut × St)}, x = (short opts c rest s).map (fun r => (r.1.lift, r.2)) → x = some (o, s') → Same s s' := by
    intro x hx h
    rw [hx, Option.map_eq_some_iff] at h
    obtain ⟨⟨o', s1⟩, h3, h4⟩ := h
    cases h4
    exact short_same h3 h1 h2
  unfold shortL at h
  split at h
  · split at h
    · dsimp only at h
      split at h
      · have := dashW_same h h1 (Nat.succ_pos _)
        exact ⟨this.perm, this.head, this.first, this.optind, this.inited⟩
      · rename_i hr
        simp only [ne_eq, Classical.not_not] at hr
        try rw [if_pos hr] at h
        split at h
        · cases h
          exact Same.of h1 h2 rfl rfl (Nat.le_succ _) rfl
        · split at h
          · cases h
          · have := dashW_same h h1 (Nat.succ_pos _)
            exact ⟨this.perm, this.head, this.first, this.optind, this.inited⟩
    · exact hs rfl h
  · exact hs rfl h

theorem longFound_same {opts : Str} {i : Nat} {p : LOpt} {e : Str} {s s' : St} {o : LOut} (h : longFound opts i p e s = some (o, s'))
    (h1 : 0 < s.first) (h2 : 0 < s.optind) : Same s s' := by
  unfold longFound at h
  dsimp only at h
  repeat' split at h
  all_goals first | (cases h; done) | (cases h; refine Same.of h1 h2 rfl rfl ?_ rfl; dsimp only; omega)

theorem decode_same {alone : Bool} {opts : Str} {T : List LOpt} {a w : Str} {s s' : St} {o : LOut} (h : decode alone opts T a w s = some (o, s'))
    (h1 : 0 < s.first) (h2 : 0 < s.optind) : Same s s' := by
  have hb : ∀ {o s'}, some (longBad s) = some (o, s') → Same s s' := by
    intro o s' h
    cases h
    exact Same.of h1 h2 rfl rfl (Nat.le_succ _) rfl
  rw [decode_eq] at h
  split at h
  · split at h
    · exact hb h
    · exact longFound_same h h1 h2
    · split at h
      · exact hb h
      · split at h
        · exact shortL_same h h1 h2
        · cases h
  · split at h
    · exact shortL_same h h1 h2
    · cases h

theorem elementL_same {alone : Bool} {opts : Str} {T : List LOpt} {s s' : St} {o : LOut} (h : elementL alone opts T s = some (o, s'))
    (h1 : 0 < s.first) (h2 : 0 < s.optind) : Same s s' := by
  unfold elementL at h
  split at h
  · cases h
    split
    · exact ⟨List.Perm.refl _, rfl, h1, h1, rfl⟩
    · exact Same.rfl' h1 h2
  · split at h
    · cases h
    · split at h
      · split at h <;> cases h
        · exact Same.rfl' h1 h2
        · exact ⟨List.Perm.refl _, rfl, h1, Nat.succ_pos _, rfl⟩
      · exact decode_same h h1 h2

theorem scanL_same {alone : Bool} {opts : Str} {T : List LOpt} {s s' : St} {o : LOut} (h : scanL alone opts T s = some (o, s')) (h1 : 0 < s.first)
    (h2 : 0 < s.optind) : Same s s' := by
  unfold scanL at h
  split at h
  · split at h
    · cases h
    · exact decode_same h h1 h2
  · rw [Option.bind_eq_some_iff] at h
    obtain ⟨a, ha, h⟩ := h
    rw [Option.bind_eq_some_iff] at h
    obtain ⟨b, hb, h⟩ := h
    have s1 := settle_same ha h1 h2
    have s2 := dashes_same hb s1.first s1.optind
    exact (s1.trans s2).trans (elementL_same h s2.first s2.optind)

theorem getoptL_same {alone posix : Bool} {opts : Str} {T : List LOpt} {s s' : St} {o : LOut} (h : getoptL alone posix opts T s = some (o, s'))
    (hi : s.inited = true → 0 < s.first) :
    s'.argv.Perm s.argv ∧ s'.argv.head? = s.argv.head? ∧ (s'.inited = true → 0 < s'.first) := by
  unfold getoptL at h
  split at h
  · cases h; exact ⟨List.Perm.refl _, rfl, hi⟩
  · obtain ⟨b1, b2, b3, b4⟩ := begin_same posix opts s hi
    have := scanL_same h b2 b3
    exact ⟨by rw [← b1]; exact this.perm, by rw [← b1]; exact this.head, fun _ => this.first⟩

end Verif.Go
