import Verif.Proof.Getopt
namespace Verif.Go

/-! ## Option letters -/

/-- What the code makes of the place where a letter is found. -/
def cls : Option Str → Option Kind
  | none => none
  | some t => some (if t[1]? = some colon then (if t[2]? = some colon then .optional else .required) else .flag)

theorem cls_index (opts : Str) (c : Nat) (hc : c ≠ colon) : cls (index opts c) = ((letters opts).find? fun p => p.1 = c).map Prod.snd := by
  fun_induction letters opts with
  | case1 => rfl
  | case2 d => by_cases h : d = c <;> simp [index, cls, h]
  | case3 d r' =>
    simp only [index, if_neg (Ne.symm hc)]
    by_cases h : d = c
    · subst h; simp [cls]
    · rename_i ih; simp [h, ih]
  | case4 d e r' he ih =>
    simp only [index, if_neg (Ne.symm hc)]
    by_cases h : d = c
    · subst h; simp [cls, he]
    · simp only [index] at ih
      simp [h, ih]
  | case5 d =>
    by_cases h : d = c
    · subst h; simp [index, cls]
    · simp [index, h, Ne.symm hc, cls]
  | case6 d e r he ih =>
    rw [show index (d :: e :: r) c = if d = c then some (d :: e :: r) else index (e :: r) c from rfl]
    by_cases h : d = c
    · subst h; simp [cls, he]
    · simp [h, ih]

theorem index_suffix (opts : Str) (c : Nat) {t : Str} (h : index opts c = some t) : t.head? = some c ∧ t <:+ opts := by
  induction opts with
  | nil => cases h
  | cons a r ih =>
    unfold index at h
    split at h
    · rename_i e; cases h; exact ⟨by simp [e], List.suffix_refl _⟩
    · exact ⟨(ih h).1, (ih h).2.trans (List.suffix_cons _ _)⟩

/-- An option string that stands for these kinds, as far as the letters `ok` go. -/
structure Fits (ok : Nat → Prop) (K : Nat → Option Kind) (miss : Int) (opts : Str) : Prop where
  look : ∀ c, ok c → c ≠ colon → cls (index opts c) = K c
  none : K colon = none
  noW : ¬ [capW, semi] <:+: opts
  noFF : 255 ∉ opts
  miss : missing opts = miss

/-- The state after the last letter of a word, and what is still reported. -/
def fin (miss : Int) (need : Option Nat) (s : St) : Option (List Out × St) :=
  match need with
  | none => some ([], { s with next := [], optind := s.optind + 1 })
  | some c =>
    if s.optind + 1 = s.argv.length then some ([⟨miss, none, some c⟩], { s with next := [], optind := s.optind + 1 })
    else s.argv[s.optind + 1]?.map fun b => ([found c (some b)], { s with next := [], optind := s.optind + 2 })

theorem short_spec {ok : Nat → Prop} {K : Nat → Option Kind} {miss : Int} {opts : Str} (hF : Fits ok K miss opts) (c : Nat) (hc : ok c) (rest : Str)
    (s : St) :
    short opts c rest s =
      match K c with
      | none => some (unknown c, { s with next := rest, optind := if rest = [] then s.optind + 1 else s.optind })
      | some .flag => some (found c none, { s with next := rest, optind := if rest = [] then s.optind + 1 else s.optind })
      | some .optional => some (found c (if rest = [] then none else some rest), { s with next := [], optind := s.optind + 1 })
      | some .required =>
        if rest = [] then
          if s.optind + 1 = s.argv.length then some (⟨miss, none, some c⟩, { s with next := [], optind := s.optind + 1 })
          else s.argv[s.optind + 1]?.map fun b => (found c (some b), { s with next := [], optind := s.optind + 2 })
        else some (found c (some rest), { s with next := [], optind := s.optind + 1 }) := by
  unfold short
  by_cases hcc : c = colon
  · subst hcc
    rw [hF.none]
    cases index opts colon <;> simp [unknown]
  · have hl := hF.look c hc hcc
    cases hi : index opts c with
    | none =>
      rw [hi] at hl
      rw [← hl]
      rfl
    | some t =>
      rw [hi] at hl
      obtain ⟨h1, h2⟩ := index_suffix _ _ hi
      have hw : ¬ (t[1]? = some semi ∧ c = capW) := by
        rintro ⟨ht, rfl⟩
        refine hF.noW (List.IsInfix.trans ?_ h2.isInfix)
        match t, h1, ht with
        | a :: b :: t', h1, ht =>
          cases h1; cases ht
          exact ⟨[], t', rfl⟩
      have hm : (if opts.head? = some colon then (colon : Int) else quest) = miss := by
        rw [← hF.miss]; rfl
      rw [← hl]
      dsimp only [cls]
      rw [if_neg hcc, if_neg hw]
      by_cases h3 : t[1]? = some colon
      · by_cases h4 : t[2]? = some colon
        · by_cases h5 : rest = [] <;> simp [h3, h4, h5, found]
        · by_cases h5 : rest = []
          · simp only [h3, h4, h5, ↓reduceIte, ne_eq, not_true_eq_false]
            by_cases h6 : s.optind + 1 = s.argv.length
            · simp only [h6, ↓reduceIte]
              rw [← hm]
              split <;> rfl
            · simp only [h6, ↓reduceIte]
              cases s.argv[s.optind + 1]? <;> rfl
          · simp [h3, h4, h5, found]
      · simp [h3, found]

theorem K_code {ok : Nat → Prop} {K : Nat → Option Kind} {miss : Int} {opts : Str} (hF : Fits ok K miss opts) {c : Nat} (hc : ok c) {k : Kind}
    (h : K c = some k) : ofChar c ≠ -1 := by
  have hcc : c ≠ colon := by rintro rfl; rw [hF.none] at h; cases h
  have hl := hF.look c hc hcc
  rw [h] at hl
  cases hi : index opts c with
  | none => rw [hi] at hl; cases hl
  | some t =>
    obtain ⟨h1, h2⟩ := index_suffix _ _ hi
    have : c ∈ opts := h2.subset (List.mem_of_mem_head? h1)
    have : c ≠ 255 := fun e => hF.noFF (e ▸ this)
    unfold ofChar
    split <;> omega

theorem miss_code {ok : Nat → Prop} {K : Nat → Option Kind} {miss : Int} {opts : Str} (hF : Fits ok K miss opts) : miss ≠ -1 := by
  rw [← hF.miss]
  unfold missing
  split <;> decide

/-! ## The loop -/

/-- The loop, when its first call comes to `x`. -/
def Step (posix : Bool) (opts : Str) (x : Option (Out × St)) (l : List Out) (s' : St) : Prop :=
  ∃ o s1, x = some (o, s1) ∧ ((o.code = -1 ∧ l = [] ∧ s' = s1) ∨ (o.code ≠ -1 ∧ ∃ l', l = o :: l' ∧ Drives posix opts s1 l' s'))

theorem Step.more {posix : Bool} {opts : Str} {o : Out} {s1 s' : St} {l : List Out} (h : o.code ≠ -1) (hd : Drives posix opts s1 l s') :
    Step posix opts (some (o, s1)) (o :: l) s' := ⟨o, s1, rfl, .inr ⟨h, l, rfl, hd⟩⟩

theorem Step.done {posix : Bool} {opts : Str} {o : Out} {s1 : St} (h : o.code = -1) : Step posix opts (some (o, s1)) [] s1 :=
  ⟨o, s1, rfl, .inl ⟨h, rfl, rfl⟩⟩

theorem Step.drives {posix : Bool} {opts : Str} {s s' : St} {l : List Out} (h : Step posix opts (getopt posix opts s) l s') :
    Drives posix opts s l s' := by
  obtain ⟨o, s1, h1, ⟨h2, rfl, rfl⟩ | ⟨h2, l', rfl, h3⟩⟩ := h
  · exact .done h1 h2
  · exact .more h1 h2 h3

theorem getopt_later (posix : Bool) (opts : Str) {s : St} (h1 : 0 < s.argv.length) (h2 : 0 < s.optind) (h3 : s.inited = true) :
    getopt posix opts s = scan opts s := by
  unfold getopt begin
  rw [if_neg (by omega), if_neg (by rw [h3]; rintro (h | h); · omega
                                    · cases h)]

variable {ok : Nat → Prop} {K : Nat → Option Kind} {miss : Int} {posix : Bool} {opts : Str}

/-- The letters of a word. -/
theorem cluster_step (hF : Fits ok K miss opts) (r : Str) : ∀ {opts1 : Str} {c : Nat} {s s2 s' : St} {l L : List Out}, Fits ok K miss opts1 →
    (∀ d ∈ c :: r, ok d) → 0 < s.argv.length → 0 < s.optind → s.inited = true → fin miss (cluster K (c :: r)).2 s = some (l, s2) →
    Drives posix opts s2 L s' → Step posix opts (short opts1 c r s) ((cluster K (c :: r)).1 ++ l ++ L) s' := by
  induction r with
  | nil =>
    intro opts1 c s s2 s' l L h1 hok ha hp hi hf hd
    have hc := hok c (List.mem_cons_self ..)
    rw [short_spec h1 c hc]
    unfold cluster at hf ⊢
    cases hk : K c with
    | none =>
      rw [hk] at hf
      cases hf
      exact Step.more (show (quest : Int) ≠ -1 by decide) hd
    | some k =>
      have hcode := K_code h1 hc hk
      rw [hk] at hf
      cases k with
      | flag => cases hf; exact Step.more hcode hd
      | optional => cases hf; exact Step.more hcode hd
      | required =>
        dsimp only at hf ⊢
        simp only [↓reduceIte] at hf ⊢
        dsimp only [fin] at hf
        by_cases h6 : s.optind + 1 = s.argv.length
        · rw [if_pos h6] at hf ⊢
          cases hf
          exact Step.more (miss_code h1) hd
        · rw [if_neg h6] at hf ⊢
          rw [Option.map_eq_some_iff] at hf
          obtain ⟨b, hb, e⟩ := hf
          cases e
          rw [hb]
          exact Step.more hcode hd
  | cons e r ih =>
    intro opts1 c s s2 s' l L h1 hok ha hp hi hf hd
    have hc := hok c (List.mem_cons_self ..)
    rw [short_spec h1 c hc]
    rw [show cluster K (c :: e :: r) = _ from rfl] at hf ⊢
    rw [cluster.eq_2] at hf ⊢
    have go : ∀ {l'}, fin miss (cluster K (e :: r)).2 s = some (l', s2) → Drives posix opts { s with next := e :: r }
        ((cluster K (e :: r)).1 ++ l' ++ L) s' := by
      intro l' hf
      apply Step.drives
      rw [getopt_later _ _ (by exact ha) (by exact hp) (by exact hi)]
      exact ih (s := { s with next := e :: r }) hF (fun d hd => hok d (List.mem_cons_of_mem _ hd)) ha hp hi hf hd
    cases hk : K c with
    | none =>
      rw [hk] at hf
      exact Step.more (show (quest : Int) ≠ -1 by decide) (go hf)
    | some k =>
      have hcode := K_code h1 hc hk
      rw [hk] at hf
      cases k with
      | flag => exact Step.more hcode (go hf)
      | optional => cases hf; exact Step.more hcode hd
      | required => cases hf; exact Step.more hcode hd

/-! ## Where the words are -/

/-- `dn`: the program's name and the words done with, moved to the front; `sk`: operands passed by; `pd`: options seen after those; `rest`: to come. -/
structure At (s : St) (dn sk pd rest : List Str) : Prop where
  argv : s.argv = dn ++ sk ++ pd ++ rest
  pos : dn ≠ []
  first : s.first = dn.length
  last : s.last = dn.length + sk.length
  optind : s.optind = dn.length + sk.length + pd.length
  next : s.next = []
  inited : s.inited = true

theorem operand_iff (a : Str) : isOperand a = !isOption a := by
  match a with
  | [] => rfl
  | [c] => by_cases h : c = dash <;> simp [isOperand, isOption, h]
  | c :: d :: r => by_cases h : c = dash <;> simp [isOperand, isOption, h]

theorem clamp_at {s : St} {dn sk pd rest : List Str} (h : At s dn sk pd rest) : clamp s = s := by
  unfold clamp
  have h1 := h.first; have h2 := h.last; have h3 := h.optind
  rw [if_neg (by omega), if_neg (by omega)]

theorem skip_eq (ops : List Str) : ∀ (rest : List Str) (i : Nat), (∀ a ∈ ops, isOperand a = true) → (∀ a ∈ rest.head?, isOperand a = false) →
    skip (ops ++ rest) i = i + ops.length := by
  induction ops with
  | nil =>
    intro rest i _ h
    cases rest with
    | nil => rfl
    | cons a r => simp [skip, h a rfl]
  | cons a ops ih =>
    intro rest i h1 h2
    rw [List.cons_append, skip, if_pos (h1 a (List.mem_cons_self ..)), ih rest (i + 1) (fun b hb => h1 b (List.mem_cons_of_mem _ hb)) h2,
      List.length_cons]
    omega

theorem skipOver_at {s : St} {dn sk ops rest : List Str} (ha : s.argv = dn ++ sk ++ (ops ++ rest)) (hp : dn ≠ []) (h1 : s.first = dn.length)
    (h2 : s.optind = dn.length + sk.length) (h3 : s.next = []) (h4 : s.inited = true) (ho : ∀ a ∈ ops, isOperand a = true)
    (hr : ∀ a ∈ rest.head?, isOperand a = false) : At (skipOver s) dn (sk ++ ops) [] rest := by
  have hd : s.argv.drop s.optind = ops ++ rest := by
    rw [ha, h2, ← List.length_append, List.drop_left]
  unfold skipOver
  rw [hd, skip_eq ops rest _ ho hr]
  exact ⟨by simp [ha], hp, h1, by simp [h2]; omega, by simp [h2]; omega, h3, h4⟩

theorem settle_at {s : St} {dn sk pd ops rest : List Str} (h : At s dn sk pd (ops ++ rest)) (hm : s.order = .permute)
    (ho : ∀ a ∈ ops, isOperand a = true) (hr : ∀ a ∈ rest.head?, isOperand a = false) :
    ∃ s', settle s = some s' ∧ At s' (dn ++ pd) (sk ++ ops) [] rest ∧ s'.order = s.order := by
  unfold settle
  rw [clamp_at h, if_pos hm]
  unfold moveBack
  by_cases h1 : s.last = s.optind
  · have hp : pd = [] := List.eq_nil_of_length_eq_zero (by have := h.last; have := h.optind; omega)
    rw [if_neg (by simp [h1]), if_neg (by simp [h1])]
    subst hp
    refine ⟨_, rfl, ?_, rfl⟩
    rw [List.append_nil]
    exact skipOver_at (by simpa using h.argv) h.pos h.first (by simpa using h.optind) h.next h.inited ho hr
  · by_cases h2 : s.first = s.last
    · have hs : sk = [] := List.eq_nil_of_length_eq_zero (by have := h.last; have := h.first; omega)
      rw [if_neg (by simp [h2]), if_pos h1]
      subst hs
      refine ⟨_, rfl, ?_, rfl⟩
      refine skipOver_at (by simpa using h.argv) (by simp [h.pos]) ?_ ?_ h.next h.inited ho hr
      · simpa using h.optind
      · simpa using h.optind
    · rw [if_pos ⟨h2, h1⟩, exchange_eq s dn sk pd _ h.argv h.first h.last h.optind]
      refine ⟨_, rfl, ?_, rfl⟩
      refine skipOver_at rfl (by simp [h.pos]) (by simp) ?_ h.next h.inited ho hr
      simp [h.optind]; omega

theorem settle_at' {s : St} {dn sk pd rest : List Str} (h : At s dn sk pd rest) (hm : s.order ≠ .permute) : settle s = some s := by
  unfold settle
  rw [clamp_at h, if_neg hm]

theorem at_length {s : St} {dn sk pd rest : List Str} (h : At s dn sk pd rest) : s.argv.length = s.optind + rest.length := by
  rw [h.argv, h.optind]; simp; omega

theorem at_get {s : St} {dn sk pd : List Str} {a : Str} {rest : List Str} (h : At s dn sk pd (a :: rest)) : s.argv[s.optind]? = some a := by
  rw [h.argv, h.optind, show dn.length + sk.length + pd.length = (dn ++ sk ++ pd).length by simp; omega]
  simp only [List.getElem?_append_right (Nat.le_refl _), Nat.sub_self, List.getElem?_cons_zero]

theorem at_get1 {s : St} {dn sk pd : List Str} {a b : Str} {rest : List Str} (h : At s dn sk pd (a :: b :: rest)) :
    s.argv[s.optind + 1]? = some b := by
  rw [h.argv, h.optind, show dn.length + sk.length + pd.length + 1 = (dn ++ sk ++ pd ++ [a]).length by simp; omega,
    show dn ++ sk ++ pd ++ (a :: b :: rest) = (dn ++ sk ++ pd ++ [a]) ++ b :: rest by simp]
  simp only [List.getElem?_append_right (Nat.le_refl _), Nat.sub_self, List.getElem?_cons_zero]

/-- The two dashes. -/
theorem dashes_at {s : St} {dn sk pd rest : List Str} (h : At s dn sk pd ([dash, dash] :: rest)) :
    ∃ s', dashes s = some s' ∧ s'.argv = dn ++ (pd ++ [[dash, dash]]) ++ sk ++ rest ∧ s'.first = dn.length + pd.length + 1 ∧
      s'.last = s'.argv.length ∧ s'.optind = s'.argv.length := by
  have hl := at_length h
  unfold dashes
  rw [if_pos (by rw [hl]; simp), at_get h]
  simp only [↓reduceIte]
  unfold endOptions
  dsimp only
  by_cases h1 : s.first = s.last
  · have hs : sk = [] := List.eq_nil_of_length_eq_zero (by have := h.last; have := h.first; omega)
    subst hs
    rw [if_neg (by simp [h1]), if_pos h1]
    refine ⟨_, rfl, ?_, ?_, rfl, rfl⟩
    · simp [h.argv]
    · simp [h.optind]
  · rw [if_pos ⟨h1, by have := h.last; have := h.optind; omega⟩,
      exchange_eq { s with optind := s.optind + 1 } dn sk (pd ++ [[dash, dash]]) rest (by simp [h.argv]) h.first h.last (by simp [h.optind]; omega)]
    refine ⟨_, rfl, by simp, ?_, rfl, rfl⟩
    simp; omega

theorem parse_dd (order : Order) (r : List Str) : parse order K miss ([dash, dash] :: r) = ⟨[], [[dash, dash]], r⟩ := by
  unfold parse
  rw [if_pos rfl]

theorem parse_operand (order : Order) (a : Str) (r : List Str) (h : isOption a = false) : parse order K miss (a :: r) =
    match order with
    | .requireOrder => ⟨[], [], a :: r⟩
    | .permute => ⟨(parse order K miss r).told, (parse order K miss r).opts, a :: (parse order K miss r).operands⟩
    | .returnInOrder =>
      ⟨⟨1, some a, none⟩ :: (parse order K miss r).told, a :: (parse order K miss r).opts, (parse order K miss r).operands⟩ := by
  have hn : a ≠ [dash, dash] := by rintro rfl; cases h
  rw [parse.eq_def]
  dsimp only
  rw [if_neg hn, h]
  cases order <;> rfl

theorem parse_option (order : Order) (a : Str) (r : List Str) (h : isOption a = true) (hn : a ≠ [dash, dash]) : parse order K miss (a :: r) =
    match (cluster K a.tail).2 with
    | none => ⟨(cluster K a.tail).1 ++ (parse order K miss r).told, a :: (parse order K miss r).opts, (parse order K miss r).operands⟩
    | some c =>
      match r with
      | [] => ⟨(cluster K a.tail).1 ++ [⟨miss, none, some c⟩], [a], []⟩
      | b :: r' =>
        ⟨(cluster K a.tail).1 ++ found c (some b) :: (parse order K miss r').told, a :: b :: (parse order K miss r').opts,
          (parse order K miss r').operands⟩ := by
  rw [parse.eq_def]
  dsimp only
  rw [if_neg hn, h, if_pos rfl]
  rfl

theorem parse_operands (ops : List Str) (rest : List Str) (h : ∀ a ∈ ops, isOperand a = true) :
    parse .permute K miss (ops ++ rest) =
      ⟨(parse .permute K miss rest).told, (parse .permute K miss rest).opts, ops ++ (parse .permute K miss rest).operands⟩ := by
  induction ops with
  | nil => rfl
  | cons a ops ih =>
    have ha := h a (List.mem_cons_self ..)
    rw [operand_iff] at ha
    simp only [Bool.not_eq_true'] at ha
    rw [List.cons_append, parse_operand _ _ _ ha]
    simp [ih (fun b hb => h b (List.mem_cons_of_mem _ hb))]

theorem split_operands (l : List Str) : ∃ ops rest, l = ops ++ rest ∧ (∀ a ∈ ops, isOperand a = true) ∧ (∀ a ∈ rest.head?, isOperand a = false) := by
  induction l with
  | nil => exact ⟨[], [], rfl, by simp, by simp⟩
  | cons a l ih =>
    cases ha : isOperand a with
    | true =>
      obtain ⟨ops, rest, rfl, h1, h2⟩ := ih
      exact ⟨a :: ops, rest, rfl, by simpa [ha] using h1, h2⟩
    | false => exact ⟨[], a :: l, rfl, by simp, by simpa using ha⟩

/-- The loop ends, having reported `P.told`, with `argv` and `optind` as they should be. -/
def Good (posix : Bool) (opts : Str) (x : Option (Out × St)) (dn sk pd : List Str) (P : Parsed) : Prop :=
  ∃ s', Step posix opts x P.told s' ∧ s'.argv = dn ++ pd ++ P.opts ++ (sk ++ P.operands) ∧ s'.optind = (dn ++ pd ++ P.opts).length

/-- The words of which the letters are looked at. -/
def Okay (ok : Nat → Prop) (l : List Str) : Prop := ∀ a ∈ l, isOption a = true → a ≠ [dash, dash] → ∀ c ∈ a.tail, ok c

theorem tail_good (hF : Fits ok K miss opts) {opts1 : Str} (hF1 : Fits ok K miss opts1) {order : Order} {rest : List Str}
    (ih : ∀ rest' : List Str, rest'.length < rest.length → Okay ok rest' → ∀ {s : St} {dn sk pd : List Str}, At s dn sk pd rest' → s.order = order →
      (order ≠ .permute → sk = []) → Good posix opts (scan opts s) dn sk pd (parse order K miss rest'))
    (hok : Okay ok rest) {s : St} {dn sk pd : List Str} (h : At s dn sk pd rest) (ho : s.order = order) (hsk : order ≠ .permute → sk = [])
    (hpd : sk = [] ∨ pd = []) (hop : order = .permute → ∀ a ∈ rest.head?, isOperand a = false) :
    Good posix opts ((dashes s).bind fun s => element opts1 s) dn sk pd (parse order K miss rest) := by
  have hl := at_length h
  have hpos : 0 < s.optind := by
    rw [h.optind]
    have := List.length_pos_iff.mpr h.pos
    omega
  match rest, ih, hok, h, hop, hl with
  | [], ih, hok, h, hop, hl =>
    have hd : dashes s = some s := by unfold dashes; rw [if_neg (by simp [hl])]
    rw [hd, Option.bind_some]
    unfold element
    rw [if_pos (by simp [hl])]
    refine ⟨_, Step.done rfl, ?_, ?_⟩
    · obtain rfl | rfl := hpd <;> split <;> simp [parse, h.argv]
    · by_cases h1 : s.first = s.last
      · have hs : sk = [] := List.eq_nil_of_length_eq_zero (by have := h.last; have := h.first; omega)
        subst hs
        simp [h1, parse, h.optind]
      · have : pd = [] := by
          obtain rfl | h2 := hpd
          · exact absurd (by rw [h.first, h.last]; rfl) h1
          · exact h2
        subst this
        rw [if_pos h1]
        simp [parse, h.first]
  | a :: r, ih, hok, h, hop, hl =>
    by_cases haa : a = [dash, dash]
    · subst haa
      obtain ⟨s1, hd, e1, e2, e3, e4⟩ := dashes_at h
      rw [hd, Option.bind_some]
      unfold element
      rw [if_pos e4, parse_dd]
      refine ⟨_, Step.done rfl, ?_, ?_⟩
      · split <;> simp [e1]
      · by_cases h1 : s1.first = s1.last
        · simp only [h1, ne_eq, not_true_eq_false, ↓reduceIte]
          rw [e4, ← e3, ← h1, e2]
          simp; omega
        · simp only [ne_eq, h1, not_false_eq_true, ↓reduceIte]
          rw [e2]
          simp; omega
    · have hd : dashes s = some s := by
        unfold dashes
        rw [if_pos (by simp [hl]), at_get h]
        simp only [haa, ↓reduceIte]
      rw [hd, Option.bind_some]
      unfold element
      rw [if_neg (by simp [hl]), at_get h]
      dsimp only
      cases hb : isOperand a with
      | true =>
        have hno : order ≠ .permute := by
          intro e
          rw [hop e a rfl] at hb
          cases hb
        have hb' := hb
        rw [operand_iff] at hb'
        simp only [Bool.not_eq_true'] at hb'
        have := hsk hno
        subst this
        rw [parse_operand _ _ _ hb']
        simp only [↓reduceIte]
        cases order with
        | permute => exact absurd rfl hno
        | requireOrder =>
          rw [if_pos ho]
          exact ⟨_, Step.done rfl, by simp [h.argv], by simp [h.optind]⟩
        | returnInOrder =>
          rw [if_neg (by rw [ho]; decide)]
          have hA : At { s with optind := s.optind + 1 } dn [] (pd ++ [a]) r :=
            ⟨by simp [h.argv], h.pos, h.first, h.last, by simp [h.optind]; omega, h.next, h.inited⟩
          obtain ⟨s', g1, g2, g3⟩ := ih r (by simp) (fun b hb => hok b (List.mem_cons_of_mem _ hb)) hA ho (fun _ => rfl)
          refine ⟨s', Step.more (show (1 : Int) ≠ -1 by decide) (Step.drives ?_), ?_, ?_⟩
          · rw [getopt_later posix opts (s := { s with optind := s.optind + 1 }) (by simp; omega) (Nat.succ_pos _) h.inited]
            exact g1
          · simpa using g2
          · simpa using g3
      | false =>
        simp only [Bool.false_eq_true, ↓reduceIte]
        have hb' := hb
        rw [operand_iff] at hb'
        simp only [Bool.not_eq_false'] at hb'
        have hokc := hok a (List.mem_cons_self ..) hb' haa
        match a, hb, hb', hokc, haa, ih, hok, h, hop, hl with
        | x :: c :: w, hb, hb', hokc, haa, ih, hok, h, hop, hl =>
          dsimp only
          rw [parse_option _ _ _ hb' haa]
          simp only [List.tail_cons] at hokc ⊢
          have key : ∀ {l : List Out} {n : Nat} {q r' : List Str}, fin miss (cluster K (c :: w)).2 s = some (l, { s with next := [], optind := s.optind + n }) →
              (x :: c :: w) :: r = q ++ r' → q.length = n → 0 < n →
              Good posix opts (short opts1 c w s) dn sk pd ⟨(cluster K (c :: w)).1 ++ l ++ (parse order K miss r').told,
                q ++ (parse order K miss r').opts, (parse order K miss r').operands⟩ := by
            intro l n q r' hf hq hn h0
            have hlen : r'.length < ((x :: c :: w) :: r).length := by rw [hq]; simp; omega
            have hA : At { s with next := [], optind := s.optind + n } dn sk (pd ++ q) r' :=
              ⟨by simp [h.argv, hq], h.pos, h.first, h.last, by simp [h.optind, hn]; omega, rfl, h.inited⟩
            obtain ⟨s', g1, g2, g3⟩ := ih r' hlen (fun b hb => hok b (by rw [hq]; exact List.mem_append_right _ hb)) hA ho hsk
            refine ⟨s', cluster_step hF w hF1 hokc (by omega) hpos h.inited hf (Step.drives ?_), ?_, ?_⟩
            · rw [getopt_later posix opts (s := { s with next := [], optind := s.optind + n }) (by simp; omega) (by simp; omega) h.inited]
              exact g1
            · simpa using g2
            · simpa using g3
          cases hcl : (cluster K (c :: w)).2 with
          | none =>
            rw [hcl] at key
            have := key (l := []) (n := 1) (q := [x :: c :: w]) (r' := r) rfl rfl rfl (by omega)
            simpa using this
          | some d =>
            rw [hcl] at key
            cases r with
            | nil =>
              have := key (l := [⟨miss, none, some d⟩]) (n := 1) (q := [x :: c :: w]) (r' := []) (by
                unfold fin; dsimp only; rw [if_pos (by simp [hl])]) rfl rfl (by omega)
              simpa [parse] using this
            | cons b r' =>
              have := key (l := [found d (some b)]) (n := 2) (q := [x :: c :: w, b]) (r' := r') (by
                unfold fin; dsimp only; rw [if_neg (by simp [hl]), at_get1 h]; rfl) rfl rfl (by omega)
              simpa using this

theorem parse_good (hF : Fits ok K miss opts) {order : Order} (n : Nat) : ∀ (rest : List Str), rest.length < n → Okay ok rest →
    ∀ {opts1 : Str}, Fits ok K miss opts1 → ∀ {s : St} {dn sk pd : List Str}, At s dn sk pd rest → s.order = order →
      (order ≠ .permute → sk = []) → Good posix opts (scan opts1 s) dn sk pd (parse order K miss rest) := by
  induction n with
  | zero => intro rest h; omega
  | succ n ih =>
    intro rest hn hok opts1 hF1 s dn sk pd h ho hsk
    unfold scan
    rw [h.next]
    dsimp only
    by_cases hm : order = .permute
    · subst hm
      obtain ⟨ops, rest, rfl, h1, h2⟩ := split_operands rest
      obtain ⟨s', e, hA, ho'⟩ := settle_at h ho h1 h2
      rw [e, Option.bind_some]
      have := tail_good (posix := posix) hF hF1 (order := .permute) (rest := rest)
        (fun r' hr' hok' {s dn sk pd} hA ho hsk => ih r' (by simp at hn; omega) hok' hF hA ho hsk)
        (fun a ha => hok a (List.mem_append_right _ ha)) hA (ho'.trans ho) (fun h => absurd rfl h) (.inr rfl) (fun _ => h2)
      obtain ⟨s2, g1, g2, g3⟩ := this
      rw [parse_operands ops rest h1]
      exact ⟨s2, g1, by simpa using g2, by simpa using g3⟩
    · rw [settle_at' h (by rw [ho]; exact hm), Option.bind_some]
      exact tail_good (posix := posix) hF hF1 (fun r' hr' hok' {s dn sk pd} hA ho hsk => ih r' (by omega) hok' hF hA ho hsk)
        hok h ho hsk (.inl (hsk hm)) (fun e => absurd e hm)

end Verif.Go
