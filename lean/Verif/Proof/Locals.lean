import Verif.Spec.Locals
/-! # Proofs about local variables -/
namespace Verif.Loc
open Spec

def Spec.open1 (n : Nat) (bs : List (Nat × Nat)) : Ev → List (Nat × Nat)
  | .enter f => (n, f) :: bs
  | .leave => bs.tail
  | .assign _ _ => bs
  | .jump k => bs.drop k

theorem opens_snoc (n : Nat) (bs : List (Nat × Nat)) (h : List Ev) (e : Ev) : opens n bs (h ++ [e]) = open1 (n + h.length) (opens n bs h) e := by
  induction h generalizing n bs with
  | nil => cases e <;> rfl
  | cons a r ih =>
    cases a <;> simp only [List.cons_append, opens, ih, List.length_cons] <;> congr 1 <;> omega

theorem latest_snoc (i : Nat → Int) (h : List Ev) (e : Ev) (x : Nat) :
    latest i (h ++ [e]) x = match e with
      | .assign y v => if x = y then v else latest i h x
      | _ => latest i h x := by
  induction h generalizing i with
  | nil => cases e <;> rfl
  | cons a r ih => cases a <;> simp only [List.cons_append, latest, ih]

theorem get_snoc (h : List Ev) (e a : Ev) (t : Nat) : (h ++ [e])[t]? = some a ↔ h[t]? = some a ∨ (t = h.length ∧ e = a) := by
  rw [List.getElem?_append]
  split
  · next q => exact ⟨.inl, fun z => z.elim id fun z => by omega⟩
  · next q =>
    have : h[t]? = none := List.getElem?_eq_none (by omega)
    rw [this]
    by_cases ht : t = h.length
    · subst ht; simp
    · have : [e][t - h.length]? = none := List.getElem?_eq_none (by simp; omega)
      rw [this]; simp [ht]

theorem take_snoc (h : List Ev) (e : Ev) {t : Nat} (q : t ≤ h.length) : (h ++ [e]).take t = h.take t := by
  rw [List.take_append_of_le_length q]

theorem lt_of_get {h : List Ev} {t : Nat} {a : Ev} (q : h[t]? = some a) : t < h.length := (List.getElem?_eq_some_iff.mp q).1

/-- An event that is no jump and does not assign `x`. -/
theorem lost_other (d : Decl) (h : List Ev) (e : Ev) (x : Nat) (hj : ∀ k, e ≠ .jump k) (ha : ∀ v, e ≠ .assign x v) : Lost d (h ++ [e]) x ↔ Lost d h x := by
  constructor
  · rintro ⟨hv, s, t, t', k, v, h1, h2, h3, h4, h5, h6⟩
    have h4 := ((get_snoc ..).mp h4).resolve_right fun q => ha v q.2
    have h5 := ((get_snoc ..).mp h5).resolve_right fun q => hj k q.2
    rw [take_snoc _ _ (Nat.le_of_lt (lt_of_get h5))] at h3
    exact ⟨hv, s, t, t', k, v, h1, h2, h3, h4, h5, fun u w hu q => h6 u w hu ((get_snoc ..).mpr (.inl q))⟩
  · rintro ⟨hv, s, t, t', k, v, h1, h2, h3, h4, h5, h6⟩
    refine ⟨hv, s, t, t', k, v, h1, h2, ?_, (get_snoc ..).mpr (.inl h4), (get_snoc ..).mpr (.inl h5), fun u w hu q => ?_⟩
    · rw [take_snoc _ _ (Nat.le_of_lt (lt_of_get h5))]; exact h3
    · rcases (get_snoc ..).mp q with q | q
      · exact h6 u w hu q
      · exact ha w q.2

theorem lost_assign (d : Decl) (h : List Ev) (x : Nat) (v : Int) : ¬ Lost d (h ++ [.assign x v]) x := by
  rintro ⟨-, s, t, t', k, w, h1, h2, h3, h4, h5, h6⟩
  rcases (get_snoc ..).mp h5 with q | q
  · exact h6 h.length v (lt_of_get q) ((get_snoc ..).mpr (.inr ⟨rfl, rfl⟩))
  · cases q.2

theorem lost_jump (d : Decl) (h : List Ev) (k x : Nat) :
    Lost d (h ++ [.jump k]) x ↔ Lost d h x ∨ (d.vol x = false ∧ ∃ s t v, s < t ∧ (opens 0 [] h)[k]? = some (s, d.own x) ∧ h[t]? = some (.assign x v)) := by
  constructor
  · rintro ⟨hv, s, t, t', k', v, h1, h2, h3, h4, h5, h6⟩
    have h4 := ((get_snoc ..).mp h4).resolve_right fun q => by cases q.2
    rcases (get_snoc ..).mp h5 with q | ⟨rfl, q⟩
    · rw [take_snoc _ _ (Nat.le_of_lt (lt_of_get q))] at h3
      exact .inl ⟨hv, s, t, t', k', v, h1, h2, h3, h4, q, fun u w hu q => h6 u w hu ((get_snoc ..).mpr (.inl q))⟩
    · cases q
      rw [take_snoc _ _ (Nat.le_refl _), List.take_length] at h3
      exact .inr ⟨hv, s, t, v, h1, h3, h4⟩
  · rintro (⟨hv, s, t, t', k', v, h1, h2, h3, h4, h5, h6⟩ | ⟨hv, s, t, v, h1, h2, h3⟩)
    · refine ⟨hv, s, t, t', k', v, h1, h2, ?_, (get_snoc ..).mpr (.inl h4), (get_snoc ..).mpr (.inl h5), fun u w hu q => ?_⟩
      · rw [take_snoc _ _ (Nat.le_of_lt (lt_of_get h5))]; exact h3
      · rcases (get_snoc ..).mp q with q | q
        · exact h6 u w hu q
        · cases q.2
    · refine ⟨hv, s, t, h.length, k, v, h1, lt_of_get h3, ?_, (get_snoc ..).mpr (.inl h3), (get_snoc ..).mpr (.inr ⟨rfl, rfl⟩), fun u w hu q => ?_⟩
      · rw [take_snoc _ _ (Nat.le_refl _), List.take_length]; exact h2
      · rcases (get_snoc ..).mp q with q | q
        · have := lt_of_get q; omega
        · cases q.2

/-- A block as the machine has it and as it is read off the events. -/
def Match (h : List Ev) (b : Frame) (o : Nat × Nat) : Prop := b.f = o.2 ∧ ∀ x, x ∈ b.dirty ↔ ∃ t v, o.1 < t ∧ h[t]? = some (.assign x v)

inductive All2 (R : Frame → Nat × Nat → Prop) : List Frame → List (Nat × Nat) → Prop
  | nil : All2 R [] []
  | cons {a b l m} : R a b → All2 R l m → All2 R (a :: l) (b :: m)

theorem All2.drop {R} {l m} (h : All2 R l m) (k : Nat) : All2 R (l.drop k) (m.drop k) := by
  induction h generalizing k with
  | nil => simp; exact .nil
  | cons a h ih =>
    cases k with
    | zero => exact .cons a h
    | succ k => exact ih k

theorem All2.map {R S} {l m} (f : Frame → Frame) (h : All2 R l m) (hf : ∀ a b, R a b → S (f a) b) : All2 S (l.map f) m := by
  induction h with
  | nil => exact .nil
  | cons a _ ih => exact .cons (hf _ _ a) ih

theorem All2.mono {R S} {l m} (h : All2 R l m) (hf : ∀ a b, R a b → S a b) : All2 S l m := by
  induction h with
  | nil => exact .nil
  | cons a _ ih => exact .cons (hf _ _ a) ih

structure Inv (d : Decl) (i : Nat → Int) (h : List Ev) (st : St) : Prop where
  blocks : All2 (Match h) st.stk (opens 0 [] h)
  lost : ∀ x, Lost d h x → st.env x = none
  kept : ∀ x, ¬ Lost d h x → st.env x = some (latest i h x)

theorem match_other {h : List Ev} {e : Ev} (ha : ∀ x v, e ≠ .assign x v) {b : Frame} {o : Nat × Nat} (q : Match h b o) : Match (h ++ [e]) b o := by
  refine ⟨q.1, fun x => (q.2 x).trans ⟨fun ⟨t, v, h1, h2⟩ => ⟨t, v, h1, (get_snoc ..).mpr (.inl h2)⟩, fun ⟨t, v, h1, h2⟩ => ⟨t, v, h1, ?_⟩⟩⟩
  exact ((get_snoc ..).mp h2).resolve_right fun z => ha x v z.2

theorem opens_lt (h : List Ev) : ∀ n bs, (∀ o ∈ bs, o.1 < n) → ∀ o ∈ opens n bs h, o.1 < n + h.length := by
  induction h with
  | nil => intro n bs hb o ho; exact hb o ho
  | cons e r ih =>
    intro n bs hb o ho
    have key : ∀ bs', (∀ o ∈ bs', o.1 < n + 1) → o ∈ opens (n + 1) bs' r → o.1 < n + (e :: r).length := fun bs' hb' ho' => by
      have := ih (n + 1) bs' hb' o ho'
      simp only [List.length_cons]; omega
    cases e with
    | enter f =>
      refine key _ (fun o ho => ?_) ho
      rcases List.mem_cons.mp ho with rfl | ho
      · exact Nat.lt_succ_self _
      · exact Nat.lt_succ_of_lt (hb o ho)
    | leave => exact key _ (fun o ho => Nat.lt_succ_of_lt (hb o (List.mem_of_mem_tail ho))) ho
    | assign x v => exact key _ (fun o ho => Nat.lt_succ_of_lt (hb o ho)) ho
    | jump k => exact key _ (fun o ho => Nat.lt_succ_of_lt (hb o (List.mem_of_mem_drop ho))) ho

theorem All2.strengthen {R : Frame → Nat × Nat → Prop} {l m} (h : All2 R l m) (P : Nat × Nat → Prop) (hp : ∀ o ∈ m, P o) : All2 (fun a b => R a b ∧ P b) l m := by
  induction h with
  | nil => exact .nil
  | cons a _ ih => exact .cons ⟨a, hp _ (.head _)⟩ (ih fun o ho => hp o (.tail _ ho))

theorem inv_step {d : Decl} {i : Nat → Int} {h : List Ev} {st st' : St} {e : Ev} (v : Inv d i h st) (q : step d st e = some st') : Inv d i (h ++ [e]) st' := by
  cases e with
  | enter f =>
    cases q
    refine ⟨?_, fun x hx => v.lost x ((lost_other d h _ x (fun _ z => by cases z) (fun _ z => by cases z)).mp hx), fun x hx => ?_⟩
    · rw [opens_snoc]
      refine .cons ⟨rfl, fun x => ⟨fun z => (by cases z), fun ⟨t, w, h1, h2⟩ => ?_⟩⟩ (v.blocks.mono fun _ _ => match_other fun _ _ z => by cases z)
      have := lt_of_get h2
      simp at h1 this
      omega
    · rw [latest_snoc]
      exact v.kept x fun z => hx ((lost_other d h _ x (fun _ z => by cases z) (fun _ z => by cases z)).mpr z)
  | leave =>
    have hb := v.blocks
    simp only [step] at q
    split at q
    · cases q
    · next b r e =>
      cases q
      refine ⟨?_, fun x hx => v.lost x ((lost_other d h _ x (fun _ z => by cases z) (fun _ z => by cases z)).mp hx), fun x hx => ?_⟩
      · rw [opens_snoc]
        have := (hb.drop 1).mono fun _ _ => match_other (e := .leave) fun _ _ z => by cases z
        rw [e] at this
        simpa [open1] using this
      · rw [latest_snoc]
        exact v.kept x fun z => hx ((lost_other d h _ x (fun _ z => by cases z) (fun _ z => by cases z)).mpr z)
  | assign y w =>
    cases q
    refine ⟨?_, fun x hx => ?_, fun x hx => ?_⟩
    · rw [opens_snoc]
      refine (v.blocks.strengthen (fun o => o.1 < h.length) fun o ho => by simpa using opens_lt h 0 [] (fun _ z => by cases z) o ho).map _ ?_
      rintro b o ⟨⟨h1, h2⟩, hl⟩
      refine ⟨h1, fun x => ?_⟩
      rw [List.mem_cons, h2]
      constructor
      · rintro (rfl | ⟨t, z, h3, h4⟩)
        · exact ⟨h.length, w, hl, (get_snoc ..).mpr (.inr ⟨rfl, rfl⟩)⟩
        · exact ⟨t, z, h3, (get_snoc ..).mpr (.inl h4)⟩
      · rintro ⟨t, z, h3, h4⟩
        rcases (get_snoc ..).mp h4 with h4 | ⟨-, h4⟩
        · exact .inr ⟨t, z, h3, h4⟩
        · cases h4; exact .inl rfl
    · by_cases hy : x = y
      · subst hy; exact absurd hx (lost_assign d h x w)
      · show (if x = y then _ else _) = _
        rw [if_neg hy]
        exact v.lost x ((lost_other d h _ x (fun _ z => by cases z) (fun _ z => by cases z; exact hy rfl)).mp hx)
    · show (if x = y then _ else _) = _
      rw [latest_snoc]
      by_cases hy : x = y
      · simp [hy]
      · simp only [hy, if_false]
        exact v.kept x fun z => hx ((lost_other d h _ x (fun _ z => by cases z) (fun _ z => by cases z; exact hy rfl)).mpr z)
  | jump k =>
    have hb := v.blocks.drop k
    simp only [step] at q
    split at q
    · cases q
    · next b r e =>
      cases q
      rw [e] at hb
      generalize ho : (opens 0 [] h).drop k = os at hb
      cases hb with
      | @cons _ o _ os h1 h2 =>
        have hk : (opens 0 [] h)[k]? = some o := by rw [← List.head?_drop, ho]; rfl
        have key : ∀ x, Lost d (h ++ [.jump k]) x ↔ Lost d h x ∨ (d.vol x = false ∧ d.own x = b.f ∧ x ∈ b.dirty) := by
          intro x
          rw [lost_jump, h1.1, h1.2, hk]
          constructor
          · rintro (z | ⟨hv, s, t, w, h3, h4, h5⟩)
            · exact .inl z
            · cases h4; exact .inr ⟨hv, rfl, t, w, h3, h5⟩
          · rintro (z | ⟨hv, h4, t, w, h3, h5⟩)
            · exact .inl z
            · exact .inr ⟨hv, o.1, t, w, h3, by rw [h4], h5⟩
        refine ⟨?_, fun x hx => ?_, fun x hx => ?_⟩
        · rw [opens_snoc]
          show All2 _ _ ((opens 0 [] h).drop k)
          rw [ho]
          exact .cons (match_other (fun _ _ z => by cases z) h1) (h2.mono fun _ _ => match_other fun _ _ z => by cases z)
        · show (if _ then _ else _) = _
          split
          · rfl
          · next z => exact v.lost x (((key x).mp hx).resolve_right z)
        · show (if _ then _ else _) = _
          rw [latest_snoc]
          split
          · next z => exact absurd ((key x).mpr (.inr z)) hx
          · exact v.kept x fun z => hx ((key x).mpr (.inl z))

theorem inv_init (d : Decl) (i : Nat → Int) : Inv d i [] (init i) :=
  ⟨.nil, fun x ⟨_, s, t, t', k, v, h1, h2, h3, h4, h5, h6⟩ => by simp at h4, fun _ _ => rfl⟩

theorem inv_run {d : Decl} {i : Nat → Int} (h' : List Ev) : ∀ {h : List Ev} {st st' : St}, Inv d i h st → run d st h' = some st' → Inv d i (h ++ h') st' := by
  induction h' with
  | nil => intro h st st' v q; cases q; simpa using v
  | cons e r ih =>
    intro h st st' v q
    obtain ⟨s, hs, q⟩ := Option.bind_eq_some_iff.mp q
    have := ih (inv_step v hs) q
    simpa using this

theorem open1_mem {n : Nat} {bs : List (Nat × Nat)} {e : Ev} {o : Nat × Nat} (h : o ∈ open1 n bs e) : o ∈ bs ∨ (o.1 = n ∧ e = .enter o.2) := by
  cases e with
  | enter f =>
    rcases List.mem_cons.mp h with rfl | h
    · exact .inr ⟨rfl, rfl⟩
    · exact .inl h
  | leave => exact .inl (List.mem_of_mem_tail h)
  | assign x v => exact .inl h
  | jump k => exact .inl (List.mem_of_mem_drop h)

theorem take_next (h : List Ev) {n : Nat} (hn : n < h.length) : h.take (n + 1) = h.take n ++ [h[n]] := (List.take_append_getElem hn).symm

/-- A block that is open was open ever since it was entered. -/
theorem still_open (h : List Ev) (s f t : Nat) (hs : s < t) : ∀ t', t ≤ t' → t' ≤ h.length → (s, f) ∈ opens 0 [] (h.take t') → (s, f) ∈ opens 0 [] (h.take t) := by
  intro t'
  induction t' with
  | zero => intro h1; omega
  | succ n ih =>
    intro h1 h2 h3
    by_cases q : t = n + 1
    · rw [q]; exact h3
    · rw [take_next h (by omega), opens_snoc] at h3
      rcases open1_mem h3 with h3 | h3
      · exact ih (by omega) (by omega) h3
      · have := h3.1
        simp only [List.length_take] at this
        omega

/-- A block that is open was entered. -/
theorem opened (h : List Ev) (n : Nat) (bs : List (Nat × Nat)) (hb : ∀ o ∈ bs, Ev.enter o.2 ∈ h) : ∀ t, ∀ o ∈ opens n bs (h.take t), Ev.enter o.2 ∈ h := by
  intro t
  induction t with
  | zero => intro o ho; simp [opens] at ho; exact hb _ ho
  | succ t ih =>
    intro o ho
    by_cases q : t < h.length
    · rw [take_next h q, opens_snoc] at ho
      rcases open1_mem ho with ho | ho
      · exact ih o ho
      · rw [← ho.2]; exact List.getElem_mem q
    · rw [List.take_of_length_le (by omega)] at ho
      apply ih o
      rwa [List.take_of_length_le (by omega)]

end Verif.Loc
