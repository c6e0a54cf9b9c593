import Verif.Spec.Deque
namespace Verif.Dq
variable {α : Type}

/-- One past the last task that belongs to the deque or is being taken out of it. -/
def Dq.hi (q : Dq α) : Nat :=
  match q.o with
  | .lower b _ | .look b _ | .cas b _ _ | .restore b => b + 1
  | _ => q.bottom

def OwnOk (q : Dq α) (L : List α) : Prop :=
  match q.o with
  | .idle | .push _ => True
  | .grow _ b => b = q.bottom
  | .publish _ b t => b = q.bottom ∧ t ≤ q.top ∧ b - t ≤ q.arr.size
  | .put _ b => b = q.bottom ∧ b - q.top < q.arr.size
  | .bump w b => b = q.bottom ∧ b - q.top < q.arr.size ∧ q.arr.buf (b % q.arr.size) = some w
  | .take => True
  | .lower b t => q.bottom = b + 1 ∧ t ≤ q.top
  | .look b t => q.bottom = b ∧ t ≤ q.top ∧ (t < b → q.top ≤ b ∧ ∀ j, ¬ (q.th j).after b) ∧ (b < t → q.top = b + 1)
  | .cas b t x => q.bottom = b ∧ t = b ∧ b ≤ q.top ∧ (q.top = b → x = L.head?)
  | .restore b => q.bottom = b ∧ q.top = b + 1

def ThOk (q : Dq α) (L : List α) : TPc α → Prop
  | .idle | .top => True
  | .bottom t => t ≤ q.top
  | .array t => t ≤ q.top ∧ (t = q.top → t < q.hi)
  | .read t a => t ≤ q.top ∧ a ≤ q.cur ∧ (t = q.top → t < q.hi ∧ (q.arrs a).buf (t % (q.arrs a).size) = L.head?)
  | .cas t x => t ≤ q.top ∧ (t = q.top → t < q.hi ∧ x = L.head?)

structure Inv (q : Dq α) (L : List α) : Prop where
  perm : (q.pushed.map some).Perm (q.got ++ L.map some)
  size : 0 < q.arr.size
  le : q.top ≤ q.hi
  len : L.length = q.hi - q.top
  cap : q.hi - q.top ≤ q.arr.size
  cells : ∀ n (h : n < L.length), q.arr.buf ((q.top + n) % q.arr.size) = some L[n]
  own : OwnOk q L
  th : ∀ j, ThOk q L (q.th j)

theorem mod_ne {i j s : Nat} (h1 : i < j) (h2 : j - i < s) : i % s ≠ j % s := by
  intro h
  have := Nat.sub_mod_eq_zero_of_mod_eq h.symm
  rw [Nat.mod_eq_of_lt h2] at this
  omega

theorem copy_cell (old : Arr α) {size t n k : Nat} (hk : k < n) (hn : n ≤ size) :
    copy old size t n ((t + k) % size) = old.buf ((t + k) % old.size) := by
  induction n with
  | zero => omega
  | succ n ih =>
    unfold copy
    by_cases e : k = n
    · subst e; rw [if_pos rfl]
    · rw [if_neg (mod_ne (by omega) (by omega))]
      exact ih (by omega) (by omega)

theorem Inv.init {size : Nat} (h : 0 < size) : Inv (init size : Dq α) [] :=
  ⟨List.Perm.refl _, h, Nat.le_refl _, rfl, Nat.zero_le _, fun n h => (by cases h), trivial, fun _ => trivial⟩

theorem head_get {L : List α} (h : 0 < L.length) : L.head? = some L[0] := by
  cases L with
  | nil => cases h
  | cons a r => rfl

theorem Inv.head {q : Dq α} {L : List α} (I : Inv q L) (h : q.top < q.hi) : q.arr.buf (q.top % q.arr.size) = L.head? := by
  have hl : 0 < L.length := by rw [I.len]; omega
  rw [head_get hl]
  exact I.cells 0 hl

/-- The owner moves on and nothing else changes. -/
theorem Inv.owner {q q' : Dq α} {L : List α} (I : Inv q L) (hq : q' = { q with o := q'.o }) (hh : q'.hi = q.hi) (ho : OwnOk q' L) : Inv q' L := by
  have e1 : q'.top = q.top := by rw [hq]
  have e2 : q'.arr = q.arr := by rw [hq]; rfl
  have e3 : q'.th = q.th := by rw [hq]
  have e4 : q'.pushed = q.pushed := by rw [hq]
  have e5 : q'.got = q.got := by rw [hq]
  have e6 : q'.arrs = q.arrs := by rw [hq]
  have e7 : q'.cur = q.cur := by rw [hq]
  refine ⟨by rw [e4, e5]; exact I.perm, by rw [e2]; exact I.size, by rw [e1, hh]; exact I.le, by rw [e1, hh]; exact I.len, by rw [e1, e2, hh]; exact I.cap,
    by rw [e1, e2]; exact I.cells, ho, ?_⟩
  intro j
  have := I.th j
  rw [e3]
  cases hj : q.th j <;> rw [hj] at this <;> unfold ThOk at this ⊢ <;> simp only [e1, hh, e6, e7] <;> exact this

/-- A thief moves on and nothing else changes. -/
theorem Inv.setTh {q : Dq α} {L : List α} (I : Inv q L) {j : Nat} {p : TPc α} (hp : ThOk q L p)
    (ho : ∀ b, p.after b → (q.th j).after b ∨ b < q.bottom ∨ ∀ b' t, q.o = .look b' t → b ≠ b') : Inv (q.setTh j p) L := by
  refine ⟨I.perm, I.size, I.le, I.len, I.cap, I.cells, ?_, ?_⟩
  · have := I.own
    unfold OwnOk at this ⊢
    cases hoo : q.o with
    | look b t =>
      rw [hoo] at this
      rw [show (q.setTh j p).o = .look b t from hoo]
      refine ⟨this.1, this.2.1, fun htb => ⟨(this.2.2.1 htb).1, fun i => ?_⟩, this.2.2.2⟩
      show ¬ TPc.after b (if i = j then p else q.th i)
      by_cases e : i = j
      · rw [if_pos e]
        intro ha
        rcases ho b ha with h | h | h
        · exact (this.2.2.1 htb).2 j h
        · rw [this.1] at h; omega
        · exact h b t hoo rfl
      · rw [if_neg e]; exact (this.2.2.1 htb).2 i
    | _ =>
      rw [hoo] at this
      rw [show (q.setTh j p).o = q.o from rfl, hoo]
      exact this
  · intro i
    show ThOk (q.setTh j p) L (if i = j then p else q.th i)
    have e : ∀ p', ThOk q L p' → ThOk (q.setTh j p) L p' := by
      intro p' h
      cases p' <;> exact h
    by_cases ei : i = j
    · rw [if_pos ei]; exact e _ hp
    · rw [if_neg ei]; exact e _ (I.th i)

/-- The oldest task leaves. -/
theorem Inv.steal {q q' : Dq α} {L : List α} {x : Option α} (I : Inv q L) (h : q.top < q.hi) (hx : x = L.head?)
    (e1 : q'.top = q.top + 1) (e2 : q'.arrs = q.arrs) (e3 : q'.cur = q.cur) (e4 : q'.pushed = q.pushed) (e5 : q'.got = x :: q.got)
    (e6 : q'.hi = q.hi) (e7 : ∀ i, q'.th i = q.th i ∨ q'.th i = .idle) (ho : OwnOk q' L.tail) : Inv q' L.tail := by
  have hl : 0 < L.length := by rw [I.len]; omega
  have ea : q'.arr = q.arr := by unfold Dq.arr; rw [e2, e3]
  obtain ⟨a, r, rfl⟩ : ∃ a r, L = a :: r := by
    cases L with
    | nil => cases hl
    | cons a r => exact ⟨a, r, rfl⟩
  have hx' : x = some a := hx
  have hlen := I.len
  have hcap := I.cap
  rw [List.length_cons] at hlen
  refine ⟨?_, by rw [ea]; exact I.size, by rw [e1, e6]; omega, by rw [e1, e6]; show r.length = _; omega, by rw [e1, e6, ea]; omega, ?_, ho, ?_⟩
  · rw [e4, e5, hx']
    refine I.perm.trans ?_
    show (q.got ++ some a :: r.map some).Perm (some a :: (q.got ++ r.map some))
    exact List.perm_middle
  · intro n hn
    rw [e1, ea]
    have := I.cells (n + 1) (by rw [List.length_cons]; exact Nat.succ_lt_succ hn)
    rw [show q.top + 1 + n = q.top + (n + 1) by omega]
    exact this
  · intro i
    rcases e7 i with e | e
    · rw [e]
      have := I.th i
      cases hi : q.th i <;> rw [hi] at this <;> unfold ThOk at this ⊢
      · trivial
      · trivial
      · rw [e1]; exact Nat.le_succ_of_le this
      · rw [e1]; exact ⟨Nat.le_succ_of_le this.1, fun h => absurd this.1 (by omega)⟩
      · rw [e1, e3]; exact ⟨Nat.le_succ_of_le this.1, this.2.1, fun h => absurd this.1 (by omega)⟩
      · rw [e1]; exact ⟨Nat.le_succ_of_le this.1, fun h => absurd this.1 (by omega)⟩
    · rw [e]; trivial

theorem Inv.thief {q : Dq α} {L : List α} (I : Inv q L) (j : Nat) : ∃ L', Inv (thiefStep q j) L' := by
  have T := I.th j
  unfold thiefStep
  cases hj : q.th j with
  | idle => exact ⟨L, I⟩
  | top => exact ⟨L, I.setTh (Nat.le_refl _) (fun b h => absurd h (by simp [TPc.after]))⟩
  | bottom t =>
    rw [hj] at T
    dsimp only
    split
    · next hlt =>
      refine ⟨L, I.setTh ⟨T, fun h => ?_⟩ (fun b h => .inr (.inl (by cases h; exact hlt)))⟩
      have : q.bottom ≤ q.hi := by
        have := I.own
        unfold OwnOk at this
        unfold Dq.hi
        cases hoo : q.o <;> rw [hoo] at this <;> dsimp only <;> try omega
        all_goals (simp only at this; omega)
      omega
    · exact ⟨L, I.setTh trivial (fun b h => absurd h (by simp [TPc.after]))⟩
  | array t =>
    rw [hj] at T
    refine ⟨L, I.setTh ⟨T.1, Nat.le_refl _, fun h => ⟨T.2 h, ?_⟩⟩ (fun b h => .inl (by rw [hj]; exact h))⟩
    subst h
    exact I.head (T.2 rfl)
  | read t a =>
    rw [hj] at T
    exact ⟨L, I.setTh ⟨T.1, T.2.2⟩ (fun b h => .inl (by rw [hj]; exact h))⟩
  | cas t x =>
    rw [hj] at T
    dsimp only
    by_cases ht : q.top = t
    · rw [if_pos ht]
      obtain ⟨h1, h2⟩ := T.2 ht.symm
      refine ⟨L.tail, I.steal (by rw [ht]; exact h1) h2 (by rw [ht]) rfl rfl rfl rfl rfl (fun i => ?_) ?_⟩
      · show (if i = j then _ else _) = _ ∨ (if i = j then _ else _) = _
        by_cases e : i = j
        · rw [if_pos e]; exact .inr rfl
        · rw [if_neg e]; exact .inl rfl
      · have := I.own
        unfold OwnOk at this ⊢
        dsimp only [Dq.setTh]
        cases hoo : q.o with
        | idle | push | take => rw [hoo] at this; exact this
        | grow w b => rw [hoo] at this; exact this
        | publish w b t' => rw [hoo] at this; exact ⟨this.1, by have := this.2.1; omega, this.2.2⟩
        | put w b =>
          rw [hoo] at this
          refine ⟨this.1, ?_⟩
          have h3 := this.2
          show b - (t + 1) < q.arr.size
          omega
        | bump w b =>
          rw [hoo] at this
          refine ⟨this.1, ?_, this.2.2⟩
          have h3 := this.2.1
          show b - (t + 1) < q.arr.size
          omega
        | lower b t' => rw [hoo] at this; exact ⟨this.1, by have := this.2; omega⟩
        | look b t' =>
          rw [hoo] at this
          obtain ⟨o1, o2, o3, o4⟩ := this
          have hhi : q.hi = b + 1 := by unfold Dq.hi; rw [hoo]
          refine ⟨o1, by omega, fun hlt => ?_, fun hlt => ?_⟩
          · obtain ⟨p1, p2⟩ := o3 hlt
            have hne : t ≠ b := fun e => p2 j (by rw [hj]; exact e)
            refine ⟨by omega, fun i hi => ?_⟩
            change TPc.after b (if i = j then _ else _) at hi
            by_cases e : i = j
            · rw [if_pos e] at hi; exact hi
            · rw [if_neg e] at hi; exact p2 i hi
          · have := o4 hlt; omega
        | cas b t' x' =>
          rw [hoo] at this
          obtain ⟨o1, o2, o3, o4⟩ := this
          exact ⟨o1, o2, by omega, fun e => by omega⟩
        | restore b =>
          rw [hoo] at this
          have hhi : q.hi = b + 1 := by unfold Dq.hi; rw [hoo]
          have := this.2
          omega
    · rw [if_neg ht]
      exact ⟨L, I.setTh trivial (fun b h => absurd h (by simp [TPc.after]))⟩

theorem Inv.ownerStep {q : Dq α} {L : List α} (I : Inv q L) (C : CalmStep q .owner) : ∃ L', Inv (ownerStep q) L' := by
  unfold CalmStep at C
  have O := I.own
  unfold OwnOk at O
  unfold Dq.ownerStep
  cases hoo : q.o with
  | idle => exact ⟨L, I⟩
  | push w =>
    have hhi : q.hi = q.bottom := by unfold Dq.hi; rw [hoo]
    have hs := I.size
    have hcap := I.cap
    dsimp only
    split
    · exact ⟨L, I.owner rfl hhi.symm rfl⟩
    · exact ⟨L, I.owner rfl hhi.symm ⟨rfl, by show q.bottom - q.top < q.arr.size; omega⟩⟩
  | grow w b =>
    rw [hoo] at O
    have hhi : q.hi = q.bottom := by unfold Dq.hi; rw [hoo]
    have hcap := I.cap
    exact ⟨L, I.owner rfl hhi.symm ⟨O, Nat.le_refl _, by show b - q.top ≤ q.arr.size; simp only at O; omega⟩⟩
  | publish w b t =>
    rw [hoo] at O
    obtain ⟨o1, o2, o3⟩ := O
    have hhi : q.hi = q.bottom := by unfold Dq.hi; rw [hoo]
    have hs := I.size
    have hcap := I.cap
    have hlen := I.len
    have hle := I.le
    subst o1
    have ha : ∀ q' : Dq α, q' = { q.setArr (q.cur + 1) ⟨q.arr.size * 2, copy q.arr (q.arr.size * 2) t (q.bottom - t)⟩ with cur := q.cur + 1, o := .put w q.bottom } →
        q'.arr = ⟨q.arr.size * 2, copy q.arr (q.arr.size * 2) t (q.bottom - t)⟩ ∧ q'.hi = q.bottom := by
      rintro _ rfl
      exact ⟨if_pos rfl, rfl⟩
    obtain ⟨ha1, ha2⟩ := ha _ rfl
    refine ⟨L, ⟨I.perm, ?_, ?_, ?_, ?_, ?_, ⟨rfl, ?_⟩, ?_⟩⟩
    · rw [ha1]; show 0 < q.arr.size * 2; omega
    · rw [ha2]; show q.top ≤ _; omega
    · rw [ha2]; show L.length = q.bottom - q.top; omega
    · rw [ha2, ha1]; show q.bottom - q.top ≤ q.arr.size * 2; omega
    · intro n hn
      rw [ha1]
      show copy q.arr (q.arr.size * 2) t (q.bottom - t) ((q.top + n) % (q.arr.size * 2)) = _
      have := copy_cell q.arr (size := q.arr.size * 2) (t := t) (n := q.bottom - t) (k := q.top + n - t) (by omega) (by omega)
      rw [show t + (q.top + n - t) = q.top + n by omega] at this
      rw [this]
      exact I.cells n hn
    · rw [ha1]; show q.bottom - q.top < q.arr.size * 2; omega
    · intro j
      have := I.th j
      show ThOk _ L (q.th j)
      cases hj : q.th j <;> rw [hj] at this <;> unfold ThOk at this ⊢
      · trivial
      · trivial
      · exact this
      · rw [ha2]; rw [hhi] at this; exact this
      · rw [ha2]
        rw [hhi] at this
        refine ⟨this.1, Nat.le_succ_of_le this.2.1, fun h => ?_⟩
        rename_i a
        have hne : a ≠ q.cur + 1 := by have := this.2.1; omega
        show _ ∧ (if a = q.cur + 1 then _ else q.arrs a).buf (_ % (if a = q.cur + 1 then _ else q.arrs a).size) = _
        rw [if_neg hne]
        exact this.2.2 h
      · rw [ha2]; rw [hhi] at this; exact this
  | put w b =>
    rw [hoo] at O
    obtain ⟨o1, o2⟩ := O
    have hhi : q.hi = q.bottom := by unfold Dq.hi; rw [hoo]
    have hs := I.size
    have hcap := I.cap
    have hlen := I.len
    have hle := I.le
    subst o1
    have ha : ∀ q' : Dq α, q' = { q.setArr q.cur { q.arr with buf := fun k => if k = q.bottom % q.arr.size then some w else q.arr.buf k } with o := .bump w q.bottom } →
        q'.arr = { q.arr with buf := fun k => if k = q.bottom % q.arr.size then some w else q.arr.buf k } ∧ q'.hi = q.bottom := by
      rintro _ rfl
      exact ⟨if_pos rfl, rfl⟩
    obtain ⟨ha1, ha2⟩ := ha _ rfl
    have hne : ∀ n, n < q.bottom - q.top → (q.top + n) % q.arr.size ≠ q.bottom % q.arr.size := fun n hn => mod_ne (by omega) (by omega)
    refine ⟨L, ⟨I.perm, ?_, ?_, ?_, ?_, ?_, ⟨rfl, ?_, ?_⟩, ?_⟩⟩
    · rw [ha1]; exact hs
    · rw [ha2]; show q.top ≤ _; omega
    · rw [ha2]; show L.length = q.bottom - q.top; omega
    · rw [ha2, ha1]; show q.bottom - q.top ≤ q.arr.size; omega
    · intro n hn
      rw [ha1]
      show (if (q.top + n) % q.arr.size = q.bottom % q.arr.size then _ else _) = _
      rw [if_neg (hne n (by omega))]
      exact I.cells n hn
    · rw [ha1]; exact o2
    · rw [ha1]; exact if_pos rfl
    · intro j
      have := I.th j
      show ThOk _ L (q.th j)
      cases hj : q.th j <;> rw [hj] at this <;> unfold ThOk at this ⊢
      · trivial
      · trivial
      · exact this
      · rw [ha2]; rw [hhi] at this; exact this
      · rw [ha2]
        rw [hhi] at this
        rename_i t a
        refine ⟨this.1, this.2.1, fun h => ?_⟩
        change t = q.top at h
        obtain ⟨h1, h2⟩ := this.2.2 h
        refine ⟨h1, ?_⟩
        show (if a = q.cur then _ else q.arrs a).buf (t % (if a = q.cur then _ else q.arrs a).size) = _
        by_cases e : a = q.cur
        · rw [if_pos e]
          subst e
          show (if t % q.arr.size = q.bottom % q.arr.size then _ else _) = _
          rw [if_neg (by rw [h]; exact hne 0 (by omega))]
          exact h2
        · rw [if_neg e]; exact h2
      · rw [ha2]; rw [hhi] at this; exact this
  | bump w b =>
    rw [hoo] at O
    obtain ⟨o1, o2, o3⟩ := O
    have hhi : q.hi = q.bottom := by unfold Dq.hi; rw [hoo]
    have hs := I.size
    have hcap := I.cap
    have hlen := I.len
    have hle := I.le
    subst o1
    refine ⟨L ++ [w], ⟨?_, hs, ?_, ?_, ?_, ?_, trivial, ?_⟩⟩
    · show (some w :: q.pushed.map some).Perm (q.got ++ (L ++ [w]).map some)
      rw [List.map_append, ← List.append_assoc]
      exact (List.Perm.cons _ I.perm).trans (List.perm_append_singleton _ _).symm
    · show q.top ≤ q.bottom + 1; omega
    · show (L ++ [w]).length = q.bottom + 1 - q.top
      rw [List.length_append, List.length_singleton]; omega
    · show q.bottom + 1 - q.top ≤ q.arr.size; omega
    · intro n hn
      show q.arr.buf ((q.top + n) % q.arr.size) = _
      rw [List.length_append, List.length_singleton] at hn
      by_cases e : n < L.length
      · rw [List.getElem_append_left e]; exact I.cells n e
      · have : n = L.length := by omega
        subst this
        rw [List.getElem_append_right (Nat.le_refl _)]
        simp only [Nat.sub_self, List.getElem_cons_zero]
        rw [← o3, show q.top + L.length = q.bottom by omega]
    · intro j
      have := I.th j
      have hh : ∀ t, t = q.top → t < q.hi → L.head? = (L ++ [w]).head? := by
        intro t h1 h2
        have : 0 < L.length := by omega
        cases L with
        | nil => cases this
        | cons => rfl
      show ThOk _ _ (q.th j)
      cases hj : q.th j <;> rw [hj] at this <;> unfold ThOk at this ⊢
      · trivial
      · trivial
      · exact this
      · refine ⟨this.1, fun h => ?_⟩
        have := this.2 h
        show _ < q.bottom + 1
        omega
      · refine ⟨this.1, this.2.1, fun h => ?_⟩
        obtain ⟨h1, h2⟩ := this.2.2 h
        exact ⟨by show _ < q.bottom + 1; omega, by rw [← hh _ h h1]; exact h2⟩
      · refine ⟨this.1, fun h => ?_⟩
        obtain ⟨h1, h2⟩ := this.2 h
        exact ⟨by show _ < q.bottom + 1; omega, by rw [← hh _ h h1]; exact h2⟩
  | take =>
    rw [hoo] at C
    have O' : q.bottom ≠ 0 := C
    have hp : pred q.bottom = q.bottom - 1 := if_neg O'
    have hhi : q.hi = q.bottom := by unfold Dq.hi; rw [hoo]
    refine ⟨L, I.owner rfl ?_ ⟨?_, Nat.le_refl _⟩⟩
    · show pred q.bottom + 1 = q.hi; omega
    · show q.bottom = pred q.bottom + 1; omega
  | lower b t =>
    rw [hoo] at O C
    obtain ⟨o1, o2⟩ := O
    have hhi : q.hi = b + 1 := by unfold Dq.hi; rw [hoo]
    have hle := I.le
    refine ⟨L, ⟨I.perm, I.size, by show q.top ≤ b + 1; omega, by rw [I.len, hhi]; rfl, by have := I.cap; rw [hhi] at this; exact this, I.cells, ?_, ?_⟩⟩
    · exact ⟨rfl, o2, C, fun h => by show q.top = b + 1; omega⟩
    · intro j
      have := I.th j
      show ThOk _ L (q.th j)
      cases hj : q.th j <;> rw [hj] at this <;> unfold ThOk at this ⊢ <;> first | trivial | exact this | (rw [hhi] at this; exact this)
  | look b t =>
    rw [hoo] at O
    obtain ⟨o1, o2, o3, o4⟩ := O
    have hhi : q.hi = b + 1 := by unfold Dq.hi; rw [hoo]
    have hle := I.le
    have hlen := I.len
    dsimp only
    split
    · split
      · next h =>
        refine ⟨L, I.owner rfl hhi.symm ⟨o1, h, by show b ≤ q.top; omega, fun e => ?_⟩⟩
        show q.arr.buf (b % q.arr.size) = _
        change q.top = b at e
        rw [← e]
        exact I.head (by omega)
      · have hlt : t < b := by omega
        obtain ⟨p1, p2⟩ := o3 hlt
        have hl : L.length - 1 < L.length := by omega
        have hx : q.arr.buf (b % q.arr.size) = some (L[L.length - 1]'hl) := by
          rw [← I.cells (L.length - 1) hl, show q.top + (L.length - 1) = b by omega]
        have hL : L = L.dropLast ++ [L[L.length - 1]'hl] := by
          rw [← List.getLast_eq_getElem (fun e => by rw [e] at hl; cases hl)]
          exact (List.dropLast_concat_getLast _).symm
        rw [hx]
        have hcap := I.cap
        refine ⟨L.dropLast, ⟨?_, I.size, ?_, ?_, ?_, ?_, trivial, ?_⟩⟩
        · refine I.perm.trans ?_
          show (q.got ++ L.map some).Perm (some (L[L.length - 1]'hl) :: (q.got ++ L.dropLast.map some))
          have : L.map some = L.dropLast.map some ++ [some (L[L.length - 1]'hl)] := by
            rw [← List.map_singleton, ← List.map_append, ← hL]
          rw [this, ← List.append_assoc]
          exact List.perm_append_singleton _ _
        · show q.top ≤ q.bottom; omega
        · show L.dropLast.length = q.bottom - q.top
          rw [List.length_dropLast]; omega
        · show q.bottom - q.top ≤ q.arr.size; omega
        · intro n hn
          rw [List.getElem_dropLast]
          exact I.cells n (by rw [List.length_dropLast] at hn; omega)
        · intro j
          have T := I.th j
          have P := p2 j
          have hh : q.top < b → L.head? = L.dropLast.head? := by
            intro h
            have : 2 ≤ L.length := by omega
            match L, this with
            | a :: c :: r, _ => rfl
          show ThOk _ _ (q.th j)
          cases hj : q.th j <;> rw [hj] at T P <;> unfold ThOk at T ⊢ <;> unfold TPc.after at P
          · trivial
          · trivial
          · exact T
          · refine ⟨T.1, fun h => ?_⟩
            change _ = q.top at h
            show _ < q.bottom
            omega
          · refine ⟨T.1, T.2.1, fun h => ?_⟩
            change _ = q.top at h
            rw [← hh (by omega)]
            exact ⟨by show _ < q.bottom; omega, (T.2.2 h).2⟩
          · refine ⟨T.1, fun h => ?_⟩
            change _ = q.top at h
            rw [← hh (by omega)]
            exact ⟨by show _ < q.bottom; omega, (T.2 h).2⟩
    · exact ⟨L, I.owner rfl hhi.symm ⟨o1, o4 (by omega)⟩⟩
  | cas b t x =>
    rw [hoo] at O
    obtain ⟨o1, o2, o3, o4⟩ := O
    have hhi : q.hi = b + 1 := by unfold Dq.hi; rw [hoo]
    have hle := I.le
    dsimp only
    by_cases ht : q.top = t
    · rw [if_pos ht]
      exact ⟨L.tail, I.steal (by omega) (o4 (by omega)) (by show t + 1 = q.top + 1; omega) rfl rfl rfl rfl hhi.symm (fun i => .inl rfl)
        ⟨o1, by show t + 1 = b + 1; omega⟩⟩
    · rw [if_neg ht]
      exact ⟨L, I.owner rfl hhi.symm ⟨o1, by show q.top = b + 1; omega⟩⟩
  | restore b =>
    rw [hoo] at O
    obtain ⟨o1, o2⟩ := O
    have hhi : q.hi = b + 1 := by unfold Dq.hi; rw [hoo]
    refine ⟨L, ⟨I.perm, I.size, by show q.top ≤ b + 1; omega, by rw [I.len, hhi]; rfl, by have := I.cap; rw [hhi] at this; exact this, I.cells, trivial, ?_⟩⟩
    intro j
    have := I.th j
    show ThOk _ L (q.th j)
    cases hj : q.th j <;> rw [hj] at this <;> unfold ThOk at this ⊢ <;> first | trivial | exact this | (rw [hhi] at this; exact this)

theorem Inv.step {q : Dq α} {L : List α} (I : Inv q L) {a : Act α} {h : List (Act α)} (C : Calm q (a :: h)) : ∃ L', Inv (step q a) L' := by
  have C1 := C.1
  cases a with
  | push w =>
    simp only [Dq.step]
    cases hoo : q.o with
    | idle => exact ⟨L, I.owner rfl (by unfold Dq.hi; rw [hoo]) trivial⟩
    | _ => exact ⟨L, I⟩
  | take =>
    simp only [Dq.step]
    cases hoo : q.o with
    | idle => exact ⟨L, I.owner rfl (by unfold Dq.hi; rw [hoo]) trivial⟩
    | _ => exact ⟨L, I⟩
  | owner => exact I.ownerStep C1
  | steal j =>
    simp only [Dq.step]
    split
    · exact ⟨L, I.setTh trivial (fun b h => absurd h (by simp [TPc.after]))⟩
    · exact ⟨L, I⟩
  | thief j => exact I.thief j

theorem Inv.run (h : List (Act α)) {q : Dq α} {L : List α} (I : Inv q L) (C : Calm q h) : ∃ L', Inv (run q h) L' := by
  induction h generalizing q L with
  | nil => exact ⟨L, I⟩
  | cons a h ih =>
    obtain ⟨L', I'⟩ := I.step C
    exact ih I' C.2

theorem Inv.content {q : Dq α} {L : List α} (I : Inv q L) (h : q.hi = q.bottom) : q.content = L.map some := by
  apply List.ext_getElem
  · simp only [Dq.content, List.length_map, List.length_range, I.len, h]
  · intro n h1 h2
    simp only [Dq.content, List.getElem_map, List.getElem_range]
    rw [List.length_map] at h2
    exact I.cells n h2

theorem Inv.fair {q : Dq α} {L : List α} (I : Inv q L) : Fair q := by
  refine ⟨⟨_, I.perm⟩, fun h => ?_⟩
  rw [I.content]
  · exact I.perm
  · unfold Dq.hi
    cases hoo : q.o with
    | idle => rfl
    | _ => first | rfl | (rw [hoo] at h; cases h)

theorem Fair.count {q : Dq α} (F : Fair q) : q.got.length ≤ q.pushed.length := by
  obtain ⟨⟨r, hr⟩, -⟩ := F
  have := hr.length_eq
  rw [List.length_map, List.length_append] at this
  omega

theorem Inv.count {q : Dq α} {L : List α} (I : Inv q L) : q.pushed.length = q.got.length + (q.hi - q.top) := by
  have := I.perm.length_eq
  rw [List.length_map, List.length_append, List.length_map, I.len] at this
  exact this

/-- A thief on its way to the oldest task obtains it if it is not interrupted. -/
theorem after_wins {q : Dq α} {j t : Nat} (h : (q.th j).after t) (ht : q.top = t) :
    (run q [.thief j, .thief j, .thief j]).got.length = q.got.length + 1 ∧ (run q [.thief j, .thief j, .thief j]).pushed = q.pushed := by
  cases hj : q.th j with
  | idle | top | bottom => rw [hj] at h; exact h.elim
  | array t' | read t' a | cas t' x =>
    rw [hj] at h
    cases h
    simp only [run, List.foldl_cons, List.foldl_nil, step, thiefStep, hj, Dq.setTh, if_true, ht, List.length_cons, and_self]

/-- Where the owner is about to go wrong, it can. -/
theorem wrong {q : Dq α} {L : List α} (I : Inv q L) {a : Act α} (h : ¬ CalmStep q a) : ∃ h', ¬ Fair (run q (a :: h')) := by
  cases a with
  | owner =>
    unfold CalmStep at h
    have hc := I.count
    have hle := I.le
    cases hoo : q.o with
    | take =>
      rw [hoo] at h
      have hb : q.bottom = 0 := Classical.not_not.1 h
      have hhi : q.hi = q.bottom := by unfold Dq.hi; rw [hoo]
      have ht : q.top = 0 := by omega
      refine ⟨[.owner, .owner], fun F => ?_⟩
      have := F.count
      have hp : pred 0 = 2 ^ 64 - 1 := rfl
      simp only [run, List.foldl_cons, List.foldl_nil, step, ownerStep, hoo, hb, ht, hp] at this
      rw [if_pos (Nat.zero_le _), if_neg (by decide)] at this
      simp only [List.length_cons] at this
      omega
    | lower b t =>
      rw [hoo] at h
      have hhi : q.hi = b + 1 := by unfold Dq.hi; rw [hoo]
      obtain ⟨h1, h2⟩ := Classical.not_imp.1 h
      have e1 : (run q [.owner, .owner]).got.length = q.got.length + 1 ∧ (run q [.owner, .owner]).pushed = q.pushed ∧
          (run q [.owner, .owner]).top = q.top ∧ (run q [.owner, .owner]).th = q.th := by
        simp only [run, List.foldl_cons, List.foldl_nil, step, ownerStep, hoo, if_pos (Nat.le_of_lt h1), if_neg (Nat.ne_of_lt h1), List.length_cons, and_self]
      obtain ⟨e1, e2, e3, e4⟩ := e1
      by_cases hb : q.top ≤ b
      · have h3 : ∃ j, (q.th j).after b := Classical.byContradiction fun hn => h2 ⟨hb, fun j hj => hn ⟨j, hj⟩⟩
        obtain ⟨j, hj⟩ := h3
        have T := I.th j
        have ht : q.top = b := by
          cases hjj : q.th j <;> rw [hjj] at T hj <;> unfold TPc.after at hj <;> first | exact hj.elim | (subst hj; have := T.1; omega)
        refine ⟨[.owner, .thief j, .thief j, .thief j], fun F => ?_⟩
        have w := after_wins (q := run q [.owner, .owner]) (j := j) (t := b) (by rw [e4]; exact hj) (by rw [e3]; exact ht)
        have := F.count
        change (run (run q [.owner, .owner]) [.thief j, .thief j, .thief j]).got.length ≤ (run (run q [.owner, .owner]) [.thief j, .thief j, .thief j]).pushed.length at this
        rw [w.1, w.2, e1, e2] at this
        omega
      · refine ⟨[.owner], fun F => ?_⟩
        have := F.count
        rw [e1, e2] at this
        omega
    | _ => rw [hoo] at h; exact absurd trivial h
  | _ => exact absurd trivial h

end Verif.Dq
