import Verif.Spec.Slot
/-!
# Tame programs of sections and spawn scopes
-/
namespace Verif.Sl
open Spec

theorem after_append (b : Book) (x y : List Ev) : b.after (x ++ y) = (b.after x).after y := by simp [Book.after, List.foldl_append]

theorem after_cons (b : Book) (e : Ev) (y : List Ev) : b.after (e :: y) = (b.note e).after y := rfl

theorem right_nil (b : Book) : AllRight [] b := by
  intro t₁ e t₂ h
  have := congrArg List.length h
  simp at this

theorem right_cons (e : Ev) (l : List Ev) (b : Book) : AllRight (e :: l) b ↔ Right b e ∧ AllRight l (b.note e) := by
  constructor
  · intro h
    exact ⟨h [] e l rfl, fun t₁ x t₂ he => h (e :: t₁) x t₂ (by rw [he]; rfl)⟩
  · rintro ⟨h1, h2⟩ t₁ x t₂ he
    cases t₁ with
    | nil =>
      simp only [List.nil_append, List.cons.injEq] at he
      rw [← he.1]
      exact h1
    | cons y t₁ =>
      simp only [List.cons_append, List.cons.injEq] at he
      obtain ⟨rfl, he⟩ := he
      exact h2 t₁ x t₂ he

theorem right_append : ∀ (x y : List Ev) (b : Book), AllRight (x ++ y) b ↔ AllRight x b ∧ AllRight y (b.after x)
  | [], y, b => by simp [right_nil, Book.after]
  | e :: x, y, b => by
    rw [List.cons_append, right_cons, right_cons, right_append x y, after_cons]
    exact and_assoc.symm

/-- The book and the state. -/
def St.book (s : St) : Book := ⟨s.live, s.sec⟩

structure Rel (i : Bool) (l : Lv) (s : St) : Prop where
  sec : i = false → s.sec = []
  fresh : l = .fresh → ∀ h t, s.sec = h :: t → s.slot = .sect h
  here : l = .here → ∃ j r, s.slot = .pool j ∧ s.live = j :: r

theorem throwIn_right (s : St) (e : Nat) (h : ∀ x t, s.sec = x :: t → s.slot = .sect x) :
    AllRight (throwIn s e).1 s.book ∧ s.book.after (throwIn s e).1 = s.book ∧ (throwIn s e).2.1 = s := by
  simp only [throwIn]
  split
  · next hs => exact ⟨(right_cons _ _ _).mpr ⟨hs, right_nil _⟩, rfl, rfl⟩
  · next hs =>
    cases hc : s.sec with
    | nil => exact absurd hc hs
    | cons x t =>
      rw [h x t hc]
      exact ⟨(right_cons _ _ _).mpr ⟨by show s.sec.head? = some x; rw [hc]; rfl, right_nil _⟩, rfl, rfl⟩

theorem run_right : ∀ (p : Prog) (i : Bool) (l : Lv) (s : St), Tame i l p → Rel i l s →
    AllRight (run p s).1 s.book ∧ ((run p s).2.2 ≠ .over → s.book.after (run p s).1 = (run p s).2.1.book ∧ (run p s).2.1.sec = s.sec ∧ (touches p = false → (run p s).2.1.live = s.live))
  | .done, i, l, s, _, _ => ⟨right_nil _, fun _ => ⟨rfl, rfl, fun _ => rfl⟩⟩
  | .opens k, i, l, s, t, h => by
    simp only [Tame] at t
    obtain ⟨k1, k2⟩ := run_right k i .here { s with slot := .pool s.next, live := s.next :: s.live, next := s.next + 1 } t ⟨h.sec, fun e => (by cases e), fun _ => ⟨_, _, rfl, rfl⟩⟩
    simp only [run]
    refine ⟨(right_cons _ _ _).mpr ⟨trivial, k1⟩, fun hn => ?_⟩
    obtain ⟨a, b, -⟩ := k2 hn
    exact ⟨a, b, fun e => by simp [touches] at e⟩
  | .spawn k, i, l, s, t, h => by
    simp only [Tame] at t
    obtain ⟨rfl, t⟩ := t
    obtain ⟨j, r, e1, e2⟩ := h.here rfl
    obtain ⟨k1, k2⟩ := run_right k i .here s t h
    have hm : j ∈ s.live := by rw [e2]; exact List.mem_cons_self
    simp only [run, e1, hm, if_true]
    exact ⟨(right_cons _ _ _).mpr ⟨by show s.live.head? = some j; rw [e2]; rfl, k1⟩, fun hn => k2 hn⟩
  | .destroy k, i, l, s, t, h => by
    simp only [Tame] at t
    have key : ∀ s' : St, s'.sec = s.sec → s'.slot = s.slot → Rel i (if l = .fresh then .fresh else .other) s' := by
      intro s' q1 q2
      refine ⟨fun e => q1.trans (h.sec e), fun e x y q => ?_, fun e => ?_⟩
      · split at e
        · next hl => rw [q2]; exact h.fresh hl x y (q1 ▸ q)
        · cases e
      · split at e <;> cases e
    simp only [run]
    split
    · next hl =>
      obtain ⟨k1, k2⟩ := run_right k i _ s t (key s rfl rfl)
      refine ⟨k1, fun hn => ?_⟩
      obtain ⟨a, b, -⟩ := k2 hn
      exact ⟨a, b, fun e => by simp [touches] at e⟩
    · next j r hl =>
      obtain ⟨k1, k2⟩ := run_right k i _ { s with live := r } t (key _ rfl rfl)
      have hb : s.book.note (.destroyed j) = St.book { s with live := r } := by simp [St.book, Book.note, hl]
      refine ⟨(right_cons _ _ _).mpr ⟨trivial, by rw [hb]; exact k1⟩, fun hn => ?_⟩
      obtain ⟨a, b, -⟩ := k2 hn
      refine ⟨?_, b, fun e => by simp [touches] at e⟩
      rw [after_cons, hb]
      exact a
  | .throw e, i, l, s, t, h => by
    simp only [Tame] at t
    have hs : ∀ x y, s.sec = x :: y → s.slot = .sect x := by
      intro x y q
      cases i with
      | false => rw [h.sec rfl] at q; cases q
      | true => exact h.fresh (t rfl) x y q
    obtain ⟨k1, k2, k3⟩ := throwIn_right s e hs
    refine ⟨k1, fun _ => ?_⟩
    show s.book.after (throwIn s e).1 = (throwIn s e).2.1.book ∧ (throwIn s e).2.1.sec = s.sec ∧ (_ → (throwIn s e).2.1.live = s.live)
    rw [k3]
    exact ⟨k2, rfl, fun _ => rfl⟩
  | .guard hd b k, i, l, s, t, h => by
    simp only [Tame] at t
    obtain ⟨t1, t2, t3⟩ := t
    obtain ⟨b1, b2⟩ := run_right b true .fresh s.enter t1 ⟨fun e => (by cases e), fun _ x y q => (by simp [St.enter] at q; simp [St.enter, q.1]), fun e => (by cases e)⟩
    have ik := fun s' r => run_right k i (if touches b = true ∧ l ≠ .fresh then .other else l) s' t2 r
    simp only [run]
    revert b1 b2
    generalize run b s.enter = R
    obtain ⟨tr, s1, o⟩ := R
    intro b1 b2
    have en : s.book.note (.enter s.next) = s.enter.book := rfl
    have fin : ∀ (q : List Ev × St × Out), o ≠ .over → AllRight q.1 (s.leave s1).book →
        (q.2.2 ≠ .over → (s.leave s1).book.after q.1 = q.2.1.book ∧ q.2.1.sec = s.sec ∧ (touches (.guard hd b k) = false → q.2.1.live = s.live)) →
        AllRight (.enter s.next :: tr ++ .leave :: q.1) s.book ∧
        (q.2.2 ≠ .over → s.book.after (.enter s.next :: tr ++ .leave :: q.1) = q.2.1.book ∧ q.2.1.sec = s.sec ∧ (touches (.guard hd b k) = false → q.2.1.live = s.live)) := by
      intro q ho q1 q2
      obtain ⟨a1, a2, a3⟩ := b2 ho
      have lv : s1.book.note .leave = (s.leave s1).book := by
        have a2' : s1.sec = s.next :: s.sec := a2
        simp [St.book, Book.note, St.leave, a2']
      have a1' : s.enter.book.after tr = s1.book := a1
      refine ⟨?_, fun hn => ?_⟩
      · rw [List.cons_append, right_cons, right_append, right_cons, en, a1', lv]
        exact ⟨trivial, b1, trivial, q1⟩
      · rw [List.cons_append, after_cons, after_append, after_cons, en, a1', lv]
        exact q2 hn
    have rel : o ≠ .over → Rel i (if touches b = true ∧ l ≠ .fresh then .other else l) (s.leave s1) := by
      intro ho
      obtain ⟨a1, a2, a3⟩ := b2 ho
      refine ⟨h.sec, fun e x y q => ?_, fun e => ?_⟩
      · have hl : l = .fresh := by
          split at e
          · cases e
          · exact e
        have := h.fresh hl x y q
        show s.slot.init = .sect x
        rw [this]
        rfl
      · have hl : l = .here ∧ touches b = false := by
          split at e
          · cases e
          · next hh =>
            refine ⟨e, ?_⟩
            cases ht : touches b with
            | false => rfl
            | true => exact absurd ⟨ht, by rw [e]; simp⟩ hh
        obtain ⟨j, r, e1, e2⟩ := h.here hl.1
        refine ⟨j, r, ?_, ?_⟩
        · show s.slot.init = .pool j
          rw [e1]
          rfl
        · have := a3 hl.2
          show s1.live = j :: r
          rw [← e2]
          exact this
    have kk : o ≠ .over → AllRight (run k (s.leave s1)).1 (s.leave s1).book ∧
        ((run k (s.leave s1)).2.2 ≠ .over → (s.leave s1).book.after (run k (s.leave s1)).1 = (run k (s.leave s1)).2.1.book ∧ (run k (s.leave s1)).2.1.sec = s.sec ∧
          (touches (.guard hd b k) = false → (run k (s.leave s1)).2.1.live = s.live)) := by
      intro ho
      obtain ⟨k1, k2⟩ := ik (s.leave s1) (rel ho)
      refine ⟨k1, fun hn => ?_⟩
      obtain ⟨c1, c2, c3⟩ := k2 hn
      refine ⟨c1, c2, fun e => ?_⟩
      simp only [touches, Bool.or_eq_false_iff] at e
      rw [c3 e.2]
      exact (b2 ho).2.2 e.1
    cases o with
    | over => exact ⟨(right_cons _ _ _).mpr ⟨trivial, b1⟩, fun hn => absurd rfl hn⟩
    | ok => exact fin (run k (s.leave s1)) (by simp) (kk (by simp)).1 (kk (by simp)).2
    | thrown e =>
      simp only
      cases hd with
      | true => exact fin (run k (s.leave s1)) (by simp) (kk (by simp)).1 (kk (by simp)).2
      | false =>
        have hs : ∀ x y, (s.leave s1).sec = x :: y → (s.leave s1).slot = .sect x := by
          intro x y q
          have q' : s.sec = x :: y := q
          cases i with
          | false => rw [h.sec rfl] at q'; cases q'
          | true =>
            have := h.fresh (t3 rfl rfl) x y q'
            show s.slot.init = .sect x
            rw [this]
            rfl
        obtain ⟨c1, c2, c3⟩ := throwIn_right (s.leave s1) e hs
        refine fin (throwIn (s.leave s1) e) (by simp) c1 (fun _ => ?_)
        rw [c3]
        refine ⟨c2, rfl, fun et => ?_⟩
        simp only [touches, Bool.or_eq_false_iff] at et
        exact (b2 (by simp)).2.2 et.1

/-! ## Any program -/

/-- In a section that has opened no spawn scope, or after its own ones, the field is what it was at the beginning of the section. -/
theorem throwIn_sec (s : St) (e : Nat) : (throwIn s e).2.1 = s := by
  simp only [throwIn]
  split
  · rfl
  · split <;> rfl

end Verif.Sl
