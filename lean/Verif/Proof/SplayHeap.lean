import Verif.Model.Splay

/-! The shape of the heap during `SPLAY`: two spines and the tree between them. -/
namespace Verif.Spl

inductive T
  | nil
  | node (l : T) (x : Nat) (r : T)

def T.id : T → Nat
  | .nil => 0
  | .node _ x _ => x

@[simp] theorem T.id_nil : T.nil.id = 0 := rfl
@[simp] theorem T.id_node {l x r} : (T.node l x r).id = x := rfl

def T.ino : T → List Nat
  | .nil => []
  | .node l x r => l.ino ++ x :: r.ino

@[simp] theorem T.ino_nil : T.nil.ino = [] := rfl
@[simp] theorem T.ino_node {l x r} : (T.node l x r).ino = l.ino ++ x :: r.ino := rfl

def Rep (h : Heap) : T → Prop
  | .nil => True
  | .node l x r => x ≠ 0 ∧ h.l x = l.id ∧ h.r x = r.id ∧ Rep h l ∧ Rep h r

/-- A spine: elements, the latest first, with the subtree each kept. -/
abbrev Spine := List (Nat × T)

def inoL : Spine → List Nat
  | [] => []
  | (x, a) :: k => inoL k ++ (a.ino ++ [x])

def inoR : Spine → List Nat
  | [] => []
  | (x, a) :: k => x :: a.ino ++ inoR k

@[simp] theorem inoL_nil : inoL [] = [] := rfl
@[simp] theorem inoL_cons {x a k} : inoL ((x, a) :: k) = inoL k ++ (a.ino ++ [x]) := rfl
@[simp] theorem inoR_nil : inoR [] = [] := rfl
@[simp] theorem inoR_cons {x a k} : inoR ((x, a) :: k) = x :: a.ino ++ inoR k := rfl

/-- The left spine hangs on the right link of `nd`; `p` is its last element, whose right link is not used. -/
def LRep (h : Heap) (nd : Nat) : Spine → Nat → Prop
  | [], p => p = nd
  | (x, a) :: k, p => p = x ∧ x ≠ 0 ∧ h.l x = a.id ∧ Rep h a ∧ ∃ q, LRep h nd k q ∧ h.r q = x

def RRep (h : Heap) (nd : Nat) : Spine → Nat → Prop
  | [], p => p = nd
  | (x, a) :: k, p => p = x ∧ x ≠ 0 ∧ h.r x = a.id ∧ Rep h a ∧ ∃ q, RRep h nd k q ∧ h.l q = x

theorem Rep.congr {h h' : Heap} {t : T} (e : ∀ z ∈ t.ino, h'.l z = h.l z ∧ h'.r z = h.r z) (H : Rep h t) : Rep h' t := by
  induction t with
  | nil => trivial
  | node l x r il ir =>
    obtain ⟨a0, a1, a2, a3, a4⟩ := H
    have ex := e x (by simp)
    exact ⟨a0, ex.1.trans a1, ex.2.trans a2, il (fun z hz => e z (by simp [hz])) a3, ir (fun z hz => e z (by simp [hz])) a4⟩

theorem Rep.ne0 {h : Heap} {t : T} (H : Rep h t) : ∀ z ∈ t.ino, z ≠ 0 := by
  induction t with
  | nil => simp
  | node l x r il ir =>
    obtain ⟨a0, -, -, a3, a4⟩ := H
    intro z hz
    simp only [T.ino_node, List.mem_append, List.mem_cons] at hz
    rcases hz with hz | rfl | hz
    · exact il a3 z hz
    · exact a0
    · exact ir a4 z hz

theorem LRep.mem {h : Heap} {nd p} {k : Spine} (H : LRep h nd k p) : p ∈ nd :: inoL k := by
  cases k with
  | nil => simp [show p = nd from H]
  | cons f k => obtain ⟨x, a⟩ := f; simp [H.1]

theorem RRep.mem {h : Heap} {nd p} {k : Spine} (H : RRep h nd k p) : p ∈ nd :: inoR k := by
  cases k with
  | nil => simp [show p = nd from H]
  | cons f k => obtain ⟨x, a⟩ := f; simp [H.1]

theorem LRep.congr {h h' : Heap} {nd : Nat} {k : Spine} : ∀ {p}, (∀ z ∈ inoL k, h'.l z = h.l z) → (∀ z ∈ nd :: inoL k, z ≠ p → h'.r z = h.r z) → (nd :: inoL k).Nodup →
    LRep h nd k p → LRep h' nd k p := by
  induction k with
  | nil => intro p _ _ _ H; exact H
  | cons f k ih =>
    obtain ⟨x, a⟩ := f
    intro p el er hn H
    obtain ⟨rfl, a0, a1, a2, q, a3, a4⟩ := H
    have hq := a3.mem
    have key : ∀ z ∈ nd :: inoL k, z ≠ p := by
      intro z hz e; subst e
      simp [List.nodup_append] at hn hz
      grind
    have key2 : ∀ z ∈ a.ino, z ≠ p := by
      intro z hz e; subst e
      simp [List.nodup_append] at hn
      grind
    have hsub : ∀ z ∈ nd :: inoL k, z ∈ nd :: inoL ((p, a) :: k) := by intro z hz; simp at hz ⊢; grind
    refine ⟨rfl, a0, (el p (by simp)).trans a1, a2.congr fun z hz => ⟨el z (by simp [hz]), er z (by simp [hz]) (key2 z hz)⟩, q, ih (fun z hz => el z (by simp [hz])) (fun z hz _ => er z (hsub z hz) (key z hz)) ?_ a3, (er q (hsub q hq) (key q hq)).trans a4⟩
    simp [List.nodup_append] at hn ⊢
    grind

theorem RRep.congr {h h' : Heap} {nd : Nat} {k : Spine} : ∀ {p}, (∀ z ∈ inoR k, h'.r z = h.r z) → (∀ z ∈ nd :: inoR k, z ≠ p → h'.l z = h.l z) → (nd :: inoR k).Nodup →
    RRep h nd k p → RRep h' nd k p := by
  induction k with
  | nil => intro p _ _ _ H; exact H
  | cons f k ih =>
    obtain ⟨x, a⟩ := f
    intro p el er hn H
    obtain ⟨rfl, a0, a1, a2, q, a3, a4⟩ := H
    have hq := a3.mem
    have key : ∀ z ∈ nd :: inoR k, z ≠ p := by
      intro z hz e; subst e
      simp [List.nodup_append] at hn hz
      grind
    have key2 : ∀ z ∈ a.ino, z ≠ p := by
      intro z hz e; subst e
      simp [List.nodup_append] at hn
      grind
    have hsub : ∀ z ∈ nd :: inoR k, z ∈ nd :: inoR ((p, a) :: k) := by intro z hz; simp at hz ⊢; grind
    refine ⟨rfl, a0, (el p (by simp)).trans a1, a2.congr fun z hz => ⟨er z (by simp [hz]) (key2 z hz), el z (by simp [hz])⟩, q, ih (fun z hz => el z (by simp [hz])) (fun z hz _ => er z (hsub z hz) (key z hz)) ?_ a3, (er q (hsub q hq) (key q hq)).trans a4⟩
    simp [List.nodup_append] at hn ⊢
    grind

def fillL : Spine → T → T
  | [], t => t
  | (x, a) :: k, t => fillL k (.node a x t)

def fillR : Spine → T → T
  | [], t => t
  | (x, a) :: k, t => fillR k (.node t x a)

theorem fillL_ino : ∀ {k : Spine} {t : T}, (fillL k t).ino = inoL k ++ t.ino := by
  intro k
  induction k with
  | nil => intro t; rfl
  | cons f k ih => obtain ⟨x, a⟩ := f; intro t; simp [fillL, ih]

theorem fillR_ino : ∀ {k : Spine} {t : T}, (fillR k t).ino = t.ino ++ inoR k := by
  intro k
  induction k with
  | nil => intro t; simp [fillR]
  | cons f k ih => obtain ⟨x, a⟩ := f; intro t; simp [fillR, ih]

theorem LRep.fill {h : Heap} {nd : Nat} : ∀ {k : Spine} {p : Nat} {t : T}, LRep h nd k p → Rep h t → h.r p = t.id → Rep h (fillL k t) ∧ h.r nd = (fillL k t).id := by
  intro k
  induction k with
  | nil => intro p t H R e; cases H; exact ⟨R, e⟩
  | cons f k ih =>
    intro p t H R e
    obtain ⟨rfl, a0, a1, a2, q, a3, a4⟩ := H
    exact ih a3 ⟨a0, a1, e, a2, R⟩ a4

theorem RRep.fill {h : Heap} {nd : Nat} : ∀ {k : Spine} {p : Nat} {t : T}, RRep h nd k p → Rep h t → h.l p = t.id → Rep h (fillR k t) ∧ h.l nd = (fillR k t).id := by
  intro k
  induction k with
  | nil => intro p t H R e; cases H; exact ⟨R, e⟩
  | cons f k ih =>
    intro p t H R e
    obtain ⟨rfl, a0, a1, a2, q, a3, a4⟩ := H
    exact ih a3 ⟨a0, e, a1, R, a2⟩ a4

structure Z (h₀ : Heap) (nd : Nat) (xs : List Nat) (h : Heap) (L : Spine) (p : Nat) (t : T) (R : Spine) (q : Nat) : Prop where
  rep : Rep h t
  root : h.root = t.id
  lrep : LRep h nd L p
  rrep : RRep h nd R q
  ino : inoL L ++ (t.ino ++ inoR R) = xs
  nodup : (nd :: xs).Nodup
  nd0 : nd ≠ 0
  frame : ∀ z, z ≠ nd → z ∉ xs → h.l z = h₀.l z ∧ h.r z = h₀.r z

theorem LRep.ne0 {h : Heap} {nd p} {k : Spine} (H : LRep h nd k p) (hn : nd ≠ 0) : p ≠ 0 := by
  cases k with
  | nil => cases H; exact hn
  | cons f k => rw [H.1]; exact H.2.1

theorem RRep.ne0 {h : Heap} {nd p} {k : Spine} (H : RRep h nd k p) (hn : nd ≠ 0) : p ≠ 0 := by
  cases k with
  | nil => cases H; exact hn
  | cons f k => rw [H.1]; exact H.2.1

variable {h₀ h : Heap} {nd p q x y : Nat} {xs : List Nat} {L R : Spine} {a b c : T}

/-- A change of links of the elements of the middle tree and of the right link of `p` and the left link of `q`. -/
theorem Z.change {h' : Heap} {t t' : T} (H : Z h₀ nd xs h L p t R q) (hr : Rep h' t') (hroot : h'.root = t'.id) (hino : t'.ino = t.ino)
    (hl : ∀ z, z ∉ t.ino → z ≠ q → h'.l z = h.l z) (hrr : ∀ z, z ∉ t.ino → z ≠ p → h'.r z = h.r z) : Z h₀ nd xs h' L p t' R q := by
  have hn := H.nodup
  have hi := H.ino
  subst hi
  have hp := H.lrep.mem
  have hq := H.rrep.mem
  have n1 : (nd :: inoL L).Nodup := by simp [List.nodup_append] at hn ⊢; grind
  have n2 : (nd :: inoR R).Nodup := by simp [List.nodup_append] at hn ⊢; grind
  have d1 : ∀ z ∈ nd :: inoL L, z ∉ t.ino := by intro z; simp [List.nodup_append] at hn ⊢; grind
  have d2 : ∀ z ∈ nd :: inoR R, z ∉ t.ino := by intro z; simp [List.nodup_append] at hn ⊢; grind
  have d3 : ∀ z ∈ inoL L, z ∉ nd :: inoR R := by intro z; simp [List.nodup_append] at hn ⊢; grind
  have d4 : ∀ z ∈ inoR R, z ∉ nd :: inoL L := by intro z; simp [List.nodup_append] at hn ⊢; grind
  refine ⟨hr, hroot, H.lrep.congr (fun z hz => hl z (d1 z (by simp [hz])) fun e => d3 z hz (e ▸ hq)) (fun z hz e => hrr z (d1 z hz) e) n1,
    H.rrep.congr (fun z hz => hrr z (d2 z (by simp [hz])) fun e => d4 z hz (e ▸ hp)) (fun z hz e => hl z (d2 z hz) e) n2, by rw [hino], hn, H.nd0, fun z h1 h2 => ?_⟩
  have h2' : z ∉ t.ino ∧ z ≠ p ∧ z ≠ q := by
    simp at h2 hp hq
    refine ⟨h2.2.1, ?_, ?_⟩
    · rintro rfl; grind
    · rintro rfl; grind
  have := H.frame z h1 h2
  rw [hl z h2'.1 h2'.2.2, hrr z h2'.1 h2'.2.1]
  exact this

theorem Z.disj {t : T} (H : Z h₀ nd xs h L p t R q) : t.ino.Nodup ∧ nd ∉ t.ino ∧ p ∉ t.ino ∧ q ∉ t.ino := by
  have hn := H.nodup
  have hi := H.ino
  subst hi
  have hp := H.lrep.mem
  have hq := H.rrep.mem
  simp [List.nodup_append] at hn hp hq
  grind

theorem Z.rotR (H : Z h₀ nd xs h L p (.node (.node a y b) x c) R q) : ∃ h', rotateRight h y = some h' ∧ Z h₀ nd xs h' L p (.node a y (.node b x c)) R q := by
  obtain ⟨x0, x1, x2, ⟨y0, y1, y2, ra, rb⟩, rc⟩ := H.rep
  have hroot := H.root
  simp only [T.id_node] at hroot
  have hd := H.disj
  simp [List.nodup_append] at hd
  refine ⟨{ root := y, l := upd h.l x b.id, r := upd h.r y x }, ?_, H.change ?_ rfl (by simp) ?_ ?_⟩
  · simp [rotateRight, Heap.right, Heap.setLeft, Heap.setRight, hroot, x0, y0, y2]
  · refine ⟨y0, ?_, ?_, ra.congr ?_, x0, ?_, ?_, rb.congr ?_, rc.congr ?_⟩ <;> simp [upd] <;> grind
  · intro z hz _; simp [upd] at hz ⊢; grind
  · intro z hz _; simp [upd] at hz ⊢; grind

theorem Z.rotL (H : Z h₀ nd xs h L p (.node a x (.node b y c)) R q) : ∃ h', rotateLeft h y = some h' ∧ Z h₀ nd xs h' L p (.node (.node a x b) y c) R q := by
  obtain ⟨x0, x1, x2, ra, y0, y1, y2, rb, rc⟩ := H.rep
  have hroot := H.root
  simp only [T.id_node] at hroot
  have hd := H.disj
  simp [List.nodup_append] at hd
  refine ⟨{ root := y, l := upd h.l y x, r := upd h.r x b.id }, ?_, H.change ?_ rfl (by simp) ?_ ?_⟩
  · simp [rotateLeft, Heap.left, Heap.setLeft, Heap.setRight, hroot, x0, y0, y1]
  · refine ⟨y0, ?_, ?_, ⟨x0, ?_, ?_, ra.congr ?_, rb.congr ?_⟩, rc.congr ?_⟩ <;> simp [upd] <;> grind
  · intro z hz _; simp [upd] at hz ⊢; grind
  · intro z hz _; simp [upd] at hz ⊢; grind

theorem Z.linkL (H : Z h₀ nd xs h L p (.node a x b) R q) : ∃ h', linkLeft h q = some (h', x) ∧ Z h₀ nd xs h' L p a ((x, b) :: R) x := by
  have hroot := H.root
  simp only [T.id_node] at hroot
  have hd := H.disj
  simp [List.nodup_append] at hd
  have q0 := H.rrep.ne0 H.nd0
  have H' : Z h₀ nd xs { h with l := upd h.l q x } L p (.node a x b) R q := by
    refine H.change (H.rep.congr ?_) H.root rfl ?_ ?_ <;> simp [upd] <;> grind
  obtain ⟨x0, x1, x2, ra, rb⟩ := H'.rep
  refine ⟨{ h with root := a.id, l := upd h.l q x }, ?_, ⟨ra.congr ?_, rfl, H'.lrep.congr ?_ ?_ ?_, ⟨rfl, x0, x2, rb.congr ?_, q, H'.rrep.congr ?_ ?_ ?_, ?_⟩, ?_, H.nodup, H.nd0, H'.frame⟩⟩
  · have : h.l x = a.id := H.rep.2.1
    have hqx : x ≠ q := fun e => by subst e; simp at hd
    simp [linkLeft, Heap.left, Heap.setLeft, hroot, x0, q0, upd, hqx, this]
  · simp
  · simp
  · simp
  · have hn := H.nodup; rw [← H.ino] at hn; simp [List.nodup_append] at hn ⊢; grind
  · simp
  · simp
  · simp
  · have hn := H.nodup; rw [← H.ino] at hn; simp [List.nodup_append] at hn ⊢; grind
  · simp [upd]
  · rw [← H.ino]; simp

theorem Z.linkR (H : Z h₀ nd xs h L p (.node a x b) R q) : ∃ h', linkRight h p = some (h', x) ∧ Z h₀ nd xs h' ((x, a) :: L) x b R q := by
  have hroot := H.root
  simp only [T.id_node] at hroot
  have hd := H.disj
  simp [List.nodup_append] at hd
  have p0 := H.lrep.ne0 H.nd0
  have H' : Z h₀ nd xs { h with r := upd h.r p x } L p (.node a x b) R q := by
    refine H.change (H.rep.congr ?_) H.root rfl ?_ ?_ <;> simp [upd] <;> grind
  obtain ⟨x0, x1, x2, ra, rb⟩ := H'.rep
  refine ⟨{ h with root := b.id, r := upd h.r p x }, ?_, ⟨rb.congr ?_, rfl, ⟨rfl, x0, x1, ra.congr ?_, p, H'.lrep.congr ?_ ?_ ?_, ?_⟩, H'.rrep.congr ?_ ?_ ?_, ?_, H.nodup, H.nd0, H'.frame⟩⟩
  · have : h.r x = b.id := H.rep.2.2.1
    have hqx : x ≠ p := fun e => by subst e; simp at hd
    simp [linkRight, Heap.right, Heap.setRight, hroot, x0, p0, upd, hqx, this]
  · simp
  · simp
  · simp
  · simp
  · have hn := H.nodup; rw [← H.ino] at hn; simp [List.nodup_append] at hn ⊢; grind
  · simp [upd]
  · simp
  · simp
  · have hn := H.nodup; rw [← H.ino] at hn; simp [List.nodup_append] at hn ⊢; grind
  · rw [← H.ino]; simp

theorem Z.assemble (H : Z h₀ nd xs h L p (.node a x b) R q) : ∃ h', Spl.assemble h nd p q = some h' ∧ Z h₀ nd xs h' [] nd (.node (fillL L a) x (fillR R b)) [] nd := by
  have hroot := H.root
  simp only [T.id_node] at hroot
  have hd := H.disj
  simp [List.nodup_append] at hd
  have p0 := H.lrep.ne0 H.nd0
  have q0 := H.rrep.ne0 H.nd0
  have x0 := H.rep.1
  have hxp : x ≠ p := fun e => by subst e; simp at hd
  have hxq : x ≠ q := fun e => by subst e; simp at hd
  have hxn : x ≠ nd := fun e => by subst e; simp at hd
  have H' : Z h₀ nd xs { h with r := upd h.r p a.id, l := upd h.l q b.id } L p (.node a x b) R q := by
    refine H.change (H.rep.congr ?_) H.root rfl ?_ ?_ <;> simp [upd] <;> grind
  obtain ⟨-, x1, x2, ra, rb⟩ := H'.rep
  obtain ⟨rl, el⟩ := H'.lrep.fill ra (by simp [upd])
  obtain ⟨rr, er⟩ := H'.rrep.fill rb (by simp [upd])
  have hno : x ∉ inoL L ∧ x ∉ inoR R := by
    have hn := H.nodup; rw [← H.ino] at hn; simp [List.nodup_append] at hn ⊢; grind
  refine ⟨{ h with r := upd (upd h.r p a.id) x (fillR R b).id, l := upd (upd h.l q b.id) x (fillL L a).id }, ?_, ⟨⟨x0, ?_, ?_, rl.congr ?_, rr.congr ?_⟩, hroot, rfl, rfl, ?_, H.nodup, H.nd0, fun z h1 h2 => ?_⟩⟩
  · have e1 : h.l x = a.id := H.rep.2.1
    have e2 : h.r x = b.id := H.rep.2.2.1
    simp only [] at el er
    simp only [Spl.assemble, Heap.left, Heap.right, Heap.setRight, Heap.setLeft, hroot, x0, p0, q0, H.nd0, if_false, Option.bind_eq_bind, Option.bind_some, e1]
    have e3 : upd h.r p a.id x = b.id := by simp [upd, hxp, e2]
    have e4 : upd (upd h.l q b.id) x (fillL L a).id nd = (fillR R b).id := by rw [← er]; simp [upd, Ne.symm hxn]
    rw [e3, el, e4]
  · simp [upd]
  · simp [upd]
  · intro z hz
    rw [fillL_ino] at hz
    have : z ≠ x := by rintro rfl; simp at hz; grind
    simp [upd, this]
  · intro z hz
    rw [fillR_ino] at hz
    have : z ≠ x := by rintro rfl; simp at hz; grind
    simp [upd, this]
  · simp [fillL_ino, fillR_ino, ← H.ino]
  · have := H'.frame z h1 h2
    have hzx : z ≠ x := by rintro rfl; exact h2 (by rw [← H.ino]; simp)
    simpa [upd, hzx] using this

end Verif.Spl
