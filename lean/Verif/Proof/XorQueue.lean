import Verif.Spec.XorQueue
namespace Verif.Xq

theorem set_same (m : Mem) (a v : W) : set m a v a = v := by simp [set]
theorem set_ne (m : Mem) (v : W) {a b : W} (h : b ≠ a) : set m a v b = m b := by simp [set, h]

/-! ## The cookie -/

def Low (wide : Bool) (p : W) : Prop := wide = true ∨ p.toNat < 2 ^ 32

theorem mix_mix {wide : Bool} {c p : W} (h : Low wide p) : mix wide c (mix wide c p) = p := by
  cases wide with
  | true => simp only [mix, if_true]; rw [← BitVec.xor_assoc, BitVec.xor_self, BitVec.zero_xor]
  | false =>
    have hp : p.toNat < 2 ^ 32 := h.resolve_left (by simp)
    simp only [mix, Bool.false_eq_true, if_false]
    rw [BitVec.setWidth_setWidth_of_le _ (by decide), BitVec.setWidth_eq, ← BitVec.xor_assoc, BitVec.xor_self, BitVec.zero_xor]
    apply BitVec.eq_of_toNat_eq
    simp only [BitVec.toNat_setWidth]
    rw [Nat.mod_eq_of_lt hp, Nat.mod_eq_of_lt p.isLt]

theorem low_zero (wide : Bool) : Low wide 0 := .inr (by decide)

theorem mix_inj {wide : Bool} {c p q : W} (hp : Low wide p) (hq : Low wide q) (h : mix wide c p = mix wide c q) : p = q := by
  rw [← mix_mix (c := c) hp, h, mix_mix hq]

/-! ## Fields -/

variable {L : Layout} {wide : Bool}

theorem Layout.Ok.ne (hL : L.Ok wide) {f g : Field} (hf : f.valid L) (hg : g.valid L) (h : f ≠ g) : f.addr L ≠ g.addr L :=
  fun e => h (hL.apart f g hf hg e)

theorem Layout.Ok.head_ne (hL : L.Ok wide) {h : W} (hh : L.head h) :
    firstAt h ≠ lastAt h ∧ firstAt h ≠ cookieAt h ∧ lastAt h ≠ cookieAt h ∧
      lastAt h ≠ firstAt h ∧ cookieAt h ≠ firstAt h ∧ cookieAt h ≠ lastAt h :=
  ⟨hL.ne (f := .first h) (g := .last h) hh hh (by simp), hL.ne (f := .first h) (g := .cookie h) hh hh (by simp),
    hL.ne (f := .last h) (g := .cookie h) hh hh (by simp), hL.ne (f := .last h) (g := .first h) hh hh (by simp),
    hL.ne (f := .cookie h) (g := .first h) hh hh (by simp), hL.ne (f := .cookie h) (g := .last h) hh hh (by simp)⟩

theorem Layout.Ok.link_ne (hL : L.Ok wide) {h e : W} (hh : L.head h) (he : L.elem e) :
    e + L.off ≠ firstAt h ∧ e + L.off ≠ lastAt h ∧ e + L.off ≠ cookieAt h ∧
      firstAt h ≠ e + L.off ∧ lastAt h ≠ e + L.off ∧ cookieAt h ≠ e + L.off :=
  ⟨hL.ne (f := .link e) (g := .first h) he hh (by simp), hL.ne (f := .link e) (g := .last h) he hh (by simp),
    hL.ne (f := .link e) (g := .cookie h) he hh (by simp), hL.ne (f := .first h) (g := .link e) hh he (by simp),
    hL.ne (f := .last h) (g := .link e) hh he (by simp), hL.ne (f := .cookie h) (g := .link e) hh he (by simp)⟩

theorem Layout.Ok.link_inj (hL : L.Ok wide) {e x : W} (he : L.elem e) (hx : L.elem x) (h : e ≠ x) : e + L.off ≠ x + L.off :=
  hL.ne (f := .link e) (g := .link x) he hx (fun h' => h (by cases h'; rfl))

theorem Layout.Ok.low_head (hL : L.Ok wide) {h : W} (hh : L.head h) : Low wide (firstAt h) := by
  cases wide with
  | true => exact .inl rfl
  | false => exact .inr ((hL.low rfl).1 h hh)

theorem Layout.Ok.low_elem (hL : L.Ok wide) {e : W} (he : L.elem e) : Low wide e := by
  cases wide with
  | true => exact .inl rfl
  | false => exact .inr ((hL.low rfl).2 e he).1

theorem Layout.Ok.low_link (hL : L.Ok wide) {e : W} (he : L.elem e) : Low wide (e + L.off) := by
  cases wide with
  | true => exact .inl rfl
  | false => exact .inr ((hL.low rfl).2 e he).2

/-- Changes at head `h` and the links of elements satisfying `P` only. -/
def Frame (L : Layout) (h : W) (P : W → Prop) (m m' : Mem) : Prop :=
  ∀ f : Field, f.valid L → f ≠ .first h → f ≠ .last h → f ≠ .cookie h → (∀ e, P e → f ≠ .link e) → m' (f.addr L) = m (f.addr L)

namespace Frame
variable {h : W} {P : W → Prop} {m m' : Mem}

theorem refl : Frame L h P m m := fun _ _ _ _ _ _ => rfl

theorem set_first (hL : L.Ok wide) (hh : L.head h) (F : Frame L h P m m') (v : W) : Frame L h P m (set m' (firstAt h) v) :=
  fun f hf h1 h2 h3 h4 => 
    (set_ne _ _ (hL.ne (g := .first h) hf hh h1)).trans (F f hf h1 h2 h3 h4)

theorem set_last (hL : L.Ok wide) (hh : L.head h) (F : Frame L h P m m') (v : W) : Frame L h P m (set m' (lastAt h) v) :=
  fun f hf h1 h2 h3 h4 => 
    (set_ne _ _ (hL.ne (g := .last h) hf hh h2)).trans (F f hf h1 h2 h3 h4)

theorem set_cookie (hL : L.Ok wide) (hh : L.head h) (F : Frame L h P m m') (v : W) : Frame L h P m (set m' (cookieAt h) v) :=
  fun f hf h1 h2 h3 h4 => 
    (set_ne _ _ (hL.ne (g := .cookie h) hf hh h3)).trans (F f hf h1 h2 h3 h4)

theorem set_link (hL : L.Ok wide) {e : W} (he : L.elem e) (hp : P e) (F : Frame L h P m m') (v : W) :
    Frame L h P m (set m' (e + L.off) v) :=
  fun f hf h1 h2 h3 h4 => 
    (set_ne _ _ (hL.ne (g := .link e) hf he (h4 e hp))).trans (F f hf h1 h2 h3 h4)

end Frame

/-! ## Chains -/

/-- The links from the one at `l`. -/
def Chain (wide : Bool) (off c : W) (m : Mem) : W → List W → Prop
  | l, [] => m l = mix wide c 0
  | l, x :: xs => m l = mix wide c x ∧ Chain wide off c m (x + off) xs

/-- The address of the last link. -/
def endLoc (off : W) : W → List W → W
  | l, [] => l
  | _, x :: xs => endLoc off (x + off) xs

theorem endLoc_append {off : W} : ∀ (a b : List W) (l : W), endLoc off l (a ++ b) = endLoc off (endLoc off l a) b
  | [], _, _ => rfl
  | _ :: a, b, _ => endLoc_append a b _

variable {off c : W} {m m' : Mem}

theorem Chain.move : ∀ {xs : List W} {l l' : W}, Chain wide off c m l xs → m' l' = m l →
    (∀ x ∈ xs, m' (x + off) = m (x + off)) → Chain wide off c m' l' xs
  | [], _, _, h, hl, _ => hl.trans h
  | x :: _, _, _, h, hl, hx => ⟨hl.trans h.1, h.2.move (hx x List.mem_cons_self) fun y hy => hx y (List.mem_cons_of_mem _ hy)⟩

theorem Chain.nil_iff {xs : List W} {l : W} (h : Chain wide off c m l xs) (hx : ∀ x ∈ xs, Low wide x ∧ x ≠ 0) :
    m l = mix wide c 0 ↔ xs = [] := by
  cases xs with
  | nil => exact ⟨fun _ => rfl, fun _ => h⟩
  | cons x xs =>
    refine ⟨fun e => ?_, fun e => by cases e⟩
    have := hx x List.mem_cons_self
    exact (this.2 (mix_inj this.1 (low_zero _) (h.1.symm.trans e))).elim

/-- The head of what the link at `l` says. -/
theorem Chain.head {xs : List W} {l : W} (h : Chain wide off c m l xs) : m l = mix wide c (xs.headD 0) := by
  cases xs with
  | nil => exact h
  | cons x xs => exact h.1

/-- A chain in two parts. -/
theorem chain_append : ∀ {a b : List W} {l : W}, Chain wide off c m l (a ++ b) ↔
    (∀ a1 x a2, a = a1 ++ x :: a2 → m (endLoc off l a1) = mix wide c x) ∧ Chain wide off c m (endLoc off l a) b
  | [], b, l => by
    refine ⟨fun h => ⟨fun a1 x a2 e => ?_, h⟩, fun h => h.2⟩
    cases a1 <;> cases e
  | y :: a, b, l => by
    have ih := chain_append (a := a) (b := b) (l := y + off)
    constructor
    · rintro ⟨h1, h2⟩
      refine ⟨fun a1 x a2 e => ?_, (ih.1 h2).2⟩
      cases a1 with
      | nil => cases e; exact h1
      | cons z a1 => cases e; exact (ih.1 h2).1 a1 x a2 rfl
    · rintro ⟨h1, h2⟩
      exact ⟨h1 [] y a rfl, ih.2 ⟨fun a1 x a2 e => h1 (y :: a1) x a2 (by rw [e]; rfl), h2⟩⟩

/-- Every link but that of the last element of `a` is at the start or in `a` before the last. -/
theorem endLoc_cases (off l : W) (a : List W) : (a = [] ∧ endLoc off l a = l) ∨ ∃ a' x, a = a' ++ [x] ∧ endLoc off l a = x + off := by
  rcases List.eq_nil_or_concat a with rfl | ⟨a', x, rfl⟩
  · exact .inl ⟨rfl, rfl⟩
  · exact .inr ⟨a', x, by simp, by simp [endLoc_append, endLoc]⟩

/-! ## The invariant -/

/-- Head `h` and the elements `xs`. -/
structure Content (L : Layout) (wide : Bool) (m : Mem) (h : W) (xs : List W) : Prop where
  last : m (lastAt h) = mix wide (m (cookieAt h)) (endLoc L.off (firstAt h) xs)
  chain : Chain wide L.off (m (cookieAt h)) m (firstAt h) xs

structure Rep (L : Layout) (wide : Bool) (m : Mem) (σ : Seqs) : Prop where
  head : ∀ h xs, σ h = some xs → L.head h
  elem : ∀ h xs, σ h = some xs → ∀ x ∈ xs, L.elem x
  nodup : ∀ h xs, σ h = some xs → xs.Nodup
  disj : ∀ h h' xs xs', σ h = some xs → σ h' = some xs' → h ≠ h' → ∀ x ∈ xs, x ∉ xs'
  content : ∀ h xs, σ h = some xs → Content L wide m h xs

theorem Content.frame {h h' : W} {P : W → Prop} {xs : List W} (C : Content L wide m h' xs) (F : Frame L h P m m')
    (hne : h' ≠ h) (hh : L.head h') (he : ∀ x ∈ xs, L.elem x) (hP : ∀ x ∈ xs, ¬ P x) : Content L wide m' h' xs := by
  have h1 : m' (cookieAt h') = m (cookieAt h') := F (.cookie h') hh (by simp) (by simp) (by simpa using hne) (by simp)
  have h2 : m' (lastAt h') = m (lastAt h') := F (.last h') hh (by simp) (by simpa using hne) (by simp) (by simp)
  have h3 : m' (firstAt h') = m (firstAt h') := F (.first h') hh (by simpa using hne) (by simp) (by simp) (by simp)
  refine ⟨by rw [h1, h2]; exact C.last, ?_⟩
  rw [h1]
  refine C.chain.move h3 fun x hx => F (.link x) (he x hx) (by simp) (by simp) (by simp) ?_
  intro e hp e'
  cases e'
  exact hP x hx hp

/-- An operation on head `h`. -/
theorem Rep.put {h : W} {P : W → Prop} {ys : List W} {σ : Seqs} (R : Rep L wide m σ) (F : Frame L h P m m') (hh : L.head h)
    (he : ∀ x ∈ ys, L.elem x) (hn : ys.Nodup) (hd : ∀ h' xs', h' ≠ h → σ h' = some xs' → ∀ x ∈ xs', x ∉ ys ∧ ¬ P x)
    (hc : Content L wide m' h ys) : Rep L wide m' (σ.put h ys) := by
  have hput : ∀ k xs, σ.put h ys k = some xs → (k = h ∧ xs = ys) ∨ (k ≠ h ∧ σ k = some xs) := by
    intro k xs hk
    unfold Seqs.put at hk
    by_cases e : k = h
    · rw [if_pos e] at hk; exact .inl ⟨e, by cases hk; rfl⟩
    · rw [if_neg e] at hk; exact .inr ⟨e, hk⟩
  constructor
  · intro k xs hk
    rcases hput k xs hk with ⟨rfl, rfl⟩ | ⟨-, hk⟩
    · exact hh
    · exact R.head k xs hk
  · intro k xs hk
    rcases hput k xs hk with ⟨rfl, rfl⟩ | ⟨-, hk⟩
    · exact he
    · exact R.elem k xs hk
  · intro k xs hk
    rcases hput k xs hk with ⟨rfl, rfl⟩ | ⟨-, hk⟩
    · exact hn
    · exact R.nodup k xs hk
  · intro k k' xs xs' hk hk' hne x hx hx'
    rcases hput k xs hk with ⟨e1, e2⟩ | ⟨h1, g1⟩ <;> rcases hput k' xs' hk' with ⟨e3, e4⟩ | ⟨h2, g2⟩
    · exact hne (e1.trans e3.symm)
    · exact (hd k' xs' h2 g2 x hx').1 (e2 ▸ hx)
    · exact (hd k xs h1 g1 x hx).1 (e4 ▸ hx')
    · exact R.disj k k' xs xs' g1 g2 hne x hx hx'
  · intro k xs hk
    rcases hput k xs hk with ⟨rfl, rfl⟩ | ⟨h1, hk⟩
    · exact hc
    · exact (R.content k xs hk).frame F h1 (R.head k xs hk) (R.elem k xs hk) fun x hx => (hd k xs h1 hk x hx).2

/-! ## The operations -/

theorem Layout.Ok.set_at (hL : L.Ok wide) {f g : Field} (hf : f.valid L) (hg : g.valid L) (m : Mem) (v : W) :
    set m (f.addr L) v (g.addr L) = if g = f then v else m (g.addr L) := by
  by_cases e : g = f
  · rw [if_pos e, e, set_same]
  · rw [if_neg e, set_ne _ _ (hL.ne hg hf e)]

/-- The field with the link after the elements `a` of queue `h`. -/
def fieldOf (h : W) (a : List W) : Field :=
  match a.getLast? with
  | none => .first h
  | some x => .link x

theorem fieldOf_nil (h : W) : fieldOf h [] = .first h := rfl
theorem fieldOf_concat (h x : W) (a : List W) : fieldOf h (a ++ [x]) = .link x := by simp [fieldOf]

theorem fieldOf_addr (L : Layout) (h : W) (a : List W) : endLoc L.off (firstAt h) a = (fieldOf h a).addr L := by
  rcases List.eq_nil_or_concat a with rfl | ⟨a, x, rfl⟩
  · rfl
  · rw [List.concat_eq_append, fieldOf_concat, endLoc_append]; rfl

theorem fieldOf_valid {h : W} (hh : L.head h) {a : List W} (ha : ∀ x ∈ a, L.elem x) : (fieldOf h a).valid L := by
  rcases List.eq_nil_or_concat a with rfl | ⟨a, x, rfl⟩
  · exact hh
  · rw [List.concat_eq_append, fieldOf_concat]; exact ha x (by simp)

theorem fieldOf_ne_link {h e : W} {a : List W} (he : e ∉ a) : fieldOf h a ≠ .link e := by
  rcases List.eq_nil_or_concat a with rfl | ⟨a, x, rfl⟩
  · simp [fieldOf]
  · rw [List.concat_eq_append, fieldOf_concat]
    intro e'
    cases e'
    exact he (by simp)

theorem fieldOf_not (h h' : W) (a : List W) : fieldOf h a ≠ .last h' ∧ fieldOf h a ≠ .cookie h' := by
  unfold fieldOf
  constructor <;> split <;> simp

theorem fieldOf_prefix {h : W} {a1 a2 : List W} {x : W} (hn : (a1 ++ x :: a2).Nodup) : fieldOf h a1 ≠ fieldOf h (a1 ++ x :: a2) := by
  have h2 : ∃ y ∈ x :: a2, fieldOf h (a1 ++ x :: a2) = .link y := by
    rcases List.eq_nil_or_concat (x :: a2) with e | ⟨b, y, e⟩
    · cases e
    · refine ⟨y, by rw [e]; simp, ?_⟩
      rw [e, List.concat_eq_append, ← List.append_assoc, fieldOf_concat]
  obtain ⟨y, hy, e⟩ := h2
  rw [e]
  exact fieldOf_ne_link fun h1 => (List.nodup_append.1 hn).2.2 y h1 y hy rfl

/-- The two insertions. -/
def insertAt (wide : Bool) (off h l e : W) (m : Mem) : Mem :=
  let m := set m (e + off) (m l)
  let m := lastIf wide h (m (e + off)) (e + off) m
  set m l (xor wide h e m)

/-- The two removals. -/
def removeAt (wide : Bool) (off h l : W) (m : Mem) : Option Mem :=
  if xor wide h (m l) m = 0 then none
  else
    let m := set m l (m (xor wide h (m l) m + off))
    some (lastIf wide h (m l) l m)

theorem insertHead_eq (off h e : W) : insertHead wide off h e = insertAt wide off h (firstAt h) e := rfl
theorem insertAfter_eq (off h s e : W) : insertAfter wide off h s e = insertAt wide off h (s + off) e := rfl
theorem removeHead_eq (off h : W) : removeHead wide off h = removeAt wide off h (firstAt h) := rfl
theorem removeAfter_eq (off h s : W) : removeAfter wide off h s = removeAt wide off h (s + off) := rfl

theorem Content.read {h : W} {a b : List W} (C : Content L wide m h (a ++ b)) :
    (∀ a1 x a2, a = a1 ++ x :: a2 → m ((fieldOf h a1).addr L) = mix wide (m (cookieAt h)) x) ∧
      Chain wide L.off (m (cookieAt h)) m ((fieldOf h a).addr L) b := by
  have := chain_append.1 C.chain
  rw [fieldOf_addr] at this
  refine ⟨fun a1 x a2 e => ?_, this.2⟩
  rw [← fieldOf_addr]
  exact this.1 a1 x a2 e

theorem Content.mk' {h : W} {a b : List W} (h1 : m (lastAt h) = mix wide (m (cookieAt h)) ((fieldOf h (a ++ b)).addr L))
    (h2 : ∀ a1 x a2, a = a1 ++ x :: a2 → m ((fieldOf h a1).addr L) = mix wide (m (cookieAt h)) x)
    (h3 : Chain wide L.off (m (cookieAt h)) m ((fieldOf h a).addr L) b) : Content L wide m h (a ++ b) := by
  refine ⟨by rw [fieldOf_addr]; exact h1, chain_append.2 ⟨fun a1 x a2 e => ?_, by rw [fieldOf_addr]; exact h3⟩⟩
  rw [fieldOf_addr]
  exact h2 a1 x a2 e

theorem insertAt_read (hL : L.Ok wide) {h e : W} {a b : List W} (hh : L.head h) (he : L.elem e) (hx : ∀ x ∈ a ++ b, L.elem x)
    (hn : e ∉ a ++ b) (C : Content L wide m h (a ++ b)) {f : Field} (hf : f.valid L) :
    insertAt wide L.off h ((fieldOf h a).addr L) e m (f.addr L) =
      if f = fieldOf h a then mix wide (m (cookieAt h)) e
      else if f = .last h ∧ b = [] then mix wide (m (cookieAt h)) (e + L.off)
      else if f = .link e then m ((fieldOf h a).addr L) else m (f.addr L) := by
  have ha : (fieldOf h a).valid L := fieldOf_valid hh fun x h => hx x (List.mem_append_left _ h)
  have hne := fieldOf_ne_link (h := h) (a := a) (e := e) fun h => hn (List.mem_append_left _ h)
  have hk : ∀ v, set m ((Field.link e).addr L) v (cookieAt h) = m (cookieAt h) := fun v => by
    have := hL.set_at (f := .link e) (g := .cookie h) he hh m v
    rw [if_neg (by simp)] at this
    exact this
  have hb := C.read.2.nil_iff fun x h => ⟨hL.low_elem (hx x (List.mem_append_right _ h)), hL.notNull x (hx x (List.mem_append_right _ h))⟩
  unfold insertAt
  rw [show e + L.off = (Field.link e).addr L from rfl, set_same]
  unfold lastIf xor
  rw [hk]
  by_cases hb0 : b = []
  · rw [if_pos (hb.2 hb0)]
    have hk2 : ∀ v w, set (set m ((Field.link e).addr L) v) (lastAt h) w (cookieAt h) = m (cookieAt h) := fun v w => by
      have := hL.set_at (f := .last h) (g := .cookie h) hh hh (set m ((Field.link e).addr L) v) w
      rw [if_neg (by simp)] at this
      exact this.trans (hk v)
    rw [hk2, hL.set_at ha hf, show lastAt h = (Field.last h).addr L from rfl, hL.set_at (f := .last h) hh hf, hL.set_at (f := .link e) he hf]
    simp [hb0]
  · rw [if_neg (fun h => hb0 (hb.1 h)), hk, hL.set_at ha hf, hL.set_at (f := .link e) he hf]
    simp [hb0]

theorem insertAt_content (hL : L.Ok wide) {h e : W} {a b : List W} (hh : L.head h) (he : L.elem e) (hx : ∀ x ∈ a ++ b, L.elem x)
    (hn : e ∉ a ++ b) (hd : (a ++ b).Nodup) (C : Content L wide m h (a ++ b)) :
    Content L wide (insertAt wide L.off h ((fieldOf h a).addr L) e m) h (a ++ e :: b) := by
  have rd := fun {f : Field} (hf : f.valid L) => insertAt_read hL hh he hx hn C hf
  have hck : insertAt wide L.off h ((fieldOf h a).addr L) e m (cookieAt h) = m (cookieAt h) := by
    have := rd (f := .cookie h) hh
    rw [if_neg (fieldOf_not h h a).2.symm, if_neg (by simp), if_neg (by simp)] at this
    exact this
  refine Content.mk' ?_ ?_ ?_
  · rw [hck]
    have := rd (f := .last h) hh
    rw [if_neg (fieldOf_not h h a).1.symm] at this
    by_cases hb : b = []
    · rw [if_pos ⟨rfl, hb⟩] at this
      rw [hb, fieldOf_concat]
      exact this
    · rw [if_neg (fun h => hb h.2), if_neg (by simp)] at this
      have hl := C.last
      rw [fieldOf_addr] at hl
      refine this.trans (hl.trans ?_)
      rcases List.eq_nil_or_concat b with rfl | ⟨b, y, rfl⟩
      · exact (hb rfl).elim
      · rw [List.concat_eq_append, ← List.append_assoc, fieldOf_concat,
          show a ++ e :: (b ++ [y]) = (a ++ e :: b) ++ [y] by simp, fieldOf_concat]
  · rintro a1 x a2 rfl
    rw [hck, rd (fieldOf_valid hh fun y hy => hx y (by simp [hy]))]
    rw [if_neg (fieldOf_prefix (List.nodup_append.1 hd).1), if_neg (fun h' => (fieldOf_not h h a1).1 h'.1),
      if_neg (fieldOf_ne_link fun h => hn (by simp [h]))]
    exact C.read.1 a1 x a2 rfl
  · rw [hck]
    refine ⟨?_, ?_⟩
    · rw [rd (fieldOf_valid hh fun y hy => hx y (by simp [hy])), if_pos rfl]
    · refine C.read.2.move ?_ ?_
      · have := rd (f := .link e) he
        rw [if_neg (fieldOf_ne_link fun h => hn (by simp [h])).symm, if_neg (by simp), if_pos rfl] at this
        exact this
      · intro y hy
        have := rd (f := .link y) (hx y (by simp [hy]))
        rw [if_neg, if_neg (by simp), if_neg] at this
        · exact this
        · intro e'
          cases e'
          exact hn (by simp [hy])
        · exact (fieldOf_ne_link fun h => (List.nodup_append.1 hd).2.2 y h y hy rfl).symm

theorem insertAt_frame (hL : L.Ok wide) {h e : W} {a b : List W} (hh : L.head h) (he : L.elem e) (hx : ∀ x ∈ a ++ b, L.elem x)
    (hn : e ∉ a ++ b) (C : Content L wide m h (a ++ b)) :
    Frame L h (fun x => x = e ∨ x ∈ a) m (insertAt wide L.off h ((fieldOf h a).addr L) e m) := by
  intro f hf h1 h2 h3 h4
  rw [insertAt_read hL hh he hx hn C hf, if_neg, if_neg (fun h => h2 h.1), if_neg (h4 e (.inl rfl))]
  rcases List.eq_nil_or_concat a with rfl | ⟨a, x, rfl⟩
  · exact h1
  · rw [List.concat_eq_append, fieldOf_concat]; exact h4 x (.inr (by simp))

theorem removeAt_read (hL : L.Ok wide) {h y : W} {a b : List W} (hh : L.head h) (hx : ∀ x ∈ a ++ y :: b, L.elem x)
    (C : Content L wide m h (a ++ y :: b)) :
    ∃ m', removeAt wide L.off h ((fieldOf h a).addr L) m = some m' ∧ ∀ {f : Field}, f.valid L → m' (f.addr L) =
      if f = .last h ∧ b = [] then mix wide (m (cookieAt h)) ((fieldOf h a).addr L)
      else if f = fieldOf h a then m (y + L.off) else m (f.addr L) := by
  have ha : (fieldOf h a).valid L := fieldOf_valid hh fun x h => hx x (List.mem_append_left _ h)
  have hy := hx y (by simp)
  have hc := C.read.2
  have hb := hc.2.nil_iff fun x h => ⟨hL.low_elem (hx x (by simp [h])), hL.notNull x (hx x (by simp [h]))⟩
  have hk : ∀ v, set m ((fieldOf h a).addr L) v (cookieAt h) = m (cookieAt h) := fun v => by
    have := hL.set_at (g := .cookie h) ha hh m v
    rw [if_neg (fieldOf_not h h a).2.symm] at this
    exact this
  unfold removeAt
  have e1 : xor wide h (m ((fieldOf h a).addr L)) m = y := by
    unfold xor
    rw [hc.1, mix_mix (hL.low_elem hy)]
  rw [e1, if_neg (hL.notNull y hy)]
  refine ⟨_, rfl, fun {f} hf => ?_⟩
  rw [set_same]
  unfold lastIf xor
  rw [hk]
  by_cases hb0 : b = []
  · rw [if_pos (hb.2 hb0), show lastAt h = (Field.last h).addr L from rfl, hL.set_at (f := .last h) hh hf, hL.set_at ha hf]
    simp [hb0]
  · rw [if_neg (fun h => hb0 (hb.1 h)), hL.set_at ha hf]
    simp [hb0]

theorem remove_ok (hL : L.Ok wide) {h y : W} {a b : List W} (hh : L.head h) (hx : ∀ x ∈ a ++ y :: b, L.elem x)
    (hd : (a ++ y :: b).Nodup) (C : Content L wide m h (a ++ y :: b)) :
    ∃ m', removeAt wide L.off h ((fieldOf h a).addr L) m = some m' ∧ Content L wide m' h (a ++ b) ∧
      Frame L h (fun x => x ∈ a) m m' := by
  obtain ⟨m', e, rd⟩ := removeAt_read hL hh hx C
  have hck : m' (cookieAt h) = m (cookieAt h) := by
    have := rd (f := .cookie h) hh
    rw [if_neg (by simp), if_neg (fieldOf_not h h a).2.symm] at this
    exact this
  refine ⟨m', e, Content.mk' ?_ ?_ ?_, ?_⟩
  · rw [hck]
    have := rd (f := .last h) hh
    by_cases hb : b = []
    · rw [if_pos ⟨rfl, hb⟩] at this
      rw [hb, List.append_nil]
      exact this
    · rw [if_neg (fun h => hb h.2), if_neg (fieldOf_not h h a).1.symm] at this
      have hl := C.last
      rw [fieldOf_addr] at hl
      refine this.trans (hl.trans ?_)
      rcases List.eq_nil_or_concat b with rfl | ⟨b, z, rfl⟩
      · exact (hb rfl).elim
      · rw [List.concat_eq_append, ← List.append_assoc, fieldOf_concat,
          show a ++ y :: (b ++ [z]) = (a ++ y :: b) ++ [z] by simp, fieldOf_concat]
  · rintro a1 x a2 rfl
    rw [hck, rd (fieldOf_valid hh fun y hy => hx y (by simp [hy]))]
    rw [if_neg (fun h' => (fieldOf_not h h a1).1 h'.1), if_neg (fieldOf_prefix (List.nodup_append.1 hd).1)]
    exact C.read.1 a1 x a2 rfl
  · rw [hck]
    refine C.read.2.2.move ?_ ?_
    · rw [rd (fieldOf_valid hh fun y hy => hx y (by simp [hy])), if_neg (fun h' => (fieldOf_not h h a).1 h'.1), if_pos rfl]
    · intro z hz
      have := rd (f := .link z) (hx z (by simp [hz]))
      rw [if_neg (by simp), if_neg (fieldOf_ne_link fun h => (List.nodup_append.1 hd).2.2 z h z (by simp [hz]) rfl).symm] at this
      exact this
  · intro f hf h1 h2 h3 h4
    rw [rd hf, if_neg (fun h => h2 h.1), if_neg]
    rcases List.eq_nil_or_concat a with rfl | ⟨a, x, rfl⟩
    · exact h1
    · rw [List.concat_eq_append, fieldOf_concat]; exact h4 x (by simp)

theorem insertTail_read (hL : L.Ok wide) {h e : W} {a : List W} (hh : L.head h) (he : L.elem e) (hx : ∀ x ∈ a, L.elem x)
    (C : Content L wide m h a) {f : Field} (hf : f.valid L) :
    insertTail wide L.off h e m (f.addr L) =
      if f = .last h then mix wide (m (cookieAt h)) (e + L.off)
      else if f = fieldOf h a then mix wide (m (cookieAt h)) e
      else if f = .link e then mix wide (m (cookieAt h)) 0 else m (f.addr L) := by
  have ha : (fieldOf h a).valid L := fieldOf_valid hh hx
  have hk : ∀ v, set m ((Field.link e).addr L) v (cookieAt h) = m (cookieAt h) := fun v => by
    have := hL.set_at (f := .link e) (g := .cookie h) he hh m v
    rw [if_neg (by simp)] at this
    exact this
  have hl : ∀ v, set m ((Field.link e).addr L) v (lastAt h) = mix wide (m (cookieAt h)) ((fieldOf h a).addr L) := fun v => by
    have := hL.set_at (f := .link e) (g := .last h) he hh m v
    rw [if_neg (by simp)] at this
    rw [← fieldOf_addr, ← C.last]
    exact this
  have hlow : Low wide ((fieldOf h a).addr L) := by
    rcases List.eq_nil_or_concat a with rfl | ⟨a, x, rfl⟩
    · exact hL.low_head hh
    · rw [List.concat_eq_append, fieldOf_concat]; exact hL.low_link (hx x (by simp))
  have hk2 : ∀ v w, set (set m ((Field.link e).addr L) v) ((fieldOf h a).addr L) w (cookieAt h) = m (cookieAt h) := fun v w => by
    have := hL.set_at (g := .cookie h) ha hh (set m ((Field.link e).addr L) v) w
    rw [if_neg (fieldOf_not h h a).2.symm] at this
    exact this.trans (hk v)
  unfold insertTail xor
  rw [show e + L.off = (Field.link e).addr L from rfl, hk, hl, mix_mix hlow, hk2, show lastAt h = (Field.last h).addr L from rfl,
    hL.set_at (f := .last h) hh hf, hL.set_at ha hf, hL.set_at (f := .link e) he hf]

theorem insertTail_ok (hL : L.Ok wide) {h e : W} {a : List W} (hh : L.head h) (he : L.elem e) (hx : ∀ x ∈ a, L.elem x)
    (hn : e ∉ a) (hd : a.Nodup) (C : Content L wide m h a) :
    Content L wide (insertTail wide L.off h e m) h (a ++ [e]) ∧
      Frame L h (fun x => x = e ∨ x ∈ a) m (insertTail wide L.off h e m) := by
  have rd := fun {f : Field} (hf : f.valid L) => insertTail_read hL hh he hx C hf
  have hck : insertTail wide L.off h e m (cookieAt h) = m (cookieAt h) := by
    have := rd (f := .cookie h) hh
    rw [if_neg (by simp), if_neg (fieldOf_not h h a).2.symm, if_neg (by simp)] at this
    exact this
  refine ⟨Content.mk' ?_ ?_ ?_, ?_⟩
  · rw [hck, fieldOf_concat]
    have := rd (f := .last h) hh
    rw [if_pos rfl] at this
    exact this
  · rintro a1 x a2 rfl
    rw [hck, rd (fieldOf_valid hh fun y hy => hx y (by simp [hy]))]
    rw [if_neg (fieldOf_not h h a1).1, if_neg (fieldOf_prefix hd), if_neg (fieldOf_ne_link fun h => hn (by simp [h]))]
    have C' : Content L wide m h ((a1 ++ x :: a2) ++ []) := by rw [List.append_nil]; exact C
    exact C'.read.1 a1 x a2 rfl
  · rw [hck]
    refine ⟨?_, ?_⟩
    · rw [rd (fieldOf_valid hh hx), if_neg (fieldOf_not h h a).1, if_pos rfl]
    · have := rd (f := .link e) he
      rw [if_neg (by simp), if_neg (fieldOf_ne_link hn).symm, if_pos rfl] at this
      exact this
  · intro f hf h1 h2 h3 h4
    rw [rd hf, if_neg h2, if_neg, if_neg (h4 e (.inl rfl))]
    rcases List.eq_nil_or_concat a with rfl | ⟨a, x, rfl⟩
    · exact h1
    · rw [List.concat_eq_append, fieldOf_concat]; exact h4 x (.inr (by simp))

theorem init_ok (hL : L.Ok wide) {h : W} (hh : L.head h) (c : W) (m : Mem) :
    Content L wide (init wide h c m) h [] ∧ Frame L h (fun _ => False) m (init wide h c m) := by
  obtain ⟨h1, h2, h3, h4, h5, h6⟩ := hL.head_ne hh
  constructor
  · unfold init xor
    constructor
    · simp only [endLoc]
      rw [set_same, set_ne _ _ h5, set_same, set_ne _ _ h6, set_ne _ _ h5, set_same]
    · show set _ _ _ (firstAt h) = _
      rw [set_ne _ _ h1, set_same, set_same, set_ne _ _ h6, set_ne _ _ h5, set_same]
  · exact ((Frame.refl.set_cookie hL hh _).set_first hL hh _).set_last hL hh _

/-! ## Histories -/

theorem after_eq {s e : W} : ∀ {a b : List W}, s ∉ a → after s e (a ++ s :: b) = a ++ s :: e :: b
  | [], b, _ => by simp [after]
  | x :: a, b, h => by
    simp only [List.cons_append, after]
    rw [if_neg (fun e => h (by simp [e])), after_eq fun h' => h (by simp [h'])]

theorem without_eq {s y : W} : ∀ {a b : List W}, s ∉ a → without s (a ++ s :: y :: b) = a ++ s :: b
  | [], b, _ => by simp [without]
  | [x], b, h => by
    simp only [List.cons_append, List.nil_append, without]
    rw [if_neg (fun e => h (by simp [e])), if_pos trivial]
  | x :: z :: a, b, h => by
    simp only [List.cons_append, without]
    rw [if_neg (fun e => h (by simp [e]))]
    congr 1
    exact without_eq (a := z :: a) fun h' => h (by simp [h'])

theorem Rep.exec {σ : Seqs} (hL : L.Ok wide) (R : Rep L wide m σ) {o : Op} (ho : o.legal L σ) :
    ∃ m', Xq.exec wide L.off o m = some m' ∧ Rep L wide m' (o.apply σ) := by
  cases o with
  | init h c =>
    have ⟨C, F⟩ := init_ok hL ho c m
    refine ⟨_, rfl, R.put F ho (by simp) List.nodup_nil (fun h' xs' _ _ x _ => ⟨by simp, fun h => h⟩) C⟩
  | insertHead h e =>
    obtain ⟨⟨xs, hx⟩, hf, he⟩ := ho
    have hh := R.head h xs hx
    have hxe := R.elem h xs hx
    have C : Content L wide m h ([] ++ xs) := R.content h xs hx
    refine ⟨_, rfl, ?_⟩
    show Rep L wide (insertAt wide L.off h ((fieldOf h []).addr L) e m) (σ.put h (e :: (σ h).getD []))
    rw [hx]
    refine R.put (insertAt_frame hL hh he hxe (hf h xs hx) C) hh ?_ ?_ ?_ (insertAt_content hL hh he hxe (hf h xs hx) (R.nodup h xs hx) C)
    · intro x h
      rcases List.mem_cons.1 h with rfl | h
      · exact he
      · exact hxe x h
    · exact List.nodup_cons.2 ⟨hf h xs hx, R.nodup h xs hx⟩
    · intro h' xs' hne hx' x h1
      have h2 := R.disj h' h xs' xs hx' hx hne x h1
      have h3 : x ≠ e := by rintro rfl; exact hf h' xs' hx' h1
      exact ⟨by simpa using ⟨h3, h2⟩, by simpa using h3⟩
  | insertTail h e =>
    obtain ⟨⟨xs, hx⟩, hf, he⟩ := ho
    have hh := R.head h xs hx
    have hxe := R.elem h xs hx
    have ⟨C, F⟩ := insertTail_ok hL hh he hxe (hf h xs hx) (R.nodup h xs hx) (R.content h xs hx)
    refine ⟨_, rfl, ?_⟩
    show Rep L wide _ (σ.put h ((σ h).getD [] ++ [e]))
    rw [hx]
    refine R.put F hh ?_ ?_ ?_ C
    · intro x h
      rcases List.mem_append.1 h with h | h
      · exact hxe x h
      · rw [List.mem_singleton.1 h]; exact he
    · refine List.nodup_append.2 ⟨R.nodup h xs hx, by simp, fun a ha b hb => ?_⟩
      rw [List.mem_singleton.1 hb]
      rintro rfl
      exact hf h xs hx ha
    · intro h' xs' hne hx' x h1
      have h2 := R.disj h' h xs' xs hx' hx hne x h1
      have h3 : x ≠ e := by rintro rfl; exact hf h' xs' hx' h1
      exact ⟨by simpa using ⟨h2, h3⟩, by simpa using ⟨h3, h2⟩⟩
  | insertAfter h s e =>
    obtain ⟨⟨xs, hx, hs⟩, hf, he⟩ := ho
    obtain ⟨a, b, rfl⟩ := List.append_of_mem hs
    have hh := R.head h _ hx
    have hnd := R.nodup h _ hx
    have ha : s ∉ a := fun h => (List.nodup_append.1 hnd).2.2 s h s (by simp) rfl
    have hq : a ++ s :: b = (a ++ [s]) ++ b := by simp
    have hxe := R.elem h _ hx
    have C := R.content h _ hx
    have hfe := hf h _ hx
    rw [hq] at hxe C hfe hnd
    refine ⟨_, rfl, ?_⟩
    show Rep L wide (insertAt wide L.off h ((Field.link s).addr L) e m) (σ.put h (after s e ((σ h).getD [])))
    rw [hx, Option.getD_some, after_eq ha, ← fieldOf_concat h s a, show a ++ s :: e :: b = (a ++ [s]) ++ e :: b by simp]
    refine R.put (insertAt_frame hL hh he hxe hfe C) hh ?_ ?_ ?_ (insertAt_content hL hh he hxe hfe hnd C)
    · intro x h
      have : x = e ∨ x ∈ (a ++ [s]) ++ b := by
        simp only [List.mem_append, List.mem_cons] at h ⊢
        grind
      rcases this with rfl | h
      · exact he
      · exact hxe x h
    · rw [List.nodup_append] at hnd ⊢
      refine ⟨hnd.1, List.nodup_cons.2 ⟨fun h => hfe (List.mem_append_right _ h), hnd.2.1⟩, fun x h1 y h2 => ?_⟩
      rcases List.mem_cons.1 h2 with rfl | h2
      · rintro rfl; exact hfe (List.mem_append_left _ h1)
      · exact hnd.2.2 x h1 y h2
    · intro h' xs' hne hx' x h1
      have h2 := R.disj h' h xs' _ hx' hx hne x h1
      rw [hq] at h2
      have h3 : x ≠ e := by rintro rfl; exact hf h' xs' hx' h1
      simp only [List.mem_append, List.mem_cons] at h2 ⊢
      grind
  | removeHead h =>
    obtain ⟨y, xs, hx⟩ := ho
    have hh := R.head h _ hx
    have hxe := R.elem h _ hx
    obtain ⟨m', e, C, F⟩ := remove_ok (a := []) hL hh hxe (R.nodup h _ hx) (R.content h _ hx)
    refine ⟨m', e, ?_⟩
    show Rep L wide _ (σ.put h ((σ h).getD []).tail)
    rw [hx]
    refine R.put F hh (fun x h => hxe x (List.mem_cons_of_mem _ h)) (List.nodup_cons.1 (R.nodup h _ hx)).2 ?_ C
    intro h' xs' hne hx' x h1
    have h2 := R.disj h' h xs' _ hx' hx hne x h1
    exact ⟨fun h => h2 (List.mem_cons_of_mem _ h), by simp⟩
  | removeAfter h s =>
    obtain ⟨a, y, b, hx⟩ := ho
    have hh := R.head h _ hx
    have hnd := R.nodup h _ hx
    have ha : s ∉ a := fun h => (List.nodup_append.1 hnd).2.2 s h s (by simp) rfl
    have hq : a ++ s :: y :: b = (a ++ [s]) ++ y :: b := by simp
    have hxe := R.elem h _ hx
    have C := R.content h _ hx
    rw [hq] at hxe C hnd
    obtain ⟨m', e, C', F⟩ := remove_ok hL hh hxe hnd C
    rw [fieldOf_concat] at e
    refine ⟨m', e, ?_⟩
    show Rep L wide _ (σ.put h (without s ((σ h).getD [])))
    rw [hx, Option.getD_some, without_eq ha, show a ++ s :: b = (a ++ [s]) ++ b by simp]
    refine R.put F hh ?_ ?_ ?_ C'
    · intro x h
      refine hxe x ?_
      simp only [List.mem_append, List.mem_cons] at h ⊢
      grind
    · rw [List.nodup_append] at hnd ⊢
      exact ⟨hnd.1, (List.nodup_cons.1 hnd.2.1).2, fun x h1 z h2 => hnd.2.2 x h1 z (List.mem_cons_of_mem _ h2)⟩
    · intro h' xs' hne hx' x h1
      have h2 := R.disj h' h xs' _ hx' hx hne x h1
      rw [hq] at h2
      simp only [List.mem_append, List.mem_cons] at h2 ⊢
      grind

theorem Rep.run (hL : L.Ok wide) : ∀ (os : List Op) {σ : Seqs} {m : Mem}, Rep L wide m σ → Legal L σ os →
    ∃ m', Xq.run wide L.off os m = some m' ∧ Rep L wide m' (applyAll σ os)
  | [], _, m, R, _ => ⟨m, rfl, R⟩
  | o :: os, _, m, R, h => by
    obtain ⟨m1, e1, R1⟩ := R.exec hL h.1
    obtain ⟨m2, e2, R2⟩ := Rep.run hL os R1 h.2
    exact ⟨m2, by simp [Xq.run, e1, e2], R2⟩

theorem Rep.nothing (L : Layout) (m : Mem) : Rep L wide m nothing :=
  ⟨fun _ _ h => (by cases h), fun _ _ h => (by cases h), fun _ _ h => (by cases h), fun _ _ _ _ h => (by cases h), fun _ _ h => (by cases h)⟩

/-! ## Reading -/

theorem low_headD (hL : L.Ok wide) {xs : List W} (h : ∀ x ∈ xs, L.elem x) : Low wide (xs.headD 0) := by
  cases xs with
  | nil => exact low_zero _
  | cons x xs => exact hL.low_elem (h x (by simp))

theorem chain_next (hL : L.Ok wide) : ∀ {xs : List W} {l : W}, Chain wide L.off c m l xs → (∀ x ∈ xs, L.elem x) → ∀ e ∈ xs,
    mix wide c (m (e + L.off)) = follow e xs
  | [], _, _, _, e, he => by cases he
  | x :: xs, _, h, hx, e, he => by
    have hxs : ∀ y ∈ xs, L.elem y := fun y hy => hx y (by simp [hy])
    simp only [follow]
    by_cases h1 : x = e
    · rw [if_pos h1, ← h1, h.2.head, mix_mix (low_headD hL hxs)]
    · rw [if_neg h1]
      exact chain_next hL h.2 hxs e ((List.mem_cons.1 he).resolve_left fun h => h1 h.symm)

theorem chain_walk (hL : L.Ok wide) {h : W} : ∀ {xs : List W} {l : W} {n : Nat}, Chain wide L.off (m (cookieAt h)) m l xs →
    (∀ x ∈ xs, L.elem x) → xs.length < n → walk wide L.off h m n (xs.headD 0) = some xs
  | [], _, n, _, _, hn => by
    obtain ⟨n, rfl⟩ : ∃ k, n = k + 1 := ⟨n - 1, by simp at hn; omega⟩
    simp [walk]
  | x :: xs, _, n, hc, hx, hn => by
    obtain ⟨n, rfl⟩ : ∃ k, n = k + 1 := ⟨n - 1, by simp at hn; omega⟩
    have hxs : ∀ y ∈ xs, L.elem y := fun y hy => hx y (by simp [hy])
    have : next wide L.off h x m = xs.headD 0 := by
      unfold next xor
      rw [hc.2.head, mix_mix (low_headD hL hxs)]
    show walk wide L.off h m (n + 1) x = _
    rw [walk]
    rw [if_neg (hL.notNull x (hx x (by simp))), this, chain_walk hL hc.2 hxs (by simpa using hn)]
    rfl

theorem Chain.links : ∀ {xs : List W} {l : W}, Chain wide off c m l xs → ∀ a x b, xs = a ++ x :: b →
    m (x + off) = mix wide c (b.headD 0)
  | [], _, _, a, x, b, e => by cases a <;> cases e
  | y :: xs, _, h, [], x, b, e => by cases e; exact h.2.head
  | y :: xs, _, h, z :: a, x, b, e => by
    cases e
    exact h.2.links a x b rfl

theorem walkSafe_ok (hL : L.Ok wide) {h : W} (hh : L.head h) {f : W → Mem → Mem} : ∀ {xs : List W} {n : Nat} {m : Mem},
    (∀ a x b, xs = a ++ x :: b → m (x + L.off) = mix wide (m (cookieAt h)) (b.headD 0)) → (∀ x ∈ xs, L.elem x) → xs.Nodup →
    xs.length < n → (∀ e ∈ xs, ∀ m a, a ≠ e + L.off → f e m a = m a) →
    ∃ m', walkSafe wide L.off h f n (xs.headD 0) m = some (xs, m')
  | [], n, m, _, _, _, hn, _ => by
    obtain ⟨n, rfl⟩ : ∃ k, n = k + 1 := ⟨n - 1, by simp at hn; omega⟩
    exact ⟨m, by simp [walkSafe]⟩
  | x :: xs, n, m, hc, hx, hd, hn, hf => by
    obtain ⟨n, rfl⟩ : ∃ k, n = k + 1 := ⟨n - 1, by simp at hn; omega⟩
    have hxs : ∀ y ∈ xs, L.elem y := fun y hy => hx y (by simp [hy])
    have hxe := hx x (by simp)
    have hne : next wide L.off h x m = xs.headD 0 := by
      unfold next xor
      rw [hc [] x xs rfl, mix_mix (low_headD hL hxs)]
    have hk : f x m (cookieAt h) = m (cookieAt h) := hf x (by simp) m _ (hL.link_ne hh hxe).2.2.2.2.2
    have hnd := List.nodup_cons.1 hd
    obtain ⟨m', e⟩ := walkSafe_ok hL hh (xs := xs) (n := n) (m := f x m)
      (fun a y b e => by
        have hy : y ∈ xs := by rw [e]; simp
        rw [hk, hf x (by simp) m _ (hL.link_inj (hxs y hy) hxe fun e' => hnd.1 (e' ▸ hy))]
        exact hc (x :: a) y b (by rw [e]; rfl))
      hxs hnd.2 (by simpa using hn) (fun e he => hf e (by simp [he]))
    refine ⟨m', ?_⟩
    show walkSafe wide L.off h f (n + 1) x m = _
    rw [walkSafe]
    rw [if_neg (hL.notNull x hxe), hne, e]
    rfl

theorem Rep.shows {σ : Seqs} (hL : L.Ok wide) (R : Rep L wide m σ) : Shows wide L.off m σ := by
  have hfirst : ∀ h xs, σ h = some xs → Xq.first wide h m = xs.headD 0 := fun h xs hx => by
    unfold Xq.first xor
    rw [(R.content h xs hx).chain.head, mix_mix (low_headD hL (R.elem h xs hx))]
  refine ⟨hfirst, ?_, ?_, ?_, ?_⟩
  · intro h xs hx
    unfold isEmpty
    rw [hfirst h xs hx]
    cases xs with
    | nil => rfl
    | cons x xs => simpa using hL.notNull x (R.elem h _ hx x (by simp))
  · intro h xs e hx he
    exact chain_next hL (R.content h xs hx).chain (R.elem h xs hx) e he
  · intro h xs n hx hn
    rw [hfirst h xs hx]
    exact chain_walk hL (R.content h xs hx).chain (R.elem h xs hx) hn
  · intro h xs n f hx hn hf
    rw [hfirst h xs hx]
    exact walkSafe_ok hL (R.head h xs hx) (R.content h xs hx).chain.links (R.elem h xs hx) (R.nodup h xs hx) hn hf

end Verif.Xq
