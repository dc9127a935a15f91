import Verif.Nfdc.TextListSpec
import Verif.Nfdc.ReportLemmas
import Verif.Nfdc.ArgsLemmas
/-! Lemmas for the text lists of nfdc. -/
namespace Verif.Nfdc.TextList

open Report

/-! ### Numbers -/

theorem dec_inj {a b : Nat} (h : dec a = dec b) : a = b := by
  have ha := (digits_decimal (dec_decimal a)).2
  have hb := (digits_decimal (dec_decimal b)).2
  rw [h, hb] at ha
  exact (Option.some.inj ha).symm

theorem dec_digit {n : Nat} {c : Char} (h : c ∈ dec n) : 48 ≤ c.toNat ∧ c.toNat ≤ 57 := by
  have key : ∀ {t : Str} {n : Nat}, Decimal t n → ∀ c ∈ t, 48 ≤ c.toNat ∧ c.toNat ≤ 57 := by
    intro t n h
    induction h with
    | one c d h1 h2 => intro x hx; rw [List.mem_singleton.mp hx]; omega
    | snoc t n c d _ h1 h2 ih =>
      intro x hx
      rcases List.mem_append.mp hx with hx | hx
      · exact ih x hx
      · rw [List.mem_singleton.mp hx]; omega
  exact key (dec_decimal n) c h

theorem decI_mem {n : Int} {c : Char} (h : c ∈ decI n) : c = '-' ∨ (48 ≤ c.toNat ∧ c.toNat ≤ 57) := by
  unfold decI at h
  split at h
  · rcases List.mem_cons.mp h with h | h
    · exact .inl h
    · exact .inr (dec_digit h)
  · exact .inr (dec_digit h)

theorem minus_dec {n : Nat} {r : Str} (h : dec n = '-' :: r) : False := by
  have := dec_decimal n
  rw [h] at this
  exact this.minus

theorem decI_inj {a b : Int} (h : decI a = decI b) : a = b := by
  unfold decI at h
  split at h <;> split at h
  · have := dec_inj (List.cons.inj h).2; omega
  · exact (minus_dec h.symm).elim
  · exact (minus_dec h).elim
  · have := dec_inj h; omega

theorem dec_ne {n : Nat} : dec n ≠ [] := (digits_decimal (dec_decimal n)).1

/-! ### Words -/

theorem Word.append {a b : Str} (ha : Word a) (hb : Word b) : Word (a ++ b) := by
  unfold Word at *
  simp only [List.mem_append, not_or]
  exact ⟨⟨ha.1, hb.1⟩, ⟨ha.2, hb.2⟩⟩

theorem word_dec (n : Nat) : Word (dec n) := by
  constructor <;> (intro h; have := dec_digit h; revert this; decide)

theorem word_decI (n : Int) : Word (decI n) := by
  constructor <;> (intro h; have := decI_mem h; revert this; decide)

instance (s : Str) : Decidable (Word s) := inferInstanceAs (Decidable (_ ∧ _))

/-! ### Cutting -/

theorem cut {d : Char} : ∀ {x x' r r' : Str}, d ∉ x → d ∉ x' → x ++ d :: r = x' ++ d :: r' → x = x' ∧ r = r'
  | [], [], _, _, _, _, h => ⟨rfl, (List.cons.inj h).2⟩
  | [], c :: x', _, _, _, h2, h => absurd (List.cons.inj h).1 (fun e => h2 (by rw [e]; exact List.mem_cons_self))
  | c :: x, [], _, _, h1, _, h => absurd (List.cons.inj h).1 (fun e => h1 (by rw [← e]; exact List.mem_cons_self))
  | c :: x, c' :: x', r, r', h1, h2, h => by
    have e := List.cons.inj h
    have ih := cut (fun m => h1 (List.mem_cons_of_mem _ m)) (fun m => h2 (List.mem_cons_of_mem _ m)) e.2
    exact ⟨by rw [e.1, ih.1], ih.2⟩

/-- Items without the first character of the separator can be told apart. -/
theorem sep_inj {d : Char} {s : Str} : ∀ {l m : List Str}, (∀ x ∈ l, d ∉ x) → (∀ x ∈ m, d ∉ x) → sepBy (d :: s) false l = sepBy (d :: s) false m → l = m
  | [], [], _, _, _ => rfl
  | [], y :: m, _, _, h => by simp [sepBy] at h
  | x :: l, [], _, _, h => by simp [sepBy] at h
  | x :: l, y :: m, hl, hm, h => by
    simp only [sepBy, Bool.false_eq_true, if_false, List.cons_append, List.append_assoc, List.cons.injEq, true_and] at h
    have h := List.append_cancel_left h
    have hx := hl x List.mem_cons_self
    have hy := hm y List.mem_cons_self
    have hl' : ∀ x ∈ l, d ∉ x := fun z hz => hl z (List.mem_cons_of_mem _ hz)
    have hm' : ∀ x ∈ m, d ∉ x := fun z hz => hm z (List.mem_cons_of_mem _ hz)
    have key : x = y ∧ sepBy (d :: s) false l = sepBy (d :: s) false m := by
      match l, m, h with
      | [], [], h => simp only [sepBy, List.append_nil] at h; exact ⟨h, rfl⟩
      | [], z :: m, h =>
        simp only [sepBy, List.append_nil, Bool.false_eq_true, if_false, List.cons_append, List.append_assoc] at h
        exact absurd (by rw [h]; simp) hx
      | z :: l, [], h =>
        simp only [sepBy, List.append_nil, Bool.false_eq_true, if_false, List.cons_append, List.append_assoc] at h
        exact absurd (by rw [← h]; simp) hy
      | z :: l, w :: m, h =>
        simp only [sepBy, Bool.false_eq_true, if_false, List.cons_append, List.append_assoc] at h ⊢
        have := cut hx hy h
        exact ⟨this.1, by rw [this.2]⟩
    rw [key.1, sep_inj hl' hm' key.2]

/-- The same when nothing precedes the first, provided that the items are not empty. -/
theorem sep_inj_first {d : Char} {s : Str} {l m : List Str} (hl : ∀ x ∈ l, d ∉ x ∧ x ≠ []) (hm : ∀ x ∈ m, d ∉ x ∧ x ≠ [])
    (h : sepBy (d :: s) true l = sepBy (d :: s) true m) : l = m := by
  have e : ∀ x (l : List Str), sepBy (d :: s) false (x :: l) = (d :: s) ++ sepBy (d :: s) true (x :: l) := by intro x l; simp [sepBy]
  match l, m with
  | [], [] => rfl
  | [], y :: m => have := (hm y List.mem_cons_self).2; simp [sepBy] at h; exact absurd h.1 this
  | x :: l, [] => have := (hl x List.mem_cons_self).2; simp [sepBy] at h; exact absurd h.1 this
  | x :: l, y :: m =>
    exact sep_inj (fun x hx => (hl x hx).1) (fun x hx => (hm x hx).1) (by rw [e, e, h])

theorem sep_mem {c : Char} {sep : Str} (hs : c ∉ sep) : ∀ {l : List Str} {b : Bool}, (∀ x ∈ l, c ∉ x) → c ∉ sepBy sep b l
  | [], _, _ => by simp [sepBy]
  | x :: l, b, h => by
    have ih := sep_mem hs (b := false) (fun z hz => h z (List.mem_cons_of_mem _ hz))
    have hx := h x List.mem_cons_self
    cases b <;> simp [sepBy, hs, hx, ih]

/-- Lines without an end of line inside can be told apart. -/
theorem lines_inj {α : Type} {t : α → Str} : ∀ {l m : List α}, (∀ x ∈ l, '\n' ∉ t x) → (∀ x ∈ m, '\n' ∉ t x) →
    l.flatMap (fun x => lit "  " ++ t x ++ ['\n']) = m.flatMap (fun x => lit "  " ++ t x ++ ['\n']) → Alike (fun x y => x ∈ l ∧ y ∈ m ∧ t x = t y) l m := by
  have key : ∀ {l m : List α}, (∀ x ∈ l, '\n' ∉ t x) → (∀ x ∈ m, '\n' ∉ t x) →
      l.flatMap (fun x => lit "  " ++ t x ++ ['\n']) = m.flatMap (fun x => lit "  " ++ t x ++ ['\n']) →
      ∀ (L M : List α), (∀ x ∈ l, x ∈ L) → (∀ x ∈ m, x ∈ M) → Alike (fun x y => x ∈ L ∧ y ∈ M ∧ t x = t y) l m := by
    intro l
    induction l with
    | nil =>
      intro m hl hm h L M _ _
      cases m with
      | nil => trivial
      | cons y m => simp [lit] at h
    | cons x l ih =>
      intro m hl hm h L M hL hM
      cases m with
      | nil => simp [lit] at h
      | cons y m =>
        simp only [List.flatMap_cons, List.append_assoc, List.cons_append, List.nil_append] at h
        have h := List.append_cancel_left h
        have e := cut (hl x List.mem_cons_self) (hm y List.mem_cons_self) h
        refine ⟨⟨hL _ List.mem_cons_self, hM _ List.mem_cons_self, e.1⟩, ih (fun z hz => hl z (List.mem_cons_of_mem _ hz))
          (fun z hz => hm z (List.mem_cons_of_mem _ hz)) ?_ L M (fun z hz => hL z (List.mem_cons_of_mem _ hz)) (fun z hz => hM z (List.mem_cons_of_mem _ hz))⟩
        simpa only [List.append_assoc] using e.2
  intro l m hl hm h
  exact key hl hm h l m (fun _ h => h) (fun _ h => h)

theorem Alike.mono {α : Type} {R S : α → α → Prop} (h : ∀ x y, R x y → S x y) : ∀ {l m : List α}, Alike R l m → Alike S l m
  | [], [], _ => trivial
  | [], _ :: _, h' => h'.elim
  | _ :: _, [], h' => h'.elim
  | _ :: _, _ :: _, h' => ⟨h _ _ h'.1, Alike.mono h h'.2⟩

theorem Alike.eq {α : Type} : ∀ {l m : List α}, Alike (· = ·) l m → l = m
  | [], [], _ => rfl
  | [], _ :: _, h' => h'.elim
  | _ :: _, [], h' => h'.elim
  | x :: l, y :: m, h' => by rw [h'.1, Alike.eq h'.2]

theorem Alike.map {α β : Type} {f : α → β} : ∀ {l m : List α}, l.map f = m.map f → Alike (fun x y => x ∈ l ∧ y ∈ m ∧ f x = f y) l m := by
  intro l
  have key : ∀ (L M l m : List α), (∀ x ∈ l, x ∈ L) → (∀ x ∈ m, x ∈ M) → l.map f = m.map f → Alike (fun x y => x ∈ L ∧ y ∈ M ∧ f x = f y) l m := by
    intro L M l
    induction l with
    | nil => intro m _ _ h; cases m with
      | nil => trivial
      | cons y m => simp at h
    | cons x l ih => intro m hL hM h; cases m with
      | nil => simp at h
      | cons y m =>
        simp only [List.map_cons, List.cons.injEq] at h
        exact ⟨⟨hL _ List.mem_cons_self, hM _ List.mem_cons_self, h.1⟩, ih m (fun z hz => hL z (List.mem_cons_of_mem _ hz)) (fun z hz => hM z (List.mem_cons_of_mem _ hz)) h.2⟩
  intro m h
  exact key l m l m (fun _ h => h) (fun _ h => h) h

/-- Two lists that begin with the items of a kind are the same if what follows is of another kind. -/
theorem kind_cut {α : Type} (p : α → Bool) : ∀ {a b r s : List α}, (∀ z ∈ a, p z = true) → (∀ z ∈ b, p z = true) → (∀ z, r.head? = some z → p z = false) →
    (∀ z, s.head? = some z → p z = false) → a ++ r = b ++ s → a = b ∧ r = s
  | [], [], _, _, _, _, _, _, h => ⟨rfl, h⟩
  | [], z :: b, r, s, _, hb, hx, _, h => by
    have := hb z List.mem_cons_self
    have h : r = z :: (b ++ s) := h
    rw [hx z (by rw [h]; rfl)] at this; cases this
  | z :: a, [], r, s, ha, _, _, hy, h => by
    have := ha z List.mem_cons_self
    have h : z :: (a ++ r) = s := h
    rw [hy z (by rw [← h]; rfl)] at this; cases this
  | z :: a, w :: b, _, _, ha, hb, hx, hy, h => by
    have e := List.cons.inj h
    have := kind_cut p (fun z hz => ha z (List.mem_cons_of_mem _ hz)) (fun z hz => hb z (List.mem_cons_of_mem _ hz)) hx hy e.2
    exact ⟨by rw [e.1, this.1], this.2⟩

end Verif.Nfdc.TextList
