import Verif.Nfdc.Report
import Verif.Nfdc.ReportSpec
import Verif.Nfdc.ArgsSpec

/-! Lemmas for C113. -/
namespace Verif.Nfdc.Report
open Verif.Xml

theorem run_append (s : St) (a b : Str) : Xml.run s (a ++ b) = (Xml.run s a).bind (fun s => Xml.run s b) := by
  induction a generalizing s with
  | nil => rfl
  | cons c a ih =>
    simp only [List.cons_append, Xml.run]
    cases Xml.step s c with
    | none => rfl
    | some s => exact ih s

/-- Inside an element, `o` is read as `ts`. -/
def Frag (o : Str) (ts : List Node) : Prop :=
  ∀ n l r d rt, Xml.run ⟨.content, (n, l) :: r, d, rt⟩ o = some ⟨.content, (n, l ++ ts) :: r, d, rt⟩

theorem Frag.nil : Frag [] [] := by intro n l r d rt; simp [Xml.run]

theorem Frag.append {a b : Str} {s t : List Node} (ha : Frag a s) (hb : Frag b t) : Frag (a ++ b) (s ++ t) := by
  intro n l r d rt
  rw [run_append, ha, Option.bind_some, hb, List.append_assoc]

theorem Frag.flatMap {α : Type} {f : α → Str} {g : α → List Node} {l : List α} (h : ∀ x ∈ l, Frag (f x) (g x)) : Frag (l.flatMap f) (l.flatMap g) := by
  induction l with
  | nil => exact Frag.nil
  | cons a l ih =>
    rw [List.flatMap_cons, List.flatMap_cons]
    exact (h a (by simp)).append (ih (fun x hx => h x (by simp [hx])))

theorem Frag.ite {c : Prop} [Decidable c] {a b : Str} {s t : List Node} (ha : c → Frag a s) (hb : ¬ c → Frag b t) :
    Frag (if c then a else b) (if c then s else t) := by
  by_cases h : c
  · rw [if_pos h, if_pos h]; exact ha h
  · rw [if_neg h, if_neg h]; exact hb h

theorem run_tag (st : List (Str × List Node)) (d : Bool) (rt : Option Node) (b : Str) (hb : ∀ c ∈ b, c ≠ '<' ∧ c ≠ '>') :
    ∀ a l, Xml.run ⟨.tag a, st, d, rt⟩ (b ++ '>' :: l) = (tag ⟨.tag (a ++ b), st, d, rt⟩ (a ++ b)).bind (fun s => Xml.run s l) := by
  induction b with
  | nil => intro a l; simp [Xml.run, Xml.step]
  | cons c b ih =>
    intro a l
    have h := hb c (by simp)
    simp only [List.cons_append, Xml.run, Xml.step, h.1, h.2, if_false, Option.bind_some]
    rw [ih (fun c hc => hb c (by simp [hc]))]
    simp

theorem run_markup (st : List (Str × List Node)) (d : Bool) (rt : Option Node) (b : Str) (hb : ∀ c ∈ b, c ≠ '<' ∧ c ≠ '>') (l : Str) :
    Xml.run ⟨.content, st, d, rt⟩ ('<' :: (b ++ '>' :: l)) = (tag ⟨.tag b, st, d, rt⟩ b).bind (fun s => Xml.run s l) := by
  simp only [Xml.run, Xml.step, if_true, Option.bind_some]
  rw [run_tag st d rt b hb [] l, List.nil_append]

theorem alpha_no {n : Str} (h : isName n = true) : ∀ c ∈ n, c.isAlpha = true := by
  unfold isName at h
  simp only [Bool.and_eq_true, List.all_eq_true] at h
  exact h.2

theorem alpha_ne {c : Char} (h : c.isAlpha = true) : c ≠ '<' ∧ c ≠ '>' ∧ c ≠ '/' ∧ c ≠ '?' := by
  refine ⟨?_, ?_, ?_, ?_⟩ <;> (rintro rfl; revert h; decide)

theorem takeWhile_all {p : Char → Bool} {l : Str} (h : ∀ c ∈ l, p c = true) : l.takeWhile p = l := by
  induction l with
  | nil => rfl
  | cons c l ih => rw [List.takeWhile_cons_of_pos (h c (by simp)), ih (fun c hc => h c (by simp [hc]))]

theorem tag_open {n : Str} (h : isName n = true) (m : Mode) (st : List (Str × List Node)) (d : Bool) (rt : Option Node) :
    tag ⟨m, st, d, rt⟩ n = some ⟨.content, (n, []) :: st, d, rt⟩ := by
  have ha := alpha_no h
  unfold tag
  have h1 : n ≠ "?xml version=\"1.0\"?".toList := by
    intro hc; rw [hc] at h; revert h; decide
  rw [if_neg h1]
  have h2 : n.getLast? ≠ some '/' := by
    intro hc; exact (alpha_ne (ha _ (List.mem_of_getLast? hc))).2.2.1 rfl
  have h3 : n.takeWhile (fun c => c.isAlpha) = n := by
    exact takeWhile_all ha
  split
  · next b x => exact absurd rfl (alpha_ne (ha '/' (by simp))).2.2.1
  · simp only [h2, if_false, h3, List.drop_length, h, List.isEmpty_nil, Bool.true_or, Bool.and_self, if_true]

theorem tag_close {n : Str} (m : Mode) (l : List Node) (st : List (Str × List Node)) (k : Str) (j : List Node) (d : Bool) (rt : Option Node) :
    tag ⟨m, (n, l) :: (k, j) :: st, d, rt⟩ ('/' :: n) = some ⟨.content, (k, j ++ [.elem n l]) :: st, d, rt⟩ := by
  unfold tag
  have h1 : '/' :: n ≠ "?xml version=\"1.0\"?".toList := by
    intro hc; have := congrArg List.head? hc; revert this; simp
  rw [if_neg h1]
  simp [add]

theorem tag_empty {n : Str} (h : isName n = true) (m : Mode) (st : List (Str × List Node)) (k : Str) (j : List Node) (d : Bool) (rt : Option Node) :
    tag ⟨m, (k, j) :: st, d, rt⟩ (n ++ ['/']) = some ⟨.content, (k, j ++ [.elem n []]) :: st, d, rt⟩ := by
  unfold tag
  have ha := alpha_no h
  have h1 : n ++ ['/'] ≠ "?xml version=\"1.0\"?".toList := by
    intro hc; have := congrArg List.getLast? hc; revert this; simp
  rw [if_neg h1]
  have h4 : n ≠ [] := by rintro rfl; revert h; decide
  split
  · next b x hx =>
    cases n with
    | nil => exact absurd rfl h4
    | cons c n =>
      simp only [List.cons_append, List.cons.injEq] at hx
      exact absurd hx.1 (alpha_ne (ha c (by simp))).2.2.1
  · simp [h, add]

/-- An element between its tags. -/
theorem Frag.elem {o c : String} {x : Str} {n : Str} {ts : List Node} (ho : lit o = '<' :: (n ++ ['>'])) (hc : lit c = '<' :: '/' :: (n ++ ['>']))
    (hn : isName n = true) (h : Frag x ts) : Frag (wrap o x c) [.elem n ts] := by
  unfold wrap
  intro k l r d rt
  have ha := alpha_no hn
  have hb : ∀ c ∈ n, c ≠ '<' ∧ c ≠ '>' := fun c hc => ⟨(alpha_ne (ha c hc)).1, (alpha_ne (ha c hc)).2.1⟩
  rw [ho, hc, List.append_assoc, run_append, run_markup _ d rt n hb [], tag_open hn]
  simp only [Option.bind_some, Xml.run]
  rw [run_append, h, Option.bind_some, List.nil_append]
  have hb' : ∀ c ∈ '/' :: n, c ≠ '<' ∧ c ≠ '>' := by
    intro c hc
    rcases List.mem_cons.1 hc with rfl | hc
    · decide
    · exact hb c hc
  have := run_markup ((n, ts) :: (k, l) :: r) d rt ('/' :: n) hb' []
  rw [List.cons_append] at this
  rw [this, tag_close]
  rfl

theorem Frag.empty' {o : Str} {n : Str} (ho : o = '<' :: (n ++ ['/', '>'])) (hn : isName n = true) : Frag o [.elem n []] := by
  intro k l r d rt
  have ha := alpha_no hn
  have hb : ∀ c ∈ n ++ ['/'], c ≠ '<' ∧ c ≠ '>' := by
    intro c hc
    rcases List.mem_append.1 hc with hc | hc
    · exact ⟨(alpha_ne (ha c hc)).1, (alpha_ne (ha c hc)).2.1⟩
    · simp at hc; subst hc; decide
  have := run_markup ((k, l) :: r) d rt (n ++ ['/']) hb []
  rw [List.append_assoc] at this
  simp only [List.cons_append, List.nil_append] at this
  rw [ho, this, tag_empty hn]
  rfl

theorem Frag.flag (s : String) (b : Bool) (hn : isName (lit s) = true) : Frag (Report.flag s b) (if b then [.elem (lit s) []] else []) := by
  cases b with
  | false => exact Frag.nil
  | true => exact Frag.empty' (n := lit s) rfl hn

theorem Frag.plain {s : Str} (h : ∀ c ∈ s, isText c = true) : Frag s (s.map .chr) := by
  induction s with
  | nil => exact Frag.nil
  | cons c s ih =>
    intro n l r d rt
    have hc := h c (by simp)
    have h1 : c ≠ '<' := by rintro rfl; revert hc; decide
    have h2 : c ≠ '&' := by rintro rfl; revert hc; decide
    simp only [Xml.run, Xml.step, h1, h2, hc, if_true, if_false, add, Option.bind_some]
    rw [ih (fun c hc => h c (by simp [hc]))]
    simp

/-- A character that may occur in a document. -/
def legal (c : Char) : Prop := isText c = true ∨ c = '<' ∨ c = '>' ∨ c = '&'

theorem Frag.char (c : Char) (h : legal c) : Frag (Report.text [c]) [.chr c] := by
  intro n l r d rt
  by_cases h1 : c = '"'
  · subst h1; rfl
  by_cases h2 : c = '&'
  · subst h2; rfl
  by_cases h3 : c = '\''
  · subst h3; rfl
  by_cases h4 : c = '<'
  · subst h4; rfl
  by_cases h5 : c = '>'
  · subst h5; rfl
  · have : Report.text [c] = [c] := by simp [Report.text, h1, h2, h3, h4, h5]
    rw [this]
    have ht : isText c = true := by
      rcases h with h | h | h | h
      · exact h
      · exact absurd h h4
      · exact absurd h h5
      · exact absurd h h2
    exact Frag.plain (s := [c]) (by simp [ht]) n l r d rt

theorem Frag.text {s : Str} (h : ∀ c ∈ s, legal c) : Frag (Report.text s) (s.map .chr) := by
  induction s with
  | nil => exact Frag.nil
  | cons c s ih =>
    have : Report.text (c :: s) = Report.text [c] ++ Report.text s := by simp [Report.text]
    rw [this]
    exact (Frag.char c (h c (by simp))).append (ih (fun c hc => h c (by simp [hc])))

/-! ### Numbers -/

theorem dec_decimal (n : Nat) : Decimal (dec n) n := by
  induction n using Nat.strongRecOn with
  | ind n ih =>
    have hd : ∀ d, d < 10 → (digitChar d).toNat = 48 + d := by decide
    rw [dec]
    by_cases h : n < 10
    · rw [if_pos h]; exact .one _ n h (hd n h)
    · rw [if_neg h]
      have := Decimal.snoc (dec (n / 10)) (n / 10) (digitChar (n % 10)) (n % 10) (ih (n / 10) (by omega)) (by omega) (hd _ (by omega))
      have e : 10 * (n / 10) + n % 10 = n := by omega
      rw [e] at this
      exact this

def isDigitChar (c : Char) : Prop := 48 ≤ c.toNat ∧ c.toNat ≤ 57

theorem isText_of {c : Char} (h1 : 32 ≤ c.toNat) (h2 : c.toNat < 128) (h3 : c.toNat ≠ 60) (h4 : c.toNat ≠ 62) (h5 : c.toNat ≠ 38) : isText c = true := by
  have a : c ≠ '<' := by rintro rfl; exact h3 rfl
  have b : c ≠ '>' := by rintro rfl; exact h4 rfl
  have d : c ≠ '&' := by rintro rfl; exact h5 rfl
  have e : c.toNat ≠ 65534 := by omega
  have f : c.toNat ≠ 65535 := by omega
  simp [isText, a, b, d, e, f, h1]

theorem decimal_text {t : Str} {n : Nat} (h : Decimal t n) : ∀ c ∈ t, isText c = true := by
  induction h with
  | one c d hd hc => intro x hx; simp at hx; subst hx; exact isText_of (by omega) (by omega) (by omega) (by omega) (by omega)
  | snoc t n c d _ hd hc ih =>
    intro x hx
    rcases List.mem_append.1 hx with hx | hx
    · exact ih x hx
    · simp at hx; subst hx; exact isText_of (by omega) (by omega) (by omega) (by omega) (by omega)

theorem Frag.dec (n : Nat) : Frag (Report.dec n) ((Report.dec n).map .chr) := Frag.plain (decimal_text (dec_decimal n))

theorem duration_text (d : Int) : ∀ c ∈ duration d, isText c = true := by
  intro c hc
  unfold duration at hc
  simp only [List.mem_append] at hc
  rcases hc with (((hc | hc) | hc) | hc) | hc
  · split at hc
    · have : c = '-' := by simpa [lit] using hc
      subst this; decide
    · cases hc
  · have : c = 'P' ∨ c = 'T' := by simpa [lit] using hc
    rcases this with rfl | rfl <;> decide
  · exact decimal_text (dec_decimal _) c hc
  · split at hc
    · rcases List.mem_append.1 hc with hc | hc
      · have : c = '.' := by simpa [lit] using hc
        subst this; decide
      · unfold pad3 at hc
        rcases List.mem_append.1 hc with hc | hc
        · rw [(List.mem_replicate.1 hc).2]; decide
        · exact decimal_text (dec_decimal _) c hc
    · cases hc
  · have : c = 'S' := by simpa [lit] using hc
    subst this; decide

theorem Frag.duration (d : Int) : Frag (Report.duration d) ((Report.duration d).map .chr) := Frag.plain (duration_text d)

end Verif.Nfdc.Report
