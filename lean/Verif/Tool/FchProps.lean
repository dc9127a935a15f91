import Verif.Tool.Fch
import Verif.Tool.FchSpec
/-! C128: the hub of the NDN-FCH stage of ndn-autoconfig is the first word of a successful answer. -/
namespace Verif.Fch
open Spec

theorem isDig_iff (c : Char) : isDig c = true ↔ Digit c := by
  simp only [isDig, decide_eq_true_eq, Char.le_def, Digit, UInt32.le_iff_toNat_le]
  exact Iff.rfl

theorem isSpace_iff (c : Char) : isSpace c = true ↔ Blank c := by
  have e : ∀ d : Char, c = d ↔ c.toNat = d.toNat := fun d => ⟨fun h => by rw [h], fun h => Char.toNat_inj.1 h⟩
  simp only [isSpace, Bool.or_eq_true, beq_iff_eq, decide_eq_true_eq, Blank, e]
  simp only [show ' '.toNat = 32 from rfl, show '\t'.toNat = 9 from rfl, show '\n'.toNat = 10 from rfl, show '\r'.toNat = 13 from rfl]
  omega

theorem takeWhile_all {α : Type} {p : α → Bool} : ∀ {a b : List α}, (∀ x ∈ a, p x = true) → (∀ x ∈ b.head?, p x = false) →
    (a ++ b).takeWhile p = a ∧ (a ++ b).dropWhile p = b
  | [], [], _, _ => ⟨rfl, rfl⟩
  | [], y :: b, _, h => by
    have := h y rfl
    exact ⟨by simp [this], by simp [this]⟩
  | x :: a, b, h1, h2 => by
    obtain ⟨h3, h4⟩ := takeWhile_all (a := a) (b := b) (fun y hy => h1 y (List.mem_cons_of_mem _ hy)) h2
    have := h1 x (List.mem_cons_self ..)
    exact ⟨by simp [this, h3], by simp [this, h4]⟩

theorem while_split {α : Type} (p : α → Bool) : ∀ l : List α, l = l.takeWhile p ++ l.dropWhile p ∧ (∀ x ∈ l.takeWhile p, p x = true) ∧
    ∀ x ∈ (l.dropWhile p).head?, p x = false
  | [] => ⟨rfl, (fun x h => nomatch h), (fun x h => nomatch h)⟩
  | y :: l => by
    obtain ⟨h1, h2, h3⟩ := while_split p l
    cases hy : p y with
    | false =>
      simp only [List.takeWhile_cons, List.dropWhile_cons, hy, Bool.false_eq_true, if_false]
      exact ⟨rfl, (fun x h => nomatch h), fun x h => by cases h; exact hy⟩
    | true =>
      simp only [List.takeWhile_cons, List.dropWhile_cons, hy, if_true]
      refine ⟨by rw [List.cons_append, ← h1], ?_, h3⟩
      intro x hx
      rcases List.mem_cons.1 hx with rfl | hx
      · exact hy
      · exact h2 x hx

theorem getline_spec {a b : Str} (h : '\n' ∉ a) : getline (a ++ '\n' :: b) = some (a, b) := by
  obtain ⟨h1, h2⟩ := takeWhile_all (p := (· != '\n')) (a := a) (b := '\n' :: b)
    (fun x hx => by simp only [bne_iff_ne]; rintro rfl; exact h hx) (fun x hx => by cases hx; rfl)
  unfold getline
  split
  · rename_i h3; cases a <;> cases h3
  · rw [h1, h2]; rfl

theorem word_iff {t w : Str} : (∃ r, word t = some (w, r)) ↔ FirstWord t w := by
  obtain ⟨h1, h2, h3⟩ := while_split isSpace t
  obtain ⟨g1, g2, g3⟩ := while_split (fun c => !isSpace c) (t.dropWhile isSpace)
  constructor
  · rintro ⟨r, h⟩
    unfold word at h
    split at h
    · cases h
    · rename_i l hl
      cases h
      refine ⟨t.takeWhile isSpace, (t.dropWhile isSpace).dropWhile (fun c => !isSpace c), by rw [List.append_assoc, ← g1]; exact h1,
        fun c hc => (isSpace_iff c).1 (h2 c hc), ?_, ?_, ?_⟩
      · intro h
        cases hd : t.dropWhile isSpace with
        | nil => exact hl hd
        | cons y m =>
          have := h3 y (by rw [hd]; rfl)
          rw [hd] at h
          simp [this] at h
      · intro c hc hb
        have := g2 c hc
        rw [(isSpace_iff c).2 hb] at this
        cases this
      · intro c hc
        have := g3 c hc
        simp only [Bool.not_eq_false'] at this
        exact (isSpace_iff c).1 this
  · rintro ⟨a, b, rfl, ha, hw, hw2, hb⟩
    have hh : ∀ x ∈ (w ++ b).head?, isSpace x = false := by
      intro x hx
      cases w with
      | nil => exact absurd rfl hw
      | cons y w =>
        obtain rfl : y = x := by simpa using hx
        rw [Bool.eq_false_iff]
        exact fun h => hw2 y (List.mem_cons_self ..) ((isSpace_iff y).1 h)
    obtain ⟨-, k2⟩ := takeWhile_all (p := isSpace) (a := a) (b := w ++ b) (fun x hx => (isSpace_iff x).2 (ha x hx)) hh
    obtain ⟨k3, k4⟩ := takeWhile_all (p := fun c => !isSpace c) (a := w) (b := b)
      (fun x hx => by rw [Bool.not_eq_true', Bool.eq_false_iff]; exact fun h => hw2 x hx ((isSpace_iff x).1 h))
      (fun x hx => by rw [Bool.not_eq_false']; exact (isSpace_iff x).2 (hb x hx))
    refine ⟨b, ?_⟩
    unfold word
    rw [List.append_assoc, k2]
    split
    · rename_i h
      cases w with
      | nil => exact absurd rfl hw
      | cons y w => cases h
    · rw [k3, k4]

theorem word_at {a w b : Str} (ha : ∀ c ∈ a, Blank c) (hw : w ≠ []) (hw2 : ∀ c ∈ w, ¬Blank c) (hb : ∀ c ∈ b.head?, Blank c) : word (a ++ w ++ b) = some (w, b) := by
  have hh : ∀ x ∈ (w ++ b).head?, isSpace x = false := by
    intro x hx
    cases w with
    | nil => exact absurd rfl hw
    | cons y w =>
      obtain rfl : y = x := by simpa using hx
      rw [Bool.eq_false_iff]
      exact fun h => hw2 y (List.mem_cons_self ..) ((isSpace_iff y).1 h)
  obtain ⟨-, k2⟩ := takeWhile_all (p := isSpace) (a := a) (b := w ++ b) (fun x hx => (isSpace_iff x).2 (ha x hx)) hh
  obtain ⟨k3, k4⟩ := takeWhile_all (p := fun c => !isSpace c) (a := w) (b := b)
    (fun x hx => by rw [Bool.not_eq_true', Bool.eq_false_iff]; exact fun h => hw2 x hx ((isSpace_iff x).1 h))
    (fun x hx => by rw [Bool.not_eq_false']; exact (isSpace_iff x).2 (hb x hx))
  unfold word
  rw [List.append_assoc, k2]
  split
  · rename_i h
    cases w with
    | nil => exact absurd rfl hw
    | cons y w => cases h
  · rw [k3, k4]

theorem body_line : ∀ {h : Str} {acc l : Str}, '\n' ∉ h → body acc (h ++ '\n' :: l) = if acc ++ h = ['\r'] then some l else body [] l
  | [], acc, l, _ => by simp [body]
  | c :: h, acc, l, hn => by
    have hc : c ≠ '\n' := fun hc => hn (by rw [hc]; exact List.mem_cons_self ..)
    have ih := body_line (h := h) (acc := acc ++ [c]) (l := l) (fun h => hn (List.mem_cons_of_mem _ h))
    rw [List.append_assoc] at ih
    simp only [List.cons_append, body, hc, if_false]
    rw [ih]; rfl

theorem body_of : ∀ {hs : List Str} {b : Str}, (∀ h ∈ hs, '\n' ∉ h ∧ h ≠ ['\r']) → body [] ((hs.map (· ++ ['\n'])).flatten ++ '\r' :: '\n' :: b) = some b
  | [], b, _ => by simp [body]
  | h :: hs, b, hh => by
    have ih := body_of (hs := hs) (b := b) (fun x hx => hh x (List.mem_cons_of_mem _ hx))
    obtain ⟨h1, h2⟩ := hh h (List.mem_cons_self ..)
    simp only [List.map_cons, List.flatten_cons, List.append_assoc, List.singleton_append, List.cons_append]
    rw [body_line h1, List.nil_append, if_neg h2]
    exact ih

theorem body_inv : ∀ {l acc b : Str}, body acc l = some b → '\n' ∉ acc →
    ∃ hs : List Str, acc ++ l = (hs.map (· ++ ['\n'])).flatten ++ '\r' :: '\n' :: b ∧ ∀ h ∈ hs, '\n' ∉ h ∧ h ≠ ['\r']
  | [], _, _, h, _ => by cases h
  | c :: l, acc, b, h, ha => by
    simp only [body] at h
    split at h
    · rename_i hc
      subst hc
      split at h
      · rename_i hacc
        cases h
        exact ⟨[], by rw [hacc]; rfl, fun x h => nomatch h⟩
      · rename_i hacc
        obtain ⟨hs, h1, h2⟩ := body_inv (l := l) (acc := []) h (by simp)
        refine ⟨acc :: hs, ?_, ?_⟩
        · rw [List.nil_append] at h1
          simp only [List.map_cons, List.flatten_cons, List.append_assoc, List.cons_append, List.nil_append]
          rw [h1]
        · intro x hx
          rcases List.mem_cons.1 hx with rfl | hx
          · exact ⟨ha, hacc⟩
          · exact h2 x hx
    · rename_i hc
      obtain ⟨hs, h1, h2⟩ := body_inv (l := l) (acc := acc ++ [c]) h (by simp only [List.mem_append, List.mem_singleton, not_or]; exact ⟨ha, fun h => hc h.symm⟩)
      exact ⟨hs, by rw [← h1, List.append_assoc]; rfl, h2⟩

theorem blank_not {c : Char} (h : Blank c) : ¬Digit c ∧ c ≠ '-' ∧ c ≠ '+' := by
  have e : ∀ d : Char, c = d ↔ c.toNat = d.toNat := fun d => ⟨fun h => by rw [h], fun h => Char.toNat_inj.1 h⟩
  simp only [Blank, e, Digit, ne_eq] at *
  simp only [show ' '.toNat = 32 from rfl, show '\t'.toNat = 9 from rfl, show '\n'.toNat = 10 from rfl, show '\r'.toNat = 13 from rfl, show '-'.toNat = 45 from rfl, show '+'.toNat = 43 from rfl] at *
  omega

theorem unsigned_200 {a r : Str} (ha : ∀ c ∈ a, Blank c) (hr : ∀ c ∈ r.head?, ¬Digit c) : unsigned (a ++ "200".toList ++ r) = some 200 := by
  have hh : ∀ x ∈ ("200".toList ++ r).head?, isSpace x = false := by intro x hx; cases hx; rfl
  obtain ⟨-, k2⟩ := takeWhile_all (p := isSpace) (a := a) (b := "200".toList ++ r) (fun x hx => (isSpace_iff x).2 (ha x hx)) hh
  obtain ⟨k3, -⟩ := takeWhile_all (p := isDig) (a := "200".toList) (b := r) (by decide)
    (fun x hx => by rw [Bool.eq_false_iff]; exact fun h => hr x hx ((isDig_iff x).1 h))
  unfold unsigned
  rw [List.append_assoc, k2]
  show some (number false ("200".toList ++ r)) = some 200
  unfold number
  rw [k3]
  rfl

/-- The number in a status line that counts as 200. -/
def Counts200 (r : Str) : Prop :=
  ∃ a s d e, r = a ++ s ++ d ++ e ∧ (∀ c ∈ a, Blank c) ∧ (∀ c ∈ d, Digit c) ∧
    ((s = [] ∨ s = ['+']) ∧ decimal d = 200 ∨ s = ['-'] ∧ decimal d = 2 ^ 32 - 200)

theorem number_split (neg : Bool) (l : Str) (h : number neg l = 200) : ∃ d e, l = d ++ e ∧ (∀ c ∈ d, Digit c) ∧ decimal d = if neg then 2 ^ 32 - 200 else 200 := by
  obtain ⟨h1, h2, -⟩ := while_split isDig l
  refine ⟨_, _, h1, fun c hc => (isDig_iff c).1 (h2 c hc), ?_⟩
  unfold number at h
  generalize l.takeWhile isDig = d at h
  have hm : unsignedMax = 4294967295 := rfl
  dsimp only at h
  generalize decimal d = k at h ⊢
  by_cases hk : k > unsignedMax
  · rw [if_pos hk] at h; omega
  · rw [if_neg hk] at h
    cases neg with
    | false => simpa using h
    | true => simp only [if_true] at h ⊢; omega

theorem unsigned_inv {l : Str} (h : unsigned l = some 200) : Counts200 l := by
  obtain ⟨h1, h2, -⟩ := while_split isSpace l
  have hs : ∀ c ∈ l.takeWhile isSpace, Blank c := fun c hc => (isSpace_iff c).1 (h2 c hc)
  unfold unsigned at h
  split at h
  · cases h
  · rename_i r hr
    obtain ⟨d, e, h3, h4, h5⟩ := number_split true r (Option.some.inj h)
    exact ⟨_, ['-'], d, e, by rw [hr, h3] at h1; rw [List.append_assoc, List.append_assoc]; exact h1, hs, h4, Or.inr ⟨rfl, by simpa using h5⟩⟩
  · rename_i r hr
    obtain ⟨d, e, h3, h4, h5⟩ := number_split false r (Option.some.inj h)
    exact ⟨_, ['+'], d, e, by rw [hr, h3] at h1; rw [List.append_assoc, List.append_assoc]; exact h1, hs, h4, Or.inl ⟨Or.inr rfl, by simpa using h5⟩⟩
  · obtain ⟨d, e, h3, h4, h5⟩ := number_split false _ (Option.some.inj h)
    exact ⟨_, [], d, e, by rw [h3] at h1; rw [List.append_nil, List.append_assoc]; exact h1, hs, h4, Or.inl ⟨Or.inl rfl, by simpa using h5⟩⟩

/-! ### The answer -/

/-- C128: from a successful answer whose body has a word, the hub is the UDP FaceUri of the first word. -/
theorem C128_hub {text status bdy w : Str} {headers : List Str} (ha : Spec.Answer text status headers bdy) (hs : Success status) (hw : FirstWord bdy w) :
    answer text = .hub ("udp://".toList ++ w) := by
  obtain ⟨rfl, h1, h2⟩ := ha
  obtain ⟨v, a, r, rfl, g1, g2, g3, g4⟩ := hs
  obtain ⟨x, hx⟩ := word_iff.2 hw
  unfold answer
  rw [List.append_assoc, List.cons_append, getline_spec h1]
  have hword : word ("HTTP/".toList ++ v ++ a ++ "200".toList ++ r) = some ("HTTP/".toList ++ v, a ++ "200".toList ++ r) := by
    have := word_at (a := []) (w := "HTTP/".toList ++ v) (b := a ++ "200".toList ++ r) (fun _ h => nomatch h) (by simp) ?_ ?_
    · simpa only [List.nil_append, List.append_assoc] using this
    · intro c hc
      rcases List.mem_append.1 hc with hc | hc
      · intro hb
        have := (isSpace_iff c).2 hb
        have h5 : ∀ c ∈ "HTTP/".toList, isSpace c = false := by decide
        rw [h5 c hc] at this; cases this
      · exact g1 c hc
    · intro c hc
      cases a with
      | nil => exact absurd rfl g2
      | cons y a => exact g3 c (by obtain rfl : y = c := by simpa using hc
                                   exact List.mem_cons_self ..)
  simp only [hword, Option.getD_some]
  rw [if_neg (by simp)]
  simp only [unsigned_200 g3 g4, ne_eq, not_true, if_false, body_of h2, Option.bind_some, hx]

/-- C128, partial: a hub comes from an answer with a status line and an empty line after the headers, is the UDP FaceUri of the first word of the body, and the
protocol is HTTP. Missing: that the status is 200; other numbers count as 200, too (C128_negative). -/
theorem C128_only_partial {text h : Str} (ha : answer text = .hub h) : ∃ status headers bdy w v r, Spec.Answer text status headers bdy ∧ FirstWord bdy w ∧
    h = "udp://".toList ++ w ∧ FirstWord status v ∧ "HTTP/".toList <+: v ∧ v ++ r <:+ status ∧ Counts200 r := by
  unfold answer at ha
  split at ha
  · cases ha
  · rename_i line rest hg
    have hsp : text = line ++ '\n' :: rest ∧ '\n' ∉ line ∨ rest = [] := by
      unfold getline at hg
      split at hg
      · cases hg
      · cases hg
        obtain ⟨k1, k2, k3⟩ := while_split (· != '\n') text
        cases hd : text.dropWhile (· != '\n') with
        | nil => exact Or.inr rfl
        | cons y m =>
          left
          have hy := k3 y (by rw [hd]; rfl)
          simp only [bne_eq_false_iff_eq] at hy
          subst hy
          rw [hd] at k1
          refine ⟨k1, fun h => ?_⟩
          have := k2 _ h
          simp at this
    cases hv : word line with
    | none => rw [hv] at ha; cases ha
    | some p =>
      obtain ⟨v, r⟩ := p
      rw [hv] at ha
      simp only [Option.getD_some] at ha
      split at ha
      · cases ha
      · rename_i hver
        split at ha
        · cases ha
        · rename_i code hcode
          split at ha
          · cases ha
          · rename_i hc
            simp only [ne_eq, Decidable.not_not] at hc
            subst hc
            split at ha
            · cases ha
            · rename_i w x hb
              injection ha with ha
              obtain ⟨bdy, hb1, hb2⟩ := Option.bind_eq_some_iff.1 hb
              obtain ⟨headers, e1, e2⟩ := body_inv hb1 (by simp)
              rw [List.nil_append] at e1
              rcases hsp with ⟨s1, s2⟩ | s1
              · refine ⟨line, headers, bdy, w, v, r, ⟨?_, s2, e2⟩, word_iff.1 ⟨x, hb2⟩, ha.symm, word_iff.1 ⟨r, hv⟩, ?_, ?_, unsigned_inv hcode⟩
                · rw [s1, e1, List.append_assoc]; rfl
                · simp only [ne_eq, Decidable.not_not] at hver
                  exact ⟨v.drop 5, by rw [← hver, List.take_append_drop]⟩
                · unfold word at hv
                  split at hv
                  · cases hv
                  · injection hv with hv
                    obtain ⟨q1, -, -⟩ := while_split isSpace line
                    obtain ⟨q2, -, -⟩ := while_split (fun c => !isSpace c) (line.dropWhile isSpace)
                    have h1 := congrArg Prod.fst hv
                    have h2 := congrArg Prod.snd hv
                    dsimp only at h1 h2
                    rw [h1, h2] at q2
                    exact ⟨line.takeWhile isSpace, by rw [← q2]; exact q1.symm⟩
              · subst s1; cases hb1

/-- C128: an answer whose status line ends after the protocol makes ndn-autoconfig read a variable that was not set. -/
theorem C128_no_code {text status rest v a : Str} (ht : text = status ++ '\n' :: rest) (hn : '\n' ∉ status) (hs : status = "HTTP/".toList ++ v ++ a)
    (hv : ∀ c ∈ v, ¬Blank c) (ha : ∀ c ∈ a, Blank c) : answer text = .indeterminate := by
  subst ht
  unfold answer
  rw [getline_spec hn]
  have hword : word status = some ("HTTP/".toList ++ v, a) := by
    have := word_at (a := []) (w := "HTTP/".toList ++ v) (b := a) (fun _ h => nomatch h) (by simp) ?_ ?_
    · rw [hs]; simpa only [List.nil_append, List.append_assoc] using this
    · intro c hc
      rcases List.mem_append.1 hc with hc | hc
      · intro hb
        have := (isSpace_iff c).2 hb
        have h5 : ∀ c ∈ "HTTP/".toList, isSpace c = false := by decide
        rw [h5 c hc] at this; cases this
      · exact hv c hc
    · intro c hc
      exact ha c (List.mem_of_mem_head? hc)
  obtain ⟨-, k2⟩ := takeWhile_all (p := isSpace) (a := a) (b := []) (fun x hx => (isSpace_iff x).2 (ha x hx)) (fun _ h => nomatch h)
  rw [List.append_nil] at k2
  simp only [hword, Option.getD_some]
  rw [if_neg (by simp)]
  simp only [unsigned, k2]

/-! ### The URL -/

theorem scheme_http (r : Str) : scheme ("http://".toList ++ r) = some ("http".toList, r) := by
  obtain ⟨h1, h2⟩ := takeWhile_all (p := isWord) (a := "http".toList) (b := ':' :: '/' :: '/' :: r) (by decide) (fun x hx => by cases hx; rfl)
  show scheme ("http".toList ++ ':' :: '/' :: '/' :: r) = _
  unfold scheme
  rw [h1, h2]
  rfl

theorem portOf_colon {p : Str} (h : PortNumber p) : portOf (':' :: p) = some p := by
  unfold portOf
  exact if_pos ⟨h.1, List.all_eq_true.2 (fun c hc => (isDig_iff c).2 (h.2 c hc))⟩

/-- The port part of a URL. -/
abbrev colonPort (p : Option Str) : Str := p.elim [] (':' :: ·)

theorem portOf_opt {p : Option Str} (h : ∀ x, p = some x → PortNumber x) : portOf (colonPort p) = some (p.getD []) := by
  cases p with
  | none => rfl
  | some x => exact portOf_colon (h x rfl)

theorem port_default {p : Option Str} (h : ∀ x, p = some x → PortNumber x) (e : Str) : (if p.getD [] = [] then e else p.getD []) = p.getD e := by
  cases p with
  | none => rfl
  | some x => exact if_neg (h x rfl).1

theorem colonPort_slash {p : Option Str} (h : ∀ x, p = some x → PortNumber x) : '/' ∉ colonPort p := by
  cases p with
  | none => simp
  | some x =>
    simp only [Option.elim, List.mem_cons, not_or]
    refine ⟨by decide, fun hx => ?_⟩
    have := (h x rfl).2 _ hx
    simp [Digit] at this

theorem authority {a path : Str} (hne : a ≠ []) (hs : '/' ∉ a) (hpath : path = [] ∨ PlainPath path) {x : Str × Str} (hx : (v6 a).or ((v4Mapped a).or (v4Host a)) = some x) :
    url ("http://".toList ++ a ++ path) = some ⟨"http".toList, x.1, if x.2 = [] then "80".toList else x.2, if path = [] then "/".toList else path⟩ := by
  obtain ⟨h1, h2⟩ := takeWhile_all (p := (· != '/')) (a := a) (b := path) (fun c hc => by simp only [bne_iff_ne]; rintro rfl; exact hs hc)
    (fun c hc => by
      rcases hpath with rfl | ⟨⟨r, rfl⟩, -⟩
      · cases hc
      · cases hc; rfl)
  have hq : path.contains '?' = false := by
    rw [Bool.eq_false_iff]
    intro h
    rcases hpath with rfl | ⟨-, hq⟩
    · cases h
    · exact hq (List.contains_iff_mem.1 h)
  unfold url
  rw [List.append_assoc, scheme_http]
  simp only [Option.bind_eq_bind, Option.bind_some, h1, h2, hq, Bool.false_eq_true, if_false, if_neg hne, hx]

/-- C128: an http URL with a host name, perhaps a port and perhaps a path without a query is understood; the port is 80 and the path / if they are left out. If the
host can be reached there, it is asked for this path. -/
theorem C128_url_partial {h path : Str} {p : Option Str} (hh : HostName h) (hp : ∀ x, p = some x → PortNumber x) (hpath : path = [] ∨ PlainPath path) (n : Net)
    (hc : n.connects h (p.getD "80".toList) = true) (hw : n.writes = true) :
    doStart ("http://".toList ++ (h ++ colonPort p) ++ path) n =
      (some (h, p.getD "80".toList, "GET ".toList ++ (if path = [] then "/".toList else path) ++ " HTTP/1.0\r\nHost: ".toList ++ h ++ ":".toList ++ p.getD "80".toList ++
        "\r\nAccept: */*\r\nCache-Control: no-cache\r\nConnection: close\r\n\r\n".toList), answer n.reply) := by
  obtain ⟨h1, h2, h3, h4⟩ := hh
  have hhead : ∀ c ∈ (h ++ colonPort p).head?, c ≠ '[' := by
    intro c hc
    cases h with
    | nil => exact absurd rfl h1
    | cons y h => cases hc; rintro rfl; exact h4 (List.mem_cons_self ..)
  have e1 : v6 (h ++ colonPort p) = none := by
    unfold v6
    split
    · rename_i r hr; rw [hr] at hhead; exact absurd rfl (hhead _ rfl)
    · rfl
  have e2 : v4Mapped (h ++ colonPort p) = none := by
    unfold v4Mapped
    rw [if_neg]
    intro hh
    cases hl : h ++ colonPort p with
    | nil => rw [hl] at hh; cases hh
    | cons y l =>
      rw [hl] at hh hhead
      have hy : y = '[' := by
        have := congrArg List.head? hh
        simpa using this
      exact hhead y rfl hy
  have e3 : v4Host (h ++ colonPort p) = some (h, p.getD []) := by
    obtain ⟨k1, k2⟩ := takeWhile_all (p := (· != ':')) (a := h) (b := colonPort p) (fun c hc => by simp only [bne_iff_ne]; rintro rfl; exact h2 hc)
      (fun c hc => by
        cases p with
        | none => cases hc
        | some x => cases hc; rfl)
    unfold v4Host
    rw [k1, k2]
    simp only [if_neg h1, portOf_opt hp, Option.map_some]
  have hu := authority (a := h ++ colonPort p) (path := path) (x := (h, p.getD [])) (by simp [h1]) (by
    simp only [List.mem_append, not_or]; exact ⟨h3, colonPort_slash hp⟩) hpath (by rw [e1, e2, e3]; rfl)
  rw [port_default hp] at hu
  have h5 : isHttp "http".toList = true := by decide
  generalize p.getD "80".toList = port at hu hc ⊢
  generalize (if path = [] then "/".toList else path) = pth at hu ⊢
  generalize "http://".toList ++ (h ++ colonPort p) ++ path = u at hu ⊢
  generalize "http".toList = sch at hu h5
  unfold doStart
  rw [hu]
  dsimp only
  rw [h5, hc, hw, Bool.not_true, if_neg Bool.false_ne_true, if_neg Bool.false_ne_true, if_neg Bool.false_ne_true]
  unfold request
  rfl

/-- C128: so is an IPv6 address in brackets. -/
theorem C128_url6_partial {h path : Str} {p : Option Str} (h1 : h ≠ []) (h2 : ∀ c ∈ h, isHexColon c = true) (hp : ∀ x, p = some x → PortNumber x)
    (hpath : path = [] ∨ PlainPath path) : url ("http://".toList ++ ('[' :: h ++ ']' :: colonPort p) ++ path) =
      some ⟨"http".toList, h, p.getD "80".toList, if path = [] then "/".toList else path⟩ := by
  have e : v6 ('[' :: h ++ ']' :: colonPort p) = some (h, p.getD []) := by
    obtain ⟨k1, k2⟩ := takeWhile_all (p := isHexColon) (a := h) (b := ']' :: colonPort p) h2 (fun c hc => by cases hc; decide)
    show v6 ('[' :: (h ++ ']' :: colonPort p)) = _
    simp only [v6, k1, k2, if_neg h1, portOf_opt hp, Option.map_some]
  have hu := authority (a := '[' :: h ++ ']' :: colonPort p) (path := path) (x := (h, p.getD [])) (by simp) (by
    simp only [List.mem_append, List.mem_cons, not_or, List.cons_append]
    exact ⟨by decide, fun hx => absurd (h2 _ hx) (by decide), by decide, colonPort_slash hp⟩) hpath (by rw [e]; rfl)
  rw [port_default hp] at hu
  exact hu

/-- C128: a URL with a query is refused, whatever host and path, and nothing is sent. -/
theorem C128_query {h path q : Str} (hh : '/' ∉ h) (hpath : ∃ r, path = '/' :: r) (n : Net) :
    doStart ("http://".toList ++ h ++ path ++ '?' :: q) n = (none, .failed .invalidUrl) := by
  obtain ⟨r, rfl⟩ := hpath
  obtain ⟨h1, h2⟩ := takeWhile_all (p := (· != '/')) (a := h) (b := ('/' :: r) ++ '?' :: q) (fun c hc => by simp only [bne_iff_ne]; rintro rfl; exact hh hc)
    (fun c hc => by cases hc; rfl)
  have hu : url ("http://".toList ++ h ++ '/' :: r ++ '?' :: q) = none := by
    unfold url
    rw [List.append_assoc, List.append_assoc, scheme_http]
    simp only [Option.bind_eq_bind, Option.bind_some, h1, h2]
    rw [if_pos (by simp)]
  unfold doStart
  rw [hu]

/-- C128: a URL with another scheme is refused and nothing is sent. -/
theorem C128_scheme {u : Str} {v : Url} (h : url u = some v) (hs : isHttp v.scheme = false) (n : Net) : doStart u n = (none, .failed .notHttp) := by
  unfold doStart
  rw [h]
  simp only [hs, Bool.not_false, if_true]

theorem afterScheme_eq {l r : Str} (h : afterScheme l = some r) : l = "://".toList ++ r := by
  unfold afterScheme at h
  split at h
  · cases h; rfl
  · cases h

theorem scheme_eq {u s r : Str} (h : scheme u = some (s, r)) : u = s ++ "://".toList ++ r := by
  have hu : u = u.takeWhile isWord ++ u.dropWhile isWord := List.takeWhile_append_dropWhile.symm
  unfold scheme at h
  simp only at h
  split at h
  · cases h
  · split at h
    · rename_i x hx
      split at h
      · cases h
      · rw [Option.map_eq_some_iff] at h
        obtain ⟨y, hy, he⟩ := h
        cases he
        have hv : x = x.takeWhile isWord ++ x.dropWhile isWord := List.takeWhile_append_dropWhile.symm
        rw [afterScheme_eq hy] at hv
        rw [hx] at hu
        conv => lhs; rw [hu]; arg 2; rw [hv]
        simp
    · rw [Option.map_eq_some_iff] at h
      obtain ⟨y, hy, he⟩ := h
      cases he
      rw [afterScheme_eq hy] at hu
      conv => lhs; rw [hu]
      simp

theorem takeWhile_word (l : Str) : ∀ c ∈ l.takeWhile isWord, isWord c = true := by
  intro c hc
  induction l with
  | nil => cases hc
  | cons a l ih =>
    rw [List.takeWhile_cons] at hc
    split at hc
    · rcases List.mem_cons.1 hc with rfl | hc
      · assumption
      · exact ih hc
    · cases hc

theorem wordChar_of {c : Char} (h : isWord c = true) : Digit c ∨ (97 ≤ c.toNat ∧ c.toNat ≤ 122) ∨ (65 ≤ c.toNat ∧ c.toNat ≤ 90) ∨ c = '_' := by
  unfold isWord at h
  simp only [Bool.or_eq_true, decide_eq_true_eq, beq_iff_eq] at h
  rcases h with ((h | h) | h) | h
  · exact .inl ((isDig_iff c).1 h)
  · exact .inr (.inl h)
  · exact .inr (.inr (.inl h))
  · exact .inr (.inr (.inr h))

theorem scheme_text {u s r : Str} (h : scheme u = some (s, r)) : SchemeText s := by
  unfold scheme at h
  simp only at h
  split at h
  · cases h
  · rename_i hw
    split at h
    · rename_i x hx
      split at h
      · cases h
      · rename_i hv
        rw [Option.map_eq_some_iff] at h
        obtain ⟨y, hy, he⟩ := h
        cases he
        exact .inr ⟨_, _, rfl, ⟨hw, fun c hc => wordChar_of (takeWhile_word _ c hc)⟩, ⟨hv, fun c hc => wordChar_of (takeWhile_word _ c hc)⟩⟩
    · rw [Option.map_eq_some_iff] at h
      obtain ⟨y, hy, he⟩ := h
      cases he
      exact .inl ⟨hw, fun c hc => wordChar_of (takeWhile_word _ c hc)⟩

theorem url_scheme {u : Str} {v : Url} (h : url u = some v) : ∃ r, scheme u = some (v.scheme, r) := by
  unfold url at h
  simp only [Option.bind_eq_bind, Option.bind_eq_some_iff] at h
  obtain ⟨⟨s, r⟩, hs, h⟩ := h
  simp only at h
  split at h
  · cases h
  · split at h
    · cases h
      exact ⟨r, hs⟩
    · rw [Option.bind_eq_some_iff] at h
      obtain ⟨⟨a, b⟩, -, h⟩ := h
      cases h
      exact ⟨r, hs⟩

theorem lower_h {c d : Char} (D : Char) (hd : D.toNat + 32 = d.toNat) (h : (if 'A' ≤ c ∧ c ≤ 'Z' then Char.ofNat (c.toNat + 32) else c) = d) : c = d ∨ c = D := by
  split at h
  · rename_i hc
    right
    have h1 : c.toNat ≤ 90 := hc.2
    have hv : (c.toNat + 32).isValidChar := Or.inl (by omega)
    have h2 : (Char.ofNat (c.toNat + 32)).toNat = c.toNat + 32 := by
      unfold Char.ofNat
      rw [dif_pos hv]
      rfl
    rw [h] at h2
    exact Char.toNat_inj.1 (by omega)
  · exact .inl h

theorem isHttp_text {s : Str} (h : isHttp s = true) : HttpText s := by
  unfold isHttp at h
  have h := eq_of_beq h
  have e : "http".toList = ['h', 't', 't', 'p'] := rfl
  rw [e] at h
  have hl := congrArg List.length h
  rw [List.length_map] at hl
  match s, hl with
  | [a, b, c, d], _ =>
    simp only [List.map_cons, List.map_nil, List.cons.injEq, and_true] at h
    obtain ⟨ha, hb, hc, hd⟩ := h
    exact ⟨a, b, c, d, rfl, lower_h 'H' rfl ha, lower_h 'T' rfl hb, lower_h 'T' rfl hc, lower_h 'P' rfl hd⟩

/-- C128: nothing is sent unless the URL begins with `http://`, in small or capital letters. -/
theorem C128_only_http {u : Str} {n : Net} {x : Str × Str × Str} (h : (doStart u n).1 = some x) :
    ∃ s r, u = s ++ "://".toList ++ r ∧ HttpText s := by
  unfold doStart at h
  split at h
  · cases h
  · rename_i v hv
    split at h
    · cases h
    · rename_i hs
      obtain ⟨r, hr⟩ := url_scheme hv
      exact ⟨v.scheme, r, scheme_eq hr, isHttp_text (by simpa using hs)⟩

/-- C128: a text that does not begin with a scheme and `://` is refused as not a URL. -/
theorem C128_malformed {u : Str} (n : Net) (h : ¬∃ s r, u = s ++ "://".toList ++ r ∧ SchemeText s) :
    doStart u n = (none, .failed .invalidUrl) := by
  unfold doStart
  split
  · rfl
  · rename_i v hv
    obtain ⟨r, hr⟩ := url_scheme hv
    exact absurd ⟨v.scheme, r, scheme_eq hr, scheme_text hr⟩ h

/-! ### Where the expectations fail, and examples -/

/-- A status that is not 200 counts as 200. -/
theorem C128_negative : answer "HTTP/1.0 -4294967096 X\r\n\r\nhub".toList = .hub "udp://hub".toList ∧ ¬Success "HTTP/1.0 -4294967096 X\r".toList := by
  refine ⟨by decide +kernel, ?_⟩
  rintro ⟨v, a, r, h, hv, ha, ha2, -⟩
  have hw := word_at (a := []) (w := "HTTP/".toList ++ v) (b := a ++ "200".toList ++ r) (fun _ h => nomatch h) (by simp) (by
    intro c hc
    rcases List.mem_append.1 hc with hc | hc
    · intro hb
      have := (isSpace_iff c).2 hb
      have h5 : ∀ c ∈ "HTTP/".toList, isSpace c = false := by decide
      rw [h5 c hc] at this; cases this
    · exact hv c hc) (by
    intro c hc
    cases a with
    | nil => exact absurd rfl ha
    | cons y a => exact ha2 c (by obtain rfl : y = c := by simpa using hc
                                  exact List.mem_cons_self ..))
  rw [List.nil_append, ← List.append_assoc, ← List.append_assoc, ← h, show word "HTTP/1.0 -4294967096 X\r".toList = some ("HTTP/1.0".toList, " -4294967096 X\r".toList) from by decide +kernel] at hw
  have h2 := congrArg Prod.snd (Option.some.inj hw)
  dsimp only at h2
  obtain ⟨-, k2⟩ := takeWhile_all (p := isSpace) (a := a) (b := "200".toList ++ r) (fun x hx => (isSpace_iff x).2 (ha2 x hx)) (fun c hc => by cases hc; rfl)
  rw [← List.append_assoc, ← h2, show " -4294967096 X\r".toList.dropWhile isSpace = "-4294967096 X\r".toList from by decide +kernel] at k2
  have := congrArg List.head? k2
  simp at this

theorem C128_indeterminate : answer "HTTP/1.0\r\n\r\nhub".toList = .indeterminate := by decide +kernel

example : answer "HTTP/1.1 200 OK\r\nContent-Type: text/plain\r\n\r\nhub.example.net\r\n".toList = .hub "udp://hub.example.net".toList := by decide +kernel
example : answer "HTTP/1.1 404 Not Found\r\n\r\n".toList = .failed (.status 404) := by decide +kernel
example : answer "HTTP/1.1 200 OK\r\n\r\n".toList = .failed .noHub := by decide +kernel

/-- The hypotheses of C128_hub. -/
example : Spec.Answer "HTTP/1.1 200 OK\r\nA: b\r\n\r\nhub x".toList "HTTP/1.1 200 OK\r".toList ["A: b\r".toList] "hub x".toList ∧ Success "HTTP/1.1 200 OK\r".toList ∧
    FirstWord "hub x".toList "hub".toList := by
  refine ⟨⟨by decide, by decide, by decide⟩, ⟨"1.1".toList, " ".toList, " OK\r".toList, by decide, ?_, by decide, ?_, ?_⟩, word_iff.1 ⟨" x".toList, by decide⟩⟩
  · intro c hc hb
    have h1 : ∀ c ∈ "1.1".toList, isSpace c = false := by decide
    have := (isSpace_iff c).2 hb
    rw [h1 c hc] at this; cases this
  · intro c hc; cases hc with
    | head => exact Or.inl rfl
    | tail _ h => cases h
  · intro c hc hd
    cases hc
    exact absurd ((isDig_iff ' ').2 hd) (by decide)

/-- The hypotheses of C128_url_partial. -/
example : HostName "ndn-fch.named-data.net".toList ∧ PortNumber "8080".toList ∧ PlainPath "/a/b".toList := by
  refine ⟨by unfold HostName; decide, ⟨by decide, ?_⟩, ⟨⟨_, rfl⟩, by decide⟩⟩
  intro c hc
  exact (isDig_iff c).1 (List.all_eq_true.1 (show "8080".toList.all isDig = true by decide) c hc)

example : url "http://ndn-fch.named-data.net".toList = some ⟨"http".toList, "ndn-fch.named-data.net".toList, "80".toList, "/".toList⟩ := by decide +kernel
example : url "http://[::ffff:10.0.0.1]:81/x".toList = some ⟨"http".toList, "10.0.0.1".toList, "81".toList, "/x".toList⟩ := by decide +kernel
example : url "http://fch.example/?cap=udp".toList = none := by decide +kernel
example : (doStart "https://fch.example".toList ⟨fun _ _ => true, true, []⟩).2 = .failed .notHttp := by decide +kernel

/-- The hypothesis of C128_only_http, and a text as in C128_malformed. -/
example : (doStart "HTTP://fch.example".toList ⟨fun _ _ => true, true, []⟩).1.isSome = true := by decide +kernel

example : ¬∃ s r, "http+://h".toList = s ++ "://".toList ++ r ∧ SchemeText s := by
  rintro ⟨s, r, h, hs⟩
  have e : "http+://h".toList = ['h', 't', 't', 'p', '+', ':', '/', '/', 'h'] := rfl
  have e2 : "://".toList = [':', '/', '/'] := rfl
  rw [e, e2] at h
  have hc : ':' ∉ s := by
    intro hm
    have hw : ∀ w, Word w → ':' ∉ w := by
      intro w hw hm
      rcases hw.2 _ hm with h | h | h | h
      · exact absurd h.2 (by decide)
      · exact absurd h.1 (by decide)
      · exact absurd h.1 (by decide)
      · exact absurd h (by decide)
    rcases hs with hs | ⟨a, b, rfl, ha, hb⟩
    · exact hw _ hs hm
    · rcases List.mem_append.1 hm with h | h
      · exact hw _ ha h
      · rcases List.mem_cons.1 h with h | h
        · exact absurd h (by decide)
        · exact hw _ hb h
  have hs' : s = "http+".toList := by
    have := congrArg (List.takeWhile (· != ':')) h
    rw [List.append_assoc, List.takeWhile_append_of_pos (by
      intro c hm
      simp only [bne_iff_ne, ne_eq]
      rintro rfl
      exact hc hm)] at this
    simpa using this.symm
  subst hs'
  rcases hs with hs | ⟨a, b, h, ha, hb⟩
  · rcases hs.2 '+' (by decide) with h | h | h | h
    · exact absurd h.1 (by decide)
    · exact absurd h.1 (by decide)
    · exact absurd h.1 (by decide)
    · exact absurd h (by decide)
  · have hl := congrArg List.getLast? h
    obtain ⟨x, b', rfl⟩ : ∃ x b', b = x :: b' := by
      cases b with
      | nil => exact absurd rfl hb.1
      | cons x b' => exact ⟨x, b', rfl⟩
    rw [List.getLast?_append, List.getLast?_cons_cons, List.getLast?_eq_some_getLast (l := x :: b') (by simp), Option.some_or] at hl
    have hm : '+' ∈ x :: b' := Option.some.inj (show some '+' = _ from hl) ▸ List.getLast_mem (by simp)
    rcases hb.2 _ hm with h | h | h | h
    · exact absurd h.1 (by decide)
    · exact absurd h.1 (by decide)
    · exact absurd h.1 (by decide)
    · exact absurd h (by decide)

end Verif.Fch
