import Verif.Nfdc.BatchSpec

namespace Verif.Nfdc

theorem isSep_iff (c : Char) : isSep c = true ↔ Sep c := by simp [isSep, Sep]
theorem isQuote_iff (c : Char) : isQuote c = true ↔ Quote c := by simp [isQuote, Quote]
theorem isSep_false (c : Char) : isSep c = false ↔ ¬ Sep c := by rw [← isSep_iff]; simp
theorem isQuote_false (c : Char) : isQuote c = false ↔ ¬ Quote c := by rw [← isQuote_iff]; simp

theorem Sep.ne {c : Char} (h : Sep c) : c ≠ '\\' := by rcases h with rfl | rfl <;> decide
theorem Quote.ne {c : Char} (h : Quote c) : c ≠ '\\' := by rcases h with rfl | rfl <;> decide
theorem Quote.notSep {c : Char} (h : Quote c) : ¬ Sep c := by rcases h with rfl | rfl <;> unfold Sep <;> decide

theorem scan_nil (q : Bool) (acc : Tok) : scan [] q acc = ([acc], true) := by rw [scan.eq_def]

theorem scan_newline (r : List Char) (q : Bool) (acc : Tok) : scan ('\\' :: 'n' :: r) q acc = scan r q (acc ++ ['\n']) := by
  rw [scan.eq_def]; simp

theorem scan_esc {c : Char} (h : c = '\\' ∨ Quote c ∨ Sep c) (r : List Char) (q : Bool) (acc : Tok) :
    scan ('\\' :: c :: r) q acc = scan r q (acc ++ [c]) := by
  have h1 : c ≠ 'n' := by rcases h with rfl | (rfl | rfl) | (rfl | rfl) <;> decide
  have h2 : (isQuote c || isSep c || c == '\\') = true := by
    rcases h with rfl | h | h
    · decide
    · rw [(isQuote_iff c).2 h]; simp
    · rw [(isSep_iff c).2 h]; simp
  rw [scan, if_neg h1, if_pos h2]

theorem scan_char {c : Char} (h : c ≠ '\\') (r : List Char) (q : Bool) (acc : Tok) :
    scan (c :: r) q acc = if isSep c then if q then scan r q (acc ++ [c]) else (acc :: (scan r false []).1, (scan r false []).2)
      else if isQuote c then scan r (!q) acc else scan r q (acc ++ [c]) := by
  rw [scan.eq_def]
  split
  · rename_i h1; simp at h1
  · rename_i h1; simp only [List.cons.injEq] at h1; exact absurd h1.1 h
  · rename_i h1; simp only [List.cons.injEq] at h1; exact absurd h1.1 h
  · rename_i h1; simp only [List.cons.injEq] at h1
    obtain ⟨rfl, rfl⟩ := h1
    rfl

theorem scan_sep {c : Char} (h : Sep c) (r : List Char) (acc : Tok) : scan (c :: r) false acc = (acc :: (scan r false []).1, (scan r false []).2) := by
  rw [scan_char h.ne, if_pos ((isSep_iff c).2 h)]; simp

theorem scan_quote {c : Char} (h : Quote c) (r : List Char) (q : Bool) (acc : Tok) : scan (c :: r) q acc = scan r (!q) acc := by
  rw [scan_char h.ne, (isSep_false c).2 h.notSep, (isQuote_iff c).2 h]; simp

theorem scan_raw {c : Char} (h : c ≠ '\\') (hq : ¬ Quote c) (q : Bool) (hs : q = true ∨ ¬ Sep c) (r : List Char) (acc : Tok) :
    scan (c :: r) q acc = scan r q (acc ++ [c]) := by
  rw [scan_char h, (isQuote_false c).2 hq]
  rcases hs with rfl | hs
  · simp
  · rw [(isSep_false c).2 hs]; simp

theorem scan_quoted {s : List Char} {u : Tok} (h : Quoted s u) : ∀ (r : List Char) (acc : Tok), scan (s ++ r) true acc = scan r true (acc ++ u) := by
  induction h with
  | nil => intro r acc; simp
  | raw c s t hc hq _ ih => intro r acc; rw [List.cons_append, scan_raw hc hq true (.inl rfl), ih]; simp
  | esc c s t hc _ ih => intro r acc; rw [List.cons_append, List.cons_append, scan_esc hc, ih]; simp
  | newline s t _ ih => intro r acc; rw [List.cons_append, List.cons_append, scan_newline, ih]; simp

theorem scan_word {s : List Char} {u : Tok} (h : Word s u) : ∀ (r : List Char) (acc : Tok), scan (s ++ r) false acc = scan r false (acc ++ u) := by
  induction h with
  | nil => intro r acc; simp
  | raw c s t hc hq hs _ ih => intro r acc; rw [List.cons_append, scan_raw hc hq false (.inr hs), ih]; simp
  | esc c s t hc _ ih => intro r acc; rw [List.cons_append, List.cons_append, scan_esc hc, ih]; simp
  | newline s t _ ih => intro r acc; rw [List.cons_append, List.cons_append, scan_newline, ih]; simp
  | quoted a b s r' u t ha hb hs _ ih =>
    intro r acc
    rw [List.cons_append, scan_quote ha, List.append_assoc, Bool.not_false, scan_quoted hs, List.cons_append, scan_quote hb, Bool.not_true, ih]
    simp

theorem scan_splits {l : List Char} {ts : List Tok} (h : Splits l ts) : scan l false [] = (ts, true) := by
  induction h with
  | last w t hw =>
    have := scan_word hw [] []
    rw [List.append_nil] at this
    rw [this, scan_nil]; simp
  | cons w t c r ts hw hc _ ih =>
    rw [scan_word hw, scan_sep hc, ih]; simp

theorem splits_ne {l : List Char} {ts : List Tok} (h : Splits l ts) : ts ≠ [] := by cases h <;> simp

theorem splits_empty {l : List Char} {ts : List Tok} (h : Splits l ts) (hl : l = []) : ∀ t ∈ ts, t = [] := by
  cases h with
  | last w t hw => subst hl; cases hw; simp
  | cons w t c r ts hw hc hs => simp at hl

theorem dropWhile_filter (ts : List Tok) : ts.filter (fun t => !t.isEmpty) = (ts.dropWhile (fun t => t.isEmpty)).filter (fun t => !t.isEmpty) := by
  induction ts with
  | nil => rfl
  | cons t ts ih =>
    cases t with
    | nil => simpa using ih
    | cons c t => simp [List.dropWhile_cons]

theorem classify_blank {l : List Char} {ts : List Tok} (h : Splits l ts) (ht : ∀ t ∈ ts, t = []) : classify l = .ignored := by
  have key : ∀ ts : List Tok, (∀ t ∈ ts, t = []) → ts.dropWhile (fun t => t.isEmpty) = [] := by
    intro ts
    induction ts with
    | nil => intro _; rfl
    | cons t ts ih =>
      intro h
      have : t = [] := h t (by simp)
      subst this
      simpa using ih (fun x hx => h x (by simp [hx]))
  unfold classify tokenize
  by_cases hl : l = []
  · simp [hl]
  · rw [if_neg hl, scan_splits h]
    simp [key ts ht]

theorem classify_cmd {l : List Char} {ts us : List Tok} {t : Tok} (h : Splits l ts) (hf : ts.filter (fun x => decide (x ≠ [])) = t :: us)
    (hh : t.head? ≠ some '#') : classify l = .args (t :: us) := by
  have hf : ts.filter (fun x => !x.isEmpty) = t :: us := by
    rw [← hf]; congr 1; funext x; cases x <;> simp
  have hl : l ≠ [] := by
    rintro rfl
    have := splits_empty h rfl
    have hm : t ∈ ts.filter (fun x => !x.isEmpty) := by rw [hf]; simp
    obtain ⟨h1, h2⟩ := List.mem_filter.1 hm
    rw [this t h1] at h2; simp at h2
  unfold classify tokenize
  rw [if_neg hl, scan_splits h]
  rw [dropWhile_filter] at hf
  dsimp only
  cases hd : ts.dropWhile (fun t => t.isEmpty) with
  | nil => rw [hd] at hf; cases hf
  | cons x xs =>
    have hx : x.isEmpty = false := by
      have := List.head_dropWhile_not (fun t : Tok => t.isEmpty) (l := ts) (by rw [hd]; simp)
      simp only [hd, List.head_cons] at this
      exact this
    rw [hd] at hf
    have hf' := hf
    rw [List.filter_cons, hx] at hf
    simp only [Bool.not_false, if_true, List.cons.injEq] at hf
    obtain ⟨rfl, _⟩ := hf
    dsimp only
    rw [if_neg hh, if_pos rfl, hf']

theorem scan_clean : ∀ (r : List Char) (q : Bool) (acc : Tok), '\\' ∉ r → ∃ x xs, scan r q acc = (x :: xs, true) ∧ ∃ z, x = acc ++ z := by
  intro r
  induction r with
  | nil => intro q acc _; exact ⟨acc, [], scan_nil q acc, [], by simp⟩
  | cons c r ih =>
    intro q acc h
    simp only [List.mem_cons, not_or] at h
    have hc : c ≠ '\\' := fun h1 => h.1 h1.symm
    rw [scan_char hc]
    by_cases h1 : isSep c = true
    · rw [if_pos h1]
      cases q with
      | true =>
        obtain ⟨x, xs, h2, z, h3⟩ := ih true (acc ++ [c]) h.2
        exact ⟨x, xs, by simpa using h2, c :: z, by simp [h3]⟩
      | false =>
        obtain ⟨x, xs, h2, _⟩ := ih false [] h.2
        exact ⟨acc, x :: xs, by simp [h2], [], by simp⟩
    · rw [if_neg h1]
      by_cases h2 : isQuote c = true
      · rw [if_pos h2]; exact ih _ _ h.2
      · rw [if_neg h2]
        obtain ⟨x, xs, h2, z, h3⟩ := ih q (acc ++ [c]) h.2
        exact ⟨x, xs, h2, c :: z, by simp [h3]⟩

theorem classify_comment {l : List Char} (h : Comment l) : classify l = .ignored := by
  obtain ⟨b, r, rfl, hb, hr⟩ := h
  have h0 : (b ++ '#' :: r) ≠ [] := by simp
  have key : ∃ x xs, ((scan (b ++ '#' :: r) false []).1.dropWhile (fun t => t.isEmpty)) = x :: xs ∧ x.head? = some '#' ∧
      (scan (b ++ '#' :: r) false []).2 = true := by
    clear h0
    induction b with
    | nil =>
      rw [List.nil_append, scan_raw (by decide) (by unfold Quote; decide) false (.inr (by unfold Sep; decide))]
      obtain ⟨x, xs, h1, z, h2⟩ := scan_clean r false ([] ++ ['#']) hr
      rw [h1]
      subst h2
      exact ⟨'#' :: z, xs, by simp, by simp, rfl⟩
    | cons c b ih =>
      obtain ⟨x, xs, h1, h2, h3⟩ := ih (fun c hc => hb c (by simp [hc]))
      refine ⟨x, xs, ?_, h2, ?_⟩
      · rw [List.cons_append, scan_sep (hb c (by simp))]
        simpa [List.dropWhile_cons] using h1
      · rw [List.cons_append, scan_sep (hb c (by simp))]
        exact h3
  obtain ⟨x, xs, h1, h2, h3⟩ := key
  unfold classify tokenize
  rw [if_neg h0]
  dsimp only
  rw [h1]
  dsimp only
  rw [if_pos h2]

/-! Lines that are continued. -/

theorem trailing_snoc (p : List Char) : trailing (p ++ ['\\']) = trailing p + 1 := by
  unfold trailing
  rw [List.reverse_append]
  simp

theorem trailing_append (p m : List Char) : trailing (p ++ m) = trailing m ∨ trailing (p ++ m) = trailing m + trailing p := by
  unfold trailing
  rw [List.reverse_append, List.takeWhile_append]
  split
  · rename_i h
    right
    rw [List.length_append, h]
  · left; rfl

theorem count_snoc (p : List Char) : (p ++ ['\\']).count '\\' = p.count '\\' + 1 := by simp [List.count_append]

theorem tidy_join {p m : List Char} (h1 : Tidy (p ++ ['\\'])) (h2 : trailing (p ++ ['\\']) % 2 = 1) (h3 : Tidy m) : Tidy (p ++ m) := by
  unfold Tidy at *
  rw [trailing_snoc] at h1 h2
  rw [count_snoc] at h1
  rw [List.count_append]
  rcases trailing_append p m with h | h <;> rw [h] <;> omega

/-- The lines as joined by the program. -/
def logicalLines : List (List Char) → List (List Char)
  | [] => []
  | l :: ls => (join l ls).1 :: logicalLines (join l ls).2
termination_by ls => ls.length
decreasing_by
  have := join_length l ls
  simp only [List.length_cons]
  omega

theorem logicalLines_cons (l : List Char) (ls : List (List Char)) : logicalLines (l :: ls) = (join l ls).1 :: logicalLines (join l ls).2 := by
  rw [logicalLines]

theorem logical_eq {ls out : List (List Char)} (h : Logical ls out) : (∀ l ∈ ls, Tidy l) → logicalLines ls = out := by
  induction h with
  | nil => intro _; rw [logicalLines]
  | atEnd p h =>
    intro ht
    have ht := ht _ (by simp : p ++ ['\\'] ∈ [p ++ ['\\']])
    unfold Tidy at ht
    have : hasEscapeSlash (p ++ ['\\']) = true := by unfold hasEscapeSlash; rw [ht, h]; rfl
    rw [logicalLines_cons, join]
    simp only [this]
    rw [if_pos (by simp)]
    simp [logicalLines]
  | cont p m ls out h _ ih =>
    intro ht
    have h1 := ht _ (by simp : p ++ ['\\'] ∈ (p ++ ['\\']) :: m :: ls)
    have h2 := tidy_join h1 h (ht m (by simp))
    have hh : hasEscapeSlash (p ++ ['\\']) = true := by unfold hasEscapeSlash; unfold Tidy at h1; rw [h1, h]; rfl
    have := ih (by
      intro l hl
      cases List.mem_cons.1 hl with
      | inl h => rw [h]; exact h2
      | inr h => exact ht l (by simp [h]))
    rw [logicalLines_cons] at this
    rw [logicalLines_cons, join]
    simp only [hh]
    rw [if_pos (by simp)]
    rw [List.dropLast_concat]
    exact this
  | keep l ls out h _ ih =>
    intro ht
    have h1 := ht l (by simp)
    have hh : hasEscapeSlash l = false := by unfold hasEscapeSlash; unfold Tidy at h1; rw [h1, h]; rfl
    have : join l ls = (l, ls) := by cases ls <;> simp [join, hh]
    rw [logicalLines_cons, this]
    rw [ih (fun l hl => ht l (by simp [hl]))]

/-- Reading lines that are already joined. -/
def readLogical {C W : Type} (y : Sys C W) : List (List Char) → Except Exit (List C)
  | [] => .ok []
  | l :: ls =>
    match classify l with
    | .ignored => readLogical y ls
    | .throws => .error .abort
    | .args ts =>
      match processLine y ts with
      | .man n => .error (.man n)
      | .empty => .error (.code 2)
      | .cmd c =>
        match readLogical y ls with
        | .ok cs => .ok (c :: cs)
        | .error x => .error x

theorem readLines_eq {C W : Type} (y : Sys C W) : ∀ (k : Nat) (ls : List (List Char)), ls.length ≤ k → readLines y ls = readLogical y (logicalLines ls) := by
  intro k
  induction k with
  | zero =>
    intro ls h
    have : ls = [] := List.length_eq_zero_iff.1 (by omega)
    subst this
    rw [readLines, logicalLines, readLogical]
  | succ k ih =>
    intro ls h
    cases ls with
    | nil => rw [readLines, logicalLines, readLogical]
    | cons l ls =>
      have hj := join_length l ls
      simp only [List.length_cons] at h
      have := ih (join l ls).2 (by omega)
      rw [readLines, logicalLines_cons, readLogical]
      simp only [this]
      cases classify (join l ls).1 with
      | ignored => rfl
      | throws => rfl
      | args ts =>
        dsimp only
        cases processLine y ts with
        | man n => rfl
        | empty => rfl
        | cmd c =>
          dsimp only
          cases readLogical y (logicalLines (join l ls).2) <;> rfl

theorem processLine_some {C W : Type} {y : Sys C W} {ts : List Tok} {c : C} (h : y.parse ts = some c) : processLine y ts = .cmd c := by
  unfold processLine; rw [h]

theorem readLogical_ok {C W : Type} (y : Sys C W) {ls : List (List Char)} {cs : List (List Tok)} (h : Content ls cs) :
    ∀ ds : List C, cs.map y.parse = ds.map some → readLogical y ls = .ok ds := by
  induction h with
  | nil => intro ds h; cases ds with
    | nil => rfl
    | cons _ _ => cases h
  | blank l ts ls cs h1 h2 _ ih => intro ds h; rw [readLogical, classify_blank h1 h2]; exact ih ds h
  | comment l ls cs h1 _ ih => intro ds h; rw [readLogical, classify_comment h1]; exact ih ds h
  | cmd l ts t us ls cs h1 h2 h3 _ ih =>
    intro ds h
    cases ds with
    | nil => cases h
    | cons d ds =>
      simp only [List.map_cons, List.cons.injEq] at h
      rw [readLogical, classify_cmd h1 h2 h3]
      simp only [processLine_some h.1, ih ds h.2]

theorem readLogical_bad {C W : Type} (y : Sys C W) {ls : List (List Char)} {cs : List (List Tok)} (h : Content ls cs) :
    (∃ c ∈ cs, y.parse c = none) → ∃ x, readLogical y ls = .error x ∧ x ≠ .code 0 := by
  induction h with
  | nil => rintro ⟨c, h, _⟩; cases h
  | blank l ts ls cs h1 h2 _ ih => intro h; rw [readLogical, classify_blank h1 h2]; exact ih h
  | comment l ls cs h1 _ ih => intro h; rw [readLogical, classify_comment h1]; exact ih h
  | cmd l ts t us ls cs h1 h2 h3 _ ih =>
    rintro ⟨c, hc, hp⟩
    rw [readLogical, classify_cmd h1 h2 h3]
    dsimp only
    unfold processLine
    cases hq : y.parse (t :: us) with
    | none =>
      cases help y (t :: us) with
      | none => exact ⟨.code 2, rfl, by simp⟩
      | some n => exact ⟨.man n, rfl, by simp⟩
    | some d =>
      cases List.mem_cons.1 hc with
      | inl h => subst h; rw [hq] at hp; cases hp
      | inr h =>
        obtain ⟨x, hx, hn⟩ := ih ⟨c, h, hp⟩
        dsimp only
        rw [hx]
        exact ⟨x, rfl, hn⟩

theorem readLogical_err {C W : Type} (y : Sys C W) (ls : List (List Char)) : ∀ x, readLogical y ls = .error x → x ≠ .code 0 := by
  induction ls with
  | nil => intro x h; cases h
  | cons l ls ih =>
    intro x h
    rw [readLogical] at h
    split at h
    · exact ih x h
    · cases h; simp
    · split at h
      · cases h; simp
      · cases h; simp
      · split at h
        · cases h
        · rename_i h1; cases h; exact ih _ h1

theorem execAll_runs {C W : Type} (y : Sys C W) : ∀ (cs : List C) (w : W), ∃ w' n, execAll y (cs.map some) w = (w', .code n) ∧ Runs y cs w w' n := by
  intro cs
  induction cs with
  | nil => intro w; exact ⟨w, 0, rfl, .done w⟩
  | cons c cs ih =>
    intro w
    rw [List.map_cons, execAll]
    rcases hx : y.exec c w with ⟨w', _ | n⟩
    · exact ⟨w', 1, rfl, .throws c cs w w' hx⟩
    · by_cases hn : n = 0
      · subst hn
        obtain ⟨w2, m, h1, h2⟩ := ih w'
        exact ⟨w2, m, by simp [h1], .ok c cs w w' w2 m hx h2⟩
      · exact ⟨w', n, by simp [hn], .fails c cs w w' n hx hn⟩

theorem Runs.unique {C W : Type} {y : Sys C W} {cs : List C} {w w1 w2 : W} {n1 n2 : Nat} (h1 : Runs y cs w w1 n1) (h2 : Runs y cs w w2 n2) :
    w1 = w2 ∧ n1 = n2 := by
  induction h1 with
  | done w => cases h2; exact ⟨rfl, rfl⟩
  | ok c cs w w' w'' n he _ ih =>
    cases h2 with
    | ok _ _ _ v' _ _ he2 h2 => rw [he] at he2; cases he2; exact ih h2
    | fails _ _ _ v' _ he2 hn => rw [he] at he2; cases he2; exact absurd rfl hn
    | throws _ _ _ v' he2 => rw [he] at he2; cases he2
  | fails c cs w w' n he hn =>
    cases h2 with
    | ok _ _ _ v' _ _ he2 h2 => rw [he] at he2; cases he2; exact absurd rfl hn
    | fails _ _ _ v' _ he2 _ => rw [he] at he2; cases he2; exact ⟨rfl, rfl⟩
    | throws _ _ _ v' he2 => rw [he] at he2; cases he2
  | throws c cs w w' he =>
    cases h2 with
    | ok _ _ _ v' _ _ he2 h2 => rw [he] at he2; cases he2
    | fails _ _ _ v' _ he2 _ => rw [he] at he2; cases he2
    | throws _ _ _ v' he2 => rw [he] at he2; cases he2; exact ⟨rfl, rfl⟩

/-! Written files. -/

theorem quoted_plain {t : Tok} (h1 : '\\' ∉ t) (h2 : ∀ c ∈ t, ¬ Quote c) : Quoted t t := by
  induction t with
  | nil => exact .nil
  | cons c t ih =>
    refine .raw c t t (fun h => h1 (by simp [h])) (h2 c (by simp)) (ih (fun h => h1 (by simp [h])) (fun d hd => h2 d (by simp [hd])))

theorem splits_write (c : List Tok) (h : ∀ t ∈ c, Plain t) : Splits (writeCmd c) (c ++ [[]]) := by
  induction c with
  | nil => exact .last [] [] .nil
  | cons t c ih =>
    have ih := ih (fun u hu => h u (by simp [hu]))
    obtain ⟨h0, h1, _, h2⟩ := h t (by simp)
    have hw : Word ('"' :: (t ++ '"' :: [])) (t ++ []) := .quoted '"' '"' t [] t [] (.inl rfl) (.inl rfl) (quoted_plain h1 h2) .nil
    rw [List.append_nil] at hw
    have := Splits.cons _ _ ' ' _ _ hw (.inl rfl) ih
    simpa [writeCmd] using this

theorem linesOf_append (l r : List Char) (h : '\n' ∉ l) : linesOf (l ++ '\n' :: r) = l :: linesOf r := by
  induction l with
  | nil => simp [linesOf]
  | cons c l ih =>
    simp only [List.mem_cons, not_or] at h
    rw [List.cons_append, linesOf, if_neg (fun hc => h.1 hc.symm), ih h.2]

theorem linesOf_last (l : List Char) (hn : l ≠ []) (h : '\n' ∉ l) : linesOf l = [l] := by
  induction l with
  | nil => exact absurd rfl hn
  | cons c l ih =>
    simp only [List.mem_cons, not_or] at h
    rw [linesOf, if_neg (fun hc => h.1 hc.symm)]
    cases l with
    | nil => rfl
    | cons d l => rw [ih (by simp) h.2]

theorem linesOf_eq {text : List Char} {ls : List (List Char)} (h : Lines text ls) : linesOf text = ls := by
  induction h with
  | nil => rfl
  | last l hn h => exact linesOf_last l hn h
  | cons l r ls h _ ih => rw [linesOf_append l r h, ih]

theorem write_mem {c : List Tok} {x : Char} (h : x ∈ writeCmd c) : x = '"' ∨ x = ' ' ∨ ∃ t ∈ c, x ∈ t := by
  unfold writeCmd at h
  rw [List.mem_flatMap] at h
  obtain ⟨t, ht, hx⟩ := h
  simp at hx
  rcases hx with hx | hx | hx | hx
  · exact .inl hx
  · exact .inr (.inr ⟨t, ht, hx⟩)
  · exact .inl hx
  · exact .inr (.inl hx)

theorem lines_write (cs : List (List Tok)) (h : ∀ c ∈ cs, ∀ t ∈ c, Plain t) : Lines (writeFile cs) (cs.map writeCmd) := by
  induction cs with
  | nil => exact .nil
  | cons c cs ih =>
    have ih := ih (fun u hu => h u (by simp [hu]))
    unfold writeFile at *
    rw [List.flatMap_cons, List.append_assoc, List.singleton_append]
    refine .cons _ _ _ ?_ ih
    · intro hm
      rcases write_mem hm with hx | hx | ⟨t, ht, hx⟩
      · cases hx
      · cases hx
      · exact (h c (by simp) t ht).2.2.1 hx

theorem write_clean {c : List Tok} (h : ∀ t ∈ c, Plain t) : '\\' ∉ writeCmd c := by
  intro hm
  rcases write_mem hm with hx | hx | ⟨t, ht, hx⟩
  · cases hx
  · cases hx
  · exact (h t ht).2.1 hx

theorem clean_trailing {l : List Char} (h : '\\' ∉ l) : trailing l = 0 ∧ l.count '\\' = 0 := by
  refine ⟨?_, List.count_eq_zero.2 h⟩
  unfold trailing
  rw [List.length_eq_zero_iff]
  cases hr : l.reverse with
  | nil => rfl
  | cons c r =>
    have : c ∈ l := by rw [← List.mem_reverse, hr]; simp
    have hc : (c == '\\') = false := by
      have : c ≠ '\\' := fun h1 => h (h1 ▸ this)
      simpa using this
    simp [List.takeWhile_cons, hc]

theorem clean_tidy {l : List Char} (h : '\\' ∉ l) : Tidy l := by
  obtain ⟨h1, h2⟩ := clean_trailing h
  unfold Tidy; rw [h1, h2]

theorem clean_logical (ls : List (List Char)) (h : ∀ l ∈ ls, '\\' ∉ l) : Logical ls ls := by
  induction ls with
  | nil => exact .nil
  | cons l ls ih =>
    exact .keep l ls ls (by rw [(clean_trailing (h l (by simp))).1]) (ih (fun m hm => h m (by simp [hm])))

theorem content_write (cs : List (List Tok)) (h : ∀ c ∈ cs, (∀ t ∈ c, Plain t) ∧ c ≠ [] ∧ ∀ t, c.head? = some t → t.head? ≠ some '#') :
    Content (cs.map writeCmd) cs := by
  induction cs with
  | nil => exact .nil
  | cons c cs ih =>
    have ih := ih (fun u hu => h u (by simp [hu]))
    obtain ⟨h1, h2, h3⟩ := h c (by simp)
    cases c with
    | nil => exact absurd rfl h2
    | cons t us =>
      refine .cmd _ _ t us _ _ (splits_write _ h1) ?_ (h3 t rfl) ih
      rw [List.filter_append]
      have : (t :: us).filter (fun x => decide (x ≠ [])) = t :: us := by
        rw [List.filter_eq_self]
        intro x hx
        simpa using (h1 x hx).1
      rw [this]; simp

end Verif.Nfdc
