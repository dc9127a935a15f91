import Verif.Nfdc.ArgsSpec

namespace Verif.Nfdc

theorem digit_eq (c : Char) (d : Nat) : digit c = some d ↔ d < 10 ∧ c.toNat = 48 + d := by
  unfold digit
  split <;> simp <;> omega

theorem digitsFrom_snoc (t : Tok) (c : Char) : ∀ n, digitsFrom n (t ++ [c]) = (digitsFrom n t).bind (fun m => (digit c).map (10 * m + ·)) := by
  induction t with
  | nil => intro n; simp only [List.nil_append, digitsFrom]; cases digit c <;> rfl
  | cons x t ih =>
    intro n
    simp only [List.cons_append, digitsFrom]
    cases digit x with
    | none => rfl
    | some d => exact ih _

theorem digits_decimal {t : Tok} {n : Nat} (h : Decimal t n) : t ≠ [] ∧ digitsFrom 0 t = some n := by
  induction h with
  | one c d h1 h2 =>
    refine ⟨by simp, ?_⟩
    have := (digit_eq c d).2 ⟨h1, h2⟩
    simp [digitsFrom, this]
  | snoc t n c d _ h1 h2 ih =>
    refine ⟨by simp, ?_⟩
    have := (digit_eq c d).2 ⟨h1, h2⟩
    rw [digitsFrom_snoc, ih.2]
    simp [this]

theorem decimal_digits : ∀ (k : Nat) (t : Tok), t.length = k → ∀ n, t ≠ [] → digitsFrom 0 t = some n → Decimal t n := by
  intro k
  induction k with
  | zero => intro t h n h0; exact absurd (List.length_eq_zero_iff.1 h) h0
  | succ k ih =>
    intro t h n h0 hd
    obtain ⟨l, c, rfl⟩ : ∃ l c, t = l ++ [c] := ⟨t.dropLast, t.getLast h0, (List.dropLast_concat_getLast h0).symm⟩
    rw [digitsFrom_snoc] at hd
    simp only [Option.bind_eq_some_iff, Option.map_eq_some_iff] at hd
    obtain ⟨m, hm, d, hd, rfl⟩ := hd
    have hd := (digit_eq c d).1 hd
    by_cases hl : l = []
    · subst hl
      simp only [digitsFrom, Option.some.injEq] at hm
      subst hm
      have := Decimal.one c d hd.1 hd.2
      simpa using this
    · refine Decimal.snoc l m c d (ih l ?_ m hl hm) hd.1 hd.2
      simpa using h

theorem digits_eq (t : Tok) (n : Nat) : digits t = some n ↔ Decimal t n := by
  unfold digits
  constructor
  · intro h
    split at h
    · cases h
    · rename_i h0; exact decimal_digits _ t rfl n h0 h
  · intro h
    obtain ⟨h0, h1⟩ := digits_decimal h
    rw [if_neg h0]; exact h1

theorem Decimal.fst {c : Char} {r : Tok} {n : Nat} (h : Decimal (c :: r) n) : ∃ d, d < 10 ∧ c.toNat = 48 + d := by
  have := (digits_decimal h).2
  simp only [digitsFrom] at this
  cases hd : digit c with
  | none => rw [hd] at this; cases this
  | some d => exact ⟨d, (digit_eq c d).1 hd⟩

theorem Decimal.minus {r : Tok} {n : Nat} (h : Decimal ('-' :: r) n) : False := by
  obtain ⟨d, _, h⟩ := h.fst
  have : ('-' : Char).toNat = 45 := by decide
  omega

theorem Decimal.plus {r : Tok} {n : Nat} (h : Decimal ('+' :: r) n) : False := by
  obtain ⟨d, _, h⟩ := h.fst
  have : ('+' : Char).toNat = 43 := by decide
  omega

theorem castUnsigned_eq (t : Tok) (n : Nat) : castUnsigned t = some n ↔ Unsigned t n := by
  unfold castUnsigned Unsigned
  split
  · rename_i r
    simp only [Option.bind_eq_some_iff, digits_eq]
    constructor
    · rintro ⟨m, h1, h2⟩
      split at h2 <;> simp only [Option.some.injEq, reduceCtorEq] at h2
      subst h2; subst m
      exact .inr ⟨rfl, r, rfl, h1⟩
    · rintro (⟨_, h | ⟨r', h, _⟩⟩ | ⟨rfl, r', h, h1⟩)
      · exact absurd h (fun h => h.minus)
      · simp at h
      · simp only [List.cons.injEq, true_and] at h; subst h
        exact ⟨0, h1, by simp⟩
  · rename_i r
    simp only [Option.bind_eq_some_iff, digits_eq]
    constructor
    · rintro ⟨m, h1, h2⟩
      split at h2 <;> simp only [Option.some.injEq, reduceCtorEq] at h2
      subst h2
      rename_i hm
      exact .inl ⟨hm, .inr ⟨r, rfl, h1⟩⟩
    · rintro (⟨hm, h | ⟨r', h, h1⟩⟩ | ⟨rfl, r', h, h1⟩)
      · exact absurd h (fun h => h.plus)
      · simp only [List.cons.injEq, true_and] at h; subst h
        exact ⟨n, h1, by rw [if_pos hm]⟩
      · simp at h
  · rename_i h1 h2
    simp only [Option.bind_eq_some_iff, digits_eq]
    constructor
    · rintro ⟨m, h1, h2⟩
      split at h2 <;> simp only [Option.some.injEq, reduceCtorEq] at h2
      subst h2
      rename_i hm
      exact .inl ⟨hm, .inl h1⟩
    · rintro (⟨hm, h | ⟨r', h, _⟩⟩ | ⟨rfl, r', h, _⟩)
      · exact ⟨n, h, by rw [if_pos hm]⟩
      · exact absurd h (h2 _)
      · exact absurd h (h1 _)

theorem castU64_eq (t : Tok) (n : Nat) : castU64 t = some n ↔ FaceIdText t n := by
  unfold castU64 FaceIdText
  split
  · rename_i r
    simp only [Option.bind_eq_some_iff, digits_eq]
    constructor
    · rintro ⟨m, h1, h2⟩
      split at h2 <;> simp only [Option.some.injEq, reduceCtorEq] at h2
      rename_i hm
      refine ⟨by omega, .inr (.inr ⟨r, m, rfl, h1, hm, by omega⟩)⟩
    · rintro ⟨h0, h | ⟨r', h, _⟩ | ⟨r', m, h, h1, hm, h2⟩⟩
      · exact absurd h (fun h => h.minus)
      · simp at h
      · simp only [List.cons.injEq, true_and] at h; subst h
        refine ⟨m, h1, ?_⟩
        rw [if_pos hm]
        congr 1
        omega
  · rename_i r
    simp only [Option.bind_eq_some_iff, digits_eq]
    constructor
    · rintro ⟨m, h1, h2⟩
      split at h2 <;> simp only [Option.some.injEq, reduceCtorEq] at h2
      subst h2
      rename_i hm
      exact ⟨hm, .inr (.inl ⟨r, rfl, h1⟩)⟩
    · rintro ⟨hm, h | ⟨r', h, h1⟩ | ⟨r', m, h, _⟩⟩
      · exact absurd h (fun h => h.plus)
      · simp only [List.cons.injEq, true_and] at h; subst h
        exact ⟨n, h1, by rw [if_pos hm]⟩
      · simp at h
  · rename_i h1 h2
    simp only [Option.bind_eq_some_iff, digits_eq]
    constructor
    · rintro ⟨m, h1, h2⟩
      split at h2 <;> simp only [Option.some.injEq, reduceCtorEq] at h2
      subst h2
      rename_i hm
      exact ⟨hm, .inl h1⟩
    · rintro ⟨hm, h | ⟨r', h, _⟩ | ⟨r', m, h, _⟩⟩
      · exact ⟨n, h, by rw [if_pos hm]⟩
      · exact absurd h (h2 _)
      · exact absurd h (h1 _)

theorem means_eq (e : Env) (vt : VType) (t : Tok) (v : Val) : parseValue e vt t = some v ↔ Means e vt t v := by
  constructor
  · intro h
    unfold parseValue at h
    split at h
    · cases h
    · cases h
    · unfold parseBoolean at h
      split at h
      · rename_i hm
        simp only [Option.map_some, Option.some.injEq] at h; subst h
        refine .yes t ?_
        revert hm; simp only [List.mem_cons, List.not_mem_nil, or_false]; grind
      · split at h
        · rename_i hm
          simp only [Option.map_some, Option.some.injEq] at h; subst h
          refine .no t ?_
          revert hm; simp only [List.mem_cons, List.not_mem_nil, or_false]; grind
        · cases h
    · simp only [Option.map_eq_some_iff] at h
      obtain ⟨n, h, rfl⟩ := h
      exact .unsigned t n ((castUnsigned_eq t n).1 h)
    · cases h; exact .string t
    · unfold parseFormat at h
      split at h
      · rename_i hm; subst hm; cases h; exact .xml
      · split at h
        · rename_i hm; subst hm; cases h; exact .text
        · cases h
    · simp only [Option.map_eq_some_iff] at h
      obtain ⟨n, h, rfl⟩ := h; exact .name t n h
    · simp only [Option.map_eq_some_iff] at h
      obtain ⟨n, h, rfl⟩ := h; exact .uri t n h
    · split at h
      · rename_i n hn; cases h; exact .faceId t n ((castU64_eq t n).1 hn)
      · rename_i hn
        simp only [Option.map_eq_some_iff] at h
        obtain ⟨n, h, rfl⟩ := h
        refine .faceUri t n (fun m hm => ?_) h
        rw [(castU64_eq t m).2 hm] at hn; cases hn
    · unfold parsePersistency at h
      split at h
      · rename_i hm; subst hm; cases h; exact .persistent
      · split at h
        · rename_i hm; subst hm; cases h; exact .permanent
        · cases h
    · simp only [Option.map_eq_some_iff] at h
      obtain ⟨n, h, rfl⟩ := h; exact .origin t n h
  · intro h
    cases h with
    | yes _ h =>
      simp only [List.mem_cons, List.not_mem_nil, or_false] at h
      rcases h with rfl | rfl | rfl | rfl | rfl <;> rfl
    | no _ h =>
      simp only [List.mem_cons, List.not_mem_nil, or_false] at h
      rcases h with rfl | rfl | rfl | rfl | rfl <;> rfl
    | unsigned _ n h => simp [parseValue, (castUnsigned_eq t n).2 h]
    | string => rfl
    | xml => rfl
    | text => rfl
    | name _ n h => simp [parseValue, h]
    | uri _ n h => simp [parseValue, h]
    | faceId _ n h => simp [parseValue, (castU64_eq t n).2 h]
    | faceUri _ u h h2 =>
      have : castU64 t = none := by
        cases hc : castU64 t with
        | none => rfl
        | some n => exact absurd ((castU64_eq t n).1 hc) (h n)
      simp [parseValue, this, h2]
    | persistent => rfl
    | permanent => rfl
    | origin _ n h => simp [parseValue, h]

theorem means_none (e : Env) (vt : VType) (t : Tok) : parseValue e vt t = none ↔ ∀ v, ¬ Means e vt t v := by
  constructor
  · intro h v hv; rw [(means_eq e vt t v).2 hv] at h; cases h
  · intro h
    cases hc : parseValue e vt t with
    | none => rfl
    | some v => exact absurd ((means_eq e vt t v).1 hc) (h v)

theorem findArg_some {d : Def} {t : Tok} {a : Arg} (h : findArg d t = some a) : a ∈ d ∧ a.name = t := by
  unfold findArg at h
  exact ⟨List.mem_of_find?_eq_some h, by simpa using List.find?_some h⟩

theorem findArg_mem {d : Def} (hp : Proper d) {a : Arg} (h : a ∈ d) : findArg d a.name = some a := by
  have hu := hp.unique
  clear hp
  unfold findArg
  induction d with
  | nil => cases h
  | cons b d ih =>
    rw [List.pairwise_cons] at hu
    rw [List.find?_cons]
    cases List.mem_cons.1 h with
    | inl he => subst he; simp
    | inr hm =>
      have : (b.name == a.name) = false := by
        have := hu.1 a hm
        simpa using this
      rw [this]
      exact ih hm hu.2

theorem isName_iff {d : Def} (hp : Proper d) (t : Tok) : IsName d t ↔ ∃ a, findArg d t = some a ∧ a.vtype ≠ .any := by
  constructor
  · rintro ⟨a, ha, rfl, hv⟩; exact ⟨a, findArg_mem hp ha, hv⟩
  · rintro ⟨a, ha, hv⟩
    obtain ⟨h1, h2⟩ := findArg_some ha
    exact ⟨a, h1, h2, hv⟩

/-- What the positional part makes of a token and those after it. -/
def posStep (e : Env) (d : Def) (t : Tok) (ts : List Tok) (left : List Arg) (ca : Ca) : Option Ca :=
  match takePos e t left with
  | .fail => none
  | .rest p => some ((p.name, .strs (t :: ts)) :: ca)
  | .took p v left' => readTokens e d ts left' ((p.name, v) :: ca)

theorem read_pos {e : Env} {d : Def} (hp : Proper d) {t : Tok} (h : ¬ IsName d t) (ts : List Tok) (left : List Arg) (ca : Ca) :
    readTokens e d (t :: ts) left ca = posStep e d t ts left ca := by
  rw [isName_iff hp] at h
  unfold posStep
  cases ts with
  | nil =>
    simp only [readTokens]
    split
    · rename_i a ha
      have : a.vtype = .any := by
        rcases Decidable.em (a.vtype = .any) with h1 | h1
        · exact h1
        · exact absurd ⟨a, ha, h1⟩ h
      rw [if_pos this]
      rfl
    · rfl
  | cons u ts =>
    simp only [readTokens]
    split
    · rename_i a ha
      have : a.vtype = .any := by
        rcases Decidable.em (a.vtype = .any) with h1 | h1
        · exact h1
        · exact absurd ⟨a, ha, h1⟩ h
      rw [if_pos this]
      rfl
    · rfl

theorem read_flag {e : Env} {d : Def} (hp : Proper d) {a : Arg} (h : a ∈ d) (hv : a.vtype = .none) (ts : List Tok) (left : List Arg) (ca : Ca) :
    readTokens e d (a.name :: ts) left ca = readTokens e d ts [] ((a.name, .bool true) :: ca) := by
  cases ts with
  | nil => simp [readTokens, findArg_mem hp h, hv]
  | cons u ts => simp [readTokens, findArg_mem hp h, hv]

theorem read_value {e : Env} {d : Def} (hp : Proper d) {a : Arg} (h : a ∈ d) (hv : a.vtype ≠ .none) (ha : a.vtype ≠ .any) (u : Tok) (ts : List Tok)
    (left : List Arg) (ca : Ca) :
    readTokens e d (a.name :: u :: ts) left ca = (parseValue e a.vtype u).bind (fun v => readTokens e d ts [] ((a.name, v) :: ca)) := by
  rw [readTokens]
  simp only [findArg_mem hp h, if_neg hv, if_neg ha]
  cases parseValue e a.vtype u <;> rfl

theorem read_lone {e : Env} {d : Def} (hp : Proper d) {a : Arg} (h : a ∈ d) (hv : a.vtype ≠ .none) (ha : a.vtype ≠ .any) (left : List Arg) (ca : Ca) :
    readTokens e d [a.name] left ca = none := by
  rw [readTokens]
  simp only [findArg_mem hp h, if_neg hv, if_neg ha]

/-- Reading gives what the grammar says, added in order. -/
theorem read_sound {e : Env} {d : Def} (hp : Proper d) : ∀ (k : Nat) (ts : List Tok), ts.length ≤ k → ∀ (left : List Arg) (ca out : Ca),
    readTokens e d ts left ca = some out → ∃ l, Line e d left ts l ∧ out = l.reverse ++ ca ∧ (left = [] → NamedPart e d ts l) := by
  intro k
  induction k with
  | zero =>
    intro ts hl left ca out h
    have : ts = [] := List.length_eq_zero_iff.1 (by omega)
    subst this
    simp only [readTokens, Option.some.injEq] at h
    subst h
    exact ⟨[], .named _ _ _ .nil, by simp, fun _ => .nil⟩
  | succ k ih =>
    intro ts hl left ca out h
    cases ts with
    | nil =>
      simp only [readTokens, Option.some.injEq] at h
      subst h
      exact ⟨[], .named _ _ _ .nil, by simp, fun _ => .nil⟩
    | cons t ts =>
      simp only [List.length_cons] at hl
      by_cases hn : IsName d t
      · obtain ⟨a, ha, rfl, hv⟩ := hn
        by_cases hf : a.vtype = .none
        · rw [read_flag hp ha hf] at h
          obtain ⟨l, _, rfl, hN⟩ := ih ts (by omega) _ _ _ h
          have := NamedPart.flag a ts l ha hf (hN rfl)
          exact ⟨_, .named _ _ _ this, by simp, fun _ => this⟩
        · cases ts with
          | nil => rw [read_lone hp ha hf hv] at h; cases h
          | cons u ts =>
            rw [read_value hp ha hf hv] at h
            simp only [Option.bind_eq_some_iff] at h
            obtain ⟨v, hm, h⟩ := h
            simp only [List.length_cons] at hl
            obtain ⟨l, _, rfl, hN⟩ := ih ts (by omega) _ _ _ h
            have := NamedPart.value a u v ts l ha hf hv ((means_eq ..).1 hm) (hN rfl)
            exact ⟨_, .named _ _ _ this, by simp, fun _ => this⟩
      · rw [read_pos hp hn] at h
        unfold posStep at h
        induction left with
        | nil => simp [takePos] at h
        | cons p left ihl =>
          rw [takePos] at h
          by_cases hany : p.vtype = .any
          · rw [if_pos hany] at h
            simp only [Option.some.injEq] at h
            subst h
            exact ⟨_, .any p left t ts hn hany, by simp, by simp⟩
          · rw [if_neg hany] at h
            cases hv : parseValue e p.vtype t with
            | some v =>
              rw [hv] at h
              simp only at h
              obtain ⟨l, hL, rfl, _⟩ := ih ts (by omega) _ _ _ h
              exact ⟨_, .take p left t v ts l hn hany ((means_eq ..).1 hv) hL, by simp, by simp⟩
            | none =>
              rw [hv] at h
              simp only at h
              cases hr : p.required with
              | true => rw [hr] at h; simp at h
              | false =>
                rw [hr] at h
                simp only [Bool.false_eq_true, if_false] at h
                obtain ⟨l, hL, he, _⟩ := ihl h
                exact ⟨l, .skip p left t ts l hn hany hr ((means_none ..).1 hv) hL, he, by simp⟩

theorem read_named {e : Env} {d : Def} (hp : Proper d) {ts : List Tok} {l : List (Tok × Val)} (h : NamedPart e d ts l) :
    ∀ left ca, readTokens e d ts left ca = some (l.reverse ++ ca) := by
  induction h with
  | nil => intro left ca; simp [readTokens]
  | flag a ts l ha hv _ ih => intro left ca; rw [read_flag hp ha hv, ih]; simp
  | value a t v ts l ha hv hv2 hm _ ih =>
    intro left ca
    rw [read_value hp ha hv hv2, (means_eq ..).2 hm]
    simp [ih]

theorem read_complete {e : Env} {d : Def} (hp : Proper d) {left : List Arg} {ts : List Tok} {l : List (Tok × Val)} (h : Line e d left ts l) :
    ∀ ca, readTokens e d ts left ca = some (l.reverse ++ ca) := by
  induction h with
  | named ps ts l h => exact fun ca => read_named hp h ps ca
  | take p ps t v ts l hn ha hm _ ih =>
    intro ca
    rw [read_pos hp hn, posStep, takePos, if_neg ha, (means_eq ..).2 hm]
    simp [ih]
  | skip p ps t ts l hn ha hr hm _ ih =>
    intro ca
    have := ih ca
    rw [read_pos hp hn, posStep] at this
    rw [read_pos hp hn, posStep, takePos, if_neg ha, (means_none ..).2 hm]
    simpa [hr] using this
  | any p ps t ts hn ha =>
    intro ca
    rw [read_pos hp hn, posStep, takePos, if_pos ha]
    simp

theorem lookup_gets (l : List (Tok × Val)) (n : Tok) (v : Val) : l.reverse.lookup n = some v ↔ Gets l n v := by
  have key : ∀ m : List (Tok × Val), m.lookup n = some v ↔ ∃ a b, m = a ++ (n, v) :: b ∧ ∀ x ∈ a, x.1 ≠ n := by
    intro m
    induction m with
    | nil => simp
    | cons x m ih =>
      obtain ⟨k, w⟩ := x
      rw [List.lookup_cons]
      by_cases hk : n = k
      · subst hk
        simp only [beq_self_eq_true, Option.some.injEq]
        constructor
        · rintro rfl; exact ⟨[], m, rfl, by simp⟩
        · rintro ⟨a, b, h1, h2⟩
          cases a with
          | nil => simp only [List.nil_append, List.cons.injEq, Prod.mk.injEq, true_and] at h1; exact h1.1
          | cons y a =>
            simp only [List.cons_append, List.cons.injEq] at h1
            exact absurd (by rw [← h1.1]) (h2 y (by simp))
      · have : (n == k) = false := by simpa using hk
        rw [this]
        simp only [ih]
        constructor
        · rintro ⟨a, b, rfl, h2⟩
          refine ⟨(k, w) :: a, b, rfl, ?_⟩
          intro y hy
          cases List.mem_cons.1 hy with
          | inl h => subst h; exact fun h => hk h.symm
          | inr h => exact h2 y h
        · rintro ⟨a, b, h1, h2⟩
          cases a with
          | nil => simp only [List.nil_append, List.cons.injEq, Prod.mk.injEq] at h1; exact absurd h1.1.1.symm hk
          | cons y a =>
            simp only [List.cons_append, List.cons.injEq] at h1
            exact ⟨a, b, h1.2, fun z hz => h2 z (by simp [hz])⟩
  rw [key]
  unfold Gets
  constructor
  · rintro ⟨a, b, h, h2⟩
    refine ⟨b.reverse, a.reverse, ?_, by simpa using h2⟩
    have := congrArg List.reverse h
    simpa using this
  · rintro ⟨a, b, h, h2⟩
    exact ⟨b.reverse, a.reverse, by simp [h], by simpa using h2⟩

theorem fits_means {e : Env} {vt : VType} {t : Tok} {v : Val} (h : Means e vt t v) : Fits vt v := by
  cases h with
  | unsigned _ n h =>
    show n < 2 ^ 63
    rcases h with ⟨h, _⟩ | ⟨rfl, _⟩
    · exact h
    · decide
  | faceId _ n h => exact h.1
  | _ => trivial

/-- What is read belongs to declared arguments and is of their types. -/
theorem line_typed {e : Env} {d : Def} {ps : List Arg} {ts : List Tok} {l : List (Tok × Val)} (hps : ∀ p ∈ ps, p ∈ d) (h : Line e d ps ts l) :
    ∀ x ∈ l, ∃ a ∈ d, a.name = x.1 ∧ Fits a.vtype x.2 := by
  have named : ∀ {ts l}, NamedPart e d ts l → ∀ x ∈ l, ∃ a ∈ d, a.name = x.1 ∧ Fits a.vtype x.2 := by
    intro ts l h
    induction h with
    | nil => simp
    | flag a ts l ha hv _ ih =>
      intro x hx
      cases List.mem_cons.1 hx with
      | inl h => subst h; exact ⟨a, ha, rfl, by rw [hv]; exact rfl⟩
      | inr h => exact ih x h
    | value a t v ts l ha _ _ hm _ ih =>
      intro x hx
      cases List.mem_cons.1 hx with
      | inl h => subst h; exact ⟨a, ha, rfl, fits_means hm⟩
      | inr h => exact ih x h
  induction h with
  | named ps ts l h => exact named h
  | take p ps t v ts l _ _ hm _ ih =>
    intro x hx
    cases List.mem_cons.1 hx with
    | inl h => subst h; exact ⟨p, hps p (by simp), rfl, fits_means hm⟩
    | inr h => exact ih (fun q hq => hps q (by simp [hq])) x h
  | skip p ps t ts l _ _ _ _ _ ih => exact ih (fun q hq => hps q (by simp [hq]))
  | any p ps t ts _ hv =>
    intro x hx
    simp only [List.mem_singleton] at hx
    subst hx
    exact ⟨p, hps p (by simp), rfl, by rw [hv]; exact (by simp [Fits])⟩

end Verif.Nfdc
