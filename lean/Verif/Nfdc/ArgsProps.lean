import Verif.Nfdc.ArgsLemmas

/-! C100: how nfdc reads the arguments of a command. -/
namespace Verif.Nfdc

/-- The arguments are accepted exactly if they are a line of the grammar in which every required argument gets a value; and then each argument has the value it
has got last. -/
theorem C100_grammar (e : Env) (d : Def) (hp : Proper d) (ts : List Tok) :
    (∀ ca, parseArgs e d ts = some ca → ∃ l, Line e d (d.filter (fun a => a.positional)) ts l ∧ (∀ a ∈ d, a.required = true → ∃ v, Gets l a.name v) ∧
      ∀ n v, ca.lookup n = some v ↔ Gets l n v) ∧
    (∀ l, Line e d (d.filter (fun a => a.positional)) ts l → (∀ a ∈ d, a.required = true → ∃ v, Gets l a.name v) →
      ∃ ca, parseArgs e d ts = some ca ∧ ∀ n v, ca.lookup n = some v ↔ Gets l n v) := by
  refine ⟨fun ca h => ?_, fun l hL hr => ?_⟩
  · unfold parseArgs at h
    cases hread : readTokens e d ts (d.filter (fun a => a.positional)) [] with
    | none => rw [hread] at h; cases h
    | some out =>
      rw [hread] at h
      dsimp only at h
      split at h
      · rename_i hall
        cases h
        obtain ⟨l, hL, he, _⟩ := read_sound hp _ ts (Nat.le_refl _) _ _ _ hread
        rw [List.append_nil] at he
        subst he
        refine ⟨l, hL, ?_, fun n v => lookup_gets l n v⟩
        intro a ha hreq
        have := List.all_eq_true.1 hall a (List.mem_filter.2 ⟨ha, hreq⟩)
        obtain ⟨v, hv⟩ := Option.isSome_iff_exists.1 this
        exact ⟨v, (lookup_gets l a.name v).1 hv⟩
      · cases h
  · have := read_complete hp hL []
    rw [List.append_nil] at this
    refine ⟨l.reverse, ?_, fun n v => lookup_gets l n v⟩
    unfold parseArgs
    rw [this]
    dsimp only
    rw [if_pos]
    rw [List.all_eq_true]
    intro a ha
    obtain ⟨ha, hreq⟩ := List.mem_filter.1 ha
    obtain ⟨v, hv⟩ := hr a ha hreq
    rw [(lookup_gets l a.name v).2 hv]; rfl

/-- A command never sees an argument that it has not declared, a value of the wrong type or out of range, or the absence of a required argument. -/
theorem C100_typed (e : Env) (d : Def) (hp : Proper d) (ts : List Tok) (ca : Ca) (h : parseArgs e d ts = some ca) :
    (∀ n v, ca.lookup n = some v → ∃ a ∈ d, a.name = n ∧ Fits a.vtype v) ∧
    ∀ a ∈ d, a.required = true → ∃ v, ca.lookup a.name = some v ∧ Fits a.vtype v := by
  obtain ⟨l, hL, hr, hg⟩ := (C100_grammar e d hp ts).1 ca h
  have key : ∀ n v, ca.lookup n = some v → ∃ a ∈ d, a.name = n ∧ Fits a.vtype v := by
    intro n v hv
    obtain ⟨a, b, he, _⟩ := (hg n v).1 hv
    exact line_typed (fun p hp => (List.mem_filter.1 hp).1) hL (n, v) (by rw [he]; simp)
  refine ⟨key, fun a ha hreq => ?_⟩
  obtain ⟨v, hv⟩ := hr a ha hreq
  have hv := (hg _ _).2 hv
  obtain ⟨b, hb, hn, hf⟩ := key _ _ hv
  have : b = a := by
    have h1 := findArg_mem hp ha
    have h2 := findArg_mem hp hb
    rw [hn, h1] at h2
    exact (Option.some.inj h2).symm
  subst this
  exact ⟨v, hv, hf⟩

/-- Values with the arguments they are for, and the tokens that say so. -/
structure Given where
  arg : Arg
  tok : Tok
  val : Val

theorem named_by_name {e : Env} {d : Def} (ys : List Given)
    (hy : ∀ y ∈ ys, y.arg ∈ d ∧ y.arg.vtype ≠ .any ∧ if y.arg.vtype = .none then y.val = .bool true else Means e y.arg.vtype y.tok y.val) :
    NamedPart e d (ys.flatMap (fun y => byName (y.arg, y.tok))) (ys.map (fun y => (y.arg.name, y.val))) := by
  induction ys with
  | nil => exact .nil
  | cons y ys ih =>
    have ih := ih (fun z hz => hy z (by simp [hz]))
    obtain ⟨h1, h2, h3⟩ := hy y (by simp)
    rw [List.flatMap_cons, List.map_cons]
    unfold byName
    by_cases hf : y.arg.vtype = .none
    · rw [if_pos hf] at h3
      simp only [if_pos hf, h3]
      exact .flag _ _ _ h1 hf ih
    · rw [if_neg hf] at h3
      simp only [if_neg hf]
      exact .value _ _ _ _ _ h1 hf h2 h3 ih

theorem line_positional {e : Env} {d : Def} {ts : List Tok} {l : List (Tok × Val)} (hN : NamedPart e d ts l) (ps : List Arg) (xs : List Given)
    (hx : ∀ x ∈ xs, ¬ IsName d x.tok ∧ x.arg.vtype ≠ .any ∧ Means e x.arg.vtype x.tok x.val) :
    Line e d (xs.map (fun x => x.arg) ++ ps) (xs.map (fun x => x.tok) ++ ts) (xs.map (fun x => (x.arg.name, x.val)) ++ l) := by
  induction xs with
  | nil => exact .named _ _ _ hN
  | cons x xs ih =>
    have ih := ih (fun z hz => hx z (by simp [hz]))
    obtain ⟨h1, h2, h3⟩ := hx x (by simp)
    exact .take _ _ _ _ _ _ h1 h2 h3 ih

theorem gets_nodup {l : List (Tok × Val)} (h : l.Pairwise (fun x y => x.1 ≠ y.1)) (n : Tok) (v : Val) : Gets l n v ↔ (n, v) ∈ l := by
  constructor
  · rintro ⟨a, b, rfl, _⟩; simp
  · intro hm
    obtain ⟨a, b, rfl⟩ := List.append_of_mem hm
    refine ⟨a, b, rfl, ?_⟩
    rw [List.pairwise_append] at h
    have := (List.pairwise_cons.1 h.2.1).1
    intro x hx he
    exact this x hx he.symm

/-- Everything can be said: give values for the first positional arguments by position (no value being the name of an argument) and for any others by
name, in any order. If all required arguments are among them, the command gets these values and nothing else. -/
theorem C100_round_trip (e : Env) (d : Def) (hp : Proper d) (xs ys : List Given) (ps : List Arg)
    (hpos : d.filter (fun a => a.positional) = xs.map (fun x => x.arg) ++ ps)
    (hx : ∀ x ∈ xs, ¬ IsName d x.tok ∧ x.arg.vtype ≠ .any ∧ Means e x.arg.vtype x.tok x.val)
    (hy : ∀ y ∈ ys, y.arg ∈ d ∧ y.arg.vtype ≠ .any ∧ if y.arg.vtype = .none then y.val = .bool true else Means e y.arg.vtype y.tok y.val)
    (once : (xs ++ ys).Pairwise (fun x y => x.arg.name ≠ y.arg.name))
    (hreq : ∀ a ∈ d, a.required = true → ∃ x ∈ xs ++ ys, x.arg = a) :
    ∃ ca, parseArgs e d (xs.map (fun x => x.tok) ++ ys.flatMap (fun y => byName (y.arg, y.tok))) = some ca ∧
      ∀ n v, ca.lookup n = some v ↔ ∃ x ∈ xs ++ ys, x.arg.name = n ∧ x.val = v := by
  have hL := line_positional (named_by_name ys hy) ps xs hx
  rw [← hpos, ← List.map_append] at hL
  have hpw : ((xs ++ ys).map (fun x => (x.arg.name, x.val))).Pairwise (fun x y => x.1 ≠ y.1) := by
    rw [List.pairwise_map]; exact once
  obtain ⟨ca, h1, h2⟩ := (C100_grammar e d hp _).2 _ hL (by
    intro a ha hr
    obtain ⟨x, hx, rfl⟩ := hreq a ha hr
    exact ⟨x.val, (gets_nodup hpw _ _).2 (List.mem_map.2 ⟨x, hx, rfl⟩)⟩)
  refine ⟨ca, h1, fun n v => ?_⟩
  rw [h2, gets_nodup hpw, List.mem_map]
  constructor
  · rintro ⟨x, hx, he⟩; cases he; exact ⟨x, hx, rfl, rfl⟩
  · rintro ⟨x, hx, rfl, rfl⟩; exact ⟨x, hx, rfl⟩

/-- A number is read as itself: UNSIGNED takes exactly the numerals of numbers below 2^63 (with a plus, or a minus before zero), and nothing else. -/
theorem C100_unsigned (e : Env) (t : Tok) (v : Val) : parseValue e .unsigned t = some v ↔ ∃ n, v = .uint n ∧ Unsigned t n := by
  rw [means_eq]
  constructor
  · intro h; cases h with | unsigned _ n h => exact ⟨n, rfl, h⟩
  · rintro ⟨n, rfl, h⟩; exact .unsigned t n h

/-- A command is chosen by the first two tokens; the rest are its arguments. -/
theorem C100_command (e : Env) (cs : Cmds) (ts : List Tok) (c : Cmd) (ca : Ca) :
    parseLine e cs ts = some (c, ca) ↔ cs.lookup (ts[0]?.getD [], ts[1]?.getD []) = some c ∧ parseArgs e c.defn (ts.drop 2) = some ca := by
  have h1 : ts.head?.getD [] = ts[0]?.getD [] := by cases ts <;> rfl
  have h2 : (ts.drop 1).head?.getD [] = ts[1]?.getD [] := by rcases ts with _ | ⟨a, _ | ⟨b, ts⟩⟩ <;> rfl
  unfold parseLine
  rw [h1, h2]
  dsimp only
  cases hc : cs.lookup (ts[0]?.getD [], ts[1]?.getD []) with
  | none => simp
  | some c' =>
    simp only [Option.map_eq_some_iff, Prod.mk.injEq, Option.some.injEq]
    constructor
    · rintro ⟨x, hx, rfl, rfl⟩; exact ⟨rfl, hx⟩
    · rintro ⟨rfl, hx⟩; exact ⟨ca, hx, rfl, rfl⟩

/-- A FaceId with a minus is not rejected: `nfdc face destroy -1` speaks of face 2^64 - 1. -/
theorem C100_minus : ∃ (e : Env) (d : Def) (ts : List Tok) (ca : Ca), Proper d ∧ parseArgs e d ts = some ca ∧ ts = [['-', '1']] ∧
    ca.lookup ['f', 'a', 'c', 'e'] = some (.uint (2 ^ 64 - 1)) := by
  refine ⟨⟨fun _ => none, fun _ => none, fun _ => none⟩, [⟨['f', 'a', 'c', 'e'], .faceIdOrUri, true, true⟩], [['-', '1']], [(['f', 'a', 'c', 'e'], .uint (2 ^ 64 - 1))], ?_,
    by decide +kernel, rfl, by decide +kernel⟩
  exact ⟨by simp, by simp, by simp⟩

/-! A definition like that of `face create`: `remote` (required, positional), `persistency` (positional), `mtu` (by name only), `flag`. -/
def remote : Arg := ⟨['r', 'e', 'm', 'o', 't', 'e'], .uri, true, true⟩
def pers : Arg := ⟨['p', 'e', 'r', 's'], .persistency, false, true⟩
def mtu : Arg := ⟨['m', 't', 'u'], .unsigned, false, false⟩
def flag : Arg := ⟨['f', 'l', 'a', 'g'], .none, false, false⟩
def dEx : Def := [remote, pers, mtu, flag]
def eEx : Env := ⟨fun _ => none, fun t => if t = ['u'] then some 7 else none, fun _ => none⟩

theorem proper_ex : Proper dEx := by
  constructor
  · decide
  · decide
  · decide

example : parseArgs eEx dEx [['u'], ['m', 't', 'u'], ['1', '5', '0', '0'], ['f', 'l', 'a', 'g']] =
    some [(['f', 'l', 'a', 'g'], .bool true), (['m', 't', 'u'], .uint 1500), (['r', 'e', 'm', 'o', 't', 'e'], .uri 7)] := by decide +kernel

/-- Positional after named, missing required, negative number, missing value: all rejected. -/
example : parseArgs eEx dEx [['m', 't', 'u'], ['1'], ['u']] = none ∧ parseArgs eEx dEx [['f', 'l', 'a', 'g']] = none ∧
    parseArgs eEx dEx [['u'], ['m', 't', 'u'], ['-', '1']] = none ∧ parseArgs eEx dEx [['u'], ['m', 't', 'u']] = none := by decide +kernel

/-- The hypotheses of the round trip are met. -/
example : ∃ ca, parseArgs eEx dEx ([['u']] ++ [['f', 'l', 'a', 'g'], ['p', 'e', 'r', 's'], ['p', 'e', 'r', 'm', 'a', 'n', 'e', 'n', 't']]) = some ca ∧
    ca.lookup ['p', 'e', 'r', 's'] = some (.permanent true) := by
  obtain ⟨ca, h1, h2⟩ := C100_round_trip eEx dEx proper_ex [⟨remote, ['u'], .uri 7⟩]
    [⟨flag, [], .bool true⟩, ⟨pers, ['p', 'e', 'r', 'm', 'a', 'n', 'e', 'n', 't'], .permanent true⟩] [pers] (by decide)
    (by
      intro x hx
      simp only [List.mem_singleton] at hx
      subst hx
      refine ⟨?_, by decide, .uri _ _ (by decide)⟩
      rw [isName_iff proper_ex]
      rintro ⟨a, h, _⟩
      have : findArg dEx ['u'] = none := by decide
      rw [this] at h; cases h)
    (by
      intro y hy
      simp only [List.mem_cons, List.not_mem_nil, or_false] at hy
      rcases hy with rfl | rfl
      · exact ⟨by decide, by decide, by rw [if_pos (by decide)]⟩
      · refine ⟨by decide, by decide, ?_⟩
        rw [if_neg (by decide)]
        exact .permanent)
    (by simp [remote, flag, pers])
    (by
      intro a ha hr
      simp only [dEx, List.mem_cons, List.not_mem_nil, or_false] at ha
      rcases ha with rfl | rfl | rfl | rfl
      · exact ⟨⟨remote, ['u'], .uri 7⟩, by simp, rfl⟩
      · cases hr
      · cases hr
      · cases hr)
  exact ⟨ca, h1, (h2 _ _).2 ⟨_, by simp; right; right; rfl, rfl, rfl⟩⟩

example : Unsigned ['4', '2'] 42 := .inl ⟨by decide, .inl (Decimal.snoc ['4'] 4 '2' 2 (.one '4' 4 (by decide) (by decide)) (by decide) (by decide))⟩

example : parseLine eEx [((['f'], ['c']), ⟨['f'], ['c'], dEx⟩)] [['f'], ['c'], ['u']] =
    some (⟨['f'], ['c'], dEx⟩, [(['r', 'e', 'm', 'o', 't', 'e'], .uri 7)]) := by decide +kernel

end Verif.Nfdc
