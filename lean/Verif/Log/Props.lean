import Verif.Log.Spec
/-! # C130: the `log` section decides the level of each module -/
namespace Verif.Log

variable {L : Type}

private theorem last_star {k : Str} (h : k.getLast? = some '*') : ∃ r, k = r ++ ['*'] := by
  rw [List.getLast?_eq_some_iff] at h
  exact h

/-- `setLevel` as it is called for a line sets exactly the modules it names. -/
private theorem setLevel_names {k m : Str} (l : L) (s : Levels L) :
    (Names k m → setLevel (if '.' ∈ k then k else "nfd.".toList ++ k) l s m = l) ∧ (¬ Names k m → setLevel (if '.' ∈ k then k else "nfd.".toList ++ k) l s m = s m) := by
  have hstar : ∀ r : Str, ('.' ∈ r ++ ['*']) ↔ '.' ∈ r := by intro r; simp
  generalize hp : "nfd.".toList = p
  have hpl : p.getLast? = some '.' := by rw [← hp]; rfl
  constructor
  · intro h
    unfold setLevel
    cases h with
    | short h1 h2 =>
      rw [hp, if_neg h1]
      have : (p ++ k).getLast? ≠ some '*' := by
        rw [List.getLast?_append]
        cases hk : k.getLast? with
        | none => rw [hpl]; decide
        | some c => rw [hk] at h2; simpa using h2
      rw [if_neg this, if_pos rfl]
    | @shortStar r rest h1 =>
      rw [hp, if_neg (fun x => h1 ((hstar r).mp x)), ← List.append_assoc]
      simp
    | full h1 h2 => rw [if_pos h1, if_neg h2, if_pos rfl]
    | @fullStar r rest h1 =>
      rw [if_pos ((hstar r).mpr h1)]
      simp
  · intro h
    unfold setLevel
    by_cases hd : '.' ∈ k
    · rw [if_pos hd]
      by_cases hl : k.getLast? = some '*'
      · rw [if_pos hl]
        obtain ⟨r, rfl⟩ := last_star hl
        rw [List.dropLast_concat]
        split
        · rename_i hpre
          rw [List.isPrefixOf_iff_prefix] at hpre
          obtain ⟨rest, rfl⟩ := hpre
          exact absurd (Names.fullStar ((hstar r).mp hd)) h
        · rfl
      · rw [if_neg hl]
        split
        · rename_i he; subst he; exact absurd (Names.full hd hl) h
        · rfl
    · rw [if_neg hd]
      by_cases hl : k.getLast? = some '*'
      · obtain ⟨r, rfl⟩ := last_star hl
        rw [← List.append_assoc, List.dropLast_concat, if_pos (by simp)]
        split
        · rename_i hpre
          rw [List.isPrefixOf_iff_prefix] at hpre
          obtain ⟨rest, rfl⟩ := hpre
          exact absurd (hp ▸ Names.shortStar (fun x => hd ((hstar r).mpr x))) h
        · rfl
      · have : (p ++ k).getLast? ≠ some '*' := by
          rw [List.getLast?_append]
          cases hk : k.getLast? with
          | none => rw [hpl]; decide
          | some c => rw [hk] at hl; simpa using hl
        rw [if_neg this]
        split
        · rename_i he; subst he; exact absurd (hp ▸ Names.short hd hl) h
        · rfl

private theorem lines_ok {parse : Str → Option L} {dry : Bool} {sec : List Line} : ∀ {s : Levels L},
    ((lines parse dry sec s).2 = true ↔ ∀ k v, (k, v) ∈ sec → k ≠ "default_level".toList → (parse v).isSome = true) ∧ (dry = true → (lines parse dry sec s).1 = s) := by
  induction sec with
  | nil => intro s; simp [lines]
  | cons x sec ih =>
    obtain ⟨k, v⟩ := x
    intro s
    unfold lines
    change (_ ↔ ∀ k' v', _ → k' ≠ defaultKey → _) ∧ _
    split
    · rename_i hk
      refine ⟨?_, (ih (s := s)).2⟩
      rw [(ih (s := s)).1]
      constructor
      · intro h k' v' hm hne
        rcases List.mem_cons.mp hm with he | hm
        · cases he; exact absurd hk hne
        · exact h k' v' hm hne
      · intro h k' v' hm hne; exact h k' v' (List.mem_cons_of_mem _ hm) hne
    · rename_i hk
      cases hv : parse v with
      | none =>
        refine ⟨⟨(fun h => by cases h), fun h => ?_⟩, fun _ => rfl⟩
        have := h k v List.mem_cons_self hk
        rw [hv] at this; cases this
      | some l =>
        have key : ∀ s : Levels L, ((lines parse dry sec s).2 = true ↔ ∀ k' v', (k', v') ∈ (k, v) :: sec → k' ≠ defaultKey → (parse v').isSome = true) := by
          intro s
          rw [(ih (s := s)).1]
          constructor
          · intro h k' v' hm hne
            rcases List.mem_cons.mp hm with he | hm
            · cases he; rw [hv]; rfl
            · exact h k' v' hm hne
          · intro h k' v' hm hne; exact h k' v' (List.mem_cons_of_mem _ hm) hne
        dsimp only
        split
        · exact ⟨key s, (ih (s := s)).2⟩
        · rename_i hdry
          split
          · exact ⟨key _, fun h => absurd h hdry⟩
          · exact ⟨key _, fun h => absurd h hdry⟩

private theorem lines_cons {parse : Str → Option L} {k v : Str} {ls : List Line} {s : Levels L} (hk : k ≠ defaultKey) {l : L} (hv : parse v = some l) :
    lines parse false ((k, v) :: ls) s = lines parse false ls (setLevel (if '.' ∈ k then k else "nfd.".toList ++ k) l s) := by
  rw [lines, if_neg hk, hv]
  dsimp only
  rw [if_neg (by decide)]
  by_cases hd : '.' ∈ k
  · rw [if_pos hd, if_pos hd]
  · rw [if_neg hd, if_neg hd]

private theorem lines_level {parse : Str → Option L} {sec : List Line} : ∀ {s : Levels L}, (lines parse false sec s).2 = true → ∀ m,
    (Silent sec m → (lines parse false sec s).1 m = s m) ∧ (∀ l, Says parse sec m l → (lines parse false sec s).1 m = l) := by
  induction sec with
  | nil =>
    intro s _ m
    refine ⟨fun _ => rfl, ?_⟩
    rintro l ⟨a, k, v, b, h, -⟩
    cases a <;> cases h
  | cons x sec ih =>
    obtain ⟨k, v⟩ := x
    intro s hok m
    by_cases hk : k = defaultKey
    · have e : lines parse false ((k, v) :: sec) s = lines parse false sec s := by rw [lines, if_pos hk]
      rw [e] at hok ⊢
      refine ⟨fun hs => (ih hok m).1 (fun k' v' hm => hs k' v' (List.mem_cons_of_mem _ hm)), ?_⟩
      rintro l ⟨a, k', v', b, h, h1, h2⟩
      cases a with
      | nil => cases h; exact absurd hk h1
      | cons y a => cases h; exact (ih hok m).2 l ⟨a, k', v', b, rfl, h1, h2⟩
    · have hv : ∃ l, parse v = some l := by
        have := (lines_ok (dry := false)).1.mp hok k v List.mem_cons_self hk
        exact Option.isSome_iff_exists.mp this
      obtain ⟨l0, hv⟩ := hv
      rw [lines_cons hk hv] at hok ⊢
      obtain ⟨i1, i2⟩ := ih hok m
      refine ⟨fun hs => ?_, ?_⟩
      · rw [i1 (fun k' v' hm => hs k' v' (List.mem_cons_of_mem _ hm))]
        exact (setLevel_names l0 s).2 (hs k v List.mem_cons_self hk)
      · rintro l ⟨a, k', v', b, h, h1, h2, h3, h4⟩
        cases a with
        | nil =>
          cases h
          rw [i1 h4, (setLevel_names l0 s).1 h2]
          rw [hv] at h3; exact Option.some.inj h3
        | cons y a => cases h; exact i2 l ⟨a, k', v', b, rfl, h1, h2, h3, h4⟩

private theorem firstDefault_none {sec : List Line} : firstDefault sec = none ↔ ∀ v, (defaultKey, v) ∉ sec := by
  induction sec with
  | nil => simp [firstDefault]
  | cons x sec ih =>
    obtain ⟨k, v⟩ := x
    unfold firstDefault
    split
    · rename_i hk; subst hk
      refine ⟨(fun h => by cases h), fun h => absurd List.mem_cons_self (h v)⟩
    · rename_i hk
      rw [ih]
      constructor
      · intro h v' hm
        rcases List.mem_cons.mp hm with he | hm
        · cases he; exact hk rfl
        · exact h v' hm
      · intro h v' hm; exact h v' (List.mem_cons_of_mem _ hm)

private theorem firstDefault_some {sec : List Line} {v : Str} : firstDefault sec = some v ↔ ∃ a b, sec = a ++ (defaultKey, v) :: b ∧ ∀ v', (defaultKey, v') ∉ a := by
  induction sec with
  | nil =>
    refine ⟨(fun h => by cases h), ?_⟩
    rintro ⟨a, b, h, -⟩
    cases a <;> cases h
  | cons x sec ih =>
    obtain ⟨k, w⟩ := x
    unfold firstDefault
    split
    · rename_i hk; subst hk
      constructor
      · intro h; cases h; exact ⟨[], sec, rfl, by simp⟩
      · rintro ⟨a, b, h, hn⟩
        cases a with
        | nil => cases h; rfl
        | cons y a => cases h; exact absurd List.mem_cons_self (hn w)
    · rename_i hk
      rw [ih]
      constructor
      · rintro ⟨a, b, h, hn⟩
        refine ⟨(k, w) :: a, b, by rw [h]; rfl, ?_⟩
        intro v' hm
        rcases List.mem_cons.mp hm with he | hm
        · cases he; exact hk rfl
        · exact hn v' hm
      · rintro ⟨a, b, h, hn⟩
        cases a with
        | nil => cases h; exact absurd rfl hk
        | cons y a => cases h; exact ⟨a, b, rfl, fun v' hm => hn v' (List.mem_cons_of_mem _ hm)⟩

private theorem nfd_star {d : L} {s : Levels L} (m : Str) :
    setLevel "nfd.*".toList d s m = if "nfd.".toList.isPrefixOf m then d else s m := by
  unfold setLevel
  rw [if_pos (by decide)]
  rfl

/-- A section is accepted exactly if its levels are written correctly, when it is tried out as well as when it is applied; and trying it out changes nothing. -/
theorem C130_accepted {parse : Str → Option L} {info : L} (sec : List Line) (dry : Bool) (s : Levels L) :
    ((onConfig parse info sec dry s).2 = true ↔ Valid parse sec) ∧ (dry = true → (onConfig parse info sec dry s).1 = s) := by
  unfold onConfig
  dsimp only
  cases hd : firstDefault sec with
  | none =>
    dsimp only
    constructor
    · rw [lines_ok.1]
      constructor
      · intro h
        refine ⟨h, ?_⟩
        rintro a v b rfl -
        exact absurd (List.mem_append_right _ List.mem_cons_self) (firstDefault_none.mp hd v)
      · exact fun h => h.1
    · intro hdry; rw [lines_ok.2 hdry, if_pos hdry]
  | some v =>
    obtain ⟨a, b, hab, hn⟩ := firstDefault_some.mp hd
    cases hv : parse v with
    | none =>
      dsimp only
      rw [hv]
      dsimp only
      refine ⟨⟨(fun h => by cases h), fun h => ?_⟩, fun _ => rfl⟩
      have := h.2 a v b hab hn
      rw [hv] at this; cases this
    | some d =>
      dsimp only
      rw [hv]
      dsimp only
      constructor
      · rw [lines_ok.1]
        constructor
        · intro h
          refine ⟨h, ?_⟩
          intro a' v' b' hab' hn'
          have := firstDefault_some.mpr ⟨a', b', hab', hn'⟩
          rw [hd] at this; cases this; rw [hv]; rfl
        · exact fun h => h.1
      · intro hdry; rw [lines_ok.2 hdry, if_pos hdry]

/-- After a section was applied, each module has the level given in the last line that names it. A module of NFD that no line names has the default level, and any other
module the level it had before. -/
theorem C130_level {parse : Str → Option L} {info : L} {sec : List Line} {s : Levels L} (hv : Valid parse sec) (m : Str) :
    (∀ l, Says parse sec m l → (onConfig parse info sec false s).1 m = l) ∧
    (Silent sec m → "nfd.".toList <+: m → ∀ d, Default parse info sec d → (onConfig parse info sec false s).1 m = d) ∧
    (Silent sec m → ¬ "nfd.".toList <+: m → (onConfig parse info sec false s).1 m = s m) := by
  have hok := ((C130_accepted (info := info) sec false s).1).mpr hv
  obtain ⟨d, hd, he⟩ : ∃ d, Default parse info sec d ∧ onConfig parse info sec false s = lines parse false sec (setLevel "nfd.*".toList d s) := by
    unfold onConfig
    dsimp only
    cases hd : firstDefault sec with
    | none => exact ⟨info, .none (firstDefault_none.mp hd), rfl⟩
    | some v =>
      obtain ⟨a, b, hab, hn⟩ := firstDefault_some.mp hd
      have := hv.2 a v b hab hn
      obtain ⟨d, hp⟩ := Option.isSome_iff_exists.mp this
      refine ⟨d, .some hab hn hp, ?_⟩
      dsimp only
      rw [hp]
      rfl
  rw [he] at hok ⊢
  obtain ⟨h1, h2⟩ := lines_level hok m
  refine ⟨h2, fun hs hm d' hd' => ?_, fun hs hm => ?_⟩
  · rw [h1 hs, nfd_star, if_pos (List.isPrefixOf_iff_prefix.mpr hm)]
    have e1 : ∀ d, Default parse info sec d → d = (match firstDefault sec with | none => info | some v => (parse v).getD info) := by
      intro d hd
      cases hd with
      | none h => rw [firstDefault_none.mpr h]
      | some h1 h2 h3 => rw [firstDefault_some.mpr ⟨_, _, h1, h2⟩]; dsimp only; rw [h3]; rfl
    rw [e1 d hd, e1 d' hd']
  · rw [h1 hs, nfd_star, if_neg (fun h => hm (List.isPrefixOf_iff_prefix.mp h))]

/-- Every module is either named by a last line or by none: `C130_level` covers all modules. -/
theorem C130_either {parse : Str → Option L} {sec : List Line} (hv : Valid parse sec) (m : Str) : Silent sec m ∨ ∃ l, Says parse sec m l := by
  have gen : ∀ sec : List Line, (∀ k v, (k, v) ∈ sec → k ≠ "default_level".toList → (parse v).isSome = true) → Silent sec m ∨ ∃ l, Says parse sec m l := by
    intro sec
    induction sec with
    | nil => intro _; left; intro k v h; cases h
    | cons x sec ih =>
      obtain ⟨k, v⟩ := x
      intro hv
      rcases ih (fun k v h => hv k v (List.mem_cons_of_mem _ h)) with h | ⟨l, a, k', v', b, h, h'⟩
      · by_cases hk : k ≠ "default_level".toList ∧ Names k m
        · obtain ⟨l, hl⟩ := Option.isSome_iff_exists.mp (hv k v List.mem_cons_self hk.1)
          exact .inr ⟨l, [], k, v, sec, rfl, hk.1, hk.2, hl, h⟩
        · left
          intro k' v' hm hne hn
          rcases List.mem_cons.mp hm with he | hm
          · cases he; exact hk ⟨hne, hn⟩
          · exact h k' v' hm hne hn
      · exact .inr ⟨l, (k, v) :: a, k', v', b, by rw [h]; rfl, h'⟩
  exact gen sec hv.1

/-- A file whose `log` section is refused changes no level: it is tried out first. -/
theorem C130_nothing {parse : Str → Option L} {info : L} (secs : List (List Line)) (s : Levels L) :
    ((configure parse info secs s).2 = true ↔ ∀ sec ∈ secs, Valid parse sec) ∧ ((configure parse info secs s).2 = false → (configure parse info secs s).1 = s) := by
  have gen : ∀ (dry : Bool) (secs : List (List Line)) (s : Levels L),
      ((process parse info dry secs s).2 = true ↔ ∀ sec ∈ secs, Valid parse sec) ∧ (dry = true → (process parse info dry secs s).1 = s) := by
    intro dry secs
    induction secs with
    | nil => intro s; simp [process]
    | cons sec secs ih =>
      intro s
      obtain ⟨ha, hb⟩ := C130_accepted (parse := parse) (info := info) sec dry s
      unfold process
      dsimp only
      split
      · rename_i hok
        obtain ⟨i1, i2⟩ := ih (onConfig parse info sec dry s).1
        refine ⟨?_, fun hd => by rw [i2 hd]; exact hb hd⟩
        rw [i1, List.forall_mem_cons]
        exact ⟨fun h => ⟨ha.mp hok, h⟩, fun h => h.2⟩
      · rename_i hok
        refine ⟨⟨fun h => absurd h hok, fun h => absurd (ha.mpr (h sec List.mem_cons_self)) hok⟩, hb⟩
  unfold configure
  dsimp only
  obtain ⟨h1, h2⟩ := gen true secs s
  split
  · rename_i hok
    rw [h2 rfl]
    obtain ⟨h3, -⟩ := gen false secs s
    have : (process parse info false secs s).2 = true := h3.mpr (h1.mp hok)
    exact ⟨h3, fun h => by rw [this] at h; cases h⟩
  · exact ⟨h1, fun _ => h2 rfl⟩

/-- For the modules of NFD a reload has the effect of a start with the same file, whatever was set before. (False for other modules: `C130_stays`.) -/
theorem C130_reload_partial {parse : Str → Option L} {info : L} {sec : List Line} (hv : Valid parse sec) (s s0 : Levels L) {m : Str} (hm : "nfd.".toList <+: m) :
    (configure parse info [sec] s).1 m = (configure parse info [sec] s0).1 m := by
  have e : ∀ s : Levels L, (configure parse info [sec] s).1 = (onConfig parse info sec false s).1 := by
    intro s
    obtain ⟨a1, a2⟩ := C130_accepted (parse := parse) (info := info) sec true s
    obtain ⟨b1, -⟩ := C130_accepted (parse := parse) (info := info) sec false s
    unfold configure process
    dsimp only
    rw [a1.mpr hv]
    simp only [if_true, process]
    rw [a2 rfl, b1.mpr hv]
    simp only [if_true]
  rw [e, e]
  rcases C130_either hv m with h | ⟨l, h⟩
  · obtain ⟨d, hd⟩ : ∃ d, Default parse info sec d := by
      cases hf : firstDefault sec with
      | none => exact ⟨info, .none (firstDefault_none.mp hf)⟩
      | some v =>
        obtain ⟨a, b, hab, hn⟩ := firstDefault_some.mp hf
        obtain ⟨d, hp⟩ := Option.isSome_iff_exists.mp (hv.2 a v b hab hn)
        exact ⟨d, .some hab hn hp⟩
    rw [((C130_level hv m).2.1) h hm d hd, ((C130_level hv m).2.1) h hm d hd]
  · rw [(C130_level hv m).1 l h, (C130_level hv m).1 l h]

/-! ### Examples, with numbers for levels -/

def exParse (v : Str) : Option Nat :=
  if v = "WARN".toList then some 2 else if v = "INFO".toList then some 3 else if v = "DEBUG".toList then some 4 else if v = "TRACE".toList then some 5 else none

def line (k v : String) : Line := (k.toList, v.toList)

def exSec : List Line := [line "Fib" "DEBUG", line "default_level" "WARN", line "ndn.Face" "TRACE", line "F*" "INFO", line "Forwarder" "DEBUG"]

/-- the last line counts, also if it names more modules -/
example : (configure exParse 3 [exSec] (fun _ => 0)).2 = true ∧ (["nfd.Fib", "nfd.Cs", "ndn.Face", "nfd.Forwarder", "ndn.KeyChain"].map
    (fun m => (configure exParse 3 [exSec] (fun _ => 0)).1 m.toList)) = [3, 2, 5, 4, 0] := by decide +kernel

/-- a level that is not one: nothing is changed, although an earlier line is right -/
example : (configure exParse 3 [[line "Fib" "DEBUG", line "Cs" "LOUD"]] (fun _ => 0)).2 = false := by decide +kernel

/-! ### Where it fails -/

/-- A line for a module that is not of NFD is taken out of the file and the file read again: the module keeps the level, other than after a start with that file. -/
theorem C130_stays : ∃ (a b : List Line) (m : Str), Valid exParse a ∧ Valid exParse b ∧
    (configure exParse 3 [b] (configure exParse 3 [a] (fun _ => 0)).1).1 m ≠ (configure exParse 3 [b] (fun _ => 0)).1 m := by
  refine ⟨[line "ndn.Face" "TRACE"], [line "default_level" "INFO"], "ndn.Face".toList, ?_, ?_, by decide +kernel⟩
  · exact (C130_accepted (info := 3) _ true (fun _ => 0)).1.mp (by decide +kernel)
  · exact (C130_accepted (info := 3) _ true (fun _ => 0)).1.mp (by decide +kernel)

/-- The second line for the default level is ignored, even if it is not a level. -/
theorem C130_second : (configure exParse 3 [[line "default_level" "WARN", line "default_level" "LOUD"]] (fun _ => 0)).2 = true ∧
    (configure exParse 3 [[line "default_level" "WARN", line "default_level" "TRACE"]] (fun _ => 0)).1 "nfd.Fib".toList = 2 := by decide +kernel

/-- A second `log` section puts all modules of NFD back to its own default level. -/
theorem C130_sections : (configure exParse 3 [[line "Fib" "TRACE"], [line "Cs" "TRACE"]] (fun _ => 0)).1 "nfd.Fib".toList = 3 := by decide +kernel

end Verif.Log
