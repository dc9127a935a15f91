import Verif.Nfdc.BatchLemmas
import Verif.Nfdc.ArgsProps

/-! C101: files of commands, and the exit code of nfdc. -/
namespace Verif.Nfdc

/-- `-f file`. -/
def batchArgs (f : Tok) : List Tok := [['-', 'f'], f]

theorem main_batch {C W : Type} (y : Sys C W) (file : Tok → Option (List Char)) (f : Tok) (text : List Char) (hf : file f = some text) (w : W) :
    main y file (batchArgs f) w = match readLogical y (logicalLines (linesOf text)) with
      | .error x => (w, x)
      | .ok cs => execAll y (cs.map some) w := by
  have h1 : isVersion ['-', 'f'] = false := by decide
  have h2 : isBatch ['-', 'f'] = true := by decide
  simp only [main, batchArgs, h1, h2, hf, Bool.false_eq_true, if_false, if_true]
  rw [readLines_eq y _ _ (Nat.le_refl _)]
  cases readLogical y (logicalLines (linesOf text)) <;> rfl

/-- Whatever the file says: either nothing is executed and nfdc does not claim success, or some commands are executed in order up to the first failure, and the
exit code is that of the last one executed. -/
theorem C101_safe {C W : Type} (y : Sys C W) (file : Tok → Option (List Char)) (f : Tok) (w w' : W) (x : Exit)
    (h : main y file (batchArgs f) w = (w', x)) : (w' = w ∧ x ≠ .code 0) ∨ ∃ cs n, x = .code n ∧ Runs y cs w w' n := by
  cases hf : file f with
  | none =>
    have h1 : isVersion ['-', 'f'] = false := by decide
    have h2 : isBatch ['-', 'f'] = true := by decide
    simp only [main, batchArgs, h1, h2, hf, Bool.false_eq_true, if_false, if_true, Prod.mk.injEq] at h
    exact .inl ⟨h.1.symm, by rw [← h.2]; simp⟩
  | some text =>
    rw [main_batch y file f text hf] at h
    cases hr : readLogical y (logicalLines (linesOf text)) with
    | error e =>
      rw [hr] at h
      simp only [Prod.mk.injEq] at h
      exact .inl ⟨h.1.symm, by rw [← h.2]; exact readLogical_err y _ e hr⟩
    | ok cs =>
      rw [hr] at h
      obtain ⟨w2, n, h1, h2⟩ := execAll_runs y cs w
      simp only at h
      rw [h1] at h
      cases h
      exact .inr ⟨cs, n, rfl, h2⟩

/-- A file that says commands: they are executed in the order of the file up to the first failure, with its exit code, or none of them if one of them is not a
command that nfdc knows, or has wrong arguments. Partial: only if the number of backslashes before those at the end of each line is even (`C101_backslash`). -/
theorem C101_batch_partial {C W : Type} (y : Sys C W) (file : Tok → Option (List Char)) (f : Tok) (text : List Char) (hf : file f = some text)
    (ls : List (List Char)) (ht : Lines text ls) (tidy : ∀ l ∈ ls, Tidy l) (out : List (List Char)) (hl : Logical ls out) (cs : List (List Tok)) (hc : Content out cs) (w : W) :
    (∀ ds : List C, cs.map y.parse = ds.map some → ∀ w' x, main y file (batchArgs f) w = (w', x) ↔ ∃ n, x = .code n ∧ Runs y ds w w' n) ∧
    ((∃ c ∈ cs, y.parse c = none) → (main y file (batchArgs f) w).1 = w ∧ (main y file (batchArgs f) w).2 ≠ .code 0) := by
  have hm := main_batch y file f text hf w
  rw [linesOf_eq ht, logical_eq hl tidy] at hm
  refine ⟨fun ds hd w' x => ?_, fun hb => ?_⟩
  · rw [hm, readLogical_ok y hc ds hd]
    dsimp only
    obtain ⟨w2, n, h1, h2⟩ := execAll_runs y ds w
    rw [h1, Prod.mk.injEq]
    constructor
    · rintro ⟨rfl, rfl⟩; exact ⟨n, rfl, h2⟩
    · rintro ⟨m, rfl, h3⟩
      obtain ⟨rfl, rfl⟩ := h2.unique h3
      exact ⟨rfl, rfl⟩
  · obtain ⟨e, he, hne⟩ := readLogical_bad y hc hb
    rw [hm, he]
    exact ⟨rfl, hne⟩

/-- Any commands whose arguments are not empty and have no quotes, backslashes and newlines in them (and that do not begin with `#`) can be given in a file, with
quotes around each argument: nfdc does the same as for the commands themselves. -/
theorem C101_write {C W : Type} (y : Sys C W) (file : Tok → Option (List Char)) (f : Tok) (cs : List (List Tok)) (hf : file f = some (writeFile cs))
    (h : ∀ c ∈ cs, (∀ t ∈ c, Plain t) ∧ c ≠ [] ∧ ∀ t, c.head? = some t → t.head? ≠ some '#') (w : W) :
    (∀ ds : List C, cs.map y.parse = ds.map some → ∀ w' x, main y file (batchArgs f) w = (w', x) ↔ ∃ n, x = .code n ∧ Runs y ds w w' n) ∧
    ((∃ c ∈ cs, y.parse c = none) → (main y file (batchArgs f) w).1 = w ∧ (main y file (batchArgs f) w).2 ≠ .code 0) := by
  have hlines := lines_write cs (fun c hc => (h c hc).1)
  have hclean : ∀ l ∈ cs.map writeCmd, '\\' ∉ l := by
    intro l hl
    obtain ⟨c, hc, rfl⟩ := List.mem_map.1 hl
    exact write_clean (h c hc).1
  refine C101_batch_partial y file f _ hf _ hlines (fun l hl => clean_tidy (hclean l hl)) _ (clean_logical _ hclean) cs (content_write cs h) w

/-- One command on the command line: if it is one, it is executed and nfdc ends with its exit code; otherwise nothing is executed and nfdc does not
claim success. -/
theorem C101_one_shot {C W : Type} (y : Sys C W) (file : Tok → Option (List Char)) (a : Tok) (r : List Tok) (w : W) (h1 : isVersion a = false)
    (h2 : isBatch a = false) :
    (∀ c, y.parse (a :: r) = some c → ∀ w' x, main y file (a :: r) w = (w', x) ↔ ∃ n, x = .code n ∧ Runs y [c] w w' n) ∧
    (y.parse (a :: r) = none → (main y file (a :: r) w).1 = w ∧ (main y file (a :: r) w).2 ≠ .code 0) := by
  refine ⟨fun c hc w' x => ?_, fun hn => ?_⟩
  · simp only [main, h1, h2, Bool.false_eq_true, if_false, processLine_some hc]
    obtain ⟨w2, n, h3, h4⟩ := execAll_runs y [c] w
    rw [List.map_singleton] at h3
    rw [h3, Prod.mk.injEq]
    constructor
    · rintro ⟨rfl, rfl⟩; exact ⟨n, rfl, h4⟩
    · rintro ⟨m, rfl, h5⟩
      obtain ⟨rfl, rfl⟩ := h4.unique h5
      exact ⟨rfl, rfl⟩
  · simp only [main, h1, h2, Bool.false_eq_true, if_false]
    unfold processLine
    rw [hn]
    dsimp only
    cases help y (a :: r) with
    | none => exact ⟨rfl, by simp [execAll]⟩
    | some n => exact ⟨rfl, by simp⟩

/-! Commands that note their arguments; those that begin with `!` fail with code 3; `?` is not a command. -/
def yEx : Sys (List Tok) (List (List Tok)) where
  parse ts := if ts.head? = some ['?'] ∨ ts.any isHelp then none else some ts
  exec c w := if c.head? = some ['!'] then (w, some 3) else (w ++ [c], some 0)

def runFile (text : List Char) : List (List Tok) × Exit := main yEx (fun _ => some text) (batchArgs ['x']) []

/-- A backslash in the middle of a line, as the manual says to use it: `add a\ b` and `del c`. The last character of the first line and all of the second line
are lost, the argument is wrong, and nfdc claims success. -/
theorem C101_backslash : runFile ['a', 'd', 'd', ' ', 'a', '\\', ' ', 'b', '\n', 'd', 'e', 'l', ' ', 'c', '\n'] = ([[['a', 'd', 'd'], ['a', ' ', 'd', 'e', 'l']]], .code 0) ∧
    Splits ['a', 'd', 'd', ' ', 'a', '\\', ' ', 'b'] [['a', 'd', 'd'], ['a', ' ', 'b']] := by
  refine ⟨by decide +kernel, ?_⟩
  have w1 : Word ['a', 'd', 'd'] ['a', 'd', 'd'] := .raw _ _ _ (by decide) (by unfold Quote; decide) (by unfold Sep; decide)
    (.raw _ _ _ (by decide) (by unfold Quote; decide) (by unfold Sep; decide) (.raw _ _ _ (by decide) (by unfold Quote; decide) (by unfold Sep; decide) .nil))
  have w2 : Word ['a', '\\', ' ', 'b'] ['a', ' ', 'b'] := .raw _ _ _ (by decide) (by unfold Quote; decide) (by unfold Sep; decide)
    (.esc _ _ _ (.inr (.inr (.inl rfl))) (.raw _ _ _ (by decide) (by unfold Quote; decide) (by unfold Sep; decide) .nil))
  exact .cons _ _ ' ' _ _ w1 (.inl rfl) (.last _ _ w2)

/-- An unknown escape (twice, so that the lines are not joined) ends nfdc by an exception that is not caught. -/
theorem C101_abort : runFile ['a', '\\', 'x', '\\', 'x', '\n'] = ([], .abort) := by decide +kernel

/-- Asking for help about something, with `help`, `--help` or `-h` at any place: the manual page of the first other word is shown, and if it cannot be the exit
code is 1. Nothing is executed. -/
theorem C101_help {C W : Type} (y : Sys C W) (file : Tok → Option (List Char)) (a b : List Tok) (h n : Tok) (r : List Tok) (w : W)
    (hh : h ∈ [['h', 'e', 'l', 'p'], ['-', '-', 'h', 'e', 'l', 'p'], ['-', 'h']]) (ha : ∀ t ∈ a, t ∉ [['h', 'e', 'l', 'p'], ['-', '-', 'h', 'e', 'l', 'p'], ['-', 'h']])
    (hr : a ++ b = n :: r) (hn : n ≠ []) (h1 : isVersion n = false) (h2 : isBatch n = false) (hp : y.parse (a ++ h :: b) = none) :
    main y file (a ++ h :: b) w = (w, if y.hasMan = true then .man n else .code 1) := by
  have hhelp : ∀ t, isHelp t = true ↔ t ∈ [['h', 'e', 'l', 'p'], ['-', '-', 'h', 'e', 'l', 'p'], ['-', 'h']] := by
    intro t
    simp [isHelp, or_assoc]
  have he : help y (a ++ h :: b) = if y.hasMan = true then some n else none := by
    unfold help
    have hany : (a ++ h :: b).any isHelp = true := by
      rw [List.any_append, List.any_cons, (hhelp h).mpr hh]; simp
    have her : (a ++ h :: b).eraseP isHelp = n :: r := by
      rw [List.eraseP_append_right _ (fun t ht hc => ha t ht ((hhelp t).mp hc)), List.eraseP_cons_of_pos ((hhelp h).mpr hh), hr]
    rw [if_pos hany, her]
    simp only [ne_eq, hn, not_false_eq_true, true_and]
  have hl : processLine y (a ++ h :: b) = if y.hasMan = true then .man n else .empty := by
    unfold processLine
    rw [hp, he]
    cases y.hasMan <;> rfl
  have hf : ∃ t ts, a ++ h :: b = t :: ts ∧ isVersion t = false ∧ isBatch t = false := by
    cases a with
    | nil =>
      refine ⟨h, b, rfl, ?_⟩
      simp only [List.mem_cons, List.not_mem_nil, or_false] at hh
      rcases hh with rfl | rfl | rfl <;> decide
    | cons t a =>
      injection hr with hr1 hr2
      subst hr1
      exact ⟨t, a ++ h :: b, rfl, h1, h2⟩
  obtain ⟨t, ts, h3, h4, h5⟩ := hf
  rw [h3] at hl ⊢
  unfold main
  simp only [h4, h5, Bool.false_eq_true, if_false, hl]
  cases y.hasMan <;> rfl

example : main yEx (fun _ => none) [['f', 'a', 'c', 'e'], ['-', 'h'], ['l']] [] = ([], .man ['f', 'a', 'c', 'e']) :=
  C101_help yEx _ [['f', 'a', 'c', 'e']] [['l']] ['-', 'h'] ['f', 'a', 'c', 'e'] [['l']] [] (by decide) (by decide) rfl (by decide) (by decide) (by decide) (by decide)

/-- A batch file that cannot be read, none or more than one: nothing is done, and the exit code is 2. -/
theorem C101_no_file {C W : Type} (y : Sys C W) (file : Tok → Option (List Char)) (r : List Tok) (w : W) (h : ∀ f, r = [f] → file f = none) :
    main y file (['-', 'f'] :: r) w = (w, .code 2) := by
  have h1 : isVersion ['-', 'f'] = false := by decide
  have h2 : isBatch ['-', 'f'] = true := by decide
  unfold main
  simp only [h1, h2, Bool.false_eq_true, if_false, if_true]
  match r, h with
  | [], _ => rfl
  | [f], h => simp only [h f rfl]
  | _ :: _ :: _, _ => rfl

example : main yEx (fun f => if f = ['x'] then some ['a', '\n'] else none) [['-', 'f'], ['x']] [] = ([[['a']]], .code 0) := by decide +kernel
example : ∀ f : Tok, [['x'], ['y']] = [f] → (some ['a'] : Option (List Char)) = none := fun _ h => by simp at h

/-- `nfdc --help` and `nfdc help` do not end with code 0, and a command that does not exist not with code 2. -/
theorem C101_exit : main yEx (fun _ => none) [['-', '-', 'h', 'e', 'l', 'p']] [] = ([], .code 1) ∧ main yEx (fun _ => none) [['h', 'e', 'l', 'p']] [] = ([], .code 1) ∧
    main yEx (fun _ => none) [['?']] [] = ([], .code 1) := by decide +kernel

/-- Files: a comment, a blank line, a line that is continued, quotes; failure of the second command; an unknown command at the end. -/
example : runFile ['#', ' ', 'x', '\n', ' ', '\n', 'a', ' ', '\\', '\n', '"', 'b', ' ', 'c', '"', '\n'] = ([[['a'], ['b', ' ', 'c']]], .code 0) ∧
    runFile ['a', '\n', '!', '\n', 'b', '\n'] = ([[['a']]], .code 3) ∧ runFile ['a', '\n', '?', '\n'] = ([], .code 2) := by decide +kernel

/-- The hypotheses of `C101_batch_partial` are met by a file with a line that is continued, a command that fails and no newline at the end. -/
example : ∃ w', runFile ['a', '\\', '\n', 'b', '\n', '!', '\n', 'c'] = (w', .code 3) := by
  have hl : Lines ['a', '\\', '\n', 'b', '\n', '!', '\n', 'c'] [['a', '\\'], ['b'], ['!'], ['c']] :=
    .cons ['a', '\\'] _ _ (by decide) (.cons ['b'] _ _ (by decide) (.cons ['!'] _ _ (by decide) (.last ['c'] (by decide) (by decide))))
  have w : ∀ c : Char, c ≠ '\\' → ¬ Quote c → ¬ Sep c → Word [c] [c] := fun c h1 h2 h3 => .raw c [] [] h1 h2 h3 .nil
  have hb := (C101_batch_partial yEx (fun _ => some ['a', '\\', '\n', 'b', '\n', '!', '\n', 'c']) ['x'] _ rfl _ hl (by unfold Tidy; decide)
    [['a', 'b'], ['!'], ['c']]
    (.cont ['a'] ['b'] _ _ (by decide) (.keep ['a', 'b'] _ _ (by decide) (.keep _ _ _ (by decide) (.keep _ _ _ (by decide) .nil))))
    [[['a', 'b']], [['!']], [['c']]]
    (.cmd _ [['a', 'b']] ['a', 'b'] [] _ _
      (.last _ _ (.raw _ _ _ (by decide) (by unfold Quote; decide) (by unfold Sep; decide) (w 'b' (by decide) (by unfold Quote; decide) (by unfold Sep; decide))))
      (by decide) (by decide)
      (.cmd _ [['!']] ['!'] [] _ _ (.last _ _ (w '!' (by decide) (by unfold Quote; decide) (by unfold Sep; decide))) (by decide) (by decide)
      (.cmd _ [['c']] ['c'] [] _ _ (.last _ _ (w 'c' (by decide) (by unfold Quote; decide) (by unfold Sep; decide))) (by decide) (by decide) .nil))) []).1
    [[['a', 'b']], [['!']], [['c']]] (by decide) [[['a', 'b']]] (.code 3)
  exact ⟨[[['a', 'b']]], hb.2 ⟨3, rfl, .ok _ _ _ _ _ _ rfl (.fails _ _ _ _ _ rfl (by decide))⟩⟩

example : Plain ['a', ' ', 'b'] := ⟨by decide, by decide, by decide, by unfold Quote; decide⟩

/-- The commands of `ArgsProps` can be those of a file. -/
example : ((⟨parseLine eEx [((['f'], ['c']), ⟨['f'], ['c'], dEx⟩)], fun _ (n : Nat) => (n + 1, some 0), true⟩ : Sys (Cmd × Ca) Nat).parse
    [['f'], ['c'], ['u']]).isSome = true := by decide +kernel

end Verif.Nfdc
