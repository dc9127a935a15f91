import Verif.Nfdc.Args

/-! `nfdc`'s main program: one command from the command line, or a file of commands (tools/nfdc/main.cpp). What a command is and does is a parameter. What is
printed is left out. -/
namespace Verif.Nfdc

/-- `boost::escaped_list_separator<char>("\\", " \t", "\"'")` (main.cpp:103-105): which characters are separators and quotes. -/
def isSep (c : Char) : Bool := c == ' ' || c == '\t'
def isQuote (c : Char) : Bool := c == '"' || c == '\''

/-- The tokens of the rest of a line, and `false` at the end if an `escaped_list_error` is thrown after these tokens
(`escaped_list_separator::operator()`, `do_escape`; boost/token_functions.hpp, not part of the repository). `q`: in a quotation, `acc`: the token so far. -/
def scan : List Char → (q : Bool) → (acc : Tok) → List Tok × Bool
  | [], _, acc => ([acc], true)
  | ['\\'], _, _ => ([], false)
  | '\\' :: c :: r, q, acc =>
    if c = 'n' then scan r q (acc ++ ['\n'])
    else if isQuote c || isSep c || c == '\\' then scan r q (acc ++ [c])
    else ([], false)
  | c :: r, q, acc =>
    if isSep c then
      if q then scan r q (acc ++ [c])
      else
        let x := scan r false []
        (acc :: x.1, x.2)
    else if isQuote c then scan r (!q) acc
    else scan r q (acc ++ [c])

/-- All tokens of a line. -/
def tokenize (l : List Char) : List Tok × Bool := if l = [] then ([], true) else scan l false []

/-- What a line (with those that continue it) is. -/
inductive LineKind
  | ignored
  | throws
  | args (ts : List Tok)
deriving DecidableEq, Repr

/-- main.cpp:107-120. The tokens after the first that is not empty are not asked for if the line is a comment. -/
def classify (l : List Char) : LineKind :=
  let x := tokenize l
  match x.1.dropWhile (fun t => t.isEmpty) with
  | [] => if x.2 then .ignored else .throws
  | t :: ts =>
    if t.head? = some '#' then .ignored
    else if x.2 then .args ((t :: ts).filter (fun t => !t.isEmpty))
    else .throws

/-- `hasEscapeSlash` (main.cpp:90-93): an odd number of backslashes, anywhere in the line. -/
def hasEscapeSlash (l : List Char) : Bool := l.count '\\' % 2 == 1

/-- main.cpp:94-102: joins a line with those that follow; returns the line and the lines left. -/
def join : List Char → List (List Char) → List Char × List (List Char)
  | l, [] => if !l.isEmpty && hasEscapeSlash l then (l.dropLast, []) else (l, [])
  | l, m :: ms => if !l.isEmpty && hasEscapeSlash l then join (l.dropLast ++ m) ms else (l, m :: ms)

theorem join_length (l : List Char) (ms : List (List Char)) : (join l ms).2.length ≤ ms.length := by
  induction ms generalizing l with
  | nil => unfold join; split <;> simp
  | cons m ms ih =>
    unfold join
    split
    · exact Nat.le_succ_of_le (ih _)
    · simp

/-- `std::getline` until the end (main.cpp:87): the lines of a text. -/
def linesOf : List Char → List (List Char)
  | [] => []
  | c :: r =>
    if c = '\n' then [] :: linesOf r
    else
      match linesOf r with
      | [] => [[c]]
      | l :: ls => (c :: l) :: ls

/-- How nfdc ends. `abort`: `std::terminate`, `man noun`: the process becomes `man`. -/
inductive Exit
  | code (n : Nat)
  | abort
  | man (noun : Tok)
deriving DecidableEq, Repr

/-- What commands are. `parse`: `CommandParser::parse`, `exec`: executes a command; `none`: an exception. -/
structure Sys (C W : Type) where
  parse : List Tok → Option C
  exec : C → W → W × Option Nat
  /-- `execlp("man", ...)` works. -/
  hasMan : Bool := true

def isHelp (t : Tok) : Bool := t == ['h', 'e', 'l', 'p'] || t == ['-', '-', 'h', 'e', 'l', 'p'] || t == ['-', 'h']

/-- `help` (help.cpp:77-97): `some noun`: the process is replaced by `man`. -/
def help {C W : Type} (y : Sys C W) (ts : List Tok) : Option Tok :=
  if ts.any isHelp then
    match ts.eraseP isHelp with
    | [] => none
    | n :: _ => if n ≠ [] ∧ y.hasMan = true then some n else none
  else none

/-- `processLine` (main.cpp:62-73): a command, an empty one, or another process. -/
inductive Proc (C : Type)
  | cmd (c : C)
  | empty
  | man (noun : Tok)

def processLine {C W : Type} (y : Sys C W) (ts : List Tok) : Proc C :=
  match y.parse ts with
  | some c => .cmd c
  | none =>
    match help y ts with
    | some n => .man n
    | none => .empty

/-- `processIstream` (main.cpp:84-131): the commands, or how the process ends. -/
def readLines {C W : Type} (y : Sys C W) : List (List Char) → Except Exit (List C)
  | [] => .ok []
  | l :: ls =>
    let j := join l ls
    match classify j.1 with
    | .ignored => readLines y j.2
    | .throws => .error .abort
    | .args ts =>
      match processLine y ts with
      | .man n => .error (.man n)
      | .empty => .error (.code 2)
      | .cmd c =>
        match readLines y j.2 with
        | .ok cs => .ok (c :: cs)
        | .error x => .error x
termination_by ls => ls.length
decreasing_by
  all_goals
    have := join_length l ls
    simp only [List.length_cons]
    omega

/-- main.cpp:161-183: executes commands; `none` is an empty one, whose call throws `std::bad_function_call`. -/
def execAll {C W : Type} (y : Sys C W) : List (Option C) → W → W × Exit
  | [], w => (w, .code 0)
  | none :: _, w => (w, .code 1)
  | some c :: cs, w =>
    match y.exec c w with
    | (w', none) => (w', .code 1)
    | (w', some n) => if n = 0 then execAll y cs w' else (w', .code n)

/-- What `main` is given: the arguments and, for the file named there (or standard input), its text. -/
def isBatch (t : Tok) : Bool := t == ['-', 'f'] || t == ['-', '-', 'b', 'a', 't', 'c', 'h']
def isVersion (t : Tok) : Bool := t == ['-', 'V'] || t == ['-', '-', 'v', 'e', 'r', 's', 'i', 'o', 'n']

/-- `main` (main.cpp:37-184). -/
def main {C W : Type} (y : Sys C W) (file : Tok → Option (List Char)) (args : List Tok) (w : W) : W × Exit :=
  match args with
  | [] => (w, .code 0)
  | a :: r =>
    if isVersion a then (w, .code 0)
    else if isBatch a then
      match r with
      | [f] =>
        match file f with
        | none => (w, .code 2)
        | some text =>
          match readLines y (linesOf text) with
          | .error x => (w, x)
          | .ok cs => execAll y (cs.map some) w
      | _ => (w, .code 2)
    else
      match processLine y (a :: r) with
      | .man n => (w, .man n)
      | .empty => execAll y [none] w
      | .cmd c => execAll y [some c] w

end Verif.Nfdc
