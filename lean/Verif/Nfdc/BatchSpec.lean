import Verif.Nfdc.Batch

/-! How commands are written in a batch file, and what executing them means. -/
namespace Verif.Nfdc

/-- A run of commands: in order, until the first that fails; the exit code is that of the command that fails (1 for an exception), otherwise 0. -/
inductive Runs {C W : Type} (y : Sys C W) : List C → W → W → Nat → Prop
  | done (w : W) : Runs y [] w w 0
  | ok (c : C) (cs : List C) (w w' w'' : W) (n : Nat) : y.exec c w = (w', some 0) → Runs y cs w' w'' n → Runs y (c :: cs) w w'' n
  | fails (c : C) (cs : List C) (w w' : W) (n : Nat) : y.exec c w = (w', some n) → n ≠ 0 → Runs y (c :: cs) w w' n
  | throws (c : C) (cs : List C) (w w' : W) : y.exec c w = (w', none) → Runs y (c :: cs) w w' 1

def Sep (c : Char) : Prop := c = ' ' ∨ c = '\t'
def Quote (c : Char) : Prop := c = '"' ∨ c = '\''

/-- Text within quotes, and what it stands for. A quote of the other kind cannot be within. -/
inductive Quoted : List Char → Tok → Prop
  | nil : Quoted [] []
  | raw (c : Char) (r : List Char) (t : Tok) : c ≠ '\\' → ¬ Quote c → Quoted r t → Quoted (c :: r) (c :: t)
  | esc (c : Char) (r : List Char) (t : Tok) : c = '\\' ∨ Quote c ∨ Sep c → Quoted r t → Quoted ('\\' :: c :: r) (c :: t)
  | newline (r : List Char) (t : Tok) : Quoted r t → Quoted ('\\' :: 'n' :: r) ('\n' :: t)

/-- One argument as written, and what it stands for. -/
inductive Word : List Char → Tok → Prop
  | nil : Word [] []
  | raw (c : Char) (r : List Char) (t : Tok) : c ≠ '\\' → ¬ Quote c → ¬ Sep c → Word r t → Word (c :: r) (c :: t)
  | esc (c : Char) (r : List Char) (t : Tok) : c = '\\' ∨ Quote c ∨ Sep c → Word r t → Word ('\\' :: c :: r) (c :: t)
  | newline (r : List Char) (t : Tok) : Word r t → Word ('\\' :: 'n' :: r) ('\n' :: t)
  | quoted (a b : Char) (s r : List Char) (u t : Tok) : Quote a → Quote b → Quoted s u → Word r t → Word (a :: (s ++ b :: r)) (u ++ t)

/-- Arguments separated by blanks. -/
inductive Splits : List Char → List Tok → Prop
  | last (w : List Char) (t : Tok) : Word w t → Splits w [t]
  | cons (w : List Char) (t : Tok) (c : Char) (r : List Char) (ts : List Tok) : Word w t → Sep c → Splits r ts → Splits (w ++ c :: r) (t :: ts)

/-- A comment (with nothing escaped in it). -/
def Comment (l : List Char) : Prop := ∃ b r, l = b ++ '#' :: r ∧ (∀ c ∈ b, Sep c) ∧ '\\' ∉ r

/-- The commands that lines say; arguments that are empty are dropped, lines without arguments and comments are ignored. -/
inductive Content : List (List Char) → List (List Tok) → Prop
  | nil : Content [] []
  | blank (l : List Char) (ts : List Tok) (ls : List (List Char)) (cs : List (List Tok)) : Splits l ts → (∀ t ∈ ts, t = []) → Content ls cs → Content (l :: ls) cs
  | comment (l : List Char) (ls : List (List Char)) (cs : List (List Tok)) : Comment l → Content ls cs → Content (l :: ls) cs
  | cmd (l : List Char) (ts : List Tok) (t : Tok) (us : List Tok) (ls : List (List Char)) (cs : List (List Tok)) : Splits l ts →
      ts.filter (fun x => decide (x ≠ [])) = t :: us → t.head? ≠ some '#' → Content ls cs → Content (l :: ls) ((t :: us) :: cs)

/-- The lines of a text; the last one may lack the newline. -/
inductive Lines : List Char → List (List Char) → Prop
  | nil : Lines [] []
  | last (l : List Char) : l ≠ [] → '\n' ∉ l → Lines l [l]
  | cons (l r : List Char) (ls : List (List Char)) : '\n' ∉ l → Lines r ls → Lines (l ++ '\n' :: r) (l :: ls)

/-- How many backslashes a line ends with. -/
def trailing (l : List Char) : Nat := (l.reverse.takeWhile (fun c => c == '\\')).length

/-- A line that ends with a backslash that is not itself escaped is continued by the next. -/
inductive Logical : List (List Char) → List (List Char) → Prop
  | nil : Logical [] []
  | atEnd (p : List Char) : trailing (p ++ ['\\']) % 2 = 1 → Logical [p ++ ['\\']] [p]
  | cont (p m : List Char) (ls out : List (List Char)) : trailing (p ++ ['\\']) % 2 = 1 → Logical ((p ++ m) :: ls) out →
      Logical ((p ++ ['\\']) :: m :: ls) out
  | keep (l : List Char) (ls out : List (List Char)) : trailing l % 2 = 0 → Logical ls out → Logical (l :: ls) (l :: out)

/-- A line with an even number of backslashes before those at its end. -/
def Tidy (l : List Char) : Prop := l.count '\\' % 2 = trailing l % 2

/-- An argument that needs nothing but quotes around it. -/
def Plain (t : Tok) : Prop := t ≠ [] ∧ '\\' ∉ t ∧ '\n' ∉ t ∧ ∀ c ∈ t, ¬ Quote c

/-- A command written with quotes around each argument. -/
def writeCmd (c : List Tok) : List Char := c.flatMap (fun t => '"' :: t ++ ['"', ' '])

/-- A file of commands. -/
def writeFile (cs : List (List Tok)) : List Char := cs.flatMap (fun c => writeCmd c ++ ['\n'])

end Verif.Nfdc
