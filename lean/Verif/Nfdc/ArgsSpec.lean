import Verif.Nfdc.Args

/-! The grammar of the arguments of an nfdc command. -/
namespace Verif.Nfdc

/-- A decimal numeral and its value. -/
inductive Decimal : Tok → Nat → Prop
  | one (c : Char) (d : Nat) : d < 10 → c.toNat = 48 + d → Decimal [c] d
  | snoc (t : Tok) (n : Nat) (c : Char) (d : Nat) : Decimal t n → d < 10 → c.toNat = 48 + d → Decimal (t ++ [c]) (10 * n + d)

/-- Numerals for a non-negative number that fits 63 bits; zero may have a minus. -/
def Unsigned (t : Tok) (n : Nat) : Prop :=
  (n < 2 ^ 63 ∧ (Decimal t n ∨ ∃ r, t = '+' :: r ∧ Decimal r n)) ∨ (n = 0 ∧ ∃ r, t = '-' :: r ∧ Decimal r 0)

/-- Numerals for a FaceId: 64 bits; a minus is taken modulo 2^64. -/
def FaceIdText (t : Tok) (n : Nat) : Prop :=
  n < 2 ^ 64 ∧ (Decimal t n ∨ (∃ r, t = '+' :: r ∧ Decimal r n) ∨ ∃ r m, t = '-' :: r ∧ Decimal r m ∧ m < 2 ^ 64 ∧ (n + m) % 2 ^ 64 = 0)

/-- What the tokens mean that are values of each type. -/
inductive Means (e : Env) : VType → Tok → Val → Prop
  | yes (t : Tok) : t ∈ [['o', 'n'], ['y', 'e', 's'], ['t', 'r', 'u', 'e'], ['e', 'n', 'a', 'b', 'l', 'e', 'd'], ['1']] → Means e .boolean t (.bool true)
  | no (t : Tok) : t ∈ [['o', 'f', 'f'], ['n', 'o'], ['f', 'a', 'l', 's', 'e'], ['d', 'i', 's', 'a', 'b', 'l', 'e', 'd'], ['0']] →
      Means e .boolean t (.bool false)
  | unsigned (t : Tok) (n : Nat) : Unsigned t n → Means e .unsigned t (.uint n)
  | string (t : Tok) : Means e .string t (.str t)
  | xml : Means e .format ['x', 'm', 'l'] (.xml true)
  | text : Means e .format ['t', 'e', 'x', 't'] (.xml false)
  | name (t : Tok) (n : Nat) : e.name t = some n → Means e .name t (.name n)
  | uri (t : Tok) (u : Nat) : e.uri t = some u → Means e .uri t (.uri u)
  | faceId (t : Tok) (n : Nat) : FaceIdText t n → Means e .faceIdOrUri t (.uint n)
  | faceUri (t : Tok) (u : Nat) : (∀ n, ¬ FaceIdText t n) → e.uri t = some u → Means e .faceIdOrUri t (.uri u)
  | persistent : Means e .persistency ['p', 'e', 'r', 's', 'i', 's', 't', 'e', 'n', 't'] (.permanent false)
  | permanent : Means e .persistency ['p', 'e', 'r', 'm', 'a', 'n', 'e', 'n', 't'] (.permanent true)
  | origin (t : Tok) (o : Nat) : e.origin t = some o → Means e .origin t (.origin o)

/-- A definition as `addArg` makes them (command-definition.cpp:107-130): names are unique; only a positional argument takes "any" value, and it does not
take "none". -/
structure Proper (d : Def) : Prop where
  unique : d.Pairwise (fun a b => a.name ≠ b.name)
  any : ∀ a ∈ d, a.vtype = .any → a.positional = true
  flag : ∀ a ∈ d, a.vtype = .none → a.positional = false

/-- The token is the name of an argument (one that can be given by name). -/
def IsName (d : Def) (t : Tok) : Prop := ∃ a ∈ d, a.name = t ∧ a.vtype ≠ .any

/-- Arguments given by name: flags alone, all others followed by their value. -/
inductive NamedPart (e : Env) (d : Def) : List Tok → List (Tok × Val) → Prop
  | nil : NamedPart e d [] []
  | flag (a : Arg) (ts : List Tok) (l : List (Tok × Val)) : a ∈ d → a.vtype = .none → NamedPart e d ts l →
      NamedPart e d (a.name :: ts) ((a.name, .bool true) :: l)
  | value (a : Arg) (t : Tok) (v : Val) (ts : List Tok) (l : List (Tok × Val)) : a ∈ d → a.vtype ≠ .none → a.vtype ≠ .any →
      Means e a.vtype t v → NamedPart e d ts l → NamedPart e d (a.name :: t :: ts) ((a.name, v) :: l)

/-- Arguments given by position, in the order of declaration, an optional one left out only if the token is no value for it; then arguments given
by name. A name is never taken for a value here. -/
inductive Line (e : Env) (d : Def) : List Arg → List Tok → List (Tok × Val) → Prop
  | named (ps : List Arg) (ts : List Tok) (l : List (Tok × Val)) : NamedPart e d ts l → Line e d ps ts l
  | take (p : Arg) (ps : List Arg) (t : Tok) (v : Val) (ts : List Tok) (l : List (Tok × Val)) : ¬ IsName d t → p.vtype ≠ .any →
      Means e p.vtype t v → Line e d ps ts l → Line e d (p :: ps) (t :: ts) ((p.name, v) :: l)
  | skip (p : Arg) (ps : List Arg) (t : Tok) (ts : List Tok) (l : List (Tok × Val)) : ¬ IsName d t → p.vtype ≠ .any → p.required = false →
      (∀ v, ¬ Means e p.vtype t v) → Line e d ps (t :: ts) l → Line e d (p :: ps) (t :: ts) l
  | any (p : Arg) (ps : List Arg) (t : Tok) (ts : List Tok) : ¬ IsName d t → p.vtype = .any → Line e d (p :: ps) (t :: ts) [(p.name, .strs (t :: ts))]

/-- The value an argument has got last. -/
def Gets (l : List (Tok × Val)) (n : Tok) (v : Val) : Prop := ∃ a b, l = a ++ (n, v) :: b ∧ ∀ x ∈ b, x.1 ≠ n

/-- What values of each type are like. -/
def Fits : VType → Val → Prop
  | .none, .bool b => b = true
  | .any, .strs l => l ≠ []
  | .boolean, .bool _ => True
  | .unsigned, .uint n => n < 2 ^ 63
  | .string, .str _ => True
  | .format, .xml _ => True
  | .name, .name _ => True
  | .uri, .uri _ => True
  | .faceIdOrUri, .uint n => n < 2 ^ 64
  | .faceIdOrUri, .uri _ => True
  | .persistency, .permanent _ => True
  | .origin, .origin _ => True
  | _, _ => False

/-- An argument with the token for its value, to be written by name. -/
def byName (x : Arg × Tok) : List Tok := if x.1.vtype = .none then [x.1.name] else [x.1.name, x.2]

end Verif.Nfdc
