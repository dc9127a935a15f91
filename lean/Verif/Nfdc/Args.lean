/-! How nfdc reads the arguments of a command: `CommandDefinition` (tools/nfdc/command-definition.cpp) and `CommandParser`
(tools/nfdc/command-parser.cpp). Characters are `Char`s, tokens lists of them. What `Name`, `FaceUri` and `RouteOrigin` accept is given by an environment; a value
of these types is a number that stands for it. Messages of errors are left out: `none` is an error. -/
namespace Verif.Nfdc

abbrev Tok := List Char

/-- `ArgValueType` (command-definition.hpp:38-109). -/
inductive VType | none | any | boolean | unsigned | string | format | name | uri | faceIdOrUri | persistency | origin
deriving DecidableEq, Repr

/-- `CommandDefinition::Arg` (command-definition.hpp:206-212) and whether it is listed in `m_positionalArgs`. -/
structure Arg where
  name : Tok
  vtype : VType
  required : Bool := false
  positional : Bool := false
deriving DecidableEq, Repr

/-- A value in `CommandArguments`: what `std::any` holds. -/
inductive Val
  | bool (b : Bool)
  | uint (n : Nat)
  | str (t : Tok)
  | strs (l : List Tok)
  | xml (b : Bool)
  | name (n : Nat)
  | uri (u : Nat)
  | permanent (b : Bool)
  | origin (o : Nat)
deriving DecidableEq, Repr

/-- What the constructors of `Name` and `FaceUri` and the extraction of a `RouteOrigin` make of a token. -/
structure Env where
  name : Tok → Option Nat
  uri : Tok → Option Nat
  origin : Tok → Option Nat

/-- The value of a decimal digit. -/
def digit (c : Char) : Option Nat := if 48 ≤ c.toNat ∧ c.toNat ≤ 57 then some (c.toNat - 48) else none

/-- Digits, read from left to right. -/
def digitsFrom : Nat → Tok → Option Nat
  | n, [] => some n
  | n, c :: t =>
    match digit c with
    | some d => digitsFrom (10 * n + d) t
    | none => none

def digits (t : Tok) : Option Nat := if t = [] then none else digitsFrom 0 t

/-- `boost::lexical_cast<int64_t>`, for a result that is not negative (used at command-definition.cpp:270-275 and face-module.cpp:174-181, where
negative numbers are rejected): an optional sign, then digits. -/
def castUnsigned (t : Tok) : Option Nat :=
  match t with
  | '-' :: r => (digits r).bind (fun n => if n = 0 then some 0 else none)
  | '+' :: r => (digits r).bind (fun n => if n < 2 ^ 63 then some n else none)
  | r => (digits r).bind (fun n => if n < 2 ^ 63 then some n else none)

/-- `boost::lexical_cast<uint64_t>` (used at command-definition.cpp:292): an optional sign, then digits; with a minus, the number modulo 2^64. -/
def castU64 (t : Tok) : Option Nat :=
  match t with
  | '-' :: r => (digits r).bind (fun n => if n < 2 ^ 64 then some ((2 ^ 64 - n) % 2 ^ 64) else none)
  | '+' :: r => (digits r).bind (fun n => if n < 2 ^ 64 then some n else none)
  | r => (digits r).bind (fun n => if n < 2 ^ 64 then some n else none)

/-- `parseBoolean` (command-definition.cpp:222-232). -/
def parseBoolean (t : Tok) : Option Bool :=
  if t ∈ [['o', 'n'], ['t', 'r', 'u', 'e'], ['e', 'n', 'a', 'b', 'l', 'e', 'd'], ['y', 'e', 's'], ['1']] then some true
  else if t ∈ [['o', 'f', 'f'], ['f', 'a', 'l', 's', 'e'], ['d', 'i', 's', 'a', 'b', 'l', 'e', 'd'], ['n', 'o'], ['0']] then some false
  else none

/-- `parseReportFormat` (command-definition.cpp:234-244). -/
def parseFormat (t : Tok) : Option Bool :=
  if t = ['x', 'm', 'l'] then some true else if t = ['t', 'e', 'x', 't'] then some false else none

/-- `parseFacePersistency` (command-definition.cpp:246-256). -/
def parsePersistency (t : Tok) : Option Bool :=
  if t = ['p', 'e', 'r', 's', 'i', 's', 't', 'e', 'n', 't'] then some false
  else if t = ['p', 'e', 'r', 'm', 'a', 'n', 'e', 'n', 't'] then some true
  else none

/-- `CommandDefinition::parseValue` (command-definition.cpp:258-306). It is not called for NONE and ANY. -/
def parseValue (e : Env) (v : VType) (t : Tok) : Option Val :=
  match v with
  | .none => none
  | .any => none
  | .boolean => (parseBoolean t).map .bool
  | .unsigned => (castUnsigned t).map .uint
  | .string => some (.str t)
  | .format => (parseFormat t).map .xml
  | .name => (e.name t).map .name
  | .uri => (e.uri t).map .uri
  | .faceIdOrUri =>
    match castU64 t with
    | some n => some (.uint n)
    | none => (e.uri t).map .uri
  | .persistency => (parsePersistency t).map .permanent
  | .origin => (e.origin t).map .origin

/-- `CommandArguments`: the latest entry for a name counts. -/
abbrev Ca := List (Tok × Val)

/-- The declared arguments, in the order of declaration. -/
abbrev Def := List Arg

/-- `m_args.find(token)`. -/
def findArg (d : Def) (t : Tok) : Option Arg := d.find? (fun a => a.name == t)

/-- The outcome of the loop over positional arguments (command-definition.cpp:173-207). -/
inductive PosRes
  | fail
  | rest (a : Arg)
  | took (a : Arg) (v : Val) (left : List Arg)

def takePos (e : Env) (t : Tok) : List Arg → PosRes
  | [] => .fail
  | a :: left =>
    if a.vtype = .any then .rest a
    else
      match parseValue e a.vtype t with
      | some v => .took a v left
      | none => if a.required then .fail else takePos e t left

/-- The loop over the tokens (command-definition.cpp:138-211); `left`: the positional arguments that are still possible. -/
def readTokens (e : Env) (d : Def) : List Tok → (left : List Arg) → Ca → Option Ca
  | [], _, ca => some ca
  | [t], left, ca =>
    match findArg d t with
    | some a =>
      if a.vtype = .any then
        match takePos e t left with
        | .fail => none
        | .rest p => some ((p.name, .strs [t]) :: ca)
        | .took p v _ => some ((p.name, v) :: ca)
      else if a.vtype = .none then some ((a.name, .bool true) :: ca)
      else none
    | none =>
      match takePos e t left with
      | .fail => none
      | .rest p => some ((p.name, .strs [t]) :: ca)
      | .took p v _ => some ((p.name, v) :: ca)
  | t :: u :: ts, left, ca =>
    match findArg d t with
    | some a =>
      if a.vtype = .any then
        match takePos e t left with
        | .fail => none
        | .rest p => some ((p.name, .strs (t :: u :: ts)) :: ca)
        | .took p v left' => readTokens e d (u :: ts) left' ((p.name, v) :: ca)
      else if a.vtype = .none then readTokens e d (u :: ts) [] ((a.name, .bool true) :: ca)
      else
        match parseValue e a.vtype u with
        | some v => readTokens e d ts [] ((a.name, v) :: ca)
        | none => none
    | none =>
      match takePos e t left with
      | .fail => none
      | .rest p => some ((p.name, .strs (t :: u :: ts)) :: ca)
      | .took p v left' => readTokens e d (u :: ts) left' ((p.name, v) :: ca)

/-- `CommandDefinition::parse` (command-definition.cpp:132-220). -/
def parseArgs (e : Env) (d : Def) (ts : List Tok) : Option Ca :=
  match readTokens e d ts (d.filter (fun a => a.positional)) [] with
  | none => none
  | some ca => if (d.filter (fun a => a.required)).all (fun a => (ca.lookup a.name).isSome) then some ca else none

/-- The commands: noun, verb, definition; an alias is another entry with the same definition (command-parser.cpp:76-97). All are available in
one-shot mode. -/
structure Cmd where
  noun : Tok
  verb : Tok
  defn : Def
deriving DecidableEq, Repr

/-- `m_commands`: from noun and verb to the command. -/
abbrev Cmds := List ((Tok × Tok) × Cmd)

/-- `CommandParser::parse` (command-parser.cpp:113-133): the command found, and its arguments. -/
def parseLine (e : Env) (cs : Cmds) (ts : List Tok) : Option (Cmd × Ca) :=
  let noun := ts.head?.getD []
  let verb := (ts.drop 1).head?.getD []
  match cs.lookup (noun, verb) with
  | none => none
  | some c => (parseArgs e c.defn (ts.drop 2)).map (c, ·)

end Verif.Nfdc
