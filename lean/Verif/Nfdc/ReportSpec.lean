/-! A reader of XML documents, for a small part of XML 1.0: one declaration, elements whose names are made of letters and that have at most one attribute, text,
and references to the five predefined entities. It refuses everything else, so what it reads is well-formed. -/
namespace Verif.Xml

inductive Node
  | elem (name : List Char) (children : List Node)
  | chr (c : Char)

/-- `Char` of XML 1.0 without the delimiters of markup. -/
def isText (c : Char) : Bool :=
  (c == '\t' || c == '\n' || c == '\r' || decide (32 ≤ c.toNat)) && c != '<' && c != '>' && c != '&' && c.toNat != 0xFFFE && c.toNat != 0xFFFF

def isName (s : List Char) : Bool := !s.isEmpty && s.all (fun c => c.isAlpha)

def entity (s : List Char) : Option Char :=
  if s = "quot".toList then some '"'
  else if s = "amp".toList then some '&'
  else if s = "apos".toList then some '\''
  else if s = "lt".toList then some '<'
  else if s = "gt".toList then some '>'
  else none

/-- `letters="value"`, where the value has no markup. -/
def isAttribute (s : List Char) : Bool :=
  let name := s.takeWhile (fun c => c.isAlpha)
  let value := (s.drop name.length).drop 2
  isName name && (s.drop name.length).take 2 == ['=', '"'] && value.getLast? == some '"' && value.dropLast.all (fun c => isText c && c != '"')

inductive Mode
  | content
  /-- after `<` -/
  | tag (buf : List Char)
  /-- after `&` -/
  | reference (buf : List Char)

structure St where
  mode : Mode := .content
  /-- elements that are open, the innermost first, with what they contain so far -/
  stack : List (List Char × List Node) := []
  declared : Bool := false
  root : Option Node := none

def add (s : St) (n : Node) : Option St :=
  match s.stack, n with
  | (name, l) :: r, n => some { s with mode := .content, stack := (name, l ++ [n]) :: r }
  | [], .elem a b => if s.root.isNone then some { s with mode := .content, root := some (.elem a b) } else none
  | [], .chr _ => none

/-- A complete tag; `b` is what stands between `<` and `>`. -/
def tag (s : St) (b : List Char) : Option St :=
  if b = "?xml version=\"1.0\"?".toList then
    if s.stack.isEmpty && s.root.isNone && !s.declared then some { s with mode := .content, declared := true } else none
  else
    match b with
    | '/' :: n =>
      match s.stack with
      | (m, l) :: r => if n = m then add { s with stack := r } (.elem m l) else none
      | [] => none
    | b =>
      if b.getLast? = some '/' then (if isName b.dropLast then add s (.elem b.dropLast []) else none)
      else
        let n := b.takeWhile (fun c => c.isAlpha)
        let a := b.drop n.length
        if isName n && (a.isEmpty || (a.head? == some ' ' && isAttribute a.tail)) then
          some { s with mode := .content, stack := (n, []) :: s.stack } else none

def step (s : St) (c : Char) : Option St :=
  match s.mode with
  | .content =>
    if c = '<' then some { s with mode := .tag [] }
    else if c = '&' then some { s with mode := .reference [] }
    else if isText c then add s (.chr c) else none
  | .tag b => if c = '>' then tag s b else if c = '<' then none else some { s with mode := .tag (b ++ [c]) }
  | .reference b => if c = ';' then (entity b).bind (fun c => add s (.chr c)) else some { s with mode := .reference (b ++ [c]) }

def run : St → List Char → Option St
  | s, [] => some s
  | s, c :: l => (step s c).bind (fun s => run s l)

/-- The root element of a document. -/
def parse (l : List Char) : Option Node :=
  match run {} l with
  | some ⟨.content, [], _, some n⟩ => some n
  | _ => none

/-- The contents of the elements of a given name. -/
def select (name : String) (l : List Node) : List (List Node) :=
  l.filterMap (fun n => match n with
    | .elem m l => if m = name.toList then some l else none
    | .chr _ => none)

/-- The contents of the elements on a path. -/
def find : List String → List Node → List (List Node)
  | [], l => [l]
  | n :: p, l => (select n l).flatMap (find p)

/-- The text right inside. -/
def textOf (l : List Node) : List Char :=
  l.filterMap (fun n => match n with
    | .chr c => some c
    | .elem _ _ => none)

/-- The texts of the elements on a path. -/
def texts (p : List String) (l : List Node) : List (List Char) := (find p l).map textOf

end Verif.Xml
