/-
Names, components, canonical order and successor (ndn-cxx), as used by NFD's tables.
ndn-cxx itself is not part of /repo; these definitions follow the NDN packet format and the
behaviour of `ndn::Name`, `ndn::name::Component` that the code in /repo relies on
(e.g. daemon/table/cs.cpp:82-91, daemon/table/cs-entry.cpp:63-93, daemon/fw/strategy.cpp:47-83).
-/
namespace Verif

/-- An octet. -/
abbrev Byte := UInt8

/-- TLV-TYPE of the component types NFD distinguishes. -/
def ttImplicitDigest : Nat := 1
def ttParamsDigest : Nat := 2
def ttGeneric : Nat := 8
def ttKeyword : Nat := 32
def ttVersion : Nat := 54

/-- `ndn::name::Component`: TLV-TYPE and TLV-VALUE. -/
structure Component where
  typ : Nat
  val : List Byte
deriving DecidableEq, Repr, Inhabited

/-- `ndn::Name`. -/
abbrev Name := List Component

namespace Component

/-- `Component::isImplicitSha256Digest()`: type 1 and 32 octets. -/
def isImplicitDigest (c : Component) : Bool := c.typ == ttImplicitDigest && c.val.length == 32

/-- What `Component::ensureValid` accepts: type 1..65535; digest components have 32 octets. -/
def WF (c : Component) : Prop :=
  1 ≤ c.typ ∧ c.typ ≤ 65535 ∧ (c.typ = ttImplicitDigest ∨ c.typ = ttParamsDigest → c.val.length = 32)

instance (c : Component) : Decidable c.WF := by unfold WF; infer_instance

/-- `Component::compare`: NDN canonical order, first TYPE, then LENGTH, then VALUE octet-wise. -/
def cmp (a b : Component) : Ordering :=
  (compare a.typ b.typ).then ((compare a.val.length b.val.length).then (List.compareLex compare a.val b.val))

/-- The increment loop of `ComponentType::getSuccessorImpl`: big-endian increment; `none` on overflow
(all octets were 0xFF, or there are none). -/
def incBytes : List Byte → Option (List Byte)
  | [] => none
  | b :: bs =>
    match incBytes bs with
    | some bs' => some (b :: bs')
    | none => if b = 255 then none else some ((b + 1) :: List.replicate bs.length 0)

/-- `Component::getSuccessor()`: the next component in canonical order. On overflow a component one
octet longer, all zeros; for the digest types, the next TYPE with empty value. -/
def succ (c : Component) : Component :=
  match incBytes c.val with
  | some v => { c with val := v }
  | none =>
    if c.typ = ttImplicitDigest ∨ c.typ = ttParamsDigest then { typ := c.typ + 1, val := [] }
    else { c with val := List.replicate (c.val.length + 1) 0 }

end Component

namespace Name

/-- `Name::compare`: component-wise, a proper prefix is smaller. -/
def cmp (a b : Name) : Ordering := List.compareLex Component.cmp a b

def lt (a b : Name) : Prop := cmp a b = .lt
instance (a b : Name) : Decidable (lt a b) := by unfold lt; infer_instance

/-- `Name::isPrefixOf`. -/
def isPrefixOf (p n : Name) : Bool := List.isPrefixOf p n

def WF (n : Name) : Prop := ∀ c ∈ n, c.WF

/-- `Name::getSuccessor()` for a non-empty name: last component replaced by its successor.
(For the empty name ndn-cxx returns a name made of one all-zero digest; NFD never calls it there,
see cs.cpp:87 and strategy.cpp:70.) -/
def succ (n : Name) : Name :=
  match n.reverse with
  | [] => []
  | c :: r => r.reverse ++ [c.succ]

/-- `Name::getPrefix(-1)`. -/
def parent (n : Name) : Name := n.dropLast

end Name

end Verif
