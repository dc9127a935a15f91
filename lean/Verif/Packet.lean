import Verif.Name.Model

/-
Interest and Data packets, restricted to what NFD's tables look at.
-/
namespace Verif

/-- `ndn::Data` as the Content Store sees it. `digest` is the implicit SHA-256 digest (32 octets), which
is part of the packet here rather than computed; `noCache` stands for the CachePolicy(NoCache) tag. -/
structure Data where
  name : Name
  digest : List Byte
  freshness : Nat
  noCache : Bool := false
deriving DecidableEq, Repr, Inhabited

/-- `Data::getFullName()`: name plus implicit digest component. -/
def Data.digestComp (d : Data) : Component := ⟨ttImplicitDigest, d.digest⟩
def Data.fullName (d : Data) : Name := d.name ++ [d.digestComp]

/-- The part of `ndn::Interest` that matters for matching. -/
structure Interest where
  name : Name
  canBePrefix : Bool := false
  mustBeFresh : Bool := false
deriving DecidableEq, Repr, Inhabited

/-- `Interest::matchesData` of ndn-cxx (called at daemon/table/cs-entry.cpp:52, daemon/table/pit.cpp:104). -/
def Interest.matchesData (i : Interest) (d : Data) : Bool :=
  if i.name.length = d.name.length + 1 then
    match i.name.getLast? with
    | some c => c.isImplicitDigest && i.name == d.fullName
    | none => false
  else if i.canBePrefix then Name.isPrefixOf i.name d.name
  else i.name == d.name

end Verif
