/-
TLV sizes and TLV parsing, as far as the link layer needs them.

ndn-cxx (`ndn::tlv`, `ndn::Block`) is not part of /repo. Its encoding functions are modelled from the NDN packet format: a VAR-NUMBER
is 1, 3, 5 or 9 octets, a NonNegativeInteger is 1, 2, 4 or 8 octets, and an element is TLV-TYPE, TLV-LENGTH and TLV-VALUE.
-/
namespace Verif.Lp

abbrev Bytes := List UInt8

/-- Size of a TLV-TYPE or TLV-LENGTH (`tlv::sizeOfVarNumber`, used in daemon/face/lp-reliability.cpp:194-204). -/
def varSize (n : Nat) : Nat :=
  if n < 253 then 1 else if n ≤ 0xFFFF then 3 else if n ≤ 0xFFFFFFFF then 5 else 9

/-- Size of a NonNegativeInteger (`tlv::sizeOfNonNegativeInteger`, used in daemon/face/generic-link-service.cpp:38-40). -/
def nniSize (n : Nat) : Nat :=
  if n ≤ 0xFF then 1 else if n ≤ 0xFFFF then 2 else if n ≤ 0xFFFFFFFF then 4 else 8

/-- Size of an element with the given TLV-TYPE and TLV-LENGTH. -/
def tlvSize (type len : Nat) : Nat := varSize type + varSize len + len

/-- A big-endian number. -/
def bigEndian (b : Bytes) : Nat := b.foldl (fun n x => n * 256 + x.toNat) 0

/-- `tlv::readVarNumber`: the number and the remaining octets; `none` if there are not enough octets. -/
def readVar : Bytes → Option (Nat × Bytes)
  | [] => none
  | b :: r =>
    if b.toNat < 253 then some (b.toNat, r)
    else
      let n := if b.toNat = 253 then 2 else if b.toNat = 254 then 4 else 8
      if r.length < n then none else some (bigEndian (r.take n), r.drop n)

/-- An element at the front of a buffer. -/
structure Elem where
  type : Nat
  value : Bytes
deriving DecidableEq, Repr

/-- `Block::fromBuffer`: the first element and the remaining octets; `none` is a parse error or an incomplete element. -/
def readElem (b : Bytes) : Option (Elem × Bytes) :=
  match readVar b with
  | none => none
  | some (type, r) =>
    if type = 0 ∨ type > 0xFFFFFFFF then none
    else match readVar r with
      | none => none
      | some (len, r) => if r.length < len then none else some (⟨type, r.take len⟩, r.drop len)

/-- `Block(buffer)`: the octets are exactly one element; `none` is a `tlv::Error`. -/
def parseBlock (b : Bytes) : Option Elem :=
  match readElem b with
  | some (e, []) => some e
  | _ => none

end Verif.Lp
