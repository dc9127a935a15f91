/-
IP subnets and the predicates built from them: core/network.{hpp,cpp} and daemon/face/network-predicate.cpp.

Bytes are `Fin 256`. Parsing of addresses (boost::asio::ip::make_address), of Ethernet addresses and matching of patterns (fnmatch) are parameters.
-/
namespace Verif.Net

abbrev Byte := Fin 256

/-- `boost::asio::ip::address`: four bytes, or sixteen bytes and a scope id. -/
inductive Addr where
  | v4 (b : List Byte)
  | v6 (b : List Byte) (scope : Nat)
deriving DecidableEq, Repr

def Addr.bytes : Addr → List Byte
  | .v4 b => b
  | .v6 b _ => b

/-- The number of bytes is right. -/
def Addr.Ok : Addr → Prop
  | .v4 b => b.length = 4
  | .v6 b _ => b.length = 16

/-- Order of byte arrays of the same length (memcmp, and the order of the numbers they represent). -/
def leBytes : List Byte → List Byte → Bool
  | [], _ => true
  | _ :: _, [] => false
  | a :: l, b :: m => decide (a < b) || (a == b && leBytes l m)

/-- `operator<=` of addresses, as Boost.Asio defines it: IPv4 before IPv6; then the bytes; then, for IPv6, the scope id. -/
def Addr.le : Addr → Addr → Bool
  | .v4 a, .v4 b => leBytes a b
  | .v4 _, .v6 _ _ => true
  | .v6 _ _, .v4 _ => false
  | .v6 a i, .v6 b j => if a = b then decide (i ≤ j) else leBytes a b

/-- `Network` (network.hpp). -/
structure Network where
  min : Addr
  max : Addr
deriving DecidableEq, Repr

/-- `doesContain` (network.hpp:44-48). -/
def Network.contains (n : Network) (a : Addr) : Bool := Addr.le n.min a && Addr.le a n.max

/-- A bit is set (network.cpp:138-140). -/
def setBit (m : List Byte) (i : Nat) : List Byte := m.modify (i / 8) (fun b => Fin.ofNat 256 (b.val ||| (1 <<< (7 - i % 8))))

/-- The mask (network.cpp:136-141, 161-166). -/
def maskBytes (size len : Nat) : List Byte := (List.range len).foldl setBit (List.replicate size 0)

/-- `~` on a byte. -/
def compl (b : Byte) : Byte := ⟨255 - b.val, by omega⟩
def andByte (a b : Byte) : Byte := Fin.ofNat 256 (a.val &&& b.val)
def orByte (a b : Byte) : Byte := Fin.ofNat 256 (a.val ||| b.val)

/-- network.cpp:130-154, 156-179: the network of an address and a prefix length. -/
def makeNetwork (a : Addr) (len : Nat) : Option Network :=
  match a with
  | .v4 b =>
    if len > 32 then none
    else
      let m := maskBytes 4 len
      some ⟨.v4 (List.zipWith andByte b m), .v4 (List.zipWith orByte b (m.map compl))⟩
  | .v6 b _ =>
    if len > 128 then none
    else
      let m := maskBytes 16 len
      some ⟨.v6 (List.zipWith andByte b m) 0, .v6 (List.zipWith orByte b (m.map compl)) 0⟩

/-- `boost::lexical_cast<size_t>` of digits; none at all, or a number that does not fit, is an error. -/
def parseLen (s : List Char) : Option Nat :=
  if s = [] then none
  else
    let n := s.foldl (fun n c => 10 * n + (c.toNat - 48)) 0
    if n < 2 ^ 64 then some n else none

/-- `operator>>` (network.cpp:88-183) on a word without spaces. -/
def parseNetwork (parseAddr : List Char → Option Addr) (s : List Char) : Option Network :=
  if s.contains '/' then
    match parseAddr (s.takeWhile (· != '/')) with
    | none => none
    | some a =>
      let l := (s.dropWhile (· != '/')).drop 1
      if l.all (fun c => decide (48 ≤ c.toNat ∧ c.toNat ≤ 57)) then (parseLen l).bind (makeNetwork a) else none
  else (parseAddr s).map (fun a => ⟨a, a⟩)

/-- `isValidCidr` (network.cpp:65-80). -/
def isValidCidr (parseAddr : List Char → Option Addr) (s : List Char) : Bool := s.contains '/' && (parseNetwork parseAddr s).isSome

/-! ## Predicates -/

/-- What is used from libraries. -/
structure Lib where
  parseAddr : List Char → Option Addr
  /-- whether it is an Ethernet address other than null -/
  isEther : List Char → Bool
  /-- fnmatch(pattern, name, 0) == 0 -/
  glob : List Char → List Char → Bool

/-- The network interface as far as it matters. -/
structure Netif where
  name : List Char
  ether : List Char
  addrs : List Addr
deriving DecidableEq, Repr

/-- A rule in the configuration: key and value. -/
abbrev Item := List Char × List Char

def star : List Char := ['*']
def kIfname : List Char := "ifname".toList
def kEther : List Char := "ether".toList
def kSubnet : List Char := "subnet".toList

inductive Kind where
  | interface | address
deriving DecidableEq, Repr

/-- `isRuleSupported` (network-predicate.cpp:120-124, 146-150). -/
def isRuleSupported : Kind → List Char → Bool
  | .interface, k => k == kIfname || k == kEther || k == kSubnet
  | .address, k => k == kSubnet

/-- `isRuleValid` (network-predicate.cpp:126-144, 152-162). -/
def isRuleValid (lib : Lib) (k v : List Char) : Bool :=
  if k = kIfname then v != [] else if k = kEther then lib.isEther v else isValidCidr lib.parseAddr v

/-- `parseList` (network-predicate.cpp:48-98): the set, or an exception. The order of a set does not matter here. -/
def parseList (lib : Lib) (kind : Kind) : List Item → Option (List (List Char))
  | [] => some []
  | (k, v) :: l =>
    if k = star then (parseList lib kind l).map (k :: ·)
    else if isRuleSupported kind k && isRuleValid lib k v then (parseList lib kind l).map (v :: ·)
    else none

/-- `doesNetifMatchRule` (network-predicate.cpp:172-188). The rule has been checked, so it parses. -/
def netifMatches (lib : Lib) (i : Netif) (r : List Char) : Bool :=
  (r.contains '/' && (parseNetwork lib.parseAddr r).any (fun n => i.addrs.any n.contains)) || (r == star || lib.glob r i.name || i.ether == r)

/-- `doesAddressMatchRule` (network-predicate.cpp:199-211). -/
def addrMatches (lib : Lib) (a : Addr) (r : List Char) : Bool :=
  (r.contains '/' && (parseNetwork lib.parseAddr r).any (·.contains a)) || r == star

structure Lists where
  white : List (List Char)
  black : List (List Char)
deriving DecidableEq, Repr

/-- network-predicate.cpp:36-46 -/
def Lists.init : Lists := ⟨[star], []⟩

/-- `operator()` (network-predicate.cpp:190-197, 213-220). -/
def Lists.accepts (l : Lists) (p : List Char → Bool) : Bool := l.white.any p && !l.black.any p

end Verif.Net
