import Verif.Mgmt.Net
import Verif.Packet

/-
Model of nfd-autoreg (tools/nfd-autoreg.cpp): a program that registers prefixes on faces as they appear.

Parameters: the conversion of texts to addresses (boost::asio::ip::make_address) and to FaceUris (ndn::FaceUri). The replies to the
registrations only lead to messages on the terminal (nfd-autoreg.cpp:53-66), so they are left out, as are the messages.
-/
namespace Verif.Ar

open Net (Addr Network)

/-- `ndn::nfd::FacePersistency` -/
inductive Persistency | onDemand | persistent | permanent
deriving DecidableEq, Repr

/-- What the program reads of a face, in a FaceStatus or in a notification: `local` is FACE_SCOPE_LOCAL. -/
structure Face where
  id : Nat
  remote : List Char
  persistency : Persistency
  isLocal : Bool
deriving DecidableEq, Repr

/-- What the parts of a FaceUri are that matter. -/
structure Uri where
  scheme : List Char
  host : List Char
deriving DecidableEq, Repr

structure Lib where
  parseUri : List Char → Option Uri
  parseAddr : List Char → Option Addr

/-- The members set from the command line (nfd-autoreg.cpp:275-279). -/
structure Options where
  auto : List Name := []
  all : List Name := []
  cost : Nat := 255
  white : List Network := []
  black : List Network := []

/-- rib/register (nfd-autoreg.cpp:103-109). -/
structure Request where
  name : Name
  face : Nat
  origin : Nat
  cost : Nat
  /-- ExpirationPeriod in milliseconds -/
  period : Nat
deriving DecidableEq, Repr

/-- ROUTE_ORIGIN_AUTOREG -/
abbrev originAutoreg : Nat := 64
/-- time::milliseconds::max(), which stands for: does not expire -/
abbrev forever : Nat := 2 ^ 63 - 1

/-- `Network::getMaxRangeV4`, `getMaxRangeV6` (network.cpp:47-63) -/
def maxV4 : Network := ⟨.v4 [0, 0, 0, 0], .v4 [255, 255, 255, 255]⟩
def maxV6 : Network := ⟨.v6 (List.replicate 16 0) 0, .v6 (List.replicate 16 255) 0⟩

/-- `boost::asio::ip::address::is_multicast`: 224.0.0.0/4, ff00::/8 -/
def isMulticast : Addr → Bool
  | .v4 b => b.head?.any (fun x => decide (224 ≤ x.val ∧ x.val < 240))
  | .v6 b _ => b.head?.any (fun x => decide (x.val = 255))

/-- `hasAllowedSchema` (nfd-autoreg.cpp:71-77) -/
def hasAllowedSchema (s : List Char) : Bool := s == "udp4".toList || s == "tcp4".toList || s == "udp6".toList || s == "tcp6".toList

/-- `isBlacklisted`, `isWhitelisted` (nfd-autoreg.cpp:82-97) -/
def isListed (l : List Network) (a : Addr) : Bool := l.any (·.contains a)

/-- `registerPrefixesForFace` (nfd-autoreg.cpp:99-113) -/
def registerPrefixesForFace (o : Options) (f : Nat) (l : List Name) : List Request := l.map (fun n => ⟨n, f, originAutoreg, o.cost, forever⟩)

/-- `make_address` with an error code: an address that cannot be parsed is 0.0.0.0 (nfd-autoreg.cpp:119-120). -/
def addressOf (x : Lib) (h : List Char) : Addr := (x.parseAddr h).getD (.v4 [0, 0, 0, 0])

/-- `registerPrefixesIfNeeded` (nfd-autoreg.cpp:115-133) -/
def registerPrefixesIfNeeded (x : Lib) (o : Options) (f : Nat) (u : Uri) (p : Persistency) : List Request :=
  if hasAllowedSchema u.scheme then
    if !isMulticast (addressOf x u.host) then
      registerPrefixesForFace o f o.all ++
      if p = .onDemand && !isListed o.black (addressOf x u.host) && isListed o.white (addressOf x u.host) then registerPrefixesForFace o f o.auto else []
    else []
  else []

/-- `onNotification` (nfd-autoreg.cpp:135-148). `none`: the FaceUri does not parse, an exception that ends the program. -/
def onNotification (x : Lib) (o : Options) (created : Bool) (f : Face) : Option (List Request) :=
  if created && !f.isLocal then (x.parseUri f.remote).map (fun u => registerPrefixesIfNeeded x o f.id u f.persistency) else some []

/-- The face dataset has arrived (nfd-autoreg.cpp:187-192). -/
def onDataset (x : Lib) (o : Options) : List Face → Option (List Request)
  | [] => some []
  | f :: l => (x.parseUri f.remote).bind (fun u => (onDataset x o l).map (registerPrefixesIfNeeded x o f.id u f.persistency ++ ·))

inductive Event
  | dataset (faces : List Face)
  /-- fetching the dataset has failed (nfd-autoreg.cpp:193) -/
  | datasetFailed
  | notification (created : Bool) (face : Face)

def step (x : Lib) (o : Options) : Event → Option (List Request)
  | .dataset l => onDataset x o l
  | .datasetFailed => some []
  | .notification c f => onNotification x o c f

/-- The requests sent until the program is stopped, or ended by an exception (`true`; nfd-autoreg.cpp:258-265). -/
def run (x : Lib) (o : Options) : List Event → List Request × Bool
  | [] => ([], false)
  | e :: l =>
    match step x o e with
    | none => ([], true)
    | some r => (r ++ (run x o l).1, (run x o l).2)

/-- nfd-autoreg.cpp:245-256: what is checked and completed before the start; `none` is exit code 2. -/
def start (o : Options) : Option Options :=
  if o.auto.isEmpty && o.all.isEmpty then none
  else some (if o.white.isEmpty then { o with white := [maxV4, maxV6] } else o)

/-- The program: exit code 2, or what it sends and whether it was ended by an exception. -/
def main (x : Lib) (o : Options) (l : List Event) : Option (List Request × Bool) := (start o).map (fun o => run x o l)

end Verif.Ar
