import Verif.Tables.Model
import Verif.Cs.Model
import Verif.Dnl.Model

/-
Model of the forwarding pipelines: daemon/fw/forwarder.cpp, the actions a strategy may take (daemon/fw/strategy.cpp) and the
helpers of daemon/fw/algorithm.cpp the pipelines use.

Conventions:
* The PIT is the list of its entries. `Pit::insert`, `find`, `findAllDataMatches` and `erase` act on it as theorems C18 and
  C19 say they act on the name tree (aggregation by name and selectors; exactly the matching entries; in unspecified order).
  A `pit::Entry` object is identified by `uid`, which is never reused, so a callback that captured a pointer to an erased entry
  cannot be confused with a later entry for the same Interest.
* Content Store and Dead Nonce List are the models of `Verif.Cs` and `Verif.Dnl`.
* The scheduler is an explicit list of pending events; cancelling removes an event, firing an event removes it.
* A strategy is an arbitrary function from the forwarder's state and the trigger to a list of actions, and every event carries
  its own, so every stateful, randomised or buggy strategy is covered. FIB and Strategy Choice only influence what the strategy
  does, so they are not part of this state.
* `sent` and `calls` are ghost logs: packets handed to faces, triggers delivered to strategies.
* All times are nanoseconds; the clock does not move during an event. A Data's `freshness` is in nanoseconds too.
* `none` is a failed assertion.
* Not modelled: packet tags other than NextHopFaceId, PIT tokens, congestion marks, endpoint ids, logging.
-/
namespace Verif.Fw

open Tb (FaceId Time FwInterest InRec OutRec PitEntry NextHop)

inductive Scope | loc | nonLocal
deriving DecidableEq, Repr

inductive Link | p2p | multiAccess | adHoc
deriving DecidableEq, Repr

/-- What forwarding looks at in a `Face`: `getScope()`, `getLinkType()`. -/
structure FaceInfo where
  scope : Scope
  link : Link
deriving DecidableEq, Repr

/-- `pit::Entry` (pit-entry.hpp:190-396) with `expiryTimer`, `isSatisfied`, `dataFreshnessPeriod` (pit-entry.hpp:372-386). -/
structure Ent extends PitEntry where
  uid : Nat
  timer : Option Nat := none
  satisfied : Bool := false
  freshness : Nat := 0
deriving DecidableEq, Repr

/-- The policies of daemon/fw/unsolicited-data-policy.cpp. -/
inductive Unsolicited | dropAll | admitLocal | admitNetwork | admitAll
deriving DecidableEq, Repr

/-- Settings that can be changed while running: `Forwarder::Config`, the network region table, the unsolicited Data policy. -/
structure Config where
  defaultHopLimit : Nat := 0
  regions : List Name := []
  unsolicited : Unsolicited := .dropAll

/-- Fixed parameters: the hash and the lifetime of the Dead Nonce List. -/
structure Env where
  hash : Name → Nat → Dnl.Entry
  dnlLifetime : Time

/-- A pending scheduler event that will finalize PIT entry `uid`. -/
structure Timer where
  id : Nat
  due : Time
  uid : Nat
deriving DecidableEq, Repr

/-- A packet handed to a face. -/
inductive Pkt
  | interest (face : FaceId) (i : FwInterest)
  | data (face : FaceId) (d : Data)
  | nack (face : FaceId) (i : FwInterest) (reason : Nat)
deriving DecidableEq, Repr

/-- Strategy triggers (strategy.hpp:132-290). `async` is a strategy's own scheduled event. -/
inductive Trigger
  | afterReceiveInterest (i : FwInterest) (ingress : FaceId) (uid : Nat)
  | onInterestLoop (i : FwInterest) (ingress : FaceId)
  | afterContentStoreHit (d : Data) (ingress : FaceId) (uid : Nat)
  | beforeSatisfyInterest (d : Data) (ingress : FaceId) (uid : Nat)
  | afterReceiveData (d : Data) (ingress : FaceId) (uid : Nat)
  | afterReceiveNack (i : FwInterest) (reason : Nat) (ingress : FaceId) (uid : Nat)
  | onDroppedInterest (i : FwInterest) (egress : FaceId)
  | afterNewNextHop (nh : NextHop) (uid : Nat)
  | async
deriving DecidableEq, Repr

/-- Strategy actions (strategy.hpp:292-395). `rejectPendingInterest` is `setExpiryTimer uid 0`; `sendNacks` is a list of
`sendNack`. -/
inductive Action
  | sendInterest (uid : Nat) (i : FwInterest) (egress : FaceId)
  | sendData (uid : Nat) (d : Data) (egress : FaceId)
  | sendDataToAll (uid : Nat) (d : Data) (inFace : FaceId)
  | sendNack (uid : Nat) (reason : Nat) (egress : FaceId)
  | sendNackPacket (i : FwInterest) (reason : Nat) (egress : FaceId)
  | setExpiryTimer (uid : Nat) (ms : Nat)
deriving DecidableEq, Repr

/-- `ForwarderCounters` (forwarder-counters.hpp), without the Content Store's. -/
structure Counters where
  nInInterests : Nat := 0
  nOutInterests : Nat := 0
  nInData : Nat := 0
  nOutData : Nat := 0
  nInNacks : Nat := 0
  nOutNacks : Nat := 0
  nSatisfied : Nat := 0
  nUnsatisfied : Nat := 0
  nUnsolicitedData : Nat := 0
  nCsHits : Nat := 0
  nCsMisses : Nat := 0
deriving DecidableEq, Repr

structure St where
  faces : FaceId → Option FaceInfo := fun _ => none
  pit : List Ent := []
  nextUid : Nat := 0
  cs : Cs.Cs
  dnl : Dnl.Dnl := Dnl.init
  sched : List Timer := []
  nextTimer : Nat := 0
  now : Time := 0
  cfg : Config := {}
  ctr : Counters := {}
  sent : List Pkt := []
  calls : List Trigger := []

abbrev Strategy := St → Trigger → List Action

/-! ### Name-based scope and duplicate nonces -/

/-- The components of `scope_prefix::LOCALHOST` and `LOCALHOP` (scope-prefix.hpp:44, 58). -/
def cLocalhost : Component := ⟨ttGeneric, [108, 111, 99, 97, 108, 104, 111, 115, 116]⟩
def cLocalhop : Component := ⟨ttGeneric, [108, 111, 99, 97, 108, 104, 111, 112]⟩
def isLocalhost (n : Name) : Bool := Name.isPrefixOf [cLocalhost] n
def isLocalhop (n : Name) : Bool := Name.isPrefixOf [cLocalhop] n

/-- The bits of `findDuplicateNonce` (algorithm.hpp:44-58, algorithm.cpp:54-82). -/
structure Dnw where
  inSame : Bool
  inOther : Bool
  outSame : Bool
  outOther : Bool

def findDuplicateNonce (e : PitEntry) (nonce : Nat) (f : FaceId) : Dnw where
  inSame := e.ins.any (fun r => r.nonce == nonce && r.face == f)
  inOther := e.ins.any (fun r => r.nonce == nonce && r.face != f)
  outSame := e.outs.any (fun r => r.nonce == nonce && r.face == f)
  outOther := e.outs.any (fun r => r.nonce == nonce && r.face != f)

/-- `hasDuplicateNonceInPit` (forwarder.cpp:142-147). -/
def isDuplicate (l : Link) (w : Dnw) : Bool :=
  let dup := w.inSame || w.inOther || w.outSame || w.outOther
  if l = .p2p then dup && !w.inSame else dup

/-- `hasPendingOutRecords` (algorithm.cpp:84-93). -/
def hasPendingOutRecords (now : Time) (e : PitEntry) : Bool := e.outs.any (fun r => now ≤ r.expiry && r.nack.isNone)

/-- `NetworkRegionTable::isInProducerRegion` (network-region-table.cpp:30-41). -/
def inProducerRegion (regions hints : List Name) : Bool := regions.any (fun r => hints.any (fun d => d.isPrefixOf r))

/-- `UnsolicitedDataPolicy::decide` (unsolicited-data-policy.cpp:71-105): whether the decision is CACHE. -/
def Unsolicited.admits (p : Unsolicited) (f : FaceInfo) : Bool :=
  match p with
  | .dropAll => false
  | .admitLocal => f.scope == .loc
  | .admitNetwork => f.scope == .nonLocal
  | .admitAll => true

/-! ### PIT access -/

/-- Following a pointer to a PIT entry. -/
def St.find (s : St) (u : Nat) : Option Ent := s.pit.find? (·.uid == u)

/-- Writing through a pointer to a PIT entry. -/
def St.mod (s : St) (u : Nat) (f : Ent → Ent) : St := { s with pit := s.pit.map fun e => if e.uid = u then f e else e }

/-- `Pit::find` (C18): the entry with these name and selectors. -/
def pitFind (s : St) (i : Interest) : Option Ent := s.pit.find? (fun e => e.interest.toInterest == i)

/-- `Pit::insert` (C18): the entry and whether it is new. -/
def pitInsert (s : St) (i : FwInterest) : St × Ent × Bool :=
  match pitFind s i.toInterest with
  | some e => (s, e, false)
  | none => ({ s with pit := s.pit ++ [{ interest := i, uid := s.nextUid }], nextUid := s.nextUid + 1 },
             { interest := i, uid := s.nextUid }, true)

/-- `Pit::findAllDataMatches` (C19). -/
def dataMatches (s : St) (d : Data) : List Ent := s.pit.filter (fun e => e.interest.matchesData d)

/-! ### Pipelines that call no strategy -/

/-- `setExpiryTimer` (forwarder.cpp:564-572). An entry that is no longer in the PIT is left alone: strategies may keep only weak
pointers (strategy.hpp:157-159). -/
def setExpiryTimer (s : St) (u : Nat) (ms : Nat) : St :=
  match s.find u with
  | none => s
  | some e =>
    { s.mod u (fun e => { e with timer := some s.nextTimer }) with
      sched := s.sched.filter (fun t => some t.id ≠ e.timer) ++ [⟨s.nextTimer, s.now + ms * 1000000, u⟩]
      nextTimer := s.nextTimer + 1 }

/-- The condition at forwarder.cpp:578-583. -/
def needDnl (env : Env) (e : Ent) : Bool :=
  if e.satisfied then e.interest.mustBeFresh && decide (e.freshness < env.dnlLifetime) else true

/-- The out-records whose nonces `insertDeadNonceList` inserts (forwarder.cpp:590-602). -/
def dnlRecords (e : Ent) : Option FaceId → List OutRec
  | none => e.outs
  | some f => (e.outs.find? (·.face == f)).toList

/-- `insertDeadNonceList` (forwarder.cpp:574-603). -/
def insertDeadNonceList (env : Env) (s : St) (u : Nat) (upstream : Option FaceId) : St :=
  match s.find u with
  | none => s
  | some e =>
    if needDnl env e then
      { s with dnl := (dnlRecords e upstream).foldl (fun d r => d.addEntry (env.hash e.interest.name r.nonce)) s.dnl }
    else s

/-- `onInterestFinalize` (forwarder.cpp:276-296). Erasing an entry that is not in the PIT is a failed assertion. -/
def onInterestFinalize (env : Env) (s : St) (u : Nat) : Option St :=
  match s.find u with
  | none => none
  | some e =>
    let s := insertDeadNonceList env s u none
    let s := if e.satisfied then { s with ctr := { s.ctr with nSatisfied := s.ctr.nSatisfied + 1 } }
      else { s with ctr := { s.ctr with nUnsatisfied := s.ctr.nUnsatisfied + 1 } }
    some { s with sched := s.sched.filter (fun t => some t.id ≠ e.timer), pit := s.pit.filter (fun x => x.uid ≠ u) }

/-- `onOutgoingInterest` (forwarder.cpp:247-274). -/
def onOutgoingInterest (s : St) (u : Nat) (i : FwInterest) (g : FaceId) : St :=
  match s.faces g, s.find u with
  | some fi, some _ =>
    if i.hopLimit = some 0 ∧ fi.scope = .nonLocal then s
    else
      { s.mod u (fun e => { e with toPitEntry := Tb.insertOrUpdateOut e.toPitEntry g i s.now }) with
        sent := s.sent ++ [.interest g i]
        ctr := { s.ctr with nOutInterests := s.ctr.nOutInterests + 1 } }
  | _, _ => s

/-- `onOutgoingData` (forwarder.cpp:408-432). A face that was removed has INVALID_FACEID. -/
def onOutgoingData (s : St) (d : Data) (g : FaceId) : St :=
  match s.faces g with
  | none => s
  | some fi =>
    if fi.scope = .nonLocal ∧ isLocalhost d.name then s
    else { s with sent := s.sent ++ [.data g d], ctr := { s.ctr with nOutData := s.ctr.nOutData + 1 } }

/-- `onOutgoingNack` (forwarder.cpp:489-532). -/
def onOutgoingNack (s : St) (u : Nat) (reason : Nat) (g : FaceId) : St :=
  match s.faces g with
  | none => s
  | some fi =>
    match (s.find u).bind (fun e => e.ins.find? (·.face == g)) with
    | none => s
    | some r =>
      if fi.link ≠ .p2p then s
      else
        { s.mod u (fun e => { e with toPitEntry := Tb.deleteIn e.toPitEntry g }) with
          sent := s.sent ++ [.nack g r.interest reason]
          ctr := { s.ctr with nOutNacks := s.ctr.nOutNacks + 1 } }

/-! ### Strategy actions -/

/-- `Strategy::sendData` (strategy.cpp:232-252). -/
def sendData (s : St) (u : Nat) (d : Data) (g : FaceId) : Option St :=
  match s.find u with
  | none => some s
  | some e =>
    if e.interest.matchesData d then
      some (onOutgoingData (s.mod u (fun e => { e with toPitEntry := Tb.deleteIn e.toPitEntry g })) d g)
    else none

def sendDataList (u : Nat) (d : Data) : St → List FaceId → Option St
  | s, [] => some s
  | s, g :: l => (sendData s u d g).bind (fun s => sendDataList u d s l)

/-- Whether Data that arrived on `f` may go back to `g` (strategy.cpp:263-266, forwarder.cpp:383-386). -/
def sendsBack (s : St) (f g : FaceId) : Bool := !(g == f && (s.faces g).any (fun fi => fi.link != .adHoc))

/-- The downstream faces of an entry that still wait (strategy.cpp:258-268). -/
def pendingDownstreams (s : St) (e : Ent) (f : FaceId) : List FaceId :=
  ((e.ins.filter (fun r => decide (s.now < r.expiry) && sendsBack s f r.face)).map (·.face)).eraseDups

/-- `Strategy::sendDataToAll` (strategy.cpp:254-274). -/
def sendDataToAll (s : St) (u : Nat) (d : Data) (f : FaceId) : Option St :=
  match s.find u with
  | none => some s
  | some e => sendDataList u d s (pendingDownstreams s e f)

/-- `Strategy::sendNack(lp::Nack, Face)` (strategy.hpp:351-358). -/
def sendNackPacket (s : St) (i : FwInterest) (reason : Nat) (g : FaceId) : St :=
  match s.faces g with
  | none => s
  | some _ => { s with sent := s.sent ++ [.nack g i reason], ctr := { s.ctr with nOutNacks := s.ctr.nOutNacks + 1 } }

def act (s : St) : Action → Option St
  | .sendInterest u i g => some (onOutgoingInterest s u i g)
  | .sendData u d g => sendData s u d g
  | .sendDataToAll u d f => sendDataToAll s u d f
  | .sendNack u r g => some (onOutgoingNack s u r g)
  | .sendNackPacket i r g => some (sendNackPacket s i r g)
  | .setExpiryTimer u ms => some (setExpiryTimer s u ms)

def acts : St → List Action → Option St
  | s, [] => some s
  | s, a :: l => (act s a).bind (fun s => acts s l)

/-- Dispatch to the effective strategy. -/
def call (st : Strategy) (s : St) (t : Trigger) : Option St := acts { s with calls := s.calls ++ [t] } (st s t)

/-! ### Interest pipelines -/

/-- forwarder.cpp:104-111 for a HopLimit other than zero. -/
def decHop (i : FwInterest) : FwInterest := { i with hopLimit := i.hopLimit.map (· - 1) }

/-- forwarder.cpp:130-136. -/
def stripHint (c : Config) (i : FwInterest) : FwInterest :=
  if i.hints ≠ [] ∧ inProducerRegion c.regions i.hints then { i with hints := [] } else i

/-- forwarder.cpp:189-192. -/
def addHop (c : Config) (i : FwInterest) : FwInterest :=
  if 0 < c.defaultHopLimit ∧ i.hopLimit = none then { i with hopLimit := some c.defaultHopLimit } else i

/-- `onInterestLoop` (forwarder.cpp:165-180). -/
def onInterestLoop (st : Strategy) (s : St) (i : FwInterest) (f : FaceId) (fi : FaceInfo) : Option St :=
  if fi.link ≠ .p2p then some s else call st s (.onInterestLoop i f)

/-- The latest expiry among the in-records (forwarder.cpp:197-201). -/
def lastExpiry (e : PitEntry) : Time := e.ins.foldl (fun m r => max m r.expiry) 0

/-- forwarder.cpp:189-203: HopLimit, in-record, expiry timer. The PIT entry of a new Interest holds the same packet object, which
the HopLimit is attached to. -/
def recordInterest (s : St) (i : FwInterest) (f : FaceId) (u : Nat) (isNew : Bool) : St :=
  let i := addHop s.cfg i
  let s := s.mod u (fun e => { e with
    toPitEntry := Tb.insertOrUpdateIn { e.toPitEntry with interest := if isNew then i else e.interest } f i s.now })
  setExpiryTimer s u (((s.find u).map (fun e => lastExpiry e.toPitEntry)).getD 0 - s.now |> (· / 1000000))

/-- `onContentStoreMiss` (forwarder.cpp:182-223). -/
def onContentStoreMiss (st : Strategy) (s : St) (i : FwInterest) (f : FaceId) (u : Nat) (isNew : Bool) : Option St :=
  let s := { s with ctr := { s.ctr with nCsMisses := s.ctr.nCsMisses + 1 } }
  let s := recordInterest s i f u isNew
  let i := addHop s.cfg i
  match i.nextHop with
  | some g => some (if (s.faces g).isSome then onOutgoingInterest s u i g else s)
  | none => call st s (.afterReceiveInterest i f u)

/-- `onContentStoreHit` (forwarder.cpp:225-245). -/
def onContentStoreHit (st : Strategy) (s : St) (d : Data) (f : FaceId) (u : Nat) : Option St :=
  let s := { s with ctr := { s.ctr with nCsHits := s.ctr.nCsHits + 1 } }
  let s := s.mod u (fun e => { e with satisfied := true, freshness := d.freshness })
  call st (setExpiryTimer s u 0) (.afterContentStoreHit d f u)

/-- forwarder.cpp:138-162. -/
def lookupInterest (st : Strategy) (s : St) (i : FwInterest) (f : FaceId) (fi : FaceInfo) : Option St :=
  let r := pitInsert s i
  let s := r.1
  if isDuplicate fi.link (findDuplicateNonce r.2.1.toPitEntry i.nonce f) then onInterestLoop st s i f fi
  else if r.2.1.ins.isEmpty then
    (s.cs.find i.toInterest).bind fun c =>
      match c.2 with
      | some d => onContentStoreHit st { s with cs := c.1 } d f r.2.1.uid
      | none => onContentStoreMiss st { s with cs := c.1 } i f r.2.1.uid r.2.2
  else onContentStoreMiss st s i f r.2.1.uid r.2.2

/-- `onIncomingInterest` (forwarder.cpp:89-163). Only faces in the face table deliver packets (forwarder.cpp:59-76). -/
def onIncomingInterest (env : Env) (st : Strategy) (s : St) (i : FwInterest) (f : FaceId) : Option St :=
  match s.faces f with
  | none => some s
  | some fi =>
    let s := { s with ctr := { s.ctr with nInInterests := s.ctr.nInInterests + 1 } }
    if i.hopLimit = some 0 then some s
    else
      let i := decHop i
      if fi.scope = .nonLocal ∧ isLocalhost i.name then some s
      else if s.dnl.has env.hash i.name i.nonce then onInterestLoop st s i f fi
      else lookupInterest st s (stripHint s.cfg i) f fi

/-! ### Data pipelines -/

/-- `onDataUnsolicited` (forwarder.cpp:393-406). -/
def onDataUnsolicited (s : St) (d : Data) (fi : FaceInfo) : Option St :=
  let s := { s with ctr := { s.ctr with nUnsolicitedData := s.ctr.nUnsolicitedData + 1 } }
  if s.cfg.unsolicited.admits fi then (s.cs.insert d true).map (fun c => { s with cs := c }) else some s

/-- forwarder.cpp:337-345 for one entry. -/
def satisfyEntry (env : Env) (s : St) (d : Data) (f : FaceId) (u : Nat) : St :=
  let s := s.mod u (fun e => { e with satisfied := true, freshness := d.freshness })
  let s := insertDeadNonceList env s u (some f)
  s.mod u (fun e => { e with toPitEntry := Tb.deleteOut e.toPitEntry f })

/-- forwarder.cpp:326-346: exactly one entry matches. -/
def satisfyOne (env : Env) (st : Strategy) (s : St) (d : Data) (f : FaceId) (u : Nat) : Option St :=
  (call st (setExpiryTimer s u 0) (.afterReceiveData d f u)).map (fun s => satisfyEntry env s d f u)

/-- The body of the loop at forwarder.cpp:353-380: the waiting faces are collected, the entry is satisfied and its in-records
are cleared. -/
def satisfyStep (env : Env) (st : Strategy) (s : St) (d : Data) (f : FaceId) (u : Nat) (acc : List FaceId) :
    Option (St × List FaceId) :=
  let acc := acc ++ (((s.find u).map (fun e => (e.ins.filter (fun r => decide (s.now < r.expiry))).map (·.face))).getD [])
  (call st (setExpiryTimer s u 0) (.beforeSatisfyInterest d f u)).map fun s =>
    let s := s.mod u (fun e => { e with satisfied := true, freshness := d.freshness })
    let s := insertDeadNonceList env s u (some f)
    (s.mod u (fun e => { e with toPitEntry := Tb.deleteOut (Tb.clearIns e.toPitEntry) f }), acc)

def satisfyAll (env : Env) (st : Strategy) (d : Data) (f : FaceId) : St → List Nat → List FaceId → Option (St × List FaceId)
  | s, [], acc => some (s, acc)
  | s, u :: us, acc => (satisfyStep env st s d f u acc).bind (fun r => satisfyAll env st d f r.1 us r.2)

/-- forwarder.cpp:349-390: several entries match. The set of faces is a `std::set`. -/
def satisfyMany (env : Env) (st : Strategy) (s : St) (d : Data) (f : FaceId) (us : List Nat) : Option St :=
  (satisfyAll env st d f s us []).map fun r =>
    (r.2.eraseDups.filter (sendsBack r.1 f)).foldl (fun s g => onOutgoingData s d g) r.1

/-- `onIncomingData` (forwarder.cpp:298-391). -/
def onIncomingData (env : Env) (st : Strategy) (s : St) (d : Data) (f : FaceId) : Option St :=
  match s.faces f with
  | none => some s
  | some fi =>
    let s := { s with ctr := { s.ctr with nInData := s.ctr.nInData + 1 } }
    if fi.scope = .nonLocal ∧ isLocalhost d.name then some s
    else
      match (dataMatches s d).map (·.uid) with
      | [] => onDataUnsolicited s d fi
      | [u] => (s.cs.insert d false).bind (fun c => satisfyOne env st { s with cs := c } d f u)
      | us => (s.cs.insert d false).bind (fun c => satisfyMany env st { s with cs := c } d f us)

/-! ### Nack pipeline -/

/-- forwarder.cpp:477-486 -/
def acceptNack (st : Strategy) (s : St) (i : FwInterest) (reason : Nat) (f : FaceId) (u : Nat) : Option St :=
  let s := s.mod u (fun e => { e with toPitEntry := Tb.setNack e.toPitEntry f i.nonce reason })
  let s := if (s.find u).any (fun e => hasPendingOutRecords s.now e.toPitEntry) then s else setExpiryTimer s u 0
  call st s (.afterReceiveNack i reason f u)

/-- `onIncomingNack` (forwarder.cpp:434-487). `Pit::find` of the packet carried in the Nack. -/
def onIncomingNack (st : Strategy) (s : St) (i : FwInterest) (reason : Nat) (f : FaceId) : Option St :=
  match s.faces f with
  | none => some s
  | some fi =>
    let s := { s with ctr := { s.ctr with nInNacks := s.ctr.nInNacks + 1 } }
    if fi.link ≠ .p2p then some s
    else
      match pitFind s i.toInterest with
      | none => some s
      | some e =>
        match e.outs.find? (·.face == f) with
        | none => some s
        | some r => if i.nonce ≠ r.nonce then some s else acceptNack st s i reason f e.uid

/-! ### Other events -/

/-- `onNewNextHop` (forwarder.cpp:541-562), for a list of affected entries. -/
def onNewNextHop (st : Strategy) (nh : NextHop) : St → List Nat → Option St
  | s, [] => some s
  | s, u :: us => (call st s (.afterNewNextHop nh u)).bind (fun s => onNewNextHop st nh s us)

/-- A scheduler event fires; not before its time, and at most once. -/
def fire (env : Env) (s : St) (id : Nat) : Option St :=
  match s.sched.find? (·.id == id) with
  | none => some s
  | some t =>
    if t.due ≤ s.now then onInterestFinalize env { s with sched := s.sched.filter (fun t => t.id ≠ id) } t.uid else some s

/-- Everything that can happen to a forwarder. -/
inductive Event
  | interest (i : FwInterest) (f : FaceId)
  | data (d : Data) (f : FaceId)
  | nack (i : FwInterest) (reason : Nat) (f : FaceId)
  | dropped (i : FwInterest) (f : FaceId)
  | newNextHop (nh : NextHop) (uids : List Nat)
  | async
  | fire (id : Nat)
  | tick (dt : Time)
  | addFace (f : FaceId) (info : FaceInfo)
  | removeFace (f : FaceId)
  | config (c : Config)
  | cs (op : Cs.Op)
  | dnl (op : Dnl.Op)

/-- Face removal as far as the forwarder is concerned (face-table.cpp:88-106, forwarder.cpp:78-80, C24). -/
def removeFace (s : St) (f : FaceId) : St :=
  { s with
    pit := s.pit.map (fun e => { e with toPitEntry := Tb.deleteInOut e.toPitEntry f })
    faces := fun g => if g = f then none else s.faces g }

def step (env : Env) (st : Strategy) (s : St) : Event → Option St
  | .interest i f => onIncomingInterest env st s i f
  | .data d f => onIncomingData env st s d f
  | .nack i r f => onIncomingNack st s i r f
  | .dropped i f => if (s.faces f).isSome then call st s (.onDroppedInterest i f) else some s
  | .newNextHop nh us => onNewNextHop st nh s us
  | .async => call st s .async
  | .fire id => fire env s id
  | .tick dt => some { s with now := s.now + dt, cs := s.cs.tick dt }
  | .addFace f info => some (if (s.faces f).isSome then s else { s with faces := fun g => if g = f then some info else s.faces g })
  | .removeFace f => some (removeFace s f)
  | .config c => some { s with cfg := c }
  | .cs op => (s.cs.step op).map (fun r => { s with cs := r.1 })
  | .dnl op => some { s with dnl := Dnl.Dnl.step env.hash s.dnl op }

/-- A history: events together with the strategies that react to them. -/
def run (env : Env) : St → List (Strategy × Event) → Option St
  | s, [] => some s
  | s, x :: l => (step env x.1 s x.2).bind (fun s => run env s l)

/-- A forwarder after construction (forwarder.cpp:51-87). -/
def init (csLimit : Nat) : St := { cs := Cs.init csLimit }

end Verif.Fw
