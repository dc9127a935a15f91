import Verif.Fw.Model

/-
Model of the forwarding strategies supplied with NFD (daemon/fw/*-strategy.cpp) and of what they share: eligibility of next hops
(algorithm.cpp), retransmission suppression (retx-suppression-exponential.cpp, -fixed.cpp), Nack processing (process-nack-traits.cpp).

A strategy is a `Fw.Strategy`: a function from the forwarder's state and the trigger to a list of actions. What a strategy remembers
or draws at random is a parameter of that function, as is the FIB entry that `lookupFib` found (`nhs`; see Strat/Lookup.lean), so that
statements about one event hold whatever happened before. How the remembered values evolve is modelled by the functions that
return their new value.

`none` is a failed assertion. FIB entries refer to faces that exist (C24); a next hop whose face does not exist is not eligible here.
Not modelled: logging, PIT tokens, tags, and in Strat/Asf the RTT estimator of ndn-cxx.
-/
namespace Verif.Strat

open Fw (FaceInfo St Ent Action Trigger Strategy isLocalhost isLocalhop hasPendingOutRecords)
open Tb (FaceId Time FwInterest InRec OutRec PitEntry NextHop)

/-- NackReason::DUPLICATE, NackReason::NO_ROUTE -/
abbrev nackDuplicate : Nat := 100
abbrev nackNoRoute : Nat := 150

/-! ### Eligible next hops -/

/-- `wouldViolateScope` (algorithm.cpp:32-52) -/
def wouldViolateScope (inFace : FaceInfo) (n : Name) (outFace : FaceInfo) : Bool :=
  if outFace.scope = .loc then false
  else if isLocalhost n then true
  else if isLocalhop n then decide (inFace.scope ≠ .loc)
  else false

/-- `pit::Entry::findOutRecord` (pit-entry.cpp:102-107) -/
def findOut (e : PitEntry) (g : FaceId) : Option OutRec := e.outs.find? (·.face == g)

/-- `isNextHopEligible` (algorithm.cpp:130-152) -/
def isNextHopEligible (s : St) (f : FaceId) (i : FwInterest) (nh : NextHop) (e : PitEntry) (wantUnused : Bool := false) : Bool :=
  match s.faces f, s.faces nh.face with
  | some fi, some gi =>
    if (nh.face = f ∧ gi.link ≠ .adHoc) ∨ wouldViolateScope fi i.name gi = true then false
    else if wantUnused then !(findOut e nh.face).any (fun r => decide (s.now < r.expiry))
    else true
  | _, _ => false

/-- `getLastOutgoing` (algorithm.cpp:95-106) -/
def lastOutgoing (e : PitEntry) : Option Time := (e.outs.map (·.renewed)).max?

/-- The loop of `findEligibleNextHopWithEarliestOutRecord` (algorithm.cpp:108-128); `best` is `found` with `earliestRenewed`. -/
def earliestLoop (s : St) (f : FaceId) (i : FwInterest) (e : PitEntry) :
    List NextHop → Option (NextHop × Time) → Option (Option NextHop)
  | [], best => some (best.map (·.1))
  | nh :: l, best =>
    if isNextHopEligible s f i nh e then
      match findOut e nh.face with
      | none => none
      | some r => earliestLoop s f i e l (if best.all (fun b => decide (r.renewed < b.2)) then some (nh, r.renewed) else best)
    else earliestLoop s f i e l best

def findEligibleNextHopWithEarliestOutRecord (s : St) (f : FaceId) (i : FwInterest) (nhs : List NextHop) (e : PitEntry) :
    Option (Option NextHop) :=
  earliestLoop s f i e nhs none

/-! ### Retransmission suppression -/

/-- `RetxSuppressionExponential` (retx-suppression-exponential.hpp:40-95). `grow x` stands for `duration_cast<milliseconds>(x * m_multiplier)`,
computed with a `float`; intervals are in milliseconds. -/
structure Retx where
  initial : Nat := 10
  max : Nat := 250
  grow : Nat → Nat := fun x => x * 2

/-- What the constructor checks (retx-suppression-exponential.cpp:62-70). Multiplying by at least 1 does not make an interval shorter
(exact for intervals up to 2^24 ms, where `float` represents integers exactly). -/
structure Retx.Valid (c : Retx) : Prop where
  pos : 0 < c.initial
  le : c.initial ≤ c.max
  grow : ∀ x, x ≤ c.grow x

inductive Decision | new | forward | suppress
deriving DecidableEq, Repr

/-- `std::min(m_maxInterval, ...)` (retx-suppression-exponential.cpp:92-93, 126-127) -/
def Retx.next (c : Retx) (w : Nat) : Nat := min c.max (c.grow w)

/-- `decidePerPitEntry` (retx-suppression-exponential.cpp:73-96); `w` is the interval stored with the PIT entry. -/
def Retx.decidePerPitEntry (c : Retx) (now : Time) (e : PitEntry) (w : Option Nat) : Option (Decision × Option Nat) :=
  if hasPendingOutRecords now e then
    match lastOutgoing e with
    | none => none
    | some t =>
      if now - t < w.getD c.initial * 1000000 then some (.suppress, some (w.getD c.initial))
      else some (.forward, some (c.next (w.getD c.initial)))
  else some (.new, w)

/-- `decidePerUpstream` (retx-suppression-exponential.cpp:98-120); `w` is the interval stored with the out-record. -/
def Retx.decidePerUpstream (c : Retx) (now : Time) (e : PitEntry) (g : FaceId) (w : Option Nat) : Decision × Option Nat :=
  match findOut e g with
  | none => (.new, w)
  | some r =>
    if now - r.renewed < w.getD c.initial * 1000000 then (.suppress, some (w.getD c.initial)) else (.forward, some (w.getD c.initial))

/-- `incrementIntervalForOutRecord` (retx-suppression-exponential.cpp:122-128) -/
def Retx.increment (c : Retx) (w : Option Nat) : Option Nat := some (c.next (w.getD c.initial))

/-- `RetxSuppressionFixed::decidePerPitEntry` (retx-suppression-fixed.cpp:37-50); the interval in milliseconds. -/
def fixedDecide (interval : Nat) (now : Time) (e : PitEntry) : Option Decision :=
  if hasPendingOutRecords now e then
    match lastOutgoing e with
    | none => none
    | some t => some (if now - t < interval * 1000000 then .suppress else .forward)
  else some .new

/-! ### Nacks -/

/-- NackReason::NONE and ndn-cxx's `isLessSevere`. -/
abbrev nackNone : Nat := 0
def isLessSevere (x y : Nat) : Bool := if x = nackNone then false else if y = nackNone then true else decide (x < y)

/-- The loop of `processNack` (process-nack-traits.cpp:40-51): out-records not Nacked, the last of them, least severe reason. -/
def nackLoop : List OutRec → Nat × Option FaceId × Nat → Nat × Option FaceId × Nat
  | [], x => x
  | r :: l, (n, last, reason) =>
    match r.nack with
    | none => nackLoop l (n + 1, some r.face, reason)
    | some x => nackLoop l (n, last, if isLessSevere x reason then x else reason)

/-- `Strategy::sendNacks` (strategy.cpp:276-296); downstreams in unspecified order. -/
def sendNacks (e : PitEntry) (u reason : Nat) : List Action :=
  ((e.ins.map (·.face)).eraseDups).map (fun g => .sendNack u reason g)

/-- `ProcessNackTraitsBase::processNack` (process-nack-traits.cpp:33-76). -/
def processNack (e : PitEntry) (u : Nat) : Option (List Action) :=
  let x := nackLoop e.outs (0, none, nackNone)
  if x.1 = 1 then
    match x.2.1 with
    | none => none
    | some g =>
      if e.ins.any (·.face == g) then some [.sendNack u x.2.2 g] else some []
  else if 0 < x.1 then some []
  else some (sendNacks e u x.2.2)

/-! ### Common parts of strategies -/

/-- The default reactions (strategy.cpp:176-219). -/
def defaults (t : Trigger) : List Action :=
  match t with
  | .onInterestLoop i f => [.sendNackPacket i nackDuplicate f]
  | .afterContentStoreHit d f u => [.sendData u d f]
  | .afterReceiveData d f u => [.sendDataToAll u d f]
  | _ => []

/-- `afterReceiveNack` of best-route, random and ASF. -/
def onNack (s : St) (u : Nat) : List Action := ((s.find u).bind (fun e => processNack e.toPitEntry u)).getD []

/-- NoRoute Nack and rejection (e.g. best-route-strategy.cpp:82-85). -/
def noRoute (f : FaceId) (u : Nat) : List Action := [.sendNack u nackNoRoute f, .setExpiryTimer u 0]

/-! ### Best route -/

/-- `BestRouteStrategy::afterReceiveInterest` (best-route-strategy.cpp:59-118): the actions and the new suppression interval. -/
def bestRoute (c : Retx) (nhs : List NextHop) (w : Option Nat) (s : St) (e : PitEntry) (i : FwInterest) (f : FaceId) (u : Nat) :
    Option (List Action × Option Nat) :=
  (c.decidePerPitEntry s.now e w).bind fun d =>
    match d.1 with
    | .suppress => some ([], d.2)
    | .new =>
      match nhs.find? (fun nh => isNextHopEligible s f i nh e) with
      | none => some (noRoute f u, d.2)
      | some nh => some ([.sendInterest u i nh.face], d.2)
    | .forward =>
      match nhs.find? (fun nh => isNextHopEligible s f i nh e true) with
      | some nh => some ([.sendInterest u i nh.face], d.2)
      | none => (findEligibleNextHopWithEarliestOutRecord s f i nhs e).map fun r =>
          match r with
          | none => ([], d.2)
          | some nh => ([.sendInterest u i nh.face], d.2)

/-- Best-route as a strategy. -/
def bestRouteS (c : Retx) (nhs : List NextHop) (w : Option Nat) : Strategy := fun s t =>
  match t with
  | .afterReceiveInterest i f u => (((s.find u).bind (fun e => bestRoute c nhs w s e.toPitEntry i f u)).map (·.1)).getD []
  | .afterReceiveNack _ _ _ u => onNack s u
  | t => defaults t

/-! ### Multicast -/

/-- Whether `sendInterest` returns an out-record (forwarder.cpp:256-261). -/
def sends (s : St) (i : FwInterest) (g : FaceId) : Bool :=
  (s.faces g).any (fun gi => !decide (i.hopLimit = some 0 ∧ gi.scope = .nonLocal))

/-- The loop of `MulticastStrategy::afterReceiveInterest` (multicast-strategy.cpp:60-86), on the forwarder's state and the intervals stored
with the out-records. -/
def multicastLoop (c : Retx) (i : FwInterest) (f : FaceId) (u : Nat) :
    List NextHop → St → (FaceId → Option Nat) → St × (FaceId → Option Nat)
  | [], s, w => (s, w)
  | nh :: l, s, w =>
    match s.find u with
    | none => (s, w)
    | some e =>
      let d := c.decidePerUpstream s.now e.toPitEntry nh.face (w nh.face)
      let w1 := fun g => if g = nh.face then d.2 else w g
      if d.1 = .suppress ∨ isNextHopEligible s f i nh e.toPitEntry = false then multicastLoop c i f u l s w1
      else
        multicastLoop c i f u l (Fw.onOutgoingInterest s u i nh.face)
          (fun g => if g = nh.face ∧ sends s i nh.face = true ∧ d.1 = .forward then c.increment d.2 else w1 g)

/-- The next hops the loop sends to, decided on the state before the loop (C37 proves the loop does the same). -/
def multicastTargets (c : Retx) (nhs : List NextHop) (w : FaceId → Option Nat) (s : St) (e : PitEntry) (i : FwInterest) (f : FaceId) :
    List NextHop :=
  nhs.filter (fun nh => decide ((c.decidePerUpstream s.now e nh.face (w nh.face)).1 ≠ .suppress) && isNextHopEligible s f i nh e)

/-- `MulticastStrategy::afterNewNextHop` (multicast-strategy.cpp:88-109) -/
def multicastNewNextHop (s : St) (e : PitEntry) (nh : NextHop) (u : Nat) : List Action :=
  if e.ins.any (fun r => isNextHopEligible s r.face e.interest nh e) then [.sendInterest u e.interest nh.face] else []

/-- Multicast as a strategy; looping Interests are ignored (multicast-strategy.hpp:50-55). -/
def multicastS (c : Retx) (nhs : List NextHop) (w : FaceId → Option Nat) : Strategy := fun s t =>
  match t with
  | .afterReceiveInterest i f u =>
    ((s.find u).map (fun e => (multicastTargets c nhs w s e.toPitEntry i f).map (fun nh => Action.sendInterest u i nh.face))).getD []
  | .afterNewNextHop nh u => ((s.find u).map (fun e => multicastNewNextHop s e.toPitEntry nh u)).getD []
  | .onInterestLoop .. => []
  | t => defaults t

/-! ### Random -/

/-- `RandomStrategy::afterReceiveInterest` (random-strategy.cpp:58-79); `k` selects the element that the shuffle put first. -/
def randomS (nhs : List NextHop) (k : Nat) : Strategy := fun s t =>
  match t with
  | .afterReceiveInterest i f u =>
    match s.find u with
    | none => []
    | some e =>
      let l := nhs.filter (fun nh => isNextHopEligible s f i nh e.toPitEntry)
      match l[k % l.length]? with
      | none => noRoute f u
      | some nh => [.sendInterest u i nh.face]
  | .afterReceiveNack _ _ _ u => onNack s u
  | t => defaults t

/-! ### Access -/

/-- `AccessStrategy::multicast` (access-strategy.cpp:186-205); `exceptFace` 0 is INVALID_FACEID. -/
def accessTargets (s : St) (nhs : List NextHop) (i : FwInterest) (f : FaceId) (exceptFace : FaceId) : List NextHop :=
  nhs.filter fun nh =>
    match s.faces f, s.faces nh.face with
    | some fi, some gi => !(nh.face == f || nh.face == exceptFace || wouldViolateScope fi i.name gi)
    | _, _ => false

/-- `sendToLastNexthop` up to the call of `sendInterest` (access-strategy.cpp:114-142). -/
def lastNexthopUsable (s : St) (nhs : List NextHop) (i : FwInterest) (f last : FaceId) : Bool :=
  last ≠ 0 && last ≠ f &&
  match s.faces f, s.faces last with
  | some fi, some gi => nhs.any (·.face == last) && !wouldViolateScope fi i.name gi
  | _, _ => false

/-- `AccessStrategy` (access-strategy.cpp:59-205); `last` is the last working next hop according to the measurements of the
Interest's prefix, if there are any. Suppression is `RetxSuppressionFixed` with 100 ms (access-strategy.hpp:172). -/
def accessInterest (nhs : List NextHop) (last : Option FaceId) (s : St) (e : PitEntry) (i : FwInterest) (f : FaceId) (u : Nat) :
    Option (List Action) :=
  let all := accessTargets s nhs i f 0
  let flood := all.map (fun nh => Action.sendInterest u i nh.face)
  (fixedDecide 100 s.now e).map fun d =>
    match d with
    | .suppress => []
    | .forward => flood
    | .new =>
      match last with
      | some g =>
        if lastNexthopUsable s nhs i f g then
          if sends s i g then [.sendInterest u i g]
          else .sendInterest u i g :: flood ++ (if all.any (fun nh => sends s i nh.face) then [] else [.setExpiryTimer u 0])
        else flood ++ (if all.any (fun nh => sends s i nh.face) then [] else [.setExpiryTimer u 0])
      | none => flood ++ (if all.any (fun nh => sends s i nh.face) then [] else [.setExpiryTimer u 0])

/-- `afterRtoTimeout` (access-strategy.cpp:158-184), in the state where the timer fires. `none` is the failed assertion that the
in-record still exists. -/
def accessRto (nhs : List NextHop) (s : St) (u : Nat) (f first : FaceId) : Option (List Action) :=
  match s.find u, s.faces f with
  | none, _ => some []
  | _, none => some []
  | some e, some _ =>
    match e.ins.find? (·.face == f) with
    | none => none
    | some r => some ((accessTargets s nhs r.interest f first).map (fun nh => .sendInterest u r.interest nh.face))

/-- Access as a strategy; `rto` is the RTO timer that fires in an `async` event. -/
def accessS (nhs : List NextHop) (last : Option FaceId) (rto : Option (Nat × FaceId × FaceId)) : Strategy := fun s t =>
  match t with
  | .afterReceiveInterest i f u => ((s.find u).bind (fun e => accessInterest nhs last s e.toPitEntry i f u)).getD []
  | .async => (rto.bind (fun x => accessRto nhs s x.1 x.2.1 x.2.2)).getD []
  | t => defaults t

/-! ### Self-learning -/

/-- `broadcastInterest` (self-learning-strategy.cpp:146-163); `table` are the faces in the face table, in its iteration order. -/
def broadcastTargets (s : St) (table : List FaceId) (i : FwInterest) (f : FaceId) : List FaceId :=
  table.filter fun g =>
    match s.faces f, s.faces g with
    | some fi, some gi => !((g == f && gi.link != .adHoc) || wouldViolateScope fi i.name gi || gi.scope == .loc)
    | _, _ => false

/-- `SelfLearningStrategy::afterReceiveInterest` (self-learning-strategy.cpp:68-100); `nd` is the NonDiscovery tag. -/
def selfLearningInterest (nhs : List NextHop) (table : List FaceId) (nd : Bool) (s : St) (e : PitEntry) (i : FwInterest) (f : FaceId)
    (u : Nat) : List Action :=
  if nhs.isEmpty then
    if nd then noRoute f u else (broadcastTargets s table i f).map (fun g => .sendInterest u i g)
  else (nhs.filter (fun nh => isNextHopEligible s f i nh e)).map (fun nh => .sendInterest u i nh.face)

/-- How Data is handled (self-learning-strategy.cpp:102-130): `noOut` no out-record for the arrival face; `later` a prefix announcement is
looked up first, and the Data is sent from a later event. -/
inductive SlData | now | later
deriving DecidableEq, Repr

/-- `afterReceiveNack` (self-learning-strategy.cpp:132-144): `none` is the failed assertion that the FIB entry has next hops. -/
def selfLearningNack (nhs : List NextHop) (e : PitEntry) (reason u : Nat) : Option (List Action) :=
  if reason = nackNoRoute then (if nhs.isEmpty then none else some (sendNacks e u reason)) else some []

/-- Self-learning as a strategy; `pending` is the Data (with entry and arrival face) whose announcement lookup completes in an `async`
event (self-learning-strategy.cpp:184-214). -/
def selfLearningS (nhs : List NextHop) (table : List FaceId) (nd : Bool) (dd : SlData) (pending : Option (Nat × Data × FaceId)) :
    Strategy := fun s t =>
  match t with
  | .afterReceiveInterest i f u => ((s.find u).map (fun e => selfLearningInterest nhs table nd s e.toPitEntry i f u)).getD []
  | .afterReceiveData d f u =>
    match (s.find u).bind (fun e => findOut e.toPitEntry f) with
    | none => []
    | some _ => match dd with
      | .now => [.sendDataToAll u d f]
      | .later => [.setExpiryTimer u 1000]
  | .afterReceiveNack _ reason _ u => ((s.find u).bind (fun e => selfLearningNack nhs e.toPitEntry reason u)).getD []
  | .async =>
    match pending with
    | some (u, d, f) => if (s.find u).isSome ∧ (s.faces f).isSome then [.sendDataToAll u d f, .setExpiryTimer u 0] else []
    | none => []
  | t => defaults t

end Verif.Strat
