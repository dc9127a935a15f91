import Verif.Strat.Model

/-
Model of the ASF strategy (daemon/fw/asf-strategy.cpp, asf-probing-module.cpp, asf-measurements.cpp). Which measurements belong to the
Interest's namespace is a parameter (`info`); how the measurements of one face in one namespace evolve is `FaceMeas` below.
Not modelled: the RTT estimator of ndn-cxx (its smoothed RTT is an arbitrary value), the probability with which a face is chosen for a
probe (any face of the ranking may be chosen; `k`), and rounding in that choice.
-/
namespace Verif.Strat

open Fw (St Ent Action Trigger Strategy hasPendingOutRecords)
open Tb (FaceId Time FwInterest PitEntry NextHop)

/-- FaceInfo::RTT_NO_MEASUREMENT, FaceInfo::RTT_TIMEOUT (asf-measurements.hpp:103-104), nanoseconds::max() -/
abbrev rttNoMeasurement : Int := -1
abbrev rttTimeout : Int := -2
abbrev nsMax : Int := 9223372036854775807

/-- `FaceInfo` (asf-measurements.hpp:39-116) without the estimator: `pending` is the Interest name for which `m_timeoutEvent` is
scheduled. -/
structure FaceMeas where
  lastRtt : Int := rttNoMeasurement
  srtt : Int := rttNoMeasurement
  lastInterestName : Name := []
  scheduled : Bool := false
  nTimeouts : Nat := 0
deriving DecidableEq, Repr

/-! ### Ranking -/

/-- `FaceStats` (asf-probing-module.hpp) -/
structure FaceStats where
  face : FaceId
  rtt : Int
  srtt : Int
  cost : Nat
deriving DecidableEq, Repr

structure Rank where
  priority : Nat
  srtt : Int
  cost : Nat
  face : Nat
deriving DecidableEq, Repr

/-- `operator<` of the tuple -/
def Rank.lt (a b : Rank) : Bool :=
  decide (a.priority < b.priority ∨ (a.priority = b.priority ∧ (a.srtt < b.srtt ∨ (a.srtt = b.srtt ∧
    (a.cost < b.cost ∨ (a.cost = b.cost ∧ a.face < b.face))))))

/-- `getFaceRankForForwarding` (asf-strategy.cpp:230-263) -/
def forwardingRank (x : FaceStats) : Rank :=
  let p := if x.rtt = rttNoMeasurement then 2 else if x.rtt = rttTimeout then 3 else 1
  ⟨p, if p = 1 then x.srtt else nsMax, x.cost, x.face⟩

/-- `getFaceRankForProbing` (asf-probing-module.cpp:63-96) -/
def probingRank (x : FaceStats) : Rank :=
  let p := if x.rtt = rttNoMeasurement then 1 else if x.rtt = rttTimeout then 3 else 2
  ⟨p, if p = 2 then x.srtt else nsMax, x.cost, x.face⟩

/-- Insertion into a `std::set` ordered by rank. -/
def insertRanked (rank : FaceStats → Rank) (x : FaceStats) : List FaceStats → List FaceStats
  | [] => [x]
  | y :: l =>
    if (rank x).lt (rank y) then x :: y :: l
    else if (rank y).lt (rank x) then y :: insertRanked rank x l
    else y :: l

def ranked (rank : FaceStats → Rank) (l : List FaceStats) : List FaceStats := l.foldl (fun acc x => insertRanked rank x acc) []

/-- What `getBestFaceForForwarding` puts into the set (asf-strategy.cpp:284-293). -/
def statsOf (info : FaceId → Option FaceMeas) (nh : NextHop) : FaceStats :=
  match info nh.face with
  | none => ⟨nh.face, rttNoMeasurement, rttNoMeasurement, nh.cost⟩
  | some m => ⟨nh.face, m.lastRtt, m.srtt, nh.cost⟩

/-- What `getFaceToProbe` puts into the set (asf-probing-module.cpp:161-169). -/
def probeStatsOf (info : FaceId → Option FaceMeas) (nh : NextHop) : FaceStats :=
  match info nh.face with
  | none => ⟨nh.face, rttNoMeasurement, rttNoMeasurement, nh.cost⟩
  | some m => if m.lastRtt = rttNoMeasurement then ⟨nh.face, rttNoMeasurement, rttNoMeasurement, nh.cost⟩ else ⟨nh.face, m.lastRtt, m.srtt, nh.cost⟩

/-- `getBestFaceForForwarding` (asf-strategy.cpp:270-302) -/
def bestFace (info : FaceId → Option FaceMeas) (s : St) (e : PitEntry) (i : FwInterest) (f : FaceId) (nhs : List NextHop) (isNew : Bool) :
    Option FaceId :=
  ((ranked forwardingRank ((nhs.filter (fun nh => isNextHopEligible s f i nh e (!isNew))).map (statsOf info))).head?).map (·.face)

/-- The next hops that can be probed (asf-probing-module.cpp:151-160). -/
def probeCandidates (s : St) (i : FwInterest) (f used : FaceId) (nhs : List NextHop) : List NextHop :=
  nhs.filter fun nh =>
    match s.faces f, s.faces nh.face with
    | some fi, some gi => !(nh.face == f || nh.face == used || wouldViolateScope fi i.name gi)
    | _, _ => false

/-- `getFaceToProbe` (asf-probing-module.cpp:143-189) with `chooseFace` (104-141), which returns some element of the ranking. -/
def faceToProbe (info : FaceId → Option FaceMeas) (s : St) (i : FwInterest) (f used : FaceId) (nhs : List NextHop) (k : Nat) : Option FaceId :=
  let l := ranked probingRank ((probeCandidates s i f used nhs).map (probeStatsOf info))
  match l with
  | [] => none
  | x :: _ => if x.rtt = rttNoMeasurement then some x.face else (l[k % l.length]?).map (·.face)

/-! ### Reactions -/

/-- A probe is due (`isProbingNeeded`); the random choice; the nonce of `refreshNonce`. -/
structure Probe where
  due : Bool
  k : Nat
  nonce : Nat

/-- `sendProbe` (asf-strategy.cpp:210-228) -/
def sendProbe (info : FaceId → Option FaceMeas) (p : Probe) (nhs : List NextHop) (s : St) (i : FwInterest) (f used : FaceId) (u : Nat) :
    List Action :=
  if p.due then
    match faceToProbe info s i f used nhs p.k with
    | none => []
    | some g => [.sendInterest u { i with nonce := p.nonce } g]
  else []

/-- `AsfStrategy::afterReceiveInterest` (asf-strategy.cpp:76-138): the actions and the new suppression intervals. `none` is the failed
assertion in `findEligibleNextHopWithEarliestOutRecord`. -/
def asfInterest (c : Retx) (info : FaceId → Option FaceMeas) (p : Probe) (nhs : List NextHop) (w : FaceId → Option Nat) (s : St) (e : PitEntry)
    (i : FwInterest) (f : FaceId) (u : Nat) : Option (List Action × (FaceId → Option Nat)) :=
  let retx := fun g =>
    let d := c.decidePerUpstream s.now e g (w g)
    let w1 := fun x => if x = g then d.2 else w x
    if d.1 = .suppress then ([], w1)
    else ([.sendInterest u i g], fun x => if x = g ∧ sends s i g = true ∧ d.1 = .forward then c.increment d.2 else w1 x)
  if hasPendingOutRecords s.now e then
    match bestFace info s e i f nhs false with
    | some g => some (retx g)
    | none =>
      (findEligibleNextHopWithEarliestOutRecord s f i nhs e).map fun x =>
        match x with
        | none => ([], w)
        | some nh => retx nh.face
  else
    match bestFace info s e i f nhs true with
    | none => some (noRoute f u, w)
    | some g => some (.sendInterest u i g :: sendProbe info p nhs s i f g u, w)

/-- `beforeSatisfyInterest` (asf-strategy.cpp:140-172) extends the timer if there are measurements of the face. -/
def asfSatisfy (known : FaceId → Bool) (f : FaceId) (u : Nat) : List Action := if known f then [.setExpiryTimer u 50] else []

/-- ASF as a strategy; `known` are the faces with measurements in the namespace of the Data's Interest. -/
def asfS (c : Retx) (info : FaceId → Option FaceMeas) (known : FaceId → Bool) (p : Probe) (nhs : List NextHop) (w : FaceId → Option Nat) : Strategy :=
  fun s t =>
  match t with
  | .afterReceiveInterest i f u => (((s.find u).bind (fun e => asfInterest c info p nhs w s e.toPitEntry i f u)).map (·.1)).getD []
  | .afterReceiveNack _ _ _ u => onNack s u
  | .beforeSatisfyInterest _ f u => asfSatisfy known f u
  | .afterReceiveData d f u => asfSatisfy known f u ++ [.sendDataToAll u d f]
  | t => defaults t

/-! ### Measurements of a face -/

/-- What happens to the measurements of one face in one namespace. -/
inductive MeasEv
  /-- `forwardInterest` (asf-strategy.cpp:183-208) with this Interest name -/
  | forward (n : Name)
  /-- `beforeSatisfyInterest` (asf-strategy.cpp:140-172): Data of this name from the face; with an out-record, the RTT and the new smoothed RTT -/
  | data (n : Name) (rtt : Option (Nat × Int))
  /-- `onTimeoutOrNack` (asf-strategy.cpp:304-342) called for a Nack -/
  | nack (n : Name)
  /-- the timeout event fires -/
  | fire
  /-- `m_measurementExpiration` fires: the measurements are erased (asf-measurements.cpp:71-76) -/
  | expire
deriving DecidableEq, Repr

/-- `cancelTimeout` (asf-measurements.cpp:40-46) -/
def FaceMeas.cancelTimeout (m : FaceMeas) (n : Name) : FaceMeas :=
  if m.lastInterestName.isPrefixOf n then { m with scheduled := false } else m

/-- `onTimeoutOrNack` (asf-strategy.cpp:322-341), `recordTimeout` (asf-measurements.hpp:70-75) -/
def FaceMeas.onTimeoutOrNack (maxTimeouts : Nat) (m : FaceMeas) (n : Name) (isNack : Bool) : FaceMeas :=
  let k := m.nTimeouts + 1
  if k < maxTimeouts ∧ isNack = false then FaceMeas.cancelTimeout { m with nTimeouts := k } n
  else { FaceMeas.cancelTimeout { m with nTimeouts := k, lastRtt := rttTimeout } n with nTimeouts := 0 }

/-- `none`: the event cannot happen (no timeout is scheduled). -/
def FaceMeas.step (maxTimeouts : Nat) (m : FaceMeas) : MeasEv → Option FaceMeas
  | .forward n => some (if m.scheduled then m else { m with lastInterestName := n, scheduled := true })
  | .data n rtt =>
    let m := match rtt with
      | none => m
      | some (r, s) => { m with lastRtt := (r : Int), srtt := s }
    some { m.cancelTimeout n with nTimeouts := 0 }
  | .nack n => some (m.onTimeoutOrNack maxTimeouts n true)
  | .fire => if m.scheduled then some (FaceMeas.onTimeoutOrNack maxTimeouts { m with scheduled := false } m.lastInterestName false) else none
  | .expire => some {}

def FaceMeas.run (maxTimeouts : Nat) : FaceMeas → List MeasEv → Option FaceMeas
  | m, [] => some m
  | m, ev :: l => (m.step maxTimeouts ev).bind (fun m => FaceMeas.run maxTimeouts m l)

end Verif.Strat
