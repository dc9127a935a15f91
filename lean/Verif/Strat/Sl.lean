import Verif.Strat.Model

/-
The self-learning strategy with what it remembers in PIT records and its exchange with the RIB (daemon/fw/self-learning-strategy.cpp).

Conventions:
* The forwarder and the actions are those of `Verif.Fw` and `Verif.Strat`; the strategy in charge of every Interest is self-learning, except in
  `foreign` events. FIB lookups and the iteration order of the face table are given by the event.
* The two `io_service`s are queues of posted functions; each thread runs its own in order. `this` in a posted function is the number of the strategy
  object; `weak_ptr<pit::Entry>` is the entry's `uid`, which is in the PIT or gone.
* The RIB's answers are arbitrary, and so given by the event. Prefix announcements are opaque.
* `asks`, `heard`, `posted` and `answers` are ghost logs; Data that is returned from the Content Store is not in `answers`.
-/
namespace Verif.Strat.Sl

open Fw
open Tb (FaceId Time FwInterest InRec OutRec PitEntry NextHop)

abbrev Ann := Nat

/-- Functions posted to the RIB thread. -/
inductive RibTask where
  /-- `addRoute` (self-learning-strategy.cpp:237-248) -/
  | announce (pa : Ann) (f : FaceId)
  /-- `renewRoute` (self-learning-strategy.cpp:250-261) -/
  | renew (name : Name) (f : FaceId)
  /-- `asyncProcessData` (self-learning-strategy.cpp:192-213) -/
  | find (obj u : Nat) (f : FaceId) (d : Data)
deriving DecidableEq, Repr

/-- The function posted back to the main thread (self-learning-strategy.cpp:197-210). -/
structure MainTask where
  obj : Nat
  u : Nat
  f : FaceId
  d : Data
  pa : Ann
deriving DecidableEq, Repr

/-- An Interest that was sent: to a face, with what that face was then, and whether it carried the NonDiscovery mark. -/
structure Ask where
  face : FaceId
  info : Option FaceInfo
  interest : FwInterest
  nonDiscovery : Bool

structure Sys where
  fw : St
  /-- `InRecordInfo::isNonDiscoveryInterest` of an entry's in-record (self-learning-strategy.hpp:52-64) -/
  inInfo : Nat → FaceId → Option Bool := fun _ _ => none
  /-- `OutRecordInfo::isNonDiscoveryInterest` of an entry's out-record (self-learning-strategy.hpp:66-78) -/
  outInfo : Nat → FaceId → Option Bool := fun _ _ => none
  rib : List RibTask := []
  main : List MainTask := []
  /-- the strategy object that exists -/
  obj : Nat := 0
  asks : List Ask := []
  heard : List (Data × Option Ann × FaceId) := []
  posted : List RibTask := []
  answers : List (FaceId × Data × Option Ann) := []

inductive Event where
  /-- an Interest; `nd`: it carries the NonDiscovery mark; `nhs`: next hops of the FIB entry; `table`: the faces -/
  | interest (i : FwInterest) (nd : Bool) (f : FaceId) (nhs : List NextHop) (table : List FaceId)
  /-- Data, with the announcement that it carries -/
  | data (d : Data) (ann : Option Ann) (f : FaceId)
  | nack (i : FwInterest) (reason : Nat) (f : FaceId) (nhs : List NextHop)
  /-- the RIB thread runs the next posted function; `ans`: what `slFindAnn` finds -/
  | rib (ans : Option Ann)
  /-- the main thread runs the next posted function -/
  | main
  /-- `StrategyChoice` replaces the strategy object; by one of the same type (then records keep their information) or of another -/
  | change (sameType : Bool)
  /-- timers, clock, faces, configuration -/
  | other (e : Fw.Event)
  /-- an event that is handled by another strategy -/
  | foreign (st : Strategy) (e : Fw.Event)

inductive Fault where
  | assertion | dangling
deriving DecidableEq, Repr

/-- Packets sent between two states. -/
def newSent (a b : St) : List Pkt := b.sent.drop a.sent.length
/-- Triggers delivered between two states. -/
def newCalls (a b : St) : List Trigger := b.calls.drop a.calls.length

def hasIn (s : St) (u : Nat) (g : FaceId) : Bool := (s.find u).any (fun e => e.ins.any (·.face == g))
def hasOut (s : St) (u : Nat) (g : FaceId) : Bool := (s.find u).any (fun e => e.outs.any (·.face == g))

/-- Information goes away with its record. -/
def prune (s : Sys) : Sys :=
  { s with
    inInfo := fun u g => if hasIn s.fw u g then s.inInfo u g else none
    outInfo := fun u g => if hasOut s.fw u g then s.outInfo u g else none }

def interestTo (g : FaceId) : Pkt → Bool
  | .interest h _ => h == g
  | _ => false

def interestsOf (s : St) (nd : Bool) : List Pkt → List Ask
  | [] => []
  | .interest g i :: l => ⟨g, s.faces g, i, nd⟩ :: interestsOf s nd l
  | _ :: l => interestsOf s nd l

def datasOf (ann : Option Ann) : List Pkt → List (FaceId × Data × Option Ann)
  | [] => []
  | .data g d :: l => (g, d, ann) :: datasOf ann l
  | _ :: l => datasOf ann l

/-- The entry for which `afterReceiveInterest` was called. -/
def askedEntry : List Trigger → Option Nat
  | [] => none
  | .afterReceiveInterest _ _ u :: _ => some u
  | _ :: l => askedEntry l

/-- `afterReceiveInterest`, `broadcastInterest` and `multicastInterest` (self-learning-strategy.cpp:68-100, 146-182): the packets leave with the mark if
there is a route or the Interest has it; `sendInterest` returns the out-record when a packet was sent. An Interest to the next hop that its sender chose
passes by the strategy (forwarder.cpp:206-219) and keeps its mark. -/
def onInterest (env : Env) (s : Sys) (i : FwInterest) (nd : Bool) (f : FaceId) (nhs : List NextHop) (table : List FaceId) : Except Fault Sys :=
  match step env (selfLearningS nhs table nd .now none) s.fw (.interest i f) with
  | none => .error .assertion
  | some fw =>
    let new := newSent s.fw fw
    match askedEntry (newCalls s.fw fw) with
    | none => .ok (prune { s with fw := fw, asks := s.asks ++ interestsOf s.fw nd new })
    | some u => .ok (prune { s with
        fw := fw
        asks := s.asks ++ interestsOf s.fw (nd || !nhs.isEmpty) new
        inInfo := fun v g => if v = u ∧ g = f then some nd else s.inInfo v g
        outInfo := fun v g => if v = u ∧ new.any (interestTo g) then some (!nhs.isEmpty) else s.outInfo v g })

/-- `needPrefixAnn` (self-learning-strategy.cpp:216-235) -/
def needPrefixAnn (s : Sys) (e : Ent) : Bool :=
  let live := e.ins.filter (fun r => decide (s.fw.now < r.expiry))
  live.any (fun r => s.inInfo e.uid r.face == some false) &&
    !(live.all (fun r => (s.fw.faces r.face).all (fun fi => fi.scope == .loc)))

/-- The branches of `afterReceiveData` (self-learning-strategy.cpp:112-129): a discovery Interest is answered, or a non-discovery Interest for which
an announcement is needed or not. -/
inductive Branch | discovery | plain | lookup
deriving DecidableEq, Repr

def branch (s : Sys) (e : Ent) (f : FaceId) : Branch :=
  if s.outInfo e.uid f = some true then (if needPrefixAnn s e then .lookup else .plain) else .discovery

/-- The strategy as it handles Data in this state. -/
def dataS (s : Sys) : Strategy := fun fw t =>
  match t with
  | .afterReceiveData _ f u =>
    selfLearningS [] [] false (if (s.fw.find u).any (fun e => branch s e f == .lookup) then .later else .now) none fw t
  | t => selfLearningS [] [] false .now none fw t

/-- What `afterReceiveData` posts (self-learning-strategy.cpp:106-129), given the triggers of the event. -/
def dataPosts (s : Sys) (ann : Option Ann) : List Trigger → List RibTask
  | [] => []
  | .afterReceiveData d f u :: _ =>
    match s.fw.find u with
    | none => []
    | some e =>
      if e.outs.any (·.face == f) then
        match branch s e f, ann with
        | .discovery, some pa => [.announce pa f]
        | .lookup, _ => [.find s.obj u f d]
        | _, _ => []
      else []
  | _ :: l => dataPosts s ann l

def post (s : Sys) (l : List RibTask) : Sys := { s with rib := s.rib ++ l, posted := s.posted ++ l }

/-- `afterReceiveData` (self-learning-strategy.cpp:102-130). The Data leaves with the announcement that it came with. -/
def onData (env : Env) (s : Sys) (d : Data) (ann : Option Ann) (f : FaceId) : Except Fault Sys :=
  match step env (dataS s) s.fw (.data d f) with
  | none => .error .assertion
  | some fw =>
    .ok (prune (post { s with
      fw := fw
      heard := s.heard ++ [(d, ann, f)]
      answers := s.answers ++ datasOf ann (newSent s.fw fw) } (dataPosts s ann (newCalls s.fw fw))))

/-- The Nack for which `afterReceiveNack` was called. -/
def nackedEntry : List Trigger → Option Name
  | [] => none
  | .afterReceiveNack i reason _ _ :: _ => if reason = nackNoRoute then some i.name else none
  | _ :: l => nackedEntry l

/-- `afterReceiveNack` (self-learning-strategy.cpp:132-144) with its assertion. -/
def onNack (env : Env) (s : Sys) (i : FwInterest) (reason : Nat) (f : FaceId) (nhs : List NextHop) : Except Fault Sys :=
  match step env (selfLearningS nhs [] false .now none) s.fw (.nack i reason f) with
  | none => .error .assertion
  | some fw =>
    match nackedEntry (newCalls s.fw fw) with
    | none => .ok (prune { s with fw := fw })
    | some n => if nhs.isEmpty then .error .assertion else .ok (prune (post { s with fw := fw } [.renew n f]))

/-- A posted function runs on the RIB thread (self-learning-strategy.cpp:194-212, 243-247, 256-260). -/
def onRib (s : Sys) (ans : Option Ann) : Sys :=
  match s.rib with
  | [] => s
  | .find obj u f d :: l =>
    match ans with
    | some pa => { s with rib := l, main := s.main ++ [⟨obj, u, f, d, pa⟩] }
    | none => { s with rib := l }
  | _ :: l => { s with rib := l }

/-- A posted function runs on the main thread (self-learning-strategy.cpp:198-210): `this` is used first of all. -/
def onMain (env : Env) (s : Sys) : Except Fault Sys :=
  match s.main with
  | [] => .ok s
  | t :: l =>
    if t.obj ≠ s.obj then .error .dangling
    else
      match step env (selfLearningS [] [] false .now (some (t.u, t.d, t.f))) s.fw .async with
      | none => .error .assertion
      | some fw => .ok (prune { s with fw := fw, main := l, answers := s.answers ++ datasOf (some t.pa) (newSent s.fw fw) })

/-- Events in which self-learning takes no action: timers, clock, faces, configuration. -/
def plainEvent : Fw.Event → Bool
  | .fire _ | .tick _ | .addFace _ _ | .removeFace _ | .config _ | .cs _ | .dnl _ => true
  | _ => false

def step1 (env : Env) (s : Sys) : Event → Except Fault Sys
  | .interest i nd f nhs table => onInterest env s i nd f nhs table
  | .data d ann f => onData env s d ann f
  | .nack i reason f nhs => onNack env s i reason f nhs
  | .rib ans => .ok (onRib s ans)
  | .main => onMain env s
  | .change sameType =>
    .ok (if sameType then { s with obj := s.obj + 1 } else { s with obj := s.obj + 1, inInfo := fun _ _ => none, outInfo := fun _ _ => none })
  | .other e =>
    if plainEvent e then
      match step env (selfLearningS [] [] false .now none) s.fw e with
      | none => .error .assertion
      | some fw => .ok (prune { s with fw := fw })
    else .ok s
  | .foreign st e =>
    match step env st s.fw e with
    | none => .error .assertion
    | some fw => .ok (prune { s with fw := fw })

def runs (env : Env) : Sys → List Event → Except Fault Sys
  | s, [] => .ok s
  | s, e :: l =>
    match step1 env s e with
    | .ok s' => runs env s' l
    | .error x => .error x

def start (csLimit : Nat) : Sys := { fw := Fw.init csLimit }

end Verif.Strat.Sl
