import Verif.Fw.Model

/-
Networks of forwarders: any number of forwarders (the model of `Verif.Fw`), each in any state it can be in, joined by links between
their faces.

* A link is a pair of (node, face): `T y g` are the ends that hear what node `y` sends on its face `g`; one end for a point-to-point
  link, several for a multi-access or ad hoc one. Links need not be symmetric.
* A packet sent on a linked face can arrive at any later time, any number of times, in any order, or never: what has been sent is kept
  (`Fw.St.sent`) and a delivery picks any of it. This covers loss, duplication, reordering and arbitrary delay.
* What is on the wire: the network-layer packet. NextHopFaceId and CachePolicy are not part of it (generic-link-service.cpp:151-182 does
  not encode them), so the receiver may see any value for them.
* A face that is not linked leads to applications (or out of the part of the network under consideration).
* Every event of a node comes with the strategy that reacts to it, as in `Verif.Fw`.
-/
namespace Verif.Nw

open Fw
open Tb (FaceId FwInterest)

/-- Which (node, face) hear what a node sends on a face. -/
abbrev Topology (N : Type) := N → FaceId → List (N × FaceId)

/-- The packet `i'` received is the packet `i` sent, up to NextHopFaceId, which is not sent (generic-link-service.cpp:151-182). -/
def SameInterest (i i' : FwInterest) : Prop := i' = { i with nextHop := i'.nextHop }

/-- The packet `d'` received is the packet `d` sent, up to CachePolicy, which is not sent (generic-link-service.cpp:151-182). -/
def SameData (d d' : Data) : Prop := d' = { d with noCache := d'.noCache }

/-- The arrival of a packet that the other end of a link has sent (transport.cpp:100-111, link-service.cpp:78-106,
forwarder.cpp:59-76). -/
inductive Arrives {N : Type} (T : Topology N) (s : N → St) (x : N) : Event → Prop
  | interest {y : N} {f g : FaceId} {i i' : FwInterest} (hl : (x, f) ∈ T y g) (hs : .interest g i ∈ (s y).sent) (hw : SameInterest i i') :
      Arrives T s x (.interest i' f)
  | data {y : N} {f g : FaceId} {d d' : Data} (hl : (x, f) ∈ T y g) (hs : .data g d ∈ (s y).sent) (hw : SameData d d') :
      Arrives T s x (.data d' f)
  | nack {y : N} {f g : FaceId} {i i' : FwInterest} {k : Nat} (hl : (x, f) ∈ T y g) (hs : .nack g i k ∈ (s y).sent) (hw : SameInterest i i') :
      Arrives T s x (.nack i' k f)

/-- Events of a node that deliver no packet: what its strategies, timers, management and configuration do. Content Store management
erases and reconfigures, but inserts nothing (cs-manager.cpp:53-104). A linked face leads to another host. -/
inductive Internal {N : Type} (T : Topology N) (x : N) : Event → Prop
  | dropped (i : FwInterest) (f : FaceId) : Internal T x (.dropped i f)
  | newNextHop (nh : Tb.NextHop) (us : List Nat) : Internal T x (.newNextHop nh us)
  | async : Internal T x .async
  | fire (id : Nat) : Internal T x (.fire id)
  | tick (dt : Tb.Time) : Internal T x (.tick dt)
  | addFace (f : FaceId) (fi : FaceInfo) (h : T x f ≠ [] → fi.scope = .nonLocal) : Internal T x (.addFace f fi)
  | removeFace (f : FaceId) : Internal T x (.removeFace f)
  | config (c : Config) : Internal T x (.config c)
  | cs (op : Cs.Op) (h : ∀ d u, op ≠ .insert d u) : Internal T x (.cs op)
  | dnl (op : Dnl.Op) : Internal T x (.dnl op)

/-- What applications may do: `App x ev` says that the application behind a face of node `x` may send the packet of event `ev`. -/
inductive Happens {N : Type} (T : Topology N) (App : N → Event → Prop) (s : N → St) (x : N) (ev : Event) : Prop
  | arrives (h : Arrives T s x ev)
  | internal (h : Internal T x ev)
  | application (h : App x ev) (hk : (∃ i f, ev = .interest i f) ∨ (∃ d f, ev = .data d f) ∨ ∃ i k f, ev = .nack i k f)

/-- The states of the network that can be reached from the start, for forwarders with these parameters and Content Store capacities,
when the strategies satisfy `S`. -/
inductive Reachable {N : Type} [DecidableEq N] (T : Topology N) (env : N → Env) (limit : N → Nat) (S : St → Strategy → Prop)
    (App : N → Event → Prop) : (N → St) → Prop
  | start : Reachable T env limit S App (fun x => init (limit x))
  | step {s : N → St} (hr : Reachable T env limit S App s) (x : N) (st : Strategy) (hst : S (s x) st) (ev : Event)
      (hh : Happens T App s x ev) (s' : St) (h : step (env x) st (s x) ev = some s') :
      Reachable T env limit S App (fun z => if z = x then s' else s z)

end Verif.Nw
