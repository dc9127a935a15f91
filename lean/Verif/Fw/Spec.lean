import Verif.Fw.Model

/-
Vocabulary of the properties of the forwarding pipelines. None of it refers to the functions that implement the pipelines.
-/
namespace Verif.Fw

open Tb (FaceId Time FwInterest InRec OutRec PitEntry NextHop)

/-- The name begins with /localhost. -/
def UnderLocalhost (n : Name) : Prop := ∃ rest, n = cLocalhost :: rest

/-- The name begins with /localhop. -/
def UnderLocalhop (n : Name) : Prop := ∃ rest, n = cLocalhop :: rest

/-- A face that exists and reaches only this host. -/
def IsLocal (s : St) (g : FaceId) : Prop := ∃ fi, s.faces g = some fi ∧ fi.scope = .loc

/-- Nothing but statistics differs. -/
def OnlyCounters (s s' : St) : Prop := s' = { s with ctr := s'.ctr }

/-- The packets that an event handed to faces. -/
def Emits (s s' : St) (new : List Pkt) : Prop := s'.sent = s.sent ++ new

/-- Where a packet goes. -/
def Pkt.face : Pkt → FaceId
  | .interest g _ => g
  | .data g _ => g
  | .nack g _ _ => g

/-- The name of a packet; for a Nack, of the Interest it carries. -/
def Pkt.name : Pkt → Name
  | .interest _ i => i.name
  | .data _ d => d.name
  | .nack _ i _ => i.name

/-- The Interest that a packet is or carries. -/
def Pkt.interest? : Pkt → Option FwInterest
  | .interest _ i => some i
  | .nack _ i _ => some i
  | .data .. => none

/-- A face on which a strategy may send a packet with this name. -/
def MaySend (faces : FaceId → Option FaceInfo) (n : Name) (g : FaceId) : Prop :=
  UnderLocalhost n → ∀ fi, faces g = some fi → fi.scope = .loc

/-- What `wouldViolateScope` asks of strategies, for /localhost: Interests, and Nacks of the strategy's own making, go only to
local faces. Data and Nacks for pending Interests are up to the forwarder. -/
def ScopeAction (faces : FaceId → Option FaceInfo) : Action → Prop
  | .sendInterest _ i g => MaySend faces i.name g
  | .sendNackPacket i _ g => MaySend faces i.name g
  | _ => True

/-- The trigger respects scope control: no Interest under /localhost from a non-local face is passed on. -/
def ScopeTrigger (faces : FaceId → Option FaceInfo) : Trigger → Prop
  | .onInterestLoop i f => MaySend faces i.name f
  | .afterReceiveInterest i f _ => MaySend faces i.name f
  | _ => True

/-- A strategy that respects scope control when called with triggers that do. -/
def ScopeAware (st : Strategy) : Prop :=
  ∀ s t, ScopeTrigger s.faces t → ∀ a ∈ st s t, ScopeAction s.faces a

/-- The nonce occurs in a PIT entry and the Interest is not the same face's retransmission on a point-to-point link. -/
def NonceLoops (e : Ent) (nonce : Nat) (f : FaceId) (l : Link) : Prop :=
  ((∃ r ∈ e.ins, r.nonce = nonce) ∨ ∃ r ∈ e.outs, r.nonce = nonce) ∧ ¬(l = .p2p ∧ ∃ r ∈ e.ins, r.face = f ∧ r.nonce = nonce)

/-- The Interest has been here before: its name and nonce are in the Dead Nonce List, or its nonce is in use in the PIT entry with
its name and selectors. -/
def Looping (env : Env) (s : St) (i : FwInterest) (f : FaceId) (l : Link) : Prop :=
  s.dnl.has env.hash i.name i.nonce = true ∨ ∃ e ∈ s.pit, e.interest.toInterest = i.toInterest ∧ NonceLoops e i.nonce f l

/-- An Interest may be processed: it has hops left and respects /localhost. -/
def Admissible (i : FwInterest) (fi : FaceInfo) : Prop :=
  i.hopLimit ≠ some 0 ∧ ¬(fi.scope = .nonLocal ∧ UnderLocalhost i.name)

/-- The HopLimit an Interest leaves with. -/
def leavesWith (c : Config) : Option Nat → Option Nat
  | some n => some (n - 1)
  | none => if 0 < c.defaultHopLimit then some c.defaultHopLimit else none

/-- A Data that arrives on `f` has to be sent to `g`: some pending Interest it satisfies was received from `g` and has not
expired, `g` is not where the Data came from (unless it is an ad hoc face), and scope control permits it. -/
def Waits (s : St) (d : Data) (f g : FaceId) : Prop :=
  (∃ e ∈ s.pit, e.interest.matchesData d = true ∧ ∃ r ∈ e.ins, r.face = g ∧ s.now < r.expiry) ∧
  (∀ fi, s.faces g = some fi → ((g = f → fi.link = .adHoc) ∧ (UnderLocalhost d.name → fi.scope = .loc)))

/-! ### Strategies that leave Data to the default handling -/

/-- Sends neither Data nor a Nack of the strategy's own making. -/
def Quiet : Action → Bool
  | .sendInterest .. => true
  | .sendNack .. => true
  | .setExpiryTimer .. => true
  | _ => false

/-- Neither Data nor, if `nk`, any Nack. -/
def Silent (nk : Bool) : Action → Bool
  | .sendInterest .. => true
  | .sendNack .. => !nk
  | .setExpiryTimer .. => true
  | _ => false

/-- NackReason::DUPLICATE is 100, NO_ROUTE 150. -/
abbrev nackDuplicate : Nat := 100

/-- The strategy leaves Data (and the Nack for a looping Interest) to the default implementations of `Strategy`
(strategy.cpp:176-207): a cached Data goes to the face that asked, received Data goes to all pending downstreams, a looping
Interest is answered with a Duplicate Nack (or, multicast-strategy.hpp:51-55, ignored), and no other trigger sends Data. With `nk`, `beforeSatisfyInterest` sends no Nack. -/
def DefaultData (nk : Bool) (st : Strategy) : Prop :=
  ∀ (s : St) (t : Trigger), match t with
    | .afterContentStoreHit d f u => st s t = [.sendData u d f]
    | .afterReceiveData d f u => ∃ pre, st s t = pre ++ [.sendDataToAll u d f] ∧ ∀ a ∈ pre, Quiet a = true
    | .onInterestLoop i f => st s t = [.sendNackPacket i nackDuplicate f] ∨ st s t = []
    | .beforeSatisfyInterest .. => ∀ a ∈ st s t, Silent nk a = true
    | _ => ∀ a ∈ st s t, Quiet a = true

/-- Data goes to all pending downstreams and the strategy adds nothing but, possibly, Interests and timers. -/
def PlainData (st : Strategy) : Prop :=
  ∀ (s : St) (t : Trigger), match t with
    | .afterReceiveData d f u => ∃ pre, st s t = pre ++ [.sendDataToAll u d f] ∧ ∀ a ∈ pre, Silent true a = true
    | .beforeSatisfyInterest .. => ∀ a ∈ st s t, Silent true a = true
    | _ => True

/-- The reactions to Data are exactly the default ones (strategy.cpp:186-204). -/
def BasicData (st : Strategy) : Prop :=
  ∀ (s : St) (t : Trigger), match t with
    | .afterReceiveData d f u => st s t = [.sendDataToAll u d f]
    | .beforeSatisfyInterest .. => st s t = []
    | _ => True

/-! ### Counting packets per face -/

/-- Data, and if `nk` Nacks, sent to face `g`. -/
def returned (nk : Bool) (g : FaceId) : Pkt → Bool
  | .data h _ => h == g
  | .nack h _ _ => nk && h == g
  | .interest .. => false

/-- Interests from face `g` among the events. -/
def Event.fromFace (g : FaceId) : Event → Bool
  | .interest _ f => f == g
  | _ => false

end Verif.Fw
