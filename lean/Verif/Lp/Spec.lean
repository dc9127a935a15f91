/-
What the properties of the link service say, in terms of LpPackets on the wire and effects of the link service.
-/
import Verif.Lp.Model

namespace Verif.Lp

/-- `p` is a transmission of the fragment `f`: retransmission and piggybacking only change the TxSequence, the Acks and the congestion mark. -/
structure Copy (p f : Pkt) : Prop where
  seq : p.seq = f.seq
  fragIndex : p.fragIndex = f.fragIndex
  fragCount : p.fragCount = f.fragCount
  frag : p.frag = f.frag
  hdr : { p.hdr with mark := none } = { f.hdr with mark := none }

/-- The network packet `net` is sent as these fragments: at least two, numbered from 0, with consecutive Sequences starting at `base`
(modulo 2^64); together their payloads are the network packet, which is one TLV element. -/
structure Message (base : Nat) (net : Bytes) (frags : List Pkt) : Prop where
  base_lt : base < W
  two : 2 ≤ frags.length
  small : frags.length ≤ W
  place : ∀ j f, frags[j]? = some f →
    f.seq = some ((base + j) % W) ∧ f.fragIndex = some j ∧ f.fragCount = some frags.length ∧ f.frag.isSome
  payload : (frags.map (fun f => f.frag.getD [])).flatten = net
  packet : (parseBlock net).isSome

/-- The packet says of itself that it is a fragment of the message whose first Sequence is `base`. -/
def Claims (base : Nat) (p : Pkt) : Prop :=
  2 ≤ p.fragCount.getD 1 ∧ ∃ q, p.seq = some q ∧ (q + W - p.fragIndex.getD 0 % W) % W = base

/-- All packets from the endpoint that claim to be fragments of the message are transmissions of its fragments. Nothing is required of
other packets and other endpoints. -/
def Honest (e base : Nat) (frags : List Pkt) (es : List Event) : Prop :=
  ∀ p, Event.receive e p ∈ es → Claims base p → ∃ f ∈ frags, Copy p f

/-- The effect is a delivery, from the endpoint, of a packet reassembled from fragments with Sequences starting at `base`. -/
def delivers (e base : Nat) : Out → Bool
  | .reassembled e' _ first => e' == e && first.seq == some base && decide (2 ≤ first.fragCount.getD 1)
  | _ => false

instance : DecidableRel Copy := fun p f =>
  decidable_of_iff (p.seq = f.seq ∧ p.fragIndex = f.fragIndex ∧ p.fragCount = f.fragCount ∧ p.frag = f.frag ∧
    { p.hdr with mark := none } = { f.hdr with mark := none })
    ⟨fun ⟨a, b, c, d, e⟩ => ⟨a, b, c, d, e⟩, fun ⟨a, b, c, d, e⟩ => ⟨a, b, c, d, e⟩⟩

/-- How often a transmission of `f` was received from the endpoint. -/
def received (e : Nat) (f : Pkt) (es : List Event) : Nat :=
  es.countP (fun ev => match ev with
    | .receive e' p => e' == e && decide (Copy p f)
    | _ => false)

/-- How much time passes. -/
def elapsed (es : List Event) : Nat := (es.map (fun e => match e with | .tick d => d | _ => 0)).sum

/-! ## Reading effects -/

/-- The LpPacket that an effect hands to the transport, or drops for exceeding the MTU. -/
def Out.sends : Out → Option Pkt
  | .frame p | .overMtu p => some p
  | _ => none

/-- The effect is the sending of an LpPacket with this Sequence. -/
def sendsSeq (q : Nat) (o : Out) : Bool := o.sends.bind (·.seq) == some q

/-- The effect ends the accounting of the network packet. -/
def concludes (id : Nat) : Out → Bool
  | .acknowledged i | .retransmitted i | .exhausted i => i == id
  | _ => false

/-- The effect gives the network packet up. -/
def exhausts (id : Nat) : Out → Bool
  | .exhausted i => i == id
  | _ => false

/-- The effect hands the network packet to LpReliability. -/
def queues (id : Nat) : Out → Bool
  | .queued i _ _ _ => i == id
  | _ => false

/-- The effect reports the Interest as dropped. -/
def drops (id : Nat) : Out → Bool
  | .droppedInterest i _ => i == id
  | _ => false

/-- The options that were in force at some time of the run. -/
def InForce (o : Opts) (es : List Event) (o' : Opts) : Prop := o' = o ∨ .setOptions o' ∈ es

/-- A network packet still has fragments that are neither acknowledged nor given up. -/
def pending (s : St) (id : Nat) : Prop := ∃ e ∈ s.unacked, e.2.net = id

end Verif.Lp
