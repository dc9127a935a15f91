import Verif.Lp.Spec

/-
What becomes of the frames that a face receives.
-/
namespace Verif.Lp

/-- The effect is one that tells what became of a received frame: a packet for the network layer, or a counter of the face. -/
def Out.trace : Out → Bool
  | .interest .. | .data .. | .nack .. | .duplicate | .lpInvalid | .netInvalid => true
  | _ => false

/-- FragIndex and FragCount, with their defaults. -/
def Pkt.index (p : Pkt) : Nat := p.fragIndex.getD 0
def Pkt.count (p : Pkt) : Nat := p.fragCount.getD 1

/-- What reassembly has so far of the message that the frame with Sequence `q` from the endpoint belongs to. -/
def soFar (s : St) (e q : Nat) (p : Pkt) : Option Partial := s.parts (e, (q + W - p.index % W) % W)

/-- A frame with a fragment that cannot be used: reassembly is disabled; the numbers of the fragment make no sense or are beyond the
limit; it has no Sequence; the message has another number of fragments, or has this one already. -/
inductive Unusable (s : St) (e : Nat) (p : Pkt) : Prop
  | disabled (h : p.fragIndex.isSome ∨ p.fragCount.isSome) (ho : s.opts.allowReassembly = false)
  | index (h : p.count ≤ p.index)
  | limit (h : s.opts.reasmMax < p.count)
  | sequence (h : 2 ≤ p.count) (hs : p.seq = none)
  | message (h : 2 ≤ p.count) (q : Nat) (hs : p.seq = some q) (pp : Partial) (hp : soFar s e q p = some pp) (hc : pp.fragCount ≠ p.count)
  | again (h : 2 ≤ p.count) (q : Nat) (hs : p.seq = some q) (pp : Partial) (hp : soFar s e q p = some pp) (hc : pp.frags[p.index]? ≠ some none)

/-- The fragment is kept, and a time is set until which the message has to be complete. -/
def Kept (s : St) (e : Nat) (p : Pkt) : Prop :=
  ∃ q pp d, p.seq = some q ∧ soFar s e q p = some pp ∧ pp.frags[p.index]? = some (some p) ∧ pp.deadline = some d

/-- The network packet is an Interest with NextHopFaceId, which the face does not permit. -/
def NotPermitted (s : St) (net : Bytes) (first : Pkt) : Prop :=
  (∃ b, parseBlock net = some b ∧ b.type = 5) ∧ first.hdr.nack = none ∧ first.hdr.nextHop.isSome ∧ s.opts.allowLocalFields = false

end Verif.Lp
