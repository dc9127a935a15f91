import Verif.Lp.Spec

/-
What leaves a face for a network packet that it is given to send.
-/
namespace Verif.Lp

/-- The header fields of the frame that begins the network packet with tags `t`, on a face with options `o`. CongestionMark is the one of
the packet, or 1 if the link is congested. -/
structure FirstFields (o : Opts) (k : Kind) (t : SendTags) (h : Hdr) : Prop where
  nextHop : h.nextHop = none
  cachePolicy : h.cachePolicy = none
  incoming : h.incoming = if o.allowLocalFields then t.incoming else none
  nonDiscovery : h.nonDiscovery = true ↔ o.allowSelfLearning = true ∧ t.nonDiscovery = true
  prefixAnn : h.prefixAnn = if o.allowSelfLearning then t.prefixAnn else none
  pitToken : h.pitToken = t.pitToken
  nack : ∀ r, h.nack = some r ↔ k = .nack r
  mark : h.mark = t.mark ∨ h.mark = some 1

/-- The frames, in order, are those of the network packet: their payloads make it up; the fields are on the first one; if there are several,
they are numbered, and their Sequences follow `last`. -/
structure SentWhole (o : Opts) (k : Kind) (t : SendTags) (net : Bytes) (last : Nat) (frames : List Pkt) : Prop where
  nonempty : frames ≠ []
  frag : ∀ f ∈ frames, f.frag ≠ none
  payload : (frames.map (fun f => f.frag.getD [])).flatten = net
  first : ∀ f, frames[0]? = some f → FirstFields o k t f.hdr
  others : ∀ (j : Nat) (f : Pkt), 0 < j → frames[j]? = some f → f.hdr = ({} : Hdr) ∨ f.hdr = ({ mark := some 1 } : Hdr)
  single : frames.length = 1 → ∀ f ∈ frames, f.fragIndex = none ∧ f.fragCount = none
  several : 2 ≤ frames.length → ∀ (j : Nat) (f : Pkt), frames[j]? = some f →
    f.fragIndex = some j ∧ f.fragCount = some frames.length ∧ f.seq = some ((last + 1 + j) % 2 ^ 64)

end Verif.Lp
