import Verif.Lp.SentSpec

/-
What arrives at one end of a link for a network packet that the other end was given to send.
-/
namespace Verif.Lp

/-- A network packet that may be sent as one of this kind with these tags, and which the receiver can decode: an Interest or a Nack is a TLV
element of type 5, a Data one of type 6. Announcements go with Data only, and NonDiscovery with Interests only. -/
structure Proper (env : Env) (k : Kind) (t : SendTags) (net : Bytes) : Prop where
  element : ∃ b, parseBlock net = some b ∧ b.type = if k = .data then 6 else 5
  decodes : (if k = .data then env.okData net else env.okInterest net) = true
  announcement : k ≠ .data → t.prefixAnn = none
  nonDiscovery : k ≠ .interest → t.nonDiscovery = false

/-- What the receiving end (options `r`) passes on for a packet that was sent with options `o`: the same packet, of the same kind, with PIT
token and congestion mark, and with the tags of self-learning if both ends permit them. -/
inductive Arrives (o r : Opts) (t : SendTags) (net : Bytes) : Kind → Out → Prop
  | interest (m : Option Nat) (d : Bool) (hm : m = t.mark ∨ m = some 1)
      (hd : d = true ↔ o.allowSelfLearning = true ∧ r.allowSelfLearning = true ∧ t.nonDiscovery = true) :
      Arrives o r t net .interest (.interest net { mark := m, nonDiscovery := d, pitToken := t.pitToken })
  | data (m : Option Nat) (hm : m = t.mark ∨ m = some 1) :
      Arrives o r t net .data
        (.data net { mark := m, prefixAnn := if o.allowSelfLearning = true ∧ r.allowSelfLearning = true then t.prefixAnn else none })
  | nack (reason : Nat) (m : Option Nat) (hm : m = t.mark ∨ m = some 1) : Arrives o r t net (.nack reason) (.nack net reason { mark := m })

end Verif.Lp
