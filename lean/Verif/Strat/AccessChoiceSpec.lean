import Verif.Strat.Spec

/-! Where the access strategy may and should send an Interest. -/
namespace Verif.Strat

open Fw
open Tb (FaceId Time FwInterest InRec OutRec PitEntry NextHop)

/-- The face is the face of a next hop other than the one the Interest came from, and scope control lets the Interest out there. -/
def Candidate (s : St) (nhs : List NextHop) (i : FwInterest) (f g : FaceId) : Prop :=
  (∃ nh ∈ nhs, nh.face = g) ∧ g ≠ f ∧ ∃ fi gi, s.faces f = some fi ∧ s.faces g = some gi ∧ ScopeAllows fi i.name gi

/-- The forwarder does not drop the Interest on the way out because of its hop limit. -/
def HopsLeft (s : St) (i : FwInterest) (g : FaceId) : Prop := ∃ gi, s.faces g = some gi ∧ ¬ (i.hopLimit = some 0 ∧ gi.scope = .nonLocal)

end Verif.Strat
