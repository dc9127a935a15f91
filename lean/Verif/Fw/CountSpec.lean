import Verif.Fw.Spec

/-
What the counters of received packets are meant to count (forwarder-counters.hpp): the events of a history that have a property in
the state in which they occur.
-/
namespace Verif.Fw

open Tb (FaceId FwInterest)

open Classical in
/-- How many events of a history have the property `p` when they occur. -/
noncomputable def tally (env : Env) (p : St → Event → Prop) : St → List (Strategy × Event) → Nat
  | _, [] => 0
  | s, x :: l => (if p s x.2 then 1 else 0) + match step env x.1 s x.2 with
    | some s' => tally env p s' l
    | none => 0

/-- An Interest comes from a face. -/
def InterestArrives (s : St) (ev : Event) : Prop := ∃ i f, ev = .interest i f ∧ s.faces f ≠ none

/-- A Data comes from a face. -/
def DataArrives (s : St) (ev : Event) : Prop := ∃ d f, ev = .data d f ∧ s.faces f ≠ none

/-- A Nack comes from a face. -/
def NackArrives (s : St) (ev : Event) : Prop := ∃ i r f, ev = .nack i r f ∧ s.faces f ≠ none

/-- A Data comes from a face that may send it, and no pending Interest asks for it. -/
def UnaskedData (s : St) (ev : Event) : Prop :=
  ∃ d f fi, ev = .data d f ∧ s.faces f = some fi ∧ ¬(fi.scope = .nonLocal ∧ UnderLocalhost d.name) ∧ ∀ e ∈ s.pit, e.interest.matchesData d = false

/-- An Interest that is neither dropped nor looping. -/
def Processed (env : Env) (s : St) (ev : Event) : Prop :=
  ∃ i f fi, ev = .interest i f ∧ s.faces f = some fi ∧ Admissible i fi ∧ ¬Looping env s i f fi.link

/-- An Interest that nobody waits for yet and for which the Content Store has a Data. -/
def FromCache (s : St) (ev : Event) : Prop :=
  ∃ i f c d, ev = .interest i f ∧ (∀ e ∈ s.pit, e.interest.toInterest = i.toInterest → e.ins = []) ∧ s.cs.find i.toInterest = some (c, some d)

end Verif.Fw
