import Verif.Nw.Model

/-
Vocabulary of the properties of networks.
-/
namespace Verif.Nw

open Fw
open Tb (FaceId FwInterest)

variable {N : Type}

/-- `y` can be reached from `x` over at most `n` links. -/
inductive Reaches (T : Topology N) : Nat → N → N → Prop
  | here (n : Nat) (x : N) : Reaches T n x x
  | hop {n : Nat} {x y z : N} {g f : FaceId} (h : Reaches T n x y) (hl : (z, f) ∈ T y g) : Reaches T (n + 1) x z

/-! ### Strategies that make up no packets -/

/-- The strategy was shown this Interest, from that face. -/
def ShownInterest (calls : List Trigger) (i : FwInterest) (f : FaceId) : Prop :=
  (∃ u, .afterReceiveInterest i f u ∈ calls) ∨ .onInterestLoop i f ∈ calls

/-- The strategy was shown this Data. -/
def ShownData (calls : List Trigger) (d : Data) : Prop :=
  ∃ f u, .afterContentStoreHit d f u ∈ calls ∨ .beforeSatisfyInterest d f u ∈ calls ∨ .afterReceiveData d f u ∈ calls

/-- The Interest is one that is pending: that of a PIT entry or of an in-record. -/
def PendingInterest (s : St) (i : FwInterest) : Prop := ∃ e ∈ s.pit, e.interest = i ∨ ∃ r ∈ e.ins, r.interest = i

/-- What a strategy that makes up no packets may do, given what it has been shown (`calls`): send an Interest it was shown or that is
pending, possibly with another nonce; answer a lookup in the Content Store with the Data found, to the face that asked; send Data it was
shown to those that wait for it; answer an Interest it was shown with a Nack. -/
def Conveys (calls : List Trigger) (s : St) : Action → Prop
  | .sendInterest _ i _ => ∃ j, i = { j with nonce := i.nonce } ∧ ((∃ f, ShownInterest calls j f) ∨ PendingInterest s j)
  | .sendData _ d g => ∃ u, .afterContentStoreHit d g u ∈ calls
  | .sendDataToAll _ d _ => ShownData calls d
  | .sendNackPacket i _ g => ShownInterest calls i g
  | .sendNack .. => True
  | .setExpiryTimer .. => True

/-- The strategy makes up no packets, from the state `s0` on. -/
def Conveyor (s0 : St) (st : Strategy) : Prop :=
  ∀ s t, (∀ c ∈ s0.calls, c ∈ s.calls) → ∀ a ∈ st s t, Conveys (t :: s.calls) s a

/-! ### Who has said what -/

/-- The Data is one that an application sends. -/
def Produced (App : N → Event → Prop) (d : Data) : Prop := ∃ x f d0, App x (.data d0 f) ∧ SameData d0 d

/-- Whoever is behind face `g` of node `y` has asked with this Interest: an application there sends it, or a node that `y` hears on `g`
has sent it. -/
def Asked (T : Topology N) (App : N → Event → Prop) (s : N → St) (y : N) (g : FaceId) (k : Interest) : Prop :=
  (∃ i, App y (.interest i g) ∧ i.toInterest = k) ∨ ∃ x f i, (y, g) ∈ T x f ∧ .interest f i ∈ (s x).sent ∧ i.toInterest = k

/-- An Interest `k` found at node `y` with HopLimit `h` comes from an application's Interest for the same, over `n` links; if that one
had a HopLimit, then every link and the node at which it entered have taken one off it. -/
def Traces (T : Topology N) (App : N → Event → Prop) (y : N) (k : Interest) (h : Option Nat) : Prop :=
  ∃ a j f n, App a (.interest j f) ∧ j.toInterest = k ∧ Reaches T n a y ∧ ∀ r0, j.hopLimit = some r0 → ∃ r, h = some r ∧ n + r + 1 ≤ r0

end Verif.Nw
