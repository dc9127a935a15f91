import Verif.Rib.Spec
import Verif.Rib.Sys

/-
The histories for which the FIB is proved to agree with the routes. Outside of this class the code does not keep them in agreement; every
condition is there because of a history (Verif.Rib.Witness) in which it is violated and the FIB is wrong.
-/
namespace Verif.Rib

open Spec (own ownInherit captures inheritedFrom)

structure Regular (R : Name → List Route) : Prop where
  /-- Inheritable routes of one name to one face cost the same. -/
  cost : ∀ (n : Name) (r r' : Route), r ∈ R n → r' ∈ R n → r.face = r'.face → r.ci = true → r'.ci = true → r.cost = r'.cost
  /-- A name that would inherit a route to a face has no routes to it that are not inheritable. -/
  below : ∀ (n n' : Name) (r r' : Route), n <+: n' → n' ≠ n → r ∈ R n → r.ci = true → r' ∈ R n' → r'.face = r.face →
    (∀ x, n <+: x → x ≠ n → x <+: n' → captures (R x) = false) → r'.ci = true

/-- Registration of a route. -/
structure BenignRegister (R : Name → List Route) (n : Name) (r : Route) : Prop where
  /-- An update does not change the capture flag. -/
  capture : ∀ old ∈ R n, old.same r = true → old.capture = r.capture
  /-- An update does not make a route not inheritable if there is something to inherit from above. -/
  inherit : ∀ old ∈ R n, old.same r = true → old.ci = true → r.ci = false → inheritedFrom R n r.face n.length = none
  /-- An update makes the route agree with the other routes to the face. -/
  others : ∀ old ∈ R n, old.same r = true → ∀ x ∈ R n, x.face = r.face → x.same r = false → x.cost = r.cost ∧ x.ci = r.ci
  /-- A first capture route is not added where routes take the place of inherited ones. -/
  first : (∀ x ∈ R n, x.same r = false) → R n ≠ [] → captures (R n) = false → r.capture = true →
    ∀ f, inheritedFrom R n f n.length = none ∨ own (R n) f = none

/-- Unregistration of a route that is there. -/
structure BenignErase (R : Name → List Route) (n : Name) (r : Route) : Prop where
  /-- The other routes to the face agree with it. -/
  others : ∀ old ∈ R n, old.same r = true → ∀ x ∈ R n, x.face = r.face → x.cost = old.cost ∧ x.ci = old.ci
  /-- No other inheritable routes take the place of inherited ones. -/
  replaced : ∀ old ∈ R n, old.same r = true → (old.ci = true ∨ old.capture = true) → captures (Spec.dropRoute (R n) r) = false →
    ∀ f, f ≠ r.face → inheritedFrom R n f n.length = none ∨ ownInherit (R n) f = none ∨ inheritedFrom R n f n.length = ownInherit (R n) f
  /-- A name does not disappear with its capture route if there is something to inherit. -/
  only : ∀ old ∈ R n, old.same r = true → old.capture = true → Spec.dropRoute (R n) r = [] →
    (∀ m, n <+: m → m ≠ n → R m = []) ∨ ∀ f, inheritedFrom R n f n.length = none

def Benign (s : Sys) : Op → Prop
  | .create _ => True
  | .destroy _ => True
  | .update u =>
    Regular (Spec.after s.rib.routes u) ∧
    match u.action with
    | .register => BenignRegister s.rib.routes u.name u.route
    | .unregister => BenignErase s.rib.routes u.name u.route
    | .removeFace => BenignErase s.rib.routes u.name u.route ∧ s.face u.route.face = .gone

/-- All operations are benign where they happen. -/
def BenignRun (tie : List Route → Nat) : Sys → List Op → Prop
  | _, [] => True
  | s, o :: l =>
    Benign s o ∧
    match s.step tie o with
    | .error _ => True
    | .ok s => BenignRun tie s l

end Verif.Rib
