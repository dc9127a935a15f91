import Verif.Rib.Model

/-
What the FIB should contain, given the routes: written from the documentation of route inheritance (child inherit and capture), without
reference to the tree of entries, inherited route records or FIB updates.
-/
namespace Verif.Rib.Spec

/-- The lowest cost in a list. -/
def minCost : List Nat → Option Nat
  | [] => none
  | c :: l => some (l.foldl min c)

/-- The lowest cost of a route to the face. -/
def own (l : List Route) (f : Nat) : Option Nat := minCost ((l.filter (fun r => r.face == f)).map (·.cost))

/-- The lowest cost of a route to the face that the names below inherit. -/
def ownInherit (l : List Route) (f : Nat) : Option Nat := minCost ((l.filter (fun r => r.face == f && r.ci)).map (·.cost))

/-- Whether the names at and below do not inherit routes from above. -/
def captures (l : List Route) : Bool := l.any (·.capture)

/-- What `n` inherits for the face from its prefixes shorter than the given length: the longest prefix with an inheritable route to the face
determines the cost, unless a longer one captures. -/
def inheritedFrom (routes : Name → List Route) (n : Name) (f : Nat) : Nat → Option Nat
  | 0 => none
  | k + 1 =>
    match ownInherit (routes (n.take k)) f with
    | some c => some c
    | none => if captures (routes (n.take k)) then none else inheritedFrom routes n f k

/-- The next hop cost for a name and a face: only names with routes have next hops; a route of the name itself comes first; a name with
a capture route inherits nothing. -/
def view (routes : Name → List Route) (n : Name) (f : Nat) : Option Nat :=
  if routes n = [] then none
  else
    match own (routes n) f with
    | some c => some c
    | none => if captures (routes n) then none else inheritedFrom routes n f n.length

/-- Registration of a route: it replaces a route with the same face and origin. -/
def setRoute (l : List Route) (r : Route) : List Route :=
  if l.any (fun x => x.face == r.face && x.origin == r.origin) then l.map (fun x => if x.face == r.face && x.origin == r.origin then r else x)
  else l ++ [r]

/-- Unregistration of a route. -/
def dropRoute (l : List Route) (r : Route) : List Route := l.filter (fun x => !(x.face == r.face && x.origin == r.origin))

/-- The routes after an update. -/
def after (routes : Name → List Route) (u : Update) : Name → List Route := fun n =>
  if n = u.name then (match u.action with | .register => setRoute (routes n) u.route | _ => dropRoute (routes n) u.route) else routes n

end Verif.Rib.Spec
