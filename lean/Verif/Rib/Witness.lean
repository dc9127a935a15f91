import Verif.Rib.Sys
import Verif.Rib.Spec

/-
Histories after which the FIB does not agree with the routes, or in which the RIB crashes.
-/
namespace Verif.Rib

namespace W

abbrev root : Name := []
abbrev a : Name := [⟨8, [97]⟩]
abbrev ab : Name := [⟨8, [97]⟩, ⟨8, [98]⟩]

/-- Registration of a route: face, origin, cost, child inherit, capture. -/
abbrev reg (n : Name) (f o c : Nat) (ci cap : Bool) : Op := .update ⟨.register, n, ⟨f, o, c, ci, cap⟩⟩
abbrev unreg (n : Name) (f o : Nat) : Op := .update ⟨.unregister, n, ⟨f, o, 0, false, false⟩⟩
abbrev removeFace (n : Name) (f o : Nat) : Op := .update ⟨.removeFace, n, ⟨f, o, 0, false, false⟩⟩

abbrev faces : List Op := [.create 1, .create 2, .create 3]
abbrev tie : List Route → Nat := fun _ => 0

/-- After the history the FIB has this cost for the name and the face, which is alive, but should have that one. -/
def wrong (ops : List Op) (n : Name) (f : Nat) (is should : Option Nat) : Bool :=
  match Sys.run tie Sys.init (faces ++ ops) with
  | .error _ => false
  | .ok s => s.face f == .alive && s.fib n f == is && Spec.view s.rib.routes n f == should && is != should

end W

open W

/-- What `wrong` says. -/
def Disagrees (ops : List Op) (n : Name) (f : Nat) (is should : Option Nat) : Prop :=
  ∃ s, Sys.run W.tie Sys.init (W.faces ++ ops) = .ok s ∧ s.face f = .alive ∧ s.fib n f = is ∧ Spec.view s.rib.routes n f = should ∧ is ≠ should

theorem disagrees {ops : List Op} {n : Name} {f : Nat} {is should : Option Nat} (h : wrong ops n f is should = true) : Disagrees ops n f is should := by
  unfold wrong at h
  cases hr : Sys.run W.tie Sys.init (W.faces ++ ops) with
  | error e => rw [hr] at h; cases h
  | ok s =>
    rw [hr] at h
    simp only [Bool.and_eq_true, beq_iff_eq, bne_iff_ne, ne_eq] at h
    exact ⟨s, hr, h.1.1.1, h.1.1.2, h.1.2, h.2⟩

/-- The capture flag of a route is set by an update: the counter of capture routes is not changed (rib.cpp:101-109), and routes registered above later
are inherited in spite of it. (`BenignRegister.capture`) -/
theorem C55_violated_capture_flag : Disagrees [reg a 1 0 5 true false, reg a 1 0 5 true true, reg root 2 0 1 true false] a 2 (some 1) none :=
  disagrees (by decide +kernel)

/-- The more expensive of two routes to a face is removed: the next hop is removed, and not added again (fib-updater.cpp:159-163 picks the route that is
being removed as the next best one, and since it is not cheaper than the one left, fib-updater.cpp:436 does nothing). (`BenignErase.others`) -/
theorem C55_violated_second_origin : Disagrees [reg a 1 0 10 false false, reg a 1 1 20 false false, unreg a 1 1] a 1 none (some 10) :=
  disagrees (by decide +kernel)

/-- A route becomes more expensive than another one to the same face: names below keep the cost (`BenignRegister.others`). -/
theorem C55_violated_cost_increase :
    Disagrees [reg a 1 0 10 true false, reg a 1 1 20 true false, reg ab 2 0 1 false false, reg a 1 0 30 true false] ab 1 (some 10) (some 20) :=
  disagrees (by decide +kernel)

/-- A route that is not inheritable is added where the face was inherited: when the inherited route disappears, the next hop is removed although
there is a route (`Regular.below`). -/
theorem C55_violated_own_route :
    Disagrees [reg root 1 0 10 true false, reg a 2 0 1 false false, reg a 1 0 20 false false, unreg root 1 0] a 1 none (some 20) :=
  disagrees (by decide +kernel)

/-- Of two inheritable routes to a face the one registered first is inherited, not the cheaper one (rib.cpp:283-306) (`Regular.cost`). -/
theorem C55_violated_cheaper :
    Disagrees [reg root 1 0 10 true false, reg root 1 1 5 true false, reg a 2 0 1 true false] a 1 (some 10) (some 5) :=
  disagrees (by decide +kernel)

/-- A first capture route is added: names below lose the face although the name itself has an inheritable route to it (`BenignRegister.first`). -/
theorem C55_violated_first_capture :
    Disagrees [reg root 1 0 1 true false, reg a 1 0 5 true false, reg ab 2 0 1 true false, reg a 3 0 1 false true] ab 1 none (some 5) :=
  disagrees (by decide +kernel)

/-- A route to one face is removed: names below get the route of a shorter prefix to another face, although the name has one itself
(`BenignErase.replaced`). -/
theorem C55_violated_replaced :
    Disagrees [reg root 1 0 1 true false, reg a 1 0 5 true false, reg a 2 0 3 true false, reg ab 3 0 1 true false, unreg a 2 0] ab 1 (some 1) (some 5) :=
  disagrees (by decide +kernel)

/-- The only route of a name is a capture route and is removed: names below do not get the routes from above (fib-updater.cpp:553, 585)
(`BenignErase.only`). -/
theorem C55_violated_only_capture :
    Disagrees [reg root 1 0 1 true false, reg a 2 0 5 false true, reg ab 3 0 1 true false, unreg a 2 0] ab 1 none (some 1) :=
  disagrees (by decide +kernel)

/-- The child inherit flag is removed from a capture route: names below get the route from above (fib-updater.cpp:509-514)
(`BenignRegister.inherit`). -/
theorem C55_violated_inherit_off :
    Disagrees [reg root 1 0 1 true false, reg a 1 0 5 true true, reg ab 3 0 1 true false, reg a 1 0 5 false true] ab 1 (some 1) none :=
  disagrees (by decide +kernel)

/-- A route is removed for a face that is thought to be gone but is not (beginRemoveFailedFaces with an outdated list, rib-manager.cpp:466-489): the
next hop stays (the last condition of `Benign`). -/
theorem C55_violated_live_face : Disagrees [reg a 1 0 1 true false, removeFace a 1 0] a 1 (some 1) none :=
  disagrees (by decide +kernel)

/-- A route becomes more expensive than another one to the same face, and none of them is inheritable: a null pointer is dereferenced
(fib-updater.cpp:468). -/
theorem C56_violated_crash :
    Sys.run W.tie Sys.init (W.faces ++ [reg a 1 0 10 false false, reg a 1 1 20 false false, reg a 1 0 30 false false]) = .error .nullPointer := by
  have : (match Sys.run W.tie Sys.init (W.faces ++ [reg a 1 0 10 false false, reg a 1 1 20 false false, reg a 1 0 30 false false]) with
    | .error f => f == .nullPointer | .ok _ => false) = true := by decide +kernel
  split at this
  · rename_i f h; rw [h, eq_of_beq this]
  · cases this

end Verif.Rib
