import Verif.Nw.Model
import Verif.Strat.Spec
import Verif.Fw.NoFault

/-
Vocabulary of round trips (C107).
-/
namespace Verif.Nw

open Fw Strat
open Tb (FaceId Time FwInterest)

variable {N : Type} [DecidableEq N]

/-- One forwarder on the way of an Interest: it comes in on `inn` and goes out on `out`; the answer comes after `wait`. -/
structure Hop (N : Type) where
  node : N
  inn : FaceId
  out : FaceId
  st : Strategy
  wait : Time

/-- A number of events of the network, one after the other, all at hops of the path and handled with the strategies there. -/
inductive Course (T : Topology N) (env : N → Env) (App : N → Event → Prop) (path : List (Hop N)) : Nat → (N → St) → (N → St) → Prop
  | nil (s : N → St) : Course T env App path 0 s s
  | cons {k : Nat} {s t : N → St} (h : Hop N) (hm : h ∈ path) (ev : Event) (hh : Happens T App s h.node ev) (s' : St)
      (hs : step (env h.node) h.st (s h.node) ev = some s') (hc : Course T env App path k (fun z => if z = h.node then s' else s z) t) :
      Course T env App path (k + 1) s t

/-- Links lead from each hop to the next, and back. -/
def Linked (T : Topology N) : List (Hop N) → Prop
  | [] => True
  | [_] => True
  | a :: b :: l => (b.node, b.inn) ∈ T a.node a.out ∧ (a.node, a.out) ∈ T b.node b.inn ∧ Linked T (b :: l)

/-- Asked with Interest `i` from `f` in a state like `s`, the strategy sends it to `g`, and does nothing but send it. -/
def ForwardsOn (st : Strategy) (s : St) (i : FwInterest) (f g : FaceId) : Prop :=
  ∀ r u j e, r.faces = s.faces → r.now = s.now → r.find u = some e → OutRecords s i e.outs → Carries s.cfg i j →
    ∃ gs : List FaceId, g ∈ gs ∧ st r (.afterReceiveInterest j f u) = gs.map (fun g' => Action.sendInterest u j g')

/-- The forwarder passes the Interest on: it is not refused, looping or answered from the Content Store; the outgoing face exists; the
strategy forwards it there, and has hops left to do so; Data is handled in the default way, and comes before the Interest expires. -/
structure Ready (env : Env) (s : St) (h : Hop N) (i : FwInterest) : Prop where
  passed : Passed env s i h.inn
  out : (s.faces h.out).isSome
  other : h.out ≠ h.inn
  forwards : ForwardsOn h.st s i h.inn h.out
  hops : ∀ j, Carries s.cfg i j → ¬OutOfHops s j h.out
  plain : PlainData h.st
  honest : Honest h.st
  wait : h.wait < min i.lifetime Tb.tenDays

/-- All forwarders on the way pass the Interest on. -/
def PathReady (env : N → Env) (s : N → St) : List (Hop N) → FwInterest → Prop
  | [], _ => True
  | h :: l, i => Ready (env h.node) (s h.node) h i ∧ ∀ j, Carries (s h.node).cfg i j → PathReady env s l j

/-- The application behind the last hop sends the Data `d`. -/
def Answers (App : N → Event → Prop) (d : Data) : List (Hop N) → Prop
  | [] => False
  | [h] => App h.node (.data d h.out)
  | _ :: l => Answers App d l

/-- A state that some history leads to. -/
def HasHistory (env : Env) (s : St) : Prop := ∃ n l, (∀ x ∈ l, Honest x.1 ∧ WellFormed x.2) ∧ run env (init n) l = some s

end Verif.Nw
