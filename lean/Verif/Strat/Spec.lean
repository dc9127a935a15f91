import Verif.Fw.Spec
import Verif.Strat.Model

/-
Vocabulary of the properties of forwarding strategies. It does not use the functions of the strategies.
-/
namespace Verif.Strat

open Fw
open Tb (FaceId Time FwInterest InRec OutRec PitEntry NextHop)

/-- Scope control allows an Interest that arrived on a face `fi` to leave on a face `gi`: /localhost stays on local faces, /localhop may
leave the host only if it comes from the host. -/
def ScopeAllows (fi : FaceInfo) (n : Name) (gi : FaceInfo) : Prop :=
  (UnderLocalhost n → gi.scope = .loc) ∧ (UnderLocalhop n → gi.scope = .loc ∨ fi.scope = .loc)

/-- An Interest that arrived on `f` may be sent to `g`: both faces exist, scope control permits it, and `g` is not `f` unless it is ad hoc. -/
def Eligible (s : St) (n : Name) (f g : FaceId) : Prop :=
  ∃ fi gi, s.faces f = some fi ∧ s.faces g = some gi ∧ (g = f → gi.link = .adHoc) ∧ ScopeAllows fi n gi

/-- The out-records of the pending Interest with the same name and selectors as `i`; none if there is no such Interest. -/
def OutRecords (s : St) (i : FwInterest) (outs : List OutRec) : Prop :=
  (∃ e ∈ s.pit, e.interest.toInterest = i.toInterest ∧ outs = e.outs) ∨
  ((∀ e ∈ s.pit, e.interest.toInterest ≠ i.toInterest) ∧ outs = [])

/-- Some upstream has been asked and may still answer. -/
def PendingUpstream (now : Time) (outs : List OutRec) : Prop := ∃ r ∈ outs, now ≤ r.expiry ∧ r.nack = none

/-- `g` has been asked and the question has not expired. -/
def InUse (now : Time) (outs : List OutRec) (g : FaceId) : Prop := ∃ r ∈ outs, r.face = g ∧ now < r.expiry

/-- The most recent transmission to any upstream was at `t`. -/
def LastSent (outs : List OutRec) (t : Time) : Prop := (∃ r ∈ outs, r.renewed = t) ∧ ∀ r ∈ outs, r.renewed ≤ t

/-- The Content Store does not answer: the Interest is already pending, or nothing in the cache matches. -/
def Missed (s : St) (i : FwInterest) : Prop :=
  (∃ e ∈ s.pit, e.interest.toInterest = i.toInterest ∧ e.ins ≠ []) ∨ ∃ c, s.cs.find i.toInterest = some (c, none)

/-- One of the delegations is a prefix of a region of this router. -/
def InProducerRegion (c : Config) (hints : List Name) : Prop := ∃ r ∈ c.regions, ∃ d ∈ hints, d <+: r

/-- `j` is the Interest `i` on its way: one hop less, and without its forwarding hint in the producer region. -/
structure Carries (c : Config) (i j : FwInterest) : Prop where
  key : j.toInterest = i.toInterest
  nonce : j.nonce = i.nonce
  lifetime : j.lifetime = i.lifetime
  hopLimit : j.hopLimit = leavesWith c i.hopLimit
  nextHop : j.nextHop = i.nextHop
  inRegion : InProducerRegion c i.hints → j.hints = []
  elsewhere : ¬InProducerRegion c i.hints → j.hints = i.hints

/-- No hops are left for a face that leads to another host. -/
def OutOfHops (s : St) (j : FwInterest) (g : FaceId) : Prop := j.hopLimit = some 0 ∧ ∃ gi, s.faces g = some gi ∧ gi.scope = .nonLocal

/-- The event's packets are: the Interest `i`, to `g` (nothing if it has no hops left for `g`). -/
def SendsTo (s s' : St) (i : FwInterest) (g : FaceId) : Prop :=
  ∃ j, Carries s.cfg i j ∧ (OutOfHops s j g → Emits s s' []) ∧ (¬OutOfHops s j g → Emits s s' [.interest g j])

/-- The event's packets are: a Nack for `i` with this reason to `f`, if `f` is a point-to-point face; and the Interest expires at once. -/
def Refuses (s s' : St) (i : FwInterest) (f : FaceId) (reason : Nat) : Prop :=
  ∃ j fi, Carries s.cfg i j ∧ s.faces f = some fi ∧ Emits s s' (if fi.link = .p2p then [.nack f j reason] else []) ∧
  ∃ e ∈ s'.pit, e.interest.toInterest = i.toInterest ∧ ∃ t ∈ s'.sched, t.uid = e.uid ∧ t.due = s'.now

/-- An Interest that the forwarder passes to the strategy. -/
structure Passed (env : Env) (s : St) (i : FwInterest) (f : FaceId) : Prop where
  face : ∃ fi, s.faces f = some fi ∧ Admissible i fi ∧ ¬Looping env s i f fi.link
  noNextHop : i.nextHop = none
  missed : Missed s i

/-- Suppression interval after `k` forwarded retransmissions. -/
def window (c : Retx) : Nat → Nat
  | 0 => c.initial
  | k + 1 => min c.max (c.grow (window c k))

end Verif.Strat
