import Verif.Nfdc.Ops
import Verif.Nfdc.ArgsSpec

/-! What is said about the requests that nfdc sends. -/
namespace Verif.Nfdc.Ops

/-- The question that finds the faces a FaceId or a remote FaceUri stands for. A FaceUri is made canonical first, if its scheme allows. -/
inductive Asks (x : World) (h : Hist) : Target → Filter → Prop
  | id (n : Nat) : Asks x h (.id n) ⟨some n, none, none, none⟩
  | plain (u : Uri) : x.canCanonize u.scheme = false → Asks x h (.uri u) ⟨none, some u, none, none⟩
  | canon (u c : Uri) : x.canCanonize u.scheme = true → .canon u (some c) ∈ h → Asks x h (.uri u) ⟨none, some c, none, none⟩

/-- NFD has answered that exactly these faces match. -/
def Matches (x : World) (h : Hist) (t : Target) (l : List Status) : Prop := ∃ f, Asks x h t f ∧ .query f (some l) ∈ h

/-- NFD could not be asked, or has not answered. -/
def NoAnswer (x : World) (h : Hist) (t : Target) : Prop := ∃ f, Asks x h t f ∧ .query f none ∈ h

/-- The name of the host or the like could not be resolved. -/
def NotCanonical (h : Hist) (t : Target) : Prop := ∃ u, t = .uri u ∧ .canon u none ∈ h

/-- The MTU that the argument stands for. -/
inductive MtuMeans : Option Tok → Option Nat → Prop
  | absent : MtuMeans none none
  | auto : MtuMeans (some ['a', 'u', 't', 'o']) (some (2 ^ 64 - 1))
  | number (t : Tok) (n : Nat) : t ≠ ['a', 'u', 't', 'o'] → Unsigned t n → MtuMeans (some t) (some n)

/-- Persistency in the order on-demand, persistent, permanent. -/
def rank : Pers → Nat
  | .none => 0
  | .onDemand => 1
  | .persistent => 2
  | .permanent => 3

/-- A request to create the face asks for what the arguments say, and for nothing else. -/
structure Requests (a : CreateArgs) (h : Hist) (p : Params) : Prop where
  id : p.id = none
  uri : ∃ c, p.uri = some c ∧ h.head? = some (.canon a.remote (some c))
  noLocal : a.localUri = none → p.localUri = none
  localUri : ∀ l, a.localUri = some l → ∃ c, p.localUri = some c ∧ .canon l (some c) ∈ h
  pers : p.pers = some a.pers
  reliability : p.reliability = a.reliability
  marking : p.marking = a.marking
  interval : p.interval = a.interval
  threshold : p.threshold = a.threshold
  mtu : MtuMeans a.mtu p.mtu

/-- The face described by `b` is as the arguments ask, with `q` changed. -/
structure AsAsked (a : CreateArgs) (b : Info) (q : Params) : Prop where
  pers : rank a.pers ≤ rank (q.pers.getD b.pers)
  reliability : ∀ v, a.reliability = some v → q.reliability.getD b.reliability = v
  marking : ∀ v, a.marking = some v → q.marking.getD b.marking = v
  interval : q.interval = a.interval
  threshold : q.threshold = a.threshold
  mtu : ∀ m, MtuMeans a.mtu (some m) → q.mtu = some m ∨ (q.mtu = none ∧ b.mtu = some m)

/-- `q` changes only what the arguments ask for and what is not so already; persistency is never lowered. -/
structure Sparing (a : CreateArgs) (b : Info) (q : Params) : Prop where
  id : q.id = some b.id
  uri : q.uri = none ∧ q.localUri = none
  pers : ∀ v, q.pers = some v → v = a.pers ∧ rank b.pers < rank v
  reliability : ∀ v, q.reliability = some v → a.reliability = some v ∧ b.reliability ≠ v
  marking : ∀ v, q.marking = some v → a.marking = some v ∧ b.marking ≠ v
  mtu : ∀ v, q.mtu = some v → MtuMeans a.mtu (some v) ∧ b.mtu ≠ some v

/-- No change. -/
def noChange (b : Info) : Params := { id := some b.id }

/-- The origin of a route: static (255) unless another is given. -/
def askedOrigin : Option Nat → Nat
  | none => 255
  | some o => o

/-- A route as asked for by `route add`. -/
structure RouteAsked (a : AddArgs) (p : Route) : Prop where
  name : p.name = a.prefix_
  origin : p.origin = askedOrigin a.origin
  cost : p.cost = match a.cost with | none => 0 | some c => c
  inherit : p.flags.testBit 0 = !a.noInherit
  capture : p.flags.testBit 1 = a.capture
  flags : p.flags < 4
  expires : p.expires = a.expires

def isCreate : Call → Bool
  | .create .. => true
  | _ => false

def isUpdate : Call → Bool
  | .update .. => true
  | _ => false

/-- Any request that changes something. -/
def isCommand : Call → Bool
  | .create .. => true
  | .update .. => true
  | .destroy .. => true
  | .register .. => true
  | .unregister .. => true
  | _ => false

/-- A FaceUri given to `face list` is put into the query in its canonical form, if its scheme has one. -/
inductive Listed (x : World) (h : Hist) : Option Uri → Option Uri → Prop
  | absent : Listed x h none none
  | plain (u : Uri) : x.canCanonize u.scheme = false → Listed x h (some u) (some u)
  | canon (u c : Uri) : x.canCanonize u.scheme = true → .canon u (some c) ∈ h → Listed x h (some u) (some c)

end Verif.Nfdc.Ops
