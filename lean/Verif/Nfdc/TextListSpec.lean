import Verif.Nfdc.TextList
/-! What the lists should tell. -/
namespace Verif.Nfdc.TextList

open Report

/-- One word: neither blanks nor ends of lines. -/
def Word (s : Str) : Prop := ' ' ∉ s ∧ '\n' ∉ s

/-- The two items are the same as far as they are shown: times in seconds and milliseconds, and the three flags that are known. -/
structure SameFace (f g : FaceStatus) : Prop where
  id : f.id = g.id
  remote : f.remote = g.remote
  «local» : f.local = g.local
  expires : f.expires.map (·.tdiv 1000000000) = g.expires.map (·.tdiv 1000000000)
  interval : f.interval.map (·.tdiv 1000000) = g.interval.map (·.tdiv 1000000)
  threshold : f.threshold = g.threshold
  mtu : f.mtu = g.mtu
  inInterests : f.nInInterests = g.nInInterests
  inData : f.nInData = g.nInData
  inNacks : f.nInNacks = g.nInNacks
  inBytes : f.nInBytes = g.nInBytes
  outInterests : f.nOutInterests = g.nOutInterests
  outData : f.nOutData = g.nOutData
  outNacks : f.nOutNacks = g.nOutNacks
  outBytes : f.nOutBytes = g.nOutBytes
  scope : f.scope = g.scope
  persistency : f.persistency = g.persistency
  linkType : f.linkType = g.linkType
  flags : ∀ i, i < 3 → bit f.flags i = bit g.flags i

/-- What is printed for the face as it is consists of words. -/
def WordsFace (f : FaceStatus) : Prop := Word f.remote ∧ Word f.local ∧ Word f.scope ∧ Word f.persistency ∧ Word f.linkType

/-- The two routes are the same, but for flags that look the same. -/
structure SameRoute (fl : Nat → Str) (r s : RouteItem) : Prop where
  face : r.face = s.face
  origin : r.origin = s.origin
  cost : r.cost = s.cost
  flags : fl r.flags = fl s.flags
  expires : r.expires = s.expires

/-- What is printed as it is for the entry consists of words without commas. -/
def WordsRib (fl : Nat → Str) (i : RibItem) : Prop := Word i.prefix_ ∧ ∀ r ∈ i.routes, Word r.origin ∧ ',' ∉ r.origin ∧ Word (fl r.flags) ∧ ',' ∉ fl r.flags

/-- The lists have the same length, and the items at the same place are related. -/
def Alike {α : Type} (R : α → α → Prop) : List α → List α → Prop
  | [], [] => True
  | x :: l, y :: m => R x y ∧ Alike R l m
  | _, _ => False

end Verif.Nfdc.TextList
