import Verif.Nfdc.ReportLemmas

/-! The document that the XML report of nfdc is (for C113). -/
namespace Verif.Nfdc.Report
open Verif.Xml

/-! ### Vocabulary -/

/-- Text without markup, of characters that may occur in a document. -/
def Plain (s : Str) : Prop := ∀ c ∈ s, isText c = true
/-- Text of characters that may occur in a document. -/
def Legal (s : Str) : Prop := ∀ c ∈ s, legal c

/-- What is assumed of the text that comes from NFD: no control characters. What ndn-cxx prints for timestamps, the properties of faces and the origin of routes
has no markup. -/
def Ok : Section → Prop
  | .general g => Legal g.version ∧ Plain g.startTime ∧ Plain g.currentTime
  | .channels l => ∀ u ∈ l, Legal u
  | .faces l => ∀ f ∈ l, Legal f.remote ∧ Legal f.local ∧ Plain f.scope ∧ Plain f.persistency ∧ Plain f.linkType
  | .fib l => ∀ i ∈ l, Legal i.prefix_
  | .rib l => ∀ i ∈ l, Legal i.prefix_ ∧ ∀ r ∈ i.routes, Plain r.origin
  | .cs _ => True
  | .strategies l => ∀ i ∈ l, Legal i.1 ∧ Legal i.2

def el (n : String) (ts : List Node) : Node := .elem n.toList ts
def tx (n : String) (s : Str) : List Node := [el n (s.map .chr)]
def nu (n : String) (k : Nat) : List Node := tx n (dec k)
def opt {α : Type} (o : Option α) (f : α → List Node) : List Node := match o with | some a => f a | none => []

/-! ### The document -/

def countersTree (a b c d e f : Nat) : List Node :=
  [el "packetCounters" (
    [el "incomingPackets" (nu "nInterests" a ++ (nu "nData" b ++ nu "nNacks" c))] ++
    [el "outgoingPackets" (nu "nInterests" d ++ (nu "nData" e ++ nu "nNacks" f))])]

def generalBody (g : General) : List Node :=
  tx "version" g.version ++ (tx "startTime" g.startTime ++ (tx "currentTime" g.currentTime ++
    (tx "uptime" (duration (g.uptime * 1000000000)) ++ (nu "nNameTreeEntries" g.nNameTree ++ (nu "nFibEntries" g.nFib ++ (nu "nPitEntries" g.nPit ++
    (nu "nMeasurementsEntries" g.nMeasurements ++ (nu "nCsEntries" g.nCs ++
    (countersTree g.nInInterests g.nInData g.nInNacks g.nOutInterests g.nOutData g.nOutNacks ++
    (nu "nSatisfiedInterests" g.nSatisfied ++ nu "nUnsatisfiedInterests" g.nUnsatisfied))))))))))
def generalTree (g : General) : List Node := [el "generalStatus" (generalBody g)]

def channelBody (u : Str) : List Node :=
  tx "localUri" u
def channelTree (u : Str) : List Node := [el "channel" (channelBody u)]

def bitTree (n : String) (b : Bool) : List Node := if b then [el n []] else []

def faceBody (f : FaceStatus) : List Node :=
  nu "faceId" f.id ++ (tx "remoteUri" f.remote ++ (tx "localUri" f.local ++
    (opt f.expires (fun d => tx "expirationPeriod" (duration d)) ++ (tx "faceScope" f.scope ++ (tx "facePersistency" f.persistency ++ (tx "linkType" f.linkType ++
    ([el "congestion" (opt f.interval (fun d => tx "baseMarkingInterval" (duration d)) ++ opt f.threshold (nu "defaultThreshold"))] ++
    (opt f.mtu (nu "mtu") ++
    ([el "flags" (bitTree "localFieldsEnabled" (bit f.flags 0) ++ (bitTree "lpReliabilityEnabled" (bit f.flags 1) ++
      bitTree "congestionMarkingEnabled" (bit f.flags 2)))] ++
    (countersTree f.nInInterests f.nInData f.nInNacks f.nOutInterests f.nOutData f.nOutNacks ++
    [el "byteCounters" (nu "incomingBytes" f.nInBytes ++ nu "outgoingBytes" f.nOutBytes)]))))))))))
def faceTree (f : FaceStatus) : List Node := [el "face" (faceBody f)]

def hopBody (h : Nat × Nat) : List Node :=
  nu "faceId" h.1 ++ nu "cost" h.2
def hopTree (h : Nat × Nat) : List Node := [el "nextHop" (hopBody h)]
def fibBody (i : FibItem) : List Node :=
  tx "prefix" i.prefix_ ++ [el "nextHops" (i.hops.flatMap hopTree)]
def fibTree (i : FibItem) : List Node := [el "fibEntry" (fibBody i)]

def routeBody (r : RouteItem) : List Node :=
  nu "faceId" r.face ++ (tx "origin" r.origin ++ (nu "cost" r.cost ++
    ([el "flags" (bitTree "childInherit" (bit r.flags 0) ++ bitTree "ribCapture" (bit r.flags 1))] ++
    opt r.expires (fun d => tx "expirationPeriod" (duration (d * 1000000000))))))
def routeTree (r : RouteItem) : List Node := [el "route" (routeBody r)]
def ribBody (i : RibItem) : List Node :=
  tx "prefix" i.prefix_ ++ [el "routes" (i.routes.flatMap routeTree)]
def ribTree (i : RibItem) : List Node := [el "ribEntry" (ribBody i)]

def csBody (c : CsItem) : List Node :=
  nu "capacity" c.capacity ++ (bitTree "admitEnabled" c.admit ++ (bitTree "serveEnabled" c.serve ++ (nu "nEntries" c.nEntries ++
    (nu "nHits" c.nHits ++ nu "nMisses" c.nMisses))))
def csTree (c : CsItem) : List Node := [el "cs" (csBody c)]

def strategyBody (i : Str × Str) : List Node :=
  tx "namespace" i.1 ++ [el "strategy" (tx "name" i.2)]
def strategyTree (i : Str × Str) : List Node := [el "strategyChoice" (strategyBody i)]

def tree : Section → List Node
  | .general g => generalTree g
  | .channels l => [el "channels" (l.flatMap channelTree)]
  | .faces l => [el "faces" (l.flatMap faceTree)]
  | .fib l => [el "fib" (l.flatMap fibTree)]
  | .rib l => [el "rib" (l.flatMap ribTree)]
  | .cs c => csTree c
  | .strategies l => [el "strategyChoices" (l.flatMap strategyTree)]

theorem wrap_el {o c n : String} {x : Str} {ts : List Node} (ho : lit o = '<' :: (n.toList ++ ['>'])) (hc : lit c = '<' :: '/' :: (n.toList ++ ['>']))
    (hn : isName n.toList = true) (h : Frag x ts) : Frag (wrap o x c) [el n ts] := Frag.elem ho hc hn h

theorem wrap_nu {o c n : String} {k : Nat} (ho : lit o = '<' :: (n.toList ++ ['>'])) (hc : lit c = '<' :: '/' :: (n.toList ++ ['>']))
    (hn : isName n.toList = true) : Frag (wrap o (dec k) c) (nu n k) := wrap_el ho hc hn (Frag.dec k)

theorem wrap_dur {o c n : String} {d : Int} (ho : lit o = '<' :: (n.toList ++ ['>'])) (hc : lit c = '<' :: '/' :: (n.toList ++ ['>']))
    (hn : isName n.toList = true) : Frag (wrap o (duration d) c) (tx n (duration d)) := wrap_el ho hc hn (Frag.duration d)

theorem wrap_tx {o c n : String} {s : Str} (ho : lit o = '<' :: (n.toList ++ ['>'])) (hc : lit c = '<' :: '/' :: (n.toList ++ ['>']))
    (hn : isName n.toList = true) (h : Legal s) : Frag (wrap o (text s) c) (tx n s) := wrap_el ho hc hn (Frag.text h)

theorem wrap_plain {o c n : String} {s : Str} (ho : lit o = '<' :: (n.toList ++ ['>'])) (hc : lit c = '<' :: '/' :: (n.toList ++ ['>']))
    (hn : isName n.toList = true) (h : Plain s) : Frag (wrap o s c) (tx n s) := wrap_el ho hc hn (Frag.plain h)

theorem bitTree_frag {s : String} {b : Bool} (hn : isName (lit s) = true) : Frag (Report.flag s b) (bitTree s b) := Frag.flag s b hn

theorem opt_frag {α : Type} {o : Option α} {f : α → Str} {g : α → List Node} (h : ∀ a, Frag (f a) (g a)) : Frag (optional o f) (opt o g) := by
  cases o with
  | none => exact Frag.nil
  | some a => exact h a

theorem bits_zero {f i : Nat} (h : f = 0) : bit f i = false := by subst h; simp [bit]

macro "frag" : tactic => `(tactic| repeat' first
  | (with_reducible assumption)
  | (with_reducible refine wrap_nu ?_ ?_ ?_)
  | (with_reducible refine wrap_dur ?_ ?_ ?_)
  | (with_reducible refine wrap_tx ?_ ?_ ?_ ?_)
  | (with_reducible refine wrap_plain ?_ ?_ ?_ ?_)
  | (with_reducible refine bitTree_frag ?_)
  | (with_reducible refine wrap_el ?_ ?_ ?_ ?_)
  | (with_reducible refine opt_frag (fun _ => ?_))
  | (with_reducible refine Frag.append ?_ ?_)
  | rfl
  | decide)

theorem counters_frag (a b c d e f : Nat) : Frag (packetCounters a b c d e f) (countersTree a b c d e f) := by
  unfold packetCounters countersTree
  frag

theorem general_frag (g : General) (h : Ok (.general g)) : Frag (generalXml g) (generalTree g) := by
  obtain ⟨h1, h2, h3⟩ := h
  have := counters_frag g.nInInterests g.nInData g.nInNacks g.nOutInterests g.nOutData g.nOutNacks
  unfold generalXml generalTree generalBody
  frag

theorem channel_frag {u : Str} (h : Legal u) : Frag (channelXml u) (channelTree u) := by
  unfold channelXml channelTree channelBody
  frag

theorem face_frag {f : FaceStatus} (h : Legal f.remote ∧ Legal f.local ∧ Plain f.scope ∧ Plain f.persistency ∧ Plain f.linkType) :
    Frag (faceXml f) (faceTree f) := by
  obtain ⟨h1, h2, h3, h4, h5⟩ := h
  have hc := counters_frag f.nInInterests f.nInData f.nInNacks f.nOutInterests f.nOutData f.nOutNacks
  have e3 : Frag (if f.interval.isNone && f.threshold.isNone then lit "<congestion/>"
      else wrap "<congestion>" (optional f.interval (fun d => wrap "<baseMarkingInterval>" (duration d) "</baseMarkingInterval>") ++
          optional f.threshold (fun n => wrap "<defaultThreshold>" (dec n) "</defaultThreshold>")) "</congestion>")
      [el "congestion" (opt f.interval (fun d => tx "baseMarkingInterval" (duration d)) ++ opt f.threshold (nu "defaultThreshold"))] := by
    by_cases hh : (f.interval.isNone && f.threshold.isNone) = true
    · rw [if_pos hh]
      simp only [Bool.and_eq_true, Option.isNone_iff_eq_none] at hh
      rw [hh.1, hh.2]
      exact Frag.empty' (n := lit "congestion") (by rfl) (by decide)
    · rw [if_neg hh]
      frag
  have e4 : Frag (if f.flags = 0 then lit "<flags/>"
      else wrap "<flags>" (flag "localFieldsEnabled" (bit f.flags 0) ++ (flag "lpReliabilityEnabled" (bit f.flags 1) ++
          flag "congestionMarkingEnabled" (bit f.flags 2))) "</flags>")
      [el "flags" (bitTree "localFieldsEnabled" (bit f.flags 0) ++ (bitTree "lpReliabilityEnabled" (bit f.flags 1) ++
        bitTree "congestionMarkingEnabled" (bit f.flags 2)))] := by
    by_cases hh : f.flags = 0
    · rw [if_pos hh, bits_zero hh, bits_zero hh, bits_zero hh]
      exact Frag.empty' (n := lit "flags") (by rfl) (by decide)
    · rw [if_neg hh]
      frag
  unfold faceXml faceTree faceBody
  frag

theorem fib_frag {i : FibItem} (h : Legal i.prefix_) : Frag (fibItemXml i) (fibTree i) := by
  have hh : Frag (i.hops.flatMap hopXml) (i.hops.flatMap hopTree) := Frag.flatMap (fun x _ => by
    unfold hopXml hopTree hopBody
    frag)
  unfold fibItemXml fibTree fibBody
  frag

theorem route_frag {r : RouteItem} (h : Plain r.origin) : Frag (routeXml r) (routeTree r) := by
  have e2 : Frag (if r.flags = 0 then lit "<flags/>"
      else wrap "<flags>" ((if bit r.flags 0 then lit "<childInherit/>" else []) ++ (if bit r.flags 1 then lit "<ribCapture/>" else [])) "</flags>")
      [el "flags" (bitTree "childInherit" (bit r.flags 0) ++ bitTree "ribCapture" (bit r.flags 1))] := by
    by_cases hh : r.flags = 0
    · rw [if_pos hh, bits_zero hh, bits_zero hh]
      exact Frag.empty' (n := lit "flags") (by rfl) (by decide)
    · rw [if_neg hh]
      have b1 : Frag (if bit r.flags 0 then lit "<childInherit/>" else []) (bitTree "childInherit" (bit r.flags 0)) :=
        Frag.ite (fun _ => Frag.empty' (by rfl) (by decide)) (fun _ => Frag.nil)
      have b2 : Frag (if bit r.flags 1 then lit "<ribCapture/>" else []) (bitTree "ribCapture" (bit r.flags 1)) :=
        Frag.ite (fun _ => Frag.empty' (by rfl) (by decide)) (fun _ => Frag.nil)
      frag
  unfold routeXml routeTree routeBody
  frag

theorem rib_frag {i : RibItem} (h : Legal i.prefix_) (h' : ∀ r ∈ i.routes, Plain r.origin) : Frag (ribItemXml i) (ribTree i) := by
  have hh : Frag (i.routes.flatMap routeXml) (i.routes.flatMap routeTree) := Frag.flatMap (fun x hx => route_frag (h' x hx))
  unfold ribItemXml ribTree ribBody
  frag

theorem cs_frag (c : CsItem) : Frag (csXml c) (csTree c) := by
  unfold csXml csTree csBody
  frag

theorem strategy_frag {i : Str × Str} (h : Legal i.1 ∧ Legal i.2) : Frag (strategyXml i) (strategyTree i) := by
  obtain ⟨h1, h2⟩ := h
  unfold strategyXml strategyTree strategyBody
  frag

theorem section_frag {s : Section} (h : Ok s) : Frag (sectionXml s) (tree s) := by
  cases s with
  | general g => exact general_frag g h
  | channels l => exact Frag.elem (by rfl) (by rfl) (by decide) (Frag.flatMap (fun x hx => channel_frag (h x hx)))
  | faces l => exact Frag.elem (by rfl) (by rfl) (by decide) (Frag.flatMap (fun x hx => face_frag (h x hx)))
  | fib l => exact Frag.elem (by rfl) (by rfl) (by decide) (Frag.flatMap (fun x hx => fib_frag (h x hx)))
  | rib l => exact Frag.elem (by rfl) (by rfl) (by decide) (Frag.flatMap (fun x hx => rib_frag (h x hx).1 (h x hx).2))
  | cs c => exact cs_frag c
  | strategies l => exact Frag.elem (by rfl) (by rfl) (by decide) (Frag.flatMap (fun x hx => strategy_frag (h x hx)))

theorem doc (l : List Section) (h : ∀ s ∈ l, Ok s) : parse (formatXml l) = some (.elem (lit "nfdStatus") (l.flatMap tree)) := by
  have h1 : Xml.run {} (lit "<?xml version=\"1.0\"?>" ++ lit "<nfdStatus xmlns=\"ndn:/localhost/nfd/status/1\">") =
      some ⟨.content, [(lit "nfdStatus", [])], true, none⟩ := by rfl
  have h2 : Frag (l.flatMap sectionXml) (l.flatMap tree) := Frag.flatMap (fun x hx => section_frag (h x hx))
  have h3 : ∀ ts, Xml.run ⟨.content, [(lit "nfdStatus", ts)], true, none⟩ (lit "</nfdStatus>") =
      some ⟨.content, [], true, some (.elem (lit "nfdStatus") ts)⟩ := by intro ts; rfl
  unfold parse formatXml
  rw [run_append, run_append, h1, Option.bind_some, h2, Option.bind_some, h3]
  rfl

end Verif.Nfdc.Report
