import Verif.Nfdc.ReportDoc

/-! C113: the report of `nfdc status report xml` can be read, and it says what NFD has said. -/
namespace Verif.Nfdc.Report
open Verif.Xml

/-! ### Vocabulary -/

/-- One `x` for each `y`, in the same order, and related to it. -/
def Each {α β : Type} (R : α → β → Prop) (xs : List α) (ys : List β) : Prop :=
  xs.length = ys.length ∧ ∀ (i : Nat) x y, xs[i]? = some x → ys[i]? = some y → R x y

/-- There is one element on the path, and its text is a number in decimal. -/
def Number (ts : List Node) (p : List String) (n : Nat) : Prop := ∃ t, texts p ts = [t] ∧ Decimal t n

/-- There is one element on the path, and it has this text. -/
def Says (ts : List Node) (p : List String) (s : Str) : Prop := texts p ts = [s]

/-- There is an element on the path. -/
def Has (ts : List Node) (p : List String) : Prop := find p ts ≠ []

/-- The text of a duration in milliseconds, as XML Schema has it. -/
def IsDuration (s : Str) (ms : Int) : Prop :=
  ∃ sign body t sec, Decimal t sec ∧ s = sign ++ body ∧
    ∃ abs : Nat, ((sign = [] ∧ ms = abs) ∨ (sign = ['-'] ∧ ms = -abs)) ∧
      ((body = 'P' :: 'T' :: (t ++ ['S']) ∧ abs = 1000 * sec) ∨
        ∃ u k, Decimal u k ∧ u.length = 3 ∧ body = 'P' :: 'T' :: (t ++ '.' :: (u ++ ['S'])) ∧ abs = 1000 * sec + k)

/-- There is an element with a duration on the path exactly if there is a value. -/
def Duration (ts : List Node) (p : List String) (ns : Option Int) : Prop :=
  match ns with
  | none => ¬ Has ts p
  | some d => ∃ t, texts p ts = [t] ∧ IsDuration t (d.tdiv 1000000)

def OptNumber (ts : List Node) (p : List String) (n : Option Nat) : Prop :=
  match n with
  | none => ¬ Has ts p
  | some n => Number ts p n

def facesOf (l : List Section) : List FaceStatus := l.flatMap (fun s => match s with | .faces x => x | _ => [])
def channelsOf (l : List Section) : List Str := l.flatMap (fun s => match s with | .channels x => x | _ => [])
def fibOf (l : List Section) : List FibItem := l.flatMap (fun s => match s with | .fib x => x | _ => [])
def ribOf (l : List Section) : List RibItem := l.flatMap (fun s => match s with | .rib x => x | _ => [])
def csOf (l : List Section) : List CsItem := l.flatMap (fun s => match s with | .cs x => [x] | _ => [])
def strategiesOf (l : List Section) : List (Str × Str) := l.flatMap (fun s => match s with | .strategies x => x | _ => [])
def generalOf (l : List Section) : List General := l.flatMap (fun s => match s with | .general x => [x] | _ => [])

def CountersShown (ts : List Node) (a b c d e f : Nat) : Prop :=
  Number ts ["packetCounters", "incomingPackets", "nInterests"] a ∧ Number ts ["packetCounters", "incomingPackets", "nData"] b ∧
  Number ts ["packetCounters", "incomingPackets", "nNacks"] c ∧ Number ts ["packetCounters", "outgoingPackets", "nInterests"] d ∧
  Number ts ["packetCounters", "outgoingPackets", "nData"] e ∧ Number ts ["packetCounters", "outgoingPackets", "nNacks"] f

/-- What the contents of a `face` element say of the face. -/
def FaceShown (ts : List Node) (f : FaceStatus) : Prop :=
  Number ts ["faceId"] f.id ∧ Says ts ["remoteUri"] f.remote ∧ Says ts ["localUri"] f.local ∧ Duration ts ["expirationPeriod"] f.expires ∧
  Says ts ["faceScope"] f.scope ∧ Says ts ["facePersistency"] f.persistency ∧ Says ts ["linkType"] f.linkType ∧
  Duration ts ["congestion", "baseMarkingInterval"] f.interval ∧ OptNumber ts ["congestion", "defaultThreshold"] f.threshold ∧ OptNumber ts ["mtu"] f.mtu ∧
  (Has ts ["flags", "localFieldsEnabled"] ↔ f.flags.testBit 0 = true) ∧ (Has ts ["flags", "lpReliabilityEnabled"] ↔ f.flags.testBit 1 = true) ∧
  (Has ts ["flags", "congestionMarkingEnabled"] ↔ f.flags.testBit 2 = true) ∧
  CountersShown ts f.nInInterests f.nInData f.nInNacks f.nOutInterests f.nOutData f.nOutNacks ∧
  Number ts ["byteCounters", "incomingBytes"] f.nInBytes ∧ Number ts ["byteCounters", "outgoingBytes"] f.nOutBytes

def HopShown (ts : List Node) (h : Nat × Nat) : Prop := Number ts ["faceId"] h.1 ∧ Number ts ["cost"] h.2

def FibShown (ts : List Node) (i : FibItem) : Prop := Says ts ["prefix"] i.prefix_ ∧ Each HopShown (find ["nextHops", "nextHop"] ts) i.hops

def RouteShown (ts : List Node) (r : RouteItem) : Prop :=
  Number ts ["faceId"] r.face ∧ Says ts ["origin"] r.origin ∧ Number ts ["cost"] r.cost ∧ (Has ts ["flags", "childInherit"] ↔ r.flags.testBit 0 = true) ∧
  (Has ts ["flags", "ribCapture"] ↔ r.flags.testBit 1 = true) ∧ Duration ts ["expirationPeriod"] (r.expires.map (· * 1000000000))

def RibShown (ts : List Node) (i : RibItem) : Prop := Says ts ["prefix"] i.prefix_ ∧ Each RouteShown (find ["routes", "route"] ts) i.routes

def CsShown (ts : List Node) (c : CsItem) : Prop :=
  Number ts ["capacity"] c.capacity ∧ (Has ts ["admitEnabled"] ↔ c.admit = true) ∧ (Has ts ["serveEnabled"] ↔ c.serve = true) ∧
  Number ts ["nEntries"] c.nEntries ∧ Number ts ["nHits"] c.nHits ∧ Number ts ["nMisses"] c.nMisses

def StrategyShown (ts : List Node) (i : Str × Str) : Prop := Says ts ["namespace"] i.1 ∧ Says ts ["strategy", "name"] i.2

def GeneralShown (ts : List Node) (g : General) : Prop :=
  Says ts ["version"] g.version ∧ Says ts ["startTime"] g.startTime ∧ Says ts ["currentTime"] g.currentTime ∧
  Duration ts ["uptime"] (some (g.uptime * 1000000000)) ∧ Number ts ["nNameTreeEntries"] g.nNameTree ∧ Number ts ["nFibEntries"] g.nFib ∧
  Number ts ["nPitEntries"] g.nPit ∧ Number ts ["nMeasurementsEntries"] g.nMeasurements ∧ Number ts ["nCsEntries"] g.nCs ∧
  CountersShown ts g.nInInterests g.nInData g.nInNacks g.nOutInterests g.nOutData g.nOutNacks ∧
  Number ts ["nSatisfiedInterests"] g.nSatisfied ∧ Number ts ["nUnsatisfiedInterests"] g.nUnsatisfied

/-! ### Lemmas on paths -/

theorem toList_eq {m n : String} : m.toList = n.toList ↔ m = n := String.toList_inj

theorem find_append (n : String) (p : List String) (a b : List Node) : find (n :: p) (a ++ b) = find (n :: p) a ++ find (n :: p) b := by
  simp only [find, select, List.filterMap_append, List.flatMap_append]

theorem find_nil (n : String) (p : List String) : find (n :: p) [] = [] := rfl

theorem find_el (n : String) (p : List String) (m : String) (ts : List Node) : find (n :: p) [el m ts] = if m = n then find p ts else [] := by
  simp only [find, select, el, List.filterMap_cons, List.filterMap_nil, toList_eq]
  by_cases h : m = n
  · simp [h]
  · simp [h]

theorem find_cons (n : String) (p : List String) (m : String) (ts r : List Node) :
    find (n :: p) (el m ts :: r) = (if m = n then find p ts else []) ++ find (n :: p) r := by
  rw [← List.singleton_append (x := el m ts), find_append, find_el]

theorem find_chr (n : String) (p : List String) (s : Str) : find (n :: p) (s.map .chr) = [] := by
  induction s with
  | nil => rfl
  | cons c s ih =>
    rw [List.map_cons, ← List.singleton_append (x := Node.chr c), find_append, ih]; rfl

theorem find_tx_one (n m : String) (s : Str) : find [n] (tx m s) = if m = n then [s.map .chr] else [] := by
  unfold tx; rw [find_el]; rfl

theorem find_tx_two (n k : String) (p : List String) (m : String) (s : Str) : find (n :: k :: p) (tx m s) = [] := by
  unfold tx; rw [find_el, find_chr]; split <;> rfl

theorem find_flatMap {α : Type} (n : String) (p : List String) (l : List α) (f : α → List Node) :
    find (n :: p) (l.flatMap f) = l.flatMap (fun x => find (n :: p) (f x)) := by
  induction l with
  | nil => rfl
  | cons a l ih => rw [List.flatMap_cons, List.flatMap_cons, find_append, ih]

theorem find_bit (n : String) (m : String) (b : Bool) : find [n] (bitTree m b) = if m = n ∧ b = true then [[]] else [] := by
  cases b with
  | false => simp [bitTree, find_nil]
  | true => simp [bitTree, find_el]; rfl

theorem find_bit_two (n k : String) (p : List String) (m : String) (b : Bool) : find (n :: k :: p) (bitTree m b) = [] := by
  cases b with
  | false => simp [bitTree, find_nil]
  | true => simp [bitTree, find_el, find_nil]

theorem find_opt {α : Type} (n : String) (p : List String) (o : Option α) (f : α → List Node) :
    find (n :: p) (opt o f) = match o with | some a => find (n :: p) (f a) | none => [] := by
  cases o <;> rfl

theorem textOf_chr (s : Str) : textOf (s.map .chr) = s := by
  unfold textOf
  induction s with
  | nil => rfl
  | cons c s ih => simpa using ih

theorem find_nu_one (n m : String) (k : Nat) : find [n] (nu m k) = if m = n then [(dec k).map .chr] else [] := find_tx_one n m (dec k)
theorem find_nu_two (n k : String) (p : List String) (m : String) (i : Nat) : find (n :: k :: p) (nu m i) = [] := find_tx_two n k p m (dec i)

theorem number_of {ts : List Node} {p : List String} {n : Nat} (h : find p ts = [(dec n).map .chr]) : Number ts p n :=
  ⟨dec n, by unfold texts; rw [h]; simp [textOf_chr], dec_decimal n⟩

theorem says_of {ts : List Node} {p : List String} {s : Str} (h : find p ts = [s.map .chr]) : Says ts p s := by
  unfold Says texts; rw [h]; simp [textOf_chr]

/-! ### Durations -/

theorem zero_decimal {t : Str} {n : Nat} (h : Decimal t n) : Decimal ('0' :: t) n := by
  induction h with
  | one c d hd hc => exact Decimal.snoc ['0'] 0 c d (.one '0' 0 (by omega) rfl) hd hc |> (by simpa using ·)
  | snoc t n c d _ hd hc ih => exact Decimal.snoc ('0' :: t) n c d ih hd hc

theorem zeros_decimal {t : Str} {n : Nat} (h : Decimal t n) (k : Nat) : Decimal (List.replicate k '0' ++ t) n := by
  induction k with
  | zero => exact h
  | succ k ih => rw [List.replicate_succ, List.cons_append]; exact zero_decimal ih

theorem dec_length {n : Nat} (h : n < 1000) : (dec n).length ≤ 3 := by
  rw [dec]
  split
  · simp
  · rw [List.length_append, dec]
    split
    · simp
    · rw [List.length_append, dec]
      rw [if_pos (by omega)]; simp

theorem duration_core {d X : Int} {s ms v : Nat} (hlt : ms < 1000) (hval : 1000 * s + ms = v) (hneg : d < 0 → X = -(v : Int)) (hpos : ¬ d < 0 → X = v) :
    IsDuration ((if d < 0 then lit "-" else []) ++ lit "PT" ++ dec s ++ (if 1 ≤ ms then lit "." ++ pad3 (dec ms) else []) ++ lit "S") X := by
  unfold IsDuration
  refine ⟨if d < 0 then ['-'] else [], 'P' :: 'T' :: (dec s ++ ((if 1 ≤ ms then '.' :: pad3 (dec ms) else []) ++ ['S'])), dec s, s, dec_decimal _, ?_, v, ?_, ?_⟩
  · have e1 : lit "-" = ['-'] := rfl
    have e2 : lit "PT" = ['P', 'T'] := rfl
    have e3 : lit "S" = ['S'] := rfl
    have e4 : lit "." = ['.'] := rfl
    rw [e1, e2, e3, e4]
    simp
  · by_cases h : d < 0
    · rw [if_pos h]; exact Or.inr ⟨rfl, hneg h⟩
    · rw [if_neg h]; exact Or.inl ⟨rfl, hpos h⟩
  · by_cases h : 1 ≤ ms
    · rw [if_pos h]
      refine Or.inr ⟨pad3 (dec ms), ms, ?_, ?_, by simp, hval.symm⟩
      · exact zeros_decimal (dec_decimal _) _
      · have := dec_length hlt
        unfold pad3; simp; omega
    · rw [if_neg h]
      refine Or.inl ⟨by simp, by omega⟩

theorem tdiv_neg {d : Int} {a : Nat} (ha : d.natAbs = a) (h : d < 0) : d.tdiv 1000000 = -((a / 1000000 : Nat) : Int) := by
  have e : d = -(a : Int) := by omega
  rw [e, Int.neg_tdiv, Int.tdiv_eq_ediv_of_nonneg (by omega)]; omega

theorem tdiv_pos {d : Int} {a : Nat} (ha : d.natAbs = a) (h : ¬ d < 0) : d.tdiv 1000000 = ((a / 1000000 : Nat) : Int) := by
  have e : d = (a : Int) := by omega
  rw [e, Int.tdiv_eq_ediv_of_nonneg (by omega)]; omega

theorem split_ms (a : Nat) : (a - a / 1000000000 * 1000000000) / 1000000 < 1000 ∧
    1000 * (a / 1000000000) + (a - a / 1000000000 * 1000000000) / 1000000 = a / 1000000 := by
  omega

theorem duration_is (d : Int) : IsDuration (duration d) (d.tdiv 1000000) := by
  have h := split_ms d.natAbs
  exact duration_core h.1 h.2 (tdiv_neg rfl) (tdiv_pos rfl)

theorem duration_of {ts : List Node} {p : List String} {d : Int} (h : find p ts = [(duration d).map .chr]) :
    ∃ t, texts p ts = [t] ∧ IsDuration t (d.tdiv 1000000) :=
  ⟨duration d, by unfold texts; rw [h]; simp [textOf_chr], duration_is d⟩

theorem each_of {α : Type} {R : List Node → α → Prop} {xs : List (List Node)} {ys : List α} {f : α → List Node} (h : xs = ys.map f) (hR : ∀ y, R (f y) y) :
    Each R xs ys := by
  subst h
  refine ⟨by simp, fun i x y hx hy => ?_⟩
  rw [List.getElem?_map, hy] at hx
  cases hx
  exact hR y

theorem flatMap_single {α β : Type} (l : List α) (f : α → β) : l.flatMap (fun x => [f x]) = l.map f := by
  induction l with
  | nil => rfl
  | cons a l ih => simp [List.flatMap_cons, ih]

theorem faces_found (l : List Section) : find ["faces", "face"] (l.flatMap tree) = (facesOf l).map faceBody := by
  rw [find_flatMap, facesOf, List.map_flatMap]
  congr 1; funext s
  cases s with
  | faces x => simp only [tree, find_el, if_true, find_flatMap, faceTree]; exact flatMap_single x faceBody
  | _ => simp [tree, find_el, generalTree, csTree]

theorem channels_found (l : List Section) : find ["channels", "channel"] (l.flatMap tree) = (channelsOf l).map channelBody := by
  rw [find_flatMap, channelsOf, List.map_flatMap]
  congr 1; funext s
  cases s with
  | channels x => simp only [tree, find_el, if_true, find_flatMap, channelTree]; exact flatMap_single x channelBody
  | _ => simp [tree, find_el, generalTree, csTree]

theorem fib_found (l : List Section) : find ["fib", "fibEntry"] (l.flatMap tree) = (fibOf l).map fibBody := by
  rw [find_flatMap, fibOf, List.map_flatMap]
  congr 1; funext s
  cases s with
  | fib x => simp only [tree, find_el, if_true, find_flatMap, fibTree]; exact flatMap_single x fibBody
  | _ => simp [tree, find_el, generalTree, csTree]

theorem rib_found (l : List Section) : find ["rib", "ribEntry"] (l.flatMap tree) = (ribOf l).map ribBody := by
  rw [find_flatMap, ribOf, List.map_flatMap]
  congr 1; funext s
  cases s with
  | rib x => simp only [tree, find_el, if_true, find_flatMap, ribTree]; exact flatMap_single x ribBody
  | _ => simp [tree, find_el, generalTree, csTree]

theorem strategies_found (l : List Section) : find ["strategyChoices", "strategyChoice"] (l.flatMap tree) = (strategiesOf l).map strategyBody := by
  rw [find_flatMap, strategiesOf, List.map_flatMap]
  congr 1; funext s
  cases s with
  | strategies x => simp only [tree, find_el, if_true, find_flatMap, strategyTree]; exact flatMap_single x strategyBody
  | _ => simp [tree, find_el, generalTree, csTree]

theorem cs_found (l : List Section) : find ["cs"] (l.flatMap tree) = (csOf l).map csBody := by
  rw [find_flatMap, csOf, List.map_flatMap]
  congr 1; funext s
  cases s <;> simp only [tree, find_el, generalTree, csTree] <;> simp <;> rfl

theorem general_found (l : List Section) : find ["generalStatus"] (l.flatMap tree) = (generalOf l).map generalBody := by
  rw [find_flatMap, generalOf, List.map_flatMap]
  congr 1; funext s
  cases s <;> simp only [tree, find_el, generalTree, csTree] <;> simp <;> rfl

theorem hops_found (l : List (Nat × Nat)) : find ["nextHop"] (l.flatMap hopTree) = l.map hopBody := by
  rw [find_flatMap]; simp only [hopTree, find_el, if_true]; exact flatMap_single l hopBody

theorem routes_found (l : List RouteItem) : find ["route"] (l.flatMap routeTree) = l.map routeBody := by
  rw [find_flatMap]; simp only [routeTree, find_el, if_true]; exact flatMap_single l routeBody

/-! ### What the elements say -/

theorem bit_testBit (f i : Nat) : bit f i = f.testBit i := by
  unfold bit
  rw [Nat.testBit_eq_decide_div_mod_eq]
  cases h : decide (f / 2 ^ i % 2 = 1) <;> simp_all

theorem has_bit {ts : List Node} {p : List String} {c : Prop} [Decidable c] (h : find p ts = if c then [[]] else []) : Has ts p ↔ c := by
  unfold Has; rw [h]
  by_cases hc : c <;> simp [hc]

macro "paths" : tactic => `(tactic| simp [find_append, find_cons, find_tx_one, find_tx_two, find_nu_one, find_nu_two, find_bit, find_bit_two, find_opt, find_nil])

theorem strategy_shown (i : Str × Str) : StrategyShown (strategyBody i) i := by
  unfold StrategyShown strategyBody
  exact ⟨says_of (by paths), says_of (by paths)⟩

theorem hop_shown (h : Nat × Nat) : HopShown (hopBody h) h := by
  unfold HopShown hopBody
  exact ⟨number_of (by paths), number_of (by paths)⟩

theorem fib_shown (i : FibItem) : FibShown (fibBody i) i := by
  unfold FibShown fibBody
  refine ⟨says_of (by paths), each_of (f := hopBody) ?_ hop_shown⟩
  rw [← hops_found]; paths

theorem duration_shown {ts : List Node} {p : List String} {o : Option Int}
    (h : find p ts = match o with | some d => [(duration d).map .chr] | none => []) : Duration ts p o := by
  cases o with
  | none => unfold Duration Has; simpa using h
  | some d => exact duration_of h

theorem optNumber_shown {ts : List Node} {p : List String} {o : Option Nat}
    (h : find p ts = match o with | some d => [(dec d).map .chr] | none => []) : OptNumber ts p o := by
  cases o with
  | none => unfold OptNumber Has; simpa using h
  | some d => exact number_of h

theorem route_shown (r : RouteItem) : RouteShown (routeBody r) r := by
  unfold RouteShown routeBody
  rw [← bit_testBit, ← bit_testBit]
  refine ⟨number_of ?_, says_of ?_, number_of ?_, has_bit ?_, has_bit ?_, duration_shown ?_⟩ <;> (cases r.expires <;> paths)

theorem rib_shown (i : RibItem) : RibShown (ribBody i) i := by
  unfold RibShown ribBody
  refine ⟨says_of (by paths), each_of (f := routeBody) ?_ route_shown⟩
  rw [← routes_found]; paths

theorem cs_shown (c : CsItem) : CsShown (csBody c) c := by
  unfold CsShown csBody
  exact ⟨number_of (by paths), has_bit (by paths), has_bit (by paths), number_of (by paths), number_of (by paths), number_of (by paths)⟩

theorem counters_found (p : List String) (a b c d e f : Nat) (n : String) (h : n ≠ "packetCounters") : find (n :: p) (countersTree a b c d e f) = [] := by
  unfold countersTree; rw [find_el, if_neg (Ne.symm h)]

theorem counters_shown {ts : List Node} {a b c d e f : Nat} (h : ∀ n p, find ("packetCounters" :: n :: p) ts = find ("packetCounters" :: n :: p) (countersTree a b c d e f)) :
    CountersShown ts a b c d e f := by
  unfold CountersShown
  refine ⟨?_, ?_, ?_, ?_, ?_, ?_⟩ <;> (apply number_of; rw [h]; unfold countersTree; paths)

theorem general_shown (g : General) : GeneralShown (generalBody g) g := by
  unfold GeneralShown generalBody
  have hc : ∀ n p, find ("packetCounters" :: n :: p) (generalBody g) =
      find ("packetCounters" :: n :: p) (countersTree g.nInInterests g.nInData g.nInNacks g.nOutInterests g.nOutData g.nOutNacks) := by
    intro n p; unfold generalBody; paths
  refine ⟨says_of ?_, says_of ?_, says_of ?_, duration_shown ?_, number_of ?_, number_of ?_, number_of ?_, number_of ?_, number_of ?_, counters_shown hc,
    number_of ?_, number_of ?_⟩ <;> (simp [find_append, find_tx_one, find_nu_one, counters_found])

theorem face_shown (f : FaceStatus) : FaceShown (faceBody f) f := by
  unfold FaceShown
  rw [← bit_testBit, ← bit_testBit, ← bit_testBit]
  have hc : ∀ n p, find ("packetCounters" :: n :: p) (faceBody f) =
      find ("packetCounters" :: n :: p) (countersTree f.nInInterests f.nInData f.nInNacks f.nOutInterests f.nOutData f.nOutNacks) := by
    intro n p; unfold faceBody
    cases f.expires <;> cases f.mtu <;> paths
  refine ⟨number_of ?_, says_of ?_, says_of ?_, duration_shown ?_, says_of ?_, says_of ?_, says_of ?_, duration_shown ?_, optNumber_shown ?_, optNumber_shown ?_,
    has_bit ?_, has_bit ?_, has_bit ?_, counters_shown hc, number_of ?_, number_of ?_⟩ <;>
  (unfold faceBody
   cases f.expires <;> cases f.mtu <;> cases f.interval <;> cases f.threshold <;>
   simp [find_append, find_cons, find_tx_one, find_tx_two, find_nu_one, find_nu_two, find_bit, find_opt, find_nil, counters_found])

theorem channel_shown (u : Str) : Says (channelBody u) ["localUri"] u := says_of (by unfold channelBody; paths)

/-! ### C113 -/

/-- C113 (the report). Whatever NFD has said, `nfdc status report xml` prints a well-formed document; from it one reads, for each section, exactly the items that NFD
has listed, in order, and every value of each of them. -/
theorem C113_report (l : List Section) (h : ∀ s ∈ l, Ok s) :
    ∃ ts, parse (formatXml l) = some (.elem "nfdStatus".toList ts) ∧
      Each GeneralShown (find ["generalStatus"] ts) (generalOf l) ∧
      Each (fun ts u => Says ts ["localUri"] u) (find ["channels", "channel"] ts) (channelsOf l) ∧
      Each FaceShown (find ["faces", "face"] ts) (facesOf l) ∧
      Each FibShown (find ["fib", "fibEntry"] ts) (fibOf l) ∧
      Each RibShown (find ["rib", "ribEntry"] ts) (ribOf l) ∧
      Each CsShown (find ["cs"] ts) (csOf l) ∧
      Each StrategyShown (find ["strategyChoices", "strategyChoice"] ts) (strategiesOf l) :=
  ⟨l.flatMap tree, doc l h, each_of (general_found l) general_shown, each_of (channels_found l) channel_shown, each_of (faces_found l) face_shown,
    each_of (fib_found l) fib_shown, each_of (rib_found l) rib_shown, each_of (cs_found l) cs_shown, each_of (strategies_found l) strategy_shown⟩

/-- C113_report: a face and a route whose texts have markup in them. -/
def exSections : List Section :=
  [.general { version := "0.8 <&>".toList, uptime := 75 },
   .faces [
     { id := 262, remote := "udp4://192.0.2.1:6363".toList, «local» := "dev://\"<eth'0>\"&".toList, expires := some 1500000000, scope := "non-local".toList,
       persistency := "on-demand".toList, linkType := "point-to-point".toList, flags := 6, nInBytes := 1234567890 }],
   .fib [⟨"/".toList, [(262, 10), (300, 0)]⟩], .rib [⟨"/A&amp;".toList, [⟨262, "app".toList, 0, 1, none⟩]⟩], .strategies [("/".toList, "/localhost/nfd/strategy/asf".toList)]]

instance (c : Char) : Decidable (legal c) := by unfold legal; infer_instance

example : ∀ s ∈ exSections, Ok s := by
  intro s h
  simp only [exSections, List.mem_cons, List.not_mem_nil, or_false] at h
  rcases h with rfl | rfl | rfl | rfl | rfl <;> simp only [Ok, Legal, Plain, List.mem_singleton, forall_eq] <;> decide +kernel

theorem fold_code (l : List Answer) (hl : ∀ a ∈ l, a.sec < 7 ∧ ∀ c, a.result = .error c → 0 < c ∧ c < 1000000) :
    ∀ o : Outcome, let r := l.foldl onAnswer o
      (r.errorCode = o.errorCode ∧ (∀ a ∈ l, ∃ s, a.result = .ok s)) ∨
      ∃ a ∈ l, ∃ c, a.result = .error c ∧ r.errorCode = a.sec * 1000000 + c := by
  induction l with
  | nil => intro o; exact Or.inl ⟨rfl, by simp⟩
  | cons a l ih =>
    intro o
    have hl' : ∀ a ∈ l, a.sec < 7 ∧ ∀ c, a.result = .error c → 0 < c ∧ c < 1000000 := fun b hb => hl b (by simp [hb])
    rcases ih hl' (onAnswer o a) with ⟨h1, h2⟩ | ⟨b, hb, c, h1, h2⟩
    · rw [List.foldl_cons]
      cases hr : a.result with
      | ok s =>
        refine Or.inl ⟨?_, ?_⟩
        · rw [h1]; unfold onAnswer; rw [hr]
        · intro b hb
          rcases List.mem_cons.1 hb with rfl | hb
          · exact ⟨s, hr⟩
          · exact h2 b hb
      | error c =>
        refine Or.inr ⟨a, by simp, c, hr, ?_⟩
        rw [h1]
        have := hl a (by simp)
        have hc := this.2 c hr
        unfold onAnswer; rw [hr]
        exact Nat.mod_eq_of_lt (by omega)
    · exact Or.inr ⟨b, by simp [hb], c, h1, h2⟩

/-- C113 (exit code). `nfdc status report` exits with 0 exactly if NFD has answered for every section, and with 1 otherwise; then the number printed names a section
that failed and the code of the failure. (Codes of failures are below 1000000; there are seven sections.) -/
theorem C113_exit (kinds : List Section) (l : List Answer) (hl : ∀ a ∈ l, a.sec < 7 ∧ ∀ c, a.result = .error c → 0 < c ∧ c < 1000000) :
    ((reportStatus kinds l).1 = 0 ∨ (reportStatus kinds l).1 = 1) ∧ ((reportStatus kinds l).1 = 0 ↔ ∀ a ∈ l, ∃ s, a.result = .ok s) ∧
    ((reportStatus kinds l).1 = 0 ↔ (reportStatus kinds l).2.1 = none) ∧
    ∀ n, (reportStatus kinds l).2.1 = some n → ∃ a ∈ l, a.sec = n / 1000000 ∧ a.result = .error (n % 1000000) := by
  unfold reportStatus
  rcases fold_code l hl { sections := kinds.map blank } with ⟨h1, h2⟩ | ⟨a, ha, c, h1, h2⟩
  · rw [if_neg (by rw [h1]; simp)]
    exact ⟨Or.inl rfl, ⟨fun _ => h2, fun _ => rfl⟩, ⟨fun _ => rfl, fun _ => rfl⟩, fun n h => by cases h⟩
  · have hc := (hl a ha).2 c h1
    rw [if_pos (by rw [h2]; omega)]
    refine ⟨Or.inr rfl, ⟨fun h => (by cases h), fun h => ?_⟩, ⟨fun h => (by cases h), fun h => (by cases h)⟩, fun n h => ?_⟩
    · obtain ⟨s, hs⟩ := h a ha; rw [h1] at hs; cases hs
    · simp only [Option.some.injEq] at h
      rw [h2] at h
      exact ⟨a, ha, by omega, by rw [h1]; congr 1; omega⟩

theorem fold_sections (want : List (Option Section)) (l : List Answer)
    (hl : ∀ a ∈ l, ∀ s, a.result = .ok s → want[a.sec]? = some (some s)) :
    ∀ o : Outcome, o.sections.length = want.length → let r := l.foldl onAnswer o
      r.sections.length = want.length ∧ ∀ i : Nat,
        ((∃ a ∈ l, a.sec = i ∧ ∃ s, a.result = .ok s) ∧ ∃ s, want[i]? = some (some s) ∧ r.sections[i]? = some s) ∨
        ((¬ ∃ a ∈ l, a.sec = i ∧ ∃ s, a.result = .ok s) ∧ r.sections[i]? = o.sections[i]?) := by
  induction l with
  | nil => intro o ho; exact ⟨ho, fun i => Or.inr ⟨by simp, rfl⟩⟩
  | cons a l ih =>
    intro o ho
    have ho' : (onAnswer o a).sections.length = want.length := by unfold onAnswer; cases a.result <;> simp [ho]
    obtain ⟨e1, e2⟩ := ih (fun b hb => hl b (by simp [hb])) (onAnswer o a) ho'
    refine ⟨e1, fun i => ?_⟩
    rw [List.foldl_cons]
    rcases e2 i with ⟨⟨b, hb, g⟩, g'⟩ | ⟨g, g'⟩
    · exact Or.inl ⟨⟨b, by simp [hb], g⟩, g'⟩
    · cases hr : a.result with
      | error c =>
        refine Or.inr ⟨?_, ?_⟩
        · rintro ⟨b, hb, k1, s, k2⟩
          rcases List.mem_cons.1 hb with rfl | hb
          · rw [hr] at k2; cases k2
          · exact g ⟨b, hb, k1, s, k2⟩
        · rw [g']; unfold onAnswer; rw [hr]
      | ok s =>
        by_cases hi : a.sec = i
        · refine Or.inl ⟨⟨a, by simp, hi, s, hr⟩, s, hi ▸ hl a (by simp) s hr, ?_⟩
          rw [g']; unfold onAnswer; rw [hr]
          have hw := hl a (by simp) s hr
          have : i < o.sections.length := by
            rw [ho, ← hi]; exact (List.getElem?_eq_some_iff.1 hw).1
          simp [hi, this]
        · refine Or.inr ⟨?_, ?_⟩
          · rintro ⟨b, hb, k1, s', k2⟩
            rcases List.mem_cons.1 hb with rfl | hb
            · exact hi k1
            · exact g ⟨b, hb, k1, s', k2⟩
          · rw [g']; unfold onAnswer; rw [hr]
            simp [hi]

/-- C113 (what is shown). In whichever order the answers come, the report shows for each section what NFD has answered for it, and for one that failed the section
without contents. -/
theorem C113_shown (kinds : List Section) (want : List (Option Section)) (hlen : want.length = kinds.length) (l : List Answer)
    (hl : ∀ a ∈ l, ∀ s, a.result = .ok s → want[a.sec]? = some (some s)) (hall : ∀ i s, want[i]? = some (some s) → ∃ a ∈ l, a.sec = i ∧ a.result = .ok s) :
    (reportStatus kinds l).2.2 = formatXml (List.zipWith (fun k w => w.getD (blank k)) kinds want) := by
  obtain ⟨e1, e2⟩ := fold_sections want l hl { sections := kinds.map blank } (by simp [hlen])
  have : (l.foldl onAnswer { sections := kinds.map blank }).sections = List.zipWith (fun k w => w.getD (blank k)) kinds want := by
    apply List.ext_getElem?
    intro i
    rw [List.getElem?_zipWith]
    rcases e2 i with ⟨-, s, h1, h2⟩ | ⟨h1, h2⟩
    · rw [h2, h1]
      have hi : i < kinds.length := by rw [← hlen]; exact (List.getElem?_eq_some_iff.1 h1).1
      rw [List.getElem?_eq_getElem hi]
      rfl
    · rw [h2]
      dsimp only
      rw [List.getElem?_map]
      by_cases hi : i < kinds.length
      · have hi' : i < want.length := by omega
        rw [List.getElem?_eq_getElem hi, List.getElem?_eq_getElem hi']
        cases hw : want[i] with
        | none => rfl
        | some s =>
          obtain ⟨a, ha, k1, k2⟩ := hall i s (by rw [List.getElem?_eq_getElem hi', hw])
          exact absurd ⟨a, ha, k1, s, k2⟩ h1
      · rw [List.getElem?_eq_none (by omega)]; rfl
  unfold reportStatus
  rw [← this]
  dsimp only
  split <;> rfl

/-- C113_exit, C113_shown: the second of two sections fails, with a timeout. -/
example : reportStatus [.channels [], .cs {}] [⟨1, .error 10060⟩, ⟨0, .ok (.channels [lit "udp4://0.0.0.0:6363"])⟩] =
    (1, some 1010060, formatXml [.channels [lit "udp4://0.0.0.0:6363"], .cs {}]) := rfl

end Verif.Nfdc.Report
