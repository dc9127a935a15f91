import Verif.Fw.Origin
import Verif.Nw.Cs
import Verif.Nw.Spec

/-
One forwarder of a network: what it holds and sends comes from what it has received.
-/
namespace Verif.Nw

open Fw
open Tb (FaceId Time FwInterest InRec OutRec PitEntry NextHop)

/-- Predicates to be maintained: `int` on recorded and sent Interests (name, selectors and HopLimit), `dat` on Data, `rcv` on Interests
received from a face, `lk` on linked faces. -/
structure Pred where
  int : Interest → Option Nat → Prop
  dat : Data → Prop
  rcv : FaceId → Interest → Prop
  lk : FaceId → Prop

variable {P : Pred} {env : Env} {st : Strategy} {s s' : St}

def Pred.okI (P : Pred) (i : FwInterest) : Prop := P.int i.toInterest i.hopLimit
def Pred.okD (P : Pred) (g : FaceId) (d : Data) : Prop := P.dat d ∧ ∃ k, P.rcv g k ∧ k.matchesData d = true

def Pred.call (P : Pred) : Trigger → Prop
  | .afterReceiveInterest i f _ => P.okI i ∧ P.rcv f i.toInterest
  | .onInterestLoop i f => P.okI i ∧ P.rcv f i.toInterest
  | .afterContentStoreHit d f _ => P.okD f d
  | .beforeSatisfyInterest d _ _ => P.dat d
  | .afterReceiveData d _ _ => P.dat d
  | _ => True

def Pred.sent (P : Pred) : Pkt → Prop
  | .interest g i => P.okI i ∧ (P.lk g → i.hopLimit ≠ some 0)
  | .data g d => P.okD g d
  | .nack g i _ => P.okI i ∧ P.rcv g i.toInterest

structure Clean (P : Pred) (s : St) : Prop where
  ent : ∀ e ∈ s.pit, P.okI e.interest
  ins : ∀ e ∈ s.pit, ∀ r ∈ e.ins, P.okI r.interest ∧ P.rcv r.face r.interest.toInterest
  cs : ∀ e ∈ s.cs.table, P.dat e.data
  sent : ∀ p ∈ s.sent, P.sent p
  calls : ∀ c ∈ s.calls, P.call c
  faces : ∀ f fi, s.faces f = some fi → P.lk f → fi.scope = .nonLocal

/-- An update of the PIT that adds no Interest. -/
theorem Clean.pit (h : Clean P s) (hp : ∀ e' ∈ s'.pit, ∃ e ∈ s.pit, e'.interest = e.interest ∧ ∀ r ∈ e'.ins, r ∈ e.ins)
    (hc : s'.cs = s.cs) (hs : s'.sent = s.sent) (hk : s'.calls = s.calls) (hf : s'.faces = s.faces) : Clean P s' := by
  refine ⟨?_, ?_, by rw [hc]; exact h.cs, by rw [hs]; exact h.sent, by rw [hk]; exact h.calls, by rw [hf]; exact h.faces⟩
  · intro e' he'
    obtain ⟨e, h1, h2, -⟩ := hp e' he'
    rw [h2]; exact h.ent e h1
  · intro e' he' r hr
    obtain ⟨e, h1, -, h3⟩ := hp e' he'
    exact h.ins e h1 r (h3 r hr)

theorem same_pit {a b : List Ent} (h : b = a) : ∀ e' ∈ b, ∃ e ∈ a, e'.interest = e.interest ∧ ∀ r ∈ e'.ins, r ∈ e.ins :=
  fun e' he => ⟨e', h ▸ he, rfl, fun _ h => h⟩

theorem mod_pit {u : Nat} {f : Ent → Ent} (hi : ∀ e, (f e).interest = e.interest) (hr : ∀ e, ∀ r ∈ (f e).ins, r ∈ e.ins) :
    ∀ e' ∈ (s.mod u f).pit, ∃ e ∈ s.pit, e'.interest = e.interest ∧ ∀ r ∈ e'.ins, r ∈ e.ins := by
  intro e' he'
  obtain ⟨e0, h0, rfl⟩ := mem_mod.1 he'
  refine ⟨e0, h0, ?_⟩
  split
  · exact ⟨hi e0, hr e0⟩
  · exact ⟨rfl, fun _ h => h⟩

theorem Clean.mod (h : Clean P s) {u : Nat} {f : Ent → Ent} (hi : ∀ e, (f e).interest = e.interest) (hr : ∀ e, ∀ r ∈ (f e).ins, r ∈ e.ins) :
    Clean P (s.mod u f) :=
  h.pit (mod_pit hi hr) rfl rfl rfl rfl

theorem Clean.timer (h : Clean P s) (u ms : Nat) : Clean P (setExpiryTimer s u ms) := by
  unfold setExpiryTimer
  split
  · exact h
  · exact h.pit (mod_pit (f := fun e => { e with timer := some s.nextTimer }) (fun _ => rfl) (fun _ _ h => h)) rfl rfl rfl rfl

theorem Clean.send (h : Clean P s) {p : Pkt} (hp : P.sent p) {c : Counters} : Clean P { s with sent := s.sent ++ [p], ctr := c } := by
  refine ⟨h.ent, h.ins, h.cs, ?_, h.calls, h.faces⟩
  intro q hq
  rcases List.mem_append.1 hq with hq | hq
  · exact h.sent q hq
  · rw [List.mem_singleton.1 hq]; exact hp

theorem Clean.interest (h : Clean P s) {u : Nat} {i : FwInterest} {g : FaceId} (hi : P.okI i) : Clean P (onOutgoingInterest s u i g) := by
  unfold onOutgoingInterest
  split
  · rename_i fi e hg he
    split
    · exact h
    · rename_i hn
      exact (h.mod (u := u) (f := fun e => { e with toPitEntry := Tb.insertOrUpdateOut e.toPitEntry g i s.now }) (fun _ => rfl) (fun _ _ h => h)).send
        (p := .interest g i) ⟨hi, fun hl h0 => hn ⟨h0, h.faces g fi hg hl⟩⟩
  · exact h

theorem Clean.data (h : Clean P s) {d : Data} {g : FaceId} (hd : P.okD g d) : Clean P (onOutgoingData s d g) := by
  unfold onOutgoingData
  split
  · exact h
  · split
    · exact h
    · exact h.send (p := .data g d) hd

theorem Clean.nack (h : Clean P s) (u r : Nat) (g : FaceId) : Clean P (onOutgoingNack s u r g) := by
  unfold onOutgoingNack
  split
  · exact h
  · split
    · exact h
    · rename_i rec hrec
      split
      · exact h
      · obtain ⟨e, he, hr⟩ := Option.bind_eq_some_iff.1 hrec
        have hx := h.ins e (find_some he).1 rec (List.mem_of_find?_eq_some hr)
        have hg : rec.face = g := by simpa using List.find?_some hr
        rw [hg] at hx
        exact (h.mod (u := u) (f := fun e => { e with toPitEntry := Tb.deleteIn e.toPitEntry g }) (fun _ => rfl) (fun _ _ h => mem_deleteIn h)).send
          (p := .nack g rec.interest r) hx

theorem Clean.sendData (h : Clean P s) {u : Nat} {d : Data} {g : FaceId} (hd : P.okD g d) (hs : sendData s u d g = some s') : Clean P s' := by
  unfold Fw.sendData at hs
  split at hs
  · cases hs; exact h
  · split at hs
    · cases hs
      exact (h.mod (u := u) (f := fun e => { e with toPitEntry := Tb.deleteIn e.toPitEntry g }) (fun _ => rfl) (fun _ _ h => mem_deleteIn h)).data hd
    · cases hs

theorem Clean.sendDataList {u : Nat} {d : Data} : ∀ {l : List FaceId} {s s' : St}, Clean P s → (∀ g ∈ l, P.okD g d) →
    sendDataList u d s l = some s' → Clean P s'
  | [], s, s', h, _, hs => by cases hs; exact h
  | g :: l, s, s', h, hd, hs => by
    simp only [Fw.sendDataList, Option.bind_eq_some_iff] at hs
    obtain ⟨s1, h1, h2⟩ := hs
    exact (h.sendData (hd g (List.mem_cons_self ..)) h1).sendDataList (fun g hg => hd g (List.mem_cons_of_mem _ hg)) h2

theorem sendDataList_matches {u : Nat} {d : Data} {g : FaceId} {l : List FaceId} (hs : sendDataList u d s (g :: l) = some s') {e : Ent}
    (he : s.find u = some e) : e.interest.matchesData d = true := by
  simp only [Fw.sendDataList, Option.bind_eq_some_iff] at hs
  obtain ⟨s1, h1, -⟩ := hs
  unfold Fw.sendData at h1
  rw [he] at h1
  dsimp only at h1
  split at h1
  · rename_i h; exact h
  · cases h1

theorem Clean.sendDataToAll (hi : Inv s) (h : Clean P s) {u : Nat} {d : Data} {f : FaceId} (hd : P.dat d) (hs : sendDataToAll s u d f = some s') :
    Clean P s' := by
  unfold Fw.sendDataToAll at hs
  split at hs
  · cases hs; exact h
  · rename_i e he
    have hm := (find_some he).1
    have hl : ∀ g ∈ pendingDownstreams s e f, ∃ r ∈ e.ins, r.face = g := by
      intro g hg
      rw [pendingDownstreams, List.mem_eraseDups] at hg
      obtain ⟨r, h1, h2⟩ := List.mem_map.1 hg
      exact ⟨r, (List.mem_filter.1 h1).1, h2⟩
    cases hp : pendingDownstreams s e f with
    | nil => rw [hp] at hs; cases hs; exact h
    | cons g0 l0 =>
      rw [hp] at hs
      have hmt := sendDataList_matches hs he
      refine h.sendDataList ?_ hs
      intro g hg
      obtain ⟨r, h1, rfl⟩ := hl g (hp ▸ hg)
      refine ⟨hd, e.interest.toInterest, ?_, hmt⟩
      rw [← ((hi.ents e hm).same r h1).1]
      exact (h.ins e hm r h1).2

/-- What a strategy's action must satisfy. -/
def Pred.act (P : Pred) : Action → Prop
  | .sendInterest _ i _ => P.okI i
  | .sendData _ d g => P.okD g d
  | .sendDataToAll _ d _ => P.dat d
  | .sendNackPacket i _ g => P.okI i ∧ P.rcv g i.toInterest
  | _ => True

/-- Both invariants of a forwarder. -/
def Ok (P : Pred) (s : St) : Prop := Inv s ∧ Clean P s

def anyQ : (FaceId → Option FaceInfo) → Action → Prop := fun _ _ => True
def noR : FwInterest → FaceId → Prop := fun _ _ => False

theorem Ok.act (h : Ok P s) {a : Action} (ha : P.act a) (hs : act s a = some s') : Ok P s' := by
  refine ⟨(path_act (env := ⟨fun _ _ => 0, 0⟩) (Q := anyQ) (R := noR) trivial hs).inv h.1, ?_⟩
  cases a with
  | sendInterest u i g => cases hs; exact h.2.interest ha
  | sendData u d g => exact h.2.sendData ha hs
  | sendDataToAll u d f => exact h.2.sendDataToAll h.1 ha hs
  | sendNack u r g => cases hs; exact h.2.nack u r g
  | sendNackPacket i r g =>
    cases hs
    unfold sendNackPacket
    split
    · exact h.2
    · exact h.2.send (p := .nack g i r) ha
  | setExpiryTimer u ms => cases hs; exact h.2.timer u ms

theorem Ok.acts : ∀ {l : List Action} {s s' : St}, Ok P s → (∀ a ∈ l, P.act a) → acts s l = some s' → Ok P s'
  | [], s, s', h, _, hs => by cases hs; exact h
  | a :: l, s, s', h, ha, hs => by
    simp only [Fw.acts, Option.bind_eq_some_iff] at hs
    obtain ⟨s1, h1, h2⟩ := hs
    exact (h.act (ha a (List.mem_cons_self ..)) h1).acts (fun b hb => ha b (List.mem_cons_of_mem _ hb)) h2

/-- Nothing that matters to `Ok` but the list of calls and the PIT's timers may differ. -/
theorem Ok.aux (h : Ok P s) (cs : Cs.Cs) (hcs : ∀ e ∈ cs.table, P.dat e.data) (ctr : Counters) : Ok P { s with cs := cs, ctr := ctr } :=
  ⟨InvX.congr h.1 rfl rfl rfl rfl rfl, ⟨h.2.ent, h.2.ins, hcs, h.2.sent, h.2.calls, h.2.faces⟩⟩

theorem shownI {calls : List Trigger} (h : ∀ c ∈ calls, P.call c) {i : FwInterest} {f : FaceId} (hs : ShownInterest calls i f) :
    P.okI i ∧ P.rcv f i.toInterest := by
  rcases hs with ⟨u, hs⟩ | hs
  · exact h _ hs
  · exact h _ hs

theorem shownD {calls : List Trigger} (h : ∀ c ∈ calls, P.call c) {d : Data} (hs : ShownData calls d) : P.dat d := by
  obtain ⟨f, u, hs | hs | hs⟩ := hs
  · exact (h _ hs).1
  · exact h _ hs
  · exact h _ hs

theorem conveys_act (h : Clean P s) {calls : List Trigger} (hc : ∀ c ∈ calls, P.call c) {a : Action} (ha : Conveys calls s a) : P.act a := by
  cases a with
  | sendInterest u i g =>
    obtain ⟨j, hj, ⟨f, hf⟩ | ⟨e, he, hp⟩⟩ := ha
    · show P.int i.toInterest i.hopLimit
      rw [hj]
      exact (shownI hc hf).1
    · show P.int i.toInterest i.hopLimit
      rw [hj]
      rcases hp with rfl | ⟨r, hr, rfl⟩
      · exact h.ent e he
      · exact (h.ins e he r hr).1
  | sendData u d g =>
    obtain ⟨u, hu⟩ := ha
    exact hc _ hu
  | sendDataToAll u d f => exact shownD hc ha
  | sendNackPacket i r g => exact shownI hc ha
  | _ => trivial

variable {s0 : St}

/-- The strategy's history has not been forgotten. -/
def Later (s0 s : St) : Prop := ∀ c ∈ s0.calls, c ∈ s.calls

theorem Ok.call (hst : Conveyor s0 st) (hl : Later s0 s) (h : Ok P s) {t : Trigger} (ht : P.call t) (hs : call st s t = some s') :
    Ok P s' ∧ Later s0 s' := by
  unfold Fw.call at hs
  have hcalls : ∀ c ∈ s.calls ++ [t], P.call c := by
    intro c hc
    rcases List.mem_append.1 hc with hc | hc
    · exact h.2.calls c hc
    · rw [List.mem_singleton.1 hc]; exact ht
  have h' : Ok P { s with calls := s.calls ++ [t] } :=
    ⟨InvX.congr h.1 rfl rfl rfl rfl rfl, ⟨h.2.ent, h.2.ins, h.2.cs, h.2.sent, hcalls, h.2.faces⟩⟩
  refine ⟨h'.acts ?_ hs, ?_⟩
  · intro a ha
    refine conveys_act h.2 (calls := t :: s.calls) ?_ (hst s t hl a ha)
    intro c hc
    rcases List.mem_cons.1 hc with rfl | hc
    · exact ht
    · exact h.2.calls c hc
  · intro c hc
    rw [(acted_acts hs).calls]
    exact List.mem_append_left _ (hl c hc)

end Verif.Nw
