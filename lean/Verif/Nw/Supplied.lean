import Verif.Nw.Spec
import Verif.Strat.Supplied

/-
The strategies NFD is supplied with make up no packets.
-/
namespace Verif.Nw

open Fw Strat
open Tb (FaceId Time FwInterest InRec OutRec PitEntry NextHop)

variable {s : St} {st : Strategy}

/-- What follows the arrival of the Interest `i`. -/
def Passes (i : FwInterest) : Action → Prop
  | .sendInterest _ j _ => j = { i with nonce := j.nonce }
  | .sendNack .. => True
  | .setExpiryTimer .. => True
  | _ => False

theorem passes_nil {i : FwInterest} : ∀ a ∈ ([] : List Action), Passes i a := by simp

theorem passes_opt {i : FwInterest} {o : Option (List Action)} (h : ∀ l, o = some l → ∀ a ∈ l, Passes i a) : ∀ a ∈ o.getD [], Passes i a := by
  cases o with
  | none => exact passes_nil
  | some l => exact h l rfl

theorem passes_noRoute {i : FwInterest} {f : FaceId} {u : Nat} : ∀ a ∈ noRoute f u, Passes i a := by
  intro a ha
  simp only [noRoute, List.mem_cons, List.not_mem_nil, or_false] at ha
  rcases ha with rfl | rfl <;> trivial

theorem passes_send {i : FwInterest} {g : FaceId} {u : Nat} : ∀ a ∈ [Action.sendInterest u i g], Passes i a := by
  intro a ha
  rw [List.mem_singleton.1 ha]
  rfl

theorem passes_map {α : Type} {i : FwInterest} {u : Nat} {g : α → FaceId} {l : List α} : ∀ a ∈ l.map (fun x => Action.sendInterest u i (g x)), Passes i a := by
  intro a ha
  obtain ⟨x, -, rfl⟩ := List.mem_map.1 ha
  rfl

theorem passes_bestRoute {c : Retx} {nhs : List NextHop} {w : Option Nat} {e : PitEntry} {i : FwInterest} {f : FaceId} {u : Nat}
    {x : List Action × Option Nat} (h : bestRoute c nhs w s e i f u = some x) : ∀ a ∈ x.1, Passes i a := by
  unfold bestRoute at h
  rw [Option.bind_eq_some_iff] at h
  obtain ⟨d, -, h⟩ := h
  split at h
  · obtain rfl := Option.some.inj h
    exact passes_nil
  · split at h
    · obtain rfl := Option.some.inj h
      exact passes_noRoute
    · obtain rfl := Option.some.inj h
      exact passes_send
  · split at h
    · obtain rfl := Option.some.inj h
      exact passes_send
    · obtain ⟨o, h1, rfl⟩ := Option.map_eq_some_iff.1 h
      cases o with
      | none => exact passes_nil
      | some nh => exact passes_send

theorem passes_asf {c : Retx} {info : FaceId → Option FaceMeas} {p : Probe} {nhs : List NextHop} {w : FaceId → Option Nat} {e : PitEntry}
    {i : FwInterest} {f : FaceId} {u : Nat} {x : List Action × (FaceId → Option Nat)} (h : asfInterest c info p nhs w s e i f u = some x) :
    ∀ a ∈ x.1, Passes i a := by
  unfold asfInterest at h
  simp only at h
  have retx : ∀ g, ∀ a ∈ (if (c.decidePerUpstream s.now e g (w g)).1 = .suppress then
      (([], fun x => if x = g then (c.decidePerUpstream s.now e g (w g)).2 else w x) : List Action × (FaceId → Option Nat))
      else ([.sendInterest u i g], fun x => if x = g ∧ sends s i g = true ∧ (c.decidePerUpstream s.now e g (w g)).1 = .forward then
        c.increment (c.decidePerUpstream s.now e g (w g)).2 else if x = g then (c.decidePerUpstream s.now e g (w g)).2 else w x)).1, Passes i a := by
    intro g
    split
    · exact passes_nil
    · exact passes_send
  split at h
  · split at h
    · rename_i g hm
      obtain rfl := Option.some.inj h
      exact retx g
    · obtain ⟨o, h1, rfl⟩ := Option.map_eq_some_iff.1 h
      cases o with
      | none => exact passes_nil
      | some nh => exact retx _
  · split at h
    · obtain rfl := Option.some.inj h
      exact passes_noRoute
    · rename_i g hm
      obtain rfl := Option.some.inj h
      intro a ha
      rcases List.mem_cons.1 ha with rfl | ha
      · rfl
      · unfold sendProbe at ha
        split at ha
        · split at ha
          · cases ha
          · rw [List.mem_singleton.1 ha]
            rfl
        · cases ha

theorem passes_access {nhs : List NextHop} {last : Option FaceId} {e : PitEntry} {i : FwInterest} {f : FaceId} {u : Nat} {x : List Action}
    (h : accessInterest nhs last s e i f u = some x) : ∀ a ∈ x, Passes i a := by
  unfold accessInterest at h
  obtain ⟨d, -, rfl⟩ := Option.map_eq_some_iff.1 h
  have flood : ∀ a ∈ (accessTargets s nhs i f 0).map (fun nh => Action.sendInterest u i nh.face), Passes i a := passes_map
  have rest : ∀ b : Bool, ∀ a ∈ (if b then [] else [Action.setExpiryTimer u 0]), Passes i a := by
    intro b a ha
    cases b
    · rw [List.mem_singleton.1 ha]; trivial
    · cases ha
  intro a ha
  split at ha
  · cases ha
  · exact flood a ha
  · split at ha
    · split at ha
      · split at ha
        · exact passes_send a ha
        · rcases List.mem_append.1 ha with ha | ha
          · rcases List.mem_cons.1 ha with rfl | ha
            · rfl
            · exact flood a ha
          · exact rest _ a ha
      · rcases List.mem_append.1 ha with ha | ha
        · exact flood a ha
        · exact rest _ a ha
    · rcases List.mem_append.1 ha with ha | ha
      · exact flood a ha
      · exact rest _ a ha

theorem passes_selfLearning {nhs : List NextHop} {table : List FaceId} {nd : Bool} {e : PitEntry} {i : FwInterest} {f : FaceId} {u : Nat} :
    ∀ a ∈ selfLearningInterest nhs table nd s e i f u, Passes i a := by
  unfold selfLearningInterest
  split
  · split
    · exact passes_noRoute
    · exact passes_map
  · exact passes_map

theorem passes_interest (hst : AnySupplied st) (i : FwInterest) (f : FaceId) (u : Nat) : ∀ a ∈ st s (.afterReceiveInterest i f u), Passes i a := by
  rcases hst with ⟨⟨c, nhs, w⟩ | ⟨c, nhs, w⟩ | ⟨nhs, k⟩ | ⟨nhs, last, rto⟩ | ⟨c, info, known, p, nhs, w⟩⟩ | ⟨nhs, table, nd, dd, pending⟩
  · refine passes_opt fun l hl => ?_
    obtain ⟨x, h1, rfl⟩ := Option.map_eq_some_iff.1 hl
    obtain ⟨e, -, h1⟩ := Option.bind_eq_some_iff.1 h1
    exact passes_bestRoute h1
  · refine passes_opt fun l hl => ?_
    obtain ⟨e, -, rfl⟩ := Option.map_eq_some_iff.1 hl
    exact passes_map
  · intro a ha
    simp only [randomS] at ha
    split at ha
    · cases ha
    · split at ha
      · exact passes_noRoute a ha
      · exact passes_send a ha
  · refine passes_opt fun l hl => ?_
    obtain ⟨e, -, h1⟩ := Option.bind_eq_some_iff.1 hl
    exact passes_access h1
  · refine passes_opt fun l hl => ?_
    obtain ⟨x, h1, rfl⟩ := Option.map_eq_some_iff.1 hl
    obtain ⟨e, -, h1⟩ := Option.bind_eq_some_iff.1 h1
    exact passes_asf h1
  · refine passes_opt fun l hl => ?_
    obtain ⟨e, -, rfl⟩ := Option.map_eq_some_iff.1 hl
    exact passes_selfLearning

theorem conveys_of_passes {calls : List Trigger} {i : FwInterest} {f : FaceId} {u : Nat} (hm : .afterReceiveInterest i f u ∈ calls) {a : Action}
    (h : Passes i a) : Conveys calls s a := by
  cases a with
  | sendInterest u' j g => exact ⟨i, h, Or.inl ⟨f, Or.inl ⟨u, hm⟩⟩⟩
  | sendNack => trivial
  | setExpiryTimer => trivial
  | _ => exact h.elim

theorem conveys_defaults {calls : List Trigger} {t : Trigger} (hm : t ∈ calls) : ∀ a ∈ defaults t, Conveys calls s a := by
  cases t with
  | onInterestLoop i f => intro a ha; rw [List.mem_singleton.1 ha]; exact Or.inr hm
  | afterContentStoreHit d f u => intro a ha; rw [List.mem_singleton.1 ha]; exact ⟨u, hm⟩
  | afterReceiveData d f u => intro a ha; rw [List.mem_singleton.1 ha]; exact ⟨f, u, Or.inr (Or.inr hm)⟩
  | _ => intro a ha; cases ha

theorem conveys_onNack {calls : List Trigger} {u : Nat} : ∀ a ∈ onNack s u, Conveys calls s a := by
  intro a ha
  obtain ⟨k, g, rfl⟩ := onNack_quiet a ha
  trivial

theorem conveys_newNextHop {calls : List Trigger} {nh : NextHop} {u : Nat} :
    ∀ a ∈ ((s.find u).map (fun e => multicastNewNextHop s e.toPitEntry nh u)).getD [], Conveys calls s a := by
  intro a ha
  cases h : s.find u with
  | none => rw [h] at ha; cases ha
  | some e =>
    rw [h] at ha
    simp only [Option.map_some, Option.getD_some] at ha
    unfold multicastNewNextHop at ha
    split at ha
    · rw [List.mem_singleton.1 ha]
      exact ⟨e.interest, rfl, Or.inr ⟨e, (find_some h).1, Or.inl rfl⟩⟩
    · cases ha

theorem conveys_rto {calls : List Trigger} {nhs : List NextHop} {rto : Option (Nat × FaceId × FaceId)} :
    ∀ a ∈ (rto.bind (fun x => accessRto nhs s x.1 x.2.1 x.2.2)).getD [], Conveys calls s a := by
  intro a ha
  cases h : rto.bind (fun x => accessRto nhs s x.1 x.2.1 x.2.2) with
  | none => rw [h] at ha; cases ha
  | some l =>
    rw [h] at ha
    obtain ⟨x, -, h1⟩ := Option.bind_eq_some_iff.1 h
    unfold accessRto at h1
    split at h1
    · obtain rfl := Option.some.inj h1; cases ha
    · obtain rfl := Option.some.inj h1; cases ha
    · rename_i e _ he _
      split at h1
      · cases h1
      · rename_i r hr
        obtain rfl := Option.some.inj h1
        obtain ⟨nh, h2, rfl⟩ := List.mem_map.1 ha
        exact ⟨r.interest, rfl, Or.inr ⟨e, (find_some he).1, Or.inr ⟨r, List.mem_of_find?_eq_some hr, rfl⟩⟩⟩

theorem conveys_timer {calls : List Trigger} {known : FaceId → Bool} {f : FaceId} {u : Nat} : ∀ a ∈ asfSatisfy known f u, Conveys calls s a := by
  intro a ha
  unfold asfSatisfy at ha
  split at ha
  · rw [List.mem_singleton.1 ha]; trivial
  · cases ha

theorem conveyor_supplied (s0 : St) (hst : Supplied st) : Conveyor s0 st := by
  intro s t _ a ha
  have hm : t ∈ t :: s.calls := List.mem_cons_self ..
  cases t with
  | afterReceiveInterest i f u => exact conveys_of_passes hm (passes_interest (.plain hst) i f u a ha)
  | onInterestLoop i f =>
    cases hst with
    | multicast => cases ha
    | _ => exact conveys_defaults hm a ha
  | afterContentStoreHit d f u => cases hst <;> exact conveys_defaults hm a ha
  | beforeSatisfyInterest d f u =>
    cases hst with
    | asf => exact conveys_timer a ha
    | _ => cases ha
  | afterReceiveData d f u =>
    cases hst with
    | asf =>
      rcases List.mem_append.1 ha with ha | ha
      · exact conveys_timer a ha
      · exact conveys_defaults hm a ha
    | _ => exact conveys_defaults hm a ha
  | afterReceiveNack i k f u =>
    cases hst with
    | bestRoute => exact conveys_onNack a ha
    | random => exact conveys_onNack a ha
    | asf => exact conveys_onNack a ha
    | _ => cases ha
  | onDroppedInterest i g => cases hst <;> cases ha
  | afterNewNextHop nh u =>
    cases hst with
    | multicast => exact conveys_newNextHop a ha
    | _ => cases ha
  | async =>
    cases hst with
    | access => exact conveys_rto a ha
    | _ => cases ha

theorem conveyor_selfLearning (s0 : St) (nhs : List NextHop) (table : List FaceId) (nd : Bool) (dd : SlData) (pending : Option (Nat × Data × FaceId))
    (hp : ∀ u d f, pending = some (u, d, f) → ShownData s0.calls d) : Conveyor s0 (selfLearningS nhs table nd dd pending) := by
  intro s t hl a ha
  have hm : t ∈ t :: s.calls := List.mem_cons_self ..
  cases t with
  | afterReceiveInterest i f u => exact conveys_of_passes hm (passes_interest (.selfLearning nhs table nd dd pending) i f u a ha)
  | afterReceiveData d f u =>
    simp only [selfLearningS] at ha
    split at ha
    · cases ha
    · split at ha
      · exact conveys_defaults hm a ha
      · rw [List.mem_singleton.1 ha]; trivial
  | afterReceiveNack i k f u =>
    simp only [selfLearningS] at ha
    cases h : (s.find u).bind (fun e => selfLearningNack nhs e.toPitEntry k u) with
    | none => rw [h] at ha; cases ha
    | some l =>
      rw [h] at ha
      obtain ⟨e, -, h1⟩ := Option.bind_eq_some_iff.1 h
      unfold selfLearningNack at h1
      split at h1
      · split at h1
        · cases h1
        · obtain rfl := Option.some.inj h1
          obtain ⟨g, -, rfl⟩ := List.mem_map.1 ha
          trivial
      · obtain rfl := Option.some.inj h1; cases ha
  | async =>
    simp only [selfLearningS] at ha
    split at ha
    · rename_i u d f
      split at ha
      · simp only [List.mem_cons, List.not_mem_nil, or_false] at ha
        rcases ha with rfl | rfl
        · obtain ⟨f', u', h⟩ := hp u d f rfl
          refine ⟨f', u', ?_⟩
          rcases h with h | h | h
          · exact Or.inl (List.mem_cons_of_mem _ (hl _ h))
          · exact Or.inr (Or.inl (List.mem_cons_of_mem _ (hl _ h)))
          · exact Or.inr (Or.inr (List.mem_cons_of_mem _ (hl _ h)))
        · trivial
      · cases ha
    · cases ha
  | _ => exact conveys_defaults hm a ha

end Verif.Nw
