import Verif.Strat.AsfProps
import Verif.Fw.NoFault

/-
The six supplied strategies meet the assumptions under which the forwarder's properties are proved: scope control (C25), default handling of
Data (C28, C29, C33), no failing assertion (C73). Scope control for /localhop (C76). Where the self-learning strategy differs.
-/
namespace Verif.Strat

open Fw
open Tb (FaceId Time FwInterest InRec OutRec PitEntry NextHop)

variable {env : Env} {st : Strategy} {s s' : St} {n : Nat} {l : List (Strategy × Event)}

/-- The strategies other than self-learning, with any routes, measurements, parameters and random choices. -/
inductive Supplied : Strategy → Prop
  | bestRoute (c nhs w) : Supplied (bestRouteS c nhs w)
  | multicast (c nhs w) : Supplied (multicastS c nhs w)
  | random (nhs k) : Supplied (randomS nhs k)
  | access (nhs last rto) : Supplied (accessS nhs last rto)
  | asf (c info known p nhs w) : Supplied (asfS c info known p nhs w)

/-- All supplied strategies. -/
inductive AnySupplied : Strategy → Prop
  | plain {x : Strategy} : Supplied x → AnySupplied x
  | selfLearning (nhs table nd dd pending) : AnySupplied (selfLearningS nhs table nd dd pending)

/-! ### Which actions follow an Interest -/

/-- An Interest of that name which arrived on `f` may leave on `g`. -/
def MayCross (s : St) (n : Name) (f g : FaceId) : Prop := ∃ fi gi, s.faces f = some fi ∧ s.faces g = some gi ∧ ScopeAllows fi n gi

theorem Eligible.cross {n : Name} {f g : FaceId} (h : Eligible s n f g) : MayCross s n f g := by
  obtain ⟨fi, gi, h1, h2, -, h3⟩ := h
  exact ⟨fi, gi, h1, h2, h3⟩

def Good (s : St) (n : Name) (f : FaceId) : Action → Prop
  | .sendInterest _ j g => j.name = n ∧ MayCross s n f g
  | .sendNack .. => True
  | .setExpiryTimer .. => True
  | _ => False

theorem eligible_of {f : FaceId} {i : FwInterest} {nh : NextHop} {e : PitEntry} {b : Bool} (h : isNextHopEligible s f i nh e b = true) :
    Eligible s i.name f nh.face := by
  rw [← eligible_iff (e := e)]
  unfold isNextHopEligible at h ⊢
  cases hf : s.faces f with
  | none => simp only [hf] at h; cases h
  | some fi =>
    cases hg : s.faces nh.face with
    | none => simp only [hf, hg] at h; cases h
    | some gi =>
      simp only [hf, hg] at h ⊢
      by_cases hn : (nh.face = f ∧ gi.link ≠ .adHoc) ∨ wouldViolateScope fi i.name gi = true
      · rw [if_pos hn] at h; cases h
      · rw [if_neg hn]
        rfl

theorem earliest_eligible {f : FaceId} {i : FwInterest} {e : PitEntry} : ∀ {nhs : List NextHop} {b : Option (NextHop × Time)} {nh : NextHop},
    earliestLoop s f i e nhs b = some (some nh) → (∀ x, b = some x → Eligible s i.name f x.1.face) → Eligible s i.name f nh.face := by
  intro nhs
  induction nhs with
  | nil =>
    intro b nh h hb
    have h := Option.some.inj h
    obtain ⟨x, h1, rfl⟩ := Option.map_eq_some_iff.1 h
    exact hb x h1
  | cons y nhs ih =>
    intro b nh h hb
    unfold earliestLoop at h
    split at h
    · rename_i he
      split at h
      · cases h
      · refine ih h ?_
        intro x hx
        split at hx
        · obtain rfl := Option.some.inj hx
          exact eligible_of he
        · exact hb x hx
    · exact ih h hb

theorem bestFace_eligible {info : FaceId → Option FaceMeas} {e : PitEntry} {i : FwInterest} {f g : FaceId} {nhs : List NextHop} {b : Bool}
    (h : bestFace info s e i f nhs b = some g) : Eligible s i.name f g := by
  unfold bestFace at h
  obtain ⟨x, h1, rfl⟩ := Option.map_eq_some_iff.1 h
  obtain ⟨nh, h2, rfl⟩ := List.mem_map.1 (ranked_mem (List.mem_of_mem_head? h1))
  rw [stats_face]
  exact eligible_of (List.mem_filter.1 h2).2

theorem access_cross {nhs : List NextHop} {i : FwInterest} {f ex : FaceId} {nh : NextHop} (h : nh ∈ accessTargets s nhs i f ex) :
    MayCross s i.name f nh.face := by
  have h := (List.mem_filter.1 h).2
  cases hf : s.faces f with
  | none => rw [hf] at h; cases h
  | some fi =>
    cases hg : s.faces nh.face with
    | none => rw [hf, hg] at h; cases h
    | some gi =>
      rw [hf, hg] at h
      simp only [Bool.not_eq_true', Bool.or_eq_false_iff] at h
      exact ⟨fi, gi, hf, hg, scope_iff.1 h.2⟩

theorem usable_cross {nhs : List NextHop} {i : FwInterest} {f g : FaceId} (h : lastNexthopUsable s nhs i f g = true) : MayCross s i.name f g := by
  unfold lastNexthopUsable at h
  simp only [Bool.and_eq_true] at h
  obtain ⟨-, h⟩ := h
  cases hf : s.faces f with
  | none => rw [hf] at h; cases h
  | some fi =>
    cases hg : s.faces g with
    | none => rw [hf, hg] at h; cases h
    | some gi =>
      rw [hf, hg] at h
      simp only [Bool.and_eq_true, Bool.not_eq_true'] at h
      exact ⟨fi, gi, hf, hg, scope_iff.1 h.2⟩

theorem good_noRoute {m : Name} {f : FaceId} {u : Nat} : ∀ a ∈ noRoute f u, Good s m f a := by
  intro a ha
  simp only [noRoute, List.mem_cons, List.not_mem_nil, or_false] at ha
  rcases ha with rfl | rfl <;> trivial

theorem good_send {i : FwInterest} {f g : FaceId} {u : Nat} (h : MayCross s i.name f g) : ∀ a ∈ [Action.sendInterest u i g], Good s i.name f a := by
  intro a ha
  rw [List.mem_singleton.1 ha]
  exact ⟨rfl, h⟩

theorem good_nil {m : Name} {f : FaceId} : ∀ a ∈ ([] : List Action), Good s m f a := by simp

theorem good_opt {m : Name} {f : FaceId} {o : Option (List Action)} (h : ∀ l, o = some l → ∀ a ∈ l, Good s m f a) : ∀ a ∈ o.getD [], Good s m f a := by
  cases o with
  | none => exact good_nil
  | some l => exact h l rfl

theorem good_bestRoute {c : Retx} {nhs : List NextHop} {w : Option Nat} {e : PitEntry} {i : FwInterest} {f : FaceId} {u : Nat}
    {x : List Action × Option Nat} (h : bestRoute c nhs w s e i f u = some x) : ∀ a ∈ x.1, Good s i.name f a := by
  unfold bestRoute at h
  rw [Option.bind_eq_some_iff] at h
  obtain ⟨d, -, h⟩ := h
  split at h
  · obtain rfl := Option.some.inj h
    exact good_nil
  · split at h
    · obtain rfl := Option.some.inj h
      exact good_noRoute
    · rename_i nh hm
      obtain rfl := Option.some.inj h
      exact good_send (eligible_of (List.find?_some (p := fun nh => isNextHopEligible s f i nh e) hm)).cross
  · split at h
    · rename_i nh hm
      obtain rfl := Option.some.inj h
      exact good_send (eligible_of (List.find?_some (p := fun nh => isNextHopEligible s f i nh e true) hm)).cross
    · obtain ⟨o, h1, rfl⟩ := Option.map_eq_some_iff.1 h
      cases o with
      | none => exact good_nil
      | some nh => exact good_send (earliest_eligible h1 (by simp)).cross

theorem good_asf {c : Retx} {info : FaceId → Option FaceMeas} {p : Probe} {nhs : List NextHop} {w : FaceId → Option Nat} {e : PitEntry}
    {i : FwInterest} {f : FaceId} {u : Nat} {x : List Action × (FaceId → Option Nat)} (h : asfInterest c info p nhs w s e i f u = some x) :
    ∀ a ∈ x.1, Good s i.name f a := by
  unfold asfInterest at h
  simp only at h
  have retx : ∀ g, Eligible s i.name f g → ∀ a ∈ (if (c.decidePerUpstream s.now e g (w g)).1 = .suppress then
      (([], fun x => if x = g then (c.decidePerUpstream s.now e g (w g)).2 else w x) : List Action × (FaceId → Option Nat))
      else ([.sendInterest u i g], fun x => if x = g ∧ sends s i g = true ∧ (c.decidePerUpstream s.now e g (w g)).1 = .forward then
        c.increment (c.decidePerUpstream s.now e g (w g)).2 else if x = g then (c.decidePerUpstream s.now e g (w g)).2 else w x)).1, Good s i.name f a := by
    intro g hg
    split
    · exact good_nil
    · exact good_send hg.cross
  split at h
  · split at h
    · rename_i g hm
      obtain rfl := Option.some.inj h
      exact retx g (bestFace_eligible hm)
    · obtain ⟨o, h1, rfl⟩ := Option.map_eq_some_iff.1 h
      cases o with
      | none => exact good_nil
      | some nh => exact retx _ (earliest_eligible h1 (by simp))
  · split at h
    · obtain rfl := Option.some.inj h
      exact good_noRoute
    · rename_i g hm
      obtain rfl := Option.some.inj h
      intro a ha
      rcases List.mem_cons.1 ha with rfl | ha
      · exact ⟨rfl, (bestFace_eligible hm).cross⟩
      · unfold sendProbe at ha
        split at ha
        · split at ha
          · cases ha
          · rename_i g' hp
            rw [List.mem_singleton.1 ha]
            refine ⟨rfl, ?_⟩
            by_cases hc : ∃ nh ∈ nhs, ProbeTarget s i.name f g nh.face
            · obtain ⟨nh, h1, h2, h3, -⟩ := (faceToProbe_spec info i f g nhs p.k).2 hc
              rw [hp] at h3
              rw [Option.some.inj h3]
              obtain ⟨-, -, h4⟩ := h2
              exact h4
            · rw [(faceToProbe_spec info i f g nhs p.k).1 (fun nh hm ht => hc ⟨nh, hm, ht⟩)] at hp
              cases hp
        · cases ha

theorem good_access {nhs : List NextHop} {last : Option FaceId} {e : PitEntry} {i : FwInterest} {f : FaceId} {u : Nat} {x : List Action}
    (h : accessInterest nhs last s e i f u = some x) : ∀ a ∈ x, Good s i.name f a := by
  unfold accessInterest at h
  obtain ⟨d, -, rfl⟩ := Option.map_eq_some_iff.1 h
  have flood : ∀ a ∈ (accessTargets s nhs i f 0).map (fun nh => Action.sendInterest u i nh.face), Good s i.name f a := by
    intro a ha
    obtain ⟨nh, h1, rfl⟩ := List.mem_map.1 ha
    exact ⟨rfl, access_cross h1⟩
  have rest : ∀ b : Bool, ∀ a ∈ (if b then [] else [Action.setExpiryTimer u 0]), Good s i.name f a := by
    intro b a ha
    cases b
    · rw [List.mem_singleton.1 ha]; trivial
    · cases ha
  intro a ha
  split at ha
  · cases ha
  · exact flood a ha
  · split at ha
    · split at ha
      · rename_i g hu
        split at ha
        · exact good_send (usable_cross hu) a ha
        · rcases List.mem_append.1 ha with ha | ha
          · rcases List.mem_cons.1 ha with rfl | ha
            · exact ⟨rfl, usable_cross hu⟩
            · exact flood a ha
          · exact rest _ a ha
      · rcases List.mem_append.1 ha with ha | ha
        · exact flood a ha
        · exact rest _ a ha
    · rcases List.mem_append.1 ha with ha | ha
      · exact flood a ha
      · exact rest _ a ha

theorem good_selfLearning {nhs : List NextHop} {table : List FaceId} {nd : Bool} {e : PitEntry} {i : FwInterest} {f : FaceId} {u : Nat} :
    ∀ a ∈ selfLearningInterest nhs table nd s e i f u, Good s i.name f a := by
  unfold selfLearningInterest
  split
  · split
    · exact good_noRoute
    · intro a ha
      obtain ⟨g, h1, rfl⟩ := List.mem_map.1 ha
      have h := (List.mem_filter.1 h1).2
      refine ⟨rfl, ?_⟩
      cases hf : s.faces f with
      | none => rw [hf] at h; cases h
      | some fi =>
        cases hg : s.faces g with
        | none => rw [hf, hg] at h; cases h
        | some gi =>
          rw [hf, hg] at h
          simp only [Bool.not_eq_true', Bool.or_eq_false_iff] at h
          exact ⟨fi, gi, hf, hg, scope_iff.1 h.1.2⟩
  · intro a ha
    obtain ⟨nh, h1, rfl⟩ := List.mem_map.1 ha
    exact ⟨rfl, (eligible_of (List.mem_filter.1 h1).2).cross⟩

theorem good_interest (hst : AnySupplied st) (i : FwInterest) (f : FaceId) (u : Nat) : ∀ a ∈ st s (.afterReceiveInterest i f u), Good s i.name f a := by
  rcases hst with ⟨⟨c, nhs, w⟩ | ⟨c, nhs, w⟩ | ⟨nhs, k⟩ | ⟨nhs, last, rto⟩ | ⟨c, info, known, p, nhs, w⟩⟩ | ⟨nhs, table, nd, dd, pending⟩
  · refine good_opt fun l hl => ?_
    obtain ⟨x, h1, rfl⟩ := Option.map_eq_some_iff.1 hl
    obtain ⟨e, -, h1⟩ := Option.bind_eq_some_iff.1 h1
    exact good_bestRoute h1
  · refine good_opt fun l hl => ?_
    obtain ⟨e, -, rfl⟩ := Option.map_eq_some_iff.1 hl
    intro a ha
    obtain ⟨nh, h1, rfl⟩ := List.mem_map.1 ha
    have h2 := (List.mem_filter.1 h1).2
    simp only [Bool.and_eq_true] at h2
    exact ⟨rfl, (eligible_of h2.2).cross⟩
  · intro a ha
    simp only [randomS] at ha
    split at ha
    · cases ha
    · split at ha
      · exact good_noRoute a ha
      · rename_i nh hm
        exact good_send (eligible_of (List.mem_filter.1 (List.mem_of_getElem? hm)).2).cross a ha
  · refine good_opt fun l hl => ?_
    obtain ⟨e, -, h1⟩ := Option.bind_eq_some_iff.1 hl
    exact good_access h1
  · refine good_opt fun l hl => ?_
    obtain ⟨x, h1, rfl⟩ := Option.map_eq_some_iff.1 hl
    obtain ⟨e, -, h1⟩ := Option.bind_eq_some_iff.1 h1
    exact good_asf h1
  · refine good_opt fun l hl => ?_
    obtain ⟨e, -, rfl⟩ := Option.map_eq_some_iff.1 hl
    exact good_selfLearning

/-! ### The other triggers -/

theorem nack_quiet {e : PitEntry} {u : Nat} {l : List Action} (h : processNack e u = some l) : ∀ a ∈ l, ∃ k g, a = .sendNack u k g := by
  have hs : ∀ k, ∀ a ∈ sendNacks e u k, ∃ k g, a = .sendNack u k g := by
    intro k a ha
    obtain ⟨g, -, rfl⟩ := List.mem_map.1 ha
    exact ⟨k, g, rfl⟩
  unfold processNack at h
  simp only at h
  split at h
  · split at h
    · cases h
    · split at h
      · obtain rfl := Option.some.inj h
        intro a ha
        rw [List.mem_singleton.1 ha]
        exact ⟨_, _, rfl⟩
      · obtain rfl := Option.some.inj h
        simp
  · split at h
    · obtain rfl := Option.some.inj h
      simp
    · obtain rfl := Option.some.inj h
      exact hs _

theorem onNack_quiet {u : Nat} : ∀ a ∈ onNack s u, ∃ k g, a = .sendNack u k g := by
  unfold onNack
  intro a ha
  cases h : (s.find u).bind (fun e => processNack e.toPitEntry u) with
  | none => rw [h] at ha; cases ha
  | some l =>
    rw [h] at ha
    obtain ⟨e, -, h1⟩ := Option.bind_eq_some_iff.1 h
    exact nack_quiet h1 a ha

/-- What a strategy may do on a trigger other than the arrival of an Interest, besides `defaults`. -/
def Extra (s : St) : Action → Prop
  | .sendInterest _ j g => ∃ f, MayCross s j.name f g
  | .sendNack .. => True
  | .setExpiryTimer .. => True
  | _ => False

theorem extra_rto {nhs : List NextHop} {rto : Option (Nat × FaceId × FaceId)} :
    ∀ a ∈ (rto.bind (fun x => accessRto nhs s x.1 x.2.1 x.2.2)).getD [], Extra s a := by
  intro a ha
  cases h : rto.bind (fun x => accessRto nhs s x.1 x.2.1 x.2.2) with
  | none => rw [h] at ha; cases ha
  | some l =>
    rw [h] at ha
    obtain ⟨x, -, h1⟩ := Option.bind_eq_some_iff.1 h
    unfold accessRto at h1
    split at h1
    · obtain rfl := Option.some.inj h1; cases ha
    · obtain rfl := Option.some.inj h1; cases ha
    · split at h1
      · cases h1
      · obtain rfl := Option.some.inj h1
        obtain ⟨nh, h2, rfl⟩ := List.mem_map.1 ha
        exact ⟨x.2.1, access_cross h2⟩

theorem extra_newNextHop {nh : NextHop} {u : Nat} :
    ∀ a ∈ ((s.find u).map (fun e => multicastNewNextHop s e.toPitEntry nh u)).getD [], Extra s a := by
  intro a ha
  cases h : s.find u with
  | none => rw [h] at ha; cases ha
  | some e =>
    rw [h] at ha
    simp only [Option.map_some, Option.getD_some] at ha
    unfold multicastNewNextHop at ha
    split at ha
    · rename_i hc
      rw [List.mem_singleton.1 ha]
      obtain ⟨r, -, h1⟩ := List.any_eq_true.1 hc
      exact ⟨r.face, (eligible_of h1).cross⟩
    · cases ha

/-- The actions of a supplied strategy: the default ones, and others of harmless kinds. -/
theorem supplied_actions (hst : Supplied st) (t : Trigger) : match t with
    | .afterContentStoreHit d f u => st s t = [.sendData u d f]
    | .afterReceiveData d f u => ∃ pre, st s t = pre ++ [.sendDataToAll u d f] ∧ ∀ a ∈ pre, ∃ k, a = .setExpiryTimer u k
    | .onInterestLoop i f => st s t = [.sendNackPacket i nackDuplicate f] ∨ st s t = []
    | .beforeSatisfyInterest _ _ u => ∀ a ∈ st s t, ∃ k, a = .setExpiryTimer u k
    | .afterReceiveInterest i f _ => ∀ a ∈ st s t, Good s i.name f a
    | _ => ∀ a ∈ st s t, Extra s a := by
  have hsat : ∀ (known : FaceId → Bool) (f : FaceId) (u : Nat), ∀ a ∈ asfSatisfy known f u, ∃ k, a = .setExpiryTimer u k := by
    intro known f u a ha
    unfold asfSatisfy at ha
    split at ha
    · exact ⟨50, List.mem_singleton.1 ha⟩
    · cases ha
  have hnack : ∀ u, ∀ a ∈ onNack s u, Extra s a := by
    intro u a ha
    obtain ⟨k, g, rfl⟩ := onNack_quiet a ha
    trivial
  cases t with
  | afterReceiveInterest i f u => exact good_interest (.plain hst) i f u
  | onInterestLoop i f =>
    cases hst with
    | multicast => exact Or.inr rfl
    | _ => exact Or.inl rfl
  | afterContentStoreHit d f u => cases hst <;> rfl
  | beforeSatisfyInterest d f u =>
    cases hst with
    | asf c info known p nhs w => exact hsat known f u
    | _ => intro a ha; cases ha
  | afterReceiveData d f u =>
    cases hst with
    | asf c info known p nhs w => exact ⟨_, rfl, hsat known f u⟩
    | _ => exact ⟨[], rfl, by simp⟩
  | afterReceiveNack i k f u =>
    cases hst with
    | bestRoute => exact hnack u
    | random => exact hnack u
    | asf => exact hnack u
    | _ => intro a ha; cases ha
  | onDroppedInterest i g => cases hst <;> (intro a ha; cases ha)
  | afterNewNextHop nh u =>
    cases hst with
    | multicast => exact extra_newNextHop
    | _ => intro a ha; cases ha
  | async =>
    cases hst with
    | access => exact extra_rto
    | _ => intro a ha; cases ha

/-! ### C76 -/

theorem scope_of_cross {i : FwInterest} {f g : FaceId} (h : MayCross s i.name f g) : MaySend s.faces i.name g := by
  obtain ⟨fi, gi, -, h2, h3⟩ := h
  intro hu gi' hg
  rw [h2] at hg
  obtain rfl := Option.some.inj hg
  exact h3.1 hu

/-- C76: all supplied strategies respect scope control for /localhost, which is what C25 assumes. -/
theorem C76_scope (hst : AnySupplied st) : ScopeAware st := by
  intro s t ht a ha
  have good : ∀ {n f}, Good s n f a → ScopeAction s.faces a := by
    intro n f h
    cases a with
    | sendInterest u j g =>
      obtain ⟨h1, h2⟩ := h
      subst h1
      exact scope_of_cross h2
    | sendNackPacket i k g => exact h.elim
    | _ => trivial
  have extra : Extra s a → ScopeAction s.faces a := by
    intro h
    cases a with
    | sendInterest u j g =>
      obtain ⟨f, h2⟩ := h
      exact scope_of_cross h2
    | sendNackPacket i k g => exact h.elim
    | _ => trivial
  have loop : ∀ {i f}, t = .onInterestLoop i f → a = .sendNackPacket i nackDuplicate f → ScopeAction s.faces a := by
    rintro i f rfl rfl
    exact ht
  cases hst with
  | plain hst =>
    have h := supplied_actions (s := s) hst t
    cases t with
    | afterReceiveInterest i f u => exact good (h a ha)
    | onInterestLoop i f =>
      rcases h with h | h
      · rw [h] at ha; exact loop rfl (List.mem_singleton.1 ha)
      · rw [h] at ha; cases ha
    | afterContentStoreHit d f u => rw [h] at ha; rw [List.mem_singleton.1 ha]; trivial
    | beforeSatisfyInterest d f u => obtain ⟨k, rfl⟩ := h a ha; trivial
    | afterReceiveData d f u =>
      obtain ⟨pre, h1, h2⟩ := h
      rw [h1] at ha
      rcases List.mem_append.1 ha with ha | ha
      · obtain ⟨k, rfl⟩ := h2 a ha; trivial
      · rw [List.mem_singleton.1 ha]; trivial
    | afterReceiveNack i k f u => exact extra (h a ha)
    | onDroppedInterest i g => exact extra (h a ha)
    | afterNewNextHop nh u => exact extra (h a ha)
    | async => exact extra (h a ha)
  | selfLearning nhs table nd dd pending =>
    cases t with
    | afterReceiveInterest i f u => exact good (good_interest (.selfLearning nhs table nd dd pending) i f u a ha)
    | onInterestLoop i f => exact loop rfl (List.mem_singleton.1 ha)
    | afterContentStoreHit d f u => rw [List.mem_singleton.1 ha]; trivial
    | beforeSatisfyInterest d f u => cases ha
    | afterReceiveData d f u =>
      simp only [selfLearningS] at ha
      split at ha
      · cases ha
      · split at ha
        · rw [List.mem_singleton.1 ha]; trivial
        · rw [List.mem_singleton.1 ha]; trivial
    | afterReceiveNack i k f u =>
      simp only [selfLearningS] at ha
      cases h : (s.find u).bind (fun e => selfLearningNack nhs e.toPitEntry k u) with
      | none => rw [h] at ha; cases ha
      | some l =>
        rw [h] at ha
        obtain ⟨e, -, h1⟩ := Option.bind_eq_some_iff.1 h
        unfold selfLearningNack at h1
        split at h1
        · split at h1
          · cases h1
          · obtain rfl := Option.some.inj h1
            obtain ⟨g, -, rfl⟩ := List.mem_map.1 ha
            trivial
        · obtain rfl := Option.some.inj h1; cases ha
    | onDroppedInterest i g => cases ha
    | afterNewNextHop nh u => cases ha
    | async =>
      simp only [selfLearningS] at ha
      split at ha
      · split at ha
        · simp only [List.mem_cons, List.not_mem_nil, or_false] at ha
          rcases ha with rfl | rfl <;> trivial
        · cases ha
      · cases ha

/-- C76: an Interest under /localhop that arrived on a non-local face is not forwarded to a non-local face by any supplied strategy;
any Interest it emits has the name of the one received. -/
theorem C76_localhop (hst : AnySupplied st) (hr : run env (init n) l = some s) {i : FwInterest} {f : FaceId} (hp : Passed env s i f)
    (h : step env st s (.interest i f) = some s') :
    ∃ new, Emits s s' new ∧ ∀ g j, .interest g j ∈ new → j.name = i.name ∧ (UnderLocalhop i.name → IsLocal s g ∨ IsLocal s f) := by
  obtain ⟨r, u, e, j, hc⟩ := passed_call (reach_inv hr) hp h
  obtain ⟨new, h1, h2⟩ := (acted_acts hc.calls).sent
  refine ⟨new, ?_, ?_⟩
  · unfold Emits
    rw [h1]
    show r.sent ++ _ = _
    rw [hc.sent]
  · intro g j' hm
    obtain ⟨u', h3⟩ := h2 g j' hm
    obtain ⟨h4, fi, gi, h5, h6, h7⟩ := good_interest hst j f u _ h3
    rw [hc.carries.name] at h4 h7
    rw [hc.faces] at h5 h6
    refine ⟨h4, fun hl => ?_⟩
    rcases h7.2 hl with h | h
    · exact Or.inl ⟨gi, h6, h⟩
    · exact Or.inr ⟨fi, h5, h⟩

/-- C76: all supplied strategies but self-learning handle Data the default way, which is what C28 assumes. -/
theorem C76_default (hst : Supplied st) (nk : Bool) : DefaultData nk st := by
  intro s t
  have h := supplied_actions (s := s) hst t
  have timer : ∀ {u} {a : Action}, (∃ k, a = .setExpiryTimer u k) → Quiet a = true ∧ ∀ nk, Silent nk a = true := by
    rintro u a ⟨k, rfl⟩
    exact ⟨rfl, fun _ => rfl⟩
  have good : ∀ {n f} {a : Action}, Good s n f a → Quiet a = true := by
    intro n f a h
    cases a with
    | sendInterest => rfl
    | sendNack => rfl
    | setExpiryTimer => rfl
    | _ => exact h.elim
  have extra : ∀ {a : Action}, Extra s a → Quiet a = true := by
    intro a h
    cases a with
    | sendInterest => rfl
    | sendNack => rfl
    | setExpiryTimer => rfl
    | _ => exact h.elim
  cases t with
  | afterReceiveInterest i f u => exact fun a ha => good (h a ha)
  | onInterestLoop i f => exact h
  | afterContentStoreHit d f u => exact h
  | beforeSatisfyInterest d f u => exact fun a ha => (timer (h a ha)).2 nk
  | afterReceiveData d f u =>
    obtain ⟨pre, h1, h2⟩ := h
    exact ⟨pre, h1, fun a ha => (timer (h2 a ha)).1⟩
  | afterReceiveNack i k f u => exact fun a ha => extra (h a ha)
  | onDroppedInterest i g => exact fun a ha => extra (h a ha)
  | afterNewNextHop nh u => exact fun a ha => extra (h a ha)
  | async => exact fun a ha => extra (h a ha)

/-- C76: all supplied strategies but self-learning send received Data to all pending downstreams, which is what C29 assumes. -/
theorem C76_plain (hst : Supplied st) : PlainData st := by
  intro s t
  have h := supplied_actions (s := s) hst t
  cases t with
  | beforeSatisfyInterest d f u =>
    intro a ha
    obtain ⟨k, rfl⟩ := h a ha
    rfl
  | afterReceiveData d f u =>
    obtain ⟨pre, h1, h2⟩ := h
    refine ⟨pre, h1, fun a ha => ?_⟩
    obtain ⟨k, rfl⟩ := h2 a ha
    rfl
  | _ => trivial

/-- C76: no supplied strategy but self-learning sends any Data but the one it was given, which is what C73 assumes. -/
theorem C76_honest (hst : Supplied st) : Honest st := by
  intro s t a ha
  have h := supplied_actions (s := s) hst t
  have none : (∀ u d g, a ≠ .sendData u d g) → (∀ u d g, a ≠ .sendDataToAll u d g) →
      (∀ u d g, a = .sendData u d g → ∃ f, t = .afterContentStoreHit d f u ∨ t = .afterReceiveData d f u) ∧
      (∀ u d g, a = .sendDataToAll u d g → ∃ f, t = .afterContentStoreHit d f u ∨ t = .afterReceiveData d f u) :=
    fun h1 h2 => ⟨fun u d g hc => absurd hc (h1 u d g), fun u d g hc => absurd hc (h2 u d g)⟩
  have good : ∀ {n f}, Good s n f a → (∀ u d g, a ≠ .sendData u d g) ∧ (∀ u d g, a ≠ .sendDataToAll u d g) := by
    intro n f h
    exact ⟨fun u d g hc => by rw [hc] at h; exact h, fun u d g hc => by rw [hc] at h; exact h⟩
  have extra : Extra s a → (∀ u d g, a ≠ .sendData u d g) ∧ (∀ u d g, a ≠ .sendDataToAll u d g) := by
    intro h
    exact ⟨fun u d g hc => by rw [hc] at h; exact h, fun u d g hc => by rw [hc] at h; exact h⟩
  cases t with
  | afterReceiveInterest i f u => exact none (good (h a ha)).1 (good (h a ha)).2
  | onInterestLoop i f =>
    rcases h with h | h
    · rw [h] at ha; rw [List.mem_singleton.1 ha]; exact ⟨by simp, by simp⟩
    · rw [h] at ha; cases ha
  | afterContentStoreHit d f u =>
    rw [h] at ha
    rw [List.mem_singleton.1 ha]
    refine ⟨?_, by simp⟩
    intro u' d' g hc
    injection hc with h1 h2 h3
    subst h1 h2
    exact ⟨f, Or.inl rfl⟩
  | beforeSatisfyInterest d f u => obtain ⟨k, rfl⟩ := h a ha; exact ⟨by simp, by simp⟩
  | afterReceiveData d f u =>
    obtain ⟨pre, h1, h2⟩ := h
    rw [h1] at ha
    rcases List.mem_append.1 ha with ha | ha
    · obtain ⟨k, rfl⟩ := h2 a ha; exact ⟨by simp, by simp⟩
    · rw [List.mem_singleton.1 ha]
      refine ⟨by simp, ?_⟩
      intro u' d' g hc
      injection hc with h1 h2 h3
      subst h1 h2
      exact ⟨f, Or.inr rfl⟩
  | afterReceiveNack i k f u => exact none (extra (h a ha)).1 (extra (h a ha)).2
  | onDroppedInterest i g => exact none (extra (h a ha)).1 (extra (h a ha)).2
  | afterNewNextHop nh u => exact none (extra (h a ha)).1 (extra (h a ha)).2
  | async => exact none (extra (h a ha)).1 (extra (h a ha)).2

/-- C76: best-route, multicast, random and access leave Data entirely to the defaults, which is what C33 assumes. -/
theorem C76_basic (hst : Supplied st) (hasf : ∀ c info known p nhs w, st ≠ asfS c info known p nhs w) : BasicData st := by
  intro s t
  cases hst with
  | asf c info known p nhs w => exact absurd rfl (hasf c info known p nhs w)
  | _ => cases t <;> trivial

/-- C76: with the supplied strategies other than self-learning, for any history, no assertion fails. -/
theorem C76_no_fault (hl : ∀ x ∈ l, Supplied x.1 ∧ WellFormed x.2) : ∃ s, run env (init n) l = some s :=
  C73_no_fault (fun x hx => ⟨C76_honest (hl x hx).1, (hl x hx).2⟩)

/-- C76, with C25: with the supplied strategies no packet under /localhost leaves the host, except an Interest whose sender asked for
that face. -/
theorem C76_localhost (hst : AnySupplied st) (hr : run env (init n) l = some s) {ev : Event} (h : step env st s ev = some s') :
    ∃ new, Emits s s' new ∧ ∀ p ∈ new, UnderLocalhost p.name → IsLocal s p.face ∨ ∃ g i, p = .interest g i ∧ i.nextHop = some g :=
  C25_out (C76_scope hst) hr h

/-! ### Self-learning -/

/-- Data that arrives on a face to which the Interest was not sent is not passed on by self-learning, and yet it ends the Interest:
C29 does not hold of this strategy. -/
theorem C76_selfLearning_discards : ∃ (nhs : List NextHop) (s s' : St) (d : Data) (e : Ent),
    run exEnv (init 10) (exFaces ++ [(selfLearningS nhs [] false .now none, .interest exI1 257)]) = some s ∧ e ∈ s.pit ∧
    e.interest.matchesData d = true ∧ (∃ r ∈ e.ins, r.face = 257 ∧ s.now < r.expiry) ∧
    step exEnv (selfLearningS nhs [] false .now none) s (.data d 259) = some s' ∧ Emits s s' [] ∧
    ∃ t ∈ s'.sched, t.uid = e.uid ∧ t.due = s'.now := by
  obtain ⟨s, h1, h2⟩ := ex_run (o := run exEnv (init 10) (exFaces ++ [(selfLearningS [⟨258, 10⟩] [] false .now none, Event.interest exI1 257)]))
    (p := fun (s : St) => s.pit.any (fun e => e.interest.matchesData exData && e.ins.any (fun r => r.face == 257 && decide (s.now < r.expiry)) &&
      (step exEnv (selfLearningS [⟨258, 10⟩] [] false .now none) s (Event.data exData 259)).any (fun (s' : St) => decide (s'.sent = s.sent) &&
        s'.sched.any (fun t => t.uid == e.uid && t.due == s'.now)))) (by decide +kernel)
  obtain ⟨e, h3, h4⟩ := List.any_eq_true.1 h2
  simp only [Bool.and_eq_true] at h4
  obtain ⟨⟨h4, h5⟩, h6⟩ := h4
  obtain ⟨s', h7, h8⟩ := (Option.any_eq_true _ _).1 h6
  simp only [Bool.and_eq_true, decide_eq_true_eq] at h8
  obtain ⟨r, h9, h10⟩ := List.any_eq_true.1 h5
  obtain ⟨t, h11, h12⟩ := List.any_eq_true.1 h8.2
  simp only [Bool.and_eq_true, decide_eq_true_eq, beq_iff_eq] at h10 h12
  exact ⟨[⟨258, 10⟩], s, s', exData, e, h1, h3, h4, ⟨r, h9, h10⟩, h7, by unfold Emits; rw [h8.1, List.append_nil], t, h11, h12⟩

/-- A discovery Interest was broadcast because there was no route; the assertion that there are routes when a NoRoute Nack comes back
then fails. -/
theorem C76_selfLearning_asserts : ∃ (s : St) (e : Ent), run exEnv (init 10) (exFaces ++ [(selfLearningS [] [258, 259] false .now none, .interest exI1 257)]) = some s ∧
    e ∈ s.pit ∧ (∃ x ∈ e.outs, x.face = 258 ∧ x.nonce = exI1.nonce) ∧ selfLearningNack [] e.toPitEntry nackNoRoute e.uid = none := by
  obtain ⟨s, h1, h2⟩ := ex_run (o := run exEnv (init 10) (exFaces ++ [(selfLearningS [] [258, 259] false .now none, .interest exI1 257)]))
    (p := fun (s : St) => s.pit.any (fun e => e.outs.any (fun x => x.face == 258 && x.nonce == exI1.nonce))) (by decide +kernel)
  obtain ⟨e, h3, h4⟩ := List.any_eq_true.1 h2
  obtain ⟨x, h5, h6⟩ := List.any_eq_true.1 h4
  simp only [Bool.and_eq_true, beq_iff_eq] at h6
  exact ⟨s, e, h1, h3, ⟨x, h5, h6⟩, rfl⟩

/-! ### Non-vacuity -/

example : AnySupplied (selfLearningS [⟨258, 10⟩] [258] false .now none) := .selfLearning ..
example : ∀ x ∈ (exFaces.map (fun x => (bestRouteS {} exNhs none, x.2)) ++ [(asfS {} exInfo (fun _ => true) ⟨true, 0, 77⟩ exNhs (fun _ => none),
    Event.interest exI1 257)] : List (Strategy × Event)), Supplied x.1 := by
  intro x hx
  rcases List.mem_append.1 hx with hx | hx
  · obtain ⟨y, -, rfl⟩ := List.mem_map.1 hx
    exact .bestRoute ..
  · rw [List.mem_singleton.1 hx]
    exact .asf ..

-- C76: an Interest under /localhop from the network is not sent to the network; from an application it is
example : (run exEnv (init 10) (exFaces ++ [(bestRouteS {} [⟨258, 1⟩] none, .interest { name := [⟨8, [108, 111, 99, 97, 108, 104, 111, 112]⟩], nonce := 1 } 257),
    (bestRouteS {} [⟨258, 1⟩] none, .interest { name := [⟨8, [108, 111, 99, 97, 108, 104, 111, 112]⟩], nonce := 2 } 256)])).any (fun s =>
      s.sent.any (fun p => match p with | .nack 257 _ _ => true | _ => false) && s.sent.any (fun p => match p with | .interest 258 i => i.nonce == 2 | _ => false) &&
      !s.sent.any (fun p => match p with | .interest _ i => i.nonce == 1 | _ => false)) = true := by
  decide +kernel

end Verif.Strat
