import Verif.Nw.Trip

/-
C107: an Interest that is forwarded along a path to a producer brings the Data back.
-/
namespace Verif.Nw

open Fw Strat
open Tb (FaceId Time FwInterest NextHop)

variable {N : Type} [DecidableEq N] {T : Topology N} {env : N → Env} {App : N → Event → Prop}

/-- C107: Let forwarders, each in any state that some history leads to, be linked to a path between a consumer and a producer, and let
each of them pass the consumer's Interest on to the next. Then after one delivery of the Interest to each of them, the passing of some
time (less than the InterestLifetime) and one delivery of the Data to each of them, the first sends the producer's Data to the consumer's
face. No other forwarder is needed, or changed. -/
theorem C107_round_trip (h : Hop N) (l : List (Hop N)) {s : N → St} {i : FwInterest} {d : Data}
    (hn : ((h :: l).map (·.node)).Nodup) (hs : ∀ x ∈ h :: l, HasHistory (env x.node) (s x.node)) (hk : Linked T (h :: l))
    (hp : PathReady env s (h :: l) i) (hc : App h.node (.interest i h.inn)) (ha : Answers App d (h :: l))
    (hw : Name.WF i.name) (hd : Cs.DataWF d) (hl : ¬UnderLocalhost d.name) (hm : i.matchesData d = true) :
    ∃ s', Course T env App (h :: l) (3 * (h :: l).length) s s' ∧ (∀ z, z ∉ (h :: l).map (·.node) → s' z = s z) ∧
      ∃ new, (s' h.node).sent = (s h.node).sent ++ new ∧ .data h.inn d ∈ new :=
  trip hd hl l h s i hn (fun x hx => history_ok (hs x hx)) hk hp (.application hc (Or.inl ⟨_, _, rfl⟩)) ha hw hm

/-- C107: best-route passes an Interest on to the cheapest next hop it may be sent to, unless it has been sent already. -/
theorem C107_best_route {s : St} {i : FwInterest} {f g : FaceId} {c : Retx} {nhs : List NextHop} {w : Option Nat}
    (hs : nhs.Pairwise (fun a b => a.cost ≤ b.cost)) {nh : NextHop} (hm : nh ∈ nhs) (hg : nh.face = g) (he : Eligible s i.name f g)
    (hc : ∀ x ∈ nhs, Eligible s i.name f x.face → x.face = g ∨ nh.cost < x.cost)
    (hn : ∀ outs, OutRecords s i outs → ¬PendingUpstream s.now outs) : ForwardsOn (bestRouteS c nhs w) s i f g := by
  intro r u j e hf hnow hfi ho hj
  have hel : ∀ x : NextHop, isNextHopEligible r f j x e.toPitEntry = true ↔ Eligible s i.name f x.face := by
    intro x
    rw [eligible_iff, hj.name, eligible_congr hf]
  obtain ⟨d, w', h1, h2, -⟩ := C39_entry c r.now e.toPitEntry w
  have hd : d = .new := h2.2 (by rw [hnow]; exact hn _ ho)
  subst hd
  have : (nhs.find? (fun x => isNextHopEligible r f j x e.toPitEntry)).isSome := List.find?_isSome.2 ⟨nh, hm, (hel nh).2 (hg ▸ he)⟩
  obtain ⟨x, hx⟩ := Option.isSome_iff_exists.1 this
  obtain ⟨h3, h4, h5⟩ := find_cheapest hs hx
  refine ⟨[g], List.mem_singleton_self _, ?_⟩
  have hxg : x.face = g := by
    rcases hc x h3 ((hel x).1 h4) with h | h
    · exact h
    · have := h5 nh hm ((hel nh).2 (hg ▸ he))
      omega
  simp only [bestRouteS, hfi, Option.bind_some, bestRoute, h1, hx, Option.map_some, Option.getD_some, List.map_cons, List.map_nil, hxg]

/-- C107: multicast passes an Interest on to every next hop it may be sent to, unless it has been sent there already. -/
theorem C107_multicast {s : St} {i : FwInterest} {f g : FaceId} {c : Retx} {nhs : List NextHop} {w : FaceId → Option Nat}
    {nh : NextHop} (hm : nh ∈ nhs) (hg : nh.face = g) (he : Eligible s i.name f g) (hn : ∀ outs, OutRecords s i outs → ∀ r ∈ outs, r.face ≠ g) :
    ForwardsOn (multicastS c nhs w) s i f g := by
  intro r u j e hf hnow hfi ho hj
  refine ⟨(multicastTargets c nhs w r e.toPitEntry j f).map (·.face), ?_, ?_⟩
  · refine List.mem_map.2 ⟨nh, List.mem_filter.2 ⟨hm, ?_⟩, hg⟩
    simp only [Bool.and_eq_true, decide_eq_true_eq]
    constructor
    · have : findOut e.toPitEntry nh.face = none := by
        unfold findOut
        rw [List.find?_eq_none]
        intro x hx
        have := hn _ ho x hx
        simpa [hg] using this
      unfold Retx.decidePerUpstream
      rw [this]
      exact fun h => by cases h
    · rw [eligible_iff, hj.name, eligible_congr hf, hg]; exact he
  · simp only [multicastS, hfi, Option.map_some, Option.getD_some, List.map_map]
    rfl

/-! ### The line of three forwarders -/

/-- Faces 256 (application) and 257 at the ends, 257 and 258 in the middle. -/
abbrev exLog (x : Fin 3) : List (Strategy × Event) :=
  if x = 1 then [(exS 258, .addFace 257 ⟨.nonLocal, .p2p⟩), (exS 258, .addFace 258 ⟨.nonLocal, .p2p⟩)]
  else [(exS 257, .addFace 256 ⟨.loc, .p2p⟩), (exS 257, .addFace 257 ⟨.nonLocal, .p2p⟩)]

abbrev exNet (x : Fin 3) : St := (run (exEnv x) (init 10) (exLog x)).getD (init 0)

abbrev exDt : Data := { name := [exC 1, exC 2], digest := List.replicate 32 0, freshness := 0 }
abbrev exAsk : Fin 3 → Event → Prop := fun x ev => (x = 0 ∧ ev = .interest exI 256) ∨ (x = 2 ∧ ev = .data exDt 256)

/-- Half a second, a third of one and a tenth of one pass at the nodes; the InterestLifetime is 4 s. -/
abbrev exHops : List (Hop (Fin 3)) := [⟨1, 257, 258, exS 258, 300000000⟩, ⟨2, 257, 256, exS 256, 100000000⟩]
abbrev exHop0 : Hop (Fin 3) := ⟨0, 256, 257, exS 257, 500000000⟩

theorem exNet_history (x : Fin 3) : HasHistory (exEnv x) (exNet x) := by
  have hb : ∀ g, Honest (exS g) := fun g => C76_honest (.bestRoute ..)
  refine ⟨10, exLog x, ?_, ?_⟩
  · intro y hy
    unfold exLog at hy
    split at hy <;> simp only [List.mem_cons, List.not_mem_nil, or_false] at hy <;> rcases hy with rfl | rfl <;> exact ⟨hb _, trivial⟩
  · match x with
    | 0 => rfl
    | 1 => rfl
    | 2 => rfl

/-- What has to hold at one of the nodes. -/
theorem exReady {x : Fin 3} {f g : FaceId} {wt : Time} {i : FwInterest} {fi gi : FaceInfo} (hk : i.toInterest = exI.toInterest)
    (hnh : i.nextHop = none) (hno : i.nonce = 7) (hlt : i.lifetime = 4000000000) (hh : i.hopLimit ≠ some 0)
    (hout : leavesWith (exNet x).cfg i.hopLimit = some 0 → gi.scope = .loc)
    (hf : (exNet x).faces f = some fi) (hg : (exNet x).faces g = some gi) (hfg : g ≠ f) (hpit : (exNet x).pit = [])
    (hcs : ∃ c, (exNet x).cs.find exI.toInterest = some (c, none)) (hdnl : (exNet x).dnl.has (exEnv x).hash exI.name 7 = false) (hw : wt < 4000000000) :
    Ready (exEnv x) (exNet x) ⟨x, f, g, exS g, wt⟩ i := by
  have hname : i.name = [exC 1] := congrArg Interest.name hk
  have hlocal : ¬UnderLocalhost i.name := by rw [hname, ← localhost_iff]; decide
  have hlocalhop : ¬UnderLocalhop i.name := by
    rw [hname]
    rintro ⟨rest, h⟩
    exact absurd (List.cons.inj h).1 (by decide)
  have hel : Eligible (exNet x) i.name f g := ⟨fi, gi, hf, hg, fun h => absurd h hfg, fun h => absurd h hlocal, fun h => absurd h hlocalhop⟩
  refine ⟨⟨⟨fi, hf, ⟨hh, fun h => hlocal h.2⟩, ?_⟩, hnh, Or.inr (by rw [hk]; exact hcs)⟩, by rw [hg]; rfl, hfg, ?_, ?_, C76_plain (.bestRoute ..),
    C76_honest (.bestRoute ..), ?_⟩
  · rintro (h | ⟨e, he, -⟩)
    · rw [hname, hno] at h
      rw [show exI.name = [exC 1] from rfl] at hdnl
      rw [hdnl] at h; cases h
    · rw [hpit] at he; cases he
  · refine C107_best_route (nh := ⟨g, 0⟩) (by simp) (List.mem_singleton_self _) rfl hel (fun x hx _ => Or.inl (by rw [List.mem_singleton.1 hx])) ?_
    rintro outs (⟨e, he, -⟩ | ⟨-, rfl⟩) ⟨r, hr, -⟩
    · rw [hpit] at he; cases he
    · cases hr
  · rintro j hj ⟨h1, gi', h2, h3⟩
    rw [hg] at h2
    cases h2
    rw [hj.hopLimit] at h1
    rw [hout h1] at h3
    cases h3
  · show wt < min i.lifetime Tb.tenDays
    rw [hlt]
    exact hw

/-- C107 applies to the line of three forwarders; HopLimit 3 is just enough. -/
example : ∃ s', Course exT exEnv exAsk (exHop0 :: exHops) 9 exNet s' ∧ ∃ new, (s' 0).sent = (exNet 0).sent ++ new ∧ .data 256 exDt ∈ new := by
  have hcs : ∀ x, ∃ c, (exNet x).cs.find exI.toInterest = some (c, none) := by
    intro x
    match x with
    | 0 => exact ⟨_, rfl⟩
    | 1 => exact ⟨_, rfl⟩
    | 2 => exact ⟨_, rfl⟩
  have hcfg : ∀ x, (exNet x).cfg = (init 10).cfg := by
    intro x
    match x with
    | 0 => rfl
    | 1 => rfl
    | 2 => rfl
  obtain ⟨s', h1, -, h2⟩ := C107_round_trip (T := exT) (env := exEnv) (App := exAsk) exHop0 exHops (s := exNet) (i := exI) (d := exDt)
    (by decide) (fun x _ => exNet_history x.node) ⟨by decide, by decide, by decide, by decide, trivial⟩
    (by
      refine ⟨exReady rfl rfl rfl rfl (by decide) (by decide) (fi := ⟨.loc, .p2p⟩) (gi := ⟨.nonLocal, .p2p⟩) rfl rfl (by decide) rfl (hcs 0) (by decide) (by decide), ?_⟩
      intro j hj
      have hj1 : j.hopLimit = some 2 := hj.hopLimit
      refine ⟨exReady hj.key hj.nextHop hj.nonce hj.lifetime (by rw [hj1]; decide) (by rw [hj1]; decide) (fi := ⟨.nonLocal, .p2p⟩) (gi := ⟨.nonLocal, .p2p⟩)
        rfl rfl (by decide) rfl (hcs 1) (by decide) (by decide), ?_⟩
      intro k hk
      have hk1 : k.hopLimit = some 1 := by rw [hk.hopLimit, hj1]; rfl
      refine ⟨exReady (hk.key.trans hj.key) (hk.nextHop.trans hj.nextHop) (hk.nonce.trans hj.nonce) (hk.lifetime.trans hj.lifetime)
        (by rw [hk1]; decide) (fun _ => rfl) (fi := ⟨.nonLocal, .p2p⟩) (gi := ⟨.loc, .p2p⟩) rfl rfl (by decide) rfl (hcs 2) (by decide) (by decide), ?_⟩
      intro _ _
      trivial)
    (Or.inl ⟨rfl, rfl⟩) (Or.inr ⟨rfl, rfl⟩) (by unfold Name.WF; decide) ⟨by unfold Name.WF; decide, by decide⟩
    (by rw [← localhost_iff]; decide) (by decide)
  exact ⟨s', h1, h2⟩

end Verif.Nw
