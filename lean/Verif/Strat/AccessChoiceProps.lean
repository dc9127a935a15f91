import Verif.Strat.AccessChoiceSpec
import Verif.Strat.Props

/-! # C133: the access strategy tries the learned next hop alone, and all the others when this fails -/
namespace Verif.Strat

open Fw
open Tb (FaceId Time FwInterest InRec OutRec PitEntry NextHop)

variable {s : St} {nhs : List NextHop} {i : FwInterest} {f : FaceId} {u : Nat} {e : PitEntry} {x : List Action}

theorem targets_iff {ex : FaceId} {g : FaceId} : (∃ nh ∈ accessTargets s nhs i f ex, nh.face = g) ↔ Candidate s nhs i f g ∧ g ≠ ex := by
  unfold accessTargets Candidate
  constructor
  · rintro ⟨nh, h, rfl⟩
    obtain ⟨h1, h2⟩ := List.mem_filter.1 h
    cases hf : s.faces f with
    | none => rw [hf] at h2; cases h2
    | some fi =>
      cases hg : s.faces nh.face with
      | none => rw [hf, hg] at h2; cases h2
      | some gi =>
        rw [hf, hg] at h2
        simp only [Bool.not_eq_true', Bool.or_eq_false_iff, beq_eq_false_iff_ne] at h2
        exact ⟨⟨⟨nh, h1, rfl⟩, h2.1.1, fi, gi, rfl, rfl, scope_iff.1 h2.2⟩, h2.1.2⟩
  · rintro ⟨⟨⟨nh, h1, rfl⟩, h2, fi, gi, hf, hg, hs⟩, h3⟩
    refine ⟨nh, List.mem_filter.2 ⟨h1, ?_⟩, rfl⟩
    rw [hf, hg]
    simp only [Bool.not_eq_true', Bool.or_eq_false_iff, beq_eq_false_iff_ne]
    exact ⟨⟨h2, h3⟩, scope_iff.2 hs⟩

theorem usable_iff {g : FaceId} : lastNexthopUsable s nhs i f g = true ↔ g ≠ 0 ∧ Candidate s nhs i f g := by
  unfold lastNexthopUsable Candidate
  simp only [Bool.and_eq_true, decide_eq_true_eq]
  constructor
  · rintro ⟨⟨h1, h2⟩, h3⟩
    cases hf : s.faces f with
    | none => rw [hf] at h3; cases h3
    | some fi =>
      cases hg : s.faces g with
      | none => rw [hf, hg] at h3; cases h3
      | some gi =>
        rw [hf, hg] at h3
        simp only [Bool.and_eq_true, Bool.not_eq_true', List.any_eq_true, beq_iff_eq] at h3
        exact ⟨h1, h3.1, h2, fi, gi, rfl, rfl, scope_iff.1 h3.2⟩
  · rintro ⟨h1, h3, h2, fi, gi, hf, hg, hs⟩
    refine ⟨⟨h1, h2⟩, ?_⟩
    rw [hf, hg]
    simp only [Bool.and_eq_true, Bool.not_eq_true', List.any_eq_true, beq_iff_eq]
    exact ⟨h3, scope_iff.2 hs⟩

theorem sends_iff {g : FaceId} : sends s i g = true ↔ HopsLeft s i g := by
  unfold sends HopsLeft
  cases s.faces g with
  | none => simp
  | some gi => simp [Decidable.imp_iff_not_or]

theorem flood_iff {ex : FaceId} {j : FwInterest} {v : Nat} {g : FaceId} :
    Action.sendInterest v j g ∈ (accessTargets s nhs i f ex).map (fun nh => Action.sendInterest u i nh.face) ↔ v = u ∧ j = i ∧ Candidate s nhs i f g ∧ g ≠ ex := by
  rw [List.mem_map, ← targets_iff]
  constructor
  · rintro ⟨nh, h, hh⟩; cases hh; exact ⟨rfl, rfl, nh, h, rfl⟩
  · rintro ⟨rfl, rfl, nh, h, rfl⟩; exact ⟨nh, h, rfl⟩

theorem new_of (hp : ¬ PendingUpstream s.now e.outs) : fixedDecide 100 s.now e = some .new := by
  obtain ⟨d, h1, h2, -⟩ := C39_fixed 100 s.now e
  rw [h1, h2.2 hp]

/-- **C133.** A new Interest for whose prefix a next hop is known goes to this next hop and to no other, if that is possible. -/
theorem C133_alone (g : FaceId) (hp : ¬ PendingUpstream s.now e.outs) (h0 : g ≠ 0) (hc : Candidate s nhs i f g) (hh : HopsLeft s i g) :
    accessInterest nhs (some g) s e i f u = some [.sendInterest u i g] := by
  unfold accessInterest
  rw [new_of hp, Option.map_some]
  dsimp only
  rw [if_pos (usable_iff.2 ⟨h0, hc⟩), if_pos (sends_iff.2 hh)]

/-- **C133.** A new Interest for whose prefix no next hop is known, or one that cannot be used, goes to all candidates and to nobody else. -/
theorem C133_all (last : Option FaceId) (hp : ¬ PendingUpstream s.now e.outs) (hz : ∀ nh ∈ nhs, nh.face ≠ 0)
    (hl : ∀ g, last = some g → ¬ (Candidate s nhs i f g ∧ HopsLeft s i g)) :
    ∃ x, accessInterest nhs last s e i f u = some x ∧ ∀ g, Action.sendInterest u i g ∈ x ↔ Candidate s nhs i f g := by
  have hz' : ∀ g, Candidate s nhs i f g → g ≠ 0 := by
    rintro g ⟨⟨nh, h, rfl⟩, -⟩; exact hz nh h
  have tail : ∀ (b : Bool) (g : FaceId), Action.sendInterest u i g ∉ (if b = true then [] else [Action.setExpiryTimer u 0]) := by
    intro b g h; cases b <;> simp at h
  have fl : ∀ (b : Bool) (g : FaceId), Action.sendInterest u i g ∈ (accessTargets s nhs i f 0).map (fun nh => Action.sendInterest u i nh.face) ++
      (if b = true then [] else [Action.setExpiryTimer u 0]) ↔ Candidate s nhs i f g := by
    intro b g
    rw [List.mem_append, flood_iff]
    exact ⟨fun h => h.elim (fun h => h.2.2.1) (fun h => absurd h (tail b g)), fun h => .inl ⟨rfl, rfl, h, hz' g h⟩⟩
  unfold accessInterest
  rw [new_of hp, Option.map_some]
  dsimp only
  cases last with
  | none => exact ⟨_, rfl, fl _⟩
  | some l =>
    dsimp only
    by_cases hu : lastNexthopUsable s nhs i f l = true
    · rw [if_pos hu]
      have hcl := (usable_iff.1 hu).2
      have hs : ¬ sends s i l = true := fun hs => hl l rfl ⟨hcl, sends_iff.1 hs⟩
      rw [if_neg hs]
      refine ⟨_, rfl, fun g => ?_⟩
      rw [List.cons_append, List.mem_cons, fl]
      constructor
      · rintro (h | h)
        · cases h; exact hcl
        · exact h
      · exact .inr
    · rw [if_neg hu]; exact ⟨_, rfl, fl _⟩

/-- **C133.** A new Interest is given up at once exactly if there is no candidate that it can really be sent to; otherwise it is sent to one. -/
theorem C133_given_up (last : Option FaceId) (hp : ¬ PendingUpstream s.now e.outs) (hz : ∀ nh ∈ nhs, nh.face ≠ 0) :
    ∃ x, accessInterest nhs last s e i f u = some x ∧
      (Action.setExpiryTimer u 0 ∈ x ↔ ∀ g, Candidate s nhs i f g → ¬ HopsLeft s i g) ∧
      ((∃ g, Candidate s nhs i f g ∧ HopsLeft s i g) → ∃ g, Candidate s nhs i f g ∧ HopsLeft s i g ∧ Action.sendInterest u i g ∈ x) := by
  have hz' : ∀ g, Candidate s nhs i f g → g ≠ 0 := by
    rintro g ⟨⟨nh, h, rfl⟩, -⟩; exact hz nh h
  have any_iff : (accessTargets s nhs i f 0).any (fun nh => sends s i nh.face) = true ↔ ∃ g, Candidate s nhs i f g ∧ HopsLeft s i g := by
    rw [List.any_eq_true]
    constructor
    · rintro ⟨nh, h1, h2⟩; exact ⟨nh.face, (targets_iff.1 ⟨nh, h1, rfl⟩).1, sends_iff.1 h2⟩
    · rintro ⟨g, h1, h2⟩
      obtain ⟨nh, h3, rfl⟩ := targets_iff.2 ⟨h1, hz' g h1⟩
      exact ⟨nh, h3, sends_iff.2 h2⟩
  have fl : Action.setExpiryTimer u 0 ∈ (accessTargets s nhs i f 0).map (fun nh => Action.sendInterest u i nh.face) ++
      (if (accessTargets s nhs i f 0).any (fun nh => sends s i nh.face) = true then [] else [Action.setExpiryTimer u 0]) ↔
      ∀ g, Candidate s nhs i f g → ¬ HopsLeft s i g := by
    rw [List.mem_append]
    by_cases ha : (accessTargets s nhs i f 0).any (fun nh => sends s i nh.face) = true
    · rw [if_pos ha]
      obtain ⟨g, h1, h2⟩ := any_iff.1 ha
      refine ⟨fun h => ?_, fun h => absurd h2 (h g h1)⟩
      rcases h with h | h
      · rw [List.mem_map] at h; obtain ⟨_, -, hh⟩ := h; cases hh
      · cases h
    · rw [if_neg ha]
      exact ⟨fun _ g h1 h2 => ha (any_iff.2 ⟨g, h1, h2⟩), fun _ => .inr List.mem_cons_self⟩
  have give : (∃ g, Candidate s nhs i f g ∧ HopsLeft s i g) → ∀ b : List Action, ∃ g, Candidate s nhs i f g ∧ HopsLeft s i g ∧
      Action.sendInterest u i g ∈ (accessTargets s nhs i f 0).map (fun nh => Action.sendInterest u i nh.face) ++ b := by
    rintro ⟨g, h1, h2⟩ b
    exact ⟨g, h1, h2, List.mem_append_left _ (flood_iff.2 ⟨rfl, rfl, h1, hz' g h1⟩)⟩
  unfold accessInterest
  rw [new_of hp, Option.map_some]
  dsimp only
  cases last with
  | none => exact ⟨_, rfl, fl, fun h => give h _⟩
  | some l =>
    dsimp only
    by_cases hu : lastNexthopUsable s nhs i f l = true
    · rw [if_pos hu]
      have hcl := (usable_iff.1 hu).2
      by_cases hs : sends s i l = true
      · rw [if_pos hs]
        refine ⟨_, rfl, ⟨fun h => ?_, fun h => absurd (sends_iff.1 hs) (h l hcl)⟩, fun _ => ⟨l, hcl, sends_iff.1 hs, List.mem_cons_self⟩⟩
        simp at h
      · rw [if_neg hs]
        refine ⟨_, rfl, ?_, fun h => ?_⟩
        · rw [List.cons_append, List.mem_cons, fl]
          exact ⟨fun h => h.elim (fun h => by cases h) id, .inr⟩
        · obtain ⟨g, h1, h2, h3⟩ := give h _
          exact ⟨g, h1, h2, by rw [List.cons_append]; exact List.mem_cons_of_mem _ h3⟩
    · rw [if_neg hu]; exact ⟨_, rfl, fl, fun h => give h _⟩

/-- **C133.** A retransmission less than 100 ms after the Interest was last sent does nothing; a later one goes to all candidates, and to nobody else. -/
theorem C133_again (last : Option FaceId) (hp : PendingUpstream s.now e.outs) (hz : ∀ nh ∈ nhs, nh.face ≠ 0) (t : Time) (ht : LastSent e.outs t) :
    ∃ x, accessInterest nhs last s e i f u = some x ∧ (s.now - t < 100000000 → x = []) ∧
      (100000000 ≤ s.now - t → ∀ g, Action.sendInterest u i g ∈ x ↔ Candidate s nhs i f g) := by
  obtain ⟨d, h1, h2, h3⟩ := C39_fixed 100 s.now e
  have h3 := h3 hp t ht
  unfold accessInterest
  rw [h1, Option.map_some]
  cases d with
  | new => exact absurd hp (h2.1 rfl)
  | suppress => exact ⟨_, rfl, fun _ => rfl, fun h => absurd (h3.1 rfl) (Nat.not_lt.2 h)⟩
  | forward =>
    refine ⟨_, rfl, fun h => ?_, fun _ g => ?_⟩
    · have := h3.2 h; cases this
    · rw [flood_iff]
      refine ⟨fun h => h.2.2.1, fun h => ⟨rfl, rfl, h, ?_⟩⟩
      obtain ⟨⟨nh, h, rfl⟩, -⟩ := h
      exact hz nh h

/-- **C133.** When the learned next hop has not answered in time, the Interest goes to all the other candidates: with the first attempt no candidate is left out. -/
theorem C133_timeout (first : FaceId) (h : accessRto nhs s u f first = some x) (pe : Ent) (he : s.find u = some pe) (fi : FaceInfo) (hf : s.faces f = some fi) :
    ∃ r ∈ pe.ins, r.face = f ∧ ∀ g, Action.sendInterest u r.interest g ∈ x ↔ Candidate s nhs r.interest f g ∧ g ≠ first := by
  unfold accessRto at h
  rw [he, hf] at h
  dsimp only at h
  cases hr : pe.ins.find? (·.face == f) with
  | none => rw [hr] at h; cases h
  | some r =>
    rw [hr] at h
    cases h
    refine ⟨r, List.mem_of_find?_eq_some hr, by simpa using List.find?_some hr, fun g => ?_⟩
    rw [flood_iff]
    exact ⟨fun h => h.2.2, fun h => ⟨rfl, rfl, h⟩⟩

/-! ### What the forwarder sends -/

theorem access_shape (last : Option FaceId) (h : accessInterest nhs last s e i f u = some x) :
    ∃ (gs : List FaceId) (tail : List Action), x = gs.map (fun g => Action.sendInterest u i g) ++ tail ∧ (tail = [] ∨ tail = [.setExpiryTimer u 0]) := by
  have fl : ∀ (b : Bool), ∃ (gs : List FaceId) (tail : List Action),
      (accessTargets s nhs i f 0).map (fun nh => Action.sendInterest u i nh.face) ++ (if b = true then [] else [Action.setExpiryTimer u 0]) =
        gs.map (fun g => Action.sendInterest u i g) ++ tail ∧ (tail = [] ∨ tail = [.setExpiryTimer u 0]) := by
    intro b
    refine ⟨(accessTargets s nhs i f 0).map (·.face), _, by rw [List.map_map]; rfl, ?_⟩
    cases b
    · exact .inr rfl
    · exact .inl rfl
  unfold accessInterest at h
  rw [Option.map_eq_some_iff] at h
  obtain ⟨d, -, rfl⟩ := h
  cases d with
  | suppress => exact ⟨[], [], rfl, .inl rfl⟩
  | forward => exact ⟨(accessTargets s nhs i f 0).map (·.face), [], by rw [List.map_map, List.append_nil]; rfl, .inl rfl⟩
  | new =>
    dsimp only
    cases last with
    | none => exact fl _
    | some g =>
      dsimp only
      by_cases hu : lastNexthopUsable s nhs i f g = true
      · rw [if_pos hu]
        by_cases hs : sends s i g = true
        · rw [if_pos hs]; exact ⟨[g], [], rfl, .inl rfl⟩
        · rw [if_neg hs]
          obtain ⟨gs, tail, h1, h2⟩ := fl ((accessTargets s nhs i f 0).any (fun nh => sends s i nh.face))
          exact ⟨g :: gs, tail, by rw [List.cons_append, h1]; rfl, h2⟩
      · rw [if_neg hu]; exact fl _

/-- **C133.** The packets that leave for an Interest that the forwarder passes to the strategy: none within 100 ms after it was last sent; afterwards the Interest goes to all candidates;
a new one goes to the learned next hop, if this is a candidate, and to all candidates otherwise. -/
theorem C133_packets {env : Env} {n : Nat} {l : List (Strategy × Event)} {s' : St} (hr : run env (init n) l = some s) (hp : Passed env s i f) {outs : List OutRec}
    (ho : OutRecords s i outs) (hz : ∀ nh ∈ nhs, nh.face ≠ 0) (last : Option FaceId) (rto : Option (Nat × FaceId × FaceId))
    (h : step env (accessS nhs last rto) s (.interest i f) = some s') :
    ∃ j new, Carries s.cfg i j ∧ Emits s s' new ∧ ∀ p, p ∈ new ↔ ∃ g, p = .interest g j ∧ Candidate s nhs i f g ∧ ¬ OutOfHops s j g ∧
      ((PendingUpstream s.now outs ∧ ∀ t, LastSent outs t → 100000000 ≤ s.now - t) ∨
       (¬ PendingUpstream s.now outs ∧ ∀ k, last = some k → Candidate s nhs i f k → ¬ OutOfHops s j k → g = k)) := by
  have hi := reach_inv hr
  obtain ⟨r, v, pe, j, hc⟩ := passed_call hi hp h
  have houts := outRecords_unique hi hc.outs ho
  have hcand : ∀ g, Candidate r nhs j f g ↔ Candidate s nhs i f g := by
    intro g; unfold Candidate; rw [hc.faces, hc.carries.name]
  have hhops : ∀ g, Candidate s nhs i f g → (HopsLeft r j g ↔ ¬ OutOfHops s j g) := by
    rintro g ⟨-, -, fi, gi, -, hg, -⟩
    unfold HopsLeft OutOfHops
    rw [hc.faces, hg]
    simp
  have hz' : ∀ g, Candidate s nhs i f g → g ≠ 0 := by
    rintro g ⟨⟨nh, h, rfl⟩, -⟩; exact hz nh h
  have hpend : PendingUpstream r.now pe.outs ↔ PendingUpstream s.now outs := by rw [hc.now, houts]
  -- what the strategy orders
  have key : ∃ x, accessInterest nhs last r pe.toPitEntry j f v = some x ∧ ∀ g, (Action.sendInterest v j g ∈ x → Candidate s nhs i f g) ∧
      (Candidate s nhs i f g → ¬ OutOfHops s j g → (Action.sendInterest v j g ∈ x ↔
      ((PendingUpstream s.now outs ∧ ∀ t, LastSent outs t → 100000000 ≤ s.now - t) ∨
       (¬ PendingUpstream s.now outs ∧ ∀ k, last = some k → Candidate s nhs i f k → ¬ OutOfHops s j k → g = k)))) := by
    by_cases hpe : PendingUpstream s.now outs
    · obtain ⟨t, ht⟩ := lastSent_exists (pending_nonempty hpe)
      obtain ⟨x, h1, h2, h3⟩ := C133_again (s := r) (e := pe.toPitEntry) (i := j) (f := f) (u := v) last (hpend.2 hpe) hz t (by rw [houts]; exact ht)
      rw [hc.now] at h2 h3
      refine ⟨x, h1, fun g => ?_⟩
      by_cases hlt : s.now - t < 100000000
      · rw [h2 hlt]
        refine ⟨fun hh => (by cases hh), fun _ _ => ⟨fun hh => (by cases hh), fun hh => ?_⟩⟩
        rcases hh with ⟨-, hh⟩ | ⟨hh, -⟩
        · exact absurd (hh t ht) (Nat.not_le.2 hlt)
        · exact absurd hpe hh
      · have h3 := h3 (Nat.le_of_not_lt hlt) g
        rw [hcand] at h3
        refine ⟨h3.1, fun hg _ => ⟨fun _ => .inl ⟨hpe, fun t' ht' => ?_⟩, fun _ => h3.2 hg⟩⟩
        have ha := lastOutgoing_some (e := pe.toPitEntry) |>.2 (show LastSent pe.outs t from houts ▸ ht)
        have hb := lastOutgoing_some (e := pe.toPitEntry) |>.2 (show LastSent pe.outs t' from houts ▸ ht')
        rw [ha] at hb
        cases hb
        exact Nat.le_of_not_lt hlt
    · have hpr : ¬ PendingUpstream r.now pe.outs := fun hh => hpe (hpend.1 hh)
      by_cases hu : ∃ k, last = some k ∧ Candidate s nhs i f k ∧ ¬ OutOfHops s j k
      · obtain ⟨k, rfl, hk, hk2⟩ := hu
        refine ⟨_, C133_alone (s := r) k hpr (hz' k hk) ((hcand k).2 hk) ((hhops k hk).2 hk2), fun g => ⟨fun hh => ?_, fun _ _ => ⟨fun hh => .inr ⟨hpe, ?_⟩, fun hh => ?_⟩⟩⟩
        · have := List.mem_singleton.1 hh; cases this; exact hk
        · have := List.mem_singleton.1 hh; cases this
          intro k' hk' _ _; cases hk'; rfl
        · rcases hh with ⟨hh, -⟩ | ⟨-, hh⟩
          · exact absurd hh hpe
          · rw [hh k rfl hk hk2]; exact List.mem_cons_self
      · obtain ⟨x, h1, h2⟩ := C133_all (s := r) (e := pe.toPitEntry) (i := j) (f := f) (u := v) last hpr hz
          (fun g hg hh => hu ⟨g, hg, (hcand g).1 hh.1, (hhops g ((hcand g).1 hh.1)).1 hh.2⟩)
        refine ⟨x, h1, fun g => ⟨fun hh => (hcand g).1 ((h2 g).1 hh), fun hg _ => ⟨fun _ => .inr ⟨hpe, fun k a b c => absurd ⟨k, a, b, c⟩ hu⟩, fun _ => (h2 g).2 ((hcand g).2 hg)⟩⟩⟩
  obtain ⟨x, hx, hkey⟩ := key
  obtain ⟨gs, tail, rfl, htail⟩ := access_shape last hx
  have hmem : ∀ g, Action.sendInterest v j g ∈ gs.map (fun g => Action.sendInterest v j g) ++ tail ↔ g ∈ gs := by
    intro g
    rw [List.mem_append, List.mem_map]
    constructor
    · rintro (⟨g', hg, hh⟩ | hh)
      · cases hh; exact hg
      · rcases htail with rfl | rfl <;> simp at hh
    · exact fun hg => .inl ⟨g, hg, rfl⟩
  have hact : accessS nhs last rto r (.afterReceiveInterest j f v) = gs.map (fun g => Action.sendInterest v j g) ++ tail := by
    simp only [accessS, hc.find, Option.bind_some, hx, Option.getD_some]
  have hcalls := hc.calls
  rw [hact, acts_append, Option.bind_eq_some_iff] at hcalls
  obtain ⟨r1, c1, c2⟩ := hcalls
  have h1 := sent_interests j gs { r with calls := r.calls ++ [.afterReceiveInterest j f v] } r1 pe hc.find c1
  have hsent : s'.sent = r1.sent := by
    rcases htail with rfl | rfl
    · cases c2; rfl
    · cases c2
      unfold setExpiryTimer
      split <;> rfl
  refine ⟨j, gs.flatMap (wire s.faces j), hc.carries, ?_, fun p => ?_⟩
  · unfold Emits
    rw [hsent, h1.sent]
    show r.sent ++ List.flatMap (wire r.faces j) _ = _
    rw [hc.sent, hc.faces]
  · have hel : ∀ g, Candidate s nhs i f g → Eligible s i.name f g := by
      rintro g ⟨-, hne, fi, gi, a, b, c⟩
      exact ⟨fi, gi, a, b, fun hh => absurd hh hne, c⟩
    rw [List.mem_flatMap]
    constructor
    · rintro ⟨g, hg, hpw⟩
      have hm := (hmem g).2 hg
      have hcg := (hkey g).1 hm
      obtain ⟨w1, w2⟩ := wire_eq (j := j) (hel g hcg)
      by_cases hh : OutOfHops s j g
      · rw [w1 hh] at hpw; cases hpw
      · rw [w2 hh] at hpw
        exact ⟨g, List.mem_singleton.1 hpw, hcg, hh, ((hkey g).2 hcg hh).1 hm⟩
    · rintro ⟨g, rfl, hcg, hh, hch⟩
      refine ⟨g, (hmem g).1 (((hkey g).2 hcg hh).2 hch), ?_⟩
      rw [(wire_eq (j := j) (hel g hcg)).2 hh]
      exact List.mem_cons_self

/-- **C133.** The packets that leave when the timer of the learned next hop `first` fires: the pending Interest of the downstream, to every candidate but this one. -/
theorem C133_timeout_packets {env : Env} {s' : St} {pe : Ent} (he : s.find u = some pe) (hi : ∃ r ∈ pe.ins, r.face = f) {fi : FaceInfo} (hf : s.faces f = some fi)
    (last : Option FaceId) (first : FaceId) (h : step env (accessS nhs last (some (u, f, first))) s .async = some s') :
    ∃ r ∈ pe.ins, r.face = f ∧ ∃ new, Emits s s' new ∧
      ∀ p, p ∈ new ↔ ∃ g, p = .interest g r.interest ∧ Candidate s nhs r.interest f g ∧ g ≠ first ∧ ¬ OutOfHops s r.interest g := by
  obtain ⟨r, hr⟩ : ∃ r, pe.ins.find? (·.face == f) = some r := by
    obtain ⟨r, h1, h2⟩ := hi
    exact Option.isSome_iff_exists.1 (List.find?_isSome.2 ⟨r, h1, by simpa using h2⟩)
  refine ⟨r, List.mem_of_find?_eq_some hr, by simpa using List.find?_some hr, ?_⟩
  have hact : accessS nhs last (some (u, f, first)) s .async = ((accessTargets s nhs r.interest f first).map (·.face)).map (fun g => Action.sendInterest u r.interest g) := by
    simp only [accessS, Option.bind_some, accessRto, he, hf, hr, Option.getD_some, List.map_map]
    rfl
  have hcall : acts { s with calls := s.calls ++ [.async] } (accessS nhs last (some (u, f, first)) s .async) = some s' := h
  rw [hact] at hcall
  have h1 := sent_interests r.interest _ { s with calls := s.calls ++ [.async] } s' pe he hcall
  refine ⟨_, h1.sent, fun p => ?_⟩
  have hmem : ∀ g, g ∈ (accessTargets s nhs r.interest f first).map (·.face) ↔ Candidate s nhs r.interest f g ∧ g ≠ first := by
    intro g; rw [List.mem_map, targets_iff]
  have hel : ∀ g, Candidate s nhs r.interest f g → Eligible s r.interest.name f g := by
    rintro g ⟨-, hne, fi, gi, a, b, c⟩
    exact ⟨fi, gi, a, b, fun hh => absurd hh hne, c⟩
  rw [List.mem_flatMap]
  constructor
  · rintro ⟨g, hg, hpw⟩
    obtain ⟨hcg, hne⟩ := (hmem g).1 hg
    obtain ⟨w1, w2⟩ := wire_eq (j := r.interest) (hel g hcg)
    have hpw : p ∈ wire s.faces r.interest g := hpw
    by_cases hh : OutOfHops s r.interest g
    · rw [w1 hh] at hpw; cases hpw
    · rw [w2 hh] at hpw
      exact ⟨g, List.mem_singleton.1 hpw, hcg, hne, hh⟩
  · rintro ⟨g, rfl, hcg, hne, hh⟩
    refine ⟨g, (hmem g).2 ⟨hcg, hne⟩, ?_⟩
    show _ ∈ wire s.faces r.interest g
    rw [(wire_eq (j := r.interest) (hel g hcg)).2 hh]
    exact List.mem_cons_self

/-! ### Examples

Face 257 is the downstream; the learned next hop is 259. -/

/-- 257 has sent the Interest, and only 259 gets it; after the timeout it goes to 258. With 257 as the learned next hop it goes to 258 and 259. -/
example : (run exEnv (init 10) (exFaces ++ [(accessS exNhs (some 259) none, .interest exI1 257)])).any (fun s =>
    decide (s.sent = [.interest 259 { exI1 with hopLimit := some 4 }])) = true := by decide +kernel
example : (run exEnv (init 10) (exFaces ++ [(accessS exNhs (some 257) none, .interest exI1 257)])).any (fun s =>
    decide (s.sent = [.interest 258 { exI1 with hopLimit := some 4 }, .interest 259 { exI1 with hopLimit := some 4 }])) = true := by decide +kernel
example : (run exEnv (init 10) (exFaces ++ [(accessS exNhs (some 259) none, .interest exI1 257), (exStrategy, .tick 99999999),
    (accessS exNhs (some 259) none, .interest { exI1 with nonce := 2 } 257), (exStrategy, .tick 1),
    (accessS exNhs (some 259) none, .interest { exI1 with nonce := 3 } 257)])).any (fun s =>
    decide (s.sent = [.interest 259 { exI1 with hopLimit := some 4 }, .interest 258 { exI1 with nonce := 3, hopLimit := some 4 },
      .interest 259 { exI1 with nonce := 3, hopLimit := some 4 }])) = true := by decide +kernel

/-- The hypotheses of `C133_alone` and `C133_given_up`. -/
example : ∃ s, run exEnv (init 10) exFaces = some s ∧ Candidate s exNhs exI1 257 259 ∧ HopsLeft s exI1 259 ∧ ¬ Candidate s exNhs exI1 257 257 ∧
    ¬ HopsLeft s { exI1 with hopLimit := some 0 } 259 ∧ ∀ nh ∈ exNhs, nh.face ≠ 0 := by
  obtain ⟨s, h1, h2⟩ := ex_run (o := run exEnv (init 10) exFaces)
    (p := fun s => decide (s.faces 257 = some ⟨.nonLocal, .p2p⟩ ∧ s.faces 259 = some ⟨.nonLocal, .adHoc⟩)) (by decide +kernel)
  simp only [decide_eq_true_eq] at h2
  have hl : ¬UnderLocalhost exI1.name := by rintro ⟨x, hx⟩; simp [cLocalhost] at hx
  have hh : ¬UnderLocalhop exI1.name := by rintro ⟨x, hx⟩; simp [cLocalhop] at hx
  refine ⟨s, h1, ⟨⟨⟨259, 20⟩, by decide, rfl⟩, by decide, _, _, h2.1, h2.2, fun h => absurd h hl, fun h => absurd h hh⟩, ⟨_, h2.2, by decide⟩, fun h => h.2.1 rfl, ?_, by decide⟩
  rintro ⟨gi, hg, hn⟩
  rw [h2.2] at hg
  cases hg
  exact hn ⟨rfl, rfl⟩

/-- The timer of the Interest from 257 that went to 259. -/
example : (run exEnv (init 10) (exFaces ++ [(accessS exNhs (some 259) none, .interest exI1 257)])).any (fun s => s.pit.any (fun pe =>
    decide ((accessRto exNhs s pe.uid 257 259).map (·.length) = some 1))) = true := by decide +kernel

/-- The same through the forwarder: the timer of the first pending Interest fires, and 258 gets the Interest, too. -/
example : (run exEnv (init 10) (exFaces ++ [(accessS exNhs (some 259) none, .interest exI1 257)])).any (fun s => s.pit.any (fun pe =>
    (step exEnv (accessS exNhs none (some (pe.uid, 257, 259))) s .async).any (fun s' =>
      decide (s'.sent = [.interest 259 { exI1 with hopLimit := some 4 }, .interest 258 { exI1 with hopLimit := some 4 }])))) = true := by decide +kernel

end Verif.Strat
