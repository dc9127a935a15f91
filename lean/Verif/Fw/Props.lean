import Verif.Fw.Origin
import Verif.Fw.Example

/-
Properties C25-C28, C30-C34 of the forwarding pipelines (C29 is in `Verif.Fw.DataProps`).

A state is reachable if `run env (init n) l = some s` for some history `l`; every event of the history has its own, arbitrary,
strategy.
-/
namespace Verif.Fw

open Tb (FaceId Time FwInterest InRec OutRec PitEntry NextHop)

variable {env : Env} {st : Strategy} {n : Nat} {l : List (Strategy × Event)} {s s' : St}

/-- Runs an example. -/
theorem ex_run {o : Option St} {p : St → Bool} (h : o.any p = true) : ∃ s, o = some s ∧ p s = true := by
  cases o with
  | none => simp at h
  | some s => exact ⟨s, rfl, by simpa using h⟩

/-! ### C25: /localhost -/

/-- C25: an Interest under /localhost from a non-local face changes nothing but a counter. -/
theorem C25_interest_in {i : FwInterest} {f : FaceId} {fi : FaceInfo} (hf : s.faces f = some fi) (hn : fi.scope = .nonLocal)
    (hu : UnderLocalhost i.name) : ∃ s', step env st s (.interest i f) = some s' ∧ OnlyCounters s s' := by
  simp only [step, onIncomingInterest, hf]
  split
  · exact ⟨_, rfl, rfl⟩
  · rw [if_pos ⟨hn, localhost_iff.2 hu⟩]
    exact ⟨_, rfl, rfl⟩

/-- C25: so does a Data. -/
theorem C25_data_in {d : Data} {f : FaceId} {fi : FaceInfo} (hf : s.faces f = some fi) (hn : fi.scope = .nonLocal)
    (hu : UnderLocalhost d.name) : ∃ s', step env st s (.data d f) = some s' ∧ OnlyCounters s s' := by
  simp only [step, onIncomingData, hf]
  rw [if_pos ⟨hn, localhost_iff.2 hu⟩]
  exact ⟨_, rfl, rfl⟩

theorem local_of {fi : FaceInfo} {nm : Name} {g : FaceId} (hg : s.faces g = some fi)
    (h : ¬(fi.scope = .nonLocal ∧ isLocalhost nm = true)) (hu : UnderLocalhost nm) : IsLocal s g := by
  refine ⟨fi, hg, ?_⟩
  cases hs : fi.scope with
  | loc => rfl
  | nonLocal => exact absurd ⟨hs, localhost_iff.2 hu⟩ h

theorem maySend_of {faces : FaceId → Option FaceInfo} {nm : Name} {f : FaceId}
    (h : ∃ fi, faces f = some fi ∧ ¬(fi.scope = .nonLocal ∧ isLocalhost nm = true)) : MaySend faces nm f := by
  intro hu fi' hf'
  obtain ⟨fi, hf, hn⟩ := h
  rw [hf] at hf'
  obtain rfl := Option.some.inj hf'
  cases hs : fi.scope with
  | loc => rfl
  | nonLocal => exact absurd ⟨hs, localhost_iff.2 hu⟩ hn

theorem scopeAware_respects {L : FwInterest → FaceId → Prop} (h : ScopeAware st) : Respects L ScopeAction st := by
  intro s t ht a ha
  refine h s t ?_ a ha
  cases t with
  | onInterestLoop i f =>
    obtain ⟨-, fi, h1, -, h2⟩ := ht
    exact maySend_of ⟨fi, h1, h2⟩
  | afterReceiveInterest i f u => exact maySend_of ht
  | _ => trivial

/-- C25: no Data under /localhost is sent to a non-local face, whatever the strategies do. -/
theorem C25_data_out (hr : run env (init n) l = some s) {ev : Event} (h : step env st s ev = some s') :
    ∃ new, Emits s s' new ∧ ∀ g d, .data g d ∈ new → UnderLocalhost d.name → IsLocal s g := by
  obtain ⟨new, h1, h2, -⟩ := step_sends (any_respects st) (reach_inv hr) h
  refine ⟨new, h1, ?_⟩
  intro g d hm hu
  obtain ⟨fi, h3, h4⟩ := h2 _ hm
  exact local_of h3 h4 hu

/-- C25: with a strategy that respects scope control, no packet at all under /localhost is sent to a non-local face, except an
Interest whose sender explicitly asked for that face with a NextHopFaceId. -/
theorem C25_out (hst : ScopeAware st) (hr : run env (init n) l = some s) {ev : Event} (h : step env st s ev = some s') :
    ∃ new, Emits s s' new ∧ ∀ p ∈ new, UnderLocalhost p.name →
      IsLocal s p.face ∨ ∃ g i, p = .interest g i ∧ i.nextHop = some g := by
  obtain ⟨new, h1, h2, -⟩ := step_sends (scopeAware_respects hst) (reach_inv hr) h
  refine ⟨new, h1, ?_⟩
  intro p hm hu
  have h3 := h2 p hm
  cases p with
  | interest g i =>
    obtain ⟨fi, h3, -, ⟨u, hq⟩ | hq⟩ := h3
    · exact Or.inl ⟨fi, h3, hq hu fi h3⟩
    · exact Or.inr ⟨g, i, rfl, hq⟩
  | data g d =>
    obtain ⟨fi, h3, h4⟩ := h3
    exact Or.inl (local_of h3 h4 hu)
  | nack g i k =>
    obtain ⟨fi, h3, ⟨-, h4⟩ | hq⟩ := h3
    · exact Or.inl (local_of h3 h4 hu)
    · exact Or.inl ⟨fi, h3, hq hu fi h3⟩

/-- C25: only local faces ever wait for Data under /localhost. -/
theorem C25_downstreams (hr : run env (init n) l = some s) : ∀ e ∈ s.pit, UnderLocalhost e.interest.name → ∀ r ∈ e.ins, IsLocal s r.face := by
  intro e he hu r hm
  have hok := (reach_inv hr).ents e he
  obtain ⟨fi, hf⟩ := Option.isSome_iff_exists.1 (hok.inFace r hm)
  exact ⟨fi, hf, hok.scope (localhost_iff.2 hu) r hm fi hf⟩

abbrev exLocalhost : Name := [⟨8, [108, 111, 99, 97, 108, 104, 111, 115, 116]⟩, exC 1]

/-- C25: an application's Interest under /localhost is pending, the same from a remote face is not. -/
example : (run exEnv (init 10) (exFaces ++ [((fun _ _ => []), .interest { name := exLocalhost, nonce := 1 } 256),
    ((fun _ _ => []), .interest { name := exLocalhost ++ [exC 2], nonce := 1 } 257)])).any
    (fun s => s.pit.length == 1 && s.pit.all (fun e => e.ins.any (·.face == 256)) && s.ctr.nInInterests == 2) = true := by
  decide +kernel

example : ScopeAware (fun _ _ => []) := by intro s t _ a ha; simp at ha

/-- C25: the exception exists: with a NextHopFaceId an Interest under /localhost leaves the host (forwarder.cpp:211-221 checks no
scope; the comment there says that this is intended). -/
theorem C25_nexthop_exception : ∃ s, run exEnv (init 10) (exFaces ++
    [((fun _ _ => []), .interest { name := exLocalhost, nonce := 1, nextHop := some 257 } 256)]) = some s ∧
    s.sent = [.interest 257 { name := exLocalhost, nonce := 1, nextHop := some 257 }] := by
  obtain ⟨s, h1, h2⟩ := ex_run (o := run exEnv (init 10) (exFaces ++
    [((fun _ _ => []), .interest { name := exLocalhost, nonce := 1, nextHop := some 257 } 256)]))
    (p := fun s => decide (s.sent = [.interest 257 { name := exLocalhost, nonce := 1, nextHop := some 257 }])) (by decide +kernel)
  exact ⟨s, h1, by simpa using h2⟩

/-! ### C26: HopLimit -/

/-- C26: an Interest that arrives with HopLimit 0 changes nothing but a counter. -/
theorem C26_zero_dropped {i : FwInterest} {f : FaceId} (h0 : i.hopLimit = some 0) :
    ∃ s', step env st s (.interest i f) = some s' ∧ OnlyCounters s s' := by
  simp only [step, onIncomingInterest, h0, if_true]
  split
  · exact ⟨s, rfl, rfl⟩
  · exact ⟨_, rfl, rfl⟩

/-- C26: no Interest with HopLimit 0 is sent to a non-local face, whatever the strategies do. -/
theorem C26_zero_stays_local (hr : run env (init n) l = some s) {ev : Event} (h : step env st s ev = some s') :
    ∃ new, Emits s s' new ∧ ∀ g i, .interest g i ∈ new → i.hopLimit = some 0 → IsLocal s g := by
  obtain ⟨new, h1, h2, -⟩ := step_sends (any_respects st) (reach_inv hr) h
  refine ⟨new, h1, ?_⟩
  intro g i hm h0
  obtain ⟨fi, h3, h4, -⟩ := h2 _ hm
  refine ⟨fi, h3, ?_⟩
  cases hs : fi.scope with
  | loc => rfl
  | nonLocal => exact absurd ⟨h0, hs⟩ h4

/-- The strategy sends only the Interest it was given (or what it does not send, it does not send). -/
def Forwards (st : Strategy) : Prop :=
  ∀ s t u j g, .sendInterest u j g ∈ st s t → ∃ i f u', t = .afterReceiveInterest i f u' ∧ j.hopLimit = i.hopLimit

/-- C26: an Interest received with HopLimit n+1 is given to the strategy with n, is pending with n, and is sent with n by a
strategy that forwards what it is given. An Interest without HopLimit gets the configured default, if any. -/
theorem C26_decremented (hr : run env (init n) l = some s) {i : FwInterest} {f : FaceId}
    (h : step env st s (.interest i f) = some s') :
    (∀ j g u, .afterReceiveInterest j g u ∈ s'.calls → .afterReceiveInterest j g u ∈ s.calls ∨ j.hopLimit = leavesWith s.cfg i.hopLimit) ∧
    (∀ e' ∈ s'.pit, ∀ r ∈ e'.ins, (∃ e ∈ s.pit, e.uid = e'.uid ∧ r ∈ e.ins) ∨
      r.face = f ∧ ∃ c, r.interest.hopLimit = leavesWith c i.hopLimit) ∧
    (Forwards st → ∃ new, Emits s s' new ∧ ∀ g j, .interest g j ∈ new → j.hopLimit = leavesWith s.cfg i.hopLimit) := by
  have hi := reach_inv hr
  have hins : ∀ e' ∈ s'.pit, ∀ r ∈ e'.ins, (∃ e ∈ s.pit, e.uid = e'.uid ∧ r ∈ e.ins) ∨
      r.face = f ∧ ∃ c, r.interest.hopLimit = leavesWith c i.hopLimit := by
    intro e' he' r hr
    rcases step_insFrom hi h e' he' r hr with h | ⟨j, c, ⟨h1, h2, c', h3⟩, h4, -⟩
    · exact Or.inl h
    · refine Or.inr ⟨h1, ?_⟩
      rw [h4, h3]
      cases hl : i.hopLimit with
      | none =>
        refine ⟨c, ?_⟩
        have hn : (stripHint c' (decHop i)).hopLimit = none := by rw [stripHint_hop]; simp [decHop, hl]
        simp only [addHop, hn, and_true, leavesWith]
        split
        · rfl
        · exact hn
      | some k =>
        have hn : (stripHint c' (decHop i)).hopLimit = some (k - 1) := by rw [stripHint_hop]; simp [decHop, hl]
        refine ⟨c, ?_⟩
        simp [addHop, hn, leavesWith]
  have nothing : OnlyCounters s s' →
      (∀ j g u, .afterReceiveInterest j g u ∈ s'.calls → .afterReceiveInterest j g u ∈ s.calls ∨ j.hopLimit = leavesWith s.cfg i.hopLimit) ∧
      (Forwards st → ∃ new, Emits s s' new ∧ ∀ g j, .interest g j ∈ new → j.hopLimit = leavesWith s.cfg i.hopLimit) := by
    intro ho
    have hc : s'.calls = s.calls := by rw [ho]
    have hsn : s'.sent = s.sent := by rw [ho]
    exact ⟨fun j g u hm => Or.inl (hc ▸ hm), fun _ => ⟨[], by simp [Emits, hsn], by simp⟩⟩
  suffices hmain :
      (∀ j g u, .afterReceiveInterest j g u ∈ s'.calls → .afterReceiveInterest j g u ∈ s.calls ∨ j.hopLimit = leavesWith s.cfg i.hopLimit) ∧
      (Forwards st → ∃ new, Emits s s' new ∧ ∀ g j, .interest g j ∈ new → j.hopLimit = leavesWith s.cfg i.hopLimit) from
    ⟨hmain.1, hins, hmain.2⟩
  cases hf : s.faces f with
  | none =>
    simp only [step, onIncomingInterest, hf] at h
    cases h
    exact nothing rfl
  | some fi =>
    by_cases ha : Admissible i fi
    · cases interest_outcome hi hf ha h with
      | loop j hl hj hh =>
        unfold onInterestLoop at hh
        split at hh
        · cases hh; exact nothing rfl
        · have hc := acted_call hh
          refine ⟨fun j' g u hm => ?_, fun hfw => ?_⟩
          · rw [hc.calls] at hm
            exact Or.inl (by simpa using hm)
          · obtain ⟨new, h1, h2⟩ := hc.sent
            refine ⟨new, h1, fun g j' hm => ?_⟩
            obtain ⟨u, hu⟩ := h2 g j' hm
            obtain ⟨_, _, _, ht, -⟩ := hfw _ _ _ _ _ hu
            cases ht
      | hit hl c d he hcs hh =>
        have hc := acted_call hh
        obtain ⟨hfr, -⟩ := answered_frame (counted s) (stripHint s.cfg (decHop i)) d c
        refine ⟨fun j' g u hm => ?_, fun hfw => ?_⟩
        · rw [hc.calls] at hm
          simp only [hfr.calls] at hm
          exact Or.inl (by simpa using hm)
        · obtain ⟨new, h1, h2⟩ := hc.sent
          refine ⟨new, h1.trans (by simp only [hfr.sent]), fun g j' hm => ?_⟩
          obtain ⟨u, hu⟩ := h2 g j' hm
          obtain ⟨_, _, _, ht, -⟩ := hfw _ _ _ _ _ hu
          cases ht
      | direct hl c hcs g hg hh =>
        obtain ⟨hfr, -⟩ := recorded_frame (counted s) (stripHint s.cfg (decHop i)) f c
        split at hh
        · have hc := acted_interest (recorded (counted s) (stripHint s.cfg (decHop i)) f c)
            (pitInsert (counted s) (stripHint s.cfg (decHop i))).2.1.uid (addHop s.cfg (stripHint s.cfg (decHop i))) g
          rw [← hh] at hc
          refine ⟨fun j' g u hm => ?_, fun hfw => ?_⟩
          · rw [hc.calls, hfr.calls] at hm
            exact Or.inl hm
          · obtain ⟨new, h1, h2⟩ := hc.sent
            refine ⟨new, h1.trans (by rw [hfr.sent]), fun g j' hm => ?_⟩
            obtain ⟨u, hu⟩ := h2 g j' hm
            simp only [List.mem_singleton, Action.sendInterest.injEq] at hu
            rw [hu.2.1]
            exact addHop_hop _ _
        · rw [hh]
          refine ⟨fun j' g u hm => ?_, fun hfw => ⟨[], by simp [Emits, hfr.sent], by simp⟩⟩
          rw [hfr.calls] at hm
          exact Or.inl hm
      | pass hl c hcs hg hh =>
        have hc := acted_call hh
        obtain ⟨hfr, -⟩ := recorded_frame (counted s) (stripHint s.cfg (decHop i)) f c
        refine ⟨fun j' g u hm => ?_, fun hfw => ?_⟩
        · rw [hc.calls] at hm
          simp only [hfr.calls, List.mem_append, List.mem_singleton, Trigger.afterReceiveInterest.injEq] at hm
          rcases hm with hm | ⟨rfl, -, -⟩
          · exact Or.inl hm
          · exact Or.inr (addHop_hop _ _)
        · obtain ⟨new, h1, h2⟩ := hc.sent
          refine ⟨new, h1.trans (by simp only [hfr.sent]), fun g j' hm => ?_⟩
          obtain ⟨u, hu⟩ := h2 g j' hm
          obtain ⟨i', _, _, ht, hh⟩ := hfw _ _ _ _ _ hu
          simp only [Trigger.afterReceiveInterest.injEq] at ht
          rw [hh, ← ht.1]
          exact addHop_hop _ _
    · by_cases h0 : i.hopLimit = some 0
      · obtain ⟨s2, h1, h2⟩ := C26_zero_dropped (env := env) (st := st) (s := s) (f := f) h0
        rw [h] at h1; cases h1
        exact nothing h2
      · have hs : fi.scope = .nonLocal ∧ UnderLocalhost i.name := by
          refine Classical.not_not.1 fun hc => ha ⟨h0, hc⟩
        obtain ⟨s2, h1, h2⟩ := C25_interest_in (env := env) (st := st) hf hs.1 hs.2
        rw [h] at h1; cases h1
        exact nothing h2

/-- C26: HopLimit 5 leaves as 4; the default HopLimit is added. -/
example : (run exEnv (init 10) (exFaces ++ [(exStrategy, .interest exI1 257),
    (exStrategy, .config { defaultHopLimit := 9 }), (exStrategy, .interest { name := [exC 2], nonce := 1 } 257)])).any
    (fun s => decide (s.sent = [.interest 258 { exI1 with hopLimit := some 4 },
      .interest 258 { name := [exC 2], nonce := 1, hopLimit := some 9 }])) = true := by
  decide +kernel

example : Forwards exStrategy := by
  intro s t u j g h
  cases t with
  | afterReceiveInterest i f u' =>
    simp only [exStrategy, List.mem_singleton, Action.sendInterest.injEq] at h
    exact ⟨i, f, u', rfl, by rw [h.2.1]⟩
  | _ => simp [exStrategy] at h

/-! ### C27: loops -/

/-- C27: a looping Interest leaves the tables as they are. On a point-to-point face it is answered with a Nack (reason
Duplicate) that carries it, or ignored; on any other face it is ignored. The hypothesis on the strategy is what the default
`Strategy::onInterestLoop` (strategy.cpp:176-182) and multicast's override (multicast-strategy.hpp:50-55) do. -/
theorem C27_loop (hr : run env (init n) l = some s) {i : FwInterest} {f : FaceId} {fi : FaceInfo} (hf : s.faces f = some fi)
    (ha : Admissible i fi) (hl : Looping env s i f fi.link)
    (hst : ∀ s j, st s (.onInterestLoop j f) = [.sendNackPacket j nackDuplicate f] ∨ st s (.onInterestLoop j f) = [])
    (h : step env st s (.interest i f) = some s') :
    s'.pit = s.pit ∧ s'.cs = s.cs ∧ s'.dnl = s.dnl ∧ s'.sched = s.sched ∧
    ∃ new, Emits s s' new ∧
      (new = [] ∨ fi.link = .p2p ∧ ∃ j, new = [.nack f j nackDuplicate] ∧ j.toInterest = i.toInterest ∧ j.nonce = i.nonce) := by
  cases interest_outcome (reach_inv hr) hf ha h with
  | loop j _ hj hh =>
    unfold onInterestLoop at hh
    split at hh
    · cases hh; exact ⟨rfl, rfl, rfl, rfl, [], by simp [Emits], Or.inl rfl⟩
    · rename_i hp
      unfold call at hh
      rcases hst (counted s) j with ha | ha
      · rw [ha] at hh
        simp only [acts, act, Option.bind_some, Option.some.injEq] at hh
        unfold sendNackPacket at hh
        rw [show s.faces f = some fi from hf] at hh
        simp only at hh
        rw [← hh]
        refine ⟨rfl, rfl, rfl, rfl, [.nack f j nackDuplicate], rfl, Or.inr ⟨Decidable.of_not_not hp, j, rfl, ?_⟩⟩
        rcases hj with rfl | rfl
        · exact ⟨rfl, rfl⟩
        · exact ⟨stripHint_key .., stripHint_nonce ..⟩
      · rw [ha] at hh
        cases hh
        exact ⟨rfl, rfl, rfl, rfl, [], by simp [Emits], Or.inl rfl⟩
  | hit hnl => exact absurd hl hnl
  | direct hnl => exact absurd hl hnl
  | pass hnl => exact absurd hl hnl

/-- C27: whatever the strategy does, a looping Interest is not recorded as pending and not given to the strategy for forwarding;
on a face that is not point-to-point the strategy is not told at all. -/
theorem C27_not_recorded (hr : run env (init n) l = some s) {i : FwInterest} {f : FaceId} {fi : FaceInfo} (hf : s.faces f = some fi)
    (ha : Admissible i fi) (hl : Looping env s i f fi.link) (h : step env st s (.interest i f) = some s') :
    (∀ e' ∈ s'.pit, ∀ r ∈ e'.ins, ∃ e ∈ s.pit, e.uid = e'.uid ∧ r ∈ e.ins) ∧ s'.dnl = s.dnl ∧ s'.cs = s.cs ∧
    (fi.link ≠ .p2p → OnlyCounters s s') ∧
    (fi.link = .p2p → ∃ j, s'.calls = s.calls ++ [.onInterestLoop j f] ∧ j.toInterest = i.toInterest ∧ j.nonce = i.nonce) := by
  cases interest_outcome (reach_inv hr) hf ha h with
  | loop j _ hj hh =>
    have hj' : j.toInterest = i.toInterest ∧ j.nonce = i.nonce := by
      rcases hj with rfl | rfl
      · exact ⟨rfl, rfl⟩
      · exact ⟨stripHint_key .., stripHint_nonce ..⟩
    unfold onInterestLoop at hh
    split at hh
    · rename_i hp
      cases hh
      exact ⟨fun e he r hr => ⟨e, he, rfl, hr⟩, rfl, rfl, fun _ => rfl, fun hc => absurd hc hp⟩
    · rename_i hp
      have hp := Decidable.of_not_not hp
      have hc := acted_call hh
      refine ⟨?_, hc.dnl, hc.cs, fun hn => absurd hp hn, fun _ => ⟨j, hc.calls, hj'⟩⟩
      have hpath := path_acts (env := env) (Q := fun _ _ => True) (R := fun _ _ => False) _ _ _ (fun _ _ => trivial) hh
      intro e' he' r hr'
      rcases hpath.insFrom (InvX.congr (reach_inv hr) rfl rfl rfl rfl rfl) e' he' r hr' with h | ⟨_, _, hf, -⟩
      · exact h
      · exact hf.elim
  | hit hnl => exact absurd hl hnl
  | direct hnl => exact absurd hl hnl
  | pass hnl => exact absurd hl hnl

/-- C27: an Interest that has not been here before is never treated as looping: it is passed to the strategy, answered from the
Content Store, or handled without the strategy because its sender chose the next hop. -/
theorem C27_not_looping (hr : run env (init n) l = some s) {i : FwInterest} {f : FaceId} {fi : FaceInfo} (hf : s.faces f = some fi)
    (ha : Admissible i fi) (hl : ¬Looping env s i f fi.link) (h : step env st s (.interest i f) = some s') :
    (∃ j u, s'.calls = s.calls ++ [.afterReceiveInterest j f u] ∧ j.toInterest = i.toInterest ∧ j.nonce = i.nonce) ∨
    (∃ d u c, s'.calls = s.calls ++ [.afterContentStoreHit d f u] ∧ s.cs.find i.toInterest = some (c, some d)) ∨
    (i.nextHop.isSome ∧ s'.calls = s.calls) := by
  cases interest_outcome (reach_inv hr) hf ha h with
  | loop j hl' hj hh => exact absurd hl' hl
  | hit hnl c d he hcs hh =>
    obtain ⟨hfr, -⟩ := answered_frame (counted s) (stripHint s.cfg (decHop i)) d c
    exact Or.inr (Or.inl ⟨d, _, c, (acted_call hh).calls.trans (congrArg (· ++ _) hfr.calls), hcs⟩)
  | direct hnl c hcs g hg hh =>
    obtain ⟨hfr, -⟩ := recorded_frame (counted s) (stripHint s.cfg (decHop i)) f c
    refine Or.inr (Or.inr ⟨by simp [hg], ?_⟩)
    split at hh
    · rw [hh, (acted_interest ..).calls, hfr.calls]
    · rw [hh, hfr.calls]
  | pass hnl c hcs hg hh =>
    obtain ⟨hfr, -⟩ := recorded_frame (counted s) (stripHint s.cfg (decHop i)) f c
    refine Or.inl ⟨_, _, (acted_call hh).calls.trans (congrArg (· ++ _) hfr.calls), ?_, ?_⟩
    · rw [addHop_key, stripHint_key]; rfl
    · rw [addHop_nonce, stripHint_nonce]; rfl

/-- C27: the Interest comes back on another point-to-point face, then on the ad hoc face, then is retransmitted: Nack, nothing,
forwarded. -/
example : (run exEnv (init 10) (exFaces ++ [(exStrategy, .interest exI1 257), (exStrategy, .interest exI1 258),
    (exStrategy, .interest exI1 259), (exStrategy, .interest exI1 257)])).any
    (fun s => decide (s.sent = [.interest 258 { exI1 with hopLimit := some 4 }, .nack 258 { exI1 with hopLimit := some 4 } 100,
      .interest 258 { exI1 with hopLimit := some 4 }]) && s.pit.all (fun e => e.ins.length == 1)) = true := by
  decide +kernel

/-! ### C28: flow balance -/

/-- C28: no face is ever sent more Data than it sent Interests. -/
theorem C28_data (hst : ∀ x ∈ l, DefaultData false x.1) (hr : run env (init n) l = some s) (g : FaceId) :
    s.sent.countP (returned false g) ≤ l.countP (fun x => x.2.fromFace g) := by
  have := flow_run (g := g) (init_inv n) hst hr
  simp only [cnt, total, init, List.countP_nil, List.map_nil, List.sum_nil] at this
  omega

/-- C28: nor more Data and Nacks together, if no Nacks are sent while several entries are being satisfied. -/
theorem C28_data_and_nacks (hst : ∀ x ∈ l, DefaultData true x.1) (hr : run env (init n) l = some s) (g : FaceId) :
    s.sent.countP (returned true g) ≤ l.countP (fun x => x.2.fromFace g) := by
  have := flow_run (g := g) (init_inv n) hst hr
  simp only [cnt, total, init, List.countP_nil, List.map_nil, List.sum_nil] at this
  omega

/-- C28: two Interests from 257 pending, one Data satisfies both and is sent once; the bound is tight for face 256. -/
example : (run exEnv (init 10) (exPending ++ [(exStrategy, .data exData 258)])).any
    (fun s => s.sent.countP (returned true 257) == 1 && s.sent.countP (returned true 256) == 1 && s.sent.countP (returned true 259) == 1)
      = true := by
  decide +kernel

example : ∀ x ∈ exPending ++ [(exStrategy, Event.data exData 258)], DefaultData true x.1 := by
  intro x hx
  have : x.1 = exStrategy := by
    simp only [exPending, exFaces, List.cons_append, List.nil_append, List.mem_cons, List.not_mem_nil, or_false] at hx
    rcases hx with rfl | rfl | rfl | rfl | rfl | rfl | rfl | rfl | rfl <;> rfl
  rw [this]
  exact exStrategy_default true

/-! ### C30: unsolicited Data -/

/-- What each policy admits (unsolicited-data-policy.hpp:60-126). -/
def PolicyAdmits (p : Unsolicited) (fi : FaceInfo) : Prop :=
  p = .admitAll ∨ (p = .admitLocal ∧ fi.scope = .loc) ∨ (p = .admitNetwork ∧ fi.scope = .nonLocal)

theorem admits_iff {p : Unsolicited} {fi : FaceInfo} : p.admits fi = true ↔ PolicyAdmits p fi := by
  cases p <;> simp [Unsolicited.admits, PolicyAdmits]

/-- C30: Data that no pending Interest asked for goes nowhere, reaches no strategy, leaves the PIT alone, and is cached, as
unsolicited, if and only if the policy admits it (and it respects /localhost). -/
theorem C30_unsolicited {d : Data} {f : FaceId} {fi : FaceInfo} (hf : s.faces f = some fi)
    (hm : ∀ e ∈ s.pit, e.interest.matchesData d = false) (h : step env st s (.data d f) = some s') :
    s'.sent = s.sent ∧ s'.calls = s.calls ∧ s'.pit = s.pit ∧ s'.dnl = s.dnl ∧ s'.sched = s.sched ∧
    (PolicyAdmits s.cfg.unsolicited fi ∧ ¬(fi.scope = .nonLocal ∧ UnderLocalhost d.name) → s.cs.insert d true = some s'.cs) ∧
    (¬(PolicyAdmits s.cfg.unsolicited fi ∧ ¬(fi.scope = .nonLocal ∧ UnderLocalhost d.name)) → s'.cs = s.cs) := by
  simp only [step, onIncomingData, hf] at h
  split at h
  · rename_i hs
    rw [localhost_iff] at hs
    cases h
    exact ⟨rfl, rfl, rfl, rfl, rfl, fun hc => absurd hs hc.2, fun _ => rfl⟩
  · rename_i hs
    rw [localhost_iff] at hs
    have hd : (dataMatches (counted s) d).map (·.uid) = [] := by
      rw [List.map_eq_nil_iff]
      unfold dataMatches
      rw [List.filter_eq_nil_iff]
      intro e he
      simp [hm e he]
    have hd' : (dataMatches { s with ctr := { s.ctr with nInData := s.ctr.nInData + 1 } } d).map (·.uid) = [] := hd
    rw [hd'] at h
    simp only [onDataUnsolicited] at h
    split at h
    · rename_i hp
      rw [Option.map_eq_some_iff] at h
      obtain ⟨c, hc, rfl⟩ := h
      exact ⟨rfl, rfl, rfl, rfl, rfl, fun _ => hc, fun hn => absurd ⟨admits_iff.1 hp, hs⟩ hn⟩
    · rename_i hp
      cases h
      exact ⟨rfl, rfl, rfl, rfl, rfl, fun hc => absurd (admits_iff.2 hc.1) hp, fun _ => rfl⟩

/-- C30: with the policy `admit-local`, unsolicited Data from an application is cached, from a remote face not. -/
example : (run exEnv (init 10) (exPending ++ [(exStrategy, .config { unsolicited := .admitLocal }),
    (exStrategy, .data { exData with name := [exC 2] } 256), (exStrategy, .data { exData with name := [exC 3] } 258)])).any
    (fun s => s.cs.table.length == 1 && s.sent.all (fun p => match p with | .data .. => false | _ => true)) = true := by
  decide +kernel

/-! ### C31: Nacks -/

/-- C31: an incoming Nack changes nothing but a counter unless it arrived on a point-to-point face and answers the last
transmission, on that face, of a pending Interest with its name and selectors and the same nonce. -/
theorem C31_nack_ignored {i : FwInterest} {k : Nat} {f : FaceId}
    (hno : ¬∃ fi e r, s.faces f = some fi ∧ fi.link = .p2p ∧ e ∈ s.pit ∧ e.interest.toInterest = i.toInterest ∧ r ∈ e.outs ∧
      r.face = f ∧ r.nonce = i.nonce) :
    ∃ s', step env st s (.nack i k f) = some s' ∧ OnlyCounters s s' := by
  simp only [step, onIncomingNack]
  cases hf : s.faces f with
  | none => exact ⟨s, rfl, rfl⟩
  | some fi =>
    simp only
    split
    · exact ⟨_, rfl, rfl⟩
    · rename_i hp
      split
      · exact ⟨_, rfl, rfl⟩
      · rename_i e he
        split
        · exact ⟨_, rfl, rfl⟩
        · rename_i r hr'
          split
          · exact ⟨_, rfl, rfl⟩
          · rename_i hnon
            obtain ⟨h1, h2⟩ := pitFind_some he
            exact absurd ⟨fi, e, r, hf, Decidable.of_not_not hp, h1, h2, List.mem_of_find?_eq_some hr',
              by simpa using List.find?_some hr', (Decidable.of_not_not hnon).symm⟩ hno

/-- C31: otherwise the reason is noted in that out-record and the strategy is told. -/
theorem C31_nack_accepted (hr : run env (init n) l = some s) {i : FwInterest} {k : Nat} {f : FaceId} {fi : FaceInfo} {e : Ent} {r : OutRec}
    (hf : s.faces f = some fi) (hp : fi.link = .p2p) (he : e ∈ s.pit) (hk : e.interest.toInterest = i.toInterest)
    (hm : r ∈ e.outs) (hrf : r.face = f) (hn : r.nonce = i.nonce) :
    ∃ s0, step env st s (.nack i k f) = call st s0 (.afterReceiveNack i k f e.uid) ∧
      s0.sent = s.sent ∧ s0.calls = s.calls ∧ s0.cs = s.cs ∧ s0.dnl = s.dnl ∧
      ∃ e0 ∈ s0.pit, e0.uid = e.uid ∧ e0.ins = e.ins ∧ { r with nack := some k } ∈ e0.outs ∧
        ∀ r' ∈ e.outs, r'.face ≠ f → r' ∈ e0.outs := by
  have hi := reach_inv hr
  have hpf : pitFind s i.toInterest = some e := by
    cases hc : pitFind s i.toInterest with
    | none => exact absurd hk (pitFind_none hc e he)
    | some e' =>
      obtain ⟨h1, h2⟩ := pitFind_some hc
      rw [eq_of_key hi.keys he h1 (hk.trans h2.symm)]
  have hnd : (e.outs.map (·.face)).Nodup := (hi.ents e he).recs.2
  have hfo : e.outs.find? (fun x => x.face == f) = some r := by
    have := find?_of_nodup (k := fun r : OutRec => r.face) hnd hm
    rw [hrf] at this
    exact this
  simp only [step, onIncomingNack, hf]
  rw [if_neg (by simp [hp])]
  have hpf' : pitFind { s with ctr := { s.ctr with nInNacks := s.ctr.nInNacks + 1 } } i.toInterest = some e := hpf
  rw [hpf']
  simp only [hfo]
  rw [if_neg (by simp [hn])]
  unfold acceptNack
  simp only
  have hmod : ∀ a : St, a.pit = s.pit → ∃ e0 ∈ (a.mod e.uid (fun e => { e with toPitEntry := Tb.setNack e.toPitEntry f i.nonce k })).pit,
      e0.uid = e.uid ∧ e0.ins = e.ins ∧ { r with nack := some k } ∈ e0.outs ∧ ∀ r' ∈ e.outs, r'.face ≠ f → r' ∈ e0.outs := by
    intro a ha
    refine ⟨{ e with toPitEntry := Tb.setNack e.toPitEntry f i.nonce k }, mem_mod.2 ⟨e, ha ▸ he, by rw [if_pos rfl]⟩, rfl, rfl, ?_, ?_⟩
    · exact List.mem_map.2 ⟨r, hm, by rw [if_pos ⟨hrf, hn⟩]⟩
    · intro r' h1 h2
      exact List.mem_map.2 ⟨r', h1, by rw [if_neg (fun hc => h2 hc.1)]⟩
  split
  · exact ⟨_, rfl, rfl, rfl, rfl, rfl, hmod _ rfl⟩
  · obtain ⟨e0, h1, h2, h3, h4, h5⟩ := hmod { s with ctr := { s.ctr with nInNacks := s.ctr.nInNacks + 1 } } rfl
    have ht := acted_timer [] (St.mod { s with ctr := { s.ctr with nInNacks := s.ctr.nInNacks + 1 } } e.uid
      (fun e => { e with toPitEntry := Tb.setNack e.toPitEntry f i.nonce k })) e.uid 0
    refine ⟨_, rfl, timer_sent .., ht.calls, ht.cs, ht.dnl, ?_⟩
    unfold setExpiryTimer
    split
    · exact ⟨e0, h1, h2, h3, h4, h5⟩
    · refine ⟨_, mem_mod.2 ⟨e0, h1, rfl⟩, ?_⟩
      rw [if_pos h2]
      exact ⟨h2, h3, h4, h5⟩

/-- The strategy makes no Nacks of its own except the one for a looping Interest, to the face it came from. -/
def NoOwnNacks (st : Strategy) : Prop :=
  ∀ s t i k g, .sendNackPacket i k g ∈ st s t → t = .onInterestLoop i g

/-- C31: every Nack goes to a point-to-point face and carries an Interest received from that face: one that was pending, or the
one being processed. -/
theorem C31_nack_out (hst : NoOwnNacks st) (hr : run env (init n) l = some s) {ev : Event} (h : step env st s ev = some s') :
    ∃ new, Emits s s' new ∧ ∀ g i k, .nack g i k ∈ new →
      (∃ fi, s.faces g = some fi ∧ fi.link = .p2p) ∧
      ((∃ e ∈ s.pit, ∃ r ∈ e.ins, r.face = g ∧ r.interest = i) ∨
       (∃ i0, ev = .interest i0 g ∧ i.toInterest = i0.toInterest ∧ i.nonce = i0.nonce)) := by
  have hQ : Respects ev.loops (fun faces a => match a with
      | .sendNackPacket i _ g => ev.loops i g ∧ ∃ fi, faces g = some fi ∧ fi.link = .p2p
      | _ => True) st := by
    intro s t ht a ha
    cases a with
    | sendNackPacket i k g =>
      obtain rfl := hst s t i k g ha
      obtain ⟨h1, fi, h2, h3, -⟩ := ht
      exact ⟨h1, fi, h2, h3⟩
    | _ => trivial
  obtain ⟨new, h1, h2⟩ := step_nacksFrom hQ (reach_inv hr) h
  refine ⟨new, h1, ?_⟩
  intro g i k hm
  rcases h2 g i k hm with ⟨hl, hp⟩ | ⟨hp, r, rfl, rfl, ⟨e, he, hr'⟩ | ⟨j, c, hj, hr', -⟩⟩
  · refine ⟨hp, Or.inr ?_⟩
    cases ev with
    | interest i0 f =>
      obtain ⟨rfl, rfl | ⟨c, rfl⟩⟩ := hl
      · exact ⟨i0, rfl, rfl, rfl⟩
      · exact ⟨i0, rfl, stripHint_key .., stripHint_nonce ..⟩
    | _ => exact hl.elim
  · exact ⟨hp, Or.inl ⟨e, he, r, hr', rfl, rfl⟩⟩
  · refine ⟨hp, Or.inr ?_⟩
    cases ev with
    | interest i0 f =>
      obtain ⟨hg, -, c', rfl⟩ := hj
      refine ⟨i0, by rw [hg], ?_, ?_⟩
      · rw [hr', addHop_key, stripHint_key]; rfl
      · rw [hr', addHop_nonce, stripHint_nonce]; rfl
    | _ => exact hj.elim

/-- C31: every pending Interest was received, in this history, from the face it is recorded for. -/
theorem C31_pending_was_received (hr : run env (init n) l = some s) : ∀ e ∈ s.pit, ∀ r ∈ e.ins,
    ∃ x ∈ l, ∃ i, x.2 = .interest i r.face ∧ r.interest.toInterest = i.toInterest ∧ r.nonce = i.nonce ∧ r.interest.nonce = i.nonce := by
  refine run_origin (init_inv n) (by simp [init]) ?_ hr
  rintro ⟨st, ev⟩ hx r ⟨j, c, hj, hr', hn⟩
  cases ev with
  | interest i0 f =>
    obtain ⟨hg, -, c', rfl⟩ := hj
    refine ⟨_, hx, i0, by rw [hg], ?_, ?_, ?_⟩
    · rw [hr', addHop_key, stripHint_key]; rfl
    · rw [hn, stripHint_nonce]; rfl
    · rw [hr', addHop_nonce, stripHint_nonce]; rfl
  | _ => exact hj.elim

/-- C31: sending a Nack for a pending Interest: nothing happens, or the Nack carries the Interest of the in-record, which is then
gone while all other in-records remain. -/
theorem C31_nack_cancels (hr : run env (init n) l = some s) {u k : Nat} {g : FaceId} (h : act s (.sendNack u k g) = some s') :
    s' = s ∨ ∃ e ∈ s.pit, ∃ r ∈ e.ins, e.uid = u ∧ r.face = g ∧ r.nonce = r.interest.nonce ∧
      s'.sent = s.sent ++ [.nack g r.interest k] ∧
      ∃ e' ∈ s'.pit, e'.uid = u ∧ (∀ r', r' ∈ e'.ins ↔ r' ∈ e.ins ∧ r'.face ≠ g) := by
  have hi := reach_inv hr
  cases h
  rcases outgoingNack_cases s u k g with he | ⟨fi, e, rec, h1, h2, h3, h4, h5, hp, hs⟩
  · exact Or.inl he
  · obtain ⟨he, hu⟩ := find_some h3
    have hok := hi.ents e he
    refine Or.inr ⟨e, he, rec, h4, hu, h5, (hok.same rec h4).2, hs, { e with toPitEntry := Tb.deleteIn e.toPitEntry g }, ?_, hu, ?_⟩
    · rw [hp]
      exact mem_mod.2 ⟨e, he, by rw [if_pos hu]⟩
    · intro r'
      exact ⟨fun h => ⟨mem_deleteIn h, mem_deleteIn_ne hok.recs.1 h⟩, fun h => mem_deleteIn_of h.1 h.2⟩

/-- C31: 258 answers with a Nack; it is accepted and passed on to 257, whose Interest is no longer pending. A Nack with another
nonce is ignored. -/
example : (run exEnv (init 10) (exFaces ++ [(exStrategy, .interest exI1 257), (exStrategy, .nack { exI1 with nonce := 9 } 50 258),
    (exStrategy, .nack exI1 50 258)])).any
    (fun s => decide (s.sent = [.interest 258 { exI1 with hopLimit := some 4 }, .nack 257 { exI1 with hopLimit := some 4 } 150]) &&
      s.pit.all (fun e => e.ins.isEmpty) && s.calls.length == 2) = true := by
  decide +kernel

example : NoOwnNacks exStrategy := by
  intro s t i k g h
  cases t <;> simp [exStrategy] at h
  rw [h.1, h.2.2]

/-! ### C32: expiry timers -/

/-- C32: every PIT entry has exactly one pending expiry timer, and there are no other pending expiry timers. -/
theorem C32_one_timer (hr : run env (init n) l = some s) :
    (∀ e ∈ s.pit, ∃ t ∈ s.sched, t.uid = e.uid ∧ ∀ t' ∈ s.sched, t'.uid = e.uid → t' = t) ∧
    (∀ t ∈ s.sched, ∃ e ∈ s.pit, e.uid = t.uid) := by
  have hi := reach_inv hr
  refine ⟨?_, fun t ht => (hi.owner t ht).imp fun e h => ⟨h.1, h.2.1⟩⟩
  intro e he
  rcases hi.timer e he with ⟨t, ht, h1, h2⟩ | ⟨h, -⟩
  · refine ⟨t, ht, h1, ?_⟩
    intro t' ht' hu
    obtain ⟨e', he', h3, h4⟩ := hi.owner t' ht'
    have : e' = e := eq_of_uid hi.uids he' he (h3.trans hu)
    subst this
    rw [h2] at h4
    have h5 := find?_of_nodup (k := fun t : Timer => t.id) hi.tids ht
    have h6 := find?_of_nodup (k := fun t : Timer => t.id) hi.tids ht'
    rw [← Option.some.inj h4, h5] at h6
    exact (Option.some.inj h6).symm
  · simp at h

/-- C32: when the timer fires, the entry leaves the PIT and nothing else happens to the PIT; the code's assertion that the entry
is there never fails. -/
theorem C32_fires (hr : run env (init n) l = some s) {t : Timer} (ht : t ∈ s.sched) (hd : t.due ≤ s.now) :
    ∃ s', step env st s (.fire t.id) = some s' ∧ (∀ e, e ∈ s'.pit ↔ e ∈ s.pit ∧ e.uid ≠ t.uid) ∧
      (∀ t', t' ∈ s'.sched ↔ t' ∈ s.sched ∧ t' ≠ t) ∧ s'.sent = s.sent ∧ s'.calls = s.calls := by
  have hi := reach_inv hr
  obtain ⟨e, s', he, hu, hfin, hpit, hsched, -, -, hsent, hcalls, -⟩ := finalize_spec (env := env) hi ht
  refine ⟨s', ?_, ?_, ?_, hsent, hcalls⟩
  · simp only [step, fire]
    have := find?_of_nodup (k := fun t : Timer => t.id) hi.tids ht
    rw [this]
    simp only [if_pos hd]
    exact hfin
  · intro e; rw [hpit, List.mem_filter]; simp
  · intro t'
    rw [hsched, List.mem_filter]
    simp only [ne_eq, decide_not, Bool.not_eq_true', decide_eq_false_iff_not]
    refine ⟨fun h => ⟨h.1, fun hc => h.2 (by rw [hc])⟩, fun h => ⟨h.1, fun hc => h.2 ?_⟩⟩
    have h5 := find?_of_nodup (k := fun t : Timer => t.id) hi.tids ht
    have h6 := find?_of_nodup (k := fun t : Timer => t.id) hi.tids h.1
    rw [hc, h5] at h6
    exact (Option.some.inj h6).symm

/-- C32: so an entry that is left alone is gone once its time has come: waiting long enough and firing its timer removes it. -/
theorem C32_eventually_gone (hr : run env (init n) l = some s) {e : Ent} (he : e ∈ s.pit) :
    ∃ dt id s', run env s [(st, .tick dt), (st, .fire id)] = some s' ∧ ∀ e' ∈ s'.pit, e'.uid ≠ e.uid := by
  obtain ⟨t, ht, hu, -⟩ := (C32_one_timer hr).1 e he
  have hr' : run env (init n) (l ++ [(st, .tick t.due)]) = some { s with now := s.now + t.due, cs := s.cs.tick t.due } := by
    have happ : ∀ (l m : List (Strategy × Event)) (a : St), run env a (l ++ m) = (run env a l).bind (fun b => run env b m) := by
      intro l m
      induction l with
      | nil => intro a; rfl
      | cons x l ih =>
        intro a
        simp only [List.cons_append, run]
        cases step env x.1 a x.2 with
        | none => rfl
        | some b => simp only [Option.bind_some]; exact ih b
    rw [happ, hr]
    rfl
  obtain ⟨s', h1, h2, -⟩ := C32_fires (st := st) hr' (t := t) ht (Nat.le_add_left _ _)
  refine ⟨t.due, t.id, s', ?_, ?_⟩
  · simp only [run]
    rw [show step env st s (.tick t.due) = some { s with now := s.now + t.due, cs := s.cs.tick t.due } from rfl]
    simp only [Option.bind_some]
    rw [h1]
    rfl
  · intro e' he'
    have := ((h2 e').1 he').2
    rw [hu] at this
    exact this

/-- C32: two pending entries with one timer each; after 4 seconds both can be finalized. -/
example : (run exEnv (init 10) exPending).any (fun s => s.pit.length == 2 && s.sched.length == 2 && s.nextTimer == 4) = true := by
  decide +kernel

example : (run exEnv (init 10) (exPending ++ [(exStrategy, .tick 4000000000), (exStrategy, .fire 2), (exStrategy, .fire 3)])).any
    (fun s => s.pit.isEmpty && s.sched.isEmpty && s.ctr.nUnsatisfied == 2) = true := by
  decide +kernel

/-! ### C33: Dead Nonce List -/

theorem has_after_add {hash : Name → Nat → Dnl.Entry} {d : Dnl.Dnl} (hc : Dnl.CapOk d) (nm : Name) (x : Nat) (ops : List Dnl.Op)
    (hn : ops.countP Dnl.Op.grows < Dnl.MIN_CAPACITY) : (Dnl.Dnl.run hash (d.step hash (.add nm x)) ops).has hash nm x = true := by
  have h0 : Dnl.Within (d.step hash (.add nm x)) (hash nm x) 0 := by
    simp only [Dnl.Dnl.step, Dnl.Dnl.addEntry]
    split
    · exact ⟨d.queue.erase (hash nm x), [], rfl, by simp⟩
    · apply Dnl.evict_within
      · exact ⟨d.queue, [], rfl, by simp⟩
      · exact Nat.lt_of_lt_of_le (by decide) hc.1
  obtain ⟨a', pre, post, h1, -⟩ := Dnl.within_run hash ops (Dnl.capOk_step hc hash (.add nm x)) h0 (by omega)
  simp [Dnl.Dnl.has, Dnl.Dnl.hasEntry, h1]

theorem has_after_adds {hash : Name → Nat → Dnl.Entry} (nm : Name) {r : OutRec} : ∀ {outs : List OutRec} {d : Dnl.Dnl}, Dnl.CapOk d →
    r ∈ outs → outs.length < Dnl.MIN_CAPACITY →
    (outs.foldl (fun d r => d.addEntry (hash nm r.nonce)) d).has hash nm r.nonce = true
  | [], _, _, hm, _ => by simp at hm
  | x :: outs, d, hc, hm, hl => by
    rw [List.foldl_cons]
    by_cases hx : x = r
    · subst hx
      have hrun : ∀ (outs : List OutRec) (d : Dnl.Dnl), outs.foldl (fun d r => d.addEntry (hash nm r.nonce)) d =
          Dnl.Dnl.run hash d (outs.map (fun r => .add nm r.nonce)) := by
        intro outs
        induction outs with
        | nil => intro d; rfl
        | cons y outs ih => intro d; exact ih _
      rw [hrun]
      refine has_after_add hc nm x.nonce _ ?_
      refine Nat.lt_of_le_of_lt List.countP_le_length ?_
      simp only [List.length_map, List.length_cons] at hl ⊢
      omega
    · refine has_after_adds nm (Dnl.capOk_step hc hash (.add nm x.nonce)) ?_ ?_
      · rcases List.mem_cons.1 hm with h | h
        · exact absurd h.symm hx
        · exact h
      · simp only [List.length_cons] at hl; omega

/-- C33: when an entry is finalized that no Data has satisfied, or that was satisfied by Data with a freshness period shorter
than the lifetime of the Dead Nonce List for an Interest with MustBeFresh, the nonce last sent to each upstream is in the Dead
Nonce List afterwards. (1024 is the smallest capacity of the list, C10.) -/
theorem C33_finalize_partial (hr : run env (init n) l = some s) {t : Timer} {e : Ent} (ht : t ∈ s.sched) (hd : t.due ≤ s.now)
    (he : e ∈ s.pit) (hu : e.uid = t.uid)
    (hneed : e.satisfied = false ∨ (e.interest.mustBeFresh = true ∧ e.freshness < env.dnlLifetime))
    (hfew : e.outs.length < 1024) :
    ∃ s', step env st s (.fire t.id) = some s' ∧ ∀ r ∈ e.outs, s'.dnl.has env.hash e.interest.name r.nonce = true := by
  have hi := reach_inv hr
  obtain ⟨e', s', he', hu', hfin, -, -, hdnl, -⟩ := finalize_spec (env := env) hi ht
  obtain rfl : e' = e := eq_of_uid hi.uids he' he (hu'.trans hu.symm)
  refine ⟨s', ?_, ?_⟩
  · simp only [step, fire]
    have := find?_of_nodup (k := fun t : Timer => t.id) hi.tids ht
    rw [this]
    simp only [if_pos hd]
    exact hfin
  · intro r hr'
    have hnd : needDnl env e' = true := by
      unfold needDnl
      rcases hneed with h | ⟨h1, h2⟩
      · simp [h]
      · split
        · simp [h1, h2]
        · rfl
    rw [hdnl, hnd, if_pos rfl]
    exact has_after_adds _ (reach_acct hr).cap hr' hfew

/-- C33: the Interest forwarded to 258 expires; its nonce is in the Dead Nonce List and the same Interest coming back is looping. -/
example : (run exEnv (init 10) (exFaces ++ [(exStrategy, .interest exI1 257), (exStrategy, .tick 4000000000), (exStrategy, .fire 0),
    (exStrategy, .interest exI1 258)])).any
    (fun s => s.dnl.has exEnv.hash [exC 1] 1 && s.pit.isEmpty && decide (s.sent.length = 2) &&
      s.sent.any (fun p => match p with | .nack 258 _ 100 => true | _ => false)) = true := by
  decide +kernel

/-- C33: what is missing: `isSatisfied` is never reset (forwarder.cpp:233, 338, 371), so when a new Interest joins a PIT entry
that was satisfied but not yet finalized, and nobody answers the new Interest, it is counted as satisfied and its nonce is not
remembered. -/
theorem C33_not_for_reused_entry : ∃ s, run exEnv (init 10) (exFaces ++
    [(exStrategy, .interest exI1 257), (exStrategy, .data { exData with noCache := true } 258),
     (exStrategy, .interest { exI1 with nonce := 7 } 257), (exStrategy, .tick 4000000000), (exStrategy, .fire 2)]) = some s ∧
    s.sent = [.interest 258 { exI1 with hopLimit := some 4 }, .data 257 { exData with noCache := true },
      .interest 258 { exI1 with hopLimit := some 4, nonce := 7 }] ∧
    s.pit = [] ∧ s.ctr.nUnsatisfied = 0 ∧ s.dnl.has exEnv.hash [exC 1] 7 = false := by
  obtain ⟨s, h1, h2⟩ := ex_run (o := run exEnv (init 10) (exFaces ++
    [(exStrategy, .interest exI1 257), (exStrategy, .data { exData with noCache := true } 258),
     (exStrategy, .interest { exI1 with nonce := 7 } 257), (exStrategy, .tick 4000000000), (exStrategy, .fire 2)]))
    (p := fun s => decide (s.sent = [.interest 258 { exI1 with hopLimit := some 4 }, .data 257 { exData with noCache := true },
      .interest 258 { exI1 with hopLimit := some 4, nonce := 7 }] ∧
    s.pit = [] ∧ s.ctr.nUnsatisfied = 0 ∧ s.dnl.has exEnv.hash [exC 1] 7 = false)) (by decide +kernel)
  exact ⟨s, h1, by simpa using h2⟩

/-! ### C34: NextHopFaceId -/

/-- C34: an Interest that carries a NextHopFaceId and is neither looping nor answered from the Content Store is not shown to the
strategy; the only packet it can cause is itself, to the chosen face; and it is sent if the face exists, unless its HopLimit has
run out and the face is non-local. -/
theorem C34_obeyed (hr : run env (init n) l = some s) {i : FwInterest} {f g : FaceId} {fi : FaceInfo} (hf : s.faces f = some fi)
    (ha : Admissible i fi) (hl : ¬Looping env s i f fi.link) (hg : i.nextHop = some g)
    (hcs : ∀ c d, s.cs.find i.toInterest ≠ some (c, some d)) (h : step env st s (.interest i f) = some s') :
    s'.calls = s.calls ∧ ∃ new, Emits s s' new ∧
      (∀ p ∈ new, ∃ j, p = .interest g j ∧ j.toInterest = i.toInterest ∧ j.nonce = i.nonce ∧ j.hopLimit = leavesWith s.cfg i.hopLimit) ∧
      (s.faces g = none → new = []) ∧
      (∀ gi, s.faces g = some gi → ¬(leavesWith s.cfg i.hopLimit = some 0 ∧ gi.scope = .nonLocal) → new.length = 1) := by
  cases interest_outcome (reach_inv hr) hf ha h with
  | loop j hl' hj hh => exact absurd hl' hl
  | hit hnl c d he hc hh => exact absurd hc (hcs c d)
  | pass hnl c hcs hg' hh => rw [hg] at hg'; cases hg'
  | direct hnl c hcs g' hg' hh =>
    rw [hg] at hg'
    cases hg'
    obtain ⟨hfr, -⟩ := recorded_frame (counted s) (stripHint s.cfg (decHop i)) f c
    split at hh
    · rename_i hex
      obtain ⟨gi, hgi⟩ := Option.isSome_iff_exists.1 hex
      have hcalls : s'.calls = s.calls := by rw [hh, (acted_interest ..).calls, hfr.calls]
      refine ⟨hcalls, ?_⟩
      have hfind : ∃ e, (recorded (counted s) (stripHint s.cfg (decHop i)) f c).find
          (pitInsert (counted s) (stripHint s.cfg (decHop i))).2.1.uid = some e :=
        recorded_find (s := counted s) (InvX.congr (reach_inv hr) rfl rfl rfl rfl rfl) _ f c
      obtain ⟨e, hfind⟩ := hfind
      unfold onOutgoingInterest at hh
      rw [hfr.faces, hgi, hfind] at hh
      simp only [addHop_hop] at hh
      split at hh
      · rename_i hz
        refine ⟨[], by simp [Emits, hh, hfr.sent], by simp, fun _ => rfl, fun gi' hgi' hnz => ?_⟩
        rw [hgi] at hgi'
        obtain rfl := Option.some.inj hgi'
        exact absurd hz hnz
      · refine ⟨[.interest g (addHop s.cfg (stripHint s.cfg (decHop i)))], ?_, ?_, ?_, fun _ _ _ => rfl⟩
        · rw [hh]; exact congrArg (· ++ _) hfr.sent
        · intro p hp
          rw [List.mem_singleton] at hp
          refine ⟨_, hp, ?_, ?_, addHop_hop ..⟩
          · rw [addHop_key, stripHint_key]; rfl
          · rw [addHop_nonce, stripHint_nonce]; rfl
        · intro hc; rw [hgi] at hc; cases hc
    · rename_i hex
      have hgn : s.faces g = none := by simpa using hex
      refine ⟨by rw [hh, hfr.calls], [], by simp [Emits, hh, hfr.sent], by simp, fun _ => rfl, ?_⟩
      intro gi hgi
      rw [hgn] at hgi; cases hgi

/-- C34: the chosen face is used although the strategy would have used 258; a face that does not exist means nowhere. -/
example : (run exEnv (init 10) (exFaces ++ [(exStrategy, .interest { exI1 with nextHop := some 259 } 256),
    (exStrategy, .interest { exI2 with name := [exC 2], nextHop := some 300 } 256)])).any
    (fun s => decide (s.sent = [.interest 259 { exI1 with nextHop := some 259, hopLimit := some 4 }]) && s.calls.isEmpty) = true := by
  decide +kernel

end Verif.Fw
