import Verif.Nw.Node

/-
The pipelines preserve the invariant of `Verif.Nw.Node`.
-/
namespace Verif.Nw

open Fw
open Tb (FaceId Time FwInterest InRec OutRec PitEntry NextHop)

variable {P : Pred} {env : Env} {st : Strategy} {s s' s0 : St}

/-! ### Interests -/

theorem Clean.insert (h : Clean P s) {i : FwInterest} (hi : P.okI i) : Clean P (pitInsert s i).1 := by
  unfold pitInsert
  split
  · exact h
  · refine ⟨?_, ?_, h.cs, h.sent, h.calls, h.faces⟩
    · intro e he
      rcases List.mem_append.1 he with he | he
      · exact h.ent e he
      · rw [List.mem_singleton.1 he]; exact hi
    · intro e he r hr
      rcases List.mem_append.1 he with he | he
      · exact h.ins e he r hr
      · rw [List.mem_singleton.1 he] at hr; simp at hr

theorem Clean.record (h : Clean P s) {i : FwInterest} {f : FaceId} {u : Nat} {b : Bool} (hi : P.okI (addHop s.cfg i)) (hr : P.rcv f i.toInterest) :
    Clean P (recordInterest s i f u b) := by
  unfold recordInterest
  refine Clean.timer ?_ _ _
  refine ⟨?_, ?_, h.cs, h.sent, h.calls, h.faces⟩
  · intro e he
    obtain ⟨e0, h0, rfl⟩ := mem_mod.1 he
    split
    · show P.okI (if b = true then addHop s.cfg i else e0.interest)
      split
      · exact hi
      · exact h.ent e0 h0
    · exact h.ent e0 h0
  · intro e he r hm
    obtain ⟨e0, h0, rfl⟩ := mem_mod.1 he
    split at hm
    · rcases mem_insertIn hm with ⟨hm, -⟩ | ⟨h1, -, -, -, h3⟩
      · exact h.ins e0 h0 r hm
      · rw [h1, h3]
        exact ⟨hi, by rw [addHop_key]; exact hr⟩
    · exact h.ins e0 h0 r hm

theorem Ok.recorded (h : Ok P s) {i : FwInterest} {f : FaceId} {fi : FaceInfo} {c : Cs.Cs} (hf : s.faces f = some fi)
    (hs : ¬(fi.scope = .nonLocal ∧ isLocalhost i.name = true))
    (hd : isDuplicate fi.link (findDuplicateNonce (pitInsert s i).2.1.toPitEntry i.nonce f) = false)
    (hc : ∀ e ∈ c.table, P.dat e.data) (hi : P.okI i) (hi' : P.okI (addHop s.cfg i)) (hr : P.rcv f i.toInterest) : Ok P (recorded s i f c) := by
  have h1 := h.aux c hc { s.ctr with nCsMisses := s.ctr.nCsMisses + 1 }
  have hp := pitInsert_aux s i c { s.ctr with nCsMisses := s.ctr.nCsMisses + 1 }
  have hq := Prim.record (env := ⟨fun _ _ => 0, 0⟩) (Q := anyQ) (R := fun _ _ => True)
    { s with cs := c, ctr := { s.ctr with nCsMisses := s.ctr.nCsMisses + 1 } } i f fi trivial hf hs (by rw [hp]; exact hd)
  rw [hp] at hq
  refine ⟨hq.inv h1.1, ?_⟩
  have h2 := h1.2.insert hi
  rw [hp] at h2
  unfold Fw.recorded
  refine h2.record ?_ hr
  show P.okI (addHop (pitInsert s i).1.cfg i)
  rw [(insert_frame s i).2.2.2.2.1]
  exact hi'

theorem Ok.answered (h : Ok P s) {i : FwInterest} {d : Data} {c : Cs.Cs} (hc : ∀ e ∈ c.table, P.dat e.data) (hi : P.okI i) :
    Ok P (answered s i d c) := by
  have h1 := h.aux c hc { s.ctr with nCsHits := s.ctr.nCsHits + 1 }
  have hp := pitInsert_aux s i c { s.ctr with nCsHits := s.ctr.nCsHits + 1 }
  have hq := Prim.hit (env := ⟨fun _ _ => 0, 0⟩) (Q := anyQ) (R := noR) { s with cs := c, ctr := { s.ctr with nCsHits := s.ctr.nCsHits + 1 } } i d
  rw [hp] at hq
  refine ⟨hq.inv h1.1, ?_⟩
  have h2 := h1.2.insert hi
  rw [hp] at h2
  exact (h2.mod (u := (pitInsert s i).2.1.uid) (f := fun e => { e with satisfied := true, freshness := d.freshness }) (fun _ => rfl) (fun _ _ h => h)).timer _ _

theorem Ok.loop (hst : Conveyor s0 st) (hl : Later s0 s) (h : Ok P s) {i : FwInterest} {f : FaceId} {fi : FaceInfo}
    (hi : P.okI i) (hr : P.rcv f i.toInterest) (hs : onInterestLoop st s i f fi = some s') : Ok P s' ∧ Later s0 s' := by
  unfold onInterestLoop at hs
  split at hs
  · cases hs; exact ⟨h, hl⟩
  · exact h.call hst hl (t := .onInterestLoop i f) ⟨hi, hr⟩ hs

/-- What an event may bring in. -/
def Pred.event (P : Pred) : Event → Prop
  | .interest i f => P.rcv f i.toInterest ∧ (i.hopLimit ≠ some 0 → P.int i.toInterest (i.hopLimit.map (· - 1)) ∧ ∀ c, P.int i.toInterest (leavesWith c i.hopLimit))
  | .data d _ => P.dat d
  | .addFace f fi => P.lk f → fi.scope = .nonLocal
  | .cs op => ∀ d u, op ≠ .insert d u
  | _ => True

theorem find_cs (h : Clean P s) {i : Interest} {c : Cs.Cs} {o : Option Data} (hc : s.cs.find i = some (c, o)) : ∀ e ∈ c.table, P.dat e.data := by
  rw [(find_origin hc).1]; exact h.cs

theorem Ok.incomingInterest (hst : Conveyor s0 st) (hl : Later s0 s) (h : Ok P s) {i : FwInterest} {f : FaceId}
    (he : P.event (.interest i f)) (hs : onIncomingInterest env st s i f = some s') : Ok P s' ∧ Later s0 s' := by
  cases hf : s.faces f with
  | none =>
    simp only [onIncomingInterest, hf] at hs
    cases hs; exact ⟨h, hl⟩
  | some fi =>
    have hcnt : Ok P (counted s) := h.aux s.cs h.2.cs _
    have hlc : Later s0 (counted s) := hl
    by_cases h0 : i.hopLimit = some 0
    · simp only [onIncomingInterest, hf, if_pos h0] at hs
      cases hs; exact ⟨hcnt, hl⟩
    · by_cases hsc : fi.scope = .nonLocal ∧ UnderLocalhost i.name
      · have hsc' : fi.scope = .nonLocal ∧ isLocalhost (decHop i).name = true := ⟨hsc.1, localhost_iff.2 hsc.2⟩
        simp only [onIncomingInterest, hf, if_neg h0, if_pos hsc'] at hs
        cases hs; exact ⟨hcnt, hl⟩
      · obtain ⟨hr, hi⟩ := he
        obtain ⟨h1, h2⟩ := hi h0
        have hns : ¬(fi.scope = .nonLocal ∧ isLocalhost (stripHint s.cfg (decHop i)).name = true) := by
          rw [stripHint_name, localhost_iff]; exact hsc
        have hi1 : P.okI (decHop i) := h1
        have hi2 : P.okI (stripHint s.cfg (decHop i)) := by
          show P.int _ _
          rw [stripHint_key, stripHint_hop]; exact h1
        have hi3 : P.okI (addHop s.cfg (stripHint s.cfg (decHop i))) := by
          show P.int _ _
          rw [addHop_key, stripHint_key, addHop_hop]; exact h2 s.cfg
        have hr2 : P.rcv f (stripHint s.cfg (decHop i)).toInterest := by rw [stripHint_key]; exact hr
        have hr3 : P.rcv f (addHop s.cfg (stripHint s.cfg (decHop i))).toInterest := by rw [addHop_key]; exact hr2
        have hcs : ∀ c, (c = s.cs ∧ ∃ e ∈ s.pit, e.interest.toInterest = i.toInterest ∧ e.ins ≠ []) ∨ s.cs.find i.toInterest = some (c, none) →
            ∀ e ∈ c.table, P.dat e.data := by
          rintro c (⟨rfl, -⟩ | hc)
          · exact h.2.cs
          · exact find_cs h.2 hc
        have hdup : ¬Looping env s i f fi.link → isDuplicate fi.link
            (findDuplicateNonce (pitInsert (counted s) (stripHint s.cfg (decHop i))).2.1.toPitEntry (stripHint s.cfg (decHop i)).nonce f) = false := by
          intro hn
          refine eq_false_of_ne_true fun hd => hn (Or.inr ?_)
          obtain ⟨e, h3, h4, h5⟩ := (pit_loops hcnt.1).1 hd
          rw [stripHint_key] at h4
          rw [stripHint_nonce] at h5
          exact ⟨e, h3, h4, h5⟩
        have hrec : ¬Looping env s i f fi.link → ∀ c, (∀ e ∈ c.table, P.dat e.data) → Ok P (Fw.recorded (counted s) (stripHint s.cfg (decHop i)) f c) :=
          fun hn c hc => hcnt.recorded hf hns (hdup hn) hc hi2 hi3 hr2
        have hlat : ∀ c, Later s0 (Fw.recorded (counted s) (stripHint s.cfg (decHop i)) f c) := by
          intro c x hx
          rw [(recorded_frame ..).1.calls]
          exact hl x hx
        cases interest_outcome h.1 hf ⟨h0, hsc⟩ hs with
        | loop j hlp hj hh =>
          rcases hj with rfl | rfl
          · exact hcnt.loop hst hlc hi1 hr hh
          · exact hcnt.loop hst hlc hi2 hr2 hh
        | hit hn c d he hc hh =>
          obtain ⟨-, h4⟩ := find_origin hc
          obtain ⟨h5, e, h6, h7⟩ := h4 d rfl
          refine Ok.call hst ?_ (hcnt.answered (find_cs h.2 hc) hi2) (t := .afterContentStoreHit d f _) (⟨h7 ▸ h.2.cs e h6, i.toInterest, hr, h5⟩ : P.okD f d) hh
          intro x hx
          rw [(answered_frame ..).1.calls]
          exact hl x hx
        | direct hn c hc g hg hh =>
          subst hh
          have h4 := hrec hn c (hcs c hc)
          split
          · exact ⟨h4.act (a := .sendInterest _ _ g) hi3 rfl, fun x hx => by rw [(acted_acts (l := [.sendInterest _ _ g]) (by rfl)).calls]; exact hlat c x hx⟩
          · exact ⟨h4, hlat c⟩
        | pass hn c hc hg hh => exact Ok.call hst (hlat c) (hrec hn c (hcs c hc)) (t := .afterReceiveInterest _ f _) ⟨hi3, hr3⟩ hh

/-! ### Data -/

theorem Ok.dnl (h : Ok P s) (u : Nat) (f : Option FaceId) : Ok P (insertDeadNonceList env s u f) := by
  refine ⟨(path_dnl (Q := anyQ) (R := noR) s u f).inv h.1, ?_⟩
  obtain ⟨d, hd⟩ := dnl_eq (env := env) s u f
  rw [hd]
  exact ⟨h.2.ent, h.2.ins, h.2.cs, h.2.sent, h.2.calls, h.2.faces⟩

theorem calls_dnl (s : St) (u : Nat) (f : Option FaceId) : (insertDeadNonceList env s u f).calls = s.calls := by
  obtain ⟨d, hd⟩ := dnl_eq (env := env) s u f
  rw [hd]

theorem calls_timer (s : St) (u ms : Nat) : (setExpiryTimer s u ms).calls = s.calls := by unfold setExpiryTimer; split <;> rfl

theorem Ok.timer (h : Ok P s) (u ms : Nat) : Ok P (setExpiryTimer s u ms) :=
  ⟨(Prim.timer (env := ⟨fun _ _ => 0, 0⟩) (Q := anyQ) (R := noR) s u ms).inv h.1, h.2.timer u ms⟩

theorem Ok.satisfy (h : Ok P s) (u fr : Nat) : Ok P (s.mod u (fun e => { e with satisfied := true, freshness := fr })) :=
  ⟨(Prim.satisfy (env := ⟨fun _ _ => 0, 0⟩) (Q := anyQ) (R := noR) s u fr).inv h.1,
    h.2.mod (u := u) (f := fun e => { e with satisfied := true, freshness := fr }) (fun _ => rfl) (fun _ _ h => h)⟩

theorem Ok.satisfyEntry (h : Ok P s) (d : Data) (f : FaceId) (u : Nat) : Ok P (satisfyEntry env s d f u) ∧ (satisfyEntry env s d f u).calls = s.calls := by
  have h1 := (h.satisfy u d.freshness).dnl (env := env) u (some f)
  refine ⟨⟨(Prim.delOut (env := env) (Q := anyQ) (R := noR) _ u f).inv h1.1,
    h1.2.mod (u := u) (f := fun e => { e with toPitEntry := Tb.deleteOut e.toPitEntry f }) (fun _ => rfl) (fun _ _ h => h)⟩, ?_⟩
  exact calls_dnl _ _ _

theorem Ok.satisfyOne (hst : Conveyor s0 st) (hl : Later s0 s) (h : Ok P s) {d : Data} {f : FaceId} {u : Nat} (hd : P.dat d)
    (hs : satisfyOne env st s d f u = some s') : Ok P s' ∧ Later s0 s' := by
  unfold Fw.satisfyOne at hs
  obtain ⟨s1, h1, rfl⟩ := Option.map_eq_some_iff.1 hs
  have h2 := Ok.call hst (fun c hc => by rw [calls_timer]; exact hl c hc) (h.timer u 0) (t := .afterReceiveData d f u) hd h1
  have h3 := h2.1.satisfyEntry (env := env) d f u
  exact ⟨h3.1, fun c hc => by rw [h3.2]; exact h2.2 c hc⟩

/-- The faces collected while several entries are satisfied have all asked for the Data. -/
theorem Ok.satisfyAll (hst : Conveyor s0 st) {d : Data} {f : FaceId} {sa : St} (hia : Inv sa) (hca : Clean P sa) (hd : P.dat d) :
    ∀ {us : List Nat} {s : St} {acc : List FaceId} {r : St × List FaceId}, Later s0 s → Ok P s → Path env anyQ noR sa s →
      (∀ u ∈ us, ∀ e ∈ sa.pit, e.uid = u → e.interest.matchesData d = true) → (∀ g ∈ acc, P.okD g d) →
      satisfyAll env st d f s us acc = some r → (Ok P r.1 ∧ Later s0 r.1) ∧ ∀ g ∈ r.2, P.okD g d
  | [], s, acc, r, hl, h, _, _, ha, hs => by cases hs; exact ⟨⟨h, hl⟩, ha⟩
  | u :: us, s, acc, r, hl, h, hp, hu, ha, hs => by
    simp only [Fw.satisfyAll, Option.bind_eq_some_iff] at hs
    obtain ⟨r1, h1, h2⟩ := hs
    have hp1 : Path env anyQ noR s r1.1 := path_satisfyStep (L := noR) (any_respects st) h1
    unfold satisfyStep at h1
    obtain ⟨s1, h3, h4⟩ := Option.map_eq_some_iff.1 h1
    have h5 := Ok.call hst (fun c hc => by rw [calls_timer]; exact hl c hc) (h.timer u 0) (t := .beforeSatisfyInterest d f u) hd h3
    have h6 := (h5.1.satisfy u d.freshness).dnl (env := env) u (some f)
    have h7 : Ok P r1.1 := by
      rw [← h4]
      exact ⟨(Prim.clearOut (env := env) (Q := anyQ) (R := noR) _ u f).inv h6.1,
        h6.2.mod (u := u) (f := fun e => { e with toPitEntry := Tb.deleteOut (Tb.clearIns e.toPitEntry) f }) (fun _ => rfl)
          (fun _ _ h => by simp [Tb.deleteOut, Tb.clearIns] at h)⟩
    have h8 : Later s0 r1.1 := by
      rw [← h4]
      intro c hc
      show c ∈ (insertDeadNonceList env _ u (some f)).calls
      rw [calls_dnl]
      exact h5.2 c hc
    refine Ok.satisfyAll hst hia hca hd h8 h7 (hp.trans hp1) (fun v hv => hu v (List.mem_cons_of_mem _ hv)) ?_ h2
    intro g hg
    rw [← h4] at hg
    rcases List.mem_append.1 hg with hg | hg
    · exact ha g hg
    · cases he : s.find u with
      | none => rw [he] at hg; simp at hg
      | some e =>
        rw [he] at hg
        simp only [Option.map_some, Option.getD_some] at hg
        obtain ⟨q, hq, rfl⟩ := List.mem_map.1 hg
        have hq := (List.mem_filter.1 hq).1
        obtain ⟨hm, hue⟩ := find_some he
        rcases hp.insFrom hia e hm q hq with ⟨e0, k1, k2, k3⟩ | ⟨i, c, hR, -⟩
        · refine ⟨hd, e0.interest.toInterest, ?_, hu u (List.mem_cons_self ..) e0 k1 (k2.trans hue)⟩
          rw [← ((hia.ents e0 k1).same q k3).1]
          exact (hca.ins e0 k1 q k3).2
        · exact hR.elim

theorem Ok.dataList {d : Data} : ∀ {l : List FaceId} {s : St}, Ok P s → (∀ g ∈ l, P.okD g d) →
    Ok P (l.foldl (fun s g => onOutgoingData s d g) s) ∧ (l.foldl (fun s g => onOutgoingData s d g) s).calls = s.calls
  | [], s, h, _ => ⟨h, rfl⟩
  | g :: l, s, h, hd => by
    have h1 : Ok P (onOutgoingData s d g) := ⟨(Prim.data (env := ⟨fun _ _ => 0, 0⟩) (Q := anyQ) (R := noR) s d g).inv h.1,
      h.2.data (hd g (List.mem_cons_self ..))⟩
    have h2 : (onOutgoingData s d g).calls = s.calls := by
      unfold onOutgoingData
      split
      · rfl
      · split <;> rfl
    have h3 := h1.dataList (fun g hg => hd g (List.mem_cons_of_mem _ hg))
    exact ⟨h3.1, h3.2.trans h2⟩

theorem Ok.satisfyMany (hst : Conveyor s0 st) (hl : Later s0 s) (h : Ok P s) {d : Data} {f : FaceId} {us : List Nat} (hd : P.dat d)
    (hu : ∀ u ∈ us, ∀ e ∈ s.pit, e.uid = u → e.interest.matchesData d = true)
    (hs : satisfyMany env st s d f us = some s') : Ok P s' ∧ Later s0 s' := by
  unfold Fw.satisfyMany at hs
  obtain ⟨r, h1, rfl⟩ := Option.map_eq_some_iff.1 hs
  obtain ⟨⟨h2, h3⟩, h4⟩ := Ok.satisfyAll hst h.1 h.2 hd hl h (.refl _) hu (by simp) h1
  have h5 := h2.dataList (d := d) (l := r.2.eraseDups.filter (sendsBack r.1 f))
    (fun g hg => h4 g (List.mem_eraseDups.1 (List.mem_filter.1 hg).1))
  exact ⟨h5.1, fun c hc => by rw [h5.2]; exact h3 c hc⟩

theorem insert_cs_ok (h : Clean P s) {d : Data} {u : Bool} {c : Cs.Cs} (hd : P.dat d) (hc : s.cs.insert d u = some c) : ∀ e ∈ c.table, P.dat e.data := by
  intro e he
  rcases insert_origin hc e he with h1 | ⟨e0, h1, h2⟩
  · rw [h1]; exact hd
  · rw [← h2]; exact h.cs e0 h1

theorem Ok.incomingData (hst : Conveyor s0 st) (hl : Later s0 s) (h : Ok P s) {d : Data} {f : FaceId} (hd : P.dat d)
    (hs : onIncomingData env st s d f = some s') : Ok P s' ∧ Later s0 s' := by
  unfold onIncomingData at hs
  split at hs
  · cases hs; exact ⟨h, hl⟩
  · rename_i fi hf
    simp only at hs
    have h1 : ∀ c : Cs.Cs, (∀ e ∈ c.table, P.dat e.data) → ∀ ctr, Ok P { s with cs := c, ctr := ctr } := fun c hc ctr => h.aux c hc ctr
    have hu : ∀ u ∈ (dataMatches s d).map (·.uid), ∀ e ∈ s.pit, e.uid = u → e.interest.matchesData d = true := by
      intro u hu e he heu
      obtain ⟨e1, h2, h3⟩ := List.mem_map.1 hu
      obtain ⟨h4, h5⟩ := List.mem_filter.1 h2
      rw [eq_of_uid h.1.uids he h4 (heu.trans h3.symm)]
      exact h5
    split at hs
    · cases hs; exact ⟨h1 s.cs h.2.cs _, hl⟩
    · split at hs
      · unfold onDataUnsolicited at hs
        simp only at hs
        split at hs
        · obtain ⟨c, hc, rfl⟩ := Option.map_eq_some_iff.1 hs
          exact ⟨h1 c (insert_cs_ok h.2 hd hc) _, hl⟩
        · cases hs; exact ⟨h1 s.cs h.2.cs _, hl⟩
      · obtain ⟨c, hc, h2⟩ := Option.bind_eq_some_iff.1 hs
        refine Ok.satisfyOne hst ?_ (h1 c (insert_cs_ok h.2 hd hc) _) hd h2
        exact hl
      · obtain ⟨c, hc, h2⟩ := Option.bind_eq_some_iff.1 hs
        refine Ok.satisfyMany hst ?_ (h1 c (insert_cs_ok h.2 hd hc) _) hd ?_ h2
        · exact hl
        · exact hu

/-! ### Nacks and other events -/

theorem Ok.incomingNack (hst : Conveyor s0 st) (hl : Later s0 s) (h : Ok P s) {i : FwInterest} {k : Nat} {f : FaceId}
    (hs : onIncomingNack st s i k f = some s') : Ok P s' ∧ Later s0 s' := by
  unfold onIncomingNack at hs
  split at hs
  · cases hs; exact ⟨h, hl⟩
  · simp only at hs
    have h1 : Ok P { s with ctr := { s.ctr with nInNacks := s.ctr.nInNacks + 1 } } := h.aux s.cs h.2.cs _
    split at hs
    · cases hs; exact ⟨h1, hl⟩
    · split at hs
      · cases hs; exact ⟨h1, hl⟩
      · rename_i e he
        split at hs
        · cases hs; exact ⟨h1, hl⟩
        · split at hs
          · cases hs; exact ⟨h1, hl⟩
          · unfold acceptNack at hs
            simp only at hs
            have h2 : Ok P (St.mod { s with ctr := { s.ctr with nInNacks := s.ctr.nInNacks + 1 } } e.uid
                (fun e => { e with toPitEntry := Tb.setNack e.toPitEntry f i.nonce k })) :=
              ⟨(Prim.setNack (env := ⟨fun _ _ => 0, 0⟩) (Q := anyQ) (R := noR) _ e.uid f i.nonce k).inv h1.1,
                h1.2.mod (u := e.uid) (f := fun e => { e with toPitEntry := Tb.setNack e.toPitEntry f i.nonce k }) (fun _ => rfl) (fun _ _ h => h)⟩
            split at hs
            · exact Ok.call hst (show Later s0 (St.mod { s with ctr := _ } _ _) from hl) h2 (t := .afterReceiveNack i k f e.uid) trivial hs
            · exact Ok.call hst (fun c hc => by rw [calls_timer]; exact hl c hc) (h2.timer _ 0) (t := .afterReceiveNack i k f e.uid) trivial hs

theorem Ok.newNextHop (hst : Conveyor s0 st) (nh : NextHop) : ∀ {us : List Nat} {s s' : St}, Later s0 s → Ok P s → onNewNextHop st nh s us = some s' →
    Ok P s' ∧ Later s0 s'
  | [], s, s', hl, h, hs => by cases hs; exact ⟨h, hl⟩
  | u :: us, s, s', hl, h, hs => by
    simp only [onNewNextHop, Option.bind_eq_some_iff] at hs
    obtain ⟨s1, h1, h2⟩ := hs
    have h3 := h.call hst hl (t := .afterNewNextHop nh u) trivial h1
    exact h3.1.newNextHop hst nh h3.2 h2

theorem Ok.fire (h : Ok P s) {id : Nat} (hs : fire env s id = some s') : Ok P s' ∧ s'.calls = s.calls := by
  have hinv : Inv s' := (path_fire (Q := anyQ) (R := noR) hs).inv h.1
  unfold Fw.fire at hs
  split at hs
  · cases hs; exact ⟨h, rfl⟩
  · rename_i t ht
    split at hs
    · unfold onInterestFinalize at hs
      split at hs
      · cases hs
      · cases hs
        refine ⟨⟨hinv, ?_⟩, ?_⟩
        · obtain ⟨d, hd⟩ := dnl_eq (env := env) { s with sched := s.sched.filter (fun t => t.id ≠ id) } t.uid none
          refine Clean.pit h.2 ?_ ?_ ?_ ?_ ?_
          · intro e he
            simp only [List.mem_filter] at he
            refine ⟨e, ?_, rfl, fun _ h => h⟩
            have := he.1
            rw [hd] at this
            split at this <;> exact this
          · dsimp only; rw [hd]; split <;> rfl
          · dsimp only; rw [hd]; split <;> rfl
          · dsimp only; rw [hd]; split <;> rfl
          · dsimp only; rw [hd]; split <;> rfl
        · obtain ⟨d, hd⟩ := dnl_eq (env := env) { s with sched := s.sched.filter (fun t => t.id ≠ id) } t.uid none
          dsimp only; rw [hd]; split <;> rfl
    · cases hs; exact ⟨h, rfl⟩

/-- Every event preserves the invariant. -/
theorem Ok.step (hst : Conveyor s st) (h : Ok P s) {ev : Event} (he : P.event ev) (hs : step env st s ev = some s') : Ok P s' := by
  have hl : Later s s := fun _ h => h
  have hinv := step_inv h.1 hs
  cases ev with
  | interest i f => exact (h.incomingInterest hst hl he hs).1
  | data d f => exact (h.incomingData hst hl he hs).1
  | nack i k f => exact (h.incomingNack hst hl hs).1
  | dropped i f =>
    simp only [Fw.step] at hs
    split at hs
    · exact (h.call hst hl (t := .onDroppedInterest i f) trivial hs).1
    · cases hs; exact h
  | newNextHop nh us => exact (h.newNextHop hst nh hl hs).1
  | async => exact (h.call hst hl (t := .async) trivial hs).1
  | fire id => exact (h.fire hs).1
  | tick dt => cases hs; exact ⟨hinv, ⟨h.2.ent, h.2.ins, h.2.cs, h.2.sent, h.2.calls, h.2.faces⟩⟩
  | addFace f fi =>
    simp only [Fw.step] at hs
    cases hs
    refine ⟨hinv, ?_⟩
    split
    · exact h.2
    · refine ⟨h.2.ent, h.2.ins, h.2.cs, h.2.sent, h.2.calls, ?_⟩
      intro g gi hg hlk
      dsimp only at hg
      split at hg
      · rename_i hgf
        subst hgf
        cases hg
        exact he hlk
      · exact h.2.faces g gi hg hlk
  | removeFace f =>
    cases hs
    refine ⟨hinv, ?_⟩
    refine ⟨?_, ?_, h.2.cs, h.2.sent, h.2.calls, ?_⟩
    · intro e hm
      obtain ⟨e0, h0, rfl⟩ := List.mem_map.1 hm
      exact h.2.ent e0 h0
    · intro e hm r hr
      obtain ⟨e0, h0, rfl⟩ := List.mem_map.1 hm
      exact h.2.ins e0 h0 r (mem_deleteIn hr)
    · intro g gi hg hlk
      simp only [removeFace] at hg
      split at hg
      · cases hg
      · exact h.2.faces g gi hg hlk
  | config c => cases hs; exact ⟨hinv, ⟨h.2.ent, h.2.ins, h.2.cs, h.2.sent, h.2.calls, h.2.faces⟩⟩
  | cs op =>
    obtain ⟨⟨c, o⟩, h1, rfl⟩ := Option.map_eq_some_iff.1 hs
    refine ⟨hinv, ⟨h.2.ent, h.2.ins, ?_, h.2.sent, h.2.calls, h.2.faces⟩⟩
    intro e hm
    obtain ⟨e0, h2, h3⟩ := op_origin h1 he e hm
    rw [← h3]; exact h.2.cs e0 h2
  | dnl op => cases hs; exact ⟨hinv, ⟨h.2.ent, h.2.ins, h.2.cs, h.2.sent, h.2.calls, h.2.faces⟩⟩

theorem ok_init (P : Pred) (n : Nat) : Ok P (init n) :=
  ⟨init_inv n, ⟨by simp [init], by simp [init], by simp [init, Cs.init], by simp [init], by simp [init], by simp [init]⟩⟩

end Verif.Nw
