import Verif.Fw.DataLemmas
import Verif.Fw.Example
import Verif.Fw.Inv
import Verif.Cs.Step

/-
C73: no assertion of the forwarding pipelines fails.
-/
namespace Verif.Fw

open Tb (FaceId Time FwInterest InRec OutRec PitEntry NextHop)

variable {env : Env} {st : Strategy} {n : Nat} {l : List (Strategy × Event)} {s s' : St}

/-! ### What is assumed -/

/-- The strategy sends only Data it was handed by the trigger, for the PIT entry it was handed with it. -/
def Honest (st : Strategy) : Prop :=
  ∀ s t, ∀ a ∈ st s t,
    (∀ u d g, a = .sendData u d g → ∃ f, t = .afterContentStoreHit d f u ∨ t = .afterReceiveData d f u) ∧
    (∀ u d g, a = .sendDataToAll u d g → ∃ f, t = .afterContentStoreHit d f u ∨ t = .afterReceiveData d f u)

/-- Packets have well-formed names: digest components have 32 octets. So has the digest of a Data. -/
def WellFormed : Event → Prop
  | .interest i _ => Name.WF i.name
  | .data d _ => Cs.DataWF d
  | .cs op => Cs.OpWF op
  | _ => True

/-! ### Proof -/

def keyv (e : Ent) : Nat × Interest := (e.uid, e.interest.toInterest)

/-- The entry satisfied by the Data, if it still exists. -/
def Fits (s : St) (u : Nat) (d : Data) : Prop := ∀ e, s.find u = some e → e.interest.matchesData d = true

theorem Fits.congr {a b : St} (h : b.pit.map keyv = a.pit.map keyv) {u : Nat} {d : Data} (hf : Fits a u d) : Fits b u d := by
  intro e he
  have := find_view (v := keyv) (fun _ => rfl) h u
  rw [he] at this
  obtain ⟨x, hx, hxe⟩ := Option.map_eq_some_iff.1 this.symm
  simp only [keyv, Prod.mk.injEq] at hxe
  rw [← hxe.2]
  exact hf x hx

theorem keyv_timer (s : St) (u ms : Nat) : (setExpiryTimer s u ms).pit.map keyv = s.pit.map keyv := by
  unfold setExpiryTimer
  split
  · rfl
  · exact map_mod (u := u) (f := fun e => { e with timer := some s.nextTimer }) (fun _ => rfl)

theorem sendData_ok {u : Nat} {d : Data} (h : Fits s u d) (g : FaceId) :
    ∃ s', sendData s u d g = some s' ∧ s'.pit.map keyv = s.pit.map keyv := by
  unfold sendData
  split
  · exact ⟨s, rfl, rfl⟩
  · rename_i e he
    rw [if_pos (h e he)]
    refine ⟨_, rfl, ?_⟩
    rw [pit_outgoingData]
    exact map_mod (fun _ => rfl)

theorem sendDataList_ok {u : Nat} {d : Data} : ∀ (gs : List FaceId) {s : St}, Fits s u d →
    ∃ s', sendDataList u d s gs = some s' ∧ s'.pit.map keyv = s.pit.map keyv
  | [], s, _ => ⟨s, rfl, rfl⟩
  | g :: gs, s, h => by
    obtain ⟨s1, h1, h2⟩ := sendData_ok h g
    obtain ⟨s2, h3, h4⟩ := sendDataList_ok gs (h.congr h2)
    exact ⟨s2, by simp only [sendDataList, h1, Option.bind_some, h3], h4.trans h2⟩

/-- What an action needs. -/
def ActOk (s : St) : Action → Prop
  | .sendData u d _ => Fits s u d
  | .sendDataToAll u d _ => Fits s u d
  | _ => True

theorem ActOk.congr {a b : St} (h : b.pit.map keyv = a.pit.map keyv) {x : Action} (hx : ActOk a x) : ActOk b x := by
  cases x <;> first | exact Fits.congr h hx | trivial

theorem act_ok {a : Action} (h : ActOk s a) : ∃ s', act s a = some s' ∧ s'.pit.map keyv = s.pit.map keyv := by
  cases a with
  | sendInterest u i g =>
    refine ⟨_, rfl, ?_⟩
    unfold onOutgoingInterest
    split
    · split
      · rfl
      · exact map_mod (u := u) (f := fun e => { e with toPitEntry := Tb.insertOrUpdateOut e.toPitEntry g i s.now }) (fun _ => rfl)
    · rfl
  | sendData u d g => exact sendData_ok h g
  | sendDataToAll u d f =>
    simp only [act, sendDataToAll]
    split
    · exact ⟨s, rfl, rfl⟩
    · exact sendDataList_ok _ h
  | sendNack u r g =>
    refine ⟨_, rfl, ?_⟩
    unfold onOutgoingNack
    split
    · rfl
    · split
      · rfl
      · split
        · rfl
        · exact map_mod (u := u) (f := fun e => { e with toPitEntry := Tb.deleteIn e.toPitEntry g }) (fun _ => rfl)
  | sendNackPacket i r g =>
    refine ⟨_, rfl, ?_⟩
    unfold sendNackPacket
    split <;> rfl
  | setExpiryTimer u ms => exact ⟨_, rfl, keyv_timer ..⟩

theorem acts_ok : ∀ (l : List Action) {s : St}, (∀ a ∈ l, ActOk s a) → ∃ s', acts s l = some s' ∧ s'.pit.map keyv = s.pit.map keyv
  | [], s, _ => ⟨s, rfl, rfl⟩
  | a :: l, s, h => by
    obtain ⟨s1, h1, h2⟩ := act_ok (h a (List.mem_cons_self ..))
    obtain ⟨s2, h3, h4⟩ := acts_ok l (s := s1) (fun b hb => (h b (List.mem_cons_of_mem _ hb)).congr h2)
    exact ⟨s2, by simp only [acts, h1, Option.bind_some, h3], h4.trans h2⟩

/-- What a trigger promises. -/
def TrigFits (s : St) : Trigger → Prop
  | .afterContentStoreHit d _ u => Fits s u d
  | .afterReceiveData d _ u => Fits s u d
  | _ => True

theorem call_ok (hst : Honest st) {t : Trigger} (ht : TrigFits s t) :
    ∃ s', call st s t = some s' ∧ s'.pit.map keyv = s.pit.map keyv ∧ s'.cs = s.cs := by
  have h : ∀ a ∈ st s t, ActOk { s with calls := s.calls ++ [t] } a := by
    intro a ha
    obtain ⟨h1, h2⟩ := hst s t a ha
    cases a with
    | sendData u d g =>
      obtain ⟨f, h | h⟩ := h1 u d g rfl <;> subst h <;> exact ht
    | sendDataToAll u d g =>
      obtain ⟨f, h | h⟩ := h2 u d g rfl <;> subst h <;> exact ht
    | _ => trivial
  obtain ⟨s', h1, h2⟩ := acts_ok _ h
  exact ⟨s', h1, h2, (acted_acts h1).cs⟩

/-- The Content Store stays in order. -/
def CsOk (s : St) : Prop := ∃ log, Cs.Inv s.cs log

theorem CsOk.congr {a b : St} (h : b.cs = a.cs) (ha : CsOk a) : CsOk b := by unfold CsOk; rw [h]; exact ha

theorem cs_insert_ok {c : Cs.Cs} {log : List Cs.Key} (h : Cs.Inv c log) {d : Data} (hd : Cs.DataWF d) (u : Bool) :
    ∃ c', c.insert d u = some c' ∧ ∃ log, Cs.Inv c' log := by
  obtain ⟨c', out, h1, h2⟩ := Cs.step_inv h (op := .insert d u) hd
  simp only [Cs.Cs.step, Option.map_eq_some_iff, Prod.mk.injEq] at h1
  obtain ⟨x, hx, rfl, -⟩ := h1
  exact ⟨x, hx, _, h2⟩

theorem cs_find_ok {c : Cs.Cs} {log : List Cs.Key} (h : Cs.Inv c log) {i : Interest} (hn : Name.WF i.name) :
    ∃ c' r, c.find i = some (c', r) ∧ (∃ log, Cs.Inv c' log) ∧ ∀ d, r = some d → i.matchesData d = true := by
  obtain ⟨c', r, h1, h2, -, -, -, -, -, -, h3⟩ := Cs.find_spec h hn
  refine ⟨c', r, h1, ⟨_, h2⟩, ?_⟩
  intro d hd
  rw [hd] at h3
  split at h3
  · obtain ⟨e, he, hed⟩ := Option.map_eq_some_iff.1 h3.symm
    have := List.find?_some he
    unfold Cs.Entry.canSatisfy at this
    rw [← hed]
    split at this
    · simp at this
    · rename_i hm; simpa using hm
  · cases h3

theorem cs_timer (s : St) (u ms : Nat) : (setExpiryTimer s u ms).cs = s.cs := (acted_timer [] s u ms).cs

theorem cs_interest (s : St) (u : Nat) (i : FwInterest) (g : FaceId) : (onOutgoingInterest s u i g).cs = s.cs :=
  (acted_interest s u i g).cs

theorem miss_ok (hst : Honest st) (hc : CsOk s) (i : FwInterest) (f : FaceId) (u : Nat) (b : Bool) :
    ∃ s', onContentStoreMiss st s i f u b = some s' ∧ CsOk s' := by
  have hcs : CsOk (recordInterest { s with ctr := { s.ctr with nCsMisses := s.ctr.nCsMisses + 1 } } i f u b) :=
    CsOk.congr (record_frame { s with ctr := { s.ctr with nCsMisses := s.ctr.nCsMisses + 1 } } i f u b).cs hc
  unfold onContentStoreMiss
  simp only
  split
  · refine ⟨_, rfl, ?_⟩
    split
    · exact CsOk.congr (cs_interest ..) hcs
    · exact hcs
  · obtain ⟨s', h1, -, h2⟩ := call_ok hst (s := recordInterest { s with ctr := { s.ctr with nCsMisses := s.ctr.nCsMisses + 1 } } i f u b)
      (t := .afterReceiveInterest (addHop (recordInterest { s with ctr := { s.ctr with nCsMisses := s.ctr.nCsMisses + 1 } } i f u b).cfg i) f u) trivial
    exact ⟨s', h1, CsOk.congr h2 hcs⟩

theorem loop_ok (hst : Honest st) (hc : CsOk s) (i : FwInterest) (f : FaceId) (fi : FaceInfo) :
    ∃ s', onInterestLoop st s i f fi = some s' ∧ CsOk s' := by
  unfold onInterestLoop
  split
  · exact ⟨s, rfl, hc⟩
  · obtain ⟨s', h1, -, h2⟩ := call_ok hst (s := s) (t := .onInterestLoop i f) trivial
    exact ⟨s', h1, hc.congr h2⟩

theorem hit_ok (hst : Honest st) (hc : CsOk s) {d : Data} {u : Nat} (hf : Fits s u d) (f : FaceId) :
    ∃ s', onContentStoreHit st s d f u = some s' ∧ CsOk s' := by
  unfold onContentStoreHit
  simp only
  obtain ⟨s', h1, -, h2⟩ := call_ok hst (s := setExpiryTimer (St.mod { s with ctr := { s.ctr with nCsHits := s.ctr.nCsHits + 1 } } u
    (fun e => { e with satisfied := true, freshness := d.freshness })) u 0) (t := .afterContentStoreHit d f u) (by
      refine Fits.congr (a := s) ?_ hf
      rw [keyv_timer]
      exact map_mod (s := { s with ctr := { s.ctr with nCsHits := s.ctr.nCsHits + 1 } }) (u := u)
        (f := fun e => { e with satisfied := true, freshness := d.freshness }) (fun _ => rfl))
  refine ⟨s', h1, CsOk.congr h2 ?_⟩
  exact CsOk.congr (cs_timer ..) hc

theorem lookup_ok (hst : Honest st) (hi : Inv s) (hc : CsOk s) {i : FwInterest} (hn : Name.WF i.name) (f : FaceId) (fi : FaceInfo) :
    ∃ s', lookupInterest st s i f fi = some s' ∧ CsOk s' := by
  have hci : CsOk (pitInsert s i).1 := hc.congr (insert_cs s i)
  unfold lookupInterest
  simp only
  split
  · exact loop_ok hst hci ..
  · split
    · obtain ⟨log, hlog⟩ := hci
      obtain ⟨c, r, h1, h2, h3⟩ := cs_find_ok hlog (i := i.toInterest) hn
      rw [h1]
      simp only [Option.bind_some]
      cases r with
      | none => exact miss_ok hst (s := { (pitInsert s i).1 with cs := c }) h2 ..
      | some d =>
        refine hit_ok hst (s := { (pitInsert s i).1 with cs := c }) h2 ?_ f
        intro e he
        obtain ⟨g1, g2, -, -, -, g3⟩ := insert_spec hi i
        have : e = (pitInsert s i).2.1 := by
          have he' : (pitInsert s i).1.find (pitInsert s i).2.1.uid = some e := he
          rw [find_mem g3.uids g1] at he'
          exact (Option.some.inj he').symm
        rw [this]
        have hk : (pitInsert s i).2.1.interest.toInterest = i.toInterest := g2
        rw [hk]
        exact h3 d rfl
    · exact miss_ok hst hci ..

theorem satisfyAll_ok (hst : Honest st) (d : Data) (f : FaceId) : ∀ (us : List Nat) {s : St} (acc : List FaceId), CsOk s →
    ∃ r, satisfyAll env st d f s us acc = some r ∧ CsOk r.1
  | [], s, acc, h => ⟨(s, acc), rfl, h⟩
  | u :: us, s, acc, h => by
    obtain ⟨s1, h1, -, h2⟩ := call_ok hst (s := setExpiryTimer s u 0) (t := .beforeSatisfyInterest d f u) trivial
    have hr : ∃ r, satisfyStep env st s d f u acc = some r ∧ CsOk r.1 := by
      unfold satisfyStep
      rw [h1]
      refine ⟨_, rfl, ?_⟩
      obtain ⟨x, hx⟩ := dnl_eq (env := env) (s1.mod u (fun e => { e with satisfied := true, freshness := d.freshness })) u (some f)
      simp only [hx]
      exact CsOk.congr (a := s1) rfl (CsOk.congr h2 (CsOk.congr (cs_timer ..) h))
    obtain ⟨r, hr1, hr2⟩ := hr
    obtain ⟨r', h3, h4⟩ := satisfyAll_ok hst d f us r.2 hr2
    exact ⟨r', by simp only [satisfyAll, hr1, Option.bind_some, h3], h4⟩

theorem newNextHop_ok (hst : Honest st) (nh : NextHop) : ∀ (us : List Nat) {s : St}, CsOk s →
    ∃ s', onNewNextHop st nh s us = some s' ∧ CsOk s'
  | [], s, h => ⟨s, rfl, h⟩
  | u :: us, s, h => by
    obtain ⟨s1, h1, -, h2⟩ := call_ok hst (s := s) (t := .afterNewNextHop nh u) trivial
    obtain ⟨s2, h3, h4⟩ := newNextHop_ok hst nh us (h.congr h2)
    exact ⟨s2, by simp only [onNewNextHop, h1, Option.bind_some, h3], h4⟩

theorem foldl_cs (d : Data) : ∀ (l : List FaceId) (s : St), (l.foldl (fun s g => onOutgoingData s d g) s).cs = s.cs
  | [], _ => rfl
  | g :: l, s => by rw [List.foldl_cons, foldl_cs d l]; exact (acted_data [] s d g).cs

theorem data_ok (hst : Honest st) (hi : Inv s) (hc : CsOk s) {d : Data} (hd : Cs.DataWF d) (f : FaceId) :
    ∃ s', onIncomingData env st s d f = some s' ∧ CsOk s' := by
  unfold onIncomingData
  split
  · exact ⟨s, rfl, hc⟩
  · rename_i fi hfi
    simp only
    split
    · exact ⟨_, rfl, hc⟩
    · obtain ⟨log, hlog⟩ := hc
      split
      · unfold onDataUnsolicited
        simp only
        split
        · obtain ⟨c, h1, h2⟩ := cs_insert_ok hlog hd true
          rw [h1]
          exact ⟨_, rfl, h2⟩
        · exact ⟨_, rfl, ⟨log, hlog⟩⟩
      · rename_i u hu
        obtain ⟨c, h1, h2⟩ := cs_insert_ok hlog hd false
        rw [h1]
        simp only [Option.bind_some]
        unfold satisfyOne
        let a : St := { s with ctr := { s.ctr with nInData := s.ctr.nInData + 1 }, cs := c }
        obtain ⟨s1, h3, -, h4⟩ := call_ok hst (s := setExpiryTimer a u 0) (t := .afterReceiveData d f u) (by
          refine Fits.congr (keyv_timer a u 0) ?_
          intro e he
          have hu' : (dataMatches s d).map (·.uid) = [u] := hu
          have he' : s.find u = some e := he
          have : u ∈ (dataMatches s d).map (·.uid) := by rw [hu']; simp
          obtain ⟨x, hx, hxu⟩ := List.mem_map.1 this
          obtain ⟨hx1, hx2⟩ := List.mem_filter.1 hx
          have : x = e := eq_of_uid hi.uids hx1 (find_some he').1 (hxu.trans (find_some he').2.symm)
          rw [← this]; exact hx2)
        rw [h3]
        refine ⟨_, rfl, ?_⟩
        unfold satisfyEntry
        obtain ⟨x, hx⟩ := dnl_eq (env := env) (s1.mod u (fun e => { e with satisfied := true, freshness := d.freshness })) u (some f)
        simp only [hx]
        exact CsOk.congr (a := s1) rfl (CsOk.congr h4 (CsOk.congr (cs_timer ..) h2))
      · obtain ⟨c, h1, h2⟩ := cs_insert_ok hlog hd false
        rw [h1]
        simp only [Option.bind_some]
        unfold satisfyMany
        obtain ⟨r, h3, h4⟩ := satisfyAll_ok (env := env) hst d f ((dataMatches { s with ctr := { s.ctr with nInData := s.ctr.nInData + 1 } } d).map (·.uid))
          (s := { s with ctr := { s.ctr with nInData := s.ctr.nInData + 1 }, cs := c }) [] h2
        rw [h3]
        exact ⟨_, rfl, CsOk.congr (foldl_cs ..) h4⟩

theorem step_ok (hst : Honest st) (hi : Inv s) (hc : CsOk s) {ev : Event} (hw : WellFormed ev) :
    ∃ s', step env st s ev = some s' ∧ CsOk s' := by
  cases ev with
  | interest i f =>
    simp only [step, onIncomingInterest]
    split
    · exact ⟨s, rfl, hc⟩
    · split
      · exact ⟨_, rfl, hc⟩
      · split
        · exact ⟨_, rfl, hc⟩
        · split
          · exact loop_ok (s := counted s) hst hc _ _ _
          · refine lookup_ok (s := counted s) hst ?_ hc ?_ _ _
            · exact InvX.congr hi rfl rfl rfl rfl rfl
            · rw [stripHint_name]; exact hw
  | data d f => exact data_ok hst hi hc hw f
  | nack i r f =>
    simp only [step, onIncomingNack]
    split
    · exact ⟨s, rfl, hc⟩
    · split
      · exact ⟨_, rfl, hc⟩
      · split
        · exact ⟨_, rfl, hc⟩
        · split
          · exact ⟨_, rfl, hc⟩
          · split
            · exact ⟨_, rfl, hc⟩
            · unfold acceptNack
              simp only
              split
              · obtain ⟨s', h1, -, h2⟩ := call_ok hst (t := .afterReceiveNack i r f _) trivial
                exact ⟨s', h1, CsOk.congr h2 hc⟩
              · obtain ⟨s', h1, -, h2⟩ := call_ok hst (t := .afterReceiveNack i r f _) trivial
                exact ⟨s', h1, CsOk.congr h2 (CsOk.congr (cs_timer ..) hc)⟩
  | dropped i f =>
    simp only [step]
    split
    · obtain ⟨s', h1, -, h2⟩ := call_ok hst (s := s) (t := .onDroppedInterest i f) trivial
      exact ⟨s', h1, hc.congr h2⟩
    · exact ⟨s, rfl, hc⟩
  | newNextHop nh us => exact newNextHop_ok hst nh us hc
  | async =>
    obtain ⟨s', h1, -, h2⟩ := call_ok hst (s := s) (t := .async) trivial
    exact ⟨s', h1, hc.congr h2⟩
  | fire id =>
    simp only [step, fire]
    split
    · exact ⟨s, rfl, hc⟩
    · rename_i t ht
      split
      · have htm := List.mem_of_find?_eq_some ht
        have hid : t.id = id := by simpa using List.find?_some ht
        obtain ⟨e, s', h1, h2, h3, -⟩ := finalize_spec (env := env) hi htm
        rw [hid] at h3
        refine ⟨s', h3, ?_⟩
        unfold onInterestFinalize at h3
        split at h3
        · cases h3
        · simp only [Option.some.injEq] at h3
          obtain ⟨x, hx⟩ := dnl_eq (env := env) { s with sched := s.sched.filter (fun t => t.id ≠ id) } t.uid none
          rw [hx] at h3
          refine CsOk.congr (a := s) ?_ hc
          rw [← h3]
          simp only
          split <;> rfl
      · exact ⟨s, rfl, hc⟩
  | tick dt =>
    obtain ⟨log, h⟩ := hc
    exact ⟨_, rfl, log, Cs.tick_inv h dt⟩
  | addFace f info =>
    refine ⟨_, rfl, ?_⟩
    split <;> exact hc
  | removeFace f => exact ⟨_, rfl, hc⟩
  | config c => exact ⟨_, rfl, hc⟩
  | cs op =>
    obtain ⟨log, h⟩ := hc
    obtain ⟨c, out, h1, h2⟩ := Cs.step_inv h (op := op) hw
    refine ⟨{ s with cs := c }, by simp only [step, h1, Option.map_some], _, h2⟩
  | dnl op => exact ⟨_, rfl, hc⟩

theorem run_ok : ∀ {l : List (Strategy × Event)} {s : St}, Inv s → CsOk s → (∀ x ∈ l, Honest x.1 ∧ WellFormed x.2) →
    ∃ s', run env s l = some s'
  | [], s, _, _, _ => ⟨s, rfl⟩
  | x :: l, s, hi, hc, hl => by
    obtain ⟨hx1, hx2⟩ := hl x (List.mem_cons_self ..)
    obtain ⟨s1, h1, h2⟩ := step_ok (env := env) hx1 hi hc hx2
    obtain ⟨s2, h3⟩ := run_ok (l := l) (step_inv hi h1) h2 (fun y hy => hl y (List.mem_cons_of_mem _ hy))
    exact ⟨s2, by simp only [run, h1, Option.bind_some, h3]⟩

/-! ### C73 -/

/-- C73: whatever packets arrive, faces come and go, timers fire and settings change, in whatever order, and however strategies
react, provided they answer an Interest only with the Data they were given for it, no assertion in the forwarding pipelines, the
PIT or the Content Store fails: every history runs to its end. -/
theorem C73_no_fault (hl : ∀ x ∈ l, Honest x.1 ∧ WellFormed x.2) : ∃ s, run env (init n) l = some s :=
  run_ok (init_inv n) ⟨[], Cs.init_inv n⟩ hl

/-- C73: without the proviso the assertion of `Strategy::sendData` does fail: a strategy answers an Interest for /1 with Data /2. -/
theorem C73_dishonest : ∃ st, run exEnv (init 10) [(st, .addFace 256 ⟨.loc, .p2p⟩), (st, .interest exI1 256)] = none := by
  refine ⟨fun _ t => match t with
    | .afterReceiveInterest _ f u => [.sendData u { exData with name := [exC 2] } f]
    | _ => [], ?_⟩
  rw [← Option.isNone_iff_eq_none]
  decide +kernel

/-- C73: the hypotheses are met by the example strategy and packets. -/
example : Honest exStrategy ∧ WellFormed (.interest exI1 257) ∧ WellFormed (.data { exData with digest := List.replicate 32 0 } 258) := by
  refine ⟨?_, ?_, ?_⟩
  · intro s t a ha
    cases t <;> simp [exStrategy] at ha <;> subst ha <;> simp
  · simp [WellFormed, Name.WF, Component.WF, exC, ttImplicitDigest, ttParamsDigest]
  · refine ⟨?_, by decide⟩
    simp [Name.WF, Component.WF, exC, ttImplicitDigest, ttParamsDigest]

end Verif.Fw
