import Verif.Fw.Cases

/-
Lemmas about incoming Data: which faces it is sent to, what happens to the entries and the Dead Nonce List.
-/
namespace Verif.Fw

open Tb (FaceId Time FwInterest InRec OutRec PitEntry NextHop)

variable {env : Env}

/-! ### What stays the same -/

/-- What matters of an entry for sending Data. -/
def view (e : Ent) : Nat × List InRec × FwInterest × Bool × Nat := (e.uid, e.ins, e.interest, e.satisfied, e.freshness)

/-- No change to what `view` shows, no Data sent. -/
structure Same (a b : St) : Prop where
  faces : b.faces = a.faces
  now : b.now = a.now
  pit : b.pit.map view = a.pit.map view
  sent : ∃ new, b.sent = a.sent ++ new ∧ ∀ g d, .data g d ∉ new

theorem Same.refl (a : St) : Same a a := ⟨rfl, rfl, rfl, [], by simp, by simp⟩

theorem Same.trans {a b c : St} (h : Same a b) (h' : Same b c) : Same a c := by
  obtain ⟨n, h1, h2⟩ := h.sent
  obtain ⟨m, g1, g2⟩ := h'.sent
  refine ⟨h'.faces.trans h.faces, h'.now.trans h.now, h'.pit.trans h.pit, n ++ m, by rw [g1, h1, List.append_assoc], ?_⟩
  intro g d hm
  rcases List.mem_append.1 hm with hm | hm
  · exact h2 g d hm
  · exact g2 g d hm

theorem map_mod {β : Type} {v : Ent → β} {s : St} {u : Nat} {f : Ent → Ent} (h : ∀ e, v (f e) = v e) :
    (s.mod u f).pit.map v = s.pit.map v := by
  simp only [St.mod, List.map_map]
  apply List.map_congr_left
  intro e _
  simp only [Function.comp]
  split
  · exact h e
  · rfl

theorem find_view {β : Type} {v : Ent → Nat × β} (hv : ∀ e, (v e).1 = e.uid) {a b : St} (h : b.pit.map v = a.pit.map v) (u : Nat) :
    (b.find u).map v = (a.find u).map v := by
  have key : ∀ l : List Ent, (l.find? (·.uid == u)).map v = (l.map v).find? (fun x => x.1 == u) := by
    intro l
    rw [List.find?_map]
    have : ((fun x : Nat × β => x.1 == u) ∘ v) = fun e => e.uid == u := by funext e; simp only [Function.comp, hv]
    rw [this]
  unfold St.find
  rw [key, key, h]

theorem same_timer (s : St) (u ms : Nat) : Same s (setExpiryTimer s u ms) := by
  refine ⟨(frame_timer ..).faces, (frame_timer ..).now, ?_, [], by simp [timer_sent], by simp⟩
  unfold setExpiryTimer
  split
  · rfl
  · exact map_mod (u := u) (f := fun e => { e with timer := some s.nextTimer }) (fun _ => rfl)

theorem same_act {s s' : St} {a : Action} (hq : Silent true a = true) (h : act s a = some s') : Same s s' := by
  cases a with
  | sendInterest u i g =>
    cases h
    unfold onOutgoingInterest
    split
    · split
      · exact .refl _
      · exact ⟨rfl, rfl, map_mod (u := u) (f := fun e => { e with toPitEntry := Tb.insertOrUpdateOut e.toPitEntry g i s.now }) (fun _ => rfl),
          [.interest g i], rfl, by simp⟩
    · exact .refl _
  | setExpiryTimer u ms => cases h; exact same_timer ..
  | _ => simp [Silent] at hq

theorem same_acts : ∀ {l : List Action} {s s' : St}, (∀ a ∈ l, Silent true a = true) → acts s l = some s' → Same s s'
  | [], s, s', _, h => by cases h; exact .refl _
  | a :: l, s, s', hq, h => by
    simp only [acts, Option.bind_eq_some_iff] at h
    obtain ⟨s1, h1, h2⟩ := h
    exact (same_act (hq a (List.mem_cons_self ..)) h1).trans (same_acts (fun b hb => hq b (List.mem_cons_of_mem _ hb)) h2)

theorem same_call {st : Strategy} {s s' : St} {t : Trigger} (hq : ∀ a ∈ st s t, Silent true a = true) (h : call st s t = some s') :
    Same s s' :=
  Same.trans (b := { s with calls := s.calls ++ [t] }) ⟨rfl, rfl, rfl, [], by simp, by simp⟩ (same_acts hq h)

theorem sent_dnl (s : St) (u : Nat) (f : Option FaceId) : (insertDeadNonceList env s u f).sent = s.sent ∧
    (insertDeadNonceList env s u f).pit = s.pit ∧ (insertDeadNonceList env s u f).faces = s.faces ∧
    (insertDeadNonceList env s u f).now = s.now := by
  obtain ⟨d, h⟩ := dnl_eq (env := env) s u f
  rw [h]; exact ⟨rfl, rfl, rfl, rfl⟩

/-! ### Sending Data -/

/-- Scope control lets Data `d` go to `g`. -/
def okFace (faces : FaceId → Option FaceInfo) (d : Data) (g : FaceId) : Bool :=
  (faces g).any (fun fi => !(fi.scope == .nonLocal && isLocalhost d.name))

theorem outgoingData_sent (s : St) (d : Data) (g : FaceId) :
    (onOutgoingData s d g).sent = s.sent ++ (if okFace s.faces d g then [.data g d] else []) := by
  unfold onOutgoingData okFace
  cases hf : s.faces g with
  | none => simp
  | some fi =>
    by_cases hc : fi.scope = .nonLocal ∧ isLocalhost d.name = true
    · simp [hc.1, hc.2]
    · simp only [if_neg hc, Option.any_some]
      have : (!(fi.scope == .nonLocal && isLocalhost d.name)) = true := by
        simp only [Bool.not_eq_true', Bool.and_eq_false_iff]
        rcases Classical.not_and_iff_not_or_not.1 hc with h | h
        · left; simpa using h
        · right; simpa using h
      simp [this]

theorem dataList_sent (d : Data) : ∀ (l : List FaceId) (s : St),
    (l.foldl (fun s g => onOutgoingData s d g) s).sent = s.sent ++ (l.filter (okFace s.faces d)).map (.data · d) ∧
    (l.foldl (fun s g => onOutgoingData s d g) s).pit = s.pit ∧ (l.foldl (fun s g => onOutgoingData s d g) s).dnl = s.dnl
  | [], s => ⟨by simp, rfl, rfl⟩
  | g :: l, s => by
    obtain ⟨h1, h2, h3⟩ := dataList_sent d l (onOutgoingData s d g)
    have hc := acted_data [] s d g
    refine ⟨?_, ?_, ?_⟩
    · simp only [List.foldl_cons]
      rw [h1, outgoingData_sent, hc.faces]
      by_cases ho : okFace s.faces d g = true
      · simp [ho]
      · simp [ho]
    · simp only [List.foldl_cons]
      rw [h2, pit_outgoingData]
    · simp only [List.foldl_cons]
      rw [h3, hc.dnl]

/-- What `sendData` leaves of an entry. -/
def viewOut (e : Ent) : Nat × FwInterest × List OutRec × Bool × Nat := (e.uid, e.interest, e.outs, e.satisfied, e.freshness)

theorem sendDataList_sent {u : Nat} {d : Data} : ∀ {l : List FaceId} {s s' : St}, (∃ e, s.find u = some e) →
    sendDataList u d s l = some s' →
    s'.sent = s.sent ++ (l.filter (okFace s.faces d)).map (.data · d) ∧ s'.pit.map viewOut = s.pit.map viewOut ∧ s'.dnl = s.dnl
  | [], s, s', _, h => by cases h; simp
  | g :: l, s, s', he, h => by
    obtain ⟨e, he⟩ := he
    simp only [sendDataList, sendData, he, Option.bind_eq_some_iff] at h
    obtain ⟨s1, h1, h2⟩ := h
    split at h1
    · obtain rfl := Option.some.inj h1
      have hfa := (acted_data [] (s.mod u (fun e => { e with toPitEntry := Tb.deleteIn e.toPitEntry g })) d g)
      have hp := pit_outgoingData (s.mod u (fun e => { e with toPitEntry := Tb.deleteIn e.toPitEntry g })) d g
      have hex : ∃ e, (onOutgoingData (s.mod u (fun e => { e with toPitEntry := Tb.deleteIn e.toPitEntry g })) d g).find u = some e := by
        unfold St.find
        rw [hp]
        have := mod_find_self (s := s) (u := u) (f := fun e => { e with toPitEntry := Tb.deleteIn e.toPitEntry g }) (fun _ => rfl)
        unfold St.find at this he
        rw [this, he]
        exact ⟨_, rfl⟩
      obtain ⟨h3, h4, h5⟩ := sendDataList_sent hex h2
      refine ⟨?_, ?_, ?_⟩
      · rw [h3, outgoingData_sent, hfa.faces]
        show (s.sent ++ if okFace s.faces d g = true then [Pkt.data g d] else []) ++ ((l.filter (okFace s.faces d)).map (.data · d)) = _
        by_cases ho : okFace s.faces d g = true
        · simp [ho]
        · simp [ho]
      · rw [h4, hp]
        exact map_mod (fun _ => rfl)
      · rw [h5, hfa.dnl]; rfl
    · cases h1

/-! ### Several entries -/

/-- The faces waiting in entry `u`. -/
def waiting (s : St) (u : Nat) : List FaceId :=
  ((s.find u).map (fun e => (e.ins.filter (fun r => decide (s.now < r.expiry))).map (·.face))).getD []

theorem waiting_congr {a b : St} (hn : b.now = a.now) {u : Nat} (h : (b.find u).map (·.ins) = (a.find u).map (·.ins)) :
    waiting b u = waiting a u := by
  unfold waiting
  rw [hn]
  have : ∀ o : Option Ent, o.map (fun e => (e.ins.filter (fun r => decide (a.now < r.expiry))).map (·.face)) =
      (o.map (·.ins)).map (fun l => (l.filter (fun r => decide (a.now < r.expiry))).map (·.face)) := by
    intro o; cases o <;> rfl
  rw [this, this, h]

theorem find_other {s : St} {u v : Nat} (hv : v ≠ u) {f : Ent → Ent} (hf : ∀ e, (f e).uid = e.uid) : (s.mod u f).find v = s.find v := by
  rw [mod_find hf]
  cases h : s.find v with
  | none => rfl
  | some e =>
    have : e.uid ≠ u := by rw [(find_some h).2]; exact hv
    simp [this]

theorem satisfyStep_spec {st : Strategy} (hst : PlainData st) {s : St} {d : Data} {f : FaceId} {u : Nat} {acc : List FaceId}
    {r : St × List FaceId} (h : satisfyStep env st s d f u acc = some r) :
    r.2 = acc ++ waiting s u ∧ r.1.faces = s.faces ∧ r.1.now = s.now ∧
    (∃ new, r.1.sent = s.sent ++ new ∧ ∀ g d, .data g d ∉ new) ∧
    r.1.pit.map (·.uid) = s.pit.map (·.uid) ∧
    (∀ v, v ≠ u → (r.1.find v).map view = (s.find v).map view) ∧
    (∀ e, r.1.find u = some e → e.satisfied = true ∧ e.freshness = d.freshness) := by
  unfold satisfyStep at h
  rw [Option.map_eq_some_iff] at h
  obtain ⟨s1, h1, rfl⟩ := h
  have hsame := (same_timer s u 0).trans (same_call (hst _ (.beforeSatisfyInterest d f u)) h1)
  obtain ⟨k1, k2, k3, k4⟩ := sent_dnl (env := env) (s1.mod u (fun e => { e with satisfied := true, freshness := d.freshness })) u (some f)
  obtain ⟨new, n1, n2⟩ := hsame.sent
  have huid : ∀ (a : St), (a.pit.map view).map (·.1) = a.pit.map (·.uid) := by intro a; rw [List.map_map]; rfl
  refine ⟨rfl, ?_, ?_, ⟨new, ?_, n2⟩, ?_, ?_, ?_⟩
  · exact k3.trans hsame.faces
  · exact k4.trans hsame.now
  · exact k1.trans n1
  · rw [mod_uids (by exact fun _ => rfl), k2, mod_uids (by exact fun _ => rfl), ← huid, ← huid, hsame.pit]
  · intro v hv
    simp only
    rw [find_other hv (by exact fun _ => rfl)]
    have : (insertDeadNonceList env (s1.mod u (fun e => { e with satisfied := true, freshness := d.freshness })) u (some f)).find v =
        s1.find v := by
      unfold St.find
      rw [k2]
      have := find_other (s := s1) hv (f := fun e => { e with satisfied := true, freshness := d.freshness }) (fun _ => rfl)
      unfold St.find at this
      exact this
    rw [this]
    exact find_view (fun _ => rfl) hsame.pit v
  · intro e he
    simp only at he
    rw [mod_find_self (by exact fun _ => rfl)] at he
    have : (insertDeadNonceList env (s1.mod u (fun e => { e with satisfied := true, freshness := d.freshness })) u (some f)).find u =
        (s1.find u).map (fun e => { e with satisfied := true, freshness := d.freshness }) := by
      unfold St.find
      rw [k2]
      have := mod_find_self (s := s1) (u := u) (f := fun e => { e with satisfied := true, freshness := d.freshness }) (fun _ => rfl)
      unfold St.find at this
      exact this
    rw [this] at he
    cases hc : s1.find u with
    | none => rw [hc] at he; simp at he
    | some e1 =>
      rw [hc] at he
      simp only [Option.map_some, Option.some.injEq] at he
      rw [← he]
      exact ⟨rfl, rfl⟩

theorem satisfyAll_spec {st : Strategy} (hst : PlainData st) {d : Data} {f : FaceId} : ∀ {us : List Nat} {s : St} {acc : List FaceId}
    {r : St × List FaceId}, us.Nodup → satisfyAll env st d f s us acc = some r →
    r.2 = acc ++ us.flatMap (waiting s) ∧ r.1.faces = s.faces ∧ r.1.now = s.now ∧
    (∃ new, r.1.sent = s.sent ++ new ∧ ∀ g d, .data g d ∉ new) ∧
    r.1.pit.map (·.uid) = s.pit.map (·.uid) ∧
    (∀ v, v ∉ us → (r.1.find v).map view = (s.find v).map view) ∧
    (∀ u ∈ us, ∀ e, r.1.find u = some e → e.satisfied = true ∧ e.freshness = d.freshness)
  | [], s, acc, r, _, h => by
    cases h
    exact ⟨by simp, rfl, rfl, ⟨[], by simp, by simp⟩, rfl, fun _ _ => rfl, by simp⟩
  | u :: us, s, acc, r, hn, h => by
    rw [List.nodup_cons] at hn
    simp only [satisfyAll, Option.bind_eq_some_iff] at h
    obtain ⟨r1, h1, h2⟩ := h
    obtain ⟨a1, a2, a3, ⟨n, a4, a4'⟩, a5, a6, a7⟩ := satisfyStep_spec hst h1
    obtain ⟨b1, b2, b3, ⟨m, b4, b4'⟩, b5, b6, b7⟩ := satisfyAll_spec hst hn.2 h2
    refine ⟨?_, b2.trans a2, b3.trans a3, ⟨n ++ m, by rw [b4, a4, List.append_assoc], ?_⟩, b5.trans a5, ?_, ?_⟩
    · rw [b1, a1, List.flatMap_cons, List.append_assoc]
      congr 2
      have : ∀ (us : List Nat), u ∉ us → us.flatMap (waiting r1.1) = us.flatMap (waiting s) := by
        intro us
        induction us with
        | nil => intro _; rfl
        | cons v us ih =>
          intro hv
          rw [List.mem_cons, not_or] at hv
          rw [List.flatMap_cons, List.flatMap_cons, ih hv.2]
          congr 1
          refine waiting_congr a3 ?_
          have := congrArg (Option.map (fun x : Nat × List InRec × FwInterest × Bool × Nat => x.2.1)) (a6 v (Ne.symm hv.1))
          simpa [Option.map_map, Function.comp_def, view] using this
      exact this us hn.1
    · intro g d hm
      rcases List.mem_append.1 hm with hm | hm
      · exact a4' g d hm
      · exact b4' g d hm
    · intro v hv
      rw [List.mem_cons, not_or] at hv
      rw [b6 v hv.2, a6 v hv.1]
    · intro v hv e he
      by_cases hvu : v ∈ us
      · exact b7 v hvu e he
      · have hvv : v = u := by
          rcases List.mem_cons.1 hv with h | h
          · exact h
          · exact absurd h hvu
        subst hvv
        have h3 := b6 v hvu
        rw [he] at h3
        cases hc : r1.1.find v with
        | none => rw [hc] at h3; simp at h3
        | some e1 =>
          rw [hc] at h3
          simp only [Option.map_some, Option.some.injEq, view, Prod.mk.injEq] at h3
          obtain ⟨-, -, -, h4, h5⟩ := h3
          obtain ⟨c1, c2⟩ := a7 e1 hc
          exact ⟨h4.trans c1, h5.trans c2⟩

/-! ### Counting -/

theorem count_data {l : List FaceId} (hn : l.Nodup) (g : FaceId) (d : Data) :
    (l.map (Pkt.data · d)).count (.data g d) = if g ∈ l then 1 else 0 := by
  induction l with
  | nil => simp
  | cons a l ih =>
    rw [List.nodup_cons] at hn
    rw [List.map_cons, List.count_cons, ih hn.2]
    by_cases ha : a = g
    · subst ha
      simp [hn.1]
    · have h1 : (Pkt.data a d == Pkt.data g d) = false := by simp [ha]
      rw [h1]
      have h2 : g ≠ a := fun h => ha h.symm
      simp [h2]

end Verif.Fw
