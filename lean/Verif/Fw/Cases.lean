import Verif.Fw.Flow
import Verif.Fw.Spec

/-
Lemmas for the properties: what strategy actions cannot change, and what happens to an incoming Interest, case by case.
-/
namespace Verif.Fw

open Tb (FaceId Time FwInterest InRec OutRec PitEntry NextHop)

variable {env : Env}

theorem localhost_iff {n : Name} : isLocalhost n = true ↔ UnderLocalhost n := by
  unfold isLocalhost UnderLocalhost
  unfold Name.isPrefixOf
  rw [List.isPrefixOf_iff_prefix]
  cases n with
  | nil => simp
  | cons a l => simp [eq_comm]

theorem eq_of_key {l : List Ent} (hn : (l.map (·.interest.toInterest)).Nodup) {a b : Ent} (ha : a ∈ l) (hb : b ∈ l)
    (h : a.interest.toInterest = b.interest.toInterest) : a = b := by
  induction l with
  | nil => simp at ha
  | cons x l ih =>
    rw [List.map_cons, List.nodup_cons] at hn
    rcases List.mem_cons.1 ha with ha | ha
    · rcases List.mem_cons.1 hb with hb | hb
      · rw [ha, hb]
      · exact absurd (List.mem_map.2 ⟨b, hb, by rw [← h, ha]⟩) hn.1
    · rcases List.mem_cons.1 hb with hb | hb
      · exact absurd (List.mem_map.2 ⟨a, ha, by rw [h, hb]⟩) hn.1
      · exact ih hn.2 ha hb

/-! ### Actions -/

/-- What actions leave alone, and where Interests and Nack packets come from. -/
structure Acted (l : List Action) (a b : St) : Prop where
  faces : b.faces = a.faces
  now : b.now = a.now
  cs : b.cs = a.cs
  dnl : b.dnl = a.dnl
  cfg : b.cfg = a.cfg
  calls : b.calls = a.calls
  nextUid : b.nextUid = a.nextUid
  sent : ∃ new, b.sent = a.sent ++ new ∧ ∀ g i, .interest g i ∈ new → ∃ u, .sendInterest u i g ∈ l

theorem Acted.refl (a : St) (l : List Action) : Acted l a a := ⟨rfl, rfl, rfl, rfl, rfl, rfl, rfl, [], by simp, by simp⟩

theorem Acted.mono {l l' : List Action} (h : ∀ x ∈ l, x ∈ l') {a b : St} (p : Acted l a b) : Acted l' a b := by
  obtain ⟨h1, h2, h3, h4, h5, h6, h7, n, h8, h9⟩ := p
  exact ⟨h1, h2, h3, h4, h5, h6, h7, n, h8, fun g i hm => (h9 g i hm).imp fun u hu => h _ hu⟩

theorem Acted.trans {l : List Action} {a b c : St} (p : Acted l a b) (q : Acted l b c) : Acted l a c := by
  obtain ⟨n, p1, p2⟩ := p.sent
  obtain ⟨m, q1, q2⟩ := q.sent
  refine ⟨q.faces.trans p.faces, q.now.trans p.now, q.cs.trans p.cs, q.dnl.trans p.dnl, q.cfg.trans p.cfg,
    q.calls.trans p.calls, q.nextUid.trans p.nextUid, n ++ m, by rw [q1, p1, List.append_assoc], ?_⟩
  intro g i h
  rcases List.mem_append.1 h with h | h
  · exact p2 g i h
  · exact q2 g i h

theorem acted_data (l : List Action) (s : St) (d : Data) (g : FaceId) : Acted l s (onOutgoingData s d g) := by
  unfold onOutgoingData
  split
  · exact .refl ..
  · split
    · exact .refl ..
    · exact ⟨rfl, rfl, rfl, rfl, rfl, rfl, rfl, [.data g d], rfl, by simp⟩

theorem acted_mod (l : List Action) (s : St) (u : Nat) (f : Ent → Ent) : Acted l s (s.mod u f) :=
  ⟨rfl, rfl, rfl, rfl, rfl, rfl, rfl, [], by simp [St.mod], by simp⟩

theorem acted_sendData {l : List Action} {s s' : St} {u : Nat} {d : Data} {g : FaceId} (h : sendData s u d g = some s') :
    Acted l s s' := by
  unfold sendData at h
  split at h
  · cases h; exact .refl ..
  · split at h
    · cases h
      exact (acted_mod l s u _).trans (acted_data ..)
    · cases h

theorem acted_sendDataList {l : List Action} {u : Nat} {d : Data} : ∀ {gs : List FaceId} {s s' : St},
    sendDataList u d s gs = some s' → Acted l s s'
  | [], s, s', h => by cases h; exact .refl ..
  | g :: gs, s, s', h => by
    simp only [sendDataList, Option.bind_eq_some_iff] at h
    obtain ⟨s1, h1, h2⟩ := h
    exact (acted_sendData h1).trans (acted_sendDataList h2)

theorem acted_interest (s : St) (u : Nat) (i : FwInterest) (g : FaceId) :
    Acted [.sendInterest u i g] s (onOutgoingInterest s u i g) := by
  unfold onOutgoingInterest
  split
  · split
    · exact .refl ..
    · refine ⟨rfl, rfl, rfl, rfl, rfl, rfl, rfl, [.interest g i], rfl, ?_⟩
      intro g' i' h
      simp only [List.mem_singleton, Pkt.interest.injEq] at h
      exact ⟨u, by simp [h.1, h.2]⟩
  · exact .refl ..

theorem acted_timer (l : List Action) (s : St) (u ms : Nat) : Acted l s (setExpiryTimer s u ms) := by
  unfold setExpiryTimer
  split
  · exact .refl ..
  · exact ⟨rfl, rfl, rfl, rfl, rfl, rfl, rfl, [], by simp [St.mod], by simp⟩

theorem acted_nack (l : List Action) (s : St) (u r : Nat) (g : FaceId) : Acted l s (onOutgoingNack s u r g) := by
  unfold onOutgoingNack
  split
  · exact .refl ..
  · split
    · exact .refl ..
    · split
      · exact .refl ..
      · exact ⟨rfl, rfl, rfl, rfl, rfl, rfl, rfl, [_], rfl, by simp⟩

theorem acted_nackPkt (l : List Action) (s : St) (i : FwInterest) (r : Nat) (g : FaceId) : Acted l s (sendNackPacket s i r g) := by
  unfold sendNackPacket
  split
  · exact .refl ..
  · exact ⟨rfl, rfl, rfl, rfl, rfl, rfl, rfl, [_], rfl, by simp⟩

theorem acted_act {s s' : St} {a : Action} (h : act s a = some s') : Acted [a] s s' := by
  cases a with
  | sendInterest u i g => cases h; exact acted_interest ..
  | sendData u d g => exact acted_sendData h
  | sendDataToAll u d f =>
    simp only [act, sendDataToAll] at h
    split at h
    · cases h; exact .refl ..
    · exact acted_sendDataList h
  | sendNack u r g => cases h; exact acted_nack ..
  | sendNackPacket i r g => cases h; exact acted_nackPkt ..
  | setExpiryTimer u ms => cases h; exact acted_timer ..

theorem acted_acts : ∀ {l : List Action} {s s' : St}, acts s l = some s' → Acted l s s'
  | [], s, s', h => by cases h; exact .refl ..
  | a :: l, s, s', h => by
    simp only [acts, Option.bind_eq_some_iff] at h
    obtain ⟨s1, h1, h2⟩ := h
    exact ((acted_act h1).mono (by simp)).trans ((acted_acts h2).mono (fun x hx => List.mem_cons_of_mem _ hx))

/-- A strategy call adds its trigger to the log of calls; everything else is the actions'. -/
theorem acted_call {st : Strategy} {s s' : St} {t : Trigger} (h : call st s t = some s') :
    Acted (st s t) { s with calls := s.calls ++ [t] } s' := acted_acts h

/-! ### Looping Interests -/

theorem isDuplicate_iff {e : Ent} {n : Nat} {f : FaceId} {l : Link} :
    isDuplicate l (findDuplicateNonce e.toPitEntry n f) = true ↔ NonceLoops e n f l := by
  have hs : ((findDuplicateNonce e.toPitEntry n f).inSame = true) ↔ ∃ r ∈ e.ins, r.face = f ∧ r.nonce = n := by
    simp only [findDuplicateNonce, List.any_eq_true, Bool.and_eq_true, beq_iff_eq]
    exact ⟨fun ⟨r, h1, h2, h3⟩ => ⟨r, h1, h3, h2⟩, fun ⟨r, h1, h2, h3⟩ => ⟨r, h1, h3, h2⟩⟩
  have hd : (((findDuplicateNonce e.toPitEntry n f).inSame || (findDuplicateNonce e.toPitEntry n f).inOther ||
      (findDuplicateNonce e.toPitEntry n f).outSame || (findDuplicateNonce e.toPitEntry n f).outOther) = true) ↔
      ((∃ r ∈ e.ins, r.nonce = n) ∨ ∃ r ∈ e.outs, r.nonce = n) := by
    simp only [findDuplicateNonce, List.any_eq_true, Bool.and_eq_true, beq_iff_eq, Bool.or_eq_true, bne_iff_ne, ne_eq]
    constructor
    · rintro (((⟨r, h1, h2, -⟩ | ⟨r, h1, h2, -⟩) | ⟨r, h1, h2, -⟩) | ⟨r, h1, h2, -⟩)
      · exact Or.inl ⟨r, h1, h2⟩
      · exact Or.inl ⟨r, h1, h2⟩
      · exact Or.inr ⟨r, h1, h2⟩
      · exact Or.inr ⟨r, h1, h2⟩
    · rintro (⟨r, h1, h2⟩ | ⟨r, h1, h2⟩)
      · by_cases h3 : r.face = f
        · exact Or.inl (Or.inl (Or.inl ⟨r, h1, h2, h3⟩))
        · exact Or.inl (Or.inl (Or.inr ⟨r, h1, h2, h3⟩))
      · by_cases h3 : r.face = f
        · exact Or.inl (Or.inr ⟨r, h1, h2, h3⟩)
        · exact Or.inr ⟨r, h1, h2, h3⟩
  unfold isDuplicate NonceLoops
  rw [← hs, ← hd]
  by_cases hl : l = .p2p
  · simp only [hl, if_true, Bool.and_eq_true, Bool.not_eq_true', true_and, Bool.not_eq_true]
  · simp only [if_neg hl]
    exact ⟨fun h => ⟨h, fun c => hl c.1⟩, fun h => h.1⟩

theorem stripHint_key (c : Config) (i : FwInterest) : (stripHint c i).toInterest = i.toInterest := by unfold stripHint; split <;> rfl
theorem stripHint_nonce (c : Config) (i : FwInterest) : (stripHint c i).nonce = i.nonce := by unfold stripHint; split <;> rfl
theorem stripHint_hop (c : Config) (i : FwInterest) : (stripHint c i).hopLimit = i.hopLimit := by unfold stripHint; split <;> rfl
theorem stripHint_nextHop (c : Config) (i : FwInterest) : (stripHint c i).nextHop = i.nextHop := by unfold stripHint; split <;> rfl
theorem stripHint_name (c : Config) (i : FwInterest) : (stripHint c i).name = i.name := by unfold stripHint; split <;> rfl
theorem stripHint_lifetime (c : Config) (i : FwInterest) : (stripHint c i).lifetime = i.lifetime := by unfold stripHint; split <;> rfl

theorem addHop_hop (c : Config) (i : FwInterest) : (addHop c (stripHint c (decHop i))).hopLimit = leavesWith c i.hopLimit := by
  have h1 : (stripHint c (decHop i)).hopLimit = i.hopLimit.map (· - 1) := stripHint_hop ..
  unfold addHop leavesWith
  cases h : i.hopLimit with
  | none =>
    rw [h] at h1
    rw [h1]
    by_cases hc : 0 < c.defaultHopLimit
    · simp [hc]
    · simp [hc, h1]
  | some n => rw [h] at h1; simp [h1]

/-- An Interest that was not dropped, in the state `lookupInterest` sees. -/
theorem pit_loops {s : St} (hi : Inv s) {i : FwInterest} {f : FaceId} {l : Link} :
    isDuplicate l (findDuplicateNonce (pitInsert s i).2.1.toPitEntry i.nonce f) = true ↔
      ∃ e ∈ s.pit, e.interest.toInterest = i.toInterest ∧ NonceLoops e i.nonce f l := by
  rw [isDuplicate_iff]
  unfold pitInsert
  split
  · rename_i e he
    obtain ⟨h1, h2⟩ := pitFind_some he
    constructor
    · intro h; exact ⟨e, h1, h2, h⟩
    · rintro ⟨e', h1', h2', h⟩
      have : e' = e := eq_of_key hi.keys h1' h1 (h2'.trans h2.symm)
      rw [← this]; exact h
  · rename_i he
    constructor
    · intro h
      obtain ⟨h, -⟩ := h
      simp at h
    · rintro ⟨e', h1', h2', h⟩
      exact absurd h2' (pitFind_none he e' h1')

/-- The state in which a missed Interest is processed further: recorded in the PIT. -/
def recorded (s : St) (i : FwInterest) (f : FaceId) (cs : Cs.Cs) : St :=
  recordInterest { (pitInsert s i).1 with cs := cs, ctr := { s.ctr with nCsMisses := s.ctr.nCsMisses + 1 } } i f (pitInsert s i).2.1.uid (pitInsert s i).2.2

/-- The state in which a cached Data is returned. -/
def answered (s : St) (i : FwInterest) (d : Data) (cs : Cs.Cs) : St :=
  setExpiryTimer (St.mod { (pitInsert s i).1 with cs := cs, ctr := { s.ctr with nCsHits := s.ctr.nCsHits + 1 } } (pitInsert s i).2.1.uid
    (fun e => { e with satisfied := true, freshness := d.freshness })) (pitInsert s i).2.1.uid 0

/-- The state in which the forwarder works on an incoming Interest. -/
abbrev counted (s : St) : St := { s with ctr := { s.ctr with nInInterests := s.ctr.nInInterests + 1 } }

theorem insert_ctr (s : St) (i : FwInterest) : (pitInsert s i).1.ctr = s.ctr := by unfold pitInsert; split <;> rfl
theorem insert_cs (s : St) (i : FwInterest) : (pitInsert s i).1.cs = s.cs := by unfold pitInsert; split <;> rfl

inductive Outcome (env : Env) (st : Strategy) (s : St) (i : FwInterest) (f : FaceId) (fi : FaceInfo) (s' : St) : Prop
  | loop (j : FwInterest) (hl : Looping env s i f fi.link) (hj : j = decHop i ∨ j = stripHint s.cfg (decHop i))
      (h : onInterestLoop st (counted s) j f fi = some s')
  | hit (hl : ¬Looping env s i f fi.link) (c : Cs.Cs) (d : Data)
      (he : ∀ e ∈ s.pit, e.interest.toInterest = i.toInterest → e.ins = [])
      (hc : s.cs.find i.toInterest = some (c, some d))
      (h : call st (answered (counted s) (stripHint s.cfg (decHop i)) d c)
        (.afterContentStoreHit d f (pitInsert (counted s) (stripHint s.cfg (decHop i))).2.1.uid) = some s')
  | direct (hl : ¬Looping env s i f fi.link) (c : Cs.Cs) (hc : (c = s.cs ∧ ∃ e ∈ s.pit, e.interest.toInterest = i.toInterest ∧ e.ins ≠ []) ∨ s.cs.find i.toInterest = some (c, none)) (g : FaceId)
      (hg : i.nextHop = some g)
      (h : s' = if (s.faces g).isSome then
          onOutgoingInterest (recorded (counted s) (stripHint s.cfg (decHop i)) f c)
            (pitInsert (counted s) (stripHint s.cfg (decHop i))).2.1.uid (addHop s.cfg (stripHint s.cfg (decHop i))) g
        else recorded (counted s) (stripHint s.cfg (decHop i)) f c)
  | pass (hl : ¬Looping env s i f fi.link) (c : Cs.Cs) (hc : (c = s.cs ∧ ∃ e ∈ s.pit, e.interest.toInterest = i.toInterest ∧ e.ins ≠ []) ∨ s.cs.find i.toInterest = some (c, none))
      (hg : i.nextHop = none)
      (h : call st (recorded (counted s) (stripHint s.cfg (decHop i)) f c)
        (.afterReceiveInterest (addHop s.cfg (stripHint s.cfg (decHop i))) f
          (pitInsert (counted s) (stripHint s.cfg (decHop i))).2.1.uid) = some s')

theorem record_frame (s : St) (i : FwInterest) (f : FaceId) (u : Nat) (b : Bool) : Acted [] s (recordInterest s i f u b) := by
  unfold recordInterest
  exact (acted_mod [] s u _).trans (acted_timer ..)

theorem insert_frame (s : St) (i : FwInterest) :
    (pitInsert s i).1.faces = s.faces ∧ (pitInsert s i).1.now = s.now ∧ (pitInsert s i).1.cs = s.cs ∧ (pitInsert s i).1.dnl = s.dnl ∧
    (pitInsert s i).1.cfg = s.cfg ∧ (pitInsert s i).1.calls = s.calls ∧ (pitInsert s i).1.sent = s.sent := by
  unfold pitInsert; split <;> exact ⟨rfl, rfl, rfl, rfl, rfl, rfl, rfl⟩

structure Rest (a b : St) : Prop where
  faces : b.faces = a.faces
  now : b.now = a.now
  dnl : b.dnl = a.dnl
  cfg : b.cfg = a.cfg
  calls : b.calls = a.calls
  sent : b.sent = a.sent

theorem timer_sent (s : St) (u ms : Nat) : (setExpiryTimer s u ms).sent = s.sent := by unfold setExpiryTimer; split <;> rfl

theorem recorded_frame (s : St) (i : FwInterest) (f : FaceId) (c : Cs.Cs) : Rest s (recorded s i f c) ∧ (recorded s i f c).cs = c := by
  obtain ⟨h1, h2, h3, h4, h5, h6, h7⟩ := insert_frame s i
  unfold recorded
  have h := record_frame { (pitInsert s i).1 with cs := c, ctr := { s.ctr with nCsMisses := s.ctr.nCsMisses + 1 } } i f
    (pitInsert s i).2.1.uid (pitInsert s i).2.2
  refine ⟨⟨h.faces.trans h1, h.now.trans h2, h.dnl.trans h4, h.cfg.trans h5, h.calls.trans h6, ?_⟩, h.cs⟩
  unfold recordInterest
  exact (timer_sent ..).trans h7

theorem answered_frame (s : St) (i : FwInterest) (d : Data) (c : Cs.Cs) : Rest s (answered s i d c) ∧ (answered s i d c).cs = c := by
  obtain ⟨h1, h2, h3, h4, h5, h6, h7⟩ := insert_frame s i
  unfold answered
  have h := acted_timer [] (St.mod { (pitInsert s i).1 with cs := c, ctr := { s.ctr with nCsHits := s.ctr.nCsHits + 1 } } (pitInsert s i).2.1.uid
    (fun e => { e with satisfied := true, freshness := d.freshness })) (pitInsert s i).2.1.uid 0
  exact ⟨⟨h.faces.trans h1, h.now.trans h2, h.dnl.trans h4, h.cfg.trans h5, h.calls.trans h6, (timer_sent ..).trans h7⟩, h.cs⟩

theorem miss_cases {st : Strategy} {s s' : St} {i : FwInterest} {f : FaceId} {c : Cs.Cs}
    (h : onContentStoreMiss st { (pitInsert s i).1 with cs := c } i f (pitInsert s i).2.1.uid (pitInsert s i).2.2 = some s') :
    (∃ g, i.nextHop = some g ∧ s' = if (s.faces g).isSome then
        onOutgoingInterest (recorded s i f c) (pitInsert s i).2.1.uid (addHop s.cfg i) g else recorded s i f c) ∨
    (i.nextHop = none ∧ call st (recorded s i f c) (.afterReceiveInterest (addHop s.cfg i) f (pitInsert s i).2.1.uid) = some s') := by
  unfold onContentStoreMiss at h
  simp only [insert_ctr] at h
  obtain ⟨hf, -⟩ := recorded_frame s i f c
  change (match (addHop (recorded s i f c).cfg i).nextHop with
    | some g => some (if ((recorded s i f c).faces g).isSome then
        onOutgoingInterest (recorded s i f c) (pitInsert s i).2.1.uid (addHop (recorded s i f c).cfg i) g else recorded s i f c)
    | none => call st (recorded s i f c) (.afterReceiveInterest (addHop (recorded s i f c).cfg i) f (pitInsert s i).2.1.uid)) = some s' at h
  rw [hf.cfg, hf.faces, addHop_nextHop] at h
  split at h
  · rename_i g hg
    exact Or.inl ⟨g, hg, (Option.some.inj h).symm⟩
  · rename_i hg
    exact Or.inr ⟨hg, h⟩

theorem interest_outcome {st : Strategy} {s s' : St} (hi : Inv s) {i : FwInterest} {f : FaceId} {fi : FaceInfo}
    (hf : s.faces f = some fi) (ha : Admissible i fi) (h : step env st s (.interest i f) = some s') :
    Outcome env st s i f fi s' := by
  simp only [step, onIncomingInterest, hf, if_neg ha.1] at h
  have hs : ¬(fi.scope = .nonLocal ∧ isLocalhost (decHop i).name = true) := by
    rw [localhost_iff]; exact ha.2
  rw [if_neg hs] at h
  split at h
  · rename_i hd
    exact .loop _ (Or.inl hd) (Or.inl rfl) h
  · rename_i hd
    unfold lookupInterest at h
    simp only at h
    have hloop : isDuplicate fi.link (findDuplicateNonce (pitInsert (counted s) (stripHint s.cfg (decHop i))).2.1.toPitEntry
        (stripHint s.cfg (decHop i)).nonce f) = true ↔
        ∃ e ∈ s.pit, e.interest.toInterest = i.toInterest ∧ NonceLoops e i.nonce f fi.link := by
      rw [pit_loops (s := counted s) (InvX.congr hi rfl rfl rfl rfl rfl), stripHint_key, stripHint_nonce]
      exact Iff.rfl
    split at h
    · rename_i hdup
      rw [insert_of_dup (s := counted s) hdup] at h
      exact .loop _ (Or.inr (hloop.1 hdup)) (Or.inr rfl) h
    · rename_i hdup
      have hnl : ¬Looping env s i f fi.link := by
        rintro (hl | hl)
        · exact hd hl
        · exact hdup (hloop.2 hl)
      have finish : ∀ c, ((c = s.cs ∧ ∃ e ∈ s.pit, e.interest.toInterest = i.toInterest ∧ e.ins ≠ []) ∨ s.cs.find i.toInterest = some (c, none)) →
          onContentStoreMiss st { (pitInsert (counted s) (stripHint s.cfg (decHop i))).1 with cs := c } (stripHint s.cfg (decHop i)) f
            (pitInsert (counted s) (stripHint s.cfg (decHop i))).2.1.uid (pitInsert (counted s) (stripHint s.cfg (decHop i))).2.2 = some s' →
          Outcome env st s i f fi s' := by
        intro c hc h
        rcases miss_cases h with ⟨g, hg, he⟩ | ⟨hg, he⟩
        · rw [stripHint_nextHop] at hg
          exact .direct hnl c hc g hg he
        · rw [stripHint_nextHop] at hg
          exact .pass hnl c hc hg he
      split at h
      · rename_i hemp
        rw [Option.bind_eq_some_iff] at h
        obtain ⟨⟨c, o⟩, hc, h⟩ := h
        have hc' : s.cs.find i.toInterest = some (c, o) := by
          rw [insert_cs, stripHint_key] at hc; exact hc
        cases o with
        | none => exact finish c (Or.inr hc') h
        | some d =>
          simp only at h
          unfold onContentStoreHit at h
          simp only [insert_ctr] at h
          refine .hit hnl c d ?_ hc' h
          intro e he hk
          have hins := hemp
          unfold pitInsert at hins
          split at hins
          · rename_i e' he'
            obtain ⟨h1, h2⟩ := pitFind_some he'
            rw [stripHint_key] at h2
            have : e = e' := eq_of_key hi.keys he h1 (hk.trans h2.symm)
            rw [this]
            simpa using hins
          · rename_i he'
            exact absurd (hk.trans (stripHint_key s.cfg (decHop i)).symm) (pitFind_none he' e he)
      · rename_i hemp
        refine finish s.cs (Or.inl ⟨rfl, ?_⟩) ?_
        · unfold pitInsert at hemp
          split at hemp
          · rename_i e' he'
            obtain ⟨h1, h2⟩ := pitFind_some he'
            exact ⟨e', h1, h2.trans (stripHint_key ..), by simpa using hemp⟩
          · simp at hemp
        have : (pitInsert (counted s) (stripHint s.cfg (decHop i))).1 =
            { (pitInsert (counted s) (stripHint s.cfg (decHop i))).1 with cs := s.cs } := by
          have := insert_cs (counted s) (stripHint s.cfg (decHop i))
          show _ = _
          conv => lhs; rw [show (pitInsert (counted s) (stripHint s.cfg (decHop i))).1 = { (pitInsert (counted s) (stripHint s.cfg (decHop i))).1 with cs := (pitInsert (counted s) (stripHint s.cfg (decHop i))).1.cs } from rfl]
          rw [this]
        rw [← this]
        exact h

theorem timer_find {s : St} (u ms v : Nat) : ((setExpiryTimer s u ms).find v).isSome = (s.find v).isSome := by
  unfold setExpiryTimer
  split
  · rfl
  · show (St.find (s.mod u fun e => { e with timer := some s.nextTimer }) v).isSome = _
    rw [mod_find (by exact fun _ => rfl)]
    simp

theorem recorded_find {s : St} (hi : Inv s) (i : FwInterest) (f : FaceId) (c : Cs.Cs) :
    ∃ e, (recorded s i f c).find (pitInsert s i).2.1.uid = some e := by
  obtain ⟨h1, -, -, -, -, h2⟩ := insert_spec hi i
  have h3 : (pitInsert s i).1.find (pitInsert s i).2.1.uid = some (pitInsert s i).2.1 := find_mem h2.uids h1
  rw [← Option.isSome_iff_exists]
  unfold recorded recordInterest
  rw [timer_find, mod_find (by exact fun _ => rfl)]
  rw [Option.isSome_map]
  show ((pitInsert s i).1.find (pitInsert s i).2.1.uid).isSome = true
  rw [h3]; rfl

end Verif.Fw
