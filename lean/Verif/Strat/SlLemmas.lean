import Verif.Strat.Sl
import Verif.Strat.Sends
import Verif.Fw.DataProps

/-
Where out-records come from when the self-learning strategy is in charge.
-/
namespace Verif.Strat.Sl

open Fw
open Tb (FaceId Time FwInterest InRec OutRec PitEntry NextHop)

variable {env : Env} {N : Nat → Interest → FaceId → Prop}

/-- Every out-record of `b` belongs to a face that had one in the same entry in `a`, or satisfies `N`. -/
def Outs (N : Nat → Interest → FaceId → Prop) (a b : St) : Prop :=
  ∀ e' ∈ b.pit, ∀ r ∈ e'.outs,
    (∃ e ∈ a.pit, e.uid = e'.uid ∧ e.interest.toInterest = e'.interest.toInterest ∧ ∃ r0 ∈ e.outs, r0.face = r.face) ∨
    N e'.uid e'.interest.toInterest r.face

theorem Outs.of_pit {a b : St} (h : b.pit = a.pit) : Outs N a b := by
  intro e he r hr; rw [h] at he; exact Or.inl ⟨e, he, rfl, rfl, r, hr, rfl⟩

theorem Outs.trans {a b c : St} (h : Outs N a b) (h' : Outs N b c) : Outs N a c := by
  intro e he r hr
  rcases h' e he r hr with ⟨e1, h1, h2, h3, r1, h4, h5⟩ | hp
  · rcases h e1 h1 r1 h4 with ⟨e0, g1, g2, g3, r0, g4, g5⟩ | hp
    · exact Or.inl ⟨e0, g1, g2.trans h2, g3.trans h3, r0, g4, g5.trans h5⟩
    · rw [h2, h3, h5] at hp; exact Or.inr hp
  · exact Or.inr hp

theorem Outs.mono {M : Nat → Interest → FaceId → Prop} (hm : ∀ u k g, N u k g → M u k g) {a b : St} (h : Outs N a b) : Outs M a b := by
  intro e he r hr
  exact (h e he r hr).imp_right (hm _ _ _)

theorem outs_mod {s s' : St} {u : Nat} {f : Ent → Ent} (hp : s'.pit = (s.mod u f).pit) (hu : ∀ e, (f e).uid = e.uid)
    (hk : ∀ e ∈ s.pit, e.uid = u → (f e).interest.toInterest = e.interest.toInterest)
    (hs : ∀ e ∈ s.pit, e.uid = u → ∀ r ∈ (f e).outs, (∃ r0 ∈ e.outs, r0.face = r.face) ∨ N u e.interest.toInterest r.face) : Outs N s s' := by
  intro e he r hr
  rw [hp] at he
  obtain ⟨e0, h0, rfl⟩ := mem_mod.1 he
  by_cases hc : e0.uid = u
  · rw [if_pos hc] at hr ⊢
    rcases hs e0 h0 hc r hr with h | h
    · exact Or.inl ⟨e0, h0, (hu e0).symm, (hk e0 h0 hc).symm, h⟩
    · rw [hu, hk e0 h0 hc, hc]; exact Or.inr h
  · rw [if_neg hc] at hr ⊢
    exact Or.inl ⟨e0, h0, rfl, rfl, r, hr, rfl⟩

theorem outs_timer (s : St) (u ms : Nat) : Outs N s (setExpiryTimer s u ms) := by
  unfold setExpiryTimer
  split
  · exact .of_pit rfl
  · exact outs_mod (u := u) (f := fun e => { e with timer := some s.nextTimer }) rfl (fun _ => rfl) (fun _ _ _ => rfl)
      (fun _ _ _ r h => Or.inl ⟨r, h, rfl⟩)

theorem outs_insert (s : St) (i : FwInterest) : Outs N s (pitInsert s i).1 := by
  unfold pitInsert
  split
  · exact .of_pit rfl
  · intro e he r hr
    rcases List.mem_append.1 he with he | he
    · exact Or.inl ⟨e, he, rfl, rfl, r, hr, rfl⟩
    · rw [List.mem_singleton] at he; subst he; simp at hr

theorem outs_recorded {s : St} (hi : Inv s) (i : FwInterest) (f : FaceId) (c : Cs.Cs) : Outs N s (recorded s i f c) := by
  obtain ⟨h1, h2, -, -, -, h6⟩ := insert_spec hi i
  refine (outs_insert s i).trans ?_
  unfold recorded recordInterest
  dsimp only
  refine Outs.trans (b := St.mod { (pitInsert s i).1 with cs := c, ctr := { s.ctr with nCsMisses := s.ctr.nCsMisses + 1 } }
    (pitInsert s i).2.1.uid _) ?_ (outs_timer _ _ _)
  refine outs_mod (u := (pitInsert s i).2.1.uid) rfl (fun _ => rfl) ?_ (fun _ _ _ r h => Or.inl ⟨r, h, rfl⟩)
  intro e he hu
  have : e = (pitInsert s i).2.1 := eq_of_uid h6.uids he h1 hu
  show FwInterest.toInterest (if _ then _ else _) = _
  split
  · rw [addHop_key, this, h2]
  · rfl

theorem outs_answered (s : St) (i : FwInterest) (d : Data) (c : Cs.Cs) : Outs N s (answered s i d c) := by
  refine (outs_insert s i).trans ?_
  unfold answered
  refine Outs.trans (b := St.mod { (pitInsert s i).1 with cs := c, ctr := { s.ctr with nCsHits := s.ctr.nCsHits + 1 } }
    (pitInsert s i).2.1.uid _) ?_ (outs_timer _ _ _)
  exact outs_mod (u := (pitInsert s i).2.1.uid) rfl (fun _ => rfl) (fun _ _ _ => rfl) (fun _ _ _ r h => Or.inl ⟨r, h, rfl⟩)

theorem outs_nack (s : St) (u r : Nat) (g : FaceId) : Outs N s (onOutgoingNack s u r g) := by
  rcases outgoingNack_cases s u r g with he | ⟨fi, e, rec, -, -, -, -, -, hp, -⟩
  · rw [he]; exact .of_pit rfl
  · exact outs_mod hp (fun _ => rfl) (fun _ _ _ => rfl) (fun _ _ _ r h => Or.inl ⟨r, h, rfl⟩)

theorem outs_sendData {s s' : St} {u : Nat} {d : Data} {g : FaceId} (h : sendData s u d g = some s') : Outs N s s' := by
  unfold sendData at h
  split at h
  · cases h; exact .of_pit rfl
  · split at h
    · cases h
      refine Outs.trans (b := s.mod u (fun e => { e with toPitEntry := Tb.deleteIn e.toPitEntry g })) ?_ (.of_pit (pit_outgoingData _ _ _))
      exact outs_mod rfl (fun _ => rfl) (fun _ _ _ => rfl) (fun _ _ _ r h => Or.inl ⟨r, h, rfl⟩)
    · cases h

theorem outs_sendDataList {u : Nat} {d : Data} : ∀ {gs : List FaceId} {s s' : St}, sendDataList u d s gs = some s' → Outs N s s'
  | [], s, s', h => by cases h; exact .of_pit rfl
  | g :: gs, s, s', h => by
    simp only [sendDataList, Option.bind_eq_some_iff] at h
    obtain ⟨s1, h1, h2⟩ := h
    exact (outs_sendData h1).trans (outs_sendDataList h2)

/-- Not an Interest. -/
def NoAsk : Action → Prop
  | .sendInterest .. => False
  | _ => True

theorem outs_act {s s' : St} {a : Action} (ha : NoAsk a) (h : act s a = some s') : Outs N s s' := by
  cases a with
  | sendInterest => exact ha.elim
  | sendData => exact outs_sendData h
  | sendDataToAll =>
    simp only [act, sendDataToAll] at h
    split at h
    · cases h; exact .of_pit rfl
    · exact outs_sendDataList h
  | sendNack => cases h; exact outs_nack _ _ _ _
  | sendNackPacket i r g =>
    cases h
    unfold sendNackPacket
    split <;> exact .of_pit rfl
  | setExpiryTimer => cases h; exact outs_timer _ _ _

theorem outs_acts : ∀ {l : List Action} {s s' : St}, (∀ a ∈ l, NoAsk a) → acts s l = some s' → Outs N s s'
  | [], s, s', _, h => by cases h; exact .of_pit rfl
  | a :: l, s, s', hl, h => by
    simp only [acts, Option.bind_eq_some_iff] at h
    obtain ⟨s1, h1, h2⟩ := h
    exact (outs_act (hl a List.mem_cons_self) h1).trans (outs_acts (fun b hb => hl b (List.mem_cons_of_mem _ hb)) h2)

theorem outs_call {st : Strategy} {s s' : St} {t : Trigger} (hl : ∀ a ∈ st s t, NoAsk a) (h : call st s t = some s') : Outs N s s' :=
  Outs.trans (b := { s with calls := s.calls ++ [t] }) (.of_pit rfl) (outs_acts hl h)

/-- Interests for one entry: the new out-records are those of faces to which packets went. -/
theorem outs_sends {u : Nat} (j : FwInterest) : ∀ (gs : List FaceId) (r r' : St) (e : Ent), r.find u = some e → (r.pit.map (·.uid)).Nodup →
    acts r (gs.map (fun g => .sendInterest u j g)) = some r' →
    Outs (fun v k g => v = u ∧ k = e.interest.toInterest ∧ .interest g j ∈ gs.flatMap (wire r.faces j)) r r'
  | [], r, r', e, he, hn, h => by cases h; exact .of_pit rfl
  | g :: gs, r, r', e, he, hn, h => by
    have h1 := sent_interest he j g
    obtain ⟨e', he', -, hk⟩ := h1.ents e he
    have hn' : ((onOutgoingInterest r u j g).pit.map (·.uid)).Nodup := by
      have : (onOutgoingInterest r u j g).pit.map (·.uid) = r.pit.map (·.uid) := by
        unfold onOutgoingInterest
        split
        · split
          · rfl
          · exact mod_uids (by exact fun _ => rfl)
        · rfl
      rw [this]; exact hn
    have h2 := outs_sends j gs _ r' e' he' hn' h
    rw [h1.faces, hk] at h2
    refine Outs.trans ?_ (h2.mono ?_)
    · unfold onOutgoingInterest
      cases hg : r.faces g with
      | none => exact .of_pit rfl
      | some gi =>
        simp only [he]
        split
        · exact .of_pit rfl
        · rename_i hc
          refine outs_mod (u := u) (f := fun e => { e with toPitEntry := Tb.insertOrUpdateOut e.toPitEntry g j r.now }) rfl (fun _ => rfl)
            (fun _ _ _ => rfl) ?_
          intro x hx hu y hy
          rcases mem_insertOut hy with ⟨hy, -⟩ | ⟨hy, -⟩
          · exact Or.inl ⟨y, hy, rfl⟩
          · refine Or.inr ⟨rfl, ?_, ?_⟩
            · obtain ⟨e1, e2⟩ := find_some he
              rw [eq_of_uid hn hx e1 (hu.trans e2.symm)]
            · rw [hy, List.flatMap_cons]
              refine List.mem_append_left _ ?_
              unfold wire
              rw [hg]
              dsimp only
              rw [if_neg hc]
              exact List.mem_singleton.2 rfl
    · rintro v k x ⟨a, b, c⟩
      exact ⟨a, b, by rw [List.flatMap_cons]; exact List.mem_append_right _ c⟩

/-! ### Whole events without Interests -/

theorem outs_dnl (s : St) (u : Nat) (f : Option FaceId) : Outs N s (insertDeadNonceList env s u f) := by
  unfold insertDeadNonceList
  split
  · exact .of_pit rfl
  · split <;> exact .of_pit rfl

theorem outs_data {st : Strategy} (hst : ∀ s t, (∀ i f u, t ≠ .afterReceiveInterest i f u) → ∀ a ∈ st s t, NoAsk a) {s s' : St} {d : Data} {f : FaceId}
    (h : step env st s (.data d f) = some s') : Outs N s s' := by
  simp only [step, onIncomingData] at h
  split at h
  · cases h; exact .of_pit rfl
  · split at h
    · cases h; exact .of_pit rfl
    · split at h
      · unfold onDataUnsolicited at h
        dsimp only at h
        split at h
        · rw [Option.map_eq_some_iff] at h
          obtain ⟨c, -, rfl⟩ := h
          exact .of_pit rfl
        · cases h; exact .of_pit rfl
      · rename_i u _
        rw [Option.bind_eq_some_iff] at h
        obtain ⟨c, -, h⟩ := h
        unfold satisfyOne at h
        rw [Option.map_eq_some_iff] at h
        obtain ⟨s1, h1, rfl⟩ := h
        refine Outs.trans (b := { s with cs := c, ctr := { s.ctr with nInData := s.ctr.nInData + 1 } }) (.of_pit rfl) ?_
        refine (outs_timer _ u 0).trans ((outs_call (hst _ _ (by intros; simp)) h1).trans ?_)
        unfold satisfyEntry
        dsimp only
        refine Outs.trans (b := s1.mod u (fun e => { e with satisfied := true, freshness := d.freshness })) ?_ ((outs_dnl (env := env) _ u (some f)).trans ?_)
        · exact outs_mod rfl (fun _ => rfl) (fun _ _ _ => rfl) (fun _ _ _ r h => Or.inl ⟨r, h, rfl⟩)
        · exact outs_mod rfl (fun _ => rfl) (fun _ _ _ => rfl) (fun _ _ _ r h => Or.inl ⟨r, mem_deleteOut h, rfl⟩)
      · rw [Option.bind_eq_some_iff] at h
        obtain ⟨c, -, h⟩ := h
        unfold satisfyMany at h
        rw [Option.map_eq_some_iff] at h
        obtain ⟨r, h1, rfl⟩ := h
        refine Outs.trans (b := { s with cs := c, ctr := { s.ctr with nInData := s.ctr.nInData + 1 } }) (.of_pit rfl) ?_
        refine Outs.trans (b := r.1) ?_ (.of_pit (dataList_sent d _ r.1).2.1)
        have key : ∀ (us : List Nat) (s : St) (acc : List FaceId) (r : St × List FaceId), satisfyAll env st d f s us acc = some r → Outs N s r.1 := by
          intro us
          induction us with
          | nil => intro s acc r h; cases h; exact .of_pit rfl
          | cons u us ih =>
            intro s acc r h
            simp only [satisfyAll, Option.bind_eq_some_iff] at h
            obtain ⟨x, h2, h3⟩ := h
            refine Outs.trans ?_ (ih _ _ _ h3)
            unfold satisfyStep at h2
            simp only [Option.map_eq_some_iff] at h2
            obtain ⟨s1, h4, rfl⟩ := h2
            refine (outs_timer _ u 0).trans ((outs_call (hst _ _ (by intros; simp)) h4).trans ?_)
            dsimp only
            refine Outs.trans (b := s1.mod u (fun e => { e with satisfied := true, freshness := d.freshness })) ?_ ((outs_dnl (env := env) _ u (some f)).trans ?_)
            · exact outs_mod rfl (fun _ => rfl) (fun _ _ _ => rfl) (fun _ _ _ r h => Or.inl ⟨r, h, rfl⟩)
            · exact outs_mod rfl (fun _ => rfl) (fun _ _ _ => rfl) (fun _ _ _ r h => Or.inl ⟨r, mem_deleteOut (p := Tb.clearIns _) h, rfl⟩)
        exact key _ _ _ _ h1

theorem outs_nackEvent {st : Strategy} (hst : ∀ s t, (∀ i f u, t ≠ .afterReceiveInterest i f u) → ∀ a ∈ st s t, NoAsk a) {s s' : St} {i : FwInterest}
    {k : Nat} {f : FaceId} (h : step env st s (.nack i k f) = some s') : Outs N s s' := by
  simp only [step, onIncomingNack] at h
  split at h
  · cases h; exact .of_pit rfl
  · split at h
    · cases h; exact .of_pit rfl
    · split at h
      · cases h; exact .of_pit rfl
      · split at h
        · cases h; exact .of_pit rfl
        · split at h
          · cases h; exact .of_pit rfl
          · rename_i e _ _ _ _ _
            unfold acceptNack at h
            dsimp only at h
            refine Outs.trans (b := St.mod { s with ctr := { s.ctr with nInNacks := s.ctr.nInNacks + 1 } } e.uid
              (fun e => { e with toPitEntry := Tb.setNack e.toPitEntry f i.nonce k })) ?_ (Outs.trans ?_ (outs_call (hst _ _ (by intros; simp)) h))
            · refine Outs.trans (b := { s with ctr := { s.ctr with nInNacks := s.ctr.nInNacks + 1 } }) (.of_pit rfl) ?_
              refine outs_mod rfl (fun _ => rfl) (fun _ _ _ => rfl) (fun _ _ _ r h => Or.inl ?_)
              obtain ⟨r0, h0, h1, -⟩ := mem_setNack h
              exact ⟨r0, h0, h1.symm⟩
            · split
              · exact .of_pit rfl
              · exact outs_timer _ _ _

theorem outs_plain {st : Strategy} {s s' : St} {ev : Fw.Event} (hp : plainEvent ev = true) (h : step env st s ev = some s') : Outs N s s' := by
  cases ev with
  | fire id =>
    simp only [step, fire] at h
    split at h
    · cases h; exact .of_pit rfl
    · split at h
      · unfold onInterestFinalize at h
        split at h
        · cases h
        · dsimp only at h
          cases h
          intro e he r hr
          have he : e ∈ _ := (List.mem_filter.1 he).1
          refine Or.inl ⟨e, ?_, rfl, rfl, r, hr, rfl⟩
          revert he
          unfold insertDeadNonceList
          repeat' split
          all_goals exact fun h => h
      · cases h; exact .of_pit rfl
  | tick => cases h; exact .of_pit rfl
  | addFace f fi =>
    simp only [step] at h
    cases h
    split <;> exact .of_pit rfl
  | removeFace f =>
    cases h
    intro e he r hr
    simp only [removeFace, List.mem_map] at he
    obtain ⟨e0, h0, rfl⟩ := he
    exact Or.inl ⟨e0, h0, rfl, rfl, r, mem_deleteOut (p := Tb.deleteIn e0.toPitEntry f) hr, rfl⟩
  | config => cases h; exact .of_pit rfl
  | cs op =>
    simp only [step, Option.map_eq_some_iff] at h
    obtain ⟨_, -, rfl⟩ := h
    exact .of_pit rfl
  | dnl => cases h; exact .of_pit rfl
  | _ => simp [plainEvent] at hp

/-! ### An Interest -/

theorem timer_uids (s : St) (u ms : Nat) : (setExpiryTimer s u ms).pit.map (·.uid) = s.pit.map (·.uid) := by
  unfold setExpiryTimer
  split
  · rfl
  · exact mod_uids (f := fun e => { e with timer := some s.nextTimer }) (by exact fun _ => rfl)

theorem recorded_uids {s : St} (hi : Inv s) (i : FwInterest) (f : FaceId) (c : Cs.Cs) : ((recorded s i f c).pit.map (·.uid)).Nodup := by
  obtain ⟨-, -, -, -, -, h6⟩ := insert_spec hi i
  unfold recorded recordInterest
  dsimp only
  rw [timer_uids, mod_uids (by exact fun _ => rfl)]
  exact h6.uids

theorem newSent_eq {a b : St} {l : List Pkt} (h : b.sent = a.sent ++ l) : newSent a b = l := by
  unfold newSent; rw [h, List.drop_append_of_le_length (Nat.le_refl _), List.drop_length, List.nil_append]

theorem newCalls_eq {a b : St} {l : List Trigger} (h : b.calls = a.calls ++ l) : newCalls a b = l := by
  unfold newCalls; rw [h, List.drop_append_of_le_length (Nat.le_refl _), List.drop_length, List.nil_append]

theorem wire_mem {faces : FaceId → Option FaceInfo} {j x : FwInterest} {g h : FaceId} (hm : .interest h x ∈ wire faces j g) : h = g ∧ x = j := by
  unfold wire at hm
  split at hm
  · cases hm
  · split at hm
    · cases hm
    · rw [List.mem_singleton] at hm; cases hm; exact ⟨rfl, rfl⟩

/-- No Interest is sent. -/
structure Mute (s s' : St) : Prop where
  asked : askedEntry (newCalls s s') = none
  outs : ∀ N, Outs N s s'
  quiet : ∀ g x, .interest g x ∉ newSent s s'

/-- The strategy was called with the Interest, and every Interest sent is this one. -/
structure Heard (nhs : List NextHop) (nd : Bool) (s s' : St) (u : Nat) (j : FwInterest) : Prop where
  asked : askedEntry (newCalls s s') = some u
  outs : Outs (fun v k g => v = u ∧ k = j.toInterest ∧ .interest g j ∈ newSent s s') s s'
  key : ∀ g x, .interest g x ∈ newSent s s' → x = j ∧ ∃ e ∈ s'.pit, e.uid = u ∧ e.interest.toInterest = j.toInterest
  remote : nhs = [] → ∀ g x, .interest g x ∈ newSent s s' → ∃ gi, s.faces g = some gi ∧ gi.scope = .nonLocal
  refused : nhs = [] → nd = true → ∀ g x, .interest g x ∉ newSent s s'

theorem sl_noAsk {nhs : List NextHop} {table : List FaceId} {nd : Bool} {dd : SlData} {p : Option (Nat × Data × FaceId)} (s : St) (t : Trigger)
    (ht : ∀ i f u, t ≠ .afterReceiveInterest i f u) : ∀ a ∈ selfLearningS nhs table nd dd p s t, NoAsk a := by
  intro a ha
  cases t with
  | afterReceiveInterest i f u => exact absurd rfl (ht i f u)
  | afterReceiveData d f u =>
    simp only [selfLearningS] at ha
    split at ha
    · cases ha
    · split at ha <;> (rw [List.mem_singleton] at ha; subst ha; trivial)
  | afterReceiveNack i k f u =>
    simp only [selfLearningS] at ha
    cases h : (s.find u).bind (fun e => selfLearningNack nhs e.toPitEntry k u) with
    | none => rw [h] at ha; cases ha
    | some l =>
      rw [h] at ha
      obtain ⟨e, -, h1⟩ := Option.bind_eq_some_iff.1 h
      unfold selfLearningNack at h1
      split at h1
      · split at h1
        · cases h1
        · cases h1
          unfold sendNacks at ha
          obtain ⟨x, -, rfl⟩ := List.mem_map.1 ha
          trivial
      · cases h1; cases ha
  | async =>
    simp only [selfLearningS] at ha
    split at ha
    · split at ha
      · rcases List.mem_cons.1 ha with rfl | ha
        · trivial
        · rw [List.mem_singleton] at ha; subst ha; trivial
      · cases ha
    · cases ha
  | onInterestLoop => simp only [selfLearningS, defaults, List.mem_singleton] at ha; subst ha; trivial
  | afterContentStoreHit => simp only [selfLearningS, defaults, List.mem_singleton] at ha; subst ha; trivial
  | beforeSatisfyInterest => simp [selfLearningS, defaults] at ha
  | onDroppedInterest => simp [selfLearningS, defaults] at ha
  | afterNewNextHop => simp [selfLearningS, defaults] at ha

theorem acted_quiet {l : List Action} (hl : ∀ a ∈ l, NoAsk a) {a b : St} (h : Acted l a b) : ∀ g x, .interest g x ∉ newSent a b := by
  obtain ⟨new, h1, h2⟩ := h.sent
  intro g x hm
  rw [newSent_eq h1] at hm
  obtain ⟨u, hu⟩ := h2 g x hm
  exact hl _ hu

theorem broadcast_remote {s : St} {table : List FaceId} {i : FwInterest} {f g : FaceId} (h : g ∈ broadcastTargets s table i f) :
    ∃ gi, s.faces g = some gi ∧ gi.scope = .nonLocal := by
  unfold broadcastTargets at h
  have h := (List.mem_filter.1 h).2
  split at h
  · rename_i fi gi h1 h2
    refine ⟨gi, h2, ?_⟩
    cases hs : gi.scope with
    | loc => rw [hs] at h; simp at h
    | nonLocal => rfl
  · cases h

theorem interest_event {nhs : List NextHop} {table : List FaceId} {nd : Bool} {s s' : St} (hi : Inv s) {i : FwInterest} {f : FaceId}
    (hn : i.nextHop = none) (h : step env (selfLearningS nhs table nd .now none) s (.interest i f) = some s') :
    Mute s s' ∨ ∃ u j, j.toInterest = i.toInterest ∧ Heard nhs nd s s' u j := by
  have none' : ∀ {s' : St}, s'.pit = s.pit → s'.calls = s.calls → s'.sent = s.sent → Mute s s' := by
    intro s' h1 h2 h3
    refine ⟨?_, fun N => .of_pit h1, ?_⟩
    · rw [newCalls_eq (l := []) (by rw [h2, List.append_nil])]; rfl
    · rw [newSent_eq (l := []) (by rw [h3, List.append_nil])]; exact fun _ _ h => nomatch h
  cases hf : s.faces f with
  | none =>
    simp only [step, onIncomingInterest, hf] at h
    cases h
    exact Or.inl (none' rfl rfl rfl)
  | some fi =>
    by_cases ha : Admissible i fi
    · have hic : Inv (counted s) := InvX.congr hi rfl rfl rfl rfl rfl
      rcases interest_outcome hi hf ha h with ⟨j, -, -, h1⟩ | ⟨-, c, d, -, -, h1⟩ | ⟨-, c, -, g, hg, -⟩ | ⟨-, c, -, -, h1⟩
      · left
        unfold onInterestLoop at h1
        split at h1
        · cases h1; exact none' rfl rfl rfl
        · have hl := sl_noAsk (nhs := nhs) (table := table) (nd := nd) (dd := .now) (p := none) (counted s) (.onInterestLoop j f) (by intros; simp)
          have hc := acted_call h1
          refine ⟨?_, fun N => Outs.trans (b := counted s) (.of_pit rfl) (outs_call hl h1), ?_⟩
          · rw [newCalls_eq (a := s) (l := [.onInterestLoop j f]) hc.calls]; rfl
          · exact acted_quiet (a := { counted s with calls := s.calls ++ [.onInterestLoop j f] }) hl hc
      · left
        have hl := sl_noAsk (nhs := nhs) (table := table) (nd := nd) (dd := .now) (p := none) (answered (counted s) (stripHint s.cfg (decHop i)) d c)
          (.afterContentStoreHit d f (pitInsert (counted s) (stripHint s.cfg (decHop i))).2.1.uid) (by intros; simp)
        have hc := acted_call h1
        obtain ⟨hr, -⟩ := answered_frame (counted s) (stripHint s.cfg (decHop i)) d c
        refine ⟨?_, fun N => Outs.trans (b := counted s) (.of_pit rfl) ((outs_answered _ _ _ _).trans (outs_call hl h1)), ?_⟩
        · rw [newCalls_eq (l := [.afterContentStoreHit d f _]) (by rw [hc.calls]; exact congrArg (· ++ _) hr.calls)]; rfl
        · obtain ⟨new, s1, s2⟩ := hc.sent
          intro g x hm
          rw [newSent_eq (l := new) (by rw [s1]; exact congrArg (· ++ _) hr.sent)] at hm
          obtain ⟨u, hu⟩ := s2 g x hm
          exact hl _ hu
      · rw [hn] at hg; cases hg
      · right
        obtain ⟨hr, -⟩ := recorded_frame (counted s) (stripHint s.cfg (decHop i)) f c
        obtain ⟨e, e1, e2, -, -, -, -⟩ := recorded_entry hic (stripHint s.cfg (decHop i)) f c
        have huids := recorded_uids hic (stripHint s.cfg (decHop i)) f c
        have houts : ∀ N, Outs N s (recorded (counted s) (stripHint s.cfg (decHop i)) f c) := fun N =>
          Outs.trans (b := counted s) (.of_pit rfl) (outs_recorded hic _ _ _)
        have hk : (stripHint s.cfg (decHop i)).toInterest = i.toInterest := (stripHint_key ..).trans rfl
        have hjk : (addHop s.cfg (stripHint s.cfg (decHop i))).toInterest = i.toInterest := (addHop_key ..).trans hk
        revert e1 h1
        generalize (pitInsert (counted s) (stripHint s.cfg (decHop i))).2.1.uid = u
        generalize addHop s.cfg (stripHint s.cfg (decHop i)) = j at hjk ⊢
        generalize recorded (counted s) (stripHint s.cfg (decHop i)) f c = r at hr huids houts ⊢
        intro h1 e1
        have hek : e.interest.toInterest = j.toInterest := (e2.trans hk).trans hjk.symm
        refine ⟨u, j, hjk, ?_⟩
        have hc := acted_call h1
        have hasked : askedEntry (newCalls s s') = some u := by
          rw [newCalls_eq (l := [.afterReceiveInterest j f u]) (by rw [hc.calls]; exact congrArg (· ++ _) hr.calls)]; rfl
        have hst : selfLearningS nhs table nd .now none r (.afterReceiveInterest j f u) = selfLearningInterest nhs table nd r e.toPitEntry j f u := by
          simp only [selfLearningS, e1]; rfl
        have hcall : acts { r with calls := r.calls ++ [.afterReceiveInterest j f u] } (selfLearningInterest nhs table nd r e.toPitEntry j f u) = some s' := by
          rw [← hst]; exact h1
        -- Interests for a list of faces
        have sends : ∀ gs : List FaceId, selfLearningInterest nhs table nd r e.toPitEntry j f u = gs.map (fun g => .sendInterest u j g) →
            (nhs = [] → ∀ g ∈ gs, ∃ gi, s.faces g = some gi ∧ gi.scope = .nonLocal) → ¬(nhs = [] ∧ nd = true) → Heard nhs nd s s' u j := by
          intro gs hgs hrem href
          rw [hgs] at hcall
          have q1 := sent_interests j gs { r with calls := r.calls ++ [.afterReceiveInterest j f u] } s' e e1 hcall
          have q2 := outs_sends j gs { r with calls := r.calls ++ [.afterReceiveInterest j f u] } s' e e1 huids hcall
          have hs : newSent s s' = gs.flatMap (wire r.faces j) := newSent_eq (by rw [q1.sent]; exact congrArg (· ++ _) hr.sent)
          refine ⟨hasked, ?_, ?_, ?_, fun a b => absurd ⟨a, b⟩ href⟩
          · refine (houts _).trans (Outs.trans (b := { r with calls := r.calls ++ [.afterReceiveInterest j f u] }) (.of_pit rfl) (q2.mono ?_))
            rintro v k g ⟨a, b, c⟩
            exact ⟨a, b.trans hek, by rw [hs]; exact c⟩
          · intro g x hm
            rw [hs] at hm
            obtain ⟨y, -, hm⟩ := List.mem_flatMap.1 hm
            refine ⟨(wire_mem hm).2, ?_⟩
            obtain ⟨e0, h0, -, hk0⟩ := q1.ents e e1
            exact ⟨e0, (find_some h0).1, (find_some h0).2, by rw [hk0, hek]⟩
          · intro hne g x hm
            rw [hs] at hm
            obtain ⟨y, hy, hm⟩ := List.mem_flatMap.1 hm
            rw [(wire_mem hm).1]
            exact hrem hne y hy
        unfold selfLearningInterest at sends hcall
        by_cases he : nhs.isEmpty = true
        · rw [if_pos he] at sends hcall
          by_cases hd : nd = true
          · rw [if_pos hd] at hcall
            have hl : ∀ a ∈ noRoute f u, NoAsk a := by
              intro a ha
              rcases List.mem_cons.1 ha with rfl | ha
              · trivial
              · rw [List.mem_singleton] at ha; subst ha; trivial
            have hq : ∀ g x, .interest g x ∉ newSent s s' := by
              obtain ⟨new, s1, s2⟩ := (acted_acts hcall).sent
              intro g x hm
              rw [newSent_eq (l := new) (by rw [s1]; exact congrArg (· ++ _) hr.sent)] at hm
              obtain ⟨v, hv⟩ := s2 g x hm
              exact hl _ hv
            refine ⟨hasked, (houts _).trans (Outs.trans (b := { r with calls := r.calls ++ [.afterReceiveInterest j f u] }) (.of_pit rfl)
              (outs_acts hl hcall)), fun g x hm => absurd hm (hq g x), fun _ g x hm => absurd hm (hq g x),
              fun _ _ => hq⟩
          · rw [if_neg hd] at sends
            refine sends _ rfl ?_ (fun h => hd h.2)
            intro _ g hg
            rw [← show r.faces = s.faces from hr.faces]
            exact broadcast_remote hg
        · rw [if_neg he] at sends
          refine sends ((nhs.filter (fun nh => isNextHopEligible r f j nh e.toPitEntry)).map (·.face)) (by rw [List.map_map]; rfl) ?_
            (fun h => he (by rw [h.1]; rfl))
          intro hne
          rw [hne] at he
          exact absurd rfl he
    · left
      simp only [step, onIncomingInterest, hf] at h
      split at h
      · cases h; exact none' rfl rfl rfl
      · rename_i h0
        split at h
        · cases h; exact none' rfl rfl rfl
        · rename_i h1
          exact absurd ⟨h0, by rwa [← localhost_iff]⟩ ha

end Verif.Strat.Sl
