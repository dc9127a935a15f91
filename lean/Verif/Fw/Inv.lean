import Verif.Fw.Path

/-
The invariant holds in every reachable state; what packets an event may send.
-/
namespace Verif.Fw

open Tb (FaceId Time FwInterest InRec OutRec PitEntry NextHop)

variable {env : Env} {Q : (FaceId → Option FaceInfo) → Action → Prop} {R : FwInterest → FaceId → Prop}

theorem keeps_rec {s : St} {u : Nat} {f : PitEntry → PitEntry} (h : ∀ p, (f p).interest = p.interest) :
    Keeps s u (fun e => { e with toPitEntry := f e.toPitEntry }) :=
  ⟨fun _ => rfl, fun _ => rfl, fun e _ _ => congrArg FwInterest.toInterest (h e.toPitEntry)⟩

theorem keeps_flags {s : St} {u : Nat} {b : Bool} {fr : Nat} : Keeps s u (fun e => { e with satisfied := b, freshness := fr }) :=
  ⟨fun _ => rfl, fun _ => rfl, fun _ _ _ => rfl⟩

theorem insertOut_interest (p : PitEntry) (g : FaceId) (i : FwInterest) (now : Time) :
    (Tb.insertOrUpdateOut p g i now).interest = p.interest := rfl
theorem insertIn_interest (p : PitEntry) (g : FaceId) (i : FwInterest) (now : Time) :
    (Tb.insertOrUpdateIn p g i now).interest = p.interest := rfl
theorem deleteIn_interest (p : PitEntry) (g : FaceId) : (Tb.deleteIn p g).interest = p.interest := rfl
theorem deleteOut_interest (p : PitEntry) (g : FaceId) : (Tb.deleteOut p g).interest = p.interest := rfl
theorem clearIns_interest (p : PitEntry) : (Tb.clearIns p).interest = p.interest := rfl
theorem setNack_interest (p : PitEntry) (g : FaceId) (n k : Nat) : (Tb.setNack p g n k).interest = p.interest := rfl

theorem addHop_key (c : Config) (i : FwInterest) : (addHop c i).toInterest = i.toInterest := by unfold addHop; split <;> rfl
theorem addHop_nonce (c : Config) (i : FwInterest) : (addHop c i).nonce = i.nonce := by unfold addHop; split <;> rfl
theorem addHop_name (c : Config) (i : FwInterest) : (addHop c i).name = i.name := by unfold addHop; split <;> rfl
theorem addHop_nextHop (c : Config) (i : FwInterest) : (addHop c i).nextHop = i.nextHop := by unfold addHop; split <;> rfl

/-- Recording an Interest as pending. -/
theorem inv_record {s : St} (h : Inv s) {i : FwInterest} {f : FaceId} {fi : FaceInfo} (hf : s.faces f = some fi)
    (hs : ¬(fi.scope = .nonLocal ∧ isLocalhost i.name = true))
    (hd : isDuplicate fi.link (findDuplicateNonce (pitInsert s i).2.1.toPitEntry i.nonce f) = false) :
    Inv (recordInterest (pitInsert s i).1 i f (pitInsert s i).2.1.uid (pitInsert s i).2.2) := by
  obtain ⟨hm, hk, hfa, hold, hnew, hx⟩ := insert_spec h i
  generalize hr : pitInsert s i = r at hm hk hfa hold hnew hx hd
  have huniq : ∀ e ∈ r.1.pit, e.uid = r.2.1.uid → e = r.2.1 := fun e he hu => eq_of_uid hx.uids he hm hu
  unfold recordInterest
  simp only
  have hkeep : Keeps r.1 r.2.1.uid (fun e => { e with
      toPitEntry := Tb.insertOrUpdateIn { e.toPitEntry with interest := if r.2.2 then addHop r.1.cfg i else e.interest } f
        (addHop r.1.cfg i) r.1.now }) := by
    refine ⟨fun _ => rfl, fun _ => rfl, ?_⟩
    intro e he hu
    rw [huniq e he hu]
    show (if r.2.2 then addHop r.1.cfg i else r.2.1.interest).toInterest = _
    split
    · rw [addHop_key, hk]
    · rfl
  have h1 := invX_mod hx hkeep (by
    intro e he hu hok
    have := huniq e he hu
    subst this
    refine entOk_in (i := addHop r.1.cfg i) hok (fi := fi) (by rw [hfa]; exact hf) (by rw [addHop_key, hk]) ?_
      (by rw [addHop_name]; exact hs) ?_
    · split
      · rw [addHop_key, hk]
      · rfl
    · rw [addHop_nonce]
      exact not_duplicate hok hd)
  refine invX_timer h1 ?_ _
  split
  · right
    refine ⟨rfl, ?_⟩
    rw [mod_find_self (by exact fun _ => rfl), find_mem hx.uids hm]
    rfl
  · left; rfl

theorem inv_hit {s : St} (h : Inv s) (i : FwInterest) (d : Data) :
    Inv (setExpiryTimer ((pitInsert s i).1.mod (pitInsert s i).2.1.uid
      (fun e => { e with satisfied := true, freshness := d.freshness })) (pitInsert s i).2.1.uid 0) := by
  obtain ⟨hm, -, -, -, -, hx⟩ := insert_spec h i
  have h1 := invX_mod hx (u := (pitInsert s i).2.1.uid) (keeps_flags (b := true) (fr := d.freshness)) (by
    intro e _ _ hok
    exact entOk_flags hok _ _)
  refine invX_timer h1 ?_ _
  split
  · right
    refine ⟨rfl, ?_⟩
    rw [mod_find_self (by exact fun _ => rfl), find_mem hx.uids hm]
    rfl
  · left; rfl

/-- Finalizing an entry whose timer fired: never a failed assertion, the entry is removed, everything else stays. -/
theorem finalize_spec {s : St} (h : Inv s) {t : Timer} (ht : t ∈ s.sched) :
    ∃ e s', e ∈ s.pit ∧ e.uid = t.uid ∧
      onInterestFinalize env { s with sched := s.sched.filter (fun x => x.id ≠ t.id) } t.uid = some s' ∧
      s'.pit = s.pit.filter (fun x => x.uid ≠ t.uid) ∧ s'.sched = s.sched.filter (fun x => x.id ≠ t.id) ∧
      s'.dnl = (if needDnl env e then e.outs.foldl (fun d r => d.addEntry (env.hash e.interest.name r.nonce)) s.dnl else s.dnl) ∧
      s'.ctr = (if e.satisfied then { s.ctr with nSatisfied := s.ctr.nSatisfied + 1 }
        else { s.ctr with nUnsatisfied := s.ctr.nUnsatisfied + 1 }) ∧
      s'.sent = s.sent ∧ s'.calls = s.calls ∧ s'.cs = s.cs ∧ s'.nextUid = s.nextUid ∧ s'.nextTimer = s.nextTimer ∧
      s'.faces = s.faces ∧ s'.cfg = s.cfg ∧ s'.now = s.now := by
  obtain ⟨e, he, hu, hti⟩ := h.owner t ht
  refine ⟨e, ?_⟩
  have hfind : St.find { s with sched := s.sched.filter (fun x => x.id ≠ t.id) } t.uid = some e := by
    rw [← hu]; exact find_mem h.uids he
  unfold onInterestFinalize
  rw [hfind]
  simp only
  refine ⟨_, he, hu, rfl, ?_⟩
  unfold insertDeadNonceList
  rw [hfind]
  have hfilt : (s.sched.filter (fun x => x.id ≠ t.id)).filter (fun x => some x.id ≠ e.timer) = s.sched.filter (fun x => x.id ≠ t.id) := by
    rw [List.filter_eq_self]
    intro x hx
    rw [hti]
    simpa using (List.mem_filter.1 hx).2
  cases hn : needDnl env e <;> cases hs : e.satisfied <;>
    simp only [hn, if_true, if_false, Bool.false_eq_true, dnlRecords] <;>
    exact ⟨trivial, hfilt, trivial, trivial, trivial, trivial, trivial, trivial, trivial, trivial, trivial, trivial⟩

theorem inv_finalize {s s' : St} (h : Inv s) {t : Timer} (ht : t ∈ s.sched)
    (hf : onInterestFinalize env { s with sched := s.sched.filter (fun x => x.id ≠ t.id) } t.uid = some s') : Inv s' := by
  obtain ⟨e, s2, he, hu, hfin, hpit, hsched, -, -, -, -, -, hnu, hnt, hfa, -, -⟩ := finalize_spec (env := env) h ht
  rw [hfin] at hf
  cases hf
  constructor
  · rw [hpit]; exact (List.Sublist.map _ List.filter_sublist).nodup h.uids
  · rw [hpit, hnu]; intro e he; exact h.uidlt e (List.mem_filter.1 he).1
  · rw [hpit]; exact (List.Sublist.map _ List.filter_sublist).nodup h.keys
  · rw [hsched]; exact (List.Sublist.map _ List.filter_sublist).nodup h.tids
  · rw [hsched, hnt]; intro x hx; exact h.tidlt x (List.mem_filter.1 hx).1
  · intro e' he'
    rw [hpit, List.mem_filter] at he'
    left
    rcases h.timer e' he'.1 with ⟨t', ht', h1, h2⟩ | ⟨h1, -⟩
    · refine ⟨t', ?_, h1, h2⟩
      rw [hsched, List.mem_filter]
      refine ⟨ht', ?_⟩
      simp only [ne_eq, decide_not, Bool.not_eq_true', decide_eq_false_iff_not]
      intro hid
      have h3 := find?_of_nodup (k := fun t : Timer => t.id) h.tids ht
      have h4 := find?_of_nodup (k := fun t : Timer => t.id) h.tids ht'
      rw [hid, h3] at h4
      have := he'.2
      simp only [ne_eq, decide_not, Bool.not_eq_true', decide_eq_false_iff_not] at this
      exact this (by rw [← h1, Option.some.inj h4])
    · simp at h1
  · intro x hx
    rw [hsched, List.mem_filter] at hx
    obtain ⟨e', h0, h1, h2⟩ := h.owner x hx.1
    refine ⟨e', ?_, h1, h2⟩
    rw [hpit, List.mem_filter]
    refine ⟨h0, ?_⟩
    simp only [ne_eq, decide_not, Bool.not_eq_true', decide_eq_false_iff_not]
    intro hc
    obtain ⟨e2, g0, g1, g2⟩ := h.owner t ht
    have := eq_of_uid h.uids h0 g0 (by rw [hc, g1])
    subst this
    rw [g2] at h2
    have := hx.2
    simp only [ne_eq, decide_not, Bool.not_eq_true', decide_eq_false_iff_not] at this
    exact this (Option.some.inj h2).symm
  · intro e' he'
    rw [hpit, List.mem_filter] at he'
    rw [hfa]
    exact h.ents e' he'.1

theorem inv_interest {s : St} (h : Inv s) (u : Nat) (i : FwInterest) (g : FaceId) : Inv (onOutgoingInterest s u i g) := by
  unfold onOutgoingInterest
  split
  · rename_i fi _ hg _
    split
    · exact h
    · refine InvX.congr (invX_mod h (u := u) (keeps_rec (insertOut_interest · g i s.now)) ?_) rfl rfl rfl rfl rfl
      intro e _ _ hok
      exact entOk_out hok (by rw [hg]; rfl) i s.now
  · exact h

theorem inv_data {s : St} (h : Inv s) (d : Data) (g : FaceId) : Inv (onOutgoingData s d g) := by
  unfold onOutgoingData
  split
  · exact h
  · split
    · exact h
    · exact InvX.congr h rfl rfl rfl rfl rfl

theorem inv_nack {s : St} (h : Inv s) (u r : Nat) (g : FaceId) : Inv (onOutgoingNack s u r g) := by
  unfold onOutgoingNack
  split
  · exact h
  · split
    · exact h
    · split
      · exact h
      · exact InvX.congr (invX_mod h (u := u) (keeps_rec (deleteIn_interest · g)) (by
          intro e _ _ hok; exact entOk_delIn hok g)) rfl rfl rfl rfl rfl

theorem inv_nackPkt {s : St} (h : Inv s) (i : FwInterest) (r : Nat) (g : FaceId) : Inv (sendNackPacket s i r g) := by
  unfold sendNackPacket
  split
  · exact h
  · exact InvX.congr h rfl rfl rfl rfl rfl

theorem Prim.inv {a b : St} (p : Prim env Q R a b) (h : Inv a) : Inv b := by
  cases p with
  | aux => exact InvX.congr h rfl rfl rfl rfl rfl
  | interest u i g => exact inv_interest h u i g
  | data d g => exact inv_data h d g
  | nack u r g => exact inv_nack h u r g
  | nackPkt i r g => exact inv_nackPkt h i r g
  | timer u ms => exact invX_timer h (Or.inl rfl) ms
  | record i f fi hr hf hs hd => exact inv_record h hf hs hd
  | hit i d => exact inv_hit h i d
  | satisfy u fr => exact invX_mod h keeps_flags (by intro e _ _ hok; exact entOk_flags hok _ _)
  | delIn u g => exact invX_mod h (keeps_rec (deleteIn_interest · g)) (by intro e _ _ hok; exact entOk_delIn hok g)
  | delOut u g => exact invX_mod h (keeps_rec (deleteOut_interest · g)) (by intro e _ _ hok; exact entOk_delOut hok g)
  | clearOut u g =>
    exact invX_mod h (keeps_rec (f := fun p => Tb.deleteOut (Tb.clearIns p) g) (fun _ => rfl))
      (by intro e _ _ hok; exact entOk_delOut (entOk_clear hok) g)
  | setNack u f n k => exact invX_mod h (keeps_rec (setNack_interest · f n k)) (by intro e _ _ hok; exact entOk_nack hok f n k)
  | finalize _ t ht hd hf => exact inv_finalize h ht hf

theorem Path.inv {a b : St} (p : Path env Q R a b) (h : Inv a) : Inv b := by
  induction p with
  | refl => exact h
  | head p _ ih => exact ih (p.inv h)

/-! ### Faces and time -/

theorem inv_addFace {s : St} (h : Inv s) {f : FaceId} (hf : s.faces f = none) (fi : FaceInfo) :
    Inv { s with faces := fun g => if g = f then some fi else s.faces g } := by
  refine ⟨h.uids, h.uidlt, h.keys, h.tids, h.tidlt, h.timer, h.owner, ?_⟩
  intro e he
  have hok := h.ents e he
  refine ⟨hok.recs, ?_, ?_, hok.same, hok.nonces, ?_⟩
  · intro r hr
    show (if r.face = f then some fi else s.faces r.face).isSome
    split
    · rfl
    · exact hok.inFace r hr
  · intro r hr
    show (if r.face = f then some fi else s.faces r.face).isSome
    split
    · rfl
    · exact hok.outFace r hr
  · intro hl r hr fi' hfi'
    have hne : r.face ≠ f := by
      intro hc
      have := hok.inFace r hr
      rw [hc, hf] at this
      simp at this
    simp only [if_neg hne] at hfi'
    exact hok.scope hl r hr fi' hfi'

theorem mem_delInOut_in {p : PitEntry} (hn : (p.ins.map (·.face)).Nodup) {f : FaceId} {r : InRec} (h : r ∈ (Tb.deleteInOut p f).ins) :
    r ∈ p.ins ∧ r.face ≠ f := by
  have h' : r ∈ (Tb.deleteIn p f).ins := h
  exact ⟨mem_deleteIn h', mem_deleteIn_ne hn h'⟩

theorem mem_delInOut_out {p : PitEntry} (hn : (p.outs.map (·.face)).Nodup) {f : FaceId} {r : OutRec}
    (h : r ∈ (Tb.deleteInOut p f).outs) : r ∈ p.outs ∧ r.face ≠ f := by
  have h' : r ∈ (Tb.deleteOut p f).outs := h
  refine ⟨mem_deleteOut h', ?_⟩
  simp only [Tb.deleteOut] at h'
  rw [Tb.eraseP_face (f := OutRec.face) hn f] at h'
  simpa using (List.mem_filter.1 h').2

theorem inv_removeFace {s : St} (h : Inv s) (f : FaceId) : Inv (removeFace s f) := by
  have hu : (removeFace s f).pit.map (·.uid) = s.pit.map (·.uid) := by
    simp only [removeFace, List.map_map]; rfl
  have hk : (removeFace s f).pit.map (·.interest.toInterest) = s.pit.map (·.interest.toInterest) := by
    simp only [removeFace, List.map_map]; rfl
  have hmem : ∀ e, e ∈ (removeFace s f).pit → ∃ e0 ∈ s.pit, e = { e0 with toPitEntry := Tb.deleteInOut e0.toPitEntry f } := by
    intro e he
    obtain ⟨e0, h0, rfl⟩ := List.mem_map.1 he
    exact ⟨e0, h0, rfl⟩
  constructor
  · rw [hu]; exact h.uids
  · intro e he
    obtain ⟨e0, h0, rfl⟩ := hmem e he
    exact h.uidlt e0 h0
  · rw [hk]; exact h.keys
  · exact h.tids
  · exact h.tidlt
  · intro e he
    obtain ⟨e0, h0, rfl⟩ := hmem e he
    exact h.timer e0 h0
  · intro t ht
    obtain ⟨e0, h0, h1⟩ := h.owner t ht
    exact ⟨_, List.mem_map.2 ⟨e0, h0, rfl⟩, h1⟩
  · intro e he
    obtain ⟨e0, h0, rfl⟩ := hmem e he
    have hok := h.ents e0 h0
    have hin : ∀ r ∈ (Tb.deleteInOut e0.toPitEntry f).ins, r ∈ e0.ins ∧ r.face ≠ f := fun r hr => mem_delInOut_in hok.recs.1 hr
    constructor
    · exact Tb.recsOk_delOut (Tb.recsOk_delIn hok.recs f) f
    · intro r hr
      show (if r.face = f then none else s.faces r.face).isSome
      rw [if_neg (hin r hr).2]
      exact hok.inFace r (hin r hr).1
    · intro r hr
      obtain ⟨h1, h2⟩ := mem_delInOut_out hok.recs.2 hr
      show (if r.face = f then none else s.faces r.face).isSome
      rw [if_neg h2]
      exact hok.outFace r h1
    · intro r hr; exact hok.same r (hin r hr).1
    · intro r hr r' hr'; exact hok.nonces r (hin r hr).1 r' (hin r' hr').1
    · intro hl r hr fi hfi
      simp only [removeFace, if_neg (hin r hr).2] at hfi
      exact hok.scope hl r (hin r hr).1 fi hfi

theorem any_respects {L : FwInterest → FaceId → Prop} (st : Strategy) : Respects L (fun _ _ => True) st := fun _ _ _ _ _ => trivial

theorem step_inv {st : Strategy} {s s' : St} {ev : Event} (h : Inv s) (hs : step env st s ev = some s') : Inv s' := by
  cases he : ev.isFrame with
  | false => exact (step_path (any_respects st) he hs).inv h
  | true =>
    cases ev with
    | tick dt => cases hs; exact InvX.congr h rfl rfl rfl rfl rfl
    | addFace f fi =>
      simp only [step] at hs
      cases hs
      split
      · exact h
      · rename_i hn
        exact inv_addFace h (by simpa using hn) fi
    | removeFace f => cases hs; exact inv_removeFace h f
    | _ => simp [Event.isFrame] at he

theorem init_inv (n : Nat) : Inv (init n) := by
  constructor <;> simp [init]

theorem run_inv {l : List (Strategy × Event)} : ∀ {s s' : St}, Inv s → run env s l = some s' → Inv s' := by
  induction l with
  | nil => intro s s' h hr; cases hr; exact h
  | cons x l ih =>
    intro s s' h hr
    simp only [run, Option.bind_eq_some_iff] at hr
    obtain ⟨s1, h1, h2⟩ := hr
    exact ih (step_inv h h1) h2

theorem reach_inv {n : Nat} {l : List (Strategy × Event)} {s : St} (h : run env (init n) l = some s) : Inv s :=
  run_inv (init_inv n) h

/-! ### Packets sent -/

/-- What is true of every packet sent while the faces are `faces`. -/
def PktOk (Q : (FaceId → Option FaceInfo) → Action → Prop) (faces : FaceId → Option FaceInfo) : Pkt → Prop
  | .interest g i => ∃ fi, faces g = some fi ∧ ¬(i.hopLimit = some 0 ∧ fi.scope = .nonLocal) ∧
      ((∃ u, Q faces (.sendInterest u i g)) ∨ i.nextHop = some g)
  | .data g d => ∃ fi, faces g = some fi ∧ ¬(fi.scope = .nonLocal ∧ isLocalhost d.name = true)
  | .nack g i r => ∃ fi, faces g = some fi ∧
      ((fi.link = .p2p ∧ ¬(fi.scope = .nonLocal ∧ isLocalhost i.name = true)) ∨ Q faces (.sendNackPacket i r g))

def isI : Pkt → Bool | .interest .. => true | _ => false
def isD : Pkt → Bool | .data .. => true | _ => false
def isN : Pkt → Bool | .nack .. => true | _ => false

/-- `b` was reached from `a` by sending only packets that satisfy `PktOk`, and the counters counted them. -/
def Sends (Q : (FaceId → Option FaceInfo) → Action → Prop) (a b : St) : Prop :=
  ∃ new, b.sent = a.sent ++ new ∧ (∀ p ∈ new, PktOk Q a.faces p) ∧
    b.ctr.nOutInterests = a.ctr.nOutInterests + new.countP isI ∧ b.ctr.nOutData = a.ctr.nOutData + new.countP isD ∧
    b.ctr.nOutNacks = a.ctr.nOutNacks + new.countP isN

theorem Sends.none {a b : St} (h : b.sent = a.sent) (h1 : b.ctr.nOutInterests = a.ctr.nOutInterests)
    (h2 : b.ctr.nOutData = a.ctr.nOutData) (h3 : b.ctr.nOutNacks = a.ctr.nOutNacks) : Sends Q a b :=
  ⟨[], by simp [h], by simp, by simp [h1], by simp [h2], by simp [h3]⟩

theorem Sends.trans {a b c : St} (hfa : b.faces = a.faces) (h : Sends Q a b) (h' : Sends Q b c) : Sends Q a c := by
  obtain ⟨l, h1, h2, h3, h4, h5⟩ := h
  obtain ⟨l', h1', h2', h3', h4', h5'⟩ := h'
  refine ⟨l ++ l', by rw [h1', h1, List.append_assoc], ?_, ?_, ?_, ?_⟩
  · intro p hp
    rcases List.mem_append.1 hp with hp | hp
    · exact h2 p hp
    · rw [← hfa]; exact h2' p hp
  · rw [List.countP_append]; omega
  · rw [List.countP_append]; omega
  · rw [List.countP_append]; omega

theorem sends_timer (s : St) (u ms : Nat) : Sends Q s (setExpiryTimer s u ms) := by
  unfold setExpiryTimer; split <;> exact Sends.none rfl rfl rfl rfl

theorem sends_insert (s : St) (i : FwInterest) : Sends Q s (pitInsert s i).1 := by
  unfold pitInsert; split <;> exact Sends.none rfl rfl rfl rfl

theorem Prim.sends {a b : St} (p : Prim env Q R a b) (hi : Inv a) : Sends Q a b := by
  cases p with
  | aux cs dnl ctr calls cfg h hdnl =>
    simp only [Counters.outs, Prod.mk.injEq] at h
    exact Sends.none rfl h.1 h.2.1 h.2.2.1
  | interest u i g h =>
    unfold onOutgoingInterest
    split
    · rename_i fi _ hg _
      split
      · exact Sends.none rfl rfl rfl rfl
      · rename_i hn
        refine ⟨[.interest g i], rfl, ?_, by simp [isI], by simp [isD], by simp [isN]⟩
        intro p hp
        rw [List.mem_singleton.1 hp]
        exact ⟨fi, hg, hn, h.imp (fun h => ⟨u, h⟩) id⟩
    · exact Sends.none rfl rfl rfl rfl
  | data d g =>
    unfold onOutgoingData
    split
    · exact Sends.none rfl rfl rfl rfl
    · rename_i fi hg
      split
      · exact Sends.none rfl rfl rfl rfl
      · rename_i hn
        refine ⟨[.data g d], rfl, ?_, by simp [isI], by simp [isD], by simp [isN]⟩
        intro p hp
        rw [List.mem_singleton.1 hp]
        exact ⟨fi, hg, hn⟩
  | nack u r g =>
    unfold onOutgoingNack
    split
    · exact Sends.none rfl rfl rfl rfl
    · rename_i fi hg
      split
      · exact Sends.none rfl rfl rfl rfl
      · rename_i rec hrec
        split
        · exact Sends.none rfl rfl rfl rfl
        · rename_i hl
          refine ⟨[.nack g rec.interest r], rfl, ?_, by simp [isI], by simp [isD], by simp [isN]⟩
          intro p hp
          rw [List.mem_singleton.1 hp]
          refine ⟨fi, hg, Or.inl ⟨Decidable.of_not_not hl, ?_⟩⟩
          rintro ⟨h1, h2⟩
          rw [Option.bind_eq_some_iff] at hrec
          obtain ⟨e, he, hr⟩ := hrec
          have hok := hi.ents e (find_some he).1
          have hmem := List.mem_of_find?_eq_some hr
          have hface : rec.face = g := by simpa using List.find?_some hr
          have hname : rec.interest.name = e.interest.name := congrArg Interest.name (hok.same rec hmem).1
          have := hok.scope (by rw [← hname]; exact h2) rec hmem fi (by rw [hface]; exact hg)
          rw [h1] at this
          cases this
  | nackPkt i r g h =>
    unfold sendNackPacket
    split
    · exact Sends.none rfl rfl rfl rfl
    · rename_i fi hg
      refine ⟨[.nack g i r], rfl, ?_, by simp [isI], by simp [isD], by simp [isN]⟩
      intro p hp
      rw [List.mem_singleton.1 hp]
      exact ⟨fi, hg, Or.inr h⟩
  | timer u ms => exact sends_timer ..
  | record i f fi hr hf hs hd =>
    refine Sends.trans (frame_insert a i).faces (sends_insert a i) ?_
    unfold recordInterest
    exact Sends.trans (b := (pitInsert a i).1.mod _ _) rfl (Sends.none rfl rfl rfl rfl) (sends_timer _ _ _)
  | hit i d =>
    refine Sends.trans (frame_insert a i).faces (sends_insert a i) ?_
    exact Sends.trans (b := (pitInsert a i).1.mod _ _) rfl (Sends.none rfl rfl rfl rfl) (sends_timer _ _ _)
  | satisfy => exact Sends.none rfl rfl rfl rfl
  | delIn => exact Sends.none rfl rfl rfl rfl
  | delOut => exact Sends.none rfl rfl rfl rfl
  | clearOut => exact Sends.none rfl rfl rfl rfl
  | setNack => exact Sends.none rfl rfl rfl rfl
  | finalize _ t ht hd h =>
    unfold onInterestFinalize at h
    split at h
    · cases h
    · cases h
      obtain ⟨d, hd⟩ := dnl_eq (env := env) { a with sched := a.sched.filter (fun x => x.id ≠ t.id) } t.uid none
      rw [hd]
      split <;> exact Sends.none rfl rfl rfl rfl

theorem Path.sends {a b : St} (p : Path env Q R a b) (hi : Inv a) : Sends Q a b := by
  induction p with
  | refl => exact Sends.none rfl rfl rfl rfl
  | head p _ ih => exact Sends.trans p.frame.faces (p.sends hi) (ih (p.inv hi))

theorem step_sends {st : Strategy} {ev : Event} (hQ : Respects ev.loops Q st) {s s' : St} (hi : Inv s)
    (hs : step env st s ev = some s') : Sends Q s s' := by
  cases he : ev.isFrame with
  | false => exact (step_path hQ he hs).sends hi
  | true =>
    cases ev with
    | tick dt => cases hs; exact Sends.none rfl rfl rfl rfl
    | addFace f fi =>
      simp only [step] at hs
      cases hs
      split <;> exact Sends.none rfl rfl rfl rfl
    | removeFace f => cases hs; exact Sends.none rfl rfl rfl rfl
    | _ => simp [Event.isFrame] at he

/-! ### Counters and the Dead Nonce List -/

/-- Invariant of the counters and of the Dead Nonce List's capacity. -/
structure Acct (s : St) : Prop where
  interests : s.ctr.nOutInterests = s.sent.countP isI
  data : s.ctr.nOutData = s.sent.countP isD
  nacks : s.ctr.nOutNacks = s.sent.countP isN
  finalized : s.ctr.nSatisfied + s.ctr.nUnsatisfied + s.pit.length = s.nextUid
  cap : Dnl.CapOk s.dnl

theorem acct_same {a b : St} (h : Acct a) (h1 : b.ctr = a.ctr) (h2 : b.sent = a.sent) (h3 : b.pit.length = a.pit.length)
    (h4 : b.nextUid = a.nextUid) (h5 : b.dnl = a.dnl) : Acct b :=
  ⟨by rw [h1, h2]; exact h.interests, by rw [h1, h2]; exact h.data, by rw [h1, h2]; exact h.nacks,
   by rw [h1, h3, h4]; exact h.finalized, by rw [h5]; exact h.cap⟩

theorem mod_length (s : St) (u : Nat) (f : Ent → Ent) : (s.mod u f).pit.length = s.pit.length := by
  simp [St.mod]

theorem acct_timer {s : St} (h : Acct s) (u ms : Nat) : Acct (setExpiryTimer s u ms) := by
  unfold setExpiryTimer
  split
  · exact h
  · exact acct_same h rfl rfl (mod_length ..) rfl rfl

theorem acct_mod {s : St} (h : Acct s) (u : Nat) (f : Ent → Ent) : Acct (s.mod u f) := acct_same h rfl rfl (mod_length ..) rfl rfl

theorem acct_insert {s : St} (h : Acct s) (i : FwInterest) : Acct (pitInsert s i).1 := by
  unfold pitInsert
  split
  · exact h
  · refine ⟨h.interests, h.data, h.nacks, ?_, h.cap⟩
    have := h.finalized
    simp only [List.length_append, List.length_singleton]
    omega

theorem Prim.acct {a b : St} (p : Prim env Q R a b) (hi : Inv a) (h : Acct a) : Acct b := by
  cases p with
  | aux cs dnl ctr calls cfg hc hdnl =>
    simp only [Counters.outs, Prod.mk.injEq] at hc
    obtain ⟨h1, h2, h3, h4, h5⟩ := hc
    exact ⟨h1.trans h.interests, h2.trans h.data, h3.trans h.nacks, by
      show ctr.nSatisfied + ctr.nUnsatisfied + a.pit.length = a.nextUid
      rw [h4, h5]; exact h.finalized, hdnl h.cap⟩
  | interest u i g _ =>
    unfold onOutgoingInterest
    split
    · split
      · exact h
      · refine ⟨?_, ?_, ?_, ?_, h.cap⟩
        · show _ + 1 = _
          rw [List.countP_append, h.interests]; rfl
        · show a.ctr.nOutData = _
          rw [List.countP_append, h.data]; rfl
        · show a.ctr.nOutNacks = _
          rw [List.countP_append, h.nacks]; rfl
        · show a.ctr.nSatisfied + a.ctr.nUnsatisfied + (a.mod u _).pit.length = a.nextUid
          rw [mod_length]; exact h.finalized
    · exact h
  | data d g =>
    unfold onOutgoingData
    split
    · exact h
    · split
      · exact h
      · refine ⟨?_, ?_, ?_, h.finalized, h.cap⟩
        · show a.ctr.nOutInterests = _
          rw [List.countP_append, h.interests]; rfl
        · show _ + 1 = _
          rw [List.countP_append, h.data]; rfl
        · show a.ctr.nOutNacks = _
          rw [List.countP_append, h.nacks]; rfl
  | nack u r g =>
    unfold onOutgoingNack
    split
    · exact h
    · split
      · exact h
      · split
        · exact h
        · refine ⟨?_, ?_, ?_, ?_, h.cap⟩
          · show a.ctr.nOutInterests = _
            rw [List.countP_append, h.interests]; rfl
          · show a.ctr.nOutData = _
            rw [List.countP_append, h.data]; rfl
          · show _ + 1 = _
            rw [List.countP_append, h.nacks]; rfl
          · show a.ctr.nSatisfied + a.ctr.nUnsatisfied + (a.mod u _).pit.length = a.nextUid
            rw [mod_length]; exact h.finalized
  | nackPkt i r g _ =>
    unfold sendNackPacket
    split
    · exact h
    · refine ⟨?_, ?_, ?_, h.finalized, h.cap⟩
      · show a.ctr.nOutInterests = _
        rw [List.countP_append, h.interests]; rfl
      · show a.ctr.nOutData = _
        rw [List.countP_append, h.data]; rfl
      · show _ + 1 = _
        rw [List.countP_append, h.nacks]; rfl
  | timer u ms => exact acct_timer h u ms
  | record i f fi hr hf hs hd => exact acct_timer (acct_mod (acct_insert h i) _ _) _ _
  | hit i d => exact acct_timer (acct_mod (acct_insert h i) _ _) _ _
  | satisfy => exact acct_mod h _ _
  | delIn => exact acct_mod h _ _
  | delOut => exact acct_mod h _ _
  | clearOut => exact acct_mod h _ _
  | setNack => exact acct_mod h _ _
  | finalize _ t ht hd hf =>
    obtain ⟨e, s2, he, hu, hfin, hpit, -, hdnl, hctr, hsent, -, -, hnu, -⟩ := finalize_spec (env := env) hi ht
    rw [hfin] at hf
    cases hf
    have hlen : (a.pit.filter (fun x => decide (x.uid ≠ t.uid))).length + 1 = a.pit.length := by
      have h1 := hi.uids
      clear hpit hdnl hctr hsent hnu hfin
      revert he h1
      generalize a.pit = l
      intro he h1
      induction l with
      | nil => simp at he
      | cons x l ih =>
        rw [List.map_cons, List.nodup_cons] at h1
        by_cases hx : x.uid = t.uid
        · have : l.filter (fun x => decide (x.uid ≠ t.uid)) = l := by
            rw [List.filter_eq_self]
            intro y hy
            simp only [ne_eq, decide_not, Bool.not_eq_true', decide_eq_false_iff_not]
            intro hc
            exact h1.1 (List.mem_map.2 ⟨y, hy, by rw [hc, hx]⟩)
          rw [List.filter_cons_of_neg (by simpa using hx), this, List.length_cons]
        · rcases List.mem_cons.1 he with rfl | he
          · exact absurd hu hx
          · have := ih he h1.2
            rw [List.filter_cons_of_pos (by simpa using hx)]
            simp only [List.length_cons, this]
    refine ⟨?_, ?_, ?_, ?_, ?_⟩
    · rw [hctr, hsent]; split <;> exact h.interests
    · rw [hctr, hsent]; split <;> exact h.data
    · rw [hctr, hsent]; split <;> exact h.nacks
    · have := h.finalized
      rw [hctr, hpit, hnu]
      split
      · show a.ctr.nSatisfied + 1 + a.ctr.nUnsatisfied + _ = _
        omega
      · show a.ctr.nSatisfied + (a.ctr.nUnsatisfied + 1) + _ = _
        omega
    · rw [hdnl]
      split
      · exact capOk_foldl h.cap
      · exact h.cap

theorem Path.acct {a b : St} (p : Path env Q R a b) (hi : Inv a) (h : Acct a) : Acct b := by
  induction p with
  | refl => exact h
  | head p _ ih => exact ih (p.inv hi) (p.acct hi h)

theorem step_acct {st : Strategy} {s s' : St} {ev : Event} (hi : Inv s) (h : Acct s) (hs : step env st s ev = some s') : Acct s' := by
  cases he : ev.isFrame with
  | false => exact (step_path (any_respects st) he hs).acct hi h
  | true =>
    cases ev with
    | tick dt => cases hs; exact acct_same h rfl rfl rfl rfl rfl
    | addFace f fi =>
      simp only [step] at hs
      cases hs
      split
      · exact h
      · exact acct_same h rfl rfl rfl rfl rfl
    | removeFace f => cases hs; exact acct_same h rfl rfl (by simp [removeFace]) rfl rfl
    | _ => simp [Event.isFrame] at he

theorem reach_acct {n : Nat} : ∀ {l : List (Strategy × Event)} {s : St}, run env (init n) l = some s → Acct s := by
  have key : ∀ {l : List (Strategy × Event)} {s s' : St}, Inv s → Acct s → run env s l = some s' → Acct s' := by
    intro l
    induction l with
    | nil => intro s s' _ h hr; cases hr; exact h
    | cons x l ih =>
      intro s s' hi h hr
      simp only [run, Option.bind_eq_some_iff] at hr
      obtain ⟨s1, h1, h2⟩ := hr
      exact ih (step_inv hi h1) (step_acct hi h h1) h2
  intro l s h
  exact key (init_inv n) ⟨rfl, rfl, rfl, rfl, Dnl.init_capOk⟩ h

end Verif.Fw
