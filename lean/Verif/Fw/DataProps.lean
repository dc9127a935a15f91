import Verif.Fw.DataLemmas
import Verif.Fw.Props

/-
Properties C29, C33 (nonces of answered upstreams) and C72 of the forwarding pipelines.
-/
namespace Verif.Fw

open Tb (FaceId Time FwInterest InRec OutRec PitEntry NextHop)

variable {env : Env} {st : Strategy} {n : Nat} {l : List (Strategy × Event)} {s s' : St}

theorem sendDataList_other {u : Nat} {d : Data} {v : Nat} (hv : v ≠ u) : ∀ {l : List FaceId} {s s' : St},
    sendDataList u d s l = some s' → s'.find v = s.find v
  | [], s, s', h => by cases h; rfl
  | g :: l, s, s', h => by
    simp only [sendDataList, Option.bind_eq_some_iff] at h
    obtain ⟨s1, h1, h2⟩ := h
    rw [sendDataList_other hv h2]
    unfold sendData at h1
    split at h1
    · cases h1; rfl
    · split at h1
      · obtain rfl := Option.some.inj h1
        have := find_other (s := s) hv (f := fun e => { e with toPitEntry := Tb.deleteIn e.toPitEntry g }) (fun _ => rfl)
        unfold St.find at this ⊢
        rw [pit_outgoingData]
        exact this
      · cases h1

/-- The faces an entry's waiting downstreams make up, seen as a condition. -/
theorem okFace_iff {faces : FaceId → Option FaceInfo} {d : Data} {g : FaceId} (hg : (faces g).isSome) :
    okFace faces d g = true ↔ ∀ fi, faces g = some fi → (UnderLocalhost d.name → fi.scope = .loc) := by
  obtain ⟨fi, hfi⟩ := Option.isSome_iff_exists.1 hg
  unfold okFace
  rw [hfi]
  simp only [Option.any_some, Option.some.injEq, forall_eq', ← localhost_iff]
  cases fi.scope <;> simp

theorem sendsBack_iff {s : St} {f g : FaceId} (hg : (s.faces g).isSome) :
    sendsBack s f g = true ↔ ∀ fi, s.faces g = some fi → (g = f → fi.link = .adHoc) := by
  obtain ⟨fi, hfi⟩ := Option.isSome_iff_exists.1 hg
  unfold sendsBack
  rw [hfi]
  simp only [Option.any_some, Option.some.injEq, forall_eq']
  cases fi.link <;> simp

/-- How much of C29 is known once the list of faces is. -/
theorem count_of_list {L : List FaceId} (hn : L.Nodup) {pre : List Pkt} (hp : ∀ g d, .data g d ∉ pre) {d : Data} {P : FaceId → Prop}
    (hL : ∀ g, g ∈ L ↔ P g) {s s' : St} (h : s'.sent = s.sent ++ (pre ++ L.map (.data · d))) :
    ∃ new, Emits s s' new ∧ (∀ g, (P g → new.count (.data g d) = 1) ∧ (¬P g → new.count (.data g d) = 0)) ∧
      ∀ g d', .data g d' ∈ new → d' = d := by
  refine ⟨_, h, ?_, ?_⟩
  · intro g
    have h0 : pre.count (.data g d) = 0 := List.count_eq_zero.2 (hp g d)
    rw [List.count_append, h0, count_data hn, Nat.zero_add]
    constructor
    · intro hg; rw [if_pos ((hL g).2 hg)]
    · intro hg; rw [if_neg (fun hc => hg ((hL g).1 hc))]
  · intro g d' hm
    rcases List.mem_append.1 hm with hm | hm
    · exact absurd hm (hp g d')
    · rw [List.mem_map] at hm
      obtain ⟨x, -, hx⟩ := hm
      cases hx; rfl

/-- Everything C29 says about a Data event, at once. -/
structure DataOutcome (s s' : St) (d : Data) (f : FaceId) : Prop where
  sent : ∃ new, Emits s s' new ∧ (∀ g, (Waits s d f g → new.count (.data g d) = 1) ∧ (¬Waits s d f g → new.count (.data g d) = 0)) ∧
      ∀ g d', .data g d' ∈ new → d' = d
  satisfied : ∀ e ∈ s.pit, e.interest.matchesData d = true →
      ∃ e' ∈ s'.pit, e'.uid = e.uid ∧ e'.satisfied = true ∧ e'.freshness = d.freshness
  others : ∀ e ∈ s.pit, e.interest.matchesData d = false →
      ∃ e' ∈ s'.pit, e'.uid = e.uid ∧ e'.ins = e.ins ∧ e'.satisfied = e.satisfied ∧ e'.freshness = e.freshness

theorem find_isSome_of_uids {a b : St} (h : b.pit.map (·.uid) = a.pit.map (·.uid)) {u : Nat} (ha : (a.find u).isSome) :
    (b.find u).isSome := by
  obtain ⟨e, he⟩ := Option.isSome_iff_exists.1 ha
  obtain ⟨h1, h2⟩ := find_some he
  have : u ∈ b.pit.map (·.uid) := by rw [h]; exact List.mem_map.2 ⟨e, h1, h2⟩
  obtain ⟨e', h3, h4⟩ := List.mem_map.1 this
  unfold St.find
  rw [List.find?_isSome]
  exact ⟨e', h3, by simpa using h4⟩

theorem one_spec {a : St} (hi : Inv a) (hst : PlainData st) {d : Data} {f : FaceId} {u : Nat}
    (hu : (dataMatches a d).map (·.uid) = [u]) (h : satisfyOne env st a d f u = some s') : DataOutcome a s' d f := by
  -- the entry
  obtain ⟨e, he, heu⟩ : ∃ e, dataMatches a d = [e] ∧ e.uid = u := by
    cases hm : dataMatches a d with
    | nil => rw [hm] at hu; simp at hu
    | cons e l => rw [hm] at hu; simp at hu; exact ⟨e, by rw [hu.2], hu.1⟩
  have hmem : ∀ x, x ∈ a.pit ∧ x.interest.matchesData d = true ↔ x = e := by
    intro x
    have : x ∈ dataMatches a d ↔ x = e := by rw [he]; simp
    rw [← this]; simp [dataMatches]
  obtain ⟨hep, hem⟩ := (hmem e).2 rfl
  have hfe : a.find u = some e := by rw [← heu]; exact find_mem hi.uids hep
  unfold satisfyOne at h
  rw [Option.map_eq_some_iff] at h
  obtain ⟨s3, h1, h3⟩ := h
  unfold call at h1
  obtain ⟨pre, hpre, hsil⟩ := hst (setExpiryTimer a u 0) (.afterReceiveData d f u)
  rw [hpre, acts_append, Option.bind_eq_some_iff] at h1
  obtain ⟨s2, h1, h2⟩ := h1
  have hsame : Same a s2 := (same_timer a u 0).trans
    (Same.trans (b := { setExpiryTimer a u 0 with calls := (setExpiryTimer a u 0).calls ++ [.afterReceiveData d f u] })
      ⟨rfl, rfl, rfl, [], by simp, by simp⟩ (same_acts hsil h1))
  have h2' : sendDataToAll s2 u d f = some s3 := by
    simp only [acts, act, Option.bind_eq_some_iff] at h2
    obtain ⟨x, hx, hx'⟩ := h2
    cases hx'; exact hx
  have hv := find_view (fun _ => rfl) hsame.pit u
  rw [hfe] at hv
  obtain ⟨e2, he2, hv⟩ := Option.map_eq_some_iff.1 hv
  simp only [view, Prod.mk.injEq] at hv
  unfold sendDataToAll at h2'
  rw [he2] at h2'
  simp only at h2'
  obtain ⟨k1, k2, -⟩ := sendDataList_sent ⟨e2, he2⟩ h2'
  have hfin : s'.sent = s3.sent ∧ s'.pit.map (·.uid) = s3.pit.map (·.uid) ∧
      (∀ v, v ≠ u → s'.find v = s3.find v) ∧ (∀ x, s'.find u = some x → x.satisfied = true ∧ x.freshness = d.freshness) := by
    obtain ⟨q1, q2, -⟩ := sent_dnl (env := env) (s3.mod u (fun e => { e with satisfied := true, freshness := d.freshness })) u (some f)
    rw [← h3]
    unfold satisfyEntry
    refine ⟨q1, ?_, ?_, ?_⟩
    · rw [mod_uids (by exact fun _ => rfl), q2, mod_uids (by exact fun _ => rfl)]
    · intro v hv
      rw [find_other hv (by exact fun _ => rfl)]
      unfold St.find
      rw [q2]
      exact find_other (s := s3) hv (f := fun e => { e with satisfied := true, freshness := d.freshness }) (fun _ => rfl)
    · intro x hx
      rw [mod_find_self (by exact fun _ => rfl)] at hx
      have : (insertDeadNonceList env (s3.mod u (fun e => { e with satisfied := true, freshness := d.freshness })) u (some f)).find u =
          (s3.find u).map (fun e => { e with satisfied := true, freshness := d.freshness }) := by
        unfold St.find
        rw [q2]
        exact mod_find_self (s := s3) (u := u) (f := fun e => { e with satisfied := true, freshness := d.freshness }) (fun _ => rfl)
      rw [this, Option.map_map, Option.map_eq_some_iff] at hx
      obtain ⟨y, -, rfl⟩ := hx
      exact ⟨rfl, rfl⟩
  obtain ⟨j1, j2, j3, j4⟩ := hfin
  have huids : s'.pit.map (·.uid) = a.pit.map (·.uid) := by
    have hA : ∀ (a : St), (a.pit.map view).map (·.1) = a.pit.map (·.uid) := by intro a; rw [List.map_map]; rfl
    have hB : ∀ (a : St), (a.pit.map viewOut).map (·.1) = a.pit.map (·.uid) := by intro a; rw [List.map_map]; rfl
    rw [j2, ← hB, k2, hB, ← hA, hsame.pit, hA]
  refine ⟨?_, ?_, ?_⟩
  · obtain ⟨pk, hpk1, hpk2⟩ := hsame.sent
    refine count_of_list (L := (pendingDownstreams s2 e2 f).filter (okFace s2.faces d)) (pre := pk) ?_ hpk2 ?_ ?_
    · exact List.Nodup.sublist List.filter_sublist (nodup_eraseDups _)
    · intro g
      simp only [pendingDownstreams, List.mem_filter, List.mem_eraseDups, List.mem_map, Bool.and_eq_true, decide_eq_true_eq]
      rw [hsame.now, hsame.faces, hv.2.1]
      constructor
      · rintro ⟨⟨r, ⟨hr, hx, hb⟩, hrg⟩, hok⟩
        have hex : (a.faces g).isSome := by rw [← hrg]; exact (hi.ents e hep).inFace r hr
        have hb' : sendsBack a f g = true := by
          unfold sendsBack at hb ⊢; rw [hsame.faces] at hb; rw [← hrg]; exact hb
        refine ⟨⟨e, hep, hem, r, hr, hrg, hx⟩, ?_⟩
        intro fi hfi
        exact ⟨(sendsBack_iff hex).1 hb' fi hfi, (okFace_iff hex).1 hok fi hfi⟩
      · rintro ⟨⟨e', hep', hem', r, hr, hrg, hx⟩, hfi⟩
        obtain rfl := (hmem e').1 ⟨hep', hem'⟩
        have hex : (a.faces g).isSome := by rw [← hrg]; exact (hi.ents _ hep).inFace r hr
        refine ⟨⟨r, ⟨hr, hx, ?_⟩, hrg⟩, (okFace_iff hex).2 (fun fi h => (hfi fi h).2)⟩
        have : sendsBack a f g = true := (sendsBack_iff hex).2 (fun fi h => (hfi fi h).1)
        unfold sendsBack at this ⊢
        rw [hsame.faces, hrg]; exact this
    · rw [j1, k1, hpk1, List.append_assoc]
  · intro x hx hxm
    obtain rfl := (hmem x).1 ⟨hx, hxm⟩
    obtain ⟨y, hy⟩ := Option.isSome_iff_exists.1 (find_isSome_of_uids huids (u := u) (by rw [hfe]; rfl))
    exact ⟨y, (find_some hy).1, by rw [(find_some hy).2, heu], j4 y hy⟩
  · intro x hx hxm
    have hxu : x.uid ≠ u := by
      intro hc
      have := eq_of_uid hi.uids hx hep (hc.trans heu.symm)
      rw [this, hem] at hxm; cases hxm
    have h5 : (s'.find x.uid).map view = some (view x) := by
      rw [j3 _ hxu, sendDataList_other hxu h2', find_view (fun _ => rfl) hsame.pit, find_mem hi.uids hx]; rfl
    obtain ⟨y, hy, hyv⟩ := Option.map_eq_some_iff.1 h5
    simp only [view, Prod.mk.injEq] at hyv
    exact ⟨y, (find_some hy).1, hyv.1, hyv.2.1, hyv.2.2.2.1, hyv.2.2.2.2⟩

theorem many_spec {a : St} (hi : Inv a) (hst : PlainData st) {d : Data} {f : FaceId}
    {us : List Nat} (hus : us = (dataMatches a d).map (·.uid)) (h : satisfyMany env st a d f us = some s') : DataOutcome a s' d f := by
  subst hus
  unfold satisfyMany at h
  rw [Option.map_eq_some_iff] at h
  obtain ⟨r, h1, h2⟩ := h
  have hnd : ((dataMatches a d).map (·.uid)).Nodup := (List.Sublist.map _ List.filter_sublist).nodup hi.uids
  obtain ⟨b1, b2, b3, ⟨pk, b4, b4'⟩, b5, b6, b7⟩ := satisfyAll_spec hst hnd h1
  obtain ⟨k1, k2, -⟩ := dataList_sent d (r.2.eraseDups.filter (sendsBack r.1 f)) r.1
  rw [h2] at k1 k2
  have hfind : ∀ v, s'.find v = r.1.find v := by intro v; unfold St.find; rw [k2]
  have hin : ∀ e, e ∈ a.pit → (e.uid ∈ (dataMatches a d).map (·.uid) ↔ e.interest.matchesData d = true) := by
    intro e he
    simp only [dataMatches, List.mem_map, List.mem_filter]
    constructor
    · rintro ⟨x, ⟨hx, hxm⟩, hxu⟩
      rw [← eq_of_uid hi.uids hx he hxu]; exact hxm
    · intro hm; exact ⟨e, ⟨he, hm⟩, rfl⟩
  refine ⟨?_, ?_, ?_⟩
  · refine count_of_list (L := (r.2.eraseDups.filter (sendsBack r.1 f)).filter (okFace r.1.faces d)) (pre := pk) ?_ b4' ?_ ?_
    · exact List.Nodup.sublist List.filter_sublist (List.Nodup.sublist List.filter_sublist (nodup_eraseDups _))
    · intro g
      simp only [List.mem_filter, List.mem_eraseDups]
      rw [b1, List.nil_append, List.mem_flatMap]
      have hwt : ∀ e ∈ a.pit, (g ∈ waiting a e.uid ↔ ∃ x ∈ e.ins, x.face = g ∧ a.now < x.expiry) := by
        intro e he
        unfold waiting
        rw [find_mem hi.uids he]
        simp only [Option.map_some, Option.getD_some, List.mem_map, List.mem_filter, decide_eq_true_eq]
        constructor
        · rintro ⟨x, ⟨h1, h2⟩, h3⟩; exact ⟨x, h1, h3, h2⟩
        · rintro ⟨x, h1, h3, h2⟩; exact ⟨x, ⟨h1, h2⟩, h3⟩
      have hsb : sendsBack r.1 f g = sendsBack a f g := by unfold sendsBack; rw [b2]
      rw [hsb, b2]
      constructor
      · rintro ⟨⟨⟨u, hu, hg⟩, hb⟩, hok⟩
        simp only [dataMatches, List.mem_map, List.mem_filter] at hu
        obtain ⟨e, ⟨hep, hem⟩, rfl⟩ := hu
        obtain ⟨x, hx, hxg, hxe⟩ := (hwt e hep).1 hg
        have hex : (a.faces g).isSome := by rw [← hxg]; exact (hi.ents e hep).inFace x hx
        exact ⟨⟨e, hep, hem, x, hx, hxg, hxe⟩, fun fi hfi => ⟨(sendsBack_iff hex).1 hb fi hfi, (okFace_iff hex).1 hok fi hfi⟩⟩
      · rintro ⟨⟨e, hep, hem, x, hx, hxg, hxe⟩, hfi⟩
        have hex : (a.faces g).isSome := by rw [← hxg]; exact (hi.ents e hep).inFace x hx
        exact ⟨⟨⟨e.uid, (hin e hep).2 hem, (hwt e hep).2 ⟨x, hx, hxg, hxe⟩⟩, (sendsBack_iff hex).2 (fun fi h => (hfi fi h).1)⟩,
          (okFace_iff hex).2 (fun fi h => (hfi fi h).2)⟩
    · rw [k1, b4, List.append_assoc]
  · intro x hx hxm
    obtain ⟨y, hy⟩ := Option.isSome_iff_exists.1 (find_isSome_of_uids b5 (u := x.uid) (by rw [find_mem hi.uids hx]; rfl))
    have hy' : s'.find x.uid = some y := (hfind _).trans hy
    exact ⟨y, (find_some hy').1, (find_some hy').2, b7 x.uid ((hin x hx).2 hxm) y hy⟩
  · intro x hx hxm
    have hxu : x.uid ∉ (dataMatches a d).map (·.uid) := by
      intro hc; rw [(hin x hx).1 hc] at hxm; cases hxm
    have h5 : (s'.find x.uid).map view = some (view x) := by
      rw [hfind, b6 _ hxu, find_mem hi.uids hx]; rfl
    obtain ⟨y, hy, hyv⟩ := Option.map_eq_some_iff.1 h5
    simp only [view, Prod.mk.injEq] at hyv
    exact ⟨y, (find_some hy).1, hyv.1, hyv.2.1, hyv.2.2.2.1, hyv.2.2.2.2⟩

theorem DataOutcome.congr {a s s' : St} {d : Data} {f : FaceId} (h : DataOutcome a s' d f) (h1 : s.pit = a.pit) (h2 : s.faces = a.faces)
    (h3 : s.now = a.now) (h4 : s.sent = a.sent) : DataOutcome s s' d f := by
  obtain ⟨x1, x2, x3⟩ := h
  refine ⟨?_, by rw [h1]; exact x2, by rw [h1]; exact x3⟩
  have hw : Waits s d f = Waits a d f := by funext g; unfold Waits; rw [h1, h2, h3]
  unfold Emits at x1 ⊢
  rw [hw, h4]; exact x1

theorem data_spec (hi : Inv s) (hst : PlainData st) {d : Data} {f : FaceId} {fi : FaceInfo} (hf : s.faces f = some fi)
    (hsc : ¬(fi.scope = .nonLocal ∧ UnderLocalhost d.name)) (h : step env st s (.data d f) = some s') : DataOutcome s s' d f := by
  simp only [step, onIncomingData, hf] at h
  rw [if_neg (by rw [localhost_iff]; exact hsc)] at h
  split at h
  · rename_i hu
    have hno : ∀ e ∈ s.pit, e.interest.matchesData d ≠ true := by
      intro e he hm
      have : e ∈ dataMatches s d := List.mem_filter.2 ⟨he, hm⟩
      rw [List.map_eq_nil_iff] at hu
      have hu' : dataMatches s d = [] := hu
      rw [hu'] at this; cases this
    have hpit : s'.pit = s.pit ∧ s'.sent = s.sent := by
      unfold onDataUnsolicited at h
      simp only at h
      split at h
      · rw [Option.map_eq_some_iff] at h
        obtain ⟨c, -, rfl⟩ := h
        exact ⟨rfl, rfl⟩
      · obtain rfl := Option.some.inj h
        exact ⟨rfl, rfl⟩
    refine ⟨⟨[], by simp [Emits, hpit.2], ?_, by simp⟩, ?_, ?_⟩
    · intro g
      refine ⟨?_, fun _ => rfl⟩
      rintro ⟨⟨e, he, hm, -⟩, -⟩
      exact absurd hm (hno e he)
    · intro e he hm; exact absurd hm (hno e he)
    · intro e he _; exact ⟨e, by rw [hpit.1]; exact he, rfl, rfl, rfl, rfl⟩
  · rename_i u hu
    rw [Option.bind_eq_some_iff] at h
    obtain ⟨c, -, h⟩ := h
    refine DataOutcome.congr (one_spec ?_ hst ?_ h) rfl rfl rfl rfl
    · exact InvX.congr hi rfl rfl rfl rfl rfl
    · exact hu
  · rw [Option.bind_eq_some_iff] at h
    obtain ⟨c, -, h⟩ := h
    refine DataOutcome.congr (many_spec ?_ hst rfl h) rfl rfl rfl rfl
    exact InvX.congr hi rfl rfl rfl rfl rfl

/-! ### C29: Data goes to exactly the waiting downstreams -/

/-- C29: in every reachable state, a Data that scope control lets in is sent, unmodified and once, to each face that waits for it
and to no other face, and no other Data is sent. -/
theorem C29_downstreams (hr : run env (init n) l = some s) (hst : PlainData st) {d : Data} {f : FaceId} {fi : FaceInfo}
    (hf : s.faces f = some fi) (hsc : ¬(fi.scope = .nonLocal ∧ UnderLocalhost d.name)) (h : step env st s (.data d f) = some s') :
    ∃ new, Emits s s' new ∧
      (∀ g, (Waits s d f g → new.count (.data g d) = 1) ∧ (¬Waits s d f g → new.count (.data g d) = 0)) ∧
      ∀ g d', .data g d' ∈ new → d' = d :=
  (data_spec (reach_inv hr) hst hf hsc h).sent

/-- C29: every pending Interest the Data satisfies is then satisfied, with the freshness period of the Data; the others keep their
downstreams and their status. -/
theorem C29_entries (hr : run env (init n) l = some s) (hst : PlainData st) {d : Data} {f : FaceId} {fi : FaceInfo}
    (hf : s.faces f = some fi) (hsc : ¬(fi.scope = .nonLocal ∧ UnderLocalhost d.name)) (h : step env st s (.data d f) = some s') :
    (∀ e ∈ s.pit, e.interest.matchesData d = true →
      ∃ e' ∈ s'.pit, e'.uid = e.uid ∧ e'.satisfied = true ∧ e'.freshness = d.freshness) ∧
    (∀ e ∈ s.pit, e.interest.matchesData d = false →
      ∃ e' ∈ s'.pit, e'.uid = e.uid ∧ e'.ins = e.ins ∧ e'.satisfied = e.satisfied ∧ e'.freshness = e.freshness) :=
  ⟨(data_spec (reach_inv hr) hst hf hsc h).satisfied, (data_spec (reach_inv hr) hst hf hsc h).others⟩


/-- C29: two entries match; 257 waits in both and gets the Data once. -/
example : (run exEnv (init 10) (exPending ++ [(exStrategy, .data exData 258)])).any
    (fun s => decide (s.sent.drop 4 = [.data 259 exData, .data 256 exData, .data 257 exData])) = true := by decide +kernel

/-- C29: Data that arrives on an ad hoc face that asked for it goes back there. -/
example : (run exEnv (init 10) (exPending ++ [(exStrategy, .data exData 259)])).any
    (fun s => decide (s.sent.drop 4 = [.data 259 exData, .data 256 exData, .data 257 exData])) = true := by decide +kernel

/-- C29: a point-to-point face does not get back what it sent. -/
example : (run exEnv (init 10) (exPending ++ [(exStrategy, .data exData 257)])).any
    (fun s => decide (s.sent.drop 4 = [.data 259 exData, .data 256 exData])) = true := by decide +kernel

/-! ### C33: nonces of answered upstreams -/

/-- The nonce an answered entry leaves in the Dead Nonce List. -/
def answerOps (env : Env) (d : Data) (f : FaceId) (e : Ent) : List Dnl.Op :=
  if e.interest.mustBeFresh = true ∧ d.freshness < env.dnlLifetime then
    ((e.outs.find? (·.face == f)).map (fun r => .add e.interest.name r.nonce)).toList
  else []

theorem answer_dnl {a : St} {u : Nat} {e : Ent} (he : a.find u = some e) (d : Data) (f : FaceId) :
    (insertDeadNonceList env (a.mod u (fun e => { e with satisfied := true, freshness := d.freshness })) u (some f)).dnl =
      Dnl.Dnl.run env.hash a.dnl (answerOps env d f e) := by
  unfold insertDeadNonceList
  rw [mod_find_self (by exact fun _ => rfl), he]
  simp only [Option.map_some, needDnl, dnlRecords, answerOps, Bool.and_eq_true, decide_eq_true_eq, if_true]
  split
  · cases hc : e.outs.find? (·.face == f) with
    | none => rfl
    | some r => rfl
  · rfl

/-- What decides about nonces. -/
def viewDnl (e : Ent) : Nat × FwInterest × List OutRec := (e.uid, e.interest, e.outs)

theorem answerOps_congr {d : Data} {f : FaceId} {e e' : Ent} (h : viewDnl e = viewDnl e') : answerOps env d f e = answerOps env d f e' := by
  simp only [viewDnl, Prod.mk.injEq] at h
  unfold answerOps
  rw [h.2.1, h.2.2]

theorem viewDnl_timer (s : St) (u ms : Nat) : (setExpiryTimer s u ms).pit.map viewDnl = s.pit.map viewDnl := by
  unfold setExpiryTimer
  split
  · rfl
  · exact map_mod (u := u) (f := fun e => { e with timer := some s.nextTimer }) (fun _ => rfl)

theorem satisfyStep_dnl (hst : BasicData st) {a : St} {d : Data} {f : FaceId} {u : Nat} {acc : List FaceId}
    {r : St × List FaceId} {e : Ent} (he : a.find u = some e) (h : satisfyStep env st a d f u acc = some r) :
    r.1.dnl = Dnl.Dnl.run env.hash a.dnl (answerOps env d f e) ∧ ∀ v, v ≠ u → (r.1.find v).map viewDnl = (a.find v).map viewDnl := by
  unfold satisfyStep call at h
  rw [hst _ (.beforeSatisfyInterest d f u)] at h
  simp only [acts, Option.map_some, Option.some.injEq] at h
  subst h
  have hv := find_view (v := viewDnl) (fun _ => rfl) (viewDnl_timer a u 0) u
  rw [he] at hv
  obtain ⟨e1, he1, hv⟩ := Option.map_eq_some_iff.1 hv
  constructor
  · refine (answer_dnl (env := env) (a := { setExpiryTimer a u 0 with calls := (setExpiryTimer a u 0).calls ++ [.beforeSatisfyInterest d f u] })
      he1 d f).trans ?_
    show Dnl.Dnl.run env.hash (setExpiryTimer a u 0).dnl (answerOps env d f e1) = _
    rw [answerOps_congr hv, (acted_timer [] a u 0).dnl]
  · intro v hv
    rw [find_other hv (by exact fun _ => rfl)]
    rw [← find_view (v := viewDnl) (fun _ => rfl) (viewDnl_timer a u 0) v]
    unfold St.find
    rw [(sent_dnl ..).2.1]
    exact congrArg _ (find_other (s := { setExpiryTimer a u 0 with calls := (setExpiryTimer a u 0).calls ++ [.beforeSatisfyInterest d f u] })
      hv (f := fun e => { e with satisfied := true, freshness := d.freshness }) (fun _ => rfl))

theorem dnl_run_append (hash : Name → Nat → Dnl.Entry) : ∀ (l m : List Dnl.Op) (d : Dnl.Dnl),
    Dnl.Dnl.run hash d (l ++ m) = Dnl.Dnl.run hash (Dnl.Dnl.run hash d l) m
  | [], _, _ => rfl
  | x :: l, m, d => dnl_run_append hash l m (d.step hash x)

theorem satisfyAll_dnl (hst : BasicData st) {d : Data} {f : FaceId} : ∀ {us : List Nat} {a : St} {acc : List FaceId}
    {r : St × List FaceId}, us.Nodup → (∀ u ∈ us, (a.find u).isSome) → satisfyAll env st d f a us acc = some r →
    r.1.dnl = Dnl.Dnl.run env.hash a.dnl (us.flatMap (fun u => ((a.find u).map (answerOps env d f)).getD []))
  | [], a, acc, r, _, _, h => by cases h; rfl
  | u :: us, a, acc, r, hn, hex, h => by
    rw [List.nodup_cons] at hn
    simp only [satisfyAll, Option.bind_eq_some_iff] at h
    obtain ⟨r1, h1, h2⟩ := h
    obtain ⟨e, he⟩ := Option.isSome_iff_exists.1 (hex u (List.mem_cons_self ..))
    obtain ⟨a1, a2⟩ := satisfyStep_dnl hst he h1
    have hfm : ∀ v, v ∈ us → (r1.1.find v).map viewDnl = (a.find v).map viewDnl := fun v hv => a2 v (fun hc => hn.1 (hc ▸ hv))
    have hex' : ∀ v ∈ us, (r1.1.find v).isSome := by
      intro v hv
      have := congrArg Option.isSome (hfm v hv)
      rw [Option.isSome_map, Option.isSome_map] at this
      rw [this]; exact hex v (List.mem_cons_of_mem _ hv)
    rw [satisfyAll_dnl hst hn.2 hex' h2, a1, List.flatMap_cons, he, dnl_run_append]
    simp only [Option.map_some, Option.getD_some]
    congr 1
    have : ∀ us : List Nat, (∀ v ∈ us, (r1.1.find v).map viewDnl = (a.find v).map viewDnl) →
        us.flatMap (fun u => ((r1.1.find u).map (answerOps env d f)).getD []) = us.flatMap (fun u => ((a.find u).map (answerOps env d f)).getD []) := by
      intro us
      induction us with
      | nil => intro _; rfl
      | cons v us ih =>
        intro hv
        rw [List.flatMap_cons, List.flatMap_cons, ih (fun w hw => hv w (List.mem_cons_of_mem _ hw))]
        congr 1
        have h0 := hv v (List.mem_cons_self ..)
        cases h3 : r1.1.find v with
        | none => rw [h3] at h0; cases h4 : a.find v with
          | none => rfl
          | some y => rw [h4] at h0; simp at h0
        | some x => rw [h3] at h0; cases h4 : a.find v with
          | none => rw [h4] at h0; simp at h0
          | some y =>
            rw [h4] at h0
            simp only [Option.map_some, Option.some.injEq] at h0
            simp only [Option.map_some, Option.getD_some]
            exact answerOps_congr h0
    exact this us hfm

theorem one_dnl {a : St} (hi : Inv a) (hst : BasicData st) {d : Data} {f : FaceId} {u : Nat}
    (hu : (dataMatches a d).map (·.uid) = [u]) (h : satisfyOne env st a d f u = some s') :
    s'.dnl = Dnl.Dnl.run env.hash a.dnl ((dataMatches a d).flatMap (answerOps env d f)) := by
  obtain ⟨e, he, heu⟩ : ∃ e, dataMatches a d = [e] ∧ e.uid = u := by
    cases hm : dataMatches a d with
    | nil => rw [hm] at hu; simp at hu
    | cons e l => rw [hm] at hu; simp at hu; exact ⟨e, by rw [hu.2], hu.1⟩
  have hep : e ∈ a.pit := (List.mem_filter.1 (show e ∈ dataMatches a d by rw [he]; simp)).1
  have hfe : a.find u = some e := by rw [← heu]; exact find_mem hi.uids hep
  unfold satisfyOne call at h
  rw [hst _ (.afterReceiveData d f u), Option.map_eq_some_iff] at h
  obtain ⟨s3, h1, h3⟩ := h
  simp only [acts, act, Option.bind_eq_some_iff] at h1
  obtain ⟨s2, h1, h2⟩ := h1
  obtain rfl := Option.some.inj h2
  have hv := find_view (v := viewDnl) (fun _ => rfl) (viewDnl_timer a u 0) u
  rw [hfe] at hv
  obtain ⟨e1, he1, hv⟩ := Option.map_eq_some_iff.1 hv
  unfold sendDataToAll at h1
  have he1' : St.find { setExpiryTimer a u 0 with calls := (setExpiryTimer a u 0).calls ++ [.afterReceiveData d f u] } u = some e1 := he1
  rw [he1'] at h1
  obtain ⟨-, k2, k3⟩ := sendDataList_sent ⟨e1, he1'⟩ h1
  have hv2 := find_view (v := viewOut) (fun _ => rfl) k2 u
  rw [he1'] at hv2
  obtain ⟨e2, he2, hv2⟩ := Option.map_eq_some_iff.1 hv2
  have : viewDnl e2 = viewDnl e := by
    rw [← hv]
    simp only [viewOut, Prod.mk.injEq] at hv2
    simp only [viewDnl, Prod.mk.injEq]
    exact ⟨hv2.1, hv2.2.1, hv2.2.2.1⟩
  rw [he, List.flatMap_cons, List.flatMap_nil, List.append_nil, ← answerOps_congr this, ← h3]
  refine (answer_dnl (env := env) he2 d f).trans ?_
  rw [k3]
  show Dnl.Dnl.run env.hash (setExpiryTimer a u 0).dnl _ = _
  rw [(acted_timer [] a u 0).dnl]

theorem many_dnl {a : St} (hi : Inv a) (hst : BasicData st) {d : Data} {f : FaceId} {us : List Nat}
    (hus : us = (dataMatches a d).map (·.uid)) (h : satisfyMany env st a d f us = some s') :
    s'.dnl = Dnl.Dnl.run env.hash a.dnl ((dataMatches a d).flatMap (answerOps env d f)) := by
  subst hus
  unfold satisfyMany at h
  rw [Option.map_eq_some_iff] at h
  obtain ⟨r, h1, h2⟩ := h
  have hfind : ∀ e ∈ dataMatches a d, a.find e.uid = some e := fun e he => find_mem hi.uids (List.mem_filter.1 he).1
  have hd := satisfyAll_dnl hst ((List.Sublist.map _ List.filter_sublist).nodup hi.uids) (by
    intro u hu
    obtain ⟨e, he, rfl⟩ := List.mem_map.1 hu
    rw [hfind e he]; rfl) h1
  rw [← h2, (dataList_sent ..).2.2, hd, List.flatMap_map]
  congr 1
  have : ∀ l : List Ent, (∀ e ∈ l, a.find e.uid = some e) →
      l.flatMap (fun x => ((a.find x.uid).map (answerOps env d f)).getD []) = l.flatMap (answerOps env d f) := by
    intro l
    induction l with
    | nil => intro _; rfl
    | cons e l ih =>
      intro hl
      rw [List.flatMap_cons, List.flatMap_cons, ih (fun x hx => hl x (List.mem_cons_of_mem _ hx)), hl e (List.mem_cons_self ..)]
      rfl
  exact this _ hfind

/-- C33: the nonces a Data puts in the Dead Nonce List are exactly those last sent to its sender in the pending Interests it
satisfies, provided they asked for fresh Data and the Data's freshness period is shorter than the lifetime of the list. -/
theorem C33_answer (hr : run env (init n) l = some s) (hst : BasicData st) {d : Data} {f : FaceId} {fi : FaceInfo}
    (hf : s.faces f = some fi) (hsc : ¬(fi.scope = .nonLocal ∧ UnderLocalhost d.name)) (h : step env st s (.data d f) = some s') :
    ∃ ops, s'.dnl = Dnl.Dnl.run env.hash s.dnl ops ∧ ops.length ≤ s.pit.length ∧
      ∀ op, op ∈ ops ↔ ∃ e ∈ s.pit, e.interest.matchesData d = true ∧ e.interest.mustBeFresh = true ∧ d.freshness < env.dnlLifetime ∧
        ∃ r ∈ e.outs, r.face = f ∧ op = .add e.interest.name r.nonce := by
  have hi := reach_inv hr
  refine ⟨(dataMatches s d).flatMap (answerOps env d f), ?_, ?_, ?_⟩
  · simp only [step, onIncomingData, hf] at h
    rw [if_neg (by rw [localhost_iff]; exact hsc)] at h
    split at h
    · rename_i hu
      have hu' : dataMatches s d = [] := List.map_eq_nil_iff.1 hu
      rw [hu']
      unfold onDataUnsolicited at h
      simp only at h
      split at h
      · rw [Option.map_eq_some_iff] at h
        obtain ⟨c, -, rfl⟩ := h
        rfl
      · obtain rfl := Option.some.inj h
        rfl
    · rename_i u hu
      rw [Option.bind_eq_some_iff] at h
      obtain ⟨c, -, h⟩ := h
      refine (one_dnl ?_ hst ?_ h).trans rfl
      · exact InvX.congr hi rfl rfl rfl rfl rfl
      · exact hu
    · rw [Option.bind_eq_some_iff] at h
      obtain ⟨c, -, h⟩ := h
      refine (many_dnl ?_ hst rfl h).trans rfl
      exact InvX.congr hi rfl rfl rfl rfl rfl
  · have : ∀ l : List Ent, (l.flatMap (answerOps env d f)).length ≤ l.length := by
      intro l
      induction l with
      | nil => simp
      | cons e l ih =>
        rw [List.flatMap_cons, List.length_append, List.length_cons]
        have : (answerOps env d f e).length ≤ 1 := by
          unfold answerOps
          split
          · cases e.outs.find? (·.face == f) <;> simp
          · simp
        omega
    exact Nat.le_trans (this _) (List.length_filter_le ..)
  · intro op
    rw [List.mem_flatMap]
    constructor
    · rintro ⟨e, he, hop⟩
      obtain ⟨he, hm⟩ := List.mem_filter.1 he
      unfold answerOps at hop
      split at hop
      · rename_i hc
        rw [Option.mem_toList, Option.map_eq_some_iff] at hop
        obtain ⟨r, hr1, rfl⟩ := hop
        exact ⟨e, he, hm, hc.1, hc.2, r, List.mem_of_find?_eq_some hr1, by simpa using List.find?_some hr1, rfl⟩
      · cases hop
    · rintro ⟨e, he, hm, hmb, hfr, r, hr1, hrf, rfl⟩
      refine ⟨e, List.mem_filter.2 ⟨he, hm⟩, ?_⟩
      unfold answerOps
      rw [if_pos ⟨hmb, hfr⟩, Option.mem_toList, Option.map_eq_some_iff]
      refine ⟨r, ?_, rfl⟩
      rw [← hrf]
      exact find?_of_nodup (k := fun r : OutRec => r.face) (hi.ents e he).recs.2 hr1

/-- C33: so each of them is in the list afterwards, while fewer than 1024 Interests are pending. -/
theorem C33_answer_remembered (hr : run env (init n) l = some s) (hst : BasicData st) {d : Data} {f : FaceId} {fi : FaceInfo}
    (hf : s.faces f = some fi) (hsc : ¬(fi.scope = .nonLocal ∧ UnderLocalhost d.name)) (h : step env st s (.data d f) = some s')
    (hfew : s.pit.length < 1024) {e : Ent} {r : OutRec} (he : e ∈ s.pit) (hm : e.interest.matchesData d = true)
    (hmb : e.interest.mustBeFresh = true) (hfr : d.freshness < env.dnlLifetime) (hr1 : r ∈ e.outs) (hrf : r.face = f) :
    s'.dnl.has env.hash e.interest.name r.nonce = true := by
  obtain ⟨ops, h1, h2, h3⟩ := C33_answer hr hst hf hsc h
  have hop := (h3 (.add e.interest.name r.nonce)).2 ⟨e, he, hm, hmb, hfr, r, hr1, hrf, rfl⟩
  obtain ⟨p, q, hpq⟩ := List.append_of_mem hop
  rw [h1, hpq, dnl_run_append]
  refine has_after_add ?_ _ _ q ?_
  · have : ∀ (p : List Dnl.Op) (d : Dnl.Dnl), Dnl.CapOk d → Dnl.CapOk (Dnl.Dnl.run env.hash d p) := by
      intro p
      induction p with
      | nil => intro d hd; exact hd
      | cons x p ih => intro d hd; exact ih _ (Dnl.capOk_step hd env.hash x)
    exact this p _ (reach_acct hr).cap
  · refine Nat.lt_of_le_of_lt List.countP_le_length (Nat.lt_of_lt_of_le ?_ (Nat.le_refl 1024))
    rw [hpq, List.length_append, List.length_cons] at h2
    omega

/-- C33: an Interest for fresh Data was sent to 258 with nonce 1; Data with freshness 0 answers it. -/
example : (run exEnv (init 10) (exFaces ++ [(exStrategy, .interest { exI1 with mustBeFresh := true } 257),
    (exStrategy, .data exData 258)])).any (fun s => s.dnl.has exEnv.hash [exC 1] 1 && decide (s.sent.length = 2)) = true := by
  decide +kernel

/-- C33: without MustBeFresh nothing is inserted. -/
example : (run exEnv (init 10) (exFaces ++ [(exStrategy, .interest exI1 257),
    (exStrategy, .data exData 258)])).any (fun s => !s.dnl.has exEnv.hash [exC 1] 1 && decide (s.sent.length = 2)) = true := by
  decide +kernel

/-! ### C72: answers from the Content Store -/

/-- Nobody waits for the Interests with these name and selectors. -/
def Unasked (a : St) (k : Interest) : Prop := ∀ e ∈ a.pit, e.interest.toInterest = k → e.ins = []

theorem unasked_mod {a : St} {k : Interest} (h : Unasked a k) {u : Nat} {f : Ent → Ent}
    (hf : ∀ e, (f e).interest = e.interest ∧ (e.ins = [] → (f e).ins = [])) : Unasked (a.mod u f) k := by
  intro e he hk
  obtain ⟨x, hx, rfl⟩ := List.mem_map.1 he
  split at hk
  · rename_i hu
    rw [if_pos hu]
    rw [(hf x).1] at hk
    exact (hf x).2 (h x hx hk)
  · rename_i hu
    rw [if_neg hu]
    exact h x hx hk

theorem unasked_timer {a : St} {k : Interest} (h : Unasked a k) (u ms : Nat) : Unasked (setExpiryTimer a u ms) k := by
  unfold setExpiryTimer
  split
  · exact h
  · exact unasked_mod (u := u) (f := fun e => { e with timer := some a.nextTimer }) h (fun _ => ⟨rfl, id⟩)

theorem unasked_insert {a : St} {k : Interest} (h : Unasked a k) (i : FwInterest) : Unasked (pitInsert a i).1 k := by
  unfold pitInsert
  split
  · exact h
  · intro e he hk
    rcases List.mem_append.1 he with he | he
    · exact h e he hk
    · rw [List.mem_singleton] at he; rw [he]

/-- C72: in every reachable state, an Interest that may be processed, does not loop, has no other pending downstream and is
satisfied by a cached Data is answered with that Data, and nothing else is sent; nobody is left waiting. (With a strategy whose
reaction to a cache hit is the default one, strategy.cpp:179-184.) -/
theorem C72_hit (hr : run env (init n) l = some s) {i : FwInterest} {f : FaceId} {fi : FaceInfo} (hf : s.faces f = some fi)
    (ha : Admissible i fi) (hl : ¬Looping env s i f fi.link) (hfirst : ∀ e ∈ s.pit, e.interest.toInterest = i.toInterest → e.ins = [])
    {c : Cs.Cs} {d : Data} (hc : s.cs.find i.toInterest = some (c, some d))
    (hst : ∀ a u, st a (.afterContentStoreHit d f u) = [.sendData u d f]) (h : step env st s (.interest i f) = some s') :
    ((fi.scope = .nonLocal ∧ UnderLocalhost d.name) → Emits s s' []) ∧
    (¬(fi.scope = .nonLocal ∧ UnderLocalhost d.name) → Emits s s' [.data f d]) ∧
    (∀ e ∈ s'.pit, e.interest.toInterest = i.toInterest → e.ins = []) := by
  have hi := reach_inv hr
  have hno : ∀ c', (c' = s.cs ∧ ∃ e ∈ s.pit, e.interest.toInterest = i.toInterest ∧ e.ins ≠ []) ∨ s.cs.find i.toInterest = some (c', none) → False := by
    rintro c' (⟨-, e, he, hk, hins⟩ | hn)
    · exact hins (hfirst e he hk)
    · rw [hc] at hn; simp at hn
  cases interest_outcome hi hf ha h with
  | loop j hl' hj hh => exact absurd hl' hl
  | direct hnl c' hc' g hg hh => exact (hno c' hc').elim
  | pass hnl c' hc' hg hh => exact (hno c' hc').elim
  | hit hnl c' d' he hc' hh =>
    rw [hc] at hc'
    simp only [Option.some.injEq, Prod.mk.injEq] at hc'
    obtain ⟨rfl, rfl⟩ := hc'
    obtain ⟨hfr, -⟩ := answered_frame (counted s) (stripHint s.cfg (decHop i)) d c
    have hun : Unasked (answered (counted s) (stripHint s.cfg (decHop i)) d c) i.toInterest := by
      unfold answered
      apply unasked_timer
      apply unasked_mod
      · exact unasked_insert (a := counted s) hfirst (stripHint s.cfg (decHop i))
      · intro e; exact ⟨rfl, id⟩
    have hfind : ∃ e, (answered (counted s) (stripHint s.cfg (decHop i)) d c).find
        (pitInsert (counted s) (stripHint s.cfg (decHop i))).2.1.uid = some e := by
      obtain ⟨h1, -, -, -, -, h2⟩ := insert_spec (s := counted s) (InvX.congr hi rfl rfl rfl rfl rfl) (stripHint s.cfg (decHop i))
      rw [← Option.isSome_iff_exists]
      unfold answered
      rw [timer_find, mod_find (by exact fun _ => rfl), Option.isSome_map]
      exact (congrArg Option.isSome (find_mem h2.uids h1)).trans rfl
    unfold call at hh
    rw [hst] at hh
    simp only [acts, act, Option.bind_eq_some_iff] at hh
    obtain ⟨x, hh, hx⟩ := hh
    obtain rfl := Option.some.inj hx
    generalize (pitInsert (counted s) (stripHint s.cfg (decHop i))).2.1.uid = u at hh hfind
    obtain ⟨hfa, hsent⟩ : (answered (counted s) (stripHint s.cfg (decHop i)) d c).faces = s.faces ∧
        (answered (counted s) (stripHint s.cfg (decHop i)) d c).sent = s.sent := ⟨hfr.faces, hfr.sent⟩
    generalize answered (counted s) (stripHint s.cfg (decHop i)) d c = a at hh hfind hun hfa hsent
    obtain ⟨e, hfind⟩ := hfind
    unfold sendData at hh
    have hfind' : St.find { a with calls := a.calls ++ [.afterContentStoreHit d f u] } u = some e := hfind
    rw [hfind'] at hh
    simp only at hh
    split at hh
    · obtain rfl := Option.some.inj hh
      refine ⟨?_, ?_, ?_⟩
      · intro hb
        unfold Emits
        rw [outgoingData_sent]
        have : okFace s.faces d f = false := by
          unfold okFace; rw [hf]; simp [hb.1, localhost_iff.2 hb.2]
        show a.sent ++ (if okFace a.faces d f = true then _ else _) = _
        rw [hfa, this, hsent]; simp
      · intro hb
        unfold Emits
        rw [outgoingData_sent]
        have : okFace s.faces d f = true := by
          rw [okFace_iff (by rw [hf]; rfl)]
          intro fi' hfi' hu
          rw [hf] at hfi'
          obtain rfl := Option.some.inj hfi'
          cases hs : fi.scope with
          | loc => rfl
          | nonLocal => exact absurd ⟨hs, hu⟩ hb
        show a.sent ++ (if okFace a.faces d f = true then _ else _) = _
        rw [hfa, this, hsent]; simp
      · intro e' he' hk
        rw [pit_outgoingData] at he'
        refine unasked_mod (a := { a with calls := a.calls ++ [.afterContentStoreHit d f u] }) (k := i.toInterest) hun (u := u) ?_ e' he' hk
        intro e
        refine ⟨rfl, fun h => ?_⟩
        show (Tb.deleteIn e.toPitEntry f).ins = []
        simp [Tb.deleteIn, h]
    · cases hh

/-- C72: the Data was cached when it passed; the next Interest for it is answered from the cache and not forwarded. -/
example : (run exEnv (init 10) (exPending ++ [(exStrategy, .data exData 258), (exStrategy, .interest { exI2 with nonce := 9 } 256)])).any
    (fun s => decide (s.sent.drop 7 = [.data 256 exData]) && s.ctr.nCsHits == 1) = true := by decide +kernel

/-! ### C74: forwarder counters -/

/-- C74: in every reachable state the counters of sent packets are the numbers of packets sent, and every PIT entry ever created is
either still pending or counted once, as satisfied or unsatisfied. -/
theorem C74_counters (hr : run env (init n) l = some s) :
    s.ctr.nOutInterests = (s.sent.filter (fun p => match p with | .interest .. => true | _ => false)).length ∧
    s.ctr.nOutData = (s.sent.filter (fun p => match p with | .data .. => true | _ => false)).length ∧
    s.ctr.nOutNacks = (s.sent.filter (fun p => match p with | .nack .. => true | _ => false)).length ∧
    s.ctr.nSatisfied + s.ctr.nUnsatisfied + s.pit.length = s.nextUid := by
  obtain ⟨h1, h2, h3, h4, -⟩ := reach_acct hr
  refine ⟨h1.trans ?_, h2.trans ?_, h3.trans ?_, h4⟩ <;> rw [List.countP_eq_length_filter] <;> congr 1

example : (run exEnv (init 10) (exPending ++ [(exStrategy, .data exData 258), (exStrategy, .tick 1), (exStrategy, .fire 5),
    (exStrategy, .interest { exI1 with nonce := 8, name := [exC 3] } 257)])).any
    (fun s => s.ctr.nSatisfied == 1 && s.pit.length == 2 && s.nextUid == 3 && s.ctr.nOutInterests == 5 && s.ctr.nOutData == 3) = true := by
  decide +kernel

end Verif.Fw
