import Verif.Fw.Model
import Verif.Tables.Inv

/-
Every event is a sequence of primitive updates of the forwarder's state; invariants need to be checked for those only.
-/
namespace Verif.Fw

open Tb (FaceId Time FwInterest InRec OutRec PitEntry NextHop)

theorem find?_of_nodup {α : Type} {k : α → Nat} {l : List α} (hn : (l.map k).Nodup) {a : α} (ha : a ∈ l) :
    l.find? (fun x => k x == k a) = some a := by
  induction l with
  | nil => simp at ha
  | cons b l ih =>
    rw [List.map_cons, List.nodup_cons] at hn
    rw [List.find?_cons]
    by_cases hb : k b = k a
    · rcases List.mem_cons.1 ha with rfl | ha
      · simp
      · exact absurd (List.mem_map.2 ⟨a, ha, hb.symm⟩) hn.1
    · have hb' : (k b == k a) = false := by simpa using hb
      rw [hb']
      rcases List.mem_cons.1 ha with rfl | ha
      · exact absurd rfl hb
      · exact ih hn.2 ha

theorem find_some {s : St} {u : Nat} {e : Ent} (h : s.find u = some e) : e ∈ s.pit ∧ e.uid = u :=
  ⟨List.mem_of_find?_eq_some h, by simpa using List.find?_some h⟩

theorem find_mem {s : St} (hn : (s.pit.map (·.uid)).Nodup) {e : Ent} (h : e ∈ s.pit) : s.find e.uid = some e :=
  find?_of_nodup (k := fun e : Ent => e.uid) hn h

theorem eq_of_uid {s : St} (hn : (s.pit.map (·.uid)).Nodup) {a b : Ent} (ha : a ∈ s.pit) (hb : b ∈ s.pit) (h : a.uid = b.uid) :
    a = b := by
  have h1 := find_mem hn ha
  rw [h, find_mem hn hb] at h1
  exact (Option.some.inj h1).symm

/-! ### Records -/

theorem mem_insertIn {p : PitEntry} {f : FaceId} {i : FwInterest} {now : Time} {r : InRec}
    (h : r ∈ (Tb.insertOrUpdateIn p f i now).ins) :
    (r ∈ p.ins ∧ r.face ≠ f) ∨
      (r.face = f ∧ r.nonce = i.nonce ∧ r.renewed = now ∧ r.expiry = Tb.recExpiry now i ∧ r.interest = i) := by
  simp only [Tb.insertOrUpdateIn, List.mem_map] at h
  obtain ⟨x, hx, rfl⟩ := h
  by_cases hf : x.face = f
  · rw [if_pos hf]; exact Or.inr ⟨hf, rfl, rfl, rfl, rfl⟩
  · rw [if_neg hf]
    left
    refine ⟨?_, hf⟩
    split at hx
    · exact hx
    · rcases List.mem_cons.1 hx with rfl | hx
      · exact absurd rfl hf
      · exact hx

/-- The record of the face that sent the Interest exists afterwards. -/
theorem insertIn_mem (p : PitEntry) (f : FaceId) (i : FwInterest) (now : Time) :
    ∃ r ∈ (Tb.insertOrUpdateIn p f i now).ins, r.face = f := by
  have h : f ∈ (Tb.insertOrUpdateIn p f i now).ins.map (·.face) := by
    rw [Tb.ins_faces]
    split
    · rename_i h
      simpa using h
    · simp
  obtain ⟨r, hr, hf⟩ := List.mem_map.1 h
  exact ⟨r, hr, hf⟩

theorem mem_insertIn_old {p : PitEntry} {f : FaceId} {i : FwInterest} {now : Time} {r : InRec} (h : r ∈ p.ins) (hf : r.face ≠ f) :
    r ∈ (Tb.insertOrUpdateIn p f i now).ins := by
  simp only [Tb.insertOrUpdateIn, List.mem_map]
  refine ⟨r, ?_, by rw [if_neg hf]⟩
  split
  · exact h
  · exact List.mem_cons_of_mem _ h

theorem mem_insertOut {p : PitEntry} {f : FaceId} {i : FwInterest} {now : Time} {r : OutRec}
    (h : r ∈ (Tb.insertOrUpdateOut p f i now).outs) :
    (r ∈ p.outs ∧ r.face ≠ f) ∨ (r.face = f ∧ r.nonce = i.nonce ∧ r.renewed = now ∧ r.expiry = Tb.recExpiry now i) := by
  simp only [Tb.insertOrUpdateOut, List.mem_map] at h
  obtain ⟨x, hx, rfl⟩ := h
  by_cases hf : x.face = f
  · rw [if_pos hf]; exact Or.inr ⟨hf, rfl, rfl, rfl⟩
  · rw [if_neg hf]
    left
    refine ⟨?_, hf⟩
    split at hx
    · exact hx
    · rcases List.mem_cons.1 hx with rfl | hx
      · exact absurd rfl hf
      · exact hx

theorem mem_deleteIn {p : PitEntry} {f : FaceId} {r : InRec} (h : r ∈ (Tb.deleteIn p f).ins) : r ∈ p.ins :=
  (List.eraseP_sublist).subset h

theorem mem_deleteIn_ne {p : PitEntry} (hn : (p.ins.map (·.face)).Nodup) {f : FaceId} {r : InRec}
    (h : r ∈ (Tb.deleteIn p f).ins) : r.face ≠ f := by
  simp only [Tb.deleteIn] at h
  revert h hn
  generalize p.ins = l
  intro hn h
  induction l with
  | nil => simp at h
  | cons a l ih =>
    rw [List.map_cons, List.nodup_cons] at hn
    rw [List.eraseP_cons] at h
    by_cases ha : a.face = f
    · have : (a.face == f) = true := by simpa using ha
      rw [this, cond_true] at h
      rintro rfl
      exact hn.1 (ha ▸ List.mem_map.2 ⟨r, h, rfl⟩)
    · have : (a.face == f) = false := by simpa using ha
      rw [this, cond_false] at h
      rcases List.mem_cons.1 h with rfl | h
      · exact ha
      · exact ih hn.2 h

theorem mem_deleteIn_of {p : PitEntry} {f : FaceId} {r : InRec} (h : r ∈ p.ins) (hf : r.face ≠ f) : r ∈ (Tb.deleteIn p f).ins :=
  (List.mem_eraseP_of_neg (by simpa using hf)).2 h

theorem mem_deleteOut {p : PitEntry} {f : FaceId} {r : OutRec} (h : r ∈ (Tb.deleteOut p f).outs) : r ∈ p.outs :=
  (List.eraseP_sublist).subset h

theorem mem_setNack {p : PitEntry} {f : FaceId} {n k : Nat} {r : OutRec} (h : r ∈ (Tb.setNack p f n k).outs) :
    ∃ r0 ∈ p.outs, r.face = r0.face ∧ r.nonce = r0.nonce ∧ r.expiry = r0.expiry ∧ r.renewed = r0.renewed := by
  simp only [Tb.setNack, List.mem_map] at h
  obtain ⟨x, hx, rfl⟩ := h
  refine ⟨x, hx, ?_⟩
  split <;> exact ⟨rfl, rfl, rfl, rfl⟩

/-! ### Invariant -/

/-- What holds of every PIT entry. -/
structure EntOk (faces : FaceId → Option FaceInfo) (e : Ent) : Prop where
  recs : Tb.RecsOk e.toPitEntry
  inFace : ∀ r ∈ e.ins, (faces r.face).isSome
  outFace : ∀ r ∈ e.outs, (faces r.face).isSome
  same : ∀ r ∈ e.ins, r.interest.toInterest = e.interest.toInterest ∧ r.nonce = r.interest.nonce
  nonces : ∀ r ∈ e.ins, ∀ r' ∈ e.ins, r.nonce = r'.nonce → r.face = r'.face
  scope : isLocalhost e.interest.name = true → ∀ r ∈ e.ins, ∀ fi, faces r.face = some fi → fi.scope = .loc

/-- Invariant; with `x = some u`, entry `u` may lack its timer. -/
structure InvX (x : Option Nat) (s : St) : Prop where
  uids : (s.pit.map (·.uid)).Nodup
  uidlt : ∀ e ∈ s.pit, e.uid < s.nextUid
  keys : (s.pit.map (·.interest.toInterest)).Nodup
  tids : (s.sched.map (·.id)).Nodup
  tidlt : ∀ t ∈ s.sched, t.id < s.nextTimer
  timer : ∀ e ∈ s.pit, (∃ t ∈ s.sched, t.uid = e.uid ∧ e.timer = some t.id) ∨ (some e.uid = x ∧ e.timer = none)
  owner : ∀ t ∈ s.sched, ∃ e ∈ s.pit, e.uid = t.uid ∧ e.timer = some t.id
  ents : ∀ e ∈ s.pit, EntOk s.faces e

abbrev Inv (s : St) : Prop := InvX none s

theorem InvX.congr {x : Option Nat} {s s' : St} (h : InvX x s) (h1 : s'.pit = s.pit) (h2 : s'.nextUid = s.nextUid)
    (h3 : s'.sched = s.sched) (h4 : s'.nextTimer = s.nextTimer) (h5 : s'.faces = s.faces) : InvX x s' := by
  constructor
  · rw [h1]; exact h.uids
  · rw [h1, h2]; exact h.uidlt
  · rw [h1]; exact h.keys
  · rw [h3]; exact h.tids
  · rw [h3, h4]; exact h.tidlt
  · rw [h1, h3]; exact h.timer
  · rw [h1, h3]; exact h.owner
  · rw [h1, h5]; exact h.ents

/-- Edits of entry `u` that keep identity, timer and selectors. -/
structure Keeps (s : St) (u : Nat) (f : Ent → Ent) : Prop where
  uid : ∀ e, (f e).uid = e.uid
  timer : ∀ e, (f e).timer = e.timer
  key : ∀ e ∈ s.pit, e.uid = u → (f e).interest.toInterest = e.interest.toInterest

theorem mem_mod {s : St} {u : Nat} {f : Ent → Ent} {e : Ent} :
    e ∈ (s.mod u f).pit ↔ ∃ e0 ∈ s.pit, e = if e0.uid = u then f e0 else e0 := by
  simp only [St.mod, List.mem_map]
  constructor
  · rintro ⟨a, ha, rfl⟩; exact ⟨a, ha, rfl⟩
  · rintro ⟨a, ha, rfl⟩; exact ⟨a, ha, rfl⟩

theorem mod_uids {s : St} {u : Nat} {f : Ent → Ent} (hf : ∀ e, (f e).uid = e.uid) :
    (s.mod u f).pit.map (·.uid) = s.pit.map (·.uid) := by
  simp only [St.mod, List.map_map]
  apply List.map_congr_left
  intro e _
  simp only [Function.comp]
  split
  · exact hf e
  · rfl

theorem mod_keys {s : St} {u : Nat} {f : Ent → Ent}
    (hf : ∀ e ∈ s.pit, e.uid = u → (f e).interest.toInterest = e.interest.toInterest) :
    (s.mod u f).pit.map (·.interest.toInterest) = s.pit.map (·.interest.toInterest) := by
  simp only [St.mod, List.map_map]
  apply List.map_congr_left
  intro e he
  simp only [Function.comp]
  split
  · rename_i hu
    exact hf e he hu
  · rfl

theorem mod_find {s : St} {u : Nat} {f : Ent → Ent} (hf : ∀ e, (f e).uid = e.uid) (v : Nat) :
    (s.mod u f).find v = (s.find v).map (fun e => if e.uid = u then f e else e) := by
  unfold St.find St.mod
  simp only [List.find?_map]
  have : ((fun x : Ent => x.uid == v) ∘ fun e : Ent => if e.uid = u then f e else e) = fun x => x.uid == v := by
    funext e
    simp only [Function.comp]
    split
    · rw [hf]
    · rfl
  rw [this]

theorem mod_find_self {s : St} {u : Nat} {f : Ent → Ent} (hf : ∀ e, (f e).uid = e.uid) :
    (s.mod u f).find u = (s.find u).map f := by
  rw [mod_find hf]
  cases h : s.find u with
  | none => rfl
  | some e => simp only [Option.map_some, if_pos (find_some h).2]

theorem invX_mod {x : Option Nat} {s : St} (h : InvX x s) {u : Nat} {f : Ent → Ent} (hf : Keeps s u f)
    (hok : ∀ e, e ∈ s.pit → e.uid = u → EntOk s.faces e → EntOk s.faces (f e)) : InvX x (s.mod u f) where
  uids := by rw [mod_uids hf.uid]; exact h.uids
  uidlt := by
    intro e he
    obtain ⟨e0, h0, rfl⟩ := mem_mod.1 he
    split
    · rw [hf.uid]; exact h.uidlt e0 h0
    · exact h.uidlt e0 h0
  keys := by rw [mod_keys hf.key]; exact h.keys
  tids := h.tids
  tidlt := h.tidlt
  timer := by
    intro e he
    obtain ⟨e0, h0, rfl⟩ := mem_mod.1 he
    split
    · rw [hf.uid, hf.timer]; exact h.timer e0 h0
    · exact h.timer e0 h0
  owner := by
    intro t ht
    obtain ⟨e0, h0, h1, h2⟩ := h.owner t ht
    refine ⟨_, mem_mod.2 ⟨e0, h0, rfl⟩, ?_⟩
    split
    · rw [hf.uid, hf.timer]; exact ⟨h1, h2⟩
    · exact ⟨h1, h2⟩
  ents := by
    intro e he
    obtain ⟨e0, h0, rfl⟩ := mem_mod.1 he
    split
    · rename_i hu
      exact hok e0 h0 hu (h.ents e0 h0)
    · exact h.ents e0 h0

/-- Setting the expiry timer restores the invariant. -/
theorem invX_timer {x : Option Nat} {s : St} (h : InvX x s) {u : Nat} (hx : x = none ∨ (x = some u ∧ (s.find u).isSome))
    (ms : Nat) : Inv (setExpiryTimer s u ms) := by
  unfold setExpiryTimer
  cases hfu : s.find u with
  | none =>
    rcases hx with rfl | ⟨-, hc⟩
    · exact h
    · rw [hfu] at hc; simp at hc
  | some e =>
    obtain ⟨he, hu⟩ := find_some hfu
    simp only
    have hsched : ∀ t, t ∈ s.sched.filter (fun t => decide (some t.id ≠ e.timer)) ↔ t ∈ s.sched ∧ t.uid ≠ u := by
      intro t
      rw [List.mem_filter]
      simp only [ne_eq, decide_not, Bool.not_eq_true', decide_eq_false_iff_not]
      constructor
      · rintro ⟨ht, hne⟩
        refine ⟨ht, fun hc => ?_⟩
        obtain ⟨e', h0, h1, h2⟩ := h.owner t ht
        have := eq_of_uid h.uids h0 he (by rw [h1, hc, hu])
        subst this
        exact hne h2.symm
      · rintro ⟨ht, hne⟩
        refine ⟨ht, fun hc => hne ?_⟩
        rcases h.timer e he with ⟨t', ht', h1, h2⟩ | ⟨-, h2⟩
        · rw [h2] at hc
          have : t = t' := by
            have h3 := find?_of_nodup (k := fun t : Timer => t.id) h.tids ht
            have h4 := find?_of_nodup (k := fun t : Timer => t.id) h.tids ht'
            rw [Option.some.inj hc, h4] at h3
            exact (Option.some.inj h3).symm
          rw [this, h1, hu]
        · rw [h2] at hc; simp at hc
    constructor
    · show ((s.mod u _).pit.map _).Nodup
      rw [mod_uids (by exact fun _ => rfl)]; exact h.uids
    · intro e' he'
      obtain ⟨e0, h0, rfl⟩ := mem_mod.1 he'
      have := h.uidlt e0 h0
      split <;> exact this
    · show ((s.mod u _).pit.map _).Nodup
      rw [mod_keys (by intro _ _ _; rfl)]; exact h.keys
    · simp only [List.map_append, List.map_cons, List.map_nil]
      rw [List.nodup_append]
      refine ⟨(List.Sublist.map _ List.filter_sublist).nodup h.tids, by simp, ?_⟩
      intro a ha b hb
      obtain ⟨t, ht, rfl⟩ := List.mem_map.1 ha
      have := h.tidlt t ((hsched t).1 ht).1
      simp only [List.mem_singleton] at hb
      omega
    · intro t ht
      simp only [List.mem_append, List.mem_singleton] at ht
      rcases ht with ht | rfl
      · have := h.tidlt t ((hsched t).1 ht).1
        show t.id < s.nextTimer + 1
        omega
      · exact Nat.lt_succ_self _
    · intro e' he'
      left
      obtain ⟨e0, h0, rfl⟩ := mem_mod.1 he'
      by_cases hu0 : e0.uid = u
      · rw [if_pos hu0]
        exact ⟨⟨s.nextTimer, s.now + ms * 1000000, u⟩, List.mem_append_right _ (List.mem_singleton.2 rfl), hu0.symm, rfl⟩
      · rw [if_neg hu0]
        rcases h.timer e0 h0 with ⟨t, ht, h1, h2⟩ | ⟨h1, -⟩
        · exact ⟨t, List.mem_append_left _ ((hsched t).2 ⟨ht, by rw [h1]; exact hu0⟩), h1, h2⟩
        · rcases hx with rfl | ⟨rfl, -⟩
          · simp at h1
          · exact absurd (Option.some.inj h1) hu0
    · intro t ht
      simp only [List.mem_append, List.mem_singleton] at ht
      rcases ht with ht | rfl
      · obtain ⟨ht, hne⟩ := (hsched t).1 ht
        obtain ⟨e0, h0, h1, h2⟩ := h.owner t ht
        refine ⟨_, mem_mod.2 ⟨e0, h0, rfl⟩, ?_⟩
        rw [if_neg (by rw [h1]; exact hne)]
        exact ⟨h1, h2⟩
      · refine ⟨_, mem_mod.2 ⟨e, he, rfl⟩, ?_⟩
        rw [if_pos hu]
        exact ⟨hu, rfl⟩
    · intro e' he'
      obtain ⟨e0, h0, rfl⟩ := mem_mod.1 he'
      have := h.ents e0 h0
      split
      · exact ⟨this.recs, this.inFace, this.outFace, this.same, this.nonces, this.scope⟩
      · exact this

theorem pitFind_some {s : St} {i : Interest} {e : Ent} (h : pitFind s i = some e) : e ∈ s.pit ∧ e.interest.toInterest = i :=
  ⟨List.mem_of_find?_eq_some h, by simpa using List.find?_some h⟩

theorem pitFind_none {s : St} {i : Interest} (h : pitFind s i = none) : ∀ e ∈ s.pit, e.interest.toInterest ≠ i := by
  intro e he
  have := List.find?_eq_none.1 h e he
  simpa using this

/-- What `pitInsert` gives. -/
theorem insert_spec {s : St} (h : Inv s) (i : FwInterest) :
    (pitInsert s i).2.1 ∈ (pitInsert s i).1.pit ∧ (pitInsert s i).2.1.interest.toInterest = i.toInterest ∧
    (pitInsert s i).1.faces = s.faces ∧
    ((pitInsert s i).2.2 = false → (pitInsert s i).1 = s) ∧
    ((pitInsert s i).2.2 = true → (pitInsert s i).2.1 = { interest := i, uid := s.nextUid }) ∧
    InvX (if (pitInsert s i).2.2 then some (pitInsert s i).2.1.uid else none) (pitInsert s i).1 := by
  unfold pitInsert
  cases hf : pitFind s i.toInterest with
  | some e =>
    obtain ⟨h1, h2⟩ := pitFind_some hf
    exact ⟨h1, h2, rfl, fun _ => rfl, by simp, h⟩
  | none =>
    have hk := pitFind_none hf
    refine ⟨List.mem_append_right _ (List.mem_singleton.2 rfl), rfl, rfl, by simp, fun _ => rfl, ?_⟩
    simp only [if_true]
    constructor
    · simp only [List.map_append, List.map_cons, List.map_nil]
      rw [List.nodup_append]
      refine ⟨h.uids, by simp, ?_⟩
      intro a ha b hb
      obtain ⟨e, he, rfl⟩ := List.mem_map.1 ha
      have := h.uidlt e he
      simp only [List.mem_singleton] at hb
      omega
    · intro e he
      simp only [List.mem_append, List.mem_singleton] at he
      show e.uid < s.nextUid + 1
      rcases he with he | rfl
      · have := h.uidlt e he; omega
      · exact Nat.lt_succ_self _
    · simp only [List.map_append, List.map_cons, List.map_nil]
      rw [List.nodup_append]
      refine ⟨h.keys, by simp, ?_⟩
      intro a ha b hb
      obtain ⟨e, he, rfl⟩ := List.mem_map.1 ha
      simp only [List.mem_singleton] at hb
      subst hb
      exact hk e he
    · exact h.tids
    · exact h.tidlt
    · intro e he
      simp only [List.mem_append, List.mem_singleton] at he
      rcases he with he | rfl
      · rcases h.timer e he with h1 | ⟨h1, -⟩
        · exact Or.inl h1
        · simp at h1
      · exact Or.inr ⟨rfl, rfl⟩
    · intro t ht
      obtain ⟨e, he, h1⟩ := h.owner t ht
      exact ⟨e, List.mem_append_left _ he, h1⟩
    · intro e he
      simp only [List.mem_append, List.mem_singleton] at he
      rcases he with he | rfl
      · exact h.ents e he
      · exact ⟨⟨by simp, by simp⟩, by simp, by simp, by simp, by simp, by simp⟩

/-! ### Edits of an entry -/

theorem entOk_in {faces : FaceId → Option FaceInfo} {e : Ent} (h : EntOk faces e) {f : FaceId} {i j : FwInterest} {now : Time}
    {fi : FaceInfo} (hf : faces f = some fi) (hi : i.toInterest = e.interest.toInterest) (hj : j.toInterest = e.interest.toInterest)
    (hs : ¬(fi.scope = .nonLocal ∧ isLocalhost i.name = true)) (hd : ∀ r ∈ e.ins, r.nonce = i.nonce → r.face = f) :
    EntOk faces { e with toPitEntry := Tb.insertOrUpdateIn { e.toPitEntry with interest := j } f i now } := by
  have hname : i.name = e.interest.name := congrArg Interest.name hi
  constructor
  · exact Tb.recsOk_in (p := { e.toPitEntry with interest := j }) h.recs f i now
  · intro r hr
    rcases mem_insertIn hr with ⟨h1, -⟩ | ⟨h1, -⟩
    · exact h.inFace r h1
    · rw [h1, hf]; rfl
  · exact h.outFace
  · intro r hr
    rcases mem_insertIn hr with ⟨h1, -⟩ | ⟨-, h2, -, -, h5⟩
    · have := h.same r h1
      exact ⟨this.1.trans hj.symm, this.2⟩
    · rw [h2, h5]
      exact ⟨hi.trans hj.symm, rfl⟩
  · intro r hr r' hr' hn
    rcases mem_insertIn hr with ⟨h1, -⟩ | ⟨h1, h2, -⟩ <;> rcases mem_insertIn hr' with ⟨h1', -⟩ | ⟨h1', h2', -⟩
    · exact h.nonces r h1 r' h1' hn
    · rw [h1']; exact hd r h1 (by rw [hn, h2'])
    · rw [h1]; exact (hd r' h1' (by rw [← hn, h2])).symm
    · rw [h1, h1']
  · intro hl r hr fi' hfi'
    have hl' : isLocalhost e.interest.name = true := by
      have : j.name = e.interest.name := congrArg Interest.name hj
      rw [← this]; exact hl
    rcases mem_insertIn hr with ⟨h1, -⟩ | ⟨h1, -⟩
    · exact h.scope hl' r h1 fi' hfi'
    · rw [h1, hf] at hfi'
      cases hfi'
      cases hsc : fi.scope with
      | loc => rfl
      | nonLocal => exact absurd ⟨hsc, by rw [hname]; exact hl'⟩ hs

theorem entOk_out {faces : FaceId → Option FaceInfo} {e : Ent} (h : EntOk faces e) {g : FaceId} (hg : (faces g).isSome)
    (i : FwInterest) (now : Time) : EntOk faces { e with toPitEntry := Tb.insertOrUpdateOut e.toPitEntry g i now } where
  recs := Tb.recsOk_out h.recs g i now
  inFace := h.inFace
  outFace := by
    intro r hr
    rcases mem_insertOut hr with ⟨h1, -⟩ | ⟨h1, -⟩
    · exact h.outFace r h1
    · rw [h1]; exact hg
  same := h.same
  nonces := h.nonces
  scope := h.scope

theorem entOk_delIn {faces : FaceId → Option FaceInfo} {e : Ent} (h : EntOk faces e) (g : FaceId) :
    EntOk faces { e with toPitEntry := Tb.deleteIn e.toPitEntry g } where
  recs := Tb.recsOk_delIn h.recs g
  inFace := fun r hr => h.inFace r (mem_deleteIn hr)
  outFace := h.outFace
  same := fun r hr => h.same r (mem_deleteIn hr)
  nonces := fun r hr r' hr' => h.nonces r (mem_deleteIn hr) r' (mem_deleteIn hr')
  scope := fun hl r hr => h.scope hl r (mem_deleteIn hr)

theorem entOk_delOut {faces : FaceId → Option FaceInfo} {e : Ent} (h : EntOk faces e) (g : FaceId) :
    EntOk faces { e with toPitEntry := Tb.deleteOut e.toPitEntry g } where
  recs := Tb.recsOk_delOut h.recs g
  inFace := h.inFace
  outFace := fun r hr => h.outFace r (mem_deleteOut hr)
  same := h.same
  nonces := h.nonces
  scope := h.scope

theorem entOk_clear {faces : FaceId → Option FaceInfo} {e : Ent} (h : EntOk faces e) :
    EntOk faces { e with toPitEntry := Tb.clearIns e.toPitEntry } where
  recs := Tb.recsOk_clear h.recs
  inFace := by intro r hr; simp [Tb.clearIns] at hr
  outFace := h.outFace
  same := by intro r hr; simp [Tb.clearIns] at hr
  nonces := by intro r hr; simp [Tb.clearIns] at hr
  scope := by intro _ r hr; simp [Tb.clearIns] at hr

theorem entOk_nack {faces : FaceId → Option FaceInfo} {e : Ent} (h : EntOk faces e) (g : FaceId) (n k : Nat) :
    EntOk faces { e with toPitEntry := Tb.setNack e.toPitEntry g n k } where
  recs := Tb.recsOk_nack h.recs g n k
  inFace := h.inFace
  outFace := by
    intro r hr
    obtain ⟨r0, h0, h1, -⟩ := mem_setNack hr
    rw [h1]; exact h.outFace r0 h0
  same := h.same
  nonces := h.nonces
  scope := h.scope

theorem entOk_flags {faces : FaceId → Option FaceInfo} {e : Ent} (h : EntOk faces e) (b : Bool) (fr : Nat) :
    EntOk faces { e with satisfied := b, freshness := fr } :=
  ⟨h.recs, h.inFace, h.outFace, h.same, h.nonces, h.scope⟩

/-- An Interest that is not a duplicate shares its nonce with no other downstream. -/
theorem not_duplicate {faces : FaceId → Option FaceInfo} {e : Ent} (h : EntOk faces e) {l : Link} {n : Nat} {f : FaceId}
    (hd : isDuplicate l (findDuplicateNonce e.toPitEntry n f) = false) : ∀ r ∈ e.ins, r.nonce = n → r.face = f := by
  intro r hr hn
  by_cases hf : r.face = f
  · exact hf
  exfalso
  have hother : (findDuplicateNonce e.toPitEntry n f).inOther = true := by
    simp only [findDuplicateNonce, List.any_eq_true, Bool.and_eq_true, beq_iff_eq, bne_iff_ne]
    exact ⟨r, hr, hn, hf⟩
  unfold isDuplicate at hd
  simp only [hother, Bool.or_true, Bool.true_or, Bool.true_and] at hd
  split at hd
  · simp only [Bool.not_eq_false', findDuplicateNonce, List.any_eq_true, Bool.and_eq_true, beq_iff_eq] at hd
    obtain ⟨r', hr', h1, h2⟩ := hd
    exact hf ((h.nonces r hr r' hr' (by rw [hn, h1])).trans h2)
  · simp at hd
