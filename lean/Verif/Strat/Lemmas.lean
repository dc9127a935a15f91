import Verif.Fw.Props
import Verif.Strat.Spec

namespace Verif.Strat

open Fw
open Tb (FaceId Time FwInterest InRec OutRec PitEntry NextHop)

variable {env : Env} {st : Strategy} {s s' : St}

theorem localhop_iff {n : Name} : isLocalhop n = true ↔ UnderLocalhop n := by
  unfold isLocalhop UnderLocalhop
  unfold Name.isPrefixOf
  rw [List.isPrefixOf_iff_prefix]
  cases n with
  | nil => simp
  | cons a l => simp [eq_comm]

theorem region_iff {c : Config} {h : List Name} : inProducerRegion c.regions h = true ↔ InProducerRegion c h := by
  simp only [inProducerRegion, InProducerRegion, List.any_eq_true, Name.isPrefixOf, List.isPrefixOf_iff_prefix]

theorem carries (c : Config) (i : FwInterest) : Carries c i (addHop c (stripHint c (decHop i))) := by
  have hh : (addHop c (stripHint c (decHop i))).hints = (stripHint c (decHop i)).hints := by
    unfold addHop; split <;> rfl
  refine ⟨?_, ?_, ?_, addHop_hop c i, ?_, ?_, ?_⟩
  · rw [addHop_key, stripHint_key]; rfl
  · rw [addHop_nonce, stripHint_nonce]; rfl
  · have : (addHop c (stripHint c (decHop i))).lifetime = (stripHint c (decHop i)).lifetime := by
      unfold addHop; split <;> rfl
    rw [this, stripHint_lifetime]; rfl
  · rw [addHop_nextHop, stripHint_nextHop]; rfl
  · intro h
    rw [hh]
    unfold stripHint
    rw [if_pos]
    refine ⟨?_, region_iff.2 h⟩
    obtain ⟨r, _, d, hd, _⟩ := h
    exact List.ne_nil_of_mem hd
  · intro h
    rw [hh]
    unfold stripHint
    rw [if_neg (fun hc => h (region_iff.1 hc.2))]
    rfl

theorem scope_iff {fi gi : FaceInfo} {n : Name} : wouldViolateScope fi n gi = false ↔ ScopeAllows fi n gi := by
  unfold wouldViolateScope ScopeAllows
  rw [← localhost_iff, ← localhop_iff]
  cases hg : gi.scope with
  | loc => simp
  | nonLocal =>
    cases hl : isLocalhost n <;> cases hp : isLocalhop n <;> cases hf : fi.scope <;> simp

theorem findOut_some {e : PitEntry} {g : FaceId} {r : OutRec} (h : findOut e g = some r) : r ∈ e.outs ∧ r.face = g :=
  ⟨List.mem_of_find?_eq_some h, by simpa using List.find?_some h⟩

theorem findOut_eq {e : PitEntry} (hn : (e.outs.map (·.face)).Nodup) {r : OutRec} (h : r ∈ e.outs) : findOut e r.face = some r :=
  find?_of_nodup hn h

theorem findOut_none {e : PitEntry} {g : FaceId} (h : findOut e g = none) : ∀ r ∈ e.outs, r.face ≠ g := by
  intro r hr
  simpa using List.find?_eq_none.1 h r hr

theorem eligible_iff {f : FaceId} {i : FwInterest} {nh : NextHop} {e : PitEntry} :
    isNextHopEligible s f i nh e = true ↔ Eligible s i.name f nh.face := by
  unfold isNextHopEligible Eligible
  cases hf : s.faces f with
  | none => simp
  | some fi =>
    cases hg : s.faces nh.face with
    | none => simp
    | some gi =>
      simp only [Option.some.injEq, Bool.false_eq_true, if_false]
      constructor
      · intro h
        split at h
        · cases h
        · rename_i hc
          refine ⟨fi, gi, rfl, rfl, fun he => Classical.byContradiction fun hl => hc (Or.inl ⟨he, hl⟩), scope_iff.1 ?_⟩
          cases hv : wouldViolateScope fi i.name gi
          · rfl
          · exact absurd (Or.inr hv) hc
      · rintro ⟨_, _, rfl, rfl, h1, h2⟩
        rw [if_neg]
        rintro (⟨h3, h4⟩ | h3)
        · exact h4 (h1 h3)
        · rw [scope_iff.2 h2] at h3; cases h3

theorem unused_iff {f : FaceId} {i : FwInterest} {nh : NextHop} {e : PitEntry} (hn : (e.outs.map (·.face)).Nodup) :
    isNextHopEligible s f i nh e true = true ↔ Eligible s i.name f nh.face ∧ ¬InUse s.now e.outs nh.face := by
  rw [← eligible_iff (i := i) (e := e)]
  have hu : (!(findOut e nh.face).any (fun r => decide (s.now < r.expiry))) = true ↔ ¬InUse s.now e.outs nh.face := by
    unfold InUse
    cases ho : findOut e nh.face with
    | none =>
      simp only [Option.any_none, Bool.not_false, true_iff]
      rintro ⟨r, h1, h2, -⟩
      exact findOut_none ho r h1 h2
    | some r =>
      obtain ⟨h1, h2⟩ := findOut_some ho
      simp only [Option.any_some, Bool.not_eq_true', decide_eq_false_iff_not]
      constructor
      · rintro h ⟨r', h1', h2', h3'⟩
        have h4 := findOut_eq hn h1'
        rw [h2', ho] at h4
        exact h (Option.some.inj h4 ▸ h3')
      · intro h h3
        exact h ⟨r, h1, h2, h3⟩
  unfold isNextHopEligible
  cases s.faces f with
  | none => simp
  | some fi =>
    cases s.faces nh.face with
    | none => simp
    | some gi =>
      simp only [Bool.false_eq_true, if_false, if_true]
      split
      · simp
      · simp only [true_and]
        exact hu

/-! ### What the strategy sees -/

/-- The expiry timer of `u` runs in `r` and is due at `t`. -/
def DueAt (r : St) (u : Nat) (t : Time) : Prop := ∃ x ∈ r.sched, x.uid = u ∧ x.due = t

theorem timer_spec {s : St} {u ms : Nat} {e : Ent} (h : s.find u = some e) :
    (setExpiryTimer s u ms).find u = some { e with timer := some s.nextTimer } ∧
    DueAt (setExpiryTimer s u ms) u (s.now + ms * 1000000) := by
  unfold setExpiryTimer
  rw [h]
  refine ⟨?_, ?_⟩
  · show (St.mod s u (fun e => { e with timer := some s.nextTimer })).find u = _
    rw [mod_find_self (by exact fun _ => rfl), h]
    rfl
  · exact ⟨_, List.mem_append_right _ (List.mem_singleton.2 rfl), rfl, rfl⟩

/-- `t` is the last moment at which a downstream still waits, to the millisecond. -/
def LastWait (now : Time) (ins : List InRec) (t : Time) : Prop :=
  ∃ m, (∃ r ∈ ins, r.expiry = m) ∧ (∀ r ∈ ins, r.expiry ≤ m) ∧ now ≤ t ∧ t ≤ m ∧ m < t + 1000000

theorem lastExpiry_spec : ∀ (l : List InRec) (a : Time),
    a ≤ l.foldl (fun m r => max m r.expiry) a ∧ (∀ r ∈ l, r.expiry ≤ l.foldl (fun m r => max m r.expiry) a) ∧
    (l.foldl (fun m r => max m r.expiry) a = a ∨ ∃ r ∈ l, r.expiry = l.foldl (fun m r => max m r.expiry) a)
  | [], a => ⟨Nat.le_refl _, by simp, Or.inl rfl⟩
  | x :: l, a => by
    obtain ⟨h1, h2, h3⟩ := lastExpiry_spec l (max a x.expiry)
    simp only [List.foldl_cons]
    refine ⟨Nat.le_trans (Nat.le_max_left ..) h1, ?_, ?_⟩
    · intro r hr
      rcases List.mem_cons.1 hr with rfl | hr
      · exact Nat.le_trans (Nat.le_max_right ..) h1
      · exact h2 r hr
    · rcases h3 with h3 | ⟨r, hr, h3⟩
      · rcases Nat.le_total a x.expiry with h | h
        · right; exact ⟨x, List.mem_cons_self, by rw [h3]; exact (Nat.max_eq_right h).symm⟩
        · left; rw [h3]; exact Nat.max_eq_left h
      · right; exact ⟨r, List.mem_cons_of_mem _ hr, h3⟩

theorem lastWait {e : PitEntry} {now : Time} (h : ∃ r ∈ e.ins, now ≤ r.expiry) :
    LastWait now e.ins (now + (lastExpiry e - now) / 1000000 * 1000000) := by
  obtain ⟨r, hr, hn⟩ := h
  obtain ⟨-, h2, h3⟩ := lastExpiry_spec e.ins 0
  have h2 : ∀ r ∈ e.ins, r.expiry ≤ lastExpiry e := h2
  have hle := h2 r hr
  have hge : now ≤ lastExpiry e := Nat.le_trans hn hle
  have hd : (lastExpiry e - now) / 1000000 * 1000000 ≤ lastExpiry e - now := Nat.div_mul_le_self ..
  have hm : lastExpiry e - now < (lastExpiry e - now) / 1000000 * 1000000 + 1000000 := by
    have h1 := Nat.div_add_mod (lastExpiry e - now) 1000000
    have h2 := Nat.mod_lt (lastExpiry e - now) (show 0 < 1000000 by decide)
    rw [Nat.mul_comm] at h1
    exact Nat.lt_of_le_of_lt (Nat.le_of_eq h1.symm) (Nat.add_lt_add_left h2 _)
  refine ⟨lastExpiry e, ?_, h2, Nat.le_add_right .., ?_, ?_⟩
  · rcases h3 with h3 | ⟨r', hr', h3⟩
    · exact ⟨r, hr, Nat.le_antisymm hle (by show lastExpiry e ≤ _; rw [show lastExpiry e = 0 from h3]; exact Nat.zero_le _)⟩
    · exact ⟨r', hr', h3⟩
  · generalize (lastExpiry e - now) / 1000000 * 1000000 = k at *
    generalize lastExpiry e = m at *
    exact Nat.le_trans (Nat.add_le_add_left hd now) (by rw [Nat.add_sub_cancel' hge]; exact Nat.le_refl _)
  · generalize (lastExpiry e - now) / 1000000 * 1000000 = k at *
    generalize lastExpiry e = m at *
    have : m = now + (m - now) := (Nat.add_sub_cancel' hge).symm
    rw [this, Nat.add_assoc]
    exact Nat.add_lt_add_left hm now

theorem insertIn_self (p : PitEntry) (f : FaceId) (i : FwInterest) (now : Time) :
    ∃ r ∈ (Tb.insertOrUpdateIn p f i now).ins, r.face = f ∧ r.interest = i ∧ r.expiry = Tb.recExpiry now i := by
  unfold Tb.insertOrUpdateIn
  simp only
  split
  · rename_i h
    obtain ⟨r, hr, hf⟩ := List.any_eq_true.1 h
    have hf : r.face = f := by simpa using hf
    exact ⟨_, List.mem_map.2 ⟨r, hr, rfl⟩, by rw [if_pos hf]; exact ⟨hf, rfl, rfl⟩⟩
  · exact ⟨_, List.mem_map.2 ⟨_, List.mem_cons_self, rfl⟩, by rw [if_pos rfl]; exact ⟨rfl, rfl, rfl⟩⟩

/-- The forwarder calls the strategy with the Interest on its way, in a state where the entry has the Interest's in-record and the
out-records it had before. -/
structure Called (st : Strategy) (s s' : St) (i : FwInterest) (f : FaceId) (r : St) (u : Nat) (e : Ent) (j : FwInterest) : Prop where
  carries : Carries s.cfg i j
  find : r.find u = some e
  key : e.interest.toInterest = i.toInterest
  outs : OutRecords s i e.outs
  inRec : ∃ x ∈ e.ins, x.face = f ∧ x.interest = j ∧ x.expiry = Tb.recExpiry s.now j
  recs : Tb.RecsOk e.toPitEntry
  timer : ∃ t, DueAt r u t ∧ LastWait r.now e.ins t
  faces : r.faces = s.faces
  now : r.now = s.now
  sent : r.sent = s.sent
  before : r.calls = s.calls
  calls : acts { r with calls := r.calls ++ [.afterReceiveInterest j f u] } (st r (.afterReceiveInterest j f u)) = some s'

theorem insert_outs (s : St) (i : FwInterest) : OutRecords s i (pitInsert s i).2.1.outs := by
  unfold pitInsert
  cases hf : pitFind s i.toInterest with
  | some e => exact Or.inl ⟨e, (pitFind_some hf).1, (pitFind_some hf).2, rfl⟩
  | none => exact Or.inr ⟨pitFind_none hf, rfl⟩

theorem record_entry {s : St} {u : Nat} {e : Ent} (he : s.find u = some e) (hre : Tb.RecsOk e.toPitEntry) (i : FwInterest) (f : FaceId) (b : Bool) :
    ∃ e', (recordInterest s i f u b).find u = some e' ∧
      e'.interest = (if b then addHop s.cfg i else e.interest) ∧
      e'.outs = e.outs ∧ (∃ x ∈ e'.ins, x.face = f ∧ x.interest = addHop s.cfg i ∧ x.expiry = Tb.recExpiry s.now (addHop s.cfg i)) ∧ Tb.RecsOk e'.toPitEntry ∧
      ∃ t, DueAt (recordInterest s i f u b) u t ∧ LastWait s.now e'.ins t := by
  unfold recordInterest
  simp only
  have hfe : (s.mod u (fun e => { e with
      toPitEntry := Tb.insertOrUpdateIn { e.toPitEntry with interest := if b then addHop s.cfg i else e.interest } f (addHop s.cfg i) s.now })).find u =
      some { e with
        toPitEntry := Tb.insertOrUpdateIn { e.toPitEntry with interest := if b then addHop s.cfg i else e.interest } f (addHop s.cfg i) s.now } := by
    rw [mod_find_self (by exact fun _ => rfl), he]; rfl
  rw [hfe]
  obtain ⟨x, x1, x2, x3, x4⟩ :=
    insertIn_self { e.toPitEntry with interest := if b then addHop s.cfg i else e.interest } f (addHop s.cfg i) s.now
  obtain ⟨t1, t2⟩ := timer_spec (ms := (lastExpiry (Tb.insertOrUpdateIn { e.toPitEntry with interest := if b then addHop s.cfg i else e.interest } f
    (addHop s.cfg i) s.now) - s.now) / 1000000) hfe
  refine ⟨_, t1, rfl, rfl, ⟨x, x1, x2, x3, x4⟩, ?_, _, t2, ?_⟩
  · exact Tb.recsOk_in (p := { e.toPitEntry with interest := if b then addHop s.cfg i else e.interest }) hre ..
  · refine lastWait ⟨x, x1, ?_⟩
    rw [x4]
    exact Nat.le_add_right ..

theorem recorded_entry {s : St} (hi : Inv s) (i : FwInterest) (f : FaceId) (c : Cs.Cs) :
    ∃ e, (recorded s i f c).find (pitInsert s i).2.1.uid = some e ∧ e.interest.toInterest = i.toInterest ∧
      e.outs = (pitInsert s i).2.1.outs ∧ (∃ x ∈ e.ins, x.face = f ∧ x.interest = addHop s.cfg i ∧ x.expiry = Tb.recExpiry s.now (addHop s.cfg i)) ∧ Tb.RecsOk e.toPitEntry ∧
      ∃ t, DueAt (recorded s i f c) (pitInsert s i).2.1.uid t ∧ LastWait s.now e.ins t := by
  obtain ⟨h1, h2, -, -, h5, h6⟩ := insert_spec hi i
  have h3 : (pitInsert s i).1.find (pitInsert s i).2.1.uid = some (pitInsert s i).2.1 := find_mem h6.uids h1
  have hcfg : (pitInsert s i).1.cfg = s.cfg := by unfold pitInsert; split <;> rfl
  have hnow : (pitInsert s i).1.now = s.now := by unfold pitInsert; split <;> rfl
  unfold recorded
  obtain ⟨e, e1, e2, e3, e4, e6, e5⟩ := record_entry
    (s := { (pitInsert s i).1 with cs := c, ctr := { s.ctr with nCsMisses := s.ctr.nCsMisses + 1 } })
    (u := (pitInsert s i).2.1.uid) (e := (pitInsert s i).2.1) h3 (h6.ents _ h1).recs i f (pitInsert s i).2.2
  refine ⟨e, e1, ?_, e3, ?_, e6, ?_⟩
  · rw [e2]
    split
    · rw [addHop_key]
    · exact h2
  · obtain ⟨x, x1, x2, x3, x4⟩ := e4
    exact ⟨x, x1, x2, by rw [x3]; exact congrArg (addHop · i) hcfg, by rw [x4]; exact congr (congrArg Tb.recExpiry hnow) (congrArg (addHop · i) hcfg)⟩
  · obtain ⟨t, t1, t2⟩ := e5
    exact ⟨t, t1, by rw [← hnow]; exact t2⟩

theorem passed_call (hi : Inv s) {i : FwInterest} {f : FaceId} (hp : Passed env s i f) (h : step env st s (.interest i f) = some s') :
    ∃ r u e j, Called st s s' i f r u e j := by
  obtain ⟨fi, hf, ha, hl⟩ := hp.face
  rcases interest_outcome hi hf ha h with ⟨j, hl', -, -⟩ | ⟨-, c, d, he, hc, -⟩ | ⟨-, c, hc, g, hg, -⟩ | ⟨-, c, hc, -, hcall⟩
  · exact absurd hl' hl
  · exfalso
    rcases hp.missed with ⟨e, h1, h2, h3⟩ | ⟨c', h1⟩
    · exact h3 (he e h1 h2)
    · rw [h1] at hc; cases hc
  · rw [hp.noNextHop] at hg; cases hg
  · have hi' : Inv (counted s) := InvX.congr hi rfl rfl rfl rfl rfl
    obtain ⟨⟨r1, r2, -, r4, r5, r6⟩, -⟩ := recorded_frame (counted s) (stripHint s.cfg (decHop i)) f c
    obtain ⟨e, e1, e2, e3, e4, e7, t, e5, e6⟩ := recorded_entry hi' (stripHint s.cfg (decHop i)) f c
    have hk : (stripHint s.cfg (decHop i)).toInterest = i.toInterest := (stripHint_key ..).trans rfl
    refine ⟨_, _, e, _, ⟨carries s.cfg i, e1, e2.trans hk, ?_, e4, e7, ⟨t, e5, by rw [r2]; exact e6⟩, r1, r2, r6, r5, hcall⟩⟩
    rw [e3]
    have := insert_outs (counted s) (stripHint s.cfg (decHop i))
    unfold OutRecords at this ⊢
    rw [hk] at this
    exact this

end Verif.Strat
