import Verif.Strat.SlInv
import Verif.Strat.Supplied

/-
Property C122: the self-learning strategy.
-/
namespace Verif.Strat.Sl

open Fw
open Tb (FaceId Time FwInterest InRec OutRec PitEntry NextHop)

variable {env : Env} {n : Nat} {l : List Event} {s s' : Sys}

/-! ### Statements -/

/-- A downstream of this entry still waits on `g`, and this Data, which came on `f`, may go there. -/
def WaitsIn (s : St) (e : Ent) (d : Data) (f g : FaceId) : Prop :=
  (∃ r ∈ e.ins, r.face = g ∧ s.now < r.expiry) ∧
  (∀ fi, s.faces g = some fi → ((g = f → fi.link = .adHoc) ∧ (UnderLocalhost d.name → fi.scope = .loc)))

/-- The faces for which `P` holds get `d` once with this announcement (or without one) and the others do not get it; no other Data is sent. -/
structure Delivers (s s' : Sys) (d : Data) (ann : Option Ann) (P : FaceId → Prop) : Prop where
  sent : ∃ new, Emits s.fw s'.fw new ∧ (∀ g, (P g → new.count (.data g d) = 1) ∧ (¬P g → new.count (.data g d) = 0)) ∧
    ∀ g d', .data g d' ∈ new → d' = d
  answers : ∀ x, x ∈ s'.answers ↔ x ∈ s.answers ∨ ∃ g, P g ∧ x = (g, d, ann)

/-- An announcement has to go with the answer: a downstream that still waits asked by a discovery Interest, and one that still waits is not on this host. -/
def NeedsAnn (s : Sys) (e : Ent) : Prop :=
  (∃ r ∈ e.ins, s.fw.now < r.expiry ∧ s.inInfo e.uid r.face = some false) ∧
  (∃ r ∈ e.ins, s.fw.now < r.expiry ∧ ∃ fi, s.fw.faces r.face = some fi ∧ fi.scope = .nonLocal)

/-- The Interest goes on to exactly the faces for which `P` holds and for which it has hops left, once to each. -/
def GoesTo (s s' : St) (i : FwInterest) (P : FaceId → Prop) : Prop :=
  ∃ j new, Carries s.cfg i j ∧ Emits s s' new ∧ new.Nodup ∧ ∀ p, p ∈ new ↔ ∃ g, p = .interest g j ∧ P g ∧ ¬OutOfHops s j g

/-- Every Interest among the new packets carries this mark. -/
def MarkedAs (s s' : Sys) (nd : Bool) : Prop :=
  ∃ new, s'.asks = s.asks ++ new ∧ (∀ a ∈ new, a.nonDiscovery = nd ∧ a.info = s.fw.faces a.face) ∧
    ∀ g j, .interest g j ∈ newSent s.fw s'.fw ↔ ∃ a ∈ new, a.face = g ∧ a.interest = j

/-! ### Reachable states -/

theorem inv_step {e : Event} (hi : Inv s.fw) (h : step1 env s e = .ok s') : Inv s'.fw := by
  cases e with
  | interest i nd f nhs table =>
    simp only [step1, onInterest] at h
    split at h
    · cases h
    · rename_i fw hs
      split at h <;> cases h <;> exact step_inv hi hs
  | data d ann f =>
    simp only [step1, onData] at h
    split at h
    · cases h
    · rename_i fw hs; cases h; exact step_inv hi hs
  | nack i k f nhs =>
    simp only [step1, onNack] at h
    split at h
    · cases h
    · rename_i fw hs
      split at h
      · cases h; exact step_inv hi hs
      · split at h
        · cases h
        · cases h; exact step_inv hi hs
  | rib ans =>
    cases h
    unfold onRib
    split
    · exact hi
    · split <;> exact hi
    · exact hi
  | main =>
    simp only [step1, onMain] at h
    split at h
    · cases h; exact hi
    · split at h
      · cases h
      · split at h
        · cases h
        · rename_i fw hs; cases h; exact step_inv hi hs
  | change b => cases h; cases b <;> exact hi
  | other e =>
    simp only [step1] at h
    split at h
    · split at h
      · cases h
      · rename_i fw hs; cases h; exact step_inv hi hs
    · cases h; exact hi
  | foreign st e =>
    simp only [step1] at h
    split at h
    · cases h
    · rename_i fw hs; cases h; exact step_inv hi hs

theorem inv_runs : ∀ {l : List Event} {s s' : Sys}, Inv s.fw → runs env s l = .ok s' → Inv s'.fw
  | [], s, s', hi, h => by cases h; exact hi
  | e :: l, s, s', hi, h => by
    simp only [runs] at h
    split at h
    · rename_i s1 h1
      exact inv_runs (inv_step hi h1) h
    · cases h

theorem reach (h : runs env (start n) l = .ok s) : Inv s.fw := inv_runs (init_inv n) h

theorem reach_J (h : runs env (start n) l = .ok s) (ho : ∀ e ∈ l, Own e) : J s := J_runs (J_start n) ho h

/-! ### C122: what is learnt -/

/-- C122 (partial): a route is announced to the RIB only through a face that was sent a discovery Interest, with no mark, when it was a non-local face;
the Data that came from there with this announcement satisfies that Interest. Missing: a sender on this host can name the next hop itself, and then this
fails (`C122_learns_from_chosen`); the strategy could change to another type and back, which takes the information away from pending Interests. -/
theorem C122_learns_partial (h : runs env (start n) l = .ok s) (ho : ∀ e ∈ l, Own e) {pa : Ann} {f : FaceId} (hp : .announce pa f ∈ s.posted) :
    ∃ d k, (d, some pa, f) ∈ s.heard ∧ Discovered s.asks f k ∧ k.matchesData d = true :=
  (reach_J h ho).posted pa f hp

/-! ### C122: Interests -/

theorem wires_spec {s : St} {i j : FwInterest} {f : FaceId} {gs : List FaceId} (hn : gs.Nodup) (he : ∀ g ∈ gs, Eligible s i.name f g) :
    (gs.flatMap (wire s.faces j)).Nodup ∧ ∀ p, p ∈ gs.flatMap (wire s.faces j) ↔ ∃ g, p = .interest g j ∧ g ∈ gs ∧ ¬OutOfHops s j g := by
  have hw : ∀ g p, p ∈ wire s.faces j g → p = .interest g j := by
    intro g p hp
    unfold wire at hp
    split at hp
    · cases hp
    · split at hp
      · cases hp
      · simpa using hp
  have hwn : ∀ g, (wire s.faces j g).Nodup := by
    intro g
    unfold wire
    split
    · exact List.nodup_nil
    · split
      · exact List.nodup_nil
      · simp
  constructor
  · rw [List.Nodup, List.pairwise_flatMap]
    refine ⟨fun g _ => hwn g, List.Pairwise.imp ?_ hn⟩
    intro a b hab x hx y hy he
    rw [hw a x hx, hw b y hy] at he
    injection he with he
    exact hab he
  · intro p
    rw [List.mem_flatMap]
    constructor
    · rintro ⟨g, hg, hp⟩
      refine ⟨g, hw g p hp, hg, fun ho => ?_⟩
      rw [(wire_eq (he g hg)).1 ho] at hp
      cases hp
    · rintro ⟨g, rfl, hg, ho⟩
      exact ⟨g, hg, by rw [(wire_eq (he g hg)).2 ho]; exact List.mem_singleton.2 rfl⟩

theorem broadcast_iff {s : St} {table : List FaceId} {i : FwInterest} {f g : FaceId} :
    g ∈ broadcastTargets s table i f ↔ g ∈ table ∧ Eligible s i.name f g ∧ ¬IsLocal s g := by
  unfold broadcastTargets
  rw [List.mem_filter]
  have key : (match s.faces f, s.faces g with
      | some fi, some gi => !((g == f && gi.link != .adHoc) || wouldViolateScope fi i.name gi || gi.scope == .loc)
      | _, _ => false) = true ↔ Eligible s i.name f g ∧ ¬IsLocal s g := by
    rw [← eligible_iff (i := i) (nh := ⟨g, 0⟩) (e := { interest := i })]
    unfold isNextHopEligible IsLocal
    cases s.faces f with
    | none => simp
    | some fi =>
      cases s.faces g with
      | none => simp
      | some gi =>
        by_cases h1 : g = f <;> by_cases h2 : gi.link = .adHoc <;> cases h3 : wouldViolateScope fi i.name gi <;> cases h4 : gi.scope <;> simp [h1, h2, h3, h4]
  exact and_congr_right fun _ => key

theorem onInterest_fw {i : FwInterest} {nd : Bool} {f : FaceId} {nhs : List NextHop} {table : List FaceId} (h : onInterest env s i nd f nhs table = .ok s') :
    step env (selfLearningS nhs table nd .now none) s.fw (.interest i f) = some s'.fw ∧
    (∀ u, askedEntry (newCalls s.fw s'.fw) = some u → s'.asks = s.asks ++ interestsOf s.fw (nd || !nhs.isEmpty) (newSent s.fw s'.fw)) := by
  unfold onInterest at h
  split at h
  · cases h
  · rename_i fw hs
    split at h
    · rename_i hn
      cases h
      refine ⟨hs, fun u hu => ?_⟩
      change askedEntry (newCalls s.fw fw) = some u at hu
      rw [hn] at hu
      cases hu
    · cases h; exact ⟨hs, fun _ _ => rfl⟩

theorem marked {i : FwInterest} {nd : Bool} {f : FaceId} {nhs : List NextHop} {table : List FaceId} (h : onInterest env s i nd f nhs table = .ok s')
    (hi : Inv s.fw) (hp : Passed env s.fw i f) : MarkedAs s s' (nd || !nhs.isEmpty) := by
  obtain ⟨r, u, e, j, hc⟩ := passed_call hi hp (onInterest_fw h).1
  have hcalls : newCalls s.fw s'.fw = [.afterReceiveInterest j f u] := by
    refine newCalls_eq ?_
    rw [(acted_acts hc.calls).calls, hc.before]
  refine ⟨_, (onInterest_fw h).2 u (by rw [hcalls]; rfl), fun a ha => ⟨(of_interestsOf ha).1, (of_interestsOf ha).2.1⟩, fun g j => ⟨fun hm => ?_, ?_⟩⟩
  · exact ⟨_, mem_interestsOf (s := s.fw) (nd := nd || !nhs.isEmpty) hm, rfl, rfl⟩
  · rintro ⟨a, ha, rfl, rfl⟩
    exact (of_interestsOf ha).2.2

/-- C122: a discovery Interest for which there is no route goes, without the mark, to every face that leads off this host, that is within its scope and
that it did not come from (unless the link is ad hoc); and to no other. -/
theorem C122_discovery (h : runs env (start n) l = .ok s) {i : FwInterest} {f : FaceId} (hp : Passed env s.fw i f) {table : List FaceId}
    (ht : table.Nodup) (ha : ∀ g, (s.fw.faces g).isSome → g ∈ table) (hs : step1 env s (.interest i false f [] table) = .ok s') :
    GoesTo s.fw s'.fw i (fun g => Eligible s.fw i.name f g ∧ ¬IsLocal s.fw g) ∧ MarkedAs s s' false := by
  refine ⟨?_, marked hs (reach h) hp⟩
  obtain ⟨r, u, e, j, hc⟩ := passed_call (reach h) hp (onInterest_fw hs).1
  have hact : selfLearningS [] table false .now none r (.afterReceiveInterest j f u) = (broadcastTargets r table j f).map (fun g => .sendInterest u j g) := by
    simp only [selfLearningS, hc.find, Option.map_some, Option.getD_some, selfLearningInterest, List.isEmpty_nil, if_true, Bool.false_eq_true, if_false]
  have hcalls := hc.calls
  rw [hact] at hcalls
  have h1 := (sent_interests j _ { r with calls := r.calls ++ [.afterReceiveInterest j f u] } _ e hc.find hcalls).sent
  change s'.fw.sent = r.sent ++ List.flatMap (wire r.faces j) _ at h1
  rw [hc.sent, hc.faces] at h1
  have htg : ∀ g, g ∈ broadcastTargets r table j f ↔ g ∈ table ∧ Eligible s.fw i.name f g ∧ ¬IsLocal s.fw g := by
    intro g
    rw [broadcast_iff, hc.carries.name, eligible_congr hc.faces]
    unfold IsLocal
    rw [hc.faces]
  obtain ⟨w1, w2⟩ := wires_spec (s := s.fw) (i := i) (j := j) (f := f) (gs := broadcastTargets r table j f)
    (List.filter_sublist.nodup ht) (fun g hg => ((htg g).1 hg).2.1)
  refine ⟨j, _, hc.carries, h1, w1, fun p => (w2 p).trans ?_⟩
  constructor
  · rintro ⟨g, h2, h3, h4⟩
    exact ⟨g, h2, ((htg g).1 h3).2, h4⟩
  · rintro ⟨g, h2, h3, h4⟩
    refine ⟨g, h2, (htg g).2 ⟨ha g ?_, h3⟩, h4⟩
    obtain ⟨-, gi, -, h5, -⟩ := h3.1
    rw [h5]; rfl

/-- C122: where there is a route, the Interest goes to every next hop that is eligible, with the mark. -/
theorem C122_routed (h : runs env (start n) l = .ok s) {i : FwInterest} {f : FaceId} (hp : Passed env s.fw i f) {nd : Bool} {table : List FaceId}
    {nhs : List NextHop} (hne : nhs ≠ []) (hd : (nhs.map (·.face)).Nodup) (hs : step1 env s (.interest i nd f nhs table) = .ok s') :
    GoesTo s.fw s'.fw i (fun g => Eligible s.fw i.name f g ∧ ∃ nh ∈ nhs, nh.face = g) ∧ MarkedAs s s' true := by
  have hemp : nhs.isEmpty = false := by cases nhs with
    | nil => exact absurd rfl hne
    | cons => rfl
  refine ⟨?_, by have := marked hs (reach h) hp; rwa [hemp, Bool.not_false, Bool.or_true] at this⟩
  obtain ⟨r, u, e, j, hc⟩ := passed_call (reach h) hp (onInterest_fw hs).1
  have hact : selfLearningS nhs table nd .now none r (.afterReceiveInterest j f u) =
      ((nhs.filter (fun nh => isNextHopEligible r f j nh e.toPitEntry)).map (·.face)).map (fun g => .sendInterest u j g) := by
    simp only [selfLearningS, hc.find, Option.map_some, Option.getD_some, selfLearningInterest, hemp, Bool.false_eq_true, if_false, List.map_map]
    rfl
  have hcalls := hc.calls
  rw [hact] at hcalls
  have h1 := (sent_interests j _ { r with calls := r.calls ++ [.afterReceiveInterest j f u] } _ e hc.find hcalls).sent
  change s'.fw.sent = r.sent ++ List.flatMap (wire r.faces j) _ at h1
  rw [hc.sent, hc.faces] at h1
  have htg : ∀ g, g ∈ (nhs.filter (fun nh => isNextHopEligible r f j nh e.toPitEntry)).map (·.face) ↔
      Eligible s.fw i.name f g ∧ ∃ nh ∈ nhs, nh.face = g := by
    intro g
    rw [List.mem_map]
    constructor
    · rintro ⟨nh, hm, rfl⟩
      obtain ⟨m1, m2⟩ := List.mem_filter.1 hm
      rw [eligible_iff, hc.carries.name, eligible_congr hc.faces] at m2
      exact ⟨m2, nh, m1, rfl⟩
    · rintro ⟨h2, nh, m1, rfl⟩
      exact ⟨nh, List.mem_filter.2 ⟨m1, by rw [eligible_iff, hc.carries.name, eligible_congr hc.faces]; exact h2⟩, rfl⟩
  obtain ⟨w1, w2⟩ := wires_spec (s := s.fw) (i := i) (j := j) (f := f) (gs := (nhs.filter (fun nh => isNextHopEligible r f j nh e.toPitEntry)).map (·.face))
    ((List.Sublist.map _ List.filter_sublist).nodup hd) (fun g hg => ((htg g).1 hg).1)
  refine ⟨j, _, hc.carries, h1, w1, fun p => (w2 p).trans ?_⟩
  exact exists_congr fun g => and_congr_right fun _ => and_congr_left fun _ => htg g

/-- C122: an Interest that carries the mark and for which there is no route is refused. -/
theorem C122_refused (h : runs env (start n) l = .ok s) {i : FwInterest} {f : FaceId} (hp : Passed env s.fw i f) {table : List FaceId}
    (hs : step1 env s (.interest i true f [] table) = .ok s') : Refuses s.fw s'.fw i f nackNoRoute := by
  obtain ⟨fi, hf, -⟩ := hp.face
  obtain ⟨r, u, e, j, hc⟩ := passed_call (reach h) hp (onInterest_fw hs).1
  refine refuses hc (by rw [hf]; rfl) ?_
  simp only [selfLearningS, hc.find, Option.map_some, Option.getD_some, selfLearningInterest, List.isEmpty_nil, if_true]

/-! ### C122: Data -/

theorem filter_one {α : Type} {p : α → Bool} {e : α} : ∀ {l : List α}, l.Nodup → e ∈ l → p e = true → (∀ x ∈ l, p x = true → x = e) → l.filter p = [e]
  | x :: l, hn, he, hp, hu => by
    obtain ⟨h1, h2⟩ := List.nodup_cons.1 hn
    by_cases hx : x = e
    · rw [hx, List.filter_cons_of_pos hp]
      congr 1
      rw [List.filter_eq_nil_iff]
      intro y hy hpy
      have := hu y (List.mem_cons_of_mem _ hy) hpy
      rw [this, ← hx] at hy
      exact h1 hy
    · have : ¬p x = true := fun h => hx (hu x List.mem_cons_self h)
      rw [List.filter_cons_of_neg this]
      refine filter_one h2 ?_ hp (fun y hy => hu y (List.mem_cons_of_mem _ hy))
      rcases List.mem_cons.1 he with h | h
      · exact absurd h.symm hx
      · exact h

theorem nodup_of_map {α β : Type} {f : α → β} : ∀ {l : List α}, (l.map f).Nodup → l.Nodup
  | [], _ => List.nodup_nil
  | x :: l, h => by
    rw [List.map_cons, List.nodup_cons] at h
    exact List.nodup_cons.2 ⟨fun hm => h.1 (List.mem_map.2 ⟨x, hm, rfl⟩), nodup_of_map h.2⟩

theorem lastAsk_unique {asks : List Ask} {g : FaceId} {k : Interest} {a b : Ask} (ha : LastAsk asks g k a) (hb : LastAsk asks g k b) : a = b := by
  obtain ⟨p1, q1, h1, h2, h3, h4⟩ := ha
  obtain ⟨p2, q2, g1, g2, g3, g4⟩ := hb
  rw [h1] at g1
  rcases List.append_eq_append_iff.1 g1 with ⟨c, c1, c2⟩ | ⟨c, c1, c2⟩
  · cases c with
    | nil => injection c2
    | cons x c =>
      injection c2 with x1 x2
      exact absurd ⟨g2, g3⟩ (h4 b (by rw [x2]; simp))
  · cases c with
    | nil => injection c2 with x1 _; exact x1.symm
    | cons x c =>
      injection c2 with x1 x2
      exact absurd ⟨h2, h3⟩ (g4 a (by rw [x2]; simp))

/-- Data that satisfies one pending Interest: the strategy is called once. -/
theorem data_one {st : Strategy} {s s' : St} {d : Data} {f : FaceId} {fi : FaceInfo} {e : Ent} (hi : Inv s) (hf : s.faces f = some fi)
    (hsc : ¬(fi.scope = .nonLocal ∧ UnderLocalhost d.name)) (hm : dataMatches s d = [e]) (h : step env st s (.data d f) = some s') :
    ∃ a : St, a.pit = s.pit ∧ a.faces = s.faces ∧ a.now = s.now ∧ a.sent = s.sent ∧ Inv a ∧ satisfyOne env st a d f e.uid = some s' ∧
      newCalls s s' = [.afterReceiveData d f e.uid] := by
  have hsc' : ¬(fi.scope = .nonLocal ∧ isLocalhost d.name = true) := by rwa [localhost_iff]
  have hm' : (dataMatches { s with ctr := { s.ctr with nInData := s.ctr.nInData + 1 } } d).map (·.uid) = [e.uid] := congrArg (List.map (·.uid)) hm
  simp only [step, onIncomingData, hf, if_neg hsc', hm'] at h
  simp only [Option.bind_eq_some_iff] at h
  obtain ⟨c, -, h⟩ := h
  refine ⟨{ s with cs := c, ctr := { s.ctr with nInData := s.ctr.nInData + 1 } }, rfl, rfl, rfl, rfl, hi.congr rfl rfl rfl rfl rfl, h, ?_⟩
  unfold satisfyOne at h
  rw [Option.map_eq_some_iff] at h
  obtain ⟨s1, h1, rfl⟩ := h
  have hc := acted_call h1
  refine newCalls_eq ?_
  have h2 : (satisfyEntry env s1 d f e.uid).calls = s1.calls := by
    unfold satisfyEntry insertDeadNonceList
    dsimp only
    split
    · rfl
    · split <;> rfl
  rw [h2, hc.calls]
  exact congrArg (· ++ _) (acted_timer [] _ _ _).calls

/-- Only the action for this trigger counts. -/
theorem data_congr {st st' : Strategy} {s : St} {d : Data} {f : FaceId} {fi : FaceInfo} {e : Ent} (hf : s.faces f = some fi)
    (hsc : ¬(fi.scope = .nonLocal ∧ UnderLocalhost d.name)) (hm : dataMatches s d = [e])
    (h : ∀ a : St, a.pit = s.pit → st (setExpiryTimer a e.uid 0) (.afterReceiveData d f e.uid) = st' (setExpiryTimer a e.uid 0) (.afterReceiveData d f e.uid)) :
    step env st s (.data d f) = step env st' s (.data d f) := by
  have hsc' : ¬(fi.scope = .nonLocal ∧ isLocalhost d.name = true) := by rwa [localhost_iff]
  have hm' : (dataMatches { s with ctr := { s.ctr with nInData := s.ctr.nInData + 1 } } d).map (·.uid) = [e.uid] := congrArg (List.map (·.uid)) hm
  simp only [step, onIncomingData, hf, if_neg hsc', hm', satisfyOne, call]
  congr 1
  funext c
  rw [h { s with cs := c, ctr := { s.ctr with nInData := s.ctr.nInData + 1 } } rfl]

theorem plain_defaults : PlainData (fun _ t => defaults t) := by
  intro s t
  cases t with
  | afterReceiveData d f u => exact ⟨[], rfl, fun _ h => nomatch h⟩
  | beforeSatisfyInterest d f u => exact fun _ h => nomatch h
  | _ => trivial

theorem timer_find {s : St} {u ms : Nat} {e : Ent} (h : s.find u = some e) : (setExpiryTimer s u ms).find u = some { e with timer := some s.nextTimer } :=
  (timer_spec h).1

theorem needs_iff {s : Sys} {e : Ent} (hi : Inv s.fw) (he : e ∈ s.fw.pit) : needPrefixAnn s e = true ↔ NeedsAnn s e := by
  unfold needPrefixAnn NeedsAnn
  simp only [Bool.and_eq_true, List.any_eq_true, List.mem_filter, decide_eq_true_eq, beq_iff_eq, Bool.not_eq_true', List.all_eq_false]
  refine and_congr ?_ ?_
  · exact exists_congr fun r => ⟨fun ⟨⟨a, b⟩, c⟩ => ⟨a, b, c⟩, fun ⟨a, b, c⟩ => ⟨⟨a, b⟩, c⟩⟩
  · refine exists_congr fun r => ?_
    constructor
    · rintro ⟨⟨a, b⟩, c⟩
      obtain ⟨fi, hfi⟩ := Option.isSome_iff_exists.1 ((hi.ents e he).inFace r a)
      rw [hfi] at c
      refine ⟨a, b, fi, hfi, ?_⟩
      cases hs : fi.scope with
      | nonLocal => rfl
      | loc => rw [Option.all_some, hs] at c; exact absurd rfl c
    · rintro ⟨a, b, fi, hfi, c⟩
      refine ⟨⟨a, b⟩, ?_⟩
      rw [hfi, Option.all_some, c]
      decide

theorem count_mem {l : List Pkt} {p : Pkt} : p ∈ l ↔ 0 < l.count p := List.count_pos_iff.symm

theorem mem_datasOf {ann : Option Ann} {g : FaceId} {d : Data} {x : FaceId × Data × Option Ann} : ∀ {l : List Pkt},
    x ∈ datasOf ann l ↔ .data x.1 x.2.1 ∈ l ∧ x.2.2 = ann
  | [] => by simp [datasOf]
  | p :: l => by
    have ih := mem_datasOf (ann := ann) (g := g) (d := d) (x := x) (l := l)
    cases p with
    | data g d =>
      obtain ⟨x1, x2, x3⟩ := x
      simp only [datasOf, List.mem_cons, ih, Prod.mk.injEq, Pkt.data.injEq]
      constructor
      · rintro (⟨h1, h2, h3⟩ | ⟨h1, h2⟩)
        · exact ⟨Or.inl ⟨h1, h2⟩, h3⟩
        · exact ⟨Or.inr h1, h2⟩
      · rintro ⟨⟨h1, h2⟩ | h1, h3⟩
        · exact Or.inl ⟨h1, h2, h3⟩
        · exact Or.inr ⟨h1, h3⟩
    | interest => simp only [datasOf, List.mem_cons, ih, reduceCtorEq, false_or]
    | nack => simp only [datasOf, List.mem_cons, ih, reduceCtorEq, false_or]

theorem delivers {s s' : Sys} {d : Data} {ann : Option Ann} {P : FaceId → Prop} (ha : s'.answers = s.answers ++ datasOf ann (newSent s.fw s'.fw))
    (h : ∃ new, Emits s.fw s'.fw new ∧ (∀ g, (P g → new.count (.data g d) = 1) ∧ (¬P g → new.count (.data g d) = 0)) ∧
      ∀ g d', .data g d' ∈ new → d' = d) : Delivers s s' d ann P := by
  refine ⟨h, ?_⟩
  obtain ⟨new, h1, h2, h3⟩ := h
  intro x
  rw [ha, List.mem_append, newSent_eq h1, mem_datasOf (g := 0) (d := d)]
  refine or_congr_right ?_
  obtain ⟨x1, x2, x3⟩ := x
  constructor
  · rintro ⟨h4, h5⟩
    obtain rfl := h3 _ _ h4
    refine ⟨x1, Classical.byContradiction fun hp => ?_, by rw [show x3 = ann from h5]⟩
    have := (h2 x1).2 hp
    have h6 := count_mem.1 h4
    rw [this] at h6
    exact absurd h6 (Nat.lt_irrefl 0)
  · rintro ⟨g, hp, hx⟩
    cases hx
    exact ⟨count_mem.2 (by rw [(h2 x1).1 hp]; exact Nat.one_pos), rfl⟩

theorem onData_fw {d : Data} {ann : Option Ann} {f : FaceId} (h : onData env s d ann f = .ok s') :
    step env (dataS s) s.fw (.data d f) = some s'.fw ∧ s'.answers = s.answers ++ datasOf ann (newSent s.fw s'.fw) ∧
    s'.posted = s.posted ++ dataPosts s ann (newCalls s.fw s'.fw) ∧ s'.rib = s.rib ++ dataPosts s ann (newCalls s.fw s'.fw) := by
  unfold onData at h
  split at h
  · cases h
  · rename_i fw hs
    cases h
    exact ⟨hs, rfl, rfl, rfl⟩

theorem findOut_of {p : PitEntry} {f : FaceId} (h : ∃ r ∈ p.outs, r.face = f) : ∃ x, findOut p f = some x := by
  obtain ⟨r, h1, h2⟩ := h
  cases hx : findOut p f with
  | some x => exact ⟨x, rfl⟩
  | none => exact absurd h2 (findOut_none hx r h1)

/-- The situation of `C122_data`: the Data is admissible and satisfies one pending Interest, which was sent to the face that it comes from. -/
structure Answers (s : Sys) (d : Data) (f : FaceId) (e : Ent) (a : Ask) : Prop where
  face : ∃ fi, s.fw.faces f = some fi ∧ ¬(fi.scope = .nonLocal ∧ UnderLocalhost d.name)
  pending : e ∈ s.fw.pit
  satisfies : e.interest.matchesData d = true
  only : ∀ x ∈ s.fw.pit, x.interest.matchesData d = true → x = e
  asked : ∃ r ∈ e.outs, r.face = f
  last : LastAsk s.asks f e.interest.toInterest a

theorem answers_branch (h : runs env (start n) l = .ok s) (ho : ∀ e ∈ l, Own e) {d : Data} {f : FaceId} {e : Ent} {a : Ask} (ha : Answers s d f e a) :
    (branch s e f = .lookup ↔ a.nonDiscovery = true ∧ NeedsAnn s e) ∧ (branch s e f = .discovery ↔ a.nonDiscovery = false) := by
  have hj := reach_J h ho
  obtain ⟨r, r1, r2⟩ := ha.asked
  obtain ⟨b, b1, b2, -⟩ := hj.outs e ha.pending r r1
  rw [r2] at b1 b2
  rw [lastAsk_unique b1 ha.last] at b2
  unfold branch
  rw [b2]
  cases a.nonDiscovery with
  | false => simp
  | true =>
    rw [← needs_iff hj.inv ha.pending]
    cases needPrefixAnn s e <;> simp

theorem answers_now (h : runs env (start n) l = .ok s) {d : Data} {ann : Option Ann} {f : FaceId} {e : Ent} {a : Ask} (ha : Answers s d f e a)
    (hb : branch s e f ≠ .lookup) (hs : step1 env s (.data d ann f) = .ok s') : Delivers s s' d ann (Waits s.fw d f) := by
  have hi := reach h
  obtain ⟨h1, h2, -, -⟩ := onData_fw hs
  obtain ⟨fi, hf, hsc⟩ := ha.face
  have hm : dataMatches s.fw d = [e] := filter_one (nodup_of_map hi.uids) ha.pending ha.satisfies ha.only
  have hfe : s.fw.find e.uid = some e := find_mem hi.uids ha.pending
  rw [data_congr (st' := fun _ t => defaults t) hf hsc hm ?_] at h1
  · exact delivers h2 (data_spec hi plain_defaults hf hsc h1).sent
  · intro b hbp
    have hfb : b.find e.uid = some e := by unfold St.find; rw [hbp]; exact hfe
    obtain ⟨x, hx⟩ := findOut_of ha.asked
    have hx' : findOut ({ e with timer := some b.nextTimer } : Ent).toPitEntry f = some x := hx
    have hbl : (branch s e f == .lookup) = false := by simpa using hb
    simp only [dataS, hfe, Option.any_some, hbl, Bool.false_eq_true, if_false, selfLearningS, timer_find hfb, Option.bind_some, hx', defaults]

/-- C122: Data from a face whose last Interest of this name and selectors carried no mark, and Data for which no announcement is needed, goes at once to
every downstream that waits, with the announcement that it came with; a route is announced in the first case and if there is an announcement. -/
theorem C122_data_now (h : runs env (start n) l = .ok s) (ho : ∀ e ∈ l, Own e) {d : Data} {ann : Option Ann} {f : FaceId} {e : Ent} {a : Ask}
    (ha : Answers s d f e a) (hb : ¬(a.nonDiscovery = true ∧ NeedsAnn s e)) (hs : step1 env s (.data d ann f) = .ok s') :
    Delivers s s' d ann (Waits s.fw d f) ∧
    (∀ t, t ∈ s'.posted ↔ t ∈ s.posted ∨ ∃ pa, t = .announce pa f ∧ a.nonDiscovery = false ∧ ann = some pa) ∧
    ∃ new, s'.rib = s.rib ++ new ∧ s'.posted = s.posted ++ new := by
  obtain ⟨b1, b2⟩ := answers_branch h ho ha
  have hnl : branch s e f ≠ .lookup := fun hc => hb (b1.1 hc)
  refine ⟨answers_now h ha hnl hs, ?_⟩
  have hi := reach h
  obtain ⟨h1, -, h3, h4⟩ := onData_fw hs
  obtain ⟨fi, hf, hsc⟩ := ha.face
  have hm : dataMatches s.fw d = [e] := filter_one (nodup_of_map hi.uids) ha.pending ha.satisfies ha.only
  obtain ⟨-, -, -, -, -, -, -, hc⟩ := data_one hi hf hsc hm h1
  refine ⟨?_, _, h4, h3⟩
  intro t
  rw [h3, hc, List.mem_append]
  refine or_congr_right ?_
  have hany : e.outs.any (·.face == f) = true := by
    obtain ⟨r, r1, r2⟩ := ha.asked
    exact List.any_eq_true.2 ⟨r, r1, by simpa using r2⟩
  simp only [dataPosts, find_mem hi.uids ha.pending, hany, if_true]
  cases hbr : branch s e f with
  | lookup => exact absurd hbr hnl
  | plain =>
    have : a.nonDiscovery ≠ false := fun hd => by rw [b2.2 hd] at hbr; cases hbr
    simp [this]
  | discovery =>
    rw [b2.1 hbr]
    cases ann with
    | none => simp
    | some pa => simp [eq_comm]

/-- C122: Data for a marked Interest for which an announcement is needed is not sent to anyone; the RIB is asked for an announcement, and the Interest
stays with its downstreams for a second. -/
theorem C122_data_later (h : runs env (start n) l = .ok s) (ho : ∀ e ∈ l, Own e) {d : Data} {ann : Option Ann} {f : FaceId} {e : Ent} {a : Ask}
    (ha : Answers s d f e a) (hb : a.nonDiscovery = true ∧ NeedsAnn s e) (hs : step1 env s (.data d ann f) = .ok s') :
    Emits s.fw s'.fw [] ∧ s'.answers = s.answers ∧ s'.posted = s.posted ++ [.find s.obj e.uid f d] ∧ s'.rib = s.rib ++ [.find s.obj e.uid f d] ∧
    (∃ e' ∈ s'.fw.pit, e'.uid = e.uid ∧ e'.ins = e.ins) ∧ DueAt s'.fw e.uid (s.fw.now + 1000000000) := by
  have hbr := (answers_branch h ho ha).1.2 hb
  have hi := reach h
  obtain ⟨h1, h2, h3, h4⟩ := onData_fw hs
  obtain ⟨fi, hf, hsc⟩ := ha.face
  have hm : dataMatches s.fw d = [e] := filter_one (nodup_of_map hi.uids) ha.pending ha.satisfies ha.only
  have hfe : s.fw.find e.uid = some e := find_mem hi.uids ha.pending
  obtain ⟨b, p1, p2, p3, p4, -, hone, hc⟩ := data_one hi hf hsc hm h1
  have hfb : b.find e.uid = some e := by unfold St.find; rw [p1]; exact hfe
  have hany : e.outs.any (·.face == f) = true := by
    obtain ⟨r, r1, r2⟩ := ha.asked
    exact List.any_eq_true.2 ⟨r, r1, by simpa using r2⟩
  have hposts : dataPosts s ann (newCalls s.fw s'.fw) = [.find s.obj e.uid f d] := by
    rw [hc]
    simp only [dataPosts, hfe, hany, if_true, hbr]
  obtain ⟨x, hx⟩ := findOut_of ha.asked
  have hact : dataS s (setExpiryTimer b e.uid 0) (.afterReceiveData d f e.uid) = [.setExpiryTimer e.uid 1000] := by
    have hx' : findOut ({ e with timer := some b.nextTimer } : Ent).toPitEntry f = some x := hx
    simp only [dataS, hfe, Option.any_some, hbr, beq_self_eq_true, if_true, selfLearningS, timer_find hfb, Option.bind_some, hx']
  unfold satisfyOne call at hone
  rw [hact] at hone
  simp only [acts, act, Option.bind_some, Option.map_some, Option.some.injEq] at hone
  have hq : ∃ q : St, q.find e.uid = some { e with timer := some b.nextTimer } ∧ q.sent = b.sent ∧ q.now = b.now ∧
      s'.fw = satisfyEntry env (setExpiryTimer q e.uid 1000) d f e.uid :=
    ⟨{ setExpiryTimer b e.uid 0 with calls := (setExpiryTimer b e.uid 0).calls ++ [.afterReceiveData d f e.uid] }, timer_find hfb, timer_sent ..,
      (acted_timer [] b e.uid 0).now, hone.symm⟩
  obtain ⟨q, q1, q2, q3, q4⟩ := hq
  obtain ⟨t1, t2⟩ := timer_spec (ms := 1000) q1
  have hsat : ∀ w : St, (satisfyEntry env w d f e.uid).sched = w.sched ∧ (satisfyEntry env w d f e.uid).sent = w.sent ∧
      ∀ y, w.find e.uid = some y → ∃ e' ∈ (satisfyEntry env w d f e.uid).pit, e'.uid = e.uid ∧ e'.ins = y.ins := by
    intro w
    have hdn : ∀ v : St, (insertDeadNonceList env v e.uid (some f)).sched = v.sched ∧ (insertDeadNonceList env v e.uid (some f)).sent = v.sent ∧
        (insertDeadNonceList env v e.uid (some f)).pit = v.pit := by
      intro v
      unfold insertDeadNonceList
      split
      · exact ⟨rfl, rfl, rfl⟩
      · split <;> exact ⟨rfl, rfl, rfl⟩
    obtain ⟨d1, d2, d3⟩ := hdn (w.mod e.uid (fun e => { e with satisfied := true, freshness := d.freshness }))
    refine ⟨d1, d2, ?_⟩
    intro y hy
    obtain ⟨y1, y2⟩ := find_some hy
    refine ⟨_, mem_mod.2 ⟨_, by rw [d3]; exact mem_mod.2 ⟨y, y1, rfl⟩, rfl⟩, ?_⟩
    rw [if_pos y2, if_pos (show ({ y with satisfied := true, freshness := d.freshness } : Ent).uid = e.uid from y2)]
    exact ⟨y2, rfl⟩
  obtain ⟨w1, w2, w3⟩ := hsat (setExpiryTimer q e.uid 1000)
  have hsent : s'.fw.sent = s.fw.sent := by rw [q4, w2, timer_sent, q2, p4]
  refine ⟨by unfold Emits; rw [hsent, List.append_nil], ?_, by rw [h3, hposts], by rw [h4, hposts], ?_, ?_⟩
  · rw [h2, newSent_eq (l := []) (by rw [hsent, List.append_nil])]
    exact List.append_nil _
  · rw [q4]
    obtain ⟨e', a1, a2, a3⟩ := w3 _ t1
    exact ⟨e', a1, a2, a3⟩
  · obtain ⟨z, z1, z2, z3⟩ := t2
    refine ⟨z, by rw [q4, w1]; exact z1, z2, ?_⟩
    rw [z3, q3, p3]

/-- C122: when the announcement has been found, the downstreams that still wait get the Data with it, and the Interest ends; provided that the strategy
object, the Interest and the face are still there. -/
theorem C122_lookup (h : runs env (start n) l = .ok s) {t : MainTask} {ts : List MainTask} (hm : s.main = t :: ts) (ho : t.obj = s.obj) {e : Ent}
    (he : e ∈ s.fw.pit) (hu : e.uid = t.u) (hf : (s.fw.faces t.f).isSome) (hs : step1 env s .main = .ok s') :
    Delivers s s' t.d (some t.pa) (WaitsIn s.fw e t.d t.f) ∧ DueAt s'.fw t.u s.fw.now ∧ s'.main = ts := by
  have hi := reach h
  have hfe : s.fw.find t.u = some e := by rw [← hu]; exact find_mem hi.uids he
  simp only [step1, onMain, hm, ho, ne_eq, not_true, if_false] at hs
  split at hs
  · cases hs
  · rename_i fw h1
    cases hs
    have hact : selfLearningS [] [] false .now (some (t.u, t.d, t.f)) s.fw .async = [.sendDataToAll t.u t.d t.f, .setExpiryTimer t.u 0] := by
      simp only [selfLearningS, hfe, hf, Option.isSome_some, and_self, if_true]
    have h2 : acts { s.fw with calls := s.fw.calls ++ [.async] } [.sendDataToAll t.u t.d t.f, .setExpiryTimer t.u 0] = some fw := by
      rw [← hact]; exact h1
    simp only [acts, act, Option.bind_eq_some_iff, Option.some.injEq] at h2
    obtain ⟨s1, h3, s2, h4, h5⟩ := h2
    have hnow : s1.now = s.fw.now :=
      (acted_acts (l := [.sendDataToAll t.u t.d t.f]) (s := { s.fw with calls := s.fw.calls ++ [.async] }) (s' := s1)
        (by simp only [acts, act, Option.bind_eq_some_iff]; exact ⟨s1, h3, rfl⟩)).now
    have hfe' : ({ s.fw with calls := s.fw.calls ++ [.async] } : St).find t.u = some e := hfe
    unfold sendDataToAll at h3
    simp only [hfe'] at h3
    obtain ⟨k1, k2, -⟩ := sendDataList_sent ⟨e, hfe'⟩ h3
    have huids : s1.pit.map (·.uid) = s.fw.pit.map (·.uid) := by
      have hB : ∀ a : St, (a.pit.map viewOut).map (·.1) = a.pit.map (·.uid) := by intro a; rw [List.map_map]; rfl
      rw [← hB, k2, hB]
    obtain ⟨e1, he1⟩ := Option.isSome_iff_exists.1 (find_isSome_of_uids (a := s.fw) huids (u := t.u) (by rw [hfe]; rfl))
    obtain ⟨-, z, z1, z2, z3⟩ := timer_spec (ms := 0) he1
    subst h4
    subst h5
    refine ⟨delivers rfl ?_, ⟨z, z1, z2, by rw [z3, hnow]; rfl⟩, rfl⟩
    refine count_of_list (L := (pendingDownstreams { s.fw with calls := s.fw.calls ++ [.async] } e t.f).filter (okFace s.fw.faces t.d)) (pre := []) ?_
      (fun _ _ h => nomatch h) ?_ ?_
    · exact List.Nodup.sublist List.filter_sublist (nodup_eraseDups _)
    · intro g
      simp only [pendingDownstreams, List.mem_filter, List.mem_eraseDups, List.mem_map, Bool.and_eq_true, decide_eq_true_eq]
      constructor
      · rintro ⟨⟨r, ⟨hr, hx, hb⟩, hrg⟩, hok⟩
        have hex : (s.fw.faces g).isSome := by rw [← hrg]; exact (hi.ents e he).inFace r hr
        have hb' : sendsBack s.fw t.f g = true := by rw [← hrg]; exact hb
        refine ⟨⟨r, hr, hrg, hx⟩, ?_⟩
        intro fi hfi
        exact ⟨(sendsBack_iff hex).1 hb' fi hfi, (okFace_iff hex).1 hok fi hfi⟩
      · rintro ⟨⟨r, hr, hrg, hx⟩, hfi⟩
        have hex : (s.fw.faces g).isSome := by rw [← hrg]; exact (hi.ents _ he).inFace r hr
        refine ⟨⟨r, ⟨hr, hx, ?_⟩, hrg⟩, (okFace_iff hex).2 (fun fi h => (hfi fi h).2)⟩
        have : sendsBack s.fw t.f g = true := (sendsBack_iff hex).2 (fun fi h => (hfi fi h).1)
        rw [hrg]; exact this
    · show (setExpiryTimer s1 t.u 0).sent = _
      rw [timer_sent, k1]; rfl

/-- C122: the answer to the lookup goes back to the strategy exactly if an announcement was found, and with that announcement; nothing is sent meanwhile. -/
theorem C122_found {o u : Nat} {f : FaceId} {d : Data} {ts : List RibTask} (hr : s.rib = .find o u f d :: ts) {ans : Option Ann}
    (hs : step1 env s (.rib ans) = .ok s') :
    s'.rib = ts ∧ s'.fw = s.fw ∧ s'.answers = s.answers ∧ s'.posted = s.posted ∧
      ∃ new, s'.main = s.main ++ new ∧ (ans = none → new = []) ∧ ∀ pa, ans = some pa → new = [⟨o, u, f, d, pa⟩] := by
  cases hs
  unfold onRib
  rw [hr]
  cases ans with
  | none => exact ⟨rfl, rfl, rfl, rfl, [], (List.append_nil _).symm, fun _ => rfl, fun _ h => (by cases h)⟩
  | some pa => exact ⟨rfl, rfl, rfl, rfl, _, rfl, fun h => (by cases h), fun _ h => (by cases h; rfl)⟩

/-- C122: when the Interest or the face has gone meanwhile, nothing is sent. -/
theorem C122_gone {t : MainTask} {ts : List MainTask} (hm : s.main = t :: ts) (ho : t.obj = s.obj)
    (hg : (∀ e ∈ s.fw.pit, e.uid ≠ t.u) ∨ s.fw.faces t.f = none) (hs : step1 env s .main = .ok s') :
    s'.fw.sent = s.fw.sent ∧ s'.fw.pit = s.fw.pit ∧ s'.answers = s.answers ∧ s'.main = ts := by
  simp only [step1, onMain, hm, ho, ne_eq, not_true, if_false] at hs
  have hn : ¬((s.fw.find t.u).isSome = true ∧ (s.fw.faces t.f).isSome = true) := by
    rintro ⟨h1, h2⟩
    rcases hg with hg | hg
    · obtain ⟨e, he⟩ := Option.isSome_iff_exists.1 h1
      have h3 := List.mem_of_find?_eq_some he
      have h4 := List.find?_some he
      simp only [decide_eq_true_eq, beq_iff_eq] at h4
      exact hg e h3 h4
    · rw [hg] at h2; cases h2
  split at hs
  · cases hs
  · rename_i fw h1
    cases hs
    have hact : selfLearningS [] [] false .now (some (t.u, t.d, t.f)) s.fw .async = [] := by
      simp only [selfLearningS]
      exact if_neg hn
    have h2 : acts { s.fw with calls := s.fw.calls ++ [.async] } [] = some fw := by
      rw [← hact]; exact h1
    simp only [acts, Option.some.injEq] at h2
    subst h2
    refine ⟨rfl, rfl, ?_, rfl⟩
    show s.answers ++ datasOf _ (newSent s.fw _) = s.answers
    rw [newSent_eq (l := []) (by rw [List.append_nil])]
    exact List.append_nil _

theorem hasIn_of {s : St} (hn : (s.pit.map (·.uid)).Nodup) {e : Ent} (he : e ∈ s.pit) {r : InRec} (hr : r ∈ e.ins) : hasIn s e.uid r.face = true := by
  unfold hasIn
  rw [find_mem hn he]
  exact List.any_eq_true.2 ⟨r, hr, by simp⟩

/-- C122: what is remembered of a downstream is whether the last Interest that it sent carried the mark. -/
theorem C122_remembers (h : runs env (start n) l = .ok s) {i : FwInterest} {f : FaceId} (hp : Passed env s.fw i f) {nd : Bool} {table : List FaceId}
    {nhs : List NextHop} (hs : step1 env s (.interest i nd f nhs table) = .ok s') :
    ∀ e ∈ s'.fw.pit, ∀ r ∈ e.ins,
      (e.interest.toInterest = i.toInterest ∧ r.face = f → s'.inInfo e.uid r.face = some nd) ∧
      (¬(e.interest.toInterest = i.toInterest ∧ r.face = f) → s'.inInfo e.uid r.face = s.inInfo e.uid r.face) := by
  have hi := reach h
  have hi' := inv_step hi hs
  obtain ⟨r0, u, e0, j, hc⟩ := passed_call hi hp (onInterest_fw hs).1
  have hcalls : newCalls s.fw s'.fw = [.afterReceiveInterest j f u] := by
    refine newCalls_eq ?_
    rw [(acted_acts hc.calls).calls, hc.before]
  have hok : ∀ a ∈ selfLearningS nhs table nd .now none r0 (.afterReceiveInterest j f u), ActOk { r0 with calls := r0.calls ++ [.afterReceiveInterest j f u] } a := by
    intro a ha
    simp only [selfLearningS, hc.find, Option.map_some, Option.getD_some, selfLearningInterest] at ha
    split at ha
    · split at ha
      · simp only [noRoute, List.mem_cons, List.not_mem_nil, or_false] at ha
        rcases ha with rfl | rfl <;> trivial
      · obtain ⟨g, -, rfl⟩ := List.mem_map.1 ha; trivial
    · obtain ⟨g, -, rfl⟩ := List.mem_map.1 ha; trivial
  obtain ⟨s1, k1, k2⟩ := acts_ok _ hok
  rw [hc.calls] at k1
  obtain rfl := Option.some.inj k1
  obtain ⟨m1, m2⟩ := find_some hc.find
  have hu : ∀ e ∈ s'.fw.pit, e.interest.toInterest = i.toInterest ↔ e.uid = u := by
    have hk : keyv e0 ∈ s'.fw.pit.map keyv := by rw [k2]; exact List.mem_map.2 ⟨e0, m1, rfl⟩
    obtain ⟨e1, n1, n2⟩ := List.mem_map.1 hk
    simp only [keyv, Prod.mk.injEq] at n2
    intro e he
    constructor
    · intro hk
      rw [eq_of_key hi'.keys he n1 (hk.trans (hc.key.symm.trans n2.2.symm)), n2.1, m2]
    · intro hk
      rw [eq_of_uid hi'.uids he n1 (hk.trans (m2.symm.trans n2.1.symm)), n2.2, hc.key]
  have hinfo : ∀ v g, hasIn s'.fw v g = true → s'.inInfo v g = if v = u ∧ g = f then some nd else s.inInfo v g := by
    have h1 := hs
    simp only [step1, onInterest] at h1
    split at h1
    · cases h1
    · rename_i fw hfw
      have h2 := (onInterest_fw hs).1
      rw [hfw] at h2
      obtain rfl := Option.some.inj h2
      rw [hcalls] at h1
      injection h1 with h1
      intro v g hg
      have h3 := congrArg (fun x : Sys => x.inInfo v g) h1
      exact h3.symm.trans (if_pos hg)
  intro e he r hr
  rw [hinfo _ _ (hasIn_of hi'.uids he hr)]
  constructor
  · rintro ⟨a1, a2⟩
    rw [if_pos ⟨(hu e he).1 a1, a2⟩]
  · intro hn
    rw [if_neg (fun ⟨a1, a2⟩ => hn ⟨(hu e he).2 a1, a2⟩)]

/-- C122: nothing else changes what is remembered of a downstream, as long as it waits. -/
theorem C122_keeps {ev : Event} (h : runs env (start n) l = .ok s) (hs : step1 env s ev = .ok s') (hn : ∀ i nd f nhs table, ev ≠ .interest i nd f nhs table)
    (hc : ev ≠ .change false) : ∀ e ∈ s'.fw.pit, ∀ r ∈ e.ins, s'.inInfo e.uid r.face = s.inInfo e.uid r.face := by
  have hi' := inv_step (reach h) hs
  intro e he r hr
  have hh := hasIn_of hi'.uids he hr
  cases ev with
  | interest i nd f nhs table => exact absurd rfl (hn i nd f nhs table)
  | data d ann f =>
    simp only [step1, onData] at hs
    split at hs
    · cases hs
    · cases hs; exact if_pos hh
  | nack i k f nhs =>
    simp only [step1, onNack] at hs
    split at hs
    · cases hs
    · split at hs
      · cases hs; exact if_pos hh
      · split at hs
        · cases hs
        · cases hs; exact if_pos hh
  | rib ans =>
    cases hs
    unfold onRib
    split
    · rfl
    · split <;> rfl
    · rfl
  | main =>
    simp only [step1, onMain] at hs
    split at hs
    · cases hs; rfl
    · split at hs
      · cases hs
      · split at hs
        · cases hs
        · cases hs; exact if_pos hh
  | change b =>
    cases b with
    | true => cases hs; rfl
    | false => exact absurd rfl hc
  | other e =>
    simp only [step1] at hs
    split at hs
    · split at hs
      · cases hs
      · cases hs; exact if_pos hh
    · cases hs; rfl
  | foreign st e =>
    simp only [step1] at hs
    split at hs
    · cases hs
    · cases hs; exact if_pos hh

/-! ### Where the expectations fail -/

/-- 256: an application; 257, 258: point-to-point links; 259: a Wi-Fi face. -/
abbrev exSl : List Event :=
  [.other (.addFace 256 ⟨.loc, .p2p⟩), .other (.addFace 257 ⟨.nonLocal, .p2p⟩), .other (.addFace 258 ⟨.nonLocal, .p2p⟩), .other (.addFace 259 ⟨.nonLocal, .adHoc⟩)]

abbrev exTable : List FaceId := [259, 258, 257, 256]

def holds (r : Except Fault Sys) (p : Sys → Bool) : Bool :=
  match r with
  | .ok s => p s
  | .error _ => false

def faults (r : Except Fault Sys) (x : Fault) : Bool :=
  match r with
  | .ok _ => false
  | .error y => x == y

theorem of_holds {r : Except Fault Sys} {p : Sys → Bool} (h : holds r p = true) : ∃ s, r = .ok s ∧ p s = true := by
  cases r with
  | ok s => exact ⟨s, rfl, h⟩
  | error x => cases h

theorem of_faults {r : Except Fault Sys} {x : Fault} (h : faults r x = true) : r = .error x := by
  cases r with
  | ok s => cases h
  | error y =>
    have : x = y := by simpa [faults] using h
    rw [this]

/-- A lookup is in progress when the strategy is replaced, even by another instance of the same strategy: the object is used after it is gone. -/
theorem C122_dangling : runs exEnv (start 10) (exSl ++ [.interest exI1 false 257 [⟨258, 10⟩] exTable, .data exData none 258, .rib (some 7), .change true, .main]) =
    .error .dangling := of_faults (by decide +kernel)

/-- There is no announcement: the downstream never gets the Data that came, and its Interest is gone within a second. -/
theorem C122_unanswered : ∃ s, runs exEnv (start 10) (exSl ++ [.interest exI1 false 257 [⟨258, 10⟩] exTable, .data exData none 258, .rib none,
    .other (.tick 1000000000), .other (.fire 2)]) = .ok s ∧ s.fw.pit = [] ∧ s.answers = [] ∧ s.heard = [(exData, none, 258)] ∧
    s.fw.sent = [.interest 258 { exI1 with hopLimit := some 4 }] ∧ s.rib = [] ∧ s.main = [] := by
  obtain ⟨s, h1, h2⟩ := of_holds (p := fun s => s.fw.pit.isEmpty && decide (s.answers = [] ∧ s.heard = [(exData, none, 258)] ∧
    s.fw.sent = [.interest 258 { exI1 with hopLimit := some 4 }] ∧ s.rib = [] ∧ s.main = []))
    (r := runs exEnv (start 10) (exSl ++ [.interest exI1 false 257 [⟨258, 10⟩] exTable, .data exData none 258, .rib none,
    .other (.tick 1000000000), .other (.fire 2)])) (by decide +kernel)
  simp only [Bool.and_eq_true, decide_eq_true_eq, List.isEmpty_iff] at h2
  exact ⟨s, h1, h2⟩

/-- The sender chose the next hop and set the mark: a route is learnt from a face that was never sent a discovery Interest. -/
theorem C122_learns_from_chosen : ∃ s, runs exEnv (start 10) (exSl ++ [.interest { exI1 with nextHop := some 258 } true 256 [] exTable,
    .data exData (some 7) 258]) = .ok s ∧ .announce 7 258 ∈ s.posted ∧ ∀ k, ¬Discovered s.asks 258 k := by
  obtain ⟨s, h1, h2⟩ := of_holds (p := fun s => s.posted.contains (.announce 7 258) && s.asks.all (·.nonDiscovery))
    (r := runs exEnv (start 10) (exSl ++ [.interest { exI1 with nextHop := some 258 } true 256 [] exTable, .data exData (some 7) 258])) (by decide +kernel)
  simp only [Bool.and_eq_true, List.contains_iff_mem] at h2
  refine ⟨s, h1, h2.1, ?_⟩
  rintro k ⟨a, a1, -, a3, -⟩
  rw [List.all_eq_true.1 h2.2 a a1] at a3
  cases a3

/-- Another strategy was in charge for a while: what was remembered is gone, and a marked Interest counts as a discovery Interest. -/
theorem C122_learns_after_change : ∃ s, runs exEnv (start 10) (exSl ++ [.interest exI1 false 257 [⟨258, 10⟩] exTable, .change false, .change false,
    .data exData (some 7) 258]) = .ok s ∧ .announce 7 258 ∈ s.posted ∧ ∀ k, ¬Discovered s.asks 258 k := by
  obtain ⟨s, h1, h2⟩ := of_holds (p := fun s => s.posted.contains (.announce 7 258) && s.asks.all (·.nonDiscovery))
    (r := runs exEnv (start 10) (exSl ++ [.interest exI1 false 257 [⟨258, 10⟩] exTable, .change false, .change false, .data exData (some 7) 258])) (by decide +kernel)
  simp only [Bool.and_eq_true, List.contains_iff_mem] at h2
  refine ⟨s, h1, h2.1, ?_⟩
  rintro k ⟨a, a1, -, a3, -⟩
  rw [List.all_eq_true.1 h2.2 a a1] at a3
  cases a3

/-- Two pending Interests are satisfied by the Data: the announcement that came in answer to discovery Interests is not used. -/
theorem C122_two_entries : ∃ s, runs exEnv (start 10) (exSl ++ [.interest exI1 false 257 [] exTable, .interest exI4 false 257 [] exTable,
    .data exData (some 7) 258]) = .ok s ∧ s.posted = [] ∧ (257, exData, some 7) ∈ s.answers ∧ Discovered s.asks 258 exI1.toInterest ∧
    Discovered s.asks 258 exI4.toInterest := by
  obtain ⟨s, h1, h2⟩ := of_holds (p := fun s => decide (s.posted = []) && s.answers.contains (257, exData, some 7) &&
    s.asks.any (fun a => decide (a.face = 258 ∧ a.nonDiscovery = false ∧ a.info = some ⟨.nonLocal, .p2p⟩ ∧ a.interest.toInterest = exI1.toInterest)) &&
    s.asks.any (fun a => decide (a.face = 258 ∧ a.nonDiscovery = false ∧ a.info = some ⟨.nonLocal, .p2p⟩ ∧ a.interest.toInterest = exI4.toInterest)))
    (r := runs exEnv (start 10) (exSl ++ [.interest exI1 false 257 [] exTable, .interest exI4 false 257 [] exTable, .data exData (some 7) 258]))
    (by decide +kernel)
  simp only [Bool.and_eq_true, decide_eq_true_eq, List.contains_iff_mem, List.any_eq_true] at h2
  obtain ⟨⟨⟨g1, g2⟩, a, a1, a2, a3, a4, a5⟩, b, b1, b2, b3, b4, b5⟩ := h2
  exact ⟨s, h1, g1, g2, ⟨a, a1, a2, a3, ⟨_, a4, rfl⟩, a5⟩, b, b1, b2, b3, ⟨_, b4, rfl⟩, b5⟩

/-- A face to which a discovery Interest was sent answers by a NoRoute Nack: the assertion that there is a route fails. -/
theorem C122_nack_asserts : runs exEnv (start 10) (exSl ++ [.interest exI1 false 257 [] exTable, .nack { exI1 with hopLimit := some 4 } nackNoRoute 258 []]) =
    .error .assertion := of_faults (by decide +kernel)

/-! ### The hypotheses are met -/

/-- A discovery Interest is broadcast, and what is learnt is announced. -/
example : holds (runs exEnv (start 10) (exSl ++ [.interest exI1 false 257 [] exTable, .data exData (some 7) 259])) (fun s =>
    decide (s.fw.sent = [.interest 259 { exI1 with hopLimit := some 4 }, .interest 258 { exI1 with hopLimit := some 4 }, .data 257 exData] ∧
      s.posted = [.announce 7 259] ∧ s.answers = [(257, exData, some 7)]) && s.asks.all (fun a => !a.nonDiscovery)) = true := by decide +kernel

/-- A lookup is successful. -/
example : holds (runs exEnv (start 10) (exSl ++ [.interest exI1 false 257 [⟨258, 10⟩] exTable, .data exData none 258, .rib (some 7), .main])) (fun s =>
    decide (s.fw.sent = [.interest 258 { exI1 with hopLimit := some 4 }, .data 257 exData] ∧ s.answers = [(257, exData, some 7)] ∧
      s.posted = [.find 0 0 258 exData]) && s.asks.all (·.nonDiscovery)) = true := by decide +kernel

example : ∀ e ∈ exSl ++ [.interest exI1 false 257 [⟨258, 10⟩] exTable, .data exData none 258, .rib (some 7), .main], Own e := by
  intro e he
  simp only [exSl, List.cons_append, List.nil_append, List.mem_cons, List.not_mem_nil, or_false] at he
  rcases he with rfl | rfl | rfl | rfl | rfl | rfl | rfl | rfl <;> trivial

/-- An Interest that the strategy gets. -/
example : ∃ s, runs exEnv (start 10) exSl = .ok s ∧ Passed exEnv s.fw exI1 257 ∧ (∀ g ∈ [259, 258], Eligible s.fw exI1.name 257 g ∧ ¬IsLocal s.fw g) ∧
    IsLocal s.fw 256 := by
  obtain ⟨s, h1, h2⟩ := of_holds (r := runs exEnv (start 10) exSl)
    (p := fun s => decide (s.fw.faces 257 = some ⟨.nonLocal, .p2p⟩ ∧ s.fw.faces 258 = some ⟨.nonLocal, .p2p⟩ ∧ s.fw.faces 259 = some ⟨.nonLocal, .adHoc⟩ ∧
      s.fw.faces 256 = some ⟨.loc, .p2p⟩ ∧ s.fw.pit = [] ∧
      s.fw.dnl.has exEnv.hash exI1.name exI1.nonce = false ∧ (s.fw.cs.find exI1.toInterest).any (fun x => x.2 == none) = true)) (by decide +kernel)
  simp only [decide_eq_true_eq] at h2
  obtain ⟨h3, h4, h5, h6, h7, h8, h9⟩ := h2
  have hl : ¬UnderLocalhost exI1.name := by rintro ⟨x, hx⟩; simp [cLocalhost] at hx
  have hh : ¬UnderLocalhop exI1.name := by rintro ⟨x, hx⟩; simp [cLocalhop] at hx
  refine ⟨s, h1, ⟨⟨_, h3, ⟨by decide, by simp [hl]⟩, ?_⟩, rfl, Or.inr ?_⟩, ?_, _, h6, rfl⟩
  · rintro (h | ⟨e, he, -⟩)
    · rw [h8] at h; cases h
    · rw [h7] at he; cases he
  · obtain ⟨x, hx, hx2⟩ := (Option.any_eq_true _ _).1 h9
    exact ⟨x.1, by rw [hx]; exact congrArg some (Prod.ext rfl (by simpa using hx2))⟩
  · intro g hg
    simp only [List.mem_cons, List.not_mem_nil, or_false] at hg
    rcases hg with rfl | rfl
    · refine ⟨⟨_, _, h3, h5, by decide, ⟨fun h => absurd h hl, fun h => absurd h hh⟩⟩, ?_⟩
      rintro ⟨fi, hf, hs⟩; rw [h5] at hf; cases hf; cases hs
    · refine ⟨⟨_, _, h3, h4, by decide, ⟨fun h => absurd h hl, fun h => absurd h hh⟩⟩, ?_⟩
      rintro ⟨fi, hf, hs⟩; rw [h4] at hf; cases hf; cases hs

/-- The situations of `C122_data_later` and `C122_data_now`: from 258 after a marked Interest, with downstream 257; from 259 after a discovery Interest. -/
theorem ex_answers {ev : Event} {f : FaceId} {nd : Bool} (h : holds (runs exEnv (start 10) (exSl ++ [ev])) (fun s =>
      s.fw.pit.length == 1 && s.fw.pit.all (fun e => e.interest.matchesData exData && e.outs.any (·.face == f) && e.ins.any (fun r => decide (r.face = 257 ∧
        s.fw.now < r.expiry) && s.inInfo e.uid r.face == some false) &&
        (match s.asks.reverse with
        | a :: _ => decide (a.face = f ∧ a.interest.toInterest = e.interest.toInterest ∧ a.nonDiscovery = nd)
        | [] => false)) && decide ((s.fw.faces f).isSome ∧ s.fw.faces 257 = some ⟨.nonLocal, .p2p⟩)) = true) :
    ∃ s e a, runs exEnv (start 10) (exSl ++ [ev]) = .ok s ∧ Answers s exData f e a ∧ a.nonDiscovery = nd ∧ NeedsAnn s e := by
  obtain ⟨s, h1, h2⟩ := of_holds h
  simp only [Bool.and_eq_true, beq_iff_eq, decide_eq_true_eq] at h2
  obtain ⟨⟨h3, h4⟩, h5, h6⟩ := h2
  obtain ⟨e, he⟩ := List.length_eq_one_iff.1 h3
  have hem : e ∈ s.fw.pit := by rw [he]; exact List.mem_singleton.2 rfl
  have h7 := List.all_eq_true.1 h4 e hem
  simp only [Bool.and_eq_true, List.any_eq_true, beq_iff_eq, decide_eq_true_eq] at h7
  obtain ⟨⟨⟨g1, r, r1, r2⟩, q, q1, ⟨q2, q3⟩, q4⟩, g2⟩ := h7
  obtain ⟨fi, hf⟩ := Option.isSome_iff_exists.1 h5
  cases hr : s.asks.reverse with
  | nil => rw [hr] at g2; cases g2
  | cons a m =>
    rw [hr] at g2
    simp only [decide_eq_true_eq] at g2
    refine ⟨s, e, a, h1, ⟨⟨fi, hf, ?_⟩, hem, g1, ?_, ⟨r, r1, r2⟩, m.reverse, [], ?_, g2.1, g2.2.1, (fun _ h => nomatch h)⟩, g2.2.2, ?_⟩
    · rintro ⟨-, x, hx⟩; simp [cLocalhost] at hx
    · intro x hx _; rw [he] at hx; exact List.mem_singleton.1 hx
    · rw [← List.reverse_reverse s.asks, hr, List.reverse_cons]
    · exact ⟨⟨q, q1, q3, q4⟩, q, q1, q3, _, by rw [q2]; exact h6, rfl⟩

example : ∃ s e a, runs exEnv (start 10) (exSl ++ [.interest exI1 false 257 [⟨258, 10⟩] exTable]) = .ok s ∧ Answers s exData 258 e a ∧
    a.nonDiscovery = true ∧ NeedsAnn s e := ex_answers (by decide +kernel)

example : ∃ s e a, runs exEnv (start 10) (exSl ++ [.interest exI1 false 257 [] exTable]) = .ok s ∧ Answers s exData 258 e a ∧
    a.nonDiscovery = false ∧ NeedsAnn s e := ex_answers (by decide +kernel)

/-- `C122_found`: a lookup waits, and finds an announcement or not; then `C122_gone`: the face has gone. -/
example : holds (runs exEnv (start 10) (exSl ++ [.interest exI1 false 257 [⟨258, 10⟩] exTable, .data exData none 258])) (fun s =>
    s.rib.any (fun t => match t with | .find 0 _ 258 d => d == exData | _ => false)) = true := by decide +kernel

example : holds (runs exEnv (start 10) (exSl ++ [.interest exI1 false 257 [⟨258, 10⟩] exTable, .data exData none 258, .rib (some 7), .other (.removeFace 258)]))
    (fun s => decide (s.main.map (fun t => (t.obj, t.f, t.d, t.pa)) = [(s.obj, 258, exData, 7)]) && (s.fw.faces 258).isNone) = true := by decide +kernel

end Verif.Strat.Sl
