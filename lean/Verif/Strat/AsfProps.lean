import Verif.Strat.Props
import Verif.Strat.Asf

/-
C42: ASF ranks next hops by working state, delay and cost. C77: when ASF regards a face as timed out.
-/
namespace Verif.Strat

open Fw
open Tb (FaceId Time FwInterest InRec OutRec PitEntry NextHop)

variable {env : Env} {s s' : St} {n : Nat} {l : List (Strategy × Event)}

/-! ### Specification -/

inductive Status | working | unmeasured | timedOut
deriving DecidableEq, Repr

/-- What the measurements say about a face. -/
def status (info : FaceId → Option FaceMeas) (g : FaceId) : Status :=
  match info g with
  | none => .unmeasured
  | some m => if m.lastRtt = -1 then .unmeasured else if m.lastRtt = -2 then .timedOut else .working

/-- The smoothed RTT of `a` is less than that of `b`. -/
def Faster (info : FaceId → Option FaceMeas) (a b : FaceId) : Prop :=
  ∃ x y, info a = some x ∧ info b = some y ∧ x.srtt < y.srtt

/-- Cheaper, or as cheap and with the smaller face id. -/
def Cheaper (a b : NextHop) : Prop := a.cost < b.cost ∨ (a.cost = b.cost ∧ a.face < b.face)

/-- `a` is preferred to `b` for forwarding: working before unmeasured before timed out; among working faces the faster; then the cheaper. -/
def Before (info : FaceId → Option FaceMeas) (a b : NextHop) : Prop :=
  match status info a.face, status info b.face with
  | .working, .working => Faster info a.face b.face ∨ (¬Faster info b.face a.face ∧ Cheaper a b)
  | .working, _ => True
  | .unmeasured, .working => False
  | .unmeasured, .unmeasured => Cheaper a b
  | .unmeasured, .timedOut => True
  | .timedOut, .timedOut => Cheaper a b
  | .timedOut, _ => False

/-- A face that a probe may be sent to: not the arrival face, not the face used for the Interest, permitted by scope control. -/
def ProbeTarget (s : St) (n : Name) (f used g : FaceId) : Prop :=
  g ≠ f ∧ g ≠ used ∧ ∃ fi gi, s.faces f = some fi ∧ s.faces g = some gi ∧ ScopeAllows fi n gi

/-- The packets by which the Interest `j` leaves on `g`. -/
def Leaves (s : St) (j : FwInterest) (g : FaceId) (new : List Pkt) : Prop :=
  (OutOfHops s j g → new = []) ∧ (¬OutOfHops s j g → new = [.interest g j])

/-! ### Ranking -/

theorem rank_irrefl (a : Rank) : a.lt a = false := by
  unfold Rank.lt
  simp

theorem rank_trans {a b c : Rank} (h1 : a.lt b = true) (h2 : b.lt c = true) : a.lt c = true := by
  unfold Rank.lt at *
  simp only [decide_eq_true_eq] at *
  omega

theorem rank_total {a b : Rank} (h : a.face ≠ b.face) (h1 : a.lt b = false) : b.lt a = true := by
  unfold Rank.lt at *
  simp only [decide_eq_true_eq, decide_eq_false_iff_not] at *
  omega

theorem mem_insertRanked {rank : FaceStats → Rank} {x y : FaceStats} {l : List FaceStats} (h : y ∈ insertRanked rank x l) : y = x ∨ y ∈ l := by
  induction l with
  | nil => simpa [insertRanked] using h
  | cons z l ih =>
    unfold insertRanked at h
    split at h
    · simpa using h
    · split at h
      · rcases List.mem_cons.1 h with rfl | h
        · simp
        · rcases ih h with h | h <;> simp [h]
      · exact Or.inr h

theorem insertRanked_head (rank : FaceStats → Rank) (x : FaceStats) (l : List FaceStats) :
    (insertRanked rank x l).head? = some (match l.head? with | none => x | some y => if (rank x).lt (rank y) then x else y) := by
  cases l with
  | nil => rfl
  | cons y l =>
    unfold insertRanked
    by_cases h : (rank x).lt (rank y) = true
    · simp [h]
    · simp only [h, Bool.false_eq_true, if_false, List.head?_cons]
      split <;> rfl

theorem foldl_ranked (rank : FaceStats → Rank) : ∀ (l acc : List FaceStats),
    (∀ y ∈ l.foldl (fun acc x => insertRanked rank x acc) acc, y ∈ l ∨ y ∈ acc) ∧
    (∀ h, acc.head? = some h ∨ (acc = [] ∧ h ∈ l) → ∃ m, (l.foldl (fun acc x => insertRanked rank x acc) acc).head? = some m ∧
      (m ∈ l ∨ acc.head? = some m) ∧ (∀ y ∈ l, (rank y).lt (rank m) = false) ∧ ∀ y, acc.head? = some y → (rank y).lt (rank m) = false)
  | [], acc => by
    refine ⟨fun y hy => Or.inr hy, ?_⟩
    rintro h (h1 | ⟨-, h1⟩)
    · exact ⟨h, h1, Or.inr h1, by simp, fun y hy => by rw [h1] at hy; cases hy; exact rank_irrefl _⟩
    · cases h1
  | x :: l, acc => by
    obtain ⟨h1, h2⟩ := foldl_ranked rank l (insertRanked rank x acc)
    constructor
    · intro y hy
      rcases h1 y hy with h | h
      · exact Or.inl (List.mem_cons_of_mem _ h)
      · rcases mem_insertRanked h with rfl | h
        · exact Or.inl List.mem_cons_self
        · exact Or.inr h
    · intro h _
      have hh := insertRanked_head rank x acc
      obtain ⟨m, h3, h4, h5, h6⟩ := h2 _ (Or.inl hh)
      have h7 := h6 _ hh
      refine ⟨m, h3, ?_, ?_, ?_⟩
      · rcases h4 with h4 | h4
        · exact Or.inl (List.mem_cons_of_mem _ h4)
        · rw [hh] at h4
          injection h4 with h4
          cases ha : acc.head? with
          | none => rw [ha] at h4; left; simp [← h4]
          | some y =>
            rw [ha] at h4
            simp only at h4
            split at h4
            · left; simp [← h4]
            · right; rw [← h4]
      · intro y hy
        rcases List.mem_cons.1 hy with rfl | hy
        · cases ha : acc.head? with
          | none => rw [ha] at h7; exact h7
          | some z =>
            rw [ha] at h7
            simp only at h7
            split at h7
            · exact h7
            · rename_i hyz
              cases hym : (rank y).lt (rank m) with
              | false => rfl
              | true =>
                -- `z` is not above `m`, and not above `y`
                have hyz : (rank y).lt (rank z) = false := by simpa using hyz
                exfalso
                unfold Rank.lt at *
                simp only [decide_eq_true_eq, decide_eq_false_iff_not] at *
                omega
        · exact h5 y hy
      · intro y hy
        rw [hy] at h7
        simp only at h7
        split at h7
        · rename_i hxy
          cases hym : (rank y).lt (rank m) with
          | false => rfl
          | true => rw [rank_trans hxy hym] at h7; cases h7
        · exact h7

theorem ranked_mem {rank : FaceStats → Rank} {l : List FaceStats} {y : FaceStats} (h : y ∈ ranked rank l) : y ∈ l := by
  rcases (foldl_ranked rank l []).1 y h with h | h
  · exact h
  · cases h

theorem ranked_head {rank : FaceStats → Rank} {l : List FaceStats} (hl : l ≠ []) :
    ∃ m, (ranked rank l).head? = some m ∧ m ∈ l ∧ ∀ y ∈ l, (rank y).lt (rank m) = false := by
  cases l with
  | nil => exact absurd rfl hl
  | cons x l =>
    obtain ⟨m, h1, h2, h3, -⟩ := (foldl_ranked rank (x :: l) []).2 x (Or.inr ⟨rfl, List.mem_cons_self⟩)
    refine ⟨m, h1, ?_, h3⟩
    rcases h2 with h2 | h2
    · exact h2
    · cases h2

theorem stats_face (info : FaceId → Option FaceMeas) (nh : NextHop) : (statsOf info nh).face = nh.face := by
  unfold statsOf; cases info nh.face <;> rfl

/-- The rank used for forwarding is the specified preference. -/
theorem forwardingRank_iff (info : FaceId → Option FaceMeas) (a b : NextHop) :
    (forwardingRank (statsOf info a)).lt (forwardingRank (statsOf info b)) = true ↔ Before info a b := by
  unfold Before status Faster Cheaper statsOf forwardingRank Rank.lt
  cases ha : info a.face with
  | none =>
    cases hb : info b.face with
    | none => simp
    | some y =>
      by_cases h1 : y.lastRtt = -1
      · simp [h1]
      · by_cases h2 : y.lastRtt = -2 <;> simp [h1, h2]
  | some x =>
    cases hb : info b.face with
    | none =>
      by_cases h1 : x.lastRtt = -1
      · simp [h1]
      · by_cases h2 : x.lastRtt = -2 <;> simp [h1, h2]
    | some y =>
      by_cases h1 : x.lastRtt = -1
      · by_cases h3 : y.lastRtt = -1
        · simp [h1, h3]
        · by_cases h4 : y.lastRtt = -2 <;> simp [h1, h3, h4]
      · by_cases h2 : x.lastRtt = -2
        · by_cases h3 : y.lastRtt = -1
          · simp [h2, h3]
          · by_cases h4 : y.lastRtt = -2 <;> simp [h2, h3, h4]
        · by_cases h3 : y.lastRtt = -1
          · simp [h1, h2, h3]
          · by_cases h4 : y.lastRtt = -2
            · simp [h1, h2, h4]
            · simp only [h1, h2, h3, h4, if_true, if_false, Nat.lt_irrefl, false_or, true_and, Option.some.injEq,
                decide_eq_true_eq]
              have e1 : (∃ x' y', x = x' ∧ y = y' ∧ x'.srtt < y'.srtt) ↔ x.srtt < y.srtt :=
                ⟨fun ⟨_, _, h, h', h''⟩ => by rw [h, h']; exact h'', fun h => ⟨x, y, rfl, rfl, h⟩⟩
              have e2 : (∃ y' x', y = y' ∧ x = x' ∧ y'.srtt < x'.srtt) ↔ y.srtt < x.srtt :=
                ⟨fun ⟨_, _, h, h', h''⟩ => by rw [h, h']; exact h'', fun h => ⟨y, x, rfl, rfl, h⟩⟩
              rw [e1, e2]
              constructor
              · rintro (h | ⟨h, h'⟩)
                · exact Or.inl h
                · exact Or.inr ⟨by omega, h'⟩
              · rintro (h | ⟨h, h'⟩)
                · exact Or.inl h
                · by_cases h0 : x.srtt < y.srtt
                  · exact Or.inl h0
                  · exact Or.inr ⟨by omega, h'⟩

theorem bestFace_none {info : FaceId → Option FaceMeas} {e : PitEntry} {i : FwInterest} {f : FaceId} {nhs : List NextHop} {b : Bool}
    (h : ∀ nh ∈ nhs, isNextHopEligible s f i nh e (!b) = false) : bestFace info s e i f nhs b = none := by
  unfold bestFace
  rw [List.filter_eq_nil_iff.2 (fun nh hm => by simp [h nh hm])]
  rfl

theorem bestFace_some {info : FaceId → Option FaceMeas} {e : PitEntry} {i : FwInterest} {f : FaceId} {nhs : List NextHop} {b : Bool}
    (hn : (nhs.map (·.face)).Nodup) (h : ∃ nh ∈ nhs, isNextHopEligible s f i nh e (!b) = true) :
    ∃ nh ∈ nhs, isNextHopEligible s f i nh e (!b) = true ∧ bestFace info s e i f nhs b = some nh.face ∧
      ∀ nh' ∈ nhs, isNextHopEligible s f i nh' e (!b) = true → nh' = nh ∨ Before info nh nh' := by
  obtain ⟨nh0, h1, h2⟩ := h
  obtain ⟨m, h3, h4, h5⟩ := ranked_head (rank := forwardingRank)
    (l := (nhs.filter (fun nh => isNextHopEligible s f i nh e (!b))).map (statsOf info))
    (fun hc => by
      have : nh0 ∈ nhs.filter (fun nh => isNextHopEligible s f i nh e (!b)) := List.mem_filter.2 ⟨h1, h2⟩
      rw [List.map_eq_nil_iff.1 hc] at this
      cases this)
  obtain ⟨nh, h6, rfl⟩ := List.mem_map.1 h4
  obtain ⟨h7, h8⟩ := List.mem_filter.1 h6
  refine ⟨nh, h7, h8, ?_, ?_⟩
  · unfold bestFace
    rw [h3, Option.map_some, stats_face]
  · intro nh' hm' he'
    have h9 := h5 _ (List.mem_map.2 ⟨nh', List.mem_filter.2 ⟨hm', he'⟩, rfl⟩)
    by_cases hf : nh'.face = nh.face
    · left
      have e1 := find?_of_nodup hn hm'
      have e2 := find?_of_nodup hn h7
      rw [hf, e2] at e1
      exact (Option.some.inj e1).symm
    · right
      rw [← forwardingRank_iff]
      refine rank_total ?_ h9
      show (statsOf info nh').face ≠ (statsOf info nh).face
      rw [stats_face, stats_face]
      exact hf

/-! ### Probing -/

theorem probeTarget_iff {i : FwInterest} {f used : FaceId} {nhs : List NextHop} {nh : NextHop} :
    nh ∈ probeCandidates s i f used nhs ↔ nh ∈ nhs ∧ ProbeTarget s i.name f used nh.face := by
  unfold probeCandidates ProbeTarget
  rw [List.mem_filter]
  refine and_congr_right fun _ => ?_
  cases hf : s.faces f with
  | none => simp
  | some fi =>
    cases hg : s.faces nh.face with
    | none => simp
    | some gi =>
      simp only [Bool.not_eq_true', Bool.or_eq_false_iff, beq_eq_false_iff_ne, ne_eq, scope_iff, Option.some.injEq, and_assoc]
      exact ⟨fun ⟨a, b, c⟩ => ⟨a, b, fi, gi, rfl, rfl, c⟩, fun ⟨a, b, _, _, h1, h2, c⟩ => ⟨a, b, by rw [h1, h2]; exact c⟩⟩

theorem probe_status (info : FaceId → Option FaceMeas) (nh : NextHop) :
    (probeStatsOf info nh).face = nh.face ∧ (probeStatsOf info nh).cost = nh.cost ∧
    ((probeStatsOf info nh).rtt = -1 ↔ status info nh.face = .unmeasured) := by
  unfold probeStatsOf status
  cases info nh.face with
  | none => simp
  | some m =>
    by_cases h : m.lastRtt = -1
    · simp [h]
    · by_cases h2 : m.lastRtt = -2 <;> simp [h, h2]

/-- Which face is probed. -/
theorem faceToProbe_spec (info : FaceId → Option FaceMeas) (i : FwInterest) (f used : FaceId) (nhs : List NextHop) (k : Nat) :
    ((∀ nh ∈ nhs, ¬ProbeTarget s i.name f used nh.face) → faceToProbe info s i f used nhs k = none) ∧
    ((∃ nh ∈ nhs, ProbeTarget s i.name f used nh.face) → ∃ nh ∈ nhs, ProbeTarget s i.name f used nh.face ∧
      faceToProbe info s i f used nhs k = some nh.face ∧
      ∀ nh' ∈ nhs, ProbeTarget s i.name f used nh'.face → status info nh'.face = .unmeasured →
        status info nh.face = .unmeasured ∧ nh.cost ≤ nh'.cost) := by
  constructor
  · intro h
    have : probeCandidates s i f used nhs = [] := by
      rw [List.eq_nil_iff_forall_not_mem]
      intro nh hm
      obtain ⟨h1, h2⟩ := probeTarget_iff.1 hm
      exact h nh h1 h2
    unfold faceToProbe
    rw [this]
    rfl
  · rintro ⟨nh0, h1, h2⟩
    have h0 : nh0 ∈ probeCandidates s i f used nhs := probeTarget_iff.2 ⟨h1, h2⟩
    obtain ⟨m, h3, h4, h5⟩ := ranked_head (rank := probingRank) (l := (probeCandidates s i f used nhs).map (probeStatsOf info))
      (fun hc => by rw [List.map_eq_nil_iff.1 hc] at h0; cases h0)
    unfold faceToProbe
    generalize hL : ranked probingRank ((probeCandidates s i f used nhs).map (probeStatsOf info)) = L at h3 ⊢
    cases L with
    | nil => cases h3
    | cons x L =>
      simp only [List.head?_cons, Option.some.injEq] at h3
      subst h3
      simp only
      have hmem : ∀ y ∈ x :: L, ∃ nh ∈ nhs, ProbeTarget s i.name f used nh.face ∧ probeStatsOf info nh = y := by
        intro y hy
        rw [← hL] at hy
        obtain ⟨nh, h6, h7⟩ := List.mem_map.1 (ranked_mem hy)
        obtain ⟨h8, h9⟩ := probeTarget_iff.1 h6
        exact ⟨nh, h8, h9, h7⟩
      by_cases hx : x.rtt = rttNoMeasurement
      · rw [if_pos hx]
        obtain ⟨nh, h6, h7, h8⟩ := hmem x List.mem_cons_self
        obtain ⟨p1, p2, p3⟩ := probe_status info nh
        refine ⟨nh, h6, h7, by rw [← h8, p1], fun nh' h9 h10 h11 => ⟨p3.1 (by rw [h8]; exact hx), ?_⟩⟩
        have h12 := h5 _ (List.mem_map.2 ⟨nh', probeTarget_iff.2 ⟨h9, h10⟩, rfl⟩)
        obtain ⟨q1, q2, q3⟩ := probe_status info nh'
        have q4 := q3.2 h11
        rw [← p2, ← q2, h8]
        unfold probingRank Rank.lt at h12
        simp only [q4, hx, if_true, decide_eq_false_iff_not] at h12
        refine Nat.le_of_not_lt fun hc => h12 ?_
        exact Or.inr ⟨trivial, Or.inr ⟨by rw [if_neg (by decide), if_neg (by decide)], Or.inl hc⟩⟩
      · rw [if_neg hx]
        have hk : k % (x :: L).length < (x :: L).length := Nat.mod_lt _ (by simp)
        obtain ⟨nh, h6, h7, h8⟩ := hmem _ (List.getElem_mem hk)
        refine ⟨nh, h6, h7, ?_, fun nh' h9 h10 h11 => ?_⟩
        · rw [List.getElem?_eq_getElem hk, Option.map_some, ← h8, (probe_status info nh).1]
        · -- the best ranked would be unmeasured
          exfalso
          have h12 := h5 _ (List.mem_map.2 ⟨nh', probeTarget_iff.2 ⟨h9, h10⟩, rfl⟩)
          have q4 := (probe_status info nh').2.2.2 h11
          unfold probingRank Rank.lt at h12
          simp only [q4, if_true, hx, if_false, decide_eq_false_iff_not] at h12
          apply h12
          left
          split <;> decide

/-! ### C42 -/

theorem wire_leaves {j : FwInterest} {g : FaceId} {gi : FaceInfo} (h : s.faces g = some gi) : Leaves s j g (wire s.faces j g) := by
  unfold Leaves wire OutOfHops
  rw [h]
  constructor
  · rintro ⟨h1, gi', h2, h3⟩
    obtain rfl := Option.some.inj h2
    exact if_pos ⟨h1, h3⟩
  · intro h1
    exact if_neg (fun hc => h1 ⟨hc.1, gi, rfl, hc.2⟩)

/-- C42 (Interest that is not waiting for an upstream): ASF sends it to an eligible next hop that is preferred to every other eligible next
hop; if there is none, it is refused with a NoRoute Nack. If a probe is due and some other next hop can be probed, a copy with another
nonce is sent to one, to an unmeasured one (the cheapest) if there is any. Nothing else is sent. -/
theorem C42_new (hr : run env (init n) l = some s) {i : FwInterest} {f : FaceId} (hp : Passed env s i f) {outs : List OutRec}
    (ho : OutRecords s i outs) (hnp : ¬PendingUpstream s.now outs) {c : Retx} {info : FaceId → Option FaceMeas} {known : FaceId → Bool}
    {p : Probe} {nhs : List NextHop} {w : FaceId → Option Nat} (hn : (nhs.map (·.face)).Nodup)
    (h : step env (asfS c info known p nhs w) s (.interest i f) = some s') :
    ((∀ nh ∈ nhs, ¬Eligible s i.name f nh.face) → Refuses s s' i f 150) ∧
    ((∃ nh ∈ nhs, Eligible s i.name f nh.face) → ∃ nh ∈ nhs, Eligible s i.name f nh.face ∧
      (∀ nh' ∈ nhs, Eligible s i.name f nh'.face → nh' = nh ∨ Before info nh nh') ∧
      ∃ j new probe, Carries s.cfg i j ∧ Emits s s' (new ++ probe) ∧ Leaves s j nh.face new ∧
        ((p.due = false ∨ ∀ nh' ∈ nhs, ¬ProbeTarget s i.name f nh.face nh'.face) → probe = []) ∧
        (p.due = true → (∃ nh' ∈ nhs, ProbeTarget s i.name f nh.face nh'.face) →
          ∃ nh2 ∈ nhs, ProbeTarget s i.name f nh.face nh2.face ∧ Leaves s { j with nonce := p.nonce } nh2.face probe ∧
            ∀ nh' ∈ nhs, ProbeTarget s i.name f nh.face nh'.face → status info nh'.face = .unmeasured →
              status info nh2.face = .unmeasured ∧ nh2.cost ≤ nh'.cost)) := by
  have hi := reach_inv hr
  obtain ⟨r, u, e, j, hc⟩ := passed_call hi hp h
  have houts := outRecords_unique hi hc.outs ho
  have hel : ∀ nh : NextHop, isNextHopEligible r f j nh e.toPitEntry = true ↔ Eligible s i.name f nh.face := by
    intro nh
    rw [eligible_iff, hc.carries.name, eligible_congr hc.faces]
  have hpend : hasPendingOutRecords r.now e.toPitEntry = false := by
    rw [Bool.eq_false_iff]
    intro hc'
    exact hnp (by rw [← houts, ← hc.now]; exact pending_iff.1 hc')
  have hpt : ∀ used g, ProbeTarget r j.name f used g ↔ ProbeTarget s i.name f used g := by
    intro used g
    unfold ProbeTarget
    rw [hc.carries.name, hc.faces]
  have hact : asfS c info known p nhs w r (.afterReceiveInterest j f u) =
      match bestFace info r e.toPitEntry j f nhs true with
      | none => noRoute f u
      | some g => .sendInterest u j g :: sendProbe info p nhs r j f g u := by
    simp only [asfS, hc.find, Option.bind_some, asfInterest, hpend]
    generalize bestFace info r e.toPitEntry j f nhs true = o
    cases o <;> rfl
  constructor
  · intro hno
    rw [bestFace_none (fun nh hm => by rw [Bool.eq_false_iff]; exact fun hc' => hno nh hm ((hel nh).1 hc'))] at hact
    obtain ⟨fi, hf, -⟩ := hp.face
    exact refuses hc (by rw [hf]; rfl) hact
  · rintro ⟨nh0, hm0, he0⟩
    obtain ⟨nh, h1, h2, h3, h4⟩ := bestFace_some (info := info) (b := true) hn ⟨nh0, hm0, (hel nh0).2 he0⟩
    rw [h3] at hact
    have he := (hel nh).1 h2
    refine ⟨nh, h1, he, fun nh' hm' he' => h4 nh' hm' ((hel nh').2 he'), j, wire s.faces j nh.face,
      (match (if p.due then faceToProbe info r j f nh.face nhs p.k else none) with
        | none => []
        | some g => wire s.faces { j with nonce := p.nonce } g), hc.carries, ?_, ?_, ?_, ?_⟩
    · have hcalls := hc.calls
      rw [hact] at hcalls
      simp only at hcalls
      unfold Emits
      have s1 := sent_interest (r := { r with calls := r.calls ++ [.afterReceiveInterest j f u] }) (u := u) (e := e) hc.find j nh.face
      obtain ⟨e1, he1, -, -⟩ := s1.ents e hc.find
      unfold sendProbe at hcalls
      have hw : ∀ (x : FwInterest) (g : FaceId), wire ({ r with calls := r.calls ++ [.afterReceiveInterest j f u] } : St).faces x g = wire s.faces x g := by
        intro x g
        show wire r.faces x g = _
        rw [hc.faces]
      have fin1 : acts { r with calls := r.calls ++ [.afterReceiveInterest j f u] } [.sendInterest u j nh.face] = some s' →
          s'.sent = s.sent ++ (wire s.faces j nh.face ++ []) := by
        intro ha
        have : s' = onOutgoingInterest { r with calls := r.calls ++ [.afterReceiveInterest j f u] } u j nh.face := (Option.some.inj ha).symm
        rw [this, s1.sent, hw, List.append_nil]
        show r.sent ++ _ = _
        rw [hc.sent]
      by_cases hd : p.due = true
      · rw [if_pos hd] at hcalls ⊢
        cases hfp : faceToProbe info r j f nh.face nhs p.k with
        | none =>
          rw [hfp] at hcalls
          exact fin1 hcalls
        | some g =>
          rw [hfp] at hcalls
          have s2 := sent_interest (u := u) he1 { j with nonce := p.nonce } g
          have : s' = onOutgoingInterest (onOutgoingInterest { r with calls := r.calls ++ [.afterReceiveInterest j f u] } u j nh.face) u { j with nonce := p.nonce } g :=
            (Option.some.inj hcalls).symm
          rw [this, s2.sent, s1.sent, s1.faces, hw, hw, List.append_assoc]
          show r.sent ++ _ = _
          rw [hc.sent]
      · rw [if_neg hd] at hcalls ⊢
        exact fin1 hcalls
    · obtain ⟨fi, gi, -, hg, -, -⟩ := he
      exact wire_leaves hg
    · intro hno
      by_cases hd : p.due = true
      · rw [if_pos hd]
        have hno := hno.resolve_left (by rw [hd]; simp)
        rw [(faceToProbe_spec info j f nh.face nhs p.k).1 (fun nh' hm' ht => hno nh' hm' ((hpt _ _).1 ht))]
      · rw [if_neg hd]
    · rintro hd ⟨nh', hm', ht'⟩
      obtain ⟨nh2, g1, g2, g3, g4⟩ := (faceToProbe_spec (s := r) info j f nh.face nhs p.k).2 ⟨nh', hm', (hpt _ _).2 ht'⟩
      have g2' := (hpt _ _).1 g2
      rw [if_pos hd, g3]
      refine ⟨nh2, g1, g2', ?_, fun nh'' hm'' ht'' hs'' => g4 nh'' hm'' ((hpt _ _).2 ht'') hs''⟩
      obtain ⟨-, -, fi, gi, -, hg, -⟩ := g2'
      exact wire_leaves hg

/-- C42 (retransmission: an upstream may still answer). The next hop is the preferred one among the eligible next hops that are not in
use; if all eligible next hops are in use, the one used longest ago. The Interest is sent there unless that is suppressed; with no
eligible next hop nothing is sent. No probe is sent. -/
theorem C42_retx (hr : run env (init n) l = some s) {i : FwInterest} {f : FaceId} (hp : Passed env s i f) {outs : List OutRec}
    (ho : OutRecords s i outs) (hpe : PendingUpstream s.now outs) {c : Retx} {info : FaceId → Option FaceMeas} {known : FaceId → Bool}
    {p : Probe} {nhs : List NextHop} {w : FaceId → Option Nat} (hn : (nhs.map (·.face)).Nodup)
    (h : step env (asfS c info known p nhs w) s (.interest i f) = some s') :
    ((∃ nh ∈ nhs, Eligible s i.name f nh.face ∧ ¬InUse s.now outs nh.face) →
      ∃ nh ∈ nhs, Eligible s i.name f nh.face ∧ ¬InUse s.now outs nh.face ∧
        (∀ nh' ∈ nhs, Eligible s i.name f nh'.face → ¬InUse s.now outs nh'.face → nh' = nh ∨ Before info nh nh') ∧
        (Suppressed c s.now outs (w nh.face) nh.face → Emits s s' []) ∧
        (¬Suppressed c s.now outs (w nh.face) nh.face → SendsTo s s' i nh.face)) ∧
    ((∀ nh ∈ nhs, Eligible s i.name f nh.face → InUse s.now outs nh.face) → (∃ nh ∈ nhs, Eligible s i.name f nh.face) →
      ∃ nh ∈ nhs, Eligible s i.name f nh.face ∧ (∃ x ∈ outs, x.face = nh.face ∧
        ∀ nh' ∈ nhs, Eligible s i.name f nh'.face → ∀ x' ∈ outs, x'.face = nh'.face → x.renewed ≤ x'.renewed) ∧
        (Suppressed c s.now outs (w nh.face) nh.face → Emits s s' []) ∧
        (¬Suppressed c s.now outs (w nh.face) nh.face → SendsTo s s' i nh.face)) ∧
    ((∀ nh ∈ nhs, ¬Eligible s i.name f nh.face) → Emits s s' []) := by
  have hi := reach_inv hr
  obtain ⟨r, u, e, j, hc⟩ := passed_call hi hp h
  have houts := outRecords_unique hi hc.outs ho
  have hnd : (e.outs.map (·.face)).Nodup := hc.recs.2
  have hel : ∀ m : FaceId, Eligible r j.name f m ↔ Eligible s i.name f m := by
    intro nh
    rw [hc.carries.name, eligible_congr hc.faces]
  have hun : ∀ nh : NextHop, isNextHopEligible r f j nh e.toPitEntry true = true ↔
      Eligible s i.name f nh.face ∧ ¬InUse s.now outs nh.face := by
    intro nh
    rw [unused_iff hnd, hel, hc.now, houts]
  have hpend : hasPendingOutRecords r.now e.toPitEntry = true := pending_iff.2 (by rw [houts, hc.now]; exact hpe)
  have hsup : ∀ g, (c.decidePerUpstream r.now e.toPitEntry g (w g)).1 = .suppress ↔ Suppressed c s.now outs (w g) g := by
    intro g
    rw [suppressed_iff hnd, houts, hc.now]
  have hact : asfS c info known p nhs w r (.afterReceiveInterest j f u) =
      match bestFace info r e.toPitEntry j f nhs false with
      | some g => if (c.decidePerUpstream r.now e.toPitEntry g (w g)).1 = .suppress then [] else [.sendInterest u j g]
      | none => match findEligibleNextHopWithEarliestOutRecord r f j nhs e.toPitEntry with
        | none => []
        | some none => []
        | some (some nh) => if (c.decidePerUpstream r.now e.toPitEntry nh.face (w nh.face)).1 = .suppress then [] else [.sendInterest u j nh.face] := by
    simp only [asfS, hc.find, Option.bind_some, asfInterest, hpend, if_true]
    generalize bestFace info r e.toPitEntry j f nhs false = o
    cases o with
    | none =>
      simp only
      generalize findEligibleNextHopWithEarliestOutRecord r f j nhs e.toPitEntry = x
      cases x with
      | none => rfl
      | some y =>
        cases y with
        | none => rfl
        | some nh =>
          simp only [Option.map_some, Option.getD_some]
          split <;> rfl
    | some g =>
      simp only [Option.map_some, Option.getD_some]
      split <;> rfl
  have hsend : ∀ g, asfS c info known p nhs w r (.afterReceiveInterest j f u) =
      (if (c.decidePerUpstream r.now e.toPitEntry g (w g)).1 = .suppress then [] else [.sendInterest u j g]) → Eligible s i.name f g →
      (Suppressed c s.now outs (w g) g → Emits s s' []) ∧ (¬Suppressed c s.now outs (w g) g → SendsTo s s' i g) := by
    intro g hg he
    constructor
    · intro hs
      rw [if_pos ((hsup g).2 hs)] at hg
      exact emits_none hc hg
    · intro hs
      rw [if_neg (fun hc' => hs ((hsup g).1 hc'))] at hg
      exact sendsTo hc hg he
  have hnone : (∀ nh ∈ nhs, Eligible s i.name f nh.face → InUse s.now outs nh.face) →
      ∃ x, earliestLoop r f j e.toPitEntry nhs none = some x ∧
      (x = none ↔ ∀ nh ∈ nhs, ¬Eligible r j.name f nh.face) ∧
      (∀ nh, x = some nh → nh ∈ nhs ∧ Eligible r j.name f nh.face ∧ ∃ y ∈ e.outs, y.face = nh.face ∧
        ∀ nh' ∈ nhs, Eligible r j.name f nh'.face → ∀ r' ∈ e.outs, r'.face = nh'.face → y.renewed ≤ r'.renewed) ∧
      bestFace info r e.toPitEntry j f nhs false = none := by
    intro hall
    have hf1 : bestFace info r e.toPitEntry j f nhs false = none := by
      refine bestFace_none (fun nh hm => ?_)
      rw [Bool.eq_false_iff]
      intro hc'
      obtain ⟨h5, h6⟩ := (hun nh).1 hc'
      exact h6 (hall nh hm h5)
    obtain ⟨x, h5, h6, h7⟩ := earliest_spec (s := r) (f := f) (i := j) hnd nhs none (by
      intro nh hm he
      obtain ⟨y, h5, h6, -⟩ := hall nh hm ((hel _).1 he)
      exact ⟨y, by rw [houts]; exact h5, h6⟩)
    refine ⟨x, h5, by simpa using h6, ?_, hf1⟩
    intro nh hx
    obtain ⟨t, h8, -, h9⟩ := h7 nh hx
    rcases h8 with ⟨b, hb, -⟩ | ⟨h10, h11, y, h12, h13, rfl⟩
    · cases hb
    · exact ⟨h10, h11, y, h12, h13, h9⟩
  refine ⟨?_, ?_, ?_⟩
  · rintro ⟨nh0, hm0, he0, hu0⟩
    obtain ⟨nh, h1, h2, h3, h4⟩ := bestFace_some (info := info) (b := false) hn ⟨nh0, hm0, (hun nh0).2 ⟨he0, hu0⟩⟩
    rw [h3] at hact
    obtain ⟨h5, h6⟩ := (hun nh).1 h2
    exact ⟨nh, h1, h5, h6, fun nh' hm' he' hu' => h4 nh' hm' ((hun nh').2 ⟨he', hu'⟩), hsend _ hact h5⟩
  · rintro hall ⟨nh, hm, he⟩
    obtain ⟨x, h5, h6, h7, h8⟩ := hnone hall
    rw [h8] at hact
    simp only [findEligibleNextHopWithEarliestOutRecord, h5] at hact
    cases x with
    | none => exact absurd ((hel _).2 he) (h6.1 rfl nh hm)
    | some nh1 =>
      obtain ⟨h9, h10, y, h11, h12, h13⟩ := h7 nh1 rfl
      refine ⟨nh1, h9, (hel _).1 h10, ⟨y, by rw [← houts]; exact h11, h12, ?_⟩, hsend _ hact ((hel _).1 h10)⟩
      intro nh' hm' he' x' hx' hf'
      exact h13 nh' hm' ((hel _).2 he') x' (by rw [houts]; exact hx') hf'
  · intro hno
    obtain ⟨x, h5, h6, h7, h8⟩ := hnone (fun nh hm he => absurd he (hno nh hm))
    have hx : x = none := h6.2 (fun nh hm he => hno nh hm ((hel _).1 he))
    subst hx
    rw [h8] at hact
    simp only [findEligibleNextHopWithEarliestOutRecord, h5] at hact
    exact emits_none hc hact

/-- C42: no assertion fails in ASF's handling of Interests. -/
theorem C42_no_fault (c : Retx) (info : FaceId → Option FaceMeas) (p : Probe) (nhs : List NextHop) (w : FaceId → Option Nat) (s : St)
    (e : PitEntry) (hn : (e.outs.map (·.face)).Nodup) (i : FwInterest) (f : FaceId) (u : Nat) :
    (asfInterest c info p nhs w s e i f u).isSome := by
  unfold asfInterest
  simp only
  split
  · split
    · rfl
    · rename_i hnone
      obtain ⟨x, hx, -⟩ := earliest_spec (s := s) (f := f) (i := i) hn nhs none (by
        intro nh hm he
        have hu : InUse s.now e.outs nh.face := Classical.byContradiction fun hc => by
          have h1 : isNextHopEligible s f i nh e (!false) = true := (unused_iff hn).2 ⟨he, hc⟩
          have : ((nhs.filter (fun nh => isNextHopEligible s f i nh e (!false))).map (statsOf info)) ≠ [] := fun hc' => by
            have hm' : nh ∈ nhs.filter (fun nh => isNextHopEligible s f i nh e (!false)) := List.mem_filter.2 ⟨hm, h1⟩
            rw [List.map_eq_nil_iff.1 hc'] at hm'
            cases hm'
          obtain ⟨m, h3, -⟩ := ranked_head (rank := forwardingRank) this
          unfold bestFace at hnone
          rw [h3] at hnone
          cases hnone
        obtain ⟨r, hr, hf, -⟩ := hu
        exact ⟨r, hr, hf⟩)
      rw [findEligibleNextHopWithEarliestOutRecord, hx]
      rfl
  · split <;> rfl

/-! ### C77: which faces count as timed out -/

def IsData : MeasEv → Prop
  | .data _ _ => True
  | _ => False

/-- Data with a measured round trip, and the expiry of the measurements, end the time-out. -/
def Resets : MeasEv → Prop
  | .data _ (some _) => True
  | .expire => True
  | _ => False

instance : DecidablePred IsData := fun ev => by cases ev <;> simp only [IsData] <;> infer_instance

instance : DecidablePred Resets := fun ev => by
  cases ev with
  | data n r => cases r <;> simp only [Resets] <;> infer_instance
  | _ => simp only [Resets]; infer_instance

/-- Since measurements were last obtained (or lost) there has been a Nack, or `mt` timeouts (one, if `mt` is 0) with no Data between them. -/
def TimedOut (mt : Nat) (l : List MeasEv) : Prop :=
  ∃ recent, recent <:+ l ∧ (∀ ev ∈ recent, ¬Resets ev) ∧
    ((∃ n, .nack n ∈ recent) ∨ ∃ w, w <:+: recent ∧ (∀ ev ∈ w, ¬IsData ev) ∧ max 1 mt ≤ w.count .fire)

/-- Timeouts since the last Data or expiry; newest event first. -/
def fires : List MeasEv → Nat
  | [] => 0
  | .fire :: l => fires l + 1
  | .data _ _ :: _ => 0
  | .expire :: _ => 0
  | _ :: l => fires l

theorem fires_suffix : ∀ {l : List MeasEv}, ∃ w, w <+: l ∧ (∀ ev ∈ w, ¬IsData ev ∧ ¬Resets ev) ∧ w.count .fire = fires l := by
  intro l
  fun_induction fires l with
  | case1 => exact ⟨[], List.prefix_rfl, by simp, rfl⟩
  | case2 l ih =>
    obtain ⟨w, h1, h2, h3⟩ := ih
    refine ⟨.fire :: w, List.cons_prefix_cons.2 ⟨rfl, h1⟩, ?_, by simp [h3]⟩
    intro ev hm
    rcases List.mem_cons.1 hm with rfl | hm
    · simp [IsData, Resets]
    · exact h2 ev hm
  | case3 => exact ⟨[], List.nil_prefix, by simp, rfl⟩
  | case4 => exact ⟨[], List.nil_prefix, by simp, rfl⟩
  | case5 x l hx1 hx2 hx3 ih =>
    obtain ⟨w, h1, h2, h3⟩ := ih
    refine ⟨x :: w, List.cons_prefix_cons.2 ⟨rfl, h1⟩, ?_, ?_⟩
    · intro ev hm
      rcases List.mem_cons.1 hm with rfl | hm
      · cases ev with
        | data n r => exact absurd rfl (hx2 n r)
        | expire => exact absurd rfl hx3
        | _ => simp [IsData, Resets]
      · exact h2 ev hm
    · rw [List.count_cons_of_ne (fun hc => hx1 hc), h3]

theorem count_le_fires : ∀ {l w : List MeasEv}, w <+: l → (∀ ev ∈ w, ¬IsData ev ∧ ¬Resets ev) → w.count .fire ≤ fires l := by
  intro l
  induction l with
  | nil =>
    intro w h _
    rw [List.prefix_nil.1 h]
    exact Nat.zero_le _
  | cons x l ih =>
    intro w h hw
    cases w with
    | nil => exact Nat.zero_le _
    | cons y w =>
      obtain ⟨rfl, h'⟩ := List.cons_prefix_cons.1 h
      have := ih h' (fun ev hm => hw ev (List.mem_cons_of_mem _ hm))
      have h0 := hw y List.mem_cons_self
      cases y with
      | fire => simp only [fires, List.count_cons_self]; omega
      | data n r => exact absurd trivial h0.1
      | expire => exact absurd trivial h0.2
      | forward n => rw [List.count_cons_of_ne (by simp)]; exact this
      | nack n => rw [List.count_cons_of_ne (by simp)]; exact this

theorem timedOut_nil (mt : Nat) : ¬TimedOut mt [] := by
  rintro ⟨r, h1, -, h3⟩
  rw [List.suffix_nil.1 h1] at h3
  rcases h3 with ⟨n, hn⟩ | ⟨w, hw, -, hc⟩
  · cases hn
  · rw [List.infix_nil.1 hw] at hc
    simp at hc

theorem TimedOut.snoc {mt : Nat} {l : List MeasEv} {ev : MeasEv} (h : TimedOut mt l) (he : ¬Resets ev) : TimedOut mt (l ++ [ev]) := by
  obtain ⟨r, ⟨a, rfl⟩, h2, h3⟩ := h
  refine ⟨r ++ [ev], ⟨a, by simp⟩, ?_, ?_⟩
  · intro x hx
    rcases List.mem_append.1 hx with hx | hx
    · exact h2 x hx
    · rw [List.mem_singleton.1 hx]; exact he
  · rcases h3 with ⟨n, hn⟩ | ⟨w, ⟨b, c, hw⟩, hd, hc⟩
    · exact Or.inl ⟨n, List.mem_append_left _ hn⟩
    · exact Or.inr ⟨w, ⟨b, c ++ [ev], by rw [← hw]; simp⟩, hd, hc⟩

theorem timedOut_snoc (mt : Nat) (l : List MeasEv) (ev : MeasEv) :
    TimedOut mt (l ++ [ev]) ↔ ¬Resets ev ∧ (TimedOut mt l ∨ (∃ n, ev = .nack n) ∨ ev = .fire ∧ max 1 mt ≤ fires l.reverse + 1) := by
  constructor
  · rintro ⟨r, h1, h2, h3⟩
    rcases List.eq_nil_or_concat r with rfl | ⟨r', x, rfl⟩
    · exfalso
      rcases h3 with ⟨n, hn⟩ | ⟨w, hw, -, hc⟩
      · cases hn
      · rw [List.infix_nil.1 hw] at hc
        simp at hc
    · rw [List.concat_eq_append] at h1 h2 h3
      obtain ⟨a, ha⟩ := h1
      rw [← List.append_assoc] at ha
      obtain ⟨ha1, ha2⟩ := List.append_inj' ha rfl
      obtain rfl : x = ev := by simpa using ha2
      have hr : r' <:+ l := ⟨a, ha1⟩
      have hx := h2 x (by simp)
      have h2' : ∀ y ∈ r', ¬Resets y := fun y hy => h2 y (List.mem_append_left _ hy)
      refine ⟨hx, ?_⟩
      rcases h3 with ⟨n, hn⟩ | ⟨w, ⟨b, c, hw⟩, hd, hc⟩
      · rcases List.mem_append.1 hn with hn | hn
        · exact Or.inl ⟨r', hr, h2', Or.inl ⟨n, hn⟩⟩
        · exact Or.inr (Or.inl ⟨n, (List.mem_singleton.1 hn).symm⟩)
      · rcases List.eq_nil_or_concat c with rfl | ⟨c', y, rfl⟩
        · rw [List.append_nil] at hw
          rcases List.eq_nil_or_concat w with rfl | ⟨w', y, rfl⟩
          · simp at hc
          · rw [List.concat_eq_append] at hw hd hc
            rw [← List.append_assoc] at hw
            obtain ⟨hw1, hw2⟩ := List.append_inj' hw rfl
            obtain rfl : y = x := by simpa using hw2
            by_cases hc' : max 1 mt ≤ w'.count .fire
            · exact Or.inl ⟨r', hr, h2', Or.inr ⟨w', ⟨b, [], by simpa using hw1⟩, fun z hz => hd z (List.mem_append_left _ hz), hc'⟩⟩
            · rw [List.count_append] at hc
              have hy : y = .fire := Classical.byContradiction fun hne => by
                rw [List.count_cons_of_ne hne] at hc
                simp at hc
                omega
              subst hy
              refine Or.inr (Or.inr ⟨rfl, ?_⟩)
              have : w'.reverse.count .fire ≤ fires l.reverse := by
                refine count_le_fires ?_ ?_
                · rw [List.reverse_prefix]
                  exact List.IsSuffix.trans ⟨b, hw1⟩ hr
                · intro z hz
                  have hz := List.mem_reverse.1 hz
                  exact ⟨hd z (List.mem_append_left _ hz), h2' z (by rw [← hw1]; exact List.mem_append_right _ hz)⟩
              rw [List.count_reverse] at this
              simp at hc
              omega
        · rw [List.concat_eq_append, ← List.append_assoc] at hw
          obtain ⟨hw1, -⟩ := List.append_inj' hw rfl
          exact Or.inl ⟨r', hr, h2', Or.inr ⟨w, ⟨b, c', hw1⟩, hd, hc⟩⟩
  · rintro ⟨he, h | ⟨n, rfl⟩ | ⟨rfl, hc⟩⟩
    · exact h.snoc he
    · exact ⟨[.nack n], ⟨l, rfl⟩, by simp [Resets], Or.inl ⟨n, by simp⟩⟩
    · obtain ⟨w, h1, h2, h3⟩ := fires_suffix (l := l.reverse)
      have hs : w.reverse <:+ l := by rw [← List.reverse_prefix, List.reverse_reverse]; exact h1
      obtain ⟨a, rfl⟩ := hs
      have hd : ∀ ev ∈ w.reverse ++ [.fire], ¬IsData ev ∧ ¬Resets ev := by
        intro ev hm
        rcases List.mem_append.1 hm with hm | hm
        · exact h2 ev (List.mem_reverse.1 hm)
        · rw [List.mem_singleton.1 hm]; simp [IsData, Resets]
      refine ⟨w.reverse ++ [.fire], ⟨a, by simp⟩, fun ev hm => (hd ev hm).2, Or.inr ⟨w.reverse ++ [.fire], List.infix_rfl, fun ev hm => (hd ev hm).1, ?_⟩⟩
      rw [List.count_append, List.count_reverse, h3]
      simpa using hc

theorem snoc_induction {α : Type} {P : List α → Prop} (nil : P []) (append_singleton : ∀ l x, P l → P (l ++ [x])) (l : List α) : P l := by
  have : ∀ r : List α, P r.reverse := by
    intro r
    induction r with
    | nil => exact nil
    | cons x r ih => rw [List.reverse_cons]; exact append_singleton _ _ ih
  rw [← List.reverse_reverse l]
  exact this _

theorem measRun_snoc (mt : Nat) (m : FaceMeas) (l : List MeasEv) (ev : MeasEv) :
    m.run mt (l ++ [ev]) = (m.run mt l).bind (fun m => m.step mt ev) := by
  induction l generalizing m with
  | nil => simp only [List.nil_append, FaceMeas.run, Option.bind_some]; cases m.step mt ev <;> rfl
  | cons x l ih =>
    simp only [List.cons_append, FaceMeas.run]
    cases m.step mt x with
    | none => rfl
    | some m' => exact ih m'

theorem cancel_lastRtt (m : FaceMeas) (n : Name) : (m.cancelTimeout n).lastRtt = m.lastRtt ∧ (m.cancelTimeout n).nTimeouts = m.nTimeouts ∧
    (m.cancelTimeout n).lastInterestName = m.lastInterestName ∧
    ((m.cancelTimeout n).scheduled = true → m.scheduled = true ∧ ¬m.lastInterestName <+: n) := by
  unfold FaceMeas.cancelTimeout
  split
  · exact ⟨rfl, rfl, rfl, by simp⟩
  · rename_i h
    exact ⟨rfl, rfl, rfl, fun hs => ⟨hs, fun hp => h (List.isPrefixOf_iff_prefix.2 hp)⟩⟩

theorem timeout_inv {mt : Nat} : ∀ {l : List MeasEv} {m : FaceMeas}, FaceMeas.run mt {} l = some m →
    (m.lastRtt = rttTimeout ↔ TimedOut mt l) ∧ (m.lastRtt ≠ rttTimeout → m.nTimeouts = fires l.reverse) := by
  intro l
  induction l using snoc_induction with
  | nil =>
    intro m h
    obtain rfl := Option.some.inj h
    exact ⟨⟨fun h => absurd h (by decide), fun h => absurd h (timedOut_nil mt)⟩, fun _ => rfl⟩
  | append_singleton l ev ih =>
    intro m' h
    rw [measRun_snoc, Option.bind_eq_some_iff] at h
    obtain ⟨m, hm, h⟩ := h
    obtain ⟨i1, i2⟩ := ih hm
    rw [timedOut_snoc, List.reverse_append]
    cases ev with
    | forward n =>
      obtain rfl := Option.some.inj h
      have e : (if m.scheduled = true then m else { m with lastInterestName := n, scheduled := true }).lastRtt = m.lastRtt ∧
        (if m.scheduled = true then m else { m with lastInterestName := n, scheduled := true }).nTimeouts = m.nTimeouts := by
        split <;> exact ⟨rfl, rfl⟩
      rw [e.1, e.2]
      refine ⟨?_, i2⟩
      rw [i1]
      simp [Resets]
    | data n r =>
      obtain rfl := Option.some.inj h
      refine ⟨?_, fun _ => rfl⟩
      cases r with
      | none =>
        show (m.cancelTimeout n).lastRtt = rttTimeout ↔ _
        rw [(cancel_lastRtt m n).1, i1]
        simp [Resets]
      | some x =>
        show (FaceMeas.cancelTimeout { m with lastRtt := (x.1 : Int), srtt := x.2 } n).lastRtt = rttTimeout ↔ _
        rw [(cancel_lastRtt _ n).1]
        constructor
        · intro hc
          have : (x.1 : Int) = -2 := hc
          omega
        · rintro ⟨hc, -⟩
          exact absurd trivial hc
    | nack n =>
      obtain rfl := Option.some.inj h
      unfold FaceMeas.onTimeoutOrNack
      simp only [Bool.true_eq_false, and_false, if_false]
      have : (FaceMeas.cancelTimeout { m with nTimeouts := m.nTimeouts + 1, lastRtt := rttTimeout } n).lastRtt = rttTimeout := (cancel_lastRtt _ n).1
      refine ⟨⟨fun _ => ⟨by simp [Resets], Or.inr (Or.inl ⟨n, rfl⟩)⟩, fun _ => this⟩, fun hc => absurd this hc⟩
    | fire =>
      unfold FaceMeas.step at h
      simp only at h
      split at h
      · obtain rfl := Option.some.inj h
        unfold FaceMeas.onTimeoutOrNack
        simp only [and_true]
        split
        · rename_i hk
          rw [(cancel_lastRtt _ _).1, (cancel_lastRtt _ _).2.1]
          refine ⟨?_, ?_⟩
          · show m.lastRtt = rttTimeout ↔ _
            rw [i1]
            constructor
            · exact fun ht => ⟨by simp [Resets], Or.inl ht⟩
            · rintro ⟨-, ht | ⟨n, hn⟩ | ⟨-, hc⟩⟩
              · exact ht
              · cases hn
              · refine Classical.byContradiction fun hnt => ?_
                have := i2 (fun hc' => hnt (i1.1 hc'))
                omega
          · intro hne
            show m.nTimeouts + 1 = _
            have := i2 hne
            rw [this]
            rfl
        · rename_i hk
          have : (FaceMeas.cancelTimeout { m with scheduled := false, nTimeouts := m.nTimeouts + 1, lastRtt := rttTimeout } m.lastInterestName).lastRtt = rttTimeout :=
            (cancel_lastRtt _ _).1
          refine ⟨⟨fun _ => ⟨by simp [Resets], ?_⟩, fun _ => this⟩, fun hc => absurd this hc⟩
          by_cases ht : m.lastRtt = rttTimeout
          · exact Or.inl (i1.1 ht)
          · have := i2 ht
            exact Or.inr (Or.inr ⟨trivial, by omega⟩)
      · cases h
    | expire =>
      obtain rfl := Option.some.inj h
      refine ⟨⟨fun h => absurd h (by decide), fun h => absurd trivial h.1⟩, fun _ => rfl⟩

/-- C77: after any history, the measurements of a face say "timed out" exactly if, since the last Data with a measured round-trip time,
the face has sent a Nack, or as many timeouts as the strategy tolerates have happened with no Data in between. -/
theorem C77_timed_out (mt : Nat) (l : List MeasEv) (m : FaceMeas) (h : FaceMeas.run mt {} l = some m) :
    m.lastRtt = rttTimeout ↔ TimedOut mt l := (timeout_inv h).1

/-- C77: a timeout happens only for an Interest that was sent to the face, and to which neither Data nor a Nack under its name has come
since, and for which no timeout has happened since. -/
theorem C77_fires (mt : Nat) (l : List MeasEv) (m : FaceMeas) (h : FaceMeas.run mt {} (l ++ [.fire]) = some m) :
    ∃ pre n post, l = pre ++ .forward n :: post ∧ .fire ∉ post ∧ .expire ∉ post ∧
      (∀ n' r, .data n' r ∈ post → ¬n <+: n') ∧ (∀ n', .nack n' ∈ post → ¬n <+: n') := by
  have key : ∀ {l : List MeasEv} {m : FaceMeas}, FaceMeas.run mt {} l = some m → m.scheduled = true →
      ∃ pre post, l = pre ++ .forward m.lastInterestName :: post ∧ .fire ∉ post ∧ .expire ∉ post ∧
      (∀ n' r, .data n' r ∈ post → ¬m.lastInterestName <+: n') ∧ (∀ n', .nack n' ∈ post → ¬m.lastInterestName <+: n') := by
    intro l
    induction l using snoc_induction with
    | nil =>
      intro m h hs
      obtain rfl := Option.some.inj h
      cases hs
    | append_singleton l ev ih =>
      intro m' h hs
      rw [measRun_snoc, Option.bind_eq_some_iff] at h
      obtain ⟨m, hm, h⟩ := h
      have ext : ∀ {x : Name}, m.scheduled = true → m.lastInterestName = x → ev ≠ .fire → ev ≠ .expire →
          (∀ n' r, ev = .data n' r → ¬x <+: n') → (∀ n', ev = .nack n' → ¬x <+: n') →
          ∃ pre post, l ++ [ev] = pre ++ .forward x :: post ∧ .fire ∉ post ∧ .expire ∉ post ∧
          (∀ n' r, .data n' r ∈ post → ¬x <+: n') ∧ (∀ n', .nack n' ∈ post → ¬x <+: n') := by
        intro x h1 hx h2 h3 h4 h5
        obtain ⟨pre, post, g1, g2, g3, g4, g5⟩ := ih hm h1
        subst hx
        refine ⟨pre, post ++ [ev], by rw [g1]; simp, ?_, ?_, ?_, ?_⟩
        · simp only [List.mem_append, List.mem_singleton, not_or]; exact ⟨g2, fun hc => h2 hc.symm⟩
        · simp only [List.mem_append, List.mem_singleton, not_or]; exact ⟨g3, fun hc => h3 hc.symm⟩
        · intro n' r hm'
          rcases List.mem_append.1 hm' with hm' | hm'
          · exact g4 n' r hm'
          · exact h4 n' r (List.mem_singleton.1 hm').symm
        · intro n' hm'
          rcases List.mem_append.1 hm' with hm' | hm'
          · exact g5 n' hm'
          · exact h5 n' (List.mem_singleton.1 hm').symm
      cases ev with
      | forward n =>
        obtain rfl := Option.some.inj h
        by_cases hsc : m.scheduled = true
        · rw [if_pos hsc] at hs ⊢
          exact ext hsc rfl (by simp) (by simp) (by simp) (by simp)
        · rw [if_neg hsc]
          exact ⟨l, [], rfl, by simp, by simp, by simp, by simp⟩
      | data n r =>
        obtain rfl := Option.some.inj h
        have c : ∀ m0 : FaceMeas, m0.scheduled = m.scheduled → m0.lastInterestName = m.lastInterestName → (m0.cancelTimeout n).scheduled = true →
            ∃ pre post, l ++ [.data n r] = pre ++ .forward (m0.cancelTimeout n).lastInterestName :: post ∧ .fire ∉ post ∧ .expire ∉ post ∧
            (∀ n' r, .data n' r ∈ post → ¬(m0.cancelTimeout n).lastInterestName <+: n') ∧ (∀ n', .nack n' ∈ post → ¬(m0.cancelTimeout n).lastInterestName <+: n') := by
          intro m0 e1 e2 h0
          obtain ⟨-, -, c3, c4⟩ := cancel_lastRtt m0 n
          obtain ⟨c5, c6⟩ := c4 h0
          rw [c3]
          refine ext (by rw [← e1]; exact c5) e2.symm (by simp) (by simp) ?_ (by simp)
          intro n' r' he
          injection he with he1 he2
          rw [← he1]
          exact c6
        cases r with
        | none => exact c m rfl rfl hs
        | some x => exact c { m with lastRtt := (x.1 : Int), srtt := x.2 } rfl rfl hs
      | nack n =>
        obtain rfl := Option.some.inj h
        unfold FaceMeas.onTimeoutOrNack at hs ⊢
        simp only [Bool.true_eq_false, and_false, if_false] at hs ⊢
        obtain ⟨-, -, c3, c4⟩ := cancel_lastRtt { m with nTimeouts := m.nTimeouts + 1, lastRtt := rttTimeout } n
        obtain ⟨c5, c6⟩ := c4 hs
        rw [c3]
        refine ext c5 rfl (by simp) (by simp) (by simp) ?_
        intro n' he
        injection he with he1
        rw [← he1]
        exact c6
      | fire =>
        unfold FaceMeas.step at h
        simp only at h
        split at h
        · obtain rfl := Option.some.inj h
          exfalso
          unfold FaceMeas.onTimeoutOrNack at hs
          simp only [and_true] at hs
          split at hs
          · exact absurd ((cancel_lastRtt _ _).2.2.2 hs).1 (by simp)
          · exact absurd ((cancel_lastRtt _ _).2.2.2 hs).1 (by simp)
        · cases h
      | expire =>
        obtain rfl := Option.some.inj h
        cases hs
  rw [measRun_snoc, Option.bind_eq_some_iff] at h
  obtain ⟨m0, hm, h⟩ := h
  unfold FaceMeas.step at h
  simp only at h
  split at h
  · rename_i hs
    obtain ⟨pre, post, h1⟩ := key hm hs
    exact ⟨pre, m0.lastInterestName, post, h1⟩
  · cases h

/-! ### Non-vacuity -/

/-- 258 has answered in 20 ms, 259 has timed out, nothing is known of 256. -/
abbrev exInfo : FaceId → Option FaceMeas := fun f =>
  if f = 258 then some { lastRtt := 20000000, srtt := 20000000 } else if f = 259 then some { lastRtt := rttTimeout, srtt := 5000000 } else none

-- The measured face is used although it is not the cheapest; the probe goes to the unmeasured one, with another nonce. A retransmission
-- after 10 ms goes to another face, a timed-out one if there is no other; one after 9 ms more is suppressed nowhere but where it was sent.
example : (run exEnv (init 10) (exFaces ++ [(asfS {} exInfo (fun _ => true) ⟨true, 0, 77⟩ [⟨257, 1⟩, ⟨259, 5⟩, ⟨256, 7⟩, ⟨258, 10⟩] (fun _ => none), .interest exI1 257),
    (exStrategy, .tick 10000000),
    (asfS {} exInfo (fun _ => true) ⟨true, 0, 78⟩ [⟨257, 1⟩, ⟨259, 5⟩, ⟨256, 7⟩, ⟨258, 10⟩] (fun _ => none), .interest { exI1 with nonce := 2 } 257),
    (asfS {} exInfo (fun _ => true) ⟨true, 0, 79⟩ [⟨257, 1⟩], .interest { exI1 with name := [exC 2] } 257) |> fun x => (x.1 (fun _ => none), x.2)])).any (fun s =>
      decide (s.sent = [.interest 258 { exI1 with hopLimit := some 4 }, .interest 256 { exI1 with nonce := 77, hopLimit := some 4 },
        .interest 259 { exI1 with nonce := 2, hopLimit := some 4 }, .nack 257 { exI1 with name := [exC 2], hopLimit := some 4 } 150])) = true := by
  decide +kernel

example : ([⟨257, 1⟩, ⟨259, 5⟩, ⟨256, 7⟩, ⟨258, 10⟩] : List NextHop).map (·.face) |>.Nodup := by decide

-- C77: three timeouts, an unmeasured Data in between does not count as recovery but restarts the count; Data recovers, a Nack fails again
example : ((FaceMeas.run 3 {} [.forward [], .fire, .forward [], .fire]).map (fun m => (m.lastRtt, m.nTimeouts)),
    (FaceMeas.run 3 {} [.forward [], .fire, .forward [], .fire, .data [] none, .forward [], .fire]).map (·.lastRtt),
    (FaceMeas.run 3 {} [.forward [], .fire, .forward [], .fire, .forward [], .fire]).map (·.lastRtt),
    (FaceMeas.run 3 {} [.forward [], .fire, .forward [], .fire, .forward [], .fire, .data [] (some (7, 7))]).map (·.lastRtt),
    (FaceMeas.run 3 {} [.forward [], .data [] (some (7, 7)), .fire]).isSome,
    (FaceMeas.run 3 {} [.nack []]).map (·.lastRtt)) =
    (some (-1, 2), some (-1), some (-2), some 7, false, some (-2)) := by decide +kernel

end Verif.Strat
