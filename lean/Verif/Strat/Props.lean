import Verif.Strat.Sends
import Verif.Strat.Asf

/-
Properties of the supplied strategies: best-route (C36), multicast (C37), Nack aggregation (C38), retransmission suppression (C39),
re-sent Interests (C41). `l` is the history of the forwarder, in which each event may have been handled by any strategy.
-/
namespace Verif.Strat

open Fw
open Tb (FaceId Time FwInterest InRec OutRec PitEntry NextHop)

variable {env : Env} {st : Strategy} {s s' : St} {n : Nat} {l : List (Strategy × Event)}

/-! ### C39: suppression -/

theorem lastOutgoing_some {e : PitEntry} {t : Time} : lastOutgoing e = some t ↔ LastSent e.outs t := by
  unfold lastOutgoing LastSent
  rw [List.max?_eq_some_iff]
  simp

theorem lastSent_exists {outs : List OutRec} (h : outs ≠ []) : ∃ t, LastSent outs t := by
  cases hm : (outs.map (·.renewed)).max? with
  | none => simp at hm; exact absurd hm h
  | some t =>
    refine ⟨t, ?_⟩
    have : lastOutgoing { interest := default, outs := outs : PitEntry } = some t := hm
    exact lastOutgoing_some.1 this

theorem pending_nonempty {now : Time} {outs : List OutRec} (h : PendingUpstream now outs) : outs ≠ [] := by
  rintro rfl
  obtain ⟨r, hr, -⟩ := h
  cases hr

/-- C39: exponential suppression per PIT entry. An Interest is new when no upstream may still answer; otherwise it is forwarded if
and only if at least the current interval has passed since the last transmission to any upstream. The interval starts at `initial`,
is multiplied (up to the maximum) by each forwarded retransmission, and stays otherwise. -/
theorem C39_entry (c : Retx) (now : Time) (e : PitEntry) (w : Option Nat) :
    ∃ d w', c.decidePerPitEntry now e w = some (d, w') ∧
      (d = .new ↔ ¬PendingUpstream now e.outs) ∧
      (PendingUpstream now e.outs → ∀ t, LastSent e.outs t →
        (d = .suppress ↔ now - t < w.getD c.initial * 1000000) ∧ (d = .forward ↔ w.getD c.initial * 1000000 ≤ now - t)) ∧
      (d = .new → w' = w) ∧ (d = .suppress → w' = some (w.getD c.initial)) ∧
      (d = .forward → w' = some (min c.max (c.grow (w.getD c.initial)))) := by
  unfold Retx.decidePerPitEntry
  by_cases hp : hasPendingOutRecords now e = true
  · rw [if_pos hp]
    have hp' := pending_iff.1 hp
    obtain ⟨t, ht⟩ := lastSent_exists (pending_nonempty hp')
    rw [lastOutgoing_some.2 ht]
    simp only
    have huniq : ∀ t', LastSent e.outs t' → t' = t := by
      intro t' ht'
      have h1 := lastOutgoing_some.2 ht'
      rw [lastOutgoing_some.2 ht] at h1
      exact (Option.some.inj h1).symm
    by_cases hw : now - t < w.getD c.initial * 1000000
    · rw [if_pos hw]
      refine ⟨_, _, rfl, by simp [hp'], ?_, by simp, by simp, by simp⟩
      intro _ t' ht'
      rw [huniq t' ht']
      exact ⟨by simp [hw], by simpa using hw⟩
    · rw [if_neg hw]
      refine ⟨_, _, rfl, by simp [hp'], ?_, by simp, by simp, by simp [Retx.next]⟩
      intro _ t' ht'
      rw [huniq t' ht']
      exact ⟨by simpa using Nat.le_of_not_lt hw, by simpa using Nat.le_of_not_lt hw⟩
  · rw [if_neg hp]
    have hp' := fun h => hp (pending_iff.2 h)
    exact ⟨_, _, rfl, ⟨fun _ => hp', fun _ => rfl⟩, fun h => absurd h hp', by simp, by simp, by simp⟩

/-- The decisions on the successive Interests for one PIT entry, each with the time and the state of the entry. -/
def decisions (c : Retx) : Option Nat → List (Time × PitEntry) → Option (List Decision × Option Nat)
  | w, [] => some ([], w)
  | w, x :: l => (c.decidePerPitEntry x.1 x.2 w).bind fun d => (decisions c d.2 l).map fun r => (d.1 :: r.1, r.2)

theorem window_le {c : Retx} (hv : c.Valid) : ∀ k, window c k ≤ c.max
  | 0 => hv.le
  | k + 1 => Nat.min_le_left ..

theorem window_mono {c : Retx} (hv : c.Valid) (k : Nat) : window c k ≤ window c (k + 1) :=
  Nat.le_min.2 ⟨window_le hv k, hv.grow _⟩

/-- C39: whatever the history of a PIT entry, no assertion fails; an Interest that arrives while an upstream may still answer is
suppressed if and only if the last transmission is less than `window k` old, where `k` is the number of retransmissions forwarded so
far; otherwise it is forwarded. -/
theorem C39_history (c : Retx) (l : List (Time × PitEntry)) :
    ∃ ds w, decisions c none l = some (ds, w) ∧ ds.length = l.length ∧
      ∀ j (hj : j < l.length) (d : Decision), ds[j]? = some d →
        (d = .new ↔ ¬PendingUpstream l[j].1 l[j].2.outs) ∧
        (d ≠ .new → ∀ t, LastSent l[j].2.outs t →
          (d = .suppress ↔ l[j].1 - t < window c ((ds.take j).count .forward) * 1000000)) := by
  have key : ∀ (l : List (Time × PitEntry)) (w : Option Nat) (k : Nat), w.getD c.initial = window c k →
      ∃ ds w', decisions c w l = some (ds, w') ∧ ds.length = l.length ∧
      ∀ j (hj : j < l.length) (d : Decision), ds[j]? = some d →
        (d = .new ↔ ¬PendingUpstream l[j].1 l[j].2.outs) ∧
        (d ≠ .new → ∀ t, LastSent l[j].2.outs t →
          (d = .suppress ↔ l[j].1 - t < window c (k + (ds.take j).count .forward) * 1000000)) := by
    intro l
    induction l with
    | nil => intro w k _; exact ⟨[], w, rfl, rfl, by simp⟩
    | cons x l ih =>
      intro w k hw
      obtain ⟨d, w', h1, h2, h3, h4, h5, h6⟩ := C39_entry c x.1 x.2 w
      have hk : w'.getD c.initial = window c (k + if d = .forward then 1 else 0) := by
        cases d with
        | new => rw [h4 rfl, hw]; simp
        | suppress => rw [h5 rfl]; simpa using hw
        | forward => rw [h6 rfl]; simp only [Option.getD_some, if_true, hw]; rfl
      obtain ⟨ds, w2, h7, h8, h9⟩ := ih w' _ hk
      refine ⟨d :: ds, w2, ?_, by simp [h8], ?_⟩
      · simp only [decisions, h1, Option.bind_some, h7, Option.map_some]
      · intro j hj d' hd'
        cases j with
        | zero =>
          simp only [List.getElem?_cons_zero, Option.some.injEq] at hd'
          subst hd'
          refine ⟨h2, ?_⟩
          intro hn t ht
          have hp : PendingUpstream x.1 x.2.outs := Classical.byContradiction fun hc => hn (h2.2 hc)
          have := (h3 hp t ht).1
          rw [hw] at this
          simpa using this
        | succ j =>
          simp only [List.getElem?_cons_succ] at hd'
          obtain ⟨h10, h11⟩ := h9 j (by simpa using hj) d' hd'
          refine ⟨by simpa using h10, ?_⟩
          intro hn t ht
          have h12 := h11 hn t (by simpa using ht)
          rw [List.take_succ_cons, List.count_cons]
          simp only [List.getElem_cons_succ]
          rw [h12]
          have : k + (if d = .forward then 1 else 0) + List.count Decision.forward (ds.take j) =
              k + (List.count Decision.forward (ds.take j) + if (d == Decision.forward) = true then 1 else 0) := by
            by_cases hd : d = .forward <;> simp [hd] <;> omega
          rw [this]
  have := key l none 0 rfl
  simpa using this

/-- C39: the interval begins with the initial one, never shrinks, and never exceeds the maximum. -/
theorem C39_bounds {c : Retx} (hv : c.Valid) (k : Nat) :
    window c 0 = c.initial ∧ window c k ≤ window c (k + 1) ∧ c.initial ≤ window c k ∧ window c k ≤ c.max ∧
    window c (k + 1) = min c.max (c.grow (window c k)) := by
  refine ⟨rfl, window_mono hv k, ?_, window_le hv k, rfl⟩
  induction k with
  | zero => exact Nat.le_refl _
  | succ k ih => exact Nat.le_trans ih (window_mono hv k)

/-- C39: exponential suppression per upstream: an Interest is new for a face without out-record, and otherwise forwarded if and only if
the interval has passed since the last transmission to that face. -/
theorem C39_upstream (c : Retx) (now : Time) (e : PitEntry) (hn : (e.outs.map (·.face)).Nodup) (g : FaceId) (w : Option Nat) :
    ((∀ r ∈ e.outs, r.face ≠ g) → c.decidePerUpstream now e g w = (.new, w)) ∧
    ∀ r ∈ e.outs, r.face = g →
      (now - r.renewed < w.getD c.initial * 1000000 → c.decidePerUpstream now e g w = (.suppress, some (w.getD c.initial))) ∧
      (w.getD c.initial * 1000000 ≤ now - r.renewed → c.decidePerUpstream now e g w = (.forward, some (w.getD c.initial))) ∧
      c.increment (c.decidePerUpstream now e g w).2 = some (min c.max (c.grow (w.getD c.initial))) := by
  unfold Retx.decidePerUpstream
  constructor
  · intro h
    cases hf : findOut e g with
    | none => rfl
    | some r => exact absurd (findOut_some hf).2 (h r (findOut_some hf).1)
  · rintro r hr rfl
    rw [findOut_eq hn hr]
    simp only
    refine ⟨fun h => if_pos h, fun h => if_neg (Nat.not_lt.2 h), ?_⟩
    split <;> rfl

/-- C39: with a fixed interval (access strategy: 100 ms). -/
theorem C39_fixed (interval : Nat) (now : Time) (e : PitEntry) :
    ∃ d, fixedDecide interval now e = some d ∧ (d = .new ↔ ¬PendingUpstream now e.outs) ∧
      (PendingUpstream now e.outs → ∀ t, LastSent e.outs t → (d = .suppress ↔ now - t < interval * 1000000)) := by
  unfold fixedDecide
  by_cases hp : hasPendingOutRecords now e = true
  · rw [if_pos hp]
    have hp' := pending_iff.1 hp
    obtain ⟨t, ht⟩ := lastSent_exists (pending_nonempty hp')
    rw [lastOutgoing_some.2 ht]
    refine ⟨_, rfl, ?_, ?_⟩
    · split <;> simp [hp']
    · intro _ t' ht'
      have h1 := lastOutgoing_some.2 ht'
      rw [lastOutgoing_some.2 ht] at h1
      obtain rfl := Option.some.inj h1
      split
      · simpa
      · simpa using Nat.le_of_not_lt ‹_›
  · rw [if_neg hp]
    have hp' := fun h => hp (pending_iff.2 h)
    exact ⟨_, rfl, ⟨fun _ => hp', fun _ => rfl⟩, fun h => absurd h hp'⟩

/-- An entry with one pending out-record, last renewed at `t`. -/
abbrev exEntry (t : Time) : PitEntry := { interest := exI1, outs := [{ face := 258, nonce := 1, renewed := t, expiry := t + 4000000000 }] }

/-- C39: with the default parameters, retransmissions 9 ms, 10 ms, 19 ms and 20 ms after the previous transmission. -/
example : decisions {} none [(9000000, exEntry 0), (10000000, exEntry 0), (29000000, exEntry 10000000), (30000000, exEntry 10000000),
    (5000000000, exEntry 0)] = some ([.suppress, .forward, .suppress, .forward, .new], some 40) := by decide +kernel
example : ({} : Retx).Valid := ⟨by decide, by decide, fun x => by show x ≤ x * 2; omega⟩

/-! ### C36: best-route -/

theorem earliest_spec {f : FaceId} {i : FwInterest} {e : PitEntry} (hn : (e.outs.map (·.face)).Nodup) :
    ∀ (l : List NextHop) (best : Option (NextHop × Time)),
    (∀ nh ∈ l, Eligible s i.name f nh.face → ∃ r ∈ e.outs, r.face = nh.face) →
    ∃ x, earliestLoop s f i e l best = some x ∧
      (x = none ↔ best = none ∧ ∀ nh ∈ l, ¬Eligible s i.name f nh.face) ∧
      ∀ nh, x = some nh → ∃ t, ((∃ b, best = some b ∧ b.1 = nh ∧ b.2 = t) ∨
        (nh ∈ l ∧ Eligible s i.name f nh.face ∧ ∃ r ∈ e.outs, r.face = nh.face ∧ r.renewed = t)) ∧
        (∀ b, best = some b → t ≤ b.2) ∧
        (∀ nh' ∈ l, Eligible s i.name f nh'.face → ∀ r ∈ e.outs, r.face = nh'.face → t ≤ r.renewed)
  | [], best, _ => by
    refine ⟨best.map (·.1), rfl, by simp, ?_⟩
    intro nh hx
    obtain ⟨b, rfl, h2⟩ := Option.map_eq_some_iff.1 hx
    exact ⟨b.2, Or.inl ⟨b, rfl, h2, rfl⟩, by simp, by simp⟩
  | nh :: l, best, h => by
    have hl := fun nh' hm => h nh' (List.mem_cons_of_mem _ hm)
    by_cases he : Eligible s i.name f nh.face
    · obtain ⟨r, hr, hrf⟩ := h nh List.mem_cons_self he
      have hfo := findOut_eq hn hr
      rw [hrf] at hfo
      have huniq : ∀ r' ∈ e.outs, r'.face = nh.face → r' = r := by
        intro r' hr' hf'
        have := findOut_eq hn hr'
        rw [hf', hfo] at this
        exact (Option.some.inj this).symm
      unfold earliestLoop
      rw [if_pos (eligible_iff.2 he), hfo]
      simp only
      obtain ⟨x, h1, h2, h3⟩ := earliest_spec hn l (if best.all (fun b => decide (r.renewed < b.2)) then some (nh, r.renewed) else best) hl
      refine ⟨x, h1, ?_, ?_⟩
      · rw [h2]
        constructor
        · rintro ⟨hb, -⟩
          split at hb
          · cases hb
          · rename_i hc; rw [hb] at hc; simp at hc
        · rintro ⟨-, hc⟩
          exact absurd he (hc nh List.mem_cons_self)
      · intro nh' hx
        obtain ⟨t, h4, h5, h6⟩ := h3 nh' hx
        have hb : ∀ b, best = some b → t ≤ b.2 := by
          intro b hb
          rw [hb] at h5
          by_cases hc : r.renewed < b.2
          · rw [if_pos (by simpa using hc)] at h5
            exact Nat.le_trans (h5 _ rfl) (Nat.le_of_lt hc)
          · rw [if_neg (by simpa using Nat.le_of_not_lt hc)] at h5
            exact h5 _ rfl
        have ht : t ≤ r.renewed := by
          cases hbest : best with
          | none => rw [hbest] at h5; exact h5 _ rfl
          | some b =>
            rw [hbest] at h5
            by_cases hc : r.renewed < b.2
            · rw [if_pos (by simpa using hc)] at h5
              exact h5 _ rfl
            · exact Nat.le_trans (hb b hbest) (Nat.le_of_not_lt hc)
        refine ⟨t, ?_, hb, ?_⟩
        · rcases h4 with ⟨b, hb1, hb2, hb3⟩ | ⟨h4, h7⟩
          · split at hb1
            · obtain rfl := Option.some.inj hb1
              refine Or.inr ⟨?_, ?_, r, hr, ?_, hb3⟩
              · rw [← hb2]; exact List.mem_cons_self
              · rw [← hb2]; exact he
              · rw [← hb2]; exact hrf
            · exact Or.inl ⟨b, hb1, hb2, hb3⟩
          · exact Or.inr ⟨List.mem_cons_of_mem _ h4, h7⟩
        · intro nh2 hm he2 r2 hr2 hf2
          rcases List.mem_cons.1 hm with rfl | hm
          · rw [huniq r2 hr2 hf2]; exact ht
          · exact h6 nh2 hm he2 r2 hr2 hf2
    · unfold earliestLoop
      rw [if_neg (fun hc => he (eligible_iff.1 hc))]
      obtain ⟨x, h1, h2, h3⟩ := earliest_spec hn l best hl
      refine ⟨x, h1, ?_, ?_⟩
      · rw [h2]
        constructor
        · rintro ⟨h4, h5⟩
          refine ⟨h4, ?_⟩
          intro nh' hm
          rcases List.mem_cons.1 hm with rfl | hm
          · exact he
          · exact h5 nh' hm
        · rintro ⟨h4, h5⟩
          exact ⟨h4, fun nh' hm => h5 nh' (List.mem_cons_of_mem _ hm)⟩
      · intro nh' hx
        obtain ⟨t, h4, h5, h6⟩ := h3 nh' hx
        refine ⟨t, ?_, h5, ?_⟩
        · rcases h4 with h4 | ⟨h4, h7⟩
          · exact Or.inl h4
          · exact Or.inr ⟨List.mem_cons_of_mem _ h4, h7⟩
        · intro nh2 hm he2
          rcases List.mem_cons.1 hm with rfl | hm
          · exact absurd he2 he
          · exact h6 nh2 hm he2

/-- The first element that satisfies a predicate, in a list sorted by cost. -/
theorem find_cheapest {nhs : List NextHop} (hs : nhs.Pairwise (fun a b => a.cost ≤ b.cost)) {p : NextHop → Bool} {nh : NextHop}
    (h : nhs.find? p = some nh) : nh ∈ nhs ∧ p nh = true ∧ ∀ nh' ∈ nhs, p nh' = true → nh.cost ≤ nh'.cost := by
  obtain ⟨h1, as, bs, rfl, h2⟩ := List.find?_eq_some_iff_append.1 h
  refine ⟨by simp, h1, ?_⟩
  intro nh' hm hp
  rw [List.pairwise_append] at hs
  rcases List.mem_append.1 hm with hm | hm
  · have := h2 nh' hm
    rw [hp] at this
    cases this
  · rcases List.mem_cons.1 hm with rfl | hm
    · exact Nat.le_refl _
    · exact (List.pairwise_cons.1 hs.2.1).1 nh' hm

/-- C36: no assertion fails in best-route, whatever the FIB entry, the out-records and the interval. -/
theorem C36_no_fault (c : Retx) (nhs : List NextHop) (w : Option Nat) (s : St) (e : PitEntry) (hn : (e.outs.map (·.face)).Nodup)
    (i : FwInterest) (f : FaceId) (u : Nat) : (bestRoute c nhs w s e i f u).isSome := by
  obtain ⟨d, w', h1, -⟩ := C39_entry c s.now e w
  unfold bestRoute
  rw [h1]
  simp only [Option.bind_some]
  cases d with
  | suppress => rfl
  | new => simp only; split <;> rfl
  | forward =>
    simp only
    split
    · rfl
    · rename_i hnone
      obtain ⟨x, hx, -⟩ := earliest_spec (s := s) (f := f) (i := i) hn nhs none (by
        intro nh hm he
        have := List.find?_eq_none.1 hnone nh hm
        have hu : InUse s.now e.outs nh.face := Classical.byContradiction fun hc => this ((unused_iff hn).2 ⟨he, hc⟩)
        obtain ⟨r, hr, hf, -⟩ := hu
        exact ⟨r, hr, hf⟩)
      rw [findEligibleNextHopWithEarliestOutRecord, hx]
      rfl

theorem eligible_congr {r : St} (h : r.faces = s.faces) {m : Name} {f g : FaceId} : Eligible r m f g ↔ Eligible s m f g := by
  unfold Eligible
  rw [h]

theorem Carries.name {c : Config} {i j : FwInterest} (h : Carries c i j) : j.name = i.name := congrArg Interest.name h.key

theorem refuses {r : St} {i j : FwInterest} {f : FaceId} {u : Nat} {e : Ent} (hc : Called st s s' i f r u e j) (hf : (s.faces f).isSome)
    (hst : st r (.afterReceiveInterest j f u) = noRoute f u) : Refuses s s' i f nackNoRoute := by
  have h := hc.calls
  rw [hst] at h
  obtain ⟨fi, hfi⟩ := Option.isSome_iff_exists.1 hf
  obtain ⟨x, x1, x2, x3, -⟩ := hc.inRec
  have hq : e.ins.find? (·.face == x.face) = some x := find?_of_nodup hc.recs.1 x1
  have hfi' : r.faces x.face = some fi := by rw [x2, hc.faces]; exact hfi
  refine ⟨j, fi, hc.carries, hfi, ?_⟩
  unfold noRoute at h
  simp only [acts, act, Option.bind_some, Option.some.injEq] at h
  have ho := outgoing_nack (r := { r with calls := r.calls ++ [.afterReceiveInterest j f u] }) (u := u) (e := e) (q := x) (gi := fi)
    hc.find hfi' hq nackNoRoute
  rw [x2] at ho
  rw [ho] at h
  have fin : ∀ (r1 : St) (e1 : Ent), r1.find u = some e1 → e1.interest = e.interest → s' = setExpiryTimer r1 u 0 →
      s'.sent = r1.sent ∧ ∃ e ∈ s'.pit, e.interest.toInterest = i.toInterest ∧ ∃ t ∈ s'.sched, t.uid = e.uid ∧ t.due = s'.now := by
    rintro r1 e1 h1 h2 rfl
    obtain ⟨h3, t, h4, h5, h6⟩ := timer_spec (ms := 0) h1
    obtain ⟨h7, h8⟩ := find_some h3
    refine ⟨timer_sent .., _, h7, (congrArg Tb.FwInterest.toInterest h2).trans hc.key, t, h4, h5.trans h8.symm, ?_⟩
    rw [h6, (acted_timer [] r1 u 0).now]
    rfl
  by_cases hp : fi.link = .p2p
  · rw [if_pos hp] at h
    rw [if_pos hp]
    obtain ⟨h1, h2⟩ := fin _ { e with toPitEntry := Tb.deleteIn e.toPitEntry f } (by
      show (r.mod u _).find u = _
      rw [mod_find_self (by exact fun _ => rfl), hc.find]; rfl) rfl h.symm
    refine ⟨?_, h2⟩
    unfold Emits
    rw [h1]
    show r.sent ++ _ = _
    rw [hc.sent, x3]
  · rw [if_neg hp] at h
    rw [if_neg hp]
    obtain ⟨h1, h2⟩ := fin _ e (by exact hc.find) rfl h.symm
    refine ⟨?_, h2⟩
    unfold Emits
    rw [h1, List.append_nil]
    exact hc.sent

/-- C36: best-route, an Interest that is not waiting for an upstream: it is sent to the cheapest eligible next hop; if there is none, it
is refused with a NoRoute Nack. -/
theorem C36_new (hr : run env (init n) l = some s) {i : FwInterest} {f : FaceId} (hp : Passed env s i f) {outs : List OutRec}
    (ho : OutRecords s i outs) (hnp : ¬PendingUpstream s.now outs) {c : Retx} {nhs : List NextHop} {w : Option Nat}
    (hs : nhs.Pairwise (fun a b => a.cost ≤ b.cost)) (h : step env (bestRouteS c nhs w) s (.interest i f) = some s') :
    ((∀ nh ∈ nhs, ¬Eligible s i.name f nh.face) → Refuses s s' i f 150) ∧
    ((∃ nh ∈ nhs, Eligible s i.name f nh.face) → ∃ nh ∈ nhs, Eligible s i.name f nh.face ∧
      (∀ nh' ∈ nhs, Eligible s i.name f nh'.face → nh.cost ≤ nh'.cost) ∧ SendsTo s s' i nh.face) := by
  have hi := reach_inv hr
  obtain ⟨r, u, e, j, hc⟩ := passed_call hi hp h
  have houts := outRecords_unique hi hc.outs ho
  have hel : ∀ nh : NextHop, isNextHopEligible r f j nh e.toPitEntry = true ↔ Eligible s i.name f nh.face := by
    intro nh
    rw [eligible_iff, hc.carries.name, eligible_congr hc.faces]
  obtain ⟨d, w', h1, h2, -⟩ := C39_entry c r.now e.toPitEntry w
  have hd : d = .new := h2.2 (by rw [hc.now, houts]; exact hnp)
  subst hd
  have hact : bestRouteS c nhs w r (.afterReceiveInterest j f u) =
      match nhs.find? (fun nh => isNextHopEligible r f j nh e.toPitEntry) with
      | none => noRoute f u
      | some nh => [.sendInterest u j nh.face] := by
    simp only [bestRouteS, hc.find, Option.bind_some, bestRoute, h1]
    generalize nhs.find? _ = o
    cases o <;> rfl
  constructor
  · intro hno
    have : nhs.find? (fun nh => isNextHopEligible r f j nh e.toPitEntry) = none := by
      rw [List.find?_eq_none]
      intro nh hm hc'
      exact hno nh hm ((hel nh).1 hc')
    rw [this] at hact
    obtain ⟨fi, hf, -⟩ := hp.face
    exact refuses hc (by rw [hf]; rfl) hact
  · rintro ⟨nh, hm, he⟩
    have : (nhs.find? (fun nh => isNextHopEligible r f j nh e.toPitEntry)).isSome := List.find?_isSome.2 ⟨nh, hm, (hel nh).2 he⟩
    obtain ⟨nh1, hf1⟩ := Option.isSome_iff_exists.1 this
    rw [hf1] at hact
    obtain ⟨h3, h4, h5⟩ := find_cheapest hs hf1
    exact ⟨nh1, h3, (hel nh1).1 h4, fun nh' hm' he' => h5 nh' hm' ((hel nh').2 he'), sendsTo hc hact ((hel nh1).1 h4)⟩

/-- C36: best-route, a retransmission (an upstream may still answer; the last transmission was at `t`), with suppression interval `w`.
It is dropped within the interval. Afterwards it is sent to the cheapest eligible next hop that is not in use; if all eligible next hops
are in use, to the one among them that was used longest ago; if no next hop is eligible, to none. -/
theorem C36_retx (hr : run env (init n) l = some s) {i : FwInterest} {f : FaceId} (hp : Passed env s i f) {outs : List OutRec}
    (ho : OutRecords s i outs) (hpe : PendingUpstream s.now outs) {t : Time} (ht : LastSent outs t) {c : Retx} {nhs : List NextHop}
    {w : Option Nat} (hs : nhs.Pairwise (fun a b => a.cost ≤ b.cost)) (h : step env (bestRouteS c nhs w) s (.interest i f) = some s') :
    (s.now - t < w.getD c.initial * 1000000 → Emits s s' []) ∧
    (w.getD c.initial * 1000000 ≤ s.now - t →
      ((∃ nh ∈ nhs, Eligible s i.name f nh.face ∧ ¬InUse s.now outs nh.face) →
        ∃ nh ∈ nhs, Eligible s i.name f nh.face ∧ ¬InUse s.now outs nh.face ∧
          (∀ nh' ∈ nhs, Eligible s i.name f nh'.face → ¬InUse s.now outs nh'.face → nh.cost ≤ nh'.cost) ∧ SendsTo s s' i nh.face) ∧
      ((∀ nh ∈ nhs, Eligible s i.name f nh.face → InUse s.now outs nh.face) → (∃ nh ∈ nhs, Eligible s i.name f nh.face) →
        ∃ nh ∈ nhs, Eligible s i.name f nh.face ∧ (∃ x ∈ outs, x.face = nh.face ∧
          ∀ nh' ∈ nhs, Eligible s i.name f nh'.face → ∀ x' ∈ outs, x'.face = nh'.face → x.renewed ≤ x'.renewed) ∧
          SendsTo s s' i nh.face) ∧
      ((∀ nh ∈ nhs, ¬Eligible s i.name f nh.face) → Emits s s' [])) := by
  have hi := reach_inv hr
  obtain ⟨r, u, e, j, hc⟩ := passed_call hi hp h
  have houts := outRecords_unique hi hc.outs ho
  have hnd : (e.outs.map (·.face)).Nodup := hc.recs.2
  have hel : ∀ m : FaceId, Eligible r j.name f m ↔ Eligible s i.name f m := by
    intro nh
    rw [hc.carries.name, eligible_congr hc.faces]
  have hun : ∀ nh : NextHop, isNextHopEligible r f j nh e.toPitEntry true = true ↔
      Eligible s i.name f nh.face ∧ ¬InUse s.now outs nh.face := by
    intro nh
    rw [unused_iff hnd, hel, hc.now, houts]
  obtain ⟨d, w', h1, -, h2, -⟩ := C39_entry c r.now e.toPitEntry w
  obtain ⟨h3, h4⟩ := h2 (by rw [hc.now, houts]; exact hpe) t (by rw [houts]; exact ht)
  rw [hc.now] at h3 h4
  constructor
  · intro hlt
    obtain rfl := h3.2 hlt
    refine emits_none hc ?_
    simp only [bestRouteS, hc.find, Option.bind_some, bestRoute, h1]
    rfl
  · intro hge
    obtain rfl := h4.2 hge
    have hsome : ∀ nh, nhs.find? (fun nh => isNextHopEligible r f j nh e.toPitEntry true) = some nh →
        bestRouteS c nhs w r (.afterReceiveInterest j f u) = [.sendInterest u j nh.face] := by
      intro nh hf1
      simp only [bestRouteS, hc.find, Option.bind_some, bestRoute, h1, hf1]
      rfl
    have hnone : (∀ nh ∈ nhs, Eligible s i.name f nh.face → InUse s.now outs nh.face) →
        ∃ x, earliestLoop r f j e.toPitEntry nhs none = some x ∧
        (x = none ↔ ∀ nh ∈ nhs, ¬Eligible r j.name f nh.face) ∧
        (∀ nh, x = some nh → nh ∈ nhs ∧ Eligible r j.name f nh.face ∧ ∃ y ∈ e.outs, y.face = nh.face ∧
          ∀ nh' ∈ nhs, Eligible r j.name f nh'.face → ∀ r' ∈ e.outs, r'.face = nh'.face → y.renewed ≤ r'.renewed) ∧
        bestRouteS c nhs w r (.afterReceiveInterest j f u) = (match x with | none => [] | some nh => [.sendInterest u j nh.face]) := by
      intro hall
      have hf1 : nhs.find? (fun nh => isNextHopEligible r f j nh e.toPitEntry true) = none := by
        rw [List.find?_eq_none]
        intro nh hm hc'
        obtain ⟨h5, h6⟩ := (hun nh).1 hc'
        exact h6 (hall nh hm h5)
      obtain ⟨x, h5, h6, h7⟩ := earliest_spec (s := r) (f := f) (i := j) hnd nhs none (by
        intro nh hm he
        obtain ⟨y, h5, h6, -⟩ := hall nh hm ((hel _).1 he)
        exact ⟨y, by rw [houts]; exact h5, h6⟩)
      refine ⟨x, h5, by simpa using h6, ?_, ?_⟩
      · intro nh hx
        obtain ⟨t, h8, -, h9⟩ := h7 nh hx
        rcases h8 with ⟨b, hb, -⟩ | ⟨h10, h11, y, h12, h13, rfl⟩
        · cases hb
        · exact ⟨h10, h11, y, h12, h13, h9⟩
      · simp only [bestRouteS, hc.find, Option.bind_some, bestRoute, h1, hf1, findEligibleNextHopWithEarliestOutRecord, h5,
          Option.map_some]
        cases x <;> rfl
    refine ⟨?_, ?_, ?_⟩
    · rintro ⟨nh, hm, he, hu⟩
      have : (nhs.find? (fun nh => isNextHopEligible r f j nh e.toPitEntry true)).isSome :=
        List.find?_isSome.2 ⟨nh, hm, (hun nh).2 ⟨he, hu⟩⟩
      obtain ⟨nh1, hf1⟩ := Option.isSome_iff_exists.1 this
      obtain ⟨h5, h6, h7⟩ := find_cheapest hs hf1
      obtain ⟨h8, h9⟩ := (hun nh1).1 h6
      exact ⟨nh1, h5, h8, h9, fun nh' hm' he' hu' => h7 nh' hm' ((hun nh').2 ⟨he', hu'⟩), sendsTo hc (hsome nh1 hf1) h8⟩
    · rintro hall ⟨nh, hm, he⟩
      obtain ⟨x, h5, h6, h7, h8⟩ := hnone hall
      cases x with
      | none => exact absurd ((hel _).2 he) (h6.1 rfl nh hm)
      | some nh1 =>
        obtain ⟨h9, h10, y, h11, h12, h13⟩ := h7 nh1 rfl
        refine ⟨nh1, h9, (hel _).1 h10, ⟨y, by rw [← houts]; exact h11, h12, ?_⟩, sendsTo hc h8 ((hel _).1 h10)⟩
        intro nh' hm' he' x' hx' hf'
        exact h13 nh' hm' ((hel _).2 he') x' (by rw [houts]; exact hx') hf'
    · intro hno
      obtain ⟨x, h5, h6, h7, h8⟩ := hnone (fun nh hm he => absurd he (hno nh hm))
      have hx : x = none := h6.2 (fun nh hm he => hno nh hm ((hel _).1 he))
      subst hx
      exact emits_none hc h8

/-- Next hops 257 (cost 5), 258 (cost 10), 259 (cost 20). -/
abbrev exNhs : List NextHop := [⟨257, 5⟩, ⟨258, 10⟩, ⟨259, 20⟩]

/-- C36: the hypotheses of `C36_new` are met by the first Interest from 257, which is sent to 258. -/
example : ∃ s, run exEnv (init 10) exFaces = some s ∧ Passed exEnv s exI1 257 ∧ OutRecords s exI1 [] ∧ ¬PendingUpstream s.now [] ∧
    exNhs.Pairwise (fun a b => a.cost ≤ b.cost) ∧ Eligible s exI1.name 257 258 ∧ ¬Eligible s exI1.name 257 257 := by
  obtain ⟨s, h1, h2⟩ := ex_run (o := run exEnv (init 10) exFaces)
    (p := fun s => decide (s.faces 257 = some ⟨.nonLocal, .p2p⟩ ∧ s.faces 258 = some ⟨.nonLocal, .p2p⟩ ∧ s.pit = [] ∧
      s.dnl.has exEnv.hash exI1.name exI1.nonce = false ∧ (s.cs.find exI1.toInterest).any (fun x => x.2 == none) = true)) (by decide +kernel)
  simp only [decide_eq_true_eq] at h2
  obtain ⟨h3, h4, h5, h6, h7⟩ := h2
  have hl : ¬UnderLocalhost exI1.name := by rintro ⟨x, hx⟩; simp [cLocalhost] at hx
  have hh : ¬UnderLocalhop exI1.name := by rintro ⟨x, hx⟩; simp [cLocalhop] at hx
  refine ⟨s, h1, ⟨⟨_, h3, ⟨by decide, by simp [hl]⟩, ?_⟩, rfl, Or.inr ?_⟩, Or.inr ⟨by simp [h5], rfl⟩, ?_, by decide, ?_, ?_⟩
  · rintro (h | ⟨e, he, -⟩)
    · rw [h6] at h; cases h
    · rw [h5] at he; cases he
  · cases hc : s.cs.find exI1.toInterest with
    | none => rw [hc] at h7; cases h7
    | some x =>
      rw [hc] at h7
      obtain ⟨c, o⟩ := x
      simp only [Option.any_some, beq_iff_eq] at h7
      subst h7
      exact ⟨c, rfl⟩
  · rintro ⟨r, hr, -⟩; cases hr
  · exact ⟨_, _, h3, h4, by simp, fun h => absurd h hl, fun h => absurd h hh⟩
  · rintro ⟨fi, gi, -, h9, h10, -⟩
    rw [h3] at h9
    obtain rfl := Option.some.inj h9
    cases h10 rfl

/-- C36: first Interest to 258; a retransmission 9 ms later is suppressed; after 10 ms it goes to 259 (unused), then (30 ms) to 258,
which was used longest ago; the Interest that has no next hop but 257 is Nacked. -/
example : (run exEnv (init 10) (exFaces ++ [(bestRouteS {} exNhs none, .interest exI1 257), (exStrategy, .tick 9000000),
    (bestRouteS {} exNhs none, .interest { exI1 with nonce := 2 } 257), (exStrategy, .tick 1000000),
    (bestRouteS {} exNhs (some 10), .interest { exI1 with nonce := 3 } 257), (exStrategy, .tick 20000000),
    (bestRouteS {} exNhs (some 20), .interest { exI1 with nonce := 4 } 257),
    (bestRouteS {} [⟨257, 5⟩] none, .interest { exI1 with name := [exC 2] } 257)])).any (fun s =>
      decide (s.sent = [.interest 258 { exI1 with hopLimit := some 4 }, .interest 259 { exI1 with nonce := 3, hopLimit := some 4 },
        .interest 258 { exI1 with nonce := 4, hopLimit := some 4 }, .nack 257 { exI1 with name := [exC 2], hopLimit := some 4 } 150])) = true := by
  decide +kernel

/-! ### C37: multicast -/

/-- The retransmission to `g` is suppressed: the last transmission to `g` is less than the interval old. -/
def Suppressed (c : Retx) (now : Time) (outs : List OutRec) (w : Option Nat) (g : FaceId) : Prop :=
  ∃ r ∈ outs, r.face = g ∧ now - r.renewed < w.getD c.initial * 1000000

theorem suppressed_iff {c : Retx} {now : Time} {e : PitEntry} (hn : (e.outs.map (·.face)).Nodup) {g : FaceId} {w : Option Nat} :
    (c.decidePerUpstream now e g w).1 = .suppress ↔ Suppressed c now e.outs w g := by
  obtain ⟨h1, h2⟩ := C39_upstream c now e hn g w
  constructor
  · intro h
    by_cases hr : ∃ r ∈ e.outs, r.face = g
    · obtain ⟨r, hr, hf⟩ := hr
      refine ⟨r, hr, hf, Nat.lt_of_not_le ?_⟩
      intro hle
      rw [(h2 r hr hf).2.1 hle] at h
      cases h
    · rw [h1 (fun r hr' hf => hr ⟨r, hr', hf⟩)] at h
      cases h
  · rintro ⟨r, hr, hf, hlt⟩
    rw [(h2 r hr hf).1 hlt]

/-- C37: the packets of the multicast strategy for a received Interest are the Interest on its way to every next hop that is eligible,
not suppressed and within the HopLimit; one for each, and nothing else. `w` are the intervals stored with the out-records. -/
theorem C37_interest (hr : run env (init n) l = some s) {i : FwInterest} {f : FaceId} (hp : Passed env s i f) {outs : List OutRec}
    (ho : OutRecords s i outs) {c : Retx} {nhs : List NextHop} {w : FaceId → Option Nat} (hd : (nhs.map (·.face)).Nodup)
    (h : step env (multicastS c nhs w) s (.interest i f) = some s') :
    ∃ j new, Carries s.cfg i j ∧ Emits s s' new ∧ new.Nodup ∧
      ∀ p, p ∈ new ↔ ∃ nh ∈ nhs, p = .interest nh.face j ∧ Eligible s i.name f nh.face ∧
        ¬Suppressed c s.now outs (w nh.face) nh.face ∧ ¬OutOfHops s j nh.face := by
  have hi := reach_inv hr
  obtain ⟨r, u, e, j, hc⟩ := passed_call hi hp h
  have houts := outRecords_unique hi hc.outs ho
  have hact : multicastS c nhs w r (.afterReceiveInterest j f u) =
      ((multicastTargets c nhs w r e.toPitEntry j f).map (·.face)).map (fun g => .sendInterest u j g) := by
    simp only [multicastS, hc.find, Option.map_some, Option.getD_some, List.map_map]
    rfl
  have hcalls := hc.calls
  rw [hact] at hcalls
  have h1 := sent_interests j _ { r with calls := r.calls ++ [.afterReceiveInterest j f u] } s' e hc.find hcalls
  have htg : ∀ nh, nh ∈ multicastTargets c nhs w r e.toPitEntry j f ↔ nh ∈ nhs ∧ ¬Suppressed c s.now outs (w nh.face) nh.face ∧
      Eligible s i.name f nh.face := by
    intro nh
    unfold multicastTargets
    rw [List.mem_filter, Bool.and_eq_true, decide_eq_true_eq, eligible_iff, hc.carries.name, eligible_congr hc.faces, Ne,
      suppressed_iff hc.recs.2, houts, hc.now]
  refine ⟨j, ((multicastTargets c nhs w r e.toPitEntry j f).map (·.face)).flatMap (wire s.faces j), hc.carries, ?_, ?_, ?_⟩
  · unfold Emits
    rw [h1.sent]
    show r.sent ++ List.flatMap (wire r.faces j) _ = _
    rw [hc.sent, hc.faces]
  · have hsub : ((multicastTargets c nhs w r e.toPitEntry j f).map (·.face)).Nodup :=
      (List.Sublist.map _ List.filter_sublist).nodup hd
    generalize (multicastTargets c nhs w r e.toPitEntry j f).map (·.face) = gs at hsub
    have hw : ∀ g p, p ∈ wire s.faces j g → p = .interest g j := by
      intro g p hp
      unfold wire at hp
      split at hp
      · cases hp
      · split at hp
        · cases hp
        · simpa using hp
    have hwn : ∀ g, (wire s.faces j g).Nodup := by
      intro g
      unfold wire
      split
      · exact List.nodup_nil
      · split
        · exact List.nodup_nil
        · simp
    rw [List.Nodup, List.pairwise_flatMap]
    refine ⟨fun g _ => hwn g, List.Pairwise.imp ?_ hsub⟩
    intro a b hab x hx y hy he
    have h1 := hw a x hx
    have h2 := hw b y hy
    rw [h1, h2] at he
    injection he with he
    exact hab he
  · intro p
    simp only [List.mem_flatMap, List.mem_map]
    constructor
    · rintro ⟨g, ⟨nh, hm, rfl⟩, hpw⟩
      obtain ⟨h2, h3, h4⟩ := (htg nh).1 hm
      obtain ⟨w1, w2⟩ := wire_eq (j := j) h4
      by_cases hh : OutOfHops s j nh.face
      · rw [w1 hh] at hpw; cases hpw
      · rw [w2 hh] at hpw
        exact ⟨nh, h2, by simpa using hpw, h4, h3, hh⟩
    · rintro ⟨nh, h2, rfl, h4, h3, hh⟩
      obtain ⟨w1, w2⟩ := wire_eq (j := j) h4
      exact ⟨nh.face, ⟨nh, (htg nh).2 ⟨h2, h3, h4⟩, rfl⟩, by rw [w2 hh]; simp⟩

/-- Sending to a face does not change the out-records of others. -/
theorem out_after {s : St} {u : Nat} {e : Ent} (he : s.find u = some e) (i : FwInterest) (g0 : FaceId) :
    ∃ e1, (onOutgoingInterest s u i g0).find u = some e1 ∧ (Tb.RecsOk e.toPitEntry → Tb.RecsOk e1.toPitEntry) ∧
      ∀ g, g ≠ g0 → findOut e1.toPitEntry g = findOut e.toPitEntry g := by
  unfold onOutgoingInterest
  cases s.faces g0 with
  | none => exact ⟨e, he, id, fun _ _ => rfl⟩
  | some gi =>
    simp only [he]
    split
    · exact ⟨e, he, id, fun _ _ => rfl⟩
    · refine ⟨{ e with toPitEntry := Tb.insertOrUpdateOut e.toPitEntry g0 i s.now }, ?_, fun h => Tb.recsOk_out h .., ?_⟩
      · show (s.mod u _).find u = _
        rw [mod_find_self (by exact fun _ => rfl), he]; rfl
      · intro g hg
        unfold findOut Tb.insertOrUpdateOut
        simp only
        have hmap : ∀ l : List OutRec, (l.map (fun r => if r.face = g0 then
            { r with nonce := i.nonce, renewed := s.now, expiry := Tb.recExpiry s.now i } else r)).find? (·.face == g) = l.find? (·.face == g) := by
          intro l
          induction l with
          | nil => rfl
          | cons x l ih =>
            rw [List.map_cons, List.find?_cons, List.find?_cons, ih]
            by_cases hx : x.face = g0
            · have h1 : (x.face == g) = false := by simpa [hx] using fun h => hg h.symm
              rw [if_pos hx]
              simp only [h1]
            · rw [if_neg hx]
        rw [hmap]
        split
        · rfl
        · rw [List.find?_cons_of_neg (by simpa using fun h => hg h.symm)]

/-- C37: the code decides on each next hop in turn, after sending to the previous ones; this makes no difference. -/
theorem C37_loop {c : Retx} {i : FwInterest} {f : FaceId} {u : Nat} : ∀ (nhs : List NextHop) (s : St) (w : FaceId → Option Nat) (e : Ent),
    s.find u = some e → (nhs.map (·.face)).Nodup →
    acts s ((multicastTargets c nhs w s e.toPitEntry i f).map (fun nh => .sendInterest u i nh.face)) =
      some (multicastLoop c i f u nhs s w).1
  | [], s, w, e, he, _ => rfl
  | nh :: nhs, s, w, e, he, hn => by
    have hn2 : nh.face ∉ nhs.map (·.face) ∧ (nhs.map (·.face)).Nodup := List.nodup_cons.1 hn
    unfold multicastLoop
    rw [he]
    simp only
    have hcongr : ∀ (s1 : St) (e1 : Ent) (w1 : FaceId → Option Nat), s1.faces = s.faces → s1.now = s.now →
        (∀ g, g ≠ nh.face → findOut e1.toPitEntry g = findOut e.toPitEntry g) → (∀ g, g ≠ nh.face → w1 g = w g) →
        multicastTargets c nhs w1 s1 e1.toPitEntry i f = multicastTargets c nhs w s e.toPitEntry i f := by
      intro s1 e1 w1 h1 h2 h3 h4
      unfold multicastTargets
      apply List.filter_congr
      intro x hx
      have hne : x.face ≠ nh.face := fun hc => hn2.1 (hc ▸ List.mem_map_of_mem hx)
      rw [h4 _ hne]
      unfold Retx.decidePerUpstream isNextHopEligible
      rw [h1, h2, h3 _ hne]
    by_cases hc : (c.decidePerUpstream s.now e.toPitEntry nh.face (w nh.face)).1 = .suppress ∨ isNextHopEligible s f i nh e.toPitEntry = false
    · rw [if_pos hc]
      have hskip : multicastTargets c (nh :: nhs) w s e.toPitEntry i f = multicastTargets c nhs w s e.toPitEntry i f := by
        unfold multicastTargets
        rw [List.filter_cons_of_neg]
        rcases hc with hc | hc
        · simp [hc]
        · simp [hc]
      rw [hskip, ← C37_loop nhs s _ e he hn2.2,
        hcongr s e _ rfl rfl (fun _ _ => rfl) (fun g hg => if_neg hg)]
    · rw [if_neg hc]
      have hc' : (c.decidePerUpstream s.now e.toPitEntry nh.face (w nh.face)).1 ≠ .suppress ∧ isNextHopEligible s f i nh e.toPitEntry = true := by
        refine ⟨fun h => hc (Or.inl h), ?_⟩
        cases hq : isNextHopEligible s f i nh e.toPitEntry
        · exact absurd (Or.inr hq) hc
        · rfl
      have htake : multicastTargets c (nh :: nhs) w s e.toPitEntry i f = nh :: multicastTargets c nhs w s e.toPitEntry i f := by
        unfold multicastTargets
        rw [List.filter_cons_of_pos (by simp [hc'.1, hc'.2])]
      rw [htake]
      simp only [List.map_cons, acts, act, Option.bind_some]
      obtain ⟨e1, he1, hro, hfo⟩ := out_after he i nh.face
      have hs1 := sent_interest he i nh.face
      have ih := C37_loop (c := c) (i := i) (f := f) nhs (onOutgoingInterest s u i nh.face)
        (fun g => if g = nh.face ∧ sends s i nh.face = true ∧ (c.decidePerUpstream s.now e.toPitEntry nh.face (w nh.face)).1 = .forward then
          c.increment (c.decidePerUpstream s.now e.toPitEntry nh.face (w nh.face)).2
          else (fun g => if g = nh.face then (c.decidePerUpstream s.now e.toPitEntry nh.face (w nh.face)).2 else w g) g) e1 he1 hn2.2
      rw [hcongr _ e1 _ hs1.faces hs1.now hfo (by
        intro g hg
        simp only [if_neg hg]
        rw [if_neg (fun hc => hg hc.1)])] at ih
      exact ih

theorem loop_other {c : Retx} {i : FwInterest} {f : FaceId} {u : Nat} : ∀ (nhs : List NextHop) (s : St) (w : FaceId → Option Nat) (g : FaceId),
    (∀ nh ∈ nhs, nh.face ≠ g) → (multicastLoop c i f u nhs s w).2 g = w g
  | [], s, w, g, _ => rfl
  | nh :: nhs, s, w, g, h => by
    have hne : g ≠ nh.face := fun hc => h nh List.mem_cons_self hc.symm
    have hl := fun x hx => h x (List.mem_cons_of_mem _ hx)
    unfold multicastLoop
    cases s.find u with
    | none => rfl
    | some e =>
      simp only
      split
      · rw [loop_other nhs _ _ g hl]
        exact if_neg hne
      · rw [loop_other nhs _ _ g hl]
        rw [if_neg (fun hc => hne hc.1)]
        exact if_neg hne

/-- C37, C39: the intervals stored with the out-records. The interval of a face that has been asked before is multiplied, up to the
maximum, if the Interest is sent to it again; it stays if nothing is sent; a face asked for the first time starts with the initial one. -/
theorem C37_intervals {c : Retx} {i : FwInterest} {f : FaceId} {u : Nat} : ∀ (nhs : List NextHop) (s : St) (w : FaceId → Option Nat) (e : Ent),
    s.find u = some e → Tb.RecsOk e.toPitEntry → (nhs.map (·.face)).Nodup → ∀ g,
    ((nh : NextHop) → nh ∈ nhs → nh.face = g → Eligible s i.name f g → ¬OutOfHops s i g → ¬Suppressed c s.now e.outs (w g) g →
      (∃ r ∈ e.outs, r.face = g) →
      (multicastLoop c i f u nhs s w).2 g = some (min c.max (c.grow ((w g).getD c.initial)))) ∧
    ((¬∃ nh ∈ nhs, nh.face = g ∧ Eligible s i.name f g ∧ ¬OutOfHops s i g ∧ ¬Suppressed c s.now e.outs (w g) g ∧ ∃ r ∈ e.outs, r.face = g) →
      ((multicastLoop c i f u nhs s w).2 g).getD c.initial = (w g).getD c.initial)
  | [], s, w, e, _, _, _, g => ⟨fun nh hm => (by cases hm), fun _ => rfl⟩
  | nh :: nhs, s, w, e, he, hre, hn, g => by
    have hn2 : nh.face ∉ nhs.map (·.face) ∧ (nhs.map (·.face)).Nodup := List.nodup_cons.1 hn
    have hsup := suppressed_iff (c := c) (now := s.now) (e := e.toPitEntry) hre.2 (g := nh.face) (w := w nh.face)
    have hel := eligible_iff (s := s) (f := f) (i := i) (nh := nh) (e := e.toPitEntry)
    by_cases hg : g = nh.face
    · -- this next hop
      subst hg
      have hot : ∀ x ∈ nhs, x.face ≠ nh.face := fun x hx hc => hn2.1 (hc ▸ List.mem_map_of_mem hx)
      obtain ⟨u1, u2⟩ := C39_upstream c s.now e.toPitEntry hre.2 nh.face (w nh.face)
      have hd2 : ((c.decidePerUpstream s.now e.toPitEntry nh.face (w nh.face)).2).getD c.initial = (w nh.face).getD c.initial := by
        by_cases hr : ∃ r ∈ e.outs, r.face = nh.face
        · obtain ⟨r, hr, hf⟩ := hr
          rcases Nat.lt_or_ge (s.now - r.renewed) ((w nh.face).getD c.initial * 1000000) with h | h
          · rw [(u2 r hr hf).1 h]; rfl
          · rw [(u2 r hr hf).2.1 h]; rfl
        · rw [u1 (fun r hr' hf => hr ⟨r, hr', hf⟩)]
      unfold multicastLoop
      rw [he]
      simp only
      by_cases hc : (c.decidePerUpstream s.now e.toPitEntry nh.face (w nh.face)).1 = .suppress ∨ isNextHopEligible s f i nh e.toPitEntry = false
      · rw [if_pos hc, loop_other nhs _ _ _ hot]
        simp only [if_true]
        constructor
        · intro _ _ _ h1 _ h2 _
          rcases hc with hc | hc
          · exact absurd (hsup.1 hc) h2
          · rw [hel.2 h1] at hc; cases hc
        · intro _; exact hd2
      · rw [if_neg hc, loop_other nhs _ _ _ hot]
        simp only [if_true, true_and]
        have h1 : Eligible s i.name f nh.face := by
          refine hel.1 ?_
          cases hq : isNextHopEligible s f i nh e.toPitEntry
          · exact absurd (Or.inr hq) hc
          · rfl
        have h2 : ¬Suppressed c s.now e.outs (w nh.face) nh.face := fun h => hc (Or.inl (hsup.2 h))
        obtain ⟨fi, gi, k1, k2, -, -⟩ := h1
        have hsends : sends s i nh.face = true ↔ ¬OutOfHops s i nh.face := by
          unfold sends OutOfHops
          rw [k2]
          simp only [Option.any_some, Bool.not_eq_true', decide_eq_false_iff_not, Option.some.injEq, exists_eq_left', not_and]
        have hfwd : (c.decidePerUpstream s.now e.toPitEntry nh.face (w nh.face)).1 = .forward ↔ ∃ r ∈ e.outs, r.face = nh.face := by
          constructor
          · intro h
            refine Classical.byContradiction fun hr => ?_
            rw [u1 (fun r hr' hf => hr ⟨r, hr', hf⟩)] at h
            cases h
          · rintro ⟨r, hr, hf⟩
            rw [(u2 r hr hf).2.1 (Nat.le_of_not_lt fun hlt => h2 ⟨r, hr, hf, hlt⟩)]
        constructor
        · rintro _ _ _ _ h3 _ ⟨r, hr, hf⟩
          rw [if_pos ⟨hsends.2 h3, hfwd.2 ⟨r, hr, hf⟩⟩]
          exact (u2 r hr hf).2.2
        · intro hno
          rw [if_neg]
          · exact hd2
          · rintro ⟨h3, h4⟩
            exact hno ⟨nh, List.mem_cons_self, rfl, hel.1 (by
              cases hq : isNextHopEligible s f i nh e.toPitEntry
              · exact absurd (Or.inr hq) hc
              · rfl), hsends.1 h3, h2, hfwd.1 h4⟩
    · -- another one
      unfold multicastLoop
      rw [he]
      simp only
      have step : ∀ (s1 : St) (e1 : Ent) (w1 : FaceId → Option Nat), s1.find u = some e1 → Tb.RecsOk e1.toPitEntry →
          s1.faces = s.faces → s1.now = s.now → findOut e1.toPitEntry g = findOut e.toPitEntry g → w1 g = w g →
          ((nh' : NextHop) → nh' ∈ nh :: nhs → nh'.face = g → Eligible s i.name f g → ¬OutOfHops s i g → ¬Suppressed c s.now e.outs (w g) g →
            (∃ r ∈ e.outs, r.face = g) →
            (multicastLoop c i f u nhs s1 w1).2 g = some (min c.max (c.grow ((w g).getD c.initial)))) ∧
          ((¬∃ nh' ∈ nh :: nhs, nh'.face = g ∧ Eligible s i.name f g ∧ ¬OutOfHops s i g ∧ ¬Suppressed c s.now e.outs (w g) g ∧ ∃ r ∈ e.outs, r.face = g) →
            ((multicastLoop c i f u nhs s1 w1).2 g).getD c.initial = (w g).getD c.initial) := by
        intro s1 e1 w1 h1 h2 h3 h4 h5 h6
        have hrec : (∃ r ∈ e1.outs, r.face = g) ↔ ∃ r ∈ e.outs, r.face = g := by
          have : ∀ e : Ent, (∃ r ∈ e.outs, r.face = g) ↔ (findOut e.toPitEntry g).isSome := by
            intro e
            unfold findOut
            rw [List.find?_isSome]
            simp
          rw [this, this, h5]
        have hsup' : Suppressed c s1.now e1.outs (w1 g) g ↔ Suppressed c s.now e.outs (w g) g := by
          rw [← suppressed_iff h2.2, ← suppressed_iff hre.2]
          unfold Retx.decidePerUpstream
          rw [h4, h5, h6]
        have hout : OutOfHops s1 i g ↔ OutOfHops s i g := by unfold OutOfHops; rw [h3]
        obtain ⟨ih1, ih2⟩ := C37_intervals (c := c) (i := i) (f := f) nhs s1 w1 e1 h1 h2 hn2.2 g
        rw [eligible_congr h3, hout, hsup', hrec, h6] at ih1 ih2
        constructor
        · intro nh' hm hf' a1 a2 a3 a4
          rcases List.mem_cons.1 hm with rfl | hm
          · exact absurd hf'.symm hg
          · exact ih1 nh' hm hf' a1 a2 a3 a4
        · intro hno
          exact ih2 (fun ⟨nh', hm, hx⟩ => hno ⟨nh', List.mem_cons_of_mem _ hm, hx⟩)
      split
      · exact step s e _ he hre rfl rfl rfl (if_neg hg)
      · obtain ⟨e1, he1, hro, hfo⟩ := out_after he i nh.face
        have hs1 := sent_interest he i nh.face
        refine step _ e1 _ he1 (hro hre) hs1.faces hs1.now (hfo g hg) ?_
        simp only [if_neg hg]
        rw [if_neg (fun hc => hg hc.1)]

/-- C37: next hops 257, 258, 259 and an Interest from 257: it goes to 258 and 259; a retransmission from 256 within 10 ms goes to 257,
which has not been asked; a looping Interest is ignored. -/
example : (run exEnv (init 10) (exFaces ++ [(multicastS {} exNhs (fun _ => none), .interest exI1 257), (exStrategy, .tick 9000000),
    (multicastS {} exNhs (fun _ => none), .interest exI2 256), (multicastS {} exNhs (fun _ => none), .interest exI1 258)])).any (fun s =>
      decide (s.sent = [.interest 258 { exI1 with hopLimit := some 4 }, .interest 259 { exI1 with hopLimit := some 4 },
        .interest 257 exI2])) = true := by
  decide +kernel

theorem eligible_nonvacuous : (exNhs.map (·.face)).Nodup := by decide

/-- What the multicast strategy sends for one PIT entry when a next hop appears. -/
def NewNextHopSends (s : St) (e : Ent) (nh : NextHop) (new : List Pkt) : Prop :=
  (new = [.interest nh.face e.interest] ∧ (∃ r ∈ e.ins, Eligible s e.interest.name r.face nh.face) ∧ ¬OutOfHops s e.interest nh.face) ∨
  (new = [] ∧ ¬((∃ r ∈ e.ins, Eligible s e.interest.name r.face nh.face) ∧ ¬OutOfHops s e.interest nh.face))

theorem newNextHop_one {c : Retx} {nhs : List NextHop} {w : FaceId → Option Nat} {s s' : St} {u : Nat} {e : Ent} (he : s.find u = some e)
    {nh : NextHop} (h : call (multicastS c nhs w) s (.afterNewNextHop nh u) = some s') :
    s'.faces = s.faces ∧ (∀ v, v ≠ u → s'.find v = s.find v) ∧ ∃ new, Emits s s' new ∧ NewNextHopSends s e nh new := by
  unfold call at h
  simp only [multicastS, he, Option.map_some, Option.getD_some, multicastNewNextHop] at h
  by_cases hc : (e.ins.any (fun r => isNextHopEligible s r.face e.interest nh e.toPitEntry)) = true
  · rw [if_pos hc] at h
    have hex : ∃ r ∈ e.ins, Eligible s e.interest.name r.face nh.face := by
      obtain ⟨r, h1, h2⟩ := List.any_eq_true.1 hc
      exact ⟨r, h1, eligible_iff.1 h2⟩
    simp only [acts, act, Option.bind_some, Option.some.injEq] at h
    have h1 := sent_interest (r := { s with calls := s.calls ++ [.afterNewNextHop nh u] }) (u := u) (e := e) he e.interest nh.face
    rw [h] at h1
    obtain ⟨r, hr, hel⟩ := hex
    obtain ⟨w1, w2⟩ := wire_eq (j := e.interest) hel
    refine ⟨h1.faces, ?_, wire s.faces e.interest nh.face, h1.sent, ?_⟩
    · intro v hv
      rw [← h]
      unfold onOutgoingInterest
      split
      · split
        · rfl
        · show (St.mod { s with calls := s.calls ++ [.afterNewNextHop nh u] } u _).find v = _
          rw [mod_find (by exact fun _ => rfl)]
          show (s.find v).map _ = _
          cases hfv : s.find v with
          | none => rfl
          | some ev =>
            have := (find_some hfv).2
            simp only [Option.map_some, this, if_neg hv]
      · rfl
    · by_cases ho : OutOfHops s e.interest nh.face
      · exact Or.inr ⟨w1 ho, fun hx => hx.2 ho⟩
      · exact Or.inl ⟨w2 ho, ⟨r, hr, hel⟩, ho⟩
  · rw [if_neg hc] at h
    cases h
    refine ⟨rfl, fun _ _ => rfl, [], (List.append_nil _).symm, Or.inr ⟨rfl, ?_⟩⟩
    rintro ⟨⟨r, hr, hel⟩, -⟩
    exact hc (List.any_eq_true.2 ⟨r, hr, eligible_iff.2 hel⟩)

/-- C37: when a next hop appears, every affected pending Interest is sent there, provided some downstream's request makes it eligible;
and nothing else is sent. -/
theorem C37_new_next_hop {c : Retx} {nhs : List NextHop} {w : FaceId → Option Nat} {nh : NextHop} : ∀ (us : List Nat) (s s' : St), us.Nodup →
    (∀ u ∈ us, (s.find u).isSome) → step env (multicastS c nhs w) s (.newNextHop nh us) = some s' →
    ∃ news : List (List Pkt), Emits s s' news.flatten ∧ news.length = us.length ∧
      ∀ (k u : Nat) (e : Ent) (new : List Pkt), us[k]? = some u → s.find u = some e → news[k]? = some new → NewNextHopSends s e nh new
  | [], s, s', _, _, h => by
    cases h
    exact ⟨[], (List.append_nil _).symm, rfl, by simp⟩
  | u :: us, s, s', hn, hl, h => by
    have hn2 := List.nodup_cons.1 hn
    obtain ⟨s1, h1, h2⟩ := Option.bind_eq_some_iff.1 (show (call (multicastS c nhs w) s (.afterNewNextHop nh u)).bind
      (fun s => onNewNextHop (multicastS c nhs w) nh s us) = some s' from h)
    obtain ⟨e, he⟩ := Option.isSome_iff_exists.1 (hl u List.mem_cons_self)
    obtain ⟨h3, h4, new, h5, h6⟩ := newNextHop_one he h1
    have hne : ∀ v ∈ us, v ≠ u := fun v hv hc => hn2.1 (hc ▸ hv)
    obtain ⟨news, h7, h8, h9⟩ := C37_new_next_hop us s1 s' hn2.2
      (fun v hv => by rw [h4 v (hne v hv)]; exact hl v (List.mem_cons_of_mem _ hv)) h2
    refine ⟨new :: news, ?_, by simp [h8], ?_⟩
    · unfold Emits at *
      rw [h7, h5, List.flatten_cons, List.append_assoc]
    · intro k v ev nw hk hv hw
      cases k with
      | zero =>
        simp only [List.getElem?_cons_zero, Option.some.injEq] at hk hw
        subst hk hw
        rw [he] at hv
        obtain rfl := Option.some.inj hv
        exact h6
      | succ k =>
        simp only [List.getElem?_cons_succ] at hk hw
        have hm := List.mem_of_getElem? hk
        have := h9 k v ev nw hk (by rw [h4 v (hne v hm)]; exact hv) hw
        unfold NewNextHopSends OutOfHops at this ⊢
        rw [h3] at this
        simp only [eligible_congr h3] at this
        exact this

/-- C37: 257's pending Interest (entry 0) is sent to the new next hop 259, not to 257 itself. -/
example : (run exEnv (init 10) (exFaces ++ [(multicastS {} [⟨258, 10⟩] (fun _ => none), .interest exI1 257),
    (multicastS {} [] (fun _ => none), .newNextHop ⟨259, 0⟩ [0]), (multicastS {} [] (fun _ => none), .newNextHop ⟨257, 0⟩ [0])])).any (fun s =>
      decide (s.sent = [.interest 258 { exI1 with hopLimit := some 4 }, .interest 259 { exI1 with hopLimit := some 4 }])) = true := by
  decide +kernel

/-! ### C38: Nacks -/

/-- `k` is the least severe among the reasons of the Nacks received: Congestion (50) < Duplicate (100) < NoRoute (150); no reason (0)
is the most severe. -/
def LeastSevere (outs : List OutRec) (k : Nat) : Prop :=
  (∃ r ∈ outs, r.nack = some k) ∧ ∀ r ∈ outs, ∀ x, r.nack = some x → x = 0 ∨ (k ≠ 0 ∧ k ≤ x)

def le0 (a b : Nat) : Prop := b = 0 ∨ (a ≠ 0 ∧ a ≤ b)

theorem le0_trans {a b c : Nat} (h1 : le0 a b) (h2 : le0 b c) : le0 a c := by unfold le0 at *; omega

theorem nackLoop_spec : ∀ (l : List OutRec) (n : Nat) (last : Option FaceId) (k : Nat),
    (nackLoop l (n, last, k)).1 = n + l.countP (fun r => r.nack.isNone) ∧
    ((l.countP (fun r => r.nack.isNone) = 0 ∧ (nackLoop l (n, last, k)).2.1 = last) ∨
      ∃ r ∈ l, r.nack = none ∧ (nackLoop l (n, last, k)).2.1 = some r.face) ∧
    ((nackLoop l (n, last, k)).2.2 = k ∨ ∃ r ∈ l, r.nack = some (nackLoop l (n, last, k)).2.2) ∧
    le0 (nackLoop l (n, last, k)).2.2 k ∧ ∀ r ∈ l, ∀ x, r.nack = some x → le0 (nackLoop l (n, last, k)).2.2 x
  | [], n, last, k => ⟨rfl, Or.inl ⟨rfl, rfl⟩, Or.inl rfl, by unfold le0 nackLoop; simp only; omega, by simp⟩
  | r :: l, n, last, k => by
    cases hr : r.nack with
    | none =>
      have hl : nackLoop (r :: l) (n, last, k) = nackLoop l (n + 1, some r.face, k) := by rw [nackLoop, hr]
      rw [hl]
      obtain ⟨h1, h2, h3, h4, h5⟩ := nackLoop_spec l (n + 1) (some r.face) k
      refine ⟨?_, Or.inr ?_, ?_, h4, ?_⟩
      · rw [h1, List.countP_cons_of_pos (by rw [hr]; rfl)]
        omega
      · rcases h2 with ⟨-, h2⟩ | ⟨r', h6, h7⟩
        · exact ⟨r, List.mem_cons_self, hr, h2⟩
        · exact ⟨r', List.mem_cons_of_mem _ h6, h7⟩
      · rcases h3 with h3 | ⟨r', h6, h7⟩
        · exact Or.inl h3
        · exact Or.inr ⟨r', List.mem_cons_of_mem _ h6, h7⟩
      · intro r' hm x hx
        rcases List.mem_cons.1 hm with rfl | hm
        · rw [hr] at hx; cases hx
        · exact h5 r' hm x hx
    | some y =>
      have hl : nackLoop (r :: l) (n, last, k) = nackLoop l (n, last, if isLessSevere y k then y else k) := by rw [nackLoop, hr]
      rw [hl]
      have hm : le0 (if isLessSevere y k then y else k) k ∧ le0 (if isLessSevere y k then y else k) y ∧
          ((if isLessSevere y k then y else k) = y ∨ (if isLessSevere y k then y else k) = k) := by
        unfold isLessSevere le0 nackNone
        by_cases h1 : y = 0
        · simp [h1]; omega
        · by_cases h2 : k = 0
          · simp [h1, h2]
          · by_cases h3 : y < k
            · simp [h1, h2, h3]; omega
            · simp [h1, h2, h3]; omega
      generalize (if isLessSevere y k then y else k) = m at hm
      obtain ⟨h1, h2, h3, h4, h5⟩ := nackLoop_spec l n last m
      refine ⟨?_, ?_, ?_, le0_trans h4 hm.1, ?_⟩
      · rw [h1, List.countP_cons_of_neg (by rw [hr]; simp)]
      · rcases h2 with ⟨h2, h6⟩ | ⟨r', h6, h7⟩
        · exact Or.inl ⟨by rw [List.countP_cons_of_neg (by rw [hr]; simp)]; exact h2, h6⟩
        · exact Or.inr ⟨r', List.mem_cons_of_mem _ h6, h7⟩
      · rcases h3 with h3 | ⟨r', h6, h7⟩
        · rcases hm.2.2 with h | h
          · exact Or.inr ⟨r, List.mem_cons_self, by rw [hr, h3, h]⟩
          · exact Or.inl (h3.trans h)
        · exact Or.inr ⟨r', List.mem_cons_of_mem _ h6, h7⟩
      · intro r' hm' x hx
        rcases List.mem_cons.1 hm' with rfl | hm'
        · rw [hr] at hx
          obtain rfl := Option.some.inj hx
          exact le0_trans h4 hm.2.1
        · exact h5 r' hm' x hx

theorem countP_one {l : List OutRec} {p : OutRec → Bool} (hn : (l.map (·.face)).Nodup) {y : OutRec} (hy : y ∈ l) (hp : p y = true)
    (hu : ∀ z ∈ l, p z = true → z = y) : l.countP p = 1 := by
  induction l with
  | nil => cases hy
  | cons a l ih =>
    have hn2 : a.face ∉ l.map (·.face) ∧ (l.map (·.face)).Nodup := List.nodup_cons.1 hn
    rcases List.mem_cons.1 hy with rfl | hy
    · rw [List.countP_cons_of_pos hp]
      have : l.countP p = 0 := by
        rw [List.countP_eq_zero]
        intro z hz hpz
        have := hu z (List.mem_cons_of_mem _ hz) hpz
        exact hn2.1 (this ▸ List.mem_map_of_mem hz)
      rw [this]
    · rw [List.countP_cons_of_neg]
      · exact ih hn2.2 hy (fun z hz => hu z (List.mem_cons_of_mem _ hz))
      · intro hpa
        have := hu a List.mem_cons_self hpa
        exact hn2.1 (this ▸ List.mem_map_of_mem hy)

theorem countP_two {l : List OutRec} {p : OutRec → Bool} {y z : OutRec} (hne : y ≠ z) (hy : y ∈ l) (hz : z ∈ l) (hpy : p y = true)
    (hpz : p z = true) : 2 ≤ l.countP p := by
  induction l with
  | nil => cases hy
  | cons a l ih =>
    rcases List.mem_cons.1 hy with rfl | hy'
    · rcases List.mem_cons.1 hz with rfl | hz'
      · exact absurd rfl hne
      · rw [List.countP_cons_of_pos hpy]
        have : 0 < l.countP p := List.countP_pos_iff.2 ⟨z, hz', hpz⟩
        omega
    · rcases List.mem_cons.1 hz with rfl | hz'
      · rw [List.countP_cons_of_pos hpz]
        have : 0 < l.countP p := List.countP_pos_iff.2 ⟨y, hy', hpy⟩
        omega
      · exact Nat.le_trans (ih hy' hz') (by rw [List.countP_cons]; omega)

theorem eraseDups_of_nodup {l : List FaceId} (h : l.Nodup) : l.eraseDups = l := by
  induction l with
  | nil => rfl
  | cons a l ih =>
    have hn2 := List.nodup_cons.1 h
    rw [List.eraseDups_cons]
    have : l.filter (fun b => !b == a) = l := by
      rw [List.filter_eq_self]
      intro b hb
      have : b ≠ a := fun hc => hn2.1 (hc ▸ hb)
      simpa using this
    rw [this, ih hn2.2]

theorem leastSevere {l : List OutRec} (h : ∃ r ∈ l, r.nack.isSome) : LeastSevere l (nackLoop l (0, none, nackNone)).2.2 := by
  obtain ⟨-, -, h3, -, h5⟩ := nackLoop_spec l 0 none nackNone
  refine ⟨?_, fun r hr x hx => h5 r hr x hx⟩
  rcases h3 with h3 | h3
  · obtain ⟨r, hr, hs⟩ := h
    obtain ⟨x, hx⟩ := Option.isSome_iff_exists.1 hs
    have := h5 r hr x hx
    rw [h3] at this ⊢
    unfold le0 nackNone at this
    refine ⟨r, hr, ?_⟩
    rw [hx]
    have : x = 0 := by omega
    rw [this]
  · exact h3

/-- The out-records after face `f` answered with a Nack. -/
def withNack (outs : List OutRec) (f : FaceId) (k : Nat) : List OutRec := outs.map (fun r => if r.face = f then { r with nack := some k } else r)

/-- The forwarder accepts a Nack from a point-to-point face for the Interest it sent there: it passes it to the strategy, after noting
the reason; when no upstream is left that may still answer, the Interest expires at once, otherwise its timer stays. -/
theorem nack_call (hi : Inv s) {i : FwInterest} {k : Nat} {f : FaceId} {fi : FaceInfo} {e : Ent} {x : OutRec}
    (hf : s.faces f = some fi) (hp : fi.link = .p2p) (he : e ∈ s.pit) (hk : e.interest.toInterest = i.toInterest)
    (hm : x ∈ e.outs) (hxf : x.face = f) (hn : x.nonce = i.nonce) :
    ∃ r e0, step env st s (.nack i k f) = call st r (.afterReceiveNack i k f e.uid) ∧ r.find e.uid = some e0 ∧
      r.faces = s.faces ∧ r.now = s.now ∧ r.sent = s.sent ∧ e0.ins = e.ins ∧ e0.outs = withNack e.outs f k ∧ e0.interest = e.interest ∧
      (PendingUpstream s.now (withNack e.outs f k) → r.sched = s.sched) ∧
      (¬PendingUpstream s.now (withNack e.outs f k) → DueAt r e.uid s.now) := by
  have hpf : pitFind s i.toInterest = some e := by
    cases hc : pitFind s i.toInterest with
    | none => exact absurd hk (pitFind_none hc e he)
    | some e' =>
      obtain ⟨h1, h2⟩ := pitFind_some hc
      rw [eq_of_key hi.keys he h1 (hk.trans h2.symm)]
  have hnd : (e.outs.map (·.face)).Nodup := (hi.ents e he).recs.2
  have hfo : e.outs.find? (fun r => r.face == f) = some x := by
    have := find?_of_nodup (k := fun r : OutRec => r.face) hnd hm
    rw [hxf] at this
    exact this
  have huniq : ∀ y ∈ e.outs, y.face = f → y = x := by
    intro y hy hyf
    have := find?_of_nodup (k := fun r : OutRec => r.face) hnd hy
    simp only [hyf, hfo] at this
    exact (Option.some.inj this).symm
  have houts : (Tb.setNack e.toPitEntry f i.nonce k).outs = withNack e.outs f k := by
    unfold Tb.setNack withNack
    refine List.map_congr_left ?_
    intro y hy
    by_cases hyf : y.face = f
    · rw [if_pos ⟨hyf, by rw [huniq y hy hyf]; exact hn⟩, if_pos hyf]
    · rw [if_neg (fun hc => hyf hc.1), if_neg hyf]
  simp only [step, onIncomingNack, hf]
  rw [if_neg (by simp [hp])]
  have hpf' : pitFind { s with ctr := { s.ctr with nInNacks := s.ctr.nInNacks + 1 } } i.toInterest = some e := hpf
  rw [hpf']
  simp only [hfo]
  rw [if_neg (by simp [hn])]
  unfold acceptNack
  simp only
  have hfind : (St.mod { s with ctr := { s.ctr with nInNacks := s.ctr.nInNacks + 1 } } e.uid
      (fun e => { e with toPitEntry := Tb.setNack e.toPitEntry f i.nonce k })).find e.uid =
      some { e with toPitEntry := Tb.setNack e.toPitEntry f i.nonce k } := by
    rw [mod_find_self (by exact fun _ => rfl)]
    show (s.find e.uid).map _ = _
    rw [find_mem hi.uids he]; rfl
  rw [hfind]
  have hpend : (Option.any (fun e : Ent => hasPendingOutRecords s.now e.toPitEntry)
      (some { e with toPitEntry := Tb.setNack e.toPitEntry f i.nonce k })) = true ↔ PendingUpstream s.now (withNack e.outs f k) := by
    rw [Option.any_some, pending_iff, houts]
  by_cases hpd : PendingUpstream s.now (withNack e.outs f k)
  · rw [if_pos (by exact hpend.2 hpd)]
    exact ⟨_, _, rfl, hfind, rfl, rfl, rfl, rfl, houts, rfl, fun _ => rfl, fun h => absurd hpd h⟩
  · rw [if_neg (by exact fun hc => hpd (hpend.1 hc))]
    obtain ⟨t1, t2⟩ := timer_spec (ms := 0) hfind
    have ht := acted_timer [] (St.mod { s with ctr := { s.ctr with nInNacks := s.ctr.nInNacks + 1 } } e.uid
      (fun e => { e with toPitEntry := Tb.setNack e.toPitEntry f i.nonce k })) e.uid 0
    exact ⟨_, _, rfl, t1, ht.faces, ht.now, timer_sent .., rfl, houts, rfl, fun h => absurd h hpd, fun _ => t2⟩

/-- Strategies that handle Nacks with the common procedure. -/
def Aggregates (st : Strategy) : Prop :=
  (∃ c nhs w, st = bestRouteS c nhs w) ∨ (∃ nhs k, st = randomS nhs k) ∨
  (∃ c info known p nhs w, st = asfS c info known p nhs w)

/-- The Nacks that tell the downstreams in `ins`, as far as they are point-to-point faces. -/
def Tells (s s' : St) (ins : List InRec) (k : Nat) : Prop :=
  ∃ new, Emits s s' new ∧ new.Nodup ∧
    ∀ p, p ∈ new ↔ ∃ q ∈ ins, (∃ fi, s.faces q.face = some fi ∧ fi.link = .p2p) ∧ p = .nack q.face q.interest k

theorem tells_of {ins : List InRec} {k : Nat} (hn : (ins.map (·.face)).Nodup)
    (h : s'.sent = s.sent ++ (ins.filter (nackable s.faces)).map (fun q => .nack q.face q.interest k)) : Tells s s' ins k := by
  refine ⟨_, h, ?_, ?_⟩
  · have h1 : ((ins.filter (nackable s.faces)).map (·.face)).Nodup := (List.Sublist.map _ List.filter_sublist).nodup hn
    generalize ins.filter (nackable s.faces) = l at h1
    rw [List.Nodup, List.pairwise_map] at h1 ⊢
    exact h1.imp (fun hab hc => by injection hc with hc; exact hab hc)
  · intro p
    simp only [List.mem_map, List.mem_filter]
    constructor
    · rintro ⟨q, ⟨h1, h2⟩, rfl⟩
      refine ⟨q, h1, ?_, rfl⟩
      unfold nackable at h2
      cases hq : s.faces q.face with
      | none => rw [hq] at h2; cases h2
      | some fi => rw [hq] at h2; exact ⟨fi, rfl, by simpa using h2⟩
    · rintro ⟨q, h1, ⟨fi, h2, h3⟩, rfl⟩
      exact ⟨q, ⟨h1, by unfold nackable; rw [h2]; simpa using h3⟩, rfl⟩

/-- C38: an accepted Nack, with the common procedure. When every upstream has sent a Nack, each downstream gets one, with the least severe
reason. When exactly one has not, and it is itself a downstream, it alone gets one. Otherwise nothing is sent. -/
theorem C38_nack (hst : Aggregates st) (hr : run env (init n) l = some s) {i : FwInterest} {k : Nat} {f : FaceId} {fi : FaceInfo} {e : Ent}
    {x : OutRec} (hf : s.faces f = some fi) (hp : fi.link = .p2p) (he : e ∈ s.pit) (hk : e.interest.toInterest = i.toInterest)
    (hm : x ∈ e.outs) (hxf : x.face = f) (hn : x.nonce = i.nonce) (h : step env st s (.nack i k f) = some s') :
    let outs := withNack e.outs f k
    ((∀ r ∈ outs, r.nack ≠ none) → ∃ m, LeastSevere outs m ∧ Tells s s' e.ins m) ∧
    (∀ y ∈ outs, y.nack = none → (∀ r ∈ outs, r.nack = none → r = y) →
      (∀ q ∈ e.ins, q.face = y.face → ∃ m, LeastSevere outs m ∧ Tells s s' [q] m) ∧
      ((∀ q ∈ e.ins, q.face ≠ y.face) → Emits s s' [])) ∧
    (∀ y ∈ outs, ∀ z ∈ outs, y ≠ z → y.nack = none → z.nack = none → Emits s s' []) := by
  intro outs
  have hi := reach_inv hr
  have hok := hi.ents e he
  obtain ⟨r, e0, h1, h2, h3, h4, h5, h6, h7, h8, -, -⟩ := nack_call (env := env) (st := st) (k := k) hi hf hp he hk hm hxf hn
  rw [h1] at h
  have hon : st r (.afterReceiveNack i k f e.uid) = (processNack e0.toPitEntry e.uid).getD [] := by
    rcases hst with ⟨c, nhs, w, rfl⟩ | ⟨nhs, k, rfl⟩ | ⟨c, info, known, p, nhs, w, rfl⟩
    · simp only [bestRouteS, onNack, h2, Option.bind_some]
    · simp only [randomS, onNack, h2, Option.bind_some]
    · simp only [asfS, onNack, h2, Option.bind_some]
  have hnon : ∃ r ∈ outs, r.nack.isSome := by
    refine ⟨{ x with nack := some k }, List.mem_map.2 ⟨x, hm, by rw [if_pos hxf]⟩, rfl⟩
  have hls := leastSevere hnon
  obtain ⟨n1, n2, -, -, -⟩ := nackLoop_spec outs 0 none nackNone
  rw [Nat.zero_add] at n1
  have hnd : (outs.map (·.face)).Nodup := by
    have : outs.map (·.face) = e.outs.map (·.face) := by
      show (e.outs.map _).map _ = _
      rw [List.map_map]
      refine List.map_congr_left ?_
      intro y _
      simp only [Function.comp]
      split <;> rfl
    rw [this]
    exact hok.recs.2
  have hinsf : ∀ q ∈ e.ins, (r.faces q.face).isSome := fun q hq => by rw [h3]; exact hok.inFace q hq
  have hfind : ∀ q ∈ e.ins, e0.ins.find? (·.face == q.face) = some q := fun q hq => by rw [h6]; exact find?_of_nodup hok.recs.1 hq
  have hemit : ∀ ins : List InRec, (∀ q ∈ ins, q ∈ e.ins) → (ins.map (·.face)).Nodup → ∀ m,
      st r (.afterReceiveNack i k f e.uid) = ins.map (fun q => .sendNack e.uid m q.face) → Tells s s' ins m := by
    intro ins hsub hnd m ha
    unfold call at h
    rw [ha] at h
    have := acts_nacks ins { r with calls := r.calls ++ [.afterReceiveNack i k f e.uid] } s' e0 h2 hnd
      (fun q hq => hinsf q (hsub q hq)) (fun q hq => hfind q (hsub q hq)) h
    refine tells_of hnd ?_
    rw [this]
    show r.sent ++ (ins.filter (nackable r.faces)).map _ = _
    rw [h5, h3]
  have hquiet : st r (.afterReceiveNack i k f e.uid) = [] → Emits s s' [] := by
    intro ha
    unfold call at h
    rw [ha] at h
    cases h
    show r.sent = _
    rw [h5, List.append_nil]
  refine ⟨?_, ?_, ?_⟩
  · intro hall
    have hz : (nackLoop outs (0, none, nackNone)).1 = 0 := by
      rw [n1, List.countP_eq_zero]
      intro r hr
      have := hall r hr
      cases hx : r.nack with
      | none => exact absurd hx this
      | some _ => simp
    refine ⟨_, hls, hemit e.ins (fun _ h => h) hok.recs.1 _ ?_⟩
    rw [hon]
    unfold processNack
    simp only [h7]
    rw [if_neg (by rw [show (nackLoop (withNack e.outs f k) (0, none, nackNone)).1 = 0 from hz]; decide),
      if_neg (by rw [show (nackLoop (withNack e.outs f k) (0, none, nackNone)).1 = 0 from hz]; decide)]
    simp only [Option.getD_some, sendNacks, h6]
    rw [eraseDups_of_nodup hok.recs.1, List.map_map]
    rfl
  · intro y hy hyn huniq
    have h1c : (nackLoop outs (0, none, nackNone)).1 = 1 := by
      rw [n1]
      exact countP_one hnd hy (by rw [hyn]; rfl) (fun z hz hzn => huniq z hz (by simpa using hzn))
    have hlast : (nackLoop outs (0, none, nackNone)).2.1 = some y.face := by
      rcases n2 with ⟨n2, -⟩ | ⟨z, hz, hzn, n2⟩
      · rw [n1, n2] at h1c; cases h1c
      · rw [n2, huniq z hz hzn]
    have hpn : processNack e0.toPitEntry e.uid = if e.ins.any (·.face == y.face) then
        some [.sendNack e.uid (nackLoop outs (0, none, nackNone)).2.2 y.face] else some [] := by
      unfold processNack
      simp only [h7, h6]
      rw [if_pos h1c, show (nackLoop (withNack e.outs f k) (0, none, nackNone)).2.1 = some y.face from hlast]
    constructor
    · intro q hq hqf
      refine ⟨_, hls, hemit [q] (by simpa using hq) (by simp) _ ?_⟩
      rw [hon, hpn, if_pos (List.any_eq_true.2 ⟨q, hq, by simpa using hqf⟩)]
      simp [hqf]
    · intro hno
      refine hquiet ?_
      rw [hon, hpn, if_neg]
      · rfl
      · intro hc
        obtain ⟨q, hq, hqf⟩ := List.any_eq_true.1 hc
        exact hno q hq (by simpa using hqf)
  · intro y hy z hz hne hyn hzn
    have h2c : 2 ≤ (nackLoop outs (0, none, nackNone)).1 := by
      rw [n1]
      exact countP_two hne hy hz (by rw [hyn]; rfl) (by rw [hzn]; rfl)
    refine hquiet ?_
    rw [hon]
    unfold processNack
    simp only [h7]
    have h2c' : 2 ≤ (nackLoop (withNack e.outs f k) (0, none, nackNone)).1 := h2c
    rw [if_neg (by omega), if_pos (by omega)]
    rfl

/-- C38: both upstreams send Nacks, Congestion and then NoRoute; nothing is sent after the first, the least severe reason after the second. -/
example : (run exEnv (init 10) ([(exStrategy, .addFace 260 ⟨.nonLocal, .p2p⟩)] ++ exFaces ++
    [((fun _ t => match t with | .afterReceiveInterest j _ u => [.sendInterest u j 258, .sendInterest u j 260] | _ => []), .interest exI1 257),
    (bestRouteS {} [] none, .nack exI1 50 258), (bestRouteS {} [] none, .nack exI1 150 260)])).any (fun s =>
      decide (s.sent.drop 2 = [.nack 257 { exI1 with hopLimit := some 4 } 50])) = true := by
  decide +kernel

/-- C38: the hypotheses hold for the first of these Nacks, the other upstream has not answered. -/
example : ∃ s e x y, run exEnv (init 10) ([(exStrategy, .addFace 260 ⟨.nonLocal, .p2p⟩)] ++ exFaces ++
    [((fun _ t => match t with | .afterReceiveInterest j _ u => [.sendInterest u j 258, .sendInterest u j 260] | _ => []), .interest exI1 257)]) = some s ∧
    s.faces 258 = some ⟨.nonLocal, .p2p⟩ ∧ e ∈ s.pit ∧ e.interest.toInterest = exI1.toInterest ∧ x ∈ e.outs ∧ x.face = 258 ∧
    x.nonce = exI1.nonce ∧ y ∈ withNack e.outs 258 50 ∧ y.nack = none := by
  obtain ⟨s, h1, h2⟩ := ex_run (o := run exEnv (init 10) ([(exStrategy, .addFace 260 ⟨.nonLocal, .p2p⟩)] ++ exFaces ++
    [((fun _ t => match t with | .afterReceiveInterest j _ u => [.sendInterest u j 258, .sendInterest u j 260] | _ => []), .interest exI1 257)]))
    (p := fun s => decide (s.faces 258 = some ⟨.nonLocal, .p2p⟩ ∧ s.pit.map (·.toPitEntry) =
      [{ interest := { exI1 with hopLimit := some 4 }, ins := [{ face := 257, nonce := 1, renewed := 0, expiry := 4000000000, interest := { exI1 with hopLimit := some 4 } }],
         outs := [{ face := 260, nonce := 1, renewed := 0, expiry := 4000000000 }, { face := 258, nonce := 1, renewed := 0, expiry := 4000000000 }] }]))
    (by decide +kernel)
  simp only [decide_eq_true_eq] at h2
  obtain ⟨h3, h4⟩ := h2
  cases hp : s.pit with
  | nil => rw [hp] at h4; cases h4
  | cons e l =>
    rw [hp] at h4
    obtain ⟨h5, -⟩ := List.cons_eq_cons.1 h4
    replace h5 : e.toPitEntry = _ := h5
    refine ⟨s, e, { face := 258, nonce := 1, renewed := 0, expiry := 4000000000 }, { face := 260, nonce := 1, renewed := 0, expiry := 4000000000 },
      h1, h3, by rw [hp]; exact List.mem_cons_self, by rw [h5], by rw [h5]; simp, rfl, rfl, ?_, rfl⟩
    rw [h5]
    decide +kernel

/-! ### C41: re-sent Interests -/

/-- C41, what is proved: an Interest sent to a face that has not sent a Nack for it is pending there until it expires. Missing: the same
for a face that has sent a Nack (`C41_not_pending_again`). -/
theorem C41_pending_partial {u : Nat} {e : Ent} {j : FwInterest} {g : FaceId} {gi : FaceInfo} (he : s.find u = some e)
    (hg : s.faces g = some gi) (hh : ¬(j.hopLimit = some 0 ∧ gi.scope = .nonLocal)) (hno : ∀ r ∈ e.outs, r.face = g → r.nack = none)
    (h : act s (.sendInterest u j g) = some s') :
    ∃ e', s'.find u = some e' ∧ ∃ r ∈ e'.outs, r.face = g ∧ r.nonce = j.nonce ∧ r.renewed = s.now ∧ r.nack = none ∧
      r.expiry = s.now + min j.lifetime 864000000000000 ∧
      ∀ now, now ≤ r.expiry → PendingUpstream now e'.outs := by
  simp only [act, onOutgoingInterest, hg, he, if_neg hh, Option.some.injEq] at h
  subst h
  refine ⟨{ e with toPitEntry := Tb.insertOrUpdateOut e.toPitEntry g j s.now }, ?_, ?_⟩
  · show (s.mod u _).find u = _
    rw [mod_find_self (by exact fun _ => rfl), he]; rfl
  · have key : ∃ r ∈ (Tb.insertOrUpdateOut e.toPitEntry g j s.now).outs, r.face = g ∧ r.nonce = j.nonce ∧ r.renewed = s.now ∧
        r.nack = none ∧ r.expiry = s.now + min j.lifetime 864000000000000 := by
      unfold Tb.insertOrUpdateOut
      simp only
      split
      · rename_i hany
        obtain ⟨r, hr, hf⟩ := List.any_eq_true.1 hany
        have hf : r.face = g := by simpa using hf
        refine ⟨_, List.mem_map.2 ⟨r, hr, rfl⟩, ?_⟩
        rw [if_pos hf]
        exact ⟨hf, rfl, rfl, hno r hr hf, rfl⟩
      · refine ⟨_, List.mem_map.2 ⟨_, List.mem_cons_self, rfl⟩, ?_⟩
        rw [if_pos rfl]
        exact ⟨rfl, rfl, rfl, rfl, rfl⟩
    obtain ⟨r, h1, h2, h3, h4, h5, h6⟩ := key
    exact ⟨r, h1, h2, h3, h4, h5, h6, fun now hn => ⟨r, h1, hn, h5⟩⟩

/-- C41 does not hold: 258 answers the Interest with a Nack; the consumer tries again, and the Interest is sent to 258 again, but 258 still
counts as having sent a Nack. So a further Interest 1 ms later is not recognised as a retransmission and is sent to 258 as well. -/
theorem C41_not_pending_again : ∃ s, run exEnv (init 10) (exFaces ++
    [(bestRouteS {} exNhs none, .interest exI1 257), (bestRouteS {} exNhs none, .nack exI1 150 258),
     (bestRouteS {} exNhs none, .interest { exI1 with nonce := 2 } 257), (exStrategy, .tick 1000000),
     (bestRouteS {} exNhs none, .interest { exI1 with nonce := 3 } 257)]) = some s ∧
    s.sent = [.interest 258 { exI1 with hopLimit := some 4 }, .nack 257 { exI1 with hopLimit := some 4 } 150,
      .interest 258 { exI1 with nonce := 2, hopLimit := some 4 }, .interest 258 { exI1 with nonce := 3, hopLimit := some 4 }] ∧
    s.pit.map (fun e => e.outs.map (fun r => (r.face, r.nonce, r.nack))) = [[(258, 3, some 150)]] := by
  obtain ⟨s, h1, h2⟩ := ex_run (o := run exEnv (init 10) (exFaces ++
    [(bestRouteS {} exNhs none, .interest exI1 257), (bestRouteS {} exNhs none, .nack exI1 150 258),
     (bestRouteS {} exNhs none, .interest { exI1 with nonce := 2 } 257), (exStrategy, .tick 1000000),
     (bestRouteS {} exNhs none, .interest { exI1 with nonce := 3 } 257)]))
    (p := fun s => decide (s.sent = [.interest 258 { exI1 with hopLimit := some 4 }, .nack 257 { exI1 with hopLimit := some 4 } 150,
      .interest 258 { exI1 with nonce := 2, hopLimit := some 4 }, .interest 258 { exI1 with nonce := 3, hopLimit := some 4 }] ∧
      s.pit.map (fun e => e.outs.map (fun r => (r.face, r.nonce, r.nack))) = [[(258, 3, some 150)]])) (by decide +kernel)
  exact ⟨s, h1, by simpa using h2⟩

/-! ### C31, C32: when pending Interests expire -/

/-- C32: a pending Interest that the strategy forwards expires when the last of its downstreams stops waiting (to the millisecond). -/
theorem C32_expires_with_last_downstream (hr : run env (init n) l = some s) {i : FwInterest} {f : FaceId} (hp : Passed env s i f)
    (hst : ∀ r j u, ∃ gs : List FaceId, st r (.afterReceiveInterest j f u) = gs.map (fun g => .sendInterest u j g))
    (h : step env st s (.interest i f) = some s') :
    ∃ e ∈ s'.pit, e.interest.toInterest = i.toInterest ∧ (∃ x ∈ e.ins, x.face = f ∧ x.nonce = i.nonce) ∧
      ∃ t ∈ s'.sched, t.uid = e.uid ∧ s'.now ≤ t.due ∧
        ∃ m, (∃ x ∈ e.ins, x.expiry = m) ∧ (∀ x ∈ e.ins, x.expiry ≤ m) ∧ t.due ≤ m ∧ m < t.due + 1000000 := by
  have hi := reach_inv hr
  obtain ⟨r, u, e, j, hc⟩ := passed_call hi hp h
  obtain ⟨gs, hgs⟩ := hst r j u
  have hcalls := hc.calls
  rw [hgs] at hcalls
  have h1 := sent_interests j gs { r with calls := r.calls ++ [.afterReceiveInterest j f u] } s' e hc.find hcalls
  obtain ⟨e', h2, h3, h4⟩ := h1.ents e hc.find
  obtain ⟨h5, h6⟩ := find_some h2
  obtain ⟨x, x1, x2, x3, -⟩ := hc.inRec
  obtain ⟨t, ⟨y, y1, y2, y3⟩, m, m1, m2, m3, m4, m5⟩ := hc.timer
  have hsched : s'.sched = r.sched := h1.sched
  have hnow : s'.now = r.now := h1.now
  have hi' : Inv s' := step_inv hi h
  refine ⟨e', h5, by rw [h4]; exact hc.key, ⟨x, by rw [h3]; exact x1, x2, ?_⟩, y, by rw [hsched]; exact y1, by rw [y2, h6], ?_, m, ?_, ?_, ?_, ?_⟩
  · rw [((hi'.ents e' h5).same x (by rw [h3]; exact x1)).2, x3]
    exact hc.carries.nonce
  · rw [hnow, y3]; exact m3
  · rw [h3]; exact m1
  · rw [h3]; exact m2
  · rw [y3]; exact m4
  · rw [y3]; exact m5

/-- C31: when the last upstream that might answer sends a Nack, the Interest expires at once; until then its timer stays. -/
theorem C31_nack_timer (hr : run env (init n) l = some s) {i : FwInterest} {k : Nat} {f : FaceId} {fi : FaceInfo} {e : Ent} {x : OutRec}
    (hf : s.faces f = some fi) (hp : fi.link = .p2p) (he : e ∈ s.pit) (hk : e.interest.toInterest = i.toInterest)
    (hm : x ∈ e.outs) (hxf : x.face = f) (hn : x.nonce = i.nonce) (hst : ∀ r u, st r (.afterReceiveNack i k f u) = [])
    (h : step env st s (.nack i k f) = some s') :
    ((∃ r ∈ e.outs, r.face ≠ f ∧ s.now ≤ r.expiry ∧ r.nack = none) → s'.sched = s.sched) ∧
    ((∀ r ∈ e.outs, r.face ≠ f → r.expiry < s.now ∨ r.nack ≠ none) → ∃ t ∈ s'.sched, t.uid = e.uid ∧ t.due = s.now) := by
  have hi := reach_inv hr
  obtain ⟨r, e0, h1, h2, h3, h4, h5, h6, h7, h8, h9, h10⟩ := nack_call (env := env) (st := st) (k := k) hi hf hp he hk hm hxf hn
  rw [h1] at h
  unfold call at h
  rw [hst] at h
  cases h
  constructor
  · rintro ⟨y, y1, y2, y3, y4⟩
    exact h9 ⟨y, List.mem_map.2 ⟨y, y1, by rw [if_neg y2]⟩, y3, y4⟩
  · intro hall
    refine h10 ?_
    rintro ⟨y, y1, y2, y3⟩
    obtain ⟨z, z1, z2⟩ := List.mem_map.1 y1
    by_cases hz : z.face = f
    · rw [if_pos hz] at z2
      rw [← z2] at y3
      cases y3
    · rw [if_neg hz] at z2
      subst z2
      rcases hall z z1 hz with h | h
      · exact absurd y2 (Nat.not_le.2 h)
      · exact h y3

/-- C32: two downstreams, of which the second waits longer. -/
example : (run exEnv (init 10) (exFaces ++ [(exStrategy, .interest exI1 257), (exStrategy, .tick 9500000),
    (exStrategy, .interest exI2 256), (exStrategy, .interest { exI1 with nonce := 9, lifetime := 1000000 } 257)])).any (fun s =>
      decide (s.sched.map (·.due) = [4009500000])) = true := by
  decide +kernel

/-! ### C75: what is forwarded -/

/-- C75: the strategy is given the Interest on its way: same name, selectors, nonce and lifetime; HopLimit decremented; the forwarding
hint removed if and only if one of its delegations is a prefix of a region of this router. -/
theorem C75_on_its_way (hr : run env (init n) l = some s) {i : FwInterest} {f : FaceId} (hp : Passed env s i f)
    (h : step env st s (.interest i f) = some s') :
    ∃ j u, s'.calls = s.calls ++ [.afterReceiveInterest j f u] ∧ Carries s.cfg i j := by
  obtain ⟨r, u, e, j, hc⟩ := passed_call (reach_inv hr) hp h
  exact ⟨j, u, by rw [(acted_acts hc.calls).calls, ← hc.before], hc.carries⟩

/-- C75: in region /1/2, the hint /1 is removed and the hint /3 is kept. -/
example : (run exEnv (init 10) (exFaces ++ [(exStrategy, .config { regions := [[exC 1, exC 2]] }),
    (exStrategy, .interest { exI1 with hints := [[exC 1]] } 257), (exStrategy, .interest { exI4 with hints := [[exC 3]] } 257)])).any (fun s =>
      decide (s.sent = [.interest 258 { exI1 with hopLimit := some 4 }, .interest 258 { exI4 with hints := [[exC 3]] }])) = true := by
  decide +kernel

end Verif.Strat
