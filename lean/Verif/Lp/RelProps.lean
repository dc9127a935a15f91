/-
C47: retransmissions are bounded and every network packet is accounted for once.

All theorems are about any run `es` of a new link service, with any received LpPackets (also with bogus Acks), ticks, expirations of
timers and changes of options, in which at most 2^64 LpPackets are sent. `.queued id isInterest net seqs` in the effects says that the
network packet `net` was handed to LpReliability as fragments with these Sequences; `.frame p` and `.overMtu p` are transmissions.
-/
import Verif.Lp.Book2
import Verif.Lp.ReasmProps
import Verif.Lp.WindowProps

namespace Verif.Lp

/-- There is a bound for the options of a run. -/
theorem some_bound (o : Opts) (es : List Event) : ∃ M, ∀ o', InForce o es o' → o'.maxRetx ≤ M := by
  induction es with
  | nil =>
    refine ⟨o.maxRetx, fun o' ho => ?_⟩
    rcases ho with rfl | ho
    · exact Nat.le_refl _
    · cases ho
  | cons e es ih =>
    obtain ⟨M, ih⟩ := ih
    refine ⟨M + (match e with | .setOptions o' => o'.maxRetx | _ => 0), fun o' ho => ?_⟩
    rcases ho with rfl | ho
    · exact Nat.le_add_right_of_le (ih _ (.inl rfl))
    · rcases List.mem_cons.1 ho with rfl | ho
      · simp
      · exact Nat.le_add_right_of_le (ih _ (.inr ho))

theorem live_pending {s : St} {id : Nat} : live s id = true ↔ pending s id := by
  simp only [live, pending, List.any_eq_true, beq_iff_eq]

/-- Two different members are counted twice. -/
theorem countP_two {α : Type} {p : α → Bool} {l : List α} {a b : α} (ha : a ∈ l) (hb : b ∈ l) (hne : a ≠ b) (pa : p a = true) (pb : p b = true) :
    2 ≤ l.countP p := by
  obtain ⟨x, y, rfl⟩ := List.append_of_mem ha
  rw [List.countP_append, List.countP_cons, pa, if_pos rfl]
  have h1 : b ∈ x ∨ b ∈ y := by
    rcases List.mem_append.1 hb with hb | hb
    · exact .inl hb
    · rcases List.mem_cons.1 hb with hb | hb
      · exact absurd hb.symm hne
      · exact .inr hb
  rcases h1 with h1 | h1
  · have : 0 < x.countP p := List.countP_pos_iff.2 ⟨b, h1, pb⟩
    omega
  · have : 0 < y.countP p := List.countP_pos_iff.2 ⟨b, h1, pb⟩
    omega

section
variable {env : Env} {o : Opts} {q0 x0 : Nat} {es : List Event} {s : St} (hx : x0 < W) (hq : q0 < W)
  (h : run env (init o q0 x0) es = .ok s) (hn : s.out.countP (fun o => o.sends.isSome) ≤ W)
include hx hq h hn

theorem books' {m0 M : Nat} (hm : ∀ o', InForce o es o' → m0 ≤ o'.maxRetx) (hM : ∀ o', InForce o es o' → o'.maxRetx ≤ M) :
    RelOk x0 s ∧ ∃ G n, Book env (InForce o es) q0 m0 M es G n s :=
  books hx hq (fun o' ho => ⟨hm o' ho, hM o' ho⟩) h hn

theorem books0 : ∃ M, RelOk x0 s ∧ ∃ G n, Book env (InForce o es) q0 0 M es G n s := by
  obtain ⟨M, hM⟩ := some_bound o es
  exact ⟨M, books' hx hq h hn (fun _ _ => Nat.zero_le _) hM⟩

/-- Each fragment is transmitted at most maxRetx + 1 times: `M` is a bound for the maxRetx options in force during the run. -/
theorem C47_bound {M : Nat} (hM : ∀ o', InForce o es o' → o'.maxRetx ≤ M) (q : Nat) : s.out.countP (sendsSeq q) ≤ M + 1 := by
  obtain ⟨_, G, n, B⟩ := books' hx hq h hn (m0 := 0) (fun _ _ => Nat.zero_le _) hM
  exact B.bound q

/-- Every network packet handed to reliability is handed to it once, and has fragments; all of these are transmitted; they share their
Sequences with no other. -/
theorem C47_queued {id : Nat} {i : Bool} {net : Option Bytes} {seqs : List Nat} (hid : .queued id i net seqs ∈ s.out) :
    s.out.countP (queues id) = 1 ∧ seqs ≠ [] ∧ (∀ q ∈ seqs, 1 ≤ s.out.countP (sendsSeq q)) ∧
    ∀ id' i' net' seqs', .queued id' i' net' seqs' ∈ s.out → ∀ q ∈ seqs, q ∈ seqs' → id' = id ∧ i' = i ∧ net' = net ∧ seqs' = seqs := by
  obtain ⟨M, _, G, n, B⟩ := books0 hx hq h hn
  obtain ⟨g, hg, h1, h2, h3, h4⟩ := (B.queued _ _ _ _).1 hid
  refine ⟨?_, ?_, ?_, ?_⟩
  · rw [B.once, if_pos (B.own g hg id h1).1]
  · rw [h4]
    obtain ⟨f, hf⟩ := List.exists_mem_of_ne_nil _ (B.ne g hg)
    obtain ⟨j, _, hj⟩ := B.range g hg f hf
    exact List.ne_nil_of_mem (List.mem_filterMap.2 ⟨f, hf, hj⟩)
  · intro q hq'
    rw [h4] at hq'
    obtain ⟨f, hf, hfq⟩ := List.mem_filterMap.1 hq'
    exact B.least g hg f hf q hfq
  · intro id' i' net' seqs' hid' q hq1 hq2
    obtain ⟨g', hg', h1', h2', h3', h4'⟩ := (B.queued _ _ _ _).1 hid'
    rw [h4] at hq1
    rw [h4'] at hq2
    obtain ⟨f, hf, hfq⟩ := List.mem_filterMap.1 hq1
    obtain ⟨f', hf', hfq'⟩ := List.mem_filterMap.1 hq2
    have h5 := (B.disj g hg g' hg' f hf f' hf' (hfq.trans hfq'.symm)).2
    have h6 := B.uniq g hg g' hg' id h1 (h5 ▸ h1)
    subst h6
    rw [h1] at h1'
    exact ⟨(Option.some.inj h1').symm, h2'.trans h2.symm, h3'.trans h3.symm, h4'.trans h4.symm⟩

/-- Each network packet handed to reliability is either still pending, and was not reported in any way; or it was reported exactly once
as acknowledged, acknowledged after retransmission or given up, and nothing of it is pending. Only network packets handed to
reliability are reported. -/
theorem C47_outcome (id : Nat) :
    (s.out.countP (queues id) = 0 ∧ s.out.countP (concludes id) = 0 ∧ ¬ pending s id) ∨
    (s.out.countP (queues id) = 1 ∧ s.out.countP (concludes id) = 0 ∧ pending s id) ∨
    (s.out.countP (queues id) = 1 ∧ s.out.countP (concludes id) = 1 ∧ ¬ pending s id) := by
  obtain ⟨M, _, G, n, B⟩ := books0 hx hq h hn
  have h1 := B.once id
  have h2 := B.outcome id
  by_cases hl : live s id = true
  · have := live_pending (s := s) (id := id) |>.1 hl
    rw [if_pos hl] at h2
    refine .inr (.inl ⟨?_, ?_, this⟩) <;> split at h1 <;> simp_all
  · have hp : ¬ pending s id := fun hp => hl ((live_pending).2 hp)
    rw [if_neg hl] at h2
    split at h1
    · rename_i h3
      rw [if_pos h3] at h2
      exact .inr (.inr ⟨h1, h2, hp⟩)
    · rename_i h3
      rw [if_neg h3] at h2
      exact .inl ⟨h1, h2, hp⟩

/-- After a network packet was reported — acknowledged or given up — none of its fragments is transmitted again. -/
theorem C47_after {id : Nat} {i : Bool} {net : Option Bytes} {seqs : List Nat} (hid : .queued id i net seqs ∈ s.out)
    {before after : List Out} {r : Out} (hs : s.out = before ++ r :: after) (hr : concludes id r = true) :
    ∀ q ∈ seqs, after.countP (sendsSeq q) = 0 := by
  obtain ⟨M, _, G, n, B⟩ := books0 hx hq h hn
  obtain ⟨g, hg, h1, h2, h3, h4⟩ := (B.queued _ _ _ _).1 hid
  intro q hq'
  rw [h4] at hq'
  obtain ⟨f, hf, hfq⟩ := List.mem_filterMap.1 hq'
  exact B.after _ _ _ _ hs hr g hg h1 f hf q hfq

/-- An Interest that is given up is reported as dropped, once and with the Interest itself; nothing else is reported as dropped. -/
theorem C47_dropped {id : Nat} {i : Bool} {net : Option Bytes} {seqs : List Nat} (hid : .queued id i net seqs ∈ s.out) :
    s.out.countP (drops id) = (if i then s.out.countP (exhausts id) else 0) ∧ s.out.countP (exhausts id) ≤ 1 ∧
    ∀ c, .droppedInterest id c ∈ s.out → c = net := by
  obtain ⟨M, _, G, n, B⟩ := books0 hx hq h hn
  obtain ⟨g, hg, h1, h2, h3, h4⟩ := (B.queued _ _ _ _).1 hid
  refine ⟨by rw [h2]; exact B.drop g hg id h1, ?_, ?_⟩
  · have h5 := B.outcome id
    have h6 : s.out.countP (exhausts id) ≤ s.out.countP (concludes id) := by
      apply List.countP_mono_left
      intro o _ ho
      cases o <;> first | exact ho | cases ho
    split at h5 <;> split at h5 <;> omega
  · intro c hc
    obtain ⟨g', hg', h5, h6⟩ := B.content id c hc
    rw [h6, h3, B.uniq g hg g' hg' id h1 h5]

theorem C47_dropped_only {id : Nat} {c : Option Bytes} (hc : .droppedInterest id c ∈ s.out) :
    ∃ seqs, .queued id true c seqs ∈ s.out ∧ .exhausted id ∈ s.out := by
  obtain ⟨M, _, G, n, B⟩ := books0 hx hq h hn
  obtain ⟨g, hg, h5, h6⟩ := B.content id c hc
  have h7 := B.drop g hg id h5
  have h8 : 0 < s.out.countP (drops id) := List.countP_pos_iff.2 ⟨_, hc, by simp [drops]⟩
  cases hk : g.kind == .interest with
  | false => rw [hk, if_neg (by decide)] at h7; omega
  | true =>
    rw [hk] at h7
    simp only [if_true] at h7
    rw [h7] at h8
    obtain ⟨r, hr, hr'⟩ := List.countP_pos_iff.1 h8
    refine ⟨_, (B.queued _ _ _ _).2 ⟨g, hg, h5, hk.symm, h6, rfl⟩, ?_⟩
    cases r <;> first | cases hr' | skip
    rename_i i
    rw [show i = id from beq_iff_eq.1 hr'] at hr
    exact hr

/-- A network packet reported as acknowledged (with or without retransmission): for each of its fragments, the TxSequence of one of its
transmissions was received in an Ack. -/
theorem C47_acked {id : Nat} {i : Bool} {net : Option Bytes} {seqs : List Nat} (hid : .queued id i net seqs ∈ s.out)
    (ha : .acknowledged id ∈ s.out ∨ .retransmitted id ∈ s.out) :
    ∀ q ∈ seqs, ∃ p t, (.frame p ∈ s.out ∨ .overMtu p ∈ s.out) ∧ p.seq = some q ∧ p.txSeq = some t ∧
      ∃ e p', .receive e p' ∈ es ∧ t ∈ p'.acks := by
  obtain ⟨M, _, G, n, B⟩ := books0 hx hq h hn
  obtain ⟨g, hg, h1, h2, h3, h4⟩ := (B.queued _ _ _ _).1 hid
  intro q hq'
  rw [h4] at hq'
  obtain ⟨f, hf, hfq⟩ := List.mem_filterMap.1 hq'
  obtain ⟨r, hr, hrc, hre⟩ : ∃ r ∈ s.out, concludes id r = true ∧ r ≠ .exhausted id := by
    rcases ha with ha | ha
    · exact ⟨_, ha, by simp [concludes], by simp⟩
    · exact ⟨_, ha, by simp [concludes], by simp⟩
  have hout := B.outcome id
  have hpos : 0 < s.out.countP (concludes id) := List.countP_pos_iff.2 ⟨r, hr, hrc⟩
  rcases B.fate g hg id h1 f hf with ⟨e, he, hes⟩ | hex | ⟨r', hr', p, t, hs, hps, hpt, ev, hev, hta⟩
  · exfalso
    have h5 : live s id = true := (live_pending).2 ⟨e, he, by
      obtain ⟨g', hg', h6, ⟨f', hf', hc⟩, _⟩ := B.ent e he
      have h7 := (B.disj g hg g' hg' f hf f' hf' (by rw [← hes, hc.seq])).2
      rw [h1, h6] at h7
      exact (Option.some.inj h7).symm⟩
    rw [if_pos h5] at hout
    split at hout <;> omega
  · exfalso
    have := countP_two hr hex hre hrc (by simp [concludes])
    split at hout <;> split at hout <;> omega
  · refine ⟨p, t, ?_, hps.trans hfq, hpt, ?_⟩
    · cases r' <;> simp only [Out.sends, Option.some.injEq, reduceCtorEq] at hs
      · subst hs; exact .inl hr'
      · subst hs; exact .inr hr'
    · cases ev with
      | receive e p' => exact ⟨e, p', hev, hta⟩
      | _ => cases hta

/-- The two ways of reporting an acknowledged network packet: `acknowledged` if each fragment was transmitted once, `retransmitted` if
some fragment was transmitted more often. -/
theorem C47_which {id : Nat} {i : Bool} {net : Option Bytes} {seqs : List Nat} (hid : .queued id i net seqs ∈ s.out) :
    (.acknowledged id ∈ s.out → ∀ q ∈ seqs, s.out.countP (sendsSeq q) = 1) ∧
    (.retransmitted id ∈ s.out → ∃ q ∈ seqs, 2 ≤ s.out.countP (sendsSeq q)) := by
  obtain ⟨M, _, G, n, B⟩ := books0 hx hq h hn
  obtain ⟨g, hg, h1, h2, h3, h4⟩ := (B.queued _ _ _ _).1 hid
  constructor
  · intro ha q hq'
    rw [h4] at hq'
    obtain ⟨f, hf, hfq⟩ := List.mem_filterMap.1 hq'
    have h5 := B.acked id ha g hg h1 f hf q hfq
    have h6 := B.least g hg f hf q hfq
    omega
  · intro ha
    obtain ⟨g', hg', h5, f, hf, q, hfq, h6⟩ := B.retxd id ha
    obtain rfl := B.uniq g hg g' hg' id h1 h5
    exact ⟨q, by rw [h4]; exact List.mem_filterMap.2 ⟨f, hf, hfq⟩, h6⟩

/-- A network packet is given up only after some fragment was transmitted maxRetx + 1 times: `m` is a lower bound for the maxRetx options
in force during the run. -/
theorem C47_exhausted {m : Nat} (hm : ∀ o', InForce o es o' → m ≤ o'.maxRetx) {id : Nat} {i : Bool} {net : Option Bytes} {seqs : List Nat}
    (hid : .queued id i net seqs ∈ s.out) (ha : .exhausted id ∈ s.out) : ∃ q ∈ seqs, m + 1 ≤ s.out.countP (sendsSeq q) := by
  obtain ⟨M, hM⟩ := some_bound o es
  obtain ⟨_, G, n, B⟩ := books' hx hq h hn hm hM
  obtain ⟨g, hg, h1, h2, h3, h4⟩ := (B.queued _ _ _ _).1 hid
  obtain ⟨g', hg', h5, f, hf, q, hfq, h6⟩ := B.exh id ha
  obtain rfl := B.uniq g hg g' hg' id h1 h5
  exact ⟨q, by rw [h4]; exact List.mem_filterMap.2 ⟨f, hf, hfq⟩, h6⟩

end

/-! ## An example run

TxSequences wrap around. The first Interest is acknowledged after its first fragment was sent again (the Ack 99 is bogus), the second one
is given up, the Data is acknowledged, the last Data is pending. -/

def relEnv : Env := { exEnv with mtu := some 100 }
def relOpts : Opts := { allowFragmentation := true, relEnabled := true, maxRetx := 1 }
def relInterest : Bytes := 5 :: 98 :: List.replicate 98 7
def relData : Bytes := 6 :: 98 :: List.replicate 98 9
def relEvents : List Event :=
  [.send .interest {} relInterest, .receive 0 { acks := [W - 1, 99] }, .rto (W - 2), .receive 0 { acks := [0, 1] },
   .send .interest {} relInterest, .rto 3, .rto 5, .send .data {} relData, .receive 0 { acks := [8, 7, 6] },
   .send .data {} relData]

/-- What the example run ends with. -/
def relEnd : List Out := match run relEnv (init relOpts (W - 2) (W - 3)) relEvents with
  | .ok s => s.out
  | .error _ => []

example : relEnd.filter (fun o => o.sends.isNone) =
    [.queued 0 true (some relInterest) [W - 1, 0, 1], .retransmitted 0,
     .queued 1 true (some relInterest) [2, 3, 4], .exhausted 1, .droppedInterest 1 (some relInterest),
     .queued 2 false (some relData) [5, 6, 7], .acknowledged 2,
     .queued 3 false (some relData) [8, 9, 10]] := by decide +kernel

/-- Transmissions of the fragments with Sequences 2^64-1, 0, ... -/
example : [W - 1, 0, 1, 2, 3, 4, 5, 6, 7, 8, 9, 10].map (fun q => relEnd.countP (sendsSeq q)) = [2, 1, 1, 1, 2, 1, 1, 1, 1, 1, 1, 1] := by
  decide +kernel

example : relEnd.countP (fun o => o.sends.isSome) ≤ W := by decide +kernel

/-! ## Examples for C48 -/

/-- TxSequences wrap around, and there was a bogus Ack: the window starts at 2^64-2, before 0. -/
example : (match run relEnv (init relOpts (W - 2) (W - 3)) (relEvents.take 2) with
    | .ok s => s.first == some (W - 2) && s.unacked.map (fun e => (e.1, e.2.order)) == [(0, 2), (W - 2, 0)]
    | _ => false) = true := by decide +kernel

example : MtuOk relEnv relOpts relEvents := by
  refine ⟨?_, ?_, ?_⟩
  · intro m h
    obtain rfl := Option.some.inj h
    decide
  · intro n h; cases h
  · intro o' h
    simp [relEvents] at h

/-- The minimum MTU matters: with an MTU of 15, an IDLE packet takes no Ack, and the loop of the idle timer does not end. -/
theorem C48_small_mtu_idle : ∃ env o es, env.mtu = some 15 ∧ (match run env (init o 0 0) es with | .error .assert => true | _ => false) = true :=
  ⟨{ exEnv with mtu := some 15 }, relOpts, [.receive 0 { txSeq := some 5, frag := some [5, 0] }, .idle], rfl, by decide +kernel⟩

/-- With an MTU of 10, sending a packet fails an assertion. -/
theorem C48_small_mtu_send : ∃ env o es, env.mtu = some 10 ∧ (match run env (init o 0 0) es with | .error .assert => true | _ => false) = true :=
  ⟨{ exEnv with mtu := some 10 }, relOpts, [.send .interest {} [5, 0]], rfl, by decide +kernel⟩

end Verif.Lp
