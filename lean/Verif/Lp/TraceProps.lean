import Verif.Lp.TraceSpec
import Verif.Lp.Frame

/-
C134: what becomes of the frames that a face receives.
-/
namespace Verif.Lp

theorem decode_trace (env : Env) (o : Opts) (net : Bytes) (h : Hdr) :
    (∃ x, x.trace = true ∧ decodeNet env o net h = [x]) ∨
    (decodeNet env o net h = [] ∧ (∃ b, parseBlock net = some b ∧ b.type = 5) ∧ h.nack = none ∧ h.nextHop.isSome ∧ o.allowLocalFields = false) := by
  unfold decodeNet
  split
  · exact .inl ⟨_, rfl, rfl⟩
  · rename_i b hb
    split
    · rename_i ht
      split
      · left
        repeat' split
        all_goals exact ⟨_, rfl, rfl⟩
      · rename_i hn
        split
        · exact .inl ⟨_, rfl, rfl⟩
        · split
          · rename_i hl
            simp only [Bool.and_eq_true, Bool.not_eq_true'] at hl
            exact .inr ⟨rfl, ⟨b, hb, ht⟩, hn, hl.1, hl.2⟩
          · left
            repeat' split
            all_goals exact ⟨_, rfl, rfl⟩
    · left
      repeat' split
      all_goals exact ⟨_, rfl, rfl⟩

/-- How reassembly treats a frame. -/
theorem reasm_cases (s : St) (e : Nat) (p : Pkt) (hd : ¬((p.fragIndex.isSome || p.fragCount.isSome) = true ∧ s.opts.allowReassembly = false)) :
    (Unusable s e p ∧ receiveFragment s e p = (s, .nothing)) ∨
    (¬Unusable s e p ∧ (receiveFragment s e p).1.out = s.out ∧ (receiveFragment s e p).1.opts = s.opts ∧
      ((receiveFragment s e p).2 = .nothing → Kept (receiveFragment s e p).1 e p)) := by
  have hdis : ¬((p.fragIndex.isSome ∨ p.fragCount.isSome) ∧ s.opts.allowReassembly = false) := by
    simpa only [Bool.or_eq_true] using hd
  unfold receiveFragment
  simp only
  by_cases h1 : p.fragIndex.getD 0 ≥ p.fragCount.getD 1
  · rw [if_pos h1]; exact .inl ⟨.index h1, rfl⟩
  rw [if_neg h1]
  by_cases h2 : p.fragCount.getD 1 > s.opts.reasmMax
  · rw [if_pos h2]; exact .inl ⟨.limit h2, rfl⟩
  rw [if_neg h2]
  by_cases h3 : p.fragIndex.getD 0 = 0 ∧ p.fragCount.getD 1 = 1
  · rw [if_pos h3]
    refine .inr ⟨?_, rfl, rfl, ?_⟩
    · intro hu
      have : p.count = 1 := h3.2
      cases hu with
      | disabled h ho => exact hdis ⟨h, ho⟩
      | index h => exact h1 h
      | limit h => exact h2 h
      | sequence h => omega
      | message h => omega
      | again h => omega
    · intro h; simp only at h; split at h <;> cases h
  rw [if_neg h3]
  have h4 : 2 ≤ p.count := by unfold Pkt.count; omega
  cases hq : p.seq with
  | none => exact .inl ⟨.sequence h4 hq, rfl⟩
  | some q =>
    simp only
    unfold addFragment
    simp only
    cases hk : s.parts (e, (q + W - p.fragIndex.getD 0 % W) % W) with
    | none =>
      simp only [Option.getD_none]
      have hi : (List.replicate (p.fragCount.getD 1) (none : Option Pkt))[p.fragIndex.getD 0]? = some none := by
        rw [List.getElem?_replicate, if_pos (by omega)]
      rw [if_neg (fun h => h rfl), if_neg (fun h => h hi)]
      refine .inr ⟨?_, ?_⟩
      · intro hu
        have hn : ∀ q', p.seq = some q' → soFar s e q' p = none := by
          intro q' h'; rw [hq] at h'; cases h'; exact hk
        cases hu with
        | disabled h ho => exact hdis ⟨h, ho⟩
        | index h => exact h1 h
        | limit h => exact h2 h
        | sequence h hs => rw [hq] at hs; cases hs
        | message h q' hs pp hp => rw [hn q' hs] at hp; cases hp
        | again h q' hs pp hp => rw [hn q' hs] at hp; cases hp
      · split
        · split <;> exact ⟨rfl, rfl, (fun h => by cases h)⟩
        · exact ⟨rfl, rfl, fun _ => ⟨q, _, _, hq, if_pos rfl, List.getElem?_set_self (by simp; omega), rfl⟩⟩
    | some pp =>
      simp only [Option.getD_some]
      by_cases h5 : p.fragCount.getD 1 ≠ pp.fragCount
      · rw [if_pos h5]; exact .inl ⟨.message h4 q hq pp hk (fun h => h5 h.symm), rfl⟩
      rw [if_neg h5]
      by_cases h6 : pp.frags[p.fragIndex.getD 0]? ≠ some none
      · rw [if_pos h6]; exact .inl ⟨.again h4 q hq pp hk h6, rfl⟩
      rw [if_neg h6]
      have h5 := Decidable.of_not_not h5
      have h6 := Decidable.of_not_not h6
      refine .inr ⟨?_, ?_⟩
      · intro hu
        have hn : ∀ q', p.seq = some q' → soFar s e q' p = some pp := by
          intro q' h'; rw [hq] at h'; cases h'; exact hk
        cases hu with
        | disabled h ho => exact hdis ⟨h, ho⟩
        | index h => exact h1 h
        | limit h => exact h2 h
        | sequence h hs => rw [hq] at hs; cases hs
        | message h q' hs pp' hp hc => rw [hn q' hs] at hp; cases hp; exact hc h5.symm
        | again h q' hs pp' hp hc => rw [hn q' hs] at hp; cases hp; exact hc h6
      · split
        · split <;> exact ⟨rfl, rfl, (fun h => by cases h)⟩
        · exact ⟨rfl, rfl, fun _ => ⟨q, _, _, hq, if_pos rfl, List.getElem?_set_self (List.getElem?_eq_some_iff.1 h6).1, rfl⟩⟩

/-- What `accept` makes of a frame. -/
inductive Fate (env : Env) (s : St) (e : Nat) (p : Pkt) (s' : St) : Prop
  | idle (h : p.frag = none) (hs : s' = s)
  | unusable (h : p.frag ≠ none) (hu : Unusable s e p) (hs : s' = s)
  | kept (h : p.frag ≠ none) (hu : ¬Unusable s e p) (hk : Kept s' e p) (ho : s'.out = s.out)
  | invalid (h : p.frag ≠ none) (hu : ¬Unusable s e p) (ho : s'.out = s.out ++ [.lpInvalid])
  | traced (h : p.frag ≠ none) (hu : ¬Unusable s e p) (net : Bytes) (first : Pkt) (x : Out) (hx : x.trace = true)
      (ho : s'.out = s.out ++ [.reassembled e net first, x])
  | notPermitted (h : p.frag ≠ none) (hu : ¬Unusable s e p) (net : Bytes) (first : Pkt) (hn : NotPermitted s net first)
      (ho : s'.out = s.out ++ [.reassembled e net first])

theorem accept_fate (env : Env) (s : St) (e : Nat) (p : Pkt) : Fate env s e p (accept env s e p) := by
  unfold accept
  by_cases h1 : p.frag.isNone = true
  · rw [if_pos h1]; exact .idle (Option.isNone_iff_eq_none.1 h1) rfl
  rw [if_neg h1]
  have h0 : p.frag ≠ none := fun h => h1 (by rw [h]; rfl)
  by_cases h2 : ((p.fragIndex.isSome || p.fragCount.isSome) && !s.opts.allowReassembly) = true
  · rw [if_pos h2]
    simp only [Bool.and_eq_true, Bool.not_eq_true', Bool.or_eq_true] at h2
    exact .unusable h0 (.disabled h2.1 h2.2) rfl
  rw [if_neg h2]
  simp only
  have h2 : ¬((p.fragIndex.isSome || p.fragCount.isSome) = true ∧ s.opts.allowReassembly = false) := by
    simpa only [Bool.and_eq_true, Bool.not_eq_true'] using h2
  rcases reasm_cases s e p h2 with ⟨hu, hr⟩ | ⟨hu, ho, hp, hk⟩
  · rw [hr]; exact .unusable h0 hu rfl
  · cases hc : (receiveFragment s e p).2 with
    | nothing => exact .kept h0 hu (hk hc) ho
    | error => exact .invalid h0 hu (by simp [emit, ho])
    | packet net first =>
      rcases decode_trace env (receiveFragment s e p).1.opts net first.hdr with ⟨x, hx, hd⟩ | ⟨hd, hb, hn, hh, hl⟩
      · exact .traced h0 hu net first x hx (by simp only [hd, ho])
      · exact .notPermitted h0 hu net first ⟨hb, hn, hh, by rw [← hp]; exact hl⟩ (by simp only [hd, ho])

/-- A frame is a duplicate, or `accept` deals with it. -/
theorem receive_cases {env : Env} {s s' : St} {e : Nat} {p : Pkt} (h : step env s (.receive e p) = .ok s') :
    ∃ t l, t.opts = s.opts ∧ t.parts = s.parts ∧ t.out = s.out ++ l ∧ (∀ o ∈ l, o.sending = true) ∧
      (s' = accept env t e p ∨ s.opts.relEnabled = true ∧ s'.out = t.out ++ [.duplicate] ∧ s'.parts = s.parts) := by
  cases hr : s.opts.relEnabled with
  | false =>
    simp only [step, receive, hr] at h
    cases h
    exact ⟨s, [], rfl, rfl, by simp, by simp, .inl rfl⟩
  | true =>
    simp only [step, receive] at h
    rw [if_pos hr] at h
    split at h
    · cases h
    · rename_i r hp
      obtain ⟨h1, _, h3, l, hl, hall⟩ := processIncoming_only hp
      cases h
      refine ⟨r.1, l, h1, h3, hl, hall, ?_⟩
      split
      · exact .inl rfl
      · exact .inr ⟨rfl, rfl, h3⟩

theorem sending_trace {l : List Out} (h : ∀ o ∈ l, o.sending = true) : l.countP Out.trace = 0 := by
  rw [List.countP_eq_zero]
  intro o ho
  have := h o ho
  cases o <;> simp_all [Out.sending, Out.trace]

theorem unusable_like {s t : St} {e : Nat} {p : Pkt} (h1 : t.opts = s.opts) (h2 : t.parts = s.parts) : Unusable t e p ↔ Unusable s e p := by
  have hs : ∀ q, soFar t e q p = soFar s e q p := fun q => by unfold soFar; rw [h2]
  constructor
  · rintro (⟨h, ho⟩ | h | h | ⟨h, hq⟩ | ⟨h, q, hq, pp, hp, hc⟩ | ⟨h, q, hq, pp, hp, hc⟩)
    · exact .disabled h (h1 ▸ ho)
    · exact .index h
    · exact .limit (h1 ▸ h)
    · exact .sequence h hq
    · exact .message h q hq pp (hs q ▸ hp) hc
    · exact .again h q hq pp (hs q ▸ hp) hc
  · rintro (⟨h, ho⟩ | h | h | ⟨h, hq⟩ | ⟨h, q, hq, pp, hp, hc⟩ | ⟨h, q, hq, pp, hp, hc⟩)
    · exact .disabled h (h1 ▸ ho)
    · exact .index h
    · exact .limit (h1 ▸ h)
    · exact .sequence h hq
    · exact .message h q hq pp ((hs q).symm ▸ hp) hc
    · exact .again h q hq pp ((hs q).symm ▸ hp) hc

/-! ### C134 -/

/-- **C134.** A received frame leaves at most one trace: one packet for the network layer, or one count of one counter of the face. -/
theorem C134_once {env : Env} {s s' : St} {e : Nat} {p : Pkt} (h : step env s (.receive e p) = .ok s') :
    ∃ l, s'.out = s.out ++ l ∧ l.countP Out.trace ≤ 1 := by
  obtain ⟨t, l, h1, h2, h3, h4, h5⟩ := receive_cases h
  have h0 := sending_trace h4
  rcases h5 with rfl | ⟨_, ho, _⟩
  · have fin : ∀ d, (accept env t e p).out = t.out ++ d → d.countP Out.trace ≤ 1 →
        ∃ l, (accept env t e p).out = s.out ++ l ∧ l.countP Out.trace ≤ 1 := fun d hd hc =>
      ⟨l ++ d, by rw [hd, h3, List.append_assoc], by rw [List.countP_append, h0]; omega⟩
    cases accept_fate env t e p with
    | idle _ hs => exact fin [] (by rw [hs]; simp) (by simp)
    | unusable _ _ hs => exact fin [] (by rw [hs]; simp) (by simp)
    | kept _ _ _ ho => exact fin [] (by rw [ho]; simp) (by simp)
    | invalid _ _ ho => exact fin _ ho (by decide)
    | traced _ _ net first x hx ho => exact fin _ ho (by rw [List.countP_cons_of_neg (by simp [Out.trace]), List.countP_cons_of_pos hx]; simp)
    | notPermitted _ _ net first hn ho => exact fin _ ho (by simp [List.countP_cons, Out.trace])
  · exact ⟨l ++ [.duplicate], by rw [ho, h3, List.append_assoc], by rw [List.countP_append, h0]; decide⟩

/-- **C134.** A frame that leaves no trace has no fragment, or its fragment is kept for reassembly, or is unusable; or with it an
Interest is complete whose NextHopFaceId the face does not permit. -/
theorem C134_silent {env : Env} {s s' : St} {e : Nat} {p : Pkt} (h : step env s (.receive e p) = .ok s')
    {l : List Out} (hl : s'.out = s.out ++ l) (h0 : l.countP Out.trace = 0) :
    p.frag = none ∨ Kept s' e p ∨ Unusable s e p ∨ ∃ net first, .reassembled e net first ∈ l ∧ NotPermitted s net first := by
  obtain ⟨t, l', h1, h2, h3, h4, h5⟩ := receive_cases h
  have new : ∀ d, s'.out = t.out ++ d → l = l' ++ d := fun d hd => by
    rw [hl, h3, List.append_assoc] at hd
    exact List.append_cancel_left hd
  rcases h5 with rfl | ⟨_, ho, _⟩
  · cases accept_fate env t e p with
    | idle hf _ => exact .inl hf
    | unusable _ hu _ => exact .inr (.inr (.inl ((unusable_like h1 h2).1 hu)))
    | kept _ _ hk _ => exact .inr (.inl hk)
    | invalid _ _ ho => rw [new _ ho] at h0; simp [List.countP_append, List.countP_cons, Out.trace] at h0
    | traced _ _ net first x hx ho => rw [new _ ho] at h0; simp [List.countP_append, List.countP_cons, hx] at h0
    | notPermitted _ _ net first hn ho =>
      refine .inr (.inr (.inr ⟨net, first, ?_, ?_⟩))
      · rw [new _ ho]; simp
      · obtain ⟨a, b, c, d⟩ := hn
        exact ⟨a, b, c, by rw [← h1]; exact d⟩
  · rw [new _ ho] at h0; simp [List.countP_append, List.countP_cons, Out.trace] at h0

/-- **C134.** An unusable fragment leaves no trace, unless the frame is counted as a duplicate, and reassembly is as before. -/
theorem C134_unusable {env : Env} {s s' : St} {e : Nat} {p : Pkt} (h : step env s (.receive e p) = .ok s') (hf : p.frag ≠ none)
    (hu : Unusable s e p) : ∃ l, s'.out = s.out ++ l ∧ s'.parts = s.parts ∧
      (l.countP Out.trace = 0 ∨ s.opts.relEnabled = true ∧ ∀ o ∈ l, o.trace = true → o = .duplicate) := by
  obtain ⟨t, l, h1, h2, h3, h4, h5⟩ := receive_cases h
  rcases h5 with rfl | ⟨hr, ho, hp⟩
  · have hu' := (unusable_like h1 h2).2 hu
    cases accept_fate env t e p with
    | idle hf' => exact absurd hf' hf
    | unusable _ _ hs => exact ⟨l, by rw [hs, h3], by rw [hs, h2], .inl (sending_trace h4)⟩
    | kept _ hn => exact absurd hu' hn
    | invalid _ hn => exact absurd hu' hn
    | traced _ hn => exact absurd hu' hn
    | notPermitted _ hn => exact absurd hu' hn
  · refine ⟨l ++ [.duplicate], by rw [ho, h3, List.append_assoc], hp, .inr ⟨hr, fun o hm ht => ?_⟩⟩
    rcases List.mem_append.1 hm with hm | hm
    · have := List.countP_eq_zero.1 (sending_trace h4) o hm
      exact absurd ht this
    · exact List.mem_singleton.1 hm

/-- **C134.** Conversely a frame with a usable fragment is kept until its message is complete, or
leaves its trace, or completes an Interest that is not permitted. -/
theorem C134_usable {env : Env} {s s' : St} {e : Nat} {p : Pkt} (h : step env s (.receive e p) = .ok s') (hf : p.frag ≠ none)
    (hu : ¬Unusable s e p) {l : List Out} (hl : s'.out = s.out ++ l) :
    Kept s' e p ∨ l.countP Out.trace = 1 ∨ ∃ net first, .reassembled e net first ∈ l ∧ NotPermitted s net first := by
  obtain ⟨l', hl', hc⟩ := C134_once h
  have : l' = l := List.append_cancel_left (hl'.symm.trans hl)
  subst this
  by_cases h0 : l'.countP Out.trace = 0
  · rcases C134_silent h hl h0 with h1 | h1 | h1 | h1
    · exact absurd h1 hf
    · exact .inl h1
    · exact absurd h1 hu
    · exact .inr (.inr h1)
  · exact .inr (.inl (by omega))

/-! ### Examples -/

def exTraceEnv : Env where
  qlen := fun _ => -1
  rto := fun _ => 200
  markGap := fun _ => 10
  okInterest := fun _ => true
  okData := fun _ => true
  mtu := some 500

/-- The traces that frames leave, one list for each. -/
def exTraces (o : Opts) (ps : List Pkt) : List (List Out) :=
  (ps.foldl (fun (a : Option St × List (List Out)) p =>
    match a.1.map (fun s => (s, step exTraceEnv s (.receive 0 p))) with
    | some (s, .ok s') => (some s', a.2 ++ [(s'.out.drop s.out.length).filter Out.trace])
    | _ => (none, a.2)) (some (init o 0 0), [])).2

/-- An Interest; an idle frame; FragIndex too large; no Sequence; an Interest with NextHopFaceId; a message in two fragments, the first of
which comes twice; a Data with Nack; garbage. -/
example : exTraces { allowReassembly := true } [{ frag := some [5, 0] }, { acks := [3] }, { fragIndex := some 2, fragCount := some 2, seq := some 9, frag := some [5] },
    { fragIndex := some 0, fragCount := some 2, frag := some [5] }, { hdr := { nextHop := some 7 }, frag := some [5, 0] },
    { fragIndex := some 0, fragCount := some 2, seq := some 9, frag := some [5] }, { fragIndex := some 0, fragCount := some 2, seq := some 9, frag := some [5] },
    { fragIndex := some 1, fragCount := some 2, seq := some 10, frag := some [0] }, { hdr := { nack := some 50 }, frag := some [6, 0] }, { frag := some [5, 9] }] =
    [[.interest [5, 0] {}], [], [], [], [], [], [], [.interest [5, 0] {}], [.netInvalid], [.lpInvalid]] := by decide +kernel

/-- Without reassembly fragments are unusable. -/
example : exTraces { allowReassembly := false } [{ fragIndex := some 0, fragCount := some 1, frag := some [5, 0] }] = [[]] := by decide +kernel

end Verif.Lp
