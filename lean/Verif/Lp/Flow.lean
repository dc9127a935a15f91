/-
A run of the link service as a sequence of LpPackets handed to sendLpPacket, with nothing in between that concerns congestion marks,
the queue of Acks and the transport.
-/
import Verif.Lp.Genuine

namespace Verif.Lp

/-- Nothing concerning congestion marks, Acks, received Sequences, options or the transport happens. -/
structure Calm (s s' : St) : Prop where
  opts : s'.opts = s.opts
  now : s'.now = s.now
  nextMark : s'.nextMark = s.nextMark
  nMarked : s'.nMarked = s.nMarked
  nCheck : s'.nCheck = s.nCheck
  ackQueue : s'.ackQueue = s.ackQueue
  idleTimer : s'.idleTimer = s.idleTimer
  recent : s'.recent = s.recent
  recentQ : s'.recentQ = s.recentQ
  out : ∃ l, s'.out = s.out ++ l ∧ ∀ o ∈ l, o.sends = none ∧ o ≠ .marked

theorem Calm.refl (s : St) : Calm s s := ⟨rfl, rfl, rfl, rfl, rfl, rfl, rfl, rfl, rfl, [], by simp, by simp⟩

theorem Calm.trans {s t u : St} (h : Calm s t) (h' : Calm t u) : Calm s u := by
  obtain ⟨a1, a2, a3, a4, a5, a6, a7, a8, a9, l, ho, hl⟩ := h
  obtain ⟨b1, b2, b3, b4, b5, b6, b7, b8, b9, l', ho', hl'⟩ := h'
  refine ⟨b1.trans a1, b2.trans a2, b3.trans a3, b4.trans a4, b5.trans a5, b6.trans a6, b7.trans a7, b8.trans a8, b9.trans a9,
    l ++ l', by rw [ho', ho, List.append_assoc], ?_⟩
  intro o ho
  rcases List.mem_append.1 ho with ho | ho
  · exact hl o ho
  · exact hl' o ho

/-- All stored unacknowledged fragments satisfy `Q`. -/
def Held (Q : Pkt → Prop) (s : St) : Prop := ∀ e ∈ s.unacked, Q e.2.pkt

/-- Packets satisfying `Q` are handed to sendLpPacket one after another. -/
inductive Flow (env : Env) (Q : Pkt → Prop) : St → St → Prop
  | refl (s : St) : Flow env Q s s
  | calm {s t u : St} : Flow env Q s t → Calm t u → Flow env Q s u
  | send {s t u : St} {p : Pkt} : Flow env Q s t → Q p → sendLp env t p = .ok u → Flow env Q s u

theorem Flow.of_calm {env : Env} {Q : Pkt → Prop} {s t : St} (h : Calm s t) : Flow env Q s t := .calm (.refl s) h

theorem Flow.trans {env : Env} {Q : Pkt → Prop} {s t u : St} (h : Flow env Q s t) (h' : Flow env Q t u) : Flow env Q s u := by
  induction h' with
  | refl => exact h
  | calm _ hc ih => exact .calm ih hc
  | send _ hq hs ih => exact .send ih hq hs

/-- Induction: what sendLpPacket and uninteresting changes preserve. -/
theorem Flow.preserve {env : Env} {Q : Pkt → Prop} {P : St → Prop} {s s' : St} (h : Flow env Q s s') (hs : P s)
    (hc : ∀ t u, P t → Calm t u → P u) (hsend : ∀ t u p, P t → Q p → sendLp env t p = .ok u → P u) : P s' := by
  induction h with
  | refl => exact hs
  | calm _ hc' ih => exact hc _ _ ih hc'
  | send _ hq hs' ih => exact hsend _ _ _ ih hq hs'

/-- What sendLpPacket does, in one statement: `n` Acks are attached and then possibly a congestion mark. -/
theorem sendLp_unacked {env : Env} {s s' : St} {p : Pkt} (h : sendLp env s p = .ok s') : s'.unacked = s.unacked := by
  obtain ⟨r, h1, rfl⟩ := sendLp_ok h
  have hr : r.1.unacked = s.unacked := by
    unfold attachAcks at h1
    split at h1
    · unfold piggyback at h1
      split at h1
      · cases h1
      · cases h1; rfl
    · cases h1; rfl
  have hm := (attachMark_eq env r.1 r.2).1
  have ht : ∀ (m : Option Nat) (t : St) (p : Pkt), (transmit m t p).unacked = t.unacked := by
    intro m t p; unfold transmit; split <;> rfl
  rw [ht, hm.unacked, hr]

section
variable {env : Env} {Q H : Pkt → Prop}

theorem sendAll_flow : ∀ {ps : List Pkt} {s s' : St}, (∀ p ∈ ps, Q p) → Held H s → sendAll env s ps = .ok s' → Flow env Q s s' ∧ Held H s' := by
  intro ps
  induction ps with
  | nil => intro s s' _ hh h; cases h; exact ⟨.refl _, hh⟩
  | cons p ps ih =>
    intro s s' hq hh h
    simp only [sendAll, bind_ok] at h
    obtain ⟨s1, h1, h2⟩ := h
    have hh1 : Held H s1 := by unfold Held; rw [sendLp_unacked h1]; exact hh
    obtain ⟨f, hh2⟩ := ih (fun p hp => hq p (List.mem_cons_of_mem _ hp)) hh1 h2
    exact ⟨(Flow.send (.refl _) (hq p (List.mem_cons_self ..)) h1).trans f, hh2⟩

theorem deleteUnacked_flow {s s' : St} {k : Nat} (hh : Held H s) (h : deleteUnacked s k = .ok s') : Calm s s' ∧ Held H s' := by
  unfold deleteUnacked at h
  split at h
  · cases h
  · split at h
    · cases h
    · have hd : ∀ e ∈ del s.unacked k, H e.2.pkt := fun e he => hh e (List.mem_filter.1 he).1
      simp only at h
      split at h
      · cases h; exact ⟨⟨rfl, rfl, rfl, rfl, rfl, rfl, rfl, rfl, rfl, [], by simp, by simp⟩, hd⟩
      · split at h <;> (cases h; exact ⟨⟨rfl, rfl, rfl, rfl, rfl, rfl, rfl, rfl, rfl, [], by simp, by simp⟩, hd⟩)

theorem assignTx_flow {s : St} {r : St × Nat} (hh : Held H s) (h : assignTx s = .ok r) : Calm s r.1 ∧ Held H r.1 := by
  rw [(assignTx_ok h).2]
  exact ⟨⟨rfl, rfl, rfl, rfl, rfl, rfl, rfl, rfl, rfl, [], by simp, by simp⟩, hh⟩

theorem mem_put_of {k : Nat} {u : UFrag} : ∀ {m : List (Nat × UFrag)} {e : Nat × UFrag}, e ∈ put k u m → e = (k, u) ∨ e ∈ m := by
  intro m
  induction m with
  | nil => intro e h; simpa [put] using h
  | cons a m ih =>
    intro e h
    simp only [put] at h
    split at h
    · simpa using h
    · split at h
      · exact .inr h
      · rcases List.mem_cons.1 h with rfl | h
        · exact .inr (List.mem_cons_self ..)
        · rcases ih h with h | h
          · exact .inl h
          · exact .inr (List.mem_cons_of_mem _ h)

theorem queueFrags_flow : ∀ {fs : List Pkt} {s : St} {id : Nat} {r : St × List Pkt}, (∀ f ∈ fs, ∀ x, H { f with txSeq := some x }) → Held H s →
    queueFrags s id fs = .ok r → Calm s r.1 ∧ Held H r.1 ∧ ∀ f ∈ r.2, H f := by
  intro fs
  induction fs with
  | nil => intro s id r _ hh h; cases h; exact ⟨.refl _, hh, by simp⟩
  | cons f fs ih =>
    intro s id r hq hh h
    simp only [queueFrags] at h
    split at h
    · cases h
    · simp only [bind_ok] at h
      obtain ⟨r1, h1, r2, h2, h3⟩ := h
      cases h3
      obtain ⟨c1, hh1⟩ := assignTx_flow hh h1
      have hf : H { f with txSeq := some r1.2 } := hq f (List.mem_cons_self ..) _
      have hst : Held H (storeFrag r1.1 id { f with txSeq := some r1.2 } r1.2 s.nTx) := by
        intro e he
        rcases mem_put_of he with rfl | he
        · exact hf
        · exact hh1 e he
      obtain ⟨c2, hh2, hq2⟩ := ih (fun p hp => hq p (List.mem_cons_of_mem _ hp)) hst h2
      refine ⟨(c1.trans (t := r1.1) ?_).trans c2, hh2, ?_⟩
      · exact ⟨rfl, rfl, rfl, rfl, rfl, rfl, rfl, rfl, rfl, [], by simp [storeFrag], by simp⟩
      · intro g hg
        rcases List.mem_cons.1 hg with rfl | hg
        · exact hf
        · exact hq2 g hg

variable (hH : ∀ p x, H p → H { p with txSeq := some x }) (hHQ : ∀ p, H p → Q p)

include hHQ in
theorem sendFrags_flow {s s' : St} {p : Pkt} {b : Bool} {fs : List Pkt}
    (hq : ∀ f ∈ fs, (s.opts.relEnabled = false → fs.length = 1 → Q f) ∧
      (s.opts.relEnabled = true ∨ 1 < fs.length → ∀ q, Q { f with seq := some q }) ∧
      (s.opts.relEnabled = true → ∀ q x, H { f with seq := some q, txSeq := some x })) (hh : Held H s)
    (h : sendFrags env s p b fs = .ok s') : Flow env Q s s' ∧ Held H s' := by
  have has : ∀ (last : Nat) (fs : List Pkt) (g : Pkt), g ∈ (assignSeqs last fs).1 → ∃ f ∈ fs, ∃ q, g = { f with seq := some q } := by
    intro last fs
    induction fs generalizing last with
    | nil => intro g hg; simp [assignSeqs] at hg
    | cons f fs ih =>
      intro g hg
      simp only [assignSeqs] at hg
      rcases List.mem_cons.1 hg with rfl | hg
      · exact ⟨f, List.mem_cons_self .., _, rfl⟩
      · obtain ⟨f', hf', q, rfl⟩ := ih _ g hg
        exact ⟨f', List.mem_cons_of_mem _ hf', q, rfl⟩
  unfold sendFrags at h
  split at h
  · cases h
  · split at h
    · rename_i hc
      have hmany : s.opts.relEnabled = true ∨ 1 < fs.length := by simpa using hc
      have hall : ∀ g ∈ (assignSeqs s.lastSeq fs).1, Q g := by
        intro g hg
        obtain ⟨f, hf, q, rfl⟩ := has _ _ g hg
        exact (hq f hf).2.1 hmany q
      simp only at h
      split at h
      · rename_i hc'
        simp only [bind_ok] at h
        obtain ⟨r1, h1, h2⟩ := h
        unfold handleOutgoing at h1
        have hrel : s.opts.relEnabled = true := by
          simp only [Bool.and_eq_true] at hc'; exact hc'.1
        have hall' : ∀ g ∈ (assignSeqs s.lastSeq fs).1, ∀ x, H { g with txSeq := some x } := by
          intro g hg x
          obtain ⟨f, hf, q, rfl⟩ := has _ _ g hg
          exact (hq f hf).2.2 hrel q x
        obtain ⟨c, hh1, hq1⟩ := queueFrags_flow hall' (by exact hh) h1
        obtain ⟨f, hh2⟩ := sendAll_flow (fun g hg => hHQ g (hq1 g hg)) hh1 h2
        refine ⟨(Flow.of_calm (Calm.trans ?_ c)).trans f, hh2⟩
        exact ⟨rfl, rfl, rfl, rfl, rfl, rfl, rfl, rfl, rfl, [_], rfl, by simp [Out.sends]⟩
      · obtain ⟨f, hh2⟩ := sendAll_flow (s := { s with lastSeq := (assignSeqs s.lastSeq fs).2 }) hall (by exact hh) h
        refine ⟨(Flow.of_calm ?_).trans f, hh2⟩
        exact ⟨rfl, rfl, rfl, rfl, rfl, rfl, rfl, rfl, rfl, [], by simp, by simp⟩
    · rename_i hc
      simp only [Bool.or_eq_true, decide_eq_true_eq, not_or] at hc
      refine sendAll_flow ?_ hh h
      intro f hf
      refine (hq f hf).1 (by simpa using hc.1) ?_
      have := List.length_pos_of_mem hf
      omega

include hHQ in
theorem send_flow {s s' : St} {k : Kind} {t : SendTags} {net : Bytes}
    (hq : ∀ fs, makeFrags env s.opts { hdr := encodeFields s.opts k t, frag := some net } = .ok (some fs) →
      ∀ f ∈ fs, (s.opts.relEnabled = false → fs.length = 1 → Q f) ∧
      (s.opts.relEnabled = true ∨ 1 < fs.length → ∀ q, Q { f with seq := some q }) ∧
      (s.opts.relEnabled = true → ∀ q x, H { f with seq := some q, txSeq := some x })) (hh : Held H s)
    (h : send env s k t net = .ok s') : Flow env Q s s' ∧ Held H s' := by
  rcases sendNet_cases h with ⟨_, rfl⟩ | ⟨fs, h1, h2⟩
  · exact ⟨.of_calm ⟨rfl, rfl, rfl, rfl, rfl, rfl, rfl, rfl, rfl, [.fragError], rfl, by simp [Out.sends]⟩, hh⟩
  · exact sendFrags_flow hHQ (hq fs h1) hh h2

theorem findLost_flow {s : St} {k : Nat} {r : St × List Nat} (hh : Held H s) (h : findLost s k = .ok r) : Calm s r.1 ∧ Held H r.1 := by
  unfold findLost at h
  split at h
  · cases h
  · split at h
    · cases h
    · cases h
      refine ⟨⟨rfl, rfl, rfl, rfl, rfl, rfl, rfl, rfl, rfl, [], by simp, by simp⟩, ?_⟩
      intro e he
      obtain ⟨e0, h0, rfl⟩ := List.mem_map.1 he
      split <;> exact hh e0 h0

theorem onAcknowledged_flow {s s' : St} {k : Nat} (hh : Held H s) (h : onAcknowledged s k = .ok s') : Calm s s' ∧ Held H s' := by
  unfold onAcknowledged at h
  split at h
  · cases h
  · simp only at h
    split at h
    · cases h
    · obtain ⟨c, hh'⟩ := deleteUnacked_flow (by exact hh) h
      refine ⟨Calm.trans ?_ c, hh'⟩
      refine ⟨rfl, rfl, rfl, rfl, rfl, rfl, rfl, rfl, rfl, _, rfl, ?_⟩
      intro o ho
      split at ho
      · cases List.mem_singleton.1 ho
        split <;> simp [Out.sends]
      · cases ho

theorem deleteOthers_flow : ∀ {ts : List Nat} {s : St} {k : Nat} {r : St × List Nat}, Held H s → deleteOthers s k ts = .ok r →
    Calm s r.1 ∧ Held H r.1 := by
  intro ts
  induction ts with
  | nil => intro s k r hh h; cases h; exact ⟨.refl _, hh⟩
  | cons t ts ih =>
    intro s k r hh h
    simp only [deleteOthers] at h
    split at h
    · exact ih hh h
    · simp only [bind_ok] at h
      obtain ⟨s1, h1, r2, h2, h3⟩ := h
      cases h3
      obtain ⟨c, hh1⟩ := deleteUnacked_flow hh h1
      obtain ⟨c', hh2⟩ := ih hh1 h2
      exact ⟨c.trans c', hh2⟩

theorem giveUp_flow {s : St} {k : Nat} {u : UFrag} {r : St × List Nat} (hh : Held H s) (h : giveUp s k u = .ok r) :
    Calm s r.1 ∧ Held H r.1 := by
  unfold giveUp at h
  simp only [bind_ok] at h
  obtain ⟨r1, h1, h⟩ := h
  split at h
  · cases h
  · simp only [bind_ok] at h
    obtain ⟨s2, h2, h3⟩ := h
    cases h3
    obtain ⟨c1, hh1⟩ := deleteOthers_flow hh h1
    obtain ⟨c2, hh2⟩ := deleteUnacked_flow (by exact hh1) h2
    refine ⟨(c1.trans (u := s2) (Calm.trans ?_ c2)), hh2⟩
    refine ⟨rfl, rfl, rfl, rfl, rfl, rfl, rfl, rfl, rfl, _, rfl, ?_⟩
    intro o ho
    rcases List.mem_cons.1 ho with rfl | ho
    · simp [Out.sends]
    · split at ho
      · cases List.mem_singleton.1 ho; simp [Out.sends]
      · cases ho

include hH hHQ in
theorem resend_flow {s : St} {k : Nat} {u : UFrag} {r : St × List Nat} (hu : H u.pkt) (hh : Held H s) (h : resend env s k u = .ok r) :
    Flow env Q s r.1 ∧ Held H r.1 := by
  unfold resend at h
  simp only [bind_ok] at h
  obtain ⟨r1, h1, h⟩ := h
  split at h
  · cases h
  · simp only [bind_ok] at h
    obtain ⟨s2, h2, s3, h3, h4⟩ := h
    cases h4
    obtain ⟨c1, hh1⟩ := assignTx_flow hh h1
    obtain ⟨c2, hh2⟩ := deleteUnacked_flow (H := H) (by
      intro e he
      rcases mem_put_of he with rfl | he
      · exact hH _ _ hu
      · exact hh1 e he) h2
    refine ⟨.send (.of_calm (c1.trans (u := s2) (Calm.trans ?_ c2))) (hHQ _ (hH _ _ hu)) h3, ?_⟩
    · exact ⟨rfl, rfl, rfl, rfl, rfl, rfl, rfl, rfl, rfl, [], by simp, by simp⟩
    · unfold Held; rw [sendLp_unacked h3]; exact hh2

include hH hHQ in
theorem onLost_flow {s : St} {k : Nat} {r : St × List Nat} (hh : Held H s) (h : onLost env s k = .ok r) : Flow env Q s r.1 ∧ Held H r.1 := by
  unfold onLost at h
  split at h
  · cases h
  · rename_i u hu
    have hq : H u.pkt := by
      unfold look at hu
      obtain ⟨e, he, rfl⟩ := Option.map_eq_some_iff.1 hu
      exact hh e (List.mem_of_find?_eq_some he)
    split at h
    · obtain ⟨c, hh'⟩ := giveUp_flow hh h
      exact ⟨.of_calm c, hh'⟩
    · exact resend_flow hH hHQ hq hh h

include hH hHQ in
theorem handleLost_flow : ∀ {ts : List Nat} {s s' : St} {r : List Nat}, Held H s → handleLost env s r ts = .ok s' →
    Flow env Q s s' ∧ Held H s' := by
  intro ts
  induction ts with
  | nil => intro s s' r hh h; cases h; exact ⟨.refl _, hh⟩
  | cons t ts ih =>
    intro s s' r hh h
    simp only [handleLost] at h
    split at h
    · exact ih hh h
    · simp only [bind_ok] at h
      obtain ⟨r1, h1, h2⟩ := h
      obtain ⟨f1, hh1⟩ := onLost_flow hH hHQ hh h1
      obtain ⟨f2, hh2⟩ := ih hh1 h2
      exact ⟨f1.trans f2, hh2⟩

include hH hHQ in
theorem processAcks_flow : ∀ {ks : List Nat} {s s' : St}, Held H s → processAcks env s ks = .ok s' → Flow env Q s s' ∧ Held H s' := by
  intro ks
  induction ks with
  | nil => intro s s' hh h; cases h; exact ⟨.refl _, hh⟩
  | cons k ks ih =>
    intro s s' hh h
    simp only [processAcks, bind_ok] at h
    obtain ⟨s1, h1, h2⟩ := h
    have : Flow env Q s s1 ∧ Held H s1 := by
      unfold processAck at h1
      split at h1
      · cases h1; exact ⟨.refl _, hh⟩
      · simp only [bind_ok] at h1
        obtain ⟨r1, h1, s2, h2, h3⟩ := h1
        obtain ⟨c1, hh1⟩ := findLost_flow hh h1
        obtain ⟨c2, hh2⟩ := onAcknowledged_flow hh1 h2
        obtain ⟨f3, hh3⟩ := handleLost_flow hH hHQ hh2 h3
        exact ⟨(Flow.of_calm (c1.trans c2)).trans f3, hh3⟩
    obtain ⟨f1, hh1⟩ := this
    obtain ⟨f2, hh2⟩ := ih hh1 h2
    exact ⟨f1.trans f2, hh2⟩

theorem flushAcks_flow (h0 : Q {}) : ∀ {n : Nat} {s s' : St}, Held H s → flushAcks env n s = .ok s' →
    Flow env Q s s' ∧ Held H s' ∧ s'.ackQueue = [] := by
  intro n
  induction n with
  | zero => intro s s' hh h; unfold flushAcks at h; split at h <;> cases h; exact ⟨.refl _, hh, by assumption⟩
  | succ n ih =>
    intro s s' hh h
    unfold flushAcks at h
    split at h
    · cases h; exact ⟨.refl _, hh, by assumption⟩
    · simp only [bind_ok] at h
      obtain ⟨s1, h1, h⟩ := h
      split at h
      · have hh1 : Held H s1 := by unfold Held; rw [sendLp_unacked h1]; exact hh
        obtain ⟨f, hh2, he⟩ := ih hh1 h
        exact ⟨(Flow.send (.refl _) h0 h1).trans f, hh2, he⟩
      · cases h

end

theorem accept_calm (env : Env) (s : St) (e : Nat) (p : Pkt) : Calm s (accept env s e p) ∧ (accept env s e p).unacked = s.unacked := by
  have hr : Calm s (receiveFragment s e p).1 ∧ (receiveFragment s e p).1.unacked = s.unacked := by
    rcases receiveFragment_cases s e p with ⟨h1, _⟩ | ⟨_, _, h1, _⟩ | ⟨k, i, n, _, h1⟩
    · rw [h1]; exact ⟨.refl _, rfl⟩
    · rw [h1]; exact ⟨.refl _, rfl⟩
    · rw [h1]
      unfold addFragment
      simp only
      repeat' split
      all_goals exact ⟨⟨rfl, rfl, rfl, rfl, rfl, rfl, rfl, rfl, rfl, [], by simp [setPart], by simp⟩, rfl⟩
  have hd : ∀ (o : Opts) net h, ∀ x ∈ decodeNet env o net h, x.sends = none ∧ x ≠ .marked := by
    intro o net h x hx
    unfold decodeNet at hx
    repeat' split at hx
    all_goals simp only [List.mem_singleton, List.not_mem_nil] at hx
    all_goals (subst hx; simp [Out.sends])
  unfold accept
  split
  · exact ⟨.refl _, rfl⟩
  · split
    · exact ⟨.refl _, rfl⟩
    · simp only
      split
      · exact hr
      · exact ⟨hr.1.trans ⟨rfl, rfl, rfl, rfl, rfl, rfl, rfl, rfl, rfl, [.lpInvalid], rfl, by simp [Out.sends]⟩, hr.2⟩
      · refine ⟨hr.1.trans ⟨rfl, rfl, rfl, rfl, rfl, rfl, rfl, rfl, rfl, _, rfl, ?_⟩, hr.2⟩
        intro o ho
        rcases List.mem_cons.1 ho with rfl | ho
        · simp [Out.sends]
        · exact hd _ _ _ o ho

/-- A step, by kind of event. -/
inductive StepFlow (env : Env) (Q : Pkt → Prop) (s s' : St) : Event → Prop
  | send {k t net} : Flow env Q s s' → StepFlow env Q s s' (.send k t net)
  | receive {e p s1 s2} : s.opts.relEnabled = true → Flow env Q s s1 → s2 = (noteFrame env s1 p).1 → Calm s2 s' → StepFlow env Q s s' (.receive e p)
  | receiveOff {e p} : s.opts.relEnabled = false → Calm s s' → StepFlow env Q s s' (.receive e p)
  | rto {tx} : Flow env Q s s' → StepFlow env Q s s' (.rto tx)
  | idle {s1 : St} : s.idleTimer = true → s1 = { s with idleTimer := false } → Flow env Q s1 s' → s'.ackQueue = [] → StepFlow env Q s s' .idle
  | idleOff : s.idleTimer = false → s' = s → StepFlow env Q s s' .idle
  | dropTimer {k} : Calm s s' → StepFlow env Q s s' (.dropTimer k)
  | tick {d} : s' = { s with now := s.now + d } → StepFlow env Q s s' (.tick d)
  | setOptions {o} : s' = setOptions s o → StepFlow env Q s s' (.setOptions o)

theorem step_flow {env : Env} {Q H : Pkt → Prop} (hH : ∀ p x, H p → H { p with txSeq := some x }) (hHQ : ∀ p, H p → Q p) (h0 : Q {}) {s s' : St} {ev : Event}
    (hsend : ∀ k t net, ev = .send k t net →
      ∀ fs, makeFrags env s.opts { hdr := encodeFields s.opts k t, frag := some net } = .ok (some fs) →
      ∀ f ∈ fs, (s.opts.relEnabled = false → fs.length = 1 → Q f) ∧
      (s.opts.relEnabled = true ∨ 1 < fs.length → ∀ q, Q { f with seq := some q }) ∧
      (s.opts.relEnabled = true → ∀ q x, H { f with seq := some q, txSeq := some x }))
    (hh : Held H s) (h : step env s ev = .ok s') : StepFlow env Q s s' ev ∧ Held H s' := by
  cases ev with
  | send k t net =>
    obtain ⟨f, hh'⟩ := send_flow hHQ (hsend k t net rfl) hh h
    exact ⟨.send f, hh'⟩
  | receive e p =>
    simp only [step, receive] at h
    split at h
    · rename_i hrel
      split at h
      · cases h
      · rename_i r hr
        cases h
        obtain ⟨s1, h1, rfl⟩ := processIncoming_ok hr
        obtain ⟨f, hh1⟩ := processAcks_flow hH hHQ hh h1
        have hu := noteFrame_same env s1 p
        have hh2 : Held H (noteFrame env s1 p).1 := by unfold Held; rw [hu.2.2.2.2.1]; exact hh1
        split
        · obtain ⟨c, hc⟩ := accept_calm env (noteFrame env s1 p).1 e p
          exact ⟨.receive hrel f rfl c, by unfold Held; rw [hc]; exact hh2⟩
        · exact ⟨.receive hrel f rfl ⟨rfl, rfl, rfl, rfl, rfl, rfl, rfl, rfl, rfl, [.duplicate], rfl, by simp [Out.sends]⟩, hh2⟩
    · rename_i hrel
      cases h
      obtain ⟨c, hc⟩ := accept_calm env s e p
      exact ⟨.receiveOff (by simpa using hrel) c, by unfold Held; rw [hc]; exact hh⟩
  | rto tx =>
    simp only [step] at h
    split at h
    · cases h; exact ⟨.rto (.refl _), hh⟩
    · simp only [bind_ok] at h
      obtain ⟨r, h1, h2⟩ := h
      cases h2
      obtain ⟨f, hh'⟩ := onLost_flow hH hHQ hh h1
      exact ⟨.rto f, hh'⟩
  | idle =>
    simp only [step] at h
    split at h
    · rename_i hi
      obtain ⟨f, hh', he⟩ := flushAcks_flow h0 (s := { s with idleTimer := false }) (by exact hh) h
      exact ⟨.idle hi rfl f he, hh'⟩
    · rename_i hi
      cases h; exact ⟨.idleOff (by simpa using hi) rfl, hh⟩
  | dropTimer k =>
    cases h
    unfold dropPartial
    split
    · exact ⟨.dropTimer (.refl _), hh⟩
    · split
      · exact ⟨.dropTimer ⟨rfl, rfl, rfl, rfl, rfl, rfl, rfl, rfl, rfl, [.reassemblyTimeout k], rfl, by simp [Out.sends]⟩, hh⟩
      · exact ⟨.dropTimer (.refl _), hh⟩
  | tick d => cases h; exact ⟨.tick rfl, hh⟩
  | setOptions o => cases h; exact ⟨.setOptions rfl, hh⟩

end Verif.Lp
