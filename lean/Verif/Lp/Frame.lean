/-
What the sending side leaves alone: the options, the clock, the partially received packets; and which effects it has.
-/
import Verif.Lp.Model

namespace Verif.Lp

theorem bind_ok {ε α β : Type} {x : Except ε α} {f : α → Except ε β} {b : β} :
    (x >>= f) = .ok b ↔ ∃ a, x = .ok a ∧ f a = .ok b := by
  cases x with
  | error e => simp [bind, Except.bind]
  | ok a => simp [bind, Except.bind]

/-- Effects of the sending side. -/
def Out.sending : Out → Bool
  | .frame _ | .overMtu _ | .fragError | .marked | .queued .. | .acknowledged _ | .retransmitted _ | .exhausted _ | .droppedInterest .. => true
  | _ => false

/-- From `s` to `s'` only the sending side did something. -/
structure SendOnly (s s' : St) : Prop where
  opts : s'.opts = s.opts
  now : s'.now = s.now
  parts : s'.parts = s.parts
  recent : s'.recent = s.recent ∧ s'.recentQ = s.recentQ
  out : ∃ l, s'.out = s.out ++ l ∧ ∀ o ∈ l, o.sending = true

theorem SendOnly.refl (s : St) : SendOnly s s := ⟨rfl, rfl, rfl, ⟨rfl, rfl⟩, [], by simp, by simp⟩

theorem SendOnly.trans {s t u : St} (h : SendOnly s t) (h' : SendOnly t u) : SendOnly s u := by
  obtain ⟨a, b, c, ⟨r, q⟩, l, d, e⟩ := h
  obtain ⟨a', b', c', ⟨r', q'⟩, l', d', e'⟩ := h'
  refine ⟨by rw [a', a], by rw [b', b], by rw [c', c], ⟨by rw [r', r], by rw [q', q]⟩, l ++ l', by rw [d', d, List.append_assoc], ?_⟩
  intro o ho
  rcases List.mem_append.1 ho with ho | ho
  · exact e o ho
  · exact e' o ho

theorem SendOnly.after {s t u : St} (h' : SendOnly t u) (h : SendOnly s t) : SendOnly s u := h.trans h'

/-- Nothing but fields that are not listed changed. -/
theorem SendOnly.same {s s' : St} (h1 : s'.opts = s.opts) (h2 : s'.now = s.now) (h3 : s'.parts = s.parts)
    (h5 : s'.recent = s.recent ∧ s'.recentQ = s.recentQ) (h4 : s'.out = s.out) :
    SendOnly s s' := ⟨h1, h2, h3, h5, [], by simp [h4], by simp⟩

theorem SendOnly.emit {s : St} {o : Out} (h : o.sending = true) : SendOnly s (emit s o) :=
  ⟨rfl, rfl, rfl, ⟨rfl, rfl⟩, [o], rfl, by simpa using h⟩

theorem SendOnly.add {s s' : St} {l : List Out} (h1 : s'.opts = s.opts) (h2 : s'.now = s.now) (h3 : s'.parts = s.parts)
    (h5 : s'.recent = s.recent ∧ s'.recentQ = s.recentQ)
    (h4 : s'.out = s.out ++ l) (hl : ∀ o ∈ l, o.sending = true) : SendOnly s s' := ⟨h1, h2, h3, h5, l, h4, hl⟩

theorem checkCongestion_only (env : Env) (s : St) (p : Pkt) : SendOnly s (checkCongestion env s p).1 := by
  simp only [checkCongestion]
  split
  · exact .same rfl rfl rfl ⟨rfl, rfl⟩ rfl
  · split
    · split
      · exact .same rfl rfl rfl ⟨rfl, rfl⟩ rfl
      · split
        · exact .add (l := [.marked]) rfl rfl rfl ⟨rfl, rfl⟩ rfl (by simp [Out.sending])
        · exact .same rfl rfl rfl ⟨rfl, rfl⟩ rfl
    · split <;> exact .same rfl rfl rfl ⟨rfl, rfl⟩ rfl

theorem piggyback_only {s : St} {m : Option Nat} {p : Pkt} {r : St × Pkt} (h : piggyback s m p = .ok r) : SendOnly s r.1 := by
  unfold piggyback at h
  split at h
  · cases h
  · cases h; exact .same rfl rfl rfl ⟨rfl, rfl⟩ rfl

theorem attachAcks_only {s : St} {m : Option Nat} {p : Pkt} {r : St × Pkt} (h : attachAcks s m p = .ok r) : SendOnly s r.1 := by
  unfold attachAcks at h
  split at h
  · exact piggyback_only h
  · cases h; exact .refl _

theorem attachMark_only (env : Env) (s : St) (p : Pkt) : SendOnly s (attachMark env s p).1 := by
  unfold attachMark
  split
  · exact checkCongestion_only ..
  · exact .refl _

theorem transmit_only (m : Option Nat) (s : St) (p : Pkt) : SendOnly s (transmit m s p) := by
  unfold transmit
  split <;> exact .emit rfl

theorem sendLp_ok {env : Env} {s s' : St} {p : Pkt} (h : sendLp env s p = .ok s') :
    ∃ r, attachAcks s (effMtu env s.opts) p = .ok r ∧
      s' = transmit (effMtu env s.opts) (attachMark env r.1 r.2).1 (attachMark env r.1 r.2).2 := by
  unfold sendLp at h
  simp only at h
  cases hr : attachAcks s (effMtu env s.opts) p with
  | error e => rw [hr] at h; cases h
  | ok r => rw [hr] at h; exact ⟨r, rfl, (Except.ok.inj h).symm⟩

theorem sendLp_only {env : Env} {s s' : St} {p : Pkt} (h : sendLp env s p = .ok s') : SendOnly s s' := by
  obtain ⟨r, h1, rfl⟩ := sendLp_ok h
  exact ((attachAcks_only h1).trans (attachMark_only ..)).trans (transmit_only ..)

theorem sendAll_only {env : Env} : ∀ {ps : List Pkt} {s s' : St}, sendAll env s ps = .ok s' → SendOnly s s' := by
  intro ps
  induction ps with
  | nil => intro s s' h; cases h; exact .refl _
  | cons p ps ih =>
    intro s s' h
    simp only [sendAll, bind_ok] at h
    obtain ⟨s1, h1, h2⟩ := h
    exact (sendLp_only h1).trans (ih h2)

theorem assignTx_ok {s : St} {r : St × Nat} (h : assignTx s = .ok r) :
    r.2 = (s.lastTx + 1) % W ∧ r.1 = { s with lastTx := (s.lastTx + 1) % W, nTx := s.nTx + 1 } := by
  unfold assignTx at h
  simp only at h
  split at h
  · cases h; exact ⟨rfl, rfl⟩
  · split at h
    · cases h
    · split at h
      · cases h
      · split at h
        · cases h
        · cases h; exact ⟨rfl, rfl⟩

theorem assignTx_only {s : St} {r : St × Nat} (h : assignTx s = .ok r) : SendOnly s r.1 := by
  rw [(assignTx_ok h).2]; exact .same rfl rfl rfl ⟨rfl, rfl⟩ rfl

theorem queueFrags_only : ∀ {fs : List Pkt} {s : St} {id : Nat} {r : St × List Pkt}, queueFrags s id fs = .ok r → SendOnly s r.1 := by
  intro fs
  induction fs with
  | nil => intro s id r h; cases h; exact .refl _
  | cons f fs ih =>
    intro s id r h
    simp only [queueFrags] at h
    split at h
    · cases h
    · simp only [bind_ok] at h
      obtain ⟨r1, h1, r2, h2, h3⟩ := h
      cases h3
      have b := ih h2
      have a := assignTx_only h1
      refine SendOnly.trans (SendOnly.trans a ?_) b
      exact .same rfl rfl rfl ⟨rfl, rfl⟩ rfl

theorem handleOutgoing_only {s : St} {fs : List Pkt} {p : Pkt} {b : Bool} {r : St × List Pkt} (h : handleOutgoing s fs p b = .ok r) :
    SendOnly s r.1 := by
  unfold handleOutgoing at h
  exact (queueFrags_only h).after (.add rfl rfl rfl ⟨rfl, rfl⟩ rfl (by simp [Out.sending]))

theorem deleteUnacked_only {s s' : St} {k : Nat} (h : deleteUnacked s k = .ok s') : SendOnly s s' := by
  unfold deleteUnacked at h
  split at h
  · cases h
  · split at h
    · cases h
    · simp only at h
      split at h
      · cases h; exact .same rfl rfl rfl ⟨rfl, rfl⟩ rfl
      · split at h <;> (cases h; exact .same rfl rfl rfl ⟨rfl, rfl⟩ rfl)

theorem findLost_only {s : St} {k : Nat} {r : St × List Nat} (h : findLost s k = .ok r) : SendOnly s r.1 := by
  unfold findLost at h
  split at h
  · cases h
  · split at h
    · cases h
    · cases h; exact .same rfl rfl rfl ⟨rfl, rfl⟩ rfl

theorem onAcknowledged_only {s s' : St} {k : Nat} (h : onAcknowledged s k = .ok s') : SendOnly s s' := by
  unfold onAcknowledged at h
  split at h
  · cases h
  · simp only at h
    split at h
    · cases h
    · refine (deleteUnacked_only h).after (.add rfl rfl rfl ⟨rfl, rfl⟩ rfl ?_)
      intro o ho
      split at ho
      · cases List.mem_singleton.1 ho
        split <;> rfl
      · cases ho

theorem deleteOthers_only : ∀ {ts : List Nat} {s : St} {k : Nat} {r : St × List Nat}, deleteOthers s k ts = .ok r → SendOnly s r.1 := by
  intro ts
  induction ts with
  | nil => intro s k r h; cases h; exact .refl _
  | cons t ts ih =>
    intro s k r h
    simp only [deleteOthers] at h
    split at h
    · exact ih h
    · simp only [bind_ok] at h
      obtain ⟨s1, h1, r2, h2, h3⟩ := h
      cases h3
      have b := ih h2
      exact (deleteUnacked_only h1).trans b

theorem giveUp_only {s : St} {k : Nat} {u : UFrag} {r : St × List Nat} (h : giveUp s k u = .ok r) : SendOnly s r.1 := by
  unfold giveUp at h
  simp only [bind_ok] at h
  obtain ⟨r1, h1, h⟩ := h
  split at h
  · cases h
  · simp only [bind_ok] at h
    obtain ⟨s2, h2, h3⟩ := h
    cases h3
    have b := deleteUnacked_only h2
    have a := deleteOthers_only h1
    refine SendOnly.trans (SendOnly.trans a ?_) b
    refine .add rfl rfl rfl ⟨rfl, rfl⟩ rfl ?_
    intro o ho
    rcases List.mem_cons.1 ho with rfl | ho
    · rfl
    · split at ho
      · cases List.mem_singleton.1 ho; rfl
      · cases ho

theorem resend_only {env : Env} {s : St} {k : Nat} {u : UFrag} {r : St × List Nat} (h : resend env s k u = .ok r) : SendOnly s r.1 := by
  unfold resend at h
  simp only [bind_ok] at h
  obtain ⟨r1, h1, h⟩ := h
  split at h
  · cases h
  · simp only [bind_ok] at h
    obtain ⟨s2, h2, s3, h3, h4⟩ := h
    cases h4
    have c := sendLp_only h3
    have b := deleteUnacked_only h2
    have a := assignTx_only h1
    refine SendOnly.trans (SendOnly.trans (SendOnly.trans a ?_) b) c
    exact .same rfl rfl rfl ⟨rfl, rfl⟩ rfl

theorem onLost_only {env : Env} {s : St} {k : Nat} {r : St × List Nat} (h : onLost env s k = .ok r) : SendOnly s r.1 := by
  unfold onLost at h
  split at h
  · cases h
  · split at h
    · exact giveUp_only h
    · exact resend_only h

theorem handleLost_only {env : Env} : ∀ {ts : List Nat} {s s' : St} {r : List Nat}, handleLost env s r ts = .ok s' → SendOnly s s' := by
  intro ts
  induction ts with
  | nil => intro s s' r h; cases h; exact .refl _
  | cons t ts ih =>
    intro s s' r h
    simp only [handleLost] at h
    split at h
    · exact ih h
    · simp only [bind_ok] at h
      obtain ⟨r1, h1, h2⟩ := h
      exact (onLost_only h1).trans (ih h2)

theorem processAck_only {env : Env} {s s' : St} {k : Nat} (h : processAck env s k = .ok s') : SendOnly s s' := by
  unfold processAck at h
  split at h
  · cases h; exact .refl _
  · simp only [bind_ok] at h
    obtain ⟨r1, h1, s2, h2, h3⟩ := h
    exact ((findLost_only h1).trans (onAcknowledged_only h2)).trans (handleLost_only h3)

theorem processAcks_only {env : Env} : ∀ {ks : List Nat} {s s' : St}, processAcks env s ks = .ok s' → SendOnly s s' := by
  intro ks
  induction ks with
  | nil => intro s s' h; cases h; exact .refl _
  | cons k ks ih =>
    intro s s' h
    simp only [processAcks, bind_ok] at h
    obtain ⟨s1, h1, h2⟩ := h
    exact (processAck_only h1).trans (ih h2)

/-- As `SendOnly`, but the received Sequences may be noted. -/
structure RecvOnly (s s' : St) : Prop where
  opts : s'.opts = s.opts
  now : s'.now = s.now
  parts : s'.parts = s.parts
  out : ∃ l, s'.out = s.out ++ l ∧ ∀ o ∈ l, o.sending = true

theorem noteFrame_same (env : Env) (s : St) (p : Pkt) :
    (noteFrame env s p).1.opts = s.opts ∧ (noteFrame env s p).1.now = s.now ∧ (noteFrame env s p).1.parts = s.parts ∧
    (noteFrame env s p).1.out = s.out ∧ (noteFrame env s p).1.unacked = s.unacked ∧ (noteFrame env s p).1.first = s.first ∧
    (noteFrame env s p).1.nets = s.nets ∧ (noteFrame env s p).1.nNet = s.nNet ∧ (noteFrame env s p).1.lastTx = s.lastTx ∧
    (noteFrame env s p).1.nTx = s.nTx ∧ (noteFrame env s p).1.lastSeq = s.lastSeq ∧ (noteFrame env s p).1.nextMark = s.nextMark ∧
    (noteFrame env s p).1.nMarked = s.nMarked ∧ (noteFrame env s p).1.nCheck = s.nCheck := by
  unfold noteFrame
  split
  · simp only
    split <;> exact ⟨rfl, rfl, rfl, rfl, rfl, rfl, rfl, rfl, rfl, rfl, rfl, rfl, rfl, rfl⟩
  · exact ⟨rfl, rfl, rfl, rfl, rfl, rfl, rfl, rfl, rfl, rfl, rfl, rfl, rfl, rfl⟩

theorem processIncoming_ok {env : Env} {s : St} {p : Pkt} {r : St × Bool} (h : processIncoming env s p = .ok r) :
    ∃ s1, processAcks env s p.acks = .ok s1 ∧ r = noteFrame env s1 p := by
  simp only [processIncoming, bind_ok] at h
  obtain ⟨s1, h1, h⟩ := h
  cases h
  exact ⟨s1, h1, rfl⟩

theorem processIncoming_only {env : Env} {s : St} {p : Pkt} {r : St × Bool} (h : processIncoming env s p = .ok r) : RecvOnly s r.1 := by
  obtain ⟨s1, h1, rfl⟩ := processIncoming_ok h
  obtain ⟨a, b, c, _, d⟩ := processAcks_only h1
  obtain ⟨a', b', c', d', _⟩ := noteFrame_same env s1 p
  exact ⟨by rw [a', a], by rw [b', b], by rw [c', c], by rw [d']; exact d⟩

theorem flushAcks_only {env : Env} : ∀ {n : Nat} {s s' : St}, flushAcks env n s = .ok s' → SendOnly s s' := by
  intro n
  induction n with
  | zero => intro s s' h; unfold flushAcks at h; split at h <;> cases h; exact .refl _
  | succ n ih =>
    intro s s' h
    unfold flushAcks at h
    split at h
    · cases h; exact .refl _
    · simp only [bind_ok] at h
      obtain ⟨s1, h1, h⟩ := h
      split at h
      · exact (sendLp_only h1).trans (ih h)
      · cases h

theorem sendFrags_only {env : Env} {s s' : St} {p : Pkt} {b : Bool} {fs : List Pkt} (h : sendFrags env s p b fs = .ok s') :
    SendOnly s s' := by
  unfold sendFrags at h
  split at h
  · cases h
  · split at h
    · simp only at h
      split at h
      · simp only [bind_ok] at h
        obtain ⟨r1, h1, h2⟩ := h
        exact ((sendAll_only h2).after (handleOutgoing_only h1)).after (.same rfl rfl rfl ⟨rfl, rfl⟩ rfl)
      · exact (sendAll_only h).after (.same rfl rfl rfl ⟨rfl, rfl⟩ rfl)
    · exact sendAll_only h

theorem sendNet_cases {env : Env} {s s' : St} {p : Pkt} {b : Bool} (h : sendNet env s p b = .ok s') :
    (makeFrags env s.opts p = .ok none ∧ s' = emit s .fragError) ∨
    ∃ fs, makeFrags env s.opts p = .ok (some fs) ∧ sendFrags env s p b fs = .ok s' := by
  unfold sendNet at h
  split at h
  · cases h
  · cases h; left; exact ⟨by assumption, rfl⟩
  · right; exact ⟨_, by assumption, h⟩

theorem sendNet_only {env : Env} {s s' : St} {p : Pkt} {b : Bool} (h : sendNet env s p b = .ok s') : SendOnly s s' := by
  rcases sendNet_cases h with ⟨_, rfl⟩ | ⟨fs, _, h⟩
  · exact .emit rfl
  · exact sendFrags_only h

theorem send_only {env : Env} {s s' : St} {k : Kind} {t : SendTags} {net : Bytes} (h : send env s k t net = .ok s') : SendOnly s s' :=
  sendNet_only h

end Verif.Lp
