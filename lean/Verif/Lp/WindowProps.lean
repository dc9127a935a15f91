/-
C48: the window of unacknowledged fragments.
-/
import Verif.Lp.Acts

namespace Verif.Lp

/-- The MTUs are at least the minimum that management and the channels accept, 64 octets (face-common.hpp `MIN_MTU`). -/
def MtuOk (env : Env) (o : Opts) (es : List Event) : Prop :=
  (∀ m, env.mtu = some m → 64 ≤ m) ∧ (∀ n, o.overrideMtu = some n → 64 ≤ n) ∧
  ∀ o', .setOptions o' ∈ es → ∀ n, o'.overrideMtu = some n → 64 ≤ n

theorem MtuOk.eff {env : Env} {o : Opts} {es : List Event} (h : MtuOk env o es) {m : Nat} (hm : effMtu env o = some m) : 64 ≤ m := by
  unfold effMtu at hm
  simp only [Option.map_eq_some_iff] at hm
  obtain ⟨a, ha, hb⟩ := hm
  have h1 := h.1 a ha
  split at hb
  · omega
  · rename_i n hn
    have := h.2.1 n hn
    omega

theorem reserve_le : reservedHeaderSpace + congestionMarkSize ≤ 64 := by decide

/-- An IDLE packet takes an Ack. -/
theorem idle_takes {env : Env} {s s' : St} (hr : s.opts.relEnabled = true) (hm : ∀ m, effMtu env s.opts = some m → 64 ≤ m)
    (ha : s.ackQueue ≠ []) (h : sendLp env s {} = .ok s') : s'.ackQueue.length < s.ackQueue.length ∧ s'.opts = s.opts := by
  have hpos := List.length_pos_iff.2 ha
  unfold sendLp attachAcks piggyback at h
  have hb : isBare {} = false := rfl
  simp only [hr, if_true, hb, Bool.false_eq_true, if_false] at h
  have hfit : 1 ≤ ackFit ((match effMtu env s.opts with | none => 8800 | some m => (m : Int)) -
      ((varSize 8800 : Int) - (varSize (wireSize {}) : Int)) - (wireSize {} : Nat)) s.ackQueue := by
    have h1 : ((varSize 8800 : Int) - (varSize (wireSize {}) : Int)) = 2 := by decide
    have h2 : wireSize {} = 2 := by decide
    have h3 : ackSize = 12 := by decide
    rw [h1, h2]
    cases hq : s.ackQueue with
    | nil => exact absurd hq ha
    | cons a q =>
      simp only [ackFit]
      rw [if_neg]
      · omega
      · cases he : effMtu env s.opts with
        | none => simp only; omega
        | some m => have := hm m he; simp only; omega
  generalize ackFit _ s.ackQueue = n at h hfit
  cases h
  obtain ⟨h1, _, _, _, h5, _⟩ := attachMark_eq env { s with ackQueue := s.ackQueue.drop n } { ({} : Pkt) with acks := ({} : Pkt).acks ++ s.ackQueue.take n }
  generalize attachMark env { s with ackQueue := s.ackQueue.drop n } { ({} : Pkt) with acks := ({} : Pkt).acks ++ s.ackQueue.take n } = r at *
  have hq : (transmit (effMtu env s.opts) r.1 r.2).ackQueue = r.1.ackQueue ∧ (transmit (effMtu env s.opts) r.1 r.2).opts = r.1.opts := by
    unfold transmit; split <;> exact ⟨rfl, rfl⟩
  refine ⟨?_, hq.2.trans h1.opts⟩
  rw [hq.1, h5]
  simp only [List.length_drop]
  omega

theorem flushAcks_fine {env : Env} : ∀ {n : Nat} {s : St}, s.ackQueue.length ≤ n → s.opts.relEnabled = true →
    (∀ m, effMtu env s.opts = some m → 64 ≤ m) → ∃ s', flushAcks env n s = .ok s' ∧ s'.ackQueue = [] := by
  intro n
  induction n with
  | zero =>
    intro s hl _ _
    have : s.ackQueue = [] := List.length_eq_zero_iff.1 (by omega)
    exact ⟨s, by unfold flushAcks; rw [if_pos this], this⟩
  | succ n ih =>
    intro s hl hr hm
    unfold flushAcks
    by_cases ha : s.ackQueue = []
    · rw [if_pos ha]; exact ⟨s, rfl, ha⟩
    · rw [if_neg ha]
      obtain ⟨s1, h1, _⟩ := sendLp_eq env (s := s) (p := {}) (fun _ => rfl)
      obtain ⟨h2, h3⟩ := idle_takes hr hm ha h1
      rw [h1]
      simp only [bind, Except.bind]
      rw [if_pos h2]
      exact ih (by omega) (by rw [h3]; exact hr) (by rw [h3]; exact hm)

/-! ## The idle timer runs only while reliability is enabled -/

theorem sendLp_idle {env : Env} {s s' : St} {p : Pkt} (h : sendLp env s p = .ok s') : s'.idleTimer = s.idleTimer ∧ s'.opts = s.opts := by
  unfold sendLp at h
  simp only at h
  split at h
  · cases h
  · rename_i r hr
    cases h
    have h1 : r.1.idleTimer = s.idleTimer ∧ r.1.opts = s.opts := by
      unfold attachAcks piggyback at hr
      split at hr
      · split at hr
        · cases hr
        · cases hr; exact ⟨rfl, rfl⟩
      · cases hr; exact ⟨rfl, rfl⟩
    have h2 : (attachMark env r.1 r.2).1.idleTimer = r.1.idleTimer ∧ (attachMark env r.1 r.2).1.opts = r.1.opts := by
      unfold attachMark checkCongestion
      simp only
      repeat' split
      all_goals exact ⟨rfl, rfl⟩
    have h3 : ∀ m t q, (transmit m t q).idleTimer = t.idleTimer ∧ (transmit m t q).opts = t.opts := by
      intro m t q; unfold transmit; split <;> exact ⟨rfl, rfl⟩
    exact ⟨(h3 _ _ _).1.trans (h2.1.trans h1.1), (h3 _ _ _).2.trans (h2.2.trans h1.2)⟩

/-- The idle timer runs only while reliability is enabled. -/
def IdleOk (s : St) : Prop := s.idleTimer = true → s.opts.relEnabled = true

/-- The idle timer and the options are as before. -/
abbrev Idle2 (s s' : St) : Prop := s'.idleTimer = s.idleTimer ∧ s'.opts = s.opts

theorem Idle2.trans {s t u : St} (h : Idle2 s t) (h' : Idle2 t u) : Idle2 s u := ⟨h'.1.trans h.1, h'.2.trans h.2⟩

theorem sendAll_idle {env : Env} : ∀ {ps : List Pkt} {s s' : St}, sendAll env s ps = .ok s' → Idle2 s s' := by
  intro ps
  induction ps with
  | nil => intro s s' h; cases h; exact ⟨rfl, rfl⟩
  | cons p ps ih =>
    intro s s' h
    simp only [sendAll, bind_ok] at h
    obtain ⟨s1, h1, h2⟩ := h
    exact Idle2.trans (sendLp_idle h1) (ih h2)

theorem deleteUnacked_idle {s s' : St} {k : Nat} (h : deleteUnacked s k = .ok s') : Idle2 s s' := by
  unfold deleteUnacked at h
  split at h
  · cases h
  · split at h
    · cases h
    · simp only at h
      split at h
      · cases h; exact ⟨rfl, rfl⟩
      · split at h <;> cases h <;> exact ⟨rfl, rfl⟩

theorem assignTx_idle {s : St} {r : St × Nat} (h : assignTx s = .ok r) : Idle2 s r.1 := by
  unfold assignTx at h
  simp only at h
  split at h
  · cases h; exact ⟨rfl, rfl⟩
  · split at h
    · cases h
    · split at h
      · cases h
      · split at h
        · cases h
        · cases h; exact ⟨rfl, rfl⟩

theorem queueFrags_idle {id : Nat} : ∀ {fs : List Pkt} {s : St} {r : St × List Pkt}, queueFrags s id fs = .ok r → Idle2 s r.1 := by
  intro fs
  induction fs with
  | nil => intro s r h; cases h; exact ⟨rfl, rfl⟩
  | cons f fs ih =>
    intro s r h
    unfold queueFrags at h
    split at h
    · cases h
    · simp only [bind_ok] at h
      obtain ⟨r1, h1, r2, h2, h3⟩ := h
      cases h3
      obtain ⟨a, b⟩ := assignTx_idle h1
      obtain ⟨c, d⟩ := ih h2
      exact ⟨c.trans a, d.trans b⟩

theorem deleteOthers_idle {k : Nat} : ∀ {ts : List Nat} {s : St} {r : St × List Nat}, deleteOthers s k ts = .ok r → Idle2 s r.1 := by
  intro ts
  induction ts with
  | nil => intro s r h; cases h; exact ⟨rfl, rfl⟩
  | cons t ts ih =>
    intro s r h
    unfold deleteOthers at h
    split at h
    · exact ih h
    · simp only [bind_ok] at h
      obtain ⟨s1, h1, r2, h2, h3⟩ := h
      cases h3
      obtain ⟨a, b⟩ := deleteUnacked_idle h1
      obtain ⟨c, d⟩ := ih h2
      exact ⟨c.trans a, d.trans b⟩

theorem onLost_idle {env : Env} {s : St} {k : Nat} {r : St × List Nat} (h : onLost env s k = .ok r) : Idle2 s r.1 := by
  unfold onLost at h
  split at h
  · cases h
  · split at h
    · unfold giveUp at h
      simp only [bind_ok] at h
      obtain ⟨r1, h1, h⟩ := h
      split at h
      · cases h
      · simp only [bind_ok] at h
        obtain ⟨s2, h2, h3⟩ := h
        cases h3
        obtain ⟨a, b⟩ := deleteOthers_idle h1
        obtain ⟨c, d⟩ := deleteUnacked_idle h2
        exact ⟨c.trans a, d.trans b⟩
    · unfold resend at h
      simp only [bind_ok] at h
      obtain ⟨r1, h1, h⟩ := h
      split at h
      · cases h
      · simp only [bind_ok] at h
        obtain ⟨s2, h2, s3, h3, h4⟩ := h
        cases h4
        obtain ⟨a, b⟩ := assignTx_idle h1
        obtain ⟨c, d⟩ := deleteUnacked_idle h2
        obtain ⟨e, f⟩ := sendLp_idle h3
        exact ⟨e.trans (c.trans a), f.trans (d.trans b)⟩

theorem handleLost_idle {env : Env} : ∀ {ts : List Nat} {s s' : St} {rem : List Nat}, handleLost env s rem ts = .ok s' → Idle2 s s' := by
  intro ts
  induction ts with
  | nil => intro s s' rem h; cases h; exact ⟨rfl, rfl⟩
  | cons t ts ih =>
    intro s s' rem h
    unfold handleLost at h
    split at h
    · exact ih h
    · simp only [bind_ok] at h
      obtain ⟨r, h1, h2⟩ := h
      exact Idle2.trans (onLost_idle h1) (ih h2)

theorem processAcks_idle {env : Env} : ∀ {ks : List Nat} {s s' : St}, processAcks env s ks = .ok s' → Idle2 s s' := by
  intro ks
  induction ks with
  | nil => intro s s' h; cases h; exact ⟨rfl, rfl⟩
  | cons k ks ih =>
    intro s s' h
    simp only [processAcks, bind_ok] at h
    obtain ⟨s1, h1, h2⟩ := h
    refine Idle2.trans ?_ (ih h2)
    unfold processAck at h1
    split at h1
    · cases h1; exact ⟨rfl, rfl⟩
    · simp only [bind_ok] at h1
      obtain ⟨r, h3, s2, h4, h5⟩ := h1
      have h6 : Idle2 s r.1 := by
        unfold findLost at h3
        split at h3
        · cases h3
        · split at h3
          · cases h3
          · cases h3; exact ⟨rfl, rfl⟩
      have h7 : Idle2 r.1 s2 := by
        unfold onAcknowledged at h4
        split at h4
        · cases h4
        · simp only at h4
          split at h4
          · cases h4
          · obtain ⟨a, b⟩ := deleteUnacked_idle h4
            exact ⟨a, b⟩
      exact Idle2.trans h6 (Idle2.trans h7 (handleLost_idle h5))

theorem accept_idle (env : Env) (s : St) (e : Nat) (p : Pkt) : Idle2 s (accept env s e p) := by
  obtain ⟨parts, l, h1, _⟩ := accept_quiet env s e p
  rw [h1]; exact ⟨rfl, rfl⟩

theorem flushAcks_idle {env : Env} : ∀ {n : Nat} {s s' : St}, flushAcks env n s = .ok s' → Idle2 s s' := by
  intro n
  induction n with
  | zero => intro s s' h; unfold flushAcks at h; split at h <;> cases h; exact ⟨rfl, rfl⟩
  | succ n ih =>
    intro s s' h
    unfold flushAcks at h
    split at h
    · cases h; exact ⟨rfl, rfl⟩
    · simp only [bind_ok] at h
      obtain ⟨s1, h1, h2⟩ := h
      split at h2
      · exact Idle2.trans (sendLp_idle h1) (ih h2)
      · cases h2

theorem step_idleOk {env : Env} {s s' : St} {ev : Event} (hi : IdleOk s) (h : step env s ev = .ok s') :
    IdleOk s' ∧ (s'.opts = s.opts ∨ ev = .setOptions s'.opts) := by
  have hsame : Idle2 s s' → IdleOk s' ∧ (s'.opts = s.opts ∨ ev = .setOptions s'.opts) := by
    rintro ⟨h1, h2⟩
    exact ⟨fun hx => by rw [h2]; exact hi (h1 ▸ hx), .inl h2⟩
  cases ev with
  | send k t net =>
    apply hsame
    simp only [step, send] at h
    unfold sendNet at h
    split at h
    · cases h
    · cases h; exact ⟨rfl, rfl⟩
    · unfold sendFrags at h
      split at h
      · cases h
      · split at h
        · simp only at h
          split at h
          · simp only [bind_ok] at h
            obtain ⟨r, h1, h2⟩ := h
            obtain ⟨a, b⟩ := queueFrags_idle h1
            obtain ⟨c, d⟩ := sendAll_idle h2
            exact ⟨c.trans a, d.trans b⟩
          · obtain ⟨a, b⟩ := sendAll_idle h
            exact ⟨a, b⟩
        · exact sendAll_idle h
  | receive e p =>
    simp only [step, receive] at h
    split at h
    · rename_i hr
      split at h
      · cases h
      rename_i r h1
      have hop : s'.opts = s.opts := by
        unfold processIncoming at h1
        simp only [bind_ok] at h1
        obtain ⟨t, h3, h4⟩ := h1
        have h5 := processAcks_idle h3
        have h6 := (noteFrame_same env t p).1
        obtain rfl : noteFrame env t p = r := Except.ok.inj h4
        cases h
        split
        · exact (accept_idle env _ e p).2.trans (h6.trans h5.2)
        · exact h6.trans h5.2
      exact ⟨fun _ => by rw [hop]; exact hr, .inl hop⟩
    · cases h
      exact hsame (accept_idle env s e p)
  | rto tx =>
    apply hsame
    simp only [step] at h
    split at h
    · cases h; exact ⟨rfl, rfl⟩
    · simp only [bind_ok] at h
      obtain ⟨r, h1, h2⟩ := h
      cases h2
      exact onLost_idle h1
  | idle =>
    simp only [step] at h
    split at h
    · have h1 := flushAcks_idle h
      refine ⟨fun hx => ?_, .inl h1.2⟩
      rw [h1.1] at hx; cases hx
    · cases h; exact hsame ⟨rfl, rfl⟩
  | dropTimer k =>
    apply hsame
    simp only [step] at h
    cases h
    unfold dropPartial
    split
    · exact ⟨rfl, rfl⟩
    · split <;> exact ⟨rfl, rfl⟩
  | tick d =>
    simp only [step] at h
    cases h
    exact hsame ⟨rfl, rfl⟩
  | setOptions o =>
    simp only [step] at h
    cases h
    refine ⟨?_, .inr rfl⟩
    intro hx
    simp only [setOptions, Bool.and_eq_true, Bool.not_eq_true', Bool.and_eq_false_iff, Bool.not_eq_false'] at hx
    obtain ⟨h1, h2 | h2⟩ := hx
    · rw [hi h1] at h2; cases h2
    · exact h2

/-! ## C48 -/

/-- C48: in every reachable state the window start is empty exactly if no fragment is stored, and otherwise is the key of a stored
fragment; `order` counts the TxSequences assigned before the fragment was last sent, so the window start is the one sent first. Its
TxSequence, and that of every other stored fragment, is the number with that place in the sequence of TxSequences modulo 2^64; no two
fragments have the same. -/
theorem C48_start {env : Env} {o : Opts} {q0 x0 : Nat} {es : List Event} {s : St} (hx : x0 < W) (h : run env (init o q0 x0) es = .ok s) :
    (s.first = none ↔ s.unacked = []) ∧
    (∀ f, s.first = some f → ∃ u, look s.unacked f = some u ∧ ∀ k v, (k, v) ∈ s.unacked → (k = f ∧ v = u) ∨ u.order < v.order) ∧
    (∀ k u, (k, u) ∈ s.unacked → k = (x0 + 1 + u.order) % W ∧ u.order < s.nTx ∧ s.nTx ≤ u.order + W ∧ u.pkt.txSeq = some k) ∧
    s.unacked.Pairwise (fun a b => a.1 ≠ b.1 ∧ a.2.order ≠ b.2.order) := by
  have hr := run_relOk (init_relOk o q0 x0 hx) h
  have hinj : ∀ e ∈ s.unacked, ∀ e' ∈ s.unacked, e.1 = e'.1 ↔ e.2.order = e'.2.order := by
    intro e he e' he'
    obtain ⟨h1, h2, h3⟩ := hr.win.key e he
    obtain ⟨h4, h5, h6⟩ := hr.win.key e' he'
    constructor
    · intro hk
      rw [h1, h4] at hk
      exact circ_inj h2 h3 h5 h6 hk
    · intro hk; rw [h1, h4, hk]
  refine ⟨?_, ?_, ?_, ?_⟩
  · constructor
    · intro hf
      apply Classical.byContradiction
      intro hn
      obtain ⟨e, _, h1, _⟩ := hr.win.first.2 hn
      rw [hf] at h1; cases h1
    · exact hr.win.first.1
  · intro f hf
    have hn : s.unacked ≠ [] := by
      intro hn; rw [hr.win.first.1 hn] at hf; cases hf
    obtain ⟨e, he, h1, h2⟩ := hr.win.first.2 hn
    rw [hf] at h1
    have := Option.some.inj h1
    subst this
    refine ⟨e.2, look_eq hr.win.keyed he, ?_⟩
    intro k v hv
    have h3 := h2 _ hv
    simp only at h3
    rcases Nat.lt_or_ge e.2.order v.order with h4 | h4
    · exact .inr h4
    · left
      have h5 : k = e.1 := (hinj _ hv _ he).2 (show v.order = e.2.order by omega)
      subst h5
      exact ⟨rfl, hr.win.keyed.unique hv he⟩
  · intro k u hu
    obtain ⟨h1, h2, h3⟩ := hr.win.key _ hu
    exact ⟨h1, h2, h3, (hr.net.pkt _ hu).1⟩
  · have hkeyed : s.unacked.Pairwise (fun a b => a.1 < b.1) := hr.win.keyed
    refine List.Pairwise.imp_of_mem ?_ hkeyed
    intro a b ha hb hlt
    refine ⟨by omega, fun heq => ?_⟩
    have := (hinj _ ha _ hb).2 heq
    omega

/-- C48: with MTUs of at least 64 octets no assertion fails, no invalid iterator is used and no loop runs forever, whatever is sent and
received, including Acks of any values; the only failure is the exception for lack of TxSequences, and that only after 2^64 of them have
been used. -/
theorem C48_no_fault {env : Env} {o : Opts} {q0 x0 : Nat} {es : List Event} {e : Fault} (hx : x0 < W) (hm : MtuOk env o es)
    (hne : ∀ k t, .send k t [] ∉ es) (h : run env (init o q0 x0) es = .error e) : ∃ n, e = .rangeExceeded n ∧ W ≤ n := by
  have key : ∀ (es : List Event) (s : St), RelOk x0 s → IdleOk s → MtuOk env s.opts es → (∀ k t, .send k t [] ∉ es) →
      run env s es = .error e → ∃ n, e = .rangeExceeded n ∧ W ≤ n := by
    intro es
    induction es with
    | nil => intro s _ _ _ _ h; cases h
    | cons ev es ih =>
      intro s hr hi hm hne h
      unfold run at h
      rcases step_fine env (ev := ev) hr with ⟨s', h1, h2⟩ | ⟨n, h1, h2⟩ | ⟨h1, h2⟩
      · rw [h1] at h
        obtain ⟨h3, h4⟩ := step_idleOk hi h1
        refine ih s' h2.right h3 ⟨hm.1, ?_, fun o' ho' => hm.2.2 o' (List.mem_cons_of_mem _ ho')⟩
          (fun k t hk => hne k t (List.mem_cons_of_mem _ hk)) h
        rcases h4 with h4 | h4
        · rw [h4]; exact hm.2.1
        · exact hm.2.2 _ (by rw [h4]; simp)
      · rw [h1] at h
        exact ⟨n, (Except.error.inj h).symm, h2⟩
      · exfalso
        rcases h2 with ⟨k, t, net, rfl, h2⟩ | ⟨rfl, h2⟩
        · apply h2
          refine ⟨fun hn => hne k t (by simp [hn]), ?_⟩
          intro m he
          have := hm.eff he
          have := reserve_le
          omega
        · by_cases hidle : s.idleTimer = true
          · obtain ⟨s', h3, _⟩ := flushAcks_fine (env := env) (n := s.ackQueue.length) (s := { s with idleTimer := false }) (Nat.le_refl _) (hi hidle) (fun m he => hm.eff he)
            rw [h3] at h2; cases h2
          · simp only [step] at h1
            rw [if_neg hidle] at h1
            cases h1
  exact key es (init o q0 x0) (init_relOk o q0 x0 hx) (by intro hx; cases hx) hm hne h

end Verif.Lp
