/-
C50: acknowledgements.
-/
import Verif.Lp.Flow

namespace Verif.Lp

/-! ## Specification -/

/-- The values of the Ack fields of all LpPackets sent, in order. -/
def acksSent (out : List Out) : List Nat := (out.filterMap Out.sends).flatMap (·.acks)

/-- The options in force after the events. -/
def optsAfter : Opts → List Event → Opts
  | o, [] => o
  | _, .setOptions o' :: es => optsAfter o' es
  | o, _ :: es => optsAfter o es

/-- The TxSequences received together with a fragment while reliability was enabled, in order of reception. -/
def owed : Opts → List Event → List Nat
  | _, [] => []
  | o, .receive _ p :: es => (if o.relEnabled ∧ p.frag.isSome then p.txSeq.toList else []) ++ owed o es
  | _, .setOptions o' :: es => owed o' es
  | o, _ :: es => owed o es

/-! ## Proofs -/

theorem owed_append (e : List Event) : ∀ (es : List Event) (o : Opts), owed o (es ++ e) = owed o es ++ owed (optsAfter o es) e := by
  intro es
  induction es with
  | nil => intro o; rfl
  | cons a es ih =>
    intro o
    cases a <;> simp [owed, optsAfter, ih]

theorem optsAfter_append (e : List Event) : ∀ (es : List Event) (o : Opts), optsAfter o (es ++ e) = optsAfter (optsAfter o es) e := by
  intro es
  induction es with
  | nil => intro o; rfl
  | cons a es ih =>
    intro o
    cases a <;> simp [optsAfter, ih]

theorem optsAfter_inForce : ∀ (es : List Event) (o : Opts), InForce o es (optsAfter o es) := by
  intro es
  induction es with
  | nil => intro o; exact .inl rfl
  | cons a es ih =>
    intro o
    cases a with
    | setOptions o' =>
      right
      rcases ih o' with h | h
      · rw [optsAfter, h]; exact List.mem_cons_self ..
      · exact List.mem_cons_of_mem _ h
    | _ =>
      rcases ih o with h | h
      · left; exact h
      · right; exact List.mem_cons_of_mem _ h

/-- How many octets the Acks may take (lp-reliability.cpp:191-198). -/
def ackRoom (mtu : Option Nat) (p : Pkt) : Int :=
  (match mtu with | none => 8800 | some m => (m : Int)) - ((varSize 8800 : Int) - (varSize (wireSize p) : Int)) - wireSize p

theorem sendLp_spec {env : Env} {s s' : St} {p : Pkt} (h : sendLp env s p = .ok s') : ∃ n : Nat,
    (s.opts.relEnabled = true → isBare p = false ∧ n = ackFit (ackRoom (effMtu env s.opts) p) s.ackQueue) ∧
    (s.opts.relEnabled = false → n = 0) ∧
    ∃ r, r = attachMark env { s with ackQueue := s.ackQueue.drop n } { p with acks := p.acks ++ s.ackQueue.take n } ∧
      s' = transmit (effMtu env s.opts) r.1 r.2 := by
  obtain ⟨r, h1, h2⟩ := sendLp_ok h
  unfold attachAcks at h1
  split at h1
  · rename_i hr
    unfold piggyback at h1
    split at h1
    · cases h1
    · rename_i hb
      cases h1
      refine ⟨ackFit (ackRoom (effMtu env s.opts) p) s.ackQueue, fun _ => ⟨by simpa using hb, rfl⟩, fun h => ?_, _, rfl, h2⟩
      rw [hr] at h; cases h
  · rename_i hr
    cases h1
    refine ⟨0, fun h => absurd h hr, fun _ => rfl, _, rfl, ?_⟩
    rw [h2]
    simp

theorem transmit_eq (m : Option Nat) (s : St) (p : Pkt) : ∃ x, transmit m s p = emit s x ∧ x.sends = some p ∧
    (x = .frame p ∨ x = .overMtu p ∧ ∃ n, m = some n ∧ n < wireSize p) := by
  unfold transmit
  split
  · rename_i h
    refine ⟨_, rfl, rfl, .inr ⟨rfl, ?_⟩⟩
    cases m with
    | none => cases h
    | some n => exact ⟨n, rfl, by simpa using h⟩
  · exact ⟨_, rfl, rfl, .inl rfl⟩

theorem acksSent_append (a b : List Out) : acksSent (a ++ b) = acksSent a ++ acksSent b := by
  simp [acksSent]

theorem acksSent_calm {l : List Out} (h : ∀ o ∈ l, o.sends = none ∧ o ≠ .marked) : acksSent l = [] := by
  have : l.filterMap Out.sends = [] := List.filterMap_eq_nil_iff.2 (fun o ho => (h o ho).1)
  simp [acksSent, this]

/-- Acks go from the queue to the packets. -/
theorem sendLp_acks {env : Env} {s s' : St} {p : Pkt} (hp : p.acks = []) (h : sendLp env s p = .ok s') :
    acksSent s'.out ++ s'.ackQueue = acksSent s.out ++ s.ackQueue ∧ s'.idleTimer = s.idleTimer ∧ s'.opts = s.opts ∧
    ∃ n, s'.ackQueue = s.ackQueue.drop n := by
  obtain ⟨hi, ho⟩ := sendLp_idle h
  obtain ⟨n, _, _, r, hr, rfl⟩ := sendLp_spec h
  obtain ⟨_, _, _, ha, hq, ms, hms, hms'⟩ := attachMark_eq env { s with ackQueue := s.ackQueue.drop n } { p with acks := p.acks ++ s.ackQueue.take n }
  rw [← hr] at ha hq hms
  obtain ⟨x, hx, hxs, _⟩ := transmit_eq (effMtu env s.opts) r.1 r.2
  rw [hx] at hi ho ⊢
  refine ⟨?_, hi, ho, n, ?_⟩
  · have h1 : acksSent ms = [] := by rcases hms' with rfl | rfl <;> rfl
    have h2 : acksSent [x] = s.ackQueue.take n := by simp [acksSent, hxs, ha, hp]
    simp only [emit, hms, acksSent_append, h1, h2, hq]
    simp
  · simpa [emit] using hq

structure AckInv (o : Opts) (done : List Event) (s : St) : Prop where
  eq : acksSent s.out ++ s.ackQueue = owed o done
  opts : s.opts = optsAfter o done
  held : Held (fun p => p.acks = []) s
  timer : (∀ o', InForce o done o' → o'.relEnabled = true) → s.ackQueue ≠ [] → s.idleTimer = true

theorem fragmentPacket_ok {n m : Nat} {p : Pkt} {fs : List Pkt} (h : fragmentPacket n p m = .ok (some fs)) :
    (fs = [p] ∧ maxSingleFragOverhead + wireSize p ≤ m) ∨ ∃ c cs, fs = numbered c p 0 cs := by
  unfold fragmentPacket at h
  split at h
  · cases h
  · split at h
    · cases h
    · split at h
      · cases h; left; exact ⟨rfl, by assumption⟩
      · extract_lets _ _ _ _ fr at h
        split at h
        · cases h
        · split at h
          · cases h
          ·
            by_cases h1 : fr.any (fun f => decide (wireSize f > m)) = true
            · rw [if_pos h1] at h; cases h
            · rw [if_neg h1] at h
              split at h
              · cases h
              · right; exact ⟨_, _, (Option.some.inj (Except.ok.inj h)).symm⟩

theorem makeFrags_acks {env : Env} {o : Opts} {p : Pkt} (hp : p.acks = []) {fs : List Pkt} (h : makeFrags env o p = .ok (some fs)) :
    ∀ f ∈ fs, f.acks = [] := by
  have hn : ∀ (cs : List Bytes) (c : Nat) (first : Pkt) (i : Nat), first.acks = [] → ∀ f ∈ numbered c first i cs, f.acks = [] := by
    intro cs
    induction cs with
    | nil => intro c first i _ f hf; simp [numbered] at hf
    | cons b cs ih =>
      intro c first i h f hf
      simp only [numbered] at hf
      rcases List.mem_cons.1 hf with rfl | hf
      · exact h
      · exact ih c {} (i + 1) rfl f hf
  have hone : ∀ f ∈ [p], f.acks = [] := by intro f hf; cases List.mem_singleton.1 hf; exact hp
  unfold makeFrags at h
  simp only [bind_ok] at h
  obtain ⟨m, _, h⟩ := h
  split at h
  · split at h
    · rcases fragmentPacket_ok h with ⟨rfl, _⟩ | ⟨c, cs, rfl⟩
      · exact hone
      · exact hn _ _ _ _ hp
    · cases h; exact hone
  · cases h; exact hone

theorem flow_acks {env : Env} {s s' : St} (h : Flow env (fun p => p.acks = []) s s') :
    acksSent s'.out ++ s'.ackQueue = acksSent s.out ++ s.ackQueue ∧ s'.idleTimer = s.idleTimer ∧ s'.opts = s.opts ∧
    ∃ n, s'.ackQueue = s.ackQueue.drop n := by
  refine h.preserve (P := fun t => acksSent t.out ++ t.ackQueue = acksSent s.out ++ s.ackQueue ∧ t.idleTimer = s.idleTimer ∧ t.opts = s.opts ∧
    ∃ n, t.ackQueue = s.ackQueue.drop n) ⟨rfl, rfl, rfl, 0, rfl⟩ ?_ ?_
  · intro t u ⟨h1, h2, h3, n, h4⟩ c
    obtain ⟨l, ho, hl⟩ := c.out
    refine ⟨?_, c.idleTimer.trans h2, c.opts.trans h3, n, c.ackQueue.trans h4⟩
    rw [ho, acksSent_append, acksSent_calm hl, c.ackQueue]
    simpa using h1
  · intro t u p ⟨h1, h2, h3, n, h4⟩ hp hs
    obtain ⟨a1, a2, a3, n', a4⟩ := sendLp_acks hp hs
    exact ⟨a1.trans h1, a2.trans h2, a3.trans h3, n + n', by rw [a4, h4, List.drop_drop]⟩

theorem calm_acks {s s' : St} (c : Calm s s') : acksSent s'.out = acksSent s.out := by
  obtain ⟨l, ho, hl⟩ := c.out
  rw [ho, acksSent_append, acksSent_calm hl, List.append_nil]

theorem noteFrame_acks (env : Env) (s : St) (p : Pkt) :
    (noteFrame env s p).1.ackQueue = s.ackQueue ++ (if p.frag.isSome then p.txSeq.toList else []) ∧
    ((noteFrame env s p).1.idleTimer = s.idleTimer ∨ (noteFrame env s p).1.idleTimer = true) ∧
    ((noteFrame env s p).1.ackQueue ≠ [] → s.ackQueue ≠ [] ∧ (noteFrame env s p).1.idleTimer = s.idleTimer ∨ (noteFrame env s p).1.idleTimer = true) := by
  unfold noteFrame
  split
  · rename_i hf ht
    simp only [hf, ht]
    split <;> simp [noteSeq]
  · rename_i x
    refine ⟨?_, .inl rfl, fun h => .inl ⟨h, rfl⟩⟩
    cases hf : p.frag <;> cases ht : p.txSeq <;> simp
    exact absurd ht (x _ _ hf)

theorem AckInv.step {env : Env} {o : Opts} {done : List Event} {s s' : St} {ev : Event} (h : AckInv o done s) (hst : Lp.step env s ev = .ok s') :
    AckInv o (done ++ [ev]) s' := by
  obtain ⟨sf, hh⟩ := step_flow (Q := fun p => p.acks = []) (H := fun p => p.acks = []) (fun p x h => h) (fun _ h => h) rfl
    (fun k t net _ fs hfs f hf => ⟨fun _ _ => makeFrags_acks rfl hfs f hf, fun _ _ => makeFrags_acks rfl hfs f hf,
      fun _ _ _ => makeFrags_acks rfl hfs f hf⟩) h.held hst
  have hin : ∀ o', InForce o done o' → InForce o (done ++ [ev]) o' := by
    intro o' ho
    rcases ho with rfl | ho
    · exact .inl rfl
    · exact .inr (List.mem_append_left _ ho)
  have hshrink : ∀ {t u : St}, (∃ n, u.ackQueue = t.ackQueue.drop n) → u.ackQueue ≠ [] → t.ackQueue ≠ [] := by
    rintro t u ⟨n, hn⟩ hu ht
    rw [ht] at hn; simp at hn; exact hu hn
  have hflow : ∀ {t : St}, Flow env (fun p => p.acks = []) s t → acksSent t.out ++ t.ackQueue = owed o done ∧ t.opts = optsAfter o done ∧
      ((∀ o', InForce o (done ++ [ev]) o' → o'.relEnabled = true) → t.ackQueue ≠ [] → t.idleTimer = true) := by
    intro t f
    obtain ⟨h1, h2, h3, h4⟩ := flow_acks f
    exact ⟨h1.trans h.eq, h3.trans h.opts, fun ha hne => h2.trans (h.timer (fun o' ho' => ha o' (hin o' ho')) (hshrink h4 hne))⟩
  have hcalm : ∀ {t : St}, Calm s t → acksSent t.out ++ t.ackQueue = owed o done ∧ t.opts = optsAfter o done ∧
      ((∀ o', InForce o (done ++ [ev]) o' → o'.relEnabled = true) → t.ackQueue ≠ [] → t.idleTimer = true) := fun c => hflow (.of_calm c)
  have hplain : acksSent s'.out ++ s'.ackQueue = owed o done → owed (optsAfter o done) [ev] = [] → s'.opts = optsAfter o done →
      optsAfter (optsAfter o done) [ev] = optsAfter o done →
      ((∀ o', InForce o (done ++ [ev]) o' → o'.relEnabled = true) → s'.ackQueue ≠ [] → s'.idleTimer = true) → AckInv o (done ++ [ev]) s' := by
    intro h1 h2 h3 h4 h5
    exact ⟨by rw [owed_append, h2, List.append_nil]; exact h1, by rw [optsAfter_append, h4]; exact h3, hh, h5⟩
  cases sf with
  | send f => obtain ⟨a, b, c⟩ := hflow f; exact hplain a rfl b rfl c
  | rto f => obtain ⟨a, b, c⟩ := hflow f; exact hplain a rfl b rfl c
  | dropTimer f => obtain ⟨a, b, c⟩ := hcalm f; exact hplain a rfl b rfl c
  | @receive e p s1 s2 hrel f h2 c =>
    obtain ⟨a, b, hc⟩ := hflow f
    obtain ⟨n1, n2, n3⟩ := noteFrame_acks env s1 p
    have hs := noteFrame_same env s1 p
    rw [← h2] at n1 n2 n3 hs
    have hrel' : (optsAfter o done).relEnabled = true := by rw [← h.opts]; exact hrel
    refine ⟨?_, ?_, hh, ?_⟩
    · rw [calm_acks c, c.ackQueue, n1, hs.2.2.2.1, ← List.append_assoc, a, owed_append]
      simp [owed, hrel']
    · rw [optsAfter_append, c.opts, hs.1]; exact b
    · intro hall hne
      rw [c.ackQueue] at hne
      rw [c.idleTimer]
      rcases n3 hne with ⟨h3, h4⟩ | h4
      · rw [h4]; exact hc hall h3
      · exact h4
  | receiveOff hrel c =>
    obtain ⟨a, b, c⟩ := hcalm c
    have hrel' : (optsAfter o done).relEnabled = false := by rw [← h.opts]; exact hrel
    exact hplain a (by simp [owed, hrel']) b rfl c
  | @idle s1 hi h1 f he =>
    subst h1
    obtain ⟨a1, _, a3, _⟩ := flow_acks f
    exact hplain (a1.trans h.eq) rfl (a3.trans h.opts) rfl (fun _ hne => absurd he hne)
  | idleOff _ he => subst he; obtain ⟨a, b, c⟩ := hcalm (.refl _); exact hplain a rfl b rfl c
  | tick he => subst he; obtain ⟨a, b, c⟩ := hcalm (.refl s); exact hplain a rfl b rfl c
  | @setOptions o' he =>
    subst he
    refine ⟨?_, ?_, hh, ?_⟩
    · rw [owed_append]; simpa [owed, setOptions] using h.eq
    · rw [optsAfter_append]; rfl
    · intro hall hne
      have h1 := h.timer (fun o' ho' => hall o' (hin o' ho')) hne
      have h2 : o'.relEnabled = true := hall o' (.inr (by simp))
      simp [setOptions, h1, h2]

theorem AckInv.run {env : Env} {o : Opts} : ∀ {es done : List Event} {s s' : St}, AckInv o done s → Lp.run env s es = .ok s' → AckInv o (done ++ es) s' := by
  intro es
  induction es with
  | nil => intro done s s' h hr; cases hr; simpa using h
  | cons e es ih =>
    intro done s s' h hr
    simp only [Lp.run, bind_ok] at hr
    obtain ⟨s1, h1, h2⟩ := hr
    have := ih (h.step h1) h2
    simpa using this

theorem ackInv {env : Env} {o : Opts} {q0 x0 : Nat} {es : List Event} {s : St} (h : run env (init o q0 x0) es = .ok s) : AckInv o es s := by
  have : AckInv o [] (init o q0 x0) := ⟨rfl, rfl, (fun e he => by cases he), (fun _ h => absurd rfl h)⟩
  simpa using this.run h

/-! ## C50 -/

/-- **C50**: the Acks sent so far, followed by those still waiting, are exactly the TxSequences received with a fragment while reliability
was enabled, in order of reception. (An Ack in a packet dropped by the MTU check counts as sent; see C45.) -/
theorem C50_exact {env : Env} {o : Opts} {q0 x0 : Nat} {es : List Event} {s : St} (h : run env (init o q0 x0) es = .ok s) :
    acksSent s.out ++ s.ackQueue = owed o es := (ackInv h).eq

/-- **C50**: in terms of what can be observed: the Acks sent are a prefix of the TxSequences received. -/
theorem C50_prefix {env : Env} {o : Opts} {q0 x0 : Nat} {es : List Event} {s : St} (h : run env (init o q0 x0) es = .ok s) :
    acksSent s.out <+: owed o es := ⟨s.ackQueue, C50_exact h⟩

/-- **C50**: as long as some received TxSequence is not acknowledged, the idle timer is running (unless reliability was disabled at some
time: see `C50_switched_off`). -/
theorem C50_timer {env : Env} {o : Opts} {q0 x0 : Nat} {es : List Event} {s : St} (h : run env (init o q0 x0) es = .ok s)
    (hrel : ∀ o', InForce o es o' → o'.relEnabled = true) (hp : acksSent s.out ≠ owed o es) : s.idleTimer = true := by
  have hi := ackInv h
  refine hi.timer hrel ?_
  intro he
  have := hi.eq
  rw [he, List.append_nil] at this
  exact hp this

/-- **C50**: when the idle timer fires, everything received so far has been acknowledged. -/
theorem C50_idle {env : Env} {o : Opts} {q0 x0 : Nat} {es : List Event} {s : St} (h : run env (init o q0 x0) es = .ok s)
    (hm : MtuOk env o es) (ht : s.idleTimer = true) :
    ∃ s', step env s .idle = .ok s' ∧ acksSent s'.out = owed o es := by
  have hi := ackInv h
  have hio : IdleOk s := by
    have : ∀ {es : List Event} {s s' : St}, IdleOk s → run env s es = .ok s' → IdleOk s' := by
      intro es
      induction es with
      | nil => intro s s' h hr; cases hr; exact h
      | cons e es ih =>
        intro s s' h hr
        simp only [run, bind_ok] at hr
        obtain ⟨s1, h1, h2⟩ := hr
        exact ih (step_idleOk h h1).1 h2
    exact this (s := init o q0 x0) (by intro h; cases h) h
  have hmtu : ∀ m, effMtu env s.opts = some m → 64 ≤ m := by
    intro m hm'
    refine MtuOk.eff (o := s.opts) (es := []) ⟨hm.1, ?_, by simp⟩ hm'
    intro n hn
    rcases optsAfter_inForce es o with h1 | h1
    · rw [hi.opts, h1] at hn; exact hm.2.1 n hn
    · rw [hi.opts] at hn; exact hm.2.2 _ h1 n hn
  obtain ⟨s', h1, h2⟩ := flushAcks_fine (env := env) (n := s.ackQueue.length) (s := { s with idleTimer := false }) (Nat.le_refl _) (hio ht) hmtu
  have hst : step env s .idle = .ok s' := by simp only [step, ht, if_true]; exact h1
  refine ⟨s', hst, ?_⟩
  have := (hi.step hst).eq
  rw [h2, List.append_nil, owed_append] at this
  simpa [owed] using this

/-- An exception: disabling reliability cancels the idle timer, and enabling it again does not restart it, so the Acks wait for the next
packet sent or received. -/
theorem C50_switched_off : ∃ (env : Env) (o : Opts) (es : List Event), owed o es ≠ [] ∧ (optsAfter o es).relEnabled = true ∧
    (match run env (init o 0 0) es with
      | .ok s => acksSent s.out == [] && !s.idleTimer
      | _ => false) = true :=
  ⟨exEnv, { relEnabled := true }, [.receive 0 { txSeq := some 7, frag := some [5, 0] }, .setOptions {}, .setOptions { relEnabled := true }],
    by decide, by decide, by decide +kernel⟩

/-! ## Example -/

/-- Three frames are received, two Acks are sent with an Interest (the third does not fit in the MTU), the last one when the idle timer
fires. The frame without TxSequence and the one without Fragment are not acknowledged. -/
def ackEvents : List Event :=
  [.receive 0 { txSeq := some 7, frag := some [5, 0] }, .receive 0 { txSeq := some 9 }, .receive 0 { txSeq := some 5, seq := some 1, frag := some [5, 0] },
   .receive 0 { frag := some [5, 0] }, .receive 0 { txSeq := some 7, frag := some [5, 0] }, .send .interest {} ([5, 20] ++ List.replicate 20 0)]

example : owed { relEnabled := true } ackEvents = [7, 5, 7] := by decide

example : (match run { exEnv with mtu := some 75 } (init { relEnabled := true } 0 0) ackEvents with
    | .ok s => acksSent s.out == [7, 5] && s.ackQueue == [7] && s.idleTimer
    | _ => false) = true := by decide +kernel

example : (match run { exEnv with mtu := some 75 } (init { relEnabled := true } 0 0) (ackEvents ++ [.idle]) with
    | .ok s => acksSent s.out == [7, 5, 7] && s.out.getLast? == some (.frame { acks := [7] })
    | _ => false) = true := by decide +kernel

end Verif.Lp
