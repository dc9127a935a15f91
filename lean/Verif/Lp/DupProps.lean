/-
C49: duplicate frames.
-/
import Verif.Lp.MarkProps

namespace Verif.Lp

theorem recvTime_append_eq (m : List (Nat × Nat)) (e : Nat × Nat) (q : Nat) :
    recvTime (m ++ [e]) q = (recvTime m q).or (if e.1 = q then some e.2 else none) := by
  simp only [recvTime, List.find?_append]
  cases h : m.find? (fun e => e.1 == q) with
  | some x => simp
  | none =>
    simp only [Option.none_or, Option.map_none, List.find?_cons, List.find?_nil]
    by_cases he : e.1 = q
    · simp [he]
    · have : (e.1 == q) = false := by simpa using he
      simp [this, he]

theorem recvTime_filter_eq {m : List (Nat × Nat)} {q k : Nat} (h : q ≠ k) : recvTime (m.filter (fun e => e.1 != k)) q = recvTime m q := by
  simp only [recvTime, List.find?_filter]
  congr 1
  apply congrArg (fun p => List.find? p m)
  funext e
  by_cases he : e.1 = q
  · simp [he, h]
  · have : (e.1 == q) = false := by simpa using he
    simp [this]

/-- An entry that is not too old stays. -/
theorem expireRecent_keeps {now rto : Nat} {q T : Nat} (hT : now ≤ T + rto) : ∀ {qs : List Nat} {m : List (Nat × Nat)},
    recvTime m q = some T → recvTime (expireRecent now rto m qs).1 q = some T := by
  intro qs
  induction qs with
  | nil => intro m h; exact h
  | cons k qs ih =>
    intro m h
    simp only [expireRecent]
    have h1 : recvTime (if (recvTime m k).isNone = true then m ++ [(k, 0)] else m) q = some T := by
      split
      · rw [recvTime_append_eq, h]; rfl
      · exact h
    split
    · rename_i hlt
      have hk : q ≠ k := by
        rintro rfl
        rw [h] at hlt
        simp at hlt
        omega
      exact ih (by rw [recvTime_filter_eq hk]; exact h1)
    · exact h1

/-- Only Sequences already known or in the queue get an entry. -/
theorem expireRecent_keys {now rto : Nat} {P : Nat → Prop} : ∀ {qs : List Nat} {m : List (Nat × Nat)},
    (∀ e ∈ m, P e.1) → (∀ k ∈ qs, P k) → (∀ e ∈ (expireRecent now rto m qs).1, P e.1) ∧ ∀ k ∈ (expireRecent now rto m qs).2, P k := by
  intro qs
  induction qs with
  | nil => intro m h _; exact ⟨h, by simp [expireRecent]⟩
  | cons k qs ih =>
    intro m h hq
    simp only [expireRecent]
    have h1 : ∀ e ∈ (if (recvTime m k).isNone = true then m ++ [(k, 0)] else m), P e.1 := by
      intro e he
      split at he
      · rcases List.mem_append.1 he with he | he
        · exact h e he
        · cases List.mem_singleton.1 he; exact hq k (List.mem_cons_self ..)
      · exact h e he
    split
    · exact ih (fun e he => h1 e (List.mem_filter.1 he).1) (fun x hx => hq x (List.mem_cons_of_mem _ hx))
    · exact ⟨h1, hq⟩

theorem noteFrame_keeps {env : Env} {s : St} {q T : Nat} (p : Pkt) (h : recvTime s.recent q = some T) (hT : ∀ n, s.now ≤ T + env.rto n) :
    recvTime (noteFrame env s p).1.recent q = some T := by
  unfold noteFrame
  split
  · simp only
    split
    · exact h
    · simp only [noteSeq]
      have := expireRecent_keeps (hT s.nRto) (qs := s.recentQ) h
      split
      · rw [recvTime_append_eq, this]; rfl
      · exact this
  · exact h

/-- What a step does to the noted Sequences. -/
theorem step_recent {env : Env} {s s' : St} {ev : Event} (h : step env s ev = .ok s') :
    (s'.recent = s.recent ∧ s'.recentQ = s.recentQ) ∨
    ∃ e p s1, ev = .receive e p ∧ s.opts.relEnabled = true ∧ s1.recent = s.recent ∧ s1.recentQ = s.recentQ ∧ s1.now = s.now ∧
      s'.recent = (noteFrame env s1 p).1.recent ∧ s'.recentQ = (noteFrame env s1 p).1.recentQ := by
  obtain ⟨sf, _⟩ := step_flow (Q := fun _ => True) (H := fun _ => True) (fun _ _ _ => trivial) (fun _ _ => trivial) trivial
    (fun _ _ _ _ _ _ _ _ => ⟨fun _ _ => trivial, fun _ _ => trivial, fun _ _ _ => trivial⟩) (fun _ _ => trivial) h
  have hflow : ∀ {t u : St}, Flow env (fun _ => True) t u → u.recent = t.recent ∧ u.recentQ = t.recentQ ∧ u.now = t.now := by
    intro t u f
    refine f.preserve (P := fun v => v.recent = t.recent ∧ v.recentQ = t.recentQ ∧ v.now = t.now) ⟨rfl, rfl, rfl⟩ ?_ ?_
    · rintro a b ⟨h1, h2, h3⟩ c; exact ⟨c.recent.trans h1, c.recentQ.trans h2, c.now.trans h3⟩
    · rintro a b p ⟨h1, h2, h3⟩ _ hs
      have := sendLp_only hs
      exact ⟨this.recent.1.trans h1, this.recent.2.trans h2, this.now.trans h3⟩
  cases sf with
  | send f => exact .inl ⟨(hflow f).1, (hflow f).2.1⟩
  | rto f => exact .inl ⟨(hflow f).1, (hflow f).2.1⟩
  | dropTimer c => exact .inl ⟨c.recent, c.recentQ⟩
  | receiveOff _ c => exact .inl ⟨c.recent, c.recentQ⟩
  | @receive e p s1 s2 hr f h2 c =>
    subst h2
    exact .inr ⟨e, p, s1, rfl, hr, (hflow f).1, (hflow f).2.1, (hflow f).2.2, c.recent, c.recentQ⟩
  | @idle s1 _ h1 f _ => subst h1; exact .inl ⟨(hflow f).1, (hflow f).2.1⟩
  | idleOff _ he => subst he; exact .inl ⟨rfl, rfl⟩
  | tick he => subst he; exact .inl ⟨rfl, rfl⟩
  | setOptions he => subst he; exact .inl ⟨rfl, rfl⟩

theorem step_now {env : Env} {s s' : St} {ev : Event} (h : step env s ev = .ok s') : s'.now = s.now + elapsed [ev] := by
  obtain ⟨sf, _⟩ := step_flow (Q := fun _ => True) (H := fun _ => True) (fun _ _ _ => trivial) (fun _ _ => trivial) trivial
    (fun _ _ _ _ _ _ _ _ => ⟨fun _ _ => trivial, fun _ _ => trivial, fun _ _ _ => trivial⟩) (fun _ _ => trivial) h
  have hflow : ∀ {t u : St}, Flow env (fun _ => True) t u → u.now = t.now := by
    intro t u f
    exact f.preserve (P := fun v => v.now = t.now) rfl (fun a b h c => c.now.trans h) (fun a b p h _ hs => (sendLp_only hs).now.trans h)
  cases sf with
  | send f => simpa [elapsed] using hflow f
  | rto f => simpa [elapsed] using hflow f
  | dropTimer c => simpa [elapsed] using c.now
  | receiveOff _ c => simpa [elapsed] using c.now
  | @receive e p s1 s2 hr f h2 c =>
    subst h2
    simpa [elapsed] using c.now.trans ((noteFrame_same env s1 p).2.1.trans (hflow f))
  | @idle s1 _ h1 f _ => subst h1; simpa [elapsed] using hflow f
  | idleOff _ he => subst he; simp [elapsed]
  | tick he => subst he; simp [elapsed]
  | setOptions he => subst he; simp [elapsed, setOptions]

theorem elapsed_cons (e : Event) (es : List Event) : elapsed (e :: es) = elapsed [e] + elapsed es := by simp [elapsed]

theorem run_keeps {env : Env} {q T : Nat} : ∀ {es : List Event} {s s' : St}, recvTime s.recent q = some T →
    (∀ n, s.now + elapsed es ≤ T + env.rto n) → run env s es = .ok s' → recvTime s'.recent q = some T ∧ s'.now = s.now + elapsed es := by
  intro es
  induction es with
  | nil => intro s s' h _ hr; cases hr; exact ⟨h, by simp [elapsed]⟩
  | cons e es ih =>
    intro s s' h hT hr
    simp only [run, bind_ok] at hr
    obtain ⟨s1, h1, h2⟩ := hr
    have hn := step_now h1
    have hk : recvTime s1.recent q = some T := by
      rcases step_recent h1 with ⟨h3, _⟩ | ⟨e', p, t, _, _, h3, _, h5, h6, _⟩
      · rw [h3]; exact h
      · rw [h6]
        refine noteFrame_keeps p (by rw [h3]; exact h) (fun n => ?_)
        have := hT n
        rw [h5]; omega
    rw [elapsed_cons] at hT ⊢
    obtain ⟨a, b⟩ := ih hk (fun n => by rw [hn]; have := hT n; omega) h2
    exact ⟨a, by rw [b, hn]; omega⟩

/-- The frame is subject to duplicate detection: it has a Fragment, a TxSequence and this Sequence. -/
def Detectable (p : Pkt) (q : Nat) : Prop := p.frag.isSome ∧ p.txSeq.isSome ∧ p.seq = some q

theorem recvTime_filter_self (m : List (Nat × Nat)) (q : Nat) : recvTime (m.filter (fun e => e.1 != q)) q = none := by
  simp only [recvTime, Option.map_eq_none_iff, List.find?_eq_none]
  intro e he
  simpa using (List.mem_filter.1 he).2

/-- A Sequence without entry gets none, if the clock counts from more than one RTO ago. -/
theorem expireRecent_none {now rto : Nat} {q : Nat} (hT : rto < now) : ∀ {qs : List Nat} {m : List (Nat × Nat)},
    recvTime m q = none → recvTime (expireRecent now rto m qs).1 q = none := by
  intro qs
  induction qs with
  | nil => intro m h; exact h
  | cons k qs ih =>
    intro m h
    simp only [expireRecent]
    by_cases hk : q = k
    · subst hk
      rw [if_pos (by rw [h]; simpa using hT)]
      exact ih (recvTime_filter_self _ _)
    · have h1 : recvTime (if (recvTime m k).isNone = true then m ++ [(k, 0)] else m) q = none := by
        split
        · rw [recvTime_append_eq, h]; simp [Ne.symm hk]
        · exact h
      split
      · exact ih (by rw [recvTime_filter_eq hk]; exact h1)
      · exact h1

theorem noteFrame_det {env : Env} {s : St} {p : Pkt} {q : Nat} (h : Detectable p q) :
    (noteFrame env s p).2 = (recvTime s.recent q).isNone ∧
    ((noteFrame env s p).2 = true → (∀ n, env.rto n < s.now) → recvTime (noteFrame env s p).1.recent q = some s.now) := by
  obtain ⟨hf, ht, hq⟩ := h
  obtain ⟨b, hb⟩ := Option.isSome_iff_exists.1 hf
  obtain ⟨x, hx⟩ := Option.isSome_iff_exists.1 ht
  unfold noteFrame
  simp only [hb, hx, hq]
  refine ⟨by simp [noteSeq], ?_⟩
  intro hd hn
  have hnone : recvTime s.recent q = none := by
    simpa [noteSeq] using hd
  simp only [noteSeq]
  have := expireRecent_none (hn s.nRto) (qs := s.recentQ) hnone
  rw [this]
  simp only [Option.isNone_none, if_true]
  rw [recvTime_append_eq, this]
  simp

/-- The reception of a frame with reliability enabled. -/
theorem receive_rel {env : Env} {s s' : St} {e : Nat} {p : Pkt} (hr : s.opts.relEnabled = true) (h : step env s (.receive e p) = .ok s') :
    ∃ s1, SendOnly s s1 ∧
      s' = if (noteFrame env s1 p).2 then accept env (noteFrame env s1 p).1 e p else emit (noteFrame env s1 p).1 .duplicate := by
  simp only [step, receive] at h
  rw [if_pos hr] at h
  split at h
  · cases h
  · rename_i r hp
    cases h
    simp only [processIncoming, bind_ok] at hp
    obtain ⟨s1, h1, h2⟩ := hp
    cases h2
    exact ⟨s1, processAcks_only h1, rfl⟩

/-- The Sequences of the frames received that are subject to duplicate detection. -/
def Noted (es : List Event) (q : Nat) : Prop := ∃ e p, .receive e p ∈ es ∧ Detectable p q

theorem noteFrame_noted {env : Env} {s : St} {p : Pkt} {P : Nat → Prop} (h : (∀ e ∈ s.recent, P e.1) ∧ ∀ k ∈ s.recentQ, P k)
    (hp : ∀ q, Detectable p q → P q) :
    (∀ e ∈ (noteFrame env s p).1.recent, P e.1) ∧ ∀ k ∈ (noteFrame env s p).1.recentQ, P k := by
  unfold noteFrame
  split
  · rename_i b tx hb htx
    simp only
    split
    · exact h
    · rename_i q hq
      have hq' : P q := hp q ⟨by rw [hb]; rfl, by rw [htx]; rfl, hq⟩
      obtain ⟨h1, h2⟩ := expireRecent_keys (now := s.now) (rto := env.rto s.nRto) h.1 h.2
      simp only [noteSeq]
      refine ⟨?_, ?_⟩
      · intro e he
        split at he
        · rcases List.mem_append.1 he with he | he
          · exact h1 e he
          · cases List.mem_singleton.1 he; exact hq'
        · exact h1 e he
      · intro k hk
        rcases List.mem_append.1 hk with hk | hk
        · exact h2 k hk
        · cases List.mem_singleton.1 hk; exact hq'
  · exact h

theorem run_noted {env : Env} {P : Nat → Prop} : ∀ {es : List Event} {s s' : St}, (∀ q, Noted es q → P q) →
    ((∀ e ∈ s.recent, P e.1) ∧ ∀ k ∈ s.recentQ, P k) → run env s es = .ok s' → (∀ e ∈ s'.recent, P e.1) ∧ ∀ k ∈ s'.recentQ, P k := by
  intro es
  induction es with
  | nil => intro s s' _ h hr; cases hr; exact h
  | cons ev es ih =>
    intro s s' hP h hr
    simp only [run, bind_ok] at hr
    obtain ⟨s1, h1, h2⟩ := hr
    refine ih (fun q ⟨e, p, hm, hd⟩ => hP q ⟨e, p, List.mem_cons_of_mem _ hm, hd⟩) ?_ h2
    rcases step_recent h1 with ⟨h3, h4⟩ | ⟨e, p, t, he, _, h3, h4, _, h6, h7⟩
    · rw [h3, h4]; exact h
    · rw [h6, h7]
      refine noteFrame_noted (by rw [h3, h4]; exact h) (fun q hd => hP q ⟨e, p, by rw [he]; exact List.mem_cons_self .., hd⟩)

/-- What `accept` adds depends on the reassembly state only. -/
theorem accept_like {env : Env} {s t : St} {e : Nat} {p : Pkt} (h1 : t.parts = s.parts) (h2 : t.opts = s.opts) (h3 : t.now = s.now) :
    ∃ d, (accept env s e p).out = s.out ++ d ∧ (accept env t e p).out = t.out ++ d ∧ (accept env t e p).parts = (accept env s e p).parts ∧
      .duplicate ∉ d := by
  have hadd : ∀ k i n, (addFragment s k i n p).1.out = s.out ∧ (addFragment t k i n p).1.out = t.out ∧
      (addFragment s k i n p).1.opts = s.opts ∧ (addFragment t k i n p).1.opts = s.opts ∧
      (addFragment t k i n p).1.parts = (addFragment s k i n p).1.parts ∧ (addFragment t k i n p).2 = (addFragment s k i n p).2 := by
    intro k i n
    unfold addFragment
    simp only [h1, h2, h3, setPart]
    repeat' split
    all_goals simp [h1, h2]
  have hrf : (receiveFragment s e p).1.out = s.out ∧ (receiveFragment t e p).1.out = t.out ∧
      (receiveFragment s e p).1.opts = s.opts ∧ (receiveFragment t e p).1.opts = s.opts ∧
      (receiveFragment t e p).1.parts = (receiveFragment s e p).1.parts ∧ (receiveFragment t e p).2 = (receiveFragment s e p).2 := by
    unfold receiveFragment
    simp only [h2]
    repeat' split
    all_goals first
      | exact hadd _ _ _
      | exact ⟨rfl, rfl, rfl, h2, h1, rfl⟩
  obtain ⟨a, b, c, d, f, g⟩ := hrf
  have hd : ∀ (o : Opts) net h, .duplicate ∉ decodeNet env o net h := by
    intro o net h hx
    unfold decodeNet at hx
    repeat' split at hx
    all_goals simp at hx
  unfold accept
  rw [h2]
  split
  · exact ⟨[], by simp, by simp, h1, by simp⟩
  · split
    · exact ⟨[], by simp, by simp, h1, by simp⟩
    · simp only [g]
      cases hc : (receiveFragment s e p).2 with
      | nothing => exact ⟨[], by simp [a], by simp [b], f, by simp⟩
      | error => exact ⟨[.lpInvalid], by simp [emit, a], by simp [emit, b], by simp [emit, f], by simp⟩
      | packet net first =>
        refine ⟨_, by rw [a, c], by rw [b, d], f, ?_⟩
        intro hx
        rcases List.mem_cons.1 hx with hx | hx
        · cases hx
        · exact hd _ _ _ hx

/-- **C49**: a frame is received and not taken for a duplicate. Before any retransmission timeout has passed, a frame with the same Sequence
is received, from any endpoint. It is a duplicate: nothing is handed to the network layer and the reassembler does not see it. (The clock
is assumed to count from more than one RTO before.) -/
theorem C49_duplicate {env : Env} {s1 s2 s3 s4 : St} {e e' q : Nat} {p p' : Pkt} {mid : List Event}
    (h1 : step env s1 (.receive e p) = .ok s2) (r1 : s1.opts.relEnabled = true) (d1 : Detectable p q)
    (hacc : s2.out.countP (· == .duplicate) = s1.out.countP (· == .duplicate))
    (hmid : run env s2 mid = .ok s3) (hnow : ∀ n, env.rto n < s1.now) (hR : ∀ n, elapsed mid ≤ env.rto n)
    (h2 : step env s3 (.receive e' p') = .ok s4) (r2 : s3.opts.relEnabled = true) (d2 : Detectable p' q) :
    ∃ l, s4.out = s3.out ++ l ++ [.duplicate] ∧ (∀ o ∈ l, o.sending = true) ∧ s4.parts = s3.parts := by
  obtain ⟨t, ht, e1⟩ := receive_rel r1 h1
  have ha : (noteFrame env t p).2 = true := by
    cases hc : (noteFrame env t p).2 with
    | true => rfl
    | false =>
      exfalso
      rw [hc] at e1
      obtain ⟨l, ho, _⟩ := ht.out
      subst e1
      simp [emit, (noteFrame_same env t p).2.2.2.1, ho, List.countP_append] at hacc
  rw [ha] at e1
  simp only [if_true] at e1
  have hk : recvTime s2.recent q = some s1.now := by
    rw [e1, (accept_calm env _ e p).1.recent]
    rw [(noteFrame_det d1).2 ha (fun n => by rw [ht.now]; exact hnow n), ht.now]
  have hn2 : s2.now = s1.now := by simpa [elapsed] using step_now h1
  obtain ⟨hk3, _⟩ := run_keeps hk (fun n => by rw [hn2]; have := hR n; omega) hmid
  obtain ⟨u, hu, e2⟩ := receive_rel r2 h2
  have hb : (noteFrame env u p').2 = false := by
    rw [(noteFrame_det d2).1, hu.recent.1, hk3]; rfl
  rw [hb] at e2
  obtain ⟨l, ho, hl⟩ := hu.out
  have hs := noteFrame_same env u p'
  refine ⟨l, ?_, hl, ?_⟩
  · rw [e2]; simp [emit, hs.2.2.2.1, ho]
  · rw [e2]; simp [emit, hs.2.2.1, hu.parts]

/-- **C49**: a frame with a Sequence not received before is not a duplicate. Apart from the processing of its Acks (`l`), it is treated as
without reliability. -/
theorem C49_new {env : Env} {o : Opts} {q0 x0 e q : Nat} {es : List Event} {p : Pkt} {s s' : St} (h : run env (init o q0 x0) es = .ok s)
    (hnew : ¬ Noted es q) (hd : Detectable p q) (hr : s.opts.relEnabled = true) (h' : step env s (.receive e p) = .ok s') :
    ∃ l d, s'.out = s.out ++ l ++ d ∧ (∀ o ∈ l, o.sending = true) ∧ .duplicate ∉ d ∧
      (accept env s e p).out = s.out ++ d ∧ s'.parts = (accept env s e p).parts := by
  have hnone : recvTime s.recent q = none := by
    have := (run_noted (P := fun q => Noted es q) (fun q h => h) (s := init o q0 x0) ⟨by simp [init], by simp [init]⟩ h).1
    simp only [recvTime, Option.map_eq_none_iff, List.find?_eq_none]
    intro x hx hq
    exact hnew (beq_iff_eq.1 hq ▸ this x hx)
  obtain ⟨u, hu, e2⟩ := receive_rel hr h'
  have hb : (noteFrame env u p).2 = true := by
    rw [(noteFrame_det hd).1, hu.recent.1, hnone]; rfl
  rw [hb] at e2
  simp only [if_true] at e2
  have hs := noteFrame_same env u p
  obtain ⟨l, ho, hl⟩ := hu.out
  obtain ⟨d, a, b, c, hdup⟩ := accept_like (env := env) (s := s) (t := (noteFrame env u p).1) (e := e) (p := p) (by rw [hs.2.2.1, hu.parts]) (by rw [hs.1, hu.opts])
    (by rw [hs.2.1, hu.now])
  exact ⟨l, d, by rw [e2, b, hs.2.2.2.1, ho], hl, hdup, a, by rw [e2, c]⟩

/-- **C49**: in particular, an unfragmented packet is delivered. -/
theorem C49_delivered {env : Env} {o : Opts} {q0 x0 e q : Nat} {es : List Event} {p : Pkt} {s s' : St} {net : Bytes}
    (h : run env (init o q0 x0) es = .ok s) (hnew : ¬ Noted es q) (hd : Detectable p q) (hr : s.opts.relEnabled = true)
    (hf : p.frag = some net) (hi : p.fragIndex = none) (hc : p.fragCount = none) (hm : 1 ≤ s.opts.reasmMax) (hp : (parseBlock net).isSome)
    (h' : step env s (.receive e p) = .ok s') :
    ∃ l, s'.out = s.out ++ l ++ .reassembled e net p :: decodeNet env s.opts net p.hdr ∧ ∀ o ∈ l, o.sending = true := by
  obtain ⟨l, d, a, b, _, c, _⟩ := C49_new h hnew hd hr h'
  refine ⟨l, ?_, b⟩
  have : ¬ s.opts.reasmMax < 1 := by omega
  simp [accept, hf, hi, hc, receiveFragment, this, hp] at c
  rw [a, ← c]

/-! ## Examples

A packet with Sequence 4 is received at time 1000, again 200 later (a duplicate), and again 1 later: that one is not a duplicate any more
for the list of Sequences is cleaned up by the reception of another packet in between. -/

def dupPkt (q tx : Nat) : Pkt := { seq := some q, txSeq := some tx, frag := some [5, 0] }

def dupEvents : List Event :=
  [.tick 1000, .receive 0 (dupPkt 4 1), .tick 200, .receive 1 (dupPkt 4 2), .tick 1, .receive 0 (dupPkt 5 3), .receive 0 (dupPkt 4 4)]

example : (match run exEnv (init { relEnabled := true } 0 0) dupEvents with
    | .ok s => s.out.map (fun o => match o with | .duplicate => 0 | .interest .. => 1 | _ => 2) == [2, 1, 0, 2, 1, 2, 1]
    | _ => false) = true := by decide +kernel

example : Detectable (dupPkt 4 2) 4 ∧ (∀ n, exEnv.rto n < 1000) ∧ ∀ n, elapsed [.tick 200] ≤ exEnv.rto n :=
  ⟨⟨rfl, rfl, rfl⟩, fun _ => by simp [exEnv], fun _ => by simp [exEnv, elapsed]⟩

example : ¬ Noted (dupEvents.take 5) 5 := by
  rintro ⟨e, p, h, _, _, hq⟩
  simp [dupEvents, dupPkt] at h
  rcases h with ⟨_, rfl⟩ | ⟨_, rfl⟩ <;> simp at hq

end Verif.Lp
