/-
C51: the link-layer fields that are accepted and sent.
-/
import Verif.Lp.DupProps

namespace Verif.Lp

/-! ## Specification -/

/-- `net` is one TLV element of the given type. -/
def IsElem (type : Nat) (net : Bytes) : Prop := ∃ e, parseBlock net = some e ∧ e.type = type

/-- What may be delivered to forwarding when the network packet `net` was received with the header fields `h` on a face with options `o`. -/
inductive Deliverable (env : Env) (o : Opts) (net : Bytes) (h : Hdr) : Out → Prop
  /-- An Interest: no CachePolicy, no PrefixAnnouncement, and NextHopFaceId only if local fields are enabled. -/
  | interest : IsElem 5 net → env.okInterest net = true → h.nack = none → (h.nextHop.isSome → o.allowLocalFields = true) →
      h.cachePolicy = none → h.prefixAnn = none →
      Deliverable env o net h
        (.interest net { nextHop := h.nextHop, mark := h.mark, nonDiscovery := h.nonDiscovery && o.allowSelfLearning, pitToken := h.pitToken })
  /-- A Data: no Nack, no NextHopFaceId, no NonDiscovery. -/
  | data : IsElem 6 net → env.okData net = true → h.nack = none → h.nextHop = none → h.nonDiscovery = false →
      Deliverable env o net h
        (.data net { cachePolicy := h.cachePolicy, mark := h.mark, prefixAnn := if o.allowSelfLearning then h.prefixAnn else none })
  /-- A Nack: an Interest with a Nack header, and no NextHopFaceId, CachePolicy, NonDiscovery or PrefixAnnouncement. -/
  | nack {reason : Nat} : IsElem 5 net → env.okInterest net = true → h.nack = some reason → h.nextHop = none → h.cachePolicy = none →
      h.nonDiscovery = false → h.prefixAnn = none → Deliverable env o net h (.nack net reason { mark := h.mark })

/-- The header fields, apart from CongestionMark, of a packet sent for the network packet with tags `t` on a face with options `o`. -/
structure SentFields (o : Opts) (k : Kind) (t : SendTags) (h : Hdr) : Prop where
  nextHop : h.nextHop = none
  cachePolicy : h.cachePolicy = none
  incoming : h.incoming = if o.allowLocalFields then t.incoming else none
  nonDiscovery : h.nonDiscovery = true ↔ o.allowSelfLearning = true ∧ t.nonDiscovery = true
  prefixAnn : h.prefixAnn = if o.allowSelfLearning then t.prefixAnn else none
  pitToken : h.pitToken = t.pitToken
  nack : ∀ r, h.nack = some r ↔ k = .nack r

/-! ## Receiving -/

theorem snoc_induction {α : Type} {P : List α → Prop} (nil : P []) (append_singleton : ∀ l x, P l → P (l ++ [x])) (l : List α) : P l := by
  suffices h : ∀ n (l : List α), l.length = n → P l from h _ l rfl
  intro n
  induction n with
  | zero => intro l hl; rw [List.length_eq_zero_iff.1 hl]; exact nil
  | succ n ih =>
    intro l hl
    rcases List.eq_nil_or_concat l with rfl | ⟨l', x, rfl⟩
    · simp at hl
    · rw [List.concat_eq_append] at hl ⊢
      exact append_singleton _ _ (ih l' (by simpa using hl))

theorem decodeNet_iff {env : Env} {o : Opts} {net : Bytes} {h : Hdr} {x : Out} (hx : x.up = true) :
    decodeNet env o net h = [x] ↔ Deliverable env o net h x := by
  constructor
  · intro hd
    unfold decodeNet at hd
    split at hd
    · simp only [List.cons.injEq, and_true] at hd; subst hd; simp [Out.up] at hx
    · rename_i e he
      split at hd
      · rename_i h5
        split at hd
        · rename_i r hr
          repeat' split at hd
          all_goals simp only [List.cons.injEq, and_true] at hd
          all_goals subst hd
          all_goals try (simp [Out.up] at hx; done)
          exact .nack ⟨e, he, h5⟩ (by simp_all) hr (by simp_all) (by simp_all) (by simp_all) (by simp_all)
        · rename_i hr
          repeat' split at hd
          all_goals simp only [List.cons.injEq, and_true, reduceCtorEq] at hd
          all_goals subst hd
          all_goals try (simp [Out.up] at hx; done)
          exact .interest ⟨e, he, h5⟩ (by simp_all) hr (by simp_all) (by simp_all) (by simp_all)
      · split at hd
        · rename_i h6
          have bad : ∀ {y : Out}, y.up = false → [y] ≠ [x] := by
            intro y hy h; cases h; rw [hx] at hy; cases hy
          split at hd
          · exact absurd hd (bad rfl)
          · rename_i g1
            split at hd
            · exact absurd hd (bad rfl)
            · rename_i g2
              split at hd
              · exact absurd hd (bad rfl)
              · rename_i g3
                split at hd
                · exact absurd hd (bad rfl)
                · rename_i g4
                  rw [← (List.cons.inj hd).1]
                  exact .data ⟨e, he, h6⟩ (by simpa using g1) (by simpa using g2) (by simpa using g3) (by simpa using g4)
        · simp only [List.cons.injEq, and_true] at hd; subst hd; simp [Out.up] at hx
  · intro hd
    unfold decodeNet
    cases hd with
    | interest he h1 h2 h3 h4 h5 =>
      obtain ⟨e, hp, ht⟩ := he
      have : (h.nextHop.isSome && !o.allowLocalFields) = false := by
        cases hn : h.nextHop with
        | none => rfl
        | some n => simp [h3 (by rw [hn]; rfl)]
      simp [hp, ht, h1, h2, this, h4, h5]
    | data he h1 h2 h3 h4 =>
      obtain ⟨e, hp, ht⟩ := he
      simp [hp, ht, h1, h2, h3, h4]
    | nack he h1 h2 h3 h4 h5 h6 =>
      obtain ⟨e, hp, ht⟩ := he
      simp [hp, ht, h1, h2, h3, h4, h5, h6]

theorem decodeNet_up (env : Env) (o : Opts) (net : Bytes) (h : Hdr) :
    decodeNet env o net h = [] ∨ decodeNet env o net h = [.netInvalid] ∨ ∃ x, x.up = true ∧ decodeNet env o net h = [x] := by
  unfold decodeNet
  repeat' split
  all_goals simp [Out.up]

/-- **C51**: what a step delivers. Either nothing reaches the network layer, or one network packet was received, with the header fields
of `first`, and it is delivered if and only if these are permitted; otherwise it is dropped. -/
theorem C51_received {env : Env} {s s' : St} {ev : Event} (h : step env s ev = .ok s') :
    (∃ l, s'.out = s.out ++ l ∧ ∀ o ∈ l, o.up = false ∧ ∀ e net first, o ≠ .reassembled e net first) ∨
    ∃ e net first l d, s'.out = s.out ++ l ++ .reassembled e net first :: d ∧
      (∀ o ∈ l, o.up = false ∧ ∀ e net first, o ≠ .reassembled e net first) ∧
      (d = [] ∨ d = [.netInvalid] ∨ ∃ x, x.up = true ∧ d = [x]) ∧
      ∀ x, x.up = true → (d = [x] ↔ Deliverable env s.opts net first.hdr x) := by
  rcases step_up h with ⟨l, h1, h2, _⟩ | ⟨e, p, t, l, rfl, h1, h2, h3, h4, rfl⟩
  · exact .inl ⟨l, h1, h2⟩
  · obtain ⟨d, h5, h6, _⟩ := accept_up env t e p
    rcases h6 with h6 | ⟨net, first, h6, rfl⟩
    · refine .inl ⟨l ++ d, by rw [h5, h1, List.append_assoc], fun o ho => ?_⟩
      rcases List.mem_append.1 ho with ho | ho
      · exact h2 o ho
      · exact h6 o ho
    · refine .inr ⟨e, net, first, l, _, by rw [h5, h1], h2, decodeNet_up env t.opts net first.hdr, fun x hx => ?_⟩
      rw [h3]; exact decodeNet_iff hx

/-- **C51**: an Interest with NextHopFaceId reaches forwarding only while local fields are enabled; a face on which they are never enabled
delivers none. Likewise NonDiscovery and PrefixAnnouncement are delivered only while self-learning is enabled. -/
theorem C51_local {env : Env} {o : Opts} {q0 x0 : Nat} : ∀ {es : List Event} {s : St}, run env (init o q0 x0) es = .ok s →
    ∀ x ∈ s.out, (∀ net t, x = .interest net t → (t.nextHop.isSome → ∃ o', InForce o es o' ∧ o'.allowLocalFields = true) ∧
        (t.nonDiscovery = true → ∃ o', InForce o es o' ∧ o'.allowSelfLearning = true)) ∧
      (∀ net t, x = .data net t → t.prefixAnn.isSome → ∃ o', InForce o es o' ∧ o'.allowSelfLearning = true) := by
  intro es
  induction es using snoc_induction with
  | nil => intro s h; cases h; simp [init]
  | append_singleton es ev ih =>
    intro s' h x hx
    obtain ⟨s, h1, h2⟩ := run_append.1 h
    simp only [run, bind_ok] at h2
    obtain ⟨s2, h2, h3⟩ := h2
    cases h3
    have mono : ∀ {P : Opts → Prop}, (∃ o', InForce o es o' ∧ P o') → ∃ o', InForce o (es ++ [ev]) o' ∧ P o' := by
      rintro P ⟨o', h | h, hP⟩
      · exact ⟨o', .inl h, hP⟩
      · exact ⟨o', .inr (List.mem_append_left _ h), hP⟩
    have cur : ∀ {P : Opts → Prop}, P s.opts → ∃ o', InForce o (es ++ [ev]) o' ∧ P o' := by
      intro P hP
      exact mono ⟨s.opts, by rw [(ackInv h1).opts]; exact optsAfter_inForce es o, hP⟩
    have old : x ∈ s.out → _ := fun hx => ih h1 x hx
    have fin : x ∈ s.out ∨ x.up = false ∨ ∃ net h, Deliverable env s.opts net h x := by
      rcases C51_received h2 with ⟨l, e1, e2⟩ | ⟨e, net, first, l, d, e1, e2, e3, e4⟩
      · rw [e1] at hx
        rcases List.mem_append.1 hx with hx | hx
        · exact .inl hx
        · exact .inr (.inl (e2 x hx).1)
      · rw [e1, List.append_assoc] at hx
        rcases List.mem_append.1 hx with hx | hx
        · exact .inl hx
        · rcases List.mem_append.1 hx with hx | hx
          · exact .inr (.inl (e2 x hx).1)
          · rcases List.mem_cons.1 hx with rfl | hx
            · exact .inr (.inl rfl)
            · rcases e3 with rfl | rfl | ⟨y, hy, rfl⟩
              · cases hx
              · cases List.mem_singleton.1 hx; exact .inr (.inl rfl)
              · cases List.mem_singleton.1 hx
                exact .inr (.inr ⟨net, first.hdr, (e4 x hy).1 rfl⟩)
    rcases fin with hx | hx | ⟨net, h, hd⟩
    · obtain ⟨a, b⟩ := old hx
      exact ⟨fun net t ht => ⟨fun h => mono ((a net t ht).1 h), fun h => mono ((a net t ht).2 h)⟩, fun net t ht h => mono (b net t ht h)⟩
    · refine ⟨fun net t ht => ?_, fun net t ht => ?_⟩ <;> (subst ht; simp [Out.up] at hx)
    · cases hd with
      | interest _ _ _ h4 _ _ =>
        refine ⟨fun net t ht => ?_, (fun net t ht => by cases ht)⟩
        cases ht
        exact ⟨fun h => cur (P := fun o => o.allowLocalFields = true) (h4 h),
          fun h => cur (P := fun o => o.allowSelfLearning = true) (by simp at h; exact h.2)⟩
      | data _ _ _ _ _ =>
        refine ⟨(fun net t ht => by cases ht), fun net t ht => ?_⟩
        cases ht
        intro h
        refine cur (P := fun o => o.allowSelfLearning = true) ?_
        by_cases hs : s.opts.allowSelfLearning = true
        · exact hs
        · simp [hs] at h
      | nack _ _ _ _ _ _ _ => exact ⟨(fun net t ht => by cases ht), (fun net t ht => by cases ht)⟩

/-! ## Sending -/

theorem SentFields.encode (o : Opts) (k : Kind) (t : SendTags) : SentFields o k t (encodeFields o k t) := by
  refine ⟨rfl, rfl, rfl, by simp [encodeFields], rfl, rfl, ?_⟩
  intro r
  cases k <;> simp [encodeFields]

theorem makeFrags_hdr {env : Env} {o : Opts} {p : Pkt} {fs : List Pkt} (h : makeFrags env o p = .ok (some fs)) :
    ∀ f ∈ fs, f.hdr = p.hdr ∨ f.hdr = {} := by
  have hn : ∀ (cs : List Bytes) (c : Nat) (first : Pkt) (i : Nat), ∀ f ∈ numbered c first i cs, f.hdr = first.hdr ∨ f.hdr = {} := by
    intro cs
    induction cs with
    | nil => intro c first i f hf; simp [numbered] at hf
    | cons b cs ih =>
      intro c first i f hf
      simp only [numbered] at hf
      rcases List.mem_cons.1 hf with rfl | hf
      · exact .inl rfl
      · rcases ih c {} (i + 1) f hf with h | h
        · exact .inr h
        · exact .inr h
  have hone : ∀ f ∈ [p], f.hdr = p.hdr ∨ f.hdr = {} := by intro f hf; cases List.mem_singleton.1 hf; exact .inl rfl
  unfold makeFrags at h
  simp only [bind_ok] at h
  obtain ⟨m, _, h⟩ := h
  split at h
  · split at h
    · rcases fragmentPacket_ok h with ⟨rfl, _⟩ | ⟨c, cs, rfl⟩
      · exact hone
      · exact hn _ _ _ _
    · cases h; exact hone
  · cases h; exact hone

/-- All packets sent have header fields in F. -/
def AllSent (F : Hdr → Prop) (out : List Out) : Prop := ∀ x ∈ out, ∀ p, x.sends = some p → F p.hdr

theorem AllSent.send {F : Hdr → Prop} (hF : ∀ h m, F h → F { h with mark := m }) {env : Env} {s s' : St} {p : Pkt} (h : AllSent F s.out)
    (hp : F p.hdr) (hs : sendLp env s p = .ok s') : AllSent F s'.out := by
  obtain ⟨n, _, _, r, hr, rfl⟩ := sendLp_spec hs
  obtain ⟨x, hx, hxs, _⟩ := transmit_eq (effMtu env s.opts) r.1 r.2
  rw [hx]
  have key : F r.2.hdr ∧ ∀ y ∈ r.1.out, y ∈ s.out ∨ y.sends = none := by
    unfold attachMark at hr
    split at hr
    · obtain ⟨gap, _, _, c3, _, _, c6⟩ := checkCongestion_mark env { s with ackQueue := s.ackQueue.drop n } { p with acks := p.acks ++ s.ackQueue.take n }
      rw [← hr] at c3 c6
      simp only at c3 c6
      generalize (nextMark' (env.qlen s.nCheck) s.now s.opts gap s.nextMark).2 = b at c3 c6
      cases b with
      | true =>
        simp only [if_true] at c3 c6
        refine ⟨by rw [c6]; exact hF _ _ hp, ?_⟩
        intro y hy
        rw [c3] at hy
        rcases List.mem_append.1 hy with hy | hy
        · exact .inl hy
        · cases List.mem_singleton.1 hy; exact .inr rfl
      | false =>
        simp only [Bool.false_eq_true, if_false, List.append_nil] at c3 c6
        exact ⟨by rw [c6]; exact hp, fun y hy => .inl (by rw [c3] at hy; exact hy)⟩
    · rw [hr]; exact ⟨hp, fun y hy => .inl hy⟩
  intro y hy p' hp'
  rcases List.mem_append.1 hy with hy | hy
  · rcases key.2 y hy with hy | hy
    · exact h y hy p' hp'
    · rw [hy] at hp'; cases hp'
  · cases List.mem_singleton.1 hy
    rw [hxs] at hp'
    cases hp'
    exact key.1

theorem AllSent.step {F : Hdr → Prop} (hF : ∀ h m, F h → F { h with mark := m }) (h0 : F {}) {env : Env} {s s' : St} {ev : Event}
    (h : AllSent F s.out) (hev : ∀ k t net, ev = .send k t net → F (encodeFields s.opts k t)) (hh : Held (fun p => F p.hdr) s)
    (hs : Lp.step env s ev = .ok s') : AllSent F s'.out ∧ Held (fun p => F p.hdr) s' := by
  obtain ⟨sf, hh'⟩ := step_flow (Q := fun p => F p.hdr) (H := fun p => F p.hdr) (fun _ _ h => h) (fun _ h => h) h0
    (by intro k t net he fs hfs f hf
        have : F f.hdr := by
          rcases makeFrags_hdr hfs f hf with h | h
          · rw [h]; exact hev k t net he
          · rw [h]; exact h0
        exact ⟨fun _ _ => this, fun _ _ => this, fun _ _ _ => this⟩) hh hs
  refine ⟨?_, hh'⟩
  have hcalm : ∀ {t u : St}, AllSent F t.out → Calm t u → AllSent F u.out := by
    intro t u ht c y hy p hp
    obtain ⟨l, ho, hl⟩ := c.out
    rw [ho] at hy
    rcases List.mem_append.1 hy with hy | hy
    · exact ht y hy p hp
    · rw [(hl y hy).1] at hp; cases hp
  have hflow : ∀ {t u : St}, AllSent F t.out → Flow env (fun p => F p.hdr) t u → AllSent F u.out := by
    intro t u ht f
    exact f.preserve (P := fun t => AllSent F t.out) ht (fun _ _ h c => hcalm h c) (fun _ _ _ h hq hs => h.send hF hq hs)
  cases sf with
  | send f => exact hflow h f
  | rto f => exact hflow h f
  | dropTimer c => exact hcalm h c
  | receiveOff _ c => exact hcalm h c
  | @receive e p s1 s2 _ f h2 c =>
    have hn := noteFrame_same env s1 p
    rw [← h2] at hn
    refine hcalm (t := s2) ?_ c
    rw [hn.2.2.2.1]; exact hflow h f
  | @idle s1 _ h1 f _ => subst h1; exact hflow (t := { s with idleTimer := false }) h f
  | idleOff _ he => subst he; exact h
  | tick he => subst he; exact h
  | setOptions he => subst he; exact h

/-- **C51**: the header fields of every packet handed to the transport (or dropped by the MTU check). Apart from CongestionMark, it has none,
or those of a network packet sent earlier, as permitted by the options in force when the network packet was sent. In particular
IncomingFaceId is only present if local fields were enabled then, and NextHopFaceId and CachePolicy are never sent. -/
theorem C51_sent {env : Env} {o : Opts} {q0 x0 : Nat} {es : List Event} {s : St} (h : run env (init o q0 x0) es = .ok s) {x : Out} {p : Pkt}
    (hx : x ∈ s.out) (hp : x.sends = some p) :
    { p.hdr with mark := none } = {} ∨
    ∃ pre k t net, pre ++ [.send k t net] <+: es ∧ SentFields (optsAfter o pre) k t p.hdr := by
  have hF : ∀ (h : Hdr) m, ({ h with mark := none } = ({} : Hdr) ∨ ∃ pre k t net, pre ++ [.send k t net] <+: es ∧ SentFields (optsAfter o pre) k t h) →
      ({ ({ h with mark := m } : Hdr) with mark := none } = ({} : Hdr) ∨
        ∃ pre k t net, pre ++ [.send k t net] <+: es ∧ SentFields (optsAfter o pre) k t { h with mark := m }) := by
    rintro h m (h | ⟨pre, k, t, net, h1, a, b, c, d, e, f, g⟩)
    · exact .inl h
    · exact .inr ⟨pre, k, t, net, h1, a, b, c, d, e, f, g⟩
  have key : ∀ {es' done : List Event} {s s' : St}, es = done ++ es' → run env (init o q0 x0) done = .ok s →
      AllSent (fun h => { h with mark := none } = ({} : Hdr) ∨ ∃ pre k t net, pre ++ [.send k t net] <+: es ∧ SentFields (optsAfter o pre) k t h) s.out →
      Held (fun p => { p.hdr with mark := none } = ({} : Hdr) ∨
        ∃ pre k t net, pre ++ [.send k t net] <+: es ∧ SentFields (optsAfter o pre) k t p.hdr) s → run env s es' = .ok s' →
      AllSent (fun h => { h with mark := none } = ({} : Hdr) ∨ ∃ pre k t net, pre ++ [.send k t net] <+: es ∧ SentFields (optsAfter o pre) k t h) s'.out := by
    intro es'
    induction es' with
    | nil => intro done s s' _ _ h _ hr; cases hr; exact h
    | cons e es' ih =>
      intro done s s' he ho h hh hr
      simp only [run, bind_ok] at hr
      obtain ⟨s1, h1, h2⟩ := hr
      obtain ⟨a, b⟩ := AllSent.step hF (.inl rfl) h (fun k t net hk => .inr ⟨done, k, t, net, ⟨es', by rw [he, hk]; simp⟩, by rw [(ackInv ho).opts]; exact .encode _ _ _⟩) hh h1
      refine ih (done := done ++ [e]) (by rw [he]; simp) ?_ a b h2
      exact run_append.2 ⟨s, ho, by simp [run, h1, bind, Except.bind]⟩
  exact key (done := []) rfl rfl (by intro y hy; cases hy) (fun e he => by cases he) h x hx p hp

/-! ## Examples -/

/-- On a face without local fields, an Interest with NextHopFaceId is dropped, one without is delivered. IncomingFaceId is not sent. -/
example : (match run exEnv (init {} 0 0)
      [.receive 0 { hdr := { nextHop := some 7 }, frag := some [5, 0] }, .receive 0 { hdr := { mark := some 1 }, frag := some [5, 0] },
       .send .interest { incoming := some 3, pitToken := some [9] } [5, 0]] with
    | .ok s => s.out.filter (fun o => o.up || o.sends.isSome) ==
        [.interest [5, 0] { mark := some 1 }, .frame { hdr := { pitToken := some [9] }, frag := some [5, 0] }]
    | _ => false) = true := by decide +kernel

/-- With local fields, both are delivered, and IncomingFaceId is sent. -/
example : (match run exEnv (init { allowLocalFields := true } 0 0)
      [.receive 0 { hdr := { nextHop := some 7 }, frag := some [5, 0] }, .receive 0 { hdr := { mark := some 1 }, frag := some [5, 0] },
       .receive 0 { hdr := { nextHop := some 7 }, frag := some [6, 0] }, .receive 0 { hdr := { nack := some 50, cachePolicy := some 1 }, frag := some [5, 0] },
       .send .interest { incoming := some 3 } [5, 0]] with
    | .ok s => s.out.filter (fun o => o.up || o.sends.isSome) ==
        [.interest [5, 0] { nextHop := some 7 }, .interest [5, 0] { mark := some 1 },
         .frame { hdr := { incoming := some 3 }, frag := some [5, 0] }]
    | _ => false) = true := by decide +kernel

end Verif.Lp
