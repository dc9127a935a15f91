/-
Fragmentation and reassembly (C43, C44, C46).
-/
import Verif.Lp.Reasm
import Verif.Lp.Deliver2

namespace Verif.Lp

/-! ## C44: fragments fit the MTU -/

/-- C44: each LpPacket produced, after a Sequence is attached, encodes to at most the MTU; there are at most as many as allowed. -/
theorem C44_fit {nMax mtu : Nat} {p : Pkt} {net : Bytes} {frags : List Pkt} (hp : p.frag = some net) (hn : net ≠ [])
    (h : fragmentPacket nMax p mtu = .ok (some frags)) :
    (∀ f ∈ frags, ∀ q, wireSize { f with seq := some q } ≤ mtu) ∧ frags.length ≤ max 1 nMax := by
  have hpre : p.fragIndex = none ∧ p.fragCount = none := by
    cases h1 : p.fragIndex with
    | some i => simp [fragmentPacket, hp, h1] at h
    | none => cases h2 : p.fragCount with
      | some i => simp [fragmentPacket, hp, h1, h2] at h
      | none => exact ⟨rfl, rfl⟩
  rcases fragment_cases (nMax := nMax) (mtu := mtu) hp hn hpre.1 hpre.2 with ⟨hf, he⟩ | ⟨_, _, he⟩ | ⟨_, fr, he, hs⟩
  · rw [h] at he
    obtain rfl := Option.some.inj (Except.ok.inj he)
    refine ⟨?_, by simp; omega⟩
    intro f hf' q
    obtain rfl := List.mem_singleton.1 hf'
    exact Nat.le_trans (wire_seq_le f q) hf
  · rw [h] at he; cases he
  · rw [h] at he
    obtain rfl := Option.some.inj (Except.ok.inj he)
    exact ⟨hs.fits, by have := hs.most; omega⟩

/-- C44: a packet that fits, with room for a Sequence, is sent as it is; any other one is split into at least two fragments or refused. -/
theorem C44_whole {nMax mtu : Nat} {p : Pkt} {net : Bytes} (hp : p.frag = some net) (hn : net ≠ [])
    (hi : p.fragIndex = none) (hc : p.fragCount = none) :
    (maxSingleFragOverhead + wireSize p ≤ mtu → fragmentPacket nMax p mtu = .ok (some [p])) ∧
    (∀ frags, fragmentPacket nMax p mtu = .ok (some frags) → frags = [p] ∨ 2 ≤ frags.length) := by
  rcases fragment_cases (nMax := nMax) (mtu := mtu) hp hn hi hc with ⟨hf, he⟩ | ⟨hl, _, he⟩ | ⟨_, fr, he, hs⟩
  · refine ⟨fun _ => he, fun frags h => ?_⟩
    rw [h] at he
    exact .inl (Option.some.inj (Except.ok.inj he))
  · refine ⟨fun h => by omega, fun frags h => ?_⟩
    rw [h] at he; cases he
  · refine ⟨fun h => by have := hs.big; omega, fun frags h => ?_⟩
    rw [h] at he
    obtain rfl := Option.some.inj (Except.ok.inj he)
    exact .inr hs.two

/-- C44: a packet is refused only if not even one octet of it fits besides its headers, or the allowed number of fragments of this MTU
cannot hold it. -/
theorem C44_refused {nMax mtu : Nat} {p : Pkt} {net : Bytes} (hp : p.frag = some net) (hn : net ≠ [])
    (hi : p.fragIndex = none) (hc : p.fragCount = none) :
    (∃ frags, fragmentPacket nMax p mtu = .ok (some frags)) ∨
    (fragmentPacket nMax p mtu = .ok none ∧
      (maxFragOverhead + othersSize p + 1 > mtu ∨
        net.length > (mtu - maxFragOverhead - othersSize p) + (nMax - 1) * (mtu - maxFragOverhead))) := by
  rcases fragment_cases (nMax := nMax) (mtu := mtu) hp hn hi hc with ⟨hf, he⟩ | ⟨_, hl, he⟩ | ⟨_, fr, he, hs⟩
  · exact .inl ⟨_, he⟩
  · exact .inr ⟨he, hl⟩
  · exact .inl ⟨_, he⟩

/-- A packet of 1000 octets over an MTU of 500: three fragments, each within the MTU. -/
example : (match fragmentPacket 400 { frag := some (List.replicate 1000 7) } 500 with
    | .ok (some fs) => fs.length == 3 && fs.all (fun f => decide (wireSize { f with seq := some 5 } ≤ 500)) &&
        (fs.map (fun f => f.frag.getD [])).flatten == List.replicate 1000 7
    | _ => false) = true := by decide +kernel

/-- Both kinds of refusal happen. -/
example : (match fragmentPacket 2 { frag := some (List.replicate 1000 7) } 500,
      fragmentPacket 400 { frag := some (List.replicate 1000 7) } 50 with
    | .ok none, .ok none => true
    | _, _ => false) = true := by decide +kernel

/-! ## C43: reassembly -/

theorem Prog.run {c0 t0 : Nat} {o : Opts} {e base : Nat} {net : Bytes} {frags : List Pkt} {env : Env} (hm : Message base net frags)
    (hallow : o.allowReassembly = true) (hmax : frags.length ≤ o.reasmMax) :
    ∀ {es done : List Event} {s s' : St}, Prog c0 t0 o e base frags done s → elapsed (done ++ es) < o.reasmTimeout →
      (∀ o', .setOptions o' ∉ es) → Honest e base frags es →
      (o.relEnabled = true → ∀ e' p, Event.receive e' p ∈ es → ∀ f ∈ frags, p.seq = f.seq → p.frag.isSome → e' = e ∧ Copy p f) →
      Lp.run env s es = .ok s' → Prog c0 t0 o e base frags (done ++ es) s' := by
  intro es
  induction es with
  | nil => intro done s s' h _ _ _ _ hr; cases hr; simpa using h
  | cons ev es ih =>
    intro done s s' h ht hopt hon hseq hr
    simp only [Lp.run, bind_ok] at hr
    obtain ⟨s1, h1, h2⟩ := hr
    have ht' : elapsed (done ++ [ev]) < o.reasmTimeout := by
      have : done ++ ev :: es = (done ++ [ev]) ++ es := by simp
      rw [this, elapsed_append] at ht
      omega
    have := ih (h.step hm hallow hmax ht' (fun o' ho => hopt o' (by rw [← ho]; simp)) (fun p hp => hon p (by rw [hp]; simp))
      (fun h0 e' p hp j f hj => hseq h0 e' p (by rw [hp]; simp) f (List.mem_of_getElem? hj)) h1)
      (by simpa using ht) (fun o' ho => hopt o' (List.mem_cons_of_mem _ ho)) (fun p hp => hon p (List.mem_cons_of_mem _ hp))
      (fun h0 e' p hp => hseq h0 e' p (List.mem_cons_of_mem _ hp)) h2
    simpa using this

/-- The Sequences remembered are those of received packets. -/
theorem recent_received {env : Env} : ∀ {es done : List Event} {s s' : St},
    (∀ q, ((recvTime s.recent q).isSome ∨ q ∈ s.recentQ) → ∃ e p, Event.receive e p ∈ done ∧ p.seq = some q) →
    Lp.run env s es = .ok s' →
    ∀ q, ((recvTime s'.recent q).isSome ∨ q ∈ s'.recentQ) → ∃ e p, Event.receive e p ∈ done ++ es ∧ p.seq = some q := by
  intro es
  induction es with
  | nil => intro done s s' h hr; cases hr; simpa using h
  | cons ev es ih =>
    intro done s s' h hr
    simp only [Lp.run, bind_ok] at hr
    obtain ⟨s1, h1, h2⟩ := hr
    have hkeep : (s1.recent = s.recent ∧ s1.recentQ = s.recentQ) →
        ∀ q, ((recvTime s1.recent q).isSome ∨ q ∈ s1.recentQ) → ∃ e p, Event.receive e p ∈ done ++ [ev] ∧ p.seq = some q := by
      rintro ⟨ha, hb⟩ q hq
      rw [ha, hb] at hq
      obtain ⟨e, p, h3, h4⟩ := h q hq
      exact ⟨e, p, List.mem_append_left _ h3, h4⟩
    have key : ∀ q, ((recvTime s1.recent q).isSome ∨ q ∈ s1.recentQ) → ∃ e p, Event.receive e p ∈ done ++ [ev] ∧ p.seq = some q := by
      cases ev with
      | send k t net => exact hkeep (send_only h1).recent
      | rto tx =>
        simp only [Lp.step] at h1
        split at h1
        · cases h1; exact hkeep ⟨rfl, rfl⟩
        · simp only [bind_ok] at h1
          obtain ⟨r, h3, h4⟩ := h1
          cases h4
          exact hkeep (onLost_only h3).recent
      | idle =>
        simp only [Lp.step] at h1
        split at h1
        · exact hkeep (flushAcks_only h1).recent
        · cases h1; exact hkeep ⟨rfl, rfl⟩
      | setOptions o' => cases h1; exact hkeep ⟨rfl, rfl⟩
      | tick d => cases h1; exact hkeep ⟨rfl, rfl⟩
      | dropTimer k =>
        cases h1
        refine hkeep ?_
        unfold dropPartial
        split
        · exact ⟨rfl, rfl⟩
        · split <;> exact ⟨rfl, rfl⟩
      | receive e' p =>
        simp only [Lp.step, receive] at h1
        split at h1
        · split at h1
          · cases h1
          · rename_i r hr
            cases h1
            obtain ⟨t, ha, rfl⟩ := processIncoming_ok hr
            have hao := (processAcks_only ha).recent
            have hacc : ∀ u : St, ((if (noteFrame env t p).2 = true then accept env (noteFrame env t p).1 e' p
                else emit (noteFrame env t p).1 .duplicate)) = u → u.recent = (noteFrame env t p).1.recent ∧ u.recentQ = (noteFrame env t p).1.recentQ := by
              intro u hu
              subst hu
              split
              · obtain ⟨_, _, a, b, _⟩ := accept_step env (noteFrame env t p).1 e' p
                exact ⟨a, b⟩
              · exact ⟨rfl, rfl⟩
            obtain ⟨ha1, ha2⟩ := hacc _ rfl
            rw [ha1, ha2]
            intro q hq
            rcases noteFrame_recent env t p with ⟨b1, b2, _⟩ | ⟨q', hq', _, _, hx⟩
            · rw [b1, b2, hao.1, hao.2] at hq
              obtain ⟨e, p, h3, h4⟩ := h q hq
              exact ⟨e, p, List.mem_append_left _ h3, h4⟩
            · have := hx q hq
              rw [hao.1, hao.2] at this
              rcases this with h5 | h5 | h5
              · obtain ⟨e, p, h3, h4⟩ := h q (.inl h5)
                exact ⟨e, p, List.mem_append_left _ h3, h4⟩
              · obtain ⟨e, p, h3, h4⟩ := h q (.inr h5)
                exact ⟨e, p, List.mem_append_left _ h3, h4⟩
              · exact ⟨e', p, by simp, by rw [hq', h5]⟩
        · cases h1
          obtain ⟨_, _, a, b, _⟩ := accept_step env s e' p
          exact hkeep ⟨a, b⟩
    have := ih (done := done ++ [ev]) key h2
    simpa using this

theorem run_append {env : Env} : ∀ {a b : List Event} {s s' : St}, Lp.run env s (a ++ b) = .ok s' ↔
    ∃ t, Lp.run env s a = .ok t ∧ Lp.run env t b = .ok s' := by
  intro a
  induction a with
  | nil => intro b s s'; simp [Lp.run]
  | cons e a ih =>
    intro b s s'
    simp only [List.cons_append, Lp.run, bind_ok, ih]
    constructor
    · rintro ⟨u, h1, t, h2, h3⟩; exact ⟨t, ⟨u, h1, h2⟩, h3⟩
    · rintro ⟨t, ⟨u, h1, h2⟩, h3⟩; exact ⟨u, h1, t, h2, h3⟩

/-- C43, safety. Whatever is received from other endpoints and of other messages, in whatever order and with whatever losses, duplicates and
changes of options: what is delivered with the Sequences of the message is exactly the message, with the headers of a received
transmission of its first fragment; and it is not delivered more often than any one of its fragments was received. -/
theorem C43_at_most {e base : Nat} {net : Bytes} {frags : List Pkt} {env : Env} {o : Opts} {q0 x0 : Nat} {es : List Event} {s : St}
    (hm : Message base net frags) (hon : Honest e base frags es) (h : run env (init o q0 x0) es = .ok s) :
    (∀ f ∈ frags, s.out.countP (delivers e base) ≤ received e f es) ∧
    (∀ out ∈ s.out, delivers e base out = true →
      ∃ first f0, out = .reassembled e net first ∧ Event.receive e first ∈ es ∧ frags[0]? = some f0 ∧ Copy first f0) := by
  have hh := Hist.run hm (init_partsOk o q0 x0) (Hist.init o q0 x0) hon h
  rw [List.nil_append] at hh
  refine ⟨fun f hf => ?_, hh.content⟩
  obtain ⟨j, hj⟩ := List.mem_iff_getElem?.1 hf
  have := hh.bound j f hj
  omega

/-- C43, liveness. From a reachable state in which nothing of the message is stored, if all fragments are received (in any order, with
duplicates, interleaved with anything else), within the reassembly timeout and without a change of the options, the message is delivered
once more. With reliability enabled, this needs that the Sequences of the message were not used before, and are not used for anything
else. -/
theorem C43_delivered {e base : Nat} {net : Bytes} {frags : List Pkt} {env : Env} {o : Opts} {q0 x0 : Nat} {pre es : List Event}
    {s0 s : St} (hm : Message base net frags) (h0 : run env (init o q0 x0) pre = .ok s0) (hnone : s0.parts (e, base) = none)
    (hallow : s0.opts.allowReassembly = true) (hmax : frags.length ≤ s0.opts.reasmMax)
    (hopt : ∀ o', .setOptions o' ∉ es) (htime : elapsed es < s0.opts.reasmTimeout) (hon : Honest e base frags es)
    (hfresh : s0.opts.relEnabled = true → ∀ e' p, Event.receive e' p ∈ pre → ∀ f ∈ frags, p.seq ≠ f.seq)
    (huse : s0.opts.relEnabled = true → ∀ e' p, Event.receive e' p ∈ es → ∀ f ∈ frags, p.seq = f.seq → p.frag.isSome → e' = e ∧ Copy p f)
    (hall : ∀ f ∈ frags, 1 ≤ received e f es) (h : run env s0 es = .ok s) :
    s0.out.countP (delivers e base) < s.out.countP (delivers e base) := by
  have hrec := recent_received (done := []) (by intro q hq; simp [init, recvTime] at hq) h0
  have hstart : Prog (s0.out.countP (delivers e base)) s0.now s0.opts e base frags [] s0 := by
    refine ⟨run_partsOk (init_partsOk o q0 x0) h0, rfl, by simp [elapsed], .inr ⟨rfl, ?_, ?_, ?_, ?_, ?_⟩⟩
    · intro pp hpp; rw [hnone] at hpp; cases hpp
    · intro pp j p hpp; rw [hnone] at hpp; cases hpp
    · intro pp hpp; rw [hnone] at hpp; cases hpp
    · intro j f p _ hp; cases hp
    · rintro j f q ⟨hr, hq⟩ hj hf
      obtain ⟨e', p, hp, hpq⟩ := hrec q hq
      exact absurd (by rw [hpq, hf]) (hfresh hr e' p (by simpa using hp) f (List.mem_of_getElem? hj))
  have hend := hstart.run hm hallow hmax (by simpa using htime) hopt hon huse h
  rw [List.nil_append] at hend
  rcases hend.got with hg | ⟨_, hmid⟩
  · exact hg
  · exfalso
    -- all slots are filled, which is impossible for a packet that is not complete
    have hfull : ∀ j < frags.length, full s (e, base) j = 1 := by
      intro j hj
      have hjg := List.getElem?_eq_getElem hj
      have hr := hall _ (List.getElem_mem hj)
      have : 0 < received e frags[j] es := hr
      rw [received, List.countP_pos_iff] at this
      obtain ⟨ev, hev, hx⟩ := this
      cases ev with
      | receive e' p =>
        simp only [Bool.and_eq_true, beq_iff_eq, decide_eq_true_eq] at hx
        obtain ⟨rfl, hc⟩ := hx
        exact hmid.filled j _ p hjg hev hc
      | _ => simp at hx
    have hpos : 0 < frags.length := by have := hm.two; omega
    cases hpp : s.parts (e, base) with
    | none =>
      have := hfull 0 hpos
      rw [full_none hpp] at this
      cases this
    | some pp =>
      have hpo := hend.ok _ _ hpp
      have hcn := hmid.cnt pp hpp
      have hslots : ∀ j < frags.length, ∃ p', pp.frags[j]? = some (some p') := by
        intro j hj
        have := hfull j hj
        unfold full at this
        rw [hpp] at this
        simp only at this
        split at this
        · rename_i p hp; exact ⟨p, hp⟩
        · cases this
      have hcount : pp.nReceived = pp.fragCount := by
        rw [hpo.recv, ← hpo.len, List.countP_eq_length]
        intro a ha
        obtain ⟨j, hj⟩ := List.mem_iff_getElem?.1 ha
        have hjl := (List.getElem?_eq_some_iff.1 hj).1
        obtain ⟨p', hp'⟩ := hslots j (by rw [hpo.len, hcn] at hjl; exact hjl)
        rw [hj] at hp'
        rw [Option.some.inj hp']
        rfl
      have := hpo.incomplete hcount
      rw [slots_payload hm (by rw [hpo.len, hcn]) (fun j p hj => hmid.slot pp j p hpp hj) hslots] at this
      have hp := hm.packet
      rw [this] at hp
      cases hp

/-- Nothing of a message is stored as long as no packet claiming to be of it was received. -/
theorem parts_none {e base : Nat} {env : Env} : ∀ {es : List Event} {s s' : St}, PartsOk s → s.parts (e, base) = none →
    (∀ p, Event.receive e p ∈ es → ¬ Claims base p) → Lp.run env s es = .ok s' → s'.parts (e, base) = none := by
  intro es
  induction es with
  | nil => intro s s' _ h _ hr; cases hr; exact h
  | cons ev es ih =>
    intro s s' hs h hcl hr
    simp only [Lp.run, bind_ok] at hr
    obtain ⟨s1, h1, h2⟩ := hr
    refine ih (step_partsOk hs h1) ?_ (fun p hp => hcl p (List.mem_cons_of_mem _ hp)) h2
    have hacc : ∀ (t : St) (e' : Nat) (p : Pkt), ev = .receive e' p → t.parts = s.parts → (accept env t e' p).parts (e, base) = none := by
      intro t e' p hev ht
      obtain ⟨_, _, _, _, l, _, hcase⟩ := accept_step env t e' p
      rcases hcase with ⟨hp, _⟩ | ⟨k, i, n, hpart, _, hp, _⟩
      · rw [hp, ht]; exact h
      · have hkey : k ≠ (e, base) := by
          intro hk
          obtain ⟨q, hq, hkq⟩ := hpart.seq
          rw [hk] at hkq
          have hee : e' = e := (congrArg Prod.fst hkq).symm
          subst hee
          exact hcl p (by rw [hev]; simp) ⟨by rw [hpart.count]; exact hpart.two, q, hq,
            by rw [hpart.index]; exact (congrArg Prod.snd hkq).symm⟩
        rw [hp]
        rcases addFragment_cases t k i n p with ⟨he, _⟩ | ⟨_, _, he⟩ | ⟨fr, nr, d, _, _, hr⟩
        · rw [he, ht]; exact h
        · rw [he, ht]; exact h
        · rcases hr with ⟨_, _, he⟩ | ⟨_, _, he⟩ | ⟨_, he⟩ <;> (rw [he, setPart_other (fun h => hkey h.symm), ht]; exact h)
    cases ev with
    | send k t net => rw [(send_only h1).parts]; exact h
    | rto tx =>
      simp only [Lp.step] at h1
      split at h1
      · cases h1; exact h
      · simp only [bind_ok] at h1
        obtain ⟨r, h3, h4⟩ := h1
        cases h4
        rw [(onLost_only h3).parts]; exact h
    | idle =>
      simp only [Lp.step] at h1
      split at h1
      · rw [(flushAcks_only h1).parts]; exact h
      · cases h1; exact h
    | setOptions o' => cases h1; exact h
    | tick d => cases h1; exact h
    | dropTimer k =>
      cases h1
      rcases dropPartial_parts s k (e, base) with he | ⟨_, he, _⟩
      · rw [he]; exact h
      · exact he
    | receive e' p =>
      simp only [Lp.step, receive] at h1
      split at h1
      · split at h1
        · cases h1
        · rename_i r hr
          cases h1
          have hp := (processIncoming_only hr).parts
          split
          · exact hacc r.1 e' p rfl hp
          · show r.1.parts _ = none
            rw [hp]; exact h
      · cases h1
        exact hacc s e' p rfl rfl

/-- C43: a message received completely, at least one fragment of it only once, is delivered exactly once, unchanged. -/
theorem C43_once {e base : Nat} {net : Bytes} {frags : List Pkt} {env : Env} {o : Opts} {q0 x0 : Nat} {pre es : List Event}
    {s0 s : St} (hm : Message base net frags) (h0 : run env (init o q0 x0) pre = .ok s0)
    (hnew : ∀ p, Event.receive e p ∈ pre → ¬ Claims base p)
    (hallow : s0.opts.allowReassembly = true) (hmax : frags.length ≤ s0.opts.reasmMax)
    (hopt : ∀ o', .setOptions o' ∉ es) (htime : elapsed es < s0.opts.reasmTimeout) (hon : Honest e base frags es)
    (hfresh : s0.opts.relEnabled = true → ∀ e' p, Event.receive e' p ∈ pre → ∀ f ∈ frags, p.seq ≠ f.seq)
    (huse : s0.opts.relEnabled = true → ∀ e' p, Event.receive e' p ∈ es → ∀ f ∈ frags, p.seq = f.seq → p.frag.isSome → e' = e ∧ Copy p f)
    (hall : ∀ f ∈ frags, 1 ≤ received e f es) (hone : ∃ f ∈ frags, received e f es = 1) (h : run env s0 es = .ok s) :
    s.out.countP (delivers e base) = 1 ∧
    ∃ first f0, .reassembled e net first ∈ s.out ∧ Event.receive e first ∈ es ∧ frags[0]? = some f0 ∧ Copy first f0 := by
  have hd := C43_delivered hm h0 (parts_none (init_partsOk o q0 x0) rfl hnew h0) hallow hmax hopt htime hon hfresh huse hall h
  have hr : run env (init o q0 x0) (pre ++ es) = .ok s := run_append.2 ⟨s0, h0, h⟩
  have hno : ∀ p, Event.receive e p ∈ pre → ∀ f ∈ frags, ¬ Copy p f := by
    intro p hp f hf hc
    apply hnew p hp
    obtain ⟨j, hj⟩ := List.mem_iff_getElem?.1 hf
    have := isPart_of_copy (o := { reasmMax := frags.length }) (e := e) hm hj hc (Nat.le_refl _)
    obtain ⟨q, hq, hk⟩ := this.seq
    exact ⟨by rw [this.count]; exact this.two, q, hq, by rw [this.index]; exact (congrArg Prod.snd hk).symm⟩
  have hhon : Honest e base frags (pre ++ es) := by
    intro p hp hcl
    rcases List.mem_append.1 hp with hp | hp
    · exact absurd hcl (hnew p hp)
    · exact hon p hp hcl
  obtain ⟨hb, hcont⟩ := C43_at_most hm hhon hr
  obtain ⟨f, hf, h1⟩ := hone
  have hbf := hb f hf
  have hz : received e f pre = 0 := by
    rw [received, List.countP_eq_zero]
    intro ev hev hx
    cases ev with
    | receive e' p =>
      simp only [Bool.and_eq_true, beq_iff_eq, decide_eq_true_eq] at hx
      obtain ⟨rfl, hc⟩ := hx
      exact hno p hev f hf hc
    | _ => simp at hx
  rw [received_append, hz, h1] at hbf
  refine ⟨by omega, ?_⟩
  have hpos : 0 < s.out.countP (delivers e base) := by omega
  rw [List.countP_pos_iff] at hpos
  obtain ⟨out, ho, hdel⟩ := hpos
  obtain ⟨first, f0, rfl, h3, h4, h5⟩ := hcont out ho hdel
  refine ⟨first, f0, ho, ?_, h4, h5⟩
  rcases List.mem_append.1 h3 with h3 | h3
  · exact absurd h5 (hno first h3 f0 (List.mem_of_getElem? h4))
  · exact h3

/-- The message of the examples: a Data packet of 6 octets in three fragments, with Sequences that wrap around. -/
def exNet : Bytes := [6, 4, 1, 2, 3, 4]
def exFrags : List Pkt :=
  [{ seq := some 18446744073709551614, fragIndex := some 0, fragCount := some 3, hdr := { mark := some 1 }, frag := some [6, 4] },
   { seq := some 18446744073709551615, fragIndex := some 1, fragCount := some 3, frag := some [1, 2] },
   { seq := some 0, fragIndex := some 2, fragCount := some 3, frag := some [3, 4] }]
def exEnv : Env where
  qlen := fun _ => -1
  rto := fun _ => 200
  markGap := fun _ => 10
  okInterest := fun _ => true
  okData := fun _ => true
  mtu := some 500
def exOpts : Opts := { allowReassembly := true, allowFragmentation := true, relEnabled := true }
def exRecv (j : Nat) (tx : Nat) : Event := .receive 7 { (exFrags[j]?.getD {}) with txSeq := some tx }

theorem exMessage : Message 18446744073709551614 exNet exFrags := by
  refine ⟨by decide, by decide, by decide, ?_, by decide, by decide⟩
  intro j f hj
  match j, hj with
  | 0, hj => obtain rfl := Option.some.inj hj; decide
  | 1, hj => obtain rfl := Option.some.inj hj; decide
  | 2, hj => obtain rfl := Option.some.inj hj; decide
  | j + 3, hj => simp [exFrags] at hj

/-- The events of the example: the fragments out of order, one of them twice, with an unrelated packet and time in between. -/
def exEvents : List Event := [exRecv 2 5, .receive 7 { frag := some [5, 0] }, .tick 100, exRecv 0 6, exRecv 2 7, .tick 399, exRecv 1 8]

/-- The hypotheses of C43_once are met, with reliability enabled. -/
example : Honest 7 18446744073709551614 exFrags exEvents ∧ elapsed exEvents < exOpts.reasmTimeout ∧
    (∀ e' p, Event.receive e' p ∈ exEvents → ∀ f ∈ exFrags, p.seq = f.seq → p.frag.isSome → e' = 7 ∧ Copy p f) ∧
    (∀ f ∈ exFrags, 1 ≤ received 7 f exEvents) ∧ (∃ f ∈ exFrags, received 7 f exEvents = 1) ∧
    (match run exEnv (init exOpts 0 0) exEvents with
      | .ok s => s.out.countP (delivers 7 18446744073709551614) == 1 && s.out.contains (.data exNet { mark := some 1 })
      | _ => false) = true := by
  refine ⟨?_, by decide, ?_, by decide, by decide, by decide +kernel⟩
  · intro p hp hcl
    simp only [exEvents, exRecv, List.mem_cons, Event.receive.injEq, List.not_mem_nil, reduceCtorEq, false_or, or_false, true_and] at hp
    rcases hp with rfl | rfl | rfl | rfl | rfl
    · exact ⟨exFrags[2], by decide +kernel, by decide +kernel⟩
    · exact absurd hcl.1 (by decide)
    · exact ⟨exFrags[0], by decide +kernel, by decide +kernel⟩
    · exact ⟨exFrags[2], by decide +kernel, by decide +kernel⟩
    · exact ⟨exFrags[1], by decide +kernel, by decide +kernel⟩
  · intro e' p hp f hf hq _
    simp only [exEvents, exRecv, List.mem_cons, Event.receive.injEq, List.not_mem_nil, reduceCtorEq, false_or, or_false] at hp
    simp only [exFrags, List.mem_cons, List.not_mem_nil, or_false] at hf
    rcases hp with ⟨rfl, rfl⟩ | ⟨rfl, rfl⟩ | ⟨rfl, rfl⟩ | ⟨rfl, rfl⟩ | ⟨rfl, rfl⟩ <;> rcases hf with rfl | rfl | rfl <;>
      first
        | (exact ⟨rfl, by decide +kernel⟩)
        | (exact absurd hq (by decide +kernel))

/-- A complete second set of transmissions after the delivery is delivered again if reliability is off: C43 bounds deliveries by
receptions of each fragment, not by one. -/
theorem C43_second_set : ∃ (o : Opts) (es : List Event), Honest 7 18446744073709551614 exFrags es ∧
    (match run exEnv (init o 0 0) es with
      | .ok s => s.out.countP (delivers 7 18446744073709551614) == 2
      | _ => false) = true := by
  refine ⟨{ exOpts with relEnabled := false }, [exRecv 0 1, exRecv 1 2, exRecv 2 3, exRecv 0 4, exRecv 1 5, exRecv 2 6], ?_, by decide +kernel⟩
  intro p hp hcl
  simp only [exRecv, List.mem_cons, Event.receive.injEq, List.not_mem_nil, or_false, true_and] at hp
  rcases hp with rfl | rfl | rfl | rfl | rfl | rfl
  · exact ⟨exFrags[0], by decide +kernel, by decide +kernel⟩
  · exact ⟨exFrags[1], by decide +kernel, by decide +kernel⟩
  · exact ⟨exFrags[2], by decide +kernel, by decide +kernel⟩
  · exact ⟨exFrags[0], by decide +kernel, by decide +kernel⟩
  · exact ⟨exFrags[1], by decide +kernel, by decide +kernel⟩
  · exact ⟨exFrags[2], by decide +kernel, by decide +kernel⟩

/-! ## C46: partially received packets -/

/-- C46: in every reachable state each partially received packet has at least one fragment, as many slots as its FragCount says, a running
drop timer, and is incomplete: a slot is empty, or its payload is not a TLV element. -/
theorem C46_timer {env : Env} {o : Opts} {q0 x0 : Nat} {es : List Event} {s : St} (h : run env (init o q0 x0) es = .ok s)
    {k : Key} {pp : Partial} (hk : s.parts k = some pp) :
    (∃ d, pp.deadline = some d) ∧ pp.frags.length = pp.fragCount ∧ (∃ p, some p ∈ pp.frags) ∧
    (none ∈ pp.frags ∨ parseBlock (pp.frags.map (fun f => (f.bind (·.frag)).getD [])).flatten = none) := by
  have hp := run_partsOk (init_partsOk o q0 x0) h _ _ hk
  refine ⟨Option.isSome_iff_exists.1 hp.timer, hp.len, ?_, ?_⟩
  · have h1 := hp.pos
    rw [hp.recv] at h1
    have h1' : 0 < pp.frags.countP (·.isSome) := h1
    rw [List.countP_pos_iff] at h1'
    obtain ⟨a, ha, hs⟩ := h1'
    obtain ⟨p, rfl⟩ := Option.isSome_iff_exists.1 hs
    exact ⟨p, ha⟩
  · by_cases hn : none ∈ pp.frags
    · exact .inl hn
    · right
      apply hp.incomplete
      rw [hp.recv, ← hp.len, List.countP_eq_length]
      intro a ha
      cases a with
      | none => exact absurd ha hn
      | some p => rfl

/-- C46: when the drop timer fires, the packet is removed and counted, and nothing else changes. -/
theorem C46_fires {env : Env} {s : St} {k : Key} {pp : Partial} {d : Nat} (hk : s.parts k = some pp) (hd : pp.deadline = some d)
    (ht : d ≤ s.now) :
    ∃ s', step env s (.dropTimer k) = .ok s' ∧ s'.parts k = none ∧ (∀ k', k' ≠ k → s'.parts k' = s.parts k') ∧
      s'.out = s.out ++ [.reassemblyTimeout k] := by
  refine ⟨_, rfl, ?_⟩
  simp only [dropPartial, hk, hd, Option.any_some, ht, decide_true, if_true, emit]
  refine ⟨setPart_self, fun k' hk' => setPart_other hk', rfl⟩

/-- What is stored for a key changes in these ways only. -/
theorem parts_change {env : Env} {s s' : St} {ev : Event} (h : step env s ev = .ok s') (k : Key) :
    s'.parts k = s.parts k ∨ (ev = .dropTimer k ∧ s'.parts k = none ∧ ∃ pp d, s.parts k = some pp ∧ pp.deadline = some d ∧ d ≤ s.now) ∨
    ∃ p i n, ev = .receive k.1 p ∧ p.frag.isSome ∧ ((p.fragIndex.isSome || p.fragCount.isSome) = true → s.opts.allowReassembly = true) ∧
      IsPart s.opts k.1 p k i n ∧ ∃ t : St, t.opts = s.opts ∧ t.now = s.now ∧ t.parts = s.parts ∧
      s'.parts k = (addFragment t k i n p).1.parts k := by
  have hacc : ∀ (t : St) (e' : Nat) (p : Pkt), ev = .receive e' p → t.opts = s.opts → t.now = s.now → t.parts = s.parts → s'.parts = (accept env t e' p).parts →
      s'.parts k = s.parts k ∨ ∃ p i n, ev = .receive k.1 p ∧ p.frag.isSome ∧ ((p.fragIndex.isSome || p.fragCount.isSome) = true → s.opts.allowReassembly = true) ∧
      IsPart s.opts k.1 p k i n ∧ ∃ t : St, t.opts = s.opts ∧ t.now = s.now ∧ t.parts = s.parts ∧
      s'.parts k = (addFragment t k i n p).1.parts k := by
    intro t e' p hev ho hnow ht hp'
    rcases accept_parts env t e' p with he | ⟨hf, hr, he⟩
    · left; rw [hp', he, ht]
    · rcases receiveFragment_cases t e' p with ⟨h1, _⟩ | ⟨_, _, h1, _⟩ | ⟨k', i, n, hpart, h1⟩
      · left; rw [hp', he, h1, ht]
      · left; rw [hp', he, h1, ht]
      · by_cases hk : k' = k
        · subst hk
          right
          have hk1 : k'.1 = e' := by obtain ⟨q, _, hq⟩ := hpart.seq; rw [hq]
          rw [hk1]
          rw [ho] at hpart hr
          exact ⟨p, i, n, hev, hf, hr, hpart, t, ho, hnow, ht, by rw [hp', he, h1]⟩
        · left
          rw [hp', he, h1]
          rcases addFragment_cases t k' i n p with ⟨he, _⟩ | ⟨_, _, he⟩ | ⟨fr, nr, d, _, _, hr⟩
          · rw [he, ht]
          · rw [he, ht]
          · rcases hr with ⟨_, _, he⟩ | ⟨_, _, he⟩ | ⟨_, he⟩ <;> rw [he, setPart_other (fun h => hk h.symm), ht]
  cases ev with
  | send k' t net => left; rw [(send_only h).parts]
  | rto tx =>
    left
    simp only [Lp.step] at h
    split at h
    · cases h; rfl
    · simp only [bind_ok] at h
      obtain ⟨r, h3, h4⟩ := h
      cases h4
      rw [(onLost_only h3).parts]
  | idle =>
    left
    simp only [Lp.step] at h
    split at h
    · rw [(flushAcks_only h).parts]
    · cases h; rfl
  | setOptions o' => cases h; exact .inl rfl
  | tick d => cases h; exact .inl rfl
  | dropTimer k' =>
    cases h
    rcases dropPartial_parts s k' k with he | ⟨rfl, he, hx⟩
    · exact .inl he
    · exact .inr (.inl ⟨rfl, he, hx⟩)
  | receive e' p =>
    simp only [Lp.step, receive] at h
    split at h
    · split at h
      · cases h
      · rename_i r hr
        cases h
        have hp := processIncoming_only hr
        split
        · rename_i hpass
          rcases hacc r.1 e' p rfl hp.opts hp.now hp.parts (by rw [if_pos hpass]) with h | h
          · left; rw [if_pos hpass] at h; exact h
          · right; right; rw [if_pos hpass] at h; exact h
        · left
          show r.1.parts k = _
          rw [hp.parts]
    · cases h
      rcases hacc s e' p rfl rfl rfl rfl rfl with h | h
      · exact .inl h
      · exact .inr (.inr h)

/-- C46: what is stored for a partial packet changes only when its drop timer fires after its time, or when a consistent fragment that is
not there yet arrives from the same endpoint: one with FragIndex less than FragCount, FragCount at most the limit and equal to that of
the partial packet, and a Sequence that is FragIndex after that of the first fragment. -/
theorem C46_only {env : Env} {o : Opts} {q0 x0 : Nat} {es : List Event} {s s' : St} {ev : Event} {k : Key}
    (h0 : run env (init o q0 x0) es = .ok s) (h : step env s ev = .ok s') (hc : s'.parts k ≠ s.parts k) :
    (ev = .dropTimer k ∧ s'.parts k = none ∧ ∃ pp d, s.parts k = some pp ∧ pp.deadline = some d ∧ d ≤ s.now) ∨
    ∃ p i n q, ev = .receive k.1 p ∧ p.frag.isSome ∧ s.opts.allowReassembly = true ∧ p.fragIndex.getD 0 = i ∧ p.fragCount.getD 1 = n ∧
      i < n ∧ 2 ≤ n ∧ n ≤ s.opts.reasmMax ∧ p.seq = some q ∧ (q + W - i % W) % W = k.2 ∧
      (∀ pp, s.parts k = some pp → pp.fragCount = n ∧ pp.frags[i]? = some none) ∧
      (s'.parts k = none ∨ ∃ pp, s'.parts k = some pp ∧ pp.fragCount = n ∧ pp.frags[i]? = some (some p)) := by
  have hs := run_partsOk (init_partsOk o q0 x0) h0
  rcases parts_change h k with he | he | ⟨p, i, n, hev, hf, hr, hpart, t, ho, hnow, ht, he⟩
  · exact absurd he hc
  · exact .inl he
  · right
    obtain ⟨q, hq, hk⟩ := hpart.seq
    refine ⟨p, i, n, q, hev, hf, ?_, hpart.index, hpart.count, hpart.lt, hpart.two, hpart.le, hq, by rw [hk], ?_, ?_⟩
    · apply hr
      have h1 := hpart.count
      have h2 := hpart.two
      cases hx : p.fragCount with
      | none => rw [hx] at h1; simp at h1; omega
      | some x => simp
    all_goals
      have hts : PartsOk t := partsOk_of_parts hs ht
      have hpart' : IsPart t.opts k.1 p k i n := by rw [ho]; exact hpart
    · intro pp hpp
      rcases addFragment_cases t k i n p with ⟨hx, _⟩ | ⟨_, _, hx⟩ | ⟨fr, nr, d, hst, hslot, _⟩
      · rw [he, hx, ht] at hc; exact absurd rfl hc
      · rw [he, hx, ht] at hc; exact absurd rfl hc
      · rcases hst with hst | ⟨hst, _⟩
        · rw [ht, hpp] at hst
          obtain rfl := Option.some.inj hst
          exact ⟨rfl, hslot⟩
        · rw [ht, hpp] at hst; cases hst
    · by_cases hd : ∃ net first, (addFragment t k i n p).2 = .packet net first
      · left
        obtain ⟨net, first, hd⟩ := hd
        obtain ⟨_, _, _, _, _, _, hx, _⟩ := addFragment_packet hts hpart' hd
        rw [he, hx, setPart_self]
      · right
        rcases addFragment_stored hts hpart' (fun a b hab => hd ⟨a, b, hab⟩) with ⟨hx, _⟩ | ⟨pp, hx, h1, h2, _⟩
        · rw [he, hx, ht] at hc; exact absurd rfl hc
        · exact ⟨pp, by rw [he, hx, setPart_self], h1, h2⟩

/-- C46: when a packet comes out of reassembly, nothing of it stays. -/
theorem C46_complete {env : Env} {o : Opts} {q0 x0 : Nat} {es : List Event} {s s' : St} {ev : Event} {e base : Nat} {net : Bytes} {first : Pkt}
    (hb : base < W) (h0 : run env (init o q0 x0) es = .ok s) (h : step env s ev = .ok s') {l : List Out} (hl : s'.out = s.out ++ l)
    (hin : .reassembled e net first ∈ l) (hd : delivers e base (.reassembled e net first) = true) : s'.parts (e, base) = none := by
  have hs := run_partsOk (init_partsOk o q0 x0) h0
  have hso : ∀ {t : St}, SendOnly s t → t.out = s.out ++ l → False := by
    intro t ht ho
    obtain ⟨l', h1, h2⟩ := ht.out
    rw [ho] at h1
    have := List.append_cancel_left h1
    subst this
    exact absurd (h2 _ hin) (by simp [Out.sending])
  have hacc : ∀ (t : St) (e' : Nat) (p : Pkt) (l0 : List Out), PartsOk t → (.reassembled e net first ∉ l0) → t.out = s.out ++ l0 →
      (accept env t e' p).out = s.out ++ l → (accept env t e' p).parts (e, base) = none := by
    intro t e' p l0 ht hl0 hto ho
    obtain ⟨_, _, _, _, l', h1, hcase⟩ := accept_step env t e' p
    rw [h1, hto, List.append_assoc] at ho
    have hll := List.append_cancel_left ho
    rw [← hll] at hin
    have hin' : .reassembled e net first ∈ l' := (List.mem_append.1 hin).resolve_left hl0
    rcases hcase with ⟨_, hno⟩ | ⟨k, i, n, hpart, _, hp, hno | ⟨net', first', l'', hpk, rfl, hno⟩⟩
    · exact absurd hd (by rw [hno _ hin']; simp)
    · exact absurd hd (by rw [hno.2 _ hin']; simp)
    · rcases List.mem_cons.1 hin' with heq | hin'
      · injection heq with e1 e2 e3
        subst e1; subst e2; subst e3
        obtain ⟨fr, _, _, _, _, hf, hx, hslot, _⟩ := addFragment_packet ht hpart hpk
        obtain ⟨_, _, q, hq, hk⟩ := hslot 0 first hf
        obtain ⟨q', _, hk'⟩ := hpart.seq
        simp only [delivers, hq, Bool.and_eq_true, beq_iff_eq, Option.some.injEq] at hd
        have hkey : k = (e, base) := by
          apply Prod.ext
          · rw [hk']
          · show k.2 = base
            rw [← hk, hd.1.2]
            simp only [W] at *; omega
        rw [hp, hx, hkey, setPart_self]
      · exact absurd hd (by rw [hno _ hin']; simp)
  cases ev with
  | send k' t net => exact (hso (send_only h) hl).elim
  | rto tx =>
    simp only [Lp.step] at h
    split at h
    · cases h; exact (hso (.refl _) hl).elim
    · simp only [bind_ok] at h
      obtain ⟨r, h3, h4⟩ := h
      cases h4
      exact (hso (onLost_only h3) hl).elim
  | idle =>
    simp only [Lp.step] at h
    split at h
    · exact (hso ((flushAcks_only h).after (.same rfl rfl rfl ⟨rfl, rfl⟩ rfl)) hl).elim
    · cases h; exact (hso (.refl _) hl).elim
  | setOptions o' =>
    cases h
    have : l = [] := by simpa [setOptions] using hl
    rw [this] at hin; cases hin
  | tick d =>
    cases h
    have : l = [] := by simpa using hl
    rw [this] at hin; cases hin
  | dropTimer k' =>
    cases h
    unfold dropPartial at hl
    split at hl
    · have : l = [] := by simpa using hl
      rw [this] at hin; cases hin
    · split at hl
      · have : [.reassemblyTimeout k'] = l := List.append_cancel_left (as := s.out) hl
        rw [← this] at hin
        cases List.mem_singleton.1 hin
      · have : l = [] := by simpa using hl
        rw [this] at hin; cases hin
  | receive e' p =>
    simp only [Lp.step, receive] at h
    split at h
    · split at h
      · cases h
      · rename_i r hr
        cases h
        have hp := processIncoming_only hr
        obtain ⟨l0, hl0, hl0s⟩ := hp.out
        have hnot : .reassembled e net first ∉ l0 := fun hx => absurd (hl0s _ hx) (by simp [Out.sending])
        split at hl
        · rename_i hpass
          rw [if_pos hpass]
          exact hacc r.1 e' p l0 (partsOk_of_parts hs hp.parts) hnot hl0 hl
        · simp only [emit, hl0, List.append_assoc] at hl
          have := List.append_cancel_left hl
          rw [← this] at hin
          rcases List.mem_append.1 hin with hin | hin
          · exact absurd hin hnot
          · cases List.mem_singleton.1 hin
    · cases h
      exact hacc s e' p [] hs (by simp) (by simp) hl

theorem step_opts {env : Env} {s s' : St} {ev : Event} (h : step env s ev = .ok s') :
    (s'.opts = s.opts ∨ ev = .setOptions s'.opts) ∧ s.now ≤ s'.now := by
  cases ev with
  | send k' t net => have := send_only h; exact ⟨.inl this.opts, by rw [this.now]; exact Nat.le_refl _⟩
  | rto tx =>
    simp only [Lp.step] at h
    split at h
    · cases h; exact ⟨.inl rfl, Nat.le_refl _⟩
    · simp only [bind_ok] at h
      obtain ⟨r, h3, h4⟩ := h
      cases h4
      have := onLost_only h3
      exact ⟨.inl this.opts, by rw [this.now]; exact Nat.le_refl _⟩
  | idle =>
    simp only [Lp.step] at h
    split at h
    · have := flushAcks_only h; exact ⟨.inl this.opts, by rw [this.now]; exact Nat.le_refl _⟩
    · cases h; exact ⟨.inl rfl, Nat.le_refl _⟩
  | setOptions o' => cases h; exact ⟨.inr rfl, Nat.le_refl _⟩
  | tick d => cases h; exact ⟨.inl rfl, Nat.le_add_right _ _⟩
  | dropTimer k' =>
    cases h
    unfold dropPartial
    split
    · exact ⟨.inl rfl, Nat.le_refl _⟩
    · split <;> exact ⟨.inl rfl, Nat.le_refl _⟩
  | receive e' p =>
    simp only [Lp.step, receive] at h
    split at h
    · split at h
      · cases h
      · rename_i r hr
        cases h
        have hp := processIncoming_only hr
        split
        · obtain ⟨a, b, _⟩ := accept_step env r.1 e' p
          exact ⟨.inl (by rw [a, hp.opts]), by rw [b, hp.now]; exact Nat.le_refl _⟩
        · exact ⟨.inl hp.opts, by show s.now ≤ r.1.now; rw [hp.now]; exact Nat.le_refl _⟩
    · cases h
      obtain ⟨a, b, _⟩ := accept_step env s e' p
      exact ⟨.inl a, by rw [b]; exact Nat.le_refl _⟩

/-- C46: if the configured reassembly timeout is never more than `T`, then no partial packet is kept for more than `T` from now: its drop
timer is due by then. -/
theorem C46_deadline {env : Env} {o : Opts} {q0 x0 T : Nat} {es : List Event} {s : St} (ho : o.reasmTimeout ≤ T)
    (hopt : ∀ o', .setOptions o' ∈ es → o'.reasmTimeout ≤ T) (h : run env (init o q0 x0) es = .ok s)
    {k : Key} {pp : Partial} (hk : s.parts k = some pp) : ∃ d, pp.deadline = some d ∧ d ≤ s.now + T := by
  have key : ∀ (es : List Event) (s0 s : St), PartsOk s0 → s0.opts.reasmTimeout ≤ T → (∀ o', .setOptions o' ∈ es → o'.reasmTimeout ≤ T) →
      (∀ k pp, s0.parts k = some pp → ∃ d, pp.deadline = some d ∧ d ≤ s0.now + T) → run env s0 es = .ok s →
      ∀ k pp, s.parts k = some pp → ∃ d, pp.deadline = some d ∧ d ≤ s.now + T := by
    intro es
    induction es with
    | nil => intro s0 s _ _ _ h0 hr; cases hr; exact h0
    | cons ev es ih =>
      intro s0 s hok hT hes h0 hr
      simp only [Lp.run, bind_ok] at hr
      obtain ⟨s1, h1, h2⟩ := hr
      obtain ⟨hop, hnow⟩ := step_opts h1
      refine ih s1 s (step_partsOk hok h1) ?_ (fun o' ho' => hes o' (List.mem_cons_of_mem _ ho')) ?_ h2
      · rcases hop with hop | hop
        · rw [hop]; exact hT
        · exact hes _ (by rw [← hop]; simp)
      · intro k pp hk
        rcases parts_change h1 k with he | ⟨_, he, _⟩ | ⟨p, i, n, hev, hf, hr, hpart, t, ho, htn, ht, he⟩
        · rw [he] at hk
          obtain ⟨d, hd, hle⟩ := h0 k pp hk
          exact ⟨d, hd, by omega⟩
        · rw [he] at hk; cases hk
        · rw [he] at hk
          have hpart' : IsPart t.opts k.1 p k i n := by rw [ho]; exact hpart
          by_cases hd : ∃ net first, (addFragment t k i n p).2 = .packet net first
          · obtain ⟨net, first, hd⟩ := hd
            obtain ⟨_, _, _, _, _, _, hx, _⟩ := addFragment_packet (partsOk_of_parts hok ht) hpart' hd
            rw [hx, setPart_self] at hk; cases hk
          · rcases addFragment_stored (partsOk_of_parts hok ht) hpart' (fun a b hab => hd ⟨a, b, hab⟩) with ⟨hx, _⟩ | ⟨pp', hx, _, _, _, _, hdl⟩
            · rw [hx, ht] at hk
              obtain ⟨d, hd, hle⟩ := h0 k pp hk
              exact ⟨d, hd, by omega⟩
            · rw [hx, setPart_self] at hk
              obtain rfl := Option.some.inj hk
              rcases hdl with hdl | ⟨pp0, h3, h4⟩
              · refine ⟨_, hdl, ?_⟩
                rw [ho, htn]
                omega
              · rw [ht] at h3
                obtain ⟨d, hd, hle⟩ := h0 k pp0 h3
                exact ⟨d, by rw [h4]; exact hd, by omega⟩
  exact key es _ s (init_partsOk o q0 x0) ho hopt (by intro k pp hk; cases hk) h k pp hk

/-- Two of three fragments are stored, a fragment with another FragCount is ignored, and the drop timer removes them after 500 ms. -/
example : (match run exEnv (init exOpts 0 0) [exRecv 2 5, exRecv 0 6,
      .receive 7 { seq := some 18446744073709551615, fragIndex := some 1, fragCount := some 4, frag := some [1, 2] }, .tick 500] with
    | .ok s => (s.parts (7, 18446744073709551614)).any (fun pp => pp.nReceived == 2 && pp.deadline == some 500) &&
      (match step exEnv s (.dropTimer (7, 18446744073709551614)) with
        | .ok s' => (s'.parts (7, 18446744073709551614)).isNone && s'.out == [.reassemblyTimeout (7, 18446744073709551614)]
        | _ => false)
    | _ => false) = true := by decide +kernel

end Verif.Lp
