/-
C43 and C51: what a link service delivers was sent, and from what it is decoded.
-/
import Verif.Lp.RelProps

namespace Verif.Lp

/-! ## What the receiver delivers -/

/-- The effect is the delivery of a network packet to forwarding. -/
def Out.up : Out → Bool
  | .interest .. | .data .. | .nack .. => true
  | _ => false

theorem sending_up {o : Out} (h : o.sending = true) : o.up = false ∧ ∀ e net first, o ≠ .reassembled e net first := by
  cases o <;> simp_all [Out.sending, Out.up]

/-- What a step appends, as far as the receiving side is concerned. -/
theorem accept_up (env : Env) (s : St) (e : Nat) (p : Pkt) :
    ∃ l, (accept env s e p).out = s.out ++ l ∧
      ((∀ o ∈ l, o.up = false ∧ ∀ e net first, o ≠ .reassembled e net first) ∨
       ∃ net first, (receiveFragment s e p).2 = .packet net first ∧ l = .reassembled e net first :: decodeNet env s.opts net first.hdr) ∧
      (p.frag.isSome ∧ (accept env s e p).parts = (receiveFragment s e p).1.parts ∨ (accept env s e p).parts = s.parts ∧ (accept env s e p).out = s.out) := by
  unfold accept
  split
  · exact ⟨[], by simp, .inl (by simp), .inr ⟨rfl, rfl⟩⟩
  · rename_i hf
    have hf' : p.frag.isSome := by cases h : p.frag <;> simp_all
    split
    · exact ⟨[], by simp, .inl (by simp), .inr ⟨rfl, rfl⟩⟩
    · have hr : (receiveFragment s e p).1.out = s.out ∧ (receiveFragment s e p).1.opts = s.opts := by
        rcases receiveFragment_cases s e p with ⟨h1, _⟩ | ⟨_, _, h1, _⟩ | ⟨k, i, n, _, h1⟩
        · rw [h1]; exact ⟨rfl, rfl⟩
        · rw [h1]; exact ⟨rfl, rfl⟩
        · rw [h1]
          unfold addFragment
          simp only
          repeat' split
          all_goals exact ⟨rfl, rfl⟩
      simp only
      split
      · exact ⟨[], by rw [hr.1]; simp, .inl (by simp), .inl ⟨hf', rfl⟩⟩
      · exact ⟨[.lpInvalid], by simp [emit, hr.1], .inl (by simp [Out.up]), .inl ⟨hf', rfl⟩⟩
      · rename_i net first hpk
        exact ⟨_, by simp only [hr.1, hr.2], .inr ⟨net, first, hpk, rfl⟩, .inl ⟨hf', rfl⟩⟩

/-- What a step appends. -/
theorem step_up {env : Env} {s s' : St} {ev : Event} (h : step env s ev = .ok s') :
    (∃ l, s'.out = s.out ++ l ∧ (∀ o ∈ l, o.up = false ∧ ∀ e net first, o ≠ .reassembled e net first) ∧
      ∀ k, s'.parts k = s.parts k ∨ s'.parts k = none) ∨
    ∃ e p t l, ev = .receive e p ∧ t.out = s.out ++ l ∧ (∀ o ∈ l, o.up = false ∧ ∀ e net first, o ≠ .reassembled e net first) ∧
      t.opts = s.opts ∧ t.parts = s.parts ∧ s' = accept env t e p := by
  have hso : ∀ {t : St}, SendOnly s t → (∃ l, t.out = s.out ++ l ∧ (∀ o ∈ l, o.up = false ∧ ∀ e net first, o ≠ .reassembled e net first) ∧
      ∀ k, t.parts k = s.parts k ∨ t.parts k = none) := by
    intro t ht
    obtain ⟨l, ho, hl⟩ := ht.out
    exact ⟨l, ho, fun o ho => sending_up (hl o ho), fun k => .inl (by rw [ht.parts])⟩
  cases ev with
  | send k t net => exact .inl (hso (send_only h))
  | receive e' p =>
    simp only [step, receive] at h
    split at h
    · split at h
      · cases h
      · rename_i r hr
        cases h
        have h1 := processIncoming_only hr
        obtain ⟨l, ho, hl⟩ := h1.out
        split
        · exact .inr ⟨e', p, r.1, l, rfl, ho, fun o ho => sending_up (hl o ho), h1.opts, h1.parts, rfl⟩
        · refine .inl ⟨l ++ [.duplicate], by simp [emit, ho], ?_, fun k => .inl (by simp [emit, h1.parts])⟩
          intro o ho'
          rcases List.mem_append.1 ho' with ho' | ho'
          · exact sending_up (hl o ho')
          · cases List.mem_singleton.1 ho'; exact ⟨rfl, by simp⟩
    · cases h
      exact .inr ⟨e', p, s, [], rfl, by simp, by simp, rfl, rfl, rfl⟩
  | rto tx =>
    simp only [step] at h
    split at h
    · cases h; exact .inl (hso (.refl _))
    · simp only [bind_ok] at h
      obtain ⟨r, h1, h2⟩ := h
      cases h2
      exact .inl (hso (onLost_only h1))
  | idle =>
    simp only [step] at h
    split at h
    · exact .inl (hso ((flushAcks_only h).after (.same rfl rfl rfl ⟨rfl, rfl⟩ rfl)))
    · cases h; exact .inl (hso (.refl _))
  | dropTimer k =>
    cases h
    left
    have : ∃ l, (dropPartial s k).out = s.out ++ l ∧ ∀ o ∈ l, o.up = false ∧ ∀ e net first, o ≠ .reassembled e net first := by
      unfold dropPartial
      split
      · exact ⟨[], by simp, by simp⟩
      · split
        · exact ⟨[.reassemblyTimeout k], rfl, by simp [Out.up]⟩
        · exact ⟨[], by simp, by simp⟩
    obtain ⟨l, ho, hl⟩ := this
    refine ⟨l, ho, hl, fun k' => ?_⟩
    rcases dropPartial_parts s k k' with he | ⟨_, he, _⟩
    · exact .inl he
    · exact .inr he
  | tick d => cases h; exact .inl ⟨[], by simp, by simp, fun _ => .inl rfl⟩
  | setOptions o => cases h; exact .inl ⟨[], by simp [setOptions], by simp, fun _ => .inl rfl⟩

/-- Where stored fragments and delivered packets come from. -/
structure Came (done : List Event) (s : St) : Prop where
  ok : PartsOk s
  slot : ∀ (k : Key) (pp : Partial) (j : Nat) (p : Pkt), s.parts k = some pp → pp.frags[j]? = some (some p) → .receive k.1 p ∈ done
  out : ∀ e net first, .reassembled e net first ∈ s.out → .receive e first ∈ done ∧ first.fragIndex.getD 0 = 0 ∧
    ((first.fragCount.getD 1 = 1 ∧ first.frag = some net) ∨ (2 ≤ first.fragCount.getD 1 ∧ ∃ q, first.seq = some q))

theorem Came.step {env : Env} {done : List Event} {s s' : St} {ev : Event} (h : Came done s) (hst : Lp.step env s ev = .ok s') :
    Came (done ++ [ev]) s' := by
  have hok := step_partsOk h.ok hst
  rcases step_up hst with ⟨l, ho, hl, hp⟩ | ⟨e, p, t, l, rfl, ho, hl, hopt, hp, rfl⟩
  · refine ⟨hok, ?_, ?_⟩
    · intro k pp j p hpp hj
      rcases hp k with he | he
      · rw [he] at hpp; exact List.mem_append_left _ (h.slot k pp j p hpp hj)
      · rw [he] at hpp; cases hpp
    · intro e net first hin
      rw [ho] at hin
      rcases List.mem_append.1 hin with hin | hin
      · obtain ⟨h1, h2⟩ := h.out e net first hin
        exact ⟨List.mem_append_left _ h1, h2⟩
      · exact absurd rfl ((hl _ hin).2 e net first)
  · have htok : PartsOk t := partsOk_of_parts h.ok hp
    have hslot : ∀ (k : Key) (pp : Partial) (j : Nat) (p : Pkt), t.parts k = some pp → pp.frags[j]? = some (some p) → .receive k.1 p ∈ done := by
      intro k pp j p hpp hj; rw [hp] at hpp; exact h.slot k pp j p hpp hj
    obtain ⟨l', ho', hcase, hparts⟩ := accept_up env t e p
    refine ⟨hok, ?_, ?_⟩
    · intro k pp j p' hpp hj
      rcases hparts with ⟨_, hparts⟩ | ⟨hparts, _⟩
      · rw [hparts] at hpp
        rcases receiveFragment_cases t e p with ⟨h1, _⟩ | ⟨_, _, h1, _⟩ | ⟨k', i, n, hpart, h1⟩
        · rw [h1] at hpp; exact List.mem_append_left _ (hslot k pp j p' hpp hj)
        · rw [h1] at hpp; exact List.mem_append_left _ (hslot k pp j p' hpp hj)
        · rw [h1] at hpp
          by_cases hd : ∃ net first, (addFragment t k' i n p).2 = .packet net first
          · obtain ⟨net, first, hd⟩ := hd
            obtain ⟨_, _, _, _, _, _, hx, _⟩ := addFragment_packet htok hpart hd
            rw [hx] at hpp
            by_cases hk : k = k'
            · rw [hk, setPart_self] at hpp; cases hpp
            · rw [setPart_other hk] at hpp; exact List.mem_append_left _ (hslot k pp j p' hpp hj)
          · rcases addFragment_stored htok hpart (fun a b hab => hd ⟨a, b, hab⟩) with ⟨hx, _⟩ | ⟨pp', hx, _, h3, h4, _⟩
            · rw [hx] at hpp; exact List.mem_append_left _ (hslot k pp j p' hpp hj)
            · rw [hx] at hpp
              by_cases hk : k = k'
              · subst hk
                rw [setPart_self] at hpp
                obtain rfl := Option.some.inj hpp
                by_cases hji : j = i
                · subst hji
                  rw [h3] at hj
                  obtain rfl := Option.some.inj (Option.some.inj hj)
                  obtain ⟨q, _, hk⟩ := hpart.seq
                  rw [hk]; simp
                · obtain ⟨pp0, h5, h6⟩ := (h4 j p' hji).1 hj
                  exact List.mem_append_left _ (hslot k pp0 j p' h5 h6)
              · rw [setPart_other hk] at hpp; exact List.mem_append_left _ (hslot k pp j p' hpp hj)
      · rw [hparts] at hpp; exact List.mem_append_left _ (hslot k pp j p' hpp hj)
    · intro e' net first hin
      rw [ho', ho] at hin
      rcases List.mem_append.1 hin with hin | hin
      · rcases List.mem_append.1 hin with hin | hin
        · obtain ⟨h1, h2⟩ := h.out e' net first hin
          exact ⟨List.mem_append_left _ h1, h2⟩
        · exact absurd rfl ((hl _ hin).2 _ _ _)
      · rcases hcase with hcase | ⟨net', first', hpk, rfl⟩
        · exact absurd rfl ((hcase _ hin).2 _ _ _)
        · rcases List.mem_cons.1 hin with hin | hin
          · obtain ⟨rfl, rfl, rfl⟩ := Out.reassembled.inj hin
            rcases hparts with ⟨hf, _⟩ | ⟨_, hx⟩
            · rcases receiveFragment_cases t e' p with ⟨_, h2⟩ | ⟨hi, hc, _, h2⟩ | ⟨k', i, n, hpart, h1⟩
              · rw [h2] at hpk; cases hpk
              · rw [h2] at hpk
                split at hpk
                · obtain ⟨rfl, rfl⟩ := Reasm.packet.inj hpk
                  refine ⟨by simp, hi, .inl ⟨hc, ?_⟩⟩
                  obtain ⟨b, hb⟩ := Option.isSome_iff_exists.1 hf
                  rw [hb]; rfl
                · cases hpk
              · rw [h1] at hpk
                obtain ⟨fr, hlen, hall, hi, _, h0, _, h3, h4⟩ := addFragment_packet htok hpart hpk
                obtain ⟨h5, h6, q, h7, _⟩ := h3 0 first h0
                have htwo := hpart.two
                refine ⟨?_, h5, .inr ⟨by rw [h6]; exact htwo, q, h7⟩⟩
                obtain ⟨_, _, hk⟩ := hpart.seq
                by_cases hi0 : 0 = i
                · rw [← hi0, h0] at hi
                  obtain rfl := Option.some.inj (Option.some.inj hi)
                  simp
                · obtain ⟨pp, h8, h9⟩ := h4 0 first hi0 h0
                  have := hslot _ _ _ _ h8 h9
                  rw [hk] at this
                  exact List.mem_append_left _ this
            · rw [hx] at ho'
              have := congrArg List.length ho'
              simp at this
          · exfalso
            revert hin
            unfold decodeNet
            repeat' split
            all_goals simp

theorem Came.run {env : Env} : ∀ {es done : List Event} {s s' : St}, Came done s → Lp.run env s es = .ok s' → Came (done ++ es) s' := by
  intro es
  induction es with
  | nil => intro done s s' h hr; cases hr; simpa using h
  | cons ev es ih =>
    intro done s s' h hr
    simp only [Lp.run, bind_ok] at hr
    obtain ⟨s1, h1, h2⟩ := hr
    simpa using ih (h.step h1) h2

theorem came {env : Env} {o : Opts} {q0 x0 : Nat} {es : List Event} {s : St} (h : run env (init o q0 x0) es = .ok s) : Came es s := by
  have := Came.run (done := []) (s := init o q0 x0) ⟨init_partsOk o q0 x0, (by intro k pp j p h; cases h), (by intro e net first h; cases h)⟩ h
  simpa using this

/-! ## What the sender sends -/

/-- Equal headers, apart from the congestion mark. -/
def SameHdr (a b : Hdr) : Prop := { a with mark := none } = { b with mark := none }

theorem SameHdr.trans {a b c : Hdr} (h : SameHdr a b) (h' : SameHdr b c) : SameHdr a c := Eq.trans h h'

theorem assigned_get {last : Nat} {fr frags : List Pkt} (hfr : frags = (assignSeqs last fr).1) : frags.length = fr.length ∧
    ∀ (j : Nat) (f : Pkt), frags[j]? = some f → f.seq = some ((last + 1 + j) % W) ∧ ∃ f0, fr[j]? = some f0 ∧ f = { f0 with seq := f.seq } := by
  subst hfr
  exact ⟨assignSeqs_length _ _, fun j f hj => assignSeqs_get _ _ _ _ hj⟩

/-- The fragments of a packet, with Sequences, are a message. -/
theorem message_of_split {nMax last m : Nat} {p : Pkt} {net : Bytes} {fr frags : List Pkt} (hs : Split nMax p net m fr)
    (hfr : frags = (assignSeqs last fr).1) (hsmall : frags.length ≤ W) (hpb : (parseBlock net).isSome) :
    Message ((last + 1) % W) net frags := by
  obtain ⟨hlen, hget⟩ := assigned_get hfr
  have htwo := hs.two
  refine ⟨Nat.mod_lt _ (by decide), by omega, hsmall, ?_, ?_, hpb⟩
  · intro j f hj
    obtain ⟨h4, f2, h5, h6⟩ := hget j f hj
    obtain ⟨h7, h8, h9, _⟩ := hs.place j f2 h5
    refine ⟨?_, ?_, ?_, ?_⟩
    · rw [h4]; simp only [W]; congr 1; omega
    · rw [h6]; exact h7
    · rw [h6, hlen]; exact h8
    · rw [h6]; exact h9
  · rw [← hs.whole]
    congr 1
    apply List.ext_getElem?
    intro j
    simp only [List.getElem?_map]
    cases hj : frags[j]? with
    | none =>
      have : fr[j]? = none := by
        rw [List.getElem?_eq_none_iff] at hj ⊢; omega
      rw [this]
    | some f =>
      obtain ⟨_, f2, h5, h6⟩ := hget j f hj
      rw [h5, h6]; rfl

theorem Book.split {env : Env} {F : Opts → Prop} {q0 m0 M : Nat} {es : List Event} {G : List Sent} {n : Nat} {s : St}
    (B : Book env F q0 m0 M es G n s) {g : Sent} (hg : g ∈ G) (hpb : (parseBlock g.net).isSome) :
    ∃ o', F o' ∧ (∃ f0, g.frags[0]? = some f0 ∧ SameHdr f0.hdr (encodeFields o' g.kind g.tags)) ∧
      ((∃ f, g.frags = [f] ∧ f.fragIndex = none ∧ f.fragCount = none ∧ f.frag = some g.net) ∨ ∃ base, Message base g.net g.frags) := by
  obtain ⟨_, s0, fr, hF, hmf, hfr⟩ := B.orig g hg
  refine ⟨s0.opts, hF, ?_⟩
  obtain ⟨hlen, hget⟩ := assigned_get hfr
  rcases makeFrags_ok (net := g.net) rfl rfl rfl hmf with rfl | ⟨m, _, _, _, hs⟩
  · have h1 : g.frags.length = 1 := hlen
    obtain ⟨f, hf⟩ := List.length_eq_one_iff.1 h1
    obtain ⟨_, f0, h2, h3⟩ := hget 0 f (by rw [hf]; rfl)
    obtain rfl := Option.some.inj h2
    refine ⟨⟨f, by rw [hf]; rfl, by rw [h3]; exact rfl⟩, .inl ⟨f, hf, by rw [h3], by rw [h3], by rw [h3]⟩⟩
  · have htwo := hs.two
    obtain ⟨f0, hf0⟩ : ∃ f0, g.frags[0]? = some f0 := ⟨g.frags[0]'(by omega), List.getElem?_eq_getElem _⟩
    obtain ⟨_, f1, h2, h3⟩ := hget 0 f0 hf0
    refine ⟨⟨f0, hf0, ?_⟩, .inr ⟨_, message_of_split hs hfr ?_ hpb⟩⟩
    · rw [h3, ((hs.place 0 f1 h2).2.2.2.1 rfl)]; exact rfl
    · apply Nat.le_of_not_lt
      intro hlt
      obtain ⟨w, hw⟩ : ∃ w, w = W := ⟨_, rfl⟩
      rw [← hw] at hlt
      obtain ⟨fW, hfW⟩ : ∃ fW, g.frags[w]? = some fW := ⟨g.frags[w]'hlt, List.getElem?_eq_getElem hlt⟩
      obtain ⟨hs0, _⟩ := hget 0 f0 hf0
      obtain ⟨hsW, f2, h4, h5⟩ := hget w fW hfW
      have hseq : f0.seq = fW.seq := by
        rw [hs0, hsW, hw, Nat.add_mod_right, Nat.add_zero]
      obtain ⟨heq, _⟩ := B.disj g hg g hg f0 (List.mem_of_getElem? hf0) fW (List.mem_of_getElem? hfW) hseq
      have h6 := (hs.place 0 f1 h2).1
      have h7 := (hs.place w f2 h4).1
      rw [heq, h5] at h3
      have h8 := congrArg Pkt.fragIndex h3
      simp only [h6, h7, Option.some.injEq] at h8
      rw [h8] at hw
      exact absurd hw (by decide)

/-- Messages with a fragment in common are the same. -/
theorem Book.same {env : Env} {F : Opts → Prop} {q0 m0 M : Nat} {es : List Event} {G : List Sent} {n : Nat} {s : St}
    (B : Book env F q0 m0 M es G n s) {g g' : Sent} (hg : g ∈ G) (hg' : g' ∈ G) {base : Nat} (hm : Message base g.net g.frags)
    (hm' : Message base g'.net g'.frags) : g.frags = g'.frags := by
  have htwo := hm.two
  have htwo' := hm'.two
  have key : ∀ (j : Nat) (f f' : Pkt), g.frags[j]? = some f → g'.frags[j]? = some f' → f = f' := by
    intro j f f' hj hj'
    exact (B.disj g hg g' hg' f (List.mem_of_getElem? hj) f' (List.mem_of_getElem? hj')
      (by rw [(hm.place j f hj).1, (hm'.place j f' hj').1])).1
  obtain ⟨f0, hf0⟩ : ∃ f0, g.frags[0]? = some f0 := ⟨g.frags[0]'(by omega), List.getElem?_eq_getElem _⟩
  obtain ⟨f0', hf0'⟩ : ∃ f0, g'.frags[0]? = some f0 := ⟨g'.frags[0]'(by omega), List.getElem?_eq_getElem _⟩
  have h0 := key 0 _ _ hf0 hf0'
  have hlen : g.frags.length = g'.frags.length := by
    have h1 := (hm.place 0 f0 hf0).2.2.1
    have h2 := (hm'.place 0 f0' hf0').2.2.1
    rw [h0, h2] at h1
    exact (Option.some.inj h1).symm
  apply List.ext_getElem hlen
  intro j h1 h2
  exact key j _ _ (List.getElem?_eq_getElem h1) (List.getElem?_eq_getElem h2)

theorem Message.claims {base b : Nat} {net : Bytes} {frags : List Pkt} (hm : Message base net frags) {f p : Pkt} (hf : f ∈ frags) (hc : Copy p f) :
    Claims b p ↔ base = b := by
  obtain ⟨j, hj⟩ := List.mem_iff_getElem?.1 hf
  obtain ⟨h1, h2, h3, _⟩ := hm.place j f hj
  have hlt : j < frags.length := by
    obtain ⟨h, _⟩ := List.getElem?_eq_some_iff.1 hj; exact h
  have hb := hm.base_lt
  have hsm := hm.small
  have htwo := hm.two
  unfold Claims
  rw [hc.fragCount, hc.fragIndex, hc.seq, h1, h2, h3]
  simp only [Option.getD_some, Option.some.injEq, exists_eq_left']
  have hx : ((base + j) % W + W - j % W) % W = base := by
    simp only [W] at *; omega
  rw [hx]
  exact ⟨fun h => h.2, fun h => ⟨htwo, h⟩⟩

/-! ## C43 -/

section
variable {env : Env} {o : Opts} {q0 x0 : Nat} {es : List Event} {s : St} (hx : x0 < W) (hq : q0 < W)
  (h : run env (init o q0 x0) es = .ok s) (hn : s.out.countP (fun o => o.sends.isSome) ≤ W)
  (hpk : ∀ k t net, .send k t net ∈ es → (parseBlock net).isSome)
include hx hq h hn hpk

/-- C43: every LpPacket with a payload that a link service sends is a network packet that it was told to send, with the fields that
belong to it under options that were in force, or a transmission of one of the fragments of such a network packet, of which the first
has these fields; and then the link service sends nothing else with the Sequences of that message. (In a run that sends at most 2^64
LpPackets; network packets are TLV elements.) -/
theorem C43_sent {p : Pkt} (hp : .frame p ∈ s.out) (hf : p.frag.isSome) :
    ∃ k t net o', .send k t net ∈ es ∧ InForce o es o' ∧
      ((p.fragIndex = none ∧ p.fragCount = none ∧ p.frag = some net ∧ SameHdr p.hdr (encodeFields o' k t)) ∨
       ∃ base frags, Message base net frags ∧ (∃ f ∈ frags, Copy p f) ∧
        (∃ f0, frags[0]? = some f0 ∧ SameHdr f0.hdr (encodeFields o' k t)) ∧
        ∀ p', .frame p' ∈ s.out → Claims base p' → ∃ f ∈ frags, Copy p' f) := by
  obtain ⟨M, _, G, n, B⟩ := books0 hx hq h hn
  rcases B.sent _ hp p rfl with ⟨g, hg, f, hfg, hc⟩ | hc | ⟨s0, k, t, net, hsend, hF, hc⟩
  · have hsend := (B.orig g hg).1
    obtain ⟨o', hF, ⟨f0, hf0, hh⟩, hcase⟩ := B.split hg (hpk _ _ _ hsend)
    refine ⟨g.kind, g.tags, g.net, o', hsend, hF, ?_⟩
    rcases hcase with ⟨f1, h1, h2, h3, h4⟩ | ⟨base, hm⟩
    · left
      rw [h1] at hfg hf0
      obtain rfl := List.mem_singleton.1 hfg
      obtain rfl := Option.some.inj hf0
      exact ⟨hc.fragIndex.trans h2, hc.fragCount.trans h3, hc.frag.trans h4, SameHdr.trans hc.hdr hh⟩
    · right
      refine ⟨base, g.frags, hm, ⟨f, hfg, hc⟩, ⟨f0, hf0, hh⟩, ?_⟩
      intro p' hp' hcl
      rcases B.sent _ hp' p' rfl with ⟨g', hg', f', hfg', hc'⟩ | hc' | ⟨_, _, _, _, _, _, hc'⟩
      · obtain ⟨_, _, _, hcase'⟩ := B.split hg' (hpk _ _ _ (B.orig g' hg').1)
        rcases hcase' with ⟨f1, h1, h2, h3, h4⟩ | ⟨base', hm'⟩
        · exfalso
          rw [h1] at hfg'
          obtain rfl := List.mem_singleton.1 hfg'
          have := hcl.1
          rw [hc'.fragCount, h3] at this
          exact absurd this (by decide)
        · have hb := (hm'.claims hfg' hc').1 hcl
          subst hb
          rw [B.same hg hg' hm hm']
          exact ⟨f', hfg', hc'⟩
      · exfalso
        have := hcl.1
        rw [hc'.fragCount] at this
        exact absurd this (by decide)
      · exfalso
        have := hcl.1
        rw [hc'.fragCount] at this
        exact absurd (show 2 ≤ 1 from this) (by decide)
  · rw [hc.frag] at hf; cases hf
  · exact ⟨k, t, net, s0.opts, hsend, hF, .inl ⟨hc.fragIndex, hc.fragCount, hc.frag, hc.hdr⟩⟩

/-- C43, end to end: if all that is received from an endpoint was sent by a link service (with any loss, reordering and duplication),
then whatever is delivered from that endpoint is a network packet that the link service was told to send, with its fields. -/
theorem C43_genuine {env' : Env} {o1 : Opts} {q1 x1 e : Nat} {rs : List Event} {r : St} (hr : run env' (init o1 q1 x1) rs = .ok r)
    (hch : ∀ p, .receive e p ∈ rs → .frame p ∈ s.out) {net : Bytes} {first : Pkt} (hd : .reassembled e net first ∈ r.out) :
    ∃ k t o', .send k t net ∈ es ∧ InForce o es o' ∧ SameHdr first.hdr (encodeFields o' k t) := by
  obtain ⟨hrecv, hi, hcase⟩ := (came hr).out e net first hd
  have hsent := hch first hrecv
  rcases hcase with ⟨hc, hf⟩ | ⟨hc, q, hseq⟩
  · obtain ⟨k, t, net', o', h1, h2, ⟨_, _, h5, h6⟩ | ⟨base, frags, hm, ⟨f, hf', hcp⟩, _⟩⟩ := C43_sent hx hq h hn hpk hsent (by rw [hf]; rfl)
    · rw [hf] at h5
      obtain rfl := Option.some.inj h5
      exact ⟨k, t, o', h1, h2, h6⟩
    · exfalso
      have := ((hm.claims hf' hcp).2 rfl).1
      omega
  · have hfr : first.frag.isSome := by
      obtain ⟨M, _, G, n, B⟩ := books0 hx hq h hn
      rcases B.sent _ hsent first rfl with ⟨g, hg, f, hfg, hcp⟩ | hcp | ⟨_, _, _, _, _, _, hcp⟩
      · rcases B.split hg (hpk _ _ _ (B.orig g hg).1) with ⟨_, _, _, ⟨f1, h1, _, _, h4⟩ | ⟨base, hm⟩⟩
        · rw [h1] at hfg
          obtain rfl := List.mem_singleton.1 hfg
          rw [hcp.frag, h4]; rfl
        · obtain ⟨j, hj⟩ := List.mem_iff_getElem?.1 hfg
          rw [hcp.frag]; exact (hm.place j f hj).2.2.2
      · rw [hcp.fragCount] at hc; exact absurd hc (by decide)
      · rw [hcp.frag]; rfl
    obtain ⟨k, t, net', o', h1, h2, ⟨_, h4, _⟩ | ⟨base, frags, hm, ⟨f, hf', hcp⟩, ⟨f0, hf0, hh⟩, hon⟩⟩ := C43_sent hx hq h hn hpk hsent hfr
    · rw [h4] at hc; exact absurd hc (by decide)
    · have hbase : first.seq = some base := by
        obtain ⟨j, hj⟩ := List.mem_iff_getElem?.1 hf'
        obtain ⟨h5, h6, _⟩ := hm.place j f hj
        have h7 : j = 0 := by rw [hcp.fragIndex, h6] at hi; exact hi
        subst h7
        rw [hcp.seq, h5, Nat.add_zero, Nat.mod_eq_of_lt hm.base_lt]
      have hdel : delivers e base (.reassembled e net first) = true := by
        simp [delivers, hbase, hc]
      obtain ⟨first', f0', h5, h6, h7, h8⟩ := (C43_at_most hm (fun p hp hcl => hon p (hch p hp) hcl) hr).2 _ hd hdel
      obtain ⟨_, rfl, rfl⟩ := Out.reassembled.inj h5
      rw [hf0] at h7
      obtain rfl := Option.some.inj h7
      exact ⟨k, t, o', h1, h2, SameHdr.trans h8.hdr hh⟩

end

/-- C43: sending a network packet (a TLV element) refuses it with a fragmentation error, or sends it whole, or sends at least one
transmission of each fragment of a message that consists of it, with Sequences following the last one used. -/
theorem C43_transmitted {env : Env} {o : Opts} {q0 x0 : Nat} {es : List Event} {s s' : St} (hx : x0 < W) (h : run env (init o q0 x0) es = .ok s)
    {k : Kind} {t : SendTags} {net : Bytes} (hfm : s.opts.fragMax ≤ W) (hpb : (parseBlock net).isSome)
    (hst : step env s (.send k t net) = .ok s') :
    ∃ l, s'.out = s.out ++ l ∧
      (l = [.fragError] ∨
       (∃ x ∈ l, ∃ p, (x = .frame p ∨ x = .overMtu p) ∧ p.fragIndex = none ∧ p.fragCount = none ∧ p.frag = some net ∧
          SameHdr p.hdr (encodeFields s.opts k t)) ∨
       ∃ frags, s.opts.allowFragmentation = true ∧ Message ((s.lastSeq + 1) % W) net frags ∧
        (∃ f0, frags[0]? = some f0 ∧ SameHdr f0.hdr (encodeFields s.opts k t)) ∧
        ∀ f ∈ frags, ∃ x ∈ l, ∃ p, (x = .frame p ∨ x = .overMtu p) ∧ Copy p f) := by
  have hok := run_relOk (init_relOk o q0 x0 hx) h
  have hsends : ∀ {x : Out} {p : Pkt}, x.sends = some p → x = .frame p ∨ x = .overMtu p := by
    intro x p hxp
    cases x <;> simp only [Out.sends, Option.some.injEq, reduceCtorEq] at hxp
    · subst hxp; exact .inl rfl
    · subst hxp; exact .inr rfl
  simp only [step, send, sendNet] at hst
  split at hst
  · cases hst
  · cases hst; exact ⟨[.fragError], rfl, .inl rfl⟩
  · rename_i fr hmf
    have hcase := makeFrags_ok (net := net) (p := netPkt s k t net) rfl rfl rfl hmf
    unfold sendFrags at hst
    split at hst
    · cases hst
    · -- what is sent are copies of the packets with Sequences, or the packet itself
      have key : ∃ l fs', s'.out = s.out ++ l ∧ (∀ p ∈ fs', ∃ x ∈ l, ∃ p', x.sends = some p' ∧ Copy p' p) ∧
          (fs' = fr ∨ fs'.map bare = (assignSeqs s.lastSeq fr).1.map bare) ∧ (fs' = fr → fr.length = 1) := by
        split at hst
        · simp only at hst
          split at hst
          · simp only [bind_ok] at hst
            obtain ⟨⟨s1, fs'⟩, h1, h2⟩ := hst
            have hw : WinS x0 (queueing s k t net fr) := hok.win
            rcases queueFrags_eq (id := s.nNet) hw (fs := (assignSeqs s.lastSeq fr).1) (fun f hf => (assignSeqs_map fr s.lastSeq).2 f hf) with ⟨n, h3, _⟩ | ⟨s2, fs2, h3, hq⟩
            · have h1' : queueFrags (queueing s k t net fr) s.nNet (assignSeqs s.lastSeq fr).1 = .ok (s1, fs') := h1
              rw [h3] at h1'; cases h1'
            · have h1' : queueFrags (queueing s k t net fr) s.nNet (assignSeqs s.lastSeq fr).1 = .ok (s1, fs') := h1
              rw [h3] at h1'
              obtain ⟨rfl, rfl⟩ := Prod.mk.inj (Except.ok.inj h1')
              obtain ⟨s3, h4, h5⟩ := sendAll_eq env (s := s2) (ps := fs2) (fun _ p hp => by
                obtain ⟨f, hf, hc⟩ := copies_get hq.copies p hp
                apply not_bare_seq
                rw [hc.seq]
                exact (assignSeqs_map fr s.lastSeq).2 f hf)
              rw [h4] at h2
              obtain rfl := Except.ok.inj h2
              obtain ⟨l, a1, a2, a3, a4, a5⟩ := h5.appends
              refine ⟨.queued s.nNet (k == .interest) (some net) ((assignSeqs s.lastSeq fr).1.filterMap (·.seq)) :: l, fs2, ?_, ?_, .inr hq.copies, ?_⟩
              · rw [a1, hq.out]; simp
              · intro p hp
                obtain ⟨x, hx, p', h6, h7, _⟩ := a3 p hp
                exact ⟨x, List.mem_cons_of_mem _ hx, p', h6, h7⟩
              · intro he
                exfalso
                have hne := frags_ne hmf
                obtain ⟨f, hf⟩ := List.exists_mem_of_ne_nil _ hne
                obtain ⟨f', hf', hc⟩ := copies_get hq.copies f (by rw [he]; exact hf)
                have h6 := (assignSeqs_map fr s.lastSeq).2 f' hf'
                rw [← hc.seq] at h6
                rcases hcase with rfl | ⟨m, _, _, _, hs⟩
                · obtain rfl := List.mem_singleton.1 hf
                  cases h6
                · obtain ⟨j, hj⟩ := List.mem_iff_getElem?.1 hf
                  have h7 := (hs.place j f hj).2.2.2
                  by_cases hj0 : j = 0
                  · rw [h7.1 hj0] at h6; cases h6
                  · rw [h7.2 hj0] at h6; cases h6
          · obtain ⟨s3, h4, h5⟩ := sendAll_eq env (s := { s with lastSeq := (assignSeqs s.lastSeq fr).2 }) (ps := (assignSeqs s.lastSeq fr).1)
              (fun _ p hp => not_bare_seq ((assignSeqs_map fr s.lastSeq).2 p hp))
            rw [h4] at hst
            obtain rfl := Except.ok.inj hst
            obtain ⟨l, a1, a2, a3, a4, a5⟩ := h5.appends
            refine ⟨l, (assignSeqs s.lastSeq fr).1, a1, ?_, .inr rfl, ?_⟩
            · intro p hp
              obtain ⟨x, hx, p', h6, h7, _⟩ := a3 p hp
              exact ⟨x, hx, p', h6, h7⟩
            · intro he
              exfalso
              obtain ⟨f, hf⟩ := List.exists_mem_of_ne_nil _ (frags_ne hmf)
              have h6 := (assignSeqs_map fr s.lastSeq).2 f (by rw [he]; exact hf)
              rcases hcase with rfl | ⟨m, _, _, _, hs⟩
              · obtain rfl := List.mem_singleton.1 hf
                cases h6
              · obtain ⟨j, hj⟩ := List.mem_iff_getElem?.1 hf
                have h7 := (hs.place j f hj).2.2.2
                by_cases hj0 : j = 0
                · rw [h7.1 hj0] at h6; cases h6
                · rw [h7.2 hj0] at h6; cases h6
        · rename_i hno
          have hrel : s.opts.relEnabled = false := by
            cases hr : s.opts.relEnabled with
            | false => rfl
            | true => rw [hr] at hno; simp at hno
          obtain ⟨s3, h4, h5⟩ := sendAll_eq env (s := s) (ps := fr) (fun hr => by rw [hrel] at hr; cases hr)
          rw [h4] at hst
          obtain rfl := Except.ok.inj hst
          obtain ⟨l, a1, a2, a3, a4, a5⟩ := h5.appends
          refine ⟨l, fr, a1, ?_, .inl rfl, ?_⟩
          · intro p hp
            obtain ⟨x, hx, p', h6, h7, _⟩ := a3 p hp
            exact ⟨x, hx, p', h6, h7⟩
          · intro _
            have h6 : ¬ fr.length > 1 := by
              intro h6; apply hno; simp [h6]
            have h7 := List.length_pos_iff.2 (frags_ne hmf)
            omega
      obtain ⟨l, fs', ho, hl, hcp, hone⟩ := key
      refine ⟨l, ho, .inr ?_⟩
      rcases hcase with rfl | ⟨m, _, hal, _, hs⟩
      · left
        rcases hcp with rfl | hcp
        · obtain ⟨x, hx, p, h1, h2⟩ := hl (netPkt s k t net) (by simp)
          exact ⟨x, hx, p, hsends h1, h2.fragIndex, h2.fragCount, h2.frag, h2.hdr⟩
        · obtain ⟨hlen, hget⟩ := assigned_get (last := s.lastSeq) (fr := [netPkt s k t net]) rfl
          obtain ⟨f, hf⟩ := List.length_eq_one_iff.1 hlen
          rw [hf] at hcp
          obtain ⟨_, f0, h2, h3⟩ := hget 0 f (by rw [hf]; rfl)
          obtain rfl := Option.some.inj h2
          have hlen' := congrArg List.length hcp
          simp only [List.length_map, List.length_cons, List.length_nil, Nat.zero_add] at hlen'
          obtain ⟨p, rfl⟩ := List.length_eq_one_iff.1 hlen'
          obtain ⟨f', hf', hc⟩ := copies_get hcp p (by simp)
          obtain rfl := List.mem_singleton.1 hf'
          obtain ⟨x, hx, p', h1, h2⟩ := hl p (by simp)
          refine ⟨x, hx, p', hsends h1, ?_, ?_, ?_, ?_⟩
          · rw [h2.fragIndex, hc.fragIndex, h3]
          · rw [h2.fragCount, hc.fragCount, h3]
          · rw [h2.frag, hc.frag, h3]
          · exact (SameHdr.trans h2.hdr hc.hdr).trans (by rw [h3]; exact rfl)
      · right
        have htwo := hs.two
        have hcp' : fs'.map bare = (assignSeqs s.lastSeq fr).1.map bare := by
          rcases hcp with rfl | hcp
          · have := hone rfl; omega
          · exact hcp
        obtain ⟨hlen, hget⟩ := assigned_get (last := s.lastSeq) (fr := fr) rfl
        have hmost := hs.most
        refine ⟨(assignSeqs s.lastSeq fr).1, hal, message_of_split hs rfl (by omega) hpb, ?_, ?_⟩
        · obtain ⟨f0, hf0⟩ : ∃ f0, (assignSeqs s.lastSeq fr).1[0]? = some f0 := ⟨(assignSeqs s.lastSeq fr).1[0]'(by omega), List.getElem?_eq_getElem _⟩
          obtain ⟨_, f1, h2, h3⟩ := hget 0 f0 hf0
          refine ⟨f0, hf0, ?_⟩
          rw [h3, ((hs.place 0 f1 h2).2.2.2.1 rfl)]; exact rfl
        · intro f hf
          have : bare f ∈ (assignSeqs s.lastSeq fr).1.map bare := List.mem_map.2 ⟨f, hf, rfl⟩
          rw [← hcp', List.mem_map] at this
          obtain ⟨p, hp, he⟩ := this
          obtain ⟨x, hx, p', h1, h2⟩ := hl p hp
          have hcpf : Copy p f := by
            obtain ⟨f', hf', hc⟩ := copies_get (fs := [f]) (fs' := [p]) (by simp [he]) p (by simp)
            obtain rfl := List.mem_singleton.1 hf'
            exact hc
          exact ⟨x, hx, p', hsends h1, h2.trans hcpf⟩

/-! ## An example: the frames of the run in RelProps, received in reverse order

The first fragment of the first Interest was sent twice; so was a fragment of the second Interest, which was given up by the sender. -/

def relFrames : List Pkt := relEnd.filterMap (fun o => match o with | .frame p => some p | _ => none)

/-- The channel hypothesis of C43_genuine. -/
example : ∀ p, Event.receive 3 p ∈ relFrames.reverse.map (fun p => Event.receive 3 p) → Out.frame p ∈ relEnd := by
  intro p hp
  simp only [List.mem_map, List.mem_reverse, relFrames, List.mem_filterMap, Event.receive.injEq, true_and, exists_eq_right] at hp
  obtain ⟨o, ho, h⟩ := hp
  cases o <;> simp at h
  subst h; exact ho

example : (match run exEnv (init { allowReassembly := true } 0 0) (relFrames.reverse.map (fun p => Event.receive 3 p)) with
    | .ok r => r.out.filterMap (fun o => match o with | .reassembled _ net _ => some net | _ => none) ==
        [relData, relData, relInterest, relInterest]
    | _ => false) = true := by decide +kernel

/-- The network packets of the run are TLV elements. -/
example : (parseBlock relInterest).isSome ∧ (parseBlock relData).isSome := by decide +kernel

end Verif.Lp
