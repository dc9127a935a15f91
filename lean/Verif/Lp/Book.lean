/-
Accounting for network packets and fragments sent with reliability (C47), and where sent packets come from (C43).
-/
import Verif.Lp.Acts

namespace Verif.Lp

/-! ## What is kept -/

/-- A network packet that was sent as LpPackets with Sequences. `id` is its number if it was handed to LpReliability. -/
structure Sent where
  kind : Kind
  tags : SendTags
  net : Bytes
  frags : List Pkt
  id : Option Nat

/-- The packet comes from a `send` event with these fields, under options with `F`. -/
def Origin (env : Env) (F : Opts → Prop) (es : List Event) (g : Sent) : Prop :=
  .send g.kind g.tags g.net ∈ es ∧ ∃ (s : St) (fr : List Pkt), F s.opts ∧ makeFrags env s.opts (netPkt s g.kind g.tags g.net) = .ok (some fr) ∧
    g.frags = (assignSeqs s.lastSeq fr).1

/-- The LpPacket was sent as one of these. -/
def Known (F : Opts → Prop) (es : List Event) (G : List Sent) (p : Pkt) : Prop :=
  (∃ g ∈ G, ∃ f ∈ g.frags, Copy p f) ∨ Copy p {} ∨ ∃ (s : St) (k : Kind) (t : SendTags) (net : Bytes), .send k t net ∈ es ∧ F s.opts ∧ Copy p (netPkt s k t net)

def live (s : St) (id : Nat) : Bool := s.unacked.any (fun e => e.2.net == id)

structure Book (env : Env) (F : Opts → Prop) (q0 m0 M : Nat) (es : List Event) (G : List Sent) (n : Nat) (s : St) : Prop where
  range : ∀ g ∈ G, ∀ f ∈ g.frags, ∃ j, j < n ∧ f.seq = some ((q0 + 1 + j) % W)
  disj : ∀ g ∈ G, ∀ g' ∈ G, ∀ f ∈ g.frags, ∀ f' ∈ g'.frags, f.seq = f'.seq → f = f' ∧ g.id = g'.id
  orig : ∀ g ∈ G, Origin env F es g
  ne : ∀ g ∈ G, g.frags ≠ []
  queued : ∀ id i net seqs, .queued id i net seqs ∈ s.out ↔
    ∃ g ∈ G, g.id = some id ∧ i = (g.kind == .interest) ∧ net = some g.net ∧ seqs = g.frags.filterMap (·.seq)
  own : ∀ g ∈ G, ∀ id, g.id = some id → id < s.nNet ∧ (s.nets id).isInterest = (g.kind == .interest) ∧ (s.nets id).pkt.frag = some g.net
  uniq : ∀ g ∈ G, ∀ g' ∈ G, ∀ id, g.id = some id → g'.id = some id → g = g'
  sent : ∀ o ∈ s.out, ∀ p, o.sends = some p → Known F es G p
  ent : ∀ e ∈ s.unacked, ∃ g ∈ G, g.id = some e.2.net ∧ (∃ f ∈ g.frags, Copy e.2.pkt f) ∧
    ∃ o ∈ s.out, ∃ p, o.sends = some p ∧ p.seq = e.2.pkt.seq ∧ p.txSeq = some e.1
  inj : ∀ e ∈ s.unacked, ∀ e' ∈ s.unacked, e.2.pkt.seq = e'.2.pkt.seq → e = e'
  count : ∀ e ∈ s.unacked, ∀ q, e.2.pkt.seq = some q → s.out.countP (sendsSeq q) = e.2.retx + 1 ∧ e.2.retx ≤ M
  bound : ∀ q, s.out.countP (sendsSeq q) ≤ M + 1
  outcome : ∀ id, s.out.countP (concludes id) + (if live s id then 1 else 0) = if id < s.nNet then 1 else 0
  fate : ∀ g ∈ G, ∀ id, g.id = some id → ∀ f ∈ g.frags, (∃ e ∈ s.unacked, e.2.pkt.seq = f.seq) ∨ .exhausted id ∈ s.out ∨
    ∃ o ∈ s.out, ∃ p t, o.sends = some p ∧ p.seq = f.seq ∧ p.txSeq = some t ∧ ∃ ev ∈ es, t ∈ ev.acks
  after : ∀ a b o id, s.out = a ++ o :: b → concludes id o = true → ∀ g ∈ G, g.id = some id → ∀ f ∈ g.frags, ∀ q, f.seq = some q →
    b.countP (sendsSeq q) = 0
  drop : ∀ g ∈ G, ∀ id, g.id = some id → s.out.countP (drops id) = if g.kind == .interest then s.out.countP (exhausts id) else 0
  content : ∀ id c, .droppedInterest id c ∈ s.out → ∃ g ∈ G, g.id = some id ∧ c = some g.net
  once : ∀ id, s.out.countP (queues id) = if id < s.nNet then 1 else 0
  least : ∀ g ∈ G, ∀ f ∈ g.frags, ∀ q, f.seq = some q → 1 ≤ s.out.countP (sendsSeq q)
  retx : ∀ g ∈ G, ∀ id, g.id = some id →
    ((s.nets id).didRetx = true ↔ ∃ f ∈ g.frags, ∃ q, f.seq = some q ∧ 2 ≤ s.out.countP (sendsSeq q))
  acked : ∀ id, .acknowledged id ∈ s.out → ∀ g ∈ G, g.id = some id → ∀ f ∈ g.frags, ∀ q, f.seq = some q → s.out.countP (sendsSeq q) < 2
  retxd : ∀ id, .retransmitted id ∈ s.out → ∃ g ∈ G, g.id = some id ∧ ∃ f ∈ g.frags, ∃ q, f.seq = some q ∧ 2 ≤ s.out.countP (sendsSeq q)
  exh : ∀ id, .exhausted id ∈ s.out → ∃ g ∈ G, g.id = some id ∧ ∃ f ∈ g.frags, ∃ q, f.seq = some q ∧ m0 + 1 ≤ s.out.countP (sendsSeq q)

structure BookW (env : Env) (F : Opts → Prop) (q0 m0 M : Nat) (es : List Event) (G : List Sent) (n : Nat) (s : St) : Prop where
  last : s.lastSeq = (q0 + n) % W
  most : n ≤ s.out.countP (fun o => o.sends.isSome)
  opt : F s.opts
  book : n ≤ W → Book env F q0 m0 M es G n s

/-! ## What sending appends -/

theorem Xmit.appends {s s' : St} {p : Pkt} (h : Xmit s s' p) : ∃ l, s'.out = s.out ++ l ∧
    (∀ o ∈ l, o = .marked ∨ ∃ p', o.sends = some p' ∧ Copy p' p ∧ p'.txSeq = p.txSeq) ∧
    (∃ o ∈ l, ∃ p', o.sends = some p' ∧ Copy p' p ∧ p'.txSeq = p.txSeq) ∧
    (∀ q, l.countP (sendsSeq q) = if p.seq = some q then 1 else 0) ∧ l.countP (fun o => o.sends.isSome) = 1 := by
  obtain ⟨_, p', x, ms, h1, h2, h3, h4, h5⟩ := h
  have hx : x.sends = some p' := by rcases h3 with rfl | rfl <;> rfl
  refine ⟨_, h1, ?_, ?_, ?_, ?_⟩
  · intro o ho
    rcases List.mem_append.1 ho with ho | ho
    · rcases h2 with rfl | rfl
      · cases ho
      · exact .inl (List.mem_singleton.1 ho)
    · rw [List.mem_singleton.1 ho]; exact .inr ⟨p', hx, h4, h5⟩
  · exact ⟨x, by simp, p', hx, h4, h5⟩
  · intro q
    have h6 : sendsSeq q x = decide (p.seq = some q) := by
      simp only [sendsSeq, hx, Option.bind_some, h4.seq]
      by_cases hq : p.seq = some q <;> simp [hq]
    rcases h2 with rfl | rfl
    · simp only [List.nil_append, List.countP_cons, List.countP_nil, h6]
      by_cases hq : p.seq = some q <;> simp [hq]
    · have h7 : sendsSeq q .marked = false := rfl
      simp only [List.cons_append, List.nil_append, List.countP_cons, List.countP_nil, h6, h7]
      by_cases hq : p.seq = some q <;> simp [hq]
  · rcases h2 with rfl | rfl
    · simp [hx]
    · have h7 : Out.sends .marked = none := rfl
      simp [hx, h7]

theorem SentAll.appends {s s' : St} {ps : List Pkt} (h : SentAll s s' ps) : ∃ l, s'.out = s.out ++ l ∧
    (∀ o ∈ l, o = .marked ∨ ∃ p ∈ ps, ∃ p', o.sends = some p' ∧ Copy p' p ∧ p'.txSeq = p.txSeq) ∧
    (∀ p ∈ ps, ∃ o ∈ l, ∃ p', o.sends = some p' ∧ Copy p' p ∧ p'.txSeq = p.txSeq) ∧
    (∀ q, l.countP (sendsSeq q) = ps.countP (fun p => p.seq == some q)) ∧ l.countP (fun o => o.sends.isSome) = ps.length := by
  induction h with
  | nil s => exact ⟨[], by simp, by simp, by simp, by simp, by simp⟩
  | cons h _ ih =>
    obtain ⟨l1, a1, a2, a3, a4, a5⟩ := h.appends
    obtain ⟨l2, b1, b2, b3, b4, b5⟩ := ih
    refine ⟨l1 ++ l2, by rw [b1, a1, List.append_assoc], ?_, ?_, ?_, ?_⟩
    · intro o ho
      rcases List.mem_append.1 ho with ho | ho
      · rcases a2 o ho with h | h
        · exact .inl h
        · exact .inr ⟨_, by simp, h⟩
      · rcases b2 o ho with h | ⟨p, hp, h⟩
        · exact .inl h
        · exact .inr ⟨p, List.mem_cons_of_mem _ hp, h⟩
    · intro p hp
      rcases List.mem_cons.1 hp with rfl | hp
      · obtain ⟨o, ho, h⟩ := a3; exact ⟨o, List.mem_append_left _ ho, h⟩
      · obtain ⟨o, ho, h⟩ := b3 p hp; exact ⟨o, List.mem_append_right _ ho, h⟩
    · intro q
      rw [List.countP_append, a4, b4, List.countP_cons]
      simp only [beq_iff_eq]
      omega
    · rw [List.countP_append, a5, b5, List.length_cons]; omega

theorem assignSeqs_get : ∀ (fs : List Pkt) (l : Nat) (j : Nat) (f : Pkt), (assignSeqs l fs).1[j]? = some f →
    f.seq = some ((l + 1 + j) % W) ∧ ∃ f0, fs[j]? = some f0 ∧ f = { f0 with seq := f.seq } := by
  intro fs
  induction fs with
  | nil => intro l j f h; simp [assignSeqs] at h
  | cons a fs ih =>
    intro l j f h
    cases j with
    | zero =>
      simp only [assignSeqs, List.getElem?_cons_zero, Option.some.injEq] at h
      subst h
      exact ⟨rfl, a, rfl, rfl⟩
    | succ j =>
      simp only [assignSeqs, List.getElem?_cons_succ] at h
      obtain ⟨h1, f0, h2, h3⟩ := ih _ _ _ h
      refine ⟨?_, f0, by simpa using h2, h3⟩
      rw [h1]
      simp only [W]
      congr 1
      omega

theorem assignSeqs_last : ∀ (fs : List Pkt) (l : Nat), l < W → (assignSeqs l fs).2 = (l + fs.length) % W := by
  intro fs
  induction fs with
  | nil => intro l h; simp [assignSeqs, Nat.mod_eq_of_lt h]
  | cons a fs ih =>
    intro l h
    simp only [assignSeqs, List.length_cons]
    rw [ih _ (Nat.mod_lt _ (by decide))]
    simp only [W]
    omega

/-- The Sequences of a new network packet. -/
theorem new_seqs {q0 n : Nat} {s : St} (h : s.lastSeq = (q0 + n) % W) (fr : List Pkt) :
    (assignSeqs s.lastSeq fr).2 = (q0 + (n + fr.length)) % W ∧
    ∀ j f, (assignSeqs s.lastSeq fr).1[j]? = some f → f.seq = some ((q0 + 1 + (n + j)) % W) := by
  have hlt : s.lastSeq < W := by rw [h]; exact Nat.mod_lt _ (by decide)
  constructor
  · rw [assignSeqs_last _ _ hlt, h]; simp only [W]; omega
  · intro j f hj
    rw [(assignSeqs_get _ _ _ _ hj).1, h]
    simp only [W]; congr 1; omega

/-! ## Each action keeps the books -/

theorem Known.mono {F : Opts → Prop} {es : List Event} {G G' : List Sent} {p : Pkt} (h : Known F es G p) (hG : ∀ g ∈ G, g ∈ G') : Known F es G' p := by
  rcases h with ⟨g, hg, h⟩ | h
  · exact .inl ⟨g, hG g hg, h⟩
  · exact .inr h

theorem split_append {α : Type} {out l a b : List α} {o : α} (h : out ++ l = a ++ o :: b) :
    (∃ c, a = out ++ c ∧ l = c ++ o :: b) ∨ (∃ c, out = a ++ o :: c ∧ b = c ++ l) := by
  rcases List.append_eq_append_iff.1 h with ⟨c, h1, h2⟩ | ⟨c, h1, h2⟩
  · exact .inl ⟨c, h1, h2⟩
  · cases c with
    | nil => exact .inl ⟨[], by simpa using h1.symm, by simpa using h2.symm⟩
    | cons x c =>
      rw [List.cons_append, List.cons.injEq] at h2
      obtain ⟨rfl, rfl⟩ := h2
      exact .inr ⟨c, h1, rfl⟩

/-- Appending effects without Sequences, and changing what is not accounted for. -/
theorem Book.plain {env : Env} {F : Opts → Prop} {q0 m0 M : Nat} {es : List Event} {G : List Sent} {n : Nat} {s s' : St} {l : List Out} (h : Book env F q0 m0 M es G n s)
    (hu : s'.unacked = s.unacked) (hn : s'.nets = s.nets) (hN : s'.nNet = s.nNet) (ho : s'.out = s.out ++ l)
    (hl : ∀ o ∈ l, o.plain = true ∨ ∃ p, o.sends = some p ∧ p.seq = none ∧ Known F es G p) : Book env F q0 m0 M es G n s' := by
  have hq : ∀ q, l.countP (sendsSeq q) = 0 := by
    intro q
    rw [List.countP_eq_zero]
    intro o ho
    rcases hl o ho with h | ⟨p, h1, h2, _⟩
    · cases o <;> first | (cases h; done) | (simp [sendsSeq, Out.sends])
    · simp [sendsSeq, h1, h2]
  have hplain : ∀ (P : Out → Bool), (∀ o, o.plain = true → P o = false) → (∀ o p, o.sends = some p → P o = false) → l.countP P = 0 := by
    intro P h1 h2
    rw [List.countP_eq_zero]
    intro o ho
    rcases hl o ho with h | ⟨p, h, _, _⟩
    · simp [h1 o h]
    · simp [h2 o p h]
  have hc : ∀ id, l.countP (concludes id) = 0 := fun id => hplain _ (by intro o h; cases o <;> first | rfl | cases h) (by intro o p h; cases o <;> first | rfl | cases h)
  have he : ∀ id, l.countP (exhausts id) = 0 := fun id => hplain _ (by intro o h; cases o <;> first | rfl | cases h) (by intro o p h; cases o <;> first | rfl | cases h)
  have hd : ∀ id, l.countP (drops id) = 0 := fun id => hplain _ (by intro o h; cases o <;> first | rfl | cases h) (by intro o p h; cases o <;> first | rfl | cases h)
  have hmem : ∀ {o}, o ∈ s.out → o ∈ s'.out := fun h => by rw [ho]; exact List.mem_append_left _ h
  have hqu : ∀ id, l.countP (queues id) = 0 := fun id => hplain _ (by intro o h; cases o <;> first | rfl | cases h) (by intro o p h; cases o <;> first | rfl | cases h)
  have hback : ∀ {o : Out}, o ∈ s'.out → (∀ l' : List Out, o ∈ l' → 0 < l'.countP (fun o => !o.plain && !o.sends.isSome)) → o ∈ s.out := by
    intro o hx hpos
    rw [ho] at hx
    rcases List.mem_append.1 hx with hx | hx
    · exact hx
    · exfalso
      have h1 := hpos _ hx
      rw [hplain _ (by intro o h; simp [h]) (by intro o p h; simp [h])] at h1
      omega
  refine ⟨h.range, h.disj, h.orig, h.ne, ?_, ?_, h.uniq, ?_, ?_, ?_, ?_, ?_, ?_, ?_, ?_, ?_, ?_, ?_, ?_, ?_, ?_, ?_, ?_⟩
  · intro id i net seqs
    rw [← h.queued, ho, List.mem_append]
    refine ⟨fun hx => hx.resolve_right ?_, .inl⟩
    intro hx
    rcases hl _ hx with h | ⟨p, h, _⟩ <;> cases h
  · rw [hn, hN]; exact h.own
  · intro o hx p hp
    rw [ho] at hx
    rcases List.mem_append.1 hx with hx | hx
    · exact h.sent o hx p hp
    · rcases hl o hx with h1 | ⟨p', h1, _, h2⟩
      · cases o <;> first | (cases hp; done) | (cases h1; done)
      · rw [hp] at h1; rw [Option.some.inj h1]; exact h2
  · rw [hu]
    intro e hx
    obtain ⟨g, h1, h2, h3, o, h4, h5⟩ := h.ent e hx
    exact ⟨g, h1, h2, h3, o, hmem h4, h5⟩
  · rw [hu]; exact h.inj
  · rw [hu, ho]
    intro e hx q hq'
    rw [List.countP_append, hq]
    exact h.count e hx q hq'
  · intro q; rw [ho, List.countP_append, hq]; exact h.bound q
  · intro id
    have : live s' id = live s id := by unfold live; rw [hu]
    rw [ho, List.countP_append, hc, this, hN]; exact h.outcome id
  · intro g hg id hid f hf
    rcases h.fate g hg id hid f hf with ⟨e, h1, h2⟩ | h1 | ⟨o, h1, h2⟩
    · exact .inl ⟨e, by rw [hu]; exact h1, h2⟩
    · exact .inr (.inl (hmem h1))
    · exact .inr (.inr ⟨o, hmem h1, h2⟩)
  · intro a b o id hab hco g hg hid f hf q hq'
    rw [ho] at hab
    rcases split_append hab with ⟨c, h1, h2⟩ | ⟨c, h1, rfl⟩
    · exfalso
      have : o ∈ l := by rw [h2]; simp
      exact List.countP_eq_zero.1 (hc id) o this hco
    · rw [List.countP_append, hq]
      exact h.after a c o id h1 hco g hg hid f hf q hq'
  · intro g hg id hid
    rw [ho, List.countP_append, List.countP_append, hd, he]
    exact h.drop g hg id hid
  · intro id c hx
    rw [ho] at hx
    rcases List.mem_append.1 hx with hx | hx
    · exact h.content id c hx
    · rcases hl _ hx with h | ⟨p, h, _⟩ <;> cases h
  · intro id; rw [ho, List.countP_append, hqu, hN]; exact h.once id
  · intro g hg f hf q hq'; rw [ho, List.countP_append, hq]; exact h.least g hg f hf q hq'
  · intro g hg id hid
    rw [hn, h.retx g hg id hid]
    simp only [ho, List.countP_append, hq, Nat.add_zero]
  · intro id hx g hg hid f hf q hq'
    rw [ho, List.countP_append, hq]
    exact h.acked id (hback hx (fun l' hl' => List.countP_pos_iff.2 ⟨_, hl', rfl⟩)) g hg hid f hf q hq'
  · intro id hx
    simp only [ho, List.countP_append, hq, Nat.add_zero]
    exact h.retxd id (hback hx (fun l' hl' => List.countP_pos_iff.2 ⟨_, hl', rfl⟩))
  · intro id hx
    simp only [ho, List.countP_append, hq, Nat.add_zero]
    exact h.exh id (hback hx (fun l' hl' => List.countP_pos_iff.2 ⟨_, hl', rfl⟩))

theorem live_iff {s : St} {id : Nat} : live s id = true ↔ ∃ e ∈ s.unacked, e.2.net = id := by
  simp [live]

theorem Book.bump {env : Env} {F : Opts → Prop} {q0 m0 M : Nat} {es : List Event} {G : List Sent} {n : Nat} {s : St} (c : Nat × UFrag → Nat) (h : Book env F q0 m0 M es G n s) :
    Book env F q0 m0 M es G n { s with unacked := bump c s.unacked } := by
  have hlive : ∀ id, live { s with unacked := Lp.bump c s.unacked } id = live s id := by
    intro id
    rw [Bool.eq_iff_iff, live_iff, live_iff]
    constructor
    · rintro ⟨e, h1, h2⟩
      obtain ⟨e0, h3, rfl⟩ := mem_bump.1 h1
      exact ⟨e0, h3, h2⟩
    · rintro ⟨e, h1, h2⟩
      exact ⟨_, mem_bump.2 ⟨e, h1, rfl⟩, h2⟩
  refine ⟨h.range, h.disj, h.orig, h.ne, h.queued, h.own, h.uniq, h.sent, ?_, ?_, ?_, h.bound, ?_, ?_, h.after, h.drop, h.content,
    h.once, h.least, h.retx, h.acked, h.retxd, h.exh⟩
  · intro e he
    obtain ⟨e0, h0, rfl⟩ := mem_bump.1 he
    exact h.ent e0 h0
  · intro e he e' he' hs
    obtain ⟨e0, h0, rfl⟩ := mem_bump.1 he
    obtain ⟨e1, h1, rfl⟩ := mem_bump.1 he'
    rw [h.inj e0 h0 e1 h1 hs]
  · intro e he q hq
    obtain ⟨e0, h0, rfl⟩ := mem_bump.1 he
    exact h.count e0 h0 q hq
  · intro id; rw [hlive]; exact h.outcome id
  · intro g hg id hid f hf
    rcases h.fate g hg id hid f hf with ⟨e, h1, h2⟩ | h1 | h1
    · exact .inl ⟨_, mem_bump.2 ⟨e, h1, rfl⟩, h2⟩
    · exact .inr (.inl h1)
    · exact .inr (.inr h1)

/-- The network packet of a stored fragment has another one stored exactly if it lists one. -/
theorem others_iff {x0 : Nat} {s : St} {k : Nat} {u : UFrag} (h : RelOk x0 s) (hk : (k, u) ∈ s.unacked) :
    (∃ e ∈ s.unacked, e.1 ≠ k ∧ e.2.net = u.net) ↔ (s.nets u.net).frags.erase k ≠ [] := by
  obtain ⟨hmem, hnd, _⟩ := h.net.ent _ hk
  constructor
  · rintro ⟨e, he, h1, h2⟩
    have h3 := (h.net.ent e he).1
    rw [h2] at h3
    exact List.ne_nil_of_mem ((hnd.mem_erase_iff).2 ⟨h1, h3⟩)
  · intro hne
    obtain ⟨t, ht⟩ := List.exists_mem_of_ne_nil _ hne
    obtain ⟨h1, h2⟩ := hnd.mem_erase_iff.1 ht
    obtain ⟨v, hv, h3⟩ := h.net.back _ hk t h2
    exact ⟨_, hv, h1, h3⟩

/-- A stored fragment with the Sequence of a fragment of a network packet belongs to that. -/
theorem Book.ent_of {env : Env} {F : Opts → Prop} {q0 m0 M : Nat} {es : List Event} {G : List Sent} {n : Nat} {s : St} (h : Book env F q0 m0 M es G n s)
    {e : Nat × UFrag} (he : e ∈ s.unacked) {g : Sent} (hg : g ∈ G) {f : Pkt} (hf : f ∈ g.frags) (hs : e.2.pkt.seq = f.seq) :
    g.id = some e.2.net ∧ Copy e.2.pkt f := by
  obtain ⟨g', h1, h2, ⟨f', h3, h4⟩, _⟩ := h.ent e he
  obtain ⟨h5, h6⟩ := h.disj g' h1 g hg f' h3 f hf (by rw [← h4.seq, hs])
  exact ⟨by rw [← h6, h2], by rw [← h5]; exact h4⟩

/-- Effects that are not about sending, queueing, concluding or dropping. -/
theorem countP_one {α : Type} (P : α → Bool) (a : α) : [a].countP P = if P a then 1 else 0 := by
  simp [List.countP_cons]

theorem Book.ack {env : Env} {F : Opts → Prop} {x0 q0 m0 M : Nat} {es : List Event} {G : List Sent} {n : Nat} {s : St} (h : Book env F q0 m0 M es G n s) (hr : RelOk x0 s)
    {k : Nat} {u : UFrag} {f : Option Nat} (hk : (k, u) ∈ s.unacked) {ev : Event} (hev : ev ∈ es) (hin : k ∈ ev.acks) :
    Book env F q0 m0 M es G n { s with
          unacked := del s.unacked k
          first := f
          nets := fun i => if i = u.net then { s.nets u.net with frags := (s.nets u.net).frags.erase k } else s.nets i
          out := s.out ++ (if (s.nets u.net).frags.erase k = [] then
            [if (s.nets u.net).didRetx then .retransmitted u.net else .acknowledged u.net] else []) } := by
  have hl : ∃ l, l = (if (s.nets u.net).frags.erase k = [] then
      [if (s.nets u.net).didRetx then Out.retransmitted u.net else .acknowledged u.net] else []) := ⟨_, rfl⟩
  obtain ⟨l, hl⟩ := hl
  rw [← hl]
  have hconc : ∀ id, l.countP (concludes id) = if id = u.net ∧ (s.nets u.net).frags.erase k = [] then 1 else 0 := by
    intro id
    rw [hl]
    by_cases he : (s.nets u.net).frags.erase k = []
    · rw [if_pos he, countP_one]
      have : concludes id (if (s.nets u.net).didRetx then Out.retransmitted u.net else .acknowledged u.net) = (u.net == id) := by
        split <;> rfl
      rw [this]
      by_cases hi : id = u.net
      · simp [hi, he]
      · have : (u.net == id) = false := by simp [Ne.symm hi]
        simp [hi, this]
    · simp [he]
  have hmemx : ∀ o ∈ l, (o = .retransmitted u.net ∧ (s.nets u.net).didRetx = true) ∨ (o = .acknowledged u.net ∧ (s.nets u.net).didRetx = false) := by
    intro o ho
    rw [hl] at ho
    split at ho
    · rw [List.mem_singleton] at ho
      cases hd : (s.nets u.net).didRetx with
      | true => rw [hd] at ho; exact .inl ⟨by simpa using ho, rfl⟩
      | false => rw [hd] at ho; exact .inr ⟨by simpa using ho, rfl⟩
    · cases ho
  have hmeml : ∀ o ∈ l, o = .retransmitted u.net ∨ o = .acknowledged u.net := by
    intro o ho
    rcases hmemx o ho with h | h
    · exact .inl h.1
    · exact .inr h.1
  obtain ⟨g0, hg0, hid0, _⟩ := h.ent _ hk
  have hzero : ∀ (P : Out → Bool), P (.retransmitted u.net) = false → P (.acknowledged u.net) = false → l.countP P = 0 := by
    intro P h1 h2
    rw [List.countP_eq_zero]
    intro o ho
    rcases hmeml o ho with rfl | rfl
    · simp [h1]
    · simp [h2]
  have hq : ∀ q, l.countP (sendsSeq q) = 0 := fun q => hzero _ rfl rfl
  have hlive : ∀ id, (∃ e ∈ del s.unacked k, e.2.net = id) ↔ (∃ e ∈ s.unacked, e.2.net = id) ∧ ¬ (id = u.net ∧ (s.nets u.net).frags.erase k = []) := by
    intro id
    constructor
    · rintro ⟨e, h1, h2⟩
      obtain ⟨h3, h4⟩ := mem_del.1 h1
      refine ⟨⟨e, h3, h2⟩, ?_⟩
      rintro ⟨h5, h6⟩
      exact (others_iff hr hk).1 ⟨e, h3, h4, by rw [h2, h5]⟩ h6
    · rintro ⟨⟨e, h1, h2⟩, h3⟩
      by_cases hi : id = u.net
      · have := fun hx => h3 ⟨hi, hx⟩
        obtain ⟨e', h4, h5, h6⟩ := (others_iff hr hk).2 this
        exact ⟨e', mem_del.2 ⟨h4, h5⟩, by rw [h6, hi]⟩
      · refine ⟨e, mem_del.2 ⟨h1, fun hek => hi ?_⟩, h2⟩
        subst hek
        rw [← h2, hr.win.keyed.unique (u := e.2) (v := u) h1 hk]
  refine ⟨h.range, h.disj, h.orig, h.ne, ?_, ?_, h.uniq, ?_, ?_, ?_, ?_, ?_, ?_, ?_, ?_, ?_, ?_, ?_, ?_, ?_, ?_, ?_, ?_⟩
  · intro id i net seqs
    rw [← h.queued, List.mem_append]
    refine ⟨fun hx => hx.resolve_right ?_, .inl⟩
    intro hx
    rcases hmeml _ hx with h | h <;> cases h
  · intro g hg id hid
    obtain ⟨h1, h2, h3⟩ := h.own g hg id hid
    refine ⟨h1, ?_, ?_⟩
    · simp only; split
      · rename_i hi; rw [← hi]; exact h2
      · exact h2
    · simp only; split
      · rename_i hi; rw [← hi]; exact h3
      · exact h3
  · intro o hx p hp
    rcases List.mem_append.1 hx with hx | hx
    · exact h.sent o hx p hp
    · rcases hmeml o hx with rfl | rfl <;> cases hp
  · intro e he
    obtain ⟨g, h1, h2, h3, o, h4, h5⟩ := h.ent e (mem_del.1 he).1
    exact ⟨g, h1, h2, h3, o, List.mem_append_left _ h4, h5⟩
  · intro e he e' he' hs
    exact h.inj e (mem_del.1 he).1 e' (mem_del.1 he').1 hs
  · intro e he q hq'
    show (s.out ++ l).countP _ = _ ∧ _
    rw [List.countP_append, hq]
    exact h.count e (mem_del.1 he).1 q hq'
  · intro q
    show (s.out ++ l).countP _ ≤ _
    rw [List.countP_append, hq]; exact h.bound q
  · intro id
    have h1 := h.outcome id
    show (s.out ++ l).countP _ + _ = _
    rw [List.countP_append, hconc]
    have h2 := hlive id
    by_cases hc : id = u.net ∧ (s.nets u.net).frags.erase k = []
    · have h3 : live s id = true := live_iff.2 ⟨_, hk, hc.1.symm⟩
      have h4 : live { s with
          unacked := del s.unacked k
          first := f
          nets := fun i => if i = u.net then { s.nets u.net with frags := (s.nets u.net).frags.erase k } else s.nets i
          out := s.out ++ l } id = false := by
        rw [Bool.eq_false_iff]; intro hx; exact (h2.1 (live_iff.1 hx)).2 hc
      rw [h4, if_pos hc]
      rw [h3] at h1
      simp only [if_true] at h1
      simpa using h1
    · have h4 : live { s with
          unacked := del s.unacked k
          first := f
          nets := fun i => if i = u.net then { s.nets u.net with frags := (s.nets u.net).frags.erase k } else s.nets i
          out := s.out ++ l } id = live s id := by
        rw [Bool.eq_iff_iff, live_iff, live_iff]
        exact ⟨fun hx => (h2.1 hx).1, fun hx => h2.2 ⟨hx, hc⟩⟩
      rw [h4, if_neg hc]
      exact h1
  · intro g hg id hid f' hf
    rcases h.fate g hg id hid f' hf with ⟨e, h1, h2⟩ | h1 | ⟨o, h1, h2⟩
    · by_cases hek : e.1 = k
      · right; right
        obtain ⟨g', h3, h4, h5, o, h6, p, h7, h8, h9⟩ := h.ent e h1
        exact ⟨o, List.mem_append_left _ h6, p, k, h7, h8.trans h2, by rw [← hek]; exact h9, ev, hev, hin⟩
      · exact .inl ⟨e, mem_del.2 ⟨h1, hek⟩, h2⟩
    · exact .inr (.inl (List.mem_append_left _ h1))
    · exact .inr (.inr ⟨o, List.mem_append_left _ h1, h2⟩)
  · intro a b o id hab hco g hg hid f hf q hq'
    rcases split_append hab with ⟨c, h1, h2⟩ | ⟨c, h1, rfl⟩
    · have h3 : (c ++ o :: b).countP (sendsSeq q) = 0 := by rw [← h2]; exact hq q
      rw [List.countP_append, List.countP_cons] at h3
      omega
    · rw [List.countP_append, hq]
      exact h.after a c o id h1 hco g hg hid f hf q hq'
  · intro g hg id hid
    show (s.out ++ l).countP _ = if _ then (s.out ++ l).countP _ else 0
    rw [List.countP_append, List.countP_append, hzero _ rfl rfl, hzero _ rfl rfl]
    exact h.drop g hg id hid
  · intro id c hx
    rcases List.mem_append.1 hx with hx | hx
    · exact h.content id c hx
    · rcases hmeml _ hx with h | h <;> cases h
  · intro id
    show (s.out ++ l).countP _ = _
    rw [List.countP_append, hzero _ rfl rfl]; exact h.once id
  · intro g hg f hf q hq'
    show 1 ≤ (s.out ++ l).countP _
    rw [List.countP_append, hq]; exact h.least g hg f hf q hq'
  · intro g hg id hid
    simp only [List.countP_append, hq, Nat.add_zero]
    rw [← h.retx g hg id hid]
    split
    · rename_i hi; rw [hi]
    · exact Iff.rfl
  · intro id hx g hg hid f hf q hq'
    simp only [List.countP_append, hq, Nat.add_zero]
    rcases List.mem_append.1 hx with hx | hx
    · exact h.acked id hx g hg hid f hf q hq'
    · rcases hmemx _ hx with ⟨h1, _⟩ | ⟨h1, h2⟩
      · cases h1
      · cases h1
        apply Nat.lt_of_not_le
        intro h3
        rw [(h.retx g hg _ hid).2 ⟨f, hf, q, hq', h3⟩] at h2
        cases h2
  · intro id hx
    simp only [List.countP_append, hq, Nat.add_zero]
    rcases List.mem_append.1 hx with hx | hx
    · exact h.retxd id hx
    · rcases hmemx _ hx with ⟨h1, h2⟩ | ⟨h1, _⟩
      · cases h1
        exact ⟨g0, hg0, hid0, (h.retx g0 hg0 _ hid0).1 h2⟩
      · cases h1
  · intro id hx
    simp only [List.countP_append, hq, Nat.add_zero]
    rcases List.mem_append.1 hx with hx | hx
    · exact h.exh id hx
    · rcases hmeml _ hx with h1 | h1 <;> cases h1

theorem Book.giveUp {env : Env} {F : Opts → Prop} {q0 m0 M : Nat} {es : List Event} {G : List Sent} {n : Nat} {s : St} (h : Book env F q0 m0 M es G n s)
    {k : Nat} {u : UFrag} {m : List (Nat × UFrag)} {f : Option Nat} (hk : (k, u) ∈ s.unacked) (hmin : m0 ≤ u.retx)
    (hm : ∀ e, e ∈ m ↔ e ∈ s.unacked ∧ e.2.net ≠ u.net) :
    Book env F q0 m0 M es G n { s with unacked := m, first := f, out := s.out ++ gaveUp s u.net } := by
  obtain ⟨g0, hg0, hid0, ⟨f0, hf0, hc0⟩, _⟩ := h.ent _ hk
  obtain ⟨hlt0, hint0, hnet0⟩ := h.own g0 hg0 _ hid0
  have hl : ∃ l, l = gaveUp s u.net := ⟨_, rfl⟩
  obtain ⟨l, hl⟩ := hl
  rw [← hl]
  have hmeml : ∀ o ∈ l, o = .exhausted u.net ∨ o = .droppedInterest u.net (some g0.net) := by
    intro o ho
    rw [hl] at ho
    unfold gaveUp at ho
    rcases List.mem_cons.1 ho with ho | ho
    · exact .inl ho
    · split at ho
      · rw [List.mem_singleton, hnet0] at ho; exact .inr ho
      · cases ho
  have hcount : ∀ (P : Out → Bool), l.countP P = (if P (.exhausted u.net) then 1 else 0) +
      (if g0.kind == .interest then (if P (.droppedInterest u.net (some g0.net)) then 1 else 0) else 0) := by
    intro P
    rw [hl]
    unfold gaveUp
    rw [hint0, hnet0, List.countP_cons]
    cases (g0.kind == .interest) <;> simp [List.countP_cons, Nat.add_comm]
  have hq : ∀ q, l.countP (sendsSeq q) = 0 := by
    intro q; rw [hcount]
    have h1 : sendsSeq q (.exhausted u.net) = false := rfl
    have h2 : sendsSeq q (.droppedInterest u.net (some g0.net)) = false := rfl
    simp [h1, h2]
  have hconc : ∀ id, l.countP (concludes id) = if id = u.net then 1 else 0 := by
    intro id; rw [hcount]
    have h1 : concludes id (.exhausted u.net) = (u.net == id) := rfl
    have h2 : concludes id (.droppedInterest u.net (some g0.net)) = false := rfl
    rw [h1, h2]
    by_cases hi : id = u.net
    · simp [hi]
    · simp [hi, Ne.symm hi]
  refine ⟨h.range, h.disj, h.orig, h.ne, ?_, h.own, h.uniq, ?_, ?_, ?_, ?_, ?_, ?_, ?_, ?_, ?_, ?_, ?_, ?_, ?_, ?_, ?_, ?_⟩
  · intro id i net seqs
    rw [← h.queued, List.mem_append]
    refine ⟨fun hx => hx.resolve_right ?_, .inl⟩
    intro hx
    rcases hmeml _ hx with h | h <;> cases h
  · intro o hx p hp
    rcases List.mem_append.1 hx with hx | hx
    · exact h.sent o hx p hp
    · rcases hmeml o hx with rfl | rfl <;> cases hp
  · intro e he
    obtain ⟨g, h1, h2, h3, o, h4, h5⟩ := h.ent e ((hm e).1 he).1
    exact ⟨g, h1, h2, h3, o, List.mem_append_left _ h4, h5⟩
  · intro e he e' he' hs
    exact h.inj e ((hm e).1 he).1 e' ((hm e').1 he').1 hs
  · intro e he q hq'
    show (s.out ++ l).countP _ = _ ∧ _
    rw [List.countP_append, hq]
    exact h.count e ((hm e).1 he).1 q hq'
  · intro q
    show (s.out ++ l).countP _ ≤ _
    rw [List.countP_append, hq]; exact h.bound q
  · intro id
    have h1 := h.outcome id
    show (s.out ++ l).countP _ + _ = _
    rw [List.countP_append, hconc]
    by_cases hi : id = u.net
    · have h3 : live s id = true := live_iff.2 ⟨_, hk, hi.symm⟩
      have h4 : live { s with unacked := m, first := f, out := s.out ++ l } id = false := by
        rw [Bool.eq_false_iff]; intro hx
        obtain ⟨e, h5, h6⟩ := live_iff.1 hx
        exact ((hm e).1 h5).2 (by rw [h6, hi])
      rw [h4, if_pos hi]
      rw [h3] at h1
      simp only [if_true] at h1
      simpa using h1
    · have h4 : live { s with unacked := m, first := f, out := s.out ++ l } id = live s id := by
        rw [Bool.eq_iff_iff, live_iff, live_iff]
        constructor
        · rintro ⟨e, h5, h6⟩; exact ⟨e, ((hm e).1 h5).1, h6⟩
        · rintro ⟨e, h5, h6⟩; exact ⟨e, (hm e).2 ⟨h5, by rw [h6]; exact hi⟩, h6⟩
      rw [h4, if_neg hi]
      exact h1
  · intro g hg id hid f' hf
    by_cases hi : id = u.net
    · right; left
      rw [hl, hi]
      exact List.mem_append_right _ (by simp [gaveUp])
    · rcases h.fate g hg id hid f' hf with ⟨e, h1, h2⟩ | h1 | ⟨o, h1, h2⟩
      · refine .inl ⟨e, (hm e).2 ⟨h1, ?_⟩, h2⟩
        intro hx
        have := (h.ent_of h1 hg hf h2).1
        rw [hid, hx] at this
        exact hi (Option.some.inj this)
      · exact .inr (.inl (List.mem_append_left _ h1))
      · exact .inr (.inr ⟨o, List.mem_append_left _ h1, h2⟩)
  · intro a b o id hab hco g hg hid f hf q hq'
    rcases split_append hab with ⟨c, h1, h2⟩ | ⟨c, h1, rfl⟩
    · have h3 : (c ++ o :: b).countP (sendsSeq q) = 0 := by rw [← h2]; exact hq q
      rw [List.countP_append, List.countP_cons] at h3
      omega
    · rw [List.countP_append, hq]
      exact h.after a c o id h1 hco g hg hid f hf q hq'
  · intro g hg id hid
    have h1 := h.drop g hg id hid
    show (s.out ++ l).countP _ = if _ then (s.out ++ l).countP _ else 0
    rw [List.countP_append, List.countP_append, hcount, hcount]
    have h2 : drops id (.exhausted u.net) = false := rfl
    have h3 : exhausts id (.droppedInterest u.net (some g0.net)) = false := rfl
    have h4 : drops id (.droppedInterest u.net (some g0.net)) = (u.net == id) := rfl
    have h5 : exhausts id (.exhausted u.net) = (u.net == id) := rfl
    rw [h2, h3, h4, h5, h1]
    by_cases hi : u.net = id
    · have : g = g0 := h.uniq g hg g0 hg0 id hid (by rw [hid0, hi])
      subst this
      simp only [hi]
      cases (g.kind == .interest) <;> simp
    · simp only [beq_iff_eq, hi]
      cases (g.kind == .interest) <;> cases (g0.kind == .interest) <;> simp
  · intro id c hx
    rcases List.mem_append.1 hx with hx | hx
    · exact h.content id c hx
    · rcases hmeml _ hx with h | h
      · cases h
      · cases h; exact ⟨g0, hg0, hid0, rfl⟩
  · intro id
    show (s.out ++ l).countP _ = _
    have h1 : queues id (.exhausted u.net) = false := rfl
    have h2 : queues id (.droppedInterest u.net (some g0.net)) = false := rfl
    rw [List.countP_append, hcount, h1, h2]
    simp only [Bool.false_eq_true, if_false, ite_self, Nat.add_zero]
    exact h.once id
  · intro g hg f hf q hq'
    show 1 ≤ (s.out ++ l).countP _
    rw [List.countP_append, hq]; exact h.least g hg f hf q hq'
  · intro g hg id hid
    simp only [List.countP_append, hq, Nat.add_zero]
    exact h.retx g hg id hid
  · intro id hx g hg hid f hf q hq'
    simp only [List.countP_append, hq, Nat.add_zero]
    rcases List.mem_append.1 hx with hx | hx
    · exact h.acked id hx g hg hid f hf q hq'
    · rcases hmeml _ hx with h1 | h1 <;> cases h1
  · intro id hx
    simp only [List.countP_append, hq, Nat.add_zero]
    rcases List.mem_append.1 hx with hx | hx
    · exact h.retxd id hx
    · rcases hmeml _ hx with h1 | h1 <;> cases h1
  · intro id hx
    simp only [List.countP_append, hq, Nat.add_zero]
    rcases List.mem_append.1 hx with hx | hx
    · exact h.exh id hx
    · rcases hmeml _ hx with h1 | h1
      · cases h1
        obtain ⟨j, _, hj⟩ := h.range g0 hg0 f0 hf0
        refine ⟨g0, hg0, hid0, f0, hf0, _, hj, ?_⟩
        have := (h.count _ hk _ (hc0.seq.trans hj)).1
        simp only at this
        omega
      · cases h1

end Verif.Lp
