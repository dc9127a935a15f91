/-
Accounting for network packets and fragments sent with reliability, continued: sending again and sending anew (C47).
-/
import Verif.Lp.Book

namespace Verif.Lp

theorem sends_cases {o : Out} {p : Pkt} (h : o.sends = some p) : o = .frame p ∨ o = .overMtu p := by
  cases o <;> first | (cases h; done) | (cases h; simp)

/-- Only sends and marks: nothing else is in the list. -/
theorem only_sends {l : List Out} {P : Out → Bool} (hl : ∀ o ∈ l, o = .marked ∨ ∃ p, o.sends = some p) (h1 : P .marked = false)
    (h2 : ∀ p, P (.frame p) = false) (h3 : ∀ p, P (.overMtu p) = false) : l.countP P = 0 := by
  rw [List.countP_eq_zero]
  intro o ho
  rcases hl o ho with rfl | ⟨p, hp⟩
  · simp [h1]
  · rcases sends_cases hp with rfl | rfl
    · simp [h2]
    · simp [h3]

theorem Book.concluded {env : Env} {F : Opts → Prop} {q0 m0 M : Nat} {es : List Event} {G : List Sent} {n : Nat} {s : St} (h : Book env F q0 m0 M es G n s)
    {e : Nat × UFrag} (he : e ∈ s.unacked) {o : Out} (ho : o ∈ s.out) : concludes e.2.net o = false := by
  rw [Bool.eq_false_iff]
  intro hc
  have h1 := h.outcome e.2.net
  have h2 : live s e.2.net = true := live_iff.2 ⟨e, he, rfl⟩
  have h3 : 0 < s.out.countP (concludes e.2.net) := List.countP_pos_iff.2 ⟨o, ho, hc⟩
  rw [h2, if_pos rfl] at h1
  split at h1 <;> omega

theorem Book.resend {env : Env} {F : Opts → Prop} {x0 q0 m0 M : Nat} {es : List Event} {G : List Sent} {n : Nat} {s s' : St} (h : Book env F q0 m0 M es G n s) (hr : RelOk x0 s)
    {k tx : Nat} {u : UFrag} {m : List (Nat × UFrag)} {l : List Out} {ord : Nat} (hk : (k, u) ∈ s.unacked) (hM : u.retx + 1 ≤ M)
    (hm : ∀ e, e ∈ m ↔ e = (tx, { pkt := { u.pkt with txSeq := some tx }, retx := u.retx + 1, nGreater := 0, net := u.net, order := ord }) ∨
        (e ∈ s.unacked ∧ e.1 ≠ k))
    (hu : s'.unacked = m) (hN : s'.nNet = s.nNet)
    (hn : ∀ i, (s'.nets i).isInterest = (s.nets i).isInterest ∧ (s'.nets i).pkt = (s.nets i).pkt ∧
      (s'.nets i).didRetx = (decide (i = u.net) || (s.nets i).didRetx))
    (ho : s'.out = s.out ++ l)
    (hl1 : ∀ o ∈ l, o = .marked ∨ ∃ p', o.sends = some p' ∧ Copy p' { u.pkt with txSeq := some tx } ∧ p'.txSeq = some tx)
    (hl2 : ∃ o ∈ l, ∃ p', o.sends = some p' ∧ Copy p' { u.pkt with txSeq := some tx } ∧ p'.txSeq = some tx)
    (hl3 : ∀ q, l.countP (sendsSeq q) = if u.pkt.seq = some q then 1 else 0) : Book env F q0 m0 M es G n s' := by
  obtain ⟨g0, hg0, hid0, ⟨f0, hf0, hc0⟩, _⟩ := h.ent _ hk
  simp only at hid0 hc0
  have hl1' : ∀ o ∈ l, o = .marked ∨ ∃ p, o.sends = some p := by
    intro o ho
    rcases hl1 o ho with h | ⟨p, h, _⟩
    · exact .inl h
    · exact .inr ⟨p, h⟩
  have hconc : ∀ id, l.countP (concludes id) = 0 := fun id => only_sends hl1' rfl (fun _ => rfl) (fun _ => rfl)
  have hdrop : ∀ id, l.countP (drops id) = 0 := fun id => only_sends hl1' rfl (fun _ => rfl) (fun _ => rfl)
  have hexh : ∀ id, l.countP (exhausts id) = 0 := fun id => only_sends hl1' rfl (fun _ => rfl) (fun _ => rfl)
  have hmem : ∀ {o}, o ∈ s.out → o ∈ s'.out := fun h => by rw [ho]; exact List.mem_append_left _ h
  have hlive : ∀ id, live s' id = live s id := by
    intro id
    rw [Bool.eq_iff_iff, live_iff, live_iff, hu]
    constructor
    · rintro ⟨e, h1, h2⟩
      rcases (hm e).1 h1 with rfl | ⟨h3, _⟩
      · exact ⟨_, hk, h2⟩
      · exact ⟨e, h3, h2⟩
    · rintro ⟨e, h1, h2⟩
      by_cases hek : e.1 = k
      · have : e.2 = u := by subst hek; exact hr.win.keyed.unique h1 hk
        exact ⟨_, (hm _).2 (.inl rfl), by rw [← h2, this]⟩
      · exact ⟨e, (hm e).2 (.inr ⟨h1, hek⟩), h2⟩
  have huniq : ∀ e ∈ s.unacked, e.2.pkt.seq = u.pkt.seq → e.1 = k := by
    intro e he hs
    have := h.inj e he _ hk hs
    rw [this]
  refine ⟨h.range, h.disj, h.orig, h.ne, ?_, ?_, h.uniq, ?_, ?_, ?_, ?_, ?_, ?_, ?_, ?_, ?_, ?_, ?_, ?_, ?_, ?_, ?_, ?_⟩
  · intro id i net seqs
    rw [← h.queued, ho, List.mem_append]
    refine ⟨fun hx => hx.resolve_right ?_, .inl⟩
    intro hx
    rcases hl1 _ hx with h | ⟨_, h, _⟩ <;> cases h
  · intro g hg id hid
    obtain ⟨h1, h2, h3⟩ := h.own g hg id hid
    rw [hN, (hn id).1, (hn id).2.1]; exact ⟨h1, h2, h3⟩
  · intro o hx p hp
    rw [ho] at hx
    rcases List.mem_append.1 hx with hx | hx
    · exact h.sent o hx p hp
    · rcases hl1 o hx with rfl | ⟨p', h1, h2, _⟩
      · cases hp
      · rw [hp] at h1
        obtain rfl := Option.some.inj h1
        exact .inl ⟨g0, hg0, f0, hf0, h2.trans ⟨hc0.seq, hc0.fragIndex, hc0.fragCount, hc0.frag, hc0.hdr⟩⟩
  · intro e he
    rw [hu] at he
    rcases (hm e).1 he with rfl | ⟨h1, _⟩
    · refine ⟨g0, hg0, hid0, ⟨f0, hf0, ⟨hc0.seq, hc0.fragIndex, hc0.fragCount, hc0.frag, hc0.hdr⟩⟩, ?_⟩
      obtain ⟨o, h1, p', h2, h3, h4⟩ := hl2
      exact ⟨o, by rw [ho]; exact List.mem_append_right _ h1, p', h2, h3.seq, h4⟩
    · obtain ⟨g, h1, h2, h3, o, h4, h5⟩ := h.ent e h1
      exact ⟨g, h1, h2, h3, o, hmem h4, h5⟩
  · intro e he e' he' hs
    rw [hu] at he he'
    rcases (hm e).1 he with rfl | ⟨h1, h1'⟩ <;> rcases (hm e').1 he' with rfl | ⟨h2, h2'⟩
    · rfl
    · exact absurd (huniq e' h2 hs.symm) h2'
    · exact absurd (huniq e h1 hs) h1'
    · exact h.inj e h1 e' h2 hs
  · intro e he q hq
    rw [hu] at he
    rw [ho, List.countP_append, hl3]
    rcases (hm e).1 he with rfl | ⟨h1, h1'⟩
    · have hq' : u.pkt.seq = some q := hq
      rw [if_pos hq', (h.count _ hk q hq').1]
      exact ⟨rfl, hM⟩
    · rw [if_neg]
      · exact h.count e h1 q hq
      · intro hx; exact h1' (huniq e h1 (by rw [hq, hx]))
  · intro q
    rw [ho, List.countP_append, hl3]
    split
    · rename_i hq
      rw [(h.count _ hk q hq).1]
      simp only
      omega
    · exact h.bound q
  · intro id
    rw [ho, List.countP_append, hconc, hlive, hN]; exact h.outcome id
  · intro g hg id hid f hf
    rcases h.fate g hg id hid f hf with ⟨e, h1, h2⟩ | h1 | ⟨o, h1, h2⟩
    · left
      rw [hu]
      by_cases hek : e.1 = k
      · have : e.2 = u := by subst hek; exact hr.win.keyed.unique h1 hk
        exact ⟨_, (hm _).2 (.inl rfl), by rw [← h2, this]⟩
      · exact ⟨e, (hm e).2 (.inr ⟨h1, hek⟩), h2⟩
    · exact .inr (.inl (hmem h1))
    · exact .inr (.inr ⟨o, hmem h1, h2⟩)
  · intro a b o id hab hco g hg hid f hf q hq'
    rw [ho] at hab
    rcases split_append hab with ⟨c, h1, h2⟩ | ⟨c, h1, rfl⟩
    · exfalso
      have : o ∈ l := by rw [h2]; simp
      exact List.countP_eq_zero.1 (hconc id) o this hco
    · rw [List.countP_append, hl3, if_neg]
      · exact h.after a c o id h1 hco g hg hid f hf q hq'
      · intro hx
        have h3 := (h.ent_of hk hg hf (by rw [hq']; exact hx)).1
        rw [hid] at h3
        have := h.concluded hk (o := o) (by rw [h1]; simp)
        rw [← Option.some.inj h3, hco] at this
        cases this
  · intro g hg id hid
    rw [ho, List.countP_append, List.countP_append, hdrop, hexh]
    exact h.drop g hg id hid
  · intro id c hx
    rw [ho] at hx
    rcases List.mem_append.1 hx with hx | hx
    · exact h.content id c hx
    · rcases hl1 _ hx with h | ⟨_, h, _⟩ <;> cases h
  · intro id
    rw [ho, List.countP_append, only_sends hl1' rfl (fun _ => rfl) (fun _ => rfl), hN]; exact h.once id
  · intro g hg f hf q hq'
    have := h.least g hg f hf q hq'
    rw [ho, List.countP_append]; omega
  · intro g hg id hid
    rw [(hn id).2.2, ho]
    simp only [List.countP_append, hl3]
    by_cases hi : id = u.net
    · have : g = g0 := h.uniq g hg g0 hg0 id hid (by rw [hid0, hi])
      subst this
      simp only [hi, decide_true, Bool.true_or, true_iff]
      obtain ⟨j, _, hj⟩ := h.range g hg f0 hf0
      have hs := hc0.seq.trans hj
      refine ⟨f0, hf0, _, hj, ?_⟩
      rw [if_pos hs, (h.count _ hk _ hs).1]
      omega
    · simp only [hi, decide_false, Bool.false_or]
      rw [h.retx g hg id hid]
      have hz : ∀ f ∈ g.frags, ∀ q, f.seq = some q → ¬ u.pkt.seq = some q := by
        intro f hf q hq' hx
        have h3 := (h.ent_of hk hg hf (by rw [hq']; exact hx)).1
        rw [hid] at h3
        exact hi (Option.some.inj h3)
      constructor
      · rintro ⟨f, hf, q, hq', h2⟩; exact ⟨f, hf, q, hq', by omega⟩
      · rintro ⟨f, hf, q, hq', h2⟩
        rw [if_neg (hz f hf q hq')] at h2
        exact ⟨f, hf, q, hq', h2⟩
  · intro id hx g hg hid f hf q hq'
    rw [ho] at hx
    rcases List.mem_append.1 hx with hx | hx
    · rw [ho, List.countP_append, hl3, if_neg]
      · exact h.acked id hx g hg hid f hf q hq'
      · intro hy
        have h3 := (h.ent_of hk hg hf (by rw [hq']; exact hy)).1
        rw [hid] at h3
        have := h.concluded hk hx
        rw [← Option.some.inj h3] at this
        simp [concludes] at this
    · rcases hl1 _ hx with h | ⟨_, h, _⟩ <;> cases h
  · intro id hx
    rw [ho] at hx
    rcases List.mem_append.1 hx with hx | hx
    · obtain ⟨g, h1, h2, f, h3, q, h4, h5⟩ := h.retxd id hx
      exact ⟨g, h1, h2, f, h3, q, h4, by rw [ho, List.countP_append]; omega⟩
    · rcases hl1 _ hx with h | ⟨_, h, _⟩ <;> cases h
  · intro id hx
    rw [ho] at hx
    rcases List.mem_append.1 hx with hx | hx
    · obtain ⟨g, h1, h2, f, h3, q, h4, h5⟩ := h.exh id hx
      exact ⟨g, h1, h2, f, h3, q, h4, by rw [ho, List.countP_append]; omega⟩
    · rcases hl1 _ hx with h | ⟨_, h, _⟩ <;> cases h

/-! ## A new network packet -/

theorem count_seq_le {fs : List Pkt} (h : fs.Pairwise (fun a b => a.seq ≠ b.seq)) (q : Nat) : fs.countP (fun p => p.seq == some q) ≤ 1 := by
  induction fs with
  | nil => simp
  | cons a fs ih =>
    rw [List.pairwise_cons] at h
    rw [List.countP_cons]
    by_cases ha : a.seq = some q
    · have : fs.countP (fun p => p.seq == some q) = 0 := by
        rw [List.countP_eq_zero]
        intro b hb
        have := h.1 b hb
        rw [ha] at this
        simpa using fun hx : b.seq = some q => this hx.symm
      simp [this, ha]
    · have := ih h.2
      simp [ha]
      exact this

theorem new_distinct {q0 n : Nat} {fs : List Pkt} (h : ∀ j f, fs[j]? = some f → f.seq = some ((q0 + 1 + (n + j)) % W)) (hW : n + fs.length ≤ W) :
    fs.Pairwise (fun a b => a.seq ≠ b.seq) ∧ (∀ f ∈ fs, ∀ f' ∈ fs, f.seq = f'.seq → f = f') ∧
    ∀ f ∈ fs, ∀ j, j < n → f.seq ≠ some ((q0 + 1 + j) % W) := by
  have hne : ∀ (i j : Nat) (a b : Pkt), i < j → fs[i]? = some a → fs[j]? = some b → a.seq ≠ b.seq := by
    intro i j a b hij ha hb hs
    rw [h i a ha, h j b hb] at hs
    have h1 := Option.some.inj hs
    have h2 := (List.getElem?_eq_some_iff.1 hb).1
    simp only [W] at *
    omega
  refine ⟨?_, ?_, ?_⟩
  · rw [List.pairwise_iff_getElem]
    intro i j hi hj hij
    exact hne i j _ _ hij (List.getElem?_eq_some_iff.2 ⟨hi, rfl⟩) (List.getElem?_eq_some_iff.2 ⟨hj, rfl⟩)
  · intro f hf f' hf' hs
    obtain ⟨i, hi⟩ := List.mem_iff_getElem?.1 hf
    obtain ⟨j, hj⟩ := List.mem_iff_getElem?.1 hf'
    rcases Nat.lt_trichotomy i j with h1 | h1 | h1
    · exact absurd hs (hne i j f f' h1 hi hj)
    · subst h1; rw [hi] at hj; exact Option.some.inj hj
    · exact absurd hs.symm (hne j i f' f h1 hj hi)
  · intro f hf j hj hs
    obtain ⟨i, hi⟩ := List.mem_iff_getElem?.1 hf
    rw [h i f hi] at hs
    have h1 := Option.some.inj hs
    have h2 := (List.getElem?_eq_some_iff.1 hi).1
    simp only [W] at *
    omega

theorem Book.add {env : Env} {F : Opts → Prop} {q0 m0 M : Nat} {es : List Event} {G : List Sent} {n : Nat} {s s' : St} (h : Book env F q0 m0 M es G n s)
    {g : Sent} {ql l : List Out}
    (hseq : ∀ j f, g.frags[j]? = some f → f.seq = some ((q0 + 1 + (n + j)) % W)) (hW : n + g.frags.length ≤ W) (horig : Origin env F es g)
    (hne : g.frags ≠ [])
    (hid : (g.id = none ∧ ql = [] ∧ s'.nNet = s.nNet) ∨
      (g.id = some s.nNet ∧ ql = [.queued s.nNet (g.kind == .interest) (some g.net) (g.frags.filterMap (·.seq))] ∧ s'.nNet = s.nNet + 1 ∧
        (s'.nets s.nNet).isInterest = (g.kind == .interest) ∧ (s'.nets s.nNet).pkt.frag = some g.net ∧ (s'.nets s.nNet).didRetx = false ∧
        (∀ f ∈ g.frags, ∃ e ∈ s'.unacked, e.2.pkt.seq = f.seq ∧ e.2.net = s.nNet)))
    (hold : ∀ i, i < s.nNet → s'.nets i = s.nets i) (hlt : ∀ e ∈ s.unacked, e.2.net < s.nNet)
    (hu : ∀ e, e ∈ s'.unacked → e ∈ s.unacked ∨ (g.id = some e.2.net ∧ e.2.retx = 0 ∧ (∃ f ∈ g.frags, Copy e.2.pkt f) ∧
      ∃ o ∈ l, ∃ p, o.sends = some p ∧ p.seq = e.2.pkt.seq ∧ p.txSeq = some e.1))
    (hu' : ∀ e, e ∈ s.unacked → e ∈ s'.unacked)
    (hinj : ∀ e ∈ s'.unacked, ∀ e' ∈ s'.unacked, g.id = some e.2.net → g.id = some e'.2.net → e.2.pkt.seq = e'.2.pkt.seq → e = e')
    (ho : s'.out = s.out ++ (ql ++ l)) (hl1 : ∀ o ∈ l, o = .marked ∨ ∃ p', o.sends = some p' ∧ ∃ f ∈ g.frags, Copy p' f)
    (hl3 : ∀ q, l.countP (sendsSeq q) = g.frags.countP (fun p => p.seq == some q)) :
    Book env F q0 m0 M es (G ++ [g]) (n + g.frags.length) s' := by
  obtain ⟨hpair, hself, hfresh⟩ := new_distinct hseq hW
  have hGnew : ∀ g' ∈ G, ∀ f' ∈ g'.frags, ∀ f ∈ g.frags, f.seq ≠ f'.seq := by
    intro g' hg' f' hf' f hf hs
    obtain ⟨j, hj, hj'⟩ := h.range g' hg' f' hf'
    exact hfresh f hf j hj (by rw [hs, hj'])
  have hold0 : ∀ q, (∃ f ∈ g.frags, f.seq = some q) → s.out.countP (sendsSeq q) = 0 := by
    rintro q ⟨f, hf, hq⟩
    rw [List.countP_eq_zero]
    intro o ho hs
    have hs' : o.sends.bind (·.seq) = some q := beq_iff_eq.1 hs
    cases hp : o.sends with
    | none => rw [hp] at hs'; cases hs'
    | some p =>
      rw [hp] at hs'
      have hs'' : p.seq = some q := hs'
      rcases h.sent o ho p hp with ⟨g', hg', f', hf', hc⟩ | hc | ⟨_, _, _, _, _, _, hc⟩
      · exact hGnew g' hg' f' hf' f hf (by rw [hq, ← hc.seq, hs''])
      · have := hc.seq; rw [hs''] at this; cases this
      · have := hc.seq; rw [hs''] at this; cases this
  have hnewcount : ∀ q, g.frags.countP (fun p => p.seq == some q) = 0 ∨
      (g.frags.countP (fun p => p.seq == some q) = 1 ∧ s.out.countP (sendsSeq q) = 0) := by
    intro q
    rcases Nat.eq_zero_or_pos (g.frags.countP (fun p => p.seq == some q)) with h0 | h0
    · exact .inl h0
    · right
      have h1 := count_seq_le hpair q
      obtain ⟨f, hf, hq⟩ := List.countP_pos_iff.1 h0
      exact ⟨by omega, hold0 q ⟨f, hf, beq_iff_eq.1 hq⟩⟩
  have hl1' : ∀ o ∈ l, o = .marked ∨ ∃ p, o.sends = some p := by
    intro o ho
    rcases hl1 o ho with h | ⟨p, h, _⟩
    · exact .inl h
    · exact .inr ⟨p, h⟩
  have hqmem : ∀ o ∈ ql, g.id = some s.nNet ∧ o = .queued s.nNet (g.kind == .interest) (some g.net) (g.frags.filterMap (·.seq)) := by
    intro o ho
    rcases hid with ⟨_, h2, _⟩ | ⟨h1, h2, _⟩
    · rw [h2] at ho; cases ho
    · rw [h2] at ho; exact ⟨h1, List.mem_singleton.1 ho⟩
  have hzero : ∀ (P : Out → Bool), P .marked = false → (∀ p, P (.frame p) = false) → (∀ p, P (.overMtu p) = false) →
      (∀ a b c d, P (.queued a b c d) = false) → (ql ++ l).countP P = 0 := by
    intro P h1 h2 h3 h4
    rw [List.countP_append, only_sends hl1' h1 h2 h3]
    rw [Nat.add_zero, List.countP_eq_zero]
    intro o ho
    rw [(hqmem o ho).2, h4]
    simp
  have hqq : ∀ q, (ql ++ l).countP (sendsSeq q) = g.frags.countP (fun p => p.seq == some q) := by
    intro q
    rw [List.countP_append, hl3]
    have : ql.countP (sendsSeq q) = 0 := by
      rw [List.countP_eq_zero]
      intro o ho
      rw [(hqmem o ho).2]
      simp [sendsSeq, Out.sends]
    omega
  have hmem : ∀ {o}, o ∈ s.out → o ∈ s'.out := fun h => by rw [ho]; exact List.mem_append_left _ h
  have hgnot : ∀ g' ∈ G, g'.id ≠ some s.nNet := by
    intro g' hg' hx
    have := (h.own g' hg' _ hx).1
    omega
  have hgid : ∀ id, g.id = some id → id = s.nNet := by
    intro id hx
    rcases hid with ⟨h1, _⟩ | ⟨h1, _⟩
    · rw [h1] at hx; cases hx
    · rw [h1] at hx; exact (Option.some.inj hx).symm
  have hNle : s.nNet ≤ s'.nNet := by
    rcases hid with ⟨_, _, h3⟩ | ⟨_, _, h3, _⟩ <;> omega
  have hback : ∀ {o : Out}, o ∈ s'.out → concludes (match o with | .acknowledged i | .retransmitted i | .exhausted i => i | _ => 0) o = true → o ∈ s.out := by
    intro o hx hc
    rw [ho] at hx
    rcases List.mem_append.1 hx with hx | hx
    · exact hx
    · exact absurd hc (List.countP_eq_zero.1 (hzero (concludes _) rfl (fun _ => rfl) (fun _ => rfl) (fun _ _ _ _ => rfl)) o hx)
  refine ⟨?_, ?_, ?_, ?_, ?_, ?_, ?_, ?_, ?_, ?_, ?_, ?_, ?_, ?_, ?_, ?_, ?_, ?_, ?_, ?_, ?_, ?_, ?_⟩
  · intro g' hg' f hf
    rcases List.mem_append.1 hg' with hg' | hg'
    · obtain ⟨j, h1, h2⟩ := h.range g' hg' f hf
      exact ⟨j, by omega, h2⟩
    · rw [List.mem_singleton.1 hg'] at hf
      obtain ⟨j, hj⟩ := List.mem_iff_getElem?.1 hf
      have := (List.getElem?_eq_some_iff.1 hj).1
      exact ⟨n + j, by omega, hseq j f hj⟩
  · intro g1 hg1 g2 hg2 f1 hf1 f2 hf2 hs
    rcases List.mem_append.1 hg1 with hg1 | hg1 <;> rcases List.mem_append.1 hg2 with hg2 | hg2
    · exact h.disj g1 hg1 g2 hg2 f1 hf1 f2 hf2 hs
    · rw [List.mem_singleton.1 hg2] at hf2
      exact absurd hs.symm (hGnew g1 hg1 f1 hf1 f2 hf2)
    · rw [List.mem_singleton.1 hg1] at hf1
      exact absurd hs (hGnew g2 hg2 f2 hf2 f1 hf1)
    · rw [List.mem_singleton.1 hg1] at hf1
      rw [List.mem_singleton.1 hg2] at hf2
      rw [List.mem_singleton.1 hg1, List.mem_singleton.1 hg2]
      exact ⟨hself f1 hf1 f2 hf2 hs, rfl⟩
  · intro g' hg'
    rcases List.mem_append.1 hg' with hg' | hg'
    · exact h.orig g' hg'
    · rw [List.mem_singleton.1 hg']; exact horig
  · intro g' hg'
    rcases List.mem_append.1 hg' with hg' | hg'
    · exact h.ne g' hg'
    · rw [List.mem_singleton.1 hg']; exact hne
  · intro id i net seqs
    rw [ho, List.mem_append, h.queued]
    constructor
    · rintro (⟨g', h1, h2⟩ | h1)
      · exact ⟨g', List.mem_append_left _ h1, h2⟩
      · rcases List.mem_append.1 h1 with h1 | h1
        · obtain ⟨h2, h3⟩ := hqmem _ h1
          cases h3
          exact ⟨g, by simp, h2, rfl, rfl, rfl⟩
        · rcases hl1' _ h1 with h2 | ⟨_, h2⟩ <;> cases h2
    · rintro ⟨g', h1, h2, h3, h4, h5⟩
      rcases List.mem_append.1 h1 with h1 | h1
      · exact .inl ⟨g', h1, h2, h3, h4, h5⟩
      · right
        obtain rfl := List.mem_singleton.1 h1
        rcases hid with ⟨h6, _⟩ | ⟨h6, h7, _⟩
        · rw [h6] at h2; cases h2
        · rw [h6] at h2
          rw [← Option.some.inj h2, h7, h3, h4, h5]
          simp
  · intro g' hg' id hx
    rcases List.mem_append.1 hg' with hg' | hg'
    · obtain ⟨h1, h2, h3⟩ := h.own g' hg' id hx
      rw [hold id h1]
      exact ⟨by omega, h2, h3⟩
    · obtain rfl := List.mem_singleton.1 hg'
      have := hgid id hx
      subst this
      rcases hid with ⟨h1, _⟩ | ⟨h1, h2, h3, h4, h5, _⟩
      · rw [h1] at hx; cases hx
      · exact ⟨by omega, h4, h5⟩
  · intro g1 hg1 g2 hg2 id h1 h2
    rcases List.mem_append.1 hg1 with hg1 | hg1 <;> rcases List.mem_append.1 hg2 with hg2 | hg2
    · exact h.uniq g1 hg1 g2 hg2 id h1 h2
    · rw [List.mem_singleton.1 hg2] at h2
      exact absurd (by rw [h1, hgid id h2]) (hgnot g1 hg1)
    · rw [List.mem_singleton.1 hg1] at h1
      exact absurd (by rw [h2, hgid id h1]) (hgnot g2 hg2)
    · rw [List.mem_singleton.1 hg1, List.mem_singleton.1 hg2]
  · intro o hx p hp
    rw [ho] at hx
    rcases List.mem_append.1 hx with hx | hx
    · exact (h.sent o hx p hp).mono (fun g hg => List.mem_append_left _ hg)
    · rcases List.mem_append.1 hx with hx | hx
      · rw [(hqmem o hx).2] at hp; cases hp
      · rcases hl1 o hx with rfl | ⟨p', h1, f, h2, h3⟩
        · cases hp
        · rw [hp] at h1
          obtain rfl := Option.some.inj h1
          exact .inl ⟨g, by simp, f, h2, h3⟩
  · intro e he
    rcases hu e he with h1 | ⟨h1, _, h2, o, h3, h4⟩
    · obtain ⟨g', h2, h3, h4, o, h5, h6⟩ := h.ent e h1
      exact ⟨g', List.mem_append_left _ h2, h3, h4, o, hmem h5, h6⟩
    · exact ⟨g, by simp, h1, h2, o, by rw [ho]; exact List.mem_append_right _ (List.mem_append_right _ h3), h4⟩
  · intro e he e' he' hs
    have hmix : ∀ e ∈ s.unacked, ∀ e' : Nat × UFrag, (∃ f ∈ g.frags, Copy e'.2.pkt f) → e.2.pkt.seq ≠ e'.2.pkt.seq := by
      rintro e he e' ⟨f, hf, hc⟩ hs
      obtain ⟨g', h1, h2, ⟨f', h3, h4⟩, _⟩ := h.ent e he
      exact hGnew g' h1 f' h3 f hf (by rw [← hc.seq, ← h4.seq, hs])
    rcases hu e he with h1 | ⟨h1, _, h2, _⟩ <;> rcases hu e' he' with h3 | ⟨h3, _, h4, _⟩
    · exact h.inj e h1 e' h3 hs
    · exact absurd hs (hmix e h1 e' h4)
    · exact absurd hs.symm (hmix e' h3 e h2)
    · exact hinj e he e' he' h1 h3 hs
  · intro e he q hq
    rw [ho, List.countP_append, hqq]
    rcases hu e he with h1 | ⟨h1, h2, ⟨f, hf, hc⟩, _⟩
    · have : g.frags.countP (fun p => p.seq == some q) = 0 := by
        rw [List.countP_eq_zero]
        intro f hf hx
        obtain ⟨g', h1, h2, ⟨f', h3, h4⟩, _⟩ := h.ent e h1
        exact hGnew g' h1 f' h3 f hf (by rw [← h4.seq, hq, beq_iff_eq.1 hx])
      rw [this]
      exact h.count e h1 q hq
    · have hfq : f.seq = some q := by rw [← hc.seq, hq]
      rcases hnewcount q with h3 | ⟨h3, h4⟩
      · exact absurd (beq_iff_eq.2 hfq) (List.countP_eq_zero.1 h3 f hf)
      · rw [h3, h4, h2]
        exact ⟨rfl, Nat.zero_le _⟩
  · intro q
    rw [ho, List.countP_append, hqq]
    rcases hnewcount q with h3 | ⟨h3, h4⟩
    · rw [h3]; exact h.bound q
    · omega
  · intro id
    rw [ho, List.countP_append, hzero _ rfl (fun _ => rfl) (fun _ => rfl) (fun _ _ _ _ => rfl), Nat.add_zero]
    have h0 := h.outcome id
    by_cases hi : g.id = some id
    · have := hgid id hi
      subst this
      rcases hid with ⟨h1, _⟩ | ⟨h1, h2, h3, h4, h5, _, h6⟩
      · rw [h1] at hi; cases hi
      · obtain ⟨f, hf⟩ := List.exists_mem_of_ne_nil _ hne
        obtain ⟨e, he, _, hen⟩ := h6 f hf
        have hl : live s' s.nNet = true := live_iff.2 ⟨e, he, hen⟩
        rw [hl, if_pos rfl, h3, if_pos (by omega)]
        rw [if_neg (by omega : ¬ s.nNet < s.nNet)] at h0
        omega
    · have hl : live s' id = live s id := by
        rw [Bool.eq_iff_iff, live_iff, live_iff]
        constructor
        · rintro ⟨e, h1, h2⟩
          rcases hu e h1 with h3 | ⟨h3, _⟩
          · exact ⟨e, h3, h2⟩
          · rw [h2] at h3; exact absurd h3 hi
        · rintro ⟨e, h1, h2⟩
          exact ⟨e, hu' e h1, h2⟩
      rw [hl, h0]
      rcases hid with ⟨_, _, h3⟩ | ⟨h1, _, h3, _⟩
      · rw [h3]
      · rw [h3]
        have : id ≠ s.nNet := fun hx => hi (by rw [hx]; exact h1)
        by_cases hlt' : id < s.nNet
        · rw [if_pos hlt', if_pos (by omega)]
        · rw [if_neg hlt', if_neg (by omega)]
  · intro g' hg' id hx f hf
    rcases List.mem_append.1 hg' with hg' | hg'
    · rcases h.fate g' hg' id hx f hf with ⟨e, h1, h2⟩ | h1 | ⟨o, h1, h2⟩
      · exact .inl ⟨e, hu' e h1, h2⟩
      · exact .inr (.inl (hmem h1))
      · exact .inr (.inr ⟨o, hmem h1, h2⟩)
    · obtain rfl := List.mem_singleton.1 hg'
      left
      rcases hid with ⟨h1, _⟩ | ⟨h1, h2, h3, h4, h5, _, h6⟩
      · rw [h1] at hx; cases hx
      · obtain ⟨e, he, h7, _⟩ := h6 f hf
        exact ⟨e, he, h7⟩
  · intro a b o id hab hco g' hg' hx f hf q hq
    rw [ho] at hab
    rcases split_append hab with ⟨c, h1, h2⟩ | ⟨c, h1, rfl⟩
    · exfalso
      have : o ∈ ql ++ l := by rw [h2]; simp
      exact List.countP_eq_zero.1 (hzero (concludes id) rfl (fun _ => rfl) (fun _ => rfl) (fun _ _ _ _ => rfl)) o this hco
    · rcases List.mem_append.1 hg' with hg' | hg'
      · rw [List.countP_append, hqq]
        have : g.frags.countP (fun p => p.seq == some q) = 0 := by
          rw [List.countP_eq_zero]
          intro f1 hf1 hx
          exact hGnew g' hg' f hf f1 hf1 (by rw [hq, beq_iff_eq.1 hx])
        rw [this]
        exact h.after a c o id h1 hco g' hg' hx f hf q hq
      · exfalso
        obtain rfl := List.mem_singleton.1 hg'
        have h2 := hgid id hx
        have h3 := h.outcome id
        have h4 : 0 < s.out.countP (concludes id) := List.countP_pos_iff.2 ⟨o, by rw [h1]; simp, hco⟩
        rw [if_neg (by omega : ¬ id < s.nNet)] at h3
        omega
  · intro g' hg' id hx
    rw [ho, List.countP_append (p := drops id), List.countP_append (p := exhausts id), hzero (drops id) rfl (fun _ => rfl) (fun _ => rfl) (fun _ _ _ _ => rfl),
      hzero (exhausts id) rfl (fun _ => rfl) (fun _ => rfl) (fun _ _ _ _ => rfl), Nat.add_zero, Nat.add_zero]
    rcases List.mem_append.1 hg' with hg' | hg'
    · exact h.drop g' hg' id hx
    · obtain rfl := List.mem_singleton.1 hg'
      have h2 := hgid id hx
      have h3 := h.outcome id
      rw [if_neg (by omega : ¬ id < s.nNet)] at h3
      have h5 : s.out.countP (exhausts id) ≤ s.out.countP (concludes id) := by
        apply List.countP_mono_left
        intro o _ ho
        cases o <;> first | exact ho | cases ho
      have h6 : s.out.countP (drops id) = 0 := by
        rw [List.countP_eq_zero]
        intro o ho hd
        cases o with
        | droppedInterest i c =>
          have : i = id := beq_iff_eq.1 hd
          subst this
          obtain ⟨g1, hg1, hi1, _⟩ := h.content _ _ ho
          have := (h.own g1 hg1 _ hi1).1
          omega
        | _ => cases hd
      rw [h6]
      split <;> omega
  · intro id c hx
    rw [ho] at hx
    rcases List.mem_append.1 hx with hx | hx
    · obtain ⟨g', h1, h2⟩ := h.content id c hx
      exact ⟨g', List.mem_append_left _ h1, h2⟩
    · rcases List.mem_append.1 hx with hx | hx
      · cases (hqmem _ hx).2
      · rcases hl1' _ hx with h | ⟨_, h⟩ <;> cases h
  · intro id
    rw [ho, List.countP_append, List.countP_append, only_sends (P := queues id) hl1' rfl (fun _ => rfl) (fun _ => rfl), h.once id]
    rcases hid with ⟨_, h2, h3⟩ | ⟨_, h2, h3, _⟩
    · rw [h2, h3]; simp
    · rw [h2, h3, countP_one]
      have : ∀ a b c, queues id (.queued s.nNet a b c) = decide (s.nNet = id) := fun a b c => by
        show (s.nNet == id) = _
        by_cases hx : s.nNet = id <;> simp [hx]
      rw [this]
      by_cases hx : s.nNet = id
      · simp [hx]
      · by_cases hlt' : id < s.nNet
        · have h1 : id < s.nNet + 1 := by omega
          simp [hx, hlt', h1]
        · have h1 : ¬ id < s.nNet + 1 := by omega
          simp [hx, hlt', h1]
  · intro g' hg' f hf q hq
    rw [ho, List.countP_append, hqq]
    rcases List.mem_append.1 hg' with hg' | hg'
    · have := h.least g' hg' f hf q hq; omega
    · obtain rfl := List.mem_singleton.1 hg'
      have : 0 < g'.frags.countP (fun p => p.seq == some q) := List.countP_pos_iff.2 ⟨f, hf, beq_iff_eq.2 hq⟩
      omega
  · intro g' hg' id hx
    rcases List.mem_append.1 hg' with hg' | hg'
    · rw [hold id (h.own g' hg' id hx).1, h.retx g' hg' id hx, ho]
      simp only [List.countP_append (p := sendsSeq _) (l₁ := s.out), hqq]
      constructor
      · rintro ⟨f, hf, q, hq', h2⟩; exact ⟨f, hf, q, hq', by omega⟩
      · rintro ⟨f, hf, q, hq', h2⟩
        refine ⟨f, hf, q, hq', ?_⟩
        have : g.frags.countP (fun p => p.seq == some q) = 0 := by
          rw [List.countP_eq_zero]
          intro f1 hf1 hx
          exact hGnew g' hg' f hf f1 hf1 (by rw [hq', beq_iff_eq.1 hx])
        omega
    · obtain rfl := List.mem_singleton.1 hg'
      have h2 := hgid id hx
      subst h2
      rcases hid with ⟨h1, _⟩ | ⟨h1, _, _, _, _, h6, _⟩
      · rw [h1] at hx; cases hx
      · rw [h6]
        simp only [Bool.false_eq_true, false_iff]
        rintro ⟨f, hf, q, hq', h2⟩
        rw [ho, List.countP_append, hqq, hold0 q ⟨f, hf, hq'⟩] at h2
        have := count_seq_le hpair q
        omega
  · intro id hx g' hg' hi f hf q hq
    have hx' := hback hx (by simp [concludes])
    rcases List.mem_append.1 hg' with hg' | hg'
    · rw [ho, List.countP_append, hqq]
      have : g.frags.countP (fun p => p.seq == some q) = 0 := by
        rw [List.countP_eq_zero]
        intro f1 hf1 hx
        exact hGnew g' hg' f hf f1 hf1 (by rw [hq, beq_iff_eq.1 hx])
      rw [this]
      exact h.acked id hx' g' hg' hi f hf q hq
    · exfalso
      obtain rfl := List.mem_singleton.1 hg'
      have h2 := hgid id hi
      have h3 := h.outcome id
      have h4 : 0 < s.out.countP (concludes id) := List.countP_pos_iff.2 ⟨_, hx', by simp [concludes]⟩
      rw [if_neg (by omega : ¬ id < s.nNet)] at h3
      omega
  · intro id hx
    obtain ⟨g', h1, h2, f, h3, q, h4, h5⟩ := h.retxd id (hback hx (by simp [concludes]))
    exact ⟨g', List.mem_append_left _ h1, h2, f, h3, q, h4, by rw [ho, List.countP_append]; omega⟩
  · intro id hx
    obtain ⟨g', h1, h2, f, h3, q, h4, h5⟩ := h.exh id (hback hx (by simp [concludes]))
    exact ⟨g', List.mem_append_left _ h1, h2, f, h3, q, h4, by rw [ho, List.countP_append]; omega⟩

/-! ## Actions, events and runs -/

theorem filterMap_seq : ∀ {fs fs' : List Pkt}, fs'.map bare = fs.map bare → ∀ q, fs'.countP (fun p => p.seq == some q) = fs.countP (fun p => p.seq == some q) := by
  intro fs
  induction fs with
  | nil => intro fs' h; cases fs' with
    | nil => intro q; rfl
    | cons a l => simp at h
  | cons a fs ih =>
    intro fs' h q
    cases fs' with
    | nil => simp at h
    | cons b fs' =>
      simp only [List.map_cons, List.cons.injEq] at h
      have h1 : b.seq = a.seq := by have := congrArg Pkt.seq h.1; simpa [bare] using this
      rw [List.countP_cons, List.countP_cons, ih h.2, h1]

theorem copies_get : ∀ {fs fs' : List Pkt}, fs'.map bare = fs.map bare → ∀ p ∈ fs', ∃ f ∈ fs, Copy p f := by
  intro fs fs' h p hp
  have : bare p ∈ fs'.map bare := List.mem_map.2 ⟨p, hp, rfl⟩
  rw [h, List.mem_map] at this
  obtain ⟨f, hf, he⟩ := this
  refine ⟨f, hf, ?_, ?_, ?_, ?_, ?_⟩
  · have := congrArg Pkt.seq he; simpa [bare] using this.symm
  · have := congrArg Pkt.fragIndex he; simpa [bare] using this.symm
  · have := congrArg Pkt.fragCount he; simpa [bare] using this.symm
  · have := congrArg Pkt.frag he; simpa [bare] using this.symm
  · have := congrArg Pkt.hdr he
    simp only [bare] at this
    rw [this]

theorem copies_back {fs fs' : List Pkt} (h : fs'.map bare = fs.map bare) : ∀ f ∈ fs, ∃ p ∈ fs', p.seq = f.seq := by
  intro f hf
  have : bare f ∈ fs.map bare := List.mem_map.2 ⟨f, hf, rfl⟩
  rw [← h, List.mem_map] at this
  obtain ⟨p, hp, he⟩ := this
  exact ⟨p, hp, by have := congrArg Pkt.seq he; simpa [bare] using this⟩

theorem pairwise_copies : ∀ {fs fs' : List Pkt}, fs'.map bare = fs.map bare → fs.Pairwise (fun a b => a.seq ≠ b.seq) →
    fs'.Pairwise (fun a b => a.seq ≠ b.seq) := by
  intro fs fs' h hp
  have h1 : (fs.map bare).Pairwise (fun a b => a.seq ≠ b.seq) := by rw [List.pairwise_map]; exact hp
  rw [← h, List.pairwise_map] at h1
  exact h1

theorem pairwise_seq {fs : List Pkt} (h : fs.Pairwise (fun a b => a.seq ≠ b.seq)) {a b : Pkt} (ha : a ∈ fs) (hb : b ∈ fs) (hs : a.seq = b.seq) :
    a = b := by
  induction fs with
  | nil => cases ha
  | cons x fs ih =>
    rw [List.pairwise_cons] at h
    rcases List.mem_cons.1 ha with rfl | ha' <;> rcases List.mem_cons.1 hb with rfl | hb'
    · rfl
    · exact absurd hs (h.1 b hb')
    · exact absurd hs.symm (h.1 a ha')
    · exact ih h.2 ha' hb'

theorem frags_ne {env : Env} {s : St} {k : Kind} {t : SendTags} {net : Bytes} {fr : List Pkt}
    (h : makeFrags env s.opts (netPkt s k t net) = .ok (some fr)) : fr ≠ [] := by
  rcases makeFrags_ok (net := net) rfl rfl rfl h with rfl | ⟨m, _, _, _, hs⟩
  · simp
  · intro hx
    have := hs.two
    rw [hx] at this
    simp at this

theorem Act.books {env : Env} {F : Opts → Prop} {x0 q0 m0 M : Nat} {es : List Event} {ev : Event} {s t : St} (ha : Act env x0 ev s t) (hr : RelOk x0 s) (ht : RelOk x0 t)
    (hev : ev ∈ es) (hF : ∀ o, .setOptions o ∈ es → F o) (hM : ∀ o, F o → m0 ≤ o.maxRetx ∧ o.maxRetx ≤ M) {G : List Sent} {n : Nat} (h : BookW env F q0 m0 M es G n s) :
    ∃ G' n', BookW env F q0 m0 M es G' n' t := by
  cases ha with
  | @quiet _ l hu hf h1 h2 h3 h4 h5 ho hl hp =>
    refine ⟨G, n, by rw [h5]; exact h.last, ?_, ?_, fun hW => ?_⟩
    · rw [hl, List.countP_append]; have := h.most; omega
    · rcases ho with ho | ho
      · rw [ho]; exact h.opt
      · exact hF _ (by rw [← ho]; exact hev)
    · exact (h.book hW).plain hu h3 h4 hl (fun o ho => .inl (hp o ho))
  | idle hx =>
    obtain ⟨l, a1, a2, a3, a4, a5⟩ := hx.appends
    refine ⟨G, n, by rw [hx.same.lastSeq]; exact h.last, ?_, by rw [hx.same.opts]; exact h.opt, fun hW => ?_⟩
    · rw [a1, List.countP_append]; have := h.most; omega
    · refine (h.book hW).plain hx.same.unacked hx.same.nets hx.same.nNet a1 ?_
      intro o ho
      rcases a2 o ho with rfl | ⟨p', h1, h2, _⟩
      · exact .inl rfl
      · exact .inr ⟨p', h1, h2.seq, .inr (.inl h2)⟩
  | bump c _ => exact ⟨G, n, h.last, h.most, h.opt, fun hW => (h.book hW).bump c⟩
  | ack hk hin =>
    refine ⟨G, n, h.last, ?_, h.opt, fun hW => (h.book hW).ack hr hk hev hin⟩
    have := h.most
    simp only
    rw [List.countP_append]; omega
  | giveUp hk hrx hm =>
    refine ⟨G, n, h.last, ?_, h.opt, fun hW => (h.book hW).giveUp hk (Nat.le_trans (hM _ h.opt).1 hrx) hm⟩
    have := h.most
    simp only
    rw [List.countP_append]; omega
  | @resend _ k u m f hk hrx hm hfr hx =>
    obtain ⟨l, a1, a2, a3, a4, a5⟩ := hx.appends
    have hsame := hx.same
    refine ⟨G, n, by rw [hsame.lastSeq]; exact h.last, ?_, by rw [hsame.opts]; exact h.opt, fun hW => ?_⟩
    · rw [a1, List.countP_append]; have := h.most; simp only; omega
    · have hMx := (hM _ h.opt).2
      refine (h.book hW).resend hr (l := l) (tx := nextTx x0 s) (ord := s.nTx) hk (by omega) hm hsame.unacked hsame.nNet ?_ a1 a2 a3 a4
      intro i
      rw [hsame.nets]
      simp only [renumbered]
      split
      · rename_i hi; subst hi; simp
      · rename_i hi; simp [hi]
  | @sendRel s1 _ k tg net frags fs' he hmf hq hx =>
    obtain ⟨l, a1, a2, a3, a4, a5⟩ := hx.appends
    obtain ⟨hlast, hseq⟩ := new_seqs h.last frags
    have hsame := hx.same
    have hlen : (assignSeqs s.lastSeq frags).1.length = frags.length := assignSeqs_length _ _
    have hlen' : fs'.length = frags.length := by
      have := congrArg List.length hq.copies
      simp only [List.length_map] at this
      omega
    refine ⟨G ++ [{ kind := k, tags := tg, net, frags := (assignSeqs s.lastSeq frags).1, id := some s.nNet }], n + (assignSeqs s.lastSeq frags).1.length, ?_, ?_, ?_, fun hW => ?_⟩
    · rw [hsame.lastSeq, hq.lastSeq, hlen]; exact hlast
    · rw [a1, hq.out, List.countP_append, List.countP_append, a5]
      have := h.most
      omega
    · rw [hsame.opts, hq.opts]; exact h.opt
    · have hb := h.book (by omega)
      obtain ⟨hpair, _, _⟩ := new_distinct hseq hW
      have hpair' := pairwise_copies hq.copies hpair
      obtain ⟨ks, hk1, hk2, hk3, hk4, hk5⟩ := hq.new
      have hnew : ∀ e ∈ t.unacked, e ∈ s.unacked ∨ (e.2.net = s.nNet ∧ e.2.retx = 0 ∧ e.2.pkt ∈ fs' ∧ e.2.pkt.txSeq = some e.1) := by
        intro e he'
        rw [hsame.unacked] at he'
        rcases (hk5 e).1 he' with h1 | ⟨_, h1, h2, h3, h4, _⟩
        · exact .inl h1
        · exact .inr ⟨h1, h2, h3, h4⟩
      have hlt : ∀ e ∈ s.unacked, e.2.net < s.nNet := fun e he' => (hr.net.ent e he').2.2
      refine hb.add (l := l) (ql := [.queued s.nNet (k == .interest) (some net) ((assignSeqs s.lastSeq frags).1.filterMap (·.seq))]) hseq hW ?_ ?_ ?_ ?_ hlt ?_ ?_ ?_ ?_ ?_ ?_
      · exact ⟨by rw [← he]; exact hev, s, frags, h.opt, hmf, rfl⟩
      · intro hx
        have hx' : (assignSeqs s.lastSeq frags).1 = [] := hx
        rw [hx'] at hlen
        exact frags_ne hmf (List.length_eq_zero_iff.1 hlen.symm)
      · right
        refine ⟨rfl, rfl, ?_, ?_, ?_, ?_, ?_⟩
        · rw [hsame.nNet, hq.nNet]
        · rw [hsame.nets, hq.own.2.1]; simp
        · rw [hsame.nets, hq.own.1]; simp
        · rw [hsame.nets, hq.own.2.2]; simp
        · intro f hf
          obtain ⟨p, hp, hs⟩ := copies_back hq.copies f hf
          obtain ⟨e, he', h1, h2, _⟩ := hq.all p hp
          exact ⟨e, by rw [hsame.unacked]; exact he', by rw [h1, hs], h2⟩
      · intro i hi
        rw [hsame.nets, hq.other i (by omega)]
        simp only
        rw [if_neg (by omega)]
      · intro e he'
        rcases hnew e he' with h1 | ⟨h1, h2, h3, h4⟩
        · exact .inl h1
        · right
          obtain ⟨o, ho, p', h5, h6, h7⟩ := a3 _ h3
          exact ⟨by simp [h1], h2, copies_get hq.copies _ h3, o, ho, p', h5, h6.seq, by rw [h7, h4]⟩
      · intro e he'
        rw [hsame.unacked]
        exact (hk5 e).2 (.inl he')
      · intro e he1 e' he2 hi hi' hs
        simp only [Option.some.injEq] at hi hi'
        rcases hnew e he1 with h1 | ⟨_, _, h3, h4⟩
        · have := hlt e h1; omega
        · rcases hnew e' he2 with h1' | ⟨_, _, h3', h4'⟩
          · have := hlt e' h1'; omega
          · have hpk := pairwise_seq hpair' h3 h3' hs
            have hkey : e.1 = e'.1 := by rw [hpk, h4'] at h4; exact (Option.some.inj h4).symm
            have := ht.win.keyed.unique (k := e.1) (u := e.2) (v := e'.2) he1 (by rw [hkey]; exact he2)
            exact Prod.ext hkey this
      · rw [a1, hq.out]; simp
      · intro o ho
        rcases a2 o ho with h1 | ⟨p, hp, p', h2, h3, _⟩
        · exact .inl h1
        · obtain ⟨f, hf, hc⟩ := copies_get hq.copies p hp
          exact .inr ⟨p', h2, f, hf, h3.trans hc⟩
      · intro q; rw [a4]; exact filterMap_seq hq.copies q
  | @sendSeq _ k tg net frags he hmf hx =>
    obtain ⟨l, a1, a2, a3, a4, a5⟩ := hx.appends
    obtain ⟨hlast, hseq⟩ := new_seqs h.last frags
    have hsame := hx.same
    have hlen : (assignSeqs s.lastSeq frags).1.length = frags.length := assignSeqs_length _ _
    refine ⟨G ++ [{ kind := k, tags := tg, net, frags := (assignSeqs s.lastSeq frags).1, id := none }], n + (assignSeqs s.lastSeq frags).1.length, ?_, ?_, ?_, fun hW => ?_⟩
    · rw [hsame.lastSeq, hlen]; exact hlast
    · rw [a1, List.countP_append, a5]
      have := h.most
      simp only
      omega
    · rw [hsame.opts]; exact h.opt
    · have hb := h.book (by omega)
      refine hb.add (l := l) (ql := []) hseq hW ?_ ?_ (.inl ⟨rfl, rfl, hsame.nNet⟩) ?_ (fun e he' => (hr.net.ent e he').2.2) ?_ ?_ ?_ ?_ ?_ a4
      · exact ⟨by rw [← he]; exact hev, s, frags, h.opt, hmf, rfl⟩
      · intro hx
        have hx' : (assignSeqs s.lastSeq frags).1 = [] := hx
        rw [hx'] at hlen
        exact frags_ne hmf (List.length_eq_zero_iff.1 hlen.symm)
      · intro i _; rw [hsame.nets]
      · intro e he'; rw [hsame.unacked] at he'; exact .inl he'
      · intro e he'; rw [hsame.unacked]; exact he'
      · intro e _ e' _ hi; cases hi
      · rw [a1]; simp
      · intro o ho
        rcases a2 o ho with h1 | ⟨p, hp, p', h2, h3, _⟩
        · exact .inl h1
        · exact .inr ⟨p', h2, p, hp, h3⟩
  | @sendOne _ k tg net he hx =>
    obtain ⟨l, a1, a2, a3, a4, a5⟩ := hx.appends
    refine ⟨G, n, by rw [hx.same.lastSeq]; exact h.last, ?_, by rw [hx.same.opts]; exact h.opt, fun hW => ?_⟩
    · rw [a1, List.countP_append]; have := h.most; omega
    · refine (h.book hW).plain hx.same.unacked hx.same.nets hx.same.nNet a1 ?_
      intro o ho
      rcases a2 o ho with rfl | ⟨p', h1, h2, _⟩
      · exact .inl rfl
      · exact .inr ⟨p', h1, h2.seq, .inr (.inr ⟨s, k, tg, net, by rw [← he]; exact hev, h.opt, h2⟩)⟩

theorem run_books {env : Env} {F : Opts → Prop} {x0 q0 m0 M : Nat} {es : List Event} (hF : ∀ o, .setOptions o ∈ es → F o) (hM : ∀ o, F o → m0 ≤ o.maxRetx ∧ o.maxRetx ≤ M) :
    ∀ {fut : List Event} {s s' : St}, (∀ ev ∈ fut, ev ∈ es) → RelOk x0 s → (∃ G n, BookW env F q0 m0 M es G n s) → run env s fut = .ok s' →
    RelOk x0 s' ∧ ∃ G n, BookW env F q0 m0 M es G n s' := by
  intro fut
  induction fut with
  | nil => intro s s' _ hr hb h; cases h; exact ⟨hr, hb⟩
  | cons ev fut ih =>
    intro s s' hsub hr hb h
    simp only [run, bind_ok] at h
    obtain ⟨s1, h1, h2⟩ := h
    have hacts := step_acts hr h1
    refine ih (fun e he => hsub e (List.mem_cons_of_mem _ he)) hacts.right ?_ h2
    refine Acts.preserve (P := fun s => ∃ G n, BookW env F q0 m0 M es G n s) ?_ hacts hb
    rintro a b ha hb' hact ⟨G, n, hbk⟩
    exact hact.books ha hb' (hsub ev (by simp)) hF hM hbk

theorem init_books {F : Opts → Prop} (env : Env) (o : Opts) {q0 x0 m0 M : Nat} (es : List Event) (hq : q0 < W) (ho : F o) :
    BookW env F q0 m0 M es [] 0 (init o q0 x0) := by
  refine ⟨?_, Nat.zero_le _, ho, fun _ => ?_⟩
  · show q0 = (q0 + 0) % W
    rw [Nat.add_zero, Nat.mod_eq_of_lt hq]
  · constructor
    · simp
    · simp
    · simp
    · simp
    · simp [init]
    · simp
    · simp
    · simp [init]
    · simp [init]
    · simp [init]
    · simp [init]
    · simp [init]
    · simp [init, live]
    · simp
    · simp
    · simp
    · simp [init]
    · simp [init]
    · simp
    · simp
    · simp [init]
    · simp [init]
    · simp [init]

/-- The books of a run that sends at most 2^64 LpPackets. -/
theorem books {env : Env} {o : Opts} {q0 x0 m0 M : Nat} {es : List Event} {s : St} (hx : x0 < W) (hq : q0 < W)
    (hM : ∀ o', InForce o es o' → m0 ≤ o'.maxRetx ∧ o'.maxRetx ≤ M) (h : run env (init o q0 x0) es = .ok s)
    (hn : s.out.countP (fun o => o.sends.isSome) ≤ W) : RelOk x0 s ∧ ∃ G n, Book env (InForce o es) q0 m0 M es G n s := by
  obtain ⟨h1, G, n, h2⟩ := run_books (F := InForce o es) (fun _ h => .inr h) hM (fun _ h => h) (init_relOk o q0 x0 hx)
    ⟨[], 0, init_books env o es hq (.inl rfl)⟩ h
  exact ⟨h1, G, n, h2.book (Nat.le_trans h2.most hn)⟩

end Verif.Lp
