/-
What each operation of LpReliability does, in states that meet the invariant (C47, C48).
-/
import Verif.Lp.Window
import Verif.Lp.Spec

namespace Verif.Lp

/-- Each stored fragment is listed by its network packet, and the network packet lists only stored fragments. -/
structure NetOk (m : List (Nat × UFrag)) (nets : Nat → NetPkt) (nNet : Nat) : Prop where
  ent : ∀ e ∈ m, e.1 ∈ (nets e.2.net).frags ∧ (nets e.2.net).frags.Nodup ∧ e.2.net < nNet
  pkt : ∀ e ∈ m, e.2.pkt.txSeq = some e.1 ∧ e.2.pkt.seq.isSome ∧ e.2.pkt.frag.isSome
  int : ∀ e ∈ m, (nets e.2.net).isInterest = true → (nets e.2.net).pkt.frag.isSome
  back : ∀ e ∈ m, ∀ k ∈ (nets e.2.net).frags, ∃ u, (k, u) ∈ m ∧ u.net = e.2.net

structure RelOk (x0 : Nat) (s : St) : Prop where
  win : WinS x0 s
  net : NetOk s.unacked s.nets s.nNet

/-! ## Sending one packet -/

/-- The fields that sending one packet does not touch. -/
structure Same (s s' : St) : Prop where
  opts : s'.opts = s.opts
  unacked : s'.unacked = s.unacked
  first : s'.first = s.first
  lastTx : s'.lastTx = s.lastTx
  nTx : s'.nTx = s.nTx
  nets : s'.nets = s.nets
  nNet : s'.nNet = s.nNet
  lastSeq : s'.lastSeq = s.lastSeq

theorem Same.refl (s : St) : Same s s := ⟨rfl, rfl, rfl, rfl, rfl, rfl, rfl, rfl⟩

theorem Same.trans {s t u : St} (h : Same s t) (h' : Same t u) : Same s u := by
  obtain ⟨a, b, c, d, e, f, g, i⟩ := h
  obtain ⟨a', b', c', d', e', f', g', i'⟩ := h'
  exact ⟨a'.trans a, b'.trans b, c'.trans c, d'.trans d, e'.trans e, f'.trans f, g'.trans g, i'.trans i⟩

theorem RelOk.same {x0 : Nat} {s s' : St} (h : RelOk x0 s) (hs : Same s s') : RelOk x0 s' := by
  obtain ⟨a, b, c, d, e, f, g, i⟩ := hs
  refine ⟨?_, by rw [b, f, g]; exact h.net⟩
  unfold WinS
  rw [b, c, d, e]
  exact h.win

/-- The packet was handed to the transport, or dropped by the MTU check, with Acks and a congestion mark added. -/
structure Xmit (s s' : St) (p : Pkt) : Prop where
  same : Same s s'
  out : ∃ p' x ms, s'.out = s.out ++ (ms ++ [x]) ∧ (ms = [] ∨ ms = [.marked]) ∧ (x = .frame p' ∨ x = .overMtu p') ∧ Copy p' p ∧
    p'.txSeq = p.txSeq

theorem Copy.refl (p : Pkt) : Copy p p := ⟨rfl, rfl, rfl, rfl, rfl⟩

theorem Copy.trans {p q r : Pkt} (h : Copy p q) (h' : Copy q r) : Copy p r :=
  ⟨h.seq.trans h'.seq, h.fragIndex.trans h'.fragIndex, h.fragCount.trans h'.fragCount, h.frag.trans h'.frag, h.hdr.trans h'.hdr⟩

theorem attachAcks_eq {s : St} {m : Option Nat} {p : Pkt} (hb : s.opts.relEnabled = true → isBare p = false) :
    ∃ n, attachAcks s m p = .ok ({ s with ackQueue := s.ackQueue.drop n }, { p with acks := p.acks ++ s.ackQueue.take n }) := by
  unfold attachAcks
  split
  · rename_i h
    unfold piggyback
    rw [if_neg (by rw [hb h]; simp)]
    exact ⟨_, rfl⟩
  · exact ⟨0, by simp⟩

theorem attachMark_eq (env : Env) (s : St) (p : Pkt) : Same s (attachMark env s p).1 ∧ Copy (attachMark env s p).2 p ∧
    (attachMark env s p).2.txSeq = p.txSeq ∧ (attachMark env s p).2.acks = p.acks ∧ (attachMark env s p).1.ackQueue = s.ackQueue ∧
    ∃ ms, (attachMark env s p).1.out = s.out ++ ms ∧ (ms = [] ∨ ms = [.marked]) := by
  unfold attachMark
  split
  · simp only [checkCongestion]
    split
    · exact ⟨⟨rfl, rfl, rfl, rfl, rfl, rfl, rfl, rfl⟩, .refl _, rfl, rfl, rfl, [], by simp, .inl rfl⟩
    · split
      · split
        · exact ⟨⟨rfl, rfl, rfl, rfl, rfl, rfl, rfl, rfl⟩, .refl _, rfl, rfl, rfl, [], by simp, .inl rfl⟩
        · split
          · exact ⟨⟨rfl, rfl, rfl, rfl, rfl, rfl, rfl, rfl⟩, ⟨rfl, rfl, rfl, rfl, rfl⟩, rfl, rfl, rfl, [.marked], rfl, .inr rfl⟩
          · exact ⟨⟨rfl, rfl, rfl, rfl, rfl, rfl, rfl, rfl⟩, .refl _, rfl, rfl, rfl, [], by simp, .inl rfl⟩
      · split <;> exact ⟨⟨rfl, rfl, rfl, rfl, rfl, rfl, rfl, rfl⟩, .refl _, rfl, rfl, rfl, [], by simp, .inl rfl⟩
  · exact ⟨⟨rfl, rfl, rfl, rfl, rfl, rfl, rfl, rfl⟩, .refl _, rfl, rfl, rfl, [], by simp, .inl rfl⟩

theorem sendLp_eq (env : Env) {s : St} {p : Pkt} (hb : s.opts.relEnabled = true → isBare p = false) :
    ∃ s', sendLp env s p = .ok s' ∧ Xmit s s' p := by
  obtain ⟨n, hn⟩ := attachAcks_eq (m := effMtu env s.opts) hb
  unfold sendLp
  simp only [hn]
  refine ⟨_, rfl, ?_⟩
  obtain ⟨h1, h2, h3, _, _, ms, h4, h5⟩ := attachMark_eq env { s with ackQueue := s.ackQueue.drop n } { p with acks := p.acks ++ s.ackQueue.take n }
  generalize attachMark env { s with ackQueue := s.ackQueue.drop n } { p with acks := p.acks ++ s.ackQueue.take n } = r at *
  have hs : Same s r.1 := Same.trans (t := { s with ackQueue := s.ackQueue.drop n }) ⟨rfl, rfl, rfl, rfl, rfl, rfl, rfl, rfl⟩ h1
  have hc : Copy r.2 p := h2.trans ⟨rfl, rfl, rfl, rfl, rfl⟩
  unfold transmit
  split
  · exact ⟨hs.trans ⟨rfl, rfl, rfl, rfl, rfl, rfl, rfl, rfl⟩, r.2, _, ms, by simp [emit, h4], h5, .inr rfl, hc, h3⟩
  · exact ⟨hs.trans ⟨rfl, rfl, rfl, rfl, rfl, rfl, rfl, rfl⟩, r.2, _, ms, by simp [emit, h4], h5, .inl rfl, hc, h3⟩

theorem not_bare_tx {p : Pkt} {k : Nat} (h : p.txSeq = some k) : isBare p = false := by
  unfold isBare
  rw [Bool.and_eq_false_iff]
  right
  rw [decide_eq_false_iff_not]
  intro hx
  have := congrArg Pkt.txSeq hx
  simp [h] at this

theorem not_bare_seq {p : Pkt} (h : p.seq.isSome) : isBare p = false := by
  unfold isBare
  rw [Bool.and_eq_false_iff]
  right
  rw [decide_eq_false_iff_not]
  intro hx
  have := congrArg Pkt.seq hx
  simp only at this
  rw [this] at h; cases h

/-! ## Finding lost packets -/

/-- Counters change. -/
def bump (c : Nat × UFrag → Nat) (m : List (Nat × UFrag)) : List (Nat × UFrag) := m.map (fun e => (e.1, { e.2 with nGreater := c e }))

theorem mem_bump {c : Nat × UFrag → Nat} {m : List (Nat × UFrag)} {e : Nat × UFrag} :
    e ∈ bump c m ↔ ∃ e0 ∈ m, e = (e0.1, { e0.2 with nGreater := c e0 }) := by
  simp only [bump, List.mem_map]
  constructor <;> rintro ⟨a, h1, h2⟩ <;> exact ⟨a, h1, h2.symm⟩

theorem bump_nil {c : Nat × UFrag → Nat} {m : List (Nat × UFrag)} : bump c m = [] ↔ m = [] := by simp [bump]

theorem win_bump {x0 : Nat} {m : List (Nat × UFrag)} {f : Option Nat} {l n : Nat} (c : Nat × UFrag → Nat) (h : Win x0 m f l n) :
    Win x0 (bump c m) f l n := by
  refine ⟨h.last, ?_, ?_, ?_⟩
  · unfold Keyed bump
    rw [List.pairwise_map]
    exact h.keyed
  · intro e he
    obtain ⟨e0, h0, rfl⟩ := mem_bump.1 he
    exact h.key e0 h0
  · refine ⟨fun hn => h.first.1 (bump_nil.1 hn), fun hn => ?_⟩
    obtain ⟨e0, h0, h1, h2⟩ := h.first.2 (fun hx => hn (bump_nil.2 hx))
    refine ⟨_, mem_bump.2 ⟨e0, h0, rfl⟩, h1, ?_⟩
    intro e' he'
    obtain ⟨e1, h3, rfl⟩ := mem_bump.1 he'
    exact h2 e1 h3

theorem net_bump {m : List (Nat × UFrag)} {nets : Nat → NetPkt} {n : Nat} (c : Nat × UFrag → Nat) (h : NetOk m nets n) :
    NetOk (bump c m) nets n := by
  refine ⟨?_, ?_, ?_, ?_⟩
  · intro e he
    obtain ⟨e0, h0, rfl⟩ := mem_bump.1 he
    exact h.ent e0 h0
  · intro e he
    obtain ⟨e0, h0, rfl⟩ := mem_bump.1 he
    exact h.pkt e0 h0
  · intro e he
    obtain ⟨e0, h0, rfl⟩ := mem_bump.1 he
    exact h.int e0 h0
  · intro e he k hk
    obtain ⟨e0, h0, rfl⟩ := mem_bump.1 he
    obtain ⟨u, hu, hn⟩ := h.back e0 h0 k hk
    exact ⟨_, mem_bump.2 ⟨(k, u), hu, rfl⟩, hn⟩

/-- Taking elements up to one with the given key, from a list sorted by order. -/
theorem mem_takeWhile_key {k : Nat} {u : UFrag} : ∀ {l : List (Nat × UFrag)}, l.Pairwise (fun a b => a.2.order < b.2.order) → (k, u) ∈ l →
    (∀ e ∈ l, e.1 = k → e = (k, u)) → ∀ e, e ∈ l.takeWhile (fun e => e.1 != k) ↔ e ∈ l ∧ e.2.order < u.order := by
  intro l
  induction l with
  | nil => intro _ h; cases h
  | cons a l ih =>
    intro hp hk hu e
    rw [List.pairwise_cons] at hp
    rw [List.takeWhile_cons]
    by_cases ha : a.1 = k
    · have := hu a (by simp) ha
      subst this
      simp only [bne_self_eq_false, Bool.false_eq_true, if_false, List.not_mem_nil, false_iff]
      rintro ⟨h1, h2⟩
      rcases List.mem_cons.1 h1 with rfl | h1
      · exact Nat.lt_irrefl _ h2
      · have := hp.1 e h1
        simp only at this
        omega
    · have hk' : (k, u) ∈ l := by
        rcases List.mem_cons.1 hk with h | h
        · rw [← h] at ha; exact absurd rfl ha
        · exact h
      have hb : (a.1 != k) = true := by simpa using ha
      rw [if_pos hb, List.mem_cons, List.mem_cons, ih hp.2 hk' (fun e he => hu e (List.mem_cons_of_mem _ he)) e]
      constructor
      · rintro (rfl | ⟨h1, h2⟩)
        · exact ⟨.inl rfl, hp.1 _ hk'⟩
        · exact ⟨.inr h1, h2⟩
      · rintro ⟨rfl | h1, h2⟩
        · exact .inl rfl
        · exact .inr ⟨h1, h2⟩

/-- The loop goes through the fragments in the order in which they were sent. -/
theorem window_sorted {x0 : Nat} {m : List (Nat × UFrag)} {f l n : Nat} (h : Win x0 m (some f) l n) :
    (window m f).Pairwise (fun a b => a.2.order < b.2.order) := by
  by_cases hm : m = []
  · subst hm; simp [window]
  obtain ⟨e0, he0, hf0, hmin⟩ := h.first.2 hm
  have hf := Option.some.inj hf0
  have hk0 := h.key e0 he0
  have hall : ∀ e ∈ m, e.1 = (x0 + 1 + e.2.order) % W ∧ e0.2.order ≤ e.2.order ∧ e.2.order < e0.2.order + W := by
    intro e he
    have h1 := h.key e he
    exact ⟨h1.1, hmin e he, by omega⟩
  have hkk : ∀ a b : Nat × UFrag, a.1 < b.1 → a.1 = (x0 + 1 + a.2.order) % W → b.1 = (x0 + 1 + b.2.order) % W → a.2.order ≤ b.2.order → a.2.order < b.2.order := by
    intro a b h1 h2 h3 h4
    rcases Nat.lt_or_eq_of_le h4 with h5 | h5
    · exact h5
    · rw [h5] at h2; omega
  have hkey : m.Pairwise (fun a b => a.1 < b.1) := h.keyed
  unfold window
  rw [List.pairwise_append]
  refine ⟨?_, ?_, ?_⟩
  · refine (List.Pairwise.filter _ hkey).imp_of_mem ?_
    intro a b ha hb hab
    obtain ⟨ha1, ha2⟩ := List.mem_filter.1 ha
    obtain ⟨hb1, _⟩ := List.mem_filter.1 hb
    obtain ⟨a1, a2, a3⟩ := hall a ha1
    obtain ⟨b1, b2, b3⟩ := hall b hb1
    have ha2 : f ≤ a.1 := by simpa using ha2
    exact hkk a b hab a1 b1 (circ1 (c := x0 + 1) a2 a3 b2 b3 (by rw [← a1, ← hk0.1, ← hf]; exact ha2) (by rw [← a1, ← b1]; omega))
  · refine (List.Pairwise.filter _ hkey).imp_of_mem ?_
    intro a b ha hb hab
    obtain ⟨ha1, _⟩ := List.mem_filter.1 ha
    obtain ⟨hb1, hb2⟩ := List.mem_filter.1 hb
    obtain ⟨a1, a2, a3⟩ := hall a ha1
    obtain ⟨b1, b2, b3⟩ := hall b hb1
    have hb2 : b.1 < f := by simpa using hb2
    exact hkk a b hab a1 b1 (circ3 (c := x0 + 1) a2 a3 b2 b3 (by rw [← a1, ← b1]; omega) (by rw [← b1, ← hk0.1, ← hf]; exact hb2))
  · intro a ha b hb
    obtain ⟨ha1, ha2⟩ := List.mem_filter.1 ha
    obtain ⟨hb1, hb2⟩ := List.mem_filter.1 hb
    obtain ⟨a1, a2, a3⟩ := hall a ha1
    obtain ⟨b1, b2, b3⟩ := hall b hb1
    have ha2 : f ≤ a.1 := by simpa using ha2
    have hb2 : b.1 < f := by simpa using hb2
    have hle := circ2 (c := x0 + 1) a2 a3 b2 b3 (by rw [← a1, ← hk0.1, ← hf]; exact ha2) (by rw [← b1, ← hk0.1, ← hf]; exact hb2)
    rcases Nat.lt_or_eq_of_le hle with h5 | h5
    · exact h5
    · rw [h5] at a1; omega

/-- Which fragments are before the acknowledged one. -/
theorem findLost_exact {x0 : Nat} {s : St} {k : Nat} {u : UFrag} (h : RelOk x0 s) (hk : (k, u) ∈ s.unacked) {r : St × List Nat}
    (hr : findLost s k = .ok r) :
    r.1 = { s with unacked := bump (fun e => if e.2.order < u.order then e.2.nGreater + 1 else e.2.nGreater) s.unacked } ∧
    ∀ t, t ∈ r.2 ↔ ∃ v, (t, v) ∈ s.unacked ∧ v.order < u.order ∧ s.opts.lossThreshold ≤ v.nGreater + 1 := by
  obtain ⟨e0, he0, hf0, _⟩ := h.win.first.2 (List.ne_nil_of_mem hk)
  have hl0 : (look s.unacked e0.1).isNone = false := by
    rw [Bool.eq_false_iff]; intro hn; exact look_none.1 hn e0.2 he0
  have hlk : (look s.unacked k).isNone = false := by
    rw [Bool.eq_false_iff]; intro hn; exact look_none.1 hn u hk
  have hwin := h.win
  unfold WinS at hwin
  rw [hf0] at hwin
  have hmw : ∀ e, e ∈ window s.unacked e0.1 ↔ e ∈ s.unacked := by
    intro e
    simp only [window, List.mem_append, List.mem_filter, decide_eq_true_eq]
    constructor
    · rintro (h | h) <;> exact h.1
    · intro h
      rcases Nat.lt_or_ge e.1 e0.1 with hlt | hge
      · exact .inr ⟨h, hlt⟩
      · exact .inl ⟨h, hge⟩
  have huniq : ∀ e ∈ s.unacked, e.1 = k → e = (k, u) := by
    intro e he hek
    obtain ⟨a, b⟩ := e
    simp only at hek
    subst hek
    rw [h.win.keyed.unique he hk]
  have htw := mem_takeWhile_key (window_sorted hwin) ((hmw _).2 hk) (fun e he => huniq e ((hmw e).1 he))
  unfold findLost at hr
  rw [hf0] at hr
  simp only [hl0, hlk, Bool.or_self, Bool.false_eq_true, if_false] at hr
  generalize hb : ((window s.unacked e0.1).takeWhile (fun e => e.1 != k)).map (·.1) = before at hr
  have hbefore : ∀ e ∈ s.unacked, e.1 ∈ before ↔ e.2.order < u.order := by
    intro e he
    rw [← hb, List.mem_map]
    constructor
    · rintro ⟨e', h1, h2⟩
      obtain ⟨h3, h4⟩ := (htw e').1 h1
      have : e' = e := by
        obtain ⟨a, b⟩ := e; obtain ⟨a', b'⟩ := e'
        simp only at h2
        subst h2
        rw [h.win.keyed.unique he ((hmw _).1 h3)]
      rw [← this]; exact h4
    · intro hlt
      exact ⟨e, (htw e).2 ⟨(hmw e).2 he, hlt⟩, rfl⟩
  have hmap : s.unacked.map (fun e => if e.1 ∈ before then (e.1, { e.2 with nGreater := e.2.nGreater + 1 }) else e) =
      bump (fun e => if e.2.order < u.order then e.2.nGreater + 1 else e.2.nGreater) s.unacked := by
    unfold bump
    apply List.map_congr_left
    intro e he
    by_cases hx : e.1 ∈ before
    · simp only [if_pos hx, if_pos ((hbefore e he).1 hx)]
    · simp only [if_neg hx, if_neg (fun hy => hx ((hbefore e he).2 hy))]
  rw [hmap] at hr
  have hkb : Keyed (bump (fun e => if e.2.order < u.order then e.2.nGreater + 1 else e.2.nGreater) s.unacked) := (win_bump _ hwin).keyed
  obtain rfl := Except.ok.inj hr
  refine ⟨by simp only [hf0], ?_⟩
  intro t
  rw [List.mem_filter]
  constructor
  · rintro ⟨h1, h2⟩
    rw [← hb, List.mem_map] at h1
    obtain ⟨e, h3, rfl⟩ := h1
    obtain ⟨h4, h5⟩ := (htw e).1 h3
    have h6 := (hmw e).1 h4
    refine ⟨e.2, h6, h5, ?_⟩
    rw [look_eq hkb (mem_bump.2 ⟨e, h6, rfl⟩)] at h2
    simp only [Option.any_some, decide_eq_true_eq, if_pos h5] at h2
    exact h2
  · rintro ⟨v, h1, h2, h3⟩
    refine ⟨(hbefore _ h1).2 h2, ?_⟩
    rw [look_eq hkb (mem_bump.2 ⟨(t, v), h1, rfl⟩)]
    simp only [Option.any_some, decide_eq_true_eq, if_pos h2]
    exact h3

theorem findLost_eq {x0 : Nat} {s : St} {k : Nat} {u : UFrag} (h : RelOk x0 s) (hk : (k, u) ∈ s.unacked) :
    ∃ c lost, findLost s k = .ok ({ s with unacked := bump c s.unacked }, lost) ∧
      (∀ t ∈ lost, t ≠ k ∧ ∃ v, (t, v) ∈ s.unacked) ∧ RelOk x0 { s with unacked := bump c s.unacked } := by
  obtain ⟨e0, he0, hf0, _⟩ := h.win.first.2 (List.ne_nil_of_mem hk)
  have hl0 : (look s.unacked e0.1).isNone = false := by
    rw [Bool.eq_false_iff]; intro hn; exact look_none.1 hn e0.2 he0
  have hlk : (look s.unacked k).isNone = false := by
    rw [Bool.eq_false_iff]; intro hn; exact look_none.1 hn u hk
  unfold findLost
  rw [hf0]
  simp only [hl0, hlk, Bool.or_self, Bool.false_eq_true, if_false]
  generalize hb : ((window s.unacked e0.1).takeWhile (fun e => e.1 != k)).map (·.1) = before
  have hbefore : ∀ t ∈ before, t ≠ k ∧ ∃ v, (t, v) ∈ s.unacked := by
    intro t ht
    rw [← hb, List.mem_map] at ht
    obtain ⟨e, he, rfl⟩ := ht
    refine ⟨?_, ?_⟩
    · have hall : ∀ (l : List (Nat × UFrag)) (e : Nat × UFrag), e ∈ l.takeWhile (fun e => e.1 != k) → e.1 ≠ k := by
        intro l
        induction l with
        | nil => intro e he; cases he
        | cons a l ih =>
          intro e he
          rw [List.takeWhile_cons] at he
          split at he
          · rename_i ha
            rcases List.mem_cons.1 he with rfl | he
            · simpa using ha
            · exact ih e he
          · cases he
      exact hall _ e he
    · have : e ∈ window s.unacked e0.1 := (List.takeWhile_subset _) he
      simp only [window, List.mem_append, List.mem_filter] at this
      exact ⟨e.2, by rcases this with h | h <;> exact h.1⟩
  have hmap : s.unacked.map (fun e => if e.1 ∈ before then (e.1, { e.2 with nGreater := e.2.nGreater + 1 }) else e) =
      bump (fun e => if e.1 ∈ before then e.2.nGreater + 1 else e.2.nGreater) s.unacked := by
    unfold bump
    apply List.map_congr_left
    intro e _
    by_cases hx : e.1 ∈ before
    · simp only [if_pos hx]
    · simp only [if_neg hx]
  rw [hmap]
  refine ⟨_, _, rfl, fun t ht => hbefore t (List.mem_filter.1 ht).1, ?_, net_bump _ h.net⟩
  have hwin := h.win
  unfold WinS at hwin
  rw [hf0] at hwin
  exact win_bump _ hwin

/-! ## Acknowledgement -/

theorem onAcknowledged_eq {x0 : Nat} {s : St} {k : Nat} {u : UFrag} (h : RelOk x0 s) (hk : (k, u) ∈ s.unacked) :
    ∃ f, let s' := { s with
          unacked := del s.unacked k
          first := f
          nets := fun i => if i = u.net then { s.nets u.net with frags := (s.nets u.net).frags.erase k } else s.nets i
          out := s.out ++ (if (s.nets u.net).frags.erase k = [] then
            [if (s.nets u.net).didRetx then .retransmitted u.net else .acknowledged u.net] else []) }
      onAcknowledged s k = .ok s' ∧ RelOk x0 s' := by
  have hmem := (h.net.ent _ hk).1
  have hnd := (h.net.ent _ hk).2.1
  unfold onAcknowledged
  rw [look_eq h.win.keyed hk]
  simp only
  rw [if_neg (by simpa using hmem)]
  obtain ⟨f, hd, hw⟩ := deleteUnacked_eq (s := { s with
          nets := fun i => if i = u.net then { s.nets u.net with frags := (s.nets u.net).frags.erase k } else s.nets i
          out := s.out ++ (if (s.nets u.net).frags.erase k = [] then
            [if (s.nets u.net).didRetx then .retransmitted u.net else .acknowledged u.net] else []) }) h.win hk
  refine ⟨f, hd, hw, ?_⟩
  refine ⟨?_, ?_, ?_, ?_⟩
  · intro e he
    obtain ⟨he, hne⟩ := mem_del.1 he
    obtain ⟨h1, h2, h3⟩ := h.net.ent e he
    simp only
    by_cases hn : e.2.net = u.net
    · rw [if_pos hn]
      simp only
      rw [hn] at h1 h2
      exact ⟨(List.Nodup.mem_erase_iff h2).2 ⟨hne, h1⟩, h2.erase _, h3⟩
    · rw [if_neg hn]; exact ⟨h1, h2, h3⟩
  · intro e he; exact h.net.pkt e (mem_del.1 he).1
  · intro e he
    have := h.net.int e (mem_del.1 he).1
    simp only
    by_cases hn : e.2.net = u.net
    · rw [if_pos hn]; rw [hn] at this; exact this
    · rw [if_neg hn]; exact this
  · intro e he k' hk'
    obtain ⟨he, hne⟩ := mem_del.1 he
    simp only at hk'
    by_cases hn : e.2.net = u.net
    · rw [if_pos hn] at hk'
      simp only at hk'
      obtain ⟨h1, h2⟩ := (List.Nodup.mem_erase_iff hnd).1 hk'
      obtain ⟨v, hv, hv'⟩ := h.net.back e he k' (by rw [hn]; exact h2)
      exact ⟨v, mem_del.2 ⟨hv, h1⟩, hv'⟩
    · rw [if_neg hn] at hk'
      obtain ⟨v, hv, hv'⟩ := h.net.back e he k' hk'
      refine ⟨v, mem_del.2 ⟨hv, ?_⟩, hv'⟩
      intro hkk
      simp only at hkk
      subst hkk
      have := h.win.keyed.unique hk hv
      subst this
      exact hn hv'.symm

/-! ## Giving up -/

theorem deleteOthers_eq {x0 : Nat} {k : Nat} : ∀ {ts : List Nat} {s : St}, WinS x0 s → ts.Nodup → (∀ t ∈ ts, ∃ v, (t, v) ∈ s.unacked) →
    ∃ m f, deleteOthers s k ts = .ok ({ s with unacked := m, first := f }, ts.filter (fun t => t != k)) ∧
      Win x0 m f s.lastTx s.nTx ∧ ∀ e, e ∈ m ↔ e ∈ s.unacked ∧ (e.1 = k ∨ e.1 ∉ ts) := by
  intro ts
  induction ts with
  | nil => intro s h _ _; exact ⟨s.unacked, s.first, rfl, h, by simp⟩
  | cons t ts ih =>
    intro s h hnd hts
    have hnd' := List.nodup_cons.1 hnd
    unfold deleteOthers
    by_cases htk : t = k
    · rw [if_pos htk]
      obtain ⟨m, f, h1, h2, h3⟩ := ih h hnd'.2 (fun t ht => hts t (List.mem_cons_of_mem _ ht))
      refine ⟨m, f, by rw [h1]; simp [htk], h2, ?_⟩
      intro e
      rw [h3 e]
      constructor
      · rintro ⟨a, b⟩
        refine ⟨a, ?_⟩
        by_cases he : e.1 = k
        · exact .inl he
        · right
          rw [List.mem_cons]
          rintro (h | h)
          · exact he (h.trans htk)
          · rcases b with b | b
            · exact he b
            · exact b h
      · rintro ⟨a, b⟩
        refine ⟨a, b.imp id (fun h hx => h (List.mem_cons_of_mem _ hx))⟩
    · rw [if_neg htk]
      obtain ⟨v, hv⟩ := hts t (by simp)
      obtain ⟨f1, hd, hw⟩ := deleteUnacked_eq h hv
      obtain ⟨m, f, h1, h2, h3⟩ := ih (s := { s with unacked := del s.unacked t, first := f1 }) hw hnd'.2 (by
        intro t' ht'
        obtain ⟨v', hv'⟩ := hts t' (List.mem_cons_of_mem _ ht')
        refine ⟨v', mem_del.2 ⟨hv', ?_⟩⟩
        intro he
        simp only at he
        exact hnd'.1 (he ▸ ht'))
      refine ⟨m, f, ?_, h2, ?_⟩
      · rw [hd]
        show (deleteOthers _ k ts >>= fun r => .ok (r.1, t :: r.2)) = _
        rw [h1]
        simp [bind, Except.bind, htk]
      · intro e
        rw [h3 e]
        simp only [mem_del, List.mem_cons]
        constructor
        · rintro ⟨⟨a, b⟩, c⟩
          exact ⟨a, c.imp id (fun h hx => hx.elim b h)⟩
        · rintro ⟨a, b⟩
          refine ⟨⟨a, ?_⟩, b.imp id (fun h hx => h (.inr hx))⟩
          intro he
          rcases b with b | b
          · exact htk (he.symm.trans b)
          · exact b (.inl he)

/-- What giving up emits. -/
def gaveUp (s : St) (id : Nat) : List Out :=
  .exhausted id :: (if (s.nets id).isInterest then [.droppedInterest id (s.nets id).pkt.frag] else [])

theorem giveUp_eq {x0 : Nat} {s : St} {k : Nat} {u : UFrag} (h : RelOk x0 s) (hk : (k, u) ∈ s.unacked) :
    ∃ m f removed, giveUp s k u = .ok ({ s with unacked := m, first := f, out := s.out ++ gaveUp s u.net }, removed) ∧
      (∀ e, e ∈ m ↔ e ∈ s.unacked ∧ e.2.net ≠ u.net) ∧ (∀ t, t ∈ removed ↔ t ∈ (s.nets u.net).frags) ∧
      RelOk x0 { s with unacked := m, first := f, out := s.out ++ gaveUp s u.net } := by
  obtain ⟨hmem, hnd, hlt⟩ := h.net.ent _ hk
  obtain ⟨m1, f1, h1, h2, h3⟩ := deleteOthers_eq (k := k) h.win hnd (fun t ht => by
    obtain ⟨v, hv, _⟩ := h.net.back _ hk t ht; exact ⟨v, hv⟩)
  have hint : ((s.nets u.net).isInterest && (s.nets u.net).pkt.frag.isNone) = false := by
    cases hi : (s.nets u.net).isInterest with
    | false => rfl
    | true =>
      have := h.net.int _ hk hi
      simp only at this
      cases hf : (s.nets u.net).pkt.frag with
      | none => rw [hf] at this; cases this
      | some _ => rfl
  have hk1 : (k, u) ∈ m1 := (h3 _).2 ⟨hk, .inl rfl⟩
  obtain ⟨f, hd, hw⟩ := deleteUnacked_eq (s := { s with unacked := m1, first := f1, out := s.out ++ gaveUp s u.net }) h2 hk1
  unfold giveUp
  simp only
  rw [h1]
  simp only [bind, Except.bind, hint, Bool.false_eq_true, if_false]
  have hd' : deleteUnacked { s with unacked := m1, first := f1, out := s.out ++ .exhausted u.net ::
      (if (s.nets u.net).isInterest then [.droppedInterest u.net (s.nets u.net).pkt.frag] else []) } k =
      .ok { s with unacked := del m1 k, first := f, out := s.out ++ gaveUp s u.net } := hd
  rw [hd']
  have hiff : ∀ e, e ∈ del m1 k ↔ e ∈ s.unacked ∧ e.2.net ≠ u.net := by
    intro e
    rw [mem_del, h3]
    constructor
    · rintro ⟨⟨a, b⟩, c⟩
      refine ⟨a, ?_⟩
      intro hn
      rcases b with b | b
      · exact c b
      · have := (h.net.ent e a).1
        rw [hn] at this
        exact b this
    · rintro ⟨a, b⟩
      have hnf : e.1 ∉ (s.nets u.net).frags := by
        intro hf
        obtain ⟨v, hv, hv'⟩ := h.net.back _ hk e.1 hf
        have := h.win.keyed.unique (k := e.1) (u := e.2) a hv
        rw [this] at b
        exact b hv'
      refine ⟨⟨a, .inr hnf⟩, ?_⟩
      intro he
      rw [he] at hnf
      exact hnf hmem
  refine ⟨del m1 k, f, _, rfl, hiff, ?_, hw, ?_⟩
  · intro t
    rw [List.mem_append, List.mem_singleton, List.mem_filter]
    simp only [bne_iff_ne]
    constructor
    · rintro (h | h)
      · exact h.1
      · rw [h]; exact hmem
    · intro ht
      by_cases htk : t = k
      · exact .inr htk
      · exact .inl ⟨ht, htk⟩
  · refine ⟨?_, ?_, ?_, ?_⟩
    · intro e he; exact h.net.ent e ((hiff e).1 he).1
    · intro e he; exact h.net.pkt e ((hiff e).1 he).1
    · intro e he; exact h.net.int e ((hiff e).1 he).1
    · intro e he k' hk'
      obtain ⟨a, b⟩ := (hiff e).1 he
      obtain ⟨v, hv, hv'⟩ := h.net.back e a k' hk'
      exact ⟨v, (hiff _).2 ⟨hv, by simp only; rw [hv']; exact b⟩, hv'⟩

/-! ## Retransmission -/

/-- The network packet after a retransmission. -/
abbrev renumbered (s : St) (u : UFrag) (k tx : Nat) : Nat → NetPkt :=
  fun i => if i = u.net then { s.nets u.net with didRetx := true, frags := (s.nets u.net).frags.replace k tx } else s.nets i

theorem mem_replace {l : List Nat} (hn : l.Nodup) {k x : Nat} (hk : k ∈ l) : ∀ y, y ∈ l.replace k x ↔ y = x ∨ (y ∈ l ∧ y ≠ k) := by
  induction l with
  | nil => cases hk
  | cons a l ih =>
    intro y
    rw [List.nodup_cons] at hn
    rw [List.replace_cons]
    by_cases ha : k = a
    · subst ha
      simp only [beq_self_eq_true]
      rw [List.mem_cons, List.mem_cons]
      constructor
      · rintro (h | h)
        · exact .inl h
        · exact .inr ⟨.inr h, fun hy => hn.1 (hy ▸ h)⟩
      · rintro (h | ⟨h1 | h1, h2⟩)
        · exact .inl h
        · exact absurd h1 h2
        · exact .inr h1
    · have : (k == a) = false := by simpa using ha
      rw [this]
      simp only [List.mem_cons]
      have hk' : k ∈ l := by
        rcases List.mem_cons.1 hk with h | h
        · exact absurd h ha
        · exact h
      rw [ih hn.2 hk' y]
      constructor
      · rintro (h | h | h)
        · exact .inr ⟨.inl h, by rw [h]; exact fun hx => ha hx.symm⟩
        · exact .inl h
        · exact .inr ⟨.inr h.1, h.2⟩
      · rintro (h | ⟨h1 | h1, h2⟩)
        · exact .inr (.inl h)
        · exact .inl h1
        · exact .inr (.inr ⟨h1, h2⟩)

theorem nodup_replace {l : List Nat} (hn : l.Nodup) {k x : Nat} (hx : x ∉ l) : (l.replace k x).Nodup := by
  induction l with
  | nil => simp
  | cons a l ih =>
    rw [List.nodup_cons] at hn
    rw [List.mem_cons] at hx
    rw [List.replace_cons]
    split
    · rw [List.nodup_cons]; exact ⟨fun h => hx (.inr h), hn.2⟩
    · rw [List.nodup_cons]
      refine ⟨?_, ih hn.2 (fun h => hx (.inr h))⟩
      intro h
      by_cases hk : k ∈ l
      · rcases (mem_replace hn.2 hk a).1 h with h | h
        · exact hx (.inl h.symm)
        · exact hn.1 h.1
      · rw [List.replace_of_not_mem hk] at h
        exact hn.1 h

theorem resend_eq {x0 : Nat} (env : Env) {s : St} {k : Nat} {u : UFrag} (h : RelOk x0 s) (hk : (k, u) ∈ s.unacked) :
    (∃ n, resend env s k u = .error (.rangeExceeded n) ∧ W ≤ n) ∨
    ∃ m f, let tx := nextTx x0 s
      let p := { u.pkt with txSeq := some tx }
      let s1 := { bumped x0 s with unacked := m, first := f, nets := renumbered s u k tx }
      (∀ e, e ∈ m ↔ e = (tx, { pkt := p, retx := u.retx + 1, nGreater := 0, net := u.net, order := s.nTx }) ∨ (e ∈ s.unacked ∧ e.1 ≠ k)) ∧
      RelOk x0 s1 ∧ (∀ v, (tx, v) ∉ s.unacked) ∧ ∃ s2, resend env s k u = .ok (s2, [k]) ∧ Xmit s1 s2 p := by
  obtain ⟨hmem, hnd, hlt⟩ := h.net.ent _ hk
  rcases assignTx_eq h.win with ⟨n, hn, hW⟩ | ⟨ha, hw, hfr⟩
  · left
    refine ⟨n, ?_, hW⟩
    unfold resend
    simp only
    rw [hn]; rfl
  · right
    have hput := win_put (u := { pkt := { u.pkt with txSeq := some (nextTx x0 s) }, retx := u.retx + 1, nGreater := 0, net := u.net, order := s.nTx })
      hw rfl rfl hfr
    rw [if_neg (List.ne_nil_of_mem hk)] at hput
    have hne : nextTx x0 s ≠ k := fun he => hfr u (he ▸ hk)
    have hkp : (k, u) ∈ put (nextTx x0 s) { pkt := { u.pkt with txSeq := some (nextTx x0 s) }, retx := u.retx + 1, nGreater := 0, net := u.net, order := s.nTx } s.unacked :=
      (mem_put hfr _).2 (.inr hk)
    obtain ⟨f, hd, hw2⟩ := deleteUnacked_eq (s := { bumped x0 s with
        unacked := put (nextTx x0 s) { pkt := { u.pkt with txSeq := some (nextTx x0 s) }, retx := u.retx + 1, nGreater := 0, net := u.net, order := s.nTx } s.unacked,
        nets := renumbered s u k (nextTx x0 s) }) hput hkp
    have hiff : ∀ e, e ∈ del (put (nextTx x0 s) { pkt := { u.pkt with txSeq := some (nextTx x0 s) }, retx := u.retx + 1, nGreater := 0, net := u.net, order := s.nTx } s.unacked) k ↔
        e = (nextTx x0 s, { pkt := { u.pkt with txSeq := some (nextTx x0 s) }, retx := u.retx + 1, nGreater := 0, net := u.net, order := s.nTx }) ∨ (e ∈ s.unacked ∧ e.1 ≠ k) := by
      intro e
      rw [mem_del, mem_put hfr]
      constructor
      · rintro ⟨a | a, b⟩
        · exact .inl a
        · exact .inr ⟨a, b⟩
      · rintro (a | ⟨a, b⟩)
        · exact ⟨.inl a, by rw [a]; exact hne⟩
        · exact ⟨.inr a, b⟩
    refine ⟨_, f, hiff, ?_, hfr, ?_⟩
    · refine ⟨hw2, ?_⟩
      have hfresh : ∀ i e, e ∈ s.unacked → e.2.net = i → nextTx x0 s ∉ (s.nets i).frags := by
        rintro i e he rfl hin
        obtain ⟨v, hv, _⟩ := h.net.back e he _ hin
        exact hfr v hv
      have hnew := hfresh u.net (k, u) hk rfl
      refine ⟨?_, ?_, ?_, ?_⟩
      · intro e he
        simp only [renumbered]
        rcases (hiff e).1 he with rfl | ⟨he, hek⟩
        · simp only
          rw [if_pos trivial]
          exact ⟨(mem_replace hnd hmem _).2 (.inl rfl), nodup_replace hnd hnew, hlt⟩
        · obtain ⟨h1, h2, h3⟩ := h.net.ent e he
          by_cases hn : e.2.net = u.net
          · rw [if_pos hn]
            rw [hn] at h1
            exact ⟨(mem_replace hnd hmem _).2 (.inr ⟨h1, hek⟩), nodup_replace hnd hnew, h3⟩
          · rw [if_neg hn]; exact ⟨h1, h2, h3⟩
      · intro e he
        rcases (hiff e).1 he with rfl | ⟨he, hek⟩
        · have := h.net.pkt _ hk
          exact ⟨rfl, this.2.1, this.2.2⟩
        · exact h.net.pkt e he
      · intro e he
        simp only [renumbered]
        rcases (hiff e).1 he with rfl | ⟨he, hek⟩
        · simp only
          rw [if_pos trivial]
          exact h.net.int _ hk
        · have := h.net.int e he
          by_cases hn : e.2.net = u.net
          · rw [if_pos hn]; rw [hn] at this; exact this
          · rw [if_neg hn]; exact this
      · intro e he k' hk'
        simp only [renumbered] at hk'
        by_cases hn : e.2.net = u.net
        · rw [if_pos hn] at hk'
          rcases (mem_replace hnd hmem k').1 hk' with rfl | ⟨h1, h2⟩
          · exact ⟨_, (hiff _).2 (.inl rfl), hn.symm⟩
          · obtain ⟨v, hv, hv'⟩ := h.net.back _ hk k' h1
            exact ⟨v, (hiff _).2 (.inr ⟨hv, h2⟩), by rw [hn]; exact hv'⟩
        · rw [if_neg hn] at hk'
          have he' : e ∈ s.unacked := by
            rcases (hiff e).1 he with rfl | ⟨he, _⟩
            · exact absurd rfl hn
            · exact he
          obtain ⟨v, hv, hv'⟩ := h.net.back e he' k' hk'
          refine ⟨v, (hiff _).2 (.inr ⟨hv, ?_⟩), hv'⟩
          intro hkk
          simp only at hkk
          subst hkk
          have := h.win.keyed.unique hk hv
          subst this
          exact hn hv'.symm
    · obtain ⟨s2, hs2, hx⟩ := sendLp_eq env (s := { bumped x0 s with
          unacked := del (put (nextTx x0 s) { pkt := { u.pkt with txSeq := some (nextTx x0 s) }, retx := u.retx + 1, nGreater := 0, net := u.net, order := s.nTx } s.unacked) k,
          first := f, nets := renumbered s u k (nextTx x0 s) }) (p := { u.pkt with txSeq := some (nextTx x0 s) }) (fun _ => not_bare_tx rfl)
      refine ⟨s2, ?_, hx⟩
      unfold resend
      simp only
      rw [ha]
      simp only [bind, Except.bind]
      rw [if_neg (by simpa using hmem)]
      have hd' := hd
      simp only [renumbered, bumped] at hd' hs2 ⊢
      rw [hd']
      simp only
      rw [hs2]

/-! ## Queueing -/

theorem storeFrag_eq {x0 : Nat} {s : St} {id : Nat} {f : Pkt} (h : Win x0 s.unacked s.first (nextTx x0 s) (s.nTx + 1))
    (hfr : ∀ v, (nextTx x0 s, v) ∉ s.unacked) :
    ∃ m g, storeFrag (bumped x0 s) id f (nextTx x0 s) s.nTx = { bumped x0 s with
        unacked := m, first := g, nets := fun i => if i = id then { s.nets id with frags := (s.nets id).frags ++ [nextTx x0 s] } else s.nets i } ∧
      Win x0 m g (nextTx x0 s) (s.nTx + 1) ∧
      ∀ e, e ∈ m ↔ e = (nextTx x0 s, { pkt := f, retx := 0, nGreater := 0, net := id, order := s.nTx }) ∨ e ∈ s.unacked := by
  have hput := win_put (u := { pkt := f, retx := 0, nGreater := 0, net := id, order := s.nTx }) h rfl rfl hfr
  refine ⟨_, _, rfl, ?_, mem_put hfr⟩
  have hlen := length_put (u := { pkt := f, retx := 0, nGreater := 0, net := id, order := s.nTx }) hfr
  have : (if (put (nextTx x0 s) { pkt := f, retx := 0, nGreater := 0, net := id, order := s.nTx } (bumped x0 s).unacked).length = 1
      then (put (nextTx x0 s) { pkt := f, retx := 0, nGreater := 0, net := id, order := s.nTx } (bumped x0 s).unacked).head?.map (·.1)
      else (bumped x0 s).first) = if s.unacked = [] then some (nextTx x0 s) else s.first := by
    show (if (put (nextTx x0 s) { pkt := f, retx := 0, nGreater := 0, net := id, order := s.nTx } s.unacked).length = 1 then _ else _) = _
    rw [hlen]
    by_cases hm : s.unacked = []
    · rw [if_pos hm, hm]; rfl
    · rw [if_neg hm, if_neg]
      have := List.length_pos_iff.2 hm
      omega
  rw [this]
  exact hput

/-- The packet without its TxSequence. -/
abbrev bare (p : Pkt) : Pkt := { p with txSeq := none }

/-- The fragments `fs` of the network packet `id` are stored as `fs'`, each under a new TxSequence. -/
structure Queued (x0 : Nat) (s s' : St) (id : Nat) (fs fs' : List Pkt) : Prop where
  win : WinS x0 s'
  opts : s'.opts = s.opts
  nNet : s'.nNet = s.nNet
  lastSeq : s'.lastSeq = s.lastSeq
  out : s'.out = s.out
  nTx : s.nTx ≤ s'.nTx
  other : ∀ i, i ≠ id → s'.nets i = s.nets i
  own : (s'.nets id).pkt = (s.nets id).pkt ∧ (s'.nets id).isInterest = (s.nets id).isInterest ∧ (s'.nets id).didRetx = (s.nets id).didRetx
  copies : fs'.map bare = fs.map bare
  new : ∃ ks, (s'.nets id).frags = (s.nets id).frags ++ ks ∧ ks.Nodup ∧ fs'.map (·.txSeq) = ks.map some ∧
    (∀ k ∈ ks, ∀ v, (k, v) ∉ s.unacked) ∧
    ∀ e, e ∈ s'.unacked ↔ e ∈ s.unacked ∨ (e.1 ∈ ks ∧ e.2.net = id ∧ e.2.retx = 0 ∧ e.2.pkt ∈ fs' ∧ e.2.pkt.txSeq = some e.1 ∧
      e ∈ s'.unacked)
  all : ∀ f' ∈ fs', ∃ e ∈ s'.unacked, e.2.pkt = f' ∧ e.2.net = id ∧ e.2.retx = 0
  fresh : ∀ e ∈ s'.unacked, e ∈ s.unacked ∨ (e.2.nGreater = 0 ∧ s.nTx ≤ e.2.order)

theorem queueFrags_eq {x0 : Nat} : ∀ {fs : List Pkt} {s : St} {id : Nat}, WinS x0 s → (∀ f ∈ fs, f.seq.isSome) →
    (∃ n, queueFrags s id fs = .error (.rangeExceeded n) ∧ W ≤ n) ∨
    ∃ s' fs', queueFrags s id fs = .ok (s', fs') ∧ Queued x0 s s' id fs fs' := by
  intro fs
  induction fs with
  | nil =>
    intro s id h _
    right
    refine ⟨s, [], rfl, h, rfl, rfl, rfl, rfl, Nat.le_refl _, fun _ _ => rfl, ⟨rfl, rfl, rfl⟩, rfl, ⟨[], by simp, by simp, rfl, by simp, by simp⟩, by simp, fun _ h => .inl h⟩
  | cons f fs ih =>
    intro s id h hseq
    have hne : f.seq ≠ none := by have := hseq f (by simp); intro hx; rw [hx] at this; cases this
    unfold queueFrags
    rw [if_neg hne]
    rcases assignTx_eq h with ⟨n, hn, hW⟩ | ⟨ha, hw, hfr⟩
    · left; exact ⟨n, by rw [hn]; rfl, hW⟩
    · rw [ha]
      obtain ⟨m, g, hst, hw2, hmem⟩ := storeFrag_eq (id := id) (f := { f with txSeq := some (nextTx x0 s) }) hw hfr
      rcases ih (s := { bumped x0 s with
        unacked := m, first := g, nets := fun i => if i = id then { s.nets id with frags := (s.nets id).frags ++ [nextTx x0 s] } else s.nets i }) (id := id) hw2
        (fun f hf => hseq f (List.mem_cons_of_mem _ hf)) with ⟨n, hn, hW⟩ | ⟨s', fs', hq, hQ⟩
      · left
        refine ⟨n, ?_, hW⟩
        simp only [bind, Except.bind]
        rw [hst, hn]
      · right
        refine ⟨s', { f with txSeq := some (nextTx x0 s) } :: fs', ?_, ?_⟩
        · simp only [bind, Except.bind]
          rw [hst, hq]
        · obtain ⟨ks, hk1, hk2, hk3, hk4, hk5⟩ := hQ.new
          simp only at hk1 hk4 hk5
          have hin : (nextTx x0 s, ({ pkt := { f with txSeq := some (nextTx x0 s) }, retx := 0, nGreater := 0, net := id, order := s.nTx } : UFrag)) ∈ m :=
            (hmem _).2 (.inl rfl)
          refine ⟨hQ.win, hQ.opts, hQ.nNet, hQ.lastSeq, hQ.out, Nat.le_trans (Nat.le_succ _) hQ.nTx, ?_, ?_, ?_, ⟨nextTx x0 s :: ks, ?_, ?_, ?_, ?_, ?_⟩, ?_, ?_⟩
          · intro i hi
            rw [hQ.other i hi]
            simp [hi]
          · have := hQ.own
            simp only [if_pos] at this
            exact this
          · simp only [List.map_cons]
            rw [hQ.copies]
          · rw [hk1]; simp
          · rw [List.nodup_cons]
            exact ⟨fun hx => hk4 _ hx _ hin, hk2⟩
          · simp [hk3]
          · intro k hk v hv
            rcases List.mem_cons.1 hk with rfl | hk
            · exact hfr v hv
            · exact hk4 k hk v ((hmem _).2 (.inr hv))
          · intro e
            rw [hk5 e, hmem e]
            constructor
            · rintro ((he | he) | he)
              · subst he
                refine .inr ⟨by simp, rfl, rfl, by simp, rfl, ?_⟩
                exact .inl (.inl rfl)
              · exact .inl he
              · obtain ⟨a, b, c, d, e1, e2⟩ := he
                exact .inr ⟨List.mem_cons_of_mem _ a, b, c, List.mem_cons_of_mem _ d, e1, .inr ⟨a, b, c, d, e1, e2⟩⟩
            · rintro (he | ⟨_, _, _, _, _, he⟩)
              · exact .inl (.inr he)
              · exact he
          · intro f' hf'
            rcases List.mem_cons.1 hf' with rfl | hf'
            · exact ⟨_, (hk5 _).2 (.inl hin), rfl, rfl, rfl⟩
            · exact hQ.all f' hf'
          · intro e he
            rcases hQ.fresh e he with h | ⟨h1, h2⟩
            · rcases (hmem e).1 h with rfl | h
              · exact .inr ⟨rfl, Nat.le_refl _⟩
              · exact .inl h
            · exact .inr ⟨h1, Nat.le_of_succ_le h2⟩

end Verif.Lp
