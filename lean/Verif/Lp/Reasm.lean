/-
The reassembler: invariants of partially received packets.
-/
import Verif.Lp.Frame
import Verif.Lp.Frag

namespace Verif.Lp

/-- The packet is a valid fragment, number `i` of `n`, of the packet with key `k`. -/
structure IsPart (o : Opts) (e : Nat) (p : Pkt) (k : Key) (i n : Nat) : Prop where
  index : p.fragIndex.getD 0 = i
  count : p.fragCount.getD 1 = n
  lt : i < n
  le : n ≤ o.reasmMax
  two : 2 ≤ n
  seq : ∃ q, p.seq = some q ∧ k = (e, (q + W - i % W) % W)

/-- How the reassembler treats a packet. -/
theorem receiveFragment_cases (s : St) (e : Nat) (p : Pkt) :
    (receiveFragment s e p).1 = s ∧ (receiveFragment s e p).2 = .nothing ∨
    (p.fragIndex.getD 0 = 0 ∧ p.fragCount.getD 1 = 1 ∧ (receiveFragment s e p).1 = s ∧
      (receiveFragment s e p).2 = if (parseBlock (p.frag.getD [])).isSome then .packet (p.frag.getD []) p else .error) ∨
    (∃ k i n, IsPart s.opts e p k i n ∧ receiveFragment s e p = addFragment s k i n p) := by
  unfold receiveFragment
  simp only
  split
  · exact .inl ⟨rfl, rfl⟩
  · split
    · exact .inl ⟨rfl, rfl⟩
    · split
      · rename_i h; exact .inr (.inl ⟨h.1, h.2, rfl, rfl⟩)
      · split
        · exact .inl ⟨rfl, rfl⟩
        · rename_i h1 h2 h3 _ q hq
          refine .inr (.inr ⟨_, _, _, ⟨rfl, rfl, by omega, by omega, ?_, q, hq, rfl⟩, rfl⟩)
          generalize p.fragIndex.getD 0 = i at *
          generalize p.fragCount.getD 1 = n at *
          omega

theorem receiveFragment_part {s : St} {e : Nat} {p : Pkt} {k : Key} {i n : Nat} (h : IsPart s.opts e p k i n) :
    receiveFragment s e p = addFragment s k i n p := by
  obtain ⟨h1, h2, h3, h4, h5, q, hq, rfl⟩ := h
  unfold receiveFragment
  simp only [h1, h2, hq]
  rw [if_neg (by omega), if_neg (by omega), if_neg (by omega)]

/-- Octets of a slot. -/
def slotBytes (f : Option Pkt) : Bytes := (f.bind (·.frag)).getD []

/-- How the reassembler adds a fragment. -/
theorem addFragment_cases (s : St) (k : Key) (i n : Nat) (p : Pkt) :
    addFragment s k i n p = (s, .nothing) ∧ (∃ pp, s.parts k = some pp ∧ (pp.fragCount ≠ n ∨ pp.frags[i]? ≠ some none)) ∨
    (n ≤ i ∧ s.parts k = none ∧ addFragment s k i n p = (s, .nothing)) ∨
    ∃ fr nr d, (s.parts k = some ⟨n, fr, nr, d⟩ ∨ (s.parts k = none ∧ i < n ∧ fr = List.replicate n none ∧ nr = 0 ∧ d = none)) ∧
      fr[i]? = some none ∧
      ((nr + 1 = n ∧ (parseBlock ((fr.set i (some p)).map slotBytes).flatten).isSome ∧
          addFragment s k i n p = (setPart s k none,
            .packet ((fr.set i (some p)).map slotBytes).flatten (((fr.set i (some p)).head?.getD none).getD {}))) ∨
        (nr + 1 = n ∧ parseBlock ((fr.set i (some p)).map slotBytes).flatten = none ∧
          addFragment s k i n p = (setPart s k (some ⟨n, fr.set i (some p), nr + 1, d⟩), .error)) ∨
        (nr + 1 ≠ n ∧
          addFragment s k i n p =
            (setPart s k (some ⟨n, fr.set i (some p), nr + 1, some (s.now + s.opts.reasmTimeout)⟩), .nothing))) := by
  unfold addFragment
  have hsb : (fun f : Option Pkt => (f.bind (·.frag)).getD []) = slotBytes := rfl
  simp only [hsb]
  cases hk : s.parts k with
  | none =>
    simp only [Option.getD_none, ne_eq, not_true_eq_false, if_false]
    by_cases hin : i < n
    · right; right
      refine ⟨List.replicate n none, 0, none, .inr ⟨trivial, hin, rfl, rfl, rfl⟩, by simp [hin], ?_⟩
      rw [if_neg (by simp [hin])]
      by_cases h1 : 0 + 1 = n
      · rw [if_pos h1]
        cases hb : parseBlock ((((List.replicate n none).set i (some p))).map slotBytes).flatten with
        | none => right; left; exact ⟨h1, rfl, by simp⟩
        | some b => left; exact ⟨h1, rfl, by simp⟩
      · rw [if_neg h1]
        right; right; exact ⟨h1, rfl⟩
    · right; left
      refine ⟨by omega, trivial, ?_⟩
      rw [if_pos]
      intro h
      have := List.getElem?_eq_some_iff.1 h
      obtain ⟨h, _⟩ := this
      rw [List.length_replicate] at h
      omega
  | some pp =>
    obtain ⟨c, fr, nr, d⟩ := pp
    simp only [Option.getD_some, ne_eq]
    by_cases hc : n = c
    · subst hc
      by_cases hs : fr[i]? = some none
      · right; right
        refine ⟨fr, nr, d, .inl rfl, hs, ?_⟩
        rw [if_neg (by simp), if_neg (by simp [hs])]
        by_cases h1 : nr + 1 = n
        · rw [if_pos h1]
          cases hb : parseBlock ((fr.set i (some p)).map slotBytes).flatten with
          | none => right; left; exact ⟨h1, rfl, by simp⟩
          | some b => left; exact ⟨h1, rfl, by simp⟩
        · rw [if_neg h1]
          right; right; exact ⟨h1, rfl⟩
      · left
        exact ⟨by rw [if_neg (by simp), if_pos hs], _, rfl, .inr hs⟩
    · left
      exact ⟨by rw [if_pos hc], _, rfl, .inl (fun h => hc h.symm)⟩

/-- What is known of a partially received packet. -/
structure PartOk (k : Key) (pp : Partial) : Prop where
  len : pp.frags.length = pp.fragCount
  two : 2 ≤ pp.fragCount
  recv : pp.nReceived = pp.frags.countP (·.isSome)
  pos : 1 ≤ pp.nReceived
  timer : pp.deadline.isSome
  slot : ∀ i p, pp.frags[i]? = some (some p) → p.fragIndex.getD 0 = i ∧ p.fragCount.getD 1 = pp.fragCount ∧
    ∃ q, p.seq = some q ∧ (q + W - i % W) % W = k.2
  incomplete : pp.nReceived = pp.fragCount → parseBlock (pp.frags.map slotBytes).flatten = none

def PartsOk (s : St) : Prop := ∀ k pp, s.parts k = some pp → PartOk k pp

theorem countP_set_some {fr : List (Option Pkt)} {i : Nat} {p : Pkt} (h : fr[i]? = some none) :
    (fr.set i (some p)).countP (·.isSome) = fr.countP (·.isSome) + 1 := by
  induction fr generalizing i with
  | nil => simp at h
  | cons a fr ih =>
    cases i with
    | zero =>
      simp only [List.getElem?_cons_zero, Option.some.injEq] at h
      subst h
      simp
    | succ i =>
      simp only [List.getElem?_cons_succ] at h
      simp only [List.set_cons_succ, List.countP_cons, ih h]
      omega

theorem setPart_other {s : St} {k k' : Key} {x : Option Partial} (h : k' ≠ k) : (setPart s k x).parts k' = s.parts k' := by
  simp [setPart, h]

theorem setPart_self {s : St} {k : Key} {x : Option Partial} : (setPart s k x).parts k = x := by simp [setPart]

/-- Adding a fragment keeps the others, and keeps the invariant. -/
theorem addFragment_partsOk {s : St} {e : Nat} {p : Pkt} {k : Key} {i n : Nat} (hp : IsPart s.opts e p k i n) (h : PartsOk s) :
    PartsOk (addFragment s k i n p).1 := by
  obtain ⟨h1, h2, h3, h4, h5, q, hq, hk⟩ := hp
  rcases addFragment_cases s k i n p with ⟨he, _⟩ | ⟨_, _, he⟩ | ⟨fr, nr, d, hst, hslot, hr⟩
  · rw [he]; exact h
  · rw [he]; exact h
  · have hlen : fr.length = n ∧ nr = fr.countP (·.isSome) ∧ (nr + 1 = n → d.isSome) ∧
        ∀ j p, fr[j]? = some (some p) → p.fragIndex.getD 0 = j ∧ p.fragCount.getD 1 = n ∧
          ∃ q, p.seq = some q ∧ (q + W - j % W) % W = k.2 := by
      rcases hst with hst | ⟨_, _, rfl, rfl, rfl⟩
      · have := h _ _ hst
        exact ⟨this.len, this.recv, fun _ => this.timer, this.slot⟩
      · refine ⟨List.length_replicate, ?_, fun h => by omega, ?_⟩
        · symm
          rw [List.countP_eq_zero]
          intro a ha
          rw [(List.mem_replicate.1 ha).2]
          simp
        intro j p hj
        have := List.mem_of_getElem? hj
        simp at this
    have hslots : ∀ j p', (fr.set i (some p))[j]? = some (some p') → p'.fragIndex.getD 0 = j ∧ p'.fragCount.getD 1 = n ∧
          ∃ q, p'.seq = some q ∧ (q + W - j % W) % W = k.2 := by
      intro j p' hj
      by_cases hji : i = j
      · subst hji
        rw [List.getElem?_set_self (by rw [hlen.1]; exact h3)] at hj
        obtain rfl := Option.some.inj (Option.some.inj hj)
        exact ⟨h1, h2, q, hq, by rw [hk]⟩
      · rw [List.getElem?_set_ne hji] at hj
        exact hlen.2.2.2 j p' hj
    have hcount := countP_set_some (p := p) hslot
    rcases hr with ⟨_, _, he⟩ | ⟨hn, hpb, he⟩ | ⟨hn, he⟩
    · rw [he]
      intro k' pp hk'
      by_cases hkk : k' = k
      · subst hkk; rw [setPart_self] at hk'; cases hk'
      · rw [setPart_other hkk] at hk'; exact h _ _ hk'
    · rw [he]
      intro k' pp hk'
      by_cases hkk : k' = k
      · subst hkk
        rw [setPart_self] at hk'
        obtain rfl := Option.some.inj hk'
        refine ⟨by simp [hlen.1], h5, ?_, by simp, hlen.2.2.1 hn, hslots, fun _ => hpb⟩
        show nr + 1 = _
        rw [hcount, hlen.2.1]
      · rw [setPart_other hkk] at hk'; exact h _ _ hk'
    · rw [he]
      intro k' pp hk'
      by_cases hkk : k' = k
      · subst hkk
        rw [setPart_self] at hk'
        obtain rfl := Option.some.inj hk'
        refine ⟨by simp [hlen.1], h5, ?_, by simp, rfl, hslots, fun h => absurd h hn⟩
        show nr + 1 = _
        rw [hcount, hlen.2.1]
      · rw [setPart_other hkk] at hk'; exact h _ _ hk'

theorem accept_parts (env : Env) (s : St) (e : Nat) (p : Pkt) :
    (accept env s e p).parts = s.parts ∨
      (p.frag.isSome ∧ ((p.fragIndex.isSome || p.fragCount.isSome) = true → s.opts.allowReassembly = true) ∧
        (accept env s e p).parts = (receiveFragment s e p).1.parts) := by
  unfold accept
  split
  · exact .inl rfl
  · rename_i hf
    split
    · exact .inl rfl
    · rename_i hr
      right
      refine ⟨by cases hx : p.frag <;> simp_all, by simpa using hr, ?_⟩
      simp only
      split <;> rfl

theorem partsOk_of_parts {s s' : St} (h : PartsOk s) (he : s'.parts = s.parts) : PartsOk s' := by
  intro k pp hk; rw [he] at hk; exact h k pp hk

theorem accept_partsOk {env : Env} {s : St} {e : Nat} {p : Pkt} (h : PartsOk s) : PartsOk (accept env s e p) := by
  rcases accept_parts env s e p with he | ⟨_, _, he⟩
  · exact partsOk_of_parts h he
  · refine partsOk_of_parts (s := (receiveFragment s e p).1) ?_ he
    rcases receiveFragment_cases s e p with ⟨h1, _⟩ | ⟨_, _, h1, _⟩ | ⟨k, i, n, hp, h1⟩
    · rw [h1]; exact h
    · rw [h1]; exact h
    · rw [h1]; exact addFragment_partsOk hp h

theorem dropPartial_parts (s : St) (k k' : Key) :
    (dropPartial s k).parts k' = s.parts k' ∨
      (k' = k ∧ (dropPartial s k).parts k' = none ∧ ∃ pp d, s.parts k = some pp ∧ pp.deadline = some d ∧ d ≤ s.now) := by
  unfold dropPartial
  split
  · exact .inl rfl
  · rename_i pp hpp
    split
    · rename_i hd
      by_cases hk : k' = k
      · subst hk
        right
        obtain ⟨d, hd1, hd2⟩ := (Option.any_eq_true _ _).1 hd
        exact ⟨rfl, by simp [emit, setPart], pp, d, hpp, hd1, by simpa using hd2⟩
      · left; simp [emit, setPart, hk]
    · exact .inl rfl

theorem step_partsOk {env : Env} {s s' : St} {ev : Event} (hs : PartsOk s) (h : step env s ev = .ok s') : PartsOk s' := by
  cases ev with
  | send k t net => exact partsOk_of_parts hs (send_only h).parts
  | receive e p =>
    simp only [step, receive] at h
    split at h
    · split at h
      · cases h
      · rename_i r hr
        cases h
        have h1 := (processIncoming_only hr).parts
        split
        · exact accept_partsOk (partsOk_of_parts hs h1)
        · exact partsOk_of_parts hs h1
    · cases h
      exact accept_partsOk hs
  | rto tx =>
    simp only [step] at h
    split at h
    · cases h; exact hs
    · simp only [bind_ok] at h
      obtain ⟨r, h1, h2⟩ := h
      cases h2
      exact partsOk_of_parts hs (onLost_only h1).parts
  | idle =>
    simp only [step] at h
    split at h
    · exact partsOk_of_parts (s := { s with idleTimer := false }) hs (flushAcks_only h).parts
    · cases h; exact hs
  | dropTimer k =>
    cases h
    intro k' pp hk'
    rcases dropPartial_parts s k k' with he | ⟨_, he, _⟩
    · rw [he] at hk'; exact hs _ _ hk'
    · rw [he] at hk'; cases hk'
  | tick d => cases h; exact hs
  | setOptions o => cases h; exact hs

theorem run_partsOk {env : Env} : ∀ {es : List Event} {s s' : St}, PartsOk s → run env s es = .ok s' → PartsOk s' := by
  intro es
  induction es with
  | nil => intro s s' hs h; cases h; exact hs
  | cons e es ih =>
    intro s s' hs h
    simp only [run, bind_ok] at h
    obtain ⟨s1, h1, h2⟩ := h
    exact ih (step_partsOk hs h1) h2

theorem init_partsOk (o : Opts) (a b : Nat) : PartsOk (init o a b) := by intro k pp h; cases h

end Verif.Lp
