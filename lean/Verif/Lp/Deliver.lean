/-
Invariants for the delivery of reassembled packets (C43).
-/
import Verif.Lp.Reasm
import Verif.Lp.Spec

namespace Verif.Lp

theorem decodeNet_no (env : Env) (o : Opts) (net : Bytes) (h : Hdr) (e base : Nat) :
    ∀ x ∈ decodeNet env o net h, delivers e base x = false := by
  intro x hx
  unfold decodeNet at hx
  repeat' split at hx
  all_goals first
    | cases hx; done
    | (rw [List.mem_singleton] at hx; subst hx; rfl)

theorem sending_no {o : Out} (h : o.sending = true) (e base : Nat) : delivers e base o = false := by
  cases o <;> first | rfl | cases h

/-- What accepting a packet does. -/
theorem accept_step (env : Env) (s : St) (e : Nat) (p : Pkt) :
    (accept env s e p).opts = s.opts ∧ (accept env s e p).now = s.now ∧ (accept env s e p).recent = s.recent ∧
    (accept env s e p).recentQ = s.recentQ ∧
    ∃ l, (accept env s e p).out = s.out ++ l ∧
      (((accept env s e p).parts = s.parts ∧ ∀ o ∈ l, ∀ e' b, delivers e' b o = false) ∨
       ∃ k i n, IsPart s.opts e p k i n ∧ p.frag.isSome ∧ (accept env s e p).parts = (addFragment s k i n p).1.parts ∧
        ((∀ net first, (addFragment s k i n p).2 ≠ .packet net first) ∧ (∀ o ∈ l, ∀ e' b, delivers e' b o = false) ∨
         ∃ net first l', (addFragment s k i n p).2 = .packet net first ∧ l = .reassembled e net first :: l' ∧
          ∀ o ∈ l', ∀ e' b, delivers e' b o = false)) := by
  have hadd : ∀ k i n, (addFragment s k i n p).1.opts = s.opts ∧ (addFragment s k i n p).1.now = s.now ∧
      (addFragment s k i n p).1.recent = s.recent ∧ (addFragment s k i n p).1.recentQ = s.recentQ ∧
      (addFragment s k i n p).1.out = s.out := by
    intro k i n
    unfold addFragment
    simp only
    repeat' split
    all_goals exact ⟨rfl, rfl, rfl, rfl, rfl⟩
  unfold accept
  split
  · exact ⟨rfl, rfl, rfl, rfl, [], by simp, .inl ⟨rfl, by simp⟩⟩
  · rename_i hf
    split
    · exact ⟨rfl, rfl, rfl, rfl, [], by simp, .inl ⟨rfl, by simp⟩⟩
    · simp only
      rcases receiveFragment_cases s e p with ⟨h1, h2⟩ | ⟨hi, hc, h1, h2⟩ | ⟨k, i, n, hp, h1⟩
      · rw [h2, h1]
        exact ⟨rfl, rfl, rfl, rfl, [], by simp, .inl ⟨rfl, by simp⟩⟩
      · rw [h2, h1]
        split
        · rename_i heq; split at heq <;> cases heq
        · exact ⟨rfl, rfl, rfl, rfl, [.lpInvalid], rfl, .inl ⟨rfl, by simp [delivers]⟩⟩
        · rename_i net first heq
          split at heq
          · cases heq
            refine ⟨rfl, rfl, rfl, rfl, _, rfl, .inl ⟨rfl, ?_⟩⟩
            intro o ho e' b
            rcases List.mem_cons.1 ho with rfl | ho
            · simp [delivers, hc]
            · exact decodeNet_no _ _ _ _ _ _ _ ho
          · cases heq
      · rw [h1]
        obtain ⟨a1, a2, a3, a4, a5⟩ := hadd k i n
        have hfs : p.frag.isSome = true := by cases hx : p.frag <;> simp_all
        generalize hr : addFragment s k i n p = r at *
        obtain ⟨s1, res⟩ := r
        simp only at a1 a2 a3 a4 a5 ⊢
        cases res with
        | nothing =>
          exact ⟨a1, a2, a3, a4, [], by simp [a5], .inr ⟨k, i, n, hp, hfs, by rw [hr], .inl ⟨(by rw [hr]; intro _ _ h; cases h), by simp⟩⟩⟩
        | error =>
          exact ⟨a1, a2, a3, a4, [.lpInvalid], by simp [emit, a5],
            .inr ⟨k, i, n, hp, hfs, by rw [hr]; rfl, .inl ⟨(by rw [hr]; intro _ _ h; cases h), by simp [delivers]⟩⟩⟩
        | packet net first =>
          exact ⟨a1, a2, a3, a4, _, by rw [a5],
            .inr ⟨k, i, n, hp, hfs, by rw [hr], .inr ⟨net, first, _, by rw [hr], rfl, fun o ho e' b => decodeNet_no _ _ _ _ _ _ _ ho⟩⟩⟩

theorem all_some_of_count {fr : List (Option Pkt)} (h : fr.countP (·.isSome) = fr.length) {j : Nat} (hj : j < fr.length) :
    ∃ p, fr[j]? = some (some p) := by
  have := List.countP_eq_length.1 h (fr[j]) (List.getElem_mem hj)
  obtain ⟨p, hp⟩ := Option.isSome_iff_exists.1 this
  exact ⟨p, by rw [List.getElem?_eq_getElem hj, hp]⟩

/-- When a packet is reassembled, each slot holds a fragment of it. -/
theorem addFragment_packet {s : St} {e : Nat} {p : Pkt} {k : Key} {i n : Nat} {net : Bytes} {first : Pkt} (hs : PartsOk s)
    (hp : IsPart s.opts e p k i n) (h : (addFragment s k i n p).2 = .packet net first) :
    ∃ fr : List (Option Pkt), fr.length = n ∧ (∀ j < n, ∃ p', fr[j]? = some (some p')) ∧ fr[i]? = some (some p) ∧
      net = (fr.map slotBytes).flatten ∧ fr[0]? = some (some first) ∧ (addFragment s k i n p).1 = setPart s k none ∧
      (∀ j p', fr[j]? = some (some p') → p'.fragIndex.getD 0 = j ∧ p'.fragCount.getD 1 = n ∧
          ∃ q, p'.seq = some q ∧ (q + W - j % W) % W = k.2) ∧
      (∀ j p', j ≠ i → fr[j]? = some (some p') → ∃ pp, s.parts k = some pp ∧ pp.frags[j]? = some (some p')) := by
  rcases addFragment_cases s k i n p with ⟨he, _⟩ | ⟨_, _, he⟩ | ⟨fr, nr, d, hst, hslot, hr⟩
  · rw [he] at h; cases h
  · rw [he] at h; cases h
  · rcases hr with ⟨hn, hpb, he⟩ | ⟨hn, hpb, he⟩ | ⟨hn, he⟩
    · rw [he] at h
      simp only [Reasm.packet.injEq] at h
      obtain ⟨hnet, hfirst⟩ := h
      rcases hst with hst | ⟨_, _, _, h0, _⟩
      · have hpo := hs _ _ hst
        have hlen : fr.length = n := hpo.len
        have hil : i < fr.length := by rw [hlen]; exact hp.lt
        have hcount : (fr.set i (some p)).countP (·.isSome) = (fr.set i (some p)).length := by
          rw [countP_set_some hslot, List.length_set, hlen, ← hn]
          exact congrArg (· + 1) hpo.recv.symm
        have hall : ∀ j < n, ∃ p', (fr.set i (some p))[j]? = some (some p') :=
          fun j hj => all_some_of_count hcount (by rw [List.length_set, hlen]; exact hj)
        refine ⟨fr.set i (some p), by rw [List.length_set, hlen], hall, List.getElem?_set_self hil, hnet.symm, ?_, by rw [he], ?_, ?_⟩
        · obtain ⟨p0, hp0⟩ := hall 0 (by have := hp.two; omega)
          rw [List.head?_eq_getElem?, hp0] at hfirst
          rw [hp0, ← hfirst]; rfl
        · intro j p' hj
          by_cases hji : i = j
          · subst hji
            rw [List.getElem?_set_self hil] at hj
            obtain rfl := Option.some.inj (Option.some.inj hj)
            obtain ⟨q, hq, hk⟩ := hp.seq
            exact ⟨hp.index, hp.count, q, hq, by rw [hk]⟩
          · rw [List.getElem?_set_ne hji] at hj
            exact hpo.slot j p' hj
        · intro j p' hji hj
          rw [List.getElem?_set_ne (fun h => hji h.symm)] at hj
          exact ⟨_, hst, hj⟩
      · have := hp.two; omega
    · rw [he] at h; cases h
    · rw [he] at h; cases h

/-- What is stored after adding a fragment that does not complete a packet. -/
theorem addFragment_stored {s : St} {e : Nat} {p : Pkt} {k : Key} {i n : Nat} (hs : PartsOk s)
    (hp : IsPart s.opts e p k i n) (h : ∀ net first, (addFragment s k i n p).2 ≠ .packet net first) :
    ((addFragment s k i n p).1 = s ∧ ∃ pp, s.parts k = some pp ∧ (pp.fragCount ≠ n ∨ ∃ p', pp.frags[i]? = some (some p'))) ∨
    ∃ pp, (addFragment s k i n p).1 = setPart s k (some pp) ∧ pp.fragCount = n ∧ pp.frags[i]? = some (some p) ∧
      (∀ j p', j ≠ i → (pp.frags[j]? = some (some p') ↔ ∃ pp0, s.parts k = some pp0 ∧ pp0.frags[j]? = some (some p'))) ∧
      (∀ pp0, s.parts k = some pp0 → pp0.fragCount = n ∧ pp0.frags[i]? = some none) ∧
      (pp.deadline = some (s.now + s.opts.reasmTimeout) ∨ ∃ pp0, s.parts k = some pp0 ∧ pp.deadline = pp0.deadline) := by
  rcases addFragment_cases s k i n p with ⟨he, pp, hpp, hor⟩ | ⟨hle, _, he⟩ | ⟨fr, nr, d, hst, hslot, hr⟩
  · left
    refine ⟨by rw [he], pp, hpp, ?_⟩
    by_cases hc : pp.fragCount = n
    · right
      have hns := hor.resolve_left (fun h => h hc)
      have hlt : i < pp.frags.length := by rw [(hs _ _ hpp).len, hc]; exact hp.lt
      cases hx : pp.frags[i]? with
      | none => rw [List.getElem?_eq_none_iff] at hx; omega
      | some x => cases x with
        | none => exact absurd hx hns
        | some p' => exact ⟨p', rfl⟩
    · exact .inl hc
  · have := hp.lt; omega
  · right
    have hlt : i < fr.length := (List.getElem?_eq_some_iff.1 hslot).1
    have hgen : ∀ j p', j ≠ i → ((fr.set i (some p))[j]? = some (some p') ↔ ∃ pp0, s.parts k = some pp0 ∧ pp0.frags[j]? = some (some p')) := by
      intro j p' hji
      rw [List.getElem?_set_ne (fun h => hji h.symm)]
      rcases hst with hst | ⟨h1, _, h2, _⟩
      · exact ⟨fun h => ⟨_, hst, h⟩, fun ⟨pp0, h1, h2⟩ => by rw [hst] at h1; obtain rfl := Option.some.inj h1; exact h2⟩
      · constructor
        · intro h
          rw [h2] at h
          have := List.mem_of_getElem? h
          simp at this
        · rintro ⟨pp0, h3, _⟩; rw [h1] at h3; cases h3
    have hold : ∀ pp0, s.parts k = some pp0 → pp0.fragCount = n ∧ pp0.frags[i]? = some none := by
      intro pp0 h0
      rcases hst with hst | ⟨h1, _⟩
      · rw [hst] at h0; obtain rfl := Option.some.inj h0; exact ⟨rfl, hslot⟩
      · rw [h1] at h0; cases h0
    rcases hr with ⟨_, _, he⟩ | ⟨hn, _, he⟩ | ⟨_, he⟩
    · exact absurd (by rw [he]) (h _ _)
    · refine ⟨_, by rw [he], rfl, List.getElem?_set_self hlt, hgen, hold, .inr ?_⟩
      rcases hst with hst | ⟨_, _, _, h0, _⟩
      · exact ⟨_, hst, rfl⟩
      · have := hp.two; omega
    · exact ⟨_, by rw [he], rfl, List.getElem?_set_self hlt, hgen, hold, .inl rfl⟩

/-! ## What has been received -/

/-- Whether slot `j` of the packet with key `k` is filled, as a number. -/
def full (s : St) (k : Key) (j : Nat) : Nat :=
  match s.parts k with
  | some pp => match pp.frags[j]? with
    | some (some _) => 1
    | _ => 0
  | none => 0

theorem full_le (s : St) (k : Key) (j : Nat) : full s k j ≤ 1 := by
  unfold full; split <;> (try split) <;> omega

theorem full_some {s : St} {k : Key} {j : Nat} {pp : Partial} {p : Pkt} (h : s.parts k = some pp) (h' : pp.frags[j]? = some (some p)) :
    full s k j = 1 := by unfold full; rw [h]; simp only [h']

theorem full_none {s : St} {k : Key} {j : Nat} (h : s.parts k = none) : full s k j = 0 := by unfold full; rw [h]

theorem full_congr {s s' : St} {k : Key} (h : s'.parts k = s.parts k) (j : Nat) : full s' k j = full s k j := by
  unfold full; rw [h]

theorem full_of_iff {s s' : St} {k : Key} {j : Nat} {pp : Partial} (h : s'.parts k = some pp)
    (hi : ∀ p, pp.frags[j]? = some (some p) ↔ ∃ pp0, s.parts k = some pp0 ∧ pp0.frags[j]? = some (some p)) :
    full s' k j = full s k j := by
  unfold full
  rw [h]
  simp only
  cases hx : s.parts k with
  | none =>
    simp only
    split
    · rename_i p hp
      obtain ⟨pp0, h0, _⟩ := (hi p).1 hp
      rw [hx] at h0; cases h0
    · rfl
  | some pp0 =>
    simp only
    split
    · rename_i p hp
      obtain ⟨pp1, h1, h2⟩ := (hi p).1 hp
      rw [hx] at h1
      obtain rfl := Option.some.inj h1
      rw [h2]
    · rename_i hno
      split
      · rename_i p hp
        exact absurd ((hi p).2 ⟨pp0, hx, hp⟩) (hno p)
      · rfl

/-- What is known of the history of one message. -/
structure Hist (e base : Nat) (net : Bytes) (frags : List Pkt) (done : List Event) (s : St) : Prop where
  cnt : ∀ pp, s.parts (e, base) = some pp → pp.fragCount = frags.length
  slot : ∀ (pp : Partial) (j : Nat) (p : Pkt), s.parts (e, base) = some pp → pp.frags[j]? = some (some p) →
    Event.receive e p ∈ done ∧ ∃ f, frags[j]? = some f ∧ Copy p f
  bound : ∀ (j : Nat) (f : Pkt), frags[j]? = some f → s.out.countP (delivers e base) + full s (e, base) j ≤ received e f done
  content : ∀ o ∈ s.out, delivers e base o = true →
    ∃ first f0, o = .reassembled e net first ∧ Event.receive e first ∈ done ∧ frags[0]? = some f0 ∧ Copy first f0

theorem received_append (e : Nat) (f : Pkt) (a b : List Event) : received e f (a ++ b) = received e f a + received e f b := by
  simp [received, List.countP_append]

theorem received_self {e : Nat} {p f : Pkt} (h : Copy p f) : received e f [.receive e p] = 1 := by
  simp [received, h]

/-- A step that delivers nothing of the message and leaves it alone, or drops it. -/
theorem Hist.keep {e base : Nat} {net : Bytes} {frags : List Pkt} {done : List Event} {s s' : St} {ev : Event} {l : List Out}
    (h : Hist e base net frags done s) (hp : s'.parts (e, base) = s.parts (e, base) ∨ s'.parts (e, base) = none)
    (ho : s'.out = s.out ++ l) (hl : ∀ o ∈ l, delivers e base o = false) : Hist e base net frags (done ++ [ev]) s' := by
  have hc : s'.out.countP (delivers e base) = s.out.countP (delivers e base) := by
    rw [ho, List.countP_append]
    have : l.countP (delivers e base) = 0 := by
      rw [List.countP_eq_zero]; intro a ha; rw [hl a ha]; simp
    omega
  refine ⟨?_, ?_, ?_, ?_⟩
  · intro pp hpp
    rcases hp with hp | hp
    · rw [hp] at hpp; exact h.cnt pp hpp
    · rw [hp] at hpp; cases hpp
  · intro pp j p hpp hj
    rcases hp with hp | hp
    · rw [hp] at hpp
      obtain ⟨h1, h2⟩ := h.slot pp j p hpp hj
      exact ⟨List.mem_append_left _ h1, h2⟩
    · rw [hp] at hpp; cases hpp
  · intro j f hj
    have hb := h.bound j f hj
    have hf : full s' (e, base) j ≤ full s (e, base) j := by
      rcases hp with hp | hp
      · rw [full_congr hp]; omega
      · rw [full_none hp]; omega
    rw [hc, received_append]
    omega
  · intro o ho' hd
    rw [ho] at ho'
    rcases List.mem_append.1 ho' with ho' | ho'
    · obtain ⟨a, b, c, d, e⟩ := h.content o ho' hd
      exact ⟨a, b, c, List.mem_append_left _ d, e⟩
    · rw [hl o ho'] at hd; cases hd

theorem copy_index {base : Nat} {net : Bytes} {frags : List Pkt} (hm : Message base net frags) {p f : Pkt} {o : Opts} {e : Nat} {k : Key}
    {i n : Nat} (hp : IsPart o e p k i n) (hf : f ∈ frags) (hc : Copy p f) : frags[i]? = some f ∧ n = frags.length := by
  obtain ⟨j, hj⟩ := List.mem_iff_getElem?.1 hf
  obtain ⟨h1, h2, h3, h4⟩ := hm.place j f hj
  have hij : i = j := by rw [← hp.index, hc.fragIndex, h2]; rfl
  refine ⟨by rw [hij]; exact hj, ?_⟩
  rw [← hp.count, hc.fragCount, h3]; rfl

/-- The payload of the slots is that of the message. -/
theorem slots_payload {base : Nat} {net : Bytes} {frags : List Pkt} (hm : Message base net frags) {fr : List (Option Pkt)}
    (hl : fr.length = frags.length) (h : ∀ (j : Nat) (p : Pkt), fr[j]? = some (some p) → ∃ f, frags[j]? = some f ∧ Copy p f)
    (hall : ∀ j < frags.length, ∃ p', fr[j]? = some (some p')) : (fr.map slotBytes).flatten = net := by
  rw [← hm.payload]
  congr 1
  apply List.ext_getElem?
  intro j
  rw [List.getElem?_map, List.getElem?_map]
  by_cases hj : j < frags.length
  · obtain ⟨p, hp⟩ := hall j hj
    obtain ⟨f, hf, hc⟩ := h j p hp
    rw [hp, hf]
    simp [slotBytes, hc.frag]
  · rw [List.getElem?_eq_none (by omega), List.getElem?_eq_none (by omega)]; rfl

theorem seq_base {q base : Nat} (hb : base < W) (h : (q + W - 0 % W) % W = base) (hq : q < W) : q = base := by
  simp only [W] at *; omega

theorem Hist.accept {e base : Nat} {net : Bytes} {frags : List Pkt} {done : List Event} {s : St} {env : Env} {e' : Nat} {p : Pkt}
    (hm : Message base net frags) (hs : PartsOk s) (h : Hist e base net frags done s)
    (hon : e' = e → Claims base p → ∃ f ∈ frags, Copy p f) :
    Hist e base net frags (done ++ [.receive e' p]) (accept env s e' p) := by
  obtain ⟨_, _, _, _, l, ho, hcase⟩ := accept_step env s e' p
  rcases hcase with ⟨hp, hl⟩ | ⟨k, i, n, hpart, hfs, hp, hcase⟩
  · exact h.keep (.inl (by rw [hp])) ho (fun o ho => hl o ho e base)
  obtain ⟨q, hq, hk⟩ := hpart.seq
  by_cases hkey : k = (e, base)
  · -- the message itself
    have hee : e' = e := by rw [hk] at hkey; exact congrArg Prod.fst hkey
    have hbase : (q + W - i % W) % W = base := by rw [hk] at hkey; exact congrArg Prod.snd hkey
    subst hee
    obtain ⟨f, hf, hc⟩ := hon rfl ⟨by rw [hpart.count]; exact hpart.two, q, hq, by rw [hpart.index]; exact hbase⟩
    obtain ⟨hfi, hn⟩ := copy_index hm hpart hf hc
    subst hkey
    rcases hcase with ⟨hno, hl⟩ | ⟨net', first, l', hpk, rfl, hl⟩
    · rcases addFragment_stored hs hpart hno with ⟨he, _⟩ | ⟨pp, he, hcn, hpi, hother, hold, _⟩
      · exact h.keep (.inl (by rw [hp, he])) ho (fun o ho => hl o ho e' base)
      · have hparts : (Lp.accept env s e' p).parts (e', base) = some pp := by rw [hp, he, setPart_self]
        have hcount : (Lp.accept env s e' p).out.countP (delivers e' base) = s.out.countP (delivers e' base) := by
          rw [ho, List.countP_append]
          have : l.countP (delivers e' base) = 0 := by
            rw [List.countP_eq_zero]; intro a ha; rw [hl a ha]; simp
          omega
        refine ⟨?_, ?_, ?_, ?_⟩
        · intro pp' hpp'
          rw [hparts] at hpp'
          obtain rfl := Option.some.inj hpp'
          rw [hcn, hn]
        · intro pp' j p' hpp' hj
          rw [hparts] at hpp'
          obtain rfl := Option.some.inj hpp'
          by_cases hji : j = i
          · subst hji
            rw [hpi] at hj
            obtain rfl := Option.some.inj (Option.some.inj hj)
            exact ⟨by simp, f, hfi, hc⟩
          · obtain ⟨pp0, h0, h1⟩ := (hother j p' hji).1 hj
            obtain ⟨h2, h3⟩ := h.slot pp0 j p' h0 h1
            exact ⟨List.mem_append_left _ h2, h3⟩
        · intro j f' hj
          rw [hcount, received_append]
          by_cases hji : j = i
          · subst hji
            rw [hfi] at hj
            obtain rfl := Option.some.inj hj
            have hb := h.bound j f hfi
            have := full_le (Lp.accept env s e' p) (e', base) j
            rw [received_self hc]
            omega
          · have hb := h.bound j f' hj
            rw [full_of_iff hparts (fun p' => hother j p' hji)]
            omega
        · intro o ho' hd
          rw [ho] at ho'
          rcases List.mem_append.1 ho' with ho' | ho'
          · obtain ⟨a, b, c, d, e⟩ := h.content o ho' hd
            exact ⟨a, b, c, List.mem_append_left _ d, e⟩
          · rw [hl o ho'] at hd; cases hd
    · obtain ⟨fr, hlen, hall, hfri, hnet, hfirst, hst, hslot, hold⟩ := addFragment_packet hs hpart hpk
      have hcopy : ∀ (j : Nat) (p' : Pkt), fr[j]? = some (some p') → Event.receive e' p' ∈ done ++ [.receive e' p] ∧ ∃ f, frags[j]? = some f ∧ Copy p' f := by
        intro j p' hj
        by_cases hji : j = i
        · subst hji
          rw [hfri] at hj
          obtain rfl := Option.some.inj (Option.some.inj hj)
          exact ⟨by simp, f, hfi, hc⟩
        · obtain ⟨pp0, h0, h1⟩ := hold j p' hji hj
          obtain ⟨h2, h3⟩ := h.slot pp0 j p' h0 h1
          exact ⟨List.mem_append_left _ h2, h3⟩
      have hnet' : net' = net := by
        rw [hnet]
        exact slots_payload hm (by rw [hlen, hn]) (fun j p' hj => (hcopy j p' hj).2) (by rw [← hn]; exact hall)
      subst hnet'
      have hparts : (Lp.accept env s e' p).parts (e', base) = none := by rw [hp, hst, setPart_self]
      have hl0 : l'.countP (delivers e' base) = 0 := by
        rw [List.countP_eq_zero]; intro a ha; rw [hl a ha]; simp
      have hcount : (Lp.accept env s e' p).out.countP (delivers e' base) ≤ s.out.countP (delivers e' base) + 1 := by
        rw [ho, List.countP_append, List.countP_cons, hl0]
        split <;> omega
      refine ⟨?_, ?_, ?_, ?_⟩
      · intro pp' hpp'; rw [hparts] at hpp'; cases hpp'
      · intro pp' j p' hpp' hj; rw [hparts] at hpp'; cases hpp'
      · intro j f' hj
        rw [received_append, full_none hparts]
        have hb := h.bound j f' hj
        by_cases hji : j = i
        · subst hji
          rw [hfi] at hj
          obtain rfl := Option.some.inj hj
          rw [received_self hc]
          omega
        · obtain ⟨p', hp'⟩ := hall j (by rw [hn]; exact (List.getElem?_eq_some_iff.1 hj).1)
          obtain ⟨pp0, h0, h1⟩ := hold j p' hji hp'
          rw [full_some h0 h1] at hb
          omega
      · intro o ho' hd
        rw [ho] at ho'
        rcases List.mem_append.1 ho' with ho' | ho'
        · obtain ⟨a, b, c, d, e⟩ := h.content o ho' hd
          exact ⟨a, b, c, List.mem_append_left _ d, e⟩
        · rcases List.mem_cons.1 ho' with rfl | ho'
          · obtain ⟨h1, f0, h2, h3⟩ := hcopy 0 first hfirst
            exact ⟨first, f0, rfl, h1, h2, h3⟩
          · rw [hl o ho'] at hd; cases hd
  · -- another message
    have hother : (Lp.accept env s e' p).parts (e, base) = s.parts (e, base) := by
      rw [hp]
      rcases addFragment_cases s k i n p with ⟨he, _⟩ | ⟨_, _, he⟩ | ⟨fr, nr, d, _, _, hr⟩
      · rw [he]
      · rw [he]
      · rcases hr with ⟨_, _, he⟩ | ⟨_, _, he⟩ | ⟨_, he⟩ <;> (rw [he]; exact setPart_other (fun h => hkey h.symm))
    refine h.keep (.inl hother) ho ?_
    rcases hcase with ⟨_, hl⟩ | ⟨net', first, l', hpk, rfl, hl⟩
    · exact fun o ho => hl o ho e base
    · intro o ho
      rcases List.mem_cons.1 ho with rfl | ho
      · obtain ⟨fr, hlen, hall, hfri, hnet, hfirst, hst, hslot, hold⟩ := addFragment_packet hs hpart hpk
        obtain ⟨_, _, q0, hq0, hq1⟩ := hslot 0 first hfirst
        have hb := hm.base_lt
        cases hd : delivers e base (.reassembled e' net' first) with
        | false => rfl
        | true =>
          simp only [delivers, hq0, Bool.and_eq_true, beq_iff_eq, decide_eq_true_eq, Option.some.injEq] at hd
          exfalso
          apply hkey
          have h1 : k.1 = e := by rw [hk]; exact hd.1.1
          have h2 : k.2 = base := by rw [← hq1, hd.1.2]; simp only [W] at *; omega
          exact Prod.ext h1 h2
      · exact hl o ho e base

theorem Hist.step {e base : Nat} {net : Bytes} {frags : List Pkt} {done : List Event} {s s' : St} {env : Env} {ev : Event}
    (hm : Message base net frags) (hs : PartsOk s) (h : Hist e base net frags done s)
    (hon : ∀ p, ev = .receive e p → Claims base p → ∃ f ∈ frags, Copy p f) (hst : Lp.step env s ev = .ok s') :
    Hist e base net frags (done ++ [ev]) s' := by
  have hso : ∀ {t : St}, SendOnly s t → Hist e base net frags (done ++ [ev]) t := by
    intro t ht
    obtain ⟨l, ho, hl⟩ := ht.out
    exact h.keep (.inl (by rw [ht.parts])) ho (fun o ho => sending_no (hl o ho) _ _)
  cases ev with
  | send k t net => exact hso (send_only hst)
  | receive e' p =>
    simp only [Lp.step, receive] at hst
    split at hst
    · split at hst
      · cases hst
      · rename_i r hr
        cases hst
        have h1 := processIncoming_only hr
        obtain ⟨l, ho, hl⟩ := h1.out
        split
        · -- the packet passes
          have hk : Hist e base net frags done r.1 := by
            refine ⟨?_, ?_, ?_, ?_⟩
            · intro pp hpp; rw [h1.parts] at hpp; exact h.cnt pp hpp
            · intro pp j p hpp hj; rw [h1.parts] at hpp; exact h.slot pp j p hpp hj
            · intro j f hj
              rw [full_congr (s := s) (by rw [h1.parts]), ho, List.countP_append]
              have : l.countP (delivers e base) = 0 := by
                rw [List.countP_eq_zero]; intro a ha; rw [sending_no (hl a ha)]; simp
              have := h.bound j f hj
              omega
            · intro o ho' hd
              rw [ho] at ho'
              rcases List.mem_append.1 ho' with ho' | ho'
              · exact h.content o ho' hd
              · rw [sending_no (hl o ho')] at hd; cases hd
          exact hk.accept hm (partsOk_of_parts hs h1.parts) (fun he => hon p (by rw [he]))
        · refine h.keep (l := l ++ [.duplicate]) (.inl (by simp [emit, h1.parts])) (by simp [emit, ho]) ?_
          intro o ho'
          rcases List.mem_append.1 ho' with ho' | ho'
          · exact sending_no (hl o ho') _ _
          · cases List.mem_singleton.1 ho'; rfl
    · cases hst
      exact h.accept hm hs (fun he => hon p (by rw [he]))
  | rto tx =>
    simp only [Lp.step] at hst
    split at hst
    · cases hst; exact hso (.refl _)
    · simp only [bind_ok] at hst
      obtain ⟨r, h1, h2⟩ := hst
      cases h2
      exact hso (onLost_only h1)
  | idle =>
    simp only [Lp.step] at hst
    split at hst
    · exact hso ((flushAcks_only hst).after (.same rfl rfl rfl ⟨rfl, rfl⟩ rfl))
    · cases hst; exact hso (.refl _)
  | dropTimer k =>
    cases hst
    have : ∃ l, (dropPartial s k).out = s.out ++ l ∧ ∀ o ∈ l, delivers e base o = false := by
      unfold dropPartial
      split
      · exact ⟨[], by simp, by simp⟩
      · split
        · exact ⟨[.reassemblyTimeout k], rfl, by simp [delivers]⟩
        · exact ⟨[], by simp, by simp⟩
    obtain ⟨l, ho, hl⟩ := this
    refine h.keep ?_ ho hl
    rcases dropPartial_parts s k (e, base) with he | ⟨_, he, _⟩
    · exact .inl he
    · exact .inr he
  | tick d => cases hst; exact h.keep (l := []) (.inl rfl) (by simp) (by simp)
  | setOptions o => cases hst; exact h.keep (l := []) (.inl rfl) (by simp [setOptions]) (by simp)

theorem Hist.run {e base : Nat} {net : Bytes} {frags : List Pkt} {env : Env} (hm : Message base net frags) :
    ∀ {es done : List Event} {s s' : St}, PartsOk s → Hist e base net frags done s → Honest e base frags es →
      Lp.run env s es = .ok s' → Hist e base net frags (done ++ es) s' := by
  intro es
  induction es with
  | nil => intro done s s' _ h _ hr; cases hr; simpa using h
  | cons ev es ih =>
    intro done s s' hs h hon hr
    simp only [Lp.run, bind_ok] at hr
    obtain ⟨s1, h1, h2⟩ := hr
    have := ih (step_partsOk hs h1) (h.step hm hs (fun p hp => hon p (by rw [hp]; simp)) h1)
      (fun p hp => hon p (List.mem_cons_of_mem _ hp)) h2
    simpa using this

theorem Hist.init {e base : Nat} {net : Bytes} {frags : List Pkt} (o : Opts) (a b : Nat) : Hist e base net frags [] (Lp.init o a b) := by
  refine ⟨?_, ?_, ?_, ?_⟩
  · intro pp h; cases h
  · intro pp j p h; cases h
  · intro j f _; simp [Lp.init, full, received]
  · intro o h; cases h

end Verif.Lp
