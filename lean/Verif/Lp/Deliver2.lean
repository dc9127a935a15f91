/-
Every message whose fragments all arrive in time is delivered (C43).
-/
import Verif.Lp.Deliver

namespace Verif.Lp

/-- Before the message is delivered: what is known, with the events `done` since it was not there at all, at time `t0`. -/
structure Mid (R : Nat → Prop) (t0 : Nat) (o : Opts) (e base : Nat) (frags : List Pkt) (done : List Event) (s : St) : Prop where
  cnt : ∀ pp, s.parts (e, base) = some pp → pp.fragCount = frags.length
  slot : ∀ (pp : Partial) (j : Nat) (p : Pkt), s.parts (e, base) = some pp → pp.frags[j]? = some (some p) →
    ∃ f, frags[j]? = some f ∧ Copy p f
  timer : ∀ pp, s.parts (e, base) = some pp → ∃ d, pp.deadline = some d ∧ t0 + o.reasmTimeout ≤ d
  filled : ∀ (j : Nat) (f p : Pkt), frags[j]? = some f → Event.receive e p ∈ done → Copy p f → full s (e, base) j = 1
  rel : ∀ (j : Nat) (f : Pkt) (q : Nat), R q → frags[j]? = some f → f.seq = some q → full s (e, base) j = 1

/-- The Sequence is remembered as received. -/
def Seen (o : Opts) (s : St) (q : Nat) : Prop := o.relEnabled = true ∧ ((recvTime s.recent q).isSome ∨ q ∈ s.recentQ)

theorem Mid.keep {R : Nat → Prop} {t0 : Nat} {o : Opts} {e base : Nat} {frags : List Pkt} {done : List Event} {s s' : St}
    (h : Mid R t0 o e base frags done s) (hp : s'.parts (e, base) = s.parts (e, base)) : Mid R t0 o e base frags done s' := by
  obtain ⟨a, b, c, d, g⟩ := h
  refine ⟨by rw [hp]; exact a, by rw [hp]; exact b, by rw [hp]; exact c, ?_, ?_⟩
  · intro j f p h1 h2 h3; rw [full_congr hp]; exact d j f p h1 h2 h3
  · intro j f q h1 h2 h3
    rw [full_congr hp]; exact g j f q h1 h2 h3

/-- An event that is not a reception from the endpoint adds nothing to the history. -/
theorem Mid.grow {R : Nat → Prop} {t0 : Nat} {o : Opts} {e base : Nat} {frags : List Pkt} {done : List Event} {s : St} {ev : Event}
    (h : Mid R t0 o e base frags done s) (hev : ∀ p, ev = .receive e p → ∀ (j : Nat) (f : Pkt), frags[j]? = some f → Copy p f → full s (e, base) j = 1) :
    Mid R t0 o e base frags (done ++ [ev]) s := by
  obtain ⟨a, b, c, d, g⟩ := h
  refine ⟨a, b, c, ?_, g⟩
  intro j f p h1 h2 h3
  rcases List.mem_append.1 h2 with h2 | h2
  · exact d j f p h1 h2 h3
  · exact hev p (List.mem_singleton.1 h2).symm j f h1 h3

theorem recvTime_filter {m : List (Nat × Nat)} {q x : Nat} (h : (recvTime (m.filter (fun e => e.1 != q)) x).isSome) :
    (recvTime m x).isSome := by
  simp only [recvTime, Option.isSome_map, List.find?_isSome] at *
  obtain ⟨y, hy, hx⟩ := h
  exact ⟨y, (List.mem_filter.1 hy).1, hx⟩

theorem recvTime_append {m : List (Nat × Nat)} {q t x : Nat} (h : (recvTime (m ++ [(q, t)]) x).isSome) :
    (recvTime m x).isSome ∨ x = q := by
  simp only [recvTime, Option.isSome_map, List.find?_isSome] at *
  obtain ⟨y, hy, hx⟩ := h
  rcases List.mem_append.1 hy with hy | hy
  · exact .inl ⟨y, hy, hx⟩
  · right
    rw [List.mem_singleton.1 hy] at hx
    exact (beq_iff_eq.1 hx).symm

theorem expireRecent_sub (now rto : Nat) : ∀ (qs : List Nat) (m : List (Nat × Nat)) (x : Nat),
    ((recvTime (expireRecent now rto m qs).1 x).isSome → (recvTime m x).isSome ∨ x ∈ qs) ∧
    (x ∈ (expireRecent now rto m qs).2 → x ∈ qs) := by
  intro qs
  induction qs with
  | nil => intro m x; exact ⟨fun h => .inl h, fun h => h⟩
  | cons q qs ih =>
    intro m x
    unfold expireRecent
    simp only
    have key : ∀ x, (recvTime (if (recvTime m q).isNone = true then m ++ [(q, 0)] else m) x).isSome → (recvTime m x).isSome ∨ x = q := by
      intro x h
      split at h
      · exact recvTime_append h
      · exact .inl h
    split
    · obtain ⟨h1, h2⟩ := ih ((if (recvTime m q).isNone = true then m ++ [(q, 0)] else m).filter (fun e => e.1 != q)) x
      refine ⟨fun h => ?_, fun h => List.mem_cons_of_mem _ (h2 h)⟩
      rcases h1 h with h | h
      · rcases key x (recvTime_filter h) with h | h
        · exact .inl h
        · exact .inr (by rw [h]; simp)
      · exact .inr (List.mem_cons_of_mem _ h)
    · refine ⟨fun h => ?_, fun h => h⟩
      rcases key x h with h | h
      · exact .inl h
      · exact .inr (by rw [h]; simp)

/-- What noting a received packet does to the received Sequences. -/
theorem noteFrame_recent (env : Env) (s : St) (p : Pkt) :
    ((noteFrame env s p).1.recent = s.recent ∧ (noteFrame env s p).1.recentQ = s.recentQ ∧ (noteFrame env s p).2 = true) ∨
    ∃ q, p.seq = some q ∧ p.frag.isSome ∧ (noteFrame env s p).2 = !(recvTime s.recent q).isSome ∧
      ∀ x, ((recvTime (noteFrame env s p).1.recent x).isSome ∨ x ∈ (noteFrame env s p).1.recentQ) →
        (recvTime s.recent x).isSome ∨ x ∈ s.recentQ ∨ x = q := by
  unfold noteFrame
  split
  · rename_i b tx hb htx
    simp only
    split
    · exact .inl ⟨rfl, rfl, rfl⟩
    · rename_i q hq
      right
      refine ⟨q, hq, by rw [hb]; rfl, rfl, ?_⟩
      intro x hx
      simp only [noteSeq] at hx
      have hsub := fun x => expireRecent_sub s.now (env.rto s.nRto) s.recentQ s.recent x
      rcases hx with hx | hx
      · have : (recvTime (expireRecent s.now (env.rto s.nRto) s.recent s.recentQ).1 x).isSome ∨ x = q := by
          split at hx
          · exact recvTime_append hx
          · exact .inl hx
        rcases this with h | h
        · rcases (hsub x).1 h with h | h
          · exact .inl h
          · exact .inr (.inl h)
        · exact .inr (.inr h)
      · rcases List.mem_append.1 hx with hx | hx
        · exact .inr (.inl ((hsub x).2 hx))
        · exact .inr (.inr (List.mem_singleton.1 hx))
  · exact .inl ⟨rfl, rfl, rfl⟩

/-- A transmission of a fragment of the message is recognized as such. -/
theorem isPart_of_copy {base : Nat} {net : Bytes} {frags : List Pkt} (hm : Message base net frags) {o : Opts} {e : Nat} {p f : Pkt}
    {j : Nat} (hj : frags[j]? = some f) (hc : Copy p f) (hmax : frags.length ≤ o.reasmMax) :
    IsPart o e p (e, base) j frags.length := by
  obtain ⟨h1, h2, h3, _⟩ := hm.place j f hj
  have hjl := (List.getElem?_eq_some_iff.1 hj).1
  refine ⟨by rw [hc.fragIndex, h2]; rfl, by rw [hc.fragCount, h3]; rfl, hjl, hmax, hm.two, _, by rw [hc.seq, h1], ?_⟩
  have hb := hm.base_lt
  have hs := hm.small
  have : ((base + j) % W + W - j % W) % W = base := by simp only [W] at *; omega
  rw [this]

theorem copy_unique {base : Nat} {net : Bytes} {frags : List Pkt} (hm : Message base net frags) {p f f' : Pkt} {i j : Nat}
    (hi : frags[i]? = some f) (hj : frags[j]? = some f') (hc : Copy p f) (hc' : Copy p f') : i = j := by
  have h1 := (hm.place i f hi).2.1
  have h2 := (hm.place j f' hj).2.1
  rw [← hc.fragIndex] at h1
  rw [← hc'.fragIndex, h1] at h2
  exact Option.some.inj h2

/-- Accepting a packet: the message is delivered, or its slots stay filled, and the slot of this packet is filled. -/
theorem Mid.accept {R : Nat → Prop} {t0 : Nat} {o : Opts} {e base : Nat} {net : Bytes} {frags : List Pkt} {done : List Event} {s : St} {env : Env}
    {e' : Nat} {p : Pkt} (hm : Message base net frags) (hs : PartsOk s) (h : Mid R t0 o e base frags done s) (ho : s.opts = o)
    (hallow : o.allowReassembly = true) (hmax : frags.length ≤ o.reasmMax) (ht : t0 ≤ s.now)
    (hon : e' = e → Claims base p → ∃ f ∈ frags, Copy p f) :
    s.out.countP (delivers e base) < (accept env s e' p).out.countP (delivers e base) ∨
    (Mid R t0 o e base frags done (accept env s e' p) ∧
      (e' = e → ∀ (j : Nat) (f : Pkt), frags[j]? = some f → Copy p f → full (accept env s e' p) (e, base) j = 1)) := by
  obtain ⟨hopt, hnow, hr1, hr2, l, hout, hcase⟩ := accept_step env s e' p
  -- a transmission of a fragment reaches the reassembler
  have hreach : e' = e → ∀ (j : Nat) (f : Pkt), frags[j]? = some f → Copy p f →
      (Lp.accept env s e' p).parts = (addFragment s (e, base) j frags.length p).1.parts ∧
      ∀ net first, (addFragment s (e, base) j frags.length p).2 = .packet net first → ∃ l',
        (Lp.accept env s e' p).out = s.out ++ .reassembled e net first :: l' := by
    intro he j f hj hc
    subst he
    have hp := isPart_of_copy (o := s.opts) (e := e') hm hj hc (by rw [ho]; exact hmax)
    have hrf := receiveFragment_part hp
    have hfr : p.frag.isNone = false := by
      have := (hm.place j f hj).2.2.2
      rw [← hc.frag] at this
      cases hx : p.frag with
      | none => rw [hx] at this; cases this
      | some _ => rfl
    have hadd : (addFragment s (e', base) j frags.length p).1.out = s.out := by
      unfold addFragment
      simp only
      repeat' split
      all_goals rfl
    unfold Lp.accept
    rw [hfr, ho, hallow]
    simp only [Bool.false_eq_true, if_false, Bool.not_true, Bool.and_false]
    rw [hrf]
    refine ⟨by split <;> rfl, ?_⟩
    intro net' first hpk
    rw [hpk]
    simp only
    exact ⟨_, by rw [hadd]⟩
  by_cases hcopy : e' = e ∧ ∃ (j : Nat) (f : Pkt), frags[j]? = some f ∧ Copy p f
  · obtain ⟨rfl, j, f, hj, hc⟩ := hcopy
    obtain ⟨hp, hpk⟩ := hreach rfl j f hj hc
    have hpart := isPart_of_copy (o := s.opts) (e := e') hm hj hc (by rw [ho]; exact hmax)
    by_cases hdel : ∃ net' first, (addFragment s (e', base) j frags.length p).2 = .packet net' first
    · left
      obtain ⟨net', first, hres⟩ := hdel
      obtain ⟨l', hl'⟩ := hpk net' first hres
      obtain ⟨fr, hlen, hall, hfri, hnet, hfirst, hst, hslot, hold⟩ := addFragment_packet hs hpart hres
      have hd : delivers e' base (.reassembled e' net' first) = true := by
        have hf : ∃ f0, frags[0]? = some f0 ∧ Copy first f0 := by
          by_cases hj0 : (0 : Nat) = j
          · subst hj0
            rw [hfri] at hfirst
            obtain rfl := Option.some.inj (Option.some.inj hfirst)
            exact ⟨f, hj, hc⟩
          · obtain ⟨pp, h1, h2⟩ := hold 0 first hj0 hfirst
            exact h.slot pp 0 first h1 h2
        obtain ⟨f0, hf0, hc0⟩ := hf
        obtain ⟨g1, g2, g3, _⟩ := hm.place 0 f0 hf0
        have hb := hm.base_lt
        have hmod : (base + 0) % W = base := by rw [Nat.add_zero]; exact Nat.mod_eq_of_lt hb
        have h2 := hm.two
        simp only [delivers, hc0.seq, hc0.fragCount, g1, g3, hmod, beq_self_eq_true, Bool.and_self, Option.getD_some]
        simp [h2]
      rw [hl', List.countP_append, List.countP_cons, hd]
      simp only [if_true]
      omega
    · right
      have hno : ∀ net first, (addFragment s (e', base) j frags.length p).2 ≠ .packet net first :=
        fun a b hab => hdel ⟨a, b, hab⟩
      rcases addFragment_stored hs hpart hno with ⟨he, pp, hpp, hor⟩ | ⟨pp, he, hcn, hpi, hother, hold, hdl⟩
      · have hpe : (Lp.accept env s e' p).parts (e', base) = s.parts (e', base) := by rw [hp, he]
        refine ⟨h.keep hpe, ?_⟩
        intro _ j' f' hj' hc'
        have hjj := copy_unique hm hj hj' hc hc'
        subst hjj
        rcases hor with hor | ⟨p', hp'⟩
        · exact absurd (h.cnt pp hpp) hor
        · rw [full_congr hpe]; exact full_some hpp hp'
      · have hpe : (Lp.accept env s e' p).parts (e', base) = some pp := by rw [hp, he, setPart_self]
        have hmono : ∀ j', full s (e', base) j' = 1 → full (Lp.accept env s e' p) (e', base) j' = 1 := by
          intro j' h1
          by_cases hjj : j' = j
          · subst hjj; exact full_some hpe hpi
          · rw [full_of_iff hpe (fun p' => hother j' p' hjj)]; exact h1
        refine ⟨⟨?_, ?_, ?_, ?_, ?_⟩, ?_⟩
        · intro pp' h'
          rw [hpe] at h'
          obtain rfl := Option.some.inj h'
          exact hcn
        · intro pp' j' p' h' hj'
          rw [hpe] at h'
          obtain rfl := Option.some.inj h'
          by_cases hjj : j' = j
          · subst hjj
            rw [hpi] at hj'
            obtain rfl := Option.some.inj (Option.some.inj hj')
            exact ⟨f, hj, hc⟩
          · obtain ⟨pp0, h0, h1⟩ := (hother j' p' hjj).1 hj'
            exact h.slot pp0 j' p' h0 h1
        · intro pp' h'
          rw [hpe] at h'
          obtain rfl := Option.some.inj h'
          rcases hdl with hdl | ⟨pp0, h0, h1⟩
          · exact ⟨_, hdl, by rw [ho]; exact Nat.add_le_add_right ht _⟩
          · rw [h1]; exact h.timer pp0 h0
        · intro j' f' p' h1 h2 h3; exact hmono j' (h.filled j' f' p' h1 h2 h3)
        · intro j' f' q h1 h2 h3; exact hmono j' (h.rel j' f' q h1 h2 h3)
        · intro _ j' f' hj' hc'
          have hjj := copy_unique hm hj hj' hc hc'
          subst hjj
          exact full_some hpe hpi
  · right
    have hpe : (Lp.accept env s e' p).parts (e, base) = s.parts (e, base) := by
      rcases hcase with ⟨hp, _⟩ | ⟨k, i, n, hpart, _, hp, _⟩
      · rw [hp]
      · have hkey : k ≠ (e, base) := by
          intro hk
          obtain ⟨q, hq, hkq⟩ := hpart.seq
          rw [hk] at hkq
          have hee : e' = e := (congrArg Prod.fst hkq).symm
          obtain ⟨f, hf, hc⟩ := hon hee ⟨by rw [hpart.count]; exact hpart.two, q, hq,
            by rw [hpart.index]; exact (congrArg Prod.snd hkq).symm⟩
          obtain ⟨j, hj⟩ := List.mem_iff_getElem?.1 hf
          exact hcopy ⟨hee, j, f, hj, hc⟩
        rw [hp]
        rcases addFragment_cases s k i n p with ⟨he, _⟩ | ⟨_, _, he⟩ | ⟨fr, nr, d, _, _, hr⟩
        · rw [he]
        · rw [he]
        · rcases hr with ⟨_, _, he⟩ | ⟨_, _, he⟩ | ⟨_, he⟩ <;> (rw [he]; exact setPart_other (fun h => hkey h.symm))
    exact ⟨h.keep hpe, fun he j f hj hc => absurd ⟨he, j, f, hj, hc⟩ hcopy⟩

/-- The message was delivered since `c0` deliveries, or it is on its way. -/
structure Prog (c0 t0 : Nat) (o : Opts) (e base : Nat) (frags : List Pkt) (done : List Event) (s : St) : Prop where
  ok : PartsOk s
  opts : s.opts = o
  now : s.now = t0 + elapsed done
  got : c0 < s.out.countP (delivers e base) ∨ (c0 = s.out.countP (delivers e base) ∧ Mid (Seen o s) t0 o e base frags done s)

theorem elapsed_append (a b : List Event) : elapsed (a ++ b) = elapsed a + elapsed b := by simp [elapsed]

theorem elapsed_tick (d : Nat) : elapsed [.tick d] = d := by simp [elapsed]

/-- A step of the sending side. -/
theorem Prog.send {c0 t0 : Nat} {o : Opts} {e base : Nat} {frags : List Pkt} {done : List Event} {s s' : St} {ev : Event}
    (h : Prog c0 t0 o e base frags done s) (hs : SendOnly s s') (hev : ∀ p, ev ≠ .receive e p) (hel : elapsed [ev] = 0) :
    Prog c0 t0 o e base frags (done ++ [ev]) s' := by
  obtain ⟨l, ho, hl⟩ := hs.out
  have hc : s'.out.countP (delivers e base) = s.out.countP (delivers e base) := by
    rw [ho, List.countP_append]
    have : l.countP (delivers e base) = 0 := by
      rw [List.countP_eq_zero]; intro a ha; rw [sending_no (hl a ha)]; simp
    omega
  refine ⟨partsOk_of_parts h.ok hs.parts, by rw [hs.opts, h.opts], by rw [hs.now, h.now, elapsed_append, hel]; rfl, ?_⟩
  rcases h.got with hg | ⟨hg, hmid⟩
  · left; rw [hc]; exact hg
  · right
    refine ⟨by rw [hc]; exact hg, ?_⟩
    have : Seen o s' = Seen o s := by funext q; simp only [Seen, hs.recent.1, hs.recent.2]
    rw [this]
    exact (hmid.keep (by rw [hs.parts])).grow (fun p hp => absurd hp (hev p))

theorem accept_grows (env : Env) (s : St) (e : Nat) (p : Pkt) (f : Out → Bool) :
    s.out.countP f ≤ (accept env s e p).out.countP f := by
  obtain ⟨_, _, _, _, l, h, _⟩ := accept_step env s e p
  rw [h, List.countP_append]; omega

theorem Prog.step {c0 t0 : Nat} {o : Opts} {e base : Nat} {net : Bytes} {frags : List Pkt} {done : List Event} {s s' : St} {env : Env}
    {ev : Event} (hm : Message base net frags) (h : Prog c0 t0 o e base frags done s)
    (hallow : o.allowReassembly = true) (hmax : frags.length ≤ o.reasmMax)
    (htime : elapsed (done ++ [ev]) < o.reasmTimeout)
    (hopt : ∀ o', ev ≠ .setOptions o')
    (hon : ∀ p, ev = .receive e p → Claims base p → ∃ f ∈ frags, Copy p f)
    (hseq : o.relEnabled = true → ∀ e' p, ev = .receive e' p → ∀ (j : Nat) (f : Pkt), frags[j]? = some f → p.seq = f.seq → p.frag.isSome →
      e' = e ∧ Copy p f)
    (hst : Lp.step env s ev = .ok s') : Prog c0 t0 o e base frags (done ++ [ev]) s' := by
  have hnow : t0 ≤ s.now := by rw [h.now]; omega
  cases ev with
  | send k t net => exact h.send (send_only hst) (by simp) (by simp [elapsed])
  | rto tx =>
    simp only [Lp.step] at hst
    split at hst
    · cases hst; exact h.send (.refl _) (by simp) (by simp [elapsed])
    · simp only [bind_ok] at hst
      obtain ⟨r, h1, h2⟩ := hst
      cases h2
      exact h.send (onLost_only h1) (by simp) (by simp [elapsed])
  | idle =>
    simp only [Lp.step] at hst
    split at hst
    · exact h.send ((flushAcks_only hst).after (.same rfl rfl rfl ⟨rfl, rfl⟩ rfl)) (by simp) (by simp [elapsed])
    · cases hst; exact h.send (.refl _) (by simp) (by simp [elapsed])
  | setOptions o' => exact absurd rfl (hopt o')
  | tick d =>
    cases hst
    refine ⟨h.ok, h.opts, ?_, ?_⟩
    · rw [elapsed_append, elapsed_tick, ← Nat.add_assoc, ← h.now]
    · rcases h.got with hg | ⟨hg, hmid⟩
      · exact .inl hg
      · exact .inr ⟨hg, (hmid.keep (s' := { s with now := s.now + d }) rfl).grow (by intro p hp; cases hp)⟩
  | dropTimer k =>
    cases hst
    rcases h.got with hg | ⟨hg, hmid⟩
    · have hout : ∃ l, (dropPartial s k).out = s.out ++ l ∧ (dropPartial s k).opts = s.opts ∧ (dropPartial s k).now = s.now := by
        unfold dropPartial
        split
        · exact ⟨[], by simp, rfl, rfl⟩
        · split
          · exact ⟨[.reassemblyTimeout k], rfl, rfl, rfl⟩
          · exact ⟨[], by simp, rfl, rfl⟩
      obtain ⟨l, ho, h1, h2⟩ := hout
      refine ⟨step_partsOk (env := env) (ev := .dropTimer k) h.ok rfl, by rw [h1, h.opts],
        by rw [h2, h.now, elapsed_append]; simp [elapsed], .inl ?_⟩
      rw [ho, List.countP_append]; omega
    · have hsame : (dropPartial s k).parts (e, base) = s.parts (e, base) := by
        rcases dropPartial_parts s k (e, base) with he | ⟨hk, _, pp, d, h1, h2, h3⟩
        · exact he
        · exfalso
          obtain ⟨d', h4, h5⟩ := hmid.timer pp (by rw [hk]; exact h1)
          rw [h2] at h4
          obtain rfl := Option.some.inj h4
          rw [h.now] at h3
          rw [elapsed_append] at htime
          omega
      have hout : ∃ l, (dropPartial s k).out = s.out ++ l ∧ l.countP (delivers e base) = 0 ∧ (dropPartial s k).opts = s.opts ∧
          (dropPartial s k).now = s.now ∧ (dropPartial s k).recent = s.recent ∧ (dropPartial s k).recentQ = s.recentQ := by
        unfold dropPartial
        split
        · exact ⟨[], by simp, by simp, rfl, rfl, rfl, rfl⟩
        · split
          · exact ⟨[.reassemblyTimeout k], rfl, by simp [delivers], rfl, rfl, rfl, rfl⟩
          · exact ⟨[], by simp, by simp, rfl, rfl, rfl, rfl⟩
      obtain ⟨l, ho, hl, h1, h2, h3, h4⟩ := hout
      refine ⟨step_partsOk (env := env) (ev := .dropTimer k) h.ok rfl, by rw [h1, h.opts],
        by rw [h2, h.now, elapsed_append]; simp [elapsed], .inr ⟨?_, ?_⟩⟩
      · rw [ho, List.countP_append, hl]; exact hg
      · have : Seen o (dropPartial s k) = Seen o s := by funext q; simp only [Seen, h3, h4]
        rw [this]
        exact (hmid.keep hsame).grow (by intro p hp; cases hp)
  | receive e' p =>
    have hel : elapsed (done ++ [Event.receive e' p]) = elapsed done := by rw [elapsed_append]; simp [elapsed]
    simp only [Lp.step, receive] at hst
    split at hst
    · rename_i hrel
      split at hst
      · cases hst
      · rename_i r hr
        cases hst
        have hro := processIncoming_only hr
        obtain ⟨s1, ha, rfl⟩ := processIncoming_ok hr
        have hao := processAcks_only ha
        obtain ⟨l, ho, hl⟩ := hro.out
        have hl0 : l.countP (delivers e base) = 0 := by
          rw [List.countP_eq_zero]; intro a ha; rw [sending_no (hl a ha)]; simp
        have hcnt : (noteFrame env s1 p).1.out.countP (delivers e base) = s.out.countP (delivers e base) := by
          rw [ho, List.countP_append, hl0]; omega
        have hok1 := partsOk_of_parts h.ok hro.parts
        have hparts1 : (noteFrame env s1 p).1.parts = s.parts := hro.parts
        have hrelo : o.relEnabled = true := by rw [← h.opts]; exact hrel
        split
        · -- the packet passes
          rename_i hpass
          have ho' := hro.opts.trans h.opts
          rcases h.got with hg | ⟨hg, hmid⟩
          · obtain ⟨a1, a2, _⟩ := accept_step env (noteFrame env s1 p).1 e' p
            refine ⟨accept_partsOk hok1, by rw [a1, ho'], by rw [a2, hro.now, h.now, hel], .inl ?_⟩
            have := accept_grows env (noteFrame env s1 p).1 e' p (delivers e base)
            omega
          · obtain ⟨a1, a2, a3, a4, _⟩ := accept_step env (noteFrame env s1 p).1 e' p
            refine ⟨accept_partsOk hok1, by rw [a1, ho'], by rw [a2, hro.now, h.now, hel], ?_⟩
            have hmid1 : Mid (Seen o s) t0 o e base frags done (noteFrame env s1 p).1 := hmid.keep (by rw [hparts1])
            rcases hmid1.accept (env := env) (e' := e') (p := p) hm hok1 ho' hallow hmax (by rw [hro.now]; exact hnow)
              (fun he => hon p (by rw [he])) with hd | ⟨hm2, hf2⟩
            · left; omega
            · have hgr := accept_grows env (noteFrame env s1 p).1 e' p (delivers e base)
              by_cases hcd : (noteFrame env s1 p).1.out.countP (delivers e base) < (accept env (noteFrame env s1 p).1 e' p).out.countP (delivers e base)
              · left; omega
              · right
                refine ⟨by omega, hm2.cnt, hm2.slot, hm2.timer, ?_, ?_⟩
                · intro j f p' h1 h2 h3
                  rcases List.mem_append.1 h2 with h2 | h2
                  · exact hm2.filled j f p' h1 h2 h3
                  · have := List.mem_singleton.1 h2
                    injection this with e1 e2
                    subst e2
                    exact hf2 e1.symm j f h1 h3
                · intro j f q h3 h1 h2
                  obtain ⟨h0, h3⟩ := h3
                  rw [a3, a4] at h3
                  rcases noteFrame_recent env s1 p with ⟨b1, b2, _⟩ | ⟨q', hq', hfs, _, hx⟩
                  · rw [b1, b2, hao.recent.1, hao.recent.2] at h3
                    exact hm2.rel j f q ⟨h0, h3⟩ h1 h2
                  · have hx' := hx q h3
                    rw [hao.recent.1, hao.recent.2] at hx'
                    rcases hx' with hx' | hx' | hx'
                    · exact hm2.rel j f q ⟨h0, .inl hx'⟩ h1 h2
                    · exact hm2.rel j f q ⟨h0, .inr hx'⟩ h1 h2
                    · subst hx'
                      obtain ⟨e1, e2⟩ := hseq h0 e' p rfl j f h1 (by rw [hq', h2]) hfs
                      exact hf2 e1 j f h1 e2
        · -- a duplicate
          rename_i hdup
          refine ⟨partsOk_of_parts h.ok (by simp [emit, hro.parts]), by simp [emit]; exact hro.opts.trans h.opts,
            by simp only [emit]; rw [hro.now, h.now, hel], ?_⟩
          have hcnt' : (emit (noteFrame env s1 p).1 .duplicate).out.countP (delivers e base) = s.out.countP (delivers e base) := by
            simp only [emit]
            rw [List.countP_append, hcnt]; simp [delivers]
          rcases h.got with hg | ⟨hg, hmid⟩
          · left; rw [hcnt']; exact hg
          · right
            refine ⟨by rw [hcnt']; exact hg, ?_⟩
            have hfull : ∀ j, full (emit (noteFrame env s1 p).1 .duplicate) (e, base) j = full s (e, base) j :=
              fun j => full_congr (by simp [emit, hparts1]) j
            have hpe : (emit (noteFrame env s1 p).1 .duplicate).parts = s.parts := by simp [emit, hparts1]
            rcases noteFrame_recent env s1 p with ⟨_, _, b3⟩ | ⟨q', hq', hfs, hb, hx⟩
            · exact absurd b3 hdup
            · have hin : (recvTime s.recent q').isSome := by
                rw [hao.recent.1] at hb
                cases hr : (recvTime s.recent q').isSome with
                | true => rfl
                | false => rw [hr] at hb; exact absurd hb hdup
              refine ⟨by rw [hpe]; exact hmid.cnt, by rw [hpe]; exact hmid.slot, by rw [hpe]; exact hmid.timer, ?_, ?_⟩
              · intro j f p' h1 h2 h3
                rw [hfull]
                rcases List.mem_append.1 h2 with h2 | h2
                · exact hmid.filled j f p' h1 h2 h3
                · have := List.mem_singleton.1 h2
                  injection this with e1 e2
                  subst e2
                  exact hmid.rel j f q' ⟨hrelo, .inl hin⟩ h1 (by rw [← h3.seq, hq'])
              · intro j f q h3 h1 h2
                obtain ⟨h0, h3⟩ := h3
                rw [hfull]
                have hx' := hx q h3
                rw [hao.recent.1, hao.recent.2] at hx'
                rcases hx' with hx' | hx' | hx'
                · exact hmid.rel j f q ⟨h0, .inl hx'⟩ h1 h2
                · exact hmid.rel j f q ⟨h0, .inr hx'⟩ h1 h2
                · subst hx'; exact hmid.rel j f q ⟨h0, .inl hin⟩ h1 h2
    · rename_i hrel
      cases hst
      obtain ⟨a1, a2, a3, a4, _⟩ := accept_step env s e' p
      refine ⟨accept_partsOk h.ok, by rw [a1, h.opts], by rw [a2, h.now, hel], ?_⟩
      have hgr := accept_grows env s e' p (delivers e base)
      rcases h.got with hg | ⟨hg, hmid⟩
      · left; omega
      · rcases hmid.accept (env := env) (e' := e') (p := p) hm h.ok h.opts hallow hmax hnow (fun he => hon p (by rw [he])) with hd | ⟨hm2, hf2⟩
        · left; omega
        · by_cases hcd : s.out.countP (delivers e base) < (accept env s e' p).out.countP (delivers e base)
          · left; omega
          · right
            have : Seen o (accept env s e' p) = Seen o s := by funext q; simp only [Seen, a3, a4]
            rw [this]
            refine ⟨by omega, hm2.grow ?_⟩
            intro p' hp' j f h1 h2
            injection hp' with e1 e2
            subst e2
            exact hf2 e1 j f h1 h2

end Verif.Lp
