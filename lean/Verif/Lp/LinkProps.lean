/-
What one end of a link is given to send, the other end passes on (C136).
-/
import Verif.Lp.LinkSpec
import Verif.Lp.SentProps
import Verif.Lp.FieldProps

namespace Verif.Lp

theorem run_up {env : Env} : ∀ {es : List Event} {s s' : St}, (∀ o', .setOptions o' ∉ es) → run env s es = .ok s' →
    ∃ l, s'.out = s.out ++ l ∧ ∀ e net first, .reassembled e net first ∈ l → ∀ x, x.up = true → Deliverable env s.opts net first.hdr x → x ∈ l := by
  intro es
  induction es with
  | nil => intro s s' _ h; cases h; exact ⟨[], by simp, by simp⟩
  | cons ev es ih =>
    intro s s' hno h
    simp only [run, bind_ok] at h
    obtain ⟨s1, h1, h2⟩ := h
    obtain ⟨l2, e2, k2⟩ := ih (fun o' ho => hno o' (List.mem_cons_of_mem _ ho)) h2
    have ho : s1.opts = s.opts := by
      rcases (step_opts h1).1 with h | h
      · exact h
      · obtain ⟨o', rfl⟩ : ∃ o', ev = .setOptions o' := ⟨_, h⟩
        exact absurd (List.mem_cons_self ..) (hno o')
    rw [ho] at k2
    rcases C51_received h1 with ⟨l1, e1, n1⟩ | ⟨e, net, first, l1, d, e1, n1, hdd, hd⟩
    · refine ⟨l1 ++ l2, by rw [e2, e1, List.append_assoc], ?_⟩
      intro e net first hm x hx hdel
      rcases List.mem_append.1 hm with hm | hm
      · exact absurd rfl ((n1 _ hm).2 e net first)
      · exact List.mem_append_right _ (k2 e net first hm x hx hdel)
    · refine ⟨l1 ++ .reassembled e net first :: d ++ l2, by rw [e2, e1]; simp, ?_⟩
      intro e' net' first' hm x hx hdel
      rcases List.mem_append.1 hm with hm | hm
      · apply List.mem_append_left
        apply List.mem_append_right
        rcases List.mem_append.1 hm with hm | hm
        · exact absurd rfl ((n1 _ hm).2 e' net' first')
        · rcases List.mem_cons.1 hm with hm | hm
          · cases hm
            rw [(hd x hx).2 hdel]
            simp
          · rcases hdd with rfl | rfl | ⟨y, hy, rfl⟩
            · cases hm
            · simp at hm
            · rw [List.mem_singleton] at hm
              subst hm
              cases hy
      · exact List.mem_append_right _ (k2 e' net' first' hm x hx hdel)

/-- The first frame of a proper packet permits delivery. -/
theorem first_delivers {env : Env} {o r : Opts} {k : Kind} {t : SendTags} {net : Bytes} {h : Hdr} (hp : Proper env k t net) (hf : FirstFields o k t h) :
    ∃ x, x.up = true ∧ Arrives o r t net k x ∧ Deliverable env r net h x := by
  obtain ⟨⟨b, hb, ht⟩, hd, ha, hn⟩ := hp
  have hnd : k ≠ .interest → h.nonDiscovery = false := by
    intro hk
    rw [Bool.eq_false_iff]
    intro h1
    have := (hf.nonDiscovery.1 h1).2
    rw [hn hk] at this
    cases this
  have hpa : k ≠ .data → h.prefixAnn = none := by
    intro hk
    rw [hf.prefixAnn, ha hk]
    simp
  have hnk : (∀ rs, k ≠ .nack rs) → h.nack = none := by
    intro hk
    cases hc : h.nack with
    | none => rfl
    | some rs => exact absurd ((hf.nack rs).1 hc) (hk rs)
  cases k with
  | interest =>
    refine ⟨_, rfl, ?_, .interest ⟨b, hb, ht⟩ hd (hnk (by simp)) (by rw [hf.nextHop]; simp) hf.cachePolicy (hpa (by simp))⟩
    rw [hf.nextHop, hf.pitToken]
    refine .interest _ _ hf.mark ?_
    rw [Bool.and_eq_true, hf.nonDiscovery]
    grind
  | data =>
    refine ⟨_, rfl, ?_, .data ⟨b, hb, ht⟩ hd (hnk (by simp)) hf.nextHop (hnd (by simp))⟩
    rw [hf.cachePolicy, hf.prefixAnn]
    have e : (if r.allowSelfLearning = true then if o.allowSelfLearning = true then t.prefixAnn else none else none) =
        if o.allowSelfLearning = true ∧ r.allowSelfLearning = true then t.prefixAnn else none := by grind
    rw [e]
    exact .data _ hf.mark
  | nack rs =>
    exact ⟨_, rfl, .nack rs _ hf.mark, .nack ⟨b, hb, ht⟩ hd ((hf.nack rs).2 rfl) hf.nextHop hf.cachePolicy (hnd (by simp)) (hpa (by simp))⟩

/-- A frame without FragIndex and FragCount. -/
theorem single_arrives {env : Env} {o : Opts} {q0 x0 e : Nat} {pre : List Event} {s s' : St} {g : Pkt} {net : Bytes}
    (h : run env (init o q0 x0) pre = .ok s) (hfresh : s.opts.relEnabled = true → ∀ e' p, Event.receive e' p ∈ pre → g.seq ≠ none → p.seq ≠ g.seq)
    (hf : g.frag = some net) (hi : g.fragIndex = none) (hc : g.fragCount = none) (hm : 1 ≤ s.opts.reasmMax) (hp : (parseBlock net).isSome)
    (h' : step env s (.receive e g) = .ok s') :
    ∃ l, s'.out = s.out ++ l ∧ .reassembled e net g ∈ l := by
  have acc : ∀ t : St, t.opts = s.opts → (accept env t e g).out = t.out ++ .reassembled e net g :: decodeNet env t.opts net g.hdr := by
    intro t ht
    have : ¬ s.opts.reasmMax < 1 := by omega
    simp [accept, hf, hi, hc, receiveFragment, ht, this, hp]
  cases hr : s.opts.relEnabled with
  | false =>
    simp only [step, receive, hr] at h'
    cases h'
    exact ⟨_, acc s rfl, by simp⟩
  | true =>
    obtain ⟨u, hu, e2⟩ := receive_rel hr h'
    have hs := noteFrame_same env u g
    have hb : (noteFrame env u g).2 = true := by
      unfold noteFrame
      split
      · split
        · rfl
        · rename_i q hq
          have hnone : (recvTime u.recent q).isSome = false := by
            rw [Bool.eq_false_iff]
            intro hsome
            rw [hu.recent.1] at hsome
            obtain ⟨e', p, hp', hpq⟩ := recent_received (done := []) (by intro q hq; simp [init, recvTime] at hq) h q (.inl hsome)
            exact hfresh hr e' p (by simpa using hp') (by rw [hq]; simp) (by rw [hpq, hq])
          simp only [noteSeq, hnone]
          rfl
      · rfl
    rw [hb] at e2
    simp only [if_true] at e2
    obtain ⟨l, ho, _⟩ := hu.out
    rw [e2, acc _ (by rw [hs.1, hu.opts]), hs.2.2.2.1, ho, List.append_assoc]
    exact ⟨_, rfl, by simp⟩

theorem elapsed_receive (e : Nat) (F : List Pkt) : elapsed (F.map (.receive e)) = 0 := by
  induction F with
  | nil => rfl
  | cons a F ih => simpa [elapsed] using ih

/-- C136: if one end of a link is given a packet and does not refuse it, and the other end receives the frames made for it, in order, then
the other end passes on the packet, with its tags. The receiving end has been in use; it has not received frames that claim to be
of the same message, and with reliability no frames with these Sequences. -/
theorem C136_link {envS envR : Env} {s s' : St} {k : Kind} {t : SendTags} {net : Bytes} {l : List Out}
    (hsend : step envS s (.send k t net) = .ok s') (hl : s'.out = s.out ++ l) (hok : .fragError ∉ l)
    {oR : Opts} {q0 x0 e : Nat} {pre : List Event} {r r' : St} (hpre : run envR (init oR q0 x0) pre = .ok r)
    (hp : Proper envR k t net)
    (hallow : r.opts.allowReassembly = true ∨ (l.filterMap Out.sends).length = 1)
    (hmax : (l.filterMap Out.sends).length ≤ r.opts.reasmMax) (hsize : r.opts.reasmMax < 2 ^ 64) (htime : 0 < r.opts.reasmTimeout)
    (hnew : ∀ p, Event.receive e p ∈ pre → ¬ Claims ((s.lastSeq + 1) % 2 ^ 64) p)
    (hfresh : r.opts.relEnabled = true → ∀ e' p, Event.receive e' p ∈ pre → ∀ f ∈ l.filterMap Out.sends, f.seq ≠ none → p.seq ≠ f.seq)
    (hrecv : run envR r ((l.filterMap Out.sends).map (.receive e)) = .ok r') :
    ∃ d x, r'.out = r.out ++ d ∧ x ∈ d ∧ Arrives s.opts r.opts t net k x := by
  have hn : net ≠ [] := by
    rintro rfl
    obtain ⟨b, hb, _⟩ := hp.element
    rw [show parseBlock [] = none from rfl] at hb
    cases hb
  have hw : SentWhole s.opts k t net s.lastSeq (l.filterMap Out.sends) := by
    rcases C135_whole hsend hn with ⟨h1, _⟩ | ⟨l', h1, _, h2⟩
    · rw [h1] at hl
      exact absurd (by rw [← List.append_cancel_left hl]; simp) hok
    · rw [hl] at h1
      rw [List.append_cancel_left h1]
      exact h2
  generalize l.filterMap Out.sends = F at *
  have hno : ∀ o', Event.setOptions o' ∉ F.map (.receive e) := by simp
  obtain ⟨d, hd, hup⟩ := run_up hno hrecv
  have hpb : (parseBlock net).isSome := by
    obtain ⟨b, hb, _⟩ := hp.element
    rw [hb]; rfl
  have fin : ∀ first, F[0]? = some first → .reassembled e net first ∈ d → ∃ d x, r'.out = r.out ++ d ∧ x ∈ d ∧ Arrives s.opts r.opts t net k x := by
    intro first h0 hm
    obtain ⟨x, hx, ha, hdel⟩ := first_delivers (r := r.opts) hp (hw.first first h0)
    exact ⟨d, x, hd, hup e net first hm x hx hdel, ha⟩
  have hlen : F.length ≠ 0 := fun h => hw.nonempty (List.length_eq_zero_iff.1 h)
  by_cases h1 : F.length = 1
  · obtain ⟨g, rfl⟩ := List.length_eq_one_iff.1 h1
    obtain ⟨hi, hc⟩ := hw.single h1 g (by simp)
    have hf : g.frag = some net := by
      have a := hw.frag g (by simp)
      have b := hw.payload
      cases hg : g.frag with
      | none => exact absurd hg a
      | some v => simp [hg] at b; rw [b]
    simp only [List.map_cons, List.map_nil, run, bind_ok] at hrecv
    obtain ⟨r1, hr1, hr2⟩ := hrecv
    cases hr2
    obtain ⟨l1, e1, m1⟩ := single_arrives hpre (fun hr e' p hp' hs => hfresh hr e' p hp' g (by simp) hs) hf hi hc (by simpa using hmax) hpb hr1
    rw [hd] at e1
    exact fin g rfl (List.append_cancel_left e1 ▸ m1)
  · have h2 : 2 ≤ F.length := by omega
    have hallow : r.opts.allowReassembly = true := hallow.resolve_right h1
    have hsev := hw.several h2
    have hWe : W = 2 ^ 64 := by decide
    have hmsg : Message ((s.lastSeq + 1) % 2 ^ 64) net F := by
      refine ⟨by rw [hWe]; omega, h2, by rw [hWe]; omega, ?_, hw.payload, hpb⟩
      intro j f hj
      obtain ⟨a, b, c⟩ := hsev j f hj
      refine ⟨?_, a, b, Option.isSome_iff_ne_none.2 (hw.frag f (List.mem_of_getElem? hj))⟩
      rw [c, hWe]
      congr 1
      omega
    have self : ∀ p : Pkt, Copy p p := fun p => ⟨rfl, rfl, rfl, rfl, rfl⟩
    have hmem : ∀ {e' p}, Event.receive e' p ∈ F.map (.receive e) → e' = e ∧ p ∈ F := by
      intro e' p hm
      obtain ⟨q, hq, he⟩ := List.mem_map.1 hm
      cases he
      exact ⟨rfl, hq⟩
    have hon : Honest e ((s.lastSeq + 1) % 2 ^ 64) F (F.map (.receive e)) := fun p hm _ => ⟨p, (hmem hm).2, self p⟩
    have helap : elapsed (F.map (.receive e)) = 0 := by
      exact elapsed_receive e F
    have hsq : ∀ f ∈ F, f.seq ≠ none := by
      intro f hf
      obtain ⟨j, hj⟩ := List.mem_iff_getElem?.1 hf
      rw [(hsev j f hj).2.2]; simp
    have hlt := C43_delivered hmsg hpre (parts_none (init_partsOk oR q0 x0) rfl hnew hpre) hallow hmax hno (by rw [helap]; exact htime) hon
      (fun hr e' p hp' f hf => hfresh hr e' p hp' f hf (hsq f hf))
      (by
        intro _ e' p hm f hf hs _
        obtain ⟨rfl, hpF⟩ := hmem hm
        refine ⟨rfl, ?_⟩
        obtain ⟨i, hi⟩ := List.mem_iff_getElem?.1 hpF
        obtain ⟨j, hj⟩ := List.mem_iff_getElem?.1 hf
        have hi' := (List.getElem?_eq_some_iff.1 hi).1
        have hj' := (List.getElem?_eq_some_iff.1 hj).1
        rw [(hsev i p hi).2.2, (hsev j f hj).2.2] at hs
        have hs := Option.some.inj hs
        have : i = j := by omega
        subst this
        rw [hi] at hj
        cases hj
        exact self _)
      (by
        intro f hf
        unfold received
        refine List.countP_pos_iff.2 ⟨.receive e f, List.mem_map.2 ⟨f, hf, rfl⟩, ?_⟩
        simp [self f])
      hrecv
    rw [hd, List.countP_append] at hlt
    obtain ⟨x, hx, hxd⟩ := List.countP_pos_iff.1 (show 0 < d.countP (delivers e ((s.lastSeq + 1) % 2 ^ 64)) by omega)
    have hrun : run envR (init oR q0 x0) (pre ++ F.map (.receive e)) = .ok r' := run_append.2 ⟨r, hpre, hrecv⟩
    have hon' : Honest e ((s.lastSeq + 1) % 2 ^ 64) F (pre ++ F.map (.receive e)) := by
      intro p hm hc
      rcases List.mem_append.1 hm with hm | hm
      · exact absurd hc (hnew p hm)
      · exact hon p hm hc
    obtain ⟨first, f0, rfl, hm, h0, hcp⟩ := (C43_at_most hmsg hon' hrun).2 x (by rw [hd]; exact List.mem_append_right _ hx) hxd
    obtain ⟨a0, b0, c0⟩ := hsev 0 f0 h0
    have hin : first ∈ F := by
      rcases List.mem_append.1 hm with hm | hm
      · refine absurd ⟨?_, _, hcp.seq.trans c0, ?_⟩ (hnew first hm)
        · rw [hcp.fragCount, b0]; exact h2
        · rw [hcp.fragIndex, a0, hWe]; simp only [Option.getD_some]; omega
      · exact (hmem hm).2
    obtain ⟨j, hj⟩ := List.mem_iff_getElem?.1 hin
    have hj0 : j = 0 := by
      have := (hsev j first hj).1
      rw [hcp.fragIndex, a0] at this
      exact (Option.some.inj this).symm
    subst hj0
    exact fin first hj hx

/-! ### Examples -/

def exNetData : Bytes := 6 :: 148 :: List.replicate 148 0
def exNetInterest : Bytes := [5, 0]

/-- The effects of one end, when the packet is sent with options `o`, and those of the other end, which has received `pre` before. -/
def exLink (o r : Opts) (k : Kind) (t : SendTags) (net : Bytes) (pre : List Event) : Option (List Out × List Out) :=
  match step exSentEnv (init o 18446744073709551614 0) (.send k t net), run exSentEnv (init r 0 0) pre with
  | .ok s, .ok r0 =>
    match run exSentEnv r0 ((s.out.filterMap Out.sends).map (.receive 3)) with
    | .ok r1 => some (s.out, (r1.out.drop r0.out.length).filter Out.up)
    | _ => none
  | _, _ => none

/-- The hypotheses of C136_link are met by a Data in several frames, whose Sequences wrap around, with reliability, after other frames have been
received; and by an Interest in one frame. -/
example : Proper exSentEnv .data { mark := some 2 } exNetData ∧ Proper exSentEnv .interest { pitToken := some [7] } exNetInterest :=
  ⟨⟨⟨⟨6, List.replicate 148 0⟩, by decide +kernel, rfl⟩, rfl, (fun h => absurd rfl h), fun _ => rfl⟩,
   ⟨⟨⟨5, []⟩, by decide +kernel, rfl⟩, rfl, fun _ => rfl, (fun h => absurd rfl h)⟩⟩

def exPre : List Event := [.receive 3 { seq := some 5, txSeq := some 1, frag := some [5, 0] }, .tick 10]

example : ∀ p, Event.receive 3 p ∈ exPre → ¬ Claims 18446744073709551615 p := by
  intro p hp hc
  simp [exPre] at hp
  subst hp
  exact absurd hc.1 (by decide)

example : (exLink { allowFragmentation := true, relEnabled := true } { allowReassembly := true, relEnabled := true } .data { mark := some 2 } exNetData exPre).map
    (fun x => (decide (2 ≤ (x.1.filterMap Out.sends).length), x.1.contains .fragError, x.2)) = some (true, false, [.data exNetData { mark := some 2 }]) := by decide +kernel

example : (exLink {} {} .interest { pitToken := some [7] } exNetInterest exPre).map (fun x => ((x.1.filterMap Out.sends).length, x.2)) =
    some (1, [.interest exNetInterest { pitToken := some [7] }]) := by decide +kernel

end Verif.Lp
