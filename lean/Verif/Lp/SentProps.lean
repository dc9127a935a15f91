/-
What leaves a face for a network packet that it is given to send (C135).
-/
import Verif.Lp.SentSpec
import Verif.Lp.Frame
import Verif.Lp.Frag

namespace Verif.Lp

/-- `g` is `p` with Acks, TxSequence and a congestion mark added. -/
structure Dressed (p g : Pkt) : Prop where
  frag : g.frag = p.frag
  index : g.fragIndex = p.fragIndex
  count : g.fragCount = p.fragCount
  seq : g.seq = p.seq
  hdr : g.hdr = p.hdr ∨ g.hdr = { p.hdr with mark := some 1 }

theorem Dressed.refl (p : Pkt) : Dressed p p := ⟨rfl, rfl, rfl, rfl, .inl rfl⟩

theorem Dressed.trans {p q r : Pkt} (h : Dressed p q) (h' : Dressed q r) : Dressed p r := by
  refine ⟨h'.frag.trans h.frag, h'.index.trans h.index, h'.count.trans h.count, h'.seq.trans h.seq, ?_⟩
  rcases h'.hdr with e' | e' <;> rcases h.hdr with e | e <;> rw [e', e] <;> simp

inductive Carry : List Pkt → List Pkt → Prop
  | nil : Carry [] []
  | cons {p g ps gs} : Dressed p g → Carry ps gs → Carry (p :: ps) (g :: gs)

theorem Carry.refl : ∀ l, Carry l l
  | [] => .nil
  | _ :: l => .cons (.refl _) (Carry.refl l)

theorem Carry.trans {a b : List Pkt} (h : Carry a b) : ∀ {c}, Carry b c → Carry a c := by
  induction h with
  | nil => intro c h; exact h
  | cons d _ ih => intro c h; cases h with | cons d' h' => exact .cons (d.trans d') (ih h')

theorem Carry.length {a b : List Pkt} (h : Carry a b) : b.length = a.length := by
  induction h with
  | nil => rfl
  | cons _ _ ih => simp [ih]

theorem Carry.payload {a b : List Pkt} (h : Carry a b) : b.map (fun f => f.frag.getD []) = a.map (fun f => f.frag.getD []) := by
  induction h with
  | nil => rfl
  | cons d _ ih => simp [ih, d.frag]

theorem Carry.at {a b : List Pkt} (h : Carry a b) : ∀ {j : Nat} {g : Pkt}, b[j]? = some g → ∃ p, a[j]? = some p ∧ Dressed p g := by
  induction h with
  | nil => intro j g h; simp at h
  | cons d _ ih =>
    intro j g h
    cases j with
    | zero => simp only [List.getElem?_cons_zero, Option.some.injEq] at h; subst h; exact ⟨_, rfl, d⟩
    | succ j => rw [List.getElem?_cons_succ] at h; rw [List.getElem?_cons_succ]; exact ih h

/-- What is added to the effects while a frame is prepared. -/
def Quiet (l : List Out) : Prop := l.filterMap Out.sends = [] ∧ .fragError ∉ l

theorem attachAcks_dressed {s : St} {m : Option Nat} {p : Pkt} {r : St × Pkt} (h : attachAcks s m p = .ok r) :
    Dressed p r.2 ∧ r.1.out = s.out := by
  unfold attachAcks at h
  split at h
  · unfold piggyback at h
    split at h
    · cases h
    · cases h; exact ⟨⟨rfl, rfl, rfl, rfl, .inl rfl⟩, rfl⟩
  · cases h; exact ⟨.refl _, rfl⟩

theorem attachMark_dressed (env : Env) (s : St) (p : Pkt) :
    Dressed p (attachMark env s p).2 ∧ ∃ l, (attachMark env s p).1.out = s.out ++ l ∧ Quiet l := by
  have q0 : Quiet [] := ⟨rfl, by simp⟩
  unfold attachMark
  split
  · unfold checkCongestion
    simp only
    split
    · exact ⟨.refl _, [], by simp, q0⟩
    · split
      · split
        · exact ⟨.refl _, [], by simp, q0⟩
        · split
          · exact ⟨⟨rfl, rfl, rfl, rfl, .inr rfl⟩, [.marked], rfl, rfl, by simp⟩
          · exact ⟨.refl _, [], by simp, q0⟩
      · split
        · exact ⟨.refl _, [], by simp, q0⟩
        · exact ⟨.refl _, [], by simp, q0⟩
  · exact ⟨.refl _, [], by simp, q0⟩

theorem sendLp_dressed {env : Env} {s s' : St} {p : Pkt} (h : sendLp env s p = .ok s') :
    ∃ l g, s'.out = s.out ++ l ∧ l.filterMap Out.sends = [g] ∧ .fragError ∉ l ∧ Dressed p g := by
  obtain ⟨r, h1, rfl⟩ := sendLp_ok h
  obtain ⟨d1, e1⟩ := attachAcks_dressed h1
  obtain ⟨d2, l, e2, q1, q2⟩ := attachMark_dressed env r.1 r.2
  unfold transmit
  split
  · exact ⟨l ++ [.overMtu (attachMark env r.1 r.2).2], _, by simp only [emit, e2, e1, List.append_assoc], by rw [List.filterMap_append, q1]; rfl,
      by simp [q2], d1.trans d2⟩
  · exact ⟨l ++ [.frame (attachMark env r.1 r.2).2], _, by simp only [emit, e2, e1, List.append_assoc], by rw [List.filterMap_append, q1]; rfl,
      by simp [q2], d1.trans d2⟩

theorem sendAll_carry {env : Env} : ∀ {ps : List Pkt} {s s' : St}, sendAll env s ps = .ok s' →
    ∃ l, s'.out = s.out ++ l ∧ .fragError ∉ l ∧ Carry ps (l.filterMap Out.sends) := by
  intro ps
  induction ps with
  | nil => intro s s' h; cases h; exact ⟨[], by simp, by simp, .nil⟩
  | cons p ps ih =>
    intro s s' h
    simp only [sendAll, bind_ok] at h
    obtain ⟨s1, h1, h2⟩ := h
    obtain ⟨l1, g, e1, f1, n1, d⟩ := sendLp_dressed h1
    obtain ⟨l2, e2, n2, c⟩ := ih h2
    refine ⟨l1 ++ l2, by rw [e2, e1, List.append_assoc], by simp [n1, n2], ?_⟩
    rw [List.filterMap_append, f1]
    exact .cons d c

theorem queueFrags_carry : ∀ {fs : List Pkt} {s : St} {id : Nat} {r : St × List Pkt}, queueFrags s id fs = .ok r →
    r.1.out = s.out ∧ Carry fs r.2 := by
  intro fs
  induction fs with
  | nil => intro s id r h; cases h; exact ⟨rfl, .nil⟩
  | cons f fs ih =>
    intro s id r h
    unfold queueFrags at h
    split at h
    · cases h
    · simp only [bind_ok] at h
      obtain ⟨r1, h1, r2, h2, h3⟩ := h
      cases h3
      obtain ⟨e, c⟩ := ih h2
      refine ⟨e.trans ?_, .cons ⟨rfl, rfl, rfl, rfl, .inl rfl⟩ c⟩
      show r1.1.out = s.out
      unfold assignTx at h1
      simp only at h1
      split at h1
      · cases h1; rfl
      · split at h1
        · cases h1
        · split at h1
          · cases h1
          · split at h1
            · cases h1
            · cases h1; rfl

theorem handleOutgoing_carry {s : St} {fs : List Pkt} {p : Pkt} {b : Bool} {r : St × List Pkt} (h : handleOutgoing s fs p b = .ok r) :
    (∃ l, r.1.out = s.out ++ l ∧ Quiet l) ∧ Carry fs r.2 := by
  obtain ⟨e, c⟩ := queueFrags_carry h
  exact ⟨⟨_, e, rfl, by simp⟩, c⟩

theorem assignSeqs_at : ∀ (ps : List Pkt) (last j : Nat),
    (assignSeqs last ps).1[j]? = ps[j]?.map (fun p => { p with seq := some ((last + 1 + j) % W) }) := by
  intro ps
  induction ps with
  | nil => intro last j; simp [assignSeqs]
  | cons p ps ih =>
    intro last j
    cases j with
    | zero => simp [assignSeqs]
    | succ j =>
      simp only [assignSeqs, List.getElem?_cons_succ]
      rw [ih]
      congr 1
      funext p
      congr 2
      rw [show last + 1 + (j + 1) = last + 1 + 1 + j by omega]
      simp only [W]
      omega

theorem assignSeqs_payload (ps : List Pkt) : ∀ last, (assignSeqs last ps).1.map (fun f => f.frag.getD []) = ps.map (fun f => f.frag.getD []) := by
  induction ps with
  | nil => intro last; rfl
  | cons p ps ih => intro last; simp [assignSeqs, ih]

theorem assignSeqs_size (ps : List Pkt) : ∀ last, (assignSeqs last ps).1.length = ps.length := by
  induction ps with
  | nil => intro last; rfl
  | cons p ps ih => intro last; simp [assignSeqs, ih]

/-- The frames are those of the fragmenter, or those with Sequences. -/
theorem sendFrags_carry {env : Env} {s s' : St} {p : Pkt} {b : Bool} {fs : List Pkt} (h : sendFrags env s p b fs = .ok s') :
    ∃ l, s'.out = s.out ++ l ∧ .fragError ∉ l ∧
      (fs.length ≤ 1 ∧ Carry fs (l.filterMap Out.sends) ∨ Carry (assignSeqs s.lastSeq fs).1 (l.filterMap Out.sends)) := by
  unfold sendFrags at h
  split at h
  · cases h
  · split at h
    · simp only at h
      split at h
      · simp only [bind_ok] at h
        obtain ⟨r1, h1, h2⟩ := h
        obtain ⟨⟨l1, e1, q1, q2⟩, c1⟩ := handleOutgoing_carry h1
        obtain ⟨l2, e2, n2, c2⟩ := sendAll_carry h2
        refine ⟨l1 ++ l2, by rw [e2, e1, List.append_assoc], by simp [q2, n2], .inr ?_⟩
        rw [List.filterMap_append, q1]
        exact c1.trans c2
      · obtain ⟨l, e, n, c⟩ := sendAll_carry h
        exact ⟨l, e, n, .inr c⟩
    · rename_i hr
      obtain ⟨l, e, n, c⟩ := sendAll_carry h
      refine ⟨l, e, n, .inl ⟨?_, c⟩⟩
      simp only [Bool.or_eq_true, decide_eq_true_eq, not_or] at hr
      omega

theorem encode_fields {o : Opts} {k : Kind} {t : SendTags} {h : Hdr} (hh : h = encodeFields o k t ∨ h = { encodeFields o k t with mark := some 1 }) :
    FirstFields o k t h := by
  rcases hh with rfl | rfl
  · refine ⟨rfl, rfl, rfl, by simp [encodeFields], rfl, rfl, ?_, .inl rfl⟩
    intro r
    cases k <;> simp [encodeFields]
  · refine ⟨rfl, rfl, rfl, by simp [encodeFields], rfl, rfl, ?_, .inr rfl⟩
    intro r
    cases k <;> simp [encodeFields]

theorem makeFrags_cases {env : Env} {o : Opts} {p : Pkt} {net : Bytes} {x : Option (List Pkt)} (h : makeFrags env o p = .ok x) (hp : p.frag = some net)
    (hn : net ≠ []) (hi : p.fragIndex = none) (hc : p.fragCount = none) :
    x = some [p] ∨ (x = none ∧ o.allowFragmentation = true ∧ env.mtu ≠ none) ∨ ∃ m fs, x = some fs ∧ Split o.fragMax p net m fs := by
  unfold makeFrags at h
  simp only [bind_ok] at h
  obtain ⟨m, hm, h⟩ := h
  split at h
  · rename_i ha
    cases m with
    | none => cases h; exact .inl rfl
    | some m =>
      simp only at h
      rcases fragment_cases (nMax := o.fragMax) (mtu := m) hp hn hi hc with ⟨_, e⟩ | ⟨_, _, e⟩ | ⟨_, fs, e, hs⟩
      · rw [e] at h; cases h; exact .inl rfl
      · rw [e] at h; cases h
        refine .inr (.inl ⟨rfl, ha, ?_⟩)
        intro h0
        unfold netMtu effMtu at hm
        rw [h0] at hm
        cases hm
      · rw [e] at h; cases h; exact .inr (.inr ⟨m, fs, rfl, hs⟩)
  · cases h; exact .inl rfl

/-- C135: a network packet is refused and counted, or all its octets are put into frames, in order, with its fields on the first one. Refusal
needs fragmentation and a link with an MTU, and changes nothing. -/
theorem C135_whole {env : Env} {s s' : St} {k : Kind} {t : SendTags} {net : Bytes} (h : step env s (.send k t net) = .ok s') (hn : net ≠ []) :
    (s' = { s with out := s.out ++ [.fragError] } ∧ s.opts.allowFragmentation = true ∧ env.mtu ≠ none) ∨
    ∃ l, s'.out = s.out ++ l ∧ .fragError ∉ l ∧ SentWhole s.opts k t net s.lastSeq (l.filterMap Out.sends) := by
  have h : sendNet env s { hdr := encodeFields s.opts k t, frag := some net } (k == .interest) = .ok s' := h
  rcases sendNet_cases h with ⟨hm, rfl⟩ | ⟨fs, hm, hs⟩
  · rcases makeFrags_cases hm rfl hn rfl rfl with h0 | ⟨_, h1, h2⟩ | ⟨_, _, h0, _⟩
    · cases h0
    · exact .inl ⟨rfl, h1, h2⟩
    · cases h0
  · right
    obtain ⟨l, e, n, c⟩ := sendFrags_carry hs
    refine ⟨l, e, n, ?_⟩
    rcases makeFrags_cases hm rfl hn rfl rfl with h0 | ⟨h0, _⟩ | ⟨m, fs', h0, sp⟩
    · cases h0
      have c' : ∃ q, Carry [{ hdr := encodeFields s.opts k t, frag := some net, seq := q }] (l.filterMap Out.sends) := by
        rcases c with ⟨_, c⟩ | c
        · exact ⟨none, c⟩
        · exact ⟨_, c⟩
      obtain ⟨q, c⟩ := c'
      generalize l.filterMap Out.sends = gs at c
      cases c with
      | cons d c =>
        cases c
        rename_i g
        refine ⟨by simp, by simp [d.frag], by simp [d.frag], ?_, ?_, ?_, ?_⟩
        · intro f hf
          cases hf
          exact encode_fields d.hdr
        · intro j f hj hf
          cases j with
          | zero => omega
          | succ j => simp at hf
        · intro _ f hf
          rw [List.mem_singleton.1 hf]
          exact ⟨d.index, d.count⟩
        · intro h2
          simp at h2
    · cases h0
    · cases h0
      have c : Carry (assignSeqs s.lastSeq fs).1 (l.filterMap Out.sends) := by
        rcases c with ⟨h1, _⟩ | c
        · have := sp.two; omega
        · exact c
      have hl : (l.filterMap Out.sends).length = fs.length := c.length.trans (assignSeqs_size ..)
      have hat : ∀ {j : Nat} {g : Pkt}, (l.filterMap Out.sends)[j]? = some g → ∃ f, fs[j]? = some f ∧ Dressed ({ f with seq := some ((s.lastSeq + 1 + j) % W) } : Pkt) g := by
        intro j g hg
        obtain ⟨p, hp, d⟩ := c.at hg
        rw [assignSeqs_at, Option.map_eq_some_iff] at hp
        obtain ⟨f, hf, rfl⟩ := hp
        exact ⟨f, hf, d⟩
      have h2 := sp.two
      refine ⟨?_, ?_, by rw [c.payload, assignSeqs_payload, sp.whole], ?_, ?_, ?_, ?_⟩
      · intro h0
        rw [h0] at hl
        simp at hl
        omega
      · intro g hg h0
        obtain ⟨j, hj⟩ := List.mem_iff_getElem?.1 hg
        obtain ⟨f, hf, d⟩ := hat hj
        have := (sp.place j f hf).2.2.1
        rw [← show g.frag = f.frag from d.frag, h0] at this
        cases this
      · intro g hg
        obtain ⟨f, hf, d⟩ := hat hg
        have hp := (sp.place 0 f hf).2.2.2.1 rfl
        have hh : f.hdr = encodeFields s.opts k t := by rw [hp]
        exact encode_fields (by rw [← hh]; exact d.hdr)
      · intro j g hj hg
        obtain ⟨f, hf, d⟩ := hat hg
        have hp := (sp.place j f hf).2.2.2.2 (by omega)
        have hh : f.hdr = {} := by rw [hp]
        rcases d.hdr with e | e
        · exact .inl (e.trans hh)
        · exact .inr (e.trans (by simp only [hh]))
      · intro h1; omega
      · intro _ j g hg
        obtain ⟨f, hf, d⟩ := hat hg
        obtain ⟨a, b, _⟩ := sp.place j f hf
        exact ⟨d.index.trans a, d.count.trans (by rw [hl]; exact b), d.seq⟩

/-! ### Examples -/

def exSentEnv : Env where
  qlen := fun _ => -1
  rto := fun _ => 200
  markGap := fun _ => 10
  okInterest := fun _ => true
  okData := fun _ => true
  mtu := some 100

/-- The sizes of the payloads of the frames that leave, and whether the packet is refused. -/
def exSent (o : Opts) (net : Bytes) : Option (List Nat × Bool) :=
  match step exSentEnv (init o 0 0) (.send .interest { pitToken := some [1, 2] } net) with
  | .ok s => some ((s.out.filterMap Out.sends).map (fun f => (f.frag.getD []).length), s.out.contains .fragError)
  | .error _ => none

/-- One frame; several; more than the fragmenter permits. -/
example : exSent { allowFragmentation := true } (List.replicate 20 5) = some ([20], false) := by decide +kernel
example : ((exSent { allowFragmentation := true } (List.replicate 150 5)).map (fun x => (decide (2 ≤ x.1.length), x.1.sum, x.2))) = some (true, 150, false) := by decide +kernel
example : exSent { allowFragmentation := true, fragMax := 1 } (List.replicate 150 5) = some ([], true) := by decide +kernel
/-- The same with reliability. -/
example : ((exSent { allowFragmentation := true, relEnabled := true } (List.replicate 150 5)).map (fun x => (decide (2 ≤ x.1.length), x.1.sum, x.2))) = some (true, 150, false) := by
  decide +kernel

end Verif.Lp
