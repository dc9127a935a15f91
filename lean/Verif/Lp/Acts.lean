/-
Each event is a sequence of a few kinds of actions on the unacknowledged fragments, and no assertion fails (C47, C48).
-/
import Verif.Lp.Ops
import Verif.Lp.Frag

namespace Verif.Lp

/-- All packets are sent, in order. -/
inductive SentAll : St → St → List Pkt → Prop
  | nil (s : St) : SentAll s s []
  | cons {s t u : St} {p : Pkt} {ps : List Pkt} (h : Xmit s t p) (h' : SentAll t u ps) : SentAll s u (p :: ps)

theorem sendAll_eq (env : Env) : ∀ {ps : List Pkt} {s : St}, (s.opts.relEnabled = true → ∀ p ∈ ps, isBare p = false) →
    ∃ s', sendAll env s ps = .ok s' ∧ SentAll s s' ps := by
  intro ps
  induction ps with
  | nil => intro s _; exact ⟨s, rfl, .nil s⟩
  | cons p ps ih =>
    intro s h
    obtain ⟨t, h1, h2⟩ := sendLp_eq env (s := s) (p := p) (fun hr => h hr p (by simp))
    obtain ⟨u, h3, h4⟩ := ih (s := t) (fun hr q hq => h (by rw [← h2.same.opts]; exact hr) q (List.mem_cons_of_mem _ hq))
    refine ⟨u, ?_, .cons h2 h4⟩
    unfold sendAll
    rw [h1]
    exact h3

theorem SentAll.same {s s' : St} {ps : List Pkt} (h : SentAll s s' ps) : Same s s' := by
  induction h with
  | nil s => exact .refl s
  | cons h _ ih => exact h.same.trans ih

/-- Effects that say nothing about fragments sent. -/
def Out.plain : Out → Bool
  | .frame _ | .overMtu _ | .queued .. | .acknowledged _ | .retransmitted _ | .exhausted _ | .droppedInterest .. => false
  | _ => true

/-- The Acks an event brings. -/
def Event.acks : Event → List Nat
  | .receive _ p => p.acks
  | _ => []

/-- The LpPacket made for a network packet. -/
abbrev netPkt (s : St) (k : Kind) (t : SendTags) (net : Bytes) : Pkt := { hdr := encodeFields s.opts k t, frag := some net }

/-- What can happen to the unacknowledged fragments, with a TxSequence before the first of `x0`, and an event. -/
inductive Act (env : Env) (x0 : Nat) (ev : Event) : St → St → Prop
  | quiet {s s' : St} {l : List Out} (hu : s'.unacked = s.unacked) (hf : s'.first = s.first) (h1 : s'.lastTx = s.lastTx) (h2 : s'.nTx = s.nTx)
      (h3 : s'.nets = s.nets) (h4 : s'.nNet = s.nNet) (h5 : s'.lastSeq = s.lastSeq)
      (ho : s'.opts = s.opts ∨ ev = .setOptions s'.opts) (hl : s'.out = s.out ++ l) (hp : ∀ o ∈ l, o.plain = true) : Act env x0 ev s s'
  | idle {s s' : St} (h : Xmit s s' {}) : Act env x0 ev s s'
  | bump {s : St} (c : Nat × UFrag → Nat) (hin : ev.acks ≠ []) : Act env x0 ev s { s with unacked := bump c s.unacked }
  | ack {s : St} {k : Nat} {u : UFrag} {f : Option Nat} (hk : (k, u) ∈ s.unacked) (hin : k ∈ ev.acks) :
      Act env x0 ev s { s with
          unacked := del s.unacked k
          first := f
          nets := fun i => if i = u.net then { s.nets u.net with frags := (s.nets u.net).frags.erase k } else s.nets i
          out := s.out ++ (if (s.nets u.net).frags.erase k = [] then
            [if (s.nets u.net).didRetx then .retransmitted u.net else .acknowledged u.net] else []) }
  | giveUp {s : St} {k : Nat} {u : UFrag} {m : List (Nat × UFrag)} {f : Option Nat} (hk : (k, u) ∈ s.unacked) (hr : s.opts.maxRetx ≤ u.retx)
      (hm : ∀ e, e ∈ m ↔ e ∈ s.unacked ∧ e.2.net ≠ u.net) : Act env x0 ev s { s with unacked := m, first := f, out := s.out ++ gaveUp s u.net }
  | resend {s s' : St} {k : Nat} {u : UFrag} {m : List (Nat × UFrag)} {f : Option Nat} (hk : (k, u) ∈ s.unacked) (hr : u.retx < s.opts.maxRetx)
      (hm : ∀ e, e ∈ m ↔ e = (nextTx x0 s, { pkt := { u.pkt with txSeq := some (nextTx x0 s) }, retx := u.retx + 1, nGreater := 0, net := u.net, order := s.nTx }) ∨
        (e ∈ s.unacked ∧ e.1 ≠ k)) (hfr : ∀ v, (nextTx x0 s, v) ∉ s.unacked)
      (hx : Xmit { bumped x0 s with unacked := m, first := f, nets := renumbered s u k (nextTx x0 s) } s' { u.pkt with txSeq := some (nextTx x0 s) }) :
      Act env x0 ev s s'
  | sendRel {s s1 s' : St} {k : Kind} {t : SendTags} {net : Bytes} {frags fs' : List Pkt} (he : ev = .send k t net)
      (hm : makeFrags env s.opts (netPkt s k t net) = .ok (some frags))
      (hq : Queued x0 { s with
          lastSeq := (assignSeqs s.lastSeq frags).2
          nNet := s.nNet + 1
          nets := fun i => if i = s.nNet then { frags := [], pkt := netPkt s k t net, isInterest := k == .interest } else s.nets i
          out := s.out ++ [.queued s.nNet (k == .interest) (some net) ((assignSeqs s.lastSeq frags).1.filterMap (·.seq))] }
        s1 s.nNet (assignSeqs s.lastSeq frags).1 fs')
      (hx : SentAll s1 s' fs') : Act env x0 ev s s'
  | sendSeq {s s' : St} {k : Kind} {t : SendTags} {net : Bytes} {frags : List Pkt} (he : ev = .send k t net)
      (hm : makeFrags env s.opts (netPkt s k t net) = .ok (some frags))
      (hx : SentAll { s with lastSeq := (assignSeqs s.lastSeq frags).2 } s' (assignSeqs s.lastSeq frags).1) : Act env x0 ev s s'
  | sendOne {s s' : St} {k : Kind} {t : SendTags} {net : Bytes} (he : ev = .send k t net)
      (hx : Xmit s s' (netPkt s k t net)) : Act env x0 ev s s'

/-- A sequence of actions, between states that meet the invariant. -/
inductive Acts (env : Env) (x0 : Nat) (ev : Event) : St → St → Prop
  | refl {s : St} (h : RelOk x0 s) : Acts env x0 ev s s
  | step {s t u : St} (h : Acts env x0 ev s t) (ha : Act env x0 ev t u) (hu : RelOk x0 u) : Acts env x0 ev s u

theorem Acts.right {env : Env} {x0 : Nat} {ev : Event} {s t : St} (h : Acts env x0 ev s t) : RelOk x0 t := by
  cases h with
  | refl h => exact h
  | step _ _ hu => exact hu

theorem Acts.left {env : Env} {x0 : Nat} {ev : Event} {s t : St} (h : Acts env x0 ev s t) : RelOk x0 s := by
  induction h with
  | refl h => exact h
  | step _ _ _ ih => exact ih

theorem Acts.trans {env : Env} {x0 : Nat} {ev : Event} {s t u : St} (h : Acts env x0 ev s t) (h' : Acts env x0 ev t u) : Acts env x0 ev s u := by
  induction h' with
  | refl _ => exact h
  | step _ ha hu ih => exact .step ih ha hu

theorem Acts.one {env : Env} {x0 : Nat} {ev : Event} {s t : St} (hs : RelOk x0 s) (ha : Act env x0 ev s t) (ht : RelOk x0 t) : Acts env x0 ev s t :=
  .step (.refl hs) ha ht

theorem Acts.preserve {env : Env} {x0 : Nat} {ev : Event} {P : St → Prop} (hP : ∀ s t, RelOk x0 s → RelOk x0 t → Act env x0 ev s t → P s → P t)
    {s t : St} (h : Acts env x0 ev s t) : P s → P t := by
  intro hs
  induction h with
  | refl _ => exact hs
  | step h ha hu ih => exact hP _ _ h.right hu ha ih

/-- A result that is a failure only for lack of TxSequences, and otherwise comes from actions. -/
def Fine {α : Type} (env : Env) (x0 : Nat) (ev : Event) (s : St) (st : α → St) (Q : α → Prop) (r : Except Fault α) : Prop :=
  (∃ n, r = .error (.rangeExceeded n) ∧ W ≤ n) ∨ ∃ a, r = .ok a ∧ Acts env x0 ev s (st a) ∧ Q a

/-! ## Loss and acknowledgement -/

/-- Everything that is still to be handled is either removed or stored. -/
def Present (s : St) (removed ts : List Nat) : Prop := ∀ t ∈ ts, t ∈ removed ∨ ∃ v, (t, v) ∈ s.unacked

theorem onLost_fine (env : Env) {x0 : Nat} (ev : Event) {s : St} {k : Nat} {u : UFrag} (h : RelOk x0 s) (hk : (k, u) ∈ s.unacked) :
    Fine env x0 ev s (·.1) (fun r => ∀ t v, (t, v) ∈ s.unacked → t ∈ r.2 ∨ ∃ v, (t, v) ∈ r.1.unacked) (onLost env s k) := by
  unfold onLost
  rw [look_eq h.win.keyed hk]
  simp only
  by_cases hr : u.retx ≥ s.opts.maxRetx
  · rw [if_pos hr]
    obtain ⟨m, f, rem, h1, h2, h3, h4⟩ := giveUp_eq h hk
    right
    refine ⟨_, h1, .one h (.giveUp hk hr h2) h4, ?_⟩
    intro t v hv
    by_cases hn : v.net = u.net
    · left
      rw [h3]
      have := (h.net.ent _ hv).1
      simp only at this
      rw [hn] at this
      exact this
    · right; exact ⟨v, (h2 _).2 ⟨hv, hn⟩⟩
  · rw [if_neg hr]
    rcases resend_eq env h hk with ⟨n, h1, h2⟩ | ⟨m, f, hm, hok, hfr, s2, h1, hx⟩
    · exact .inl ⟨n, h1, h2⟩
    · right
      have hrel := hok.same hx.same
      refine ⟨_, h1, .one h (.resend hk (by omega) hm hfr hx) hrel, ?_⟩
      intro t v hv
      by_cases htk : t = k
      · left; simp [htk]
      · right; exact ⟨v, by show (t, v) ∈ s2.unacked; rw [hx.same.unacked]; exact (hm _).2 (.inr ⟨hv, htk⟩)⟩

theorem handleLost_fine (env : Env) {x0 : Nat} (ev : Event) : ∀ {ts : List Nat} {s : St} {removed : List Nat}, RelOk x0 s → Present s removed ts →
    Fine env x0 ev s id (fun _ => True) (handleLost env s removed ts) := by
  intro ts
  induction ts with
  | nil => intro s removed h _; exact .inr ⟨s, rfl, .refl h, trivial⟩
  | cons t ts ih =>
    intro s removed h hp
    unfold handleLost
    by_cases ht : t ∈ removed
    · rw [if_pos ht]
      exact ih h (fun t' ht' => hp t' (List.mem_cons_of_mem _ ht'))
    · rw [if_neg ht]
      obtain ⟨u, hu⟩ := (hp t (by simp)).resolve_left ht
      rcases onLost_fine env ev h hu with ⟨n, h1, h2⟩ | ⟨r, h1, h2, h3⟩
      · left; exact ⟨n, by rw [h1]; rfl, h2⟩
      · rw [h1]
        rcases ih (s := r.1) (removed := removed ++ r.2) h2.right (by
          intro t' ht'
          rcases hp t' (List.mem_cons_of_mem _ ht') with h4 | ⟨v, h4⟩
          · exact .inl (List.mem_append_left _ h4)
          · rcases h3 t' v h4 with h5 | h5
            · exact .inl (List.mem_append_right _ h5)
            · exact .inr h5) with ⟨n, h4, h5⟩ | ⟨s', h4, h5, _⟩
        · exact .inl ⟨n, h4, h5⟩
        · exact .inr ⟨s', h4, h2.trans h5, trivial⟩

theorem processAck_fine (env : Env) {x0 : Nat} (ev : Event) {s : St} {k : Nat} (h : RelOk x0 s) (hin : k ∈ ev.acks) :
    Fine env x0 ev s id (fun _ => True) (processAck env s k) := by
  unfold processAck
  by_cases hk : (look s.unacked k).isNone = true
  · rw [if_pos hk]; exact .inr ⟨s, rfl, .refl h, trivial⟩
  · rw [if_neg hk]
    have : (look s.unacked k).isSome := by cases hx : look s.unacked k <;> simp_all
    obtain ⟨u, hu⟩ := look_isSome.1 this
    obtain ⟨c, lost, h1, h2, h3⟩ := findLost_eq h hu
    have hu' : (k, { u with nGreater := c (k, u) }) ∈ bump c s.unacked := mem_bump.2 ⟨_, hu, rfl⟩
    obtain ⟨f, h4, h5⟩ := onAcknowledged_eq h3 hu'
    have hacts : Acts env x0 ev s _ := .step (.one h (.bump c (List.ne_nil_of_mem hin)) h3) (.ack hu' hin) h5
    rw [h1]
    simp only [bind, Except.bind]
    rw [h4]
    simp only
    rcases handleLost_fine env ev (ts := lost) (removed := []) h5 (by
      intro t ht
      obtain ⟨h6, v, h7⟩ := h2 t ht
      exact .inr ⟨_, mem_del.2 ⟨mem_bump.2 ⟨_, h7, rfl⟩, h6⟩⟩) with ⟨n, h6, h7⟩ | ⟨s', h6, h7, _⟩
    · exact .inl ⟨n, h6, h7⟩
    · exact .inr ⟨s', h6, hacts.trans h7, trivial⟩

theorem processAcks_fine (env : Env) {x0 : Nat} (ev : Event) : ∀ {ks : List Nat} {s : St}, RelOk x0 s → (∀ k ∈ ks, k ∈ ev.acks) →
    Fine env x0 ev s id (fun _ => True) (processAcks env s ks) := by
  intro ks
  induction ks with
  | nil => intro s h _; exact .inr ⟨s, rfl, .refl h, trivial⟩
  | cons k ks ih =>
    intro s h hin
    unfold processAcks
    rcases processAck_fine env ev h (hin k (by simp)) with ⟨n, h1, h2⟩ | ⟨t, h1, h2, _⟩
    · left; exact ⟨n, by rw [h1]; rfl, h2⟩
    · rw [h1]
      rcases ih (s := t) h2.right (fun k hk => hin k (List.mem_cons_of_mem _ hk)) with ⟨n, h3, h4⟩ | ⟨u, h3, h4, _⟩
      · exact .inl ⟨n, h3, h4⟩
      · exact .inr ⟨u, h3, Acts.trans h2 h4, trivial⟩

theorem decodeNet_plain (env : Env) (o : Opts) (net : Bytes) (h : Hdr) : ∀ x ∈ decodeNet env o net h, x.plain = true := by
  intro x hx
  unfold decodeNet at hx
  repeat' split at hx
  all_goals first
    | cases hx; done
    | (rw [List.mem_singleton] at hx; subst hx; rfl)

theorem accept_quiet (env : Env) (s : St) (e : Nat) (p : Pkt) :
    ∃ parts l, accept env s e p = { s with parts := parts, out := s.out ++ l } ∧ ∀ o ∈ l, o.plain = true := by
  have hadd : ∀ k i n, ∃ parts, (addFragment s k i n p).1 = { s with parts := parts } := by
    intro k i n
    unfold addFragment
    simp only
    repeat' split
    all_goals first
      | exact ⟨s.parts, rfl⟩
      | exact ⟨_, rfl⟩
  have hrf : ∃ parts, (receiveFragment s e p).1 = { s with parts := parts } := by
    unfold receiveFragment
    simp only
    repeat' split
    all_goals first
      | exact ⟨s.parts, rfl⟩
      | exact hadd _ _ _
  obtain ⟨parts, hp⟩ := hrf
  unfold accept
  split
  · exact ⟨s.parts, [], by simp, by simp⟩
  · split
    · exact ⟨s.parts, [], by simp, by simp⟩
    · simp only
      split
      · exact ⟨parts, [], by rw [hp]; simp, by simp⟩
      · exact ⟨parts, [.lpInvalid], by rw [hp]; rfl, by simp [Out.plain]⟩
      · rename_i net first _
        refine ⟨parts, _, by rw [hp], ?_⟩
        intro o ho
        rcases List.mem_cons.1 ho with rfl | ho
        · rfl
        · exact decodeNet_plain _ _ _ _ _ ho

theorem receive_fine (env : Env) {x0 : Nat} {s : St} {e : Nat} {p : Pkt} (h : RelOk x0 s) :
    Fine env x0 (.receive e p) s id (fun _ => True) (receive env s e p) := by
  have hacc : ∀ t : St, RelOk x0 t → Acts env x0 (.receive e p) t (accept env t e p) := by
    intro t ht
    obtain ⟨parts, l, h1, h2⟩ := accept_quiet env t e p
    rw [h1]
    exact .one ht (.quiet rfl rfl rfl rfl rfl rfl rfl (.inl rfl) rfl h2) (ht.same ⟨rfl, rfl, rfl, rfl, rfl, rfl, rfl, rfl⟩)
  unfold receive
  split
  · rcases processAcks_fine env (.receive e p) (ks := p.acks) h (fun k hk => hk) with ⟨n, h1, h2⟩ | ⟨t, h1, h2, _⟩
    · left; exact ⟨n, by unfold processIncoming; rw [h1]; rfl, h2⟩
    · right
      have hpi : processIncoming env s p = .ok (noteFrame env t p) := by unfold processIncoming; rw [h1]; rfl
      rw [hpi]
      obtain ⟨a1, a2, a3, a4, a5, a6, a7, a8, a9, a10, a11, _⟩ := noteFrame_same env t p
      have ht := h2.right
      have hn : Acts env x0 (.receive e p) s (noteFrame env t p).1 :=
        .step h2 (.quiet (l := []) a5 a6 a9 a10 a7 a8 a11 (.inl a1) (by simp [a4]) (by simp))
          (ht.same ⟨a1, a5, a6, a9, a10, a7, a8, a11⟩)
      refine ⟨_, rfl, ?_, trivial⟩
      simp only [id]
      split
      · exact hn.trans (hacc _ hn.right)
      · exact .step hn (.quiet (l := [.duplicate]) rfl rfl rfl rfl rfl rfl rfl (.inl rfl) rfl (by simp [Out.plain]))
          (hn.right.same ⟨rfl, rfl, rfl, rfl, rfl, rfl, rfl, rfl⟩)
  · exact .inr ⟨_, rfl, hacc s h, trivial⟩

/-! ## Sending -/

theorem fragmentPacket_nil {nMax mtu : Nat} {p : Pkt} {fs : List Pkt} (hp : p.frag = some []) (h : fragmentPacket nMax p mtu = .ok (some fs)) :
    fs = [p] := by
  have hnum : ∀ c q, numbered c q 0 [] = [] := fun _ _ => rfl
  unfold fragmentPacket at h
  simp only [hp, if_true, hnum, List.length_nil, List.any_nil] at h
  generalize (0 - min 0 (mtu - othersSize p - maxFragOverhead)) / (mtu - maxFragOverhead) = x at h
  grind

theorem makeFrags_ok {env : Env} {o : Opts} {p : Pkt} {net : Bytes} {fs : List Pkt} (hp : p.frag = some net) (hi : p.fragIndex = none)
    (hc : p.fragCount = none) (h : makeFrags env o p = .ok (some fs)) :
    fs = [p] ∨ ∃ m, netMtu env o = .ok (some m) ∧ o.allowFragmentation = true ∧ net ≠ [] ∧ Split o.fragMax p net m fs := by
  unfold makeFrags at h
  simp only [bind_ok] at h
  obtain ⟨mtu, h1, h⟩ := h
  split at h
  · rename_i ha
    split at h
    · rename_i m
      by_cases hn : net = []
      · left
        subst hn
        exact fragmentPacket_nil hp h
      · rcases fragment_cases (nMax := o.fragMax) (mtu := m) hp hn hi hc with ⟨_, he⟩ | ⟨_, _, he⟩ | ⟨_, fr, he, hs⟩
        · rw [h] at he; exact .inl (Option.some.inj (Except.ok.inj he))
        · rw [h] at he; cases he
        · rw [h] at he
          obtain rfl := Option.some.inj (Except.ok.inj he)
          exact .inr ⟨m, h1, ha, hn, hs⟩
    · exact .inl (Option.some.inj (Except.ok.inj h)).symm
  · exact .inl (Option.some.inj (Except.ok.inj h)).symm

theorem assignSeqs_map : ∀ (fs : List Pkt) (l : Nat), (assignSeqs l fs).1.map (fun f => { f with seq := none }) = fs.map (fun f => { f with seq := none }) ∧
    ∀ f ∈ (assignSeqs l fs).1, f.seq.isSome := by
  intro fs
  induction fs with
  | nil => intro l; exact ⟨rfl, by simp [assignSeqs]⟩
  | cons f fs ih =>
    intro l
    obtain ⟨h1, h2⟩ := ih ((l + 1) % W)
    simp only [assignSeqs, List.map_cons]
    refine ⟨by rw [h1], ?_⟩
    intro g hg
    rcases List.mem_cons.1 hg with rfl | hg
    · rfl
    · exact h2 g hg

theorem assignSeqs_length (fs : List Pkt) (l : Nat) : (assignSeqs l fs).1.length = fs.length := by
  have := congrArg List.length (assignSeqs_map fs l).1
  simpa using this

/-- The state in which the fragments are queued. -/
abbrev queueing (s : St) (k : Kind) (t : SendTags) (net : Bytes) (frags : List Pkt) : St :=
  { s with
    lastSeq := (assignSeqs s.lastSeq frags).2
    nNet := s.nNet + 1
    nets := fun i => if i = s.nNet then { frags := [], pkt := netPkt s k t net, isInterest := k == .interest } else s.nets i
    out := s.out ++ [.queued s.nNet (k == .interest) (some net) ((assignSeqs s.lastSeq frags).1.filterMap (·.seq))] }

theorem queued_relOk {x0 : Nat} {s s1 : St} {k : Kind} {t : SendTags} {net : Bytes} {frags fs' : List Pkt} (h : RelOk x0 s)
    (hfr : ∀ f ∈ (assignSeqs s.lastSeq frags).1, f.seq.isSome ∧ f.frag.isSome)
    (hq : Queued x0 (queueing s k t net frags) s1 s.nNet (assignSeqs s.lastSeq frags).1 fs') : RelOk x0 s1 := by
  obtain ⟨ks, hk1, hk2, hk3, hk4, hk5⟩ := hq.new
  have hk1' : (s1.nets s.nNet).frags = ks := by
    rw [hk1]; simp
  have hk4' : ∀ k ∈ ks, ∀ v, (k, v) ∉ s.unacked := hk4
  have hold : ∀ e ∈ s.unacked, s1.nets e.2.net = s.nets e.2.net := by
    intro e he
    have hlt := (h.net.ent e he).2.2
    rw [hq.other _ (by omega)]
    simp only
    rw [if_neg (by omega)]
  have hcases : ∀ e ∈ s1.unacked, e ∈ s.unacked ∨ (e.1 ∈ ks ∧ e.2.net = s.nNet ∧ e.2.pkt ∈ fs' ∧ e.2.pkt.txSeq = some e.1) := by
    intro e he
    rcases (hk5 e).1 he with h1 | ⟨h1, h2, _, h3, h4, _⟩
    · exact .inl h1
    · exact .inr ⟨h1, h2, h3, h4⟩
  have hfs : ∀ f' ∈ fs', ∃ f ∈ (assignSeqs s.lastSeq frags).1, bare f' = bare f := by
    intro f' hf'
    have : bare f' ∈ fs'.map bare := List.mem_map.2 ⟨f', hf', rfl⟩
    rw [hq.copies, List.mem_map] at this
    obtain ⟨f, h1, h2⟩ := this
    exact ⟨f, h1, h2.symm⟩
  have hnew : ∀ k ∈ ks, ∃ u, (k, u) ∈ s1.unacked ∧ u.net = s.nNet := by
    intro k hk
    have : some k ∈ fs'.map (·.txSeq) := by rw [hk3]; exact List.mem_map.2 ⟨k, hk, rfl⟩
    obtain ⟨f', hf', hfk⟩ := List.mem_map.1 this
    obtain ⟨e, he, h1, h2, _⟩ := hq.all f' hf'
    rcases (hk5 e).1 he with h3 | ⟨_, _, _, _, h4, _⟩
    · have := (h.net.ent e h3).2.2
      omega
    · rw [h1, hfk] at h4
      have := Option.some.inj h4
      subst this
      exact ⟨e.2, he, h2⟩
  refine ⟨hq.win, ?_, ?_, ?_, ?_⟩
  · intro e he
    rcases hcases e he with h1 | ⟨h1, h2, h3, h4⟩
    · rw [hold e h1, hq.nNet]
      obtain ⟨a, b, c⟩ := h.net.ent e h1
      exact ⟨a, b, by show _ < s.nNet + 1; omega⟩
    · rw [h2, hk1', hq.nNet]
      exact ⟨h1, hk2, Nat.lt_succ_self _⟩
  · intro e he
    rcases hcases e he with h1 | ⟨h1, h2, h3, h4⟩
    · exact h.net.pkt e h1
    · obtain ⟨f, hf, hb⟩ := hfs _ h3
      refine ⟨h4, ?_, ?_⟩
      · have := congrArg Pkt.seq hb
        simp only [bare] at this
        rw [this]; exact (hfr f hf).1
      · have := congrArg Pkt.frag hb
        simp only [bare] at this
        rw [this]; exact (hfr f hf).2
  · intro e he
    rcases hcases e he with h1 | ⟨h1, h2, h3, h4⟩
    · rw [hold e h1]; exact h.net.int e h1
    · rw [h2, hq.own.1, hq.own.2.1]
      simp
  · intro e he k' hk'
    rcases hcases e he with h1 | ⟨h1, h2, h3, h4⟩
    · rw [hold e h1] at hk'
      obtain ⟨u, hu, hn⟩ := h.net.back e h1 k' hk'
      exact ⟨u, (hk5 _).2 (.inl hu), hn⟩
    · rw [h2, hk1'] at hk'
      obtain ⟨u, hu, hn⟩ := hnew k' hk'
      exact ⟨u, hu, by rw [hn, h2]⟩

/-- The MTU leaves room for what is reserved. -/
def roomy (env : Env) (o : Opts) : Prop := ∀ m, effMtu env o = some m → reservedHeaderSpace + congestionMarkSize ≤ m

theorem netMtu_ok {env : Env} {o : Opts} (h : roomy env o) : ∃ m, netMtu env o = .ok m := by
  unfold netMtu
  split
  · exact ⟨_, rfl⟩
  · rename_i m hm
    have := h m hm
    simp only
    rw [if_neg (by split <;> split <;> omega)]
    exact ⟨_, rfl⟩

theorem makeFrags_fine {env : Env} {o : Opts} {p : Pkt} {net : Bytes} (hp : p.frag = some net) (hn : net ≠ []) (hi : p.fragIndex = none)
    (hc : p.fragCount = none) (hr : roomy env o) : ∃ r, makeFrags env o p = .ok r := by
  obtain ⟨m, hm⟩ := netMtu_ok hr
  unfold makeFrags
  rw [hm]
  simp only [bind, Except.bind]
  split
  · split
    · rename_i m'
      rcases fragment_cases (nMax := o.fragMax) (mtu := m') hp hn hi hc with ⟨_, he⟩ | ⟨_, _, he⟩ | ⟨_, fr, he, hs⟩ <;> exact ⟨_, he⟩
    · exact ⟨_, rfl⟩
  · exact ⟨_, rfl⟩

/-- After the fragments are made, sending them succeeds. -/
theorem sendFrags_fine (env : Env) {x0 : Nat} {s : St} {k : Kind} {t : SendTags} {net : Bytes} {frags : List Pkt} (h : RelOk x0 s)
    (hm : makeFrags env s.opts (netPkt s k t net) = .ok (some frags)) :
    Fine env x0 (.send k t net) s id (fun _ => True) (sendFrags env s (netPkt s k t net) (k == .interest) frags) := by
  have hcase := makeFrags_ok (net := net) rfl rfl rfl hm
  have hfrag : ∀ f ∈ frags, f.frag.isSome := by
    intro f hf
    rcases hcase with rfl | ⟨m, _, _, _, hs⟩
    · rw [List.mem_singleton.1 hf]; rfl
    · obtain ⟨j, hj⟩ := List.mem_iff_getElem?.1 hf
      exact (hs.place j f hj).2.2.1
  have hseqd : ∀ f ∈ (assignSeqs s.lastSeq frags).1, f.seq.isSome ∧ f.frag.isSome := by
    intro f hf
    refine ⟨(assignSeqs_map frags s.lastSeq).2 f hf, ?_⟩
    have : ({ f with seq := none } : Pkt) ∈ (assignSeqs s.lastSeq frags).1.map (fun f => { f with seq := none }) := List.mem_map.2 ⟨f, hf, rfl⟩
    rw [(assignSeqs_map frags s.lastSeq).1, List.mem_map] at this
    obtain ⟨g, hg, he⟩ := this
    have := congrArg Pkt.frag he
    simp only at this
    rw [← this]; exact hfrag g hg
  unfold sendFrags
  have hno : (decide (frags.length = 1) && frags.any (fun f => f.fragIndex.isSome || f.fragCount.isSome)) = false := by
    rcases hcase with rfl | ⟨m, _, _, _, hs⟩
    · simp
    · have := hs.two
      rw [Bool.and_eq_false_iff]
      left
      rw [decide_eq_false_iff_not]
      omega
  rw [if_neg (by simpa using hno)]
  by_cases hrel : (s.opts.relEnabled || decide (frags.length > 1)) = true
  · rw [if_pos hrel]
    simp only
    split
    · have hw : WinS x0 (queueing s k t net frags) := h.win
      rcases queueFrags_eq (id := s.nNet) hw (fun f hf => (hseqd f hf).1) with ⟨n, h1, h2⟩ | ⟨s1, fs', h1, hq⟩
      · left
        refine ⟨n, ?_, h2⟩
        have : handleOutgoing { s with lastSeq := (assignSeqs s.lastSeq frags).2 } (assignSeqs s.lastSeq frags).1 (netPkt s k t net) (k == .interest) =
          .error (.rangeExceeded n) := h1
        rw [this]; rfl
      · right
        have hok := queued_relOk h hseqd hq
        have hho : handleOutgoing { s with lastSeq := (assignSeqs s.lastSeq frags).2 } (assignSeqs s.lastSeq frags).1 (netPkt s k t net) (k == .interest) =
          .ok (s1, fs') := h1
        obtain ⟨s', h3, h4⟩ := sendAll_eq env (s := s1) (ps := fs') (fun _ p hp => by
          obtain ⟨e, he, h5, _⟩ := hq.all p hp
          have := (hok.net.pkt e he).1
          rw [h5] at this
          exact not_bare_tx this)
        refine ⟨s', ?_, ?_, trivial⟩
        · rw [hho]; exact h3
        · exact .one h (.sendRel rfl hm hq h4) (hok.same h4.same)
    · right
      obtain ⟨s', h3, h4⟩ := sendAll_eq env (s := { s with lastSeq := (assignSeqs s.lastSeq frags).2 }) (ps := (assignSeqs s.lastSeq frags).1)
        (fun _ p hp => not_bare_seq (hseqd p hp).1)
      refine ⟨s', h3, ?_, trivial⟩
      have hsub : RelOk x0 { s with lastSeq := (assignSeqs s.lastSeq frags).2 } := ⟨h.win, h.net⟩
      exact .one h (.sendSeq rfl hm h4) (hsub.same h4.same)
  · rw [if_neg hrel]
    right
    have hone : frags = [netPkt s k t net] := by
      rcases hcase with h1 | ⟨m, _, _, _, hs⟩
      · exact h1
      · exfalso
        have := hs.two
        apply hrel
        simp only [Bool.or_eq_true, decide_eq_true_eq]
        right; omega
    subst hone
    have hno' : s.opts.relEnabled = false := by
      cases hx : s.opts.relEnabled with
      | false => rfl
      | true => rw [hx] at hrel; simp at hrel
    obtain ⟨s', h3, h4⟩ := sendLp_eq env (s := s) (p := netPkt s k t net) (fun hx => by rw [hno'] at hx; cases hx)
    refine ⟨s', by simp only [sendAll, h3]; rfl, ?_, trivial⟩
    exact .one h (.sendOne rfl h4) (h.same h4.same)

theorem send_fine (env : Env) {x0 : Nat} {s : St} {k : Kind} {t : SendTags} {net : Bytes} (h : RelOk x0 s) :
    send env s k t net = .error .assert ∧ ¬ (net ≠ [] ∧ roomy env s.opts) ∨
    Fine env x0 (.send k t net) s id (fun _ => True) (send env s k t net) := by
  unfold send sendNet
  split
  · rename_i e he
    left
    have hno : ¬ (net ≠ [] ∧ roomy env s.opts) := by
      rintro ⟨h1, h2⟩
      obtain ⟨r, hr⟩ := makeFrags_fine (p := netPkt s k t net) rfl h1 rfl rfl h2
      rw [hr] at he; cases he
    refine ⟨?_, hno⟩
    -- the only failure of makeFrags is an assertion
    unfold makeFrags at he
    have hnm : ∀ e, netMtu env s.opts = .error e → e = .assert := by
      intro e he
      unfold netMtu at he
      grind
    cases hmt : netMtu env s.opts with
    | error e' =>
      rw [hmt] at he
      have : e = e' := (Except.error.inj he).symm
      rw [this, hnm e' hmt]
    | ok m =>
      rw [hmt] at he
      simp only [bind, Except.bind] at he
      split at he
      · split at he
        · unfold fragmentPacket at he
          simp only at he
          repeat' split at he
          all_goals first
            | cases he; rfl
            | cases he
        · cases he
      · cases he
  · right; right
    refine ⟨_, rfl, ?_, trivial⟩
    exact .one h (.quiet (l := [.fragError]) rfl rfl rfl rfl rfl rfl rfl (.inl rfl) rfl (by simp [Out.plain]))
      (h.same ⟨rfl, rfl, rfl, rfl, rfl, rfl, rfl, rfl⟩)
  · rename_i frags hm
    right
    exact sendFrags_fine env h hm

/-! ## Idle Acks -/

theorem flushAcks_acts {env : Env} {x0 : Nat} : ∀ {n : Nat} {s s' : St}, RelOk x0 s → flushAcks env n s = .ok s' → Acts env x0 .idle s s' := by
  intro n
  induction n with
  | zero => intro s s' h hf; unfold flushAcks at hf; split at hf <;> cases hf; exact .refl h
  | succ n ih =>
    intro s s' h hf
    unfold flushAcks at hf
    split at hf
    · cases hf; exact .refl h
    · simp only [bind_ok] at hf
      obtain ⟨s1, h1, hf⟩ := hf
      split at hf
      · obtain ⟨t, h2, h3⟩ := sendLp_eq env (s := s) (p := {}) (fun _ => rfl)
        rw [h1] at h2
        obtain rfl := Except.ok.inj h2
        have hr := h.same h3.same
        exact Acts.trans (.one h (.idle h3) hr) (ih hr hf)
      · cases hf

theorem flushAcks_error {env : Env} : ∀ {n : Nat} {s : St} {e : Fault}, flushAcks env n s = .error e → e = .assert := by
  intro n
  induction n with
  | zero => intro s e hf; unfold flushAcks at hf; split at hf <;> cases hf; rfl
  | succ n ih =>
    intro s e hf
    unfold flushAcks at hf
    split at hf
    · cases hf
    · obtain ⟨t, h2, h3⟩ := sendLp_eq env (s := s) (p := {}) (fun _ => rfl)
      rw [h2] at hf
      simp only [bind, Except.bind] at hf
      split at hf
      · exact ih hf
      · cases hf; rfl

/-- An event succeeds and is a sequence of actions, or fails in one of these ways. -/
theorem step_fine (env : Env) {x0 : Nat} {s : St} {ev : Event} (h : RelOk x0 s) :
    (∃ s', step env s ev = .ok s' ∧ Acts env x0 ev s s') ∨
    (∃ n, step env s ev = .error (.rangeExceeded n) ∧ W ≤ n) ∨
    (step env s ev = .error .assert ∧
      ((∃ k t net, ev = .send k t net ∧ ¬ (net ≠ [] ∧ roomy env s.opts)) ∨
       (ev = .idle ∧ flushAcks env s.ackQueue.length { s with idleTimer := false } = .error .assert))) := by
  have hf : ∀ {α : Type} {st : α → St} {Q : α → Prop} {r : Except Fault α}, Fine env x0 ev s st Q r →
      (∃ a, r = .ok a ∧ Acts env x0 ev s (st a)) ∨ (∃ n, r = .error (.rangeExceeded n) ∧ W ≤ n) := by
    rintro α st Q r (⟨n, h1, h2⟩ | ⟨a, h1, h2, _⟩)
    · exact .inr ⟨n, h1, h2⟩
    · exact .inl ⟨a, h1, h2⟩
  cases ev with
  | send k t net =>
    rcases send_fine env h (k := k) (t := t) (net := net) with ⟨h1, h2⟩ | h1
    · exact .inr (.inr ⟨h1, .inl ⟨k, t, net, rfl, h2⟩⟩)
    · rcases hf h1 with h1 | h1
      · exact .inl h1
      · exact .inr (.inl h1)
  | receive e p =>
    rcases hf (receive_fine env h) with h1 | h1
    · exact .inl h1
    · exact .inr (.inl h1)
  | rto tx =>
    simp only [step]
    by_cases hk : (look s.unacked tx).isNone = true
    · rw [if_pos hk]; exact .inl ⟨s, rfl, .refl h⟩
    · rw [if_neg hk]
      have : (look s.unacked tx).isSome := by cases hx : look s.unacked tx <;> simp_all
      obtain ⟨u, hu⟩ := look_isSome.1 this
      rcases hf (onLost_fine env (.rto tx) h hu) with ⟨r, h1, h2⟩ | ⟨n, h1, h2⟩
      · left; exact ⟨r.1, by rw [h1]; rfl, h2⟩
      · right; left; exact ⟨n, by rw [h1]; rfl, h2⟩
  | idle =>
    simp only [step]
    split
    · cases hfl : flushAcks env s.ackQueue.length { s with idleTimer := false } with
      | error e =>
        have := flushAcks_error hfl
        subst this
        exact .inr (.inr ⟨rfl, .inr ⟨trivial, rfl⟩⟩)
      | ok s' =>
        left
        refine ⟨s', rfl, ?_⟩
        have h0 : RelOk x0 { s with idleTimer := false } := ⟨h.win, h.net⟩
        exact Acts.trans (.one (t := { s with idleTimer := false }) h (.quiet (l := []) rfl rfl rfl rfl rfl rfl rfl (.inl rfl) (by simp) (by simp)) h0) (flushAcks_acts (s := { s with idleTimer := false }) h0 hfl)
    · exact .inl ⟨s, rfl, .refl h⟩
  | dropTimer k =>
    left
    refine ⟨_, rfl, ?_⟩
    unfold dropPartial
    split
    · exact .refl h
    · split
      · exact .one h (.quiet (l := [.reassemblyTimeout k]) rfl rfl rfl rfl rfl rfl rfl (.inl rfl) rfl (by simp [Out.plain])) ⟨h.win, h.net⟩
      · exact .refl h
  | tick d =>
    exact .inl ⟨_, rfl, .one h (.quiet (l := []) rfl rfl rfl rfl rfl rfl rfl (.inl rfl) (by simp) (by simp)) ⟨h.win, h.net⟩⟩
  | setOptions o =>
    exact .inl ⟨_, rfl, .one h (.quiet (l := []) rfl rfl rfl rfl rfl rfl rfl (.inr rfl) (by simp [setOptions]) (by simp)) ⟨h.win, h.net⟩⟩

theorem step_acts {env : Env} {x0 : Nat} {s s' : St} {ev : Event} (h : RelOk x0 s) (hs : step env s ev = .ok s') : Acts env x0 ev s s' := by
  rcases step_fine env (ev := ev) h with ⟨t, h1, h2⟩ | ⟨n, h1, _⟩ | ⟨h1, _⟩
  · rw [hs] at h1
    obtain rfl := Except.ok.inj h1
    exact h2
  · rw [hs] at h1; cases h1
  · rw [hs] at h1; cases h1

theorem init_relOk (o : Opts) (q0 x0 : Nat) (hx : x0 < W) : RelOk x0 (init o q0 x0) := by
  refine ⟨⟨?_, by simp [init, Keyed], by simp [init], ?_⟩, ?_⟩
  · show x0 = (x0 + 0) % W
    rw [Nat.add_zero, Nat.mod_eq_of_lt hx]
  · exact ⟨fun _ => rfl, fun h => absurd rfl h⟩
  · constructor <;> simp [init]

theorem run_relOk {env : Env} {x0 : Nat} : ∀ {es : List Event} {s s' : St}, RelOk x0 s → run env s es = .ok s' → RelOk x0 s' := by
  intro es
  induction es with
  | nil => intro s s' h hr; cases hr; exact h
  | cons e es ih =>
    intro s s' h hr
    simp only [run, bind_ok] at hr
    obtain ⟨s1, h1, h2⟩ := hr
    exact ih (step_acts h h1).right h2

end Verif.Lp
