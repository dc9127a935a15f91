/-
C91: when a fragment is declared lost. And part of C45: nothing larger than the MTU is given to the transport.

A stored fragment `(t, u)` of `s.unacked` waits for an Ack of the TxSequence `t`; `u.order` says as how many-th it was sent, `u.nGreater` is
its counter of Acks for fragments sent later.
-/
import Verif.Lp.RelProps
import Verif.Lp.SizeProps

namespace Verif.Lp

/-! ## Lost fragments -/

/-- What handling one lost fragment does to the stored ones. -/
theorem onLost_kept {env : Env} {x0 : Nat} {s : St} {k : Nat} {u : UFrag} (h : RelOk x0 s) (hk : (k, u) ∈ s.unacked) {r : St × List Nat}
    (hr : onLost env s k = .ok r) :
    RelOk x0 r.1 ∧ s.nTx ≤ r.1.nTx ∧ k ∈ r.2 ∧ (∃ l, r.1.out = s.out ++ l) ∧
    (∀ e ∈ r.1.unacked, e ∈ s.unacked ∧ e.1 ∉ r.2 ∨ s.nTx ≤ e.2.order ∧ e.2.nGreater = 0) ∧
    ∀ e ∈ s.unacked, e ∈ r.1.unacked ∨ e.1 = k ∨ .exhausted e.2.net ∈ r.1.out := by
  unfold onLost at hr
  rw [look_eq h.win.keyed hk] at hr
  simp only at hr
  by_cases hm : u.retx ≥ s.opts.maxRetx
  · rw [if_pos hm] at hr
    obtain ⟨m, f, rem, h1, h2, h3, h4⟩ := giveUp_eq h hk
    rw [h1] at hr
    obtain rfl := Except.ok.inj hr
    refine ⟨h4, Nat.le_refl _, (h3 k).2 (h.net.ent _ hk).1, ⟨_, rfl⟩, ?_, ?_⟩
    · intro e he
      obtain ⟨a, b⟩ := (h2 e).1 he
      refine .inl ⟨a, fun hx => b ?_⟩
      obtain ⟨v, hv, hv'⟩ := h.net.back _ hk e.1 ((h3 _).1 hx)
      rw [← h.win.keyed.unique (k := e.1) (u := e.2) a hv] at hv'
      exact hv'
    · intro e he
      by_cases hn : e.2.net = u.net
      · right; right
        simp only [gaveUp, hn, List.mem_append, List.mem_cons]
        exact .inr (.inl trivial)
      · exact .inl ((h2 e).2 ⟨he, hn⟩)
  · rw [if_neg hm] at hr
    rcases resend_eq env h hk with ⟨n, h1, _⟩ | ⟨m, f, hm, hok, hfr, s2, h1, hx⟩
    · rw [h1] at hr; cases hr
    · rw [h1] at hr
      obtain rfl := Except.ok.inj hr
      obtain ⟨p', x, ms, ho, _⟩ := hx.out
      refine ⟨hok.same hx.same, ?_, by simp, ⟨_, ho⟩, ?_, ?_⟩
      · rw [hx.same.nTx]; exact Nat.le_succ _
      · intro e he
        simp only at he
        rw [hx.same.unacked] at he
        rcases (hm e).1 he with rfl | ⟨a, b⟩
        · exact .inr ⟨Nat.le_refl _, rfl⟩
        · exact .inl ⟨a, by simpa using b⟩
      · intro e he
        by_cases hek : e.1 = k
        · exact .inr (.inl hek)
        · left
          show e ∈ s2.unacked
          rw [hx.same.unacked]
          exact (hm e).2 (.inr ⟨he, hek⟩)

theorem handleLost_kept {env : Env} {x0 : Nat} {N : Nat} : ∀ {ts : List Nat} {s s' : St} {removed : List Nat}, RelOk x0 s → N ≤ s.nTx →
    (∀ e ∈ s.unacked, e.1 ∈ removed → N ≤ e.2.order ∧ e.2.nGreater = 0) → Present s removed ts → handleLost env s removed ts = .ok s' →
    RelOk x0 s' ∧ (∃ l, s'.out = s.out ++ l) ∧
    (∀ e ∈ s'.unacked, e ∈ s.unacked ∧ e.1 ∉ ts ∨ N ≤ e.2.order ∧ e.2.nGreater = 0) ∧
    ∀ e ∈ s.unacked, e.1 ∉ ts → e ∈ s'.unacked ∨ .exhausted e.2.net ∈ s'.out := by
  intro ts
  induction ts with
  | nil =>
    intro s s' removed hok _ _ _ h
    cases h
    exact ⟨hok, ⟨[], by simp⟩, fun e he => .inl ⟨he, by simp⟩, fun e he _ => .inl he⟩
  | cons t ts ih =>
    intro s s' removed hok hN hrem hp h
    unfold handleLost at h
    by_cases ht : t ∈ removed
    · rw [if_pos ht] at h
      obtain ⟨h1, h2, h3, h4⟩ := ih hok hN hrem (fun t' ht' => hp t' (List.mem_cons_of_mem _ ht')) h
      refine ⟨h1, h2, ?_, fun e he hn => h4 e he (fun hx => hn (List.mem_cons_of_mem _ hx))⟩
      intro e he
      rcases h3 e he with ⟨a, b⟩ | h
      · by_cases het : e.1 = t
        · exact .inr (hrem e a (het ▸ ht))
        · exact .inl ⟨a, by rw [List.mem_cons]; rintro (h | h); exact het h; exact b h⟩
      · exact .inr h
    · rw [if_neg ht] at h
      simp only [bind_ok] at h
      obtain ⟨r, hr, h⟩ := h
      obtain ⟨u, hu⟩ := (hp t (by simp)).resolve_left ht
      obtain ⟨k1, k2, k3, ⟨l, k4⟩, k5, k6⟩ := onLost_kept hok hu hr
      have hrem' : ∀ e ∈ r.1.unacked, e.1 ∈ removed ++ r.2 → N ≤ e.2.order ∧ e.2.nGreater = 0 := by
        intro e he hx
        rcases k5 e he with ⟨a, b⟩ | ⟨a, b⟩
        · rcases List.mem_append.1 hx with hx | hx
          · exact hrem e a hx
          · exact absurd hx b
        · exact ⟨Nat.le_trans hN a, b⟩
      have hp' : Present r.1 (removed ++ r.2) ts := by
        intro t' ht'
        rcases onLost_fine env (.tick 0) hok hu with ⟨n, h1, _⟩ | ⟨r', h1, _, h3⟩
        · rw [hr] at h1; cases h1
        · rw [hr] at h1
          obtain rfl := Except.ok.inj h1
          rcases hp t' (List.mem_cons_of_mem _ ht') with h4 | ⟨v, h4⟩
          · exact .inl (List.mem_append_left _ h4)
          · rcases h3 t' v h4 with h5 | h5
            · exact .inl (List.mem_append_right _ h5)
            · exact .inr h5
      obtain ⟨h1, ⟨l', h2⟩, h3, h4⟩ := ih k1 (Nat.le_trans hN k2) hrem' hp' h
      refine ⟨h1, ⟨l ++ l', by rw [h2, k4, List.append_assoc]⟩, ?_, ?_⟩
      · intro e he
        rcases h3 e he with ⟨a, b⟩ | h
        · rcases k5 e a with ⟨c, d⟩ | ⟨c, d⟩
          · by_cases het : e.1 = t
            · exact absurd (het ▸ k3) d
            · exact .inl ⟨c, by rw [List.mem_cons]; rintro (h | h); exact het h; exact b h⟩
          · exact .inr ⟨Nat.le_trans hN c, d⟩
        · exact .inr h
      · intro e he hn
        rcases k6 e he with h5 | h5 | h5
        · exact h4 e h5 (fun hx => hn (List.mem_cons_of_mem _ hx))
        · exact absurd (by rw [h5]; simp) hn
        · right; rw [h2]; exact List.mem_append_left _ h5

theorem ack_kept {env : Env} {x0 : Nat} {s s' : St} {k : Nat} {v : UFrag} (h : RelOk x0 s) (hk : (k, v) ∈ s.unacked)
    (ha : processAck env s k = .ok s') :
    (∀ t u, (t, u) ∈ s.unacked → u.order < v.order → u.nGreater + 1 < s.opts.lossThreshold →
      (t, { u with nGreater := u.nGreater + 1 }) ∈ s'.unacked ∨ .exhausted u.net ∈ s'.out) ∧
    (∀ t u, (t, u) ∈ s.unacked → v.order < u.order → (t, u) ∈ s'.unacked ∨ .exhausted u.net ∈ s'.out) ∧
    ∀ e ∈ s'.unacked, (s.nTx ≤ e.2.order ∧ e.2.nGreater = 0) ∨
      (v.order < e.2.order ∧ e ∈ s.unacked) ∨
      ∃ u, (e.1, u) ∈ s.unacked ∧ u.order < v.order ∧ u.nGreater + 1 < s.opts.lossThreshold ∧ e.2 = { u with nGreater := u.nGreater + 1 } := by
  have hkey : ∀ t u, (t, u) ∈ s.unacked → u.order = v.order → t = k := by
    intro t u hu ho
    have h1 := (h.win.key _ hu).1
    have h2 := (h.win.key _ hk).1
    simp only at h1 h2
    rw [h1, h2, ho]
  unfold processAck at ha
  rw [if_neg (by intro hn; exact look_none.1 hn v hk)] at ha
  simp only [bind_ok] at ha
  obtain ⟨r, hr, s1, h1, ha⟩ := ha
  obtain ⟨e1, e2⟩ := findLost_exact h hk hr
  obtain ⟨c, lost, h2, h3, h4⟩ := findLost_eq h hk
  rw [hr] at h2
  have hpair := Except.ok.inj h2
  have hlost : r.2 = lost := congrArg Prod.snd hpair
  have hfst : r.1 = { s with unacked := bump c s.unacked } := congrArg Prod.fst hpair
  rw [← hfst, e1] at h4
  rw [e1] at h1
  have hk' : (k, { v with nGreater := v.nGreater }) ∈ bump (fun e => if e.2.order < v.order then e.2.nGreater + 1 else e.2.nGreater) s.unacked :=
    mem_bump.2 ⟨_, hk, by simp only [Nat.lt_irrefl, if_false]⟩
  obtain ⟨f, h5, h6⟩ := onAcknowledged_eq h4 hk'
  rw [h1] at h5
  obtain rfl := Except.ok.inj h5
  obtain ⟨_, _, g1, g2⟩ := handleLost_kept (N := s.nTx) h6 (Nat.le_refl _) (by simp) (by
    intro t ht
    rw [hlost] at ht
    obtain ⟨h7, w, h8⟩ := h3 t ht
    exact .inr ⟨_, mem_del.2 ⟨mem_bump.2 ⟨_, h8, rfl⟩, h7⟩⟩) ha
  refine ⟨?_, ?_, ?_⟩
  · intro t u hu ho hth
    have hm : (t, { u with nGreater := u.nGreater + 1 }) ∈ bump (fun e => if e.2.order < v.order then e.2.nGreater + 1 else e.2.nGreater) s.unacked :=
      mem_bump.2 ⟨_, hu, by simp only [if_pos ho]⟩
    refine g2 _ (mem_del.2 ⟨hm, ?_⟩) ?_
    · intro htk
      simp only at htk
      subst htk
      rw [h.win.keyed.unique hu hk] at ho
      exact Nat.lt_irrefl _ ho
    · intro hx
      obtain ⟨w, w1, w2, w3⟩ := (e2 t).1 hx
      rw [h.win.keyed.unique w1 hu] at w3
      omega
  · intro t u hu ho
    have hm : (t, u) ∈ bump (fun e => if e.2.order < v.order then e.2.nGreater + 1 else e.2.nGreater) s.unacked :=
      mem_bump.2 ⟨_, hu, by simp only [if_neg (Nat.not_lt.2 (Nat.le_of_lt ho))]⟩
    refine g2 _ (mem_del.2 ⟨hm, ?_⟩) ?_
    · intro htk
      simp only at htk
      subst htk
      rw [h.win.keyed.unique hu hk] at ho
      exact Nat.lt_irrefl _ ho
    · intro hx
      obtain ⟨w, w1, w2, w3⟩ := (e2 t).1 hx
      rw [h.win.keyed.unique w1 hu] at w2
      omega
  · intro e he
    rcases g1 e he with ⟨a, b⟩ | a
    · obtain ⟨c1, c2⟩ := mem_del.1 a
      obtain ⟨e0, c3, rfl⟩ := mem_bump.1 c1
      simp only at b c2
      rcases Nat.lt_trichotomy e0.2.order v.order with ho | ho | ho
      · right; right
        refine ⟨e0.2, c3, ho, ?_, by simp only [if_pos ho]⟩
        rcases Nat.lt_or_ge (e0.2.nGreater + 1) s.opts.lossThreshold with hlt | hge
        · exact hlt
        · exact absurd ((e2 _).2 ⟨e0.2, c3, ho, hge⟩) b
      · exact absurd (hkey e0.1 e0.2 c3 ho) c2
      · right; left
        simp only [if_neg (Nat.not_lt.2 (Nat.le_of_lt ho))]
        exact ⟨ho, c3⟩
    · exact .inl a

/-! ## C91 -/

section
variable {env : Env} {o : Opts} {q0 x0 : Nat} {es : List Event} {s0 s : St} {ks : List Nat} (hx : x0 < W)
  (hrun : run env (init o q0 x0) es = .ok s0) (hks : processAcks env s0 ks = .ok s)
include hx hrun hks

omit hks in
theorem acked_relOk : ∀ {ks : List Nat} {s : St}, processAcks env s0 ks = .ok s → RelOk x0 s := by
  intro ks s hks
  rcases processAcks_fine env (.receive 0 { acks := ks }) (run_relOk (init_relOk o q0 x0 hx) hrun) (ks := ks) (fun k hk => hk) with ⟨n, h1, _⟩ | ⟨t, h1, h2, _⟩
  · rw [hks] at h1; cases h1
  · rw [hks] at h1
    obtain rfl := Except.ok.inj h1
    exact h2.right

/-- **C91**: `s` is the state after any run and the first Acks `ks` of a received LpPacket; the next Ack is for the stored fragment `k`. It is
not waiting any longer. For each fragment sent before, the counter goes up by one, and those that reach the threshold are declared lost:
they do not wait for this TxSequence any longer (they are sent again as a new transmission, or given up with their network packet). The others
go on waiting, unless a lost fragment of the same network packet makes it be given up. Fragments sent later are not touched otherwise. -/
theorem C91_ack {k : Nat} {v : UFrag} {s' : St} (hk : (k, v) ∈ s.unacked) (ha : processAck env s k = .ok s') :
    (∀ u ∈ s'.unacked.map (·.2), u.order ≠ v.order) ∧
    ∀ t u, (t, u) ∈ s.unacked →
      (u.order < v.order → u.nGreater + 1 < s.opts.lossThreshold →
        (t, { u with nGreater := u.nGreater + 1 }) ∈ s'.unacked ∨ .exhausted u.net ∈ s'.out) ∧
      (u.order < v.order → s.opts.lossThreshold ≤ u.nGreater + 1 → ∀ w ∈ s'.unacked.map (·.2), w.order ≠ u.order) ∧
      (v.order < u.order → (t, u) ∈ s'.unacked ∨ .exhausted u.net ∈ s'.out) := by
  have hok := acked_relOk hx hrun hks
  obtain ⟨h1, h2, h3⟩ := ack_kept hok hk ha
  have hinj : ∀ {t t' : Nat} {u u' : UFrag}, (t, u) ∈ s.unacked → (t', u') ∈ s.unacked → u.order = u'.order → u = u' := by
    intro t t' u u' a b c
    have e1 := (hok.win.key _ a).1
    have e2 := (hok.win.key _ b).1
    simp only at e1 e2
    have : t = t' := by rw [e1, e2, c]
    subst this
    exact hok.win.keyed.unique a b
  refine ⟨?_, fun t u hu => ⟨h1 t u hu, ?_, h2 t u hu⟩⟩
  · intro u hu ho
    obtain ⟨e, he, rfl⟩ := List.mem_map.1 hu
    have hlt := (hok.win.key _ hk).2.1
    simp only at hlt
    rcases h3 e he with ⟨a, _⟩ | ⟨a, _⟩ | ⟨w, a, b, c, d⟩
    · omega
    · omega
    · rw [d] at ho; simp only at ho; omega
  · intro ho hth w hw hwo
    obtain ⟨e, he, rfl⟩ := List.mem_map.1 hw
    have hlt := (hok.win.key _ hu).2.1
    simp only at hlt
    rcases h3 e he with ⟨a, _⟩ | ⟨a, b⟩ | ⟨w, a, b, c, d⟩
    · omega
    · omega
    · rw [d] at hwo
      simp only at hwo
      rw [hinj a hu hwo] at c
      omega

/-- **C91**: whatever waits after an Ack is a new transmission with a counter of 0, or has waited before. -/
theorem C91_ack_only {k : Nat} {v : UFrag} {s' : St} (hk : (k, v) ∈ s.unacked) (ha : processAck env s k = .ok s') :
    ∀ t u', (t, u') ∈ s'.unacked → (s.nTx ≤ u'.order ∧ u'.nGreater = 0) ∨
      ∃ u, (t, u) ∈ s.unacked ∧ u' = { u with nGreater := if u.order < v.order then u.nGreater + 1 else u.nGreater } := by
  intro t u' hu'
  rcases (ack_kept (acked_relOk hx hrun hks) hk ha).2.2 _ hu' with h | ⟨h1, h2⟩ | ⟨u, h1, h2, h3, h4⟩
  · exact .inl h
  · exact .inr ⟨u', h2, by rw [if_neg (Nat.not_lt.2 (Nat.le_of_lt h1))]⟩
  · exact .inr ⟨u, h1, by rw [if_pos h2]; exact h4⟩

omit hx hrun hks in
/-- **C91**: an Ack for anything else has no effect. -/
theorem C91_unknown {k : Nat} (hk : ∀ v, (k, v) ∉ s.unacked) : processAck env s k = .ok s := by
  unfold processAck
  rw [if_pos (look_none.2 hk)]

end

/-- **C91**: without Acks, counters stay as they are; new transmissions start with 0. -/
theorem C91_other {env : Env} {o : Opts} {q0 x0 : Nat} {es : List Event} {s s' : St} (hx : x0 < W) (hrun : run env (init o q0 x0) es = .ok s)
    {ev : Event} (hev : ∀ e p, ev = .receive e p → p.acks = []) (h : step env s ev = .ok s') :
    ∀ t u', (t, u') ∈ s'.unacked → (t, u') ∈ s.unacked ∨ (s.nTx ≤ u'.order ∧ u'.nGreater = 0) := by
  have hna : ev.acks = [] := by
    cases ev with
    | receive e p => exact hev e p rfl
    | _ => rfl
  have hacts := step_acts (run_relOk (init_relOk o q0 x0 hx) hrun) h
  have key : s.nTx ≤ s'.nTx ∧ ∀ e ∈ s'.unacked, e ∈ s.unacked ∨ (s.nTx ≤ e.2.order ∧ e.2.nGreater = 0) := by
    refine hacts.preserve (P := fun t => s.nTx ≤ t.nTx ∧ ∀ e ∈ t.unacked, e ∈ s.unacked ∨ (s.nTx ≤ e.2.order ∧ e.2.nGreater = 0)) ?_
      ⟨Nat.le_refl _, fun e he => .inl he⟩
    intro a b _ _ act ⟨hn, hp⟩
    cases act with
    | quiet hu hf h1 h2 => rw [hu, h2]; exact ⟨hn, hp⟩
    | idle h => rw [h.same.unacked, h.same.nTx]; exact ⟨hn, hp⟩
    | bump c hin => exact absurd hna hin
    | ack hk hin => rw [hna] at hin; cases hin
    | giveUp hk hr hm => exact ⟨hn, fun e he => hp e ((hm e).1 he).1⟩
    | resend hk hr hm hfr hx =>
      rw [hx.same.unacked, hx.same.nTx]
      refine ⟨Nat.le_succ_of_le hn, fun e he => ?_⟩
      rcases (hm e).1 he with rfl | ⟨h1, _⟩
      · exact .inr ⟨hn, rfl⟩
      · exact hp e h1
    | sendRel he hm hq hx =>
      rw [hx.same.unacked, hx.same.nTx]
      refine ⟨Nat.le_trans hn hq.nTx, fun e he => ?_⟩
      rcases hq.fresh e he with h1 | ⟨h1, h2⟩
      · exact hp e h1
      · exact .inr ⟨Nat.le_trans hn h2, h1⟩
    | sendSeq he hm hx => rw [hx.same.unacked, hx.same.nTx]; exact ⟨hn, hp⟩
    | sendOne he hx => rw [hx.same.unacked, hx.same.nTx]; exact ⟨hn, hp⟩
  exact fun t u' hu' => key.2 _ hu'

/-- Three packets are sent, with a threshold of 2. -/
def lossState : Except Fault St :=
  run exEnv (init { relEnabled := true, lossThreshold := 2 } 0 0) [.send .data {} [6, 0], .send .data {} [6, 0], .send .data {} [6, 0]]

/-- After one Ack for a later packet, the first goes on waiting with a counter of 1; after two it is sent again with the next TxSequence. -/
example : (match lossState with
    | .ok s => match processAck exEnv s 2 with
      | .ok s1 => s1.unacked.map (fun e => (e.1, e.2.nGreater)) == [(1, 1), (3, 0)] &&
        match processAck exEnv s1 3 with
        | .ok s2 => s2.unacked.map (fun e => (e.1, e.2.nGreater, e.2.retx)) == [(4, 0, 1)]
        | _ => false
      | _ => false
    | _ => false) = true := by decide +kernel

/-! ## C45: the transport's MTU -/

/-- A frame respects the MTU of the transport, and the MTU set by options. -/
def Fits (env : Env) (o : Opts) (p : Pkt) : Prop :=
  ∀ m, env.mtu = some m → wireSize p ≤ m ∧ ∀ n, o.overrideMtu = some n → wireSize p ≤ n

theorem fits_iff {env : Env} {o : Opts} {p : Pkt} : Fits env o p ↔ (effMtu env o).any (fun m => decide (wireSize p > m)) = false := by
  unfold Fits effMtu
  cases env.mtu with
  | none => simp
  | some m =>
    cases ho : o.overrideMtu with
    | none => simp
    | some n => simp; omega

/-- **C45**: what is given to the transport never exceeds the transport's MTU, nor the MTU set by options at that time; and a packet is
dropped by the MTU check only if it does. -/
theorem C45_fits {env : Env} {s s' : St} {ev : Event} (h : step env s ev = .ok s') :
    ∃ l, s'.out = s.out ++ l ∧ ∀ p, (.frame p ∈ l → Fits env s.opts p) ∧ (.overMtu p ∈ l → ¬ Fits env s.opts p) := by
  obtain ⟨sf, _⟩ := step_flow (Q := fun _ => True) (H := fun _ => True) (fun _ _ _ => trivial) (fun _ _ => trivial) trivial
    (fun _ _ _ _ _ _ _ _ => ⟨fun _ _ => trivial, fun _ _ => trivial, fun _ _ _ => trivial⟩) (fun _ _ => trivial) h
  have hcalm : ∀ {t u : St}, Calm t u → ∃ l, u.out = t.out ++ l ∧ ∀ p, (.frame p ∈ l → Fits env s.opts p) ∧ (.overMtu p ∈ l → ¬ Fits env s.opts p) := by
    intro t u c
    obtain ⟨l, hl, hl'⟩ := c.out
    refine ⟨l, hl, fun p => ⟨fun hp => ?_, fun hp => ?_⟩⟩
    · have := (hl' _ hp).1; cases this
    · have := (hl' _ hp).1; cases this
  have happ : ∀ {a b c : List Out} {l l' : List Out}, b = a ++ l → c = b ++ l' →
      (∀ p, (.frame p ∈ l → Fits env s.opts p) ∧ (.overMtu p ∈ l → ¬ Fits env s.opts p)) →
      (∀ p, (.frame p ∈ l' → Fits env s.opts p) ∧ (.overMtu p ∈ l' → ¬ Fits env s.opts p)) →
      ∃ l, c = a ++ l ∧ ∀ p, (.frame p ∈ l → Fits env s.opts p) ∧ (.overMtu p ∈ l → ¬ Fits env s.opts p) := by
    intro a b c l l' h1 h2 h3 h4
    refine ⟨l ++ l', by rw [h2, h1, List.append_assoc], fun p => ⟨fun hp => ?_, fun hp => ?_⟩⟩
    · rcases List.mem_append.1 hp with hp | hp
      · exact (h3 p).1 hp
      · exact (h4 p).1 hp
    · rcases List.mem_append.1 hp with hp | hp
      · exact (h3 p).2 hp
      · exact (h4 p).2 hp
  have hflow : ∀ {t u : St}, t.opts = s.opts → Flow env (fun _ => True) t u →
      u.opts = s.opts ∧ ∃ l, u.out = t.out ++ l ∧ ∀ p, (.frame p ∈ l → Fits env s.opts p) ∧ (.overMtu p ∈ l → ¬ Fits env s.opts p) := by
    intro t u ht f
    refine f.preserve (P := fun u => u.opts = s.opts ∧ ∃ l, u.out = t.out ++ l ∧
      ∀ p, (.frame p ∈ l → Fits env s.opts p) ∧ (.overMtu p ∈ l → ¬ Fits env s.opts p)) ⟨ht, [], by simp, by simp⟩ ?_ ?_
    · intro a b ⟨h1, l, h2, h3⟩ c
      obtain ⟨l', h4, h5⟩ := hcalm c
      exact ⟨c.opts.trans h1, happ h2 h4 h3 h5⟩
    · intro a b p ⟨h1, l, h2, h3⟩ _ hs
      refine ⟨(sendLp_idle hs).2.trans h1, ?_⟩
      obtain ⟨n, _, _, r, hr, rfl⟩ := sendLp_spec hs
      obtain ⟨_, _, _, _, _, ms, hms, hms'⟩ := attachMark_eq env { a with ackQueue := a.ackQueue.drop n } { p with acks := p.acks ++ a.ackQueue.take n }
      rw [← hr] at hms
      have hmo : ∀ q, (.frame q ∉ ms) ∧ (.overMtu q ∉ ms) := by
        intro q; rcases hms' with rfl | rfl <;> simp
      rw [h1]
      unfold transmit
      split
      · rename_i hov
        refine happ h2 (l' := ms ++ [.overMtu r.2]) (by simp only [emit, hms]; simp) h3 (fun q => ⟨fun hq => ?_, fun hq => ?_⟩)
        · rcases List.mem_append.1 hq with hq | hq
          · exact absurd hq (hmo q).1
          · simp at hq
        · rcases List.mem_append.1 hq with hq | hq
          · exact absurd hq (hmo q).2
          · simp only [List.mem_singleton, Out.overMtu.injEq] at hq
            subst hq
            rw [fits_iff, hov]; simp
      · rename_i hov
        refine happ h2 (l' := ms ++ [.frame r.2]) (by simp only [emit, hms]; simp) h3 (fun q => ⟨fun hq => ?_, fun hq => ?_⟩)
        · rcases List.mem_append.1 hq with hq | hq
          · exact absurd hq (hmo q).1
          · simp only [List.mem_singleton, Out.frame.injEq] at hq
            subst hq
            rw [fits_iff]; simpa using hov
        · rcases List.mem_append.1 hq with hq | hq
          · exact absurd hq (hmo q).2
          · simp at hq
  have hnone : ∃ l, s.out = s.out ++ l ∧ ∀ p, (.frame p ∈ l → Fits env s.opts p) ∧ (.overMtu p ∈ l → ¬ Fits env s.opts p) := ⟨[], by simp, by simp⟩
  cases sf with
  | send f => exact (hflow rfl f).2
  | rto f => exact (hflow rfl f).2
  | dropTimer c => exact hcalm c
  | receiveOff _ c => exact hcalm c
  | @receive e p s1 s2 _ f h2 c =>
    obtain ⟨_, l, h3, h4⟩ := hflow rfl f
    obtain ⟨l', h5, h6⟩ := hcalm c
    have hs := (noteFrame_same env s1 p).2.2.2.1
    rw [← h2] at hs
    rw [hs] at h5
    exact happ h3 h5 h4 h6
  | @idle s1 _ h1 f _ =>
    subst h1
    exact (hflow (t := { s with idleTimer := false }) rfl f).2
  | idleOff _ he => rw [he]; exact hnone
  | tick he => subst he; exact hnone
  | @setOptions o' he => subst he; exact hnone

/-- With an MTU of 100 set by options, smaller than the transport's, a large packet is sent as fragments of at most 100 octets. -/
example : (match run { exEnv with mtu := some 1500 } (init { allowFragmentation := true, overrideMtu := some 100 } 0 0)
      [.send .data {} ([6, 200] ++ List.replicate 200 0)] with
    | .ok s => s.out.length == 5 && s.out.all (fun x => match x with | .frame p => decide (wireSize p ≤ 100) | _ => false)
    | _ => false) = true := by decide +kernel

end Verif.Lp
