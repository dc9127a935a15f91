/-
C45: with fragmentation on, which packets the final MTU check drops.
-/
import Verif.Lp.AckProps

namespace Verif.Lp

/-- What the packet takes, without the TLV headers of LpPacket and Fragment. -/
def bulk (p : Pkt) : Nat := othersSize p + optSize List.length p.frag

theorem othersSize_mark (p : Pkt) (m : Option Nat) : othersSize { p with hdr := { p.hdr with mark := some 1 } } ≤ othersSize { p with hdr := { p.hdr with mark := m } } + 5 := by
  have h : tlvSize 832 (nniSize 1) = 5 := by decide
  simp only [othersSize, hdrSize, optSize, h]
  omega

theorem othersSize_acks (p : Pkt) (l : List Nat) : othersSize { p with acks := l } = othersSize { p with acks := [] } + l.length * 12 := by
  have h := size_ack
  simp only [othersSize, h, List.length_nil]
  omega

theorem othersSize_tx (p : Pkt) (x : Nat) : othersSize p ≤ othersSize { p with txSeq := some x } ∧
    othersSize { p with txSeq := some x } ≤ othersSize p + 12 := by
  have h := size_tx
  simp only [othersSize, optSize, h]
  cases p.txSeq <;> simp <;> omega

theorem wire_lower {p : Pkt} (hb : isBare p = false) : ∃ c, wireSize p = 1 + varSize c + c ∧
    ∀ l : List Nat, p.acks = [] → wireSize { p with acks := l } = 1 + varSize (c + l.length * 12) + (c + l.length * 12) := by
  refine ⟨othersSize p + optSize (fun b => tlvSize 80 b.length) p.frag, ?_, ?_⟩
  · unfold wireSize
    rw [hb]
    rfl
  · intro l hp
    have hb' : isBare { p with acks := l } = false := by
      unfold isBare at hb ⊢
      rw [Bool.and_eq_false_iff] at hb ⊢
      rcases hb with h | h
      · exact .inl h
      · right
        rw [decide_eq_false_iff_not] at h ⊢
        intro he
        apply h
        have hl : l = [] := congrArg Pkt.acks he
        rw [← he]
        simp [hp, hl]
    unfold wireSize
    rw [hb']
    have h1 := othersSize_acks p l
    have h2 : ({ p with acks := [] } : Pkt) = p := by cases p; simp_all
    rw [h2] at h1
    simp only [Bool.false_eq_true, if_false, h1, tlvSize]
    have : varSize 100 = 1 := rfl
    rw [this]
    have e : othersSize p + l.length * 12 + optSize (fun b : Bytes => varSize 80 + varSize b.length + b.length) p.frag =
      othersSize p + optSize (fun b : Bytes => varSize 80 + varSize b.length + b.length) p.frag + l.length * 12 := by omega
    rw [e]

theorem ackFit_le : ∀ (q : List Nat) (room : Int), (ackFit room q = 0) ∨ ((ackFit room q : Int) * 12 ≤ room) := by
  intro q
  induction q with
  | nil => intro room; exact .inl rfl
  | cons a q ih =>
    intro room
    have h3 : ackSize = 12 := by decide
    simp only [ackFit, h3]
    split
    · exact .inl rfl
    · right
      rcases ih (room - 12) with h | h
      · have : ((12 : Nat) : Int) = 12 := rfl
        rw [this, h]; omega
      · have : ((12 : Nat) : Int) = 12 := rfl
        rw [this]; omega

/-- Before a congestion mark is added, the packet with its Acks fits, unless its size without Acks is 253 or 254. -/
theorem acked_fits {m : Nat} {p : Pkt} {q : List Nat} (hb : isBare p = false) (hp : p.acks = []) (hm : m ≤ 65535)
    (hn : q.take (ackFit (ackRoom (some m) p) q) ≠ [])
    (hbig : m < wireSize { p with acks := q.take (ackFit (ackRoom (some m) p) q) }) : wireSize p = 253 ∨ wireSize p = 254 := by
  obtain ⟨c, hc, hl⟩ := wire_lower hb
  obtain ⟨l, hl'⟩ : ∃ l, l = q.take (ackFit (ackRoom (some m) p) q) := ⟨_, rfl⟩
  rw [← hl'] at hn hbig
  rw [hl l hp] at hbig
  have hlen : l.length ≤ ackFit (ackRoom (some m) p) q := by rw [hl', List.length_take]; omega
  have hpos := List.length_pos_iff.2 hn
  rcases ackFit_le q (ackRoom (some m) p) with h0 | h0
  · omega
  · unfold ackRoom at h0 hlen
    simp only at h0 hlen
    generalize ackFit _ q = n at h0 hlen
    generalize l.length = k at *
    rw [hc] at h0 ⊢
    have h88 : varSize 8800 = 3 := by decide
    rw [h88] at h0
    unfold varSize at h0 hbig ⊢
    repeat' split at h0
    all_goals repeat' split at hbig
    all_goals repeat' split
    all_goals omega

/-- How much is kept free for a congestion mark. -/
def markRoom (o : Opts) : Nat := if o.allowCongestionMarking then congestionMarkSize else 0

/-- A packet that may be handed to sendLpPacket. -/
def Small (o : Opts) (m : Nat) (p : Pkt) : Prop := p.acks = [] ∧ bulk p + 20 + markRoom o ≤ m

/-- A packet that may be stored for retransmission. -/
def SmallTx (o : Opts) (m : Nat) (p : Pkt) : Prop := o.relEnabled = true ∧ Small o m { p with txSeq := some 0 }

/-- The packets that the MTU check may drop. -/
def Dropped (o : Opts) (x : Pkt) : Prop :=
  o.relEnabled = true ∧ x.acks ≠ [] ∧
    (o.allowCongestionMarking = true ∧ x.hdr.mark = some 1 ∨ wireSize { x with acks := [] } = 253 ∨ wireSize { x with acks := [] } = 254)

theorem smallTx_tx {o : Opts} {m : Nat} {p : Pkt} {x : Nat} (h : SmallTx o m p) : SmallTx o m { p with txSeq := some x } := h

theorem SmallTx.small {o : Opts} {m : Nat} {p : Pkt} (h : SmallTx o m p) : Small o m p := by
  refine ⟨h.2.1, ?_⟩
  have h1 := (othersSize_tx p 0).1
  have h2 := h.2.2
  unfold bulk at h2 ⊢
  simp only at h2
  omega

theorem attachMark_cases (env : Env) (s : St) (p : Pkt) : (attachMark env s p).2 = p ∨
    s.opts.allowCongestionMarking = true ∧ (attachMark env s p).2 = { p with hdr := { p.hdr with mark := some 1 } } := by
  unfold attachMark
  split
  · rename_i h
    unfold checkCongestion
    simp only
    repeat' split
    all_goals first
      | exact .inl rfl
      | exact .inr ⟨h, rfl⟩
  · exact .inl rfl

theorem sendLp_drop {env : Env} {s s' : St} {p : Pkt} {m : Nat} (hm : m ≤ 65535) (hmtu : effMtu env s.opts = some m)
    (hp : Small s.opts m p) (h : sendLp env s p = .ok s') :
    ∃ l, s'.out = s.out ++ l ∧ ∀ x, .overMtu x ∈ l → Dropped s.opts x := by
  obtain ⟨n, hn1, hn0, r, hr, rfl⟩ := sendLp_spec h
  obtain ⟨_, _, _, ha, _, ms, hms, hms'⟩ := attachMark_eq env { s with ackQueue := s.ackQueue.drop n } { p with acks := p.acks ++ s.ackQueue.take n }
  have hc := attachMark_cases env { s with ackQueue := s.ackQueue.drop n } { p with acks := p.acks ++ s.ackQueue.take n }
  rw [← hr] at ha hms hc
  obtain ⟨x, hx, hxs, hov⟩ := transmit_eq (effMtu env s.opts) r.1 r.2
  rw [hx]
  refine ⟨ms ++ [x], by simp [emit, hms], ?_⟩
  intro y hy
  have hxy : Out.overMtu y = x := by
    rcases List.mem_append.1 hy with hy | hy
    · rcases hms' with rfl | rfl <;> simp at hy
    · exact List.mem_singleton.1 hy
  rcases hov with rfl | ⟨rfl, m', hm', hlt⟩
  · cases hxy
  · cases hxy
    rw [hmtu] at hm'
    cases hm'
    rw [hp.1, List.nil_append] at ha
    simp only [hp.1, List.nil_append] at hc
    -- Acks must have been attached
    have hacks : s.ackQueue.take n ≠ [] := by
      intro he
      rw [he] at hc ha
      have hpp : ({ p with acks := [] } : Pkt) = p := by have := hp.1; cases p; simp_all
      rw [hpp] at hc
      have hb := hp.2
      unfold bulk at hb
      have hw := wireSize_le r.2
      rcases hc with hc | ⟨hcm, hc⟩
      · rw [hc] at hw hlt; omega
      · have h1 := othersSize_mark p p.hdr.mark
        have h2 : ({ p with hdr := { p.hdr with mark := p.hdr.mark } } : Pkt) = p := by cases p; rfl
        rw [h2] at h1
        have h3 : markRoom s.opts = 12 := by unfold markRoom; rw [if_pos hcm]; decide
        rw [hc] at hw hlt
        simp only [hp.1] at hw hlt h1
        omega
    have hrel : s.opts.relEnabled = true := by
      cases hrel : s.opts.relEnabled with
      | true => rfl
      | false => rw [hn0 hrel] at hacks; simp at hacks
    refine ⟨hrel, by rw [ha]; exact hacks, ?_⟩
    rcases hc with hc | ⟨hcm, hc⟩
    · right
      have hpp : ({ r.2 with acks := [] } : Pkt) = p := by rw [hc]; have := hp.1; cases p; simp_all
      rw [hpp]
      obtain ⟨hb, hn⟩ := hn1 hrel
      rw [hmtu] at hn
      rw [hn] at hc hacks
      rw [hc] at hlt
      exact acked_fits hb hp.1 hm hacks hlt
    · left
      exact ⟨hcm, by rw [hc]⟩

theorem flow_drop {env : Env} {s s' : St} {m : Nat} (hm : m ≤ 65535) (hmtu : effMtu env s.opts = some m) (h : Flow env (Small s.opts m) s s') :
    s'.opts = s.opts ∧ ∃ l, s'.out = s.out ++ l ∧ ∀ x, .overMtu x ∈ l → Dropped s.opts x := by
  refine h.preserve (P := fun t => t.opts = s.opts ∧ ∃ l, t.out = s.out ++ l ∧ ∀ x, .overMtu x ∈ l → Dropped s.opts x) ⟨rfl, [], by simp, by simp⟩ ?_ ?_
  · intro t u ⟨h1, l, h2, h3⟩ c
    obtain ⟨l', ho, hl⟩ := c.out
    refine ⟨c.opts.trans h1, l ++ l', by rw [ho, h2, List.append_assoc], ?_⟩
    intro x hx
    rcases List.mem_append.1 hx with hx | hx
    · exact h3 x hx
    · have := (hl _ hx).1; cases this
  · intro t u p ⟨h1, l, h2, h3⟩ hq hs
    obtain ⟨l', ho, hl⟩ := sendLp_drop hm (by rw [h1]; exact hmtu) (by rw [h1]; exact hq) hs
    refine ⟨(sendLp_idle hs).2.trans h1, l ++ l', by rw [ho, h2, List.append_assoc], ?_⟩
    intro x hx
    rcases List.mem_append.1 hx with hx | hx
    · exact h3 x hx
    · rw [← h1]; exact hl x hx

theorem netMtu_some {env : Env} {o : Opts} {m : Nat} {x : Option Nat} (hm : effMtu env o = some m) (h : netMtu env o = .ok x) :
    (if o.relEnabled then reservedHeaderSpace else 0) + (if o.allowCongestionMarking then congestionMarkSize else 0) ≤ m ∧
    x = some (m - ((if o.relEnabled then reservedHeaderSpace else 0) + (if o.allowCongestionMarking then congestionMarkSize else 0))) := by
  unfold netMtu at h
  rw [hm] at h
  simp only at h
  generalize (if o.relEnabled = true then reservedHeaderSpace else 0) + (if o.allowCongestionMarking = true then congestionMarkSize else 0) = r at h ⊢
  split at h
  · cases h
  · exact ⟨by omega, (Except.ok.inj h).symm⟩

theorem makeFrags_small {env : Env} {o : Opts} {h : Hdr} {net : Bytes} {m : Nat} (hf : o.allowFragmentation = true) (hm : effMtu env o = some m)
    {fs : List Pkt} (hfs : makeFrags env o { hdr := h, frag := some net } = .ok (some fs)) :
    ∀ f ∈ fs, (o.relEnabled = false → fs.length = 1 → Small o m f) ∧
      (o.relEnabled = true ∨ 1 < fs.length → ∀ q, Small o m { f with seq := some q }) ∧
      (o.relEnabled = true → ∀ q x, SmallTx o m { f with seq := some q, txSeq := some x }) := by
  have hacks := makeFrags_acks rfl hfs
  have hres : ∀ m', netMtu env o = .ok (some m') → m' + (if o.relEnabled then 12 else 0) + markRoom o ≤ m := by
    intro m' h'
    obtain ⟨h1, h2⟩ := netMtu_some hm h'
    have h2 := Option.some.inj h2
    have e1 : reservedHeaderSpace = 12 := by decide
    have e2 : markRoom o = if o.allowCongestionMarking = true then congestionMarkSize else 0 := rfl
    rw [e1, ← e2] at h1 h2
    omega
  have key : ∀ (m' : Nat) (f : Pkt), netMtu env o = .ok (some m') → f.acks = [] →
      (∀ q, othersSize { f with seq := some q } + optSize List.length f.frag + 20 ≤ m') →
      (Small o m f) ∧ (∀ q, Small o m { f with seq := some q }) ∧
      (o.relEnabled = true → ∀ q x, SmallTx o m { f with seq := some q, txSeq := some x }) := by
    intro m' f h' ha hr
    have hb := hres m' h'
    have hseq : othersSize f ≤ othersSize { f with seq := some 0 } := by
      simp only [othersSize, optSize]; cases f.seq <;> simp
    refine ⟨⟨ha, ?_⟩, fun q => ⟨ha, ?_⟩, fun hrel q x => ⟨hrel, ha, ?_⟩⟩
    · have := hr 0; unfold bulk; omega
    · have := hr q; unfold bulk; simp only; omega
    · have h1 := hr q
      have h2 := (othersSize_tx { f with seq := some q } 0).2
      rw [hrel, if_pos rfl] at hb
      unfold bulk
      simp only at h2 ⊢
      omega
  have hmk := hfs
  unfold makeFrags at hmk
  simp only [bind_ok, hf, if_true] at hmk
  obtain ⟨mm, hmm, hmk⟩ := hmk
  have hsome : ∃ m', mm = some m' := ⟨_, (netMtu_some hm hmm).2⟩
  obtain ⟨m', rfl⟩ := hsome
  simp only at hmk
  intro f hff
  have hroom : ∀ q, othersSize { f with seq := some q } + optSize List.length f.frag + 20 ≤ m' := by
    by_cases hn : net = []
    · subst hn
      have hfs1 := fragmentPacket_nil rfl hmk
      subst hfs1
      obtain rfl := List.mem_singleton.1 hff
      rcases fragmentPacket_ok hmk with ⟨_, hle⟩ | ⟨c, cs, hcs⟩
      · intro q
        have h1 := othersSize_add_le { hdr := h, frag := some [] }
        have h2 : othersSize { ({ hdr := h, frag := some [] } : Pkt) with seq := some q } ≤ othersSize { hdr := h, frag := some [] } + 10 := by
          have := size_seq
          simp only [othersSize, optSize]; omega
        simp only [maxSingleFragOverhead] at hle
        simp only at h1 h2 ⊢
        omega
      · cases cs with
        | nil => simp [numbered] at hcs
        | cons b cs => simp [numbered] at hcs
    · rcases fragment_cases (nMax := o.fragMax) (mtu := m') (p := { hdr := h, frag := some net }) rfl hn rfl rfl with ⟨hle, he⟩ | ⟨_, _, he⟩ | ⟨_, fr, he, hs⟩
      · rw [hmk] at he
        obtain rfl := Option.some.inj (Except.ok.inj he)
        obtain rfl := List.mem_singleton.1 hff
        intro q
        have h1 := othersSize_add_le { hdr := h, frag := some net }
        have h2 : othersSize { ({ hdr := h, frag := some net } : Pkt) with seq := some q } ≤ othersSize { hdr := h, frag := some net } + 10 := by
          have := size_seq
          simp only [othersSize, optSize]; omega
        simp only [maxSingleFragOverhead] at hle
        simp only at h1 h2 ⊢
        omega
      · rw [hmk] at he; cases he
      · rw [hmk] at he
        obtain rfl := Option.some.inj (Except.ok.inj he)
        exact hs.room f hff
  obtain ⟨k1, k2, k3⟩ := key m' f hmm (hacks f hff) hroom
  exact ⟨fun _ _ => k1, fun _ => k2, k3⟩

/-- Options under which C45 is stated: fragmentation is allowed, the effective MTU is `m`, and reliability and congestion marking are as in `o`. -/
def Alike (env : Env) (o : Opts) (m : Nat) (o' : Opts) : Prop :=
  o'.allowFragmentation = true ∧ effMtu env o' = some m ∧ o'.relEnabled = o.relEnabled ∧ o'.allowCongestionMarking = o.allowCongestionMarking

theorem drop_step {env : Env} {o : Opts} {m : Nat} (hm : 64 ≤ m ∧ m ≤ 65535) {s s' : St} {ev : Event} (ho : Alike env o m s.opts)
    (hset : ∀ o', ev = .setOptions o' → Alike env o m o') (hh : Held (SmallTx o m) s) (hd : ∀ x, .overMtu x ∈ s.out → Dropped o x)
    (h : step env s ev = .ok s') : Alike env o m s'.opts ∧ Held (SmallTx o m) s' ∧ ∀ x, .overMtu x ∈ s'.out → Dropped o x := by
  obtain ⟨hfrag, hmtu, hrel, hmark⟩ := ho
  have eS : Small s.opts m = Small o m := by funext p; simp only [Small, markRoom, hmark]
  have eT : SmallTx s.opts m = SmallTx o m := by funext p; simp only [SmallTx, eS, hrel]
  have eD : Dropped s.opts = Dropped o := by funext p; simp only [Dropped, hrel, hmark]
  obtain ⟨sf, hh'⟩ := step_flow (Q := Small o m) (H := SmallTx o m) (fun _ _ h => smallTx_tx h) (fun _ h => h.small)
    (by refine ⟨rfl, ?_⟩
        have h1 : bulk {} = 0 := by decide
        have h2 : markRoom o ≤ 12 := by unfold markRoom; split <;> decide
        omega)
    (by intro k t net _ fs hfs f hf
        have := makeFrags_small hfrag hmtu hfs f hf
        rw [eS, eT] at this
        exact this) hh h
  have hcalm : ∀ {t u : St}, Calm t u → ∀ x, .overMtu x ∈ u.out → .overMtu x ∈ t.out := by
    intro t u c x hx
    obtain ⟨l, hl, hl'⟩ := c.out
    rw [hl] at hx
    rcases List.mem_append.1 hx with hx | hx
    · exact hx
    · have := (hl' _ hx).1; cases this
  have hflow : ∀ {t u : St}, t.opts = s.opts → Flow env (Small o m) t u → u.opts = s.opts ∧ ∀ x, .overMtu x ∈ u.out → .overMtu x ∈ t.out ∨ Dropped o x := by
    intro t u ht f
    rw [← eS, ← ht] at f
    obtain ⟨h1, l, h2, h3⟩ := flow_drop hm.2 (by rw [ht]; exact hmtu) f
    refine ⟨h1.trans ht, fun x hx => ?_⟩
    rw [h2] at hx
    rcases List.mem_append.1 hx with hx | hx
    · exact .inl hx
    · right; rw [← eD, ← ht]; exact h3 x hx
  have ho' : Alike env o m s.opts := ⟨hfrag, hmtu, hrel, hmark⟩
  have done : ∀ {u : St}, u.opts = s.opts → (∀ x, .overMtu x ∈ u.out → .overMtu x ∈ s.out ∨ Dropped o x) → u = s' →
      Alike env o m s'.opts ∧ Held (SmallTx o m) s' ∧ ∀ x, .overMtu x ∈ s'.out → Dropped o x := by
    intro u h1 h2 h3
    subst h3
    refine ⟨by rw [h1]; exact ho', hh', fun x hx => ?_⟩
    rcases h2 x hx with h | h
    · exact hd x h
    · exact h
  cases sf with
  | send f => obtain ⟨a, b⟩ := hflow rfl f; exact done a b rfl
  | rto f => obtain ⟨a, b⟩ := hflow rfl f; exact done a b rfl
  | dropTimer c => exact done c.opts (fun x hx => .inl (hcalm c x hx)) rfl
  | receiveOff _ c => exact done c.opts (fun x hx => .inl (hcalm c x hx)) rfl
  | @receive e p s1 s2 _ f h2 c =>
    obtain ⟨a, b⟩ := hflow rfl f
    have hs := noteFrame_same env s1 p
    rw [← h2] at hs
    refine done (c.opts.trans (hs.1.trans a)) (fun x hx => b x ?_) rfl
    have := hcalm c x hx
    rwa [hs.2.2.2.1] at this
  | @idle s1 _ h1 f _ =>
    subst h1
    obtain ⟨a, b⟩ := hflow (t := { s with idleTimer := false }) rfl f; exact done a b rfl
  | idleOff _ he => exact done rfl (fun x hx => .inl hx) he.symm
  | tick he => subst he; exact ⟨ho', hh', hd⟩
  | @setOptions o' he => subst he; exact ⟨hset o' rfl, hh', hd⟩

theorem drop_run {env : Env} {o : Opts} {m : Nat} (hm : 64 ≤ m ∧ m ≤ 65535) : ∀ {es : List Event} {s s' : St}, Alike env o m s.opts →
    (∀ o', .setOptions o' ∈ es → Alike env o m o') → Held (SmallTx o m) s → (∀ x, .overMtu x ∈ s.out → Dropped o x) →
    run env s es = .ok s' → ∀ x, .overMtu x ∈ s'.out → Dropped o x := by
  intro es
  induction es with
  | nil => intro s s' _ _ _ hd h; cases h; exact hd
  | cons e es ih =>
    intro s s' ho hset hh hd h
    simp only [run, bind_ok] at h
    obtain ⟨s1, h1, h2⟩ := h
    obtain ⟨a, b, c⟩ := drop_step hm ho (fun o' he => hset o' (by rw [he]; exact List.mem_cons_self ..)) hh hd h1
    exact ih a (fun o' he => hset o' (List.mem_cons_of_mem _ he)) b c h2

/-! ## C45 -/

/-- **C45** (partial): with fragmentation on, an LpPacket dropped for exceeding the MTU carries Acks, and either a congestion mark was added
after the Acks, or its size without the Acks is 253 or 254 octets. Missing: the code does drop such packets (`C45_mark`, `C45_length`). -/
theorem C45_partial {env : Env} {o : Opts} {q0 x0 m : Nat} {es : List Event} {s : St} (hm : 64 ≤ m ∧ m ≤ 65535)
    (ho : ∀ o', InForce o es o' → Alike env o m o') (h : run env (init o q0 x0) es = .ok s) {p : Pkt} (hp : .overMtu p ∈ s.out) :
    o.relEnabled = true ∧ p.acks ≠ [] ∧
      (o.allowCongestionMarking = true ∧ p.hdr.mark = some 1 ∨ wireSize { p with acks := [] } = 253 ∨ wireSize { p with acks := [] } = 254) :=
  drop_run hm (ho o (.inl rfl)) (fun o' h => ho o' (.inr h)) (fun e he => by cases he) (fun x hx => by cases hx) h p hp

/-- **C45** (partial): in particular, nothing is dropped without reliability. -/
theorem C45_unreliable_partial {env : Env} {o : Opts} {q0 x0 m : Nat} {es : List Event} {s : St} (hm : 64 ≤ m ∧ m ≤ 65535)
    (ho : ∀ o', InForce o es o' → Alike env o m o') (h : run env (init o q0 x0) es = .ok s) (hr : o.relEnabled = false) (p : Pkt) :
    .overMtu p ∉ s.out := by
  intro hp
  have := (C45_partial hm ho h hp).1
  rw [hr] at this; cases this

/-- Received frames with the given TxSequences. -/
def ackables (n : Nat) : List Event := (List.range n).map (fun i => .receive 0 { txSeq := some i, frag := some [5, 0] })

/-- **C45** does not hold: Acks are added up to the MTU, then a congestion mark is added. -/
theorem C45_mark : ∃ (env : Env) (o : Opts) (es : List Event), effMtu env o = some 278 ∧ o.allowFragmentation = true ∧
    (∀ o', .setOptions o' ∉ es) ∧
    (match run env (init o 0 0) es with
      | .ok s => s.out.any (fun x => match x with | .overMtu p => p.frag.isSome && p.hdr.mark == some 1 && !p.acks.isEmpty | _ => false)
      | _ => false) = true := by
  refine ⟨{ exEnv with mtu := some 278, qlen := fun _ => 100000 },
    { allowFragmentation := true, relEnabled := true, allowCongestionMarking := true },
    ackables 40 ++ [.send .interest {} [5, 2, 7, 0], .tick 1000, .send .interest {} ([5, 8] ++ List.replicate 8 1)], rfl, rfl, ?_, by decide +kernel⟩
  intro o' h
  simp [ackables] at h

/-- **C45** does not hold without congestion marks either: the space kept for a longer TLV-LENGTH is computed from the size of the packet,
instead of its TLV-LENGTH (lp-reliability.cpp:194-195). A packet of 254 octets, with a TLV-LENGTH of 252, takes 2 octets more than assumed. -/
theorem C45_length : ∃ (env : Env) (o : Opts) (es : List Event), effMtu env o = some 278 ∧ o.allowFragmentation = true ∧
    o.allowCongestionMarking = false ∧ (∀ o', .setOptions o' ∉ es) ∧
    (match run env (init o 0 0) es with
      | .ok s => s.out.any (fun x => match x with | .overMtu p => p.frag == some ([5, 226] ++ List.replicate 226 1) && wireSize p == 280 | _ => false)
      | _ => false) = true := by
  refine ⟨{ exEnv with mtu := some 278 }, { allowFragmentation := true, relEnabled := true },
    ackables 2 ++ [.send .interest {} ([5, 226] ++ List.replicate 226 1)], rfl, rfl, rfl, ?_, by decide +kernel⟩
  intro o' h
  simp [ackables] at h

/-- The hypotheses of C45_partial are met by this run. -/
example : ∀ o', InForce { allowFragmentation := true, relEnabled := true } (ackables 2 ++ [.send .interest {} ([5, 226] ++ List.replicate 226 1)]) o' →
    Alike { exEnv with mtu := some 278 } { allowFragmentation := true, relEnabled := true } 278 o' := by
  rintro o' (rfl | h)
  · exact ⟨rfl, rfl, rfl, rfl⟩
  · simp [ackables] at h

end Verif.Lp
