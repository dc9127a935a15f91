import Verif.Fs.Check
import Verif.Fs.Chans
import Verif.Eth.Props

/-! What each factory does with its section. -/
namespace Verif.Fs
open Verif.Cf (Node)

theorem mem_add {x y : List Char} {l : List (List Char)} : x ∈ add y l ↔ x = y ∨ x ∈ l := by
  unfold add
  by_cases h : y ∈ l
  · rw [if_pos h]
    constructor
    · exact Or.inr
    · rintro (rfl | h')
      · exact h
      · exact h'
  · rw [if_neg h, List.mem_cons]

/-! ### TCP -/

theorem tcpFamily_done {e : Env} {o : TcpOpts} {v6 enable : Bool} {scheme : List Char} {t : Tcp} (hi : ChInv t.chans)
    (hok : (tcpFamily e o v6 enable scheme t).2 = true) :
    ChansDone o.listen (fun k => enable = true ∧ k = (v6, o.port)) t.marking 0 0 t.chans (tcpFamily e o v6 enable scheme t).1.chans ∧
    ChInv (tcpFamily e o v6 enable scheme t).1.chans ∧ (tcpFamily e o v6 enable scheme t).1.marking = t.marking ∧
    (tcpFamily e o v6 enable scheme t).1.loc = t.loc ∧
    ∀ x, x ∈ (tcpFamily e o v6 enable scheme t).1.schemes ↔ (enable = true ∧ x = scheme) ∨ x ∈ t.schemes := by
  unfold tcpFamily at hok ⊢
  cases enable with
  | false => exact ⟨(ChansDone.refl hi).congr (by simp), hi, rfl, rfl, by simp⟩
  | true =>
    simp only [if_true] at hok ⊢
    cases hr : (openChan o.listen e.tcp ⟨(v6, o.port), false, false, t.marking, 0, 0⟩ t.chans).2 with
    | false => rw [hr] at hok; simp at hok
    | true =>
      have := openChan_done hi rfl rfl hr
      simp only [if_true, true_and]
      exact ⟨this.1, this.2, fun x => mem_add⟩

theorem keys_iff (port : Nat) (v4 v6 : Bool) (k : Bool × Nat) : Keys port v4 v6 k ↔ (v4 = true ∧ k = (false, port)) ∨ (v6 = true ∧ k = (true, port)) := Iff.rfl

structure TcpDone (e : Env) (x : Node) (m : Bool) (t t' : Tcp) (o : TcpOpts) : Prop where
  read : readTcp e x = some o
  chans : ChansDone o.listen (Keys o.port o.v4 o.v6) m 0 0 t.chans t'.chans
  inv : ChInv t'.chans
  marking : t'.marking = m
  loc : t'.loc = o.loc
  schemes : ∀ y, y ∈ t'.schemes ↔ (y = sTcp ∨ (o.v4 = true ∧ y = sTcp4) ∨ (o.v6 = true ∧ y = sTcp6)) ∨ y ∈ t.schemes

theorem tcpConfig_done {e : Env} {x : Node} {m : Bool} {t : Tcp} (hi : ChInv t.chans) (hok : (tcpConfig e (some x) m false t).2 = true) :
    ∃ o, TcpDone e x m t (tcpConfig e (some x) m false t).1 o := by
  unfold tcpConfig at hok ⊢
  dsimp only at hok ⊢
  cases hr : readTcp e x with
  | none => rw [hr] at hok; simp at hok
  | some o =>
    rw [hr] at hok
    simp only [Bool.false_eq_true, if_false] at hok ⊢
    refine ⟨o, ?_⟩
    have h1 := @tcpFamily_done e o false o.v4 sTcp4 { t with marking := m, schemes := add sTcp t.schemes } hi
    generalize tcpFamily e o false o.v4 sTcp4 { t with marking := m, schemes := add sTcp t.schemes } = a at *
    cases ha : a.2 with
    | false => rw [ha] at hok; simp [ha] at hok
    | true =>
      rw [if_pos ha] at hok
      obtain ⟨c1, c2, c3, c4, c5⟩ := h1 ha
      have h2 := @tcpFamily_done e o true o.v6 sTcp6 a.1 c2
      generalize tcpFamily e o true o.v6 sTcp6 a.1 = b at *
      cases hb : b.2 with
      | false => rw [hb] at hok; simp [hb] at hok
      | true =>
        obtain ⟨d1, d2, d3, d4, d5⟩ := h2 hb
        simp only [if_true]
        dsimp only at c1 c3 c4 c5
        rw [c3] at d1
        refine ⟨hr, (c1.trans d1).congr (keys_iff o.port o.v4 o.v6), d2, d3.trans c3, rfl, ?_⟩
        intro y
        dsimp only
        rw [d5, c5, mem_add]
        constructor
        · rintro (h | h | h | h)
          · exact Or.inl (Or.inr (Or.inr h))
          · exact Or.inl (Or.inr (Or.inl h))
          · exact Or.inl (Or.inl h)
          · exact Or.inr h
        · rintro ((h | h | h) | h)
          · exact Or.inr (Or.inr (Or.inl h))
          · exact Or.inr (Or.inl h)
          · exact Or.inl h
          · exact Or.inr (Or.inr (Or.inr h))

/-! ### UDP -/

/-- Which channels are created. -/
def udpEps (o : UdpOpts) : List Mc.Ep := (if o.v4 then [⟨⟨false, 0⟩, o.port⟩] else []) ++ (if o.v6 then [⟨⟨true, 0⟩, o.port⟩] else [])

theorem udpFamily_done {e : Env} {o : UdpOpts} {v6 enable : Bool} {scheme : List Char} {u : Udp} (hi : ChInv u.chans)
    (hok : (udpFamily e o v6 enable scheme u).2 = true) :
    ChansDone o.listen (fun k => enable = true ∧ k = (v6, o.port)) u.marking o.idle u.mtu u.chans (udpFamily e o v6 enable scheme u).1.chans ∧
    ChInv (udpFamily e o v6 enable scheme u).1.chans ∧ (udpFamily e o v6 enable scheme u).1.marking = u.marking ∧
    (udpFamily e o v6 enable scheme u).1.mtu = u.mtu ∧
    (∀ x, x ∈ (udpFamily e o v6 enable scheme u).1.schemes ↔ (enable = true ∧ (x = scheme ∨ x = sUdp)) ∨ x ∈ u.schemes) ∧
    Mc.createChannels u.mc (if enable then [⟨⟨v6, 0⟩, o.port⟩] else []) = ((udpFamily e o v6 enable scheme u).1.mc, true) := by
  unfold udpFamily at hok ⊢
  cases enable with
  | false => exact ⟨(ChansDone.refl hi).congr (by simp), hi, rfl, rfl, by simp, rfl⟩
  | true =>
    simp only [if_true] at hok ⊢
    cases hm : Mc.createChannel u.mc ⟨⟨v6, 0⟩, o.port⟩ with
    | none => rw [hm] at hok; simp at hok
    | some mc =>
      rw [hm] at hok
      dsimp only at hok ⊢
      cases hr : (openChan o.listen e.udp ⟨(v6, o.port), false, false, u.marking, o.idle, u.mtu⟩ u.chans).2 with
      | false => rw [hr] at hok; simp at hok
      | true =>
        have := openChan_done hi rfl rfl hr
        simp only [if_true, true_and]
        refine ⟨this.1, this.2, fun x => ?_, ?_⟩
        · rw [mem_add, mem_add]
          constructor
          · rintro (h | h | h)
            · exact Or.inl (Or.inl h)
            · exact Or.inl (Or.inr h)
            · exact Or.inr h
          · rintro ((h | h) | h)
            · exact Or.inl h
            · exact Or.inr (Or.inl h)
            · exact Or.inr (Or.inr h)
        · simp [Mc.createChannels, hm]

theorem createChannels_append : ∀ (a b : List Mc.Ep) (s s1 : Mc.St), Mc.createChannels s a = (s1, true) →
    Mc.createChannels s (a ++ b) = Mc.createChannels s1 b
  | [], b, s, s1, h => by
    have h : (s, true) = (s1, true) := h
    cases h; rfl
  | ep :: a, b, s, s1, h => by
    rw [List.cons_append, Mc.createChannels]
    rw [Mc.createChannels] at h
    cases hc : Mc.createChannel s ep with
    | none => rw [hc] at h; cases h
    | some s' => rw [hc] at h; exact createChannels_append a b s' s1 h

structure UdpDone (e : Env) (c : Option Node) (m : Bool) (u u' : Udp) (o : UdpOpts) : Prop where
  read : readUdp e c = some o
  chans : ChansDone o.listen (Keys o.port o.v4 o.v6) m o.idle o.mtu u.chans u'.chans
  inv : ChInv u'.chans
  marking : u'.marking = m
  mtu : u'.mtu = o.mtu
  adHoc : u'.adHoc = o.adHoc
  schemes : ∀ y, y ∈ u'.schemes ↔ ((o.v4 = true ∧ (y = sUdp4 ∨ y = sUdp)) ∨ (o.v6 = true ∧ (y = sUdp6 ∨ y = sUdp))) ∨ y ∈ u.schemes
  mc : u'.mc = Mc.step u.mc (.config (o.cfg e) (udpEps o) e.udpOpens)

theorem udpConfig_done {e : Env} {c : Option Node} {m : Bool} {u : Udp} (hi : ChInv u.chans) (hok : (udpConfig e c m false u).2 = true) :
    ∃ o, UdpDone e c m u (udpConfig e c m false u).1 o := by
  unfold udpConfig at hok ⊢
  dsimp only at hok ⊢
  cases hr : readUdp e c with
  | none => rw [hr] at hok; simp at hok
  | some o =>
    rw [hr] at hok
    simp only [Bool.false_eq_true, if_false] at hok ⊢
    refine ⟨o, ?_⟩
    have h1 := @udpFamily_done e o false o.v4 sUdp4 { u with marking := m, mtu := o.mtu } hi
    generalize udpFamily e o false o.v4 sUdp4 { u with marking := m, mtu := o.mtu } = a at *
    cases ha : a.2 with
    | false => rw [ha] at hok; simp [ha] at hok
    | true =>
      rw [if_pos ha] at hok
      obtain ⟨c1, c2, c3, c4, c5, c6⟩ := h1 ha
      have h2 := @udpFamily_done e o true o.v6 sUdp6 a.1 c2
      generalize udpFamily e o true o.v6 sUdp6 a.1 = b at *
      cases hb : b.2 with
      | false => rw [hb] at hok; simp [hb] at hok
      | true =>
        obtain ⟨d1, d2, d3, d4, d5, d6⟩ := h2 hb
        simp only [if_true]
        dsimp only at c1 c3 c4 c5 c6
        rw [c3, c4] at d1
        refine ⟨hr, (c1.trans d1).congr (keys_iff o.port o.v4 o.v6), d2, d3.trans c3, d4.trans c4, rfl, ?_, ?_⟩
        · intro y
          dsimp only
          rw [d5, c5]
          constructor
          · rintro (h | h | h)
            · exact Or.inl (Or.inr h)
            · exact Or.inl (Or.inl h)
            · exact Or.inr h
          · rintro ((h | h) | h)
            · exact Or.inr (Or.inl h)
            · exact Or.inl h
            · exact Or.inr (Or.inr h)
        · have : Mc.createChannels u.mc (udpEps o) = (b.1.mc, true) := by
            unfold udpEps
            rw [createChannels_append _ _ _ _ c6]
            exact d6
          unfold Mc.step
          dsimp only
          rw [this]
          simp

/-! ### Unix -/

structure UnixDone (e : Env) (x : Node) (m : Bool) (u u' : Unix) (p q : String) : Prop where
  read : readUnix x = some p
  path : e.path p = some q
  chans : ChansDone true (· = q) m 0 0 u.chans u'.chans
  inv : ChInv u'.chans
  marking : u'.marking = m

theorem unixConfig_done {e : Env} {x : Node} {m : Bool} {u : Unix} (hi : ChInv u.chans) (hok : (unixConfig e (some x) m false u).2 = true) :
    ∃ p q, UnixDone e x m u (unixConfig e (some x) m false u).1 p q := by
  unfold unixConfig at hok ⊢
  dsimp only at hok ⊢
  cases hr : readUnix x with
  | none => rw [hr] at hok; simp at hok
  | some p =>
    rw [hr] at hok
    simp only [Bool.false_eq_true, if_false] at hok ⊢
    cases hp : e.path p with
    | none => rw [hp] at hok; simp at hok
    | some q =>
      rw [hp] at hok
      dsimp only at hok ⊢
      have := openChan_done (c := ⟨q, false, false, m, 0, 0⟩) hi rfl rfl hok
      exact ⟨p, q, hr, hp, this.1, this.2, rfl⟩

/-! ### WebSocket -/

theorem wsFamily_done {e : Env} {o : WsOpts} {v6 enable : Bool} {cs : List (Chan (Bool × Nat))} (hi : ChInv cs)
    (hok : (wsFamily e o v6 enable cs).2 = true) :
    ChansDone true (fun k => enable = true ∧ k = (v6, o.port)) false 0 0 cs (wsFamily e o v6 enable cs).1 ∧ ChInv (wsFamily e o v6 enable cs).1 := by
  unfold wsFamily at hok ⊢
  cases enable with
  | false => exact ⟨(ChansDone.refl hi).congr (by simp), hi⟩
  | true =>
    simp only [if_true] at hok ⊢
    have := openChan_done (c := ⟨(v6, o.port), false, false, false, 0, 0⟩) hi rfl rfl hok
    simp only [true_and]
    exact this

theorem wsConfig_done {e : Env} {c : Option Node} {cs : List (Chan (Bool × Nat))} (hi : ChInv cs) (hok : (wsConfig e c false cs).2 = true) :
    ∃ o, readWs e c = some o ∧ ChansDone true (fun k => o.listen = true ∧ Keys o.port o.v4 o.v6 k) false 0 0 cs (wsConfig e c false cs).1 ∧
      ChInv (wsConfig e c false cs).1 ∧ (o.listen = false → (wsConfig e c false cs).1 = cs) := by
  unfold wsConfig at hok ⊢
  cases hr : readWs e c with
  | none => rw [hr] at hok; simp at hok
  | some o =>
    rw [hr] at hok
    simp only [Bool.false_eq_true, if_false] at hok ⊢
    refine ⟨o, rfl, ?_⟩
    cases hl : o.listen with
    | false =>
      simp only [if_true, Bool.false_eq_true, false_and]
      exact ⟨(ChansDone.refl hi).congr (by simp), hi, fun _ => trivial⟩
    | true =>
      rw [hl] at hok
      simp only [Bool.true_eq_false, if_false, true_and, false_imp_iff, and_true] at hok ⊢
      have h1 := @wsFamily_done e o false o.v4 cs hi
      generalize wsFamily e o false o.v4 cs = a at *
      cases ha : a.2 with
      | false => rw [ha] at hok; simp [ha] at hok
      | true =>
        rw [if_pos ha] at hok
        obtain ⟨c1, c2⟩ := h1 ha
        simp only [if_true]
        obtain ⟨d1, d2⟩ := @wsFamily_done e o true o.v6 a.1 c2 hok
        exact ⟨(c1.trans d1).congr (keys_iff o.port o.v4 o.v6), d2⟩

/-! ### Ethernet -/

theorem ethConfig_done {e : Env} {c : Option Node} {s : Eth.St} (hok : (ethConfig e c false s).2 = true) :
    ∃ o, readEth e c = some o ∧ (ethConfig e c false s).1 = Eth.step s (.config o.uni (o.mc e) e.ethWorks e.ethOpens) := by
  unfold ethConfig at hok ⊢
  cases hr : readEth e c with
  | none => rw [hr] at hok; simp at hok
  | some o => exact ⟨o, rfl, rfl⟩

theorem eth_scheme (es : List Eth.Ev) (u : Eth.Unicast) (m : Eth.Multicast) (w o : String → Bool) :
    (Eth.step (Eth.run Eth.init es) (.config u m w o)).scheme = u.enabled := (Eth.C103_config_partial es u m w o).2.2.2.2.1

theorem eth_scheme_other (es : List Eth.Ev) (ev : Eth.Ev) (h : ∀ u m w o, ev ≠ .config u m w o) :
    (Eth.step (Eth.run Eth.init es) ev).scheme = (Eth.run Eth.init es).scheme := by
  have hi := Eth.run_inv es Eth.Inv.init
  generalize Eth.run Eth.init es = s at *
  cases ev with
  | config u m w o => exact absurd rfl (h u m w o)
  | added n w o =>
    show (Eth.applyMc o (Eth.applyUni w { s with netifs := s.netifs ++ [n] } n) n).1.scheme = _
    rw [Eth.applyUni_eq]
    have hi1 : Eth.Inv { s with netifs := s.netifs ++ [n], chans := Eth.chanStep w s.uni s.chans n } :=
      ⟨hi.keys, hi.sound, hi.complete, hi.table, Eth.chanStep_pairwise w s.uni n hi.chans⟩
    by_cases he : Eth.Elig s.mc n
    · exact (Eth.applyMc_placed o n hi1 he).2.1.scheme
    · exact congrArg (fun x : Eth.St × Option Nat => x.1.scheme) (Eth.applyMc_not o { s with netifs := s.netifs ++ [n], chans := Eth.chanStep w s.uni s.chans n } n he)
  | change f => rfl
  | close k => rcases Eth.close_cases s k with h | ⟨f, -, -, h⟩ <;> simp only [Eth.step, h]
  | settle k =>
    simp only [Eth.step, Eth.settle]
    split
    · rfl
    · split <;> rfl

end Verif.Fs
