import Verif.Fs.Inv

/-! C104: the section `face_system` of the configuration file. -/
namespace Verif.Fs
open Verif.Cf (Node)

/-! ### An example -/

def leaf (v : String) : Node := .mk v []
def sec (l : List (String × Node)) : Node := .mk "" l

/-- Numbers are not read but looked up; the rest works. -/
def exEnv : Env :=
  { num := fun max x => if x = "7000" ∧ 7000 ≤ max then some 7000 else if x = "1400" ∧ 1400 ≤ max then some 1400 else none,
    lib := ⟨fun _ => none, fun _ => false, fun _ _ => false⟩, v4 := fun _ => none, v6 := fun _ => none, mac := fun _ => none, path := some,
    uri := fun x => if x = "udp4://192.0.2.1:6363" then some (sUdp4, true) else none,
    tcp := fun _ => .ok, udp := fun _ => .ok, ws := fun _ => .ok, unix := fun _ => .ok, udpOpens := fun _ => true, ethWorks := fun _ => true,
    ethOpens := fun _ => true, netif := fun _ _ => true, ethNetif := fun _ _ => true }

/-- TCP on port 7000 over IPv6 only, UDP with an MTU of 1400, no WebSocket, a Unix socket, Ethernet, no marking. -/
def exNode : Node := sec [("general", sec [("enable_congestion_marking", leaf "no")]), ("tcp", sec [("port", leaf "7000"), ("enable_v4", leaf "no")]),
  ("udp", sec [("unicast_mtu", leaf "1400"), ("mcast", leaf "no")]), ("unix", sec [("path", leaf "/run/nfd.sock")]), ("ether", sec [])]

/-- The same with a rule for faces bound to interfaces. -/
def exRule : Node := sec [("netdev_bound", sec [("rule", sec [("remote", leaf "udp4://192.0.2.1:6363")])])]

/-! ### Checking -/

/-- A dry run succeeds exactly if the section is well formed: it accepts nothing that is not, and refuses nothing that is, whatever the state. -/
theorem C104_check (e : Env) (n : Node) (s : St) : (process e n true s).2 = true ↔ WellFormed e n := ⟨process_wf, process_dry⟩

example : WellFormed exEnv exNode := (C104_check exEnv exNode init).1 (by decide +kernel)
example : ¬ WellFormed exEnv (sec [("tcp", sec [("enable_v4", leaf "no"), ("enable_v6", leaf "no")])]) :=
  fun h => absurd ((C104_check _ _ init).2 h) (by decide +kernel)

/-- C104 (part). A dry run touches nothing but the settings for congestion marking, and a real run does the same after it as without it. Missing: that it
leaves these alone too (it does not: `C104_dry_run_marks`). -/
theorem C104_dry_run_partial (e : Env) (n : Node) (s : St) : (∃ a b c, (process e n true s).1 = marked a b c s) ∧
    ∀ a b c e' n', ((process e' n' false (marked a b c s)).2 = true ↔ (process e' n' false s).2 = true) ∧
      ((process e' n' false s).2 = true → (process e' n' false (marked a b c s)).1 = (process e' n' false s).1) := by
  refine ⟨process_marked e n s, fun a b c e' n' => ?_⟩
  have same : ∀ m, applied e' n' m (marked a b c s) = applied e' n' m s := fun m => rfl
  have fac : ∀ m, (factories e' n' m false order (marked a b c s)).2 = true ↔ (factories e' n' m false order s).2 = true := by
    intro m
    rw [(factories_real e' n' m (marked a b c s)).1, (factories_real e' n' m s).1]
    exact Iff.rfl
  have st : ∀ m, (factories e' n' m false order s).2 = true →
      (factories e' n' m false order (marked a b c s)).1 = (factories e' n' m false order s).1 := by
    intro m h
    rw [(factories_real e' n' m (marked a b c s)).2 ((fac m).2 h), (factories_real e' n' m s).2 h, same]
  have ok : (process e' n' false (marked a b c s)).2 = true ↔ (process e' n' false s).2 = true := by
    rw [process_ok, process_ok]
    constructor
    · rintro ⟨m, h1, h2, h3, h4⟩
      exact ⟨m, h1, (fac m).1 h2, by rw [← st m ((fac m).1 h2)]; exact h3, h4⟩
    · rintro ⟨m, h1, h2, h3, h4⟩
      exact ⟨m, h1, (fac m).2 h2, by rw [st m h2]; exact h3, h4⟩
  refine ⟨ok, fun h => ?_⟩
  obtain ⟨m, h1, h2, h3, h4⟩ := process_ok.1 h
  rw [process_state h1 h2 h3, process_state h1 ((fac m).2 h2) (by rw [st m h2]; exact h3), st m h2]

example : (process exEnv exNode false init).2 = true := by decide +kernel

/-- A dry run does change the settings: here marking is turned on by a section that is only being checked. -/
theorem C104_dry_run_marks : init.udp.marking = false ∧ (process exEnv (sec []) true init).2 = true ∧ (process exEnv (sec []) true init).1.udp.marking = true := by
  decide +kernel

/-! ### Applying -/

/-- A successful run does what the section says: settings, channels and whether they accept peers, multicast faces and Ethernet channels (by the
configuration event of C98 and of C103), schemes. -/
theorem C104_applied {s : St} (hs : Reach s) (e : Env) (n : Node) (hok : (process e n false s).2 = true) :
    Done e n s (process e n false s).1 ∧ WellFormed e n ∧ ∀ x, First n.kids "netdev_bound" x → x.kids = [] :=
  have h := process_real hs.inv hok
  ⟨h.1, h.2.2⟩

/-- The multicast faces and the Ethernet channels of a forwarder that runs have histories as in C98 and C103. -/
theorem C104_histories {s : St} (hs : Reach s) : (∃ es, s.udp.mc = Mc.run Mc.init es) ∧ ∃ es, s.eth = Eth.run Eth.init es := ⟨hs.inv.mc, hs.inv.eth⟩

example : Reach (process exEnv exNode false init).1 := .config _ _ _ _ .init (by decide +kernel)
example : let s := (process exEnv exNode false init).1
    s.tcp.chans = [⟨(true, 7000), true, true, false, 0, 0⟩] ∧ s.udp.chans = [⟨(false, 6363), true, true, false, 600, 1400⟩, ⟨(true, 6363), true, true, false, 600, 1400⟩] ∧
    s.unix.chans = [⟨"/run/nfd.sock", true, true, false, 0, 0⟩] ∧ s.ws = [] ∧ s.byScheme sTcp6 = some .tcp ∧ s.byScheme sTcp4 = none ∧
    s.byScheme sEther = some .ether := by decide +kernel

/-- Channels stay when the section that called for them is gone, and so do schemes, other than Ethernet. -/
example : let s := (process exEnv exNode false init).1
    let t := process exEnv (sec [("general", sec [])]) false s
    t.2 = true ∧ t.1.tcp.chans = s.tcp.chans ∧ t.1.tcp.marking = true ∧ t.1.byScheme sTcp6 = some .tcp ∧ t.1.byScheme sEther = none := by decide +kernel

/-- Schemes never have two owners, and each is owned by the factory of its protocol. -/
theorem C104_schemes {s : St} (hs : Reach s) (x : List Char) (f : Fac) (h : s.byScheme x = some f) :
    (f = .tcp ∧ x ∈ [['t', 'c', 'p'], ['t', 'c', 'p', '4'], ['t', 'c', 'p', '6']]) ∨
    (f = .udp ∧ x ∈ [['u', 'd', 'p'], ['u', 'd', 'p', '4'], ['u', 'd', 'p', '6']]) ∨ (f = .ether ∧ x = ['e', 't', 'h', 'e', 'r']) := by
  rcases provided_cases hs.inv.tcpS hs.inv.udpS ((hs.inv.byScheme x f).1 h) with ⟨h1, h2⟩ | ⟨h1, h2⟩ | ⟨h1, h2, -⟩
  · exact Or.inl ⟨h1, by simpa [sTcp, sTcp4, sTcp6] using h2⟩
  · exact Or.inr (Or.inl ⟨h1, by simpa [sUdp, sUdp4, sUdp6] using h2⟩)
  · exact Or.inr (Or.inr ⟨h1, h2⟩)

/-! ### When a run succeeds -/

/-- Everything the section can ask of the system works. -/
structure Works (e : Env) (n : Node) (s : St) : Prop where
  tcp : ∀ k, e.tcp k = .ok
  udp : ∀ k, e.udp k = .ok
  ws : ∀ k, e.ws k = .ok
  unix : ∀ p, e.unix p = .ok
  path : ∀ x p, First n.kids "unix" x → Says x.kids "path" "/run/nfd/nfd.sock" (fun y v => y.value = v) p → ∃ q, e.path p = some q
  free : ∀ (k : Nat) (f : Mc.Face), s.udp.mc.faces[k]? = some f → f.st ≠ .closed → f.loc.addr.host ≠ 0

theorem tcpFamily_ok {e : Env} {o : TcpOpts} {v6 enable : Bool} {scheme : List Char} {t : Tcp} (h : ∀ k, e.tcp k = .ok) :
    (tcpFamily e o v6 enable scheme t).2 = true := by
  unfold tcpFamily
  cases enable with
  | false => rfl
  | true =>
    simp only [if_true]
    rw [if_pos (openChan_ok (h _))]

theorem tcp_ok {e : Env} {c : Option Node} {m : Bool} {t : Tcp} (h : ∀ k, e.tcp k = .ok) (hg : Good e .tcp c) : (tcpConfig e c m false t).2 = true := by
  cases c with
  | none => rfl
  | some x =>
    obtain ⟨o, ho⟩ := hg x rfl
    unfold tcpConfig
    simp only [ho, Bool.false_eq_true, if_false]
    rw [if_pos (tcpFamily_ok h), if_pos (tcpFamily_ok h)]

theorem udpFamily_ok {e : Env} {o : UdpOpts} {v6 enable : Bool} {scheme : List Char} {u : Udp} (h : ∀ k, e.udp k = .ok) (hi : Mc.Inv u.mc)
    (hf : ∀ (k : Nat) (f : Mc.Face), u.mc.faces[k]? = some f → f.st ≠ .closed → f.loc.addr.host ≠ 0) :
    (udpFamily e o v6 enable scheme u).2 = true ∧ Mc.Inv (udpFamily e o v6 enable scheme u).1.mc ∧ (udpFamily e o v6 enable scheme u).1.mc.faces = u.mc.faces := by
  unfold udpFamily
  cases enable with
  | false => exact ⟨rfl, hi, rfl⟩
  | true =>
    simp only [if_true]
    have hc : ∃ mc, Mc.createChannel u.mc ⟨⟨v6, 0⟩, o.port⟩ = some mc ∧ Mc.Inv mc ∧ mc.faces = u.mc.faces := by
      unfold Mc.createChannel
      by_cases h1 : (⟨⟨v6, 0⟩, o.port⟩ : Mc.Ep) ∈ u.mc.channels
      · rw [if_pos h1]; exact ⟨_, rfl, hi, rfl⟩
      · rw [if_neg h1]
        have h2 : ¬ (u.mc.map.lookup ⟨⟨v6, 0⟩, o.port⟩).isSome = true := by
          intro h2
          rw [Option.isSome_iff_exists] at h2
          obtain ⟨k, hk⟩ := h2
          obtain ⟨f, x1, x2, x3⟩ := hi.sound _ k (Mc.lookup_mem hk)
          exact hf k f x1 x3 (by rw [x2])
        rw [if_neg h2]
        exact ⟨_, rfl, hi.of_faces rfl rfl, rfl⟩
    obtain ⟨mc, h1, h2, h3⟩ := hc
    rw [h1]
    simp only
    rw [if_pos (openChan_ok (h _))]
    exact ⟨rfl, h2, h3⟩

theorem udp_ok {e : Env} {c : Option Node} {m : Bool} {u : Udp} (h : ∀ k, e.udp k = .ok) (hi : Mc.Inv u.mc)
    (hf : ∀ (k : Nat) (f : Mc.Face), u.mc.faces[k]? = some f → f.st ≠ .closed → f.loc.addr.host ≠ 0) (hg : Good e .udp c) :
    (udpConfig e c m false u).2 = true := by
  obtain ⟨o, ho⟩ := hg
  unfold udpConfig
  simp only [ho, Bool.false_eq_true, if_false]
  have a := udpFamily_ok (o := o) (v6 := false) (enable := o.v4) (scheme := sUdp4) (u := { u with marking := m, mtu := o.mtu }) h hi hf
  rw [if_pos a.1]
  have b := udpFamily_ok (o := o) (v6 := true) (enable := o.v6) (scheme := sUdp6) (u := (udpFamily e o false o.v4 sUdp4 { u with marking := m, mtu := o.mtu }).1)
    h a.2.1 (by rw [a.2.2]; exact hf)
  rw [if_pos b.1]

theorem unix_ok {e : Env} {n : Node} {m : Bool} {u : Unix} (h : ∀ k, e.unix k = .ok)
    (hp : ∀ x p, First n.kids "unix" x → Says x.kids "path" "/run/nfd/nfd.sock" (fun y v => y.value = v) p → ∃ q, e.path p = some q)
    (hg : Good e .unix (n.child "unix")) : (unixConfig e (n.child "unix") m false u).2 = true := by
  cases hc : n.child "unix" with
  | none => rfl
  | some x =>
    obtain ⟨p, ho⟩ := hg x hc
    obtain ⟨q, hq⟩ := hp x p (child_first.1 hc) (readUnix_says ho)
    unfold unixConfig
    simp only [ho, hq, Bool.false_eq_true, if_false]
    exact openChan_ok (h _)

theorem wsFamily_ok {e : Env} {o : WsOpts} {v6 enable : Bool} {cs : List (Chan (Bool × Nat))} (h : ∀ k, e.ws k = .ok) : (wsFamily e o v6 enable cs).2 = true := by
  unfold wsFamily
  cases enable with
  | false => rfl
  | true => simp only [if_true]; exact openChan_ok (h _)

theorem ws_ok {e : Env} {c : Option Node} {cs : List (Chan (Bool × Nat))} (h : ∀ k, e.ws k = .ok) (hg : Good e .websocket c) : (wsConfig e c false cs).2 = true := by
  obtain ⟨o, ho⟩ := hg
  unfold wsConfig
  simp only [ho, Bool.false_eq_true, if_false]
  by_cases hl : o.listen = false
  · rw [if_pos hl]
  · rw [if_neg hl, if_pos (wsFamily_ok h)]
    exact wsFamily_ok h

theorem eth_ok {e : Env} {c : Option Node} {s : Eth.St} (hg : Good e .ether c) : (ethConfig e c false s).2 = true := by
  obtain ⟨o, ho⟩ := hg
  unfold ethConfig
  simp [ho]

/-- C104 (part). A well-formed section without rules for interfaces can be applied, provided sockets can be opened. Missing: sections with rules (they cannot:
`C104_no_rules`). -/
theorem C104_applicable_partial {s : St} (hs : Reach s) (e : Env) (n : Node) (hw : WellFormed e n) (hr : ∀ x, First n.kids "netdev_bound" x → x.kids = [])
    (ho : Works e n s) : (process e n false s).2 = true := by
  obtain ⟨⟨m, h1⟩, h2, h3, h4⟩ := (wellFormed_iff e n).1 hw
  have hmc : Mc.Inv s.udp.mc := by
    obtain ⟨es, h⟩ := hs.inv.mc
    rw [h]; exact Mc.run_inv es Mc.Inv.init
  exact process_ok.2 ⟨m, h1, (factories_real e n m s).1.2 ⟨eth_ok (h2 .ether (by decide)), tcp_ok ho.tcp (h2 .tcp (by decide)),
    udp_ok ho.udp hmc ho.free (h2 .udp (by decide)), unix_ok ho.unix ho.path (h2 .unix (by decide)), ws_ok ho.ws (h2 .websocket (by decide))⟩,
    netdev_none hr, h4⟩

example : Works exEnv exNode (process exEnv exNode false init).1 :=
  ⟨fun _ => rfl, fun _ => rfl, fun _ => rfl, fun _ => rfl, fun _ p _ _ => ⟨p, rfl⟩, fun k f h => (by
    rw [show (process exEnv exNode false init).1.udp.mc.faces = [] by decide +kernel] at h; simp at h)⟩

/-- A section with a rule for interfaces passes the check but can never be applied. -/
theorem C104_no_rules {s : St} (hs : Reach s) (e : Env) (n : Node) {x : Node} (hx : First n.kids "netdev_bound" x) (hk : x.kids ≠ []) :
    (process e n false s).2 = false := by
  cases h : (process e n false s).2 with
  | false => rfl
  | true => exact absurd ((C104_applied hs e n h).2.2 x hx) hk

example : (process exEnv exRule true init).2 = true ∧ WellFormed exEnv exRule :=
  ⟨by decide +kernel, (C104_check exEnv exRule init).1 (by decide +kernel)⟩
example : First exRule.kids "netdev_bound" (sec [("rule", sec [("remote", leaf "udp4://192.0.2.1:6363")])]) := ⟨[], [], rfl, fun _ h => by cases h⟩

end Verif.Fs
