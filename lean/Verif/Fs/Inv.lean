import Verif.Fs.Process

/-! What holds at all times, and what a successful run does. -/
namespace Verif.Fs
open Verif.Cf (Node)

theorem update_nil (f : Fac) (m : List Char → Option Fac) : update f [] [] m = m := by
  funext x
  simp [update]

/-- The state after a run of the factories without exception. -/
def applied (e : Env) (n : Node) (m : Bool) (s : St) : St :=
  { tcp := (tcpConfig e (n.child "tcp") m false s.tcp).1, udp := (udpConfig e (n.child "udp") m false s.udp).1,
    unix := (unixConfig e (n.child "unix") m false s.unix).1, ws := (wsConfig e (n.child "websocket") false s.ws).1,
    eth := (ethConfig e (n.child "ether") false s.eth).1,
    byScheme := update .udp s.udp.schemes (udpConfig e (n.child "udp") m false s.udp).1.schemes
      (update .tcp s.tcp.schemes (tcpConfig e (n.child "tcp") m false s.tcp).1.schemes
        (update .ether (if s.eth.scheme then [sEther] else []) (if (ethConfig e (n.child "ether") false s.eth).1.scheme then [sEther] else []) s.byScheme)),
    rules := s.rules }

theorem factories_real (e : Env) (n : Node) (m : Bool) (s : St) :
    ((factories e n m false order s).2 = true ↔ (ethConfig e (n.child "ether") false s.eth).2 = true ∧ (tcpConfig e (n.child "tcp") m false s.tcp).2 = true ∧
      (udpConfig e (n.child "udp") m false s.udp).2 = true ∧ (unixConfig e (n.child "unix") m false s.unix).2 = true ∧
      (wsConfig e (n.child "websocket") false s.ws).2 = true) ∧
    ((factories e n m false order s).2 = true → (factories e n m false order s).1 = applied e n m s) := by
  simp only [order, factories, config1, Fac.name, St.provided, Bool.false_eq_true, if_false, update_nil]
  cases h1 : (ethConfig e (n.child "ether") false s.eth).2 with
  | false => simp [h1]
  | true =>
    simp only [if_true]
    cases h2 : (tcpConfig e (n.child "tcp") m false s.tcp).2 with
    | false => simp [h2]
    | true =>
      simp only [if_true]
      cases h3 : (udpConfig e (n.child "udp") m false s.udp).2 with
      | false => simp [h3]
      | true =>
        simp only [if_true]
        cases h4 : (unixConfig e (n.child "unix") m false s.unix).2 with
        | false => simp [h4]
        | true =>
          simp only [if_true]
          cases h5 : (wsConfig e (n.child "websocket") false s.ws).2 with
          | false => simp [h5]
          | true => simp only [applied, and_self, true_iff, if_true, forall_const, true_and]; rfl

/-- What holds at all times. -/
structure Inv (s : St) : Prop where
  tcp : ChInv s.tcp.chans
  udp : ChInv s.udp.chans
  unix : ChInv s.unix.chans
  ws : ChInv s.ws
  mc : ∃ es, s.udp.mc = Mc.run Mc.init es
  eth : ∃ es, s.eth = Eth.run Eth.init es
  tcpS : ∀ x ∈ s.tcp.schemes, x = sTcp ∨ x = sTcp4 ∨ x = sTcp6
  udpS : ∀ x ∈ s.udp.schemes, x = sUdp ∨ x = sUdp4 ∨ x = sUdp6
  byScheme : ∀ x f, s.byScheme x = some f ↔ x ∈ s.provided f
  rules : s.rules = []

theorem Inv.init : Inv init :=
  ⟨ChInv.nil, ChInv.nil, ChInv.nil, ChInv.nil, ⟨[], rfl⟩, ⟨[], rfl⟩, fun _ h => (by cases h), fun _ h => (by cases h),
    fun x f => (by cases f <;> simp [Fs.init, St.provided, Eth.init]), rfl⟩

theorem mc_run_snoc (es : List Mc.Ev) (ev : Mc.Ev) : Mc.step (Mc.run Mc.init es) ev = Mc.run Mc.init (es ++ [ev]) := by simp [Mc.run]
theorem eth_run_snoc (es : List Eth.Ev) (ev : Eth.Ev) : Eth.step (Eth.run Eth.init es) ev = Eth.run Eth.init (es ++ [ev]) := by simp [Eth.run]

/-- What a run without exception does to TCP. -/
structure TcpStepped (e : Env) (n : Node) (m : Bool) (t t' : Tcp) : Prop where
  inv : ChInv t'.chans
  marking : t'.marking = m
  none : Lacks n.kids "tcp" → t'.chans = t.chans ∧ t'.loc = t.loc
  some : ∀ x, First n.kids "tcp" x → LocalSays e x.kids t'.loc ∧ ∃ listen port v4 v6, PortSays e x.kids 6363 listen port v4 v6 ∧
    ChansDone listen (Keys port v4 v6) m 0 0 t.chans t'.chans
  schemes : ∀ y, y ∈ t'.schemes ↔ Enables e n y .tcp ∨ y ∈ t.schemes

theorem says_true_iff {l : List (String × Node)} {key : String} {b : Bool} (h : Says l key true YesNo b) : Says l key true YesNo true ↔ b = true := by
  constructor
  · intro h'; exact Says.unique (reads := YesNo) (fun _ _ _ => YesNo.unique) h h'
  · rintro rfl; exact h

theorem tcp_stepped {e : Env} {n : Node} {m : Bool} {t : Tcp} (hi : ChInv t.chans) (hok : (tcpConfig e (n.child "tcp") m false t).2 = true) :
    TcpStepped e n m t (tcpConfig e (n.child "tcp") m false t).1 := by
  cases hc : n.child "tcp" with
  | none =>
    have hl := child_lacks.1 hc
    have no : ∀ x, ¬ First n.kids "tcp" x := by
      intro x hx
      rw [← child_first, hc] at hx; cases hx
    refine ⟨hi, rfl, fun _ => ⟨rfl, rfl⟩, fun x hx => absurd hx (no x), fun y => ⟨Or.inr, ?_⟩⟩
    rintro (h | h)
    · cases h with
      | tcp x h => exact absurd h (no x)
      | tcp4 x h => exact absurd h (no x)
      | tcp6 x h => exact absurd h (no x)
    · exact h
  | some x =>
    rw [hc] at hok
    have hx := child_first.1 hc
    obtain ⟨o, d⟩ := tcpConfig_done hi hok
    obtain ⟨s1, s2, s3⟩ := tcpRead_says d.read
    refine ⟨d.inv, d.marking, fun hl => ?_, ?_, ?_⟩
    · exact absurd (child_lacks.2 hl) (by rw [hc]; simp)
    · intro x' hx'
      cases first_unique hx hx'
      exact ⟨by rw [d.loc]; exact s2, _, _, _, _, s1, d.chans⟩
    · intro y
      rw [d.schemes y]
      constructor
      · rintro ((h | ⟨h, h'⟩ | ⟨h, h'⟩) | h)
        · subst h; exact Or.inl (.tcp x hx)
        · subst h'; exact Or.inl (.tcp4 x hx ((says_true_iff s1.v4).2 h))
        · subst h'; exact Or.inl (.tcp6 x hx ((says_true_iff s1.v6).2 h))
        · exact Or.inr h
      · rintro (h | h)
        · cases h with
          | tcp x' hx' => exact Or.inl (Or.inl rfl)
          | tcp4 x' hx' h => cases first_unique hx hx'; exact Or.inl (Or.inr (Or.inl ⟨(says_true_iff s1.v4).1 h, rfl⟩))
          | tcp6 x' hx' h => cases first_unique hx hx'; exact Or.inl (Or.inr (Or.inr ⟨(says_true_iff s1.v6).1 h, rfl⟩))
        · exact Or.inr h

structure UdpStepped (e : Env) (n : Node) (m : Bool) (u u' : Udp) : Prop where
  inv : ChInv u'.chans
  marking : u'.marking = m
  done : ∃ o, UdpSays e n o ∧ u'.mtu = o.mtu ∧ u'.adHoc = o.adHoc ∧
    ChansDone o.listen (Keys o.port o.v4 o.v6) m o.idle o.mtu u.chans u'.chans ∧
    u'.mc = Mc.step u.mc (.config ⟨o.mcast, (o.group, o.mport), (o.group6, o.mport6), e.netif o.lists⟩
      ((if o.v4 then [⟨⟨false, 0⟩, o.port⟩] else []) ++ (if o.v6 then [⟨⟨true, 0⟩, o.port⟩] else [])) e.udpOpens)
  schemes : ∀ y, y ∈ u'.schemes ↔ Enables e n y .udp ∨ y ∈ u.schemes

theorem udp_stepped {e : Env} {n : Node} {m : Bool} {u : Udp} (hi : ChInv u.chans) (hok : (udpConfig e (n.child "udp") m false u).2 = true) :
    UdpStepped e n m u (udpConfig e (n.child "udp") m false u).1 := by
  obtain ⟨o, d⟩ := udpConfig_done hi hok
  cases hc : n.child "udp" with
  | none =>
    rw [hc] at d
    have hl := child_lacks.1 hc
    have no : ∀ x, ¬ First n.kids "udp" x := by
      intro x hx
      rw [← child_first, hc] at hx; cases hx
    have ho : noUdp = o := Option.some.inj d.read
    refine ⟨d.inv, d.marking, ⟨o, Or.inl ⟨hl, ?_⟩, d.mtu, d.adHoc, d.chans, d.mc⟩, fun y => ?_⟩
    · subst ho; exact ⟨rfl, rfl, rfl, rfl, rfl⟩
    · rw [d.schemes y]
      constructor
      · rintro ((⟨h, _⟩ | ⟨h, _⟩) | h)
        · subst ho; cases h
        · subst ho; cases h
        · exact Or.inr h
      · rintro (h | h)
        · cases h with
          | udp x h => exact absurd h (no x)
          | udp4 x h => exact absurd h (no x)
          | udp6 x h => exact absurd h (no x)
        · exact Or.inr h
  | some x =>
    rw [hc] at d
    have hx := child_first.1 hc
    have hs : UdpSection e x.kids o := by
      obtain ⟨h, -⟩ := (udpRead_iff ..).1 d.read
      exact udp_says h
    refine ⟨d.inv, d.marking, ⟨o, Or.inr ⟨x, hx, hs⟩, d.mtu, d.adHoc, d.chans, d.mc⟩, fun y => ?_⟩
    rw [d.schemes y]
    constructor
    · rintro ((⟨h, h'⟩ | ⟨h, h'⟩) | h)
      · rcases h' with h' | h'
        · subst h'; exact Or.inl (.udp4 x hx ((says_true_iff hs.v4).2 h))
        · subst h'; exact Or.inl (.udp x hx (Or.inl ((says_true_iff hs.v4).2 h)))
      · rcases h' with h' | h'
        · subst h'; exact Or.inl (.udp6 x hx ((says_true_iff hs.v6).2 h))
        · subst h'; exact Or.inl (.udp x hx (Or.inr ((says_true_iff hs.v6).2 h)))
      · exact Or.inr h
    · rintro (h | h)
      · cases h with
        | udp x' hx' h =>
          cases first_unique hx hx'
          rcases h with h | h
          · exact Or.inl (Or.inl ⟨(says_true_iff hs.v4).1 h, Or.inr rfl⟩)
          · exact Or.inl (Or.inr ⟨(says_true_iff hs.v6).1 h, Or.inr rfl⟩)
        | udp4 x' hx' h => cases first_unique hx hx'; exact Or.inl (Or.inl ⟨(says_true_iff hs.v4).1 h, Or.inl rfl⟩)
        | udp6 x' hx' h => cases first_unique hx hx'; exact Or.inl (Or.inr ⟨(says_true_iff hs.v6).1 h, Or.inl rfl⟩)
      · exact Or.inr h

structure UnixStepped (e : Env) (n : Node) (m : Bool) (u u' : Unix) : Prop where
  inv : ChInv u'.chans
  marking : u'.marking = m
  none : Lacks n.kids "unix" → u'.chans = u.chans
  some : ∀ x, First n.kids "unix" x → ∃ p q, Says x.kids "path" "/run/nfd/nfd.sock" (fun y v => y.value = v) p ∧ e.path p = some q ∧
    ChansDone true (· = q) m 0 0 u.chans u'.chans

theorem unix_stepped {e : Env} {n : Node} {m : Bool} {u : Unix} (hi : ChInv u.chans) (hok : (unixConfig e (n.child "unix") m false u).2 = true) :
    UnixStepped e n m u (unixConfig e (n.child "unix") m false u).1 := by
  cases hc : n.child "unix" with
  | none =>
    refine ⟨hi, rfl, fun _ => rfl, fun x hx => ?_⟩
    rw [← child_first, hc] at hx; cases hx
  | some x =>
    rw [hc] at hok
    obtain ⟨p, q, d⟩ := unixConfig_done hi hok
    refine ⟨d.inv, d.marking, fun hl => absurd (child_lacks.2 hl) (by rw [hc]; simp), fun x' hx' => ?_⟩
    cases first_unique (child_first.1 hc) hx'
    exact ⟨p, q, readUnix_says d.read, d.path, d.chans⟩

structure WsStepped (e : Env) (n : Node) (s s' : List (Chan (Bool × Nat))) : Prop where
  inv : ChInv s'
  none : Lacks n.kids "websocket" → s' = s
  some : ∀ x, First n.kids "websocket" x → ∃ listen port v4 v6, PortSays e x.kids 9696 listen port v4 v6 ∧
    ChansDone true (fun k => listen = true ∧ Keys port v4 v6 k) false 0 0 s s'

theorem ws_stepped {e : Env} {n : Node} {s : List (Chan (Bool × Nat))} (hi : ChInv s) (hok : (wsConfig e (n.child "websocket") false s).2 = true) :
    WsStepped e n s (wsConfig e (n.child "websocket") false s).1 := by
  obtain ⟨o, h1, h2, h3, h4⟩ := wsConfig_done hi hok
  refine ⟨h3, fun hl => h4 ?_, fun x hx => ?_⟩
  · rw [child_lacks.2 hl] at h1
    cases h1; rfl
  · rw [child_first.2 hx] at h1
    obtain ⟨h, -⟩ := (wsRead_iff ..).1 h1
    exact ⟨_, _, _, _, ws_says h, h2⟩

structure EthStepped (e : Env) (n : Node) (s s' : Eth.St) : Prop where
  done : ∃ o, EthSays e n o ∧ s' = Eth.step s (.config ⟨o.enabled, o.listen, o.idle⟩ ⟨o.mcast, o.group, o.adHoc, e.ethNetif o.lists⟩ e.ethWorks e.ethOpens)
  scheme : s'.scheme = true ↔ ∃ x, First n.kids "ether" x

theorem eth_stepped {e : Env} {n : Node} {s : Eth.St} (hs : ∃ es, s = Eth.run Eth.init es) (hok : (ethConfig e (n.child "ether") false s).2 = true) :
    EthStepped e n s (ethConfig e (n.child "ether") false s).1 := by
  obtain ⟨es, rfl⟩ := hs
  obtain ⟨o, h1, h2⟩ := ethConfig_done hok
  have hsch : (ethConfig e (n.child "ether") false (Eth.run Eth.init es)).1.scheme = o.enabled := by rw [h2]; exact eth_scheme es o.uni (o.mc e) _ _
  cases hc : n.child "ether" with
  | none =>
    rw [hc] at h1 h2 hsch
    cases h1
    refine ⟨⟨noEth, Or.inl ⟨child_lacks.1 hc, rfl, rfl, rfl⟩, h2⟩, ?_⟩
    rw [hsch]
    refine ⟨fun h => (by cases h), ?_⟩
    rintro ⟨x, hx⟩
    rw [← child_first, hc] at hx; cases hx
  | some x =>
    rw [hc] at h1 h2 hsch
    have hx := child_first.1 hc
    have he : EthSection e x.kids o := eth_says h1
    refine ⟨⟨o, Or.inr ⟨x, hx, he⟩, h2⟩, ?_⟩
    rw [hsch, he.enabled]
    exact ⟨fun _ => ⟨x, hx⟩, fun _ => rfl⟩

/-! ### Rules for interfaces -/

theorem setRule_rules {e : Env} {x : Node} {r : Rule} (h : parseRule e x = some r) : r.remotes ≠ [] := by
  unfold parseRule at h
  cases hr : readOpts (setRule e) x.kids ⟨⟨[], Net.Lists.init⟩, false, false⟩ with
  | none => rw [hr] at h; cases h
  | some q =>
    rw [hr] at h
    dsimp only at h
    by_cases hq : q.rule.remotes.isEmpty = true
    · rw [if_pos hq] at h; cases h
    · rw [if_neg hq] at h
      cases h
      simpa using hq

theorem readRules {e : Env} : ∀ (l : List (String × Node)) (a r : List Rule),
    readOpts (fun k x l => if k = "rule" then (parseRule e x).map (fun r => l ++ [r]) else none) l a = some r →
    r.length = a.length + l.length ∧ ((∀ q ∈ a, q.remotes ≠ []) → ∀ q ∈ r, q.remotes ≠ [])
  | [], a, r, h => by cases h; exact ⟨rfl, id⟩
  | y :: l, a, r, h => by
    unfold readOpts at h
    by_cases hk : y.1 = "rule"
    · rw [if_pos hk] at h
      cases hp : parseRule e y.2 with
      | none => rw [hp] at h; cases h
      | some q =>
        rw [hp] at h
        obtain ⟨h1, h2⟩ := readRules l (a ++ [q]) r h
        refine ⟨by rw [h1]; simp; omega, fun ha => h2 ?_⟩
        intro q' hq'
        rcases List.mem_append.1 hq' with hq' | hq'
        · exact ha q' hq'
        · rw [List.mem_singleton] at hq'; subst hq'; exact setRule_rules hp
    · rw [if_neg hk] at h; cases h

theorem parseRules_some {e : Env} {x : Node} {rs : List Rule} (h : parseRules e (some x) = some rs) : rs.length = x.kids.length ∧ ∀ q ∈ rs, q.remotes ≠ [] := by
  obtain ⟨h1, h2⟩ := readRules x.kids [] rs h
  exact ⟨by simpa using h1, h2 (fun _ h => (by cases h))⟩

theorem dev_ne {x y : List Char} (h : y = sTcp ∨ y = sTcp4 ∨ y = sTcp6 ∨ y = sUdp ∨ y = sUdp4 ∨ y = sUdp6 ∨ y = sEther) : x ++ sDev ≠ y := by
  intro hy
  have := congrArg List.reverse hy
  rcases h with h | h | h | h | h | h | h <;> subst h <;> simp [sDev, sTcp, sTcp4, sTcp6, sUdp, sUdp4, sUdp6, sEther] at this

theorem provided_cases {s : St} (ht : ∀ x ∈ s.tcp.schemes, x = sTcp ∨ x = sTcp4 ∨ x = sTcp6) (hu : ∀ x ∈ s.udp.schemes, x = sUdp ∨ x = sUdp4 ∨ x = sUdp6)
    {x : List Char} {f : Fac} (h : x ∈ s.provided f) :
    (f = .tcp ∧ (x = sTcp ∨ x = sTcp4 ∨ x = sTcp6)) ∨ (f = .udp ∧ (x = sUdp ∨ x = sUdp4 ∨ x = sUdp6)) ∨ (f = .ether ∧ x = sEther ∧ s.eth.scheme = true) := by
  cases f with
  | ether =>
    simp only [St.provided] at h
    by_cases hs : s.eth.scheme = true
    · rw [if_pos hs] at h; exact Or.inr (Or.inr ⟨rfl, by simpa using h, hs⟩)
    · rw [if_neg hs] at h; cases h
  | tcp => exact Or.inl ⟨rfl, ht x h⟩
  | udp => exact Or.inr (Or.inl ⟨rfl, hu x h⟩)
  | unix => cases h
  | websocket => cases h

theorem Inv.no_dev {s : St} (h : Inv s) (x : List Char) : s.byScheme (x ++ sDev) = none := by
  cases hb : s.byScheme (x ++ sDev) with
  | none => rfl
  | some f =>
    exfalso
    rcases provided_cases h.tcpS h.udpS ((h.byScheme _ f).1 hb) with ⟨-, h⟩ | ⟨-, h⟩ | ⟨-, h, -⟩
    · exact dev_ne (y := x ++ sDev) (by rcases h with h | h | h <;> simp [h]) rfl
    · exact dev_ne (y := x ++ sDev) (by rcases h with h | h | h <;> simp [h]) rfl
    · exact dev_ne (y := x ++ sDev) (by simp [h]) rfl

/-- No factory makes faces bound to an interface, so that no rule can be applied. -/
theorem netdev_real {e : Env} {n : Node} {s : St} (hi : Inv s) (hok : (netdevConfig e (n.child "netdev_bound") false s).2 = true) :
    (netdevConfig e (n.child "netdev_bound") false s).1 = { s with rules := [] } ∧ ∀ x, First n.kids "netdev_bound" x → x.kids = [] := by
  unfold netdevConfig at hok ⊢
  cases hr : parseRules e (n.child "netdev_bound") with
  | none => rw [hr] at hok; cases hok
  | some rs =>
    rw [hr] at hok
    simp only [Bool.false_eq_true, if_false] at hok ⊢
    have key : (∀ q ∈ rs, q.remotes ≠ []) → rs = [] := by
      intro hne
      cases rs with
      | nil => rfl
      | cons q rs =>
        exfalso
        by_cases ha : (q :: rs).all (fun r => r.remotes.all (fun x => (s.byScheme (x ++ sDev)).isSome)) = true
        · rw [List.all_eq_true] at ha
          have h1 := ha q List.mem_cons_self
          cases hq : q.remotes with
          | nil => exact hne q List.mem_cons_self hq
          | cons y l =>
            rw [List.all_eq_true] at h1
            have h2 := h1 y (by rw [hq]; exact List.mem_cons_self)
            rw [hi.no_dev] at h2
            cases h2
        · rw [if_neg ha] at hok; cases hok
    cases hc : n.child "netdev_bound" with
    | none =>
      rw [hc] at hr
      cases hr
      refine ⟨rfl, fun x hx => ?_⟩
      rw [← child_first, hc] at hx; cases hx
    | some x =>
      rw [hc] at hr
      obtain ⟨h1, h2⟩ := parseRules_some hr
      have := key h2
      subst this
      refine ⟨rfl, fun x' hx' => ?_⟩
      cases first_unique (child_first.1 hc) hx'
      cases hk : x.kids with
      | nil => rfl
      | cons a b => rw [hk] at h1; simp at h1

theorem netdev_none {e : Env} {n : Node} {s : St} (h : ∀ x, First n.kids "netdev_bound" x → x.kids = []) :
    (netdevConfig e (n.child "netdev_bound") false s).2 = true := by
  cases hc : n.child "netdev_bound" with
  | none => rfl
  | some x =>
    have := h x (child_first.1 hc)
    unfold netdevConfig parseRules
    dsimp only
    rw [this]
    rfl

/-! ### Runs -/

theorem Inv.marked {s : St} (h : Inv s) (a b c : Bool) : Inv (marked a b c s) :=
  ⟨h.tcp, h.udp, h.unix, h.ws, h.mc, h.eth, h.tcpS, h.udpS, fun x f => (by rw [show (Fs.marked a b c s).byScheme x = s.byScheme x from rfl, h.byScheme x f]; cases f <;> rfl), h.rules⟩

theorem enables_cases {e : Env} {n : Node} {x : List Char} {f : Fac} (h : Enables e n x f) :
    (f = .tcp ∧ (x = sTcp ∨ x = sTcp4 ∨ x = sTcp6)) ∨ (f = .udp ∧ (x = sUdp ∨ x = sUdp4 ∨ x = sUdp6)) ∨ (f = .ether ∧ x = sEther) := by
  cases h
  · exact Or.inl ⟨rfl, Or.inl rfl⟩
  · exact Or.inl ⟨rfl, Or.inr (Or.inl rfl)⟩
  · exact Or.inl ⟨rfl, Or.inr (Or.inr rfl)⟩
  · exact Or.inr (Or.inl ⟨rfl, Or.inl rfl⟩)
  · exact Or.inr (Or.inl ⟨rfl, Or.inr (Or.inl rfl)⟩)
  · exact Or.inr (Or.inl ⟨rfl, Or.inr (Or.inr rfl)⟩)
  · exact Or.inr (Or.inr ⟨rfl, rfl⟩)

theorem tcp_udp {x : List Char} (h1 : x = sTcp ∨ x = sTcp4 ∨ x = sTcp6) (h2 : x = sUdp ∨ x = sUdp4 ∨ x = sUdp6) : False := by
  rcases h1 with rfl | rfl | rfl <;> rcases h2 with h | h | h <;> revert h <;> decide

theorem tcp_ether {x : List Char} (h1 : x = sTcp ∨ x = sTcp4 ∨ x = sTcp6) (h2 : x = sEther) : False := by
  subst h2
  rcases h1 with h | h | h <;> revert h <;> decide

theorem udp_ether {x : List Char} (h1 : x = sUdp ∨ x = sUdp4 ∨ x = sUdp6) (h2 : x = sEther) : False := by
  subst h2
  rcases h1 with h | h | h <;> revert h <;> decide

/-- What a successful run does, and that the invariant goes on to hold. -/
theorem process_real {e : Env} {n : Node} {s : St} (hi : Inv s) (hok : (process e n false s).2 = true) :
    Done e n s (process e n false s).1 ∧ Inv (process e n false s).1 ∧ WellFormed e n ∧ ∀ x, First n.kids "netdev_bound" x → x.kids = [] := by
  have hwf := process_wf hok
  obtain ⟨m, hg, ha, hb, hn⟩ := process_ok.1 hok
  rw [process_state hg ha hb]
  obtain ⟨hf1, hf2⟩ := factories_real e n m s
  rw [hf2 ha] at hb ⊢
  obtain ⟨h1, h2, h3, h4, h5⟩ := hf1.1 ha
  have t := tcp_stepped hi.tcp h2
  have u := udp_stepped hi.udp h3
  have x := unix_stepped hi.unix h4
  have w := ws_stepped hi.ws h5
  have y := eth_stepped hi.eth h1
  have hm := readGeneral_says hg
  have tS : ∀ z ∈ (applied e n m s).tcp.schemes, z = sTcp ∨ z = sTcp4 ∨ z = sTcp6 := by
    intro z hz
    rcases (t.schemes z).1 hz with h | h
    · rcases enables_cases h with ⟨_, h⟩ | ⟨h, _⟩ | ⟨h, _⟩
      · exact h
      · cases h
      · cases h
    · exact hi.tcpS z h
  have uS : ∀ z ∈ (applied e n m s).udp.schemes, z = sUdp ∨ z = sUdp4 ∨ z = sUdp6 := by
    intro z hz
    rcases (u.schemes z).1 hz with h | h
    · rcases enables_cases h with ⟨h, _⟩ | ⟨_, h⟩ | ⟨h, _⟩
      · cases h
      · exact h
      · cases h
    · exact hi.udpS z h
  have eS : (applied e n m s).eth.scheme = true ↔ ∃ x, First n.kids "ether" x := y.scheme
  have hby : ∀ z f, (applied e n m s).byScheme z = some f ↔ z ∈ (applied e n m s).provided f := by
    intro z f
    have hz := hi.byScheme z
    simp only [applied] at tS uS eS ⊢
    simp only [update, St.provided]
    by_cases c1 : z ∈ (udpConfig e (n.child "udp") m false s.udp).1.schemes
    · rw [if_pos c1]
      have c1' := uS z c1
      cases f with
      | udp => simp [c1]
      | tcp => simp only [Option.some.injEq, reduceCtorEq, false_iff]; exact fun h => tcp_udp (tS z h) c1'
      | ether =>
        simp only [Option.some.injEq, reduceCtorEq, false_iff]
        split
        · rw [List.mem_singleton]; exact udp_ether c1'
        · simp
      | unix => simp
      | websocket => simp
    · rw [if_neg c1]
      have c1' : z ∉ s.udp.schemes := fun h => c1 ((u.schemes z).2 (Or.inr h))
      rw [if_neg c1']
      by_cases c2 : z ∈ (tcpConfig e (n.child "tcp") m false s.tcp).1.schemes
      · rw [if_pos c2]
        have c2' := tS z c2
        cases f with
        | tcp => simp [c2]
        | udp => simp only [Option.some.injEq, reduceCtorEq, false_iff]; exact c1
        | ether =>
          simp only [Option.some.injEq, reduceCtorEq, false_iff]
          split
          · rw [List.mem_singleton]; exact tcp_ether c2'
          · simp
        | unix => simp
        | websocket => simp
      · rw [if_neg c2]
        have c2' : z ∉ s.tcp.schemes := fun h => c2 ((t.schemes z).2 (Or.inr h))
        rw [if_neg c2']
        generalize (if (ethConfig e (n.child "ether") false s.eth).1.scheme = true then [sEther] else []) = new
        by_cases c3 : z ∈ new
        · rw [if_pos c3]
          cases f <;> simp [c1, c2, c3]
        · rw [if_neg c3]
          by_cases c4 : z ∈ (if s.eth.scheme = true then [sEther] else [])
          · rw [if_pos c4]
            cases f <;> simp [c1, c2, c3]
          · rw [if_neg c4]
            rw [hz]
            cases f with
            | tcp => simp [St.provided, c2, c2']
            | udp => simp [St.provided, c1, c1']
            | ether => simp only [St.provided]; exact ⟨fun h => absurd h c4, fun h => absurd h c3⟩
            | unix => simp [St.provided]
            | websocket => simp [St.provided]
  have inv : Inv (applied e n m s) := by
    refine ⟨t.inv, u.inv, x.inv, w.inv, ?_, ?_, tS, uS, hby, hi.rules⟩
    · obtain ⟨es, h⟩ := hi.mc
      obtain ⟨o, -, -, -, -, h'⟩ := u.done
      rw [h, mc_run_snoc] at h'
      exact ⟨_, h'⟩
    · obtain ⟨es, h⟩ := hi.eth
      obtain ⟨o, -, h'⟩ := y.done
      exact ⟨_, h'.trans (by rw [h]; exact eth_run_snoc es _)⟩
  obtain ⟨nd1, nd2⟩ := netdev_real inv hb
  rw [nd1]
  have prov : ∀ z f, z ∈ (applied e n m s).provided f ↔ Enables e n z f ∨ (z ∈ s.provided f ∧ z ≠ sEther) := by
    intro z f
    cases f with
    | tcp =>
      refine (t.schemes z).trans ⟨?_, ?_⟩
      · rintro (h | h)
        · exact Or.inl h
        · exact Or.inr ⟨h, fun h' => tcp_ether (hi.tcpS z h) h'⟩
      · rintro (h | ⟨h, -⟩)
        · exact Or.inl h
        · exact Or.inr h
    | udp =>
      refine (u.schemes z).trans ⟨?_, ?_⟩
      · rintro (h | h)
        · exact Or.inl h
        · exact Or.inr ⟨h, fun h' => udp_ether (hi.udpS z h) h'⟩
      · rintro (h | ⟨h, -⟩)
        · exact Or.inl h
        · exact Or.inr h
    | ether =>
      simp only [St.provided]
      constructor
      · intro h
        by_cases hc : (applied e n m s).eth.scheme = true
        · rw [if_pos hc, List.mem_singleton] at h
          obtain ⟨x, hx⟩ := eS.1 hc
          subst h
          exact Or.inl (.ether x hx)
        · rw [if_neg hc] at h; cases h
      · rintro (h | ⟨h, h'⟩)
        · cases h with
          | ether x hx => rw [if_pos (eS.2 ⟨x, hx⟩)]; exact List.mem_singleton.2 rfl
        · by_cases hs : s.eth.scheme = true
          · rw [if_pos hs, List.mem_singleton] at h; exact absurd h h'
          · rw [if_neg hs] at h; cases h
    | unix => exact ⟨fun h => (by cases h), fun h => (by rcases h with h | ⟨h, -⟩ <;> cases h)⟩
    | websocket => exact ⟨fun h => (by cases h), fun h => (by rcases h with h | ⟨h, -⟩ <;> cases h)⟩
  refine ⟨?_, ?_, hwf, nd2⟩
  · exact {
      marking := ⟨m, hm, t.marking, u.marking, x.marking⟩
      noTcp := t.none
      tcp := fun z hz => (by
        obtain ⟨a, l, p, v4, v6, b, c⟩ := t.some z hz
        refine ⟨a, l, p, v4, v6, b, ?_⟩
        show ChansDone l (Keys p v4 v6) (tcpConfig e (n.child "tcp") m false s.tcp).1.marking 0 0 _ _
        rw [t.marking]; exact c)
      udp := (by
        obtain ⟨o, a, b, c, d, f⟩ := u.done
        refine ⟨o, a, b, c, ?_, f⟩
        show ChansDone _ _ (udpConfig e (n.child "udp") m false s.udp).1.marking _ _ _ _
        rw [u.marking]; exact d)
      noUnix := x.none
      unix := fun z hz => (by
        obtain ⟨p, q, a, b, c⟩ := x.some z hz
        refine ⟨p, q, a, b, ?_⟩
        show ChansDone _ _ (unixConfig e (n.child "unix") m false s.unix).1.marking _ _ _ _
        rw [x.marking]; exact c)
      noWs := w.none
      ws := w.some
      ether := y.done
      enabled := fun z f h => (hby z f).2 ((prov z f).2 (Or.inl h))
      kept := fun z f h h' => (hby z f).2 ((prov z f).2 (Or.inr ⟨(hi.byScheme z f).1 h, h'⟩))
      schemes := fun z f h => (by
        rcases (prov z f).1 ((hby z f).1 h) with h | ⟨h, h'⟩
        · exact Or.inl h
        · exact Or.inr ⟨(hi.byScheme z f).2 h, h'⟩)
      rules := rfl }
  · exact ⟨inv.tcp, inv.udp, inv.unix, inv.ws, inv.mc, inv.eth, inv.tcpS, inv.udpS, fun z f => (inv.byScheme z f).trans (by cases f <;> rfl), rfl⟩

theorem Reach.inv {s : St} (h : Reach s) : Inv s := by
  induction h with
  | init => exact Inv.init
  | config s e n dry _ hok ih =>
    cases dry with
    | false => exact (process_real ih hok).2.1
    | true =>
      obtain ⟨x, y, z, h⟩ := process_marked e n s
      rw [h]
      exact ih.marked x y z
  | udp s ev _ hev ih =>
    obtain ⟨es, h⟩ := ih.mc
    exact ⟨ih.tcp, ih.udp, ih.unix, ih.ws, ⟨es ++ [ev], by rw [← mc_run_snoc, ← h]⟩, ih.eth, ih.tcpS, ih.udpS,
      fun x f => (ih.byScheme x f).trans (by cases f <;> rfl), ih.rules⟩
  | ether s ev _ hev ih =>
    obtain ⟨es, h⟩ := ih.eth
    have hs : (Eth.step s.eth ev).scheme = s.eth.scheme := by rw [h]; exact eth_scheme_other es ev hev
    refine ⟨ih.tcp, ih.udp, ih.unix, ih.ws, ih.mc, ⟨es ++ [ev], by rw [← eth_run_snoc, ← h]⟩, ih.tcpS, ih.udpS, fun x f => (ih.byScheme x f).trans ?_, ih.rules⟩
    cases f with
    | ether => simp only [St.provided, hs]
    | tcp => rfl
    | udp => rfl
    | unix => rfl
    | websocket => rfl

end Verif.Fs
