import Verif.Fs.Apply
import Verif.Mc.Props

/-! The whole section. -/
namespace Verif.Fs
open Verif.Cf (Node)

/-! ### Which sections are accepted -/

/-- The section of a factory can be read. -/
def Good (e : Env) : Fac → Option Node → Prop
  | .ether, c => ∃ o, readEth e c = some o
  | .tcp, c => ∀ x, c = some x → ∃ o, readTcp e x = some o
  | .udp, c => ∃ o, readUdp e c = some o
  | .unix, c => ∀ x, c = some x → ∃ p, readUnix x = some p
  | .websocket, c => ∃ o, readWs e c = some o

theorem config1_good {e : Env} {f : Fac} {c : Option Node} {m dry : Bool} {s : St} (h : (config1 e f c m dry s).2 = true) : Good e f c := by
  cases f with
  | ether =>
    simp only [config1, ethConfig] at h
    cases hr : readEth e c with
    | none => rw [hr] at h; cases h
    | some o => exact ⟨o, hr⟩
  | tcp =>
    rintro x rfl
    simp only [config1, tcpConfig] at h
    cases hr : readTcp e x with
    | none => rw [hr] at h; cases h
    | some o => exact ⟨o, rfl⟩
  | udp =>
    simp only [config1, udpConfig] at h
    cases hr : readUdp e c with
    | none => rw [hr] at h; cases h
    | some o => exact ⟨o, hr⟩
  | unix =>
    rintro x rfl
    simp only [config1, unixConfig] at h
    cases hr : readUnix x with
    | none => rw [hr] at h; cases h
    | some o => exact ⟨o, rfl⟩
  | websocket =>
    simp only [config1, wsConfig] at h
    cases hr : readWs e c with
    | none => rw [hr] at h; cases h
    | some o => exact ⟨o, hr⟩

theorem config1_dry {e : Env} {f : Fac} {c : Option Node} {m : Bool} {s : St} (h : Good e f c) : (config1 e f c m true s).2 = true := by
  cases f with
  | ether => obtain ⟨o, hr⟩ := h; simp [config1, ethConfig, hr]
  | tcp =>
    cases c with
    | none => rfl
    | some x => obtain ⟨o, hr⟩ := h x rfl; simp [config1, tcpConfig, hr]
  | udp => obtain ⟨o, hr⟩ := h; simp [config1, udpConfig, hr]
  | unix =>
    cases c with
    | none => rfl
    | some x => obtain ⟨o, hr⟩ := h x rfl; simp [config1, unixConfig, hr]
  | websocket => obtain ⟨o, hr⟩ := h; simp [config1, wsConfig, hr]

theorem factories_good {e : Env} {n : Node} {m dry : Bool} : ∀ {l : List Fac} {s : St}, (factories e n m dry l s).2 = true → ∀ f ∈ l, Good e f (n.child f.name)
  | [], _, _ => fun f hf => by cases hf
  | g :: l, s, h => by
    unfold factories at h
    dsimp only at h
    cases hr : (config1 e g (n.child g.name) m dry s).2 with
    | false => rw [if_neg (by rw [hr]; simp)] at h; rw [hr] at h; cases h
    | true =>
      rw [if_pos hr] at h
      intro f hf
      rcases List.mem_cons.1 hf with rfl | hf
      · exact config1_good hr
      · exact factories_good h f hf

theorem factories_dry {e : Env} {n : Node} {m : Bool} : ∀ {l : List Fac} {s : St}, (∀ f ∈ l, Good e f (n.child f.name)) → (factories e n m true l s).2 = true
  | [], _, _ => rfl
  | g :: l, s, h => by
    unfold factories
    dsimp only
    rw [if_pos (config1_dry (h g List.mem_cons_self))]
    exact factories_dry (fun f hf => h f (List.mem_cons_of_mem _ hf))

theorem good_iff {P : Node → Prop} (n : Node) (key : String) : (∀ x, n.child key = some x → P x) ↔ ∀ x, First n.kids key x → P x := by
  simp only [child_first]

theorem wellFormed_iff (e : Env) (n : Node) : WellFormed e n ↔
    (∃ m, readGeneral (n.child "general") = some m) ∧ (∀ f ∈ order, Good e f (n.child f.name)) ∧ (∃ l, parseRules e (n.child "netdev_bound") = some l) ∧
    checkNames [] n.kids = true := by
  have hg : (∃ m, readGeneral (n.child "general") = some m) ↔ ∀ x, First n.kids "general" x → ∀ y ∈ x.kids, y.1 = "enable_congestion_marking" ∧ ∃ b, YesNo y.2 b := by
    rw [← good_iff n "general"]
    cases hc : n.child "general" with
    | none => simp [readGeneral]
    | some x => simp [readGeneral_iff, -Bool.exists_bool]
  have hd : (∃ l, parseRules e (n.child "netdev_bound") = some l) ↔ ∀ x, First n.kids "netdev_bound" x → ∀ y ∈ x.kids, y.1 = "rule" ∧ RuleWellFormed e y.2.kids := by
    rw [← good_iff n "netdev_bound"]
    cases hc : n.child "netdev_bound" with
    | none => simp [parseRules]
    | some x => simp [parseRules_iff]
  have h1 : Good e .ether (n.child "ether") ↔ ∀ x, First n.kids "ether" x → ∀ y ∈ x.kids, EthLine e y := by
    rw [← good_iff n "ether"]
    cases hc : n.child "ether" with
    | none => simp [Good, readEth]
    | some x => simp [Good, readEth_iff]
  have h2 : Good e .tcp (n.child "tcp") ↔ ∀ x, First n.kids "tcp" x → (∀ y ∈ x.kids, TcpLine e y) ∧
      ¬ (Says x.kids "enable_v4" true YesNo false ∧ Says x.kids "enable_v6" true YesNo false) := by
    rw [← good_iff n "tcp"]
    simp only [Good, readTcp_iff]
  have h3 : Good e .udp (n.child "udp") ↔ ∀ x, First n.kids "udp" x → (∀ y ∈ x.kids, UdpLine e y) ∧
      ¬ (Says x.kids "enable_v4" true YesNo false ∧ Says x.kids "enable_v6" true YesNo false ∧ Says x.kids "mcast" true YesNo false) := by
    rw [← good_iff n "udp"]
    cases hc : n.child "udp" with
    | none => simp [Good, readUdp]
    | some x => simp only [Good, readUdp_iff, Option.some.injEq, forall_eq']
  have h4 : Good e .unix (n.child "unix") ↔ ∀ x, First n.kids "unix" x → ∀ y ∈ x.kids, y.1 = "path" := by
    rw [← good_iff n "unix"]
    simp only [Good, readUnix_iff]
  have h5 : Good e .websocket (n.child "websocket") ↔ ∀ x, First n.kids "websocket" x → (∀ y ∈ x.kids, WsLine e y) ∧
      ¬ (Says x.kids "enable_v4" true YesNo false ∧ Says x.kids "enable_v6" true YesNo false) := by
    rw [← good_iff n "websocket"]
    cases hc : n.child "websocket" with
    | none => simp [Good, readWs]
    | some x => simp only [Good, readWs_iff, Option.some.injEq, forall_eq']
  have ho : (∀ f ∈ order, Good e f (n.child f.name)) ↔ Good e .ether (n.child "ether") ∧ Good e .tcp (n.child "tcp") ∧ Good e .udp (n.child "udp") ∧
      Good e .unix (n.child "unix") ∧ Good e .websocket (n.child "websocket") := by
    simp only [order, List.mem_cons, List.not_mem_nil, or_false, forall_eq_or_imp, forall_eq, Fac.name]
  rw [hg, hd, ho, h1, h2, h3, h4, h5, checkNames_iff]
  constructor
  · intro h
    exact ⟨h.general, ⟨h.ether, h.tcp, h.udp, h.unix, h.websocket⟩, h.netdev, h.names, h.once, fun _ _ h => by cases h⟩
  · rintro ⟨a, ⟨b, c, d, f, g⟩, i, j, k, -⟩
    exact ⟨j, k, a, b, c, d, f, g, i⟩

theorem netdev_good {e : Env} {c : Option Node} {dry : Bool} {s : St} (h : (netdevConfig e c dry s).2 = true) : ∃ l, parseRules e c = some l := by
  unfold netdevConfig at h
  cases hr : parseRules e c with
  | none => rw [hr] at h; cases h
  | some l => exact ⟨l, rfl⟩

theorem netdev_dry {e : Env} {c : Option Node} {s : St} (h : ∃ l, parseRules e c = some l) : netdevConfig e c true s = (s, true) := by
  obtain ⟨l, hl⟩ := h
  simp [netdevConfig, hl]

/-- The steps of a run without exception. -/
theorem process_ok {e : Env} {n : Node} {dry : Bool} {s : St} : (process e n dry s).2 = true ↔ ∃ m, readGeneral (n.child "general") = some m ∧
    (factories e n m dry order s).2 = true ∧ (netdevConfig e (n.child "netdev_bound") dry (factories e n m dry order s).1).2 = true ∧
    checkNames [] n.kids = true := by
  unfold process
  cases hg : readGeneral (n.child "general") with
  | none => simp
  | some m =>
    simp only [Option.some.injEq, exists_eq_left']
    generalize factories e n m dry order s = a
    cases ha : a.2 with
    | false => simp [ha]
    | true =>
      simp only [if_true, true_and]
      cases hb : (netdevConfig e (n.child "netdev_bound") dry a.1).2 with
      | false => simp [hb]
      | true => simp

theorem process_state {e : Env} {n : Node} {dry : Bool} {s : St} {m : Bool} (hg : readGeneral (n.child "general") = some m)
    (ha : (factories e n m dry order s).2 = true) (hb : (netdevConfig e (n.child "netdev_bound") dry (factories e n m dry order s).1).2 = true) :
    (process e n dry s).1 = (netdevConfig e (n.child "netdev_bound") dry (factories e n m dry order s).1).1 := by
  unfold process
  rw [hg]
  dsimp only
  rw [if_pos ha, if_pos hb]

theorem process_wf {e : Env} {n : Node} {dry : Bool} {s : St} (h : (process e n dry s).2 = true) : WellFormed e n := by
  obtain ⟨m, h1, h2, h3, h4⟩ := process_ok.1 h
  exact (wellFormed_iff e n).2 ⟨⟨m, h1⟩, factories_good h2, netdev_good h3, h4⟩

theorem process_dry {e : Env} {n : Node} {s : St} (h : WellFormed e n) : (process e n true s).2 = true := by
  obtain ⟨⟨m, h1⟩, h2, h3, h4⟩ := (wellFormed_iff e n).1 h
  exact process_ok.2 ⟨m, h1, factories_dry h2, by rw [netdev_dry h3], h4⟩

/-! ### Dry runs change congestion marking only -/

theorem config1_marked (e : Env) (f : Fac) (c : Option Node) (m : Bool) (s : St) : ∃ x y z, (config1 e f c m true s).1 = marked x y z s := by
  cases f with
  | ether =>
    refine ⟨s.tcp.marking, s.udp.marking, s.unix.marking, ?_⟩
    simp only [config1, ethConfig]
    cases readEth e c <;> rfl
  | tcp =>
    refine ⟨m, s.udp.marking, s.unix.marking, ?_⟩
    simp only [config1, tcpConfig]
    cases c with
    | none => rfl
    | some x => dsimp only; cases readTcp e x <;> rfl
  | udp =>
    refine ⟨s.tcp.marking, m, s.unix.marking, ?_⟩
    simp only [config1, udpConfig]
    cases readUdp e c <;> rfl
  | unix =>
    refine ⟨s.tcp.marking, s.udp.marking, m, ?_⟩
    simp only [config1, unixConfig]
    cases c with
    | none => rfl
    | some x => dsimp only; cases readUnix x <;> rfl
  | websocket =>
    refine ⟨s.tcp.marking, s.udp.marking, s.unix.marking, ?_⟩
    simp only [config1, wsConfig]
    cases readWs e c <;> rfl

theorem marked_marked (a b c x y z : Bool) (s : St) : marked a b c (marked x y z s) = marked a b c s := rfl

theorem factories_marked (e : Env) (n : Node) (m : Bool) : ∀ (l : List Fac) (s : St), ∃ x y z, (factories e n m true l s).1 = marked x y z s
  | [], s => ⟨s.tcp.marking, s.udp.marking, s.unix.marking, rfl⟩
  | f :: l, s => by
    obtain ⟨x, y, z, h⟩ := config1_marked e f (n.child f.name) m s
    unfold factories
    dsimp only
    by_cases hr : (config1 e f (n.child f.name) m true s).2 = true
    · rw [if_pos hr, if_pos rfl, h]
      obtain ⟨x', y', z', h'⟩ := factories_marked e n m l (marked x y z s)
      exact ⟨x', y', z', h'⟩
    · rw [if_neg hr]; exact ⟨x, y, z, h⟩

theorem process_marked (e : Env) (n : Node) (s : St) : ∃ x y z, (process e n true s).1 = marked x y z s := by
  unfold process
  cases readGeneral (n.child "general") with
  | none => exact ⟨s.tcp.marking, s.udp.marking, s.unix.marking, rfl⟩
  | some m =>
    dsimp only
    obtain ⟨x, y, z, h⟩ := factories_marked e n m order s
    have hn : (netdevConfig e (n.child "netdev_bound") true (factories e n m true order s).1).1 = (factories e n m true order s).1 := by
      unfold netdevConfig
      cases parseRules e (n.child "netdev_bound") <;> rfl
    refine ⟨x, y, z, ?_⟩
    split
    · split
      · dsimp only; rw [hn, h]
      · rw [hn, h]
    · exact h

/-! ### The state of the markings does not matter -/

theorem config1_any (e : Env) (f : Fac) (c : Option Node) (m : Bool) (s : St) (x y z : Bool) :
    config1 e f c m false (marked x y z s) = (marked (if f = .tcp then (config1 e f c m false s).1.tcp.marking else x)
      (if f = .udp then (config1 e f c m false s).1.udp.marking else y) (if f = .unix then (config1 e f c m false s).1.unix.marking else z)
      (config1 e f c m false s).1, (config1 e f c m false s).2) := by
  cases f <;> rfl

end Verif.Fs
