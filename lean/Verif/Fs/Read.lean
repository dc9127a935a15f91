import Verif.Fs.Lemmas

/-! What is read from the sections is what they say, and reading fails exactly if they are not well formed. -/
namespace Verif.Fs
open Verif.Cf (Node)

/-- What one option does. -/
inductive UdpStep (e : Env) (x : Node) (o : UdpOpts) : String → UdpOpts → Prop
  | c0 (v : Bool) : YesNo x v → UdpStep e x o "listen" { o with listen := v }
  | c1 (v : Nat) : Num e 65535 x v → UdpStep e x o "port" { o with port := v }
  | c2 (v : Bool) : YesNo x v → UdpStep e x o "enable_v4" { o with v4 := v }
  | c3 (v : Bool) : YesNo x v → UdpStep e x o "enable_v6" { o with v6 := v }
  | c4 (v : Nat) : Num e 4294967295 x v → UdpStep e x o "idle_timeout" { o with idle := v }
  | c5 (v : Nat) : Mtu e x v → UdpStep e x o "unicast_mtu" { o with mtu := v }
  | c6 : UdpStep e x o "keep_alive_interval" o
  | c7 (v : Bool) : YesNo x v → UdpStep e x o "mcast" { o with mcast := v }
  | c8 (v : Nat) : Group e.v4 x v → UdpStep e x o "mcast_group" { o with group := v }
  | c9 (v : Nat) : Num e 65535 x v → UdpStep e x o "mcast_port" { o with mport := v }
  | c10 (v : Nat) : Group e.v6 x v → UdpStep e x o "mcast_group_v6" { o with group6 := v }
  | c11 (v : Nat) : Num e 65535 x v → UdpStep e x o "mcast_port_v6" { o with mport6 := v }
  | c12 (v : Bool) : YesNo x v → UdpStep e x o "mcast_ad_hoc" { o with adHoc := v }
  | c13 (v : List (List Char)) : ListOf e .interface x v → UdpStep e x o "whitelist" { o with lists := { o.lists with white := v } }
  | c14 (v : List (List Char)) : ListOf e .interface x v → UdpStep e x o "blacklist" { o with lists := { o.lists with black := v } }

theorem udp_step {e : Env} {k : String} {x : Node} {o o' : UdpOpts} : setUdp e k x o = some o' ↔ UdpStep e x o k o' := by
  simp only [setUdp, ite_eq_some, Option.map_eq_some_iff, Option.some.injEq, reduceCtorEq, and_false, or_false, yesNo_iff, u16_iff, u32_iff, mtu_iff, mcastAddr_iff, rules_iff]
  constructor
  · intro h
    rcases h with ⟨rfl, v, hv, rfl⟩ | ⟨-, h⟩
    · exact .c0 v hv
    rcases h with ⟨rfl, v, hv, rfl⟩ | ⟨-, h⟩
    · exact .c1 v hv
    rcases h with ⟨rfl, v, hv, rfl⟩ | ⟨-, h⟩
    · exact .c2 v hv
    rcases h with ⟨rfl, v, hv, rfl⟩ | ⟨-, h⟩
    · exact .c3 v hv
    rcases h with ⟨rfl, v, hv, rfl⟩ | ⟨-, h⟩
    · exact .c4 v hv
    rcases h with ⟨rfl, v, hv, rfl⟩ | ⟨-, h⟩
    · exact .c5 v hv
    rcases h with ⟨rfl, rfl⟩ | ⟨-, h⟩
    · exact .c6
    rcases h with ⟨rfl, v, hv, rfl⟩ | ⟨-, h⟩
    · exact .c7 v hv
    rcases h with ⟨rfl, v, hv, rfl⟩ | ⟨-, h⟩
    · exact .c8 v hv
    rcases h with ⟨rfl, v, hv, rfl⟩ | ⟨-, h⟩
    · exact .c9 v hv
    rcases h with ⟨rfl, v, hv, rfl⟩ | ⟨-, h⟩
    · exact .c10 v hv
    rcases h with ⟨rfl, v, hv, rfl⟩ | ⟨-, h⟩
    · exact .c11 v hv
    rcases h with ⟨rfl, v, hv, rfl⟩ | ⟨-, h⟩
    · exact .c12 v hv
    rcases h with ⟨rfl, v, hv, rfl⟩ | ⟨-, h⟩
    · exact .c13 v hv
    obtain ⟨rfl, v, hv, rfl⟩ := h
    exact .c14 v hv
  · intro h
    cases h with
    | c0 v hv => exact Or.inl ⟨rfl, v, hv, rfl⟩
    | c1 v hv => exact Or.inr ⟨by decide, Or.inl ⟨rfl, v, hv, rfl⟩⟩
    | c2 v hv => exact Or.inr ⟨by decide, Or.inr ⟨by decide, Or.inl ⟨rfl, v, hv, rfl⟩⟩⟩
    | c3 v hv => exact Or.inr ⟨by decide, Or.inr ⟨by decide, Or.inr ⟨by decide, Or.inl ⟨rfl, v, hv, rfl⟩⟩⟩⟩
    | c4 v hv => exact Or.inr ⟨by decide, Or.inr ⟨by decide, Or.inr ⟨by decide, Or.inr ⟨by decide, Or.inl ⟨rfl, v, hv, rfl⟩⟩⟩⟩⟩
    | c5 v hv => exact Or.inr ⟨by decide, Or.inr ⟨by decide, Or.inr ⟨by decide, Or.inr ⟨by decide, Or.inr ⟨by decide, Or.inl ⟨rfl, v, hv, rfl⟩⟩⟩⟩⟩⟩
    | c6 => exact Or.inr ⟨by decide, Or.inr ⟨by decide, Or.inr ⟨by decide, Or.inr ⟨by decide, Or.inr ⟨by decide, Or.inr ⟨by decide, Or.inl ⟨rfl, rfl⟩⟩⟩⟩⟩⟩⟩
    | c7 v hv => exact Or.inr ⟨by decide, Or.inr ⟨by decide, Or.inr ⟨by decide, Or.inr ⟨by decide, Or.inr ⟨by decide, Or.inr ⟨by decide, Or.inr ⟨by decide, Or.inl ⟨rfl, v, hv, rfl⟩⟩⟩⟩⟩⟩⟩⟩
    | c8 v hv => exact Or.inr ⟨by decide, Or.inr ⟨by decide, Or.inr ⟨by decide, Or.inr ⟨by decide, Or.inr ⟨by decide, Or.inr ⟨by decide, Or.inr ⟨by decide, Or.inr ⟨by decide, Or.inl ⟨rfl, v, hv, rfl⟩⟩⟩⟩⟩⟩⟩⟩⟩
    | c9 v hv => exact Or.inr ⟨by decide, Or.inr ⟨by decide, Or.inr ⟨by decide, Or.inr ⟨by decide, Or.inr ⟨by decide, Or.inr ⟨by decide, Or.inr ⟨by decide, Or.inr ⟨by decide, Or.inr ⟨by decide, Or.inl ⟨rfl, v, hv, rfl⟩⟩⟩⟩⟩⟩⟩⟩⟩⟩
    | c10 v hv => exact Or.inr ⟨by decide, Or.inr ⟨by decide, Or.inr ⟨by decide, Or.inr ⟨by decide, Or.inr ⟨by decide, Or.inr ⟨by decide, Or.inr ⟨by decide, Or.inr ⟨by decide, Or.inr ⟨by decide, Or.inr ⟨by decide, Or.inl ⟨rfl, v, hv, rfl⟩⟩⟩⟩⟩⟩⟩⟩⟩⟩⟩
    | c11 v hv => exact Or.inr ⟨by decide, Or.inr ⟨by decide, Or.inr ⟨by decide, Or.inr ⟨by decide, Or.inr ⟨by decide, Or.inr ⟨by decide, Or.inr ⟨by decide, Or.inr ⟨by decide, Or.inr ⟨by decide, Or.inr ⟨by decide, Or.inr ⟨by decide, Or.inl ⟨rfl, v, hv, rfl⟩⟩⟩⟩⟩⟩⟩⟩⟩⟩⟩⟩
    | c12 v hv => exact Or.inr ⟨by decide, Or.inr ⟨by decide, Or.inr ⟨by decide, Or.inr ⟨by decide, Or.inr ⟨by decide, Or.inr ⟨by decide, Or.inr ⟨by decide, Or.inr ⟨by decide, Or.inr ⟨by decide, Or.inr ⟨by decide, Or.inr ⟨by decide, Or.inr ⟨by decide, Or.inl ⟨rfl, v, hv, rfl⟩⟩⟩⟩⟩⟩⟩⟩⟩⟩⟩⟩⟩
    | c13 v hv => exact Or.inr ⟨by decide, Or.inr ⟨by decide, Or.inr ⟨by decide, Or.inr ⟨by decide, Or.inr ⟨by decide, Or.inr ⟨by decide, Or.inr ⟨by decide, Or.inr ⟨by decide, Or.inr ⟨by decide, Or.inr ⟨by decide, Or.inr ⟨by decide, Or.inr ⟨by decide, Or.inr ⟨by decide, Or.inl ⟨rfl, v, hv, rfl⟩⟩⟩⟩⟩⟩⟩⟩⟩⟩⟩⟩⟩⟩
    | c14 v hv => exact Or.inr ⟨by decide, Or.inr ⟨by decide, Or.inr ⟨by decide, Or.inr ⟨by decide, Or.inr ⟨by decide, Or.inr ⟨by decide, Or.inr ⟨by decide, Or.inr ⟨by decide, Or.inr ⟨by decide, Or.inr ⟨by decide, Or.inr ⟨by decide, Or.inr ⟨by decide, Or.inr ⟨by decide, Or.inr ⟨by decide, ⟨rfl, v, hv, rfl⟩⟩⟩⟩⟩⟩⟩⟩⟩⟩⟩⟩⟩⟩⟩

/-- What one option does. -/
inductive EthStep (e : Env) (x : Node) (o : EthOpts) : String → EthOpts → Prop
  | c0 (v : Bool) : YesNo x v → EthStep e x o "listen" { o with listen := v }
  | c1 (v : Nat) : Num e 4294967295 x v → EthStep e x o "idle_timeout" { o with idle := v }
  | c2 (v : Bool) : YesNo x v → EthStep e x o "mcast" { o with mcast := v }
  | c3 (v : Nat) : Group e.mac x v → EthStep e x o "mcast_group" { o with group := v }
  | c4 (v : Bool) : YesNo x v → EthStep e x o "mcast_ad_hoc" { o with adHoc := v }
  | c5 (v : List (List Char)) : ListOf e .interface x v → EthStep e x o "whitelist" { o with lists := { o.lists with white := v } }
  | c6 (v : List (List Char)) : ListOf e .interface x v → EthStep e x o "blacklist" { o with lists := { o.lists with black := v } }

theorem eth_step {e : Env} {k : String} {x : Node} {o o' : EthOpts} : setEth e k x o = some o' ↔ EthStep e x o k o' := by
  simp only [setEth, ite_eq_some, Option.map_eq_some_iff, Option.some.injEq, reduceCtorEq, and_false, or_false, yesNo_iff, u16_iff, u32_iff, mtu_iff, mcastAddr_iff, rules_iff]
  constructor
  · intro h
    rcases h with ⟨rfl, v, hv, rfl⟩ | ⟨-, h⟩
    · exact .c0 v hv
    rcases h with ⟨rfl, v, hv, rfl⟩ | ⟨-, h⟩
    · exact .c1 v hv
    rcases h with ⟨rfl, v, hv, rfl⟩ | ⟨-, h⟩
    · exact .c2 v hv
    rcases h with ⟨rfl, v, hv, rfl⟩ | ⟨-, h⟩
    · exact .c3 v hv
    rcases h with ⟨rfl, v, hv, rfl⟩ | ⟨-, h⟩
    · exact .c4 v hv
    rcases h with ⟨rfl, v, hv, rfl⟩ | ⟨-, h⟩
    · exact .c5 v hv
    obtain ⟨rfl, v, hv, rfl⟩ := h
    exact .c6 v hv
  · intro h
    cases h with
    | c0 v hv => exact Or.inl ⟨rfl, v, hv, rfl⟩
    | c1 v hv => exact Or.inr ⟨by decide, Or.inl ⟨rfl, v, hv, rfl⟩⟩
    | c2 v hv => exact Or.inr ⟨by decide, Or.inr ⟨by decide, Or.inl ⟨rfl, v, hv, rfl⟩⟩⟩
    | c3 v hv => exact Or.inr ⟨by decide, Or.inr ⟨by decide, Or.inr ⟨by decide, Or.inl ⟨rfl, v, hv, rfl⟩⟩⟩⟩
    | c4 v hv => exact Or.inr ⟨by decide, Or.inr ⟨by decide, Or.inr ⟨by decide, Or.inr ⟨by decide, Or.inl ⟨rfl, v, hv, rfl⟩⟩⟩⟩⟩
    | c5 v hv => exact Or.inr ⟨by decide, Or.inr ⟨by decide, Or.inr ⟨by decide, Or.inr ⟨by decide, Or.inr ⟨by decide, Or.inl ⟨rfl, v, hv, rfl⟩⟩⟩⟩⟩⟩
    | c6 v hv => exact Or.inr ⟨by decide, Or.inr ⟨by decide, Or.inr ⟨by decide, Or.inr ⟨by decide, Or.inr ⟨by decide, Or.inr ⟨by decide, ⟨rfl, v, hv, rfl⟩⟩⟩⟩⟩⟩⟩

/-- What one option does. -/
inductive WsStep (e : Env) (x : Node) (o : WsOpts) : String → WsOpts → Prop
  | c0 (v : Bool) : YesNo x v → WsStep e x o "listen" { o with listen := v }
  | c1 (v : Nat) : Num e 65535 x v → WsStep e x o "port" { o with port := v }
  | c2 (v : Bool) : YesNo x v → WsStep e x o "enable_v4" { o with v4 := v }
  | c3 (v : Bool) : YesNo x v → WsStep e x o "enable_v6" { o with v6 := v }

theorem ws_step {e : Env} {k : String} {x : Node} {o o' : WsOpts} : setWs e k x o = some o' ↔ WsStep e x o k o' := by
  simp only [setWs, ite_eq_some, Option.map_eq_some_iff, Option.some.injEq, reduceCtorEq, and_false, or_false, yesNo_iff, u16_iff, u32_iff, mtu_iff, mcastAddr_iff, rules_iff]
  constructor
  · intro h
    rcases h with ⟨rfl, v, hv, rfl⟩ | ⟨-, h⟩
    · exact .c0 v hv
    rcases h with ⟨rfl, v, hv, rfl⟩ | ⟨-, h⟩
    · exact .c1 v hv
    rcases h with ⟨rfl, v, hv, rfl⟩ | ⟨-, h⟩
    · exact .c2 v hv
    obtain ⟨rfl, v, hv, rfl⟩ := h
    exact .c3 v hv
  · intro h
    cases h with
    | c0 v hv => exact Or.inl ⟨rfl, v, hv, rfl⟩
    | c1 v hv => exact Or.inr ⟨by decide, Or.inl ⟨rfl, v, hv, rfl⟩⟩
    | c2 v hv => exact Or.inr ⟨by decide, Or.inr ⟨by decide, Or.inl ⟨rfl, v, hv, rfl⟩⟩⟩
    | c3 v hv => exact Or.inr ⟨by decide, Or.inr ⟨by decide, Or.inr ⟨by decide, ⟨rfl, v, hv, rfl⟩⟩⟩⟩

/-- What one option does. -/
inductive TcpStep (e : Env) (x : Node) (o : TcpOpts) : String → TcpOpts → Prop
  | c0 (v : Bool) : YesNo x v → TcpStep e x o "listen" { o with listen := v }
  | c1 (v : Nat) : Num e 65535 x v → TcpStep e x o "port" { o with port := v }
  | c2 (v : Bool) : YesNo x v → TcpStep e x o "enable_v4" { o with v4 := v }
  | c3 (v : Bool) : YesNo x v → TcpStep e x o "enable_v6" { o with v6 := v }
  | c4 (v : Net.Lists) : readOpts (setLocal e) x.kids o.loc = some v → TcpStep e x o "local" { o with loc := v, hasLoc := true }

theorem tcp_step {e : Env} {k : String} {x : Node} {o o' : TcpOpts} : setTcp e k x o = some o' ↔ TcpStep e x o k o' := by
  simp only [setTcp, ite_eq_some, Option.map_eq_some_iff, Option.some.injEq, reduceCtorEq, and_false, or_false, yesNo_iff, u16_iff, u32_iff, mtu_iff, mcastAddr_iff, rules_iff]
  constructor
  · intro h
    rcases h with ⟨rfl, v, hv, rfl⟩ | ⟨-, h⟩
    · exact .c0 v hv
    rcases h with ⟨rfl, v, hv, rfl⟩ | ⟨-, h⟩
    · exact .c1 v hv
    rcases h with ⟨rfl, v, hv, rfl⟩ | ⟨-, h⟩
    · exact .c2 v hv
    rcases h with ⟨rfl, v, hv, rfl⟩ | ⟨-, h⟩
    · exact .c3 v hv
    obtain ⟨rfl, v, hv, rfl⟩ := h
    exact .c4 v hv
  · intro h
    cases h with
    | c0 v hv => exact Or.inl ⟨rfl, v, hv, rfl⟩
    | c1 v hv => exact Or.inr ⟨by decide, Or.inl ⟨rfl, v, hv, rfl⟩⟩
    | c2 v hv => exact Or.inr ⟨by decide, Or.inr ⟨by decide, Or.inl ⟨rfl, v, hv, rfl⟩⟩⟩
    | c3 v hv => exact Or.inr ⟨by decide, Or.inr ⟨by decide, Or.inr ⟨by decide, Or.inl ⟨rfl, v, hv, rfl⟩⟩⟩⟩
    | c4 v hv => exact Or.inr ⟨by decide, Or.inr ⟨by decide, Or.inr ⟨by decide, Or.inr ⟨by decide, ⟨rfl, v, hv, rfl⟩⟩⟩⟩⟩
/-! ### Sections say what is read -/

/-- An option that one field is read from. -/
local macro "field" g:term:max key:term:max lem:ident h:ident : tactic => `(tactic|
  (refine readOpts_says $g $key (fun k x o o' h hk => ?_) (fun x o o' h => ?_) $h rfl
   · cases $lem.1 h <;> first | rfl | exact absurd rfl hk
   · generalize hk : ($key : String) = k at h
     cases $lem.1 h <;> first | assumption | exact absurd hk (by decide)))

theorem udp_says {e : Env} {l : List (String × Node)} {o : UdpOpts} (h : readOpts (setUdp e) l { noUdp with v4 := true, v6 := true, mcast := true } = some o) :
    UdpSection e l o where
  listen := by field UdpOpts.listen "listen" udp_step h
  port := by field UdpOpts.port "port" udp_step h
  v4 := by field UdpOpts.v4 "enable_v4" udp_step h
  v6 := by field UdpOpts.v6 "enable_v6" udp_step h
  idle := by field UdpOpts.idle "idle_timeout" udp_step h
  mtu := by field UdpOpts.mtu "unicast_mtu" udp_step h
  mcast := by field UdpOpts.mcast "mcast" udp_step h
  group := by field UdpOpts.group "mcast_group" udp_step h
  mport := by field UdpOpts.mport "mcast_port" udp_step h
  group6 := by field UdpOpts.group6 "mcast_group_v6" udp_step h
  mport6 := by field UdpOpts.mport6 "mcast_port_v6" udp_step h
  adHoc := by field UdpOpts.adHoc "mcast_ad_hoc" udp_step h
  white := by field (fun o : UdpOpts => o.lists.white) "whitelist" udp_step h
  black := by field (fun o : UdpOpts => o.lists.black) "blacklist" udp_step h

theorem eth_says {e : Env} {l : List (String × Node)} {o : EthOpts} (h : readOpts (setEth e) l { noEth with enabled := true, listen := true, mcast := true } = some o) :
    EthSection e l o where
  enabled := by
    refine readOpts_all (P := fun o : EthOpts => o.enabled = true) (fun k x o o' h ho => ?_) l _ _ h rfl
    cases eth_step.1 h <;> exact ho
  listen := by field EthOpts.listen "listen" eth_step h
  idle := by field EthOpts.idle "idle_timeout" eth_step h
  mcast := by field EthOpts.mcast "mcast" eth_step h
  group := by field EthOpts.group "mcast_group" eth_step h
  adHoc := by field EthOpts.adHoc "mcast_ad_hoc" eth_step h
  white := by field (fun o : EthOpts => o.lists.white) "whitelist" eth_step h
  black := by field (fun o : EthOpts => o.lists.black) "blacklist" eth_step h

theorem ws_says {e : Env} {l : List (String × Node)} {o : WsOpts} (h : readOpts (setWs e) l ⟨true, 9696, true, true⟩ = some o) :
    PortSays e l 9696 o.listen o.port o.v4 o.v6 where
  listen := by field WsOpts.listen "listen" ws_step h
  port := by field WsOpts.port "port" ws_step h
  v4 := by field WsOpts.v4 "enable_v4" ws_step h
  v6 := by field WsOpts.v6 "enable_v6" ws_step h

theorem tcp_says {e : Env} {l : List (String × Node)} {o : TcpOpts} (h : readOpts (setTcp e) l ⟨true, 6363, true, true, Net.Lists.init, false⟩ = some o) :
    PortSays e l 6363 o.listen o.port o.v4 o.v6 where
  listen := by field TcpOpts.listen "listen" tcp_step h
  port := by field TcpOpts.port "port" tcp_step h
  v4 := by field TcpOpts.v4 "enable_v4" tcp_step h
  v6 := by field TcpOpts.v6 "enable_v6" tcp_step h

/-! ### Local addresses of TCP -/

/-- What one option of `local` does. -/
inductive LocalStep (e : Env) (x : Node) (o : Net.Lists) : String → Net.Lists → Prop
  | c0 (v : List (List Char)) : ListOf e .address x v → LocalStep e x o "whitelist" { o with white := v }
  | c1 (v : List (List Char)) : ListOf e .address x v → LocalStep e x o "blacklist" { o with black := v }

theorem local_step {e : Env} {k : String} {x : Node} {o o' : Net.Lists} : setLocal e k x o = some o' ↔ LocalStep e x o k o' := by
  simp only [setLocal, ite_eq_some, Option.map_eq_some_iff, reduceCtorEq, and_false, or_false, rules_iff]
  constructor
  · intro h
    rcases h with ⟨rfl, v, hv, rfl⟩ | ⟨-, rfl, v, hv, rfl⟩
    · exact .c0 v hv
    · exact .c1 v hv
  · intro h
    cases h with
    | c0 v hv => exact Or.inl ⟨rfl, v, hv, rfl⟩
    | c1 v hv => exact Or.inr ⟨by decide, rfl, v, hv, rfl⟩

theorem local_says {e : Env} {l : List (String × Node)} {o : Net.Lists} (h : readOpts (setLocal e) l Net.Lists.init = some o) :
    Says l "whitelist" [['*']] (ListOf e .address) o.white ∧ Says l "blacklist" [] (ListOf e .address) o.black := by
  constructor
  · field Net.Lists.white "whitelist" local_step h
  · field Net.Lists.black "blacklist" local_step h

theorem locals_cons (y : String × Node) (l : List (String × Node)) :
    locals (y :: l) = if y.1 = "local" then y.2.kids ++ locals l else locals l := by
  unfold locals
  by_cases h : y.1 = "local" <;> simp [h]

theorem tcp_local {e : Env} : ∀ (l : List (String × Node)) {o o' : TcpOpts}, readOpts (setTcp e) l o = some o' →
    readOpts (setLocal e) (locals l) o.loc = some o'.loc ∧ (o'.hasLoc = true ↔ o.hasLoc = true ∨ ¬ Lacks l "local")
  | [], o, o', h => by
    cases h
    refine ⟨rfl, ?_⟩
    have : Lacks ([] : List (String × Node)) "local" := fun y hy => by cases hy
    simp [this]
  | y :: l, o, o', h => by
    simp only [readOpts] at h
    cases hs : setTcp e y.1 y.2 o with
    | none => rw [hs] at h; cases h
    | some o1 =>
      rw [hs] at h
      obtain ⟨i1, i2⟩ := tcp_local l h
      rw [locals_cons]
      have hl : Lacks (y :: l) "local" ↔ y.1 ≠ "local" ∧ Lacks l "local" := by simp [Lacks]
      rw [hl]
      generalize hk : y.1 = k at hs
      cases tcp_step.1 hs with
      | c4 v hv =>
        rw [if_pos rfl, readOpts_append, hv]
        refine ⟨i1, ?_⟩
        rw [i2]; simp
      | _ =>
        rw [if_neg (by decide)]
        refine ⟨i1, ?_⟩
        rw [i2]; simp

theorem tcpRead_iff (e : Env) (x : Node) (o : TcpOpts) : readTcp e x = some o ↔
    ∃ o1, readOpts (setTcp e) x.kids ⟨true, 6363, true, true, Net.Lists.init, false⟩ = some o1 ∧ (o1.v4 = true ∨ o1.v6 = true) ∧
      o = if o1.hasLoc then o1 else { o1 with loc := loopback } := by
  unfold readTcp
  cases readOpts (setTcp e) x.kids ⟨true, 6363, true, true, Net.Lists.init, false⟩ with
  | none => simp
  | some o1 =>
    have e1 : (if o1.hasLoc then o1 else { o1 with loc := loopback }).v4 = o1.v4 := by split <;> rfl
    have e2 : (if o1.hasLoc then o1 else { o1 with loc := loopback }).v6 = o1.v6 := by split <;> rfl
    dsimp only
    rw [e1, e2]
    by_cases hv : o1.v4 = false ∧ o1.v6 = false
    · rw [if_pos hv]
      simp [hv.1, hv.2]
    · rw [if_neg hv]
      have : o1.v4 = true ∨ o1.v6 = true := by
        cases h1 : o1.v4 <;> cases h2 : o1.v6 <;> simp_all
      simp only [Option.some.injEq, exists_eq_left', this, true_and]
      exact eq_comm

theorem tcpRead_says {e : Env} {x : Node} {o : TcpOpts} (h : readTcp e x = some o) :
    PortSays e x.kids 6363 o.listen o.port o.v4 o.v6 ∧ LocalSays e x.kids o.loc ∧ (o.v4 = true ∨ o.v6 = true) := by
  obtain ⟨o1, h1, h2, rfl⟩ := (tcpRead_iff ..).1 h
  have hp := tcp_says h1
  obtain ⟨h3, h4⟩ := tcp_local _ h1
  by_cases hl : o1.hasLoc = true
  · rw [if_pos hl]
    refine ⟨hp, Or.inr ⟨?_, local_says h3⟩, h2⟩
    exact (h4.1 hl).resolve_left (by decide)
  · rw [if_neg hl]
    refine ⟨hp, Or.inl ⟨?_, rfl⟩, h2⟩
    exact Classical.not_not.1 (fun hn => hl (h4.2 (Or.inr hn)))

/-! ### Reading fails exactly if a section is not well formed -/

theorem udp_line (e : Env) (y : String × Node) (o : UdpOpts) : (∃ o', setUdp e y.1 y.2 o = some o') ↔ UdpLine e y := by
  obtain ⟨k, x⟩ := y
  constructor
  · rintro ⟨o', h⟩
    dsimp only at h
    unfold UdpLine
    cases udp_step.1 h <;> simp [-Bool.exists_bool]
    all_goals first | exact ⟨_, ‹_›⟩
  · rintro (⟨hk, v, hv⟩ | ⟨hk, v, hv⟩ | ⟨rfl, v, hv⟩ | ⟨rfl, v, hv⟩ | rfl | ⟨rfl, v, hv⟩ | ⟨rfl, v, hv⟩ | ⟨hk, v, hv⟩)
    · simp only [List.mem_cons, List.not_mem_nil, or_false] at hk
      rcases hk with rfl | rfl | rfl | rfl | rfl
      · exact ⟨_, udp_step.2 (.c0 v hv)⟩
      · exact ⟨_, udp_step.2 (.c2 v hv)⟩
      · exact ⟨_, udp_step.2 (.c3 v hv)⟩
      · exact ⟨_, udp_step.2 (.c7 v hv)⟩
      · exact ⟨_, udp_step.2 (.c12 v hv)⟩
    · simp only [List.mem_cons, List.not_mem_nil, or_false] at hk
      rcases hk with rfl | rfl | rfl
      · exact ⟨_, udp_step.2 (.c1 v hv)⟩
      · exact ⟨_, udp_step.2 (.c9 v hv)⟩
      · exact ⟨_, udp_step.2 (.c11 v hv)⟩
    · exact ⟨_, udp_step.2 (.c4 v hv)⟩
    · exact ⟨_, udp_step.2 (.c5 v hv)⟩
    · exact ⟨_, udp_step.2 .c6⟩
    · exact ⟨_, udp_step.2 (.c8 v hv)⟩
    · exact ⟨_, udp_step.2 (.c10 v hv)⟩
    · simp only [List.mem_cons, List.not_mem_nil, or_false] at hk
      rcases hk with rfl | rfl
      · exact ⟨_, udp_step.2 (.c13 v hv)⟩
      · exact ⟨_, udp_step.2 (.c14 v hv)⟩

theorem eth_line (e : Env) (y : String × Node) (o : EthOpts) : (∃ o', setEth e y.1 y.2 o = some o') ↔ EthLine e y := by
  obtain ⟨k, x⟩ := y
  constructor
  · rintro ⟨o', h⟩
    dsimp only at h
    unfold EthLine
    cases eth_step.1 h <;> simp [-Bool.exists_bool]
    all_goals first | exact ⟨_, ‹_›⟩
  · rintro (⟨hk, v, hv⟩ | ⟨rfl, v, hv⟩ | ⟨rfl, v, hv⟩ | ⟨hk, v, hv⟩)
    · simp only [List.mem_cons, List.not_mem_nil, or_false] at hk
      rcases hk with rfl | rfl | rfl
      · exact ⟨_, eth_step.2 (.c0 v hv)⟩
      · exact ⟨_, eth_step.2 (.c2 v hv)⟩
      · exact ⟨_, eth_step.2 (.c4 v hv)⟩
    · exact ⟨_, eth_step.2 (.c1 v hv)⟩
    · exact ⟨_, eth_step.2 (.c3 v hv)⟩
    · simp only [List.mem_cons, List.not_mem_nil, or_false] at hk
      rcases hk with rfl | rfl
      · exact ⟨_, eth_step.2 (.c5 v hv)⟩
      · exact ⟨_, eth_step.2 (.c6 v hv)⟩

theorem ws_line (e : Env) (y : String × Node) (o : WsOpts) : (∃ o', setWs e y.1 y.2 o = some o') ↔ WsLine e y := by
  obtain ⟨k, x⟩ := y
  constructor
  · rintro ⟨o', h⟩
    dsimp only at h
    unfold WsLine
    cases ws_step.1 h <;> simp [-Bool.exists_bool]
    all_goals first | exact ⟨_, ‹_›⟩
  · rintro (⟨hk, v, hv⟩ | ⟨rfl, v, hv⟩)
    · simp only [List.mem_cons, List.not_mem_nil, or_false] at hk
      rcases hk with rfl | rfl | rfl
      · exact ⟨_, ws_step.2 (.c0 v hv)⟩
      · exact ⟨_, ws_step.2 (.c2 v hv)⟩
      · exact ⟨_, ws_step.2 (.c3 v hv)⟩
    · exact ⟨_, ws_step.2 (.c1 v hv)⟩

theorem local_line (e : Env) (y : String × Node) (o : Net.Lists) : (∃ o', setLocal e y.1 y.2 o = some o') ↔
    (y.1 ∈ ["whitelist", "blacklist"] ∧ ∃ l, ListOf e .address y.2 l) := by
  obtain ⟨k, x⟩ := y
  constructor
  · rintro ⟨o', h⟩
    dsimp only at h
    cases local_step.1 h <;> simp [-Bool.exists_bool]
    all_goals first | exact ⟨_, ‹_›⟩
  · rintro ⟨hk, v, hv⟩
    simp only [List.mem_cons, List.not_mem_nil, or_false] at hk
    rcases hk with rfl | rfl
    · exact ⟨_, local_step.2 (.c0 v hv)⟩
    · exact ⟨_, local_step.2 (.c1 v hv)⟩

theorem tcp_line (e : Env) (y : String × Node) (o : TcpOpts) : (∃ o', setTcp e y.1 y.2 o = some o') ↔ TcpLine e y := by
  obtain ⟨k, x⟩ := y
  have hloc := readOpts_isSome (fun y o => local_line e y o) x.kids o.loc
  constructor
  · rintro ⟨o', h⟩
    dsimp only at h
    unfold TcpLine
    cases tcp_step.1 h with
    | c4 v hv => exact Or.inr (Or.inr ⟨rfl, hloc.1 ⟨v, hv⟩⟩)
    | _ =>
      simp [-Bool.exists_bool]
      exact ⟨_, ‹_›⟩
  · rintro (⟨hk, v, hv⟩ | ⟨rfl, v, hv⟩ | ⟨rfl, h⟩)
    · simp only [List.mem_cons, List.not_mem_nil, or_false] at hk
      rcases hk with rfl | rfl | rfl
      · exact ⟨_, tcp_step.2 (.c0 v hv)⟩
      · exact ⟨_, tcp_step.2 (.c2 v hv)⟩
      · exact ⟨_, tcp_step.2 (.c3 v hv)⟩
    · exact ⟨_, tcp_step.2 (.c1 v hv)⟩
    · obtain ⟨v, hv⟩ := hloc.2 h
      exact ⟨_, tcp_step.2 (.c4 v hv)⟩

end Verif.Fs
