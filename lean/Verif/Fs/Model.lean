import Verif.Cf.Model
import Verif.Mgmt.Net
import Verif.Mc.Model
import Verif.Eth.Model

/-! The section `face_system` of the configuration file: `FaceSystem::processConfig` (daemon/face/face-system.cpp), the protocol factories
`ether`, `tcp`, `udp`, `unix`, `websocket` as far as the section concerns them, and `NetdevBound` (daemon/face/netdev-bound.cpp). All five
factories are compiled in. What UDP and Ethernet multicast do with their options is in Verif.Mc and Verif.Eth. -/
namespace Verif.Fs
open Verif.Cf (Node)

/-- How `listen` of a channel ends: it works; it fails, and the channel says it is listening (after the socket has been opened, tcp-channel.cpp:61-67,
udp-channel.cpp:85-90; or after `m_isListening` is set, unix-stream-channel.cpp:120-123); it fails, and the channel does not say so. -/
inductive Out | ok | failsOpen | fails
deriving DecidableEq, Repr

/-- What the code takes from outside: numbers (`parseNumber`, config-file.hpp:112-126), rules of whitelists, IPv4, IPv6 and Ethernet addresses with whether
they are multicast, paths of sockets (`weakly_canonical`, which may throw), FaceUris as scheme and whether canonical; what happens when a channel is to
listen and when multicast faces and Ethernet channels are made; and which interfaces the lists accept (C64). -/
structure Env where
  num : (max : Nat) → String → Option Nat
  lib : Net.Lib
  v4 : String → Option (Nat × Bool)
  v6 : String → Option (Nat × Bool)
  mac : String → Option (Nat × Bool)
  path : String → Option String
  uri : String → Option (List Char × Bool)
  tcp : Bool × Nat → Out
  udp : Bool × Nat → Out
  ws : Bool × Nat → Out
  unix : String → Out
  udpOpens : Mc.Ep → Bool
  ethWorks : String → Bool
  ethOpens : String → Bool
  netif : Net.Lists → Mc.Netif → Bool
  ethNetif : Net.Lists → Eth.Netif → Bool

/-- A channel with its key, whether `isListening()` says so, whether it accepts peers, and the settings of its faces. -/
structure Chan (κ : Type) where
  key : κ
  flag : Bool
  ready : Bool
  marking : Bool
  idle : Nat
  mtu : Nat
deriving DecidableEq, Repr

/-- `TcpFactory` (tcp-factory.hpp:77-82); channels are on all addresses of a family, so that family and port are the key. -/
structure Tcp where
  marking : Bool
  chans : List (Chan (Bool × Nat))
  loc : Net.Lists
  schemes : List (List Char)
deriving DecidableEq, Repr

/-- `UdpFactory` (udp-factory.hpp:126-146). -/
structure Udp where
  marking : Bool
  mtu : Nat
  chans : List (Chan (Bool × Nat))
  adHoc : Bool
  mc : Mc.St
  schemes : List (List Char)

/-- `UnixStreamFactory` (unix-stream-factory.hpp:67-70). -/
structure Unix where
  marking : Bool
  chans : List (Chan String)
deriving DecidableEq, Repr

/-- A rule of `netdev_bound` (netdev-bound.hpp:72-76): schemes of the remotes, and lists. -/
structure Rule where
  remotes : List (List Char)
  lists : Net.Lists
deriving DecidableEq, Repr

/-- Identifiers of the factories (`getId`). -/
inductive Fac | ether | tcp | udp | unix | websocket
deriving DecidableEq, Repr

/-- The face system; `byScheme` is `m_factoryByScheme` (face-system.hpp:129). -/
structure St where
  tcp : Tcp
  udp : Udp
  unix : Unix
  ws : List (Chan (Bool × Nat))
  eth : Eth.St
  byScheme : List Char → Option Fac
  rules : List Rule

/-- Before any configuration. -/
def init : St :=
  { tcp := ⟨false, [], Net.Lists.init, []⟩, udp := ⟨false, 8800, [], false, Mc.init, []⟩, unix := ⟨false, []⟩, ws := [], eth := Eth.init,
    byScheme := fun _ => none, rules := [] }

/-! ### Reading options -/

/-- `parseYesNo` (config-file.cpp:59-74). -/
def yesNo (x : Node) : Option Bool := if x.value = "yes" then some true else if x.value = "no" then some false else none

/-- A loop over the options of a section; `none`: an exception. -/
def readOpts {α : Type} (set : String → Node → α → Option α) : List (String × Node) → α → Option α
  | [], o => some o
  | x :: l, o =>
    match set x.1 x.2 o with
    | none => none
    | some o => readOpts set l o

/-- `parseWhitelist`, `parseBlacklist` (network-predicate.cpp:48-74, 100-110). -/
def rules (e : Env) (k : Net.Kind) (x : Node) : Option (List (List Char)) :=
  Net.parseList e.lib k (x.kids.map (fun y => (y.1.toList, y.2.value.toList)))

/-- Numbers of type `uint16_t`, `uint32_t`, `size_t`. -/
def u16 (e : Env) (x : Node) : Option Nat := e.num 65535 x.value
def u32 (e : Env) (x : Node) : Option Nat := e.num 4294967295 x.value
def size (e : Env) (x : Node) : Option Nat := e.num 18446744073709551615 x.value

/-- `face_system.general` (face-system.cpp:107-118): congestion marking. -/
def readGeneral (n : Option Node) : Option Bool :=
  match n with
  | none => some true
  | some x => readOpts (fun k x _ => if k = "enable_congestion_marking" then yesNo x else none) x.kids true

/-- Options of `tcp` (tcp-factory.cpp:65-70). -/
structure TcpOpts where
  listen : Bool
  port : Nat
  v4 : Bool
  v6 : Bool
  loc : Net.Lists
  hasLoc : Bool
deriving DecidableEq, Repr

/-- One option of `tcp.local` (tcp-factory.cpp:89-100). -/
def setLocal (e : Env) (k : String) (x : Node) (o : Net.Lists) : Option Net.Lists :=
  if k = "whitelist" then (rules e .address x).map (fun l => { o with white := l })
  else if k = "blacklist" then (rules e .address x).map (fun l => { o with black := l })
  else none

/-- One option of `tcp` (tcp-factory.cpp:72-105). -/
def setTcp (e : Env) (k : String) (x : Node) (o : TcpOpts) : Option TcpOpts :=
  if k = "listen" then (yesNo x).map (fun b => { o with listen := b })
  else if k = "port" then (u16 e x).map (fun p => { o with port := p })
  else if k = "enable_v4" then (yesNo x).map (fun b => { o with v4 := b })
  else if k = "enable_v6" then (yesNo x).map (fun b => { o with v6 := b })
  else if k = "local" then (readOpts (setLocal e) x.kids o.loc).map (fun l => { o with loc := l, hasLoc := true })
  else none

/-- The default of `local` (tcp-factory.cpp:107). -/
def loopback : Net.Lists := ⟨["127.0.0.0/8".toList, "::1/128".toList], []⟩

/-- The options of `tcp` and the checks that follow (tcp-factory.cpp:65-114). -/
def readTcp (e : Env) (n : Node) : Option TcpOpts :=
  match readOpts (setTcp e) n.kids ⟨true, 6363, true, true, Net.Lists.init, false⟩ with
  | none => none
  | some o =>
    let o := if o.hasLoc then o else { o with loc := loopback }
    if o.v4 = false ∧ o.v6 = false then none else some o

/-- Options of `udp` (udp-factory.cpp:88-94, udp-factory.hpp:130-137). -/
structure UdpOpts where
  listen : Bool
  port : Nat
  v4 : Bool
  v6 : Bool
  idle : Nat
  mtu : Nat
  mcast : Bool
  group : Nat
  mport : Nat
  group6 : Nat
  mport6 : Nat
  adHoc : Bool
  lists : Net.Lists
deriving DecidableEq, Repr

/-- An address that must be multicast (udp-factory.cpp:130-142, 146-158; ethernet-factory.cpp:94-105). -/
def mcastAddr (parse : String → Option (Nat × Bool)) (x : Node) : Option Nat :=
  match parse x.value with
  | some (a, true) => some a
  | _ => none

/-- `unicast_mtu` (udp-factory.cpp:119-123), with `MIN_MTU` (face-common.hpp:66) and `MAX_NDN_PACKET_SIZE`. -/
def mtu (e : Env) (x : Node) : Option Nat :=
  match size e x with
  | none => none
  | some m => if m < 64 ∨ m > 8800 then none else some m

/-- One option of `udp` (udp-factory.cpp:100-175). -/
def setUdp (e : Env) (k : String) (x : Node) (o : UdpOpts) : Option UdpOpts :=
  if k = "listen" then (yesNo x).map (fun b => { o with listen := b })
  else if k = "port" then (u16 e x).map (fun p => { o with port := p })
  else if k = "enable_v4" then (yesNo x).map (fun b => { o with v4 := b })
  else if k = "enable_v6" then (yesNo x).map (fun b => { o with v6 := b })
  else if k = "idle_timeout" then (u32 e x).map (fun t => { o with idle := t })
  else if k = "unicast_mtu" then (mtu e x).map (fun m => { o with mtu := m })
  else if k = "keep_alive_interval" then some o
  else if k = "mcast" then (yesNo x).map (fun b => { o with mcast := b })
  else if k = "mcast_group" then (mcastAddr e.v4 x).map (fun a => { o with group := a })
  else if k = "mcast_port" then (u16 e x).map (fun p => { o with mport := p })
  else if k = "mcast_group_v6" then (mcastAddr e.v6 x).map (fun a => { o with group6 := a })
  else if k = "mcast_port_v6" then (u16 e x).map (fun p => { o with mport6 := p })
  else if k = "mcast_ad_hoc" then (yesNo x).map (fun b => { o with adHoc := b })
  else if k = "whitelist" then (rules e .interface x).map (fun l => { o with lists := { o.lists with white := l } })
  else if k = "blacklist" then (rules e .interface x).map (fun l => { o with lists := { o.lists with black := l } })
  else none

/-- `udp` without its section (udp-factory.cpp:88-94; groups: udp-protocol.hpp:46-60). -/
def noUdp : UdpOpts :=
  { listen := true, port := 6363, v4 := false, v6 := false, idle := 600, mtu := 8800, mcast := false, group := 0xE00017AA, mport := 56363,
    group6 := 0xFF020000000000000000000000001234, mport6 := 56363, adHoc := false, lists := Net.Lists.init }

/-- The options of `udp` (udp-factory.cpp:88-182). -/
def readUdp (e : Env) (n : Option Node) : Option UdpOpts :=
  match n with
  | none => some noUdp
  | some x =>
    match readOpts (setUdp e) x.kids { noUdp with v4 := true, v6 := true, mcast := true } with
    | none => none
    | some o => if o.v4 = false ∧ o.v6 = false ∧ o.mcast = false then none else some o

/-- The options of `unix` (unix-stream-factory.cpp:61-74): the path. -/
def readUnix (n : Node) : Option String :=
  readOpts (fun k x _ => if k = "path" then some x.value else none) n.kids "/run/nfd/nfd.sock"

/-- Options of `websocket` (websocket-factory.cpp:54-57). -/
structure WsOpts where
  listen : Bool
  port : Nat
  v4 : Bool
  v6 : Bool
deriving DecidableEq, Repr

/-- One option of `websocket` (websocket-factory.cpp:61-79). -/
def setWs (e : Env) (k : String) (x : Node) (o : WsOpts) : Option WsOpts :=
  if k = "listen" then (yesNo x).map (fun b => { o with listen := b })
  else if k = "port" then (u16 e x).map (fun p => { o with port := p })
  else if k = "enable_v4" then (yesNo x).map (fun b => { o with v4 := b })
  else if k = "enable_v6" then (yesNo x).map (fun b => { o with v6 := b })
  else none

/-- The options of `websocket` (websocket-factory.cpp:54-86). -/
def readWs (e : Env) (n : Option Node) : Option WsOpts :=
  match n with
  | none => some ⟨false, 9696, true, true⟩
  | some x =>
    match readOpts (setWs e) x.kids ⟨true, 9696, true, true⟩ with
    | none => none
    | some o => if o.v4 = false ∧ o.v6 = false then none else some o

/-- Options of `ether` (ethernet-factory.hpp:110-124). -/
structure EthOpts where
  enabled : Bool
  listen : Bool
  idle : Nat
  mcast : Bool
  group : Nat
  adHoc : Bool
  lists : Net.Lists
deriving DecidableEq, Repr

/-- One option of `ether` (ethernet-factory.cpp:81-119). -/
def setEth (e : Env) (k : String) (x : Node) (o : EthOpts) : Option EthOpts :=
  if k = "listen" then (yesNo x).map (fun b => { o with listen := b })
  else if k = "idle_timeout" then (u32 e x).map (fun t => { o with idle := t })
  else if k = "mcast" then (yesNo x).map (fun b => { o with mcast := b })
  else if k = "mcast_group" then (mcastAddr e.mac x).map (fun a => { o with group := a })
  else if k = "mcast_ad_hoc" then (yesNo x).map (fun b => { o with adHoc := b })
  else if k = "whitelist" then (rules e .interface x).map (fun l => { o with lists := { o.lists with white := l } })
  else if k = "blacklist" then (rules e .interface x).map (fun l => { o with lists := { o.lists with black := l } })
  else none

/-- `ether` without its section; the default group is 01:00:5E:00:17:AA. -/
def noEth : EthOpts := { enabled := false, listen := false, idle := 600, mcast := false, group := 0x01005E0017AA, adHoc := false, lists := Net.Lists.init }

/-- The options of `ether` (ethernet-factory.cpp:74-120). -/
def readEth (e : Env) (n : Option Node) : Option EthOpts :=
  match n with
  | none => some noEth
  | some x => readOpts (setEth e) x.kids { noEth with enabled := true, listen := true, mcast := true }

/-! ### Channels -/

variable {κ : Type} [DecidableEq κ]

/-- `createChannel` of a factory (tcp-factory.cpp:197-209, udp-factory.cpp:305-318, unix-stream-factory.cpp:92-98, websocket-factory.cpp:116-126). -/
def create (c : Chan κ) (cs : List (Chan κ)) : List (Chan κ) := if cs.any (fun d => d.key == c.key) then cs else cs ++ [c]

/-- `listen` of a channel, and the state it leaves. -/
def Chan.listen (out : Out) (c : Chan κ) : Chan κ :=
  match out with
  | .ok => { c with flag := true, ready := true }
  | .failsOpen => { c with flag := true }
  | .fails => c

/-- `createChannel` and, if wanted and `isListening()` is false, `listen` (tcp-factory.cpp:123-127 and others): the channels, and whether there was
no exception. -/
def openChan (want : Bool) (out : κ → Out) (c : Chan κ) (cs : List (Chan κ)) : List (Chan κ) × Bool :=
  let cs := create c cs
  if want = true ∧ cs.any (fun d => d.key == c.key && !d.flag) = true then
    (cs.map (fun d => if d.key = c.key then d.listen (out c.key) else d), out c.key == .ok)
  else (cs, true)

/-- `providedSchemes.insert`. -/
def add (x : List Char) (l : List (List Char)) : List (List Char) := if x ∈ l then l else x :: l

def sTcp : List Char := ['t', 'c', 'p']
def sTcp4 : List Char := ['t', 'c', 'p', '4']
def sTcp6 : List Char := ['t', 'c', 'p', '6']
def sUdp : List Char := ['u', 'd', 'p']
def sUdp4 : List Char := ['u', 'd', 'p', '4']
def sUdp6 : List Char := ['u', 'd', 'p', '6']
def sEther : List Char := ['e', 't', 'h', 'e', 'r']

/-- One family of `tcp` (tcp-factory.cpp:122-132, 134-144). -/
def tcpFamily (e : Env) (o : TcpOpts) (v6 enable : Bool) (scheme : List Char) (t : Tcp) : Tcp × Bool :=
  if enable then
    let r := openChan o.listen e.tcp ⟨(v6, o.port), false, false, t.marking, 0, 0⟩ t.chans
    if r.2 then ({ t with chans := r.1, schemes := add scheme t.schemes }, true) else ({ t with chans := r.1 }, false)
  else (t, true)

/-- `TcpFactory::doProcessConfig` (tcp-factory.cpp:44-147). -/
def tcpConfig (e : Env) (n : Option Node) (marking dry : Bool) (t : Tcp) : Tcp × Bool :=
  let t := { t with marking := marking }
  match n with
  | none => (t, true)
  | some x =>
    match readTcp e x with
    | none => (t, false)
    | some o =>
      if dry then (t, true)
      else
        let t := { t with schemes := add sTcp t.schemes }
        let a := tcpFamily e o false o.v4 sTcp4 t
        if a.2 then
          let b := tcpFamily e o true o.v6 sTcp6 a.1
          if b.2 then ({ b.1 with loc := o.loc }, true) else b
        else a

/-- One family of `udp` (udp-factory.cpp:190-201, 203-214). -/
def udpFamily (e : Env) (o : UdpOpts) (v6 enable : Bool) (scheme : List Char) (u : Udp) : Udp × Bool :=
  if enable then
    match Mc.createChannel u.mc ⟨⟨v6, 0⟩, o.port⟩ with
    | none => (u, false)
    | some mc =>
      let r := openChan o.listen e.udp ⟨(v6, o.port), false, false, u.marking, o.idle, u.mtu⟩ u.chans
      if r.2 then ({ u with mc := mc, chans := r.1, schemes := add scheme (add sUdp u.schemes) }, true) else ({ u with mc := mc, chans := r.1 }, false)
  else (u, true)

/-- The options for multicast. -/
def UdpOpts.cfg (e : Env) (o : UdpOpts) : Mc.Config := ⟨o.mcast, (o.group, o.mport), (o.group6, o.mport6), e.netif o.lists⟩

/-- `UdpFactory::doProcessConfig` (udp-factory.cpp:59-246). -/
def udpConfig (e : Env) (n : Option Node) (marking dry : Bool) (u : Udp) : Udp × Bool :=
  let u := { u with marking := marking }
  match readUdp e n with
  | none => (u, false)
  | some o =>
    if dry then (u, true)
    else
      let u := { u with mtu := o.mtu }
      let a := udpFamily e o false o.v4 sUdp4 u
      if a.2 then
        let b := udpFamily e o true o.v6 sUdp6 a.1
        if b.2 then ({ b.1 with adHoc := o.adHoc, mc := Mc.applyConfig e.udpOpens { b.1.mc with cfg := o.cfg e } }, true) else b
      else a

/-- `UnixStreamFactory::doProcessConfig` (unix-stream-factory.cpp:42-84). -/
def unixConfig (e : Env) (n : Option Node) (marking dry : Bool) (u : Unix) : Unix × Bool :=
  let u := { u with marking := marking }
  match n with
  | none => (u, true)
  | some x =>
    match readUnix x with
    | none => (u, false)
    | some path =>
      if dry then (u, true)
      else
        match e.path path with
        | none => (u, false)
        | some p =>
          let r := openChan true e.unix ⟨p, false, false, u.marking, 0, 0⟩ u.chans
          ({ u with chans := r.1 }, r.2)

/-- One family of `websocket` (websocket-factory.cpp:99-105, 107-113). -/
def wsFamily (e : Env) (o : WsOpts) (v6 enable : Bool) (cs : List (Chan (Bool × Nat))) : List (Chan (Bool × Nat)) × Bool :=
  if enable then openChan true e.ws ⟨(v6, o.port), false, false, false, 0, 0⟩ cs else (cs, true)

/-- `WebSocketFactory::doProcessConfig` (websocket-factory.cpp:42-114). -/
def wsConfig (e : Env) (n : Option Node) (dry : Bool) (cs : List (Chan (Bool × Nat))) : List (Chan (Bool × Nat)) × Bool :=
  match readWs e n with
  | none => (cs, false)
  | some o =>
    if dry then (cs, true)
    else if o.listen = false then (cs, true)
    else
      let a := wsFamily e o false o.v4 cs
      if a.2 then wsFamily e o true o.v6 a.1 else a

/-- The options for the Ethernet model. -/
def EthOpts.uni (o : EthOpts) : Eth.Unicast := ⟨o.enabled, o.listen, o.idle⟩
def EthOpts.mc (e : Env) (o : EthOpts) : Eth.Multicast := ⟨o.mcast, o.group, o.adHoc, e.ethNetif o.lists⟩

/-- `EthernetFactory::doProcessConfig` (ethernet-factory.cpp:54-164). -/
def ethConfig (e : Env) (n : Option Node) (dry : Bool) (s : Eth.St) : Eth.St × Bool :=
  match readEth e n with
  | none => (s, false)
  | some o => if dry then (s, true) else (Eth.step s (.config o.uni (o.mc e) e.ethWorks e.ethOpens), true)

/-! ### Netdev-bound faces -/

/-- A rule while it is being read (netdev-bound.cpp:90-93). -/
structure RuleSt where
  rule : Rule
  white : Bool
  black : Bool

/-- One option of a rule (netdev-bound.cpp:94-133). -/
def setRule (e : Env) (k : String) (x : Node) (r : RuleSt) : Option RuleSt :=
  if k = "remote" then
    match e.uri x.value with
    | some (s, true) => some { r with rule := { r.rule with remotes := r.rule.remotes ++ [s] } }
    | _ => none
  else if k = "whitelist" then
    if r.white then none else (rules e .interface x).map (fun l => { r with white := true, rule := { r.rule with lists := { r.rule.lists with white := l } } })
  else if k = "blacklist" then
    if r.black then none else (rules e .interface x).map (fun l => { r with black := true, rule := { r.rule with lists := { r.rule.lists with black := l } } })
  else none

/-- `parseRule` (netdev-bound.cpp:87-141). -/
def parseRule (e : Env) (x : Node) : Option Rule :=
  match readOpts (setRule e) x.kids ⟨⟨[], Net.Lists.init⟩, false, false⟩ with
  | none => none
  | some r => if r.rule.remotes.isEmpty then none else some r.rule

/-- The rules of the section (netdev-bound.cpp:45-56). -/
def parseRules (e : Env) (n : Option Node) : Option (List Rule) :=
  match n with
  | none => some []
  | some x => readOpts (fun k x l => if k = "rule" then (parseRule e x).map (fun r => l ++ [r]) else none) x.kids []

def sDev : List Char := ['+', 'd', 'e', 'v']

/-- `NetdevBound::processConfig` (netdev-bound.cpp:41-85), where no face is made yet (lines 80-84). -/
def netdevConfig (e : Env) (n : Option Node) (dry : Bool) (s : St) : St × Bool :=
  match parseRules e n with
  | none => (s, false)
  | some rs =>
    if dry then (s, true)
    else if rs.all (fun r => r.remotes.all (fun x => (s.byScheme (x ++ sDev)).isSome)) then ({ s with rules := rs }, true)
    else (s, false)

/-! ### The section -/

/-- The update of `m_factoryByScheme` after a factory (face-system.cpp:125-138). -/
def update (f : Fac) (old new : List (List Char)) (m : List Char → Option Fac) : List Char → Option Fac :=
  fun x => if x ∈ new then some f else if x ∈ old then none else m x

/-- `providedSchemes` of a factory; `unix` and `websocket` never have any. -/
def St.provided (s : St) : Fac → List (List Char)
  | .ether => if s.eth.scheme then [sEther] else []
  | .tcp => s.tcp.schemes
  | .udp => s.udp.schemes
  | .unix => []
  | .websocket => []

/-- The name of a factory's section. -/
def Fac.name : Fac → String
  | .ether => "ether"
  | .tcp => "tcp"
  | .udp => "udp"
  | .unix => "unix"
  | .websocket => "websocket"

/-- `processConfig` of one factory. -/
def config1 (e : Env) (f : Fac) (n : Option Node) (marking dry : Bool) (s : St) : St × Bool :=
  match f with
  | .ether => let r := ethConfig e n dry s.eth; ({ s with eth := r.1 }, r.2)
  | .tcp => let r := tcpConfig e n marking dry s.tcp; ({ s with tcp := r.1 }, r.2)
  | .udp => let r := udpConfig e n marking dry s.udp; ({ s with udp := r.1 }, r.2)
  | .unix => let r := unixConfig e n marking dry s.unix; ({ s with unix := r.1 }, r.2)
  | .websocket => let r := wsConfig e n dry s.ws; ({ s with ws := r.1 }, r.2)

/-- The loop over the factories (face-system.cpp:121-139). -/
def factories (e : Env) (n : Node) (marking dry : Bool) : List Fac → St → St × Bool
  | [], s => (s, true)
  | f :: l, s =>
    let r := config1 e f (n.child f.name) marking dry s
    if r.2 then
      factories e n marking dry l
        (if dry then r.1 else { r.1 with byScheme := update f (s.provided f) (r.1.provided f) r.1.byScheme })
    else r

/-- `m_factories` in the order of `std::map` (face-system.hpp:121). -/
def order : List Fac := [.ether, .tcp, .udp, .unix, .websocket]

/-- The check of the names of the subsections (face-system.cpp:146-161). -/
def checkNames : List String → List (String × Node) → Bool
  | _, [] => true
  | seen, x :: l =>
    if x.1 ∈ seen then false
    else if x.1 = "general" ∨ x.1 = "netdev_bound" ∨ order.any (fun f => f.name == x.1) = true then checkNames (x.1 :: seen) l
    else false

/-- `FaceSystem::processConfig` (face-system.cpp:100-162): the state, and whether there was no exception. -/
def process (e : Env) (n : Node) (dry : Bool) (s : St) : St × Bool :=
  match readGeneral (n.child "general") with
  | none => (s, false)
  | some marking =>
    let a := factories e n marking dry order s
    if a.2 then
      let b := netdevConfig e (n.child "netdev_bound") dry a.1
      if b.2 then (b.1, checkNames [] n.kids) else b
    else a

end Verif.Fs
