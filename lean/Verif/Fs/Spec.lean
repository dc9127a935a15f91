import Verif.Fs.Model
import Verif.Mgmt.NetProps

/-! What the section `face_system` says, independently of how it is read, and what applying it means. -/
namespace Verif.Fs
open Verif.Cf (Node)

/-! ### What options say -/

/-- There is no option with this key. -/
def Lacks (l : List (String × Node)) (key : String) : Prop := ∀ y ∈ l, y.1 ≠ key

/-- `x` is the first with this key; section names occur once. -/
def First (l : List (String × Node)) (key : String) (x : Node) : Prop := ∃ before after, l = before ++ (key, x) :: after ∧ ∀ y ∈ before, y.1 ≠ key

/-- `x` is the last with this key. -/
def Last (l : List (String × Node)) (key : String) (x : Node) : Prop := ∃ before after, l = before ++ (key, x) :: after ∧ ∀ y ∈ after, y.1 ≠ key

/-- Option `key` says `v`: it is not there and `v` is the default, or the last one can be read as `v`. -/
def Says {α : Type} (l : List (String × Node)) (key : String) (dflt : α) (reads : Node → α → Prop) (v : α) : Prop :=
  (Lacks l key ∧ v = dflt) ∨ ∃ x, Last l key x ∧ reads x v

def YesNo (x : Node) (b : Bool) : Prop := (x.value = "yes" ∧ b = true) ∨ (x.value = "no" ∧ b = false)

/-- A number up to `max`. -/
def Num (e : Env) (max : Nat) (x : Node) (v : Nat) : Prop := e.num max x.value = some v

/-- An MTU from 64 to 8800. -/
def Mtu (e : Env) (x : Node) (v : Nat) : Prop := e.num 18446744073709551615 x.value = some v ∧ 64 ≤ v ∧ v ≤ 8800

/-- A multicast address. -/
def Group (parse : String → Option (Nat × Bool)) (x : Node) (a : Nat) : Prop := parse x.value = some (a, true)

/-- A list of rules: `*`, or valid rules of this kind. -/
def ListOf (e : Env) (kind : Net.Kind) (x : Node) (l : List (List Char)) : Prop :=
  (∀ y ∈ x.kids, y.1 = "*" ∨ Net.RuleOk e.lib kind y.1.toList y.2.value.toList) ∧ l = x.kids.map (fun y => if y.1 = "*" then ['*'] else y.2.value.toList)

/-- The options in all subsections `local`. -/
def locals (l : List (String × Node)) : List (String × Node) := (l.filter (fun y => y.1 == "local")).flatMap (·.2.kids)

/-! ### Sections -/

/-- Congestion marking, from the section `general`. -/
def MarkingSays (n : Node) (m : Bool) : Prop :=
  (Lacks n.kids "general" ∧ m = true) ∨ ∃ x, First n.kids "general" x ∧ Says x.kids "enable_congestion_marking" true YesNo m

/-- Options that `tcp` and `websocket` have in common. -/
structure PortSays (e : Env) (l : List (String × Node)) (dflt : Nat) (listen : Bool) (port : Nat) (v4 v6 : Bool) : Prop where
  listen : Says l "listen" true YesNo listen
  port : Says l "port" dflt (Num e 65535) port
  v4 : Says l "enable_v4" true YesNo v4
  v6 : Says l "enable_v6" true YesNo v6

/-- Which addresses `tcp` takes for local ones. -/
def LocalSays (e : Env) (l : List (String × Node)) (o : Net.Lists) : Prop :=
  (Lacks l "local" ∧ o = ⟨["127.0.0.0/8".toList, "::1/128".toList], []⟩) ∨
  (¬ Lacks l "local" ∧ Says (locals l) "whitelist" [['*']] (ListOf e .address) o.white ∧ Says (locals l) "blacklist" [] (ListOf e .address) o.black)

structure UdpSection (e : Env) (l : List (String × Node)) (o : UdpOpts) : Prop where
  listen : Says l "listen" true YesNo o.listen
  port : Says l "port" 6363 (Num e 65535) o.port
  v4 : Says l "enable_v4" true YesNo o.v4
  v6 : Says l "enable_v6" true YesNo o.v6
  idle : Says l "idle_timeout" 600 (Num e 4294967295) o.idle
  mtu : Says l "unicast_mtu" 8800 (Mtu e) o.mtu
  mcast : Says l "mcast" true YesNo o.mcast
  group : Says l "mcast_group" 0xE00017AA (Group e.v4) o.group
  mport : Says l "mcast_port" 56363 (Num e 65535) o.mport
  group6 : Says l "mcast_group_v6" 0xFF020000000000000000000000001234 (Group e.v6) o.group6
  mport6 : Says l "mcast_port_v6" 56363 (Num e 65535) o.mport6
  adHoc : Says l "mcast_ad_hoc" false YesNo o.adHoc
  white : Says l "whitelist" [['*']] (ListOf e .interface) o.lists.white
  black : Says l "blacklist" [] (ListOf e .interface) o.lists.black

/-- What is to be done about UDP; without the section, unicast and multicast are off. -/
def UdpSays (e : Env) (n : Node) (o : UdpOpts) : Prop :=
  (Lacks n.kids "udp" ∧ o.v4 = false ∧ o.v6 = false ∧ o.mcast = false ∧ o.mtu = 8800 ∧ o.adHoc = false) ∨ ∃ x, First n.kids "udp" x ∧ UdpSection e x.kids o

structure EthSection (e : Env) (l : List (String × Node)) (o : EthOpts) : Prop where
  enabled : o.enabled = true
  listen : Says l "listen" true YesNo o.listen
  idle : Says l "idle_timeout" 600 (Num e 4294967295) o.idle
  mcast : Says l "mcast" true YesNo o.mcast
  group : Says l "mcast_group" 0x01005E0017AA (Group e.mac) o.group
  adHoc : Says l "mcast_ad_hoc" false YesNo o.adHoc
  white : Says l "whitelist" [['*']] (ListOf e .interface) o.lists.white
  black : Says l "blacklist" [] (ListOf e .interface) o.lists.black

/-- What is to be done about Ethernet; without the section it is off. -/
def EthSays (e : Env) (n : Node) (o : EthOpts) : Prop :=
  (Lacks n.kids "ether" ∧ o.enabled = false ∧ o.listen = false ∧ o.mcast = false) ∨ ∃ x, First n.kids "ether" x ∧ EthSection e x.kids o

/-! ### Well-formed sections -/

def TcpLine (e : Env) (y : String × Node) : Prop :=
  (y.1 ∈ ["listen", "enable_v4", "enable_v6"] ∧ ∃ b, YesNo y.2 b) ∨ (y.1 = "port" ∧ ∃ v, Num e 65535 y.2 v) ∨
  (y.1 = "local" ∧ ∀ z ∈ y.2.kids, z.1 ∈ ["whitelist", "blacklist"] ∧ ∃ l, ListOf e .address z.2 l)

def UdpLine (e : Env) (y : String × Node) : Prop :=
  (y.1 ∈ ["listen", "enable_v4", "enable_v6", "mcast", "mcast_ad_hoc"] ∧ ∃ b, YesNo y.2 b) ∨
  (y.1 ∈ ["port", "mcast_port", "mcast_port_v6"] ∧ ∃ v, Num e 65535 y.2 v) ∨ (y.1 = "idle_timeout" ∧ ∃ v, Num e 4294967295 y.2 v) ∨
  (y.1 = "unicast_mtu" ∧ ∃ v, Mtu e y.2 v) ∨ y.1 = "keep_alive_interval" ∨ (y.1 = "mcast_group" ∧ ∃ a, Group e.v4 y.2 a) ∨
  (y.1 = "mcast_group_v6" ∧ ∃ a, Group e.v6 y.2 a) ∨ (y.1 ∈ ["whitelist", "blacklist"] ∧ ∃ l, ListOf e .interface y.2 l)

def WsLine (e : Env) (y : String × Node) : Prop :=
  (y.1 ∈ ["listen", "enable_v4", "enable_v6"] ∧ ∃ b, YesNo y.2 b) ∨ (y.1 = "port" ∧ ∃ v, Num e 65535 y.2 v)

def EthLine (e : Env) (y : String × Node) : Prop :=
  (y.1 ∈ ["listen", "mcast", "mcast_ad_hoc"] ∧ ∃ b, YesNo y.2 b) ∨ (y.1 = "idle_timeout" ∧ ∃ v, Num e 4294967295 y.2 v) ∨
  (y.1 = "mcast_group" ∧ ∃ a, Group e.mac y.2 a) ∨ (y.1 ∈ ["whitelist", "blacklist"] ∧ ∃ l, ListOf e .interface y.2 l)

/-- An option is given more than once. -/
def Twice (l : List (String × Node)) (key : String) : Prop := ∃ a x b y c, l = a ++ (key, x) :: b ++ (key, y) :: c

/-- A rule for faces bound to interfaces. -/
structure RuleWellFormed (e : Env) (l : List (String × Node)) : Prop where
  lines : ∀ y ∈ l, (y.1 = "remote" ∧ ∃ s, e.uri y.2.value = some (s, true)) ∨ (y.1 ∈ ["whitelist", "blacklist"] ∧ ∃ r, ListOf e .interface y.2 r)
  remote : ¬ Lacks l "remote"
  once : ¬ Twice l "whitelist" ∧ ¬ Twice l "blacklist"

/-- What can be told about the section without applying it. -/
structure WellFormed (e : Env) (n : Node) : Prop where
  names : ∀ y ∈ n.kids, y.1 ∈ ["general", "netdev_bound", "ether", "tcp", "udp", "unix", "websocket"]
  once : n.kids.Pairwise (fun a b => a.1 ≠ b.1)
  general : ∀ x, First n.kids "general" x → ∀ y ∈ x.kids, y.1 = "enable_congestion_marking" ∧ ∃ b, YesNo y.2 b
  ether : ∀ x, First n.kids "ether" x → ∀ y ∈ x.kids, EthLine e y
  tcp : ∀ x, First n.kids "tcp" x → (∀ y ∈ x.kids, TcpLine e y) ∧
    ¬ (Says x.kids "enable_v4" true YesNo false ∧ Says x.kids "enable_v6" true YesNo false)
  udp : ∀ x, First n.kids "udp" x → (∀ y ∈ x.kids, UdpLine e y) ∧
    ¬ (Says x.kids "enable_v4" true YesNo false ∧ Says x.kids "enable_v6" true YesNo false ∧ Says x.kids "mcast" true YesNo false)
  unix : ∀ x, First n.kids "unix" x → ∀ y ∈ x.kids, y.1 = "path"
  websocket : ∀ x, First n.kids "websocket" x → (∀ y ∈ x.kids, WsLine e y) ∧
    ¬ (Says x.kids "enable_v4" true YesNo false ∧ Says x.kids "enable_v6" true YesNo false)
  netdev : ∀ x, First n.kids "netdev_bound" x → ∀ y ∈ x.kids, y.1 = "rule" ∧ RuleWellFormed e y.2.kids

/-! ### What applying the section means -/

/-- The state with other settings for congestion marking. -/
def marked (a b c : Bool) (s : St) : St :=
  { s with tcp := { s.tcp with marking := a }, udp := { s.udp with marking := b }, unix := { s.unix with marking := c } }

/-- Family and port of the channels. -/
def Keys (port : Nat) (v4 v6 : Bool) (k : Bool × Nat) : Prop := (v4 = true ∧ k = (false, port)) ∨ (v6 = true ∧ k = (true, port))

/-- Channels before and after: those that are called for are there, and accept peers if `listen`; no others have been made and no others have
begun to accept peers; existing ones stay as they were; new ones have the settings given. -/
structure ChansDone {κ : Type} (listen : Bool) (keys : κ → Prop) (marking : Bool) (idle mtu : Nat) (cs cs' : List (Chan κ)) : Prop where
  once : cs'.Pairwise (fun a b => a.key ≠ b.key)
  kept : ∀ c ∈ cs, ∃ d ∈ cs', d.key = c.key ∧ d.marking = c.marking ∧ d.idle = c.idle ∧ d.mtu = c.mtu ∧ (c.ready = true → d.ready = true)
  made : ∀ d ∈ cs', (∃ c ∈ cs, c.key = d.key) ∨ (keys d.key ∧ d.marking = marking ∧ d.idle = idle ∧ d.mtu = mtu)
  all : ∀ k, keys k → ∃ d ∈ cs', d.key = k
  accepts : listen = true → ∀ k, keys k → ∃ d ∈ cs', d.key = k ∧ d.ready = true
  only : ∀ d ∈ cs', d.ready = true → (∃ c ∈ cs, c.key = d.key ∧ c.ready = true) ∨ (keys d.key ∧ listen = true)

/-- Which FaceUri schemes become known by the section. -/
inductive Enables (e : Env) (n : Node) : List Char → Fac → Prop
  | tcp (x : Node) : First n.kids "tcp" x → Enables e n ['t', 'c', 'p'] .tcp
  | tcp4 (x : Node) : First n.kids "tcp" x → Says x.kids "enable_v4" true YesNo true → Enables e n ['t', 'c', 'p', '4'] .tcp
  | tcp6 (x : Node) : First n.kids "tcp" x → Says x.kids "enable_v6" true YesNo true → Enables e n ['t', 'c', 'p', '6'] .tcp
  | udp (x : Node) : First n.kids "udp" x → Says x.kids "enable_v4" true YesNo true ∨ Says x.kids "enable_v6" true YesNo true → Enables e n ['u', 'd', 'p'] .udp
  | udp4 (x : Node) : First n.kids "udp" x → Says x.kids "enable_v4" true YesNo true → Enables e n ['u', 'd', 'p', '4'] .udp
  | udp6 (x : Node) : First n.kids "udp" x → Says x.kids "enable_v6" true YesNo true → Enables e n ['u', 'd', 'p', '6'] .udp
  | ether (x : Node) : First n.kids "ether" x → Enables e n ['e', 't', 'h', 'e', 'r'] .ether

/-- What a successful application of the section does. -/
structure Done (e : Env) (n : Node) (s s' : St) : Prop where
  marking : ∃ m, MarkingSays n m ∧ s'.tcp.marking = m ∧ s'.udp.marking = m ∧ s'.unix.marking = m
  noTcp : Lacks n.kids "tcp" → s'.tcp.chans = s.tcp.chans ∧ s'.tcp.loc = s.tcp.loc
  tcp : ∀ x, First n.kids "tcp" x → LocalSays e x.kids s'.tcp.loc ∧ ∃ listen port v4 v6, PortSays e x.kids 6363 listen port v4 v6 ∧
    ChansDone listen (Keys port v4 v6) s'.tcp.marking 0 0 s.tcp.chans s'.tcp.chans
  udp : ∃ o, UdpSays e n o ∧ s'.udp.mtu = o.mtu ∧ s'.udp.adHoc = o.adHoc ∧
    ChansDone o.listen (Keys o.port o.v4 o.v6) s'.udp.marking o.idle o.mtu s.udp.chans s'.udp.chans ∧
    s'.udp.mc = Mc.step s.udp.mc (.config ⟨o.mcast, (o.group, o.mport), (o.group6, o.mport6), e.netif o.lists⟩
      ((if o.v4 then [⟨⟨false, 0⟩, o.port⟩] else []) ++ (if o.v6 then [⟨⟨true, 0⟩, o.port⟩] else [])) e.udpOpens)
  noUnix : Lacks n.kids "unix" → s'.unix.chans = s.unix.chans
  unix : ∀ x, First n.kids "unix" x → ∃ p q, Says x.kids "path" "/run/nfd/nfd.sock" (fun y v => y.value = v) p ∧ e.path p = some q ∧
    ChansDone true (· = q) s'.unix.marking 0 0 s.unix.chans s'.unix.chans
  noWs : Lacks n.kids "websocket" → s'.ws = s.ws
  ws : ∀ x, First n.kids "websocket" x → ∃ listen port v4 v6, PortSays e x.kids 9696 listen port v4 v6 ∧
    ChansDone true (fun k => listen = true ∧ Keys port v4 v6 k) false 0 0 s.ws s'.ws
  ether : ∃ o, EthSays e n o ∧
    s'.eth = Eth.step s.eth (.config ⟨o.enabled, o.listen, o.idle⟩ ⟨o.mcast, o.group, o.adHoc, e.ethNetif o.lists⟩ e.ethWorks e.ethOpens)
  enabled : ∀ x f, Enables e n x f → s'.byScheme x = some f
  kept : ∀ x f, s.byScheme x = some f → x ≠ ['e', 't', 'h', 'e', 'r'] → s'.byScheme x = some f
  schemes : ∀ x f, s'.byScheme x = some f → Enables e n x f ∨ (s.byScheme x = some f ∧ x ≠ ['e', 't', 'h', 'e', 'r'])
  rules : s'.rules = []

/-- States of a forwarder that runs: the section has been applied any number of times, successfully (otherwise the daemon ends) or as a dry run, and
interfaces and multicast faces have come and gone. -/
inductive Reach : St → Prop
  | init : Reach init
  | config (s : St) (e : Env) (n : Node) (dry : Bool) : Reach s → (process e n dry s).2 = true → Reach (process e n dry s).1
  | udp (s : St) (ev : Mc.Ev) : Reach s → (∀ c l o, ev ≠ .config c l o) → Reach { s with udp := { s.udp with mc := Mc.step s.udp.mc ev } }
  | ether (s : St) (ev : Eth.Ev) : Reach s → (∀ u m w o, ev ≠ .config u m w o) → Reach { s with eth := Eth.step s.eth ev }

end Verif.Fs
