import Verif.Fc.Model

/-! What the answers to `faces/create` are meant to say. -/
namespace Verif.Fc
open Verif.FaceCmd (Persistency Opts)

/-- Both URIs of the command are well-formed and canonical; the remote URI has this scheme and endpoint. -/
def WellFormed (r : Req) (scheme : String) (ep : Ep) : Prop :=
  r.uri = .canonical scheme ep ∧ ∀ u, r.localUri = some u → ∃ sch' ep', u = .canonical sch' ep'

/-- A command that a protocol can carry out: never on-demand; no local fields unless over TCP to a loopback address; an MTU of at least 64, and none
for TCP; no multicast; a device is named for Ethernet and nothing is said about the local side for TCP and UDP. -/
inductive Suits (e : Env) (r : Req) (ep : Ep) : Factory → Prop
  | tcp : r.localUri = none → r.persistency ≠ .onDemand → (r.params.localFields = some true → e.loopback ep = true) → r.params.mtu = none →
      Suits e r ep .tcp
  | udp : r.localUri = none → r.persistency ≠ .onDemand → r.params.localFields ≠ some true → e.mcast ep = false →
      (∀ m, r.params.mtu = some m → 64 ≤ m) → Suits e r ep .udp
  | ether (dev : Ep) : r.localUri = some (.canonical "dev" dev) → r.persistency ≠ .onDemand → r.params.localFields ≠ some true → e.mcast ep = false →
      (∀ m, r.params.mtu = some m → 64 ≤ m) → Suits e r ep .ether

/-- The channel can make faces for this command: of the address family of the endpoint, or, for Ethernet, of the device the command names. -/
def Serves (r : Req) (ep : Ep) (p : Factory) (c : Chan) : Prop :=
  c.proto = p ∧ (p = .ether → ∃ sch dev, r.localUri = some (.canonical sch dev) ∧ c.ident = dev.host) ∧ (p ≠ .ether → c.v6 = ep.v6)

/-- The first channel that can. -/
def FirstServing (s : St) (r : Req) (ep : Ep) (p : Factory) (c : Chan) : Prop :=
  ∃ l l', s.channels = l ++ c :: l' ∧ Serves r ep p c ∧ ∀ x ∈ l, ¬ Serves r ep p x

/-- The face is in the face table under this FaceId. -/
def InTable (s : St) (id k : Nat) : Prop := ∃ f, s.faces[k]? = some f ∧ f.id = some id

/-- A face as the command wants it. What the command leaves open comes from the channel. Ethernet faces have no congestion marking. -/
structure AsRequested (e : Env) (r : Req) (f : Face) : Prop where
  up : f.st = .up
  persistency : f.f.persistency = r.persistency
  opts : ∃ o, f.f.link = some o ∧
    (o.localFields = true ↔ r.params.localFields = some true) ∧
    (o.reliability = true ↔ r.params.reliability = some true) ∧
    (f.chan.proto ≠ .ether →
      (∀ b, r.params.congestion = some b → o.congestion = b) ∧ (r.params.congestion = none → o.congestion = f.chan.marking) ∧
      (∀ x, r.params.interval = some x → o.interval = x) ∧ (r.params.interval = none → o.interval = e.interval) ∧
      (∀ x, r.params.threshold = some x → o.threshold = x) ∧ (r.params.threshold = none → o.threshold = e.threshold)) ∧
    (f.chan.proto = .ether → o.congestion = false ∧ o.interval = e.interval ∧ o.threshold = e.threshold)
  localFields : r.params.localFields = some true → f.f.isLocal = true
  mtu : ∀ m : Nat, r.params.mtu = some m → m < 2 ^ 63 → FaceCmd.getMtu f.f = min (m : Int) (e.mtu f.chan f.ep)
  noMtu : r.params.mtu = none → FaceCmd.getMtu f.f =
    (match f.chan.proto with
      | .udp => min f.chan.mtu (e.mtu f.chan f.ep)
      | .ether => min ((2 ^ 63 - 1 : Nat) : Int) (e.mtu f.chan f.ep)
      | _ => -1)

/-- The number of answers the command that came as number `i` has got. -/
def answers (s : St) (i : Nat) : Nat := (s.out.filter (fun x => x.1 == i)).length

/-- The command that came as number `i`. -/
def Asked (s : St) (i : Nat) (r : Req) : Prop := ∃ p, s.reqs[i]? = some p ∧ p.req = r

/-- The command waits for a TCP connection. -/
def Waits (s : St) (i : Nat) : Prop := ∃ p c, s.reqs[i]? = some p ∧ p.waiting = some c

/-- The packet filter of an Ethernet channel could always be changed. -/
def FilterOk : Ev → Prop
  | .create _ sys => sys ≠ .filterError
  | _ => True

/-- What the assertions of the code take for granted: no canonical TCP URI has a multicast address, and a TCP face is local if local fields were
asked for. -/
def Granted (e : Env) (s : St) : Ev → Prop
  | .create r _ => ∀ sch ep, r.uri = .canonical sch ep → s.schemes.lookup sch = some .tcp → e.mcast ep = false
  | .connected i (.ok _ isLocal) => ∀ r, Asked s i r → Waits s i → r.params.localFields = some true → isLocal = true
  | _ => True

end Verif.Fc
