import Verif.Fs.Spec
import Verif.Rib.Svc

/-! What the section `rib` says. -/
namespace Verif.Svc
open Verif.Cf (Node)
open Verif.Fs (Lacks First Last Says YesNo)

variable {V C : Type}

/-- A section `rib` without mistakes. -/
structure WellFormed (e : Env V C) (n : Node) : Prop where
  names : ∀ y ∈ n.kids, y.1 ∈ ["localhost_security", "localhop_security", "prefix_announcement_validation", "auto_prefix_propagate", "readvertise_nlsr"]
  rules : ∀ y ∈ n.kids, y.1 ∈ ["localhost_security", "localhop_security", "prefix_announcement_validation"] → ∃ v, e.load y.2 = some v
  nlsr : ∀ y ∈ n.kids, y.1 = "readvertise_nlsr" → ∃ b, YesNo y.2 b
  excl : Lacks n.kids "localhop_security" ∨ Lacks n.kids "auto_prefix_propagate"

/-- A number for which there is a default; what cannot be read counts as absent. -/
def NumSays (e : Env V C) (l : List (String × Node)) (key : String) (dflt v : Nat) : Prop :=
  (Lacks l key ∧ v = dflt) ∨ ∃ x, First l key x ∧ ((e.num x.value = none ∧ v = dflt) ∨ e.num x.value = some v)

/-- Commands with this prefix are carried out exactly if the rules of the last such option accept them. -/
def RulesSay (e : Env V C) (l : List (String × Node)) (key : String) (takes : C → Bool) : Prop :=
  (Lacks l key ∧ ∀ c, takes c = false) ∨ ∃ x v, Last l key x ∧ e.load x = some v ∧ ∀ c, takes c = e.accepts v c

/-- What the service does after it has started with the one section `n`. -/
structure Done (e : Env V C) (n : Node) (r : Running V) : Prop where
  localhost : RulesSay e n.kids "localhost_security" (authorized e r .localhost)
  localhop : RulesSay e n.kids "localhop_security" (authorized e r .localhop)
  announcements : RulesSay e n.kids "prefix_announcement_validation" (fun c => r.st.pa.any (fun v => e.accepts v c))
  nlsr : Says n.kids "readvertise_nlsr" false YesNo r.st.nlsr
  propagate : (Lacks n.kids "auto_prefix_propagate" ∧ r.st.propagate = none) ∨
    ∃ x p, First n.kids "auto_prefix_propagate" x ∧ r.st.propagate = some p ∧
      NumSays e x.kids "cost" 15 p.cost ∧ NumSays e x.kids "timeout" 10000 p.timeout ∧ NumSays e x.kids "refresh_interval" 25 p.refresh

/-- Where the RIB manager connects: the Unix socket of the first section `face_system` if it has a section `unix`, otherwise the TCP port of this host if it
has a section `tcp` that does not turn listening off. Of repeated options the first counts. -/
inductive TransportSays (file : List (String × Node)) : Transport → Prop
  | unix (f x : Node) (p : String) : First file "face_system" f → First f.kids "unix" x →
      (Lacks x.kids "path" ∧ p = "/run/nfd/nfd.sock" ∨ ∃ y, First x.kids "path" y ∧ p = y.value) → TransportSays file (.unix p)
  | tcp (f x : Node) (p : String) : First file "face_system" f → Lacks f.kids "unix" → First f.kids "tcp" x →
      (Lacks x.kids "listen" ∨ ∃ y, First x.kids "listen" y ∧ y.value = "yes") →
      (Lacks x.kids "port" ∧ p = "6363" ∨ ∃ y, First x.kids "port" y ∧ p = y.value) → TransportSays file (.tcp "localhost" p)

/-- The forwarder can be reached there: it has a channel that accepts peers at that path, or at that port for IPv4 or IPv6. -/
def Reachable (fe : Fs.Env) (f : Fs.St) : Transport → Prop
  | .unix p => ∃ q, fe.path p = some q ∧ ∃ c ∈ f.unix.chans, c.key = q ∧ c.ready = true
  | .tcp host port => host = "localhost" ∧ (∃ k, (fe.num 65535 port = some k ∨ (port = "6363" ∧ k = 6363)) ∧ ∃ c ∈ f.tcp.chans, (∃ v6, c.key = (v6, k)) ∧ c.ready = true)

/-- An option is given at most once. -/
def Once (l : List (String × Node)) (key : String) : Prop := ¬ Fs.Twice l key

end Verif.Svc
