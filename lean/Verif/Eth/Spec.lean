import Verif.Eth.Model

/-! What Ethernet channels and multicast faces there should be. -/
namespace Verif.Eth

/-- Ethernet can be used on this interface. -/
def Usable (n : Netif) : Prop := n.up = true ∧ n.ether = true ∧ n.address = true

/-- Configuration and interfaces call for a channel on the interface named `x`. -/
def WantsChannel (u : Unicast) (netifs : List Netif) (x : String) : Prop := u.enabled = true ∧ ∃ n ∈ netifs, n.name = x ∧ Usable n

/-- Configuration and interfaces call for a multicast face on the interface named `x`. -/
def WantsFace (m : Multicast) (netifs : List Netif) (x : String) : Prop :=
  m.enabled = true ∧ ∃ n ∈ netifs, n.name = x ∧ Usable n ∧ n.multicast = true ∧ m.pred n = true

/-- There is a channel for this interface. -/
def HasChannel (s : St) (x : String) : Prop := ∃ c ∈ s.chans, c.name = x

/-- There is a channel for this interface that receives frames from new peers. -/
def Receives (s : St) (x : String) : Prop := ∃ c ∈ s.chans, c.name = x ∧ c.receiving = true

/-- There is a live multicast face for this interface and group. -/
def HasFace (s : St) (x : String) (group : Nat) : Prop := ∃ (k : Nat) (f : Face), s.faces[k]? = some f ∧ f.netif = x ∧ f.group = group ∧ f.st = .live

end Verif.Eth
