import Verif.Mc.Model

/-! What multicast faces there should be. -/
namespace Verif.Mc

/-- Multicast faces are to be made on this interface. -/
def Eligible (c : Config) (n : Netif) : Prop := c.enabled = true ∧ n.up = true ∧ n.loopback = false ∧ n.multicast = true ∧ c.pred n = true

/-- An address with which an interface can be used. -/
def Usable (x : Addr × Scope) : Prop := x.2 = .link ∨ x.2 = .global

/-- `a` is the first usable address of its family on the interface. -/
def FirstUsable (n : Netif) (a : Addr) : Prop :=
  ∃ before scope after, n.addrs = before ++ (a, scope) :: after ∧ Usable (a, scope) ∧ ∀ x ∈ before, x.1.v6 = a.v6 → ¬ Usable x

/-- The multicast group that is to be used with a local address on an interface. -/
def GroupFor (c : Config) (n : Netif) (a : Addr) (r : Remote) : Prop :=
  (a.v6 = false → r = ⟨⟨⟨false, c.group.1⟩, c.group.2⟩, 0⟩) ∧ (a.v6 = true → r = ⟨⟨⟨true, c.groupV6.1⟩, c.groupV6.2⟩, n.index⟩)

/-- Configuration and interfaces call for a face with local endpoint `loc` and remote endpoint `r`. -/
def Wanted (c : Config) (netifs : List Netif) (loc : Ep) (r : Remote) : Prop :=
  ∃ n ∈ netifs, Eligible c n ∧ ∃ a, FirstUsable n a ∧ GroupFor c n a r ∧ loc = ⟨a, r.ep.port⟩

/-- There is a face with these endpoints in this state. -/
def HasFace (s : St) (loc : Ep) (r : Remote) (st : FState) : Prop := ∃ (k : Nat) (f : Face), s.faces[k]? = some f ∧ f.loc = loc ∧ f.remote = r ∧ f.st = st

end Verif.Mc
