import Verif.Tables.Spec

/-! Which strategy may use which measurements, in words of the strategy choice table only. -/
namespace Verif.Tb

/-- The strategy set for `q` is in charge of `n`: `q` is the longest prefix of `n` for which a strategy is set. -/
def InCharge (e : Env) (s : Tables) (q n : Name) : Prop := LongestPrefix (fun m => (scAt e s m).isSome) n q

end Verif.Tb
