import Verif.Rib.Readv

namespace Verif.Readv

/-! ### Specification -/

/-- The routes in the RIB after some events, each with the prefix it is to be advertised as, if any. -/
def ribAfter (l : List (Route × Option Name)) : Ev → List (Route × Option Name)
  | .add r a => (r, a.map (·.pfx)) :: l
  | .remove r => l.filter (fun x => x.1 != r)
  | _ => l

/-- The RIB adds routes it does not have and removes routes it has. -/
def ribOk (l : List (Route × Option Name)) : Ev → Prop
  | .add r _ => ∀ x ∈ l, x.1 ≠ r
  | .remove r => ∃ x ∈ l, x.1 = r
  | _ => True

/-- Some route in the RIB is to be advertised as `p`. -/
def Wanted (l : List (Route × Option Name)) (p : Name) : Prop := ∃ x ∈ l, x.2 = some p

/-- What is known at the destination about prefix `p`, from the commands and answers: advertised, not advertised, or unknown because
the last command failed. When the destination becomes available it has nothing. -/
def statusAfter (p : Name) (b : Option Bool) : Out → Option Bool
  | .up | .down => some false
  | .answered op q ok => if q = p then (if ok then some (op == .adv) else none) else b
  | .sent _ _ _ _ => b

def status (p : Name) (out : List Out) : Option Bool := out.foldl (statusAfter p) (some false)

/-- The histories considered: no route is added for a prefix while its withdrawal is outstanding; the last route of a prefix is not
removed while an advertisement is unanswered; the refresh of a prefix does not come due during its withdrawal; the destination does
not become unavailable while a withdrawal is unanswered; readvertising is not switched off while a command is unanswered. -/
def Clean (s : St) : Ev → Prop
  | .add _ (some a) => ∀ x ∈ s.recs, x.pfx = a.pfx → x.n ≠ 0
  | .remove r => ∀ y ∈ s.map, y.1 = r → ∀ x ∈ s.recs, x.id = y.2 → x.n = 1 → ∀ c ∈ s.flight, c.target ≠ x.id
  | .timer id => ∀ x ∈ s.recs, x.id = id → x.n = 0 → ∀ d, x.evt ≠ some (.adv, d)
  | .unavailable => ∀ c ∈ s.flight, c.op ≠ .wd
  | .destroy => s.flight = []
  | _ => True

/-- A clean history, with the routes in the RIB. -/
def CleanRun (refresh : Nat) : St → List (Route × Option Name) → List Ev → Prop
  | _, _, [] => True
  | s, l, e :: es => Clean s e ∧ ribOk l e ∧ ∀ s', step refresh s e = .ok s' → CleanRun refresh s' (ribAfter l e) es

end Verif.Readv
