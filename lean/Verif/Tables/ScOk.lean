import Verif.Tables.ScLemmas

/-! Strategy choice commands always go through. -/
namespace Verif.Tb

open Nt (Tree Nte Cfg Options maxDepth tblOf TreeInv)

variable {e : Env} {s s' : Tables}

theorem lookup_ok {t : Tree Tbl} (hi : TreeInv e.cfg t) {n : Name} {k : Nat} (h1 : k ≤ n.length) (h2 : k ≤ maxDepth) :
    ∃ t', Nt.lookup e.cfg t n k = some t' := by
  obtain ⟨t', h, -⟩ := Nt.lookup_spec hi h1 h2
  exact ⟨t', h⟩

theorem scEffective_isSome (hi : TreeInv e.cfg s.nt) (hr : (view e s []).sc.isSome) (x : Name) : ∃ i, scEffective e s x = some i := by
  obtain ⟨m, i, h, -⟩ := scEffective_spec hi hr x
  exact ⟨i, h⟩

theorem scInsert_ok (hi : Inv e s) (p st : Name) : ∃ s' r, scInsert e s p st = some (s', r) := by
  unfold scInsert
  split
  · exact ⟨_, _, rfl⟩
  · rename_i hd
    cases hc : e.create st with
    | exception => exact ⟨_, _, rfl⟩
    | notRegistered => exact ⟨_, _, rfl⟩
    | ok inst =>
      obtain ⟨t1, h1⟩ := lookup_ok (e := e) hi.tree (Nat.le_refl p.length) (by omega)
      obtain ⟨i1, v1, -, -, st1, -⟩ := fwd_lookup hi.tree h1
      rw [List.take_length] at st1
      simp only [h1, Option.bind_eq_bind, Option.bind_some]
      cases hsc : (view e { s with nt := t1 } p).sc with
      | some cur =>
        simp only
        split
        · exact ⟨_, _, rfl⟩
        · obtain ⟨t2, h2⟩ := changeStrategy_ok i1 p cur inst
          obtain ⟨i2, d2, -⟩ := fwd_changeStrategy i1 h2
          obtain ⟨t3, h3⟩ := setTbl_ok i2 (n := p) (fun x => { x with sc := some inst }) (by rw [d2]; exact st1)
          simp only [h2, h3, Option.bind_some]
          exact ⟨_, _, rfl⟩
      | none =>
        have hr : (view e { s with nt := t1 } []).sc.isSome := by rw [view_with, v1]; exact hi.root
        obtain ⟨old, ho⟩ := scEffective_isSome (s := { s with nt := t1 }) i1 hr p
        obtain ⟨t2, h2⟩ := setTbl_ok i1 (n := p) (fun x => { x with sc := some inst }) st1
        obtain ⟨i2, -⟩ := fwd_setTbl i1 h2
        obtain ⟨t3, h3⟩ := changeStrategy_ok i2 p old inst
        simp only [ho, h2, h3, Option.bind_some]
        exact ⟨_, _, rfl⟩

theorem scErase_ok (hi : Inv e s) {p : Name} (hp : p ≠ []) : ∃ s', scErase e s p = some s' := by
  unfold scErase
  rw [if_neg (by simpa using hp)]
  cases hn : (Nt.findExact e.cfg s.nt p p.length).isNone with
  | true => exact ⟨s, by rw [if_pos rfl]⟩
  | false =>
    rw [if_neg (by simp)]
    have hst := findExact_isSome hn
    cases hsc : (view e s p).sc with
    | none => exact ⟨_, rfl⟩
    | some old =>
      obtain ⟨par, ho⟩ := scEffective_isSome hi.tree hi.root p.dropLast
      obtain ⟨t2, h2⟩ := changeStrategy_ok hi.tree p old par
      obtain ⟨i2, d2, -⟩ := fwd_changeStrategy hi.tree h2
      obtain ⟨t3, h3⟩ := setTbl_ok i2 (n := p) (fun x => { x with sc := none }) (by rw [d2]; exact hst)
      obtain ⟨i3, -, -, d3⟩ := fwd_setTbl i2 h3
      obtain ⟨r, h4⟩ := eraseIfEmpty_ok i3 true (n := p) (by rw [d3, d2]; exact hst)
      simp only [ho, h2, h3, h4, Option.bind_eq_bind, Option.bind_some]
      exact ⟨_, rfl⟩

theorem scInsert_sc (hi : Inv e s) {p st : Name} {r : ScResult} (h : scInsert e s p st = some (s', r)) :
    ∀ m, (view e s' m).sc = match r with | .ok => (if m = p then (match e.create st with | .ok i => some i | _ => none) else (view e s m).sc) | _ => (view e s m).sc := by
  intro m
  rcases scInsert_fwd hi.tree h with ⟨rfl, -, rfl⟩ | ⟨rfl, -, -, rfl⟩ | ⟨rfl, -, -, rfl⟩ | ⟨inst, rfl, hc, hlen, h2⟩
  · rfl
  · rfl
  · rfl
  · simp only [hc]
    rcases h2 with ⟨t, h0, rfl, h3, h4⟩ | ⟨cur, t, hcur, -, rfl, h3, h4⟩ | ⟨t, t1, old, hnone, hv1, ht1, heff, rfl, h3, h4⟩
    · rw [view_with, h4]
      by_cases hm : m = p
      · subst hm; simp [h0]
      · simp [hm]
    · rw [view_with]; exact h4.sc_eq m
    · rw [view_with]; exact h4.sc_eq m

theorem scErase_sc (hi : Inv e s) {p : Name} (h : scErase e s p = some s') :
    ∀ m, (view e s' m).sc = if m = p then none else (view e s m).sc := by
  intro m
  obtain ⟨hp, ⟨rfl, h0⟩ | ⟨old, parent, t, hold, hpar, rfl, h3, h4⟩⟩ := scErase_fwd hi.tree h
  · by_cases hm : m = p
    · subst hm; simp [h0]
    · simp [hm]
  · rw [view_with]; exact h4.sc_eq m

end Verif.Tb
