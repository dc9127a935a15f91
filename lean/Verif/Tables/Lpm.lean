import Verif.Tables.Inv

/-! Longest-prefix searches in terms of the tables. -/
namespace Verif.Tb

open Nt (Tree Nte Cfg Options maxDepth tblOf TreeInv)

variable {e : Env} {s s' : Tables}

theorem view_depth (hi : TreeInv e.cfg s.nt) {n : Name} (h : view e s n ≠ {}) : n.length ≤ maxDepth := vw_depth hi h

theorem lpm_get {α : Type} (hi : TreeInv e.cfg s.nt) (get : Tbl → Option α) (h0 : get {} = none) (name : Name) :
    (∃ m a, Nt.lpm e.cfg s.nt (fun _ x => (get x.tbl).isSome) name = some m ∧ get (view e s m) = some a ∧
      LongestPrefix (fun m => (get (view e s m)).isSome) name m) ∨
    (Nt.lpm e.cfg s.nt (fun _ x => (get x.tbl).isSome) name = none ∧ ∀ m, m <+: name → get (view e s m) = none) := by
  have h := lpm_opt (e := e) s.nt get h0 name
  have hd : ∀ m, (get (view e s m)).isSome → m.length ≤ maxDepth := by
    intro m hm
    apply view_depth hi
    intro hh
    rw [hh, h0] at hm
    simp at hm
  cases hr : Nt.lpm e.cfg s.nt (fun _ x => (get x.tbl).isSome) name with
  | none =>
    rw [hr] at h
    right
    refine ⟨rfl, fun m hm => ?_⟩
    cases hg : get (view e s m) with
    | none => rfl
    | some a =>
      have := h m hm (hd m (by simp [hg]))
      rw [← view_eq, hg] at this
      simp at this
  | some m =>
    rw [hr] at h
    obtain ⟨h1, h2, h3, h4⟩ := h
    left
    obtain ⟨a, ha⟩ := Option.isSome_iff_exists.1 h3
    exact ⟨m, a, rfl, ha, h1, h3, fun m' hm' hg => h4 m' hm' (hd m' hg) hg⟩

theorem LongestPrefix.unique {A : Name → Prop} {name m m' : Name} (h : LongestPrefix A name m) (h' : LongestPrefix A name m') : m = m' := by
  have h1 := h.2.2 m' h'.1 h'.2.1
  have h2 := h'.2.2 m h.1 h.2.1
  exact (List.prefix_of_prefix_length_le h.1 h'.1 h2).eq_of_length (by omega)

theorem LongestPrefix.congr {A B : Name → Prop} {name m : Name} (h : LongestPrefix A name m) (hab : ∀ m, A m ↔ B m) : LongestPrefix B name m :=
  ⟨h.1, (hab m).1 h.2.1, fun m' h1 h2 => h.2.2 m' h1 ((hab m').2 h2)⟩

/-- Longest match of `name` is that of a prefix of it below which nothing is found. -/
theorem LongestPrefix.mono {A : Name → Prop} {a b m : Name} (hab : a <+: b) (hno : ∀ x, x <+: b → A x → x <+: a) :
    LongestPrefix A a m ↔ LongestPrefix A b m := by
  constructor
  · rintro ⟨h1, h2, h3⟩
    exact ⟨h1.trans hab, h2, fun x hx hA => h3 x (hno x hx hA) hA⟩
  · rintro ⟨h1, h2, h3⟩
    exact ⟨hno m h1 h2, h2, fun x hx hA => h3 x (hx.trans hab) hA⟩

/-- FIB lookup. -/
theorem fibLpm_spec (hi : TreeInv e.cfg s.nt) (name : Name) :
    (∃ p l, fibLpm e s name = (p, l) ∧ (view e s p).fib = some l ∧ LongestPrefix (fun m => (view e s m).fib.isSome) name p) ∨
    (fibLpm e s name = ([], []) ∧ ∀ m, m <+: name → (view e s m).fib = none) := by
  have hh : Nt.lpm e.cfg s.nt (fun _ x => ((Tbl.fib) x.tbl).isSome) name = Nt.lpm e.cfg s.nt hasFib name := rfl
  rcases lpm_get hi Tbl.fib rfl name with ⟨m, a, h1, h2, h3⟩ | ⟨h1, h2⟩
  · left
    refine ⟨m, a, ?_, h2, h3⟩
    rw [hh] at h1
    simp [fibLpm, h1, h2]
  · right
    rw [hh] at h1
    refine ⟨by simp [fibLpm, h1], h2⟩

theorem stored_of_view {n : Name} (h : view e s n ≠ {}) : (s.nt.find e.cfg.ch n).isSome := by
  rw [← Nt.tblOf_isSome]
  exact stored_of_vw h

theorem scEffective_spec (hi : TreeInv e.cfg s.nt) (hr : (view e s []).sc.isSome) (name : Name) :
    ∃ m inst, scEffective e s name = some inst ∧ (view e s m).sc = some inst ∧ LongestPrefix (fun m => (view e s m).sc.isSome) name m := by
  have hh : Nt.lpm e.cfg s.nt (fun _ x => ((Tbl.sc) x.tbl).isSome) name = Nt.lpm e.cfg s.nt hasSc name := rfl
  rcases lpm_get hi Tbl.sc rfl name with ⟨m, a, h1, h2, h3⟩ | ⟨h1, h2⟩
  · refine ⟨m, a, ?_, h2, h3⟩
    rw [hh] at h1
    simp [scEffective, h1, h2]
  · rw [h2 [] List.nil_prefix] at hr
    simp at hr

theorem scEffectivePit_eq (hi : TreeInv e.cfg s.nt) {name : Name} (h : (view e s (pitNode name)).pit ≠ []) :
    scEffectivePit e s name = scEffective e s name := by
  have : (s.nt.find e.cfg.ch (pitNode name)).isSome := stored_of_view (by intro hh; rw [hh] at h; exact h rfl)
  unfold scEffectivePit scEffective
  rw [Nt.lpmPit_eq hi hasSc this (pitNode_prefix _)]
  rfl

theorem scEffectiveMeas_eq (hi : TreeInv e.cfg s.nt) {n : Name} (h : (view e s n).meas.isSome) :
    scEffectiveMeas e s n = scEffective e s n := by
  have : (s.nt.find e.cfg.ch n).isSome := stored_of_view (by intro hh; rw [hh] at h; simp at h)
  unfold scEffectiveMeas scEffective
  rw [Nt.lpmEntry_eq hi hasSc this]
  rfl

theorem live_place {p : PitEntry} (h : Inv e s) (hp : Live e s p) : p ∈ (view e s (pitNode p.interest.name)).pit := by
  obtain ⟨n, hn⟩ := hp
  rw [(h.node n).place p hn]
  exact hn

theorem live_unique {p q : PitEntry} (h : Inv e s) (hp : Live e s p) (hq : Live e s q) (hk : p.interest.toInterest = q.interest.toInterest) : p = q := by
  have h1 := live_place h hp
  have h2 := live_place h hq
  rw [show q.interest.name = p.interest.name from (congrArg Interest.name hk).symm] at h2
  have hnd := (h.node (pitNode p.interest.name)).keys
  generalize (view e s (pitNode p.interest.name)).pit = l at *
  obtain ⟨i, hi, rfl⟩ := List.getElem_of_mem h1
  obtain ⟨j, hj, rfl⟩ := List.getElem_of_mem h2
  have : i = j := by
    rcases Nat.lt_trichotomy i j with hlt | heq | hlt
    · exact absurd (by rw [List.getElem_map, List.getElem_map]; exact hk) (List.pairwise_iff_getElem.1 hnd i j (by simpa) (by simpa) hlt)
    · exact heq
    · exact absurd (by rw [List.getElem_map, List.getElem_map]; exact hk.symm) (List.pairwise_iff_getElem.1 hnd j i (by simpa) (by simpa) hlt)
  subst this; rfl

theorem hasPit_live (h : Inv e s) (i : Interest) : HasPit (view e s) i ↔ ∃ p, Live e s p ∧ p.interest.toInterest = i := by
  constructor
  · rintro ⟨p, hp, hk⟩; exact ⟨p, ⟨_, hp⟩, hk⟩
  · rintro ⟨p, hp, rfl⟩; exact ⟨p, live_place h hp, rfl⟩

/-- Finding by key in the entry's node. -/
theorem find_key (h : Inv e s) (i : Interest) :
    match (view e s (pitNode i.name)).pit.find? (sameKey i) with
    | some p => Live e s p ∧ p.interest.toInterest = i
    | none => ∀ p, Live e s p → p.interest.toInterest ≠ i := by
  cases hf : (view e s (pitNode i.name)).pit.find? (sameKey i) with
  | some p =>
    have := List.find?_some hf
    exact ⟨⟨_, List.mem_of_find?_eq_some hf⟩, by simpa [sameKey] using this⟩
  | none =>
    rintro p hp rfl
    have := List.find?_eq_none.1 hf p (live_place h hp)
    simp [sameKey] at this

end Verif.Tb
