import Verif.Tables.ScOk

/-! Which name-tree nodes the table operations leave behind. -/
namespace Verif.Tb

open Nt (Tree Nte Cfg Options maxDepth tblOf TreeInv Removed)

variable {e : Env} {s s' : Tables}

def NU (e : Env) (t : Tree Tbl) : Prop := ∀ n, (tblOf e.cfg t n).isSome → ∃ m, n <+: m ∧ vw e t m ≠ {}

/-- Useless nodes only on the way to `n`. -/
def NUx (e : Env) (t : Tree Tbl) (n : Name) : Prop := ∀ m, (tblOf e.cfg t m).isSome → (∃ m', m <+: m' ∧ vw e t m' ≠ {}) ∨ m <+: n

theorem NU.x {t : Tree Tbl} (h : NU e t) (n : Name) : NUx e t n := fun m hm => .inl (h m hm)

theorem NUx.of_ne {t : Tree Tbl} {n : Name} (h : NUx e t n) (hn : vw e t n ≠ {}) : NU e t := by
  intro m hm
  rcases h m hm with h | h
  · exact h
  · exact ⟨n, h, hn⟩

theorem nu_lookup {t t' : Tree Tbl} (hi : TreeInv e.cfg t) {n : Name} {k : Nat} (h : Nt.lookup e.cfg t n k = some t') (hu : NU e t) :
    NUx e t' (n.take k) := by
  obtain ⟨-, v, -, -, -, st⟩ := fwd_lookup hi h
  intro m hm
  rcases (st m).1 hm with hm | hm
  · left; rw [v]; exact hu m hm
  · right; exact hm

theorem nu_set {t t' : Tree Tbl} (hi : TreeInv e.cfg t) {n : Name} {f : Tbl → Tbl} (h : Nt.setTbl e.cfg t n f = some t') (hu : NUx e t n) :
    NUx e t' n := by
  obtain ⟨-, v, -, st⟩ := fwd_setTbl hi h
  intro m hm
  rw [st] at hm
  rcases hu m hm with ⟨m', h1, h2⟩ | hm
  · by_cases hmn : m' = n
    · subst hmn; exact .inr h1
    · left; exact ⟨m', h1, by rw [v, upd_ne _ _ hmn]; exact h2⟩
  · exact .inr hm

theorem nu_set_ne {t t' : Tree Tbl} (hi : TreeInv e.cfg t) {n : Name} {f : Tbl → Tbl} (h : Nt.setTbl e.cfg t n f = some t') (hu : NUx e t n)
    (hf : f (vw e t n) ≠ {}) : NU e t' := by
  refine (nu_set hi h hu).of_ne ?_
  obtain ⟨-, v, -⟩ := fwd_setTbl hi h
  rw [v, upd_same]; exact hf

theorem nu_erase {t : Tree Tbl} (hi : TreeInv e.cfg t) {n : Name} {r : Tree Tbl × Nat} (h : Nt.eraseIfEmpty e.cfg t n true = some r)
    (hu : NUx e t n) : NU e r.1 := by
  obtain ⟨-, v, st, -⟩ := fwd_erase hi h
  intro m hm
  rw [v]
  unfold Nt.eraseIfEmpty at h
  rw [Nt.tblOf_isSome] at st
  obtain ⟨t3, k3, h2, -, h4⟩ := Nt.eraseLoop_spec (n.length + 2) 0 hi (n := n) st (by omega)
  rw [h] at h2; cases h2
  obtain ⟨h5, h6⟩ := h4 m
  by_cases hr : Removed e.cfg (tblOf e.cfg t) n m
  · rw [h5 hr] at hm; simp at hm
  · rw [h6 hr] at hm
    rcases hu m hm with hm | hmn
    · exact hm
    · have : ∃ m' x, tblOf e.cfg t m' = some x ∧ m <+: m' ∧ ¬ (m' <+: n ∧ e.cfg.has x = false) := by
        apply Classical.byContradiction
        intro hn
        apply hr
        refine ⟨hmn, fun m' x h1 h2 => ?_⟩
        apply Classical.byContradiction
        intro h3
        exact hn ⟨m', x, h1, h2, h3⟩
      obtain ⟨m', x, h1, h2, h3⟩ := this
      by_cases hp : m' <+: n
      · refine ⟨m', h2, ?_⟩
        intro hv
        apply h3
        refine ⟨hp, ?_⟩
        simp only [vw, h1, Option.getD_some] at hv
        subst hv
        rfl
      · rcases hu m' (by rw [h1]; rfl) with ⟨m'', h7, h8⟩ | h7
        · exact ⟨m'', h2.trans h7, h8⟩
        · exact absurd h7 hp

theorem clearInfo_ne {x : Tbl} (h : x ≠ {}) : clearInfo x ≠ {} := by
  intro hc
  apply h
  cases x with
  | mk f p m sc =>
    simp only [clearInfo, Tbl.mk.injEq, List.map_eq_nil_iff, Option.map_eq_none_iff] at hc
    obtain ⟨rfl, rfl, rfl, rfl⟩ := hc
    rfl

theorem nu_change {t t' : Tree Tbl} (hi : TreeInv e.cfg t) {p old new : Name} (h : changeStrategy e t p old new = some t') {n : Name}
    (hu : NUx e t n) : NUx e t' n := by
  obtain ⟨-, st, v1, v2⟩ := fwd_changeStrategy hi h
  intro m hm
  rw [st] at hm
  rcases hu m hm with ⟨m', h1, h2⟩ | hm
  · left
    refine ⟨m', h1, ?_⟩
    cases hs : areSameType e old new with
    | true => rw [v1 hs]; exact h2
    | false =>
      obtain ⟨a, b⟩ := v2 hs m'
      by_cases hc : Covers (vw e t) p m'
      · rw [a hc]; exact clearInfo_ne h2
      · rw [b hc]; exact h2
  · exact .inr hm

theorem change_ne {t t' : Tree Tbl} (hi : TreeInv e.cfg t) {p old new : Name} (h : changeStrategy e t p old new = some t') {n : Name}
    (hu : vw e t n ≠ {}) : vw e t' n ≠ {} := by
  obtain ⟨-, st, v1, v2⟩ := fwd_changeStrategy hi h
  cases hs : areSameType e old new with
  | true => rw [v1 hs]; exact hu
  | false =>
    obtain ⟨a, b⟩ := v2 hs n
    by_cases hc : Covers (vw e t) p n
    · rw [a hc]; exact clearInfo_ne hu
    · rw [b hc]; exact hu

theorem nu_pitMod (hi : TreeInv e.cfg s.nt) {i : Interest} {f : PitEntry → PitEntry} (h : pitMod e s i f = some s') (hu : NU e s.nt) : NU e s'.nt := by
  unfold pitMod at h
  simp only [Option.bind_eq_bind, Option.bind_eq_some_iff, Option.some.injEq] at h
  obtain ⟨p, hp, t, ht, rfl⟩ := h
  refine nu_set_ne hi ht (hu.x _) ?_
  intro hh
  have hm := List.mem_of_find?_eq_some hp
  have : (vw e s.nt (pitNode i.name)).pit = [] := by
    have := congrArg Tbl.pit hh
    simpa using this
  rw [view_eq, this] at hm
  simp at hm

theorem nu_measGetNte {n : Name} (hi : TreeInv e.cfg s.nt) (h : measGetNte e s n = some s') (hu : NUx e s.nt n) : NU e s'.nt := by
  unfold measGetNte at h
  split at h
  · rename_i hm
    cases h
    exact hu.of_ne (by intro hh; rw [view_eq, hh] at hm; simp at hm)
  · simp only [Option.bind_eq_bind, Option.bind_eq_some_iff, Option.some.injEq] at h
    obtain ⟨t, ht, rfl⟩ := h
    exact nu_set_ne hi ht hu (by intro hh; have := congrArg Tbl.meas hh; simp at this)

theorem nu_of_not_empty {t : Tree Tbl} (hi : TreeInv e.cfg t) (h : ∀ n x, t.find e.ch n = some x → x.isEmpty e.cfg = false) : NU e t := by
  have : ∀ k n, maxDepth - n.length = k → (tblOf e.cfg t n).isSome → ∃ m, n <+: m ∧ vw e t m ≠ {} := by
    intro k
    induction k with
    | zero =>
      intro n hk hn
      rw [Nt.tblOf_isSome] at hn
      obtain ⟨x, hx⟩ := Option.isSome_iff_exists.1 hn
      have he := h n x hx
      simp only [Nte.isEmpty, Bool.and_eq_false_iff, Bool.not_eq_false'] at he
      rcases he with he | he
      · cases hc : x.children with
        | nil => simp [hc] at he
        | cons c cs =>
          obtain ⟨a, b, ke, hke⟩ := (hi.kids n x hx).2 c (by simp [hc])
          have h1 := hi.depth c ke hke
          have h2 := congrArg List.length b
          have := List.length_pos_iff.2 a
          simp at h2; omega
      · refine ⟨n, List.prefix_refl _, ?_⟩
        intro hv
        simp only [vw, tblOf, show t.find e.cfg.ch n = some x from hx, Option.map_some, Option.getD_some] at hv
        rw [hv] at he
        exact absurd he (by decide)
    | succ k ih =>
      intro n hk hn
      rw [Nt.tblOf_isSome] at hn
      obtain ⟨x, hx⟩ := Option.isSome_iff_exists.1 hn
      have he := h n x hx
      simp only [Nte.isEmpty, Bool.and_eq_false_iff, Bool.not_eq_false'] at he
      rcases he with he | he
      · cases hc : x.children with
        | nil => simp [hc] at he
        | cons c cs =>
          obtain ⟨a, b, ke, hke⟩ := (hi.kids n x hx).2 c (by simp [hc])
          have h2 := congrArg List.length b
          have := List.length_pos_iff.2 a
          simp at h2
          obtain ⟨m, h3, h4⟩ := ih c (by omega) (by rw [Nt.tblOf_isSome]; simp [hke])
          exact ⟨m, (b ▸ List.dropLast_prefix c : n <+: c).trans h3, h4⟩
      · refine ⟨n, List.prefix_refl _, ?_⟩
        intro hv
        simp only [vw, tblOf, show t.find e.cfg.ch n = some x from hx, Option.map_some, Option.getD_some] at hv
        rw [hv] at he
        exact absurd he (by decide)
  intro n hn
  exact this _ n rfl hn

theorem not_empty_of_nu {t : Tree Tbl} (hi : TreeInv e.cfg t) (hu : NU e t) {n : Name} {x : Nte Tbl} (hx : t.find e.cfg.ch n = some x) :
    x.isEmpty e.cfg = false := by
  obtain ⟨m, h1, h2⟩ := hu n (by rw [Nt.tblOf_isSome]; simp [hx])
  simp only [Nte.isEmpty, Bool.and_eq_false_iff, Bool.not_eq_false']
  by_cases hm : m = n
  · subst hm
    right
    cases hh : e.cfg.has x.tbl with
    | true => exact hh
    | false =>
      exfalso; apply h2
      simp only [vw, tblOf, hx, Option.map_some, Option.getD_some]
      exact has_false hh
  · left
    have : (t.find e.cfg.ch m).isSome := by rw [← Nt.tblOf_isSome]; exact stored_of_vw h2
    obtain ⟨k, hk, -⟩ := Nt.child_of_ext hi hx this h1 hm
    cases hc : x.children with
    | nil => rw [hc] at hk; simp at hk
    | cons => rfl

theorem nu_step (hi : Inv e s) (hu : NU e s.nt) (op : Op) (h : op.run e s = some s')
    (hop : ∀ p f s', op = .fibUnset p f → fibUnset e s p f ≠ some (s', .entryRemoved)) : NU e s'.nt := by
  have hit := hi.tree
  cases op with
  | fibInsert p =>
    simp only [Op.run, Option.map_eq_some_iff] at h
    obtain ⟨⟨s1, b⟩, h, rfl⟩ := h
    unfold fibInsert at h
    simp only [Option.bind_eq_bind, Option.bind_eq_some_iff] at h
    obtain ⟨t, h1, h⟩ := h
    have hx := nu_lookup hit h1 hu
    rw [List.take_length] at hx
    split at h
    · rename_i hf
      cases h
      exact hx.of_ne (by intro hh; simp only [vw] at hh; rw [hh] at hf; simp at hf)
    · simp only [Option.bind_eq_some_iff, Option.some.injEq] at h
      obtain ⟨t2, h2, h⟩ := h
      cases h
      exact nu_set_ne (fwd_lookup hit h1).1 h2 hx (by intro hh; have := congrArg Tbl.fib hh; simp at this)
  | fibErase p =>
    simp only [Op.run, fibErase] at h
    split at h
    · cases h; exact hu
    · simp only [Option.bind_eq_bind, Option.bind_eq_some_iff, Option.some.injEq] at h
      obtain ⟨t, h1, r, h2, rfl⟩ := h
      exact nu_erase (fwd_setTbl hit h1).1 h2 (nu_set hit h1 (hu.x _))
  | fibSet p f c =>
    simp only [Op.run, Option.map_eq_some_iff] at h
    obtain ⟨⟨s1, b⟩, h, rfl⟩ := h
    unfold fibSet at h
    simp only [Option.bind_eq_bind, Option.bind_eq_some_iff, Option.some.injEq] at h
    obtain ⟨l, hl, t, h1, h⟩ := h
    cases h
    exact nu_set_ne hit h1 (hu.x _) (by intro hh; have := congrArg Tbl.fib hh; simp at this)
  | fibUnset p f =>
    simp only [Op.run, Option.map_eq_some_iff] at h
    obtain ⟨⟨s1, b⟩, h, rfl⟩ := h
    have hne := hop p f
    unfold fibUnset at h hne
    simp only [Option.bind_eq_bind, Option.bind_eq_some_iff] at h
    obtain ⟨l, hl, h⟩ := h
    split at h
    · cases h; exact hu
    · rename_i h1
      split at h
      · rename_i h2
        simp only [Option.bind_eq_some_iff, Option.some.injEq] at h
        obtain ⟨t, h3, h⟩ := h
        refine absurd ?_ (hne { s with nt := t, nFib := s.nFib - 1 } rfl)
        simp only [hl, Option.bind_eq_bind, Option.bind_some]
        rw [if_neg h1, if_pos h2, h3]
        rfl
      · simp only [Option.bind_eq_some_iff, Option.some.injEq] at h
        obtain ⟨t, h3, h⟩ := h
        cases h
        exact nu_set_ne hit h3 (hu.x _) (by intro hh; have := congrArg Tbl.fib hh; simp at this)
  | cleanup f =>
    obtain ⟨t, h2, h3, rfl, h4⟩ := cleanup_fwd hit h
    exact nu_of_not_empty h2 h4
  | pitInsert i =>
    simp only [Op.run, Option.map_eq_some_iff] at h
    obtain ⟨⟨s1, b⟩, h, rfl⟩ := h
    unfold pitInsert at h
    simp only [Option.bind_eq_bind, Option.bind_eq_some_iff] at h
    obtain ⟨t, h1, h⟩ := h
    have hx : NUx e t (pitNode i.name) := nu_lookup hit h1 hu
    split at h
    · rename_i p hf
      cases h
      refine hx.of_ne ?_
      intro hh; simp only [vw] at hh; rw [hh] at hf; simp [findIn] at hf
    · simp only [Option.bind_eq_some_iff, Option.some.injEq] at h
      obtain ⟨t2, h2, h⟩ := h
      cases h
      exact nu_set_ne (fwd_lookup hit h1).1 h2 hx (by intro hh; have := congrArg Tbl.pit hh; simp at this)
  | pitErase i =>
    simp only [Op.run, pitErase, Option.bind_eq_bind, Option.bind_eq_some_iff, Option.some.injEq] at h
    obtain ⟨j, -, t, h1, r, h2, rfl⟩ := h
    exact nu_erase (fwd_setTbl hit h1).1 h2 (nu_set hit h1 (hu.x _))
  | pitIn | pitOut | pitDelIn | pitClearIn | pitDelOut | pitNack => exact nu_pitMod hit h hu
  | pitWrite i =>
    simp only [Op.run, pitWrite, Option.bind_eq_bind, Option.bind_eq_some_iff] at h
    obtain ⟨inst, -, ty, -, h⟩ := h
    exact nu_pitMod hit h hu
  | scInsert p st =>
    simp only [Op.run, Option.map_eq_some_iff] at h
    obtain ⟨⟨s1, r⟩, h, rfl⟩ := h
    unfold scInsert at h
    split at h
    · cases h; exact hu
    · split at h
      · cases h; exact hu
      · cases h; exact hu
      · simp only [Option.bind_eq_bind, Option.bind_eq_some_iff] at h
        obtain ⟨t, h1, h⟩ := h
        have hx := nu_lookup hit h1 hu
        rw [List.take_length] at hx
        have i1 := (fwd_lookup hit h1).1
        split at h
        · rename_i cur hc
          have hne : vw e t p ≠ {} := by intro hh; rw [view_with, hh] at hc; simp at hc
          split at h
          · cases h
            exact hx.of_ne hne
          · simp only [Option.bind_eq_some_iff, Option.some.injEq] at h
            obtain ⟨t2, h2, t3, h3, h⟩ := h
            cases h
            exact nu_set_ne (fwd_changeStrategy i1 h2).1 h3 (nu_change i1 h2 hx) (by intro hh; have := congrArg Tbl.sc hh; simp at this)
        · simp only [Option.bind_eq_some_iff, Option.some.injEq] at h
          obtain ⟨old, -, t2, h2, t3, h3, h⟩ := h
          cases h
          have i2 := (fwd_setTbl i1 h2)
          have := nu_set_ne i1 h2 hx (by intro hh; have := congrArg Tbl.sc hh; simp at this)
          refine (nu_change i2.1 h3 (this.x p)).of_ne (change_ne i2.1 h3 ?_)
          rw [i2.2.1, upd_same]
          intro hh; have := congrArg Tbl.sc hh; simp at this
  | scErase p =>
    simp only [Op.run, scErase] at h
    split at h
    · simp at h
    · split at h
      · cases h; exact hu
      · split at h
        · cases h; exact hu
        · simp only [Option.bind_eq_bind, Option.bind_eq_some_iff, Option.some.injEq] at h
          obtain ⟨par, -, t1, h1, t2, h2, r, h3, rfl⟩ := h
          have i1 := (fwd_changeStrategy hit h1).1
          exact nu_erase (fwd_setTbl i1 h2).1 h3 (nu_set i1 h2 (nu_change hit h1 (hu.x p)))
  | measGet n =>
    simp only [Op.run, measGet, Option.bind_eq_bind, Option.bind_eq_some_iff] at h
    obtain ⟨t, h1, h⟩ := h
    exact nu_measGetNte (s := { s with nt := t }) (fwd_lookup hit h1).1 h (nu_lookup hit h1 hu)
  | measGetFib p =>
    simp only [Op.run, measGetFib] at h
    split at h
    · exact nu_measGetNte hit h (hu.x _)
    · split at h
      · simp only [Option.bind_eq_bind, Option.bind_eq_some_iff] at h
        obtain ⟨t, h1, h⟩ := h
        exact nu_measGetNte (s := { s with nt := t }) (fwd_lookup hit h1).1 h (nu_lookup hit h1 hu)
      · simp at h
  | measGetPit i =>
    simp only [Op.run, measGetPit, Option.bind_eq_bind, Option.bind_eq_some_iff] at h
    obtain ⟨p, hp, h⟩ := h
    split at h
    · simp only [Option.bind_eq_some_iff] at h
      obtain ⟨t, h1, h⟩ := h
      have hx := nu_lookup hit h1 hu
      rw [List.take_length] at hx
      exact nu_measGetNte (s := { s with nt := t }) (fwd_lookup hit h1).1 h hx
    · exact nu_measGetNte hit h (hu.x _)
  | measGetParent n =>
    simp only [Op.run, measGetParent, Option.bind_eq_bind, Option.bind_eq_some_iff] at h
    obtain ⟨m, -, h⟩ := h
    split at h
    · cases h; exact hu
    · simp only [Option.bind_eq_some_iff] at h
      obtain ⟨x, -, p, -, h⟩ := h
      exact nu_measGetNte hit h (hu.x _)
  | measExtend n lt =>
    simp only [Op.run, measExtend, Option.bind_eq_bind, Option.bind_eq_some_iff] at h
    obtain ⟨m, hm, h⟩ := h
    split at h
    · cases h; exact hu
    · simp only [Option.bind_eq_some_iff, Option.some.injEq] at h
      obtain ⟨t, h1, rfl⟩ := h
      exact nu_set_ne hit h1 (hu.x _) (by intro hh; have := congrArg Tbl.meas hh; simp at this)
  | measCleanup n =>
    simp only [Op.run, measCleanup, Option.bind_eq_bind, Option.bind_eq_some_iff] at h
    obtain ⟨m, hm, h⟩ := h
    split at h
    · cases h; exact hu
    · simp only [Option.bind_eq_some_iff, Option.some.injEq] at h
      obtain ⟨t, h1, r, h2, rfl⟩ := h
      exact nu_erase (fwd_setTbl hit h1).1 h2 (nu_set hit h1 (hu.x _))
  | measWrite n =>
    simp only [Op.run, measWrite, Option.bind_eq_bind, Option.bind_eq_some_iff, Option.some.injEq] at h
    obtain ⟨m, hm, inst, -, ty, -, t, h1, rfl⟩ := h
    exact nu_set_ne hit h1 (hu.x _) (by intro hh; have := congrArg Tbl.meas hh; simp at this)
  | tick dt =>
    simp only [Op.run, Option.some.injEq] at h
    subst h
    exact hu

theorem nu_init {d : Name} (h : init e d = some s) : NU e s.nt := by
  unfold init scDefault at h
  split at h
  · simp only [Option.bind_eq_bind, Option.bind_eq_some_iff, Option.some.injEq] at h
    obtain ⟨t1, h1, t2, h2, rfl⟩ := h
    have hz : NU e (Nt.Hashtable.init e.opts) := by
      intro m hm; unfold tblOf at hm; rw [Nt.init_find] at hm; simp at hm
    have hx := nu_lookup (Nt.init_treeInv e.cfg) h1 hz
    exact nu_set_ne (fwd_lookup (Nt.init_treeInv e.cfg) h1).1 h2 hx (by intro hh; have := congrArg Tbl.sc hh; simp at this)
  · simp at h

theorem nu_run (ops : List Op) : ∀ {s : Tables}, Inv e s → NU e s.nt → KeepsNextHop e s ops → run e s ops = some s' → NU e s'.nt := by
  induction ops with
  | nil => intro s _ hu _ h; cases h; exact hu
  | cons op ops ih =>
    intro s hi hu hk h
    rw [run, Option.bind_eq_some_iff] at h
    obtain ⟨s1, h1, h2⟩ := h
    exact ih (step_inv hi op h1) (nu_step hi hu op h1 hk.1) (hk.2 s1 h1) h2

end Verif.Tb
