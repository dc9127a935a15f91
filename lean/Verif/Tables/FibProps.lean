import Verif.Tables.FibLemmas
import Verif.Tables.Example

/-! C15–C17 and C69: the FIB. -/
namespace Verif.Tb

open Nt (maxDepth)

variable {e : Env} {d : Name} {s s' : Tables}

/-! ### C15: the FIB is a map, and lookup is longest prefix match -/

/-- C15. After any history every prefix has exactly the nexthops the reference FIB gives it. -/
theorem C15_contents (s0 : Tables) (ops : List Op) (h0 : init e d = some s0) (h : run e s0 ops = some s) (p : Name) :
    SameFib (fibAt e s p) (refFib ops p) := by
  have key : ∀ ops {s0 s : Tables} {r : RefFib}, Inv e s0 → (∀ m, SameFib (view e s0 m).fib (r m)) → run e s0 ops = some s →
      ∀ m, SameFib (view e s m).fib (ops.foldl refFibStep r m) := by
    intro ops
    induction ops with
    | nil => intro s0 s r _ hr h; cases h; exact hr
    | cons op ops ih =>
      intro s0 s r hi hr h
      rw [run, Option.bind_eq_some_iff] at h
      obtain ⟨s1, h1, h2⟩ := h
      exact ih (step_inv hi op h1) (same_step hi hr op h1) h2
  exact key ops (init_inv h0) (fun m => by rw [init_fib h0]; trivial) h p

/-- C15. A lookup by name gives the entry of the longest prefix that has one; if none has, the empty entry. -/
theorem C15_lpm (h : Reachable e d s) (name : Name) :
    (∃ p l, fibLpm e s name = (p, l) ∧ fibAt e s p = some l ∧ LongestPrefix (fun m => (fibAt e s m).isSome) name p) ∨
    (fibLpm e s name = ([], []) ∧ ∀ m, m <+: name → fibAt e s m = none) :=
  fibLpm_spec h.inv.tree name

/-- C15. A lookup starting at a live PIT entry gives the same result as one by its Interest's name. -/
theorem C15_lpm_pit (h : Reachable e d s) (p : PitEntry) (hp : Live e s p) :
    fibLpmPit e s p.interest.name = some (fibLpm e s p.interest.name) := by
  have hm := live_place h.inv hp
  have : (s.nt.find e.cfg.ch (pitNode p.interest.name)).isSome := stored_of_view (by intro hh; rw [hh] at hm; simp at hm)
  unfold fibLpmPit fibLpm
  rw [Nt.lpmPit_eq h.inv.tree hasFib this (pitNode_prefix _)]
  cases Nt.lpm e.cfg s.nt hasFib p.interest.name <;> rfl

/-- C15. A lookup starting at a measurements entry gives the same result as one by its name. -/
theorem C15_lpm_meas (h : Reachable e d s) (n : Name) (hn : (measAt e s n).isSome) : fibLpmMeas e s n = some (fibLpm e s n) := by
  have : (s.nt.find e.cfg.ch n).isSome := stored_of_view (by intro hh; rw [measAt, hh] at hn; simp at hn)
  unfold fibLpmMeas fibLpm
  rw [Nt.lpmEntry_eq h.inv.tree hasFib this]
  cases Nt.lpm e.cfg s.nt hasFib n <;> rfl

def exFibOps : List Op :=
  [.fibInsert [gc 1], .fibSet [gc 1] 300 10, .fibInsert [gc 1, gc 2, gc 3], .fibSet [gc 1, gc 2, gc 3] 301 20,
   .fibSet [gc 1, gc 2, gc 3] 302 5, .pitInsert { name := [gc 1, gc 2, gc 3, dc 9] }, .measGet [gc 1, gc 2], .fibUnset [gc 1] 300,
   .fibInsert [gc 1], .fibSet [gc 1] 303 7]

example : (exRun exFibOps).any (fun s =>
    fibLpm exEnv s [gc 1, gc 2, gc 3, gc 4] == ([gc 1, gc 2, gc 3], [⟨302, 5⟩, ⟨301, 20⟩]) &&
    fibLpmPit exEnv s [gc 1, gc 2, gc 3, dc 9] == some ([gc 1, gc 2, gc 3], [⟨302, 5⟩, ⟨301, 20⟩]) &&
    fibLpmMeas exEnv s [gc 1, gc 2] == some ([gc 1], [⟨303, 7⟩]) && fibLpm exEnv s [gc 7] == ([], []) &&
    refFib exFibOps [gc 1] == some [(303, 7)]) = true := by decide +kernel

/-! ### C16: nexthops of an entry -/

/-- C16. In every entry the nexthops are in order of non-decreasing cost, at most one per face. -/
theorem C16_sorted_unique (h : Reachable e d s) (p : Name) (l : List NextHop) (hl : fibAt e s p = some l) :
    l.Pairwise (fun a b => a.cost ≤ b.cost) ∧ (l.map (·.face)).Nodup := (h.inv.node p).fib l hl

/-- C16. When entries are created only together with a nexthop, no entry is ever without nexthops. -/
theorem C16_nonempty (h : Managed e d s) (p : Name) : fibAt e s p ≠ some [] := by
  suffices Inv e s ∧ ∀ p, (view e s p).fib ≠ some [] from this.2 p
  induction h with
  | init h0 => exact ⟨init_inv h0, fun p => by rw [init_fib h0]; simp⟩
  | @add s s' p f c _ h ih =>
    obtain ⟨hi, hne⟩ := ih
    simp only [run, Option.bind_eq_some_iff, Option.some.injEq] at h
    obtain ⟨s1, h1, s2, h2, rfl⟩ := h
    have hi1 := step_inv hi _ h1
    refine ⟨step_inv hi1 _ h2, fun m => ?_⟩
    simp only [Op.run, Option.map_eq_some_iff] at h1 h2
    obtain ⟨⟨s1', b⟩, h1, rfl⟩ := h1
    obtain ⟨⟨s2', o⟩, h2, rfl⟩ := h2
    obtain ⟨t, rfl, -, v1, -, -⟩ := fibInsert_fwd hi.tree h1
    obtain ⟨l, t2, hl, rfl, -, v2, -⟩ := fibSet_fwd hi1.tree h2
    rw [view_with, v2]
    by_cases hm : m = p
    · subst hm
      rw [upd_same]
      intro hh
      simp only [Option.some.injEq] at hh
      have := (add_perm (e := e) ((hi1.node m).fib l hl).2 f c).length_eq
      rw [hh] at this
      simp at this
    · rw [upd_ne _ _ hm, view_with, v1, upd_ne _ _ hm]; exact hne m
  | @other s s' op _ hop h ih =>
    obtain ⟨hi, hne⟩ := ih
    refine ⟨step_inv hi _ h, fun m => ?_⟩
    cases hf : op.fibOp with
    | false => rw [(other_fib hi.tree op hf h).1]; exact hne m
    | true =>
      cases op with
      | fibInsert p => exact absurd rfl (hop p)
      | fibErase p =>
        rcases fibErase_fwd hi.tree h with ⟨rfl, h1⟩ | ⟨t, rfl, h2, h3⟩
        · exact hne m
        · rw [view_with, h3]
          by_cases hm : m = p
          · subst hm; rw [upd_same]; simp
          · rw [upd_ne _ _ hm]; exact hne m
      | fibSet p f c =>
        simp only [Op.run, Option.map_eq_some_iff] at h
        obtain ⟨⟨s2', o⟩, h2, rfl⟩ := h
        obtain ⟨l, t2, hl, rfl, -, v2, -⟩ := fibSet_fwd hi.tree h2
        rw [view_with, v2]
        by_cases hm : m = p
        · subst hm
          rw [upd_same]
          intro hh
          simp only [Option.some.injEq] at hh
          have := (add_perm (e := e) ((hi.node m).fib l hl).2 f c).length_eq
          rw [hh] at this
          simp at this
        · rw [upd_ne _ _ hm]; exact hne m
      | fibUnset p f =>
        simp only [Op.run, Option.map_eq_some_iff] at h
        obtain ⟨⟨s1, o⟩, h1, rfl⟩ := h
        obtain ⟨l, hl, h2⟩ := fibUnset_fwd hi.tree h1
        rcases h2 with ⟨-, rfl, h5⟩ | ⟨-, h5, h6, t, rfl, h2, h3⟩ | ⟨-, h5, h6, t, rfl, h2, h3⟩
        · exact hne m
        · rw [view_with, h3]
          by_cases hm : m = p
          · subst hm; rw [upd_same]; simp
          · rw [upd_ne _ _ hm]; exact hne m
        · rw [view_with, h3]
          by_cases hm : m = p
          · subst hm; rw [upd_same]; simpa using h5
          · rw [upd_ne _ _ hm]; exact hne m
      | cleanup f =>
        obtain ⟨t, h2, h3, rfl, -⟩ := cleanup_fwd hi.tree h
        rw [view_with, h3]
        cases hl : (view e s m).fib with
        | none => simp [cleanTbl, hl]
        | some l =>
          simp only [cleanTbl, hl, Option.bind_some]
          split
          · rintro hh; exact hne m (hl.trans hh)
          · split
            · simp
            · rename_i hn
              intro hh
              simp only [Option.some.injEq] at hh
              simp [hh] at hn
      | _ => simp [Op.fibOp] at hf

/-- C16. Add-or-update needs an existing entry and then succeeds. It gives the face that cost, keeps every other nexthop of
the entry, and touches no other entry. -/
theorem C16_add_or_update (h : Reachable e d s) (p : Name) (l : List NextHop) (hl : fibAt e s p = some l) (f : FaceId) (c : Nat) :
    ∃ s' o l', fibSet e s p f c = some (s', o) ∧ fibAt e s' p = some l' ∧
      (∀ x, x ∈ l' ↔ x = ⟨f, c⟩ ∨ (x ∈ l ∧ x.face ≠ f)) ∧ ∀ q, q ≠ p → view e s' q = view e s q := by
  have hi := h.inv
  have hok : ∃ t, Nt.setTbl e.cfg s.nt p (fun x => { x with fib := some (addOrUpdateNextHop e l f c).1 }) = some t :=
    setTbl_ok hi.tree _ (stored_of_vw (by intro hh; rw [fibAt, view_eq, hh] at hl; simp at hl))
  obtain ⟨t, ht⟩ := hok
  have hs : fibSet e s p f c = some ({ s with nt := t }, (addOrUpdateNextHop e l f c).2.map (p, ·)) := by
    unfold fibSet
    rw [show (view e s p).fib = some l from hl]
    simp [ht]
  obtain ⟨-, v, -⟩ := fwd_setTbl hi.tree ht
  refine ⟨_, _, (addOrUpdateNextHop e l f c).1, hs, ?_, ?_, ?_⟩
  · rw [fibAt, view_with, v, upd_same]
  · intro x
    rw [(add_perm ((hi.node p).fib l hl).2 f c).mem_iff, List.mem_cons, List.mem_filter]
    simp
  · intro q hq
    rw [view_with, v, upd_ne _ _ hq]; rfl

/-- C16. Removal deletes exactly that face's nexthop; the entry disappears exactly when it was the only one. -/
theorem C16_remove (h : Reachable e d s) (p : Name) (l : List NextHop) (hl : fibAt e s p = some l) (f : FaceId) :
    ∃ s' r, fibUnset e s p f = some (s', r) ∧ (∀ q, q ≠ p → view e s' q = view e s q) ∧
      ((∀ x ∈ l, x.face ≠ f) ∧ r = .noSuchNextHop ∧ s' = s ∨
       (∃ x ∈ l, x.face = f) ∧ (∀ x ∈ l, x.face = f) ∧ r = .entryRemoved ∧ fibAt e s' p = none ∨
       (∃ x ∈ l, x.face = f) ∧ (∃ x ∈ l, x.face ≠ f) ∧ r = .nextHopRemoved ∧ fibAt e s' p = some (l.filter (fun x => x.face ≠ f))) := by
  have hi := h.inv
  have hst : (Nt.tblOf e.cfg s.nt p).isSome := stored_of_vw (by intro hh; rw [fibAt, view_eq, hh] at hl; simp at hl)
  have hf : l.eraseP (·.face == f) = l.filter (·.face != f) := eraseP_face (f := NextHop.face) ((hi.node p).fib l hl).2 f
  have hlen : (l.filter (·.face != f)).length = l.length ↔ ∀ x ∈ l, x.face ≠ f := by
    rw [List.length_filter_eq_length_iff]
    simp
  have hemp : (l.filter (·.face != f)).isEmpty = true ↔ ∀ x ∈ l, x.face = f := by
    simp [List.filter_eq_nil_iff]
  have hfil : l.filter (fun x => decide (x.face ≠ f)) = l.filter (·.face != f) := by
    apply List.filter_congr
    intro x _
    by_cases hx : x.face = f <;> simp [hx]
  obtain ⟨t1, ht1⟩ := setTbl_ok hi.tree (n := p) (fun x => { x with fib := none }) hst
  obtain ⟨t2, ht2⟩ := setTbl_ok hi.tree (n := p) (fun x => { x with fib := some (l.filter (·.face != f)) }) hst
  obtain ⟨-, v1, -⟩ := fwd_setTbl hi.tree ht1
  obtain ⟨-, v2, -⟩ := fwd_setTbl hi.tree ht2
  unfold fibUnset
  rw [show (view e s p).fib = some l from hl]
  simp only [Option.bind_eq_bind, Option.bind_some, hf]
  by_cases h1 : (l.filter (·.face != f)).length = l.length
  · rw [if_pos h1]
    exact ⟨s, _, rfl, fun _ _ => rfl, .inl ⟨hlen.1 h1, rfl, rfl⟩⟩
  · rw [if_neg h1]
    have hex : ∃ x ∈ l, x.face = f := by
      apply Classical.byContradiction
      intro hn
      exact h1 (hlen.2 (fun x hx hxf => hn ⟨x, hx, hxf⟩))
    cases h2 : (l.filter (·.face != f)).isEmpty with
    | true =>
      rw [if_pos rfl, ht1]
      refine ⟨_, _, rfl, ?_, .inr (.inl ⟨hex, hemp.1 h2, rfl, ?_⟩)⟩
      · intro q hq; rw [view_with, v1, upd_ne _ _ hq]; rfl
      · rw [fibAt, view_with, v1, upd_same]
    | false =>
      rw [if_neg (by simp), ht2]
      refine ⟨_, _, rfl, ?_, .inr (.inr ⟨hex, ?_, rfl, ?_⟩)⟩
      · intro q hq; rw [view_with, v2, upd_ne _ _ hq]; rfl
      · apply Classical.byContradiction
        intro hn
        have := hemp.2 (fun x hx => Classical.byContradiction (fun hxf => hn ⟨x, hx, hxf⟩))
        rw [h2] at this
        simp at this
      · rw [fibAt, view_with, v2, upd_same, hfil]

example : (exRun exFibOps).any (fun s =>
    ((fibSet exEnv s [gc 1, gc 2, gc 3] 301 1).any (fun r => fibAt exEnv r.1 [gc 1, gc 2, gc 3] == some [⟨301, 1⟩, ⟨302, 5⟩])) &&
    ((fibUnset exEnv s [gc 1, gc 2, gc 3] 301).any (fun r => r.2 == .nextHopRemoved)) &&
    ((fibUnset exEnv s [gc 1] 303).any (fun r => r.2 == .entryRemoved && fibAt exEnv r.1 [gc 1] == none)) &&
    ((fibUnset exEnv s [gc 1] 999).any (fun r => r.2 == .noSuchNextHop))) = true := by decide +kernel

/-- Management states exist with entries of several nexthops. -/
example : ∃ s, Managed exEnv st1 s ∧ fibAt exEnv s [gc 1] = some [⟨8, 3⟩, ⟨7, 5⟩] := by
  have h : ((init exEnv st1).bind (fun s => (run exEnv s [.fibInsert [gc 1], .fibSet [gc 1] 7 5]).bind (fun s =>
      (run exEnv s [.fibInsert [gc 1], .fibSet [gc 1] 8 3])))).any (fun s => fibAt exEnv s [gc 1] == some [⟨8, 3⟩, ⟨7, 5⟩]) = true := by
    decide +kernel
  rw [Option.any_eq_true] at h
  obtain ⟨s, h, h'⟩ := h
  simp only [Option.bind_eq_some_iff] at h
  obtain ⟨s0, h0, s1, h1, h2⟩ := h
  exact ⟨s, .add _ _ _ (.add _ _ _ (.init h0) h1) h2, by simpa using h'⟩

/-! ### C17: notification of a new nexthop -/

/-- C17 (partial). Adding a nexthop for a face that has none is announced, once, under the entry's prefix; updating is not.
What is announced is a nexthop of the entry of maximal cost, hence the new one when all others cost less. Missing: that the
announced nexthop is always the new one, which `C17_wrong_nexthop` refutes. -/
theorem C17_announcement_partial (h : Reachable e d s) (p : Name) (l : List NextHop) (hl : fibAt e s p = some l) (f : FaceId) (c : Nat)
    (s' : Tables) (o : Option (Name × NextHop)) (hs : fibSet e s p f c = some (s', o)) :
    (o.isSome ↔ ∀ x ∈ l, x.face ≠ f) ∧
    ∀ q nh, o = some (q, nh) → q = p ∧ (∃ l', fibAt e s' p = some l' ∧ nh ∈ l' ∧ ∀ x ∈ l', x.cost ≤ nh.cost) ∧
      ((∀ x ∈ l, x.cost < c) → nh = ⟨f, c⟩) := by
  have hi := h.inv
  obtain ⟨l0, t, hl0, rfl, -, v, ho⟩ := fibSet_fwd hi.tree hs
  have : l0 = l := Option.some.inj (hl0.symm.trans hl)
  subst this
  unfold addOrUpdateNextHop at ho v
  cases hx : l0.findIdx? (·.face == f) with
  | some i =>
    rw [hx] at ho
    simp only [Option.map_none] at ho
    subst ho
    refine ⟨⟨by simp, ?_⟩, by simp⟩
    intro hn
    rw [List.findIdx?_eq_some_iff_getElem] at hx
    obtain ⟨hlt, hp, -⟩ := hx
    exact absurd (by simpa using hp) (hn _ (List.getElem_mem hlt))
  | none =>
    rw [hx] at ho v
    simp only at ho v
    have hfree : ∀ x ∈ l0, x.face ≠ f := by
      intro x hxm
      have := List.findIdx?_eq_none_iff.1 hx x hxm
      simpa using this
    have hperm := e.sort_perm (l0 ++ [⟨f, c⟩])
    have hlen : (e.sort (l0 ++ [⟨f, c⟩])).length = l0.length + 1 := by rw [hperm.length_eq]; simp
    have hget : (e.sort (l0 ++ [⟨f, c⟩]))[l0.length]? = some ((e.sort (l0 ++ [⟨f, c⟩]))[l0.length]'(by omega)) := by simp [hlen]
    rw [hget] at ho
    refine ⟨⟨fun _ => hfree, fun _ => by rw [ho]; rfl⟩, ?_⟩
    intro q nh hq
    rw [ho] at hq
    simp only [Option.map_some, Option.some.injEq, Prod.mk.injEq] at hq
    obtain ⟨rfl, rfl⟩ := hq
    have hmax : ∀ x ∈ e.sort (l0 ++ [⟨f, c⟩]), x.cost ≤ ((e.sort (l0 ++ [⟨f, c⟩]))[l0.length]'(by omega)).cost := by
      intro x hxm
      obtain ⟨j, hj, rfl⟩ := List.getElem_of_mem hxm
      by_cases hjl : j = l0.length
      · subst hjl; exact Nat.le_refl _
      · exact List.pairwise_iff_getElem.1 (e.sort_le _) j l0.length hj (by omega) (by omega)
    refine ⟨rfl, ⟨_, ?_, List.getElem_mem _, hmax⟩, ?_⟩
    · rw [fibAt, view_with, v, upd_same]
    · intro hall
      have hm : (e.sort (l0 ++ [⟨f, c⟩]))[l0.length]'(by omega) ∈ l0 ++ [⟨f, c⟩] := hperm.mem_iff.1 (List.getElem_mem _)
      rcases List.mem_append.1 hm with hm | hm
      · have h1 := hall _ hm
        have h2 := hmax ⟨f, c⟩ (hperm.mem_iff.2 (by simp))
        simp only at h2
        omega
      · simpa using hm

/-- C17 fails in the code: whenever some existing nexthop costs more than the one being added, the announcement names another
nexthop instead (fib-entry.cpp:48-63 returns an iterator taken before sorting). -/
theorem C17_wrong_nexthop (h : Reachable e d s) (p : Name) (l : List NextHop) (hl : fibAt e s p = some l) (f : FaceId) (c : Nat)
    (hnew : ∀ x ∈ l, x.face ≠ f) (hcost : ∃ x ∈ l, c < x.cost) :
    ∃ s' nh, fibSet e s p f c = some (s', some (p, nh)) ∧ nh.face ≠ f := by
  obtain ⟨s', o, l', h1, -⟩ := C16_add_or_update h p l hl f c
  obtain ⟨h2, h3⟩ := C17_announcement_partial h p l hl f c s' o h1
  obtain ⟨⟨q, nh⟩, ho⟩ := Option.isSome_iff_exists.1 (h2.2 hnew)
  obtain ⟨rfl, ⟨l'', h4, h5, h6⟩, -⟩ := h3 q nh ho
  subst ho
  refine ⟨s', nh, h1, ?_⟩
  obtain ⟨x, hx, hxc⟩ := hcost
  obtain ⟨s2, o2, l2, g1, g2, g3, -⟩ := C16_add_or_update h q l hl f c
  rw [h1] at g1
  cases g1
  have : l'' = l2 := Option.some.inj (h4.symm.trans g2)
  subst this
  have hc := h6 x ((g3 x).2 (.inr ⟨hx, hnew x hx⟩))
  rcases (g3 nh).1 h5 with rfl | ⟨-, hn⟩
  · simp only at hc; omega
  · exact hn

/-- Adding face 304 with cost 6 to an entry whose other nexthop costs 7 announces face 303. -/
example : (exRun exFibOps).any (fun s =>
    ((fibSet exEnv s [gc 1] 304 6).any (fun r => r.2 == some ([gc 1], ⟨303, 7⟩))) &&
    ((fibSet exEnv s [gc 1] 304 8).any (fun r => r.2 == some ([gc 1], ⟨304, 8⟩)))) = true := by decide +kernel

/-! ### C69: the FIB's size -/

/-- C69 (partial). The reported number of FIB entries is the number of prefixes with an entry, provided `erase(prefix)` is only
called for prefixes with an entry. Missing: histories with other calls, which `C69_size_wrong` refutes. -/
theorem C69_size_partial (s0 : Tables) (ops : List Op) (h0 : init e d = some s0) (hok : EraseOk e s0 ops) (h : run e s0 ops = some s) :
    Counted (fun p => (fibAt e s p).isSome) s.nFib := by
  have key : ∀ ops {s0 s : Tables}, Inv e s0 → FibCount e s0 → EraseOk e s0 ops → run e s0 ops = some s → FibCount e s := by
    intro ops
    induction ops with
    | nil => intro s0 s _ hc _ h; cases h; exact hc
    | cons op ops ih =>
      intro s0 s hi hc hok h
      rw [run, Option.bind_eq_some_iff] at h
      obtain ⟨s1, h1, h2⟩ := h
      exact ih (step_inv hi op h1) (fibCount_step hi hc op hok.1 h1) (hok.2 s1 h1) h2
  exact key ops (init_inv h0) (fibCount_init h0) hok h

/-- C69 fails in the code for `Fib::erase(prefix)` on a name-tree node without a FIB entry (fib.cpp:98-117): here one entry
exists and the reported size is 0. -/
theorem C69_size_wrong : ∃ s, exRun [.fibInsert [gc 1], .fibSet [gc 1] 300 10, .measGet [gc 2], .fibErase [gc 2]] = some s ∧
    s.nFib = 0 ∧ (fibAt exEnv s [gc 1]).isSome := by
  have h : (exRun [.fibInsert [gc 1], .fibSet [gc 1] 300 10, .measGet [gc 2], .fibErase [gc 2]]).any
      (fun s => s.nFib == 0 && (fibAt exEnv s [gc 1]).isSome) = true := by decide +kernel
  rw [Option.any_eq_true] at h
  obtain ⟨s, h1, h2⟩ := h
  exact ⟨s, h1, by simpa using h2⟩

example : (exRun (exFibOps ++ [.fibErase [gc 1]])).any (fun s => s.nFib == 1) = true := by decide +kernel

end Verif.Tb
