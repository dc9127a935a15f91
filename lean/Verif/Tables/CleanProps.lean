import Verif.Tables.Cleanup
import Verif.Tables.MeasProps
import Verif.Tables.PitProps

/-! Properties C24 (face removal), C70 (no useless nodes) and C71 (contracts suffice). -/
namespace Verif.Tb

open Nt (Tree Nte Cfg Options maxDepth tblOf TreeInv)

variable {e : Env} {d : Name} {s s' : Tables}

/-! ### C24 -/

/-- A FIB entry without the nexthops of a face; an entry all of whose nexthops go disappears. -/
def fibWithout (f : FaceId) (l : List NextHop) : Option (List NextHop) :=
  if l ≠ [] ∧ ∀ h ∈ l, h.face = f then none else some (l.filter (fun h => h.face != f))

/-- A PIT entry without the records of a face. -/
def PitEntry.without (p : PitEntry) (f : FaceId) : PitEntry :=
  { p with ins := p.ins.filter (fun r => r.face != f), outs := p.outs.filter (fun r => r.face != f) }

theorem cleanFib {l : List NextHop} (h : (l.map (·.face)).Nodup) (f : FaceId) (x : Tbl) (hx : x.fib = some l) : (cleanTbl f x).fib = fibWithout f l := by
  simp only [cleanTbl, hx, Option.bind_some]
  have he := eraseP_face (f := NextHop.face) h f
  rw [show (fun a : NextHop => a.face == f) = fun h => h.face == f from rfl] at he
  rw [he]
  unfold fibWithout
  by_cases hl : (l.filter (fun h => h.face != f)).length = l.length
  · rw [if_pos hl, if_neg]
    · rw [List.filter_eq_self.2 (List.length_filter_eq_length_iff.1 hl)]
    · rintro ⟨h1, h2⟩
      obtain ⟨a, l', rfl⟩ := List.exists_cons_of_ne_nil h1
      have := List.length_filter_eq_length_iff.1 hl a (by simp)
      simp [h2 a (by simp)] at this
  · rw [if_neg hl]
    by_cases hn : (l.filter (fun h => h.face != f)).isEmpty = true
    · rw [if_pos hn, if_pos]
      refine ⟨by rintro rfl; simp at hl, fun a ha => ?_⟩
      have := List.filter_eq_nil_iff.1 (List.isEmpty_iff.1 hn) a ha
      simpa using this
    · rw [if_neg hn, if_neg]
      rintro ⟨h1, h2⟩
      apply hn
      rw [List.isEmpty_iff, List.filter_eq_nil_iff]
      intro a ha
      simp [h2 a ha]

theorem cleanPit {p : PitEntry} (h : RecsOk p) (f : FaceId) : deleteInOut p f = p.without f := by
  simp only [deleteInOut, deleteIn, deleteOut, PitEntry.without]
  rw [← eraseP_face (f := InRec.face) h.1 f, ← eraseP_face (f := OutRec.face) h.2 f]

/-- **C24.** Cleaning up after a removed face always goes through (its assertion never fires). Afterwards no nexthop and no record refers to
the face; FIB entries with no nexthop left are gone; all other nexthops, records, PIT entries, measurements and strategy choices are
as before; and the name tree has no useless node. -/
theorem C24_cleanup (h : Reachable e d s) (f : FaceId) :
    ∃ s', (Op.cleanup f).run e s = some s' ∧
      (∀ p l, fibAt e s' p = some l → ∀ h ∈ l, h.face ≠ f) ∧
      (∀ q, Live e s' q → (∀ r ∈ q.ins, r.face ≠ f) ∧ ∀ r ∈ q.outs, r.face ≠ f) ∧
      (∀ p, fibAt e s' p = (fibAt e s p).bind (fibWithout f)) ∧
      (∀ q', Live e s' q' ↔ ∃ q, Live e s q ∧ q' = q.without f) ∧
      (∀ n, measAt e s' n = measAt e s n) ∧ (∀ n, scAt e s' n = scAt e s n) ∧
      s'.nPit = s.nPit ∧ NoUselessNode e s' := by
  have hi := h.inv
  obtain ⟨s', hs⟩ := cleanup_ok (e := e) (s := s) hi.tree f
  refine ⟨s', hs, ?_⟩
  obtain ⟨t, i1, v1, rfl, hne⟩ := cleanup_fwd hi.tree hs
  have hv : ∀ m, view e { s with nt := t, nFib := s.nFib -
        ((allNodes e s.nt).filter (fun n => (view e s n).fib.isSome && (cleanTbl f (view e s n)).fib.isNone)).length } m = cleanTbl f (view e s m) := v1
  have hfib : ∀ p, (cleanTbl f (view e s p)).fib = ((view e s p).fib).bind (fibWithout f) := by
    intro p
    cases hf : (view e s p).fib with
    | none => simp [cleanTbl, hf]
    | some l => rw [cleanFib ((hi.node p).fib l hf).2 f _ hf]; rfl
  have hlive : ∀ q', (∃ n, q' ∈ (cleanTbl f (view e s n)).pit) ↔ ∃ q, Live e s q ∧ q' = q.without f := by
    intro q'
    constructor
    · rintro ⟨n, hn⟩
      obtain ⟨q, hq, rfl⟩ := List.mem_map.1 hn
      exact ⟨q, ⟨n, hq⟩, cleanPit ((hi.node n).recs q hq) f⟩
    · rintro ⟨q, ⟨n, hq⟩, rfl⟩
      exact ⟨n, List.mem_map.2 ⟨q, hq, cleanPit ((hi.node n).recs q hq) f⟩⟩
  simp only [fibAt, Live, measAt, scAt, hv]
  refine ⟨?_, ?_, hfib, hlive, fun _ => rfl, fun _ => rfl, trivial, ?_⟩
  · intro p l hl a ha
    rw [hfib] at hl
    cases hf : (view e s p).fib with
    | none => rw [hf] at hl; simp at hl
    | some l0 =>
      rw [hf] at hl
      simp only [Option.bind_some, fibWithout] at hl
      split at hl
      · simp at hl
      · cases hl
        have := (List.mem_filter.1 ha).2
        simpa using this
  · intro q hq
    obtain ⟨q0, -, rfl⟩ := (hlive q).1 hq
    refine ⟨fun r hr => ?_, fun r hr => ?_⟩
    · have := (List.mem_filter.1 hr).2; simpa using this
    · have := (List.mem_filter.1 hr).2; simpa using this
  · exact nu_of_not_empty i1 hne

/-- Face 300 is used by two FIB entries, one of them only by it, and by records of two PIT entries. -/
def exCleanOps : List Op :=
  [.fibInsert [gc 1, gc 2], .fibSet [gc 1, gc 2] 300 5, .fibInsert [gc 3], .fibSet [gc 3] 300 1, .fibSet [gc 3] 301 2,
   .pitInsert (exI [gc 4] true false), .pitIn ⟨[gc 4], true, false⟩ 300 1 9, .pitIn ⟨[gc 4], true, false⟩ 301 2 9, .pitOut ⟨[gc 4], true, false⟩ 302 3 9,
   .pitInsert (exI [gc 1] true false), .pitOut ⟨[gc 1], true, false⟩ 300 3 9]

example : (exRun exCleanOps).any (fun s => ((Op.cleanup 300).run exEnv s).any (fun s' =>
    fibAt exEnv s' [gc 1, gc 2] == none && (Nt.tblOf exEnv.cfg s'.nt [gc 1, gc 2]).isNone && (Nt.tblOf exEnv.cfg s'.nt [gc 1]).isSome &&
    fibAt exEnv s' [gc 3] == some [⟨301, 2⟩] && s'.nFib == 1 && s'.nPit == 2 &&
    (view exEnv s' [gc 4]).pit.map (fun p => (p.ins.map (·.face), p.outs.map (·.face))) == [([301], [302])])) = true := by decide +kernel

/-! ### C70 -/

/-- **C70, with what is missing.** When no FIB entry is removed by removing its last nexthop (`Fib::removeNextHop` forgets the name-tree node,
`C70_useless_node` below), the name tree has no useless node, and `Pit::find` always answers. -/
theorem C70_no_useless_node_partial {s0 : Tables} {ops : List Op} (h0 : init e d = some s0) (hk : KeepsNextHop e s0 ops)
    (h1 : run e s0 ops = some s) : NoUselessNode e s ∧ ∀ i, ∃ r, pitFind e s i = some r := by
  have hu := nu_run ops (init_inv h0) (nu_init h0) hk h1
  refine ⟨hu, fun i => ?_⟩
  have hi := run_inv ops (init_inv h0) h1
  unfold pitFind
  cases hf : Nt.findExact e.cfg s.nt i.name (pitDepth i.name) with
  | none => exact ⟨_, rfl⟩
  | some r =>
    obtain ⟨n, x⟩ := r
    simp only
    cases findIn x.tbl.pit i with
    | some p => exact ⟨_, rfl⟩
    | none =>
      simp only
      have hx : s.nt.find e.cfg.ch (i.name.take (min i.name.length (pitDepth i.name))) = some x := by
        unfold Nt.findExact at hf
        simp only at hf
        split at hf
        · simp at hf
        · rw [Option.map_eq_some_iff] at hf
          obtain ⟨y, hy, h2⟩ := hf
          cases h2
          exact hy
      rw [not_empty_of_nu hi.tree hu hx]
      exact ⟨none, rfl⟩

/-- **C70 fails in general**: after the last nexthop of a FIB entry is removed, the node stays, and an Interest of that name makes
`Pit::find` fail its assertion. -/
theorem C70_useless_node : ∃ (e : Env) (d : Name) (s : Tables), Reachable e d s ∧ ¬ NoUselessNode e s ∧ ∃ i, pitFind e s i = none := by
  have h : (exRun [.fibInsert [gc 1], .fibSet [gc 1] 300 10, .fibUnset [gc 1] 300]).any (fun s =>
      decide (pitFind exEnv s ⟨[gc 1], false, false⟩ = none)) = true := by decide +kernel
  rw [Option.any_eq_true] at h
  obtain ⟨s, hs, hb⟩ := h
  have hp : pitFind exEnv s ⟨[gc 1], false, false⟩ = none := by simpa using hb
  have hr := exRun_reachable hs
  refine ⟨exEnv, st1, s, hr, ?_, ⟨_, hp⟩⟩
  intro hu
  unfold pitFind at hp
  split at hp
  · simp at hp
  · rename_i n x hf
    have hx : ∃ n, s.nt.find exEnv.cfg.ch n = some x := by
      unfold Nt.findExact at hf
      simp only at hf
      split at hf
      · simp at hf
      · rw [Option.map_eq_some_iff] at hf
        obtain ⟨y, hy, h2⟩ := hf
        cases h2
        exact ⟨_, hy⟩
    obtain ⟨n, hx⟩ := hx
    rw [not_empty_of_nu hr.inv.tree hu hx] at hp
    split at hp <;> simp at hp

theorem exKeeps : ∃ s0 s, init exEnv st1 = some s0 ∧ KeepsNextHop exEnv s0 [.fibInsert [gc 1], .fibSet [gc 1] 7 1, .fibSet [gc 1] 8 1, .fibUnset [gc 1] 7, .cleanup 8] ∧
    run exEnv s0 [.fibInsert [gc 1], .fibSet [gc 1] 7 1, .fibSet [gc 1] 8 1, .fibUnset [gc 1] 7, .cleanup 8] = some s := by
  have h : (init exEnv st1).any (fun s0 => (run exEnv s0 [.fibInsert [gc 1], .fibSet [gc 1] 7 1, .fibSet [gc 1] 8 1]).any (fun s3 =>
      (fibUnset exEnv s3 [gc 1] 7).any (fun r => decide (r.2 ≠ .entryRemoved)) &&
      (run exEnv s3 [.fibUnset [gc 1] 7, .cleanup 8]).isSome)) = true := by decide +kernel
  rw [Option.any_eq_true] at h
  obtain ⟨s0, hs0, h⟩ := h
  rw [Option.any_eq_true] at h
  obtain ⟨s3, hs3, h⟩ := h
  simp only [Bool.and_eq_true] at h
  obtain ⟨s, hs⟩ := Option.isSome_iff_exists.1 h.2
  obtain ⟨⟨s4, r⟩, hr, hb⟩ := Option.any_eq_true .. |>.1 h.1
  refine ⟨s0, s, hs0, ?_, ?_⟩
  · simp only [run, Option.bind_eq_some_iff, Option.some.injEq] at hs3
    obtain ⟨a, ha, b, hb', c, hc, rfl⟩ := hs3
    refine ⟨by simp, fun a' ha' => ⟨by simp, fun b' hb'' => ⟨by simp, fun c' hc' => ⟨?_, fun _ _ => ⟨by simp, fun _ _ => trivial⟩⟩⟩⟩⟩
    rw [ha] at ha'; cases ha'
    rw [hb'] at hb''; cases hb''
    rw [hc] at hc'; cases hc'
    intro p f s' heq
    cases heq
    rw [hr]
    intro hh
    cases hh
    simp at hb
  · simp only [run, Option.bind_eq_some_iff, Option.some.injEq] at hs3 hs ⊢
    obtain ⟨a, ha, b, hb', c, hc, rfl⟩ := hs3
    obtain ⟨x, hx, y, hy, rfl⟩ := hs
    exact ⟨a, ha, b, hb', c, hc, x, hx, y, hy, rfl⟩

/-! ### C71 -/

theorem stored_view {n : Name} (h : view e s n ≠ {}) : (tblOf e.cfg s.nt n).isSome := stored_of_vw h

theorem pitMod_ok (hi : Inv e s) {i : Interest} (h : ∃ p, Live e s p ∧ p.interest.toInterest = i) (f : PitEntry → PitEntry) :
    ∃ s', pitMod e s i f = some s' := by
  obtain ⟨p, ⟨n, hp⟩, rfl⟩ := h
  have hpl := (hi.node n).place p hp
  subst hpl
  unfold pitMod
  have : ∃ q, (view e s (pitNode p.interest.name)).pit.find? (sameKey p.interest.toInterest) = some q := by
    cases hf : (view e s (pitNode p.interest.name)).pit.find? (sameKey p.interest.toInterest) with
    | some q => exact ⟨q, rfl⟩
    | none =>
      have := List.find?_eq_none.1 hf p hp
      simp [sameKey] at this
  obtain ⟨q, hq⟩ := this
  obtain ⟨t, ht⟩ := setTbl_ok hi.tree (n := pitNode p.interest.name)
    (fun x => { x with pit := x.pit.map (fun p' => if sameKey p.interest.toInterest p' then f p' else p') })
    (stored_view (by intro hh; rw [hh] at hp; simp at hp))
  simp only [hq, ht, Option.bind_eq_bind, Option.bind_some]
  exact ⟨_, rfl⟩

theorem measGetNte_ok (hi : TreeInv e.cfg s.nt) {n : Name} (h : (tblOf e.cfg s.nt n).isSome) : ∃ s', measGetNte e s n = some s' := by
  unfold measGetNte
  split
  · exact ⟨_, rfl⟩
  · obtain ⟨t, ht⟩ := setTbl_ok hi (n := n) (fun x => { x with meas := some ⟨s.now + initialLifetime, s.now + initialLifetime, []⟩ }) h
    simp only [ht, Option.bind_eq_bind, Option.bind_some]
    exact ⟨_, rfl⟩

/-- Configured instances come from the registry. -/
def ScFrom (e : Env) (s : Tables) : Prop := ∀ n inst, (view e s n).sc = some inst → ∃ st, e.create st = .ok inst

theorem scFrom_step (hi : Inv e s) (hf : ScFrom e s) (op : Op) (h : op.run e s = some s') : ScFrom e s' := by
  intro n inst hn
  cases hs : op.scOp with
  | false => exact hf n inst (by rw [← other_sc hi.tree op hs h]; exact hn)
  | true =>
    cases op with
    | scInsert p st =>
      simp only [Op.run, Option.map_eq_some_iff] at h
      obtain ⟨⟨s1, r⟩, h1, rfl⟩ := h
      have := scInsert_sc hi h1 n
      rw [hn] at this
      cases r with
      | ok =>
        simp only at this
        split at this
        · split at this
          · rename_i i hc; cases this; exact ⟨st, hc⟩
          · simp at this
        · exact hf n inst this.symm
      | _ => exact hf n inst this.symm
    | scErase p =>
      have := scErase_sc hi h n
      rw [hn] at this
      split at this
      · simp at this
      · exact hf n inst this.symm
    | _ => simp [Op.scOp] at hs

theorem scFrom_init (h : init e d = some s) : ScFrom e s := by
  intro n inst hn
  unfold init scDefault at h
  split at h
  · rename_i i hc
    simp only [Option.bind_eq_bind, Option.bind_eq_some_iff, Option.some.injEq] at h
    obtain ⟨t1, h1, t2, h2, rfl⟩ := h
    obtain ⟨i1, v1, -⟩ := fwd_lookup (Nt.init_treeInv e.cfg) h1
    obtain ⟨i2, v2, -⟩ := fwd_setTbl i1 h2
    have hz : ∀ m, vw e (Nt.Hashtable.init e.opts) m = {} := by
      intro m; unfold vw tblOf; rw [Nt.init_find]; rfl
    rw [view_with, v2] at hn
    by_cases hnn : n = []
    · subst hnn
      rw [upd_same] at hn
      cases hn
      exact ⟨d, hc⟩
    · rw [upd_ne _ _ hnn, v1, hz] at hn
      simp at hn
  · simp at h

theorem scFrom_run (ops : List Op) : ∀ {s : Tables}, Inv e s → ScFrom e s → run e s ops = some s' → ScFrom e s' := by
  induction ops with
  | nil => intro s _ hf h; cases h; exact hf
  | cons op ops ih =>
    intro s hi hf h
    rw [run, Option.bind_eq_some_iff] at h
    obtain ⟨s1, h1, h2⟩ := h
    exact ih (step_inv hi op h1) (scFrom_step hi hf op h1) h2

theorem typ_ok (hi : Inv e s) (hf : ScFrom e s) (hr : RegistryOk e) {x : Name} {inst : Name} (h : scEffective e s x = some inst) :
    ∃ ty, e.styp inst = some ty := by
  obtain ⟨m, i, h1, h2, -⟩ := scEffective_spec hi.tree hi.root x
  rw [h] at h1; cases h1
  obtain ⟨st, hst⟩ := hf m inst h2
  exact Option.isSome_iff_exists.1 (hr st inst hst)

/-- **C71.** In every reachable state, every operation whose caller respects its contract goes through: no assertion of the name
tree or of the tables fails and no dangling pointer is followed. -/
theorem C71_contracts_suffice (hr : RegistryOk e) (h : Reachable e d s) (op : Op) (hc : Contract e s op) : ∃ s', op.run e s = some s' := by
  have hi := h.inv
  have hit := hi.tree
  have hf : ScFrom e s := by
    obtain ⟨s0, ops, h1, h2⟩ := h
    exact scFrom_run ops (init_inv h1) (scFrom_init h1) h2
  have hmod : ∀ {i} (f : PitEntry → PitEntry), (∃ p, Live e s p ∧ p.interest.toInterest = i) → ∃ s', pitMod e s i f = some s' :=
    fun f hl => pitMod_ok hi hl f
  cases op with
  | fibInsert p =>
    obtain ⟨t, ht⟩ := lookup_ok (e := e) hit (Nat.le_refl p.length) hc
    obtain ⟨i1, -, -, -, st, -⟩ := fwd_lookup hit ht
    rw [List.take_length] at st
    simp only [Op.run, fibInsert, ht, Option.bind_eq_bind, Option.bind_some]
    split
    · exact ⟨_, rfl⟩
    · obtain ⟨t2, h2⟩ := setTbl_ok i1 (n := p) (fun x => { x with fib := some [] }) st
      simp only [h2, Option.bind_some, Option.map_some]
      exact ⟨_, rfl⟩
  | fibErase p =>
    simp only [Op.run, fibErase]
    split
    · exact ⟨_, rfl⟩
    · rename_i hn
      have hst := findExact_isSome (eq_false_of_ne_true hn)
      obtain ⟨t, ht⟩ := setTbl_ok hit (n := p) (fun x => { x with fib := none }) hst
      obtain ⟨i1, -, -, d1⟩ := fwd_setTbl hit ht
      obtain ⟨r, h2⟩ := eraseIfEmpty_ok i1 true (n := p) (by rw [d1]; exact hst)
      simp only [ht, h2, Option.bind_eq_bind, Option.bind_some]
      exact ⟨_, rfl⟩
  | fibSet p f c =>
    obtain ⟨l, hl⟩ := Option.isSome_iff_exists.1 hc
    have hl' : (view e s p).fib = some l := hl
    obtain ⟨t, ht⟩ := setTbl_ok hit (n := p) (fun x => { x with fib := some (addOrUpdateNextHop e l f c).1 })
      (stored_view (by intro hh; rw [hh] at hl'; simp at hl'))
    simp only [Op.run, fibSet, hl', ht, Option.bind_eq_bind, Option.bind_some, Option.map_some]
    exact ⟨_, rfl⟩
  | fibUnset p f =>
    obtain ⟨l, hl⟩ := Option.isSome_iff_exists.1 hc
    have hl' : (view e s p).fib = some l := hl
    have hst : (tblOf e.cfg s.nt p).isSome := stored_view (by intro hh; rw [hh] at hl'; simp at hl')
    simp only [Op.run, fibUnset, hl', Option.bind_eq_bind, Option.bind_some]
    split
    · exact ⟨_, rfl⟩
    · split
      · obtain ⟨t, ht⟩ := setTbl_ok hit (n := p) (fun x => { x with fib := none }) hst
        simp only [ht, Option.bind_some, Option.map_some]
        exact ⟨_, rfl⟩
      · obtain ⟨t, ht⟩ := setTbl_ok hit (n := p) (fun x => { x with fib := some (l.eraseP (·.face == f)) }) hst
        simp only [ht, Option.bind_some, Option.map_some]
        exact ⟨_, rfl⟩
  | pitInsert i =>
    obtain ⟨t, ht⟩ := lookup_ok (e := e) hit (n := i.name) (k := pitDepth i.name) (pitDepth_le _) (pitDepth_max _)
    obtain ⟨i1, -, -, -, st, -⟩ := fwd_lookup hit ht
    simp only [Op.run, pitInsert, ht, Option.bind_eq_bind, Option.bind_some]
    split
    · exact ⟨_, rfl⟩
    · obtain ⟨t2, h2⟩ := setTbl_ok i1 (n := pitNode i.name) (fun x => { x with pit := x.pit ++ [{ interest := i }] }) st
      simp only [h2, Option.bind_some, Option.map_some]
      exact ⟨_, rfl⟩
  | pitErase i =>
    obtain ⟨p, ⟨n, hp⟩, rfl⟩ := hc
    have hpl := (hi.node n).place p hp
    subst hpl
    have : ∃ j, (view e s (pitNode p.interest.name)).pit.findIdx? (sameKey p.interest.toInterest) = some j := by
      cases hf : (view e s (pitNode p.interest.name)).pit.findIdx? (sameKey p.interest.toInterest) with
      | some q => exact ⟨q, rfl⟩
      | none =>
        have := List.findIdx?_eq_none_iff.1 hf p hp
        simp [sameKey] at this
    obtain ⟨j, hj⟩ := this
    have hst : (tblOf e.cfg s.nt (pitNode p.interest.name)).isSome := stored_view (by intro hh; rw [hh] at hp; simp at hp)
    obtain ⟨t, ht⟩ := setTbl_ok hit (n := pitNode p.interest.name) (fun x => { x with pit := swapErase x.pit j }) hst
    obtain ⟨i1, -, -, d1⟩ := fwd_setTbl hit ht
    obtain ⟨r, h2⟩ := eraseIfEmpty_ok i1 true (n := pitNode p.interest.name) (by rw [d1]; exact hst)
    simp only [Op.run, pitErase, hj, ht, h2, Option.bind_eq_bind, Option.bind_some]
    exact ⟨_, rfl⟩
  | pitIn | pitOut | pitDelIn | pitClearIn | pitDelOut | pitNack => exact hmod _ hc
  | pitWrite i =>
    obtain ⟨inst, h1⟩ := scEffective_isSome hit hi.root i.name
    obtain ⟨ty, h2⟩ := typ_ok hi hf hr h1
    have h3 : scEffectivePit e s i.name = some inst := by
      obtain ⟨p, ⟨n, hp⟩, rfl⟩ := hc
      rw [scEffectivePit_eq hit]
      · exact h1
      · rw [(hi.node n).place p hp]; intro hh; rw [hh] at hp; simp at hp
    simp only [Op.run, pitWrite, h3, h2, Option.bind_eq_bind, Option.bind_some]
    exact hmod _ hc
  | scInsert p st =>
    obtain ⟨s', r, h⟩ := scInsert_ok hi p st
    exact ⟨s', by simp [Op.run, h]⟩
  | scErase p => exact scErase_ok hi hc
  | measGet n =>
    obtain ⟨t, ht⟩ := lookup_ok (e := e) hit (n := n) (k := min n.length maxDepth) (Nat.min_le_left _ _) (Nat.min_le_right _ _)
    obtain ⟨i1, -, -, -, st, -⟩ := fwd_lookup hit ht
    simp only [Op.run, measGet, ht, Option.bind_eq_bind, Option.bind_some]
    exact measGetNte_ok (s := { s with nt := t }) i1 st
  | measGetFib p =>
    simp only [Op.run, measGetFib]
    split
    · rename_i hfib
      exact measGetNte_ok hit (stored_view (by intro hh; rw [hh] at hfib; simp at hfib))
    · rename_i hfib
      rcases hc with hc | rfl
      · exact absurd hc hfib
      · rw [if_pos rfl]
        obtain ⟨t, ht⟩ := lookup_ok (e := e) hit (n := []) (k := 0) (by simp) (by simp)
        obtain ⟨i1, -, -, -, st, -⟩ := fwd_lookup hit ht
        simp only [ht, Option.bind_eq_bind, Option.bind_some]
        exact measGetNte_ok (s := { s with nt := t }) i1 st
  | measGetPit i =>
    obtain ⟨p, ⟨n, hp⟩, rfl⟩ := hc
    have hpl := (hi.node n).place p hp
    subst hpl
    have : ∃ q, (view e s (pitNode p.interest.name)).pit.find? (sameKey p.interest.toInterest) = some q := by
      cases hf : (view e s (pitNode p.interest.name)).pit.find? (sameKey p.interest.toInterest) with
      | some q => exact ⟨q, rfl⟩
      | none =>
        have := List.find?_eq_none.1 hf p hp
        simp [sameKey] at this
    obtain ⟨q, hq⟩ := this
    simp only [Op.run, measGetPit, hq, Option.bind_eq_bind, Option.bind_some]
    split
    · rename_i hcd
      obtain ⟨t, ht⟩ := lookup_ok (e := e) hit (Nat.le_refl p.interest.name.length) hcd.2
      obtain ⟨i1, -, -, -, st, -⟩ := fwd_lookup hit ht
      rw [List.take_length] at st
      simp only [ht, Option.bind_some]
      exact measGetNte_ok (s := { s with nt := t }) i1 st
    · exact measGetNte_ok hit (stored_view (by intro hh; rw [hh] at hp; simp at hp))
  | measGetParent n =>
    obtain ⟨m, hm⟩ := Option.isSome_iff_exists.1 hc
    have hm' : (view e s n).meas = some m := hm
    simp only [Op.run, measGetParent, hm', Option.bind_eq_bind, Option.bind_some]
    split
    · exact ⟨_, rfl⟩
    · rename_i hn
      have hst : (tblOf e.cfg s.nt n).isSome := stored_view (by intro hh; rw [hh] at hm'; simp at hm')
      rw [Nt.tblOf_isSome] at hst
      obtain ⟨x, hx⟩ := Option.isSome_iff_exists.1 hst
      obtain ⟨hpar, px, hpx, -⟩ := hit.par n x hx hn
      simp only [show s.nt.find e.ch n = some x from hx, hpar, Option.bind_some]
      exact measGetNte_ok hit (by rw [Nt.tblOf_isSome, hpx]; rfl)
  | measExtend n lt =>
    obtain ⟨m, hm⟩ := Option.isSome_iff_exists.1 hc
    obtain ⟨s', hs, -⟩ := C23_extend h n lt m hm
    exact ⟨s', hs⟩
  | measCleanup n =>
    obtain ⟨m, hm⟩ := Option.isSome_iff_exists.1 hc
    obtain ⟨s', hs, -⟩ := C23_cleanup h n m hm
    exact ⟨s', hs⟩
  | measWrite n =>
    obtain ⟨m, hm⟩ := Option.isSome_iff_exists.1 hc
    have hm' : (view e s n).meas = some m := hm
    obtain ⟨inst, h1⟩ := scEffective_isSome hit hi.root n
    obtain ⟨ty, h2⟩ := typ_ok hi hf hr h1
    have h3 : scEffectiveMeas e s n = some inst := by rw [scEffectiveMeas_eq hit (by rw [hm']; rfl)]; exact h1
    obtain ⟨t, ht⟩ := setTbl_ok hit (n := n) (fun x => { x with meas := some { m with info := addInfo ty m.info } })
      (stored_view (by intro hh; rw [hh] at hm'; simp at hm'))
    simp only [Op.run, measWrite, hm', h3, h2, ht, Option.bind_eq_bind, Option.bind_some]
    exact ⟨_, rfl⟩
  | cleanup f => exact cleanup_ok hit f
  | tick dt => exact ⟨_, rfl⟩

/-- The example registry is consistent. -/
theorem exRegistry : RegistryOk exEnv := by
  intro st inst h
  simp only [exEnv, exCreate] at h
  split at h
  · split at h
    · rename_i hc
      cases h
      rcases hc.2 with h2 | h2 <;> simp only [exEnv, exTyp, hc.1, h2] <;> decide
    · split at h <;> simp at h
  · split at h
    · rename_i hc
      cases h
      rcases hc.2 with h2 | h2 <;> simp only [exEnv, exTyp, hc.1, h2] <;> decide
    · simp at h
  · simp at h

end Verif.Tb
