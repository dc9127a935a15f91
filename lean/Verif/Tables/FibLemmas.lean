import Verif.Tables.Lpm

/-! The FIB against its reference; counting entries. -/
namespace Verif.Tb

open Nt (Tree Nte Cfg Options maxDepth tblOf TreeInv)
open List (Perm)

variable {e : Env} {s s' : Tables}

/-- Operations that leave all FIB entries alone. -/
def Op.fibOp : Op → Bool
  | .fibInsert _ | .fibErase _ | .fibSet _ _ _ | .fibUnset _ _ | .cleanup _ => true
  | _ => false

theorem upd_fib {v : Name → Tbl} {n : Name} {f : Tbl → Tbl} (h : (f (v n)).fib = (v n).fib) (m : Name) : (upd v n f m).fib = (v m).fib := by
  by_cases hm : m = n
  · subst hm; rw [upd_same, h]
  · rw [upd_ne _ _ hm]

theorem ScChanged.fib {v v' : Name → Tbl} {p old new : Name} {sc : Option Name} (h : ScChanged e v v' p old new sc) (m : Name) : (v' m).fib = (v m).fib := by
  have hu := upd_fib (v := v) (n := p) (f := fun x => { x with sc := sc }) rfl m
  rcases h.cases m with h1 | h1
  · rw [h1, hu]
  · rw [h1]; exact hu

theorem measGot_fib {n : Name} (h : MeasGot e s s' n) : (∀ m, (view e s' m).fib = (view e s m).fib) ∧ s'.nFib = s.nFib := by
  obtain ⟨t, k, rfl, h1, ⟨-, rfl, hv⟩ | ⟨-, rfl, hv⟩⟩ := h
  · exact ⟨fun m => by rw [view_with, hv], rfl⟩
  · refine ⟨fun m => ?_, rfl⟩
    rw [view_with, hv]; exact upd_fib rfl m

theorem pitMod_fib (hi : TreeInv e.cfg s.nt) {i : Interest} {f : PitEntry → PitEntry} (h : pitMod e s i f = some s') :
    (∀ m, (view e s' m).fib = (view e s m).fib) ∧ s'.nFib = s.nFib := by
  obtain ⟨p, t, h1, rfl, h2, h3⟩ := pitMod_fwd hi h
  refine ⟨fun m => ?_, rfl⟩
  rw [view_with, h3]; exact upd_fib rfl m

theorem other_fib (hi : TreeInv e.cfg s.nt) (op : Op) (hop : op.fibOp = false) (h : op.run e s = some s') :
    (∀ m, (view e s' m).fib = (view e s m).fib) ∧ s'.nFib = s.nFib := by
  cases op with
  | fibInsert | fibErase | fibSet | fibUnset | cleanup => simp [Op.fibOp] at hop
  | pitInsert i =>
    simp only [Op.run, Option.map_eq_some_iff] at h
    obtain ⟨⟨s1, p, b⟩, h1, rfl⟩ := h
    rcases pitInsert_fwd hi h1 with ⟨t, -, -, rfl, h2, h3⟩ | ⟨t, -, -, -, rfl, h2, h3⟩
    · exact ⟨fun m => by rw [view_with, h3], rfl⟩
    · exact ⟨fun m => by rw [view_with, h3]; exact upd_fib rfl m, rfl⟩
  | pitErase i =>
    obtain ⟨j, t, hj, rfl, h2, h3⟩ := pitErase_fwd hi h
    exact ⟨fun m => by rw [view_with, h3]; exact upd_fib rfl m, rfl⟩
  | pitIn | pitOut | pitDelIn | pitClearIn | pitDelOut | pitNack => exact pitMod_fib hi h
  | pitWrite i =>
    simp only [Op.run, pitWrite, Option.bind_eq_bind, Option.bind_eq_some_iff] at h
    obtain ⟨inst, -, ty, -, h⟩ := h
    exact pitMod_fib hi h
  | scInsert p st =>
    simp only [Op.run, Option.map_eq_some_iff] at h
    obtain ⟨⟨s1, r⟩, h1, rfl⟩ := h
    rcases scInsert_fwd hi h1 with ⟨-, -, rfl⟩ | ⟨-, -, -, rfl⟩ | ⟨-, -, -, rfl⟩ | ⟨inst, -, -, -, h2⟩
    · exact ⟨fun _ => rfl, rfl⟩
    · exact ⟨fun _ => rfl, rfl⟩
    · exact ⟨fun _ => rfl, rfl⟩
    · rcases h2 with ⟨t, -, rfl, h3, h4⟩ | ⟨cur, t, hcur, -, rfl, h3, h4⟩ | ⟨t, -, old, hnone, -, -, -, rfl, h3, h4⟩
      · exact ⟨fun m => by rw [view_with, h4], rfl⟩
      · exact ⟨fun m => by rw [view_with, h4.fib], rfl⟩
      · exact ⟨fun m => by rw [view_with, h4.fib], rfl⟩
  | scErase p =>
    obtain ⟨hp, ⟨rfl, -⟩ | ⟨old, parent, t, hold, -, rfl, h3, h4⟩⟩ := scErase_fwd hi h
    · exact ⟨fun _ => rfl, rfl⟩
    · exact ⟨fun m => by rw [view_with, h4.fib], rfl⟩
  | measGet n => exact measGot_fib (measGet_fwd hi h)
  | measGetFib p => exact measGot_fib (measGetFib_fwd hi h)
  | measGetPit i => exact measGot_fib (measGetPit_fwd hi h).2
  | measGetParent n =>
    rcases measGetParent_fwd hi h with ⟨-, rfl⟩ | ⟨-, hg⟩
    · exact ⟨fun _ => rfl, rfl⟩
    · exact measGot_fib hg
  | measExtend n lt =>
    obtain ⟨m, hm, ⟨-, rfl⟩ | ⟨-, t, rfl, h2, h3⟩⟩ := measExtend_fwd hi h
    · exact ⟨fun _ => rfl, rfl⟩
    · exact ⟨fun m => by rw [view_with, h3]; exact upd_fib rfl m, rfl⟩
  | measCleanup n =>
    obtain ⟨m, hm, ⟨-, rfl⟩ | ⟨-, t, rfl, h2, h3⟩⟩ := measCleanup_fwd hi h
    · exact ⟨fun _ => rfl, rfl⟩
    · exact ⟨fun m => by rw [view_with, h3]; exact upd_fib rfl m, rfl⟩
  | measWrite n =>
    obtain ⟨m, inst, ty, t, hm, -, -, rfl, h2, h3⟩ := measWrite_fwd hi h
    exact ⟨fun m => by rw [view_with, h3]; exact upd_fib rfl m, rfl⟩
  | tick dt =>
    simp only [Op.run, Option.some.injEq] at h
    subst h
    exact ⟨fun _ => rfl, rfl⟩

theorem map_filter_ne (l : List NextHop) (f : FaceId) :
    (l.filter (·.face != f)).map (fun h => (h.face, h.cost)) = (l.map (fun h => (h.face, h.cost))).filter (·.1 != f) := by
  rw [List.filter_map]; rfl

/-- Removing a nexthop, on the reference side. -/
theorem same_unset {l : List NextHop} {r : List (FaceId × Nat)} {f : FaceId} (hnd : (l.map (·.face)).Nodup) (h : SameFib (some l) (some r)) :
    SameFib (if (l.eraseP (·.face == f)).length = l.length then some l
      else if (l.eraseP (·.face == f)).isEmpty then none else some (l.eraseP (·.face == f))) (refUnset f (some r)) := by
  have hp : (l.map (fun h => (h.face, h.cost))).Perm r := h
  have hf : l.eraseP (·.face == f) = l.filter (·.face != f) := eraseP_face (f := NextHop.face) hnd f
  have hp2 : ((l.filter (·.face != f)).map (fun h => (h.face, h.cost))).Perm (r.filter (·.1 != f)) := by
    rw [map_filter_ne]; exact hp.filter _
  have hany : r.any (·.1 == f) = l.any (·.face == f) := by
    rw [Bool.eq_iff_iff, List.any_eq_true, List.any_eq_true]
    constructor
    · rintro ⟨x, hx, hxf⟩
      obtain ⟨y, hy, rfl⟩ := List.mem_map.1 (hp.mem_iff.2 hx)
      exact ⟨y, hy, hxf⟩
    · rintro ⟨y, hy, hyf⟩
      exact ⟨_, hp.mem_iff.1 (List.mem_map.2 ⟨y, hy, rfl⟩), hyf⟩
  have hlen : (l.filter (·.face != f)).length = l.length ↔ l.any (·.face == f) = false := by
    rw [List.length_filter_eq_length_iff, List.any_eq_false]
    simp
  simp only [refUnset, Option.bind_some]
  rw [hf, hany]
  cases ha : l.any (·.face == f) with
  | false =>
    rw [if_pos (hlen.2 ha)]
    simp only [Bool.false_and, Bool.false_eq_true, if_false]
    have : l.filter (·.face != f) = l := by
      rw [List.filter_eq_self]
      intro a hm
      have := List.any_eq_false.1 ha a hm
      simpa using this
    rw [this] at hp2
    exact hp2
  | true =>
    rw [if_neg (by rw [hlen, ha]; simp)]
    have he : (r.filter (·.1 != f)).isEmpty = (l.filter (·.face != f)).isEmpty := by
      rw [Bool.eq_iff_iff, List.isEmpty_iff_length_eq_zero, List.isEmpty_iff_length_eq_zero, ← hp2.length_eq, List.length_map]
    rw [he, Bool.true_and]
    cases hc : (l.filter (·.face != f)).isEmpty with
    | true => simp [SameFib]
    | false => simpa [SameFib] using hp2

theorem same_none {o : Option (List (FaceId × Nat))} : SameFib none o ↔ o = none := by cases o <;> simp [SameFib]
theorem same_some {l : List NextHop} {o : Option (List (FaceId × Nat))} :
    SameFib (some l) o ↔ ∃ r, o = some r ∧ (l.map (fun h => (h.face, h.cost))).Perm r := by cases o <;> simp [SameFib]

theorem same_step (hi : Inv e s) {r : RefFib} (hr : ∀ m, SameFib (view e s m).fib (r m)) (op : Op) (h : op.run e s = some s') :
    ∀ m, SameFib (view e s' m).fib (refFibStep r op m) := by
  cases hop : op.fibOp with
  | false =>
    obtain ⟨h1, -⟩ := other_fib hi.tree op hop h
    intro m
    rw [h1]
    have : refFibStep r op = r := by cases op <;> first | rfl | simp [Op.fibOp] at hop
    rw [this]; exact hr m
  | true =>
    intro m
    cases op with
    | fibInsert p =>
      simp only [Op.run, Option.map_eq_some_iff] at h
      obtain ⟨⟨s1, b⟩, h1, rfl⟩ := h
      obtain ⟨t, rfl, h2, h3, -, -⟩ := fibInsert_fwd hi.tree h1
      rw [view_with, h3]
      simp only [refFibStep]
      by_cases hm : m = p
      · subst hm
        rw [upd_same, if_pos rfl]
        have := hr m
        cases hv : (view e s m).fib with
        | none => rw [hv, same_none] at this; rw [this]; simp [SameFib]
        | some l => rw [hv, same_some] at this; obtain ⟨x, hx, hp⟩ := this; rw [hx]; exact hp
      · rw [upd_ne _ _ hm, if_neg hm]; exact hr m
    | fibErase p =>
      simp only [refFibStep]
      rcases fibErase_fwd hi.tree h with ⟨rfl, h1⟩ | ⟨t, rfl, h2, h3⟩
      · by_cases hm : m = p
        · subst hm; rw [h1, if_pos rfl]; trivial
        · rw [if_neg hm]; exact hr m
      · rw [view_with, h3]
        by_cases hm : m = p
        · subst hm; rw [upd_same, if_pos rfl]; trivial
        · rw [upd_ne _ _ hm, if_neg hm]; exact hr m
    | fibSet p f c =>
      simp only [Op.run, Option.map_eq_some_iff] at h
      obtain ⟨⟨s1, o⟩, h1, rfl⟩ := h
      obtain ⟨l, t, hl, rfl, h2, h3, -⟩ := fibSet_fwd hi.tree h1
      rw [view_with, h3]
      simp only [refFibStep]
      by_cases hm : m = p
      · subst hm
        rw [upd_same, if_pos rfl]
        have := hr m
        rw [hl, same_some] at this
        obtain ⟨x, hx, hp⟩ := this
        rw [hx]
        have h4 := (add_perm (e := e) ((hi.node m).fib l hl).2 f c).map (fun h : NextHop => (h.face, h.cost))
        rw [List.map_cons, map_filter_ne] at h4
        exact h4.trans (List.Perm.cons _ (hp.filter _))
      · rw [upd_ne _ _ hm, if_neg hm]; exact hr m
    | fibUnset p f =>
      simp only [Op.run, Option.map_eq_some_iff] at h
      obtain ⟨⟨s1, o⟩, h1, rfl⟩ := h
      obtain ⟨l, hl, h2⟩ := fibUnset_fwd hi.tree h1
      simp only [refFibStep]
      have hrp := hr p
      rw [hl] at hrp
      obtain ⟨x, hx, -⟩ := same_some.1 hrp
      have hun := same_unset (f := f) ((hi.node p).fib l hl).2 (hx ▸ hrp)
      rw [← hx] at hun
      rcases h2 with ⟨-, rfl, h5⟩ | ⟨-, h5, h6, t, rfl, h2, h3⟩ | ⟨-, h5, h6, t, rfl, h2, h3⟩
      · by_cases hm : m = p
        · subst hm
          rw [if_pos rfl, hl]
          rwa [if_pos h5] at hun
        · rw [if_neg hm]; exact hr m
      · rw [view_with, h3]
        by_cases hm : m = p
        · subst hm
          rw [upd_same, if_pos rfl]
          rw [if_neg, if_pos] at hun
          · exact hun
          · simp [h5]
          · rw [h5]; intro hh; exact h6 (List.length_eq_zero_iff.1 hh.symm)
        · rw [upd_ne _ _ hm, if_neg hm]; exact hr m
      · rw [view_with, h3]
        by_cases hm : m = p
        · subst hm
          rw [upd_same, if_pos rfl]
          rw [if_neg h6, if_neg] at hun
          · exact hun
          · simpa using h5
        · rw [upd_ne _ _ hm, if_neg hm]; exact hr m
    | cleanup f =>
      obtain ⟨t, h2, h3, rfl, -⟩ := cleanup_fwd hi.tree h
      rw [view_with, h3]
      simp only [refFibStep]
      have hrm := hr m
      cases hl : (view e s m).fib with
      | none => rw [hl, same_none] at hrm; rw [hrm]; simp [cleanTbl, hl, refUnset, SameFib]
      | some l =>
        rw [hl] at hrm
        obtain ⟨x, hx, -⟩ := same_some.1 hrm
        rw [hx] at hrm ⊢
        have := same_unset (f := f) ((hi.node m).fib l hl).2 hrm
        simpa [cleanTbl, hl] using this
    | _ => simp [Op.fibOp] at hop

/-! ### Counting FIB entries -/

def FibCount (e : Env) (s : Tables) : Prop := Counted (fun p => (view e s p).fib.isSome) s.nFib

theorem counted_filter {α : Type} {P : α → Prop} {q : α → Bool} {k : Nat} (h : Counted P k) {l : List α} (hl : l.Nodup) (hsub : ∀ a, a ∈ l → P a ∧ q a = true)
    (hcov : ∀ a, P a → q a = true → a ∈ l) : Counted (fun a => P a ∧ q a = false) (k - l.length) := by
  obtain ⟨l0, h1, h2, h3⟩ := h
  refine ⟨l0.filter (fun a => !q a), h1.filter _, ?_, ?_⟩
  · have hp : (l0.filter q).Perm l := by
      refine (List.perm_ext_iff_of_nodup (h1.filter _) hl).2 (fun a => ?_)
      rw [List.mem_filter, h3]
      exact ⟨fun ⟨a1, a2⟩ => hcov a a1 a2, hsub a⟩
    have : l0.length = (l0.filter q).length + (l0.filter (fun a => !q a)).length := by
      rw [← List.countP_eq_length_filter, ← List.countP_eq_length_filter]
      rw [List.length_eq_countP_add_countP q]
      congr 1
      apply List.countP_congr
      intro x _
      simp
    rw [hp.length_eq] at this
    omega
  · intro a
    rw [List.mem_filter, h3]
    simp

theorem fibCount_step (hi : Inv e s) (hc : FibCount e s) (op : Op) (hok : FibEraseOk e s op) (h : op.run e s = some s') : FibCount e s' := by
  unfold FibCount at *
  cases hop : op.fibOp with
  | false =>
    obtain ⟨h1, h2⟩ := other_fib hi.tree op hop h
    rw [h2]
    exact hc.congr (fun m => by rw [h1])
  | true =>
    cases op with
    | fibInsert p =>
      simp only [Op.run, Option.map_eq_some_iff] at h
      obtain ⟨⟨s1, b⟩, h1, rfl⟩ := h
      obtain ⟨t, rfl, h2, h3, -, -⟩ := fibInsert_fwd hi.tree h1
      rw [view_with, h3]
      split
      · rename_i hs
        exact counted_upd (P := fun x => x.fib.isSome) hc (by simp [hs])
      · rename_i hs
        exact counted_upd_add (P := fun x => x.fib.isSome) hc (by simp) hs
    | fibErase p =>
      rcases fibErase_fwd hi.tree h with ⟨rfl, h1⟩ | ⟨t, rfl, h2, h3⟩
      · exact hc
      · rw [view_with, h3]
        exact counted_upd_del (P := fun x => x.fib.isSome) hc (by simp) hok
    | fibSet p f c =>
      simp only [Op.run, Option.map_eq_some_iff] at h
      obtain ⟨⟨s1, o⟩, h1, rfl⟩ := h
      obtain ⟨l, t, hl, rfl, h2, h3, -⟩ := fibSet_fwd hi.tree h1
      rw [view_with, h3]
      exact counted_upd (P := fun x => x.fib.isSome) hc (by simp [hl])
    | fibUnset p f =>
      simp only [Op.run, Option.map_eq_some_iff] at h
      obtain ⟨⟨s1, o⟩, h1, rfl⟩ := h
      obtain ⟨l, hl, h2⟩ := fibUnset_fwd hi.tree h1
      rcases h2 with ⟨-, rfl, h5⟩ | ⟨-, h5, h6, t, rfl, h2, h3⟩ | ⟨-, h5, h6, t, rfl, h2, h3⟩
      · exact hc
      · rw [view_with, h3]
        exact counted_upd_del (P := fun x => x.fib.isSome) hc (by simp) (by simp [hl])
      · rw [view_with, h3]
        exact counted_upd (P := fun x => x.fib.isSome) hc (by simp [hl])
    | cleanup f =>
      obtain ⟨t, h2, h3, rfl, -⟩ := cleanup_fwd hi.tree h
      have hnd := allNodes_nodup hi.tree
      rw [view_with]
      refine (counted_filter (q := fun p => (cleanTbl f (view e s p)).fib.isNone) hc (hnd.filter _) ?_ ?_).congr (fun m => ?_)
      · intro a ha
        have := (List.mem_filter.1 ha).2
        simpa using this
      · intro a h1 h4
        refine List.mem_filter.2 ⟨?_, by simp [h1, h4]⟩
        rw [mem_allNodes hi.tree]
        exact stored_of_vw (by intro hh; rw [view_eq, hh] at h1; simp at h1)
      · rw [h3]
        constructor
        · rintro ⟨-, h4⟩; simpa using h4
        · intro h4
          refine ⟨?_, by simpa using h4⟩
          cases hl : (view e s m).fib with
          | none => simp [cleanTbl, hl] at h4
          | some l => rfl
    | _ => simp [Op.fibOp] at hop

theorem fibCount_init {d : Name} (h : init e d = some s) : FibCount e s := by
  have hi := init_inv h
  unfold init scDefault at h
  cases hc : e.create d with
  | ok inst =>
    simp only [hc, Option.bind_eq_bind, Option.bind_eq_some_iff] at h
    obtain ⟨t, h1, t2, h2, h⟩ := h
    cases h
    obtain ⟨i1, v1, -⟩ := fwd_lookup (Nt.init_treeInv e.cfg) h1
    obtain ⟨i2, v2, -⟩ := fwd_setTbl i1 h2
    refine ⟨[], by simp, rfl, fun m => ?_⟩
    show _ ↔ (vw e t2 m).fib.isSome = true
    rw [v2, upd_fib rfl, v1]
    simp [vw, tblOf, Nt.init_find]
  | _ => simp [hc] at h

theorem init_fib {d : Name} (h : init e d = some s) (m : Name) : (view e s m).fib = none := by
  obtain ⟨l, h1, h2, h3⟩ := fibCount_init h
  have h0 : s.nFib = 0 := by
    unfold init scDefault at h
    cases hc : e.create d with
    | ok inst =>
      simp only [hc, Option.bind_eq_bind, Option.bind_eq_some_iff] at h
      obtain ⟨t, h1, t2, h2, h⟩ := h
      cases h; rfl
    | _ => simp [hc] at h
  rw [h0, List.length_eq_zero_iff] at h2
  subst h2
  have := h3 m
  cases hf : (view e s m).fib with
  | none => rfl
  | some l => simp [hf] at this

end Verif.Tb
