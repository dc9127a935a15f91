import Verif.Mgmt.TblCmd
import Verif.Tables.CleanProps
import Verif.Tables.FibProps
import Verif.Tables.ScProps

/-! C65: FIB commands; C86: strategy-choice commands. -/
namespace Verif.TblCmd
open Verif.Tb
open Nt (maxDepth)

variable {e : Env} {d : Name} {s s' : Sys}

/-! ### Specification -/

/-- There is a nexthop of cost `c` to face `f` for prefix `p`. -/
def NextHopAt (e : Env) (s : Sys) (p : Name) (f : FaceId) (c : Nat) : Prop := ∃ l, fibAt e s.tb p = some l ∧ ⟨f, c⟩ ∈ l

/-- Nothing but the FIB entry of `p` is different. -/
def OnlyFibAt (e : Env) (s s' : Sys) (p : Name) : Prop :=
  s'.faces = s.faces ∧ (∀ q, q ≠ p → view e s'.tb q = view e s.tb q) ∧ ∀ q, { view e s'.tb q with fib := none } = { view e s.tb q with fib := none }

/-! ### Lemmas -/

theorem run_append (ops1 ops2 : List Op) (t : Tables) : Tb.run e t (ops1 ++ ops2) = (Tb.run e t ops1).bind (fun t => Tb.run e t ops2) := by
  induction ops1 generalizing t with
  | nil => rfl
  | cons op ops ih =>
    simp only [List.cons_append, Tb.run]
    cases h : op.run e t with
    | none => rfl
    | some t' => simp [ih]

theorem Reachable.op {t t' : Tables} (h : Reachable e d t) (op : Op) (hs : op.run e t = some t') : Reachable e d t' := by
  obtain ⟨s0, ops, h1, h2⟩ := h
  exact ⟨s0, ops ++ [op], h1, by rw [run_append, h2]; simp [Tb.run, hs]⟩

theorem addNextHop_ok (h : Reachable e d s.tb) (i : FaceId) (p : Name) (f : FaceId) (c : Nat) (hp : p.length ≤ maxDepth) (hf : targetFace i f ∈ s.faces) :
    ∃ s', addNextHop e s i p f c = some (s', 200) ∧ Reachable e d s'.tb ∧ OnlyFibAt e s s' p ∧
      ∀ g x, NextHopAt e s' p g x ↔ g = targetFace i f ∧ x = c ∨ g ≠ targetFace i f ∧ NextHopAt e s p g x := by
  have hi := h.inv
  obtain ⟨⟨t1, b⟩, h1⟩ : ∃ r, fibInsert e s.tb p = some r := by
    obtain ⟨t, ht⟩ := lookup_ok (e := e) hi.tree (Nat.le_refl p.length) hp
    obtain ⟨i1, -, -, -, st, -⟩ := fwd_lookup hi.tree ht
    rw [List.take_length] at st
    unfold fibInsert
    rw [ht]
    simp only [Option.bind_eq_bind, Option.bind_some]
    split
    · exact ⟨_, rfl⟩
    · obtain ⟨t', ht'⟩ := setTbl_ok i1 (fun x => { x with fib := some [] }) st
      exact ⟨_, by rw [ht']; rfl⟩
  have hr1 : Reachable e d t1 := Reachable.op h (.fibInsert p) (by simp [Op.run, h1])
  obtain ⟨t', rfl, i2, v2, -, -⟩ := fibInsert_fwd hi.tree h1
  generalize hnf : (if (view e s.tb p).fib.isSome then s.tb.nFib else s.tb.nFib + 1) = k at *
  have hview : ∀ q, view e { s.tb with nt := t', nFib := k } q = upd (view e s.tb) p (fun x => { x with fib := some (x.fib.getD []) }) q := by
    intro q; rw [← v2]; rfl
  have hp1 : fibAt e { s.tb with nt := t', nFib := k } p = some ((fibAt e s.tb p).getD []) := by
    unfold fibAt; rw [hview, upd_same]
  obtain ⟨t2, o, l', h3, h4, h5, h6⟩ := C16_add_or_update hr1 p _ hp1 (targetFace i f) c
  refine ⟨{ s with tb := t2 }, ?_, ?_, ⟨rfl, ?_, ?_⟩, ?_⟩
  · unfold addNextHop
    rw [if_neg (by omega), if_neg (by simpa using hf)]
    simp [h1, h3]
  · exact Reachable.op hr1 (.fibSet p (targetFace i f) c) (by simp [Op.run, h3])
  · intro q hq
    show view e t2 q = _
    rw [h6 q hq, hview, upd_ne _ _ hq]
  · intro q
    by_cases hq : q = p
    · subst hq
      show { view e t2 q with fib := none } = _
      have hfs := h3
      unfold fibSet at hfs
      rw [show (view e { s.tb with nt := t', nFib := k } q).fib = _ from hp1] at hfs
      simp only [Option.bind_eq_bind, Option.bind_some, Option.bind_eq_some_iff] at hfs
      obtain ⟨t3, ht3, hfs⟩ := hfs
      cases hfs
      obtain ⟨-, v3, -⟩ := fwd_setTbl i2 ht3
      show ({ vw e t3 q with fib := none } : Tbl) = _
      rw [v3, upd_same, v2, upd_same]
    · show { view e t2 q with fib := none } = _
      rw [h6 q hq, hview, upd_ne _ _ hq]
  · intro g x
    unfold NextHopAt
    have : ∀ l, fibAt e t2 p = some l ↔ l = l' := fun l => by rw [h4]; simp [eq_comm]
    show (∃ l, fibAt e t2 p = some l ∧ _) ↔ _
    simp only [this, exists_eq_left, h5, NextHop.mk.injEq]
    cases hx : fibAt e s.tb p with
    | none => simp
    | some l0 => simp [and_comm]

theorem view_fibOnly {a b : Tbl} (h : ({ a with fib := none } : Tbl) = { b with fib := none }) (hf : a.fib = b.fib) : a = b := by
  cases a; cases b; simp_all

theorem removeNextHop_ok (h : Reachable e d s.tb) (i : FaceId) (p : Name) (f : FaceId) :
    ∃ s', removeNextHop e s i p f = some (s', 200) ∧ Reachable e d s'.tb ∧ OnlyFibAt e s s' p ∧
      (targetFace i f ∉ s.faces → s' = s) ∧
      (targetFace i f ∈ s.faces → ∀ g x, NextHopAt e s' p g x ↔ g ≠ targetFace i f ∧ NextHopAt e s p g x) := by
  have hi := h.inv
  unfold removeNextHop
  by_cases hf : targetFace i f ∉ s.faces
  · rw [if_pos hf]
    exact ⟨s, rfl, h, ⟨rfl, fun _ _ => rfl, fun _ => rfl⟩, fun _ => rfl, fun h => absurd h hf⟩
  · rw [if_neg hf]
    replace hf : targetFace i f ∈ s.faces := by simpa using hf
    cases hl : (view e s.tb p).fib with
    | none =>
      refine ⟨s, rfl, h, ⟨rfl, fun _ _ => rfl, fun _ => rfl⟩, fun _ => rfl, fun _ g x => ?_⟩
      simp [NextHopAt, fibAt, hl]
    | some l =>
      obtain ⟨t, r, h1, h2, h3⟩ := C16_remove h p l hl (targetFace i f)
      have hv : ∀ q, ({ view e t q with fib := none } : Tbl) = { view e s.tb q with fib := none } := by
        intro q
        by_cases hq : q = p
        · subst hq
          have hfs := h1
          unfold fibUnset at hfs
          rw [hl] at hfs
          simp only [Option.bind_eq_bind, Option.bind_some] at hfs
          split at hfs
          · cases hfs; rfl
          · split at hfs
            · simp only [Option.bind_eq_some_iff] at hfs
              obtain ⟨t3, ht3, hfs⟩ := hfs
              cases hfs
              obtain ⟨-, v3, -⟩ := fwd_setTbl hi.tree ht3
              show ({ vw e t3 q with fib := none } : Tbl) = _
              rw [v3, upd_same]; rfl
            · simp only [Option.bind_eq_some_iff] at hfs
              obtain ⟨t3, ht3, hfs⟩ := hfs
              cases hfs
              obtain ⟨-, v3, -⟩ := fwd_setTbl hi.tree ht3
              show ({ vw e t3 q with fib := none } : Tbl) = _
              rw [v3, upd_same]; rfl
        · rw [h2 q hq]
      refine ⟨{ s with tb := t }, by simp [h1], Reachable.op h (.fibUnset p (targetFace i f)) (by simp [Op.run, h1]), ⟨rfl, h2, hv⟩,
        fun hn => absurd hf hn, fun _ g x => ?_⟩
      show (∃ l', fibAt e t p = some l' ∧ _) ↔ _ ∧ ∃ l', fibAt e s.tb p = some l' ∧ _
      have hl' : fibAt e s.tb p = some l := hl
      rw [hl']
      rcases h3 with ⟨h4, -, rfl⟩ | ⟨-, h4, -, h5⟩ | ⟨-, -, -, h5⟩
      · rw [hl']
        simp only [Option.some.injEq, exists_eq_left']
        exact ⟨fun hm => ⟨h4 _ hm, hm⟩, fun hm => hm.2⟩
      · rw [h5]
        simp only [reduceCtorEq, false_and, exists_false, Option.some.injEq, exists_eq_left', false_iff, not_and]
        exact fun hg hm => hg (h4 _ hm)
      · rw [h5]
        simp [and_comm]

theorem other_faces (op : Op) (hop : forwarding op = true) : op.fibOp = false := by
  cases op <;> simp_all [forwarding, Op.fibOp]

/-- The history so far: the tables were reached by table operations, and every nexthop goes to a face in the face table. -/
structure Good (e : Env) (d : Name) (s : Sys) : Prop where
  tb : Reachable e d s.tb
  faces : ∀ p f c, NextHopAt e s p f c → f ∈ s.faces

theorem good_step (h : Good e d s) (x : Ev) (hs : step e s x = some s') : Good e d s' := by
  have hi := h.tb.inv
  have same : ∀ {t : Tables}, Reachable e d t → (∀ m, (view e t m).fib = (view e s.tb m).fib) → Good e d { s with tb := t } := by
    intro t hr hv
    refine ⟨hr, fun p f c hn => h.faces p f c ?_⟩
    unfold NextHopAt fibAt at *
    rw [← hv]; exact hn
  cases x with
  | addNextHop i p f c =>
    simp only [step, Option.map_eq_some_iff] at hs
    obtain ⟨⟨s1, k⟩, h1, rfl⟩ := hs
    by_cases hp : p.length ≤ maxDepth
    · by_cases hf : targetFace i f ∈ s.faces
      · obtain ⟨s2, h2, h3, h4, h5⟩ := addNextHop_ok h.tb i p f c hp hf
        rw [h1] at h2; cases h2
        refine ⟨h3, fun q g x hn => ?_⟩
        dsimp only at *
        rw [h4.1]
        by_cases hq : q = p
        · subst hq
          rcases (h5 g x).1 hn with ⟨rfl, -⟩ | ⟨-, hn⟩
          · exact hf
          · exact h.faces q g x hn
        · refine h.faces q g x ?_
          unfold NextHopAt fibAt at *
          rw [← h4.2.1 q hq]; exact hn
      · unfold addNextHop at h1
        rw [if_neg (by omega), if_pos hf] at h1
        cases h1; exact h
    · unfold addNextHop at h1
      rw [if_pos (by omega)] at h1
      cases h1; exact h
  | removeNextHop i p f =>
    simp only [step, Option.map_eq_some_iff] at hs
    obtain ⟨⟨s1, k⟩, h1, rfl⟩ := hs
    obtain ⟨s2, h2, h3, h4, h5, h6⟩ := removeNextHop_ok h.tb i p f
    rw [h1] at h2; cases h2
    by_cases hf : targetFace i f ∈ s.faces
    · refine ⟨h3, fun q g x hn => ?_⟩
      dsimp only at *
      rw [h4.1]
      by_cases hq : q = p
      · subst hq
        exact h.faces q g x ((h6 hf g x).1 hn).2
      · refine h.faces q g x ?_
        unfold NextHopAt fibAt at *
        rw [← h4.2.1 q hq]; exact hn
    · rw [h5 hf]; exact h
  | setStrategy p st =>
    simp only [step, Option.map_eq_some_iff, setStrategy, Option.bind_eq_bind, Option.bind_eq_some_iff] at hs
    obtain ⟨x, ⟨⟨t, r⟩, h1, h2⟩, rfl⟩ := hs
    have hop : (Op.scInsert p st).run e s.tb = some t := by simp [Op.run, h1]
    have := same (Reachable.op h.tb _ hop) (other_fib hi.tree _ rfl hop).1
    dsimp only at h2
    split at h2
    · simp only [Option.bind_eq_some_iff] at h2
      obtain ⟨inst, -, h2⟩ := h2
      cases h2; exact this
    · cases h2; exact this
  | unsetStrategy p =>
    simp only [step, Option.map_eq_some_iff, unsetStrategy] at hs
    obtain ⟨x, h1, rfl⟩ := hs
    split at h1
    · cases h1; exact h
    · simp only [Option.map_eq_some_iff] at h1
      obtain ⟨t, h1, rfl⟩ := h1
      have hop : (Op.scErase p).run e s.tb = some t := h1
      exact same (Reachable.op h.tb _ hop) (other_fib hi.tree _ rfl hop).1
  | faceAdded f =>
    cases hs
    exact ⟨h.tb, fun p g x hn => List.mem_cons_of_mem _ (h.faces p g x hn)⟩
  | faceRemoved f =>
    simp only [step, Option.map_eq_some_iff] at hs
    obtain ⟨t, h1, rfl⟩ := hs
    obtain ⟨t', h2, h3, -, h4, -⟩ := C24_cleanup h.tb f
    have : (Op.cleanup f).run e s.tb = some t := h1
    rw [this] at h2; cases h2
    refine ⟨Reachable.op h.tb _ this, ?_⟩
    rintro p g x ⟨l, hl, hm⟩
    have hne := h3 p l hl _ hm
    have h4 := h4 p
    rw [hl] at h4
    cases ho : fibAt e s.tb p with
    | none => rw [ho] at h4; cases h4
    | some l0 =>
      rw [ho] at h4
      simp only [Option.bind_some, fibWithout] at h4
      split at h4
      · cases h4
      · cases h4
        have := h.faces p g x ⟨l0, ho, (List.mem_filter.1 hm).1⟩
        simp only [List.mem_filter]
        exact ⟨this, by simpa using hne⟩
  | other op =>
    simp only [step] at hs
    split at hs
    · next hop =>
      simp only [Option.map_eq_some_iff] at hs
      obtain ⟨t, h1, rfl⟩ := hs
      exact same (Reachable.op h.tb op h1) (other_fib hi.tree op (other_faces op hop) h1).1
    · cases hs; exact h

theorem Reached.good (h : Reached e d s) : Good e d s := by
  obtain ⟨t, evs, h0, h⟩ := h
  have h1 : Good e d ⟨[], t⟩ := ⟨⟨t, [], h0, rfl⟩, fun p f c ⟨l, hl, _⟩ => by
    unfold fibAt at hl; dsimp only at hl; rw [init_fib h0] at hl; cases hl⟩
  clear h0
  generalize (⟨[], t⟩ : Sys) = s0 at h h1
  induction evs generalizing s0 with
  | nil => cases h; exact h1
  | cons x xs ih =>
    simp only [run, Option.bind_eq_some_iff] at h
    obtain ⟨s1, h2, h3⟩ := h
    exact ih s1 h3 (good_step h1 x h2)

theorem mem_full (h : Reachable e d s.tb) (sel : Name → Nt.Nte Tbl → Bool) (P : Tbl → Bool) (hP : P {} = false) (hsel : ∀ n x, sel n x = P x.tbl) :
    (Nt.fullFrom e.cfg.ch s.tb.nt sel (s.tb.nt.size + 1) none).Nodup ∧
    ∀ m, m ∈ Nt.fullFrom e.cfg.ch s.tb.nt sel (s.tb.nt.size + 1) none ↔ P (view e s.tb m) = true := by
  have hi := h.inv.tree.ht
  rw [Nt.fullEnumerate_spec hi sel (s.tb.nt.size + 1) (by rw [hi.size]; omega)]
  refine ⟨List.Nodup.sublist (List.Sublist.map _ List.filter_sublist) hi.nodup, fun m => ?_⟩
  have hv : P (view e s.tb m) = true ↔ ∃ x, s.tb.nt.find e.cfg.ch m = some x ∧ P x.tbl = true := by
    unfold view Nt.tblOf
    cases hx : s.tb.nt.find e.cfg.ch m with
    | none => simp [hP]
    | some x => simp
  rw [hv]
  simp only [Nt.find_iff hi, List.mem_map, List.mem_filter, hsel]
  constructor
  · rintro ⟨n, ⟨h1, h2⟩, rfl⟩; exact ⟨n.entry, ⟨n, h1, rfl, rfl⟩, h2⟩
  · rintro ⟨x, ⟨n, h1, rfl, rfl⟩, h2⟩; exact ⟨n, ⟨h1, h2⟩, rfl⟩

/-! ### Properties -/

/-- C65. `fib/add-nexthop`: 414 if the prefix has more than 32 components; otherwise 410 if there is no such face; in both cases
nothing changes. Otherwise 200, and then the prefix has a nexthop to that face with exactly the cost given, all its other nexthops
are as before, and nothing else changes. FaceId 0 stands for the face the command came from. -/
theorem C65_add (h : Reached e d s) (incoming : FaceId) (p : Name) (face : FaceId) (cost : Nat) :
    ∃ s' code, addNextHop e s incoming p face cost = some (s', code) ∧
      (code = 414 ↔ 32 < p.length) ∧
      (code = 410 ↔ p.length ≤ 32 ∧ (if face = 0 then incoming else face) ∉ s.faces) ∧
      (code ≠ 200 → s' = s) ∧
      (p.length ≤ 32 → (if face = 0 then incoming else face) ∈ s.faces → code = 200 ∧ OnlyFibAt e s s' p ∧
        ∀ g x, NextHopAt e s' p g x ↔ g = (if face = 0 then incoming else face) ∧ x = cost ∨ g ≠ (if face = 0 then incoming else face) ∧ NextHopAt e s p g x) := by
  by_cases hp : p.length ≤ maxDepth
  · by_cases hf : targetFace incoming face ∈ s.faces
    · obtain ⟨s2, h2, h3, h4, h5⟩ := addNextHop_ok h.good.tb incoming p face cost hp hf
      have hp' : p.length ≤ 32 := hp
      unfold targetFace at hf h5
      exact ⟨s2, 200, h2, by simp; omega, by simp [hf], fun h => absurd rfl h, fun _ _ => ⟨rfl, h4, h5⟩⟩
    · have hp' : p.length ≤ 32 := hp
      refine ⟨s, 410, ?_, by simp; omega, ?_, fun _ => rfl, fun _ hh => absurd hh hf⟩
      · unfold addNextHop; rw [if_neg (by omega), if_pos hf]
      · unfold targetFace at hf; simp [hf, hp']
  · have hp' : 32 < p.length := by unfold maxDepth at hp; omega
    refine ⟨s, 414, ?_, by simp [hp'], by simp; omega, fun _ => rfl, fun hh => by omega⟩
    unfold addNextHop; rw [if_pos (by omega)]

/-- C65. `fib/remove-nexthop` is always answered with 200, and afterwards the prefix has no nexthop to that face; all other
nexthops are as before and nothing else changes. -/
theorem C65_remove (h : Reached e d s) (incoming : FaceId) (p : Name) (face : FaceId) :
    ∃ s', removeNextHop e s incoming p face = some (s', 200) ∧ OnlyFibAt e s s' p ∧
      ∀ g x, NextHopAt e s' p g x ↔ g ≠ (if face = 0 then incoming else face) ∧ NextHopAt e s p g x := by
  obtain ⟨s2, h2, h3, h4, h5, h6⟩ := removeNextHop_ok h.good.tb incoming p face
  refine ⟨s2, h2, h4, ?_⟩
  by_cases hf : targetFace incoming face ∈ s.faces
  · exact h6 hf
  · rw [h5 hf]
    intro g x
    refine ⟨fun hn => ⟨?_, hn⟩, fun hn => hn.2⟩
    rintro rfl
    exact hf (h.good.faces p _ x hn)

/-- C65. At all times every nexthop in the FIB goes to a face in the face table. -/
theorem C65_faces (h : Reached e d s) (p : Name) (f : FaceId) (c : Nat) (hn : NextHopAt e s p f c) : f ∈ s.faces := h.good.faces p f c hn

/-- C65. No entry is ever without nexthops. -/
theorem C65_nonempty (h : Reached e d s) (p : Name) : fibAt e s.tb p ≠ some [] := by
  obtain ⟨t, evs, h0, h⟩ := h
  have key : ∀ (evs : List Ev) (s0 : Sys), Good e d s0 → (∀ p, fibAt e s0.tb p ≠ some []) → run e s0 evs = some s → ∀ p, fibAt e s.tb p ≠ some [] := by
    intro evs
    induction evs with
    | nil => intro s0 _ hn h; cases h; exact hn
    | cons x xs ih =>
      intro s0 hg hn h
      simp only [run, Option.bind_eq_some_iff] at h
      obtain ⟨s1, h2, h3⟩ := h
      refine ih s1 (good_step hg x h2) ?_ h3
      have hi := hg.tb.inv
      intro q hq
      cases x with
      | addNextHop i p f c =>
        simp only [step, Option.map_eq_some_iff] at h2
        obtain ⟨⟨s2, k⟩, h1, rfl⟩ := h2
        dsimp only at hq
        by_cases hp : p.length ≤ maxDepth
        · by_cases hf : targetFace i f ∈ s0.faces
          · obtain ⟨s3, h4, -, h5, h6⟩ := addNextHop_ok hg.tb i p f c hp hf
            rw [h1] at h4; cases h4
            by_cases hqp : q = p
            · subst hqp
              obtain ⟨l, hl, hm⟩ := (h6 _ _).2 (Or.inl ⟨rfl, rfl⟩)
              rw [hq] at hl; cases hl; cases hm
            · unfold fibAt at hq; rw [h5.2.1 q hqp] at hq; exact hn q hq
          · unfold addNextHop at h1
            rw [if_neg (by omega), if_pos hf] at h1
            cases h1; exact hn q hq
        · unfold addNextHop at h1
          rw [if_pos (by omega)] at h1
          cases h1; exact hn q hq
      | removeNextHop i p f =>
        simp only [step, Option.map_eq_some_iff] at h2
        obtain ⟨⟨s2, k⟩, h1, rfl⟩ := h2
        dsimp only at hq
        unfold removeNextHop at h1
        split at h1
        · cases h1; exact hn q hq
        · split at h1
          · cases h1; exact hn q hq
          · next l hl =>
            simp only [Option.map_eq_some_iff] at h1
            obtain ⟨⟨t2, r⟩, h1, h1'⟩ := h1
            cases h1'
            dsimp only at hq
            obtain ⟨t3, r3, h4, h5, h6⟩ := C16_remove hg.tb p l hl (targetFace i f)
            rw [h1] at h4; cases h4
            by_cases hqp : q = p
            · subst hqp
              rcases h6 with ⟨-, -, rfl⟩ | ⟨-, -, -, h7⟩ | ⟨-, ⟨x, hx, hne⟩, -, h7⟩
              · exact hn q hq
              · rw [h7] at hq; cases hq
              · rw [h7] at hq
                have : x ∈ l.filter (fun x => x.face ≠ targetFace i f) := List.mem_filter.2 ⟨hx, by simpa using hne⟩
                rw [Option.some.inj hq] at this; cases this
            · unfold fibAt at hq; rw [h5 q hqp] at hq; exact hn q hq
      | setStrategy p st =>
        simp only [step, Option.map_eq_some_iff, setStrategy, Option.bind_eq_bind, Option.bind_eq_some_iff] at h2
        obtain ⟨x, ⟨⟨t, r⟩, h1, h2⟩, rfl⟩ := h2
        have hop : (Op.scInsert p st).run e s0.tb = some t := by simp [Op.run, h1]
        have hv := (other_fib hi.tree _ rfl hop).1 q
        have hx : x.1.tb = t := by
          dsimp only at h2
          split at h2
          · simp only [Option.bind_eq_some_iff] at h2
            obtain ⟨inst, -, h2⟩ := h2
            cases h2; rfl
          · cases h2; rfl
        unfold fibAt at hq
        rw [hx, hv] at hq; exact hn q hq
      | unsetStrategy p =>
        simp only [step, Option.map_eq_some_iff, unsetStrategy] at h2
        obtain ⟨x, h1, rfl⟩ := h2
        split at h1
        · cases h1; exact hn q hq
        · simp only [Option.map_eq_some_iff] at h1
          obtain ⟨t, h1, rfl⟩ := h1
          have hop : (Op.scErase p).run e s0.tb = some t := h1
          have hv := (other_fib hi.tree _ rfl hop).1 q
          unfold fibAt at hq; dsimp only at hq
          rw [hv] at hq; exact hn q hq
      | faceAdded f => cases h2; exact hn q hq
      | faceRemoved f =>
        simp only [step, Option.map_eq_some_iff] at h2
        obtain ⟨t, h1, rfl⟩ := h2
        obtain ⟨t', h2, -, -, h4, -⟩ := C24_cleanup hg.tb f
        have : (Op.cleanup f).run e s0.tb = some t := h1
        rw [this] at h2; cases h2
        have h4 := h4 q
        dsimp only at hq
        rw [hq] at h4
        cases ho : fibAt e s0.tb q with
        | none => rw [ho] at h4; cases h4
        | some l0 =>
          rw [ho] at h4
          simp only [Option.bind_some, fibWithout] at h4
          split at h4
          · cases h4
          · next hne =>
            apply hne
            refine ⟨fun hh => hn q (by rw [ho, hh]), fun x hx => Classical.byContradiction fun hxf => ?_⟩
            have : x ∈ l0.filter (fun h => h.face != f) := List.mem_filter.2 ⟨hx, by simpa using hxf⟩
            rw [← Option.some.inj h4] at this; cases this
      | other op =>
        simp only [step] at h2
        split at h2
        · next hop =>
          simp only [Option.map_eq_some_iff] at h2
          obtain ⟨t, h1, rfl⟩ := h2
          have hv := (other_fib hi.tree op (other_faces op hop) h1).1 q
          unfold fibAt at hq; dsimp only at hq
          rw [hv] at hq; exact hn q hq
        · cases h2; exact hn q hq
  refine key evs ⟨[], t⟩ ⟨⟨t, [], h0, rfl⟩, fun p f c ⟨l, hl, _⟩ => ?_⟩ (fun p hp => ?_) h p
  · unfold fibAt at hl; dsimp only at hl; rw [init_fib h0] at hl; cases hl
  · unfold fibAt at hp; dsimp only at hp; rw [init_fib h0] at hp; cases hp

/-- C65. The dataset `fib/list` has one element for every FIB entry, with exactly its nexthops. -/
theorem C65_list (h : Reached e d s) : ((listFib e s).map (·.1)).Nodup ∧ ∀ p l, (p, l) ∈ listFib e s ↔ fibAt e s.tb p = some l := by
  obtain ⟨h1, h2⟩ := mem_full h.good.tb hasFib (fun x => x.fib.isSome) rfl (fun _ _ => rfl)
  unfold listFib fibAt
  refine ⟨by rw [List.map_map]; simpa [Function.comp_def] using h1, fun p l => ?_⟩
  simp only [List.mem_map, Prod.mk.injEq, h2]
  constructor
  · rintro ⟨n, h3, rfl, h4⟩
    cases hx : (view e s.tb n).fib with
    | none => rw [hx] at h3; cases h3
    | some l' => rw [hx] at h4; rw [← h4]; rfl
  · intro hx; exact ⟨p, by rw [hx]; rfl, rfl, by rw [hx]; rfl⟩

/-- C86. `strategy-choice/set`: 414 if the prefix has more than 32 components, else 404 if the strategy is not registered, else 409
if it cannot be instantiated (the parameters are wrong); in these cases nothing changes. Otherwise 200 with the name of the strategy
instance, which is then the choice for this prefix; all other choices are as before. -/
theorem C86_set (h : Reached e d s) (p st : Name) :
    ∃ s' code body, setStrategy e s p st = some (s', code, body) ∧
      (code = 414 ↔ 32 < p.length) ∧ (code = 404 ↔ p.length ≤ 32 ∧ e.create st = .notRegistered) ∧
      (code = 409 ↔ p.length ≤ 32 ∧ e.create st = .exception) ∧ (code ≠ 200 → s' = s ∧ body = none) ∧
      ∀ inst, p.length ≤ 32 → e.create st = .ok inst →
        code = 200 ∧ body = some inst ∧ scAt e s'.tb p = some inst ∧ ∀ m, m ≠ p → scAt e s'.tb m = scAt e s.tb m := by
  obtain ⟨t, r, h1, h2, h3, h4, h5, h6⟩ := C21_insert h.good.tb p st
  have h2 : r = .depthExceeded ↔ 32 < p.length := h2
  have h3 : r = .exception ↔ p.length ≤ 32 ∧ _ := h3
  have h4 : r = .notRegistered ↔ p.length ≤ 32 ∧ _ := h4
  have h6 : ∀ inst, p.length ≤ 32 → _ := h6
  unfold setStrategy
  simp only [h1, Option.bind_eq_bind, Option.bind_some]
  by_cases hr : r = .ok
  · subst hr
    simp only [if_true]
    simp only [reduceCtorEq, false_iff, not_and] at h2 h3 h4
    have hp : p.length ≤ 32 := by omega
    cases hc : e.create st with
    | notRegistered => exact absurd hc (h4 hp)
    | exception => exact absurd hc (h3 hp)
    | ok inst =>
      obtain ⟨-, h7, h8⟩ := h6 inst hp hc
      have hg : scGet e t p = some inst := by
        have hr : Reachable e d t := Reachable.op h.good.tb (.scInsert p st) (by simp [Op.run, h1])
        have hst : (t.nt.find e.cfg.ch p).isSome := stored_of_view (by intro hh; rw [scAt, hh] at h7; cases h7)
        obtain ⟨x, hx⟩ := Option.isSome_iff_exists.1 hst
        have hx2 : x.tbl.sc = some inst := by
          have : view e t p = x.tbl := by simp [view, Nt.tblOf, hx]
          rw [← this]; exact h7
        unfold scGet
        rw [Nt.findExact_eq _ _ _ _ (Nat.le_refl _) hp, List.take_length]
        simp [hx, hx2]
      refine ⟨{ s with tb := t }, 200, some inst, by simp [hg], by simp; omega, by simp, by simp, fun h => absurd rfl h, ?_⟩
      intro inst' _ hc'
      cases hc'
      exact ⟨rfl, rfl, h7, h8⟩
  · rw [if_neg hr]
    have ht : t = s.tb := h5 hr
    refine ⟨{ s with tb := t }, scCode r, none, rfl, ?_, ?_, ?_, ?_, ?_⟩
    · rw [← h2]; cases r <;> simp [scCode]
    · rw [← h4]; cases r <;> simp [scCode]
    · rw [← h3]; cases r <;> simp [scCode]
    · intro _; rw [ht]; exact ⟨rfl, rfl⟩
    · intro inst hp hc; exact absurd (h6 inst hp hc).1 hr

/-- C86. `strategy-choice/unset` removes the choice of any prefix but the root and no other; the root always has one. -/
theorem C86_unset (h : Reached e d s) (p : Name) (hp : p ≠ []) :
    ∃ s', unsetStrategy e s p = some (s', 200) ∧ scAt e s'.tb p = none ∧ (∀ m, m ≠ p → scAt e s'.tb m = scAt e s.tb m) ∧
      (scAt e s'.tb []).isSome := by
  obtain ⟨t, h1, h2, h3⟩ := C21_erase h.good.tb p hp
  refine ⟨{ s with tb := t }, by unfold unsetStrategy; rw [if_neg hp, h1]; rfl, h2, h3, ?_⟩
  show (scAt e t []).isSome
  rw [h3 [] (Ne.symm hp)]
  exact (C21_effective h.good.tb []).1

/-- C86. The dataset `strategy-choice/list` has one element for every choice made, with its strategy. -/
theorem C86_list (h : Reached e d s) : ((listChoices e s).map (·.1)).Nodup ∧
    ∀ p inst, (p, some inst) ∈ listChoices e s ↔ scAt e s.tb p = some inst := by
  obtain ⟨h1, h2⟩ := mem_full h.good.tb hasSc (fun x => x.sc.isSome) rfl (fun _ _ => rfl)
  unfold listChoices scAt
  refine ⟨by rw [List.map_map]; simpa [Function.comp_def] using h1, fun p l => ?_⟩
  simp only [List.mem_map, Prod.mk.injEq, h2]
  constructor
  · rintro ⟨n, -, rfl, h4⟩; exact h4
  · intro hx; exact ⟨p, by rw [hx]; rfl, rfl, hx⟩

/- Two faces; nexthops added, updated and removed; a face removed; refused commands. -/
def exStart : Option Sys := (init exEnv st1).map (fun t => ⟨[], t⟩)
def exEvs : List Ev :=
  [.faceAdded 300, .faceAdded 301, .addNextHop 300 [gc 1] 0 10, .addNextHop 300 [gc 1] 301 5, .addNextHop 300 [gc 1] 300 7,
   .addNextHop 300 [gc 2] 300 1, .addNextHop 300 [gc 2] 999 1, .removeNextHop 300 [gc 3] 301, .setStrategy [gc 1] st2, .faceRemoved 301]
example : (exStart.bind (fun s => run exEnv s exEvs)).any (fun s =>
    fibAt exEnv s.tb [gc 1] == some [⟨300, 7⟩] && (listFib exEnv s).length == 2 && (listChoices exEnv s).length == 2 &&
    (addNextHop exEnv s 300 [gc 4] 301 1).any (fun r => r.2 == 410) && (addNextHop exEnv s 300 (List.replicate 33 (gc 1)) 300 1).any (fun r => r.2 == 414) &&
    (removeNextHop exEnv s 300 [gc 1] 0).any (fun r => fibAt exEnv r.1.tb [gc 1] == none) &&
    (setStrategy exEnv s [gc 1] [gc 9]).any (fun r => r.2.1 == 404) && (unsetStrategy exEnv s [gc 1]).any (fun r => scAt exEnv r.1.tb [gc 1] == none)) = true := by
  decide +kernel

/- Forwarding goes on between commands: a PIT entry made in between is there, and the commands' results are as before. -/
example : (exStart.bind (fun s => run exEnv s (.other (.pitInsert (exI [gc 1, gc 5] true false)) :: exEvs ++ [.other (.measGet [gc 2])]))).any (fun s =>
    (view exEnv s.tb [gc 1, gc 5]).pit.length == 1 && (view exEnv s.tb [gc 2]).meas.isSome && fibAt exEnv s.tb [gc 1] == some [⟨300, 7⟩]) = true := by
  decide +kernel

end Verif.TblCmd
