import Verif.Tables.Ops
import Verif.Tables.Spec

/-! Invariant of the tables and its preservation by every operation. -/
namespace Verif.Tb

open Nt (Tree Nte Cfg Options maxDepth tblOf TreeInv)
open List

variable {e : Env} {s s' : Tables}

/-! ### Lists -/

theorem Counted.congr {α : Type} {P Q : α → Prop} {k : Nat} (h : Counted P k) (hpq : ∀ a, P a ↔ Q a) : Counted Q k := by
  obtain ⟨l, h1, h2, h3⟩ := h
  exact ⟨l, h1, h2, fun a => by rw [h3, hpq]⟩

theorem Counted.add {α : Type} {P : α → Prop} {k : Nat} (h : Counted P k) {a : α} (ha : ¬ P a) : Counted (fun b => b = a ∨ P b) (k + 1) := by
  obtain ⟨l, h1, h2, h3⟩ := h
  refine ⟨a :: l, ?_, by simp [h2], fun b => by simp [h3]⟩
  rw [List.nodup_cons, h3]
  exact ⟨ha, h1⟩

theorem Counted.del {α : Type} [DecidableEq α] {P : α → Prop} {k : Nat} (h : Counted P k) {a : α} (ha : P a) :
    Counted (fun b => b ≠ a ∧ P b) (k - 1) := by
  obtain ⟨l, h1, h2, h3⟩ := h
  refine ⟨l.erase a, h1.erase a, ?_, fun b => by rw [List.Nodup.mem_erase_iff h1, h3]⟩
  rw [List.length_erase_of_mem ((h3 a).2 ha), h2]

theorem Counted.unique {α : Type} {P : α → Prop} {k k' : Nat} (h : Counted P k) (h' : Counted P k') : k = k' := by
  obtain ⟨l, h1, h2, h3⟩ := h
  obtain ⟨l', h1', h2', h3'⟩ := h'
  have : l ~ l' := (List.perm_ext_iff_of_nodup h1 h1').2 (fun a => by rw [h3, h3'])
  rw [← h2, ← h2', this.length_eq]

theorem swapErase_perm {l : List PitEntry} {j : Nat} (h : j < l.length) : swapErase l j ~ l.eraseIdx j := by
  rcases List.eq_nil_or_concat l with rfl | ⟨l', a, rfl⟩
  · simp at h
  · unfold swapErase
    simp only [List.concat_eq_append, List.getLast?_append, List.getLast?_singleton, Option.some_or, Option.getD_some] at *
    by_cases hj : j < l'.length
    · rw [List.set_append, if_pos hj, List.dropLast_concat, List.eraseIdx_append_of_lt_length hj, List.set_eq_take_append_cons_drop,
        if_pos hj, List.eraseIdx_eq_take_drop_succ]
      refine (List.perm_middle).trans ?_
      exact (List.perm_append_singleton a _).symm
    · have : j = l'.length := by simp at h; omega
      subst this
      simp [List.eraseIdx_append_of_length_le]

theorem keys_eraseIdx {l : List PitEntry} {i : Interest} {j : Nat} (hnd : (l.map (·.interest.toInterest)).Nodup)
    (hj : l.findIdx? (sameKey i) = some j) :
    ∃ p, l[j]? = some p ∧ p.interest.toInterest = i ∧ p ∈ l ∧ j < l.length ∧ ∀ q, q ∈ l.eraseIdx j ↔ q ∈ l ∧ q.interest.toInterest ≠ i := by
  rw [List.findIdx?_eq_some_iff_getElem] at hj
  obtain ⟨hlt, hp, -⟩ := hj
  have hpi : l[j].interest.toInterest = i := by simpa [sameKey] using hp
  refine ⟨l[j], by simp [hlt], hpi, List.getElem_mem hlt, hlt, fun q => ?_⟩
  rw [List.mem_eraseIdx_iff_getElem]
  have hinj : ∀ a b (ha : a < l.length) (hb : b < l.length), l[a].interest.toInterest = l[b].interest.toInterest → a = b := by
    intro a b ha hb hab
    rcases Nat.lt_trichotomy a b with hlt | heq | hlt
    · exact absurd (by rw [List.getElem_map, List.getElem_map]; exact hab) (List.pairwise_iff_getElem.1 hnd a b (by simpa) (by simpa) hlt)
    · exact heq
    · exact absurd (by rw [List.getElem_map, List.getElem_map]; exact hab.symm) (List.pairwise_iff_getElem.1 hnd b a (by simpa) (by simpa) hlt)
  constructor
  · rintro ⟨k, hk, hkj, rfl⟩
    refine ⟨List.getElem_mem _, fun hq => hkj (hinj _ _ hk hlt ?_)⟩
    rw [hq, hpi]
  · rintro ⟨hq, hne⟩
    obtain ⟨k, hk, rfl⟩ := List.getElem_of_mem hq
    exact ⟨k, hk, by rintro rfl; exact hne hpi, rfl⟩

theorem eraseP_map_nodup {α β : Type} [DecidableEq β] {f : α → β} {l : List α} (p : α → Bool) (h : (l.map f).Nodup) : ((l.eraseP p).map f).Nodup :=
  List.Nodup.sublist (List.Sublist.map _ List.eraseP_sublist) h

/-- With distinct faces, erasing the first match erases all matches. -/
theorem eraseP_face {α : Type} {f : α → FaceId} {l : List α} (hnd : (l.map f).Nodup) (x : FaceId) :
    l.eraseP (fun a => f a == x) = l.filter (fun a => f a != x) := by
  induction l with
  | nil => rfl
  | cons a l ih =>
    simp only [List.map_cons, List.nodup_cons] at hnd
    by_cases ha : f a = x
    · rw [List.eraseP_cons_of_pos (by simp [ha]), List.filter_cons_of_neg (by simp [ha])]
      symm
      rw [List.filter_eq_self]
      intro b hb
      simp only [bne_iff_ne, ne_eq]
      intro hbx
      exact hnd.1 (by rw [ha, ← hbx]; exact List.mem_map.2 ⟨b, hb, rfl⟩)
    · rw [List.eraseP_cons_of_neg (by simp [ha]), List.filter_cons_of_pos (by simp [ha]), ih hnd.2]

/-! ### FIB entry -/

theorem add_perm {l : List NextHop} (hnd : (l.map (·.face)).Nodup) (f : FaceId) (c : Nat) :
    (addOrUpdateNextHop e l f c).1 ~ ⟨f, c⟩ :: l.filter (·.face != f) := by
  unfold addOrUpdateNextHop
  cases hi : l.findIdx? (·.face == f) with
  | some i =>
    have hi0 := hi
    rw [List.findIdx?_eq_some_iff_getElem] at hi
    obtain ⟨hlt, hp, -⟩ := hi
    have hpi : l[i].face = f := by simpa using hp
    refine (e.sort_perm _).trans ?_
    rw [List.set_eq_take_append_cons_drop, if_pos hlt]
    refine List.perm_middle.trans (List.Perm.cons _ ?_)
    rw [← List.eraseIdx_eq_take_drop_succ]
    have h2 : l.filter (·.face != f) = l.eraseIdx i := by
      rw [← eraseP_face (f := NextHop.face) hnd f]
      rw [List.eraseP_eq_eraseIdx, hi0]
    rw [h2]
  | none =>
    refine (e.sort_perm _).trans ?_
    have : l.filter (·.face != f) = l := by
      rw [List.filter_eq_self]
      intro a ha
      have := List.findIdx?_eq_none_iff.1 hi a ha
      simpa using this
    rw [this]
    exact List.perm_append_singleton _ _

theorem add_sorted (l : List NextHop) (f : FaceId) (c : Nat) : (addOrUpdateNextHop e l f c).1.Pairwise (fun a b => a.cost ≤ b.cost) := by
  unfold addOrUpdateNextHop
  split <;> exact e.sort_le _

theorem add_nodup {l : List NextHop} (hnd : (l.map (·.face)).Nodup) (f : FaceId) (c : Nat) :
    ((addOrUpdateNextHop e l f c).1.map (·.face)).Nodup := by
  refine ((add_perm (e := e) hnd f c).map _).nodup_iff.2 ?_
  rw [List.map_cons, List.nodup_cons]
  refine ⟨?_, List.Nodup.sublist (List.Sublist.map _ List.filter_sublist) hnd⟩
  intro hm
  obtain ⟨a, ha, hf⟩ := List.mem_map.1 hm
  have := (List.mem_filter.1 ha).2
  simp [hf] at this

/-! ### PIT records -/

theorem ins_faces (p : PitEntry) (f : FaceId) (i : FwInterest) (now : Time) :
    (insertOrUpdateIn p f i now).ins.map (·.face) = if p.ins.any (·.face == f) then p.ins.map (·.face) else f :: p.ins.map (·.face) := by
  unfold insertOrUpdateIn
  simp only [List.map_map]
  have hf : ((fun r : InRec => r.face) ∘ fun r : InRec =>
      if r.face = f then { r with nonce := i.nonce, renewed := now, expiry := recExpiry now i, interest := i } else r) = fun r => r.face := by
    funext r; simp only [Function.comp]; split <;> rfl
  rw [hf]
  split <;> rfl

theorem outs_faces (p : PitEntry) (f : FaceId) (i : FwInterest) (now : Time) :
    (insertOrUpdateOut p f i now).outs.map (·.face) = if p.outs.any (·.face == f) then p.outs.map (·.face) else f :: p.outs.map (·.face) := by
  unfold insertOrUpdateOut
  simp only [List.map_map]
  have hf : ((fun r : OutRec => r.face) ∘ fun r : OutRec =>
      if r.face = f then { r with nonce := i.nonce, renewed := now, expiry := recExpiry now i } else r) = fun r => r.face := by
    funext r; simp only [Function.comp]; split <;> rfl
  rw [hf]
  split <;> rfl

/-- At most one in-record and one out-record per face. -/
def RecsOk (p : PitEntry) : Prop := (p.ins.map (·.face)).Nodup ∧ (p.outs.map (·.face)).Nodup

theorem recsOk_in {p : PitEntry} (h : RecsOk p) (f : FaceId) (i : FwInterest) (now : Time) : RecsOk (insertOrUpdateIn p f i now) := by
  refine ⟨?_, h.2⟩
  rw [ins_faces]
  split
  · exact h.1
  · rename_i hn
    rw [List.nodup_cons]
    refine ⟨?_, h.1⟩
    simpa using hn

theorem recsOk_out {p : PitEntry} (h : RecsOk p) (f : FaceId) (i : FwInterest) (now : Time) : RecsOk (insertOrUpdateOut p f i now) := by
  refine ⟨h.1, ?_⟩
  rw [outs_faces]
  split
  · exact h.2
  · rename_i hn
    rw [List.nodup_cons]
    refine ⟨?_, h.2⟩
    simpa using hn

theorem recsOk_delIn {p : PitEntry} (h : RecsOk p) (f : FaceId) : RecsOk (deleteIn p f) := ⟨eraseP_map_nodup _ h.1, h.2⟩
theorem recsOk_delOut {p : PitEntry} (h : RecsOk p) (f : FaceId) : RecsOk (deleteOut p f) := ⟨h.1, eraseP_map_nodup _ h.2⟩
theorem recsOk_clear {p : PitEntry} (h : RecsOk p) : RecsOk (clearIns p) := ⟨by simp [clearIns], h.2⟩
theorem recsOk_nack {p : PitEntry} (h : RecsOk p) (f : FaceId) (n r : Nat) : RecsOk (setNack p f n r) := by
  refine ⟨h.1, ?_⟩
  unfold setNack
  simp only [List.map_map]
  have hf : ((fun r : OutRec => r.face) ∘ fun x : OutRec => if x.face = f ∧ x.nonce = n then { x with nack := some r } else x) = fun r => r.face := by
    funext r; simp only [Function.comp]; split <;> rfl
  rw [hf]; exact h.2
theorem recsOk_clearInfo {p : PitEntry} (h : RecsOk p) : RecsOk (clearPitInfo p) := by
  refine ⟨?_, ?_⟩
  · have : (clearPitInfo p).ins.map (·.face) = p.ins.map (·.face) := by simp [clearPitInfo, Function.comp_def]
    rw [this]; exact h.1
  · have : (clearPitInfo p).outs.map (·.face) = p.outs.map (·.face) := by simp [clearPitInfo, Function.comp_def]
    rw [this]; exact h.2

/-! ### Invariant -/

structure NodeInv (n : Name) (x : Tbl) : Prop where
  fib : ∀ l, x.fib = some l → l.Pairwise (fun a b => a.cost ≤ b.cost) ∧ (l.map (·.face)).Nodup
  place : ∀ p ∈ x.pit, pitNode p.interest.name = n
  recs : ∀ p ∈ x.pit, RecsOk p
  keys : (x.pit.map (·.interest.toInterest)).Nodup
  meas : ∀ m, x.meas = some m → m.cleanupAt = m.expiry

/-- There is a PIT entry with these selectors. -/
def HasPit (v : Name → Tbl) (i : Interest) : Prop := ∃ p ∈ (v (pitNode i.name)).pit, p.interest.toInterest = i

structure Inv (e : Env) (s : Tables) : Prop where
  tree : TreeInv e.cfg s.nt
  node : ∀ n, NodeInv n (view e s n)
  root : (view e s []).sc.isSome
  nPit : Counted (HasPit (view e s)) s.nPit
  nMeas : Counted (fun n => (view e s n).meas.isSome) s.nMeas
  nSc : Counted (fun n => (view e s n).sc.isSome) s.nSc

theorem nodeInv_empty (n : Name) : NodeInv n {} where
  fib := by simp
  place := by simp
  recs := by simp
  keys := by simp
  meas := by simp

theorem node_upd {v : Name → Tbl} (h : ∀ n, NodeInv n (v n)) {n : Name} {f : Tbl → Tbl} (hf : NodeInv n (f (v n))) : ∀ m, NodeInv m (upd v n f m) := by
  intro m
  by_cases hm : m = n
  · subst hm; rwa [upd_same]
  · rw [upd_ne _ _ hm]; exact h m

theorem counted_upd {P : Tbl → Prop} {v : Name → Tbl} {k : Nat} (h : Counted (fun n => P (v n)) k) {n : Name} {f : Tbl → Tbl}
    (hf : P (f (v n)) ↔ P (v n)) : Counted (fun m => P (upd v n f m)) k :=
  h.congr (fun m => by
    by_cases hm : m = n
    · subst hm; rw [upd_same, hf]
    · rw [upd_ne _ _ hm])

theorem counted_upd_add {P : Tbl → Prop} {v : Name → Tbl} {k : Nat} (h : Counted (fun n => P (v n)) k) {n : Name} {f : Tbl → Tbl}
    (hf : P (f (v n))) (hn : ¬ P (v n)) : Counted (fun m => P (upd v n f m)) (k + 1) :=
  (h.add hn).congr (fun m => by
    by_cases hm : m = n
    · subst hm; simp [upd_same, hf]
    · simp [upd_ne _ _ hm, hm])

theorem counted_upd_del {P : Tbl → Prop} {v : Name → Tbl} {k : Nat} (h : Counted (fun n => P (v n)) k) {n : Name} {f : Tbl → Tbl}
    (hf : ¬ P (f (v n))) (hn : P (v n)) : Counted (fun m => P (upd v n f m)) (k - 1) :=
  (h.del hn).congr (fun m => by
    by_cases hm : m = n
    · subst hm; simp [upd_same, hf]
    · simp [upd_ne _ _ hm, hm])

theorem hasPit_upd {v : Name → Tbl} {n : Name} {f : Tbl → Tbl} (hf : (f (v n)).pit = (v n).pit) (i : Interest) : HasPit (upd v n f) i ↔ HasPit v i := by
  unfold HasPit
  by_cases hm : pitNode i.name = n
  · rw [hm, upd_same, hf]
  · rw [upd_ne _ _ hm]

/-- An operation that leaves the PIT alone. -/
theorem inv_upd_nopit (h : Inv e s) {t : Tree Tbl} {n : Name} {f : Tbl → Tbl} {a b c d tm : Nat} (ht : TreeInv e.cfg t)
    (hv : vw e t = upd (view e s) n f) (hf : NodeInv n (f (view e s n))) (hp : (f (view e s n)).pit = (view e s n).pit)
    (hb : b = s.nPit) (hroot : n = [] → (f (view e s n)).sc.isSome)
    (hm : Counted (fun m => (vw e t m).meas.isSome) c) (hs : Counted (fun m => (vw e t m).sc.isSome) d) :
    Inv e ⟨t, a, b, c, d, tm⟩ where
  tree := ht
  node := by intro m; rw [view_with, hv]; exact node_upd h.node hf m
  root := by
    rw [view_with, hv]
    by_cases hn : n = []
    · subst hn; rw [upd_same]; exact hroot rfl
    · rw [upd_ne _ _ (fun hh => hn hh.symm)]; exact h.root
  nPit := by
    rw [view_with, hv]; subst hb
    exact h.nPit.congr (fun i => (hasPit_upd hp i).symm)
  nMeas := hm
  nSc := hs

/-- An operation that only changes the PIT entries at one node. -/
theorem inv_upd_pit (h : Inv e s) {t : Tree Tbl} {n : Name} {g : List PitEntry → List PitEntry} {a b tm : Nat} (ht : TreeInv e.cfg t)
    (hv : vw e t = upd (view e s) n (fun x => { x with pit := g x.pit }))
    (hp : ∀ p ∈ g (view e s n).pit, pitNode p.interest.name = n) (hr : ∀ p ∈ g (view e s n).pit, RecsOk p)
    (hk : ((g (view e s n).pit).map (·.interest.toInterest)).Nodup) (hc : Counted (HasPit (vw e t)) b) :
    Inv e ⟨t, a, b, s.nMeas, s.nSc, tm⟩ where
  tree := ht
  node := by
    intro m; rw [view_with, hv]
    exact node_upd h.node ⟨(h.node n).fib, hp, hr, hk, (h.node n).meas⟩ m
  root := by
    rw [view_with, hv]
    by_cases hn : n = []
    · subst hn; rw [upd_same]; exact h.root
    · rw [upd_ne _ _ (fun hh => hn hh.symm)]; exact h.root
  nPit := hc
  nMeas := by rw [view_with, hv]; exact counted_upd (P := fun x => x.meas.isSome) h.nMeas Iff.rfl
  nSc := by rw [view_with, hv]; exact counted_upd (P := fun x => x.sc.isSome) h.nSc Iff.rfl

theorem inv_same (h : Inv e s) {t : Tree Tbl} {a tm : Nat} (ht : TreeInv e.cfg t) (hv : vw e t = view e s) : Inv e ⟨t, a, s.nPit, s.nMeas, s.nSc, tm⟩ where
  tree := ht
  node := by rw [view_with, hv]; exact h.node
  root := by rw [view_with, hv]; exact h.root
  nPit := by rw [view_with, hv]; exact h.nPit
  nMeas := by rw [view_with, hv]; exact h.nMeas
  nSc := by rw [view_with, hv]; exact h.nSc

theorem inv_pitMod (h : Inv e s) {i : Interest} {f : PitEntry → PitEntry} (hk : ∀ p, (f p).interest = p.interest)
    (hr : ∀ p, RecsOk p → RecsOk (f p)) (hm : pitMod e s i f = some s') : Inv e s' := by
  obtain ⟨p, t, h1, rfl, h2, h3⟩ := pitMod_fwd h.tree hm
  have hint : ∀ q : PitEntry, (if sameKey i q then f q else q).interest = q.interest := by intro q; split; exact hk q; rfl
  have hkeys : ∀ l : List PitEntry, (l.map (fun p => if sameKey i p then f p else p)).map (·.interest.toInterest) = l.map (·.interest.toInterest) := by
    intro l
    rw [List.map_map]
    apply List.map_congr_left
    intro q _
    simp only [Function.comp, hint]
  refine inv_upd_pit h (g := fun l => l.map (fun p => if sameKey i p then f p else p)) h2 h3 ?_ ?_ ?_ ?_
  · intro q hq
    obtain ⟨q', hq', rfl⟩ := List.mem_map.1 hq
    rw [hint]
    exact (h.node _).place q' hq'
  · intro q hq
    obtain ⟨q', hq', rfl⟩ := List.mem_map.1 hq
    have := (h.node _).recs q' hq'
    split
    · exact hr _ this
    · exact this
  · rw [hkeys]; exact (h.node _).keys
  · rw [h3]
    refine h.nPit.congr (fun k => ?_)
    unfold HasPit
    by_cases hn : pitNode k.name = pitNode i.name
    · rw [hn, upd_same]
      simp only [List.mem_map]
      constructor
      · rintro ⟨q, hq, hqk⟩; exact ⟨_, ⟨q, hq, rfl⟩, by rw [hint]; exact hqk⟩
      · rintro ⟨_, ⟨q, hq, rfl⟩, hqk⟩; exact ⟨q, hq, by rwa [hint] at hqk⟩
    · rw [upd_ne _ _ hn]

theorem inv_measGot (h : Inv e s) {n : Name} (hg : MeasGot e s s' n) : Inv e s' := by
  obtain ⟨t, k, rfl, h1, ⟨-, rfl, hv⟩ | ⟨hn, rfl, hv⟩⟩ := hg
  · exact inv_same h h1 hv
  · refine inv_upd_nopit h h1 hv ⟨(h.node n).fib, (h.node n).place, (h.node n).recs, (h.node n).keys, ?_⟩ rfl rfl (by rintro rfl; exact h.root) ?_ ?_
    · intro m hm; simp at hm; subst hm; rfl
    · rw [hv]; exact counted_upd_add (P := fun x => x.meas.isSome) h.nMeas (by simp) (by simp [hn])
    · rw [hv]; exact counted_upd (P := fun x => x.sc.isSome) h.nSc Iff.rfl

theorem nodeInv_clearInfo {n : Name} {x : Tbl} (h : NodeInv n x) : NodeInv n (clearInfo x) where
  fib := h.fib
  place := by
    intro p hp
    obtain ⟨q, hq, rfl⟩ := List.mem_map.1 hp
    exact h.place q hq
  recs := by
    intro p hp
    obtain ⟨q, hq, rfl⟩ := List.mem_map.1 hp
    exact recsOk_clearInfo (h.recs q hq)
  keys := by
    have : (clearInfo x).pit.map (·.interest.toInterest) = x.pit.map (·.interest.toInterest) := by
      simp [clearInfo, clearPitInfo, Function.comp_def]
    rw [this]; exact h.keys
  meas := by
    intro m hm
    simp only [clearInfo, Option.map_eq_some_iff] at hm
    obtain ⟨m', hm', rfl⟩ := hm
    exact h.meas m' hm'

theorem nodeInv_sc {n : Name} {x : Tbl} (h : NodeInv n x) (sc : Option Name) : NodeInv n { x with sc := sc } :=
  ⟨h.fib, h.place, h.recs, h.keys, h.meas⟩

theorem hasPit_clear {v v' : Name → Tbl} (hv : ∀ m, (v' m).pit = (v m).pit ∨ (v' m).pit = (v m).pit.map clearPitInfo) (i : Interest) :
    HasPit v' i ↔ HasPit v i := by
  unfold HasPit
  rcases hv (pitNode i.name) with h | h
  · rw [h]
  · rw [h]
    simp only [List.mem_map]
    constructor
    · rintro ⟨_, ⟨q, hq, rfl⟩, hqk⟩; exact ⟨q, hq, hqk⟩
    · rintro ⟨q, hq, hqk⟩; exact ⟨_, ⟨q, hq, rfl⟩, hqk⟩

/-- Either the entry at `p` has just been changed, or in addition cleared. -/
theorem ScChanged.cases {v v' : Name → Tbl} {p old new : Name} {sc : Option Name} (h : ScChanged e v v' p old new sc) (m : Name) :
    v' m = upd v p (fun x => { x with sc := sc }) m ∨ v' m = clearInfo (upd v p (fun x => { x with sc := sc }) m) := by
  cases hs : areSameType e old new with
  | true => left; rw [h.1 hs]
  | false =>
    obtain ⟨h1, h2⟩ := h.2 hs m
    by_cases hc : Covers v p m
    · right; exact h1 hc
    · left; exact h2 hc

theorem ScChanged.sc_eq {v v' : Name → Tbl} {p old new : Name} {sc : Option Name} (h : ScChanged e v v' p old new sc) (m : Name) :
    (v' m).sc = if m = p then sc else (v m).sc := by
  have : (v' m).sc = (upd v p (fun x => { x with sc := sc }) m).sc := by
    rcases h.cases m with h | h <;> rw [h] <;> rfl
  rw [this]
  by_cases hm : m = p
  · subst hm; simp [upd_same]
  · simp [upd_ne _ _ hm, hm]

theorem inv_scChanged (h : Inv e s) {t : Tree Tbl} {p old new : Name} {sc : Option Name} {a k tm : Nat} (ht : TreeInv e.cfg t)
    (hc : ScChanged e (view e s) (vw e t) p old new sc) (hr : p = [] → sc.isSome)
    (hk : Counted (fun m => (if m = p then sc else (view e s m).sc).isSome) k) : Inv e ⟨t, a, s.nPit, s.nMeas, k, tm⟩ := by
  have base : ∀ m, NodeInv m (upd (view e s) p (fun x => { x with sc := sc }) m) := node_upd h.node (nodeInv_sc (h.node p) sc)
  have hpit : ∀ m, (upd (view e s) p (fun x => { x with sc := sc }) m).pit = (view e s m).pit := by
    intro m
    by_cases hm : m = p
    · subst hm; rw [upd_same]
    · rw [upd_ne _ _ hm]
  have hmeas : ∀ m, (upd (view e s) p (fun x => { x with sc := sc }) m).meas = (view e s m).meas := by
    intro m
    by_cases hm : m = p
    · subst hm; rw [upd_same]
    · rw [upd_ne _ _ hm]
  refine ⟨ht, ?_, ?_, ?_, ?_, ?_⟩
  · intro m
    rw [view_with]
    rcases hc.cases m with hm | hm
    · rw [hm]; exact base m
    · rw [hm]; exact nodeInv_clearInfo (base m)
  · rw [view_with, hc.sc_eq]
    split
    · rename_i hp; exact hr hp.symm
    · exact h.root
  · rw [view_with]
    refine h.nPit.congr (fun i => (hasPit_clear (fun m => ?_) i).symm)
    rcases hc.cases m with hm | hm
    · left; rw [hm, hpit]
    · right; rw [hm]; simp only [clearInfo]; rw [hpit]
  · rw [view_with]
    refine h.nMeas.congr (fun m => ?_)
    rcases hc.cases m with hm | hm
    · rw [hm, hmeas]
    · rw [hm]; simp only [clearInfo, Option.isSome_map]; rw [hmeas]
  · rw [view_with]
    exact hk.congr (fun m => by rw [hc.sc_eq])

theorem deleteInOut_interest (p : PitEntry) (f : FaceId) : (deleteInOut p f).interest = p.interest := rfl

theorem nodeInv_clean {n : Name} {x : Tbl} (h : NodeInv n x) (f : FaceId) : NodeInv n (cleanTbl f x) where
  fib := by
    intro l hl
    simp only [cleanTbl, Option.bind_eq_some_iff] at hl
    obtain ⟨l0, h0, hl⟩ := hl
    obtain ⟨h1, h2⟩ := h.fib l0 h0
    split at hl
    · cases hl; exact ⟨h1, h2⟩
    · split at hl
      · simp at hl
      · cases hl
        exact ⟨List.Pairwise.sublist List.eraseP_sublist h1, eraseP_map_nodup _ h2⟩
  place := by
    intro p hp
    obtain ⟨q, hq, rfl⟩ := List.mem_map.1 hp
    exact h.place q hq
  recs := by
    intro p hp
    obtain ⟨q, hq, rfl⟩ := List.mem_map.1 hp
    exact recsOk_delOut (recsOk_delIn (h.recs q hq) f) f
  keys := by
    have : (cleanTbl f x).pit.map (·.interest.toInterest) = x.pit.map (·.interest.toInterest) := by
      simp [cleanTbl, deleteInOut_interest, Function.comp_def]
    rw [this]; exact h.keys
  meas := h.meas

theorem step_inv (h : Inv e s) (op : Op) (hop : op.run e s = some s') : Inv e s' := by
  cases op with
  | fibInsert p =>
    simp only [Op.run, Option.map_eq_some_iff] at hop
    obtain ⟨⟨s1, b⟩, h1, rfl⟩ := hop
    obtain ⟨t, rfl, h2, h3, -, -⟩ := fibInsert_fwd h.tree h1
    refine inv_upd_nopit h h2 h3 ⟨?_, (h.node p).place, (h.node p).recs, (h.node p).keys, (h.node p).meas⟩ rfl rfl (by rintro rfl; exact h.root) ?_ ?_
    · intro l hl
      simp only [Option.some.injEq] at hl
      cases hf : (view e s p).fib with
      | none => rw [hf] at hl; simp at hl; subst hl; simp
      | some l0 => rw [hf] at hl; simp at hl; subst hl; exact (h.node p).fib _ hf
    · rw [h3]; exact counted_upd (P := fun x => x.meas.isSome) h.nMeas Iff.rfl
    · rw [h3]; exact counted_upd (P := fun x => x.sc.isSome) h.nSc Iff.rfl
  | fibErase p =>
    simp only [Op.run] at hop
    rcases fibErase_fwd h.tree hop with ⟨rfl, -⟩ | ⟨t, rfl, h2, h3⟩
    · exact h
    · refine inv_upd_nopit h h2 h3 ⟨by simp, (h.node p).place, (h.node p).recs, (h.node p).keys, (h.node p).meas⟩ rfl rfl (by rintro rfl; exact h.root) ?_ ?_
      · rw [h3]; exact counted_upd (P := fun x => x.meas.isSome) h.nMeas Iff.rfl
      · rw [h3]; exact counted_upd (P := fun x => x.sc.isSome) h.nSc Iff.rfl
  | fibSet p f c =>
    simp only [Op.run, Option.map_eq_some_iff] at hop
    obtain ⟨⟨s1, o⟩, h1, rfl⟩ := hop
    obtain ⟨l, t, hl, rfl, h2, h3, -⟩ := fibSet_fwd h.tree h1
    refine inv_upd_nopit h h2 h3 ⟨?_, (h.node p).place, (h.node p).recs, (h.node p).keys, (h.node p).meas⟩ rfl rfl (by rintro rfl; exact h.root) ?_ ?_
    · intro l' hl'
      simp only [Option.some.injEq] at hl'
      subst hl'
      exact ⟨add_sorted l f c, add_nodup ((h.node p).fib l hl).2 f c⟩
    · rw [h3]; exact counted_upd (P := fun x => x.meas.isSome) h.nMeas Iff.rfl
    · rw [h3]; exact counted_upd (P := fun x => x.sc.isSome) h.nSc Iff.rfl
  | fibUnset p f =>
    simp only [Op.run, Option.map_eq_some_iff] at hop
    obtain ⟨⟨s1, o⟩, h1, rfl⟩ := hop
    obtain ⟨l, hl, h2⟩ := fibUnset_fwd h.tree h1
    rcases h2 with ⟨-, rfl, -⟩ | ⟨-, -, -, t, rfl, h2, h3⟩ | ⟨-, -, -, t, rfl, h2, h3⟩
    · exact h
    · refine inv_upd_nopit h h2 h3 ⟨by simp, (h.node p).place, (h.node p).recs, (h.node p).keys, (h.node p).meas⟩ rfl rfl (by rintro rfl; exact h.root) ?_ ?_
      · rw [h3]; exact counted_upd (P := fun x => x.meas.isSome) h.nMeas Iff.rfl
      · rw [h3]; exact counted_upd (P := fun x => x.sc.isSome) h.nSc Iff.rfl
    · refine inv_upd_nopit h h2 h3 ⟨?_, (h.node p).place, (h.node p).recs, (h.node p).keys, (h.node p).meas⟩ rfl rfl (by rintro rfl; exact h.root) ?_ ?_
      · intro l' hl'
        simp only [Option.some.injEq] at hl'
        subst hl'
        obtain ⟨a, b⟩ := (h.node p).fib l hl
        exact ⟨List.Pairwise.sublist List.eraseP_sublist a, eraseP_map_nodup _ b⟩
      · rw [h3]; exact counted_upd (P := fun x => x.meas.isSome) h.nMeas Iff.rfl
      · rw [h3]; exact counted_upd (P := fun x => x.sc.isSome) h.nSc Iff.rfl
  | pitInsert i =>
    simp only [Op.run, Option.map_eq_some_iff] at hop
    obtain ⟨⟨s1, p, b⟩, h1, rfl⟩ := hop
    rcases pitInsert_fwd h.tree h1 with ⟨t, -, -, rfl, h2, h3⟩ | ⟨t, hnone, -, -, rfl, h2, h3⟩
    · exact inv_same h h2 h3
    · rw [findIn_eq ((h.node _).place)] at hnone
      have hno : ∀ q ∈ (view e s (pitNode i.name)).pit, q.interest.toInterest ≠ i.toInterest := by
        intro q hq
        have := List.find?_eq_none.1 hnone q hq
        simpa [sameKey] using this
      refine inv_upd_pit h (g := fun l => l ++ [{ interest := i }]) h2 h3 ?_ ?_ ?_ ?_
      · intro q hq
        rcases List.mem_append.1 hq with hq | hq
        · exact (h.node _).place q hq
        · simp only [List.mem_singleton] at hq; subst hq; rfl
      · intro q hq
        rcases List.mem_append.1 hq with hq | hq
        · exact (h.node _).recs q hq
        · simp only [List.mem_singleton] at hq; subst hq; exact ⟨by simp, by simp⟩
      · rw [List.map_append, List.nodup_append]
        refine ⟨(h.node _).keys, by simp, ?_⟩
        intro a ha b hb
        obtain ⟨q, hq, rfl⟩ := List.mem_map.1 ha
        simp only [List.map_cons, List.map_nil, List.mem_singleton] at hb
        subst hb
        exact hno q hq
      · rw [h3]
        have : ¬ HasPit (view e s) i.toInterest := by
          rintro ⟨q, hq, hk⟩; exact hno q hq hk
        refine (h.nPit.add this).congr (fun k => ?_)
        unfold HasPit
        by_cases hn : pitNode k.name = pitNode i.name
        · rw [hn, upd_same]
          simp only [List.mem_append, List.mem_singleton]
          constructor
          · rintro (rfl | ⟨q, hq, hqk⟩)
            · exact ⟨_, .inr rfl, rfl⟩
            · exact ⟨q, .inl hq, hqk⟩
          · rintro ⟨q, hq | rfl, hqk⟩
            · exact .inr ⟨q, hq, hqk⟩
            · exact .inl hqk.symm
        · rw [upd_ne _ _ hn]
          constructor
          · rintro (rfl | hq)
            · exact absurd rfl hn
            · exact hq
          · exact .inr
  | pitErase i =>
    simp only [Op.run] at hop
    obtain ⟨j, t, hj, rfl, h2, h3⟩ := pitErase_fwd h.tree hop
    obtain ⟨p, -, hpi, hpm, hlt, hmem⟩ := keys_eraseIdx (h.node _).keys hj
    have hperm := swapErase_perm hlt
    refine inv_upd_pit h (g := fun l => swapErase l j) h2 h3 ?_ ?_ ?_ ?_
    · intro q hq
      exact (h.node _).place q ((hmem q).1 (hperm.mem_iff.1 hq)).1
    · intro q hq
      exact (h.node _).recs q ((hmem q).1 (hperm.mem_iff.1 hq)).1
    · refine ((hperm.map _).nodup_iff).2 ?_
      exact List.Nodup.sublist (List.Sublist.map _ (List.eraseIdx_sublist _ _)) (h.node _).keys
    · rw [h3]
      have : HasPit (view e s) i := ⟨p, hpm, hpi⟩
      refine (h.nPit.del this).congr (fun k => ?_)
      unfold HasPit
      by_cases hn : pitNode k.name = pitNode i.name
      · rw [hn, upd_same]
        constructor
        · rintro ⟨hk, q, hq, rfl⟩
          exact ⟨q, hperm.mem_iff.2 ((hmem q).2 ⟨hq, hk⟩), rfl⟩
        · rintro ⟨q, hq, rfl⟩
          obtain ⟨a, b⟩ := (hmem q).1 (hperm.mem_iff.1 hq)
          exact ⟨b, q, a, rfl⟩
      · rw [upd_ne _ _ hn]
        constructor
        · rintro ⟨-, hq⟩; exact hq
        · intro hq; exact ⟨by rintro rfl; exact hn rfl, hq⟩
  | pitIn i f n lt => exact inv_pitMod h (by exact fun _ => rfl) (by exact fun p hp => recsOk_in hp _ _ _) hop
  | pitOut i f n lt => exact inv_pitMod h (by exact fun _ => rfl) (by exact fun p hp => recsOk_out hp _ _ _) hop
  | pitDelIn i f => exact inv_pitMod h (by exact fun _ => rfl) (by exact fun p hp => recsOk_delIn hp _) hop
  | pitClearIn i => exact inv_pitMod h (by exact fun _ => rfl) (by exact fun p hp => recsOk_clear hp) hop
  | pitDelOut i f => exact inv_pitMod h (by exact fun _ => rfl) (by exact fun p hp => recsOk_delOut hp _) hop
  | pitNack i f n r => exact inv_pitMod h (by exact fun _ => rfl) (by exact fun p hp => recsOk_nack hp _ _ _) hop
  | pitWrite i =>
    simp only [Op.run, pitWrite, Option.bind_eq_bind, Option.bind_eq_some_iff] at hop
    obtain ⟨inst, -, ty, -, hop⟩ := hop
    refine inv_pitMod h ?_ ?_ hop
    · intro p; rfl
    intro p hp
    refine ⟨?_, ?_⟩
    · have := hp.1
      simpa [Function.comp_def] using this
    · have := hp.2
      simpa [Function.comp_def] using this
  | scInsert p st =>
    simp only [Op.run, Option.map_eq_some_iff] at hop
    obtain ⟨⟨s1, r⟩, h1, rfl⟩ := hop
    rcases scInsert_fwd h.tree h1 with ⟨-, -, rfl⟩ | ⟨-, -, -, rfl⟩ | ⟨-, -, -, rfl⟩ | ⟨inst, -, -, -, h2⟩
    · exact h
    · exact h
    · exact h
    · rcases h2 with ⟨t, -, rfl, h3, h4⟩ | ⟨cur, t, hcur, -, rfl, h3, h4⟩ | ⟨t, -, old, hnone, -, -, -, rfl, h3, h4⟩
      · exact inv_same h h3 h4
      · refine inv_scChanged h h3 h4 (fun _ => rfl) (h.nSc.congr (fun m => ?_))
        by_cases hm : m = p
        · subst hm; simp [hcur]
        · simp [hm]
      · refine inv_scChanged h h3 h4 (fun _ => rfl) ((h.nSc.add (a := p) (by simp [hnone])).congr (fun m => ?_))
        by_cases hm : m = p
        · subst hm; simp
        · simp [hm]
  | scErase p =>
    simp only [Op.run] at hop
    obtain ⟨hp, ⟨rfl, -⟩ | ⟨old, parent, t, hold, -, rfl, h3, h4⟩⟩ := scErase_fwd h.tree hop
    · exact h
    · refine inv_scChanged h h3 h4 (fun hh => absurd hh hp) ((h.nSc.del (a := p) (by simp [hold])).congr (fun m => ?_))
      by_cases hm : m = p
      · subst hm; simp
      · simp [hm]
  | measGet n => exact inv_measGot h (measGet_fwd h.tree hop)
  | measGetFib p => exact inv_measGot h (measGetFib_fwd h.tree hop)
  | measGetPit i => exact inv_measGot h (measGetPit_fwd h.tree hop).2
  | measGetParent n =>
    rcases measGetParent_fwd h.tree hop with ⟨-, rfl⟩ | ⟨-, hg⟩
    · exact h
    · exact inv_measGot h hg
  | measExtend n lt =>
    obtain ⟨m, hm, ⟨-, rfl⟩ | ⟨-, t, rfl, h2, h3⟩⟩ := measExtend_fwd h.tree hop
    · exact h
    · refine inv_upd_nopit h h2 h3 ⟨(h.node n).fib, (h.node n).place, (h.node n).recs, (h.node n).keys, ?_⟩ rfl rfl (by rintro rfl; exact h.root) ?_ ?_
      · intro m hm; simp at hm; subst hm; rfl
      · rw [h3]; exact counted_upd (P := fun x => x.meas.isSome) h.nMeas (by simp [hm])
      · rw [h3]; exact counted_upd (P := fun x => x.sc.isSome) h.nSc Iff.rfl
  | measCleanup n =>
    obtain ⟨m, hm, ⟨-, rfl⟩ | ⟨-, t, rfl, h2, h3⟩⟩ := measCleanup_fwd h.tree hop
    · exact h
    · refine inv_upd_nopit h h2 h3 ⟨(h.node n).fib, (h.node n).place, (h.node n).recs, (h.node n).keys, by simp⟩ rfl rfl (by rintro rfl; exact h.root) ?_ ?_
      · rw [h3]; exact counted_upd_del (P := fun x => x.meas.isSome) h.nMeas (by simp) (by simp [hm])
      · rw [h3]; exact counted_upd (P := fun x => x.sc.isSome) h.nSc Iff.rfl
  | measWrite n =>
    obtain ⟨m, inst, ty, t, hm, -, -, rfl, h2, h3⟩ := measWrite_fwd h.tree hop
    refine inv_upd_nopit h h2 h3 ⟨(h.node n).fib, (h.node n).place, (h.node n).recs, (h.node n).keys, ?_⟩ rfl rfl (by rintro rfl; exact h.root) ?_ ?_
    · intro m' hm'; simp at hm'; subst hm'; exact (h.node n).meas m hm
    · rw [h3]; exact counted_upd (P := fun x => x.meas.isSome) h.nMeas (by simp [hm])
    · rw [h3]; exact counted_upd (P := fun x => x.sc.isSome) h.nSc Iff.rfl
  | cleanup f =>
    obtain ⟨t, h2, h3, rfl, -⟩ := cleanup_fwd h.tree hop
    refine ⟨h2, ?_, ?_, ?_, ?_, ?_⟩
    · intro m; rw [view_with, h3]; exact nodeInv_clean (h.node m) f
    · rw [view_with, h3]; exact h.root
    · rw [view_with]
      refine h.nPit.congr (fun i => ?_)
      unfold HasPit
      rw [h3]
      simp only [cleanTbl, List.mem_map]
      constructor
      · rintro ⟨q, hq, hk⟩; exact ⟨_, ⟨q, hq, rfl⟩, hk⟩
      · rintro ⟨_, ⟨q, hq, rfl⟩, hk⟩; exact ⟨q, hq, hk⟩
    · rw [view_with]; exact h.nMeas.congr (fun m => by rw [h3]; rfl)
    · rw [view_with]; exact h.nSc.congr (fun m => by rw [h3]; rfl)
  | tick dt =>
    simp only [Op.run, Option.some.injEq] at hop
    subst hop
    exact inv_same h h.tree rfl

theorem init_inv {d : Name} (h : init e d = some s) : Inv e s := by
  unfold init scDefault at h
  cases hc : e.create d with
  | ok inst =>
    simp only [hc, Option.bind_eq_bind, Option.bind_eq_some_iff] at h
    obtain ⟨t, h1, t2, h2, h⟩ := h
    cases h
    obtain ⟨i1, v1, -⟩ := fwd_lookup (Nt.init_treeInv e.cfg) h1
    obtain ⟨i2, v2, -⟩ := fwd_setTbl i1 h2
    have h0 : vw e (Nt.Hashtable.init e.opts) = fun _ => {} := by
      funext m; simp [vw, tblOf, Nt.init_find]
    have hv : vw e t2 = upd (fun _ => {}) [] (fun x => { x with sc := some inst }) := by rw [v2, v1, ← h0]
    have hm : ∀ m, vw e t2 m = if m = [] then { sc := some inst } else {} := by
      intro m; rw [hv]; rfl
    refine ⟨i2, ?_, ?_, ?_, ?_, ?_⟩
    · intro m; rw [view_with, hm]
      split
      · exact nodeInv_sc (nodeInv_empty _) _
      · exact nodeInv_empty _
    · rw [view_with, hm]; rfl
    · refine ⟨[], by simp, rfl, fun i => ?_⟩
      simp only [List.not_mem_nil, false_iff]
      rintro ⟨p, hp, -⟩
      rw [view_with, hm] at hp
      split at hp <;> simp at hp
    · refine ⟨[], by simp, rfl, fun m => ?_⟩
      show _ ↔ (vw e t2 m).meas.isSome = true
      rw [hm]
      split <;> simp
    · refine ⟨[[]], by simp, rfl, fun m => ?_⟩
      show _ ↔ (vw e t2 m).sc.isSome = true
      rw [hm]
      split <;> simp_all
  | _ => simp [hc] at h

theorem run_inv (ops : List Op) : ∀ {s s' : Tables}, Inv e s → run e s ops = some s' → Inv e s' := by
  induction ops with
  | nil => intro s s' h hr; cases hr; exact h
  | cons op ops ih =>
    intro s s' h hr
    rw [run, Option.bind_eq_some_iff] at hr
    obtain ⟨s1, h1, h2⟩ := hr
    exact ih (step_inv h op h1) h2

theorem Reachable.inv {d : Name} (h : Reachable e d s) : Inv e s := by
  obtain ⟨s0, ops, h1, h2⟩ := h
  exact run_inv ops (init_inv h1) h2

end Verif.Tb
