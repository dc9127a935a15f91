import Verif.Tables.Lpm
import Verif.Tables.Example

/-! C18–C20: the PIT. -/
namespace Verif.Tb

open Nt (maxDepth TreeInv)

variable {e : Env} {d : Name} {s s' : Tables}

/-! ### C18: one entry per (name, CanBePrefix, MustBeFresh) -/

/-- C18. Two live entries never share name, CanBePrefix and MustBeFresh. -/
theorem C18_unique (h : Reachable e d s) (p q : PitEntry) (hp : Live e s p) (hq : Live e s q)
    (hk : p.interest.toInterest = q.interest.toInterest) : p = q := live_unique h.inv hp hq hk

/-- C18. `size()` is the number of live entries. -/
theorem C18_size (h : Reachable e d s) : Counted (fun i : Interest => ∃ p, Live e s p ∧ p.interest.toInterest = i) s.nPit :=
  h.inv.nPit.congr (hasPit_live h.inv)

/-- C18. `insert` always succeeds. It returns the existing entry and changes no table when there is one with the Interest's
name, CanBePrefix and MustBeFresh; otherwise it adds one new entry, without records, and changes nothing else. -/
theorem C18_insert (h : Reachable e d s) (i : FwInterest) : ∃ s' p isNew, pitInsert e s i = some (s', p, isNew) ∧
    Live e s' p ∧ p.interest.toInterest = i.toInterest ∧
    (isNew = false → Live e s p ∧ view e s' = view e s) ∧
    (isNew = true → (∀ q, Live e s q → q.interest.toInterest ≠ i.toInterest) ∧ p = { interest := i } ∧
      (∀ q, Live e s' q ↔ Live e s q ∨ q = p) ∧
      ∀ n, (view e s' n).fib = (view e s n).fib ∧ (view e s' n).meas = (view e s n).meas ∧ (view e s' n).sc = (view e s n).sc) := by
  have hi := h.inv
  obtain ⟨t, ht, -⟩ := Nt.lookup_spec hi.tree (name := i.name) (k := pitDepth i.name) (pitDepth_le _) (pitDepth_max _)
  have hx : ∃ r, pitInsert e s i = some r := by
    unfold pitInsert
    rw [ht]
    simp only [Option.bind_eq_bind, Option.bind_some]
    split
    · exact ⟨_, rfl⟩
    · obtain ⟨i1, v1, -, -, h2, -⟩ := fwd_lookup hi.tree ht
      obtain ⟨t2, ht2⟩ := setTbl_ok i1 (n := pitNode i.name) (fun x => { x with pit := x.pit ++ [{ interest := i }] }) h2
      rw [ht2]
      exact ⟨_, rfl⟩
  obtain ⟨⟨s', p, b⟩, hr⟩ := hx
  refine ⟨s', p, b, hr, ?_⟩
  have hkey := find_key hi i.toInterest
  rcases pitInsert_fwd hi.tree hr with ⟨t, h1, rfl, rfl, h2, h3⟩ | ⟨t, h1, rfl, rfl, rfl, h2, h3⟩
  · rw [findIn_eq ((hi.node _).place)] at h1
    rw [h1] at hkey
    have hv : view e { s with nt := t } = view e s := h3
    refine ⟨?_, hkey.2, fun _ => ⟨hkey.1, hv⟩, by simp⟩
    obtain ⟨n, hn⟩ := hkey.1
    exact ⟨n, by rw [hv]; exact hn⟩
  · rw [findIn_eq ((hi.node _).place)] at h1
    rw [h1] at hkey
    have hv : view e { s with nt := t, nPit := s.nPit + 1 } = upd (view e s) (pitNode i.name) (fun x => { x with pit := x.pit ++ [{ interest := i }] }) := h3
    have hlive : ∀ q, Live e { s with nt := t, nPit := s.nPit + 1 } q ↔ Live e s q ∨ q = { interest := i } := by
      intro q
      unfold Live
      rw [hv]
      constructor
      · rintro ⟨n, hn⟩
        by_cases hm : n = pitNode i.name
        · subst hm
          rw [upd_same] at hn
          rcases List.mem_append.1 hn with hn | hn
          · exact .inl ⟨_, hn⟩
          · exact .inr (by simpa using hn)
        · rw [upd_ne _ _ hm] at hn; exact .inl ⟨n, hn⟩
      · rintro (⟨n, hn⟩ | rfl)
        · by_cases hm : n = pitNode i.name
          · subst hm
            exact ⟨_, by rw [upd_same]; exact List.mem_append.2 (.inl hn)⟩
          · exact ⟨n, by rw [upd_ne _ _ hm]; exact hn⟩
        · exact ⟨pitNode i.name, by rw [upd_same]; simp⟩
    refine ⟨(hlive _).2 (.inr rfl), rfl, by simp, fun _ => ⟨hkey, rfl, hlive, ?_⟩⟩
    intro n
    rw [hv]
    by_cases hm : n = pitNode i.name
    · subst hm; rw [upd_same]; exact ⟨rfl, rfl, rfl⟩
    · rw [upd_ne _ _ hm]; exact ⟨rfl, rfl, rfl⟩

/-- C18. `erase` of a live entry succeeds, removes exactly that entry and changes nothing else. -/
theorem C18_erase (h : Reachable e d s) (p : PitEntry) (hp : Live e s p) : ∃ s', pitErase e s p.interest.toInterest = some s' ∧
    (∀ q, Live e s' q ↔ Live e s q ∧ q ≠ p) ∧
    ∀ n, (view e s' n).fib = (view e s n).fib ∧ (view e s' n).meas = (view e s n).meas ∧ (view e s' n).sc = (view e s n).sc := by
  have hi := h.inv
  have hm := live_place hi hp
  have hx : ∃ r, pitErase e s p.interest.toInterest = some r := by
    unfold pitErase
    have : ∃ j, (view e s (pitNode p.interest.toInterest.name)).pit.findIdx? (sameKey p.interest.toInterest) = some j := by
      cases hf : (view e s (pitNode p.interest.toInterest.name)).pit.findIdx? (sameKey p.interest.toInterest) with
      | some j => exact ⟨j, rfl⟩
      | none =>
        have := List.findIdx?_eq_none_iff.1 hf p hm
        simp [sameKey] at this
    obtain ⟨j, hj⟩ := this
    have hst : (Nt.tblOf e.cfg s.nt (pitNode p.interest.toInterest.name)).isSome :=
      stored_of_vw (by intro hh; rw [view_eq, hh] at hm; simp at hm)
    obtain ⟨t, ht⟩ := setTbl_ok hi.tree (fun x => { x with pit := swapErase x.pit j }) hst
    obtain ⟨i1, -, -, hs⟩ := fwd_setTbl hi.tree ht
    obtain ⟨r, hr⟩ := eraseIfEmpty_ok i1 true (n := pitNode p.interest.toInterest.name) (by rw [hs]; exact hst)
    rw [hj]
    simp only [Option.bind_eq_bind, Option.bind_some, ht, hr]
    exact ⟨_, rfl⟩
  obtain ⟨s', hr⟩ := hx
  refine ⟨s', hr, ?_⟩
  obtain ⟨j, t, hj, rfl, h2, h3⟩ := pitErase_fwd hi.tree hr
  obtain ⟨p', -, hpi, hpm, hlt, hmem⟩ := keys_eraseIdx (hi.node _).keys hj
  have hperm := swapErase_perm hlt
  refine ⟨?_, ?_⟩
  · intro q
    have hq : Live e s q → (q ≠ p ↔ q.interest.toInterest ≠ p.interest.toInterest) := fun hq =>
      ⟨fun hne hk => hne (live_unique hi hq hp hk), by rintro hne rfl; exact hne rfl⟩
    unfold Live
    rw [view_with, h3]
    constructor
    · rintro ⟨n, hn⟩
      by_cases hm : n = pitNode p.interest.toInterest.name
      · subst hm
        rw [upd_same] at hn
        obtain ⟨a, b⟩ := (hmem q).1 (hperm.mem_iff.1 hn)
        exact ⟨⟨_, a⟩, (hq ⟨_, a⟩).2 b⟩
      · rw [upd_ne _ _ hm] at hn
        refine ⟨⟨n, hn⟩, ?_⟩
        rintro rfl
        exact hm ((hi.node n).place q hn).symm
    · rintro ⟨⟨n, hn⟩, hne⟩
      by_cases hm : n = pitNode p.interest.toInterest.name
      · subst hm
        refine ⟨pitNode p.interest.toInterest.name, ?_⟩
        rw [upd_same]
        exact hperm.mem_iff.2 ((hmem q).2 ⟨hn, (hq ⟨_, hn⟩).1 hne⟩)
      · exact ⟨n, by rw [upd_ne _ _ hm]; exact hn⟩
  · intro n
    rw [view_with, h3]
    by_cases hm : n = pitNode p.interest.toInterest.name
    · subst hm; rw [upd_same]; exact ⟨rfl, rfl, rfl⟩
    · rw [upd_ne _ _ hm]; exact ⟨rfl, rfl, rfl⟩

/-- C18. `find`, which changes nothing, gives the live entry with these selectors or reports that there is none. (`find` has
an assertion; see `C18_find_asserts` and `C70_no_useless_node_partial`.) -/
theorem C18_find (h : Reachable e d s) (i : Interest) (r : Option PitEntry) (hr : pitFind e s i = some r) :
    (∀ p, r = some p → Live e s p ∧ p.interest.toInterest = i) ∧ (r = none → ∀ p, Live e s p → p.interest.toInterest ≠ i) := by
  have hi := h.inv
  have hkey := find_key hi i
  unfold pitFind at hr
  have hfe : Nt.findExact e.cfg s.nt i.name (pitDepth i.name) = (s.nt.find e.cfg.ch (pitNode i.name)).map (pitNode i.name, ·) := by
    unfold Nt.findExact
    have h1 : min i.name.length (pitDepth i.name) = pitDepth i.name := Nat.min_eq_right (pitDepth_le _)
    simp only [h1]
    rw [if_neg (by have := pitDepth_max i.name; omega)]
    rfl
  rw [hfe] at hr
  have hv : view e s (pitNode i.name) = ((s.nt.find e.cfg.ch (pitNode i.name)).map (·.tbl)).getD {} := rfl
  cases hf : s.nt.find e.cfg.ch (pitNode i.name) with
  | none =>
    rw [hf] at hr hv
    simp only [Option.map_none, Option.getD_none, Option.some.injEq] at hr hv
    subst hr
    rw [hv] at hkey
    exact ⟨by simp, fun _ => hkey⟩
  | some x =>
    rw [hf] at hr hv
    simp only [Option.map_some, Option.getD_some] at hr hv
    rw [← hv, findIn_eq ((hi.node _).place)] at hr
    cases hk : (view e s (pitNode i.name)).pit.find? (sameKey i) with
    | some p =>
      rw [hk] at hr hkey
      simp only [Option.some.injEq] at hr
      subst hr
      exact ⟨fun q hq => by cases hq; exact hkey, by simp⟩
    | none =>
      rw [hk] at hr hkey
      simp only at hr
      split at hr
      · simp at hr
      · simp only [Option.some.injEq] at hr
        subst hr
        exact ⟨by simp, fun _ => hkey⟩

/-- In the code `Pit::find` can run into its own assertion (pit.cpp:82): removing a FIB entry's last nexthop leaves a name-tree
node without table entries and children behind. -/
theorem C18_find_asserts : ∃ s, exRun [.fibInsert [gc 1], .fibSet [gc 1] 300 10, .fibUnset [gc 1] 300] = some s ∧
    pitFind exEnv s ⟨[gc 1], false, false⟩ = none := by
  have h : (exRun [.fibInsert [gc 1], .fibSet [gc 1] 300 10, .fibUnset [gc 1] 300]).any
      (fun s => pitFind exEnv s ⟨[gc 1], false, false⟩ == none) = true := by decide +kernel
  rw [Option.any_eq_true] at h
  obtain ⟨s, h1, h2⟩ := h
  exact ⟨s, h1, by simpa using h2⟩

def exI (n : Name) (cbp mbf : Bool) : FwInterest := { name := n, canBePrefix := cbp, mustBeFresh := mbf }

def exPitOps : List Op :=
  [.pitInsert (exI [gc 1] true false), .pitInsert (exI [gc 1] false false), .pitInsert (exI [gc 1, gc 2] true true),
   .pitInsert (exI [gc 1, gc 2, dc 5] false false), .pitInsert (exI [gc 1] true false), .tick 7,
   .pitIn ⟨[gc 1], true, false⟩ 300 11 1000, .pitIn ⟨[gc 1], true, false⟩ 301 12 2000, .tick 100, .pitOut ⟨[gc 1], true, false⟩ 302 11 1000,
   .pitIn ⟨[gc 1], true, false⟩ 300 13 3000, .pitErase ⟨[gc 1], false, false⟩]

example : (exRun exPitOps).any (fun s => s.nPit == 3 &&
    ((pitFind exEnv s ⟨[gc 1], true, false⟩).any (·.any (fun p => p.ins.map (fun r => (r.face, r.nonce, r.expiry)) == [(301, 12, 2007), (300, 13, 3107)]))) &&
    (pitFind exEnv s ⟨[gc 1], false, false⟩ == some none) && (pitFind exEnv s ⟨[gc 1, gc 2, dc 5], false, false⟩).any (·.isSome) &&
    ((pitInsert exEnv s (exI [gc 1] true false)).any (fun r => r.2.2 == false)) &&
    ((pitInsert exEnv s (exI [gc 1] false false)).any (fun r => r.2.2 == true))) = true := by decide +kernel

/-! ### C19: Data matching -/

/-- An Interest that a Data packet satisfies has its PIT node at or above the Data's name. -/
theorem matches_prefix {i : Interest} {x : Data} (h : i.matchesData x = true) : pitNode i.name <+: x.name := by
  unfold Interest.matchesData at h
  split at h
  · rename_i hl
    cases hc : i.name.getLast? with
    | none => simp [hc] at h
    | some c =>
      simp only [hc, Bool.and_eq_true, beq_iff_eq] at h
      obtain ⟨h1, h2⟩ := h
      have : pitNode i.name = i.name.take (min x.name.length maxDepth) := by
        unfold pitNode pitDepth hasDigest
        rw [hc]
        simp [h1, hl]
      rw [this, h2, Data.fullName, List.take_append_of_le_length (by omega)]
      exact List.take_prefix _ _
  · split at h
    · have : i.name <+: x.name := List.isPrefixOf_iff_prefix.1 h
      exact (pitNode_prefix _).trans this
    · have : i.name = x.name := by simpa using h
      rw [← this]; exact pitNode_prefix _

/-- C19. `findAllDataMatches` returns every live entry whose Interest the Data satisfies, each exactly once, and no other. -/
theorem C19_data_matches (h : Reachable e d s) (x : Data) :
    ∃ l, pitDataMatches e s x = some l ∧ l.Nodup ∧ ∀ p, p ∈ l ↔ Live e s p ∧ p.interest.matchesData x = true := by
  have hi := h.inv
  obtain ⟨ns, h1, h2, h3⟩ := Nt.findAllMatches_spec hi.tree hasPit x.name
  unfold pitDataMatches
  rw [h1]
  refine ⟨_, rfl, ?_, ?_⟩
  · rw [List.Nodup, List.pairwise_flatMap]
    refine ⟨?_, ?_⟩
    · intro n _
      have : ((view e s n).pit).Nodup := by
        have := (hi.node n).keys
        rw [List.Nodup, List.pairwise_map] at this
        exact this.imp (fun hne hh => hne (by rw [hh]))
      exact this.filter _
    · refine h3.imp ?_
      intro a b hab p hp q hq hpq
      subst hpq
      have e1 := (hi.node a).place p (List.mem_filter.1 hp).1
      have e2 := (hi.node b).place p (List.mem_filter.1 hq).1
      rw [e1] at e2
      subst e2
      omega
  · intro p
    simp only [List.mem_flatMap, List.mem_filter]
    constructor
    · rintro ⟨n, -, hp, hm⟩; exact ⟨⟨n, hp⟩, hm⟩
    · rintro ⟨hp, hm⟩
      have hpl := live_place hi hp
      have hne : view e s (pitNode p.interest.name) ≠ {} := by intro hh; rw [hh] at hpl; simp at hpl
      refine ⟨pitNode p.interest.name, ?_, hpl, hm⟩
      rw [h2]
      refine ⟨matches_prefix hm, view_depth hi.tree hne, ?_⟩
      have hst := stored_of_view hne
      obtain ⟨y, hy⟩ := Option.isSome_iff_exists.1 hst
      refine ⟨y, hy, ?_⟩
      have hv : view e s (pitNode p.interest.name) = y.tbl := by simp [view, Nt.tblOf, hy]
      rw [hv] at hpl
      simp only [hasPit, Bool.not_eq_true', List.isEmpty_eq_false_iff]
      intro hh; rw [hh] at hpl; simp at hpl

example : (exRun exPitOps).any (fun s =>
    ((pitDataMatches exEnv s ⟨[gc 1, gc 2], List.replicate 32 5, 0, false⟩).any (fun l => l.map (·.interest.name) == [[gc 1, gc 2], [gc 1, gc 2, dc 5], [gc 1]])) &&
    ((pitDataMatches exEnv s ⟨[gc 1, gc 2], List.replicate 32 6, 0, false⟩).any (fun l => l.map (·.interest.name) == [[gc 1, gc 2], [gc 1]]))) = true := by
  decide +kernel

/-! ### C20: in- and out-records -/

/-- C20. No live entry has two in-records, or two out-records, for the same face. -/
theorem C20_one_per_face (h : Reachable e d s) (p : PitEntry) (hp : Live e s p) :
    (p.ins.map (·.face)).Nodup ∧ (p.outs.map (·.face)).Nodup := by
  obtain ⟨n, hn⟩ := hp
  exact (h.inv.node n).recs p hn

/-- A write to one live entry. -/
theorem pitMod_live (hi : Inv e s) {p : PitEntry} (hp : Live e s p) {f : PitEntry → PitEntry} :
    ∃ s', pitMod e s p.interest.toInterest f = some s' ∧ ∀ q, Live e s' q ↔ q = f p ∨ (Live e s q ∧ q ≠ p) := by
  have hm := live_place hi hp
  have hx : ∃ s', pitMod e s p.interest.toInterest f = some s' := by
    unfold pitMod
    cases hk : (view e s (pitNode p.interest.toInterest.name)).pit.find? (sameKey p.interest.toInterest) with
    | none =>
      have := List.find?_eq_none.1 hk p hm
      simp [sameKey] at this
    | some q =>
      obtain ⟨t, ht⟩ := setTbl_ok hi.tree (n := pitNode p.interest.toInterest.name)
        (fun x => { x with pit := x.pit.map (fun q => if sameKey p.interest.toInterest q then f q else q) })
        (stored_of_vw (by intro hh; rw [view_eq, hh] at hm; simp at hm))
      simp only [Option.bind_eq_bind, Option.bind_some, ht]
      exact ⟨_, rfl⟩
  obtain ⟨s', hs⟩ := hx
  refine ⟨s', hs, ?_⟩
  obtain ⟨p', t, h1, rfl, h2, h3⟩ := pitMod_fwd hi.tree hs
  have hsame : ∀ q, Live e s q → (sameKey p.interest.toInterest q = true ↔ q = p) := by
    intro q hq
    constructor
    · intro hk; exact live_unique hi hq hp (by simpa [sameKey] using hk)
    · rintro rfl; simp [sameKey]
  intro q
  unfold Live
  rw [view_with, h3]
  constructor
  · rintro ⟨n, hn⟩
    by_cases hnn : n = pitNode p.interest.toInterest.name
    · subst hnn
      rw [upd_same] at hn
      obtain ⟨q', hq', rfl⟩ := List.mem_map.1 hn
      by_cases hk : sameKey p.interest.toInterest q' = true
      · rw [if_pos hk, (hsame q' ⟨_, hq'⟩).1 hk]; exact .inl rfl
      · rw [if_neg hk]
        exact .inr ⟨⟨_, hq'⟩, fun hh => hk ((hsame q' ⟨_, hq'⟩).2 hh)⟩
    · rw [upd_ne _ _ hnn] at hn
      refine .inr ⟨⟨n, hn⟩, ?_⟩
      rintro rfl
      exact hnn ((hi.node n).place q hn).symm
  · rintro (rfl | ⟨⟨n, hn⟩, hne⟩)
    · refine ⟨pitNode p.interest.toInterest.name, ?_⟩
      rw [upd_same]
      exact List.mem_map.2 ⟨p, hm, by rw [if_pos]; simp [sameKey]⟩
    · by_cases hnn : n = pitNode p.interest.toInterest.name
      · subst hnn
        refine ⟨pitNode p.interest.toInterest.name, ?_⟩
        rw [upd_same]
        exact List.mem_map.2 ⟨q, hn, by rw [if_neg]; intro hk; exact hne ((hsame q ⟨_, hn⟩).1 hk)⟩
      · exact ⟨n, by rw [upd_ne _ _ hnn]; exact hn⟩

/-- C20. insertOrUpdate of an in-record: the entry is replaced by one that has, for that face, a record with the Interest's
nonce, the current time and the expiry computed from the Interest's lifetime (capped at ten days); the in-records of other
faces, and all out-records, stay as they were. No other entry changes. -/
theorem C20_in_record (h : Reachable e d s) (p : PitEntry) (hp : Live e s p) (face : FaceId) (nonce : Nat) (lt : Time) :
    ∃ s' p', (Op.pitIn p.interest.toInterest face nonce lt).run e s = some s' ∧ (∀ q, Live e s' q ↔ q = p' ∨ (Live e s q ∧ q ≠ p)) ∧
      p'.interest = p.interest ∧ p'.outs = p.outs ∧
      (∃ r ∈ p'.ins, r.face = face ∧ r.nonce = nonce ∧ r.renewed = s.now ∧ r.expiry = s.now + min lt 864000000000000) ∧
      (∀ r, r.face ≠ face → (r ∈ p'.ins ↔ r ∈ p.ins)) ∧ s'.now = s.now := by
  obtain ⟨s', h1, h2⟩ := pitMod_live h.inv hp
    (f := fun q => insertOrUpdateIn q face { toInterest := p.interest.toInterest, nonce := nonce, lifetime := lt } s.now)
  have hnow : s'.now = s.now := by
    obtain ⟨_, t, -, rfl, -⟩ := pitMod_fwd h.inv.tree h1
    rfl
  refine ⟨s', _, h1, h2, rfl, rfl, ?_, ?_, hnow⟩
  · unfold insertOrUpdateIn
    by_cases ha : p.ins.any (·.face == face) = true
    · simp only [ha, if_true]
      rw [List.any_eq_true] at ha
      obtain ⟨r, hr, hf⟩ := ha
      have hf : r.face = face := by simpa using hf
      refine ⟨_, List.mem_map.2 ⟨r, hr, rfl⟩, ?_⟩
      rw [if_pos hf]
      exact ⟨hf, rfl, rfl, rfl⟩
    · rw [if_neg ha]
      refine ⟨_, List.mem_map.2 ⟨{ face := face }, by simp, rfl⟩, ?_⟩
      rw [if_pos rfl]
      exact ⟨rfl, rfl, rfl, rfl⟩
  · intro r hr
    unfold insertOrUpdateIn
    simp only [List.mem_map]
    constructor
    · rintro ⟨r', hr', hh⟩
      by_cases hf : r'.face = face
      · rw [if_pos hf] at hh; subst hh; exact absurd hf hr
      · rw [if_neg hf] at hh
        subst hh
        split at hr'
        · exact hr'
        · rcases List.mem_cons.1 hr' with rfl | hr'
          · exact absurd rfl hf
          · exact hr'
    · intro hm
      refine ⟨r, ?_, by rw [if_neg hr]⟩
      split
      · exact hm
      · exact List.mem_cons_of_mem _ hm

/-- C20. insertOrUpdate of an out-record, likewise. -/
theorem C20_out_record (h : Reachable e d s) (p : PitEntry) (hp : Live e s p) (face : FaceId) (nonce : Nat) (lt : Time) :
    ∃ s' p', (Op.pitOut p.interest.toInterest face nonce lt).run e s = some s' ∧ (∀ q, Live e s' q ↔ q = p' ∨ (Live e s q ∧ q ≠ p)) ∧
      p'.interest = p.interest ∧ p'.ins = p.ins ∧
      (∃ r ∈ p'.outs, r.face = face ∧ r.nonce = nonce ∧ r.renewed = s.now ∧ r.expiry = s.now + min lt 864000000000000) ∧
      (∀ r, r.face ≠ face → (r ∈ p'.outs ↔ r ∈ p.outs)) ∧ s'.now = s.now := by
  obtain ⟨s', h1, h2⟩ := pitMod_live h.inv hp
    (f := fun q => insertOrUpdateOut q face { toInterest := p.interest.toInterest, nonce := nonce, lifetime := lt } s.now)
  have hnow : s'.now = s.now := by
    obtain ⟨_, t, -, rfl, -⟩ := pitMod_fwd h.inv.tree h1
    rfl
  refine ⟨s', _, h1, h2, rfl, rfl, ?_, ?_, hnow⟩
  · unfold insertOrUpdateOut
    by_cases ha : p.outs.any (·.face == face) = true
    · simp only [ha, if_true]
      rw [List.any_eq_true] at ha
      obtain ⟨r, hr, hf⟩ := ha
      have hf : r.face = face := by simpa using hf
      refine ⟨_, List.mem_map.2 ⟨r, hr, rfl⟩, ?_⟩
      rw [if_pos hf]
      exact ⟨hf, rfl, rfl, rfl⟩
    · rw [if_neg ha]
      refine ⟨_, List.mem_map.2 ⟨{ face := face }, by simp, rfl⟩, ?_⟩
      rw [if_pos rfl]
      exact ⟨rfl, rfl, rfl, rfl⟩
  · intro r hr
    unfold insertOrUpdateOut
    simp only [List.mem_map]
    constructor
    · rintro ⟨r', hr', hh⟩
      by_cases hf : r'.face = face
      · rw [if_pos hf] at hh; subst hh; exact absurd hf hr
      · rw [if_neg hf] at hh
        subst hh
        split at hr'
        · exact hr'
        · rcases List.mem_cons.1 hr' with rfl | hr'
          · exact absurd rfl hf
          · exact hr'
    · intro hm
      refine ⟨r, ?_, by rw [if_neg hr]⟩
      split
      · exact hm
      · exact List.mem_cons_of_mem _ hm

/-- C20. Deleting a record removes that face's record only. -/
theorem C20_delete (h : Reachable e d s) (p : PitEntry) (hp : Live e s p) (face : FaceId) :
    (∃ s' p', (Op.pitDelIn p.interest.toInterest face).run e s = some s' ∧ (∀ q, Live e s' q ↔ q = p' ∨ (Live e s q ∧ q ≠ p)) ∧
      p'.interest = p.interest ∧ p'.outs = p.outs ∧ p'.ins = p.ins.filter (fun r => r.face != face)) ∧
    (∃ s' p', (Op.pitDelOut p.interest.toInterest face).run e s = some s' ∧ (∀ q, Live e s' q ↔ q = p' ∨ (Live e s q ∧ q ≠ p)) ∧
      p'.interest = p.interest ∧ p'.ins = p.ins ∧ p'.outs = p.outs.filter (fun r => r.face != face)) := by
  obtain ⟨c1, c2⟩ := C20_one_per_face h p hp
  constructor
  · obtain ⟨s', h1, h2⟩ := pitMod_live h.inv hp (f := (deleteIn · face))
    exact ⟨s', _, h1, h2, rfl, rfl, eraseP_face (f := InRec.face) c1 face⟩
  · obtain ⟨s', h1, h2⟩ := pitMod_live h.inv hp (f := (deleteOut · face))
    exact ⟨s', _, h1, h2, rfl, rfl, eraseP_face (f := OutRec.face) c2 face⟩

end Verif.Tb
