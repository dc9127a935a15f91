import Verif.Tables.Accessor
import Verif.Tables.AccessorSpec
import Verif.Tables.ScProps
import Verif.Tables.MeasProps
import Verif.Tables.CleanProps

/-! Lemmas about the access to measurements. -/
namespace Verif.Tb
open Nt (maxDepth TreeInv)

variable {e : Env} {d : Name} {s s' : Tables}

theorem InCharge.unique {q q' n : Name} (h : InCharge e s q n) (h' : InCharge e s q' n) : q = q' := LongestPrefix.unique h h'

theorem inCharge_exists (h : Reachable e d s) (n : Name) : ∃ q, InCharge e s q n := by
  obtain ⟨-, m, _, -, -, h3⟩ := C21_effective h n
  exact ⟨m, h3⟩

theorem inCharge_congr (h : ∀ m, scAt e s' m = scAt e s m) {q n : Name} : InCharge e s' q n ↔ InCharge e s q n := by
  unfold InCharge
  constructor <;> intro hh
  · exact hh.congr (fun m => by rw [h m])
  · exact hh.congr (fun m => by rw [h m])

/-- The strategy in charge of a name is in charge of every prefix of it that is not above the strategy's own. -/
theorem inCharge_prefix {q n m : Name} (h : InCharge e s q n) (hm : m <+: n) (hq : q <+: m) : InCharge e s q m :=
  ⟨hq, h.2.1, fun x hx hA => h.2.2 x (hx.trans hm) hA⟩

theorem sc_depth (h : Reachable e d s) {q : Name} (hq : (scAt e s q).isSome) : q.length ≤ 32 := by
  have : view e s q ≠ {} := by intro hh; unfold scAt at hq; rw [hh] at hq; simp at hq
  exact view_depth h.inv.tree this

theorem inCharge_take (h : Reachable e d s) {q n : Name} : InCharge e s q n ↔ InCharge e s q (n.take 32) := by
  refine (LongestPrefix.mono (List.take_prefix _ _) ?_).symm
  intro x hx hA
  refine List.prefix_of_prefix_length_le hx (List.take_prefix _ _) ?_
  have := sc_depth h hA
  have := hx.length_le
  simp; omega

theorem reachable_step (h : Reachable e d s) {op : Op} (hs : op.run e s = some s') : Reachable e d s' := by
  obtain ⟨s0, ops, h1, h2⟩ := h
  refine ⟨s0, ops ++ [op], h1, ?_⟩
  clear h1
  revert s0
  induction ops with
  | nil => intro s0 h2; cases h2; simp [run, hs]
  | cons o ops ih =>
    intro s0 h2
    rw [run, Option.bind_eq_some_iff] at h2
    obtain ⟨s1, h3, h4⟩ := h2
    rw [List.cons_append, run, h3]
    exact ih s1 h4

theorem owner_meas (h : Reachable e d s) {n : Name} (hn : (measAt e s n).isSome) : ∃ q, scOwnerMeas e s n = some q ∧ InCharge e s q n := by
  have hi := h.inv
  have hst : (s.nt.find e.cfg.ch n).isSome := stored_of_view (by intro hh; unfold measAt at hn; rw [hh] at hn; simp at hn)
  unfold scOwnerMeas
  rw [Nt.lpmEntry_eq hi.tree hasSc hst]
  have hh : Nt.lpm e.cfg s.nt (fun _ x => ((Tbl.sc) x.tbl).isSome) n = Nt.lpm e.cfg s.nt hasSc n := rfl
  rcases lpm_get hi.tree Tbl.sc rfl n with ⟨m, a, h1, h2, h3⟩ | ⟨h1, h2⟩
  · rw [hh] at h1
    exact ⟨m, by rw [h1]; rfl, h3⟩
  · have hr := hi.root
    rw [h2 [] List.nil_prefix] at hr
    simp at hr

/-- What the filter does: the entry if this strategy is in charge, else nothing. -/
theorem filter_spec (h : Reachable e d s) (q : Name) {n : Name} (hn : (measAt e s n).isSome) :
    (InCharge e s q n ∧ filter e s q n = some (some n)) ∨ (¬ InCharge e s q n ∧ filter e s q n = some none) := by
  obtain ⟨q', h1, h2⟩ := owner_meas h hn
  unfold filter
  rw [h1]
  by_cases hq : q' = q
  · subst hq
    exact .inl ⟨h2, by simp⟩
  · exact .inr ⟨fun hc => hq (h2.unique hc), by simp [hq]⟩

theorem measGot_meas {n : Name} (h : MeasGot e s s' n) : (measAt e s' n).isSome ∧ ∀ x, (measAt e s x).isSome → (measAt e s' x).isSome := by
  obtain ⟨t, k, rfl, -, ⟨h1, -, hv⟩ | ⟨h1, -, hv⟩⟩ := h
  · have : view e { s with nt := t, nMeas := k } = view e s := hv
    unfold measAt
    rw [this]
    exact ⟨h1, fun x hx => hx⟩
  · have hv : view e { s with nt := t, nMeas := k } = _ := hv
    unfold measAt
    rw [hv]
    refine ⟨by rw [upd_same]; rfl, fun x hx => ?_⟩
    by_cases hxn : x = n
    · subst hxn; rw [upd_same]; rfl
    · rw [upd_ne _ _ hxn]; exact hx

theorem take_min (name : Name) : name.take (min name.length maxDepth) = name.take 32 := by
  rw [Nat.min_comm, ← List.take_eq_take_min]

/-- The entry at `m` satisfies a predicate. -/
def Sat (e : Env) (s : Tables) (pred : MeasEntry → Bool) (m : Name) : Prop := ∃ x, measAt e s m = some x ∧ pred x = true

theorem measLpm_spec (h : Reachable e d s) (pred : MeasEntry → Bool) (name : Name) :
    (∃ m, measLpm e s (fun _ => pred) name = some m ∧ LongestPrefix (Sat e s pred) name m) ∨
    (measLpm e s (fun _ => pred) name = none ∧ ∀ m, m <+: name → ¬ Sat e s pred m) := by
  have hi := h.inv.tree
  let get : Tbl → Option MeasEntry := fun x => x.meas.filter pred
  have hany : ∀ x : Tbl, x.meas.any pred = (get x).isSome := by
    intro x
    cases hx : x.meas with
    | none => simp [get, hx]
    | some y => cases hy : pred y <;> simp [get, hx, Option.filter, hy]
  have hsat : ∀ m, Sat e s pred m ↔ (get (view e s m)).isSome := by
    intro m
    rw [← hany]
    unfold Sat measAt
    cases (view e s m).meas <;> simp
  have hh : measLpm e s (fun _ => pred) name = Nt.lpm e.cfg s.nt (fun _ x => (get x.tbl).isSome) (name.take maxDepth) := by
    unfold measLpm
    congr 1
    funext n x
    exact hany x.tbl
  have hd : ∀ x, Sat e s pred x → x.length ≤ 32 := by
    rintro x ⟨y, hx, -⟩
    have : view e s x ≠ {} := by intro hh; unfold measAt at hx; rw [hh] at hx; simp at hx
    exact view_depth hi this
  have hpre : ∀ m, m <+: name → Sat e s pred m → m <+: name.take maxDepth := by
    intro x hx hA
    refine List.prefix_of_prefix_length_le hx (List.take_prefix _ _) ?_
    have := hd x hA
    have := hx.length_le
    simp [maxDepth]; omega
  rw [hh]
  rcases lpm_get hi get rfl (name.take maxDepth) with ⟨m, a, h1, h2, h3⟩ | ⟨h1, h2⟩
  · refine .inl ⟨m, h1, (LongestPrefix.mono (List.take_prefix maxDepth name) hpre).1 (h3.congr (fun m => (hsat m).symm))⟩
  · refine .inr ⟨h1, fun m hm hs => ?_⟩
    have := h2 m (hpre m hm hs)
    rw [hsat, this] at hs
    cases hs

/-- What a `get` function gives after the entry at `n` was found or made. -/
theorem got_filter (h : Reachable e d s) (q n : Name) (hr : Reachable e d s') (hg : MeasGot e s s' n) :
    ∃ r, filter e s' q n = some r ∧ (∀ m, r = some m ↔ InCharge e s q n ∧ m = n) := by
  have hc : InCharge e s' q n ↔ InCharge e s q n := inCharge_congr (fun m => measGot_sc hg m)
  rcases filter_spec hr q (measGot_meas hg).1 with ⟨h1, h2⟩ | ⟨h1, h2⟩
  · exact ⟨_, h2, fun m => ⟨fun hm => by cases hm; exact ⟨hc.1 h1, rfl⟩, fun hm => by rw [hm.2]⟩⟩
  · exact ⟨_, h2, fun m => ⟨fun hm => (by cases hm), fun hm => absurd (hc.2 hm.1) h1⟩⟩

theorem accGet_spec (h : Reachable e d s) (q name : Name) : ∃ s' r, accGet e s q name = some (s', r) ∧
    (∀ m, r = some m ↔ InCharge e s q name ∧ m = name.take 32) ∧ MeasGot e s s' (name.take 32) ∧ Reachable e d s' := by
  obtain ⟨s', h1, -, -⟩ := C23_get h name
  have hr := reachable_step h h1
  have hg := measGet_fwd h.inv.tree (show measGet e s name = some s' from h1)
  rw [take_min] at hg
  obtain ⟨r, h2, h3⟩ := got_filter h q _ hr hg
  refine ⟨s', r, ?_, fun m => by rw [h3, ← inCharge_take h], hg, hr⟩
  unfold accGet
  rw [show measGet e s name = some s' from h1, Option.bind_some, take_min, h2]
  rfl

theorem accGetFib_spec (hk : RegistryOk e) (h : Reachable e d s) (q : Name) {p : Name} (hp : (fibAt e s p).isSome ∨ p = []) :
    ∃ s' r, accGetFib e s q p = some (s', r) ∧ (∀ m, r = some m ↔ InCharge e s q p ∧ m = p) ∧ MeasGot e s s' p ∧ Reachable e d s' := by
  obtain ⟨s', h1⟩ := C71_contracts_suffice hk h (.measGetFib p) hp
  have hr := reachable_step h h1
  have hg := measGetFib_fwd h.inv.tree (show measGetFib e s p = some s' from h1)
  obtain ⟨r, h2, h3⟩ := got_filter h q _ hr hg
  refine ⟨s', r, ?_, h3, hg, hr⟩
  unfold accGetFib
  rw [show measGetFib e s p = some s' from h1, Option.bind_some, h2]
  rfl

/-- `s'` has the strategies of `s` and at least its measurements. -/
def Grown (e : Env) (s s' : Tables) : Prop :=
  (∀ m, scAt e s' m = scAt e s m) ∧ (∀ x, (measAt e s x).isSome → (measAt e s' x).isSome) ∧ s'.now = s.now

theorem Grown.refl : Grown e s s := ⟨fun _ => rfl, fun _ h => h, rfl⟩
theorem Grown.trans {s2 : Tables} (h : Grown e s s') (h' : Grown e s' s2) : Grown e s s2 :=
  ⟨fun m => (h'.1 m).trans (h.1 m), fun x hx => h'.2.1 x (h.2.1 x hx), h'.2.2.trans h.2.2⟩

theorem grown_got {n : Name} (hg : MeasGot e s s' n) : Grown e s s' :=
  ⟨fun m => measGot_sc hg m, (measGot_meas hg).2, by obtain ⟨t, k, rfl, -⟩ := hg; rfl⟩

theorem inCharge_len {q name : Name} (h : InCharge e s q name) (len : Nat) : InCharge e s q (name.take len) ↔ q.length ≤ len := by
  constructor
  · intro h'
    have := h'.1.length_le
    simp at this; omega
  · intro hl
    refine inCharge_prefix h (List.take_prefix _ _) ?_
    refine List.prefix_of_prefix_length_le h.1 (List.take_prefix _ _) ?_
    have := h.1.length_le
    simp; omega

theorem nsLoop_some (q name m : Name) (k len : Nat) : nsLoop e q name k len s (some m) = some (s, some m) := by
  cases k <;> rfl

/-- The loop stops at the first prefix below the one of the strategy. -/
theorem nsLoop_spec {q name : Name} : ∀ (k len : Nat) {s : Tables}, Reachable e d s → InCharge e s q name → len + k = name.length + 1 → 0 < k →
    ∃ s', nsLoop e q name k len s none = some (s', some ((name.take (max len q.length)).take 32)) ∧ Reachable e d s' ∧ Grown e s s' ∧
      (measAt e s' ((name.take (max len q.length)).take 32)).isSome := by
  intro k
  induction k with
  | zero => intro len s _ _ _ h0; omega
  | succ k ih =>
    intro len s h hc hk _
    obtain ⟨s1, r, h1, h2, h3, h4⟩ := accGet_spec h q (name.take len)
    have hgr := grown_got h3
    rw [nsLoop]
    rw [h1, Option.bind_some]
    by_cases hl : q.length ≤ len
    · have hr := (h2 _).2 ⟨(inCharge_len hc len).2 hl, rfl⟩
      rw [Nat.max_eq_left hl]
      refine ⟨s1, ?_, h4, hgr, (measGot_meas h3).1⟩
      simp only [hr]
      exact nsLoop_some ..
    · have hr : r = none := by
        cases hr : r with
        | none => rfl
        | some m => exact absurd ((inCharge_len hc len).1 ((h2 m).1 hr).1) hl
      have hq := hc.1.length_le
      obtain ⟨s2, h5, h6, h7, h8⟩ := ih (len + 1) h4 ((inCharge_congr hgr.1).2 hc) (by omega) (by omega)
      have hm : max len q.length = max (len + 1) q.length := by omega
      rw [hm]
      simp only [hr]
      exact ⟨s2, h5, h6, hgr.trans h7, h8⟩

/-- Using an entry goes through, and nothing else than the entry changes. -/
theorem useEntry_spec (hk : RegistryOk e) (h : Reachable e d s) (lifetime : Time) {m : Name} (hm : (measAt e s m).isSome) :
    ∃ s1 s', (Op.measExtend m lifetime).run e s = some s1 ∧ (Op.measWrite m).run e s1 = some s' ∧ useEntry e s lifetime m = some s' ∧
      Reachable e d s' := by
  obtain ⟨s1, h1⟩ := C71_contracts_suffice hk h (.measExtend m lifetime) hm
  have hr := reachable_step h h1
  have hm1 : (measAt e s1 m).isSome := by
    obtain ⟨x, hx⟩ := Option.isSome_iff_exists.1 hm
    obtain ⟨s2, h2, h3, -⟩ := C23_extend h m lifetime x hx
    rw [h1] at h2
    cases h2
    rw [h3]; rfl
  obtain ⟨s2, h2⟩ := C71_contracts_suffice hk hr (.measWrite m) hm1
  refine ⟨s1, s2, h1, h2, ?_, reachable_step hr h2⟩
  unfold useEntry
  rw [show measExtend e s m lifetime = some s1 from h1]
  exact h2

/-- `getOrCreateNamespaceInfo`, all cases. -/
theorem getOrCreate_spec (hk : RegistryOk e) (h : Reachable e d s) (lifetime : Time) {q p name : Name} (hp : (fibAt e s p).isSome ∨ p = [])
    (hc : InCharge e s q name) :
    (∃ m s1, (InCharge e s q p ∧ m = p ∨ ¬ InCharge e s q p ∧ p.length < name.length ∧ m = (name.take (max (p.length + 1) q.length)).take 32) ∧
      Reachable e d s1 ∧ Grown e s s1 ∧ (measAt e s1 m).isSome ∧
      getOrCreateNamespaceInfo e lifetime q p name s = (useEntry e s1 lifetime m).map (fun s => (s, m))) ∨
    (¬ InCharge e s q p ∧ name.length ≤ p.length ∧ getOrCreateNamespaceInfo e lifetime q p name s = none) := by
  obtain ⟨s1, r, h1, h2, h3, h4⟩ := accGetFib_spec hk h q hp
  have hgr := grown_got h3
  unfold getOrCreateNamespaceInfo
  rw [h1, Option.bind_some]
  by_cases hi : InCharge e s q p
  · have hr := (h2 p).2 ⟨hi, rfl⟩
    refine .inl ⟨p, s1, .inl ⟨hi, rfl⟩, h4, hgr, (measGot_meas h3).1, ?_⟩
    simp only [hr, nsLoop_some, Option.bind_some]
  · have hr : r = none := by
      cases hr : r with
      | none => rfl
      | some m => exact absurd ((h2 m).1 hr).1 hi
    by_cases hl : p.length < name.length
    · obtain ⟨s2, h5, h6, h7, h8⟩ := nsLoop_spec (name.length - p.length) (p.length + 1) h4 ((inCharge_congr hgr.1).2 hc) (by omega) (by omega)
      refine .inl ⟨_, s2, .inr ⟨hi, hl, rfl⟩, h6, hgr.trans h7, h8, ?_⟩
      simp only [hr, h5, Option.bind_some]
    · refine .inr ⟨hi, by omega, ?_⟩
      have : name.length - p.length = 0 := by omega
      simp only [hr, this, nsLoop, Option.bind_some, Option.bind_none]

end Verif.Tb
