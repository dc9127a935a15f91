import Verif.Tables.Model
import Verif.Nt.Props

/-! Effects of the operations on the tables attached at each name, and their invariant. -/
namespace Verif.Tb

open Nt (Tree Nte Cfg Options maxDepth tblOf TreeInv Removed IsLongest)

/-- The tables attached at a name. -/
def vw (e : Env) (t : Tree Tbl) (n : Name) : Tbl := (tblOf e.cfg t n).getD {}

theorem view_eq (e : Env) (s : Tables) : view e s = vw e s.nt := rfl

def upd (v : Name → Tbl) (n : Name) (f : Tbl → Tbl) : Name → Tbl := fun m => if m = n then f (v n) else v m

theorem upd_same (v : Name → Tbl) (n : Name) (f : Tbl → Tbl) : upd v n f n = f (v n) := by simp [upd]
theorem upd_ne (v : Name → Tbl) {n m : Name} (f : Tbl → Tbl) (h : m ≠ n) : upd v n f m = v m := by simp [upd, h]

variable {e : Env}

theorem has_false {x : Tbl} (h : x.has = false) : x = {} := by
  cases x with
  | mk f p m s =>
    simp only [Tbl.has, Bool.or_eq_false_iff, Bool.not_eq_false', List.isEmpty_iff, Option.isSome_eq_false_iff,
      Option.isNone_iff_eq_none] at h
    obtain ⟨⟨⟨h1, h2⟩, h3⟩, h4⟩ := h
    subst h1 h2 h3 h4
    rfl

theorem stored_of_vw {t : Tree Tbl} {n : Name} (h : vw e t n ≠ {}) : (tblOf e.cfg t n).isSome := by
  cases ht : tblOf e.cfg t n with
  | some x => rfl
  | none => exact absurd (by simp [vw, ht]) h

theorem vw_depth {t : Tree Tbl} (hi : TreeInv e.cfg t) {n : Name} (h : vw e t n ≠ {}) : n.length ≤ maxDepth := by
  have := stored_of_vw h
  rw [Nt.tblOf_isSome] at this
  obtain ⟨x, hx⟩ := Option.isSome_iff_exists.1 this
  exact hi.depth n x hx

theorem fwd_lookup {t t' : Tree Tbl} (hi : TreeInv e.cfg t) {n : Name} {k : Nat} (h : Nt.lookup e.cfg t n k = some t') :
    TreeInv e.cfg t' ∧ vw e t' = vw e t ∧ k ≤ n.length ∧ k ≤ maxDepth ∧ (tblOf e.cfg t' (n.take k)).isSome ∧
      ∀ m, (tblOf e.cfg t' m).isSome ↔ ((tblOf e.cfg t m).isSome ∨ m <+: n.take k) := by
  by_cases hk : k ≤ n.length ∧ k ≤ maxDepth
  · obtain ⟨t2, h1, h2, h3⟩ := Nt.lookup_spec hi hk.1 hk.2
    rw [h1] at h; cases h
    refine ⟨h2, ?_, hk.1, hk.2, ?_, ?_⟩
    · funext m
      rw [vw, vw, h3]
      split <;> simp
    · rw [h3, if_pos (List.prefix_refl _)]; rfl
    · intro m
      rw [h3]
      split <;> simp_all
  · rw [Nt.lookup, if_neg hk] at h; simp at h

theorem fwd_setTbl {t t' : Tree Tbl} (hi : TreeInv e.cfg t) {n : Name} {f : Tbl → Tbl} (h : Nt.setTbl e.cfg t n f = some t') :
    TreeInv e.cfg t' ∧ vw e t' = upd (vw e t) n f ∧ (tblOf e.cfg t n).isSome ∧
      ∀ m, (tblOf e.cfg t' m).isSome = (tblOf e.cfg t m).isSome := by
  cases hs : t.find e.cfg.ch n with
  | none => simp [Nt.setTbl, hs] at h
  | some x =>
    obtain ⟨t2, h1, h2, h3⟩ := Nt.setTbl_spec hi (n := n) (by simp [hs]) f
    rw [h1] at h; cases h
    have hst : (tblOf e.cfg t n).isSome := by rw [Nt.tblOf_isSome]; simp [hs]
    refine ⟨h2, ?_, hst, ?_⟩
    · funext m
      unfold upd
      rw [vw, h3]
      by_cases hm : m = n
      · subst hm
        simp only [if_pos, vw]
        obtain ⟨y, hy⟩ := Option.isSome_iff_exists.1 hst
        rw [hy]; rfl
      · simp [hm, vw]
    · intro m
      rw [h3]
      split <;> simp

theorem setTbl_ok {t : Tree Tbl} (hi : TreeInv e.cfg t) {n : Name} (f : Tbl → Tbl) (h : (tblOf e.cfg t n).isSome) :
    ∃ t', Nt.setTbl e.cfg t n f = some t' := by
  rw [Nt.tblOf_isSome] at h
  obtain ⟨t', h1, -⟩ := Nt.setTbl_spec hi h f
  exact ⟨t', h1⟩

theorem fwd_erase {t : Tree Tbl} (hi : TreeInv e.cfg t) {n : Name} {a : Bool} {r : Tree Tbl × Nat}
    (h : Nt.eraseIfEmpty e.cfg t n a = some r) :
    TreeInv e.cfg r.1 ∧ vw e r.1 = vw e t ∧ (tblOf e.cfg t n).isSome ∧
      (∀ m, (tblOf e.cfg r.1 m).isSome → (tblOf e.cfg t m).isSome) := by
  unfold Nt.eraseIfEmpty at h
  cases hs : t.find e.cfg.ch n with
  | none => rw [Nt.eraseLoop] at h; simp [hs] at h
  | some x =>
    have hst : (tblOf e.cfg t n).isSome := by rw [Nt.tblOf_isSome]; simp [hs]
    cases a with
    | true =>
      obtain ⟨t3, k3, h2, h3, h4⟩ := Nt.eraseLoop_spec (n.length + 2) 0 hi (n := n) (by simp [hs]) (by omega)
      rw [h] at h2; cases h2
      refine ⟨h3, ?_, hst, ?_⟩
      · funext m
        obtain ⟨h5, h6⟩ := h4 m
        by_cases hr : Removed e.cfg (tblOf e.cfg t) n m
        · rw [vw, vw, h5 hr]
          cases hm : tblOf e.cfg t m with
          | none => rfl
          | some y => exact (has_false (hr.2 m y hm (List.prefix_refl _)).2).symm
        · rw [vw, vw, h6 hr]
      · intro m hm
        obtain ⟨h5, h6⟩ := h4 m
        by_cases hr : Removed e.cfg (tblOf e.cfg t) n m
        · rw [h5 hr] at hm; simp at hm
        · rwa [h6 hr] at hm
    | false =>
      obtain ⟨t3, k3, h2, h3, h4⟩ := Nt.eraseLoop_one hi hs (n.length + 1)
      rw [h] at h2; cases h2
      refine ⟨h3, ?_, hst, ?_⟩
      · funext m
        rw [vw, vw, h4]
        split
        · rename_i hr
          obtain ⟨rfl, hemp⟩ := hr
          simp only [Nte.isEmpty, Bool.and_eq_true, Bool.not_eq_true'] at hemp
          simp [tblOf, hs, has_false hemp.2]
        · rfl
      · intro m hm
        rw [h4] at hm
        split at hm
        · simp at hm
        · exact hm

theorem eraseIfEmpty_ok {t : Tree Tbl} (hi : TreeInv e.cfg t) {n : Name} (a : Bool) (h : (tblOf e.cfg t n).isSome) :
    ∃ r, Nt.eraseIfEmpty e.cfg t n a = some r := by
  rw [Nt.tblOf_isSome] at h
  unfold Nt.eraseIfEmpty
  obtain ⟨x, hx⟩ := Option.isSome_iff_exists.1 h
  cases a with
  | true =>
    obtain ⟨t3, k3, h2, -⟩ := Nt.eraseLoop_spec (n.length + 2) 0 hi h (by omega)
    exact ⟨_, h2⟩
  | false =>
    obtain ⟨t3, k3, h2, -⟩ := Nt.eraseLoop_one hi hx (n.length + 1)
    exact ⟨_, h2⟩

theorem findExact_isSome {t : Tree Tbl} {n : Name} (h : (Nt.findExact e.cfg t n n.length).isNone = false) :
    (tblOf e.cfg t n).isSome := by
  unfold Nt.findExact at h
  simp only [Nat.min_self, List.take_length] at h
  split at h
  · simp at h
  · rw [Nt.tblOf_isSome]; simpa using h

theorem findExact_none {t : Tree Tbl} (hi : TreeInv e.cfg t) {n : Name} (h : (Nt.findExact e.cfg t n n.length).isNone = true) :
    tblOf e.cfg t n = none := by
  unfold Nt.findExact at h
  simp only [Nat.min_self, List.take_length] at h
  split at h
  · rename_i hd
    cases ht : tblOf e.cfg t n with
    | none => rfl
    | some x =>
      have : (t.find e.cfg.ch n).isSome := by rw [← Nt.tblOf_isSome, ht]; rfl
      obtain ⟨y, hy⟩ := Option.isSome_iff_exists.1 this
      have := hi.depth n y hy
      omega
  · simpa [tblOf] using h

/-- Writing the same way to several nodes. -/
theorem fwd_forEach {f : Tbl → Tbl} (l : List Name) : ∀ {t t' : Tree Tbl}, TreeInv e.cfg t → l.Nodup → forEach e.cfg f l t = some t' →
    TreeInv e.cfg t' ∧ (∀ m, vw e t' m = if m ∈ l then f (vw e t m) else vw e t m) ∧
      ∀ m, (tblOf e.cfg t' m).isSome = (tblOf e.cfg t m).isSome := by
  induction l with
  | nil => intro t t' hi _ h; cases h; exact ⟨hi, by simp, by simp⟩
  | cons n l ih =>
    intro t t' hi hnd h
    rw [List.nodup_cons] at hnd
    rw [forEach, Option.bind_eq_some_iff] at h
    obtain ⟨t1, h1, h2⟩ := h
    obtain ⟨a, b, -, d⟩ := fwd_setTbl hi h1
    obtain ⟨a', b', d'⟩ := ih a hnd.2 h2
    refine ⟨a', fun m => ?_, fun m => by rw [d', d]⟩
    rw [b', b]
    by_cases hm : m = n
    · subst hm; simp [hnd.1, upd_same]
    · rw [upd_ne _ _ hm]; simp [hm]

theorem forEach_ok {f : Tbl → Tbl} (l : List Name) : ∀ {t : Tree Tbl}, TreeInv e.cfg t → (∀ n ∈ l, (tblOf e.cfg t n).isSome) →
    ∃ t', forEach e.cfg f l t = some t' := by
  induction l with
  | nil => intro t _ _; exact ⟨t, rfl⟩
  | cons n l ih =>
    intro t hi h
    obtain ⟨t1, h1⟩ := setTbl_ok hi f (h n (by simp))
    obtain ⟨a, -, -, d⟩ := fwd_setTbl hi h1
    obtain ⟨t2, h2⟩ := ih a (fun m hm => by rw [d]; exact h m (by simp [hm]))
    exact ⟨t2, by rw [forEach, h1]; exact h2⟩

/-! ### Longest prefix match over the attached tables -/

/-- Accepted by a test of the attached tables. -/
theorem lpm_vw (t : Tree Tbl) (test : Tbl → Bool) (h0 : test {} = false) (name : Name) :
    IsLongest (fun m => test (vw e t m) = true) name (Nt.lpm e.cfg t (fun _ x => test x.tbl) name) := by
  have := Nt.lpm_spec e.cfg t (fun _ x => test x.tbl) name
  have heq : Nt.Acc e.cfg t (fun _ x => test x.tbl) = fun m => test (vw e t m) = true := by
    funext m
    simp only [Nt.Acc, vw, tblOf, eq_iff_iff]
    cases hf : t.find e.cfg.ch m with
    | none => simp [h0]
    | some x => simp
  rwa [heq] at this

/-- Testing for an attached optional entry. -/
theorem lpm_opt {α : Type} (t : Tree Tbl) (get : Tbl → Option α) (h0 : get {} = none) (name : Name) :
    match Nt.lpm e.cfg t (fun _ x => (get x.tbl).isSome) name with
    | some m => m <+: name ∧ m.length ≤ maxDepth ∧ (get (vw e t m)).isSome ∧
        ∀ m', m' <+: name → m'.length ≤ maxDepth → (get (vw e t m')).isSome → m'.length ≤ m.length
    | none => ∀ m', m' <+: name → m'.length ≤ maxDepth → get (vw e t m') = none := by
  have := lpm_vw (e := e) t (fun x => (get x).isSome) (by simp [h0]) name
  cases hr : Nt.lpm e.cfg t (fun _ x => (get x.tbl).isSome) name with
  | some m => rw [hr] at this; exact this
  | none =>
    rw [hr] at this
    intro m' h1 h2
    have := this m' h1 h2
    simpa using this

/-! ### changeStrategy -/

/-- The names whose effective strategy the Strategy Choice entry at `p` determines. -/
def Covers (v : Name → Tbl) (p m : Name) : Prop := p <+: m ∧ ∀ a, p <+: a → a <+: m → a ≠ p → (v a).sc = none

theorem fwd_changeStrategy {t t' : Tree Tbl} (hi : TreeInv e.cfg t) {p old new : Name} (h : changeStrategy e t p old new = some t') :
    TreeInv e.cfg t' ∧ (∀ m, (tblOf e.cfg t' m).isSome = (tblOf e.cfg t m).isSome) ∧
    (areSameType e old new = true → vw e t' = vw e t) ∧
    (areSameType e old new = false → ∀ m, (Covers (vw e t) p m → vw e t' m = clearInfo (vw e t m)) ∧
      (¬ Covers (vw e t) p m → vw e t' m = vw e t m)) := by
  unfold changeStrategy at h
  by_cases hst : areSameType e old new = true
  · rw [if_pos hst] at h; cases h
    exact ⟨hi, fun _ => rfl, fun _ => rfl, by simp [hst]⟩
  · rw [if_neg hst, Nt.partialEnumerate_size hi] at h
    simp only [Option.bind_some] at h
    have hst' : areSameType e old new = false := by simpa using hst
    by_cases hd : p.length ≤ maxDepth
    · have hmem := Nt.mem_pre (sel := changeSel p) hi (maxDepth + 1 - p.length) (n := p) (by omega)
      obtain ⟨a, b, d⟩ := fwd_forEach _ hi (Nt.nodup_pre hi _ (by omega)) h
      refine ⟨a, d, by simp [hst'], fun _ m => ?_⟩
      have key : ∀ m, (tblOf e.cfg t m).isSome → (m ∈ Nt.pre e.cfg t (changeSel p) (maxDepth + 1 - p.length) p ↔ Covers (vw e t) p m) := by
        intro m hm
        rw [hmem]
        have hfind : ∀ a, (tblOf e.cfg t a).isSome → ∃ x, t.find e.cfg.ch a = some x ∧ vw e t a = x.tbl := by
          intro a ha
          rw [Nt.tblOf_isSome] at ha
          obtain ⟨x, hx⟩ := Option.isSome_iff_exists.1 ha
          exact ⟨x, hx, by simp [vw, tblOf, hx]⟩
        have hpref : ∀ a, a <+: m → (tblOf e.cfg t a).isSome := by
          intro a ha
          rw [Nt.tblOf_isSome] at hm ⊢
          exact Nt.stored_prefix hi ha hm
        constructor
        · rintro ⟨h1, ⟨x, hx, hs⟩, hw⟩
          refine ⟨h1, fun a ha1 ha2 ha3 => ?_⟩
          by_cases ham : a = m
          · subst ham
            have : vw e t a = x.tbl := by simp [vw, tblOf, hx]
            rw [this]
            simp only [changeSel, if_neg ha3] at hs
            cases hsc : x.tbl.sc with
            | none => rfl
            | some y => simp [hsc] at hs
          · obtain ⟨y, hy, hyw⟩ := hw a ha1 ha2 ham
            have : vw e t a = y.tbl := by simp [vw, tblOf, hy]
            rw [this]
            simp only [changeSel, if_neg ha3] at hyw
            cases hsc : y.tbl.sc with
            | none => rfl
            | some z => simp [hsc] at hyw
        · rintro ⟨h1, h2⟩
          have hsel : ∀ a, p <+: a → a <+: m → ∀ x, t.find e.cfg.ch a = some x → changeSel p a x = (true, true) := by
            intro a ha1 ha2 x hx
            unfold changeSel
            by_cases hap : a = p
            · rw [if_pos hap]
            · rw [if_neg hap]
              have := h2 a ha1 ha2 hap
              have hv : vw e t a = x.tbl := by simp [vw, tblOf, hx]
              rw [hv] at this
              simp [this]
          obtain ⟨x, hx, -⟩ := hfind m hm
          refine ⟨h1, ⟨x, hx, by rw [hsel m h1 (List.prefix_refl _) x hx]⟩, fun a ha1 ha2 _ => ?_⟩
          obtain ⟨y, hy, -⟩ := hfind a (hpref a ha2)
          exact ⟨y, hy, by rw [hsel a ha1 ha2 y hy]⟩
      rw [b]
      cases hm : tblOf e.cfg t m with
      | none =>
        have hv : vw e t m = {} := by simp [vw, hm]
        rw [hv]
        have : clearInfo {} = {} := rfl
        rw [this]
        simp
      | some x =>
        have := key m (by simp [hm])
        constructor
        · intro hc; rw [if_pos (this.2 hc)]
        · intro hc; rw [if_neg (mt this.1 hc)]
    · have hz : maxDepth + 1 - p.length = 0 := by omega
      rw [hz, Nt.pre] at h
      cases h
      refine ⟨hi, fun _ => rfl, fun _ => rfl, fun _ m => ⟨fun hc => ?_, fun _ => rfl⟩⟩
      have : vw e t m = {} := by
        by_cases hv : vw e t m = {}
        · exact hv
        · have := vw_depth hi hv
          have := hc.1.length_le
          omega
      rw [this]; rfl

theorem changeStrategy_ok {t : Tree Tbl} (hi : TreeInv e.cfg t) (p old new : Name) : ∃ t', changeStrategy e t p old new = some t' := by
  unfold changeStrategy
  by_cases hst : areSameType e old new = true
  · exact ⟨t, by rw [if_pos hst]⟩
  · rw [if_neg hst, Nt.partialEnumerate_size hi]
    simp only [Option.bind_some]
    apply forEach_ok _ hi
    intro n hn
    by_cases hd : p.length ≤ maxDepth
    · obtain ⟨-, ⟨x, hx, -⟩, -⟩ := (Nt.mem_pre hi (maxDepth + 1 - p.length) (n := p) (by omega) n).1 hn
      rw [Nt.tblOf_isSome]; simp [hx]
    · have hz : maxDepth + 1 - p.length = 0 := by omega
      rw [hz, Nt.pre] at hn
      simp at hn

end Verif.Tb
