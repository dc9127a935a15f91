import Verif.Name.Model

namespace Verif

open Std

theorem byte_cmp_lt (a b : Byte) : compare a b = .lt ↔ a.toNat < b.toNat := by
  rw [← UInt8.lt_iff_toNat_lt]
  simp only [compare, compareOfLessAndEq]
  split <;> simp_all
  split <;> simp_all

theorem byte_cmp_eq (a b : Byte) : compare a b = .eq ↔ a = b := compare_eq_iff_eq

theorem byte_cmp_gt (a b : Byte) : compare a b = .gt ↔ b.toNat < a.toNat := by
  have := byte_cmp_lt b a
  rw [← this]; exact OrientedCmp.gt_iff_lt

namespace Component

def cmpL (a b : Component) : Ordering :=
  compareLex (compareOn (·.typ)) (compareLex (compareOn (fun c : Component => c.val.length))
    (compareOn (·.val))) a b

theorem cmp_eq_cmpL : cmp = cmpL := rfl

instance : TransCmp cmp := by
  rw [cmp_eq_cmpL]; unfold cmpL; infer_instance

instance : LawfulEqCmp cmp where
  eq_of_compare {a b} h := by
    simp only [cmp, Ordering.then_eq_eq] at h
    obtain ⟨h1, -, h3⟩ := h
    have h1 := LawfulEqCmp.eq_of_compare h1
    have h3 : compare a.val b.val = .eq := h3
    have h3 := LawfulEqCmp.eq_of_compare h3
    cases a; cases b; simp_all

theorem zeros_le (n : Nat) (b : List Byte) (h : b.length = n) :
    List.compareLex compare b (List.replicate n 0) ≠ .lt := by
  induction b generalizing n with
  | nil => subst h; simp [List.compareLex_nil_nil]
  | cons x xs ih =>
    subst h
    simp only [List.length_cons, List.replicate_succ, List.compareLex_cons_cons]
    have := ih _ rfl
    intro hc
    rcases (Ordering.then_eq_lt).1 hc with h | h
    · rw [byte_cmp_lt] at h; simp at h
    · exact this h.2

theorem incBytes_none {a : List Byte} (h : incBytes a = none) :
    ∀ b : List Byte, b.length = a.length → List.compareLex compare b a ≠ .gt := by
  induction a with
  | nil => intro b hb; cases b <;> simp_all [List.compareLex_nil_nil]
  | cons x xs ih =>
    intro b hb
    cases b with
    | nil => simp at hb
    | cons y ys =>
      simp only [incBytes] at h
      split at h
      · simp at h
      · rename_i hn
        split at h
        · rename_i hx
          have := ih hn ys (by simpa using hb)
          rw [List.compareLex_cons_cons]
          intro hc
          rcases (Ordering.then_eq_gt).1 hc with hc | hc
          · rw [byte_cmp_gt, hx] at hc
            have := y.toNat_lt
            simp at hc; omega
          · exact this hc.2
        · simp at h

theorem incBytes_some {a a' : List Byte} (h : incBytes a = some a') :
    a'.length = a.length ∧ ∀ b : List Byte, b.length = a.length →
      (List.compareLex compare b a' = .lt ↔ List.compareLex compare b a ≠ .gt) := by
  induction a generalizing a' with
  | nil => simp [incBytes] at h
  | cons x xs ih =>
    simp only [incBytes] at h
    split at h
    · rename_i bs' hs
      cases h
      obtain ⟨hl, hb⟩ := ih hs
      refine ⟨by simp [hl], ?_⟩
      intro b hlen
      cases b with
      | nil => simp at hlen
      | cons y ys =>
        have := hb ys (by simpa using hlen)
        simp only [List.compareLex_cons_cons]
        cases hc : compare y x <;> simp_all [Ordering.then]
    · rename_i hs
      split at h
      · simp at h
      · rename_i hx
        cases h
        refine ⟨by simp, ?_⟩
        intro b hlen
        cases b with
        | nil => simp at hlen
        | cons y ys =>
          have hlen' : ys.length = xs.length := by simpa using hlen
          have h1 := incBytes_none hs ys hlen'
          have h2 := zeros_le xs.length ys hlen'
          simp only [List.compareLex_cons_cons]
          have hx1 : (x + 1).toNat = x.toNat + 1 := by
            have hx' : x.toNat ≠ 255 := fun h => hx (UInt8.toNat_inj.1 (by simpa using h))
            have := x.toNat_lt
            rw [UInt8.toNat_add]; simp; omega
          have e : compare y (x+1) = .lt ↔ compare y x ≠ .gt := by
            rw [byte_cmp_lt, Ne, byte_cmp_gt, hx1]; omega
          constructor
          · intro hc
            rcases (Ordering.then_eq_lt).1 hc with hc | hc
            · intro hg
              rcases (Ordering.then_eq_gt).1 hg with hg | hg
              · exact (e.1 hc) hg
              · exact h1 hg.2
            · exact absurd hc.2 h2
          · intro hc
            have : compare y x ≠ .gt := by
              intro hg; apply hc; simp [hg, Ordering.then]
            simp [e.2 this, Ordering.then]

/-- The successor is the least valid component above `c`. -/
theorem lt_succ_iff {c d : Component} (hc : c.WF) (hd : d.WF) :
    cmp d c.succ = .lt ↔ cmp d c ≠ .gt := by
  unfold succ
  split
  · rename_i v hv
    obtain ⟨hl, hb⟩ := incBytes_some hv
    simp only [cmp, hl]
    rcases h1 : compare d.typ c.typ
    · simp [Ordering.then]
    · rcases h2 : compare d.val.length c.val.length
      · simp [Ordering.then]
      · have := hb d.val (Nat.compare_eq_eq.1 h2)
        simp [Ordering.then, this]
      · simp [Ordering.then]
    · simp [Ordering.then]
  · rename_i hv
    have hn := incBytes_none hv
    split
    · rename_i ht
      have hcl := hc.2.2 ht
      simp only [cmp]
      rcases h1 : compare d.typ c.typ
      · have : compare d.typ (c.typ+1) = .lt := by
          rw [Nat.compare_eq_lt] at *; omega
        simp [this, Ordering.then]
      · have h1' := Nat.compare_eq_eq.1 h1
        have hdl := hd.2.2 (by rw [h1']; exact ht)
        have : compare d.typ (c.typ+1) = .lt := by
          rw [Nat.compare_eq_lt]; omega
        have h2 : compare d.val.length c.val.length = .eq := by rw [hdl, hcl]; rfl
        simp [this, h2, Ordering.then, hn d.val (by omega)]
      · have h1' := Nat.compare_eq_gt.1 h1
        simp only [Ordering.then, ne_eq, not_true_eq_false, iff_false]
        have h3 : compare d.typ (c.typ+1) ≠ .lt := by rw [Ne, Nat.compare_eq_lt]; omega
        rcases h4 : compare d.typ (c.typ+1) with _ | _ | _
        · exact absurd h4 h3
        · simp only [List.length_nil]
          rcases h5 : compare d.val.length 0 with _ | _ | _
          · rw [Nat.compare_eq_lt] at h5; omega
          · have : d.val = [] := List.length_eq_zero_iff.1 (Nat.compare_eq_eq.1 h5)
            simp [this, List.compareLex_nil_nil]
          · simp
        · simp
    · simp only [cmp, List.length_replicate]
      rcases h1 : compare d.typ c.typ
      · simp [Ordering.then]
      · simp only [Ordering.then]
        rcases h2 : compare d.val.length c.val.length
        · have : compare d.val.length (c.val.length+1) = .lt := by
            rw [Nat.compare_eq_lt] at *; omega
          simp [this]
        · have : compare d.val.length (c.val.length+1) = .lt := by
            rw [Nat.compare_eq_lt, Nat.compare_eq_eq.1 h2]; omega
          simp [this, hn d.val (Nat.compare_eq_eq.1 h2)]
        · have h2' := Nat.compare_eq_gt.1 h2
          rcases h4 : compare d.val.length (c.val.length+1) with _ | _ | _
          · rw [Nat.compare_eq_lt] at h4; omega
          · have := zeros_le _ d.val (Nat.compare_eq_eq.1 h4)
            simpa using this
          · simp
      · simp [Ordering.then]

theorem cmp_self (c : Component) : cmp c c = .eq := ReflCmp.compare_self
theorem cmp_eq {a b : Component} : cmp a b = .eq ↔ a = b := LawfulEqCmp.compare_eq_iff_eq
end Component

instance : TransCmp Name.cmp := inferInstanceAs (TransCmp (List.compareLex Component.cmp))
instance : LawfulEqCmp Name.cmp := inferInstanceAs (LawfulEqCmp (List.compareLex Component.cmp))

namespace Name

theorem cmp_self (c : Name) : cmp c c = .eq := ReflCmp.compare_self
theorem cmp_eq {a b : Name} : cmp a b = .eq ↔ a = b := LawfulEqCmp.compare_eq_iff_eq

theorem isPrefixOf_iff {p n : Name} : isPrefixOf p n = true ↔ p <+: n := List.isPrefixOf_iff_prefix

@[simp] theorem cmp_nil_nil : cmp [] [] = .eq := by simp [cmp, List.compareLex_nil_nil]
@[simp] theorem cmp_nil_cons (x : Component) (xs : Name) : cmp [] (x::xs) = .lt := by
  simp [cmp, List.compareLex_nil_cons]
@[simp] theorem cmp_cons_nil (x : Component) (xs : Name) : cmp (x::xs) [] = .gt := by
  simp [cmp, List.compareLex_cons_nil]
theorem cmp_cons_cons (x y : Component) (xs ys : Name) :
    cmp (x::xs) (y::ys) = (Component.cmp x y).then (cmp xs ys) := by
  simp [cmp, List.compareLex_cons_cons]

theorem cmp_append_left (p a b : Name) : cmp (p ++ a) (p ++ b) = cmp a b := by
  induction p with
  | nil => rfl
  | cons x xs ih => simp [cmp_cons_cons, Component.cmp_self, ih, Ordering.then]

theorem succ_append (p : Name) (c : Component) : succ (p ++ [c]) = p ++ [c.succ] := by
  simp [succ]

theorem succ_cons_cons (x y : Component) (xs : Name) : succ (x :: y :: xs) = x :: succ (y :: xs) := by
  have h : (y :: xs) = (y::xs).dropLast ++ [(y::xs).getLast (by simp)] := by
    rw [List.dropLast_concat_getLast]
  rw [h, ← List.cons_append, succ_append, succ_append]; simp

theorem succ_singleton (x : Component) : succ [x] = [x.succ] := rfl

theorem WF.tail {x : Component} {xs : Name} (h : WF (x::xs)) : WF xs := fun c hc => h c (by simp [hc])
theorem WF.head {x : Component} {xs : Name} (h : WF (x::xs)) : x.WF := h x (by simp)

/-- The half-open interval `[p, succ p)` of the canonical order consists of exactly the names that
start with `p`. -/
theorem range_iff_prefix {p n : Name} (hp : p ≠ []) (hpw : WF p) (hnw : WF n) :
    (cmp p n ≠ .gt ∧ cmp n (succ p) = .lt) ↔ p <+: n := by
  induction p generalizing n with
  | nil => exact absurd rfl hp
  | cons x xs ih =>
    cases n with
    | nil => simp
    | cons y ys =>
      cases xs with
      | nil =>
        rw [succ_singleton, cmp_cons_cons, cmp_cons_cons]
        have h := Component.lt_succ_iff hpw.head hnw.head
        constructor
        · rintro ⟨h1, h2⟩
          have e : Component.cmp x y = .eq := by
            have a1 : Component.cmp x y ≠ .gt := by
              intro hg; apply h1; simp [hg, Ordering.then]
            have a2 : Component.cmp y x ≠ .gt := by
              rcases (Ordering.then_eq_lt).1 h2 with h2 | h2
              · exact h.1 h2
              · cases ys <;> simp at h2
            rcases hc : Component.cmp x y with _ | _ | _
            · exact absurd (OrientedCmp.gt_of_lt hc) a2
            · rfl
            · exact absurd hc a1
          rw [Component.cmp_eq.1 e]; simp
        · intro hpre
          obtain ⟨rfl, -⟩ := List.cons_prefix_cons.1 hpre
          constructor
          · rw [Component.cmp_self]; cases ys <;> simp [Ordering.then]
          · have : Component.cmp x x.succ = .lt := by rw [h, Component.cmp_self]; simp
            simp [this, Ordering.then]
      | cons z zs =>
        rw [succ_cons_cons, cmp_cons_cons, cmp_cons_cons, List.cons_prefix_cons,
          ← ih (n := ys) (by simp) hpw.tail hnw.tail]
        constructor
        · rintro ⟨h1, h2⟩
          have e : Component.cmp x y = .eq := by
            rcases hc : Component.cmp x y with _ | _ | _
            · have := OrientedCmp.gt_of_lt hc
              simp [this, Ordering.then] at h2
            · rfl
            · simp [hc, Ordering.then] at h1
          have e' : Component.cmp y x = .eq := by rw [Component.cmp_eq.1 e, Component.cmp_self]
          refine ⟨Component.cmp_eq.1 e, ?_, ?_⟩
          · simpa [e, Ordering.then] using h1
          · simpa [e', Ordering.then] using h2
        · rintro ⟨rfl, h1, h2⟩
          simp [Component.cmp_self, Ordering.then, h1, h2]

/-- A name between `b ++ [x]` and `b ++ [y]` starts with `b`. -/
theorem range_between {b n : Name} {x y : Component} (h1 : cmp n (b ++ [x]) ≠ .lt) (h2 : cmp n (b ++ [y]) = .lt) : b <+: n := by
  induction b generalizing n with
  | nil => exact List.nil_prefix
  | cons c b ih =>
    cases n with
    | nil => simp at h1
    | cons d n =>
      rw [List.cons_append, cmp_cons_cons] at h1 h2
      rcases hc : Component.cmp d c with _ | _ | _
      · rw [hc] at h1; simp [Ordering.then] at h1
      · rw [hc] at h1 h2
        rw [Component.cmp_eq.1 hc]
        exact List.cons_prefix_cons.2 ⟨rfl, ih (by simpa [Ordering.then] using h1) (by simpa [Ordering.then] using h2)⟩
      · rw [hc] at h2; simp [Ordering.then] at h2

end Name

end Verif
