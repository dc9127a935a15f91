import Verif.Name.Lemmas
import Verif.Strat.Names

/-
C40: strategy instance names resolve to the right version.
-/
namespace Verif.Strat

open Std

/-! ### Specification -/

/-- The version number is encoded in as few octets as a NonNegativeInteger can have. -/
def Minimal (c : Component) : Prop :=
  c.val.length = 1 ∨ (c.val.length = 2 ∧ 256 ≤ toVersion c) ∨ (c.val.length = 4 ∧ 65536 ≤ toVersion c) ∨
    (c.val.length = 8 ∧ 4294967296 ≤ toVersion c)

/-- A strategy name: a base of generic components, then a version. All names registered in NFD are like this. -/
def ProperName (n : Name) : Prop :=
  ∃ base v, n = base ++ [v] ∧ base ≠ [] ∧ (∀ c ∈ base, c.typ = ttGeneric) ∧ isVersion v = true ∧ Minimal v

/-! ### Order of versions -/

theorem beNat_foldl (l : List Byte) (a : Nat) : l.foldl (fun a b => a * 256 + b.toNat) a = a * 256 ^ l.length + beNat l := by
  induction l generalizing a with
  | nil => simp [beNat]
  | cons b l ih =>
    unfold beNat
    simp only [List.foldl_cons, List.length_cons, Nat.zero_mul, Nat.zero_add]
    rw [ih, ih b.toNat, Nat.pow_succ, Nat.add_mul, Nat.mul_assoc, Nat.mul_comm 256, Nat.add_assoc]

theorem beNat_cons (b : Byte) (l : List Byte) : beNat (b :: l) = b.toNat * 256 ^ l.length + beNat l := by
  have := beNat_foldl l b.toNat
  simpa [beNat] using this

theorem beNat_lt (l : List Byte) : beNat l < 256 ^ l.length := by
  induction l with
  | nil => simp [beNat]
  | cons b l ih =>
    rw [beNat_cons, List.length_cons, Nat.pow_succ]
    have h := b.toNat_lt
    have h' : b.toNat ≤ 255 := by omega
    have := Nat.mul_le_mul_right (256 ^ l.length) h'
    omega

theorem lex_beNat {a b : List Byte} (h : a.length = b.length) : List.compareLex compare a b = compare (beNat a) (beNat b) := by
  induction a generalizing b with
  | nil => cases b with
    | nil => simp [List.compareLex_nil_nil]
    | cons => simp at h
  | cons x a ih =>
    cases b with
    | nil => simp at h
    | cons y b =>
      have hl : a.length = b.length := by simpa using h
      rw [List.compareLex_cons_cons, ih hl, beNat_cons, beNat_cons, hl]
      have ha := beNat_lt a
      have hb := beNat_lt b
      rw [hl] at ha
      generalize 256 ^ b.length = K at *
      rcases hc : compare x y with _ | _ | _
      · have := (byte_cmp_lt x y).1 hc
        have h2 := Nat.mul_le_mul_right K (show x.toNat + 1 ≤ y.toNat from this)
        rw [Nat.add_mul] at h2
        symm
        show compare _ _ = Ordering.lt
        rw [Nat.compare_eq_lt]
        omega
      · rw [(byte_cmp_eq x y).1 hc]
        simp only [Ordering.then]
        rcases h3 : compare (beNat a) (beNat b) with _ | _ | _ <;> symm
        · rw [Nat.compare_eq_lt] at *; omega
        · rw [Nat.compare_eq_eq] at *; omega
        · rw [Nat.compare_eq_gt] at *; omega
      · have := (byte_cmp_gt x y).1 hc
        have h2 := Nat.mul_le_mul_right K (show y.toNat + 1 ≤ x.toNat from this)
        rw [Nat.add_mul] at h2
        symm
        show compare _ _ = Ordering.gt
        rw [Nat.compare_eq_gt]
        omega

theorem minimal_len {a b : Component} (ha : Minimal a) (hb : Minimal b) (h : a.val.length < b.val.length) :
    toVersion a < toVersion b := by
  have h1 := beNat_lt a.val
  unfold toVersion at *
  unfold Minimal toVersion at ha hb
  rcases ha with ha | ⟨ha, -⟩ | ⟨ha, -⟩ | ⟨ha, -⟩ <;> rw [ha] at h1 h <;>
    rcases hb with hb | ⟨hb, hb'⟩ | ⟨hb, hb'⟩ | ⟨hb, hb'⟩ <;> omega

theorem version_cmp {a b : Component} (ha : isVersion a = true) (hb : isVersion b = true) (ma : Minimal a) (mb : Minimal b) :
    Component.cmp a b = compare (toVersion a) (toVersion b) := by
  have ta : a.typ = ttVersion := by simp only [isVersion, Bool.and_eq_true, beq_iff_eq] at ha; exact ha.1
  have tb : b.typ = ttVersion := by simp only [isVersion, Bool.and_eq_true, beq_iff_eq] at hb; exact hb.1
  unfold Component.cmp
  rw [ta, tb, Nat.compare_eq_eq.2 rfl]
  rcases hc : compare a.val.length b.val.length with _ | _ | _
  · have := minimal_len ma mb (Nat.compare_eq_lt.1 hc)
    simp only [Ordering.then]
    exact (Nat.compare_eq_lt.2 this).symm
  · simp only [Ordering.then]
    exact lex_beNat (Nat.compare_eq_eq.1 hc)
  · have := minimal_len mb ma (Nat.compare_eq_gt.1 hc)
    simp only [Ordering.then]
    exact (Nat.compare_eq_gt.2 this).symm

/-! ### The registry -/

abbrev Sorted (reg : Registry) : Prop := reg.Pairwise (fun a b => Name.cmp a b = .lt)

theorem cmp_trans {a b c : Name} (h1 : Name.cmp a b = .lt) (h2 : Name.cmp b c = .lt) : Name.cmp a c = .lt :=
  TransCmp.lt_trans h1 h2

theorem cmp_gt {a b : Name} : Name.cmp a b = .gt ↔ Name.cmp b a = .lt := OrientedCmp.gt_iff_lt

theorem insertSorted_spec {n : Name} {reg reg' : Registry} (hs : Sorted reg) (h : insertSorted n reg = some reg') :
    Sorted reg' ∧ ∀ m, m ∈ reg' ↔ m = n ∨ m ∈ reg := by
  induction reg generalizing reg' with
  | nil =>
    obtain rfl := Option.some.inj h
    simp
  | cons r l ih =>
    replace hs := List.pairwise_cons.1 hs
    unfold insertSorted at h
    split at h
    · rename_i hc
      obtain rfl := Option.some.inj h
      refine ⟨List.pairwise_cons.2 ⟨fun b hb => ?_, List.pairwise_cons.2 hs⟩, by simp⟩
      rcases List.mem_cons.1 hb with rfl | hb
      · exact hc
      · exact cmp_trans hc (hs.1 _ hb)
    · cases h
    · rename_i hc
      rw [Option.map_eq_some_iff] at h
      obtain ⟨l', h1, rfl⟩ := h
      obtain ⟨h2, h3⟩ := ih hs.2 h1
      refine ⟨List.pairwise_cons.2 ⟨fun b hb => ?_, h2⟩, fun m => ?_⟩
      · rcases (h3 b).1 hb with rfl | hb
        · exact cmp_gt.1 hc
        · exact hs.1 _ hb
      · simp only [List.mem_cons, h3]
        exact ⟨fun h => by rcases h with h | h | h <;> simp [h], fun h => by rcases h with h | h | h <;> simp [h]⟩

theorem registerAll_spec {names : List Name} {reg reg' : Registry} (hs : Sorted reg) (h : registerAll reg names = some reg') :
    Sorted reg' ∧ ∀ m, m ∈ reg' ↔ m ∈ names ∨ m ∈ reg := by
  induction names generalizing reg with
  | nil =>
    obtain rfl := Option.some.inj h
    exact ⟨hs, by simp⟩
  | cons n l ih =>
    unfold registerAll at h
    rw [Option.bind_eq_some_iff] at h
    obtain ⟨reg1, h1, h2⟩ := h
    unfold register at h1
    split at h1
    · obtain ⟨h3, h4⟩ := insertSorted_spec hs h1
      obtain ⟨h5, h6⟩ := ih h3 h2
      refine ⟨h5, fun m => ?_⟩
      rw [h6, h4, List.mem_cons]
      exact ⟨fun h => by rcases h with h | h | h <;> simp [h], fun h => by rcases h with (h | h) | h <;> simp [h]⟩
    · cases h1

/-- `lower_bound` finds the least key that is not less than `x`. -/
theorem lowerBound_get {reg : Registry} (hs : Sorted reg) {x r : Name} :
    reg[lowerBound reg x]? = some r ↔ r ∈ reg ∧ Name.cmp r x ≠ .lt ∧ ∀ r' ∈ reg, Name.cmp r' x ≠ .lt → Name.cmp r r' ≠ .gt := by
  unfold lowerBound
  induction reg with
  | nil => simp
  | cons a l ih =>
    replace hs := List.pairwise_cons.1 hs
    rw [List.findIdx_cons]
    by_cases hc : Name.cmp a x = .lt
    · simp only [hc, bne_self_eq_false, cond_false, List.getElem?_cons_succ]
      rw [ih hs.2]
      constructor
      · rintro ⟨h1, h2, h3⟩
        refine ⟨List.mem_cons_of_mem _ h1, h2, fun r' hr' h4 => ?_⟩
        rcases List.mem_cons.1 hr' with rfl | hr'
        · exact absurd hc h4
        · exact h3 _ hr' h4
      · rintro ⟨h1, h2, h3⟩
        rcases List.mem_cons.1 h1 with rfl | h1
        · exact absurd hc h2
        · exact ⟨h1, h2, fun r' hr' h4 => h3 _ (List.mem_cons_of_mem _ hr') h4⟩
    · have : (Name.cmp a x != .lt) = true := by simp [hc]
      simp only [this, cond_true, List.getElem?_cons_zero, Option.some.injEq]
      constructor
      · rintro rfl
        refine ⟨List.mem_cons_self, hc, fun r' hr' h4 => ?_⟩
        rcases List.mem_cons.1 hr' with rfl | hr'
        · simp [Name.cmp_self]
        · simp [hs.1 _ hr']
      · rintro ⟨h1, h2, h3⟩
        rcases List.mem_cons.1 h1 with rfl | h1
        · rfl
        · exact absurd (cmp_gt.2 (hs.1 _ h1)) (h3 a List.mem_cons_self hc)

/-- The key before `lower_bound` is the greatest key less than `x`. -/
theorem lowerBound_pred {reg : Registry} (hs : Sorted reg) {x r : Name} :
    (∃ k, lowerBound reg x = k + 1 ∧ reg[k]? = some r) ↔
      r ∈ reg ∧ Name.cmp r x = .lt ∧ ∀ r' ∈ reg, Name.cmp r' x = .lt → Name.cmp r' r ≠ .gt := by
  unfold lowerBound
  induction reg with
  | nil => simp
  | cons a l ih =>
    replace hs := List.pairwise_cons.1 hs
    rw [List.findIdx_cons]
    by_cases hc : Name.cmp a x = .lt
    · simp only [hc, bne_self_eq_false, cond_false]
      have ih := ih hs.2
      rcases hk : l.findIdx (fun r => Name.cmp r x != .lt) with _ | k
      · -- nothing in `l` is less than `x`
        have hno : ∀ r' ∈ l, Name.cmp r' x ≠ .lt := by
          intro r' hr' h4
          cases l with
          | nil => cases hr'
          | cons b l =>
            rw [List.findIdx_cons] at hk
            have hb : Name.cmp b x ≠ .lt := by
              intro hb
              simp [hb] at hk
            rcases List.mem_cons.1 hr' with rfl | hr'
            · exact hb h4
            · exact hb (cmp_trans ((List.pairwise_cons.1 hs.2).1 _ hr') h4)
        constructor
        · rintro ⟨k, h1, h2⟩
          obtain rfl : k = 0 := by omega
          simp only [List.getElem?_cons_zero, Option.some.injEq] at h2
          subst h2
          refine ⟨List.mem_cons_self, hc, fun r' hr' h4 => ?_⟩
          rcases List.mem_cons.1 hr' with rfl | hr'
          · simp [Name.cmp_self]
          · exact absurd h4 (hno _ hr')
        · rintro ⟨h1, h2, h3⟩
          refine ⟨0, rfl, ?_⟩
          rcases List.mem_cons.1 h1 with rfl | h1
          · rfl
          · exact absurd h2 (hno _ h1)
      · rw [hk] at ih
        constructor
        · rintro ⟨k', h1, h2⟩
          obtain rfl : k' = k + 1 := by omega
          obtain ⟨h3, h4, h5⟩ := ih.1 ⟨k, rfl, by simpa using h2⟩
          refine ⟨List.mem_cons_of_mem _ h3, h4, fun r' hr' h6 => ?_⟩
          rcases List.mem_cons.1 hr' with rfl | hr'
          · simp [hs.1 _ h3]
          · exact h5 _ hr' h6
        · rintro ⟨h1, h2, h3⟩
          rcases List.mem_cons.1 h1 with rfl | h1
          · -- some element of `l` is less than `x`, and greater than `a`
            exfalso
            obtain ⟨b, hb1, hb2⟩ : ∃ b ∈ l, Name.cmp b x = .lt := by
              cases l with
              | nil => simp at hk
              | cons b l =>
                rw [List.findIdx_cons] at hk
                refine ⟨b, List.mem_cons_self, ?_⟩
                by_cases hb : Name.cmp b x = .lt
                · exact hb
                · have : (Name.cmp b x != .lt) = true := by simp [hb]
                  simp [this] at hk
            exact h3 b (List.mem_cons_of_mem _ hb1) hb2 (cmp_gt.2 (hs.1 _ hb1))
          · obtain ⟨k', h4, h5⟩ := ih.2 ⟨h1, h2, fun r' hr' => h3 r' (List.mem_cons_of_mem _ hr')⟩
            obtain rfl : k = k' := by omega
            exact ⟨k + 1, rfl, by simpa using h5⟩
    · have : (Name.cmp a x != .lt) = true := by simp [hc]
      simp only [this, cond_true]
      constructor
      · rintro ⟨k, h1, -⟩
        cases h1
      · rintro ⟨h1, h2, h3⟩
        rcases List.mem_cons.1 h1 with rfl | h1
        · exact absurd h2 hc
        · exact absurd (cmp_trans (hs.1 _ h1) h2) hc

/-! ### Parsing -/

theorem parseLoop_none {n : Name} {k : Nat} (h : ∀ i c, 0 < i → i ≤ k → n[i]? = some c → isVersion c = false) :
    parseLoop n k = ⟨n, none, []⟩ := by
  induction k with
  | zero => rfl
  | succ k ih =>
    unfold parseLoop
    have ih := ih (fun i c h1 h2 => h i c h1 (by omega))
    split
    · exact ih
    · rename_i c hc
      rw [if_neg (by rw [h _ _ (by omega) (Nat.le_refl _) hc]; simp)]
      exact ih

theorem parseLoop_some {n : Name} {k j : Nat} {v : Component} (hj : 0 < j) (hjk : j ≤ k) (hv : n[j]? = some v) (hvv : isVersion v = true)
    (h : ∀ i c, j < i → i ≤ k → n[i]? = some c → isVersion c = false) :
    parseLoop n k = ⟨n.take (j + 1), some (toVersion v), n.drop (j + 1)⟩ := by
  induction k with
  | zero => omega
  | succ k ih =>
    unfold parseLoop
    by_cases hjk' : j = k + 1
    · subst hjk'
      rw [hv]
      simp only
      rw [if_pos hvv]
    · have ih := ih (by omega) (fun i c h1 h2 => h i c h1 (by omega))
      split
      · exact ih
      · rename_i c hc
        rw [if_neg (by rw [h _ _ (by omega) (Nat.le_refl _) hc]; simp)]
        exact ih

/-- An instance name with a version: what precedes it, the version, the parameters. -/
theorem parse_versioned {base params : Name} {v : Component} (hb : base ≠ []) (hv : isVersion v = true)
    (hp : ∀ c ∈ params, isVersion c = false) :
    parseInstanceName (base ++ v :: params) = ⟨base ++ [v], some (toVersion v), params⟩ := by
  unfold parseInstanceName
  have hl : 0 < base.length := List.length_pos_iff.2 hb
  rw [parseLoop_some (v := v) hl (by simp) (by simp) hv]
  · have e1 : (base ++ v :: params).take (base.length + 1) = base ++ [v] := by
      rw [List.take_append, List.take_of_length_le (by omega)]; simp
    have e2 : (base ++ v :: params).drop (base.length + 1) = params := by
      rw [List.drop_append, List.drop_of_length_le (by omega)]; simp
    rw [e1, e2]
  · intro i c h1 h2 h3
    rw [List.getElem?_append_right (by omega)] at h3
    obtain ⟨m, hm⟩ : ∃ m, i - base.length = m + 1 := ⟨i - base.length - 1, by omega⟩
    rw [hm, List.getElem?_cons_succ] at h3
    exact hp _ (List.mem_of_getElem? h3)

theorem parse_unversioned {n : Name} (h : ∀ c ∈ n.drop 1, isVersion c = false) : parseInstanceName n = ⟨n, none, []⟩ := by
  unfold parseInstanceName
  refine parseLoop_none (fun i c h1 _ h3 => h c ?_)
  rw [List.mem_iff_getElem?]
  refine ⟨i - 1, ?_⟩
  rw [List.getElem?_drop]
  have : 1 + (i - 1) = i := by omega
  rw [this]
  exact h3

/-! ### C40 -/

theorem wf_generic {c : Component} (h : c.typ = ttGeneric) : c.WF := by
  refine ⟨by rw [h]; decide, by rw [h]; decide, fun h' => ?_⟩
  rw [h] at h'
  rcases h' with h' | h' <;> exact absurd h' (by decide)

theorem wf_version {c : Component} (h : isVersion c = true) : c.WF := by
  have ht : c.typ = ttVersion := by simp only [isVersion, Bool.and_eq_true, beq_iff_eq] at h; exact h.1
  refine ⟨by rw [ht]; decide, by rw [ht]; decide, fun h' => ?_⟩
  rw [ht] at h'
  rcases h' with h' | h' <;> exact absurd h' (by decide)

theorem wf_proper {n : Name} (h : ProperName n) : Name.WF n := by
  obtain ⟨base, v, rfl, -, h1, h2, -⟩ := h
  intro c hc
  rcases List.mem_append.1 hc with hc | hc
  · exact wf_generic (h1 c hc)
  · rw [List.mem_singleton.1 hc]; exact wf_version h2

theorem generic_lt_version {c v : Component} (h : c.typ = ttGeneric) (hv : isVersion v = true) : Component.cmp c v = .lt := by
  have ht : v.typ = ttVersion := by simp only [isVersion, Bool.and_eq_true, beq_iff_eq] at hv; exact hv.1
  unfold Component.cmp
  rw [h, ht]
  rfl

/-- Comparing a registered name with `base ++ [v]`, when `base` is a prefix of it. -/
theorem above {m base : Name} {v : Component} (hm : ProperName m) (hv : isVersion v = true) (mv : Minimal v) (hp : base <+: m) :
    Name.cmp m (base ++ [v]) ≠ .lt ↔ ∃ v', m = base ++ [v'] ∧ toVersion v ≤ toVersion v' := by
  obtain ⟨b, w, rfl, -, h1, h2, h3⟩ := hm
  obtain ⟨t, ht⟩ := hp
  rw [← ht, Name.cmp_append_left]
  cases t with
  | nil =>
    rw [List.append_nil] at ht
    subst ht
    simp only [Name.cmp_nil_cons, ne_eq, not_true, false_iff, not_exists, not_and]
    intro v' h4
    have := congrArg List.length h4
    simp at this
  | cons c t =>
    rw [Name.cmp_cons_cons]
    cases t with
    | nil =>
      obtain ⟨rfl, h4⟩ := List.append_inj' ht rfl
      obtain rfl : c = w := by simpa using h4
      rw [version_cmp h2 hv h3 mv]
      constructor
      · intro h
        refine ⟨c, rfl, ?_⟩
        rcases Nat.lt_or_ge (toVersion c) (toVersion v) with h5 | h5
        · exact absurd (by rw [Nat.compare_eq_lt.2 h5]; rfl) h
        · exact h5
      · rintro ⟨v', h5, h6⟩ h7
        obtain rfl : c = v' := by simpa using h5
        rcases Nat.lt_or_ge (toVersion v) (toVersion c) with h8 | h8
        · rw [Nat.compare_eq_gt.2 h8] at h7; cases h7
        · have : toVersion c = toVersion v := by omega
          rw [this, Nat.compare_eq_eq.2 rfl] at h7
          simp [Ordering.then] at h7
    | cons d t =>
      have hc : c ∈ b := by
        have : b = base ++ c :: (d :: t).dropLast := by
          have := congrArg List.dropLast ht
          simp at this
          simpa using this.symm
        rw [this]; simp
      have := generic_lt_version (h1 c hc) hv
      rw [this]
      simp only [Ordering.then, ne_eq, not_true, false_iff, not_exists, not_and]
      intro v' h4
      have := congrArg List.length h4
      simp at this

/-- C40 (with a version): the registered strategy of the same base name with the least version that is not below the requested one, and
none if there is none. -/
theorem C40_versioned {names : List Name} {reg : Registry} (hreg : registerAll [] names = some reg) (hn : ∀ n ∈ names, ProperName n)
    {base params : Name} {v : Component} (hb : base ≠ []) (hv : isVersion v = true) (mv : Minimal v)
    (hp : ∀ c ∈ params, isVersion c = false) (r : Name) :
    findStrategy reg (base ++ v :: params) = some r ↔
      r ∈ names ∧ ∃ v', r = base ++ [v'] ∧ toVersion v ≤ toVersion v' ∧
        ∀ v'', base ++ [v''] ∈ names → toVersion v ≤ toVersion v'' → toVersion v' ≤ toVersion v'' := by
  obtain ⟨hs, hmem⟩ := registerAll_spec List.Pairwise.nil hreg
  have hmem : ∀ m, m ∈ reg ↔ m ∈ names := fun m => by rw [hmem]; simp
  unfold findStrategy
  rw [parse_versioned hb hv hp]
  simp only [Name.parent, List.dropLast_concat]
  constructor
  · intro h
    split at h
    · cases h
    · rename_i r' hr'
      split at h
      · rename_i hpre
        obtain rfl := Option.some.inj h
        rw [Name.isPrefixOf_iff] at hpre
        obtain ⟨h1, h2, h3⟩ := (lowerBound_get hs).1 hr'
        rw [hmem] at h1
        obtain ⟨v', rfl, h5⟩ := (above (hn _ h1) hv mv hpre).1 h2
        refine ⟨h1, v', rfl, h5, fun v'' h6 h7 => ?_⟩
        have h8 := h3 _ ((hmem _).2 h6) ((above (hn _ h6) hv mv (List.prefix_append _ _)).2 ⟨v'', rfl, h7⟩)
        rw [Name.cmp_append_left, Name.cmp_cons_cons] at h8
        obtain ⟨b1, w1, e1, -, -, f1, g1⟩ := hn _ h1
        obtain ⟨b2, w2, e2, -, -, f2, g2⟩ := hn _ h6
        obtain ⟨-, e1⟩ := List.append_inj' e1 rfl
        obtain ⟨-, e2⟩ := List.append_inj' e2 rfl
        obtain rfl : v' = w1 := by simpa using e1
        obtain rfl : v'' = w2 := by simpa using e2
        rw [version_cmp f1 f2 g1 g2] at h8
        rcases Nat.lt_or_ge (toVersion v'') (toVersion v') with h9 | h9
        · exact absurd (by rw [Nat.compare_eq_gt.2 h9]; rfl) h8
        · exact h9
      · cases h
  · rintro ⟨h1, v', rfl, h2, h3⟩
    have hfst := (above (hn _ h1) hv mv (List.prefix_append _ _)).2 ⟨v', rfl, h2⟩
    have : reg[lowerBound reg (base ++ [v])]? = some (base ++ [v']) := by
      rw [lowerBound_get hs]
      refine ⟨(hmem _).2 h1, hfst, fun r' hr' h4 hgt => ?_⟩
      -- `r'` lies between `base ++ [v]` and `base ++ [v']`
      have hr'' := hn _ ((hmem _).1 hr')
      have hpre : base <+: r' := by
        obtain ⟨b1, w1, e1, -, -, f1, g1⟩ := hn _ h1
        obtain ⟨rfl, e1⟩ := List.append_inj' e1 rfl
        obtain rfl : v' = w1 := by simpa using e1
        exact (Name.range_between (b := base) (x := v) (y := v') h4 (by rw [← cmp_gt]; exact hgt))
      obtain ⟨v'', rfl, h5⟩ := (above hr'' hv mv hpre).1 h4
      have h6 := h3 v'' ((hmem _).1 hr') h5
      rw [Name.cmp_append_left, Name.cmp_cons_cons] at hgt
      obtain ⟨b1, w1, e1, -, -, f1, g1⟩ := hn _ h1
      obtain ⟨b2, w2, e2, -, -, f2, g2⟩ := hr''
      obtain ⟨-, e1⟩ := List.append_inj' e1 rfl
      obtain ⟨-, e2⟩ := List.append_inj' e2 rfl
      obtain rfl : v' = w1 := by simpa using e1
      obtain rfl : v'' = w2 := by simpa using e2
      rw [version_cmp f1 f2 g1 g2] at hgt
      rcases Nat.lt_or_ge (toVersion v') (toVersion v'') with h9 | h9
      · rw [Nat.compare_eq_lt.2 h9] at hgt; cases hgt
      · have : toVersion v' = toVersion v'' := by omega
        rw [this, Nat.compare_eq_eq.2 rfl] at hgt
        simp [Ordering.then] at hgt
    rw [this]
    simp only
    rw [if_pos (Name.isPrefixOf_iff.2 (List.prefix_append _ _))]

/-- Which registered name an unversioned name resolves to: the last of those that it is a prefix of. -/
theorem unversioned_iff {names : List Name} {reg : Registry} (hreg : registerAll [] names = some reg) (hn : ∀ n ∈ names, ProperName n)
    {n : Name} (hne : n ≠ []) (hw : Name.WF n) (hp : ∀ c ∈ n.drop 1, isVersion c = false) (r : Name) :
    findStrategy reg n = some r ↔ r ∈ names ∧ n <+: r ∧ ∀ r' ∈ names, n <+: r' → Name.cmp r' r ≠ .gt := by
  obtain ⟨hs, hmem⟩ := registerAll_spec List.Pairwise.nil hreg
  have hmem : ∀ m, m ∈ reg ↔ m ∈ names := fun m => by rw [hmem]; simp
  have hrange : ∀ m ∈ names, n <+: m ↔ (Name.cmp n m ≠ .gt ∧ Name.cmp m (Name.succ n) = .lt) :=
    fun m hm => (Name.range_iff_prefix hne hw (wf_proper (hn m hm))).symm
  unfold findStrategy
  rw [parse_unversioned hp]
  simp only
  rw [if_neg hne]
  constructor
  · intro h
    split at h
    · cases h
    · rename_i k hk
      split at h
      · cases h
      · rename_i r' hr'
        split at h
        · rename_i hpre
          obtain rfl := Option.some.inj h
          rw [Name.isPrefixOf_iff] at hpre
          obtain ⟨h1, h2, h3⟩ := (lowerBound_pred hs).1 ⟨k, hk, hr'⟩
          refine ⟨(hmem _).1 h1, hpre, fun r'' h4 h5 => h3 r'' ((hmem _).2 h4) ((hrange _ h4).1 h5).2⟩
        · cases h
  · rintro ⟨h1, h2, h3⟩
    obtain ⟨k, hk, hr⟩ := (lowerBound_pred hs (x := Name.succ n) (r := r)).2 (by
      refine ⟨(hmem _).2 h1, ((hrange _ h1).1 h2).2, fun r' hr' h4 hgt => ?_⟩
      have hr' := (hmem _).1 hr'
      refine h3 r' hr' ((hrange _ hr').2 ⟨?_, h4⟩) hgt
      intro h5
      exact ((hrange _ h1).1 h2).1 (cmp_gt.2 (cmp_trans (cmp_gt.1 hgt) (cmp_gt.1 h5))))
    rw [hk]
    simp only
    rw [hr]
    simp only
    rw [if_pos (Name.isPrefixOf_iff.2 h2)]

/-- C40 (without a version): the base name of registered strategies, not extended by another one, resolves to the highest version. -/
theorem C40_unversioned {names : List Name} {reg : Registry} (hreg : registerAll [] names = some reg) (hn : ∀ n ∈ names, ProperName n)
    {n : Name} (hne : n ≠ []) (hw : Name.WF n) (hp : ∀ c ∈ n.drop 1, isVersion c = false)
    (halone : ∀ m ∈ names, n <+: m → m.length = n.length + 1) (r : Name) :
    findStrategy reg n = some r ↔
      r ∈ names ∧ ∃ v', r = n ++ [v'] ∧ ∀ v'', n ++ [v''] ∈ names → toVersion v'' ≤ toVersion v' := by
  rw [unversioned_iff hreg hn hne hw hp]
  have hsplit : ∀ m ∈ names, n <+: m → ∃ v', m = n ++ [v'] := by
    rintro m hm ⟨t, rfl⟩
    have := halone _ hm (List.prefix_append _ _)
    rw [List.length_append] at this
    obtain ⟨v', rfl⟩ := List.length_eq_one_iff.1 (show t.length = 1 by omega)
    exact ⟨v', rfl⟩
  have hcmp : ∀ v' v'', n ++ [v'] ∈ names → n ++ [v''] ∈ names →
      (Name.cmp (n ++ [v'']) (n ++ [v']) ≠ .gt ↔ toVersion v'' ≤ toVersion v') := by
    intro v' v'' h1 h2
    rw [Name.cmp_append_left, Name.cmp_cons_cons]
    obtain ⟨b1, w1, e1, -, -, f1, g1⟩ := hn _ h1
    obtain ⟨b2, w2, e2, -, -, f2, g2⟩ := hn _ h2
    obtain ⟨-, e1⟩ := List.append_inj' e1 rfl
    obtain ⟨-, e2⟩ := List.append_inj' e2 rfl
    obtain rfl : v' = w1 := by simpa using e1
    obtain rfl : v'' = w2 := by simpa using e2
    rw [version_cmp f2 f1 g2 g1]
    rcases hc : compare (toVersion v'') (toVersion v') with _ | _ | _
    · have := Nat.compare_eq_lt.1 hc
      simp only [Ordering.then, ne_eq, reduceCtorEq, not_false_eq_true, true_iff]; omega
    · have := Nat.compare_eq_eq.1 hc
      simp only [Ordering.then, Name.cmp_nil_nil, ne_eq, reduceCtorEq, not_false_eq_true, true_iff]; omega
    · have := Nat.compare_eq_gt.1 hc
      simp only [Ordering.then, ne_eq, not_true, false_iff]; omega
  constructor
  · rintro ⟨h1, h2, h3⟩
    obtain ⟨v', rfl⟩ := hsplit _ h1 h2
    exact ⟨h1, v', rfl, fun v'' h4 => (hcmp _ _ h1 h4).1 (h3 _ h4 (List.prefix_append _ _))⟩
  · rintro ⟨h1, v', rfl, h3⟩
    refine ⟨h1, List.prefix_append _ _, fun r' hr' h4 => ?_⟩
    obtain ⟨v'', rfl⟩ := hsplit _ hr' h4
    exact (hcmp _ _ h1 hr').2 (h3 _ hr')

/-- C40 (other names), partial: a name without version that no registered name starts with resolves to nothing, and so does the empty
name. Missing: names that are a proper prefix of a base name, which do resolve (`C40_proper_prefix`). -/
theorem C40_other_partial {names : List Name} {reg : Registry} (hreg : registerAll [] names = some reg) (hn : ∀ n ∈ names, ProperName n)
    {n : Name} (hw : Name.WF n) (hp : ∀ c ∈ n.drop 1, isVersion c = false) (ho : n = [] ∨ ∀ m ∈ names, ¬ n <+: m) :
    findStrategy reg n = none := by
  by_cases hne : n = []
  · subst hne
    unfold findStrategy
    rw [parse_unversioned (by simp)]
    simp
  · cases h : findStrategy reg n with
    | none => rfl
    | some r =>
      obtain ⟨h1, h2, -⟩ := (unversioned_iff hreg hn hne hw hp r).1 h
      exact absurd h2 ((ho.resolve_left hne) r h1)

theorem proper_last {base : Name} {v : Component} (h : ProperName (base ++ [v])) : isVersion v = true ∧ Minimal v := by
  obtain ⟨b1, w1, e1, -, -, f1, g1⟩ := h
  obtain ⟨-, e1⟩ := List.append_inj' e1 rfl
  obtain rfl : v = w1 := by simpa using e1
  exact ⟨f1, g1⟩

/-- C40 (instantiation with a version): only the exact version is instantiated; the next higher one refuses. The instance has the
requested name. -/
theorem C40_create_versioned {names : List Name} {reg : Registry} (hreg : registerAll [] names = some reg)
    (hn : ∀ n ∈ names, ProperName n) {ctors : Name → Ctor} {base params : Name} {v : Component} (hb : base ≠ [])
    (hv : isVersion v = true) (mv : Minimal v) (hp : ∀ c ∈ params, isVersion c = false) {r m : Name}
    (h : create ctors reg (base ++ v :: params) = .instance r m) :
    r ∈ names ∧ r = base ++ [v] ∧ m = base ++ v :: params := by
  have hmake : ∀ w, makeInstanceName (base ++ v :: params) w = base ++ v :: params := by
    intro w
    unfold makeInstanceName
    rw [if_pos (by simp [hv])]
  unfold create at h
  split at h
  · cases h
  · rename_i r' hr'
    obtain ⟨h1, v', rfl, h2, -⟩ := (C40_versioned hreg hn hb hv mv hp _).1 hr'
    simp only [List.getLast?_append, List.getLast?_singleton, Option.some_or, parse_versioned hb hv hp, Option.any_some,
      hmake] at h
    by_cases hc : toVersion v = toVersion v'
    · simp only [hc, bne_self_eq_false, Bool.false_eq_true, if_false] at h
      have hvv : v' = v := by
        have := version_cmp (proper_last (hn _ h1)).1 hv (proper_last (hn _ h1)).2 mv
        rw [hc, Nat.compare_eq_eq.2 rfl] at this
        exact Component.cmp_eq.1 this
      have : Created.instance (base ++ [v']) (base ++ v :: params) = .instance r m := by
        split at h
        · split at h
          · exact h
          · cases h
        · split at h
          · cases h
          · split at h
            · exact h
            · cases h
      injection this with h3 h4
      subst h3 h4 hvv
      exact ⟨h1, rfl, rfl⟩
    · rw [if_pos (by simp [hc])] at h
      cases h

/-- C40 (instantiation without a version): the instance is of the highest version, its name is that of the registered strategy, and
using that name again gives the same strategy. -/
theorem C40_create_unversioned {names : List Name} {reg : Registry} (hreg : registerAll [] names = some reg)
    (hn : ∀ n ∈ names, ProperName n) {ctors : Name → Ctor} {n : Name} (hne : n ≠ []) (hw : Name.WF n)
    (hp : ∀ c ∈ n, isVersion c = false) (halone : ∀ m ∈ names, n <+: m → m.length = n.length + 1) {r m : Name}
    (h : create ctors reg n = .instance r m) :
    r ∈ names ∧ (∃ v', r = n ++ [v'] ∧ ∀ v'', n ++ [v''] ∈ names → toVersion v'' ≤ toVersion v') ∧ m = r ∧
      create ctors reg m = .instance r m := by
  have hp' : ∀ c ∈ n.drop 1, isVersion c = false := fun c hc => hp c (List.mem_of_mem_drop hc)
  have h0 := h
  unfold create at h
  split at h
  · cases h
  · rename_i r' hr'
    obtain ⟨h1, v', rfl, h2⟩ := (C40_unversioned hreg hn hne hw hp' halone _).1 hr'
    have hmake : makeInstanceName n v' = n ++ [v'] := by
      unfold makeInstanceName
      rw [if_neg]
      simp only [List.any_eq_true, not_exists, not_and, Bool.not_eq_true]
      exact hp
    have hv' := proper_last (hn _ h1)
    have hmake' : makeInstanceName (n ++ [v']) v' = n ++ [v'] := by
      unfold makeInstanceName
      rw [if_pos (by simp [hv'.1])]
    have hfind : findStrategy reg (n ++ [v']) = some (n ++ [v']) :=
      (C40_versioned hreg hn (params := []) hne hv'.1 hv'.2 (by simp) _).2 ⟨h1, v', rfl, Nat.le_refl _, fun _ _ h => h⟩
    simp only [List.getLast?_append, List.getLast?_singleton, Option.some_or, parse_unversioned hp', Option.any_none,
      Bool.false_eq_true, if_false, if_true, hmake, parseParameters] at h
    have hre : create ctors reg (n ++ [v']) = .instance r m := by
      unfold create
      simp only [hfind, List.getLast?_append, List.getLast?_singleton, Option.some_or, parse_versioned (params := []) hne hv'.1 (by simp),
        Option.any_some, bne_self_eq_false, Bool.false_eq_true, if_false, hmake', if_true, parseParameters]
      exact h
    have hrm : r = n ++ [v'] ∧ m = n ++ [v'] := by
      split at h
      · injection h with h3 h4; exact ⟨h3.symm, h4.symm⟩
      · split at h
        · injection h with h3 h4; exact ⟨h3.symm, h4.symm⟩
        · cases h
    obtain ⟨rfl, rfl⟩ := hrm
    exact ⟨h1, ⟨v', rfl, h2⟩, rfl, hre⟩

/-- C40 (instances): two instances are of the same type exactly if they are of the same strategy and version, whatever their parameters. -/
theorem C40_same_type {names : List Name} {reg : Registry} (hreg : registerAll [] names = some reg) (hn : ∀ n ∈ names, ProperName n)
    {a b p q : Name} {v w : Component} (ha : a ≠ []) (hb : b ≠ []) (hv : a ++ [v] ∈ names) (hw : b ++ [w] ∈ names)
    (hp : ∀ c ∈ p, isVersion c = false) (hq : ∀ c ∈ q, isVersion c = false) :
    areSameType reg (a ++ v :: p) (b ++ w :: q) = true ↔ a = b ∧ v = w := by
  have hv' := proper_last (hn _ hv)
  have hw' := proper_last (hn _ hw)
  have h1 := (C40_versioned hreg hn ha hv'.1 hv'.2 hp _).2 ⟨hv, v, rfl, Nat.le_refl _, fun _ _ h => h⟩
  have h2 := (C40_versioned hreg hn hb hw'.1 hw'.2 hq _).2 ⟨hw, w, rfl, Nat.le_refl _, fun _ _ h => h⟩
  simp only [areSameType, h1, h2, beq_iff_eq, Option.some.injEq]
  constructor
  · intro h
    obtain ⟨h3, h4⟩ := List.append_inj' h rfl
    exact ⟨h3, by simpa using h4⟩
  · rintro ⟨rfl, rfl⟩; rfl

/-! ### The strategies supplied -/

def g (s : String) : Component := ⟨ttGeneric, s.toUTF8.toList⟩
def ver (k : Nat) : Component := ⟨ttVersion, [UInt8.ofNat k]⟩
def strategyBase (s : String) : Name := [g "localhost", g "nfd", g "strategy", g s]

/-- The names registered by the supplied strategies (NFD_REGISTER_STRATEGY, e.g. best-route-strategy.cpp:54-57). -/
def supplied : List Name :=
  [strategyBase "best-route" ++ [ver 5], strategyBase "multicast" ++ [ver 5], strategyBase "random" ++ [ver 1],
   strategyBase "access" ++ [ver 1], strategyBase "self-learning" ++ [ver 1], strategyBase "asf" ++ [ver 5]]

theorem supplied_proper : ∀ n ∈ supplied, ProperName n := by
  intro n hn
  simp only [supplied, List.mem_cons, List.not_mem_nil, or_false] at hn
  rcases hn with rfl | rfl | rfl | rfl | rfl | rfl <;>
    exact ⟨_, _, rfl, by simp [strategyBase], by simp [strategyBase, g], by decide, Or.inl (by decide)⟩

/-- C40 (where the code does not have the property): an unversioned name that is not a strategy's base name but a proper prefix of some
resolves to the last of them; the name of the instance, which has the version appended, does not resolve. -/
theorem C40_proper_prefix :
    ∃ reg, registerAll [] supplied = some reg ∧
      findStrategy reg [g "localhost"] = some (strategyBase "self-learning" ++ [ver 1]) ∧
      create (fun _ => ⟨none⟩) reg [g "localhost"] = .instance (strategyBase "self-learning" ++ [ver 1]) [g "localhost", ver 1] ∧
      findStrategy reg [g "localhost", ver 1] = none := by
  have h1 : (registerAll [] supplied).any (fun reg =>
      findStrategy reg [g "localhost"] == some (strategyBase "self-learning" ++ [ver 1]) &&
      create (fun _ => ⟨none⟩) reg [g "localhost"] == .instance (strategyBase "self-learning" ++ [ver 1]) [g "localhost", ver 1] &&
      findStrategy reg [g "localhost", ver 1] == none) = true := by decide +kernel
  rw [Option.any_eq_true] at h1
  obtain ⟨reg, h2, h3⟩ := h1
  simp only [Bool.and_eq_true, beq_iff_eq] at h3
  exact ⟨reg, h2, h3.1.1, h3.1.2, h3.2⟩

example : ∃ reg, registerAll [] supplied = some reg ∧
    areSameType reg (strategyBase "asf" ++ ver 5 :: [g "probing-interval~1"]) (strategyBase "asf" ++ ver 5 :: []) = true ∧
    areSameType reg (strategyBase "asf" ++ ver 5 :: []) (strategyBase "access" ++ ver 1 :: []) = false := by
  have h1 : (registerAll [] supplied).isSome = true := by decide +kernel
  obtain ⟨reg, h⟩ := Option.isSome_iff_exists.1 h1
  refine ⟨reg, h, (C40_same_type h supplied_proper (by decide +kernel) (by decide +kernel) (by decide +kernel) (by decide +kernel) (by decide +kernel) (by decide +kernel)).2 ⟨rfl, rfl⟩, ?_⟩
  rw [Bool.eq_false_iff]
  intro h2
  have := (C40_same_type h supplied_proper (by decide +kernel) (by decide +kernel) (by decide +kernel) (by decide +kernel) (by decide +kernel) (by decide +kernel)).1 h2
  exact absurd this.1 (by decide +kernel)

/-! Hypotheses can be met: versions 2 and 7 of a strategy in the registry; 3 resolves to 7, 8 to nothing, no version to 7. -/
def exReg : List Name := supplied ++ [strategyBase "asf" ++ [ver 7]]

example : (registerAll [] exReg).any (fun reg =>
    findStrategy reg (strategyBase "asf" ++ [ver 3]) == some (strategyBase "asf" ++ [ver 5]) &&
    findStrategy reg (strategyBase "asf" ++ [ver 6, g "max-timeouts~4"]) == some (strategyBase "asf" ++ [ver 7]) &&
    findStrategy reg (strategyBase "asf" ++ [ver 8]) == none &&
    findStrategy reg (strategyBase "asf") == some (strategyBase "asf" ++ [ver 7]) &&
    findStrategy reg (strategyBase "asf2") == none &&
    create (fun _ => ⟨some (fun _ => true)⟩) reg (strategyBase "asf" ++ [ver 6]) == .exception &&
    create (fun _ => ⟨some (fun _ => true)⟩) reg (strategyBase "asf" ++ [ver 5, g "max-timeouts~4"]) ==
      .instance (strategyBase "asf" ++ [ver 5]) (strategyBase "asf" ++ [ver 5, g "max-timeouts~4"]) &&
    create (fun _ => ⟨some (fun _ => true)⟩) reg (strategyBase "asf" ++ [ver 5, g "max-timeouts"]) == .exception &&
    create (fun _ => ⟨some (fun _ => true)⟩) reg (strategyBase "asf") == .instance (strategyBase "asf" ++ [ver 7]) (strategyBase "asf" ++ [ver 7])) = true := by
  decide +kernel

example : (∀ m ∈ exReg, strategyBase "asf" <+: m → m.length = (strategyBase "asf").length + 1) ∧ Name.WF (strategyBase "asf") ∧
    (∀ c ∈ strategyBase "asf", isVersion c = false) ∧ strategyBase "asf" ≠ [] := by
  refine ⟨?_, ?_, by decide +kernel, by simp [strategyBase]⟩
  · intro m hm _
    simp only [exReg, supplied, List.cons_append, List.nil_append, List.mem_cons, List.not_mem_nil, or_false] at hm
    rcases hm with rfl | rfl | rfl | rfl | rfl | rfl | rfl <;> simp [strategyBase]
  · intro c hc
    exact wf_generic (by simp [strategyBase, g] at hc; rcases hc with rfl | rfl | rfl | rfl <;> rfl)

end Verif.Strat
