import Verif.Rib.SvcSpec

namespace Verif.Svc
open Verif.Cf (Node)
open Verif.Fs (Lacks First Last Says YesNo)

variable {V C : Type}

theorem child_none {n : Node} {k : String} : n.child k = none ↔ Lacks n.kids k := by
  unfold Node.child Lacks
  simp [List.find?_eq_none]

theorem child_some {n : Node} {k : String} {x : Node} : n.child k = some x ↔ First n.kids k x := by
  unfold Node.child First
  simp only [Option.map_eq_some_iff]
  constructor
  · rintro ⟨⟨k', x'⟩, h, rfl⟩
    obtain ⟨h1, as, bs, h2, h3⟩ := List.find?_eq_some_iff_append.mp h
    have hk : k' = k := by simpa using h1
    subst hk
    exact ⟨as, bs, h2, fun y hy => by simpa using h3 y hy⟩
  · rintro ⟨as, bs, h2, h3⟩
    exact ⟨(k, x), List.find?_eq_some_iff_append.mpr ⟨by simp, as, bs, h2, fun y hy => by simpa using h3 y hy⟩, rfl⟩

theorem yesNo_iff {x : Node} {b : Bool} : Fs.yesNo x = some b ↔ YesNo x b := by
  unfold Fs.yesNo YesNo
  split
  · simp [*, eq_comm]
  · split
    · simp [*, eq_comm]
    · rename_i h1 h2
      simp [h1, h2]

theorem lacks_cons {x : String × Node} {l : List (String × Node)} {k : String} : Lacks (x :: l) k ↔ x.1 ≠ k ∧ Lacks l k := by
  unfold Lacks; simp

theorem last_cons {x : String × Node} {l : List (String × Node)} {k : String} {y : Node} :
    Last (x :: l) k y ↔ Last l k y ∨ (Lacks l k ∧ x = (k, y)) := by
  unfold Last Lacks
  constructor
  · rintro ⟨b, a, h, h2⟩
    cases b with
    | nil => injection h with h3 h4; exact .inr ⟨by rw [h4]; exact h2, h3⟩
    | cons z b => injection h with h3 h4; exact .inl ⟨b, a, h4, h2⟩
  · rintro (⟨b, a, h, h2⟩ | ⟨h, rfl⟩)
    · exact ⟨x :: b, a, by rw [h]; rfl, h2⟩
    · exact ⟨[], l, rfl, h⟩

theorem last_not_lacks {l : List (String × Node)} {k : String} {y : Node} (h : Last l k y) : ¬ Lacks l k := by
  obtain ⟨b, a, rfl, -⟩ := h
  intro hl
  exact hl (k, y) (by simp) rfl

theorem first_cons {x : String × Node} {l : List (String × Node)} {k : String} {y : Node} :
    First (x :: l) k y ↔ x = (k, y) ∨ (x.1 ≠ k ∧ First l k y) := by
  unfold First
  constructor
  · rintro ⟨b, a, h, h2⟩
    cases b with
    | nil => injection h with h3 h4; exact .inl h3
    | cons z b =>
      injection h with h3 h4
      exact .inr ⟨by rw [h3]; exact h2 z (by simp), b, a, h4, fun y hy => h2 y (List.mem_cons_of_mem _ hy)⟩
  · rintro (rfl | ⟨h, b, a, rfl, h2⟩)
    · exact ⟨[], l, rfl, by simp⟩
    · exact ⟨x :: b, a, rfl, by
        intro y hy
        rcases List.mem_cons.mp hy with rfl | hy
        · exact h
        · exact h2 y hy⟩

theorem first_lacks {l : List (String × Node)} {k : String} {y : Node} (h : First l k y) : ¬ Lacks l k := by
  obtain ⟨b, a, rfl, -⟩ := h
  intro hl
  exact hl (k, y) (by simp) rfl

/-! ### Checking -/

/-- Lines that `checkItem` accepts. -/
def Line (e : Env V C) (y : String × Node) : Prop :=
  (y.1 ∈ ["localhost_security", "localhop_security", "prefix_announcement_validation"] ∧ ∃ v, e.load y.2 = some v) ∨ y.1 = "auto_prefix_propagate" ∨
  (y.1 = "readvertise_nlsr" ∧ ∃ b, YesNo y.2 b)

theorem checkItem_iff (e : Env V C) (x : String × Node) (h h' : Bool × Bool) :
    checkItem e x h = some h' ↔ Line e x ∧ h' = (h.1 || x.1 == "localhop_security", h.2 || x.1 == "auto_prefix_propagate") := by
  obtain ⟨k, x⟩ := x
  obtain ⟨a, b⟩ := h
  unfold checkItem Line
  dsimp only
  by_cases h1 : k = "localhost_security" ∨ k = "prefix_announcement_validation"
  · rw [if_pos h1]
    rcases h1 with rfl | rfl <;> cases e.load x <;> simp [eq_comm]
  rw [if_neg h1]
  by_cases h2 : k = "localhop_security"
  · subst h2
    rw [if_pos rfl]
    cases e.load x <;> simp [eq_comm]
  rw [if_neg h2]
  by_cases h3 : k = "auto_prefix_propagate"
  · subst h3
    rw [if_pos rfl]
    simp [eq_comm]
  rw [if_neg h3]
  by_cases h4 : k = "readvertise_nlsr"
  · subst h4
    rw [if_pos rfl]
    cases hy : Fs.yesNo x with
    | none =>
      have : ∀ b, ¬ YesNo x b := fun b h => by rw [← yesNo_iff, hy] at h; cases h
      simp [this]
    | some b =>
      have : ∃ b, YesNo x b := ⟨b, yesNo_iff.mp hy⟩
      simp [this, eq_comm]
  rw [if_neg h4]
  have h5 : k ≠ "localhost_security" ∧ k ≠ "prefix_announcement_validation" := by simpa using h1
  simp [h2, h3, h4, h5.1, h5.2]

theorem checkItems_iff (e : Env V C) (l : List (String × Node)) (h h' : Bool × Bool) :
    checkItems e l h = some h' ↔ (∀ x ∈ l, Line e x) ∧
      h' = (h.1 || l.any (fun x => x.1 == "localhop_security"), h.2 || l.any (fun x => x.1 == "auto_prefix_propagate")) := by
  induction l generalizing h with
  | nil => simp [checkItems, eq_comm]
  | cons x l ih =>
    unfold checkItems
    cases hc : checkItem e x h with
    | none =>
      have : ¬ Line e x := fun hl => by
        rw [(checkItem_iff e x h _).mpr ⟨hl, rfl⟩] at hc; cases hc
      simp [this]
    | some h1 =>
      obtain ⟨a, b⟩ := (checkItem_iff e x h h1).mp hc
      dsimp only
      rw [ih, b]
      simp only [List.mem_cons, forall_eq_or_imp, List.any_cons, Bool.or_assoc, a, true_and]

theorem lacks_any {l : List (String × Node)} {k : String} : l.any (fun x => x.1 == k) = false ↔ Lacks l k := by
  unfold Lacks; simp [List.any_eq_false]

theorem check_iff (e : Env V C) (n : Node) : check e n = true ↔ WellFormed e n := by
  unfold check
  cases hc : checkItems e n.kids (false, false) with
  | none =>
    constructor
    · intro h; cases h
    · intro h
      have : ∀ x ∈ n.kids, Line e x := by
        intro x hx
        have h1 := h.names x hx
        have h2 := h.rules x hx
        have h3 := h.nlsr x hx
        unfold Line
        simp only [List.mem_cons, List.not_mem_nil, or_false] at h1 h2 ⊢
        grind
      rw [(checkItems_iff e n.kids (false, false) _).mpr ⟨this, rfl⟩] at hc
      cases hc
  | some p =>
    obtain ⟨a, b⟩ := (checkItems_iff e n.kids (false, false) p).mp hc
    subst b
    simp only [Bool.false_or, Bool.not_eq_true', Bool.and_eq_false_iff, lacks_any]
    constructor
    · intro h
      refine ⟨fun y hy => ?_, fun y hy hm => ?_, fun y hy hm => ?_, h⟩
      · have := a y hy
        unfold Line at this
        simp only [List.mem_cons, List.not_mem_nil, or_false] at this ⊢
        grind
      · rcases a y hy with h1 | h1 | h1
        · exact h1.2
        · rw [h1] at hm; exact absurd hm (by decide)
        · rw [h1.1] at hm; exact absurd hm (by decide)
      · rcases a y hy with h1 | h1 | h1
        · rw [hm] at h1; revert h1; exact fun h => absurd h.1 (by decide)
        · rw [hm] at h1; exact absurd h1 (by decide)
        · exact h1.2
    · exact fun h => h.excl

/-! ### Applying -/

theorem applyItem_line {e : Env V C} {x : String × Node} (h : Line e x) (s : St V) (w : Wants) : ∃ s' w', applyItem e x s w = some (s', w') := by
  obtain ⟨k, x⟩ := x
  unfold applyItem
  rcases h with ⟨hk, v, hv⟩ | rfl | ⟨rfl, b, hb⟩
  · dsimp only at hk hv ⊢
    simp only [List.mem_cons, List.not_mem_nil, or_false] at hk
    rcases hk with rfl | rfl | rfl
    · exact ⟨_, _, by rw [if_pos rfl, hv]; rfl⟩
    · exact ⟨_, _, by rw [if_neg (by decide), if_pos rfl, hv]; rfl⟩
    · exact ⟨_, _, by rw [if_neg (by decide), if_neg (by decide), if_pos rfl, hv]; rfl⟩
  · dsimp only
    rw [if_neg (by decide), if_neg (by decide), if_neg (by decide), if_pos rfl]
    split
    · exact ⟨_, _, rfl⟩
    · exact ⟨_, _, rfl⟩
  · exact ⟨_, _, by
      dsimp only at hb ⊢
      rw [if_neg (by decide), if_neg (by decide), if_neg (by decide), if_neg (by decide), if_pos rfl, yesNo_iff.mpr hb]; rfl⟩

theorem applyItems_line {e : Env V C} {l : List (String × Node)} (h : ∀ x ∈ l, Line e x) (s : St V) (w : Wants) :
    ∃ s' w', applyItems e l s w = (s', some w') := by
  induction l generalizing s w with
  | nil => exact ⟨s, w, rfl⟩
  | cons x l ih =>
    obtain ⟨s1, w1, h1⟩ := applyItem_line (h x (by simp)) s w
    obtain ⟨s2, w2, h2⟩ := ih (fun y hy => h y (List.mem_cons_of_mem _ hy)) s1 w1
    exact ⟨s2, w2, by unfold applyItems; rw [h1]; exact h2⟩

theorem lines_of_wf {e : Env V C} {n : Node} (h : WellFormed e n) : ∀ x ∈ n.kids, Line e x := by
  intro x hx
  have h1 := h.names x hx
  have h2 := h.rules x hx
  have h3 := h.nlsr x hx
  unfold Line
  simp only [List.mem_cons, List.not_mem_nil, or_false] at h1 h2 ⊢
  grind

theorem apply_wf {e : Env V C} {n : Node} (h : WellFormed e n) (s : St V) : (apply e n s).2 = true := by
  obtain ⟨s', w', h1⟩ := applyItems_line (lines_of_wf h) s {}
  unfold apply
  rw [h1]

theorem process_dry (e : Env V C) (l : List (String × Node)) (s : St V) :
    (process e true l s).1 = s ∧ ((process e true l s).2 = true ↔ ∀ x ∈ l, x.1 = "rib" → WellFormed e x.2) := by
  induction l with
  | nil => simp [process]
  | cons x l ih =>
    unfold process
    by_cases hr : x.1 = "rib"
    · rw [if_pos hr, if_pos rfl]
      by_cases hc : check e x.2 = true
      · rw [if_pos hc]
        refine ⟨ih.1, ih.2.trans ?_⟩
        have := (check_iff e x.2).mp hc
        simp [this]
      · rw [if_neg hc]
        have : ¬ WellFormed e x.2 := fun h => hc ((check_iff e x.2).mpr h)
        simp [hr, this]
    · rw [if_neg hr]
      refine ⟨ih.1, ih.2.trans ?_⟩
      simp [hr]

theorem process_real (e : Env V C) (l : List (String × Node)) (s : St V) (h : ∀ x ∈ l, x.1 = "rib" → WellFormed e x.2) :
    (process e false l s).2 = true := by
  induction l generalizing s with
  | nil => rfl
  | cons x l ih =>
    unfold process
    by_cases hr : x.1 = "rib"
    · rw [if_pos hr, if_neg (by decide)]
      have ha := apply_wf (h x (by simp) hr) s
      generalize apply e x.2 s = r at ha
      obtain ⟨s', b⟩ := r
      dsimp only at ha
      subst ha
      exact ih s' (fun y hy => h y (List.mem_cons_of_mem _ hy))
    · rw [if_neg hr]
      exact ih s (fun y hy => h y (List.mem_cons_of_mem _ hy))

theorem process_one (e : Env V C) (a b : List (String × Node)) (n : Node) (s : St V) (ha : ∀ y ∈ a, y.1 ≠ "rib") (hb : ∀ y ∈ b, y.1 ≠ "rib") :
    process e false (a ++ ("rib", n) :: b) s = apply e n s := by
  have hnil : ∀ (l : List (String × Node)) (s : St V), (∀ y ∈ l, y.1 ≠ "rib") → process e false l s = (s, true) := by
    intro l
    induction l with
    | nil => intro s _; rfl
    | cons x l ih =>
      intro s h
      unfold process
      rw [if_neg (h x (by simp))]
      exact ih s (fun y hy => h y (List.mem_cons_of_mem _ hy))
  induction a with
  | nil =>
    show process e false (("rib", n) :: b) s = _
    unfold process
    rw [if_pos rfl, if_neg (by decide)]
    dsimp only
    generalize apply e n s = r
    obtain ⟨s', ok⟩ := r
    cases ok
    · rfl
    · exact hnil b s' hb
  | cons x a ih =>
    show process e false (x :: (a ++ ("rib", n) :: b)) s = _
    unfold process
    rw [if_neg (ha x (by simp))]
    exact ih (fun y hy => ha y (List.mem_cons_of_mem _ hy))

/-- What the loop of `applyConfig` has done. -/
structure Loop (e : Env V C) (l : List (String × Node)) (s s' : St V) (w w' : Wants) : Prop where
  localhost : (Lacks l "localhost_security" ∧ s'.localhost = s.localhost) ∨ ∃ x, Last l "localhost_security" x ∧ (e.load x).isSome ∧ s'.localhost = e.load x
  localhop : (Lacks l "localhop_security" ∧ s'.localhop = s.localhop ∧ s'.localhopEnabled = s.localhopEnabled) ∨
    ∃ x, Last l "localhop_security" x ∧ (e.load x).isSome ∧ s'.localhop = e.load x ∧ s'.localhopEnabled = true
  pa : (Lacks l "prefix_announcement_validation" ∧ s'.pa = s.pa) ∨ ∃ x, Last l "prefix_announcement_validation" x ∧ (e.load x).isSome ∧ s'.pa = e.load x
  nlsr : (Lacks l "readvertise_nlsr" ∧ w'.nlsr = w.nlsr) ∨ ∃ x, Last l "readvertise_nlsr" x ∧ YesNo x w'.nlsr
  prop : (Lacks l "auto_prefix_propagate" ∧ w'.propagate = w.propagate ∧ s'.propagate = s.propagate) ∨
    (w'.propagate = true ∧ ∃ x, First l "auto_prefix_propagate" x ∧ s'.propagate = if s.propagate.isSome then s.propagate else some (propagateOf e x))

theorem last_head {l : List (String × Node)} {k : String} {x : Node} (h : Lacks l k) : Last ((k, x) :: l) k x := last_cons.mpr (.inr ⟨h, rfl⟩)

theorem last_tail {l : List (String × Node)} {k : String} {x : Node} {y : String × Node} (h : Last l k x) : Last (y :: l) k x := last_cons.mpr (.inl h)

theorem first_tail {l : List (String × Node)} {k : String} {x : Node} {y : String × Node} (hy : y.1 ≠ k) (h : First l k x) : First (y :: l) k x :=
  first_cons.mpr (.inr ⟨hy, h⟩)

theorem applyItems_loop {e : Env V C} {l : List (String × Node)} {s s' : St V} {w w' : Wants} (h : applyItems e l s w = (s', some w')) :
    Loop e l s s' w w' := by
  induction l generalizing s w with
  | nil =>
    unfold applyItems at h
    injection h with h1 h2
    injection h2 with h2
    subst h1 h2
    exact ⟨.inl ⟨by simp [Lacks], rfl⟩, .inl ⟨by simp [Lacks], rfl, rfl⟩, .inl ⟨by simp [Lacks], rfl⟩, .inl ⟨by simp [Lacks], rfl⟩,
      .inl ⟨by simp [Lacks], rfl, rfl⟩⟩
  | cons y l ih =>
    obtain ⟨k, y⟩ := y
    unfold applyItems at h
    cases hi : applyItem e (k, y) s w with
    | none => rw [hi] at h; injection h with _ h; cases h
    | some p =>
      obtain ⟨s1, w1⟩ := p
      rw [hi] at h
      have hl := ih h
      obtain ⟨a1, a2, a3, a4, a5⟩ := hl
      unfold applyItem at hi
      dsimp only at hi
      by_cases h1 : k = "localhost_security"
      · subst h1
        rw [if_pos rfl, Option.map_eq_some_iff] at hi
        obtain ⟨v, hv, hi⟩ := hi
        injection hi with e1 e2
        subst e1 e2
        refine ⟨?_, ?_, ?_, ?_, ?_⟩
        · rcases a1 with ⟨b, c⟩ | ⟨x, b, c⟩
          · exact .inr ⟨y, last_head b, by rw [hv]; rfl, by rw [hv]; exact c⟩
          · exact .inr ⟨x, last_tail b, c⟩
        · rcases a2 with ⟨b, c⟩ | ⟨x, b, c⟩
          · exact .inl ⟨lacks_cons.mpr ⟨(by dsimp only; decide), b⟩, c⟩
          · exact .inr ⟨x, last_tail b, c⟩
        · rcases a3 with ⟨b, c⟩ | ⟨x, b, c⟩
          · exact .inl ⟨lacks_cons.mpr ⟨(by dsimp only; decide), b⟩, c⟩
          · exact .inr ⟨x, last_tail b, c⟩
        · rcases a4 with ⟨b, c⟩ | ⟨x, b, c⟩
          · exact .inl ⟨lacks_cons.mpr ⟨(by dsimp only; decide), b⟩, c⟩
          · exact .inr ⟨x, last_tail b, c⟩
        · rcases a5 with ⟨b, c⟩ | ⟨b, x, c, d⟩
          · exact .inl ⟨lacks_cons.mpr ⟨(by dsimp only; decide), b⟩, c⟩
          · exact .inr ⟨b, x, first_tail (by dsimp only; decide) c, d⟩
      rw [if_neg h1] at hi
      by_cases h2 : k = "localhop_security"
      · subst h2
        rw [if_pos rfl, Option.map_eq_some_iff] at hi
        obtain ⟨v, hv, hi⟩ := hi
        injection hi with e1 e2
        subst e1 e2
        refine ⟨?_, ?_, ?_, ?_, ?_⟩
        · rcases a1 with ⟨b, c⟩ | ⟨x, b, c⟩
          · exact .inl ⟨lacks_cons.mpr ⟨(by dsimp only; decide), b⟩, c⟩
          · exact .inr ⟨x, last_tail b, c⟩
        · rcases a2 with ⟨b, c, d⟩ | ⟨x, b, c⟩
          · exact .inr ⟨y, last_head b, by rw [hv]; rfl, by rw [hv]; exact c, d⟩
          · exact .inr ⟨x, last_tail b, c⟩
        · rcases a3 with ⟨b, c⟩ | ⟨x, b, c⟩
          · exact .inl ⟨lacks_cons.mpr ⟨(by dsimp only; decide), b⟩, c⟩
          · exact .inr ⟨x, last_tail b, c⟩
        · rcases a4 with ⟨b, c⟩ | ⟨x, b, c⟩
          · exact .inl ⟨lacks_cons.mpr ⟨(by dsimp only; decide), b⟩, c⟩
          · exact .inr ⟨x, last_tail b, c⟩
        · rcases a5 with ⟨b, c⟩ | ⟨b, x, c, d⟩
          · exact .inl ⟨lacks_cons.mpr ⟨(by dsimp only; decide), b⟩, c⟩
          · exact .inr ⟨b, x, first_tail (by dsimp only; decide) c, d⟩
      rw [if_neg h2] at hi
      by_cases h3 : k = "prefix_announcement_validation"
      · subst h3
        rw [if_pos rfl, Option.map_eq_some_iff] at hi
        obtain ⟨v, hv, hi⟩ := hi
        injection hi with e1 e2
        subst e1 e2
        refine ⟨?_, ?_, ?_, ?_, ?_⟩
        · rcases a1 with ⟨b, c⟩ | ⟨x, b, c⟩
          · exact .inl ⟨lacks_cons.mpr ⟨(by dsimp only; decide), b⟩, c⟩
          · exact .inr ⟨x, last_tail b, c⟩
        · rcases a2 with ⟨b, c⟩ | ⟨x, b, c⟩
          · exact .inl ⟨lacks_cons.mpr ⟨(by dsimp only; decide), b⟩, c⟩
          · exact .inr ⟨x, last_tail b, c⟩
        · rcases a3 with ⟨b, c⟩ | ⟨x, b, c⟩
          · exact .inr ⟨y, last_head b, by rw [hv]; rfl, by rw [hv]; exact c⟩
          · exact .inr ⟨x, last_tail b, c⟩
        · rcases a4 with ⟨b, c⟩ | ⟨x, b, c⟩
          · exact .inl ⟨lacks_cons.mpr ⟨(by dsimp only; decide), b⟩, c⟩
          · exact .inr ⟨x, last_tail b, c⟩
        · rcases a5 with ⟨b, c⟩ | ⟨b, x, c, d⟩
          · exact .inl ⟨lacks_cons.mpr ⟨(by dsimp only; decide), b⟩, c⟩
          · exact .inr ⟨b, x, first_tail (by dsimp only; decide) c, d⟩
      rw [if_neg h3] at hi
      by_cases h4 : k = "auto_prefix_propagate"
      · subst h4
        rw [if_pos rfl] at hi
        injection hi with hi
        have hs : s1.localhost = s.localhost ∧ s1.localhop = s.localhop ∧ s1.localhopEnabled = s.localhopEnabled ∧ s1.pa = s.pa ∧ w1.nlsr = w.nlsr ∧
            w1.propagate = true ∧ s1.propagate = (if s.propagate.isSome then s.propagate else some (propagateOf e y)) ∧ s1.propagate.isSome := by
          split at hi <;> injection hi with e1 e2 <;> subst e1 e2 <;> simp_all
        obtain ⟨s_1, s_2, s_3, s_4, s_5, s_6, s_7, s_8⟩ := hs
        refine ⟨?_, ?_, ?_, ?_, ?_⟩
        · rcases a1 with ⟨b, c⟩ | ⟨x, b, c⟩
          · exact .inl ⟨lacks_cons.mpr ⟨(by dsimp only; decide), b⟩, c.trans s_1⟩
          · exact .inr ⟨x, last_tail b, c⟩
        · rcases a2 with ⟨b, c, d⟩ | ⟨x, b, c⟩
          · exact .inl ⟨lacks_cons.mpr ⟨(by dsimp only; decide), b⟩, c.trans s_2, d.trans s_3⟩
          · exact .inr ⟨x, last_tail b, c⟩
        · rcases a3 with ⟨b, c⟩ | ⟨x, b, c⟩
          · exact .inl ⟨lacks_cons.mpr ⟨(by dsimp only; decide), b⟩, c.trans s_4⟩
          · exact .inr ⟨x, last_tail b, c⟩
        · rcases a4 with ⟨b, c⟩ | ⟨x, b, c⟩
          · exact .inl ⟨lacks_cons.mpr ⟨(by dsimp only; decide), b⟩, c.trans s_5⟩
          · exact .inr ⟨x, last_tail b, c⟩
        · refine .inr ⟨?_, y, first_cons.mpr (.inl rfl), ?_⟩
          · rcases a5 with ⟨b, c, d⟩ | ⟨b, x, c, d⟩
            · exact c.trans s_6
            · exact b
          · rcases a5 with ⟨b, c, d⟩ | ⟨b, x, c, d⟩
            · exact d.trans s_7
            · rw [d, if_pos s_8, s_7]
      rw [if_neg h4] at hi
      by_cases h5 : k = "readvertise_nlsr"
      · subst h5
        rw [if_pos rfl, Option.map_eq_some_iff] at hi
        obtain ⟨v, hv, hi⟩ := hi
        injection hi with e1 e2
        subst e1 e2
        refine ⟨?_, ?_, ?_, ?_, ?_⟩
        · rcases a1 with ⟨b, c⟩ | ⟨x, b, c⟩
          · exact .inl ⟨lacks_cons.mpr ⟨(by dsimp only; decide), b⟩, c⟩
          · exact .inr ⟨x, last_tail b, c⟩
        · rcases a2 with ⟨b, c⟩ | ⟨x, b, c⟩
          · exact .inl ⟨lacks_cons.mpr ⟨(by dsimp only; decide), b⟩, c⟩
          · exact .inr ⟨x, last_tail b, c⟩
        · rcases a3 with ⟨b, c⟩ | ⟨x, b, c⟩
          · exact .inl ⟨lacks_cons.mpr ⟨(by dsimp only; decide), b⟩, c⟩
          · exact .inr ⟨x, last_tail b, c⟩
        · rcases a4 with ⟨b, c⟩ | ⟨x, b, c⟩
          · exact .inr ⟨y, last_head b, by rw [c]; exact yesNo_iff.mp hv⟩
          · exact .inr ⟨x, last_tail b, c⟩
        · rcases a5 with ⟨b, c⟩ | ⟨b, x, c, d⟩
          · exact .inl ⟨lacks_cons.mpr ⟨(by dsimp only; decide), b⟩, c⟩
          · exact .inr ⟨b, x, first_tail (by dsimp only; decide) c, d⟩
      rw [if_neg h5] at hi
      cases hi

theorem numSays (e : Env V C) (n : Node) (k : String) (d : Nat) : NumSays e n.kids k d (((n.child k).bind (fun x => e.num x.value)).getD d) := by
  cases hc : n.child k with
  | none => exact .inl ⟨child_none.mp hc, rfl⟩
  | some x =>
    refine .inr ⟨x, child_some.mp hc, ?_⟩
    dsimp only [Option.bind_some]
    cases hn : e.num x.value with
    | none => exact .inl ⟨rfl, rfl⟩
    | some v => exact .inr rfl

theorem getStr_iff {x : Node} {k d p : String} : getStr x k d = p ↔ (Lacks x.kids k ∧ p = d) ∨ ∃ y, First x.kids k y ∧ p = y.value := by
  unfold getStr
  cases hc : x.child k with
  | none =>
    have := child_none.mp hc
    constructor
    · intro h; exact .inl ⟨this, h.symm⟩
    · rintro (⟨-, rfl⟩ | ⟨y, hy, -⟩)
      · rfl
      · exact absurd this (first_lacks hy)
  | some y =>
    have := child_some.mp hc
    constructor
    · intro h; exact .inr ⟨y, this, h.symm⟩
    · rintro (⟨h, -⟩ | ⟨z, hz, rfl⟩)
      · exact absurd h (first_lacks this)
      · rw [child_some.mpr hz] at hc
        injection hc with hc
        rw [hc]; rfl

theorem first_unique {l : List (String × Node)} {k : String} {x y : Node} (hx : First l k x) (hy : First l k y) : x = y := by
  have h1 : (Node.mk "" l).child k = some x := child_some.mpr hx
  rw [(child_some (n := .mk "" l)).mpr hy] at h1
  injection h1 with h1
  exact h1.symm

theorem transport_iff {file : List (String × Node)} {t : Transport} : transport (.mk "" file) = some t ↔ TransportSays file t := by
  constructor
  · intro h
    unfold transport at h
    cases hf : (Node.mk "" file).child "face_system" with
    | none => rw [hf] at h; cases h
    | some f =>
      have h1 : First file "face_system" f := child_some.mp hf
      rw [hf] at h
      dsimp only at h
      cases hu : f.child "unix" with
      | some u =>
        rw [hu] at h
        injection h with h
        subst h
        exact .unix f u _ h1 (child_some.mp hu) (getStr_iff.mp rfl)
      | none =>
        rw [hu] at h
        dsimp only at h
        cases ht : f.child "tcp" with
        | none => rw [ht] at h; cases h
        | some x =>
          rw [ht] at h
          dsimp only at h
          split at h
          · rename_i hl
            injection h with h
            subst h
            refine .tcp f x _ h1 (child_none.mp hu) (child_some.mp ht) ?_ (getStr_iff.mp rfl)
            rcases getStr_iff.mp hl with ⟨a, -⟩ | ⟨y, a, b⟩
            · exact .inl a
            · exact .inr ⟨y, a, b.symm⟩
          · cases h
  · intro h
    unfold transport
    cases h with
    | unix f x p h1 h2 h3 =>
      rw [(child_some (n := .mk "" file)).mpr h1]
      dsimp only
      rw [child_some.mpr h2]
      dsimp only
      rw [getStr_iff.mpr h3]
    | tcp f x p h1 h2 h3 h4 h5 =>
      rw [(child_some (n := .mk "" file)).mpr h1]
      dsimp only
      rw [child_none.mpr h2]
      dsimp only
      rw [child_some.mpr h3]
      dsimp only
      rw [getStr_iff.mpr h5, if_pos]
      refine getStr_iff.mpr ?_
      rcases h4 with a | ⟨y, a, b⟩
      · exact .inl ⟨a, rfl⟩
      · exact .inr ⟨y, a, b.symm⟩

theorem first_once {l : List (String × Node)} {k : String} {x y : Node} (ho : Once l k) (hx : First l k x) (hy : Last l k y) : x = y := by
  obtain ⟨a, b, rfl, h1⟩ := hx
  obtain ⟨c, d, h, h2⟩ := hy
  rcases List.append_eq_append_iff.mp h with ⟨z, h3, h4⟩ | ⟨z, h3, h4⟩
  · cases z with
    | nil => injection h4 with h5 _; injection h5
    | cons w z =>
      injection h4 with h5 h6
      subst h5
      exact absurd ⟨a, x, z, y, d, by rw [h6]; simp⟩ ho
  · cases z with
    | nil => injection h4 with h5 _; injection h5 with _ h5; exact h5.symm
    | cons w z =>
      injection h4 with h5 h6
      subst h5
      exact absurd rfl (h1 (k, y) (by rw [h3]; simp))

theorem start_iff (e : Env V C) (file : List (String × Node)) : (start e file).isSome = true ↔
    (transport (.mk "" file)).isSome = true ∧ ∀ x ∈ file, x.1 = "rib" → WellFormed e x.2 := by
  unfold start
  cases ht : transport (.mk "" file) with
  | none => simp
  | some t =>
    dsimp only
    obtain ⟨h1, h2⟩ := process_dry e file {}
    generalize hp : process e true file {} = r at h1 h2
    obtain ⟨s, b⟩ := r
    cases b with
    | false =>
      dsimp only at h2 ⊢
      simp only [Option.isSome_none, Option.isSome_some, true_and]
      exact h2
    | true =>
      dsimp only at h2 ⊢
      have hw := h2.mp rfl
      have h3 := process_real e file s hw
      generalize process e false file s = r at h3
      obtain ⟨s', b⟩ := r
      dsimp only at h3
      subst h3
      simp only [Option.isSome_some, true_and, true_iff]
      exact hw

theorem start_done {e : Env V C} {a b : List (String × Node)} {n : Node} {r : Running V} (ha : ∀ y ∈ a, y.1 ≠ "rib") (hb : ∀ y ∈ b, y.1 ≠ "rib")
    (h : start e (a ++ ("rib", n) :: b) = some r) : Done e n r := by
  unfold start at h
  cases ht : transport (.mk "" (a ++ ("rib", n) :: b)) with
  | none => rw [ht] at h; cases h
  | some t =>
    rw [ht] at h
    dsimp only at h
    obtain ⟨h1, h2⟩ := process_dry e (a ++ ("rib", n) :: b) {}
    generalize process e true (a ++ ("rib", n) :: b) {} = q at h1 h2 h
    obtain ⟨s, ok⟩ := q
    dsimp only at h1; subst h1
    cases ok with
    | false => cases h
    | true =>
      dsimp only at h
      rw [process_one e a b n {} ha hb] at h
      unfold apply at h
      generalize hl : applyItems e n.kids {} {} = q at h
      obtain ⟨s', ow⟩ := q
      cases ow with
      | none => cases h
      | some w =>
        dsimp only at h
        injection h with h
        subst h
        obtain ⟨a1, a2, a3, a4, a5⟩ := applyItems_loop hl
        refine ⟨?_, ?_, ?_, ?_, ?_⟩
        · rcases a1 with ⟨b, c⟩ | ⟨x, b, c, d⟩
          · exact .inl ⟨b, fun c' => by simp only [authorized]; rw [c]; rfl⟩
          · obtain ⟨v, hv⟩ := Option.isSome_iff_exists.mp c
            exact .inr ⟨x, v, b, hv, fun c' => by simp only [authorized]; rw [d, hv]; rfl⟩
        · rcases a2 with ⟨b, c, d⟩ | ⟨x, b, c, d, f⟩
          · exact .inl ⟨b, fun c' => by simp only [authorized]; rw [c, d]; rfl⟩
          · obtain ⟨v, hv⟩ := Option.isSome_iff_exists.mp c
            exact .inr ⟨x, v, b, hv, fun c' => by simp only [authorized]; rw [d, f, hv]; rfl⟩
        · rcases a3 with ⟨b, c⟩ | ⟨x, b, c, d⟩
          · exact .inl ⟨b, fun c' => by dsimp only; rw [c]; rfl⟩
          · obtain ⟨v, hv⟩ := Option.isSome_iff_exists.mp c
            exact .inr ⟨x, v, b, hv, fun c' => by dsimp only; rw [d, hv]; rfl⟩
        · rcases a4 with ⟨b, c⟩ | ⟨x, b, c⟩
          · exact .inl ⟨b, c⟩
          · exact .inr ⟨x, b, c⟩
        · rcases a5 with ⟨b, c, d⟩ | ⟨b, x, c, d⟩
          · exact .inl ⟨b, by dsimp only; rw [c]; rfl⟩
          · exact .inr ⟨x, propagateOf e x, c, by dsimp only; rw [b, d]; rfl, numSays e x _ _, numSays e x _ _, numSays e x _ _⟩

end Verif.Svc
