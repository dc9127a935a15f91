/-
C54: congestion marks.
-/
import Verif.Lp.AckProps

namespace Verif.Lp

/-! ## Specification -/

/-- The times at which the length of the send queue was read, with the options in force. `nCheck` is the number of times it was read. -/
def checks (env : Env) : St → List Event → List (Nat × Opts)
  | _, [] => []
  | s, e :: es => match step env s e with
    | .ok s' => List.replicate (s'.nCheck - s.nCheck) (s.now, s.opts) ++ checks env s' es
    | .error _ => []

/-- At check `i` the send queue was above the threshold. -/
def Above (env : Env) (C : List (Nat × Opts)) (i : Nat) : Prop := ∃ c, C[i]? = some c ∧ (c.2.congThreshold : Int) < env.qlen i

/-- At check `i` the send queue was at or below the threshold (a negative length means that it is not known). -/
def Below (env : Env) (C : List (Nat × Opts)) (i : Nat) : Prop := ∃ c, C[i]? = some c ∧ 0 ≤ env.qlen i ∧ env.qlen i ≤ (c.2.congThreshold : Int)

/-- From check `j` to check `i` the send queue was above the threshold, for at least one marking interval. -/
structure Sustained (env : Env) (C : List (Nat × Opts)) (j i : Nat) : Prop where
  le : j ≤ i
  first : Above env C j
  last : Above env C i
  always : ∀ k, j ≤ k → k ≤ i → ¬ Below env C k
  interval : ∀ cj ci, C[j]? = some cj → C[i]? = some ci → cj.1 + cj.2.markBase ≤ ci.1

/-- Check `j` is the first one above the threshold: there was none since the last one at or below it. -/
def Begins (env : Env) (C : List (Nat × Opts)) (j : Nat) : Prop :=
  Above env C j ∧ ∀ k, k < j → Above env C k → ∃ l, k < l ∧ l < j ∧ Below env C l

/-- Number of congestion marks. -/
def marks (out : List Out) : Nat := out.countP (fun o => o == .marked)

/-! ## Proofs -/

section
variable {env : Env} {C : List (Nat × Opts)} {c : Nat × Opts}

theorem get_snoc {α : Type} {l : List α} {a : α} {i : Nat} (h : i < l.length) : (l ++ [a])[i]? = l[i]? := List.getElem?_append_left h

theorem lt_of_get {α : Type} {l : List α} {a : α} {i : Nat} (h : l[i]? = some a) : i < l.length := (List.getElem?_eq_some_iff.1 h).1

theorem Above.snoc {i : Nat} (h : i < C.length) : Above env (C ++ [c]) i ↔ Above env C i := by
  unfold Above; rw [get_snoc h]

theorem Below.snoc {i : Nat} (h : i < C.length) : Below env (C ++ [c]) i ↔ Below env C i := by
  unfold Below; rw [get_snoc h]

theorem Above.lt {i : Nat} (h : Above env C i) : i < C.length := by obtain ⟨c, h, _⟩ := h; exact lt_of_get h
theorem Below.lt {i : Nat} (h : Below env C i) : i < C.length := by obtain ⟨c, h, _⟩ := h; exact lt_of_get h

theorem above_last : Above env (C ++ [c]) C.length ↔ (c.2.congThreshold : Int) < env.qlen C.length := by
  unfold Above; simp

theorem below_last : Below env (C ++ [c]) C.length ↔ 0 ≤ env.qlen C.length ∧ env.qlen C.length ≤ (c.2.congThreshold : Int) := by
  unfold Below; simp

theorem Sustained.snoc {j i : Nat} (hi : i < C.length) : Sustained env (C ++ [c]) j i ↔ Sustained env C j i := by
  constructor
  · intro h
    have hj : j < C.length := Nat.lt_of_le_of_lt h.le hi
    exact ⟨h.le, (Above.snoc hj).1 h.first, (Above.snoc hi).1 h.last,
      fun k h1 h2 hb => h.always k h1 h2 ((Below.snoc (by omega)).2 hb),
      fun cj ci a b => h.interval cj ci (by rw [get_snoc hj]; exact a) (by rw [get_snoc hi]; exact b)⟩
  · intro h
    have hj : j < C.length := Nat.lt_of_le_of_lt h.le hi
    exact ⟨h.le, (Above.snoc hj).2 h.first, (Above.snoc hi).2 h.last,
      fun k h1 h2 hb => h.always k h1 h2 ((Below.snoc (by omega)).1 hb),
      fun cj ci a b => h.interval cj ci (by rw [get_snoc hj] at a; exact a) (by rw [get_snoc hi] at b; exact b)⟩

theorem Begins.snoc {j : Nat} (hj : j < C.length) : Begins env (C ++ [c]) j ↔ Begins env C j := by
  unfold Begins
  rw [Above.snoc hj]
  constructor
  · rintro ⟨h1, h2⟩
    refine ⟨h1, fun k hk ha => ?_⟩
    obtain ⟨l, a, b, hb⟩ := h2 k hk ((Above.snoc (by omega)).2 ha)
    exact ⟨l, a, b, (Below.snoc (by omega)).1 hb⟩
  · rintro ⟨h1, h2⟩
    refine ⟨h1, fun k hk ha => ?_⟩
    obtain ⟨l, a, b, hb⟩ := h2 k hk ((Above.snoc (by omega)).1 ha)
    exact ⟨l, a, b, (Below.snoc (by omega)).2 hb⟩

end

/-- The state of congestion marking. `I` are the checks at which a mark was set. -/
structure MarkInv (env : Env) (C : List (Nat × Opts)) (I : List Nat) (next : Option Nat) : Prop where
  mono : I.Pairwise (· < ·)
  sus : ∀ i ∈ I, ∃ j, Sustained env C j i
  idle : next = none → ∀ k, Above env C k → ∃ l, k < l ∧ Below env C l
  busy : ∀ t, next = some t → ∃ j, Begins env C j ∧ (∀ k, j ≤ k → ¬ Below env C k) ∧
    ∀ cj, C[j]? = some cj → cj.1 + cj.2.markBase ≤ t ∧ (t = cj.1 + cj.2.markBase ∨ ∃ i ∈ I, j ≤ i)
  due : ∀ j i, j < i → Begins env C j → Sustained env C j i → ∃ i' ∈ I, j ≤ i' ∧ i' ≤ i

theorem MarkInv.lt {env : Env} {C : List (Nat × Opts)} {I : List Nat} {n : Option Nat} (h : MarkInv env C I n) {i : Nat} (hi : i ∈ I) : i < C.length := by
  obtain ⟨j, hs⟩ := h.sus i hi
  exact hs.last.lt

/-- What checkCongestionLevel does with the time of the next mark. -/
def nextMark' (q : Int) (now : Nat) (o : Opts) (gap : Nat) (n : Option Nat) : Option Nat × Bool :=
  if q < 0 then (n, false)
  else if q > (o.congThreshold : Int) then
    match n with
    | none => (some (now + o.markBase), false)
    | some t => if now ≥ t then (some (t + gap), true) else (some t, false)
  else (none, false)

theorem MarkInv.check {env : Env} {C : List (Nat × Opts)} {I : List Nat} {n : Option Nat} (h : MarkInv env C I n) (now : Nat) (o : Opts) (gap : Nat) :
    MarkInv env (C ++ [(now, o)]) (if (nextMark' (env.qlen C.length) now o gap n).2 then I ++ [C.length] else I)
      (nextMark' (env.qlen C.length) now o gap n).1 := by
  obtain ⟨mono, sus, idle, busy, due⟩ := h
  have hI : ∀ i ∈ I, i < C.length := fun i hi => by obtain ⟨j, hs⟩ := sus i hi; exact hs.last.lt
  have hsus : ∀ i ∈ I, ∃ j, Sustained env (C ++ [(now, o)]) j i := by
    intro i hi
    obtain ⟨j, hs⟩ := sus i hi
    exact ⟨j, (Sustained.snoc (hI i hi)).2 hs⟩
  -- checks of the longer history
  have hlt : ∀ {i : Nat}, i < (C ++ [(now, o)]).length → i < C.length ∨ i = C.length := by
    intro i hi; simp at hi; omega
  have hdue : ∀ j i, j < i → i < C.length → Begins env (C ++ [(now, o)]) j → Sustained env (C ++ [(now, o)]) j i → ∃ i' ∈ I, j ≤ i' ∧ i' ≤ i := by
    intro j i hji hi hb hs
    have hj : j < C.length := Nat.lt_of_le_of_lt hs.le hi
    exact due j i hji ((Begins.snoc hj).1 hb) ((Sustained.snoc hi).1 hs)
  unfold nextMark'
  by_cases hq0 : env.qlen C.length < 0
  · -- unknown
    rw [if_pos hq0]
    simp only [Bool.false_eq_true, if_false]
    have hna : ¬ Above env (C ++ [(now, o)]) C.length := by rw [above_last]; simp only; omega
    have hnb : ¬ Below env (C ++ [(now, o)]) C.length := by rw [below_last]; simp only; omega
    refine ⟨mono, hsus, ?_, ?_, ?_⟩
    · intro hn k hk
      rcases hlt hk.lt with h1 | rfl
      · obtain ⟨l, h2, h3⟩ := idle hn k ((Above.snoc h1).1 hk)
        exact ⟨l, h2, (Below.snoc h3.lt).2 h3⟩
      · exact absurd hk hna
    · intro t ht
      obtain ⟨j, h1, h2, h3⟩ := busy t ht
      refine ⟨j, (Begins.snoc h1.1.lt).2 h1, ?_, fun cj hc => h3 cj (by rw [get_snoc h1.1.lt] at hc; exact hc)⟩
      intro k hk hb
      rcases hlt hb.lt with h4 | rfl
      · exact h2 k hk ((Below.snoc h4).1 hb)
      · exact hnb hb
    · intro j i hji hb hs
      rcases hlt hs.last.lt with h1 | rfl
      · exact hdue j i hji h1 hb hs
      · exact absurd hs.last hna
  · rw [if_neg hq0]
    by_cases hq : env.qlen C.length > (o.congThreshold : Int)
    · rw [if_pos hq]
      have hab : Above env (C ++ [(now, o)]) C.length := by rw [above_last]; exact hq
      have hnb : ¬ Below env (C ++ [(now, o)]) C.length := by rw [below_last]; simp only; omega
      cases hn : n with
      | none =>
        -- the first check above the threshold
        simp only [Bool.false_eq_true, if_false]
        have hbeg : Begins env (C ++ [(now, o)]) C.length := by
          refine ⟨hab, fun k hk ha => ?_⟩
          obtain ⟨l, h2, h3⟩ := idle hn k ((Above.snoc hk).1 ha)
          exact ⟨l, h2, h3.lt, (Below.snoc h3.lt).2 h3⟩
        refine ⟨mono, hsus, (fun h => by cases h), ?_, ?_⟩
        · intro t ht
          cases ht
          refine ⟨C.length, hbeg, ?_, ?_⟩
          · intro k hk hb
            have := hb.lt
            rcases hlt this with h4 | rfl
            · omega
            · exact hnb hb
          · intro cj hc
            simp at hc
            subst hc
            exact ⟨Nat.le_refl _, .inl rfl⟩
        · intro j i hji hb hs
          rcases hlt hs.last.lt with h1 | rfl
          · exact hdue j i hji h1 hb hs
          · rcases hlt hs.first.lt with h1 | rfl
            · obtain ⟨l, h2, h3⟩ := idle hn j ((Above.snoc h1).1 hs.first)
              exact absurd ((Below.snoc h3.lt).2 h3) (hs.always l (by omega) (by have := h3.lt; omega))
            · omega
      | some t =>
        obtain ⟨j, h1, h2, h3⟩ := busy t hn
        have hbeg : Begins env (C ++ [(now, o)]) j := (Begins.snoc h1.1.lt).2 h1
        have halw : ∀ k, j ≤ k → ¬ Below env (C ++ [(now, o)]) k := by
          intro k hk hb
          rcases hlt hb.lt with h4 | rfl
          · exact h2 k hk ((Below.snoc h4).1 hb)
          · exact hnb hb
        obtain ⟨cj, hcj⟩ : ∃ cj, C[j]? = some cj := ⟨_, List.getElem?_eq_getElem h1.1.lt⟩
        have hcj' : (C ++ [(now, o)])[j]? = some cj := by rw [get_snoc h1.1.lt]; exact hcj
        obtain ⟨h4, h5⟩ := h3 cj hcj
        -- a streak that begins is this one
        have huniq : ∀ j', Begins env (C ++ [(now, o)]) j' → (∀ k, j' ≤ k → k ≤ C.length → ¬ Below env (C ++ [(now, o)]) k) → j' = j := by
          intro j' hb ha
          rcases Nat.lt_trichotomy j' j with hl | he | hg
          · obtain ⟨l, a, b, c⟩ := hbeg.2 j' hl hb.1
            exact absurd c (ha l (by omega) (by have := h1.1.lt; omega))
          · exact he
          · obtain ⟨l, a, b, c⟩ := hb.2 j hg hbeg.1
            exact absurd c (halw l (by omega))
        by_cases hnow : now ≥ t
        · simp only [if_pos hnow, if_true]
          have hsust : Sustained env (C ++ [(now, o)]) j C.length := by
            refine ⟨Nat.le_of_lt h1.1.lt, hbeg.1, hab, fun k a _ => halw k a, ?_⟩
            intro cj' ci' hc1 hc2
            rw [hcj'] at hc1
            cases hc1
            simp at hc2
            subst hc2
            simp only
            omega
          refine ⟨?_, ?_, (fun h => by cases h), ?_, ?_⟩
          · rw [List.pairwise_append]
            exact ⟨mono, by simp, fun a ha b hb => by rw [List.mem_singleton] at hb; subst hb; exact hI a ha⟩
          · intro i hi
            rcases List.mem_append.1 hi with hi | hi
            · exact hsus i hi
            · rw [List.mem_singleton] at hi; subst hi; exact ⟨j, hsust⟩
          · intro t' ht'
            cases ht'
            refine ⟨j, hbeg, halw, fun cj' hc => ?_⟩
            rw [hcj'] at hc; cases hc
            exact ⟨by omega, .inr ⟨C.length, by simp, Nat.le_of_lt h1.1.lt⟩⟩
          · intro j' i hji hb hs
            rcases hlt hs.last.lt with h6 | rfl
            · obtain ⟨i', a, b⟩ := hdue j' i hji h6 hb hs
              exact ⟨i', List.mem_append_left _ a, b⟩
            · exact ⟨C.length, by simp, hs.le, Nat.le_refl _⟩
        · simp only [if_neg hnow, Bool.false_eq_true, if_false]
          refine ⟨mono, hsus, (fun h => by cases h), ?_, ?_⟩
          · intro t' ht'
            cases ht'
            refine ⟨j, hbeg, halw, fun cj' hc => ?_⟩
            rw [hcj'] at hc; cases hc
            exact ⟨h4, h5⟩
          · intro j' i hji hb hs
            rcases hlt hs.last.lt with h6 | rfl
            · exact hdue j' i hji h6 hb hs
            · have hj' := huniq j' hb (fun k a b => hs.always k a b)
              subst hj'
              have h7 := hs.interval cj (now, o) hcj' (by simp)
              simp only at h7
              rcases h5 with h5 | ⟨i', h8, h9⟩
              · omega
              · exact ⟨i', h8, h9, Nat.le_of_lt (hI i' h8)⟩
    · rw [if_neg hq]
      simp only [Bool.false_eq_true, if_false]
      have hb0 : Below env (C ++ [(now, o)]) C.length := by rw [below_last]; simp only; omega
      refine ⟨mono, hsus, ?_, (fun t h => by cases h), ?_⟩
      · intro _ k hk
        rcases hlt hk.lt with h1 | rfl
        · exact ⟨C.length, h1, hb0⟩
        · rw [above_last] at hk; exact absurd hk hq
      · intro j i hji hb hs
        rcases hlt hs.last.lt with h1 | rfl
        · exact hdue j i hji h1 hb hs
        · exact absurd hb0 (hs.always _ hs.le (Nat.le_refl _))

/-- The state of congestion marking is as described by the checks `C` and the marks `I`. -/
structure Marking (env : Env) (C : List (Nat × Opts)) (I : List Nat) (s : St) : Prop where
  inv : MarkInv env C I s.nextMark
  len : C.length = s.nCheck
  cnt : I.length = marks s.out

theorem marks_append (a b : List Out) : marks (a ++ b) = marks a + marks b := List.countP_append

theorem marks_calm {l : List Out} (h : ∀ o ∈ l, o.sends = none ∧ o ≠ .marked) : marks l = 0 := by
  unfold marks
  rw [List.countP_eq_zero]
  intro o ho
  simpa using (h o ho).2

theorem Marking.calm {env : Env} {C : List (Nat × Opts)} {I : List Nat} {s s' : St} (h : Marking env C I s) (c : Calm s s') : Marking env C I s' := by
  obtain ⟨l, ho, hl⟩ := c.out
  exact ⟨by rw [c.nextMark]; exact h.inv, by rw [c.nCheck]; exact h.len, by rw [ho, marks_append, marks_calm hl]; exact h.cnt⟩

theorem checkCongestion_mark (env : Env) (s : St) (p : Pkt) : ∃ gap,
    (checkCongestion env s p).1.nextMark = (nextMark' (env.qlen s.nCheck) s.now s.opts gap s.nextMark).1 ∧
    (checkCongestion env s p).1.nCheck = s.nCheck + 1 ∧
    (checkCongestion env s p).1.out = s.out ++ (if (nextMark' (env.qlen s.nCheck) s.now s.opts gap s.nextMark).2 then [.marked] else []) ∧
    (checkCongestion env s p).1.now = s.now ∧ (checkCongestion env s p).1.opts = s.opts ∧
    (checkCongestion env s p).2 = (if (nextMark' (env.qlen s.nCheck) s.now s.opts gap s.nextMark).2 then
      { p with hdr := { p.hdr with mark := some 1 } } else p) := by
  refine ⟨env.markGap (s.nMarked + 1), ?_⟩
  unfold checkCongestion nextMark'
  simp only
  by_cases h1 : env.qlen s.nCheck < 0
  · simp [h1]
  · simp only [if_neg h1]
    by_cases h2 : env.qlen s.nCheck > (s.opts.congThreshold : Int)
    · simp only [if_pos h2]
      cases h3 : s.nextMark with
      | none => simp
      | some t =>
        by_cases h4 : s.now ≥ t
        · simp [h4, emit]
        · simp [h4, h3]
    · simp only [if_neg h2]
      by_cases h3 : s.nextMark = none
      · simp [h3]
      · simp [h3]

theorem transmit_mark (m : Option Nat) (s : St) (p : Pkt) : (transmit m s p).nextMark = s.nextMark ∧ (transmit m s p).nCheck = s.nCheck ∧
    marks (transmit m s p).out = marks s.out ∧ (transmit m s p).now = s.now ∧ (transmit m s p).opts = s.opts := by
  unfold transmit
  split <;> exact ⟨rfl, rfl, by simp [emit, marks], rfl, rfl⟩

theorem Marking.send {env : Env} {C : List (Nat × Opts)} {I : List Nat} {s s' : St} {p : Pkt} (h : Marking env C I s) (hs : sendLp env s p = .ok s') :
    s'.now = s.now ∧ s'.opts = s.opts ∧ ∃ d I', Marking env (C ++ List.replicate d (s.now, s.opts)) I' s' := by
  obtain ⟨n, _, _, r, hr, rfl⟩ := sendLp_spec hs
  obtain ⟨t1, t2, t3, t4, t5⟩ := transmit_mark (effMtu env s.opts) r.1 r.2
  unfold attachMark at hr
  split at hr
  · obtain ⟨gap, c1, c2, c3, c4, c5, _⟩ := checkCongestion_mark env { s with ackQueue := s.ackQueue.drop n } { p with acks := p.acks ++ s.ackQueue.take n }
    rw [← hr] at c1 c2 c3 c4 c5
    simp only at c1 c2 c3 c4 c5
    have := h.inv.check s.now s.opts gap
    rw [h.len] at this
    refine ⟨by rw [t4, c4], by rw [t5, c5], 1, _, ⟨by rw [t1, c1]; exact this, by rw [t2, c2]; simp [h.len], ?_⟩⟩
    rw [t3, c3, marks_append, ← h.cnt]
    split <;> simp [marks]
  · rw [hr] at t1 t2 t3 t4 t5 ⊢
    simp only at t1 t2 t3 t4 t5
    exact ⟨t4, t5, 0, I, ⟨by rw [t1]; simpa using h.inv, by rw [t2]; simpa using h.len, by rw [t3]; exact h.cnt⟩⟩

theorem Marking.flow {env : Env} {Q : Pkt → Prop} {C : List (Nat × Opts)} {I : List Nat} {s s' : St} (h : Marking env C I s) (hf : Flow env Q s s') :
    s'.now = s.now ∧ s'.opts = s.opts ∧ ∃ d I', Marking env (C ++ List.replicate d (s.now, s.opts)) I' s' := by
  refine hf.preserve (P := fun t => t.now = s.now ∧ t.opts = s.opts ∧ ∃ d I', Marking env (C ++ List.replicate d (s.now, s.opts)) I' t) ?_ ?_ ?_
  · exact ⟨rfl, rfl, 0, I, by simpa using h⟩
  · rintro t u ⟨a, b, d, I', hm⟩ c
    exact ⟨c.now.trans a, c.opts.trans b, d, I', hm.calm c⟩
  · rintro t u p ⟨a, b, d, I', hm⟩ _ hs
    obtain ⟨a', b', d', I'', hm'⟩ := hm.send hs
    refine ⟨a'.trans a, b'.trans b, d + d', I'', ?_⟩
    rw [a, b, List.append_assoc, List.replicate_append_replicate] at hm'
    exact hm'

theorem Marking.step {env : Env} {C : List (Nat × Opts)} {I : List Nat} {s s' : St} {ev : Event} (h : Marking env C I s) (hs : Lp.step env s ev = .ok s') :
    ∃ I', Marking env (C ++ List.replicate (s'.nCheck - s.nCheck) (s.now, s.opts)) I' s' := by
  have hex : (∃ d I', Marking env (C ++ List.replicate d (s.now, s.opts)) I' s') → ∃ I', Marking env (C ++ List.replicate (s'.nCheck - s.nCheck) (s.now, s.opts)) I' s' := by
    rintro ⟨d, I', hm⟩
    have h1 := hm.len
    simp only [List.length_append, List.length_replicate, h.len] at h1
    have : s'.nCheck - s.nCheck = d := by omega
    rw [this]
    exact ⟨I', hm⟩
  apply hex
  have hsame : ∀ {t : St}, Marking env C I t → ∃ d I', Marking env (C ++ List.replicate d (s.now, s.opts)) I' t :=
    fun hm => ⟨0, I, by simpa using hm⟩
  obtain ⟨sf, _⟩ := step_flow (Q := fun _ => True) (H := fun _ => True) (fun _ _ _ => trivial) (fun _ _ => trivial) trivial
    (fun _ _ _ _ _ _ _ _ => ⟨fun _ _ => trivial, fun _ _ => trivial, fun _ _ _ => trivial⟩) (fun _ _ => trivial) hs
  cases sf with
  | send f => exact (h.flow f).2.2
  | rto f => exact (h.flow f).2.2
  | dropTimer c => exact hsame (h.calm c)
  | receiveOff _ c => exact hsame (h.calm c)
  | @receive e p s1 s2 _ f h2 c =>
    obtain ⟨_, _, d, I', hm⟩ := h.flow f
    have hn := noteFrame_same env s1 p
    rw [← h2] at hn
    obtain ⟨_, _, _, n4, _, _, _, _, _, _, _, n12, _, n14⟩ := hn
    refine ⟨d, I', Marking.calm (s := s2) ⟨?_, ?_, ?_⟩ c⟩
    · rw [n12]; exact hm.inv
    · rw [n14]; exact hm.len
    · rw [n4]; exact hm.cnt
  | @idle s1 _ h1 f _ =>
    subst h1
    exact (Marking.flow (s := { s with idleTimer := false }) ⟨h.inv, h.len, h.cnt⟩ f).2.2
  | idleOff _ he => subst he; exact hsame h
  | tick he => subst he; exact hsame ⟨h.inv, h.len, h.cnt⟩
  | setOptions he => subst he; exact hsame ⟨h.inv, h.len, h.cnt⟩

theorem Marking.run {env : Env} : ∀ {es : List Event} {C : List (Nat × Opts)} {I : List Nat} {s s' : St}, Marking env C I s → Lp.run env s es = .ok s' →
    ∃ I', Marking env (C ++ checks env s es) I' s' := by
  intro es
  induction es with
  | nil => intro C I s s' h hr; cases hr; exact ⟨I, by simpa [checks] using h⟩
  | cons e es ih =>
    intro C I s s' h hr
    simp only [Lp.run, bind_ok] at hr
    obtain ⟨s1, h1, h2⟩ := hr
    obtain ⟨I1, hm1⟩ := h.step h1
    obtain ⟨I2, hm2⟩ := ih hm1 h2
    refine ⟨I2, ?_⟩
    simp only [checks, h1]
    rw [← List.append_assoc]
    exact hm2

/-! ## C54 -/

/-- **C54**: each congestion mark is set at a different check of the send queue, at which the queue has been above the threshold for at
least one marking interval; conversely, whenever the queue was above the threshold for at least one marking interval since it went above
it, a mark has been set. -/
theorem C54_sustained {env : Env} {o : Opts} {q0 x0 : Nat} {es : List Event} {s : St} (h : run env (init o q0 x0) es = .ok s) :
    ∃ I : List Nat, I.Pairwise (· < ·) ∧ I.length = marks s.out ∧
      (∀ i ∈ I, ∃ j, Sustained env (checks env (init o q0 x0) es) j i) ∧
      (∀ j i, j < i → Begins env (checks env (init o q0 x0) es) j → Sustained env (checks env (init o q0 x0) es) j i →
        ∃ i' ∈ I, j ≤ i' ∧ i' ≤ i) := by
  have h0 : Marking env [] [] (init o q0 x0) := by
    have na : ∀ i, ¬ Above env [] i := by rintro i ⟨c, hc, _⟩; simp at hc
    refine ⟨⟨.nil, by simp, fun _ k hk => absurd hk (na k), (fun t h => by cases h), fun j i _ hb => absurd hb.1 (na j)⟩, rfl, rfl⟩
  obtain ⟨I, hm⟩ := h0.run h
  simp only [List.nil_append] at hm
  exact ⟨I, hm.inv.mono, hm.cnt, hm.inv.sus, hm.inv.due⟩

/-! ## Which packets carry a mark -/

/-- How packets and congestion marks follow each other: a counted mark is on the packet sent right after it; on any other packet sent, the
CongestionMark field is one that satisfies `F`. -/
inductive Tagged (F : Option Nat → Prop) : List Out → Prop
  | nil : Tagged F []
  | other {l : List Out} {x : Out} : Tagged F l → x.sends = none → x ≠ .marked → Tagged F (l ++ [x])
  | plain {l : List Out} {x : Out} {p : Pkt} : Tagged F l → x.sends = some p → F p.hdr.mark → Tagged F (l ++ [x])
  | marked {l : List Out} {x : Out} {p : Pkt} : Tagged F l → x.sends = some p → p.hdr.mark = some 1 → Tagged F (l ++ [.marked] ++ [x])

theorem Tagged.calm {F : Option Nat → Prop} : ∀ {b a : List Out}, Tagged F a → (∀ o ∈ b, o.sends = none ∧ o ≠ .marked) → Tagged F (a ++ b) := by
  intro b
  induction b with
  | nil => intro a h _; simpa using h
  | cons x b ih =>
    intro a h hb
    have h1 := hb x (List.mem_cons_self ..)
    have := ih (a := a ++ [x]) (.other h h1.1 h1.2) (fun o ho => hb o (List.mem_cons_of_mem _ ho))
    simpa using this

theorem Tagged.send {F : Option Nat → Prop} {env : Env} {s s' : St} {p : Pkt} (h : Tagged F s.out) (hp : F p.hdr.mark) (hs : sendLp env s p = .ok s') :
    Tagged F s'.out := by
  obtain ⟨n, _, _, r, hr, rfl⟩ := sendLp_spec hs
  obtain ⟨x, hx, hxs, _⟩ := transmit_eq (effMtu env s.opts) r.1 r.2
  rw [hx]
  unfold attachMark at hr
  split at hr
  · obtain ⟨gap, _, _, c3, _, _, c6⟩ := checkCongestion_mark env { s with ackQueue := s.ackQueue.drop n } { p with acks := p.acks ++ s.ackQueue.take n }
    rw [← hr] at c3 c6
    simp only at c3 c6
    generalize (nextMark' (env.qlen s.nCheck) s.now s.opts gap s.nextMark).2 = b at c3 c6
    cases b with
    | true =>
      simp only [if_true] at c3 c6
      simp only [emit, c3]
      exact .marked h hxs (by rw [c6])
    | false =>
      simp only [Bool.false_eq_true, if_false, List.append_nil] at c3 c6
      simp only [emit, c3]
      exact .plain h hxs (by rw [c6]; exact hp)
  · rw [hr] at hxs ⊢
    exact .plain h hxs hp

theorem makeFrags_mark {env : Env} {o : Opts} {p : Pkt} {fs : List Pkt} (h : makeFrags env o p = .ok (some fs)) :
    ∀ f ∈ fs, f.hdr.mark = p.hdr.mark ∨ f.hdr.mark = none := by
  have hn : ∀ (cs : List Bytes) (c : Nat) (first : Pkt) (i : Nat), ∀ f ∈ numbered c first i cs, f.hdr.mark = first.hdr.mark ∨ f.hdr.mark = none := by
    intro cs
    induction cs with
    | nil => intro c first i f hf; simp [numbered] at hf
    | cons b cs ih =>
      intro c first i f hf
      simp only [numbered] at hf
      rcases List.mem_cons.1 hf with rfl | hf
      · exact .inl rfl
      · rcases ih c {} (i + 1) f hf with h | h
        · exact .inr h
        · exact .inr h
  have hone : ∀ f ∈ [p], f.hdr.mark = p.hdr.mark ∨ f.hdr.mark = none := by intro f hf; cases List.mem_singleton.1 hf; exact .inl rfl
  unfold makeFrags at h
  simp only [bind_ok] at h
  obtain ⟨m, _, h⟩ := h
  split at h
  · split at h
    · rcases fragmentPacket_ok h with ⟨rfl, _⟩ | ⟨c, cs, rfl⟩
      · exact hone
      · exact hn _ _ _ _
    · cases h; exact hone
  · cases h; exact hone

theorem Tagged.step {F : Option Nat → Prop} (h0 : F none) {env : Env} {s s' : St} {ev : Event} (h : Tagged F s.out)
    (hev : ∀ k t net, ev = .send k t net → F t.mark) (hh : Held (fun p => F p.hdr.mark) s)
    (hs : Lp.step env s ev = .ok s') : Tagged F s'.out ∧ Held (fun p => F p.hdr.mark) s' := by
  obtain ⟨sf, hh'⟩ := step_flow (Q := fun p => F p.hdr.mark) (H := fun p => F p.hdr.mark) (fun _ _ h => h) (fun _ h => h) h0
    (by intro k t net he fs hfs f hf
        have : F f.hdr.mark := by
          rcases makeFrags_mark hfs f hf with h | h
          · rw [h]; exact hev k t net he
          · rw [h]; exact h0
        exact ⟨fun _ _ => this, fun _ _ => this, fun _ _ _ => this⟩) hh hs
  refine ⟨?_, hh'⟩
  have hcalm : ∀ {t u : St}, Tagged F t.out → Calm t u → Tagged F u.out := by
    intro t u ht c
    obtain ⟨l, ho, hl⟩ := c.out
    rw [ho]; exact ht.calm hl
  have hflow : ∀ {t u : St}, Tagged F t.out → Flow env (fun p => F p.hdr.mark) t u → Tagged F u.out := by
    intro t u ht f
    exact f.preserve (P := fun t => Tagged F t.out) ht (fun _ _ h c => hcalm h c) (fun _ _ _ h hq hs => h.send hq hs)
  cases sf with
  | send f => exact hflow h f
  | rto f => exact hflow h f
  | dropTimer c => exact hcalm h c
  | receiveOff _ c => exact hcalm h c
  | @receive e p s1 s2 _ f h2 c =>
    have hn := noteFrame_same env s1 p
    rw [← h2] at hn
    refine hcalm (t := s2) ?_ c
    rw [hn.2.2.2.1]; exact hflow h f
  | @idle s1 _ h1 f _ => subst h1; exact hflow (t := { s with idleTimer := false }) h f
  | idleOff _ he => subst he; exact h
  | tick he => subst he; exact h
  | setOptions he => subst he; exact h

/-- **C54**: a mark that is counted is on the packet that is sent next; all other packets sent have no CongestionMark or one that the
network layer gave to a packet. -/
theorem C54_packet {env : Env} {o : Opts} {q0 x0 : Nat} {es : List Event} {s : St} (h : run env (init o q0 x0) es = .ok s) :
    Tagged (fun m => m = none ∨ ∃ k t net, .send k t net ∈ es ∧ t.mark = m) s.out := by
  have key : ∀ {es' : List Event} {s s' : St}, (∀ e ∈ es', e ∈ es) → Tagged (fun m => m = none ∨ ∃ k t net, .send k t net ∈ es ∧ t.mark = m) s.out →
      Held (fun p => p.hdr.mark = none ∨ ∃ k t net, .send k t net ∈ es ∧ t.mark = p.hdr.mark) s → run env s es' = .ok s' →
      Tagged (fun m => m = none ∨ ∃ k t net, .send k t net ∈ es ∧ t.mark = m) s'.out := by
    intro es'
    induction es' with
    | nil => intro s s' _ h _ hr; cases hr; exact h
    | cons e es' ih =>
      intro s s' hin h hh hr
      simp only [run, bind_ok] at hr
      obtain ⟨s1, h1, h2⟩ := hr
      obtain ⟨a, b⟩ := Tagged.step (.inl rfl) h (fun k t net he => .inr ⟨k, t, net, by rw [← he]; exact hin e (List.mem_cons_self ..), rfl⟩) hh h1
      exact ih (fun e he => hin e (List.mem_cons_of_mem _ he)) a b h2
  exact key (fun e he => he) .nil (fun e he => by cases he) h

/-! ## Example

The queue is above the threshold at checks 0 to 3, below at check 4, and above again afterwards. -/

def markEnv : Env := { exEnv with qlen := fun n => if n = 4 then 10 else 70000 }
def markOpts : Opts := { allowCongestionMarking := true }
def markEvents : List Event :=
  let i : Event := .send .interest {} [5, 0]
  [i, .tick 50, i, .tick 50, i, .tick 100, i, i, i, .tick 99, i, .tick 1, i]

example : (checks markEnv (init markOpts 0 0) markEvents).map (·.1) = [0, 50, 100, 200, 200, 200, 299, 300] := by decide +kernel

/-- Marks are set at checks 2, 3 and 7. -/
example : (match run markEnv (init markOpts 0 0) markEvents with
    | .ok s => s.out.map (fun x => match x with | .marked => true | _ => false) ==
        [false, false, true, false, true, false, false, false, false, true, false]
    | _ => false) = true := by decide +kernel

example : Begins markEnv (checks markEnv (init markOpts 0 0) markEvents) 5 ∧ Sustained markEnv (checks markEnv (init markOpts 0 0) markEvents) 5 7 := by
  have hc : checks markEnv (init markOpts 0 0) markEvents =
    [(0, markOpts), (50, markOpts), (100, markOpts), (200, markOpts), (200, markOpts), (200, markOpts), (299, markOpts), (300, markOpts)] := by
    decide +kernel
  rw [hc]
  have hb : Below markEnv [(0, markOpts), (50, markOpts), (100, markOpts), (200, markOpts), (200, markOpts), (200, markOpts), (299, markOpts), (300, markOpts)] 4 :=
    ⟨(200, markOpts), rfl, by decide, by decide⟩
  refine ⟨⟨⟨(200, markOpts), rfl, by decide⟩, ?_⟩, ⟨by decide, ⟨(200, markOpts), rfl, by decide⟩, ⟨(300, markOpts), rfl, by decide⟩, ?_, ?_⟩⟩
  · intro k hk ⟨c, h1, h2⟩
    refine ⟨4, ?_, by decide, hb⟩
    rcases Nat.lt_or_ge k 4 with h | h
    · exact h
    · have : k = 4 := by omega
      subst this
      obtain rfl := Option.some.inj h1
      exact absurd h2 (by decide)
  · rintro k h1 h2 ⟨c, hc, h3, h4⟩
    have : k = 5 ∨ k = 6 ∨ k = 7 := by omega
    rcases this with rfl | rfl | rfl <;> (obtain rfl := Option.some.inj hc; exact absurd h4 (by decide))
  · intro cj ci h1 h2
    obtain rfl := Option.some.inj h1
    obtain rfl := Option.some.inj h2
    decide

end Verif.Lp
