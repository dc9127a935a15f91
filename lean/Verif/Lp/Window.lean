/-
The window of unacknowledged fragments (C48): what each operation of LpReliability does to it.
-/
import Verif.Lp.Frame

namespace Verif.Lp

/-! ## The map -/

abbrev Keyed (m : List (Nat × UFrag)) : Prop := m.Pairwise (fun a b => a.1 < b.1)

theorem Keyed.unique {m : List (Nat × UFrag)} (h : Keyed m) {k : Nat} {u v : UFrag} (hu : (k, u) ∈ m) (hv : (k, v) ∈ m) : u = v := by
  induction m with
  | nil => cases hu
  | cons a m ih =>
    rw [Keyed, List.pairwise_cons] at h
    rcases List.mem_cons.1 hu with hu | hu <;> rcases List.mem_cons.1 hv with hv | hv
    · rw [← hu] at hv; exact (congrArg Prod.snd hv).symm
    · have := h.1 _ hv; rw [← hu] at this; exact absurd this (Nat.lt_irrefl _)
    · have := h.1 _ hu; rw [← hv] at this; exact absurd this (Nat.lt_irrefl _)
    · exact ih h.2 hu hv

theorem look_some {m : List (Nat × UFrag)} {k : Nat} {u : UFrag} (h : look m k = some u) : (k, u) ∈ m := by
  simp only [look, Option.map_eq_some_iff] at h
  obtain ⟨e, h1, h2⟩ := h
  have h3 := List.find?_some h1
  have h4 := List.mem_of_find?_eq_some h1
  have : e = (k, u) := Prod.ext (beq_iff_eq.1 h3) h2
  rw [← this]; exact h4

theorem look_isSome {m : List (Nat × UFrag)} {k : Nat} : (look m k).isSome ↔ ∃ u, (k, u) ∈ m := by
  constructor
  · intro h
    obtain ⟨u, hu⟩ := Option.isSome_iff_exists.1 h
    exact ⟨u, look_some hu⟩
  · rintro ⟨u, hu⟩
    simp only [look, Option.isSome_map, List.find?_isSome]
    exact ⟨_, hu, by simp⟩

theorem look_eq {m : List (Nat × UFrag)} (h : Keyed m) {k : Nat} {u : UFrag} (hu : (k, u) ∈ m) : look m k = some u := by
  obtain ⟨v, hv⟩ := Option.isSome_iff_exists.1 (look_isSome.2 ⟨u, hu⟩)
  rw [hv, h.unique hu (look_some hv)]

theorem look_none {m : List (Nat × UFrag)} {k : Nat} : (look m k).isNone = true ↔ ∀ u, (k, u) ∉ m := by
  constructor
  · intro h u hu
    have := look_isSome.2 ⟨u, hu⟩
    rw [Option.isNone_iff_eq_none] at h
    rw [h] at this; cases this
  · intro h
    cases hx : look m k with
    | none => rfl
    | some u => exact absurd (look_some hx) (h u)

theorem mem_put {k : Nat} {u : UFrag} : ∀ {m : List (Nat × UFrag)}, (∀ v, (k, v) ∉ m) → ∀ e, e ∈ put k u m ↔ e = (k, u) ∨ e ∈ m := by
  intro m
  induction m with
  | nil => intro _ e; simp [put]
  | cons a m ih =>
    intro h e
    unfold put
    split
    · simp
    · split
      · rename_i he
        exact absurd (List.mem_cons_self) (by have := h a.2; rw [he] at this; exact this)
      · rw [List.mem_cons, ih (fun v hv => h v (List.mem_cons_of_mem _ hv)), List.mem_cons]
        constructor
        · rintro (h | h | h) <;> simp [h]
        · rintro (h | h | h) <;> simp [h]

theorem keyed_put {k : Nat} {u : UFrag} : ∀ {m : List (Nat × UFrag)}, Keyed m → (∀ v, (k, v) ∉ m) → Keyed (put k u m) := by
  intro m
  induction m with
  | nil => intro _ _; simp [put, Keyed]
  | cons a m ih =>
    intro hk h
    have hk' := List.pairwise_cons.1 hk
    unfold put
    split
    · rename_i hlt
      rw [Keyed, List.pairwise_cons]
      refine ⟨?_, hk⟩
      intro b hb
      rcases List.mem_cons.1 hb with rfl | hb
      · exact hlt
      · exact Nat.lt_trans hlt (hk'.1 b hb)
    · split
      · exact hk
      · rename_i h1 h2
        have hm : ∀ v, (k, v) ∉ m := fun v hv => h v (List.mem_cons_of_mem _ hv)
        rw [Keyed, List.pairwise_cons]
        refine ⟨?_, ih hk'.2 hm⟩
        intro b hb
        rcases (mem_put hm b).1 hb with rfl | hb
        · show a.1 < k; omega
        · exact hk'.1 b hb

theorem length_put {k : Nat} {u : UFrag} : ∀ {m : List (Nat × UFrag)}, (∀ v, (k, v) ∉ m) → (put k u m).length = m.length + 1 := by
  intro m
  induction m with
  | nil => intro _; rfl
  | cons a m ih =>
    intro h
    unfold put
    split
    · simp
    · split
      · rename_i he
        exact absurd (List.mem_cons_self) (by have := h a.2; rw [he] at this; exact this)
      · simp [ih (fun v hv => h v (List.mem_cons_of_mem _ hv))]

theorem mem_del {m : List (Nat × UFrag)} {k : Nat} {e : Nat × UFrag} : e ∈ del m k ↔ e ∈ m ∧ e.1 ≠ k := by
  simp [del]

theorem keyed_del {m : List (Nat × UFrag)} {k : Nat} (h : Keyed m) : Keyed (del m k) := h.filter _

/-! ## The window -/

/-- The key `f` is that of the fragment sent first. -/
def Oldest (m : List (Nat × UFrag)) (f : Option Nat) : Prop :=
  (m = [] → f = none) ∧ (m ≠ [] → ∃ e ∈ m, f = some e.1 ∧ ∀ e' ∈ m, e.2.order ≤ e'.2.order)

structure Win (x0 : Nat) (m : List (Nat × UFrag)) (f : Option Nat) (lastTx nTx : Nat) : Prop where
  last : lastTx = (x0 + nTx) % W
  keyed : Keyed m
  key : ∀ e ∈ m, e.1 = (x0 + 1 + e.2.order) % W ∧ e.2.order < nTx ∧ nTx ≤ e.2.order + W
  first : Oldest m f

abbrev WinS (x0 : Nat) (s : St) : Prop := Win x0 s.unacked s.first s.lastTx s.nTx

theorem circ1 {c o a b : Nat} (ha : o ≤ a) (ha' : a < o + W) (hb : o ≤ b) (hb' : b < o + W)
    (h1 : (c + o) % W ≤ (c + a) % W) (h2 : (c + a) % W ≤ (c + b) % W) : a ≤ b := by
  simp only [W] at *; omega

theorem circ2 {c o a b : Nat} (ha : o ≤ a) (ha' : a < o + W) (hb : o ≤ b) (hb' : b < o + W)
    (h1 : (c + o) % W ≤ (c + a) % W) (h2 : (c + b) % W < (c + o) % W) : a ≤ b := by
  simp only [W] at *; omega

theorem circ3 {c o a b : Nat} (ha : o ≤ a) (ha' : a < o + W) (hb : o ≤ b) (hb' : b < o + W)
    (h1 : (c + a) % W ≤ (c + b) % W) (h2 : (c + b) % W < (c + o) % W) : a ≤ b := by
  simp only [W] at *; omega

theorem circ_inj {c a b n : Nat} (ha : a < n) (ha' : n ≤ a + W) (hb : b < n) (hb' : n ≤ b + W)
    (h : (c + a) % W = (c + b) % W) : a = b := by
  simp only [W] at *; omega

/-- Deleting a fragment: the window start is the oldest of the remaining ones. -/
theorem deleteUnacked_eq {x0 : Nat} {s : St} {k : Nat} {u : UFrag} (h : WinS x0 s) (hk : (k, u) ∈ s.unacked) :
    ∃ f, deleteUnacked s k = .ok { s with unacked := del s.unacked k, first := f } ∧ Win x0 (del s.unacked k) f s.lastTx s.nTx := by
  obtain ⟨e0, he0, hf0, hmin⟩ := h.first.2 (List.ne_nil_of_mem hk)
  have hl0 : (look s.unacked e0.1).isNone = false := by
    rw [Bool.eq_false_iff]; intro hn; exact look_none.1 hn e0.2 he0
  have hlk : (look s.unacked k).isNone = false := by
    rw [Bool.eq_false_iff]; intro hn; exact look_none.1 hn u hk
  unfold deleteUnacked
  rw [hf0]
  simp only [hl0, hlk, Bool.or_self, Bool.false_eq_true, if_false]
  have hkey : ∀ e ∈ del s.unacked k, e.1 = (x0 + 1 + e.2.order) % W ∧ e.2.order < s.nTx ∧ s.nTx ≤ e.2.order + W :=
    fun e he => h.key e (mem_del.1 he).1
  by_cases hm : del s.unacked k = []
  · rw [if_pos hm]
    exact ⟨none, rfl, h.last, keyed_del h.keyed, hkey, fun _ => rfl, fun hn => absurd hm hn⟩
  · rw [if_neg hm]
    by_cases hek : e0.1 = k
    · rw [if_pos hek]
      refine ⟨after (del s.unacked k) k, rfl, h.last, keyed_del h.keyed, hkey, fun hn => absurd hn hm, fun _ => ?_⟩
      have hk0 := h.key e0 he0
      have hall : ∀ e ∈ del s.unacked k, e.1 = (x0 + 1 + e.2.order) % W ∧ e0.2.order ≤ e.2.order ∧ e.2.order < e0.2.order + W ∧ e.1 ≠ k := by
        intro e he
        have h1 := h.key e (mem_del.1 he).1
        have h2 := hmin e (mem_del.1 he).1
        exact ⟨h1.1, h2, by omega, (mem_del.1 he).2⟩
      have hsorted : Keyed (del s.unacked k) := keyed_del h.keyed
      unfold after
      cases hfind : (del s.unacked k).find? (fun e => decide (e.1 > k)) with
      | some e =>
        simp only
        obtain ⟨h1, as, bs, h2, h3⟩ := List.find?_eq_some_iff_append.1 hfind
        have he : e ∈ del s.unacked k := by rw [h2]; simp
        refine ⟨e, he, rfl, ?_⟩
        intro e' he'
        obtain ⟨a1, a2, a3, a4⟩ := hall e he
        obtain ⟨b1, b2, b3, b4⟩ := hall e' he'
        have hgt : k < e.1 := by simpa using h1
        have hk0' : k = (x0 + 1 + e0.2.order) % W := by rw [← hek]; exact hk0.1
        by_cases hlt : e'.1 < k
        · exact circ2 (c := x0 + 1) a2 a3 b2 b3 (by rw [← a1, ← hk0']; omega) (by rw [← b1, ← hk0']; exact hlt)
        · have hle : e.1 ≤ e'.1 := by
            rw [h2] at he' hsorted
            rcases List.mem_append.1 he' with he' | he'
            · have := h3 e' he'
              simp only [gt_iff_lt, Bool.not_eq_true', decide_eq_false_iff_not] at this
              omega
            · rcases List.mem_cons.1 he' with rfl | he'
              · exact Nat.le_refl _
              · have h4 := (List.pairwise_append.1 hsorted).2.1
                exact Nat.le_of_lt ((List.pairwise_cons.1 h4).1 e' he')
          exact circ1 (c := x0 + 1) a2 a3 b2 b3 (by rw [← a1, ← hk0']; omega) (by rw [← a1, ← b1]; exact hle)
      | none =>
        simp only
        cases hd : del s.unacked k with
        | nil => exact absurd hd hm
        | cons e rest =>
          refine ⟨e, by simp, rfl, ?_⟩
          intro e' he'
          have he : e ∈ del s.unacked k := by rw [hd]; simp
          have he'' : e' ∈ del s.unacked k := by rw [hd]; exact he'
          obtain ⟨a1, a2, a3, a4⟩ := hall e he
          obtain ⟨b1, b2, b3, b4⟩ := hall e' he''
          have hk0' : k = (x0 + 1 + e0.2.order) % W := by rw [← hek]; exact hk0.1
          have hle : e.1 ≤ e'.1 := by
            rcases List.mem_cons.1 he' with rfl | he'
            · exact Nat.le_refl _
            · rw [hd] at hsorted
              exact Nat.le_of_lt ((List.pairwise_cons.1 hsorted).1 e' he')
          have := List.find?_eq_none.1 hfind e' he''
          simp only [gt_iff_lt, decide_eq_true_eq] at this
          exact circ3 (c := x0 + 1) a2 a3 b2 b3 (by rw [← a1, ← b1]; exact hle) (by rw [← b1, ← hk0']; omega)
    · rw [if_neg hek]
      refine ⟨some e0.1, by simp [hf0], h.last, keyed_del h.keyed, hkey, fun hn => absurd hn hm, fun _ => ?_⟩
      exact ⟨e0, mem_del.2 ⟨he0, hek⟩, rfl, fun e' he' => hmin e' (mem_del.1 he').1⟩

/-- The next TxSequence. -/
abbrev nextTx (x0 : Nat) (s : St) : Nat := (x0 + 1 + s.nTx) % W

/-- The state after a TxSequence is assigned. -/
abbrev bumped (x0 : Nat) (s : St) : St := { s with lastTx := nextTx x0 s, nTx := s.nTx + 1 }

theorem assignTx_eq {x0 : Nat} {s : St} (h : WinS x0 s) :
    (∃ n, assignTx s = .error (.rangeExceeded n) ∧ W ≤ n) ∨
    (assignTx s = .ok (bumped x0 s, nextTx x0 s) ∧ Win x0 s.unacked s.first (nextTx x0 s) (s.nTx + 1) ∧
      ∀ u, (nextTx x0 s, u) ∉ s.unacked) := by
  have htx : (s.lastTx + 1) % W = nextTx x0 s := by rw [h.last]; simp only [nextTx, W]; omega
  unfold assignTx
  simp only [htx]
  have hlast : nextTx x0 s = (x0 + (s.nTx + 1)) % W := by simp only [nextTx]; congr 1; omega
  by_cases hm : s.unacked = []
  · rw [if_pos hm]
    right
    refine ⟨rfl, ⟨hlast, h.keyed, by rw [hm]; simp, h.first⟩, by rw [hm]; simp⟩
  · rw [if_neg hm]
    obtain ⟨e0, he0, hf0, hmin⟩ := h.first.2 hm
    rw [hf0]
    have hl0 : (look s.unacked e0.1).isNone = false := by
      rw [Bool.eq_false_iff]; intro hn; exact look_none.1 hn e0.2 he0
    simp only [hl0, Bool.false_eq_true, if_false]
    obtain ⟨k1, k2, k3⟩ := h.key e0 he0
    by_cases heq : nextTx x0 s = e0.1
    · left
      rw [if_pos heq]
      refine ⟨_, rfl, ?_⟩
      rw [k1] at heq
      simp only [nextTx, W] at *
      omega
    · right
      rw [if_neg heq]
      have hlt : s.nTx < e0.2.order + W := by
        rcases Nat.lt_or_ge s.nTx (e0.2.order + W) with hlt | hge
        · exact hlt
        · exfalso
          apply heq
          have : s.nTx = e0.2.order + W := by omega
          rw [k1]
          simp only [nextTx, W] at *
          omega
      refine ⟨by rw [← hf0], ⟨hlast, h.keyed, ?_, by rw [← hf0]; exact h.first⟩, ?_⟩
      · intro e he
        obtain ⟨h1, h2, h3⟩ := h.key e he
        have := hmin e he
        exact ⟨h1, by omega, by omega⟩
      · intro u hu
        obtain ⟨h1, h2, h3⟩ := h.key _ hu
        have := hmin _ hu
        simp only at h1 h2 h3 this
        simp only [nextTx, W] at *
        omega

/-- Storing a fragment under the TxSequence just assigned. -/
theorem win_put {x0 : Nat} {m : List (Nat × UFrag)} {f : Option Nat} {n k : Nat} {u : UFrag}
    (h : Win x0 m f k (n + 1)) (hu : u.order = n) (hk : k = (x0 + 1 + n) % W) (hno : ∀ v, (k, v) ∉ m) :
    Win x0 (put k u m) (if m = [] then some k else f) k (n + 1) := by
  refine ⟨h.last, keyed_put h.keyed hno, ?_, ?_⟩
  · intro e he
    rcases (mem_put hno e).1 he with rfl | he
    · exact ⟨by rw [hu]; exact hk, by show u.order < _; omega, by show _ ≤ u.order + W; rw [hu]; simp only [W]; omega⟩
    · exact h.key e he
  · refine ⟨fun hn => ?_, fun _ => ?_⟩
    · have := length_put (u := u) hno
      rw [hn] at this; simp at this
    · by_cases hm : m = []
      · rw [if_pos hm]
        subst hm
        exact ⟨(k, u), by simp [put], rfl, by simp [put]⟩
      · rw [if_neg hm]
        obtain ⟨e0, he0, hf0, hmin⟩ := h.first.2 hm
        refine ⟨e0, (mem_put hno e0).2 (.inr he0), hf0, ?_⟩
        intro e' he'
        rcases (mem_put hno e').1 he' with rfl | he'
        · show e0.2.order ≤ u.order
          have := (h.key e0 he0).2.1
          omega
        · exact hmin e' he'

end Verif.Lp
