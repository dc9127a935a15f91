import Verif.Pr.Spec

/-! C126: the face that ASF probes is chosen with the documented probabilities, and there always is one. -/
namespace Verif.Pr

/-! ### Rounding -/

theorem log2_le {v k : Nat} (h : v < 2 ^ (k + 1)) : Nat.log2 v ≤ k := by
  by_cases h0 : v = 0
  · rw [h0]; exact Nat.zero_le _
  · exact Nat.le_of_lt_succ ((Nat.log2_lt h0).mpr h)

/-- Rounding a number below 2 is off by at most 2^-53. -/
theorem rnd_err {p q : Nat} (hq : 0 < q) (h : p < 2 ^ 1075 * q) : rnd p q * q ≤ p + 2 ^ 1021 * q ∧ p ≤ rnd p q * q + 2 ^ 1021 * q := by
  have hl : Nat.log2 (p / q) ≤ 1074 := log2_le (Nat.div_lt_of_lt_mul (by rw [Nat.mul_comm]; exact h))
  have hu : 2 ^ (Nat.log2 (p / q) - 52) ≤ 2 ^ 1022 := Nat.pow_le_pow_right (by decide) (by omega)
  have h2 : (2 : Nat) ^ 1022 = 2 * 2 ^ 1021 := by rw [Nat.pow_succ, Nat.mul_comm]
  unfold rnd
  dsimp only
  have hu0 : 0 < 2 ^ (Nat.log2 (p / q) - 52) := Nat.pow_pos (by decide)
  rw [h2] at hu
  clear h hl h2
  generalize 2 ^ (Nat.log2 (p / q) - 52) = u at hu hu0 ⊢
  generalize (2 : Nat) ^ 1021 = E at hu ⊢
  have hd := Nat.div_add_mod p (q * u)
  have hm := Nat.mod_lt p (Nat.mul_pos hq hu0)
  generalize p / (q * u) = n at hd ⊢
  have e1 : n * u * q = q * u * n := by rw [Nat.mul_comm (n * u), Nat.mul_comm n, Nat.mul_assoc]
  have e2 : (n + 1) * u * q = q * u * n + q * u := by rw [Nat.mul_comm ((n + 1) * u), Nat.mul_comm (n + 1), ← Nat.mul_assoc, Nat.mul_add, Nat.mul_one]
  have e3 : q * u ≤ 2 * (E * q) := by
    have := Nat.mul_le_mul_left q hu
    rw [show 2 * (E * q) = q * (2 * E) by rw [Nat.mul_comm E, Nat.mul_left_comm]]
    exact this
  generalize p % (q * u) = r at *
  generalize q * u * n = a at *
  generalize q * u = b at *
  generalize E * q = c at *
  split
  · rw [e2]; omega
  · rw [e1]; omega

/-! ### The loop -/

theorem weights_le {n : Nat} : ∀ {k : Nat}, k ≤ n → weights n k + ranks (n - k) = ranks n
  | 0, _ => by simp [weights]
  | k + 1, h => by
    have ih := weights_le (n := n) (k := k) (by omega)
    have e : n - k = (n - (k + 1)) + 1 := by omega
    rw [e] at ih
    have e1 : ranks (n - (k + 1) + 1) = ranks (n - (k + 1)) + (n - (k + 1) + 1) := rfl
    have e2 : weights n (k + 1) = weights n k + (n - k) := rfl
    rw [e1] at ih
    rw [e2]
    omega

theorem weights_all (n : Nat) : weights n n = ranks n := by
  have := weights_le (n := n) (Nat.le_refl n)
  rw [Nat.sub_self] at this
  exact this

theorem ranks_eq (n : Nat) : (n + 1) * n / 2 = ranks n := by
  have : (n + 1) * n = 2 * ranks n := by
    induction n with
    | zero => rfl
    | succ n ih =>
      unfold ranks
      have e : (n + 1 + 1) * (n + 1) = (n + 1) * n + 2 * (n + 1) := by
        rw [Nat.mul_comm (n + 1 + 1), Nat.mul_add, Nat.mul_one, Nat.mul_add, Nat.mul_one]
        omega
      rw [e, ih]
      omega
  omega

theorem ranks_pos {n : Nat} (h : 0 < n) : 0 < ranks n := by
  cases n with
  | zero => cases h
  | succ n => unfold ranks; omega

/-- What the loop has summed up after `k` faces is off by at most `k` times 2^-52. -/
def Near (n k offset : Nat) : Prop :=
  offset * ranks n ≤ weights n k * 2 ^ 1074 + k * (2 ^ 1022 * ranks n) ∧ weights n k * 2 ^ 1074 ≤ offset * ranks n + k * (2 ^ 1022 * ranks n)

theorem near_step {n k offset : Nat} (hk : k < n) (hn : n < 2 ^ 51) (h : Near n k offset) :
    Near n (k + 1) (add offset (div (n + 1 - (k + 1)) ((n + 1) * n / 2))) := by
  rw [ranks_eq, show n + 1 - (k + 1) = n - k by omega]
  have hS := ranks_pos (n := n) (by omega)
  have hw : weights n (k + 1) ≤ ranks n := by
    have := weights_le (n := n) (k := k + 1) hk
    omega
  have hw' : weights n (k + 1) = weights n k + (n - k) := rfl
  have c2 : (2 : Nat) ^ 1074 = 2 ^ 53 * 2 ^ 1021 := (Nat.pow_add 2 53 1021)
  have c1 : (2 : Nat) ^ 1075 = 2 ^ 54 * 2 ^ 1021 := (Nat.pow_add 2 54 1021)
  have c3 : (2 : Nat) ^ 1022 = 2 * 2 ^ 1021 := by rw [Nat.pow_succ, Nat.mul_comm]
  have hr1 := @rnd_err ((n - k) * 2 ^ 1074) (ranks n) hS
  have hr2 := fun x => @rnd_err x 1 (by decide)
  unfold Near at h ⊢
  unfold add div one
  rw [hw'] at hw ⊢
  clear hw'
  generalize weights n k = w at *
  generalize rnd ((n - k) * 2 ^ 1074) (ranks n) = P at *
  generalize ranks n = S at *
  rw [c1] at hr1 hr2
  rw [c2] at hr1
  rw [c2, c3] at h ⊢
  have hE : 0 < (2 : Nat) ^ 1021 := Nat.pow_pos (by decide)
  clear c1 c2 c3
  generalize (2 : Nat) ^ 1021 = E at *
  -- all terms are multiples of `E`
  generalize hu : n - k = u at *
  have b1 : u * (2 ^ 53 * E) < 2 ^ 54 * E * S := by
    have a1 : u ≤ S := by omega
    have a2 := Nat.mul_le_mul_right (2 ^ 53 * E) a1
    have a3 : 0 < S * E := Nat.mul_pos hS hE
    have a4 : S * (2 ^ 53 * E) = 2 ^ 53 * (S * E) := by rw [Nat.mul_left_comm]
    have a5 : 2 ^ 54 * E * S = 2 ^ 54 * (S * E) := by rw [Nat.mul_assoc, Nat.mul_comm E]
    omega
  have hp := hr1 b1
  have hs := hr2 (offset + P)
  clear hr1 hr2 b1
  generalize rnd (offset + P) 1 = O at *
  have d1 : (w + u) * (2 ^ 53 * E) = w * (2 ^ 53 * E) + u * (2 ^ 53 * E) := Nat.add_mul ..
  have d2 : (k + 1) * (2 * E * S) = k * (2 * E * S) + 2 * (E * S) := by rw [Nat.add_mul, Nat.one_mul, Nat.mul_assoc 2 E S]
  have d3 : (offset + P) * S = offset * S + P * S := Nat.add_mul ..
  have d4 : (w + u) * (2 ^ 53 * E) ≤ 2 ^ 53 * (E * S) := by
    have := Nat.mul_le_mul_right (2 ^ 53 * E) hw
    rw [Nat.mul_comm S, Nat.mul_assoc] at this
    exact this
  have d5 : k * (2 * E * S) = 2 * k * (E * S) := by rw [Nat.mul_assoc 2 E S, ← Nat.mul_assoc, Nat.mul_comm k 2]
  have d6 : (2 * k) * (E * S) ≤ 2 ^ 52 * (E * S) := Nat.mul_le_mul_right _ (by omega)
  have d7 : 0 < E * S := Nat.mul_pos hE hS
  -- the sum is below 2
  have hlt : offset + P < 2 ^ 54 * E * 1 := by
    apply Nat.lt_of_mul_lt_mul_right (a := S)
    rw [d3, show 2 ^ 54 * E * 1 * S = 2 ^ 54 * (E * S) by rw [Nat.mul_one, Nat.mul_assoc]]
    omega
  have hs := hs hlt
  have d8 : O * S ≤ (offset + P) * S + E * S := by
    have := Nat.mul_le_mul_right S hs.1
    rw [Nat.mul_one, Nat.mul_one, Nat.add_mul] at this
    exact this
  have d9 : (offset + P) * S ≤ O * S + E * S := by
    have := Nat.mul_le_mul_right S hs.2
    rw [Nat.mul_one, Nat.mul_one, Nat.add_mul O] at this
    exact this
  rw [d1, d2]
  omega

/-- The loop goes on while the random number is above what has been summed up, and takes the face where it is not. -/
theorem loop_choice {α : Type} {n random : Nat} (hn : n < 2 ^ 51) : ∀ (l : List α) (k offset j : Nat), k + l.length = n → Near n k offset → j < l.length →
    (j = 0 ∨ weights n (k + j) * 2 ^ 1074 + n * (2 ^ 1022 * ranks n) < random * ranks n) →
    random * ranks n + n * (2 ^ 1022 * ranks n) ≤ weights n (k + j + 1) * 2 ^ 1074 → loop n random l (k + 1) offset = l[j]? := by
  intro l
  induction l with
  | nil => intro k offset j _ _ hj; cases hj
  | cons f l ih =>
    intro k offset j hk hnear hj hlo hhi
    rw [List.length_cons] at hk hj
    have hs := near_step (by omega) hn hnear
    unfold loop
    dsimp only
    generalize add offset (div (n + 1 - (k + 1)) ((n + 1) * n / 2)) = o at hs ⊢
    have hS : 0 < ranks n := ranks_pos (by omega)
    cases j with
    | zero =>
      have : random ≤ o := by
        apply Nat.le_of_mul_le_mul_right _ hS
        have h1 := hs.2
        have h2 : (k + 1) * (2 ^ 1022 * ranks n) ≤ n * (2 ^ 1022 * ranks n) := Nat.mul_le_mul_right _ (by omega)
        rw [Nat.add_zero] at hhi
        omega
      rw [if_pos this, List.getElem?_cons_zero]
    | succ j =>
      have hmono : ∀ i, weights n (k + 1) ≤ weights n (k + 1 + i) := by
        intro i
        induction i with
        | zero => exact Nat.le_refl _
        | succ i ih => exact Nat.le_trans ih (Nat.le_add_right _ _)
      have : ¬ random ≤ o := by
        intro hle
        have h0 := Nat.mul_le_mul_right (ranks n) hle
        have h1 := hs.1
        have h2 : (k + 1) * (2 ^ 1022 * ranks n) ≤ n * (2 ^ 1022 * ranks n) := Nat.mul_le_mul_right _ (by omega)
        have h3 := Nat.mul_le_mul_right (2 ^ 1074) (hmono j)
        rw [show k + (j + 1) = k + 1 + j by omega] at hlo
        rcases hlo with hlo | hlo
        · cases hlo
        · omega
      rw [if_neg this, List.getElem?_cons_succ]
      refine ih (k + 1) o j (by omega) hs (by omega) ?_ (by rw [show k + 1 + j = k + (j + 1) by omega]; exact hhi)
      rcases hlo with hlo | hlo
      · cases hlo
      · exact .inr (by rw [show k + 1 + j = k + (j + 1) by omega]; exact hlo)

/-! ### Theorems -/

/-- C126 (partial): the interval from 0 to 1 is divided among the faces according to the documented probabilities, up to `n` times 2^-52 at the ends of the
parts. What is missing are random numbers closer to the ends. -/
theorem C126_choice_partial {α : Type} (faces : List α) (j random : Nat) (hn : faces.length < 2 ^ 51) (hj : j < faces.length)
    (h : Inside faces.length j random (faces.length * 2 ^ 1022)) : chooseFace faces random = faces[j]? := by
  unfold chooseFace
  unfold Inside at h
  rw [Nat.mul_assoc] at h
  refine loop_choice hn faces 0 0 j (by omega) ?_ hj (by rw [Nat.zero_add]; exact h.1) (by rw [Nat.zero_add]; exact h.2)
  exact ⟨by simp [weights], by simp [weights]⟩

/-- With three faces, the part of the second is from 1/2 to 5/6. -/
example : Inside 3 1 (6 * 2 ^ 1074 / 10) (3 * 2 ^ 1022) ∧ chooseFace ["a", "b", "c"] (6 * 2 ^ 1074 / 10) = some "b" := by
  unfold Inside
  decide +kernel

theorem loop_some {α : Type} {n random : Nat} (hn : n < 2 ^ 51) : ∀ (l : List α) (k offset : Nat), l ≠ [] → k + l.length = n → Near n k offset →
    random * ranks n + n * (2 ^ 1022 * ranks n) ≤ ranks n * 2 ^ 1074 → ∃ f ∈ l, loop n random l (k + 1) offset = some f := by
  intro l
  induction l with
  | nil => intro k offset h; exact absurd rfl h
  | cons f l ih =>
    intro k offset _ hk hnear hx
    rw [List.length_cons] at hk
    have hs := near_step (by omega) hn hnear
    unfold loop
    dsimp only
    generalize add offset (div (n + 1 - (k + 1)) ((n + 1) * n / 2)) = o at hs ⊢
    have hS : 0 < ranks n := ranks_pos (by omega)
    split
    · exact ⟨f, List.mem_cons_self .., rfl⟩
    · rename_i hgt
      by_cases hl : l = []
      · refine absurd ?_ hgt
        subst hl
        have hk : k + 1 = n := hk
        unfold Near at hs
        rw [hk, weights_all] at hs
        apply Nat.le_of_mul_le_mul_right _ hS
        omega
      · obtain ⟨g, h1, h2⟩ := ih (k + 1) o hl (by omega) hs hx
        exact ⟨g, List.mem_cons_of_mem _ h1, h2⟩

/-- C126 (partial): one of the faces is chosen whenever the random number is at most 1 - n * 2^-52. -/
theorem C126_always_partial {α : Type} (faces : List α) (random : Nat) (h0 : faces ≠ []) (hn : faces.length < 2 ^ 51)
    (hx : random + faces.length * 2 ^ 1022 ≤ 2 ^ 1074) : ∃ f ∈ faces, chooseFace faces random = some f := by
  refine loop_some hn faces 0 0 h0 (by omega) ⟨by simp [weights], by simp [weights]⟩ ?_
  have := Nat.mul_le_mul_right (ranks faces.length) hx
  rw [Nat.add_mul, Nat.mul_assoc, Nat.mul_comm (2 ^ 1074)] at this
  exact this

example : 2 ^ 1074 - 2 ^ 1030 + ["a", "b", "c"].length * 2 ^ 1022 ≤ 2 ^ 1074 ∧ chooseFace ["a", "b", "c"] (2 ^ 1074 - 2 ^ 1030) = some "c" := by decide +kernel

/-- With six faces and the largest number below 1, which the generator may give (1 - 2^-53), no face is chosen: the end of the function is reached, which the
compiler may take to be impossible. -/
theorem C126_unreachable : 2 ^ 1074 - 2 ^ 1021 < one ∧ rnd (2 ^ 1074 - 2 ^ 1021) 1 = 2 ^ 1074 - 2 ^ 1021 ∧ chooseFace [1, 2, 3, 4, 5, 6] (2 ^ 1074 - 2 ^ 1021) = none := by
  decide +kernel

attribute [local irreducible] rnd add div

/-- What the loop has summed up at the end. -/
def last {α : Type} (n : Nat) : List α → Nat → Nat → Nat
  | [], _, offset => offset
  | _ :: l, rank, offset => last n l (rank + 1) (add offset (div (n + 1 - rank) ((n + 1) * n / 2)))

theorem loop_last {α : Type} {n random : Nat} : ∀ (l : List α) (k offset : Nat), l ≠ [] → random ≤ last n (List.replicate l.length ()) k offset → loop n random l k offset ≠ none := by
  intro l
  induction l with
  | nil => intro k offset h; exact absurd rfl h
  | cons f l ih =>
    intro k offset _ hx
    rw [List.length_cons, List.replicate_succ] at hx
    unfold last at hx
    unfold loop
    dsimp only
    generalize add offset (div (n + 1 - k) ((n + 1) * n / 2)) = o at hx ⊢
    split
    · exact Option.some_ne_none _
    · rename_i hgt
      by_cases hl : l = []
      · subst hl
        rw [List.length_nil, List.replicate_zero] at hx
        unfold last at hx
        exact absurd hx hgt
      · exact ih _ _ hl hx

theorem last_five : ∀ n ≤ 5, n ≠ 0 → 2 ^ 1074 - 2 ^ 1021 ≤ last n (List.replicate n ()) 1 0 := by decide +kernel

/-- Up to five faces there always is one, for every number below 1 that the generator may give. -/
theorem C126_five {α : Type} (faces : List α) (random : Nat) (h0 : faces ≠ []) (h5 : faces.length ≤ 5) (hx : random ≤ 2 ^ 1074 - 2 ^ 1021) :
    chooseFace faces random ≠ none := by
  have hpos : faces.length ≠ 0 := fun h => h0 (List.eq_nil_of_length_eq_zero h)
  have h := Nat.le_trans hx (last_five _ h5 hpos)
  exact loop_last faces 1 0 h0 h

example : chooseFace ["a", "b", "c", "d", "e"] (2 ^ 1074 - 2 ^ 1021) = some "e" := by decide +kernel

/-- The documented probabilities add up to 1. -/
theorem C126_sum (n : Nat) : weights n n = ranks n := weights_all n

end Verif.Pr
