/-
Sizes of LpPackets, and what the fragmenter produces.
-/
import Verif.Lp.Model

namespace Verif.Lp

theorem varSize_le (n : Nat) : varSize n ≤ 9 := by unfold varSize; split <;> (try split) <;> (try split) <;> omega
theorem varSize_pos (n : Nat) : 1 ≤ varSize n := by unfold varSize; split <;> (try split) <;> (try split) <;> omega
theorem nniSize_le (n : Nat) : nniSize n ≤ 8 := by unfold nniSize; split <;> (try split) <;> (try split) <;> omega
theorem nniSize_pos (n : Nat) : 1 ≤ nniSize n := by unfold nniSize; split <;> (try split) <;> (try split) <;> omega

theorem varSize_small {n : Nat} (h : n < 253) : varSize n = 1 := by unfold varSize; simp [h]

theorem varSize_mono {m n : Nat} (h : m ≤ n) : varSize m ≤ varSize n := by
  unfold varSize; split <;> split <;> (try split) <;> (try split) <;> (try split) <;> (try split) <;> omega

theorem tlvSize_mono {t m n : Nat} (h : m ≤ n) : tlvSize t m ≤ tlvSize t n := by
  have := varSize_mono h; unfold tlvSize; omega

theorem tlv_lp_le (n : Nat) : tlvSize 100 n ≤ n + 10 := by
  have := varSize_le n; have := varSize_small (n := 100) (by decide); unfold tlvSize; omega
theorem tlv_frag_le (n : Nat) : tlvSize 80 n ≤ n + 10 := by
  have := varSize_le n; have := varSize_small (n := 80) (by decide); unfold tlvSize; omega

theorem size_nni {t : Nat} (ht : t < 253) (n : Nat) : tlvSize t (nniSize n) ≤ 10 := by
  have h := nniSize_le n
  have := varSize_small ht
  have := varSize_small (n := nniSize n) (by omega)
  unfold tlvSize; omega

theorem size_seq : tlvSize 81 8 = 10 := by decide
theorem size_tx : tlvSize 840 8 = 12 := by decide
theorem size_ack : tlvSize 836 8 = 12 := by decide

/-- The encoding of a packet is at most 20 octets larger than the header elements and the payload. -/
theorem wireSize_le (p : Pkt) : wireSize p ≤ othersSize p + optSize List.length p.frag + 20 := by
  unfold wireSize
  split
  · omega
  · cases h : p.frag with
    | none => have := tlv_lp_le (othersSize p + 0); simp only [optSize] at *; omega
    | some b =>
      have h1 := tlv_lp_le (othersSize p + tlvSize 80 b.length)
      have h2 := tlv_frag_le b.length
      simp only [optSize] at *
      omega

theorem chunks_flatten {size : Nat} (hs : 0 < size) :
    ∀ (n : Nat) (b : Bytes), b.length ≤ n → (chunks size n b).flatten = b := by
  intro n
  induction n with
  | zero => intro b hb; cases b with
    | nil => rfl
    | cons _ _ => simp at hb
  | succ n ih =>
    intro b hb
    unfold chunks
    split
    · rename_i h; subst h; rfl
    · rename_i h
      have hl := List.length_pos_iff.2 h
      rw [List.flatten_cons, ih _ (by rw [List.length_drop]; omega), List.take_append_drop]

theorem chunks_length {size : Nat} (hs : 0 < size) :
    ∀ (n : Nat) (b : Bytes), b.length ≤ n →
      (chunks size n b).length = b.length / size + (if b.length % size ≠ 0 then 1 else 0) := by
  intro n
  induction n with
  | zero => intro b hb; cases b with
    | nil => simp [chunks]
    | cons _ _ => simp at hb
  | succ n ih =>
    intro b hb
    unfold chunks
    split
    · rename_i h; subst h; simp
    · rename_i h
      have hl := List.length_pos_iff.2 h
      rw [List.length_cons, ih _ (by rw [List.length_drop]; omega), List.length_drop]
      by_cases hc : size ≤ b.length
      · obtain ⟨m, hm⟩ : ∃ m, b.length = m + size := ⟨b.length - size, by omega⟩
        rw [hm, Nat.add_sub_cancel, Nat.add_div_right _ hs, Nat.add_mod_right]
        omega
      · have h0 : b.length - size = 0 := by omega
        have h1 : b.length / size = 0 := Nat.div_eq_of_lt (by omega)
        have h2 : b.length % size = b.length := Nat.mod_eq_of_lt (by omega)
        rw [h0, h1, h2, Nat.zero_div, Nat.zero_mod]
        have : b.length ≠ 0 := by omega
        simp [this]

theorem chunks_le {size : Nat} : ∀ (n : Nat) (b : Bytes), ∀ c ∈ chunks size n b, c.length ≤ size := by
  intro n
  induction n with
  | zero => intro b c hc; cases hc
  | succ n ih =>
    intro b c hc
    unfold chunks at hc
    split at hc
    · cases hc
    · rcases List.mem_cons.1 hc with rfl | hc
      · rw [List.length_take]; omega
      · exact ih _ _ hc

theorem numbered_length (count : Nat) : ∀ (cs : List Bytes) (first : Pkt) (i : Nat), (numbered count first i cs).length = cs.length := by
  intro cs
  induction cs with
  | nil => intro _ _; rfl
  | cons c cs ih => intro first i; simp only [numbered, List.length_cons, ih]

theorem numbered_get (count : Nat) : ∀ (cs : List Bytes) (first : Pkt) (i j : Nat) (f : Pkt),
    (numbered count first i cs)[j]? = some f →
      f.fragIndex = some (i + j) ∧ f.fragCount = some count ∧ f.frag = cs[j]? ∧ f.frag.isSome ∧
      (j = 0 → f = { first with fragIndex := some i, fragCount := some count, frag := f.frag }) ∧
      (j ≠ 0 → f = { fragIndex := f.fragIndex, fragCount := some count, frag := f.frag }) := by
  intro cs
  induction cs with
  | nil => intro first i j f h; simp [numbered] at h
  | cons c cs ih =>
    intro first i j f h
    cases j with
    | zero =>
      simp only [numbered, List.getElem?_cons_zero, Option.some.injEq] at h
      subst h
      simp
    | succ j =>
      simp only [numbered, List.getElem?_cons_succ] at h
      obtain ⟨h1, h2, h3, h4, h5, h6⟩ := ih _ _ _ _ h
      refine ⟨by rw [h1]; congr 1; omega, h2, by simpa using h3, h4, by simp, fun _ => ?_⟩
      by_cases hj : j = 0
      · have := h5 hj
        rw [this]
      · exact h6 hj

/-- The header elements of a fragment: those of the packet on the first one, and at most 20 octets of FragIndex and FragCount. -/
theorem othersSize_frag (p : Pkt) (i count : Nat) (c : Option Bytes) (q : Nat) :
    othersSize { p with fragIndex := some i, fragCount := some count, frag := c, seq := some q } ≤ othersSize p + 30 := by
  have h1 := size_nni (t := 82) (by decide) i
  have h2 := size_nni (t := 83) (by decide) count
  have h3 := size_seq
  simp only [othersSize, optSize]
  omega

theorem othersSize_empty : othersSize {} = 0 := by decide

theorem frag_room {count : Nat} {first : Pkt} {cs : List Bytes} {j : Nat} {f : Pkt} {a b : Nat} {mtu : Nat}
    (h : (numbered count first 0 cs)[j]? = some f) (h0 : ∀ c, cs[0]? = some c → c.length ≤ a)
    (hj : ∀ j c, j ≠ 0 → cs[j]? = some c → c.length ≤ b)
    (ha : othersSize first + a + maxFragOverhead ≤ mtu) (hb : b + maxFragOverhead ≤ mtu) (q : Nat) :
    othersSize { f with seq := some q } + optSize List.length f.frag + 20 ≤ mtu := by
  obtain ⟨h1, h2, h3, h4, h5, h6⟩ := numbered_get _ _ _ _ _ _ h
  obtain ⟨c, hc⟩ := Option.isSome_iff_exists.1 h4
  have hcs := hc ▸ h3
  simp only [maxFragOverhead] at ha hb
  by_cases hj0 : j = 0
  · have hl := h0 c (by rw [hj0] at hcs; exact hcs.symm)
    have hf := h5 hj0
    have ho := othersSize_frag first 0 count f.frag q
    rw [hf]
    simp only [hc, optSize] at ho ⊢
    omega
  · have hl := hj j c hj0 hcs.symm
    have hf := h6 hj0
    have ho := othersSize_frag {} (0 + j) count f.frag q
    rw [othersSize_empty] at ho
    rw [hf, h1]
    simp only [hc, optSize] at ho ⊢
    omega

/-- Attaching a Sequence does not make the encoding smaller, unless the packet was a bare network packet. -/
theorem wireSize_seq {p : Pkt} (hb : isBare p = false) (q : Nat) : wireSize p ≤ wireSize { p with seq := some q } := by
  have h1 : isBare { p with seq := some q } = false := by simp [isBare]
  unfold wireSize
  rw [hb, h1]
  simp only [Bool.false_eq_true, if_false]
  apply tlvSize_mono
  have : othersSize p ≤ othersSize { p with seq := some q } := by
    simp only [othersSize, optSize]
    cases p.seq <;> simp
  omega

end Verif.Lp
