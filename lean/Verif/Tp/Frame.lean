/-
The parsing loop of stream transports.
-/
import Verif.Tp.Model

namespace Verif.Tp
open Verif.Lp

theorem readVar_append {b c : Bytes} {n : Nat} {r : Bytes} (h : readVar b = some (n, r)) : readVar (b ++ c) = some (n, r ++ c) := by
  unfold readVar at h
  split at h
  · cases h
  · rename_i x rest
    simp only [List.cons_append, readVar]
    split at h
    · rename_i h1; rw [if_pos h1]; cases h; rfl
    · rename_i h1
      rw [if_neg h1]
      generalize (if x.toNat = 253 then 2 else if x.toNat = 254 then 4 else 8) = k at h ⊢
      simp only at h ⊢
      split at h
      · cases h
      · rename_i h2
        cases h
        rw [if_neg (by simp; omega), List.take_append_of_le_length (by omega), List.drop_append_of_le_length (by omega)]

theorem readVar_suffix {b : Bytes} {n : Nat} {r : Bytes} (h : readVar b = some (n, r)) : r <:+ b ∧ r.length < b.length := by
  unfold readVar at h
  split at h
  · cases h
  · rename_i x rest
    split at h
    · cases h; exact ⟨List.suffix_cons .., by simp⟩
    · generalize (if x.toNat = 253 then 2 else if x.toNat = 254 then 4 else 8) = k at h
      simp only at h
      split at h
      · cases h
      · cases h
        refine ⟨(List.drop_suffix ..).trans (List.suffix_cons ..), ?_⟩
        simp; omega

theorem readElem_append {b c : Bytes} {e : Elem} {r : Bytes} (h : readElem b = some (e, r)) : readElem (b ++ c) = some (e, r ++ c) := by
  unfold readElem at h
  split at h
  · cases h
  · rename_i type r1 h1
    split at h
    · cases h
    · rename_i h2
      split at h
      · cases h
      · rename_i len r2 h3
        split at h
        · cases h
        · rename_i h4
          cases h
          unfold readElem
          simp only [readVar_append h1, if_neg h2, readVar_append h3]
          rw [if_neg (by simp; omega), List.take_append_of_le_length (by omega), List.drop_append_of_le_length (by omega)]

theorem readElem_suffix {b : Bytes} {e : Elem} {r : Bytes} (h : readElem b = some (e, r)) : r <:+ b ∧ r.length < b.length := by
  unfold readElem at h
  split at h
  · cases h
  · rename_i type r1 h1
    split at h
    · cases h
    · split at h
      · cases h
      · rename_i len r2 h3
        split at h
        · cases h
        · cases h
          have a := readVar_suffix h1
          have b := readVar_suffix h3
          refine ⟨(List.drop_suffix ..).trans (b.1.trans a.1), ?_⟩
          simp; omega

/-- The octets of one packet: exactly one TLV element. -/
def IsPacket (p : Bytes) : Prop := ∃ e, readElem p = some (e, [])

theorem readElem_nil : readElem [] = none := rfl

/-- A proper prefix of a packet is not complete. -/
theorem IsPacket.prefix {p c : Bytes} (h : IsPacket (p ++ c)) (hc : c ≠ []) : readElem p = none := by
  obtain ⟨e, h⟩ := h
  cases hp : readElem p with
  | none => rfl
  | some x =>
    rw [readElem_append (e := x.1) (r := x.2) hp] at h
    simp at h
    exact absurd h.2.2 hc

theorem readVar_strip {p c : Bytes} {n : Nat} {r : Bytes} (h : readVar (p ++ c) = some (n, r ++ c)) : readVar p = some (n, r) := by
  cases p with
  | nil =>
    have := (readVar_suffix h).2
    simp at this
    omega
  | cons x rest =>
    simp only [List.cons_append, readVar] at h ⊢
    split at h
    · rename_i h1
      rw [if_pos h1]
      simp only [Option.some.injEq, Prod.mk.injEq] at h
      rw [h.1, List.append_cancel_right h.2]
    · rename_i h1
      rw [if_neg h1]
      generalize (if x.toNat = 253 then 2 else if x.toNat = 254 then 4 else 8) = k at h ⊢
      split at h
      · cases h
      · rename_i h2
        simp only [Option.some.injEq, Prod.mk.injEq] at h
        have hl := congrArg List.length h.2
        simp at hl h2
        have hk : k ≤ rest.length := by omega
        rw [List.drop_append_of_le_length hk, List.take_append_of_le_length hk] at h
        rw [if_neg (by omega), h.1, List.append_cancel_right h.2]

theorem readElem_strip {p c : Bytes} {e : Elem} {r : Bytes} (h : readElem (p ++ c) = some (e, r ++ c)) : readElem p = some (e, r) := by
  unfold readElem at h
  split at h
  · cases h
  · rename_i type r1 h1
    split at h
    · cases h
    · rename_i h2
      split at h
      · cases h
      · rename_i len r2 h3
        split at h
        · cases h
        · rename_i h4
          simp only [Option.some.injEq, Prod.mk.injEq] at h
          have hd : r2 = (r2.take len ++ r) ++ c := by rw [List.append_assoc, ← h.2, List.take_append_drop]
          obtain ⟨t, ht⟩ := (readVar_suffix h3).1
          have hr1 : r1 = (t ++ (r2.take len ++ r)) ++ c := by
            rw [← ht, List.append_assoc, ← hd]
          rw [hr1] at h1 h3
          have h1' := readVar_strip h1
          have h3' : readVar (t ++ (r2.take len ++ r)) = some (len, r2.take len ++ r) := readVar_strip (by rw [h3, ← hd])
          unfold readElem
          simp only [h1', if_neg h2, h3']
          have hl := congrArg List.length hd
          simp at hl
          have htl : (r2.take len).length = len := by simp; omega
          rw [if_neg (by simp; omega)]
          rw [List.take_append_of_le_length (by omega), List.drop_append_of_le_length (by omega)]
          rw [List.take_of_length_le (by omega), List.drop_of_length_le (by omega), h.1]
          rfl

theorem readElem_split {b : Bytes} {e : Elem} {r : Bytes} (h : readElem b = some (e, r)) :
    b = b.take (b.length - r.length) ++ r ∧ IsPacket (b.take (b.length - r.length)) := by
  obtain ⟨h1, h2⟩ := readElem_suffix h
  have hb : b = b.take (b.length - r.length) ++ r := by
    obtain ⟨t, ht⟩ := h1
    subst ht
    simp
  refine ⟨hb, e, ?_⟩
  refine readElem_strip (c := r) ?_
  rw [← hb]; exact h

theorem IsPacket.ne_nil {p : Bytes} (h : IsPacket p) : p ≠ [] := by
  rintro rfl; obtain ⟨e, h⟩ := h; cases h

/-- What the parsing loop does. -/
theorem parseLoop_spec : ∀ {n : Nat} {b : Bytes}, b.length ≤ n →
    b = (parseLoop n b).1.flatten ++ (parseLoop n b).2 ∧ (∀ p ∈ (parseLoop n b).1, IsPacket p) ∧ readElem (parseLoop n b).2 = none := by
  intro n
  induction n with
  | zero => intro b hb; rw [List.length_eq_zero_iff.1 (Nat.le_zero.1 hb)]; exact ⟨rfl, (by simp [parseLoop]), rfl⟩
  | succ n ih =>
    intro b hb
    simp only [parseLoop]
    split
    · rename_i h; subst h; exact ⟨rfl, (by simp), rfl⟩
    · split
      · rename_i h; exact ⟨by simp, (by simp), h⟩
      · rename_i e r h
        obtain ⟨h1, h2⟩ := readElem_split h
        obtain ⟨a, b', c⟩ := ih (b := r) (by have := (readElem_suffix h).2; omega)
        refine ⟨?_, ?_, c⟩
        · simp only [List.flatten_cons, List.append_assoc]
          rw [← a]; exact h1
        · intro p hp
          rcases List.mem_cons.1 hp with rfl | hp
          · exact h2
          · exact b' p hp

/-- A byte string is cut into packets in one way only. -/
theorem packets_unique : ∀ {ps qs : List Bytes} {a b : Bytes}, (∀ p ∈ ps, IsPacket p) → (∀ p ∈ qs, IsPacket p) → readElem a = none → readElem b = none →
    ps.flatten ++ a = qs.flatten ++ b → ps = qs ∧ a = b := by
  intro ps
  induction ps with
  | nil =>
    intro qs a b _ hq ha hb h
    cases qs with
    | nil => exact ⟨rfl, by simpa using h⟩
    | cons q qs =>
      obtain ⟨e, he⟩ := hq q (List.mem_cons_self ..)
      simp at h
      rw [h, readElem_append he] at ha
      cases ha
  | cons p ps ih =>
    intro qs a b hp hq ha hb h
    cases qs with
    | nil =>
      obtain ⟨e, he⟩ := hp p (List.mem_cons_self ..)
      simp at h
      rw [← h, readElem_append he] at hb
      cases hb
    | cons q qs =>
      obtain ⟨e, he⟩ := hp p (List.mem_cons_self ..)
      obtain ⟨e', he'⟩ := hq q (List.mem_cons_self ..)
      simp only [List.flatten_cons, List.append_assoc] at h
      have h1 := readElem_append (c := ps.flatten ++ a) he
      rw [h, readElem_append he'] at h1
      simp at h1
      obtain ⟨_, h1⟩ := h1
      have h2 : p = q := by
        have hl := congrArg List.length h
        have hl' := congrArg List.length h1
        simp at hl hl'
        exact (List.append_inj h (by omega)).1
      subst h2
      obtain ⟨h3, h4⟩ := ih (fun p hp' => hp p (List.mem_cons_of_mem _ hp')) (fun p hp' => hq p (List.mem_cons_of_mem _ hp')) ha hb (List.append_cancel_left h)
      exact ⟨by rw [h3], h4⟩

/-- The beginning of a sequence of packets. -/
theorem packets_prefix : ∀ {ps qs : List Bytes} {a : Bytes}, (∀ p ∈ ps, IsPacket p) → (∀ p ∈ qs, IsPacket p) → readElem a = none →
    ps.flatten ++ a <+: qs.flatten → ps <+: qs ∧ (a = [] ∨ ∃ q ∈ qs, a.length < q.length) := by
  intro ps
  induction ps with
  | nil =>
    intro qs a _ hq ha h
    refine ⟨List.nil_prefix, ?_⟩
    cases qs with
    | nil => left; simpa using h
    | cons q qs =>
      obtain ⟨e, he⟩ := hq q (List.mem_cons_self ..)
      right
      refine ⟨q, List.mem_cons_self .., ?_⟩
      apply Decidable.byContradiction
      intro hlt
      simp only [List.flatten_nil, List.nil_append, List.flatten_cons] at h
      obtain ⟨t, ht⟩ := h
      obtain ⟨u, hu⟩ : q <+: a := by
        refine List.prefix_of_prefix_length_le (l₃ := q ++ qs.flatten) (List.prefix_append ..) ⟨t, ht⟩ (by omega)
      rw [← hu, readElem_append he] at ha
      cases ha
  | cons p ps ih =>
    intro qs a hp hq ha h
    cases qs with
    | nil =>
      have := (hp p (List.mem_cons_self ..)).ne_nil
      obtain ⟨t, ht⟩ := h
      simp at ht
      exact absurd ht.1 this
    | cons q qs =>
      obtain ⟨e, he⟩ := hp p (List.mem_cons_self ..)
      obtain ⟨e', he'⟩ := hq q (List.mem_cons_self ..)
      obtain ⟨t, h⟩ := h
      simp only [List.flatten_cons, List.append_assoc] at h
      have h1 := readElem_append (c := ps.flatten ++ (a ++ t)) he
      rw [h, readElem_append he'] at h1
      simp at h1
      obtain ⟨_, h1⟩ := h1
      have h2 : p = q := by
        have hl := congrArg List.length h
        have hl' := congrArg List.length h1
        simp at hl hl'
        exact (List.append_inj h (by omega)).1
      subst h2
      obtain ⟨h3, h4⟩ := ih (qs := qs) (a := a) (fun p hp' => hp p (List.mem_cons_of_mem _ hp')) (fun p hp' => hq p (List.mem_cons_of_mem _ hp')) ha
        ⟨t, by rw [List.append_assoc]; exact List.append_cancel_left h⟩
      refine ⟨List.cons_prefix_cons.2 ⟨rfl, h3⟩, ?_⟩
      rcases h4 with h4 | ⟨x, hx, hl⟩
      · exact .inl h4
      · exact .inr ⟨x, List.mem_cons_of_mem _ hx, hl⟩

end Verif.Tp
