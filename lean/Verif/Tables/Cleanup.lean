import Verif.Tables.NoUseless

/-! Cleanup on face removal never meets its assertion. -/
namespace Verif.Tb

open Nt (Tree Nte Cfg Options maxDepth tblOf TreeInv Removed)

variable {e : Env} {s s' : Tables}

theorem lenInsert_perm (n : Name) (l : List Name) : (lenInsert n l).Perm (n :: l) := by
  induction l with
  | nil => exact List.Perm.refl _
  | cons m l ih =>
    rw [lenInsert]; split
    · exact (List.Perm.cons m ih).trans (List.Perm.swap n m l)
    · exact List.Perm.refl _

theorem lenInsert_sorted (n : Name) (l : List Name) (h : l.Pairwise (fun a b => b.length ≤ a.length)) :
    (lenInsert n l).Pairwise (fun a b => b.length ≤ a.length) := by
  induction l with
  | nil => simp [lenInsert]
  | cons m l ih =>
    rw [List.pairwise_cons] at h
    rw [lenInsert]; split
    · rw [List.pairwise_cons]
      refine ⟨fun a ha => ?_, ih h.2⟩
      rcases List.mem_cons.1 ((lenInsert_perm n l).mem_iff.1 ha) with rfl | ha
      · omega
      · exact h.1 a ha
    · rename_i hm
      rw [List.pairwise_cons]
      refine ⟨fun a ha => ?_, List.pairwise_cons.2 h⟩
      rcases List.mem_cons.1 ha with rfl | ha
      · omega
      · have := h.1 a ha; omega

theorem lenFold (l : List Name) : ∀ acc : List Name, acc.Pairwise (fun a b => b.length ≤ a.length) →
    (l.foldl (fun l n => lenInsert n l) acc).Pairwise (fun a b => b.length ≤ a.length) ∧
    (l.foldl (fun l n => lenInsert n l) acc).Perm (l ++ acc) := by
  induction l with
  | nil => intro acc h; exact ⟨h, List.Perm.refl _⟩
  | cons n l ih =>
    intro acc h
    obtain ⟨h1, h2⟩ := ih (lenInsert n acc) (lenInsert_sorted n acc h)
    refine ⟨h1, h2.trans ?_⟩
    exact (List.Perm.append_left l (lenInsert_perm n acc)).trans List.perm_middle

/-- A stored child. -/
def HasKid (e : Env) (t : Tree Tbl) (n : Name) : Prop := ∃ k, k ≠ [] ∧ k.dropLast = n ∧ (tblOf e.cfg t k).isSome

theorem isEmpty_iff {t : Tree Tbl} (hi : TreeInv e.cfg t) {n : Name} {x : Nte Tbl} (hx : t.find e.cfg.ch n = some x) :
    x.isEmpty e.cfg = false ↔ (vw e t n ≠ {} ∨ HasKid e t n) := by
  have hv : vw e t n = x.tbl := by simp [vw, tblOf, hx]
  simp only [Nte.isEmpty, Bool.and_eq_false_iff, Bool.not_eq_false']
  constructor
  · rintro (h | h)
    · right
      cases hc : x.children with
      | nil => simp [hc] at h
      | cons c cs =>
        obtain ⟨a, b, ke, hke⟩ := (hi.kids n x hx).2 c (by simp [hc])
        exact ⟨c, a, b, by rw [Nt.tblOf_isSome, hke]; rfl⟩
    · left
      intro hh
      rw [hv] at hh
      rw [hh] at h
      exact absurd h (by decide)
  · rintro (h | ⟨k, h1, h2, h3⟩)
    · right
      cases hh : e.cfg.has x.tbl with
      | true => exact hh
      | false => exfalso; apply h; rw [hv]; exact has_false hh
    · left
      rw [Nt.tblOf_isSome] at h3
      obtain ⟨kx, hk⟩ := Option.isSome_iff_exists.1 h3
      obtain ⟨-, p, hp, hmem⟩ := hi.par k kx hk h1
      rw [h2, hx] at hp
      cases hp
      cases hc : x.children with
      | nil => rw [hc] at hmem; simp at hmem
      | cons => rfl

theorem eraseAll_ok (l : List Name) : ∀ {t : Tree Tbl}, TreeInv e.cfg t → l.Nodup → l.Pairwise (fun a b => b.length ≤ a.length) →
    (∀ n ∈ l, (tblOf e.cfg t n).isSome) →
    (∀ n, (tblOf e.cfg t n).isSome → n ∉ l → vw e t n ≠ {} ∨ (HasKid e t n ∧ ∀ a ∈ l, a.length ≤ n.length)) →
    ∃ t', eraseAll e.cfg l t = some t' ∧ ∀ n, (tblOf e.cfg t' n).isSome → vw e t' n ≠ {} ∨ HasKid e t' n := by
  induction l with
  | nil =>
    intro t hi _ _ _ h
    refine ⟨t, rfl, fun n hn => ?_⟩
    rcases h n hn (by simp) with h | h
    · exact .inl h
    · exact .inr h.1
  | cons n l ih =>
    intro t hi hnd hpw hst hinv
    rw [List.nodup_cons] at hnd
    rw [List.pairwise_cons] at hpw
    have hn := hst n (by simp)
    rw [Nt.tblOf_isSome] at hn
    obtain ⟨x, hx⟩ := Option.isSome_iff_exists.1 hn
    obtain ⟨t2, k2, h2, i2, d2⟩ := Nt.eraseLoop_one hi hx (n.length + 1)
    have h2' : Nt.eraseIfEmpty e.cfg t n false = some (t2, k2) := h2
    have v2 := (fwd_erase hi h2').2.1
    simp only at v2
    have keep : ∀ m, m ≠ n → tblOf e.cfg t2 m = tblOf e.cfg t m := fun m hm => by rw [d2, if_neg (fun h => hm h.1)]
    have keep' : x.isEmpty e.cfg = false → ∀ m, tblOf e.cfg t2 m = tblOf e.cfg t m := fun he m => by rw [d2, if_neg (fun h => by rw [he] at h; simp at h)]
    obtain ⟨t', h3, h4⟩ := ih i2 hnd.2 hpw.2 (fun a ha => by rw [keep a (by rintro rfl; exact hnd.1 ha)]; exact hst a (by simp [ha])) (by
      intro m hm hml
      rw [v2]
      by_cases hmn : m = n
      · subst hmn
        have he : x.isEmpty e.cfg = false := by
          cases hh : x.isEmpty e.cfg with
          | false => rfl
          | true => rw [d2, if_pos ⟨rfl, hh⟩] at hm; simp at hm
        rcases (isEmpty_iff hi hx).1 he with h | ⟨k, h5, h6, h7⟩
        · exact .inl h
        · exact .inr ⟨⟨k, h5, h6, by rw [keep' he]; exact h7⟩, hpw.1⟩
      · rw [keep m hmn] at hm
        rcases hinv m hm (by simp [hmn, hml]) with h | ⟨⟨k, h5, h6, h7⟩, h8⟩
        · exact .inl h
        · refine .inr ⟨⟨k, h5, h6, ?_⟩, fun a ha => h8 a (by simp [ha])⟩
          rw [keep]
          · exact h7
          · rintro rfl
            have h9 := h8 k (by simp)
            have h10 := congrArg List.length h6
            have := List.length_pos_iff.2 h5
            simp at h10; omega)
    exact ⟨t', by rw [eraseAll, h2']; exact h3, h4⟩

theorem cleanup_ok (hi : TreeInv e.cfg s.nt) (f : FaceId) : ∃ s', cleanup e s f = some s' := by
  unfold cleanup
  obtain ⟨t1, h1⟩ := forEach_ok (f := cleanTbl f) (allNodes e s.nt) hi (fun n hn => (mem_allNodes hi).1 hn)
  obtain ⟨i1, -, d1⟩ := fwd_forEach _ hi (allNodes_nodup hi) h1
  simp only [h1, Option.bind_eq_bind, Option.bind_some]
  obtain ⟨hp, hperm⟩ := lenFold ((allNodes e s.nt).filter (fun n => !((tblOf e.cfg t1 n).getD {}).has)) [] List.Pairwise.nil
  rw [List.append_nil] at hperm
  obtain ⟨t2, h2, h3⟩ := eraseAll_ok _ i1 (hperm.nodup_iff.2 (List.Nodup.sublist List.filter_sublist (allNodes_nodup hi))) hp
    (fun n hn => by
      have := hperm.mem_iff.1 hn
      rw [List.mem_filter, mem_allNodes hi] at this
      rw [d1]; exact this.1)
    (fun n hn hnl => by
      left
      intro hv
      apply hnl
      rw [hperm.mem_iff, List.mem_filter, mem_allNodes hi]
      rw [d1] at hn
      refine ⟨hn, ?_⟩
      have : (tblOf e.cfg t1 n).getD {} = {} := hv
      rw [this]; rfl)
  rw [h2]
  simp only [Option.bind_some]
  have i2 := (fwd_eraseAll _ i1 h2).1
  rw [if_neg]
  · exact ⟨_, rfl⟩
  · intro hany
    obtain ⟨n, hn, hh⟩ := List.any_eq_true.1 hany
    obtain ⟨x, hx, he⟩ := Option.any_eq_true .. |>.1 hh
    have := (isEmpty_iff i2 hx).2 (h3 n ((mem_allNodes i2).1 hn))
    rw [this] at he
    simp at he

end Verif.Tb
