import Verif.Rib.Eff

/-
Registration brings the FIB to what the new routes call for.
-/
namespace Verif.Rib

open Spec (own ownInherit captures inheritedFrom view)

theorem Eff.fib1 (b : Rib) (n : Name) (g : Nat) (c : Option Nat) :
    Eff b n [.fib n g c] (fun _ => none) (fun _ => false) (fun f => if g = f then some c else none) := by
  refine Eff.selfOnly (fun m f hm => ?_) (fun f => ?_)
  · simp [lastFib, last, hitFib, Ne.symm hm]
  · simp [lastFib, last, hitFib]

theorem Eff.addName (b : Rib) (n : Name) {s : List Route} (hs : Uniq s) (r : Route) :
    Eff b n (addInheritedName n s r) (fun _ => none) (fun _ => false)
      (fun f => if f = r.face then none else (rsFind s f).map (fun x => some x.cost)) := by
  have hl := fun m f => lastFib_adds hs n m f (fun g => g != r.face)
  refine Eff.selfOnly (fun m f hm => ?_) (fun f => ?_)
  · exact (hl m f).trans (if_neg (fun hc => hm hc.1.symm))
  · refine (hl n f).trans ?_
    by_cases hf : f = r.face
    · simp [hf]
    · simp [hf]

theorem Eff.addInh (b : Rib) {n : Name} {e : Entry} (hn : e.name = n) {s : List Route} (hs : Uniq s) :
    Eff b n (addInherited e s) (fun _ => none) (fun _ => false)
      (fun f => if e.hasFace f then none else (rsFind s f).map (fun x => some x.cost)) := by
  have hl := fun m f => lastFib_adds hs e.name m f (fun g => !e.hasFace g)
  rw [hn] at hl
  refine Eff.selfOnly (fun m f hm => ?_) (fun f => ?_)
  · unfold addInherited
    rw [hn]
    exact (hl m f).trans (if_neg (fun hc => hm hc.1.symm))
  · unfold addInherited
    rw [hn]
    refine (hl n f).trans ?_
    cases e.hasFace f <;> simp

theorem Eff.removeInh (b : Rib) {n : Name} {e : Entry} (hn : e.name = n) (s : List Route) :
    Eff b n (removeInherited e s) (fun _ => none) (fun _ => false)
      (fun f => if e.hasInherited f ∧ (rsFind s f).isSome then some none else none) := by
  have hl := fun m f => lastFib_removes s e.name m f (fun g => e.hasInherited g)
  rw [hn] at hl
  refine Eff.selfOnly (fun m f hm => ?_) (fun f => ?_)
  · unfold removeInherited
    rw [hn]
    exact (hl m f).trans (if_neg (fun hc => hm hc.1.symm))
  · unfold removeInherited
    rw [hn]
    refine (hl n f).trans ?_
    simp

theorem Eff.add1 (b : Rib) (n : Name) (a : Route) :
    Eff b n (emitAdd n a) (fun _ => none) (fun _ => false) (fun f => if a.face = f then some (some a.cost) else none) := by
  refine Eff.selfOnly (fun m f hm => ?_) (fun f => ?_)
  · rw [lastFib_emitAdd, if_neg (fun hc => hm hc.1.symm)]
  · rw [lastFib_emitAdd]; simp

theorem uniq_singleton (r : Route) : Uniq [r] := List.pairwise_singleton _ _

theorem rsFind_singleton (r : Route) (f : Nat) : rsFind [r] f = if r.face = f then some r else none := by
  rw [rsFind_cons]; rfl

theorem rsFind_nil (f : Nat) : rsFind [] f = none := rfl

theorem rsFind_rsErase (s : List Route) (g f : Nat) : rsFind (rsErase s g) f = if f = g then none else rsFind s f := by
  unfold rsErase
  rw [rsFind_filter (p := fun x => x != g)]
  by_cases h : f = g <;> simp [h]

/-! ### A new name -/

theorem own_single (r : Route) (f : Nat) : own [r] f = if r.face = f then some r.cost else none := by
  unfold own
  by_cases h : r.face = f
  · simp [h, Spec.minCost]
  · have : (r.face == f) = false := by simpa using h
    simp [h, Spec.minCost]

theorem ownInherit_single (r : Route) (f : Nat) : ownInherit [r] f = if r.face = f ∧ r.ci = true then some r.cost else none := by
  unfold ownInherit
  by_cases h : r.face = f
  · cases hc : r.ci <;> simp [h, hc, Spec.minCost]
  · have : (r.face == f) = false := by simpa using h
    simp [h, Spec.minCost]

theorem captures_single (r : Route) : captures [r] = r.capture := by
  unfold captures
  simp

theorem view_single {R : Name → List Route} {n : Name} {r : Route} (h : R n = [r]) (f : Nat) :
    view R n f = if r.face = f then some r.cost else if r.capture then none else inh R n f := by
  unfold view
  rw [h, own_single, captures_single]
  simp only [List.cons_ne_nil, if_false]
  by_cases hf : r.face = f
  · rw [if_pos hf, if_pos hf]
  · rw [if_neg hf, if_neg hf]

theorem pass_single {R : Name → List Route} {n : Name} {r : Route} (h : R n = [r]) (f : Nat) :
    pass R n f = if r.face = f ∧ r.ci = true then some r.cost else if r.capture then none else inh R n f := by
  unfold pass
  rw [h, ownInherit_single, captures_single]
  by_cases hf : r.face = f ∧ r.ci = true
  · rw [if_pos hf, if_pos hf]
  · rw [if_neg hf, if_neg hf]

theorem pass_nil {R : Name → List Route} {n : Name} (h : R n = []) (f : Nat) : pass R n f = inh R n f := by
  unfold pass
  rw [h]
  rfl

theorem newEntry_correct {k : Nat} {b : Rib} (h : Good k b) {n : Name} {r : Route} (hn : get b.table n = none) {R' : Name → List Route}
    (hR : ∀ x, x ≠ n → R' x = b.routes x) (hRn : R' n = [r]) :
    Correct b R' (forNewEntry b.table n r (((descendantsNonInserted b.table n).filter (fun d => d.parent == parentOf b.table n)).map (·.name))) := by
  have hC := nonInserted_children h.rinv.tree hn
  have hR0 := routes_none hn
  have hanc := ancestors_find h.rinv h.cap h.reg.cost n
  have hsort := ancestors_sorted b.table (parentOf b.table n)
  have hu := hsort.uniq
  have hinh : ∀ f, inh R' n f = inh b.routes n f := fun f => inh_same hR
  -- what it does
  have key : ∃ A D S, Eff b n (forNewEntry b.table n r (((descendantsNonInserted b.table n).filter (fun d => d.parent == parentOf b.table n)).map (·.name))) A D S ∧
      PassOk b.routes R' n A D ∧ ∀ f, (S f).getD (view b.routes n f) = view R' n f := by
    have hv0 : ∀ f, view b.routes n f = none := fun f => view_nil hR0
    unfold forNewEntry
    dsimp only
    change ∃ A D S, Eff b n (.fib n r.face (some r.cost) ::
      if (!r.ci && !r.capture) = true then addInheritedName n (ancestors b.table (parentOf b.table n)) r
      else if (r.ci && r.capture) = true then modifyChildren b.table (((descendantsNonInserted b.table n).filter (fun d => d.parent == parentOf b.table n)).map (·.name)) [r] (ancestors b.table (parentOf b.table n))
      else if r.ci = true then addInheritedName n (ancestors b.table (parentOf b.table n)) r ++ modifyChildren b.table (((descendantsNonInserted b.table n).filter (fun d => d.parent == parentOf b.table n)).map (·.name)) (rsInsert r (rsErase (ancestors b.table (parentOf b.table n)) r.face)) []
      else modifyChildren b.table (((descendantsNonInserted b.table n).filter (fun d => d.parent == parentOf b.table n)).map (·.name)) [] (ancestors b.table (parentOf b.table n))) A D S ∧ _
    generalize hanc' : ancestors b.table (parentOf b.table n) = anc at *
    cases hci : r.ci with
    | false =>
      cases hcap : r.capture with
      | false =>
        simp only [Bool.not_false, Bool.and_self, if_true]
        refine ⟨_, _, _, Eff.before (E1 := [_]) (Eff.fib1 b n _ _) (Eff.addName b n hu r), ⟨?_, ?_, ?_, ?_⟩, fun f => ?_⟩
        · intro f c hc; cases hc
        · intro f hc; cases hc
        · intro f _ hc; cases hc
        · intro f _ _
          rw [pass_single hRn, pass_nil hR0, hci, hcap, hinh]
          simp
        · rw [view_single hRn, hcap, hv0, hinh, ← hanc]
          by_cases hf : r.face = f
          · rw [if_pos hf, if_pos hf.symm, if_pos hf]; rfl
          · rw [if_neg hf, if_neg (Ne.symm hf), if_neg hf]
            cases rsFind anc f <;> rfl
      | true =>
        simp only [Bool.not_false, Bool.not_true, Bool.and_false, Bool.false_eq_true, if_false, Bool.and_true]
        refine ⟨_, _, _, Eff.before (E1 := [_]) (Eff.fib1 b n _ _) (Eff.mod h hC List.Pairwise.nil _), ⟨?_, ?_, ?_, ?_⟩, fun f => ?_⟩
        · intro f c hc; cases hc
        · intro f hc
          right
          rw [hR0]
          refine ⟨rfl, ?_⟩
          rw [← hanc]
          intro hn
          rw [Option.map_eq_none_iff] at hn
          rw [hn] at hc
          cases hc
        · intro f _ _
          rw [pass_single hRn, hci, hcap]
          simp
        · intro f _ hc
          rw [pass_single hRn, pass_nil hR0, hci, hcap, ← hanc]
          have : rsFind anc f = none := by
            cases hq : rsFind anc f with
            | none => rfl
            | some x => rw [hq] at hc; cases hc
          rw [this]
          simp
        · rw [view_single hRn, hcap, hv0]
          by_cases hf : r.face = f
          · rw [if_pos hf, if_pos hf]; rfl
          · rw [if_neg hf, if_neg hf]; rfl
    | true =>
      cases hcap : r.capture with
      | false =>
        simp only [Bool.not_false, Bool.not_true, Bool.false_and, Bool.and_false, Bool.false_eq_true, if_false, if_true]
        have hs2 : FSorted (rsErase anc r.face) := List.Pairwise.filter _ hsort
        refine ⟨_, _, _, Eff.before (E1 := [_]) (Eff.fib1 b n _ _) (Eff.before (Eff.addName b n hu r) (Eff.mod h hC (FSorted.rsInsert hs2).uniq _)),
          ⟨?_, ?_, ?_, ?_⟩, fun f => ?_⟩
        · intro f c hc
          rw [rsFind_rsInsert hs2, rsFind_rsErase] at hc
          rw [pass_single hRn, hci, hcap, hinh, ← hanc]
          by_cases hf : r.face = f
          · rw [if_pos hf, if_pos hf.symm] at hc
            rw [if_pos ⟨hf, rfl⟩]
            exact hc
          · rw [if_neg hf, if_neg (Ne.symm hf), Option.or_none] at hc
            rw [if_neg (fun hc => hf hc.1)]
            exact hc
        · intro f hc; cases hc
        · intro f _ hc; cases hc
        · intro f hc _
          rw [rsFind_rsInsert hs2, rsFind_rsErase] at hc
          by_cases hf : r.face = f
          · rw [if_pos hf, if_pos hf.symm] at hc
            cases hc
          · rw [pass_single hRn, hci, hcap, pass_nil hR0, if_neg (fun hc => hf hc.1), hinh]
            rfl
        · rw [view_single hRn, hcap, hv0, hinh, ← hanc]
          by_cases hf : r.face = f
          · rw [if_pos hf, if_pos hf.symm, if_pos hf]; rfl
          · rw [if_neg hf, if_neg (Ne.symm hf), if_neg hf]
            cases rsFind anc f <;> rfl
      | true =>
        simp only [Bool.not_true, Bool.and_self, Bool.false_eq_true, if_false, if_true]
        refine ⟨_, _, _, Eff.before (E1 := [_]) (Eff.fib1 b n _ _) (Eff.mod h hC (uniq_singleton r) _), ⟨?_, ?_, ?_, ?_⟩, fun f => ?_⟩
        · intro f c hc
          rw [rsFind_singleton] at hc
          by_cases hf : r.face = f
          · rw [if_pos hf] at hc
            rw [pass_single hRn, hci, if_pos ⟨hf, rfl⟩]
            exact hc
          · rw [if_neg hf] at hc; cases hc
        · intro f hc
          right
          rw [hR0]
          refine ⟨rfl, ?_⟩
          rw [← hanc]
          intro hn
          rw [Option.map_eq_none_iff] at hn
          rw [hn] at hc
          cases hc
        · intro f hc _
          rw [rsFind_singleton] at hc
          by_cases hf : r.face = f
          · rw [if_pos hf] at hc; cases hc
          · rw [pass_single hRn, hcap, if_neg (fun hc => hf hc.1)]; rfl
        · intro f hc hd
          rw [rsFind_singleton] at hc
          by_cases hf : r.face = f
          · rw [if_pos hf] at hc; cases hc
          · rw [pass_single hRn, hcap, if_neg (fun hc => hf hc.1), pass_nil hR0, ← hanc]
            have : rsFind anc f = none := by
              cases hq : rsFind anc f with
              | none => rfl
              | some x => rw [hq] at hd; cases hd
            rw [this]
            rfl
        · rw [view_single hRn, hcap, hv0]
          by_cases hf : r.face = f
          · rw [if_pos hf, if_pos hf]; rfl
          · rw [if_neg hf, if_neg hf]; rfl
  obtain ⟨A, D, S, hE, hP, hS⟩ := key
  have hfib := hE.correct h hR (fun _ => hP) hS
  refine ⟨hfib, fun m f h1 h2 h3 => ?_⟩
  by_cases hmf : n = m ∧ r.face = f
  · rw [← hmf.1, hRn, ← hmf.2, own_single, if_pos rfl] at h2
    cases h2
  · refine inhOk_at h ?_ (hfib m f) ?_ h3
    · unfold forNewEntry
      dsimp only
      refine PairedAt.append (a := [_]) (PairedAt.fib hmf) ?_
      have : Paired (if (!r.ci && !r.capture) = true then addInheritedName n (ancestors b.table ((findParent b.table n).map (·.name))) r
        else if (r.ci && r.capture) = true then modifyChildren b.table (((descendantsNonInserted b.table n).filter (fun d => d.parent == parentOf b.table n)).map (·.name)) [r] (ancestors b.table ((findParent b.table n).map (·.name)))
        else if r.ci = true then addInheritedName n (ancestors b.table ((findParent b.table n).map (·.name))) r ++ modifyChildren b.table (((descendantsNonInserted b.table n).filter (fun d => d.parent == parentOf b.table n)).map (·.name)) (rsInsert r (rsErase (ancestors b.table ((findParent b.table n).map (·.name))) r.face)) []
        else modifyChildren b.table (((descendantsNonInserted b.table n).filter (fun d => d.parent == parentOf b.table n)).map (·.name)) [] (ancestors b.table ((findParent b.table n).map (·.name)))) := by
        refine Paired.ite (addInheritedName_paired _ _ _) (Paired.ite (modifyChildren_paired _ _ _ _) (Paired.ite ?_ (modifyChildren_paired _ _ _ _)))
        exact (addInheritedName_paired _ _ _).append (modifyChildren_paired _ _ _ _)
      exact this m f
    · by_cases hm : m = n
      · rw [hm, hR0]; rfl
      · rw [← hR m hm]; exact h2

/-! ### A new route of a known name -/

theorem Eff.newRoute {k : Nat} {b : Rib} (h : Good k b) {n : Name} {e : Entry} (hn : e.name = n) (hC : IsChildren b.table n e.children) (r : Route) (c : Bool) :
    Eff b n (forNewRoute b.table e r c)
      (fun f => if r.face = f ∧ r.ci = true ∧ (ownInherit e.routes r.face).all (fun x => decide (r.cost ≤ x)) = true then some r.cost else none)
      (fun f => c && (rsFind (ancestors b.table e.parent) f).isSome)
      (fun f => if r.face = f ∧ (own e.routes r.face).all (fun x => decide (r.cost ≤ x)) = true then some (some r.cost)
        else if c = true ∧ e.hasInherited f = true ∧ (rsFind (ancestors b.table e.parent) f).isSome = true then some none else none) := by
  unfold forNewRoute
  dsimp only
  have h1 : (e.lowestCI r.face).all (fun p => decide (r.cost ≤ p.cost)) = (ownInherit e.routes r.face).all (fun x => decide (r.cost ≤ x)) := by
    rw [← lowestCI_eq]
    cases e.lowestCI r.face <;> rfl
  have h2 : (e.lowestCost r.face).all (fun p => decide (r.cost ≤ p.cost)) = (own e.routes r.face).all (fun x => decide (r.cost ≤ x)) := by
    rw [← lowestCost_eq]
    cases e.lowestCost r.face <;> rfl
  rw [h1, h2]
  have hu : Uniq (if (r.ci && (ownInherit e.routes r.face).all (fun x => decide (r.cost ≤ x))) = true then [r] else []) := by
    split
    · exact uniq_singleton r
    · exact List.Pairwise.nil
  have hfin : Eff b n (if (own e.routes r.face).all (fun x => decide (r.cost ≤ x)) = true then [Emit.fib e.name r.face (some r.cost)] else [])
      (fun _ => none) (fun _ => false) (fun f => if r.face = f ∧ (own e.routes r.face).all (fun x => decide (r.cost ≤ x)) = true then some (some r.cost) else none) := by
    by_cases hc : (own e.routes r.face).all (fun x => decide (r.cost ≤ x)) = true
    · rw [if_pos hc, hn]
      refine (Eff.fib1 b n _ _).congr (fun _ => rfl) (fun _ => rfl) (fun f => ?_)
      simp [hc]
    · rw [if_neg hc]
      refine (Eff.nil b n).congr (fun _ => rfl) (fun _ => rfl) (fun f => ?_)
      rw [if_neg (fun h => hc h.2)]
  refine (((Eff.removeInh b hn _).before (Eff.mod h hC hu _)).adds hfin).congr (fun f => ?_) (fun f => ?_) (fun f => ?_)
  · rw [Option.none_or]
    by_cases hc : (r.ci && (ownInherit e.routes r.face).all (fun x => decide (r.cost ≤ x))) = true
    · rw [if_pos hc, rsFind_singleton]
      simp only [Bool.and_eq_true] at hc
      by_cases hf : r.face = f
      · rw [if_pos hf, if_pos ⟨hf, hc⟩]; rfl
      · rw [if_neg hf, if_neg (fun h => hf h.1)]; rfl
    · rw [if_neg hc, if_neg]
      · rfl
      · rintro ⟨_, h1, h2⟩
        exact hc (by simp [h1, h2])
  · cases c <;> simp [rsFind_nil]
  · cases c with
    | false =>
      simp only [Bool.false_eq_true, if_false, rsFind_nil, Option.isSome_none, and_false, false_and, Option.or_none]
    | true =>
      simp only [if_true, true_and, Option.none_or]
      split <;> rfl

theorem setRoute_new {l : List Route} {r : Route} (h : ∀ x ∈ l, x.same r = false) : Spec.setRoute l r = l ++ [r] := by
  unfold Spec.setRoute
  rw [if_neg]
  rw [List.any_eq_true]
  rintro ⟨x, hx, hc⟩
  have := h x hx
  unfold Route.same at this
  rw [hc] at this
  cases this

theorem own_append (l : List Route) (r : Route) (f : Nat) :
    own (l ++ [r]) f = if r.face = f ∧ (own l f).all (fun x => decide (r.cost ≤ x)) = true then some r.cost else own l f := by
  by_cases hf : r.face = f
  · cases ho : own l f with
    | none =>
      rw [if_pos ⟨hf, rfl⟩, own_eq]
      refine minBy_const ⟨r, by simp, by simpa using hf⟩ (fun x hx hp => ?_)
      rcases List.mem_append.1 hx with hx | hx
      · exact absurd (by simpa using hp) (own_none.1 ho x hx)
      · rw [List.mem_singleton.1 hx]
    | some c =>
      rw [own_eq, minBy_some] at ho
      obtain ⟨⟨y, hy, hyp, hyc⟩, hall⟩ := ho
      by_cases hc : r.cost ≤ c
      · rw [if_pos ⟨hf, by simpa using hc⟩, own_eq, minBy_some]
        refine ⟨⟨r, by simp, by simpa using hf, rfl⟩, fun x hx hp => ?_⟩
        rcases List.mem_append.1 hx with hx | hx
        · exact Nat.le_trans hc (hall x hx hp)
        · rw [List.mem_singleton.1 hx]; exact Nat.le_refl _
      · rw [if_neg (fun h => hc (by simpa using h.2)), own_eq, minBy_some]
        refine ⟨⟨y, by simp [hy], hyp, hyc⟩, fun x hx hp => ?_⟩
        rcases List.mem_append.1 hx with hx | hx
        · exact hall x hx hp
        · rw [List.mem_singleton.1 hx]; omega
  · rw [if_neg (fun h => hf h.1), own_eq, own_eq]
    refine minBy_congr (fun x hp => ?_)
    simp only [List.mem_append, List.mem_singleton]
    constructor
    · rintro (h | h)
      · exact h
      · rw [h] at hp
        exact absurd (by simpa using hp) hf
    · exact .inl

theorem ownInherit_append_ne (l : List Route) (r : Route) (f : Nat) (h : ¬ (r.face = f ∧ r.ci = true)) : ownInherit (l ++ [r]) f = ownInherit l f := by
  rw [ownInherit_eq, ownInherit_eq]
  refine minBy_congr (fun x hp => ?_)
  simp only [List.mem_append, List.mem_singleton]
  constructor
  · rintro (h' | h')
    · exact h'
    · rw [h'] at hp
      exact absurd (by simpa using hp) h
  · exact .inl

theorem captures_append (l : List Route) (r : Route) : captures (l ++ [r]) = (captures l || r.capture) := by
  unfold captures
  simp

theorem view_of {R : Name → List Route} {n : Name} (h : R n ≠ []) (f : Nat) :
    view R n f = (own (R n) f).or (if captures (R n) then none else inh R n f) := by
  unfold view
  rw [if_neg h]
  cases own (R n) f <;> rfl

theorem pass_of (R : Name → List Route) (n : Name) (f : Nat) :
    pass R n f = (ownInherit (R n) f).or (if captures (R n) then none else inh R n f) := by
  unfold pass
  cases ownInherit (R n) f <;> rfl

theorem newRoute_correct {k : Nat} {b : Rib} (h : Good k b) {n : Name} {e : Entry} {r : Route} (hg : get b.table n = some e) (hf : e.findRoute r = none)
    {R' : Name → List Route} (hR : ∀ x, x ≠ n → R' x = b.routes x) (hRn : R' n = Spec.setRoute (b.routes n) r) (hreg : Regular R')
    (hb : BenignRegister b.routes n r) :
    Correct b R' (forNewRoute b.table e r (!e.hasCapture && r.capture)) := by
  have hname := get_name hg
  have hre := routes_get hg
  have hne := h.rinv.nonempty n e hg
  have hC := h.rinv.tree.isChildren hg
  have hpar := h.rinv.tree.parent n e hg
  have hcapt := hasCapture_of_count (h.cap n e hg)
  have hnew : ∀ x ∈ e.routes, x.same r = false := fun x hx => Bool.eq_false_iff.2 (List.find?_eq_none.1 hf x hx)
  rw [hre, setRoute_new hnew] at hRn
  have hanc := ancestors_find h.rinv h.cap h.reg.cost n
  have hinh : ∀ f, inh R' n f = inh b.routes n f := fun f => inh_same hR
  have hE := Eff.newRoute h hname hC r (!e.hasCapture && r.capture)
  rw [hpar, hcapt] at hE
  rw [hcapt]
  -- a first capture route
  have hfirst : captures e.routes = false → r.capture = true → ∀ f, inh b.routes n f = none ∨ own e.routes f = none := by
    intro h1 h2
    have := hb.first
    rw [hre] at this
    exact this hnew hne h1 h2
  have hcost : r.ci = true → (ownInherit e.routes r.face).all (fun x => decide (r.cost ≤ x)) = true ∧ ownInherit (e.routes ++ [r]) r.face = some r.cost := by
    intro hci
    have hc := hreg.cost n
    rw [hRn] at hc
    constructor
    · cases ho : ownInherit e.routes r.face with
      | none => rfl
      | some c =>
        rw [ownInherit_eq, minBy_some] at ho
        obtain ⟨⟨y, hy, hyp, hyc⟩, _⟩ := ho
        simp only [Bool.and_eq_true, beq_iff_eq] at hyp
        have := hc y r (by simp [hy]) (by simp) hyp.1 hyp.2 hci
        simp only [Option.all_some, decide_eq_true_eq]
        omega
    · rw [ownInherit_eq]
      refine minBy_const ⟨r, by simp, by simp [hci]⟩ (fun x hx hp => ?_)
      simp only [Bool.and_eq_true, beq_iff_eq] at hp
      exact hc x r hx (by simp) hp.1 hp.2 hci
  have hancf : ∀ f, (rsFind (ancestors b.table (parentOf b.table n)) f).isSome = (inh b.routes n f).isSome := by
    intro f
    rw [← hanc, Option.isSome_map]
  have hP : PassOk b.routes R' n
      (fun f => if r.face = f ∧ r.ci = true ∧ (ownInherit e.routes r.face).all (fun x => decide (r.cost ≤ x)) = true then some r.cost else none)
      (fun f => (!captures e.routes && r.capture) && (rsFind (ancestors b.table (parentOf b.table n)) f).isSome) := by
    have hA : ∀ f, (if r.face = f ∧ r.ci = true ∧ (ownInherit e.routes r.face).all (fun x => decide (r.cost ≤ x)) = true then some r.cost else none) = none →
        ¬ (r.face = f ∧ r.ci = true) := by
      intro f hc hcon
      rw [if_pos ⟨hcon.1, hcon.2, (hcost hcon.2).1⟩] at hc
      cases hc
    refine ⟨fun f c hc => ?_, fun f hd => ?_, fun f ha hd => ?_, fun f ha hd => ?_⟩
    · by_cases hcon : r.face = f ∧ r.ci = true
      · rw [if_pos ⟨hcon.1, hcon.2, (hcost hcon.2).1⟩] at hc
        rw [pass_of, hRn, ← hcon.1, (hcost hcon.2).2]
        exact hc
      · rw [if_neg (fun h => hcon ⟨h.1, h.2.1⟩)] at hc
        cases hc
    · simp only [Bool.and_eq_true, Bool.not_eq_true'] at hd
      right
      rw [hre]
      refine ⟨hd.1.1, fun hn => ?_⟩
      rw [hancf, hn] at hd
      cases hd.2
    · simp only [Bool.and_eq_true, Bool.not_eq_true'] at hd
      rw [pass_of, hRn, ownInherit_append_ne _ _ _ (hA f ha), captures_append, hd.1.2]
      rcases hfirst hd.1.1 hd.1.2 f with hi | ho
      · rw [hancf, hi] at hd
        cases hd.2
      · rw [own_none_inherit ho]
        simp
    · rw [pass_of, pass_of, hRn, ownInherit_append_ne _ _ _ (hA f ha), captures_append, hre, hinh]
      congr 1
      cases hc1 : captures e.routes with
      | true => simp
      | false =>
        cases hc2 : r.capture with
        | false => simp
        | true =>
          rw [hc1, hc2, hancf] at hd
          simp only [Bool.not_false, Bool.and_self, Bool.true_and] at hd
          cases hi : inh b.routes n f with
          | none => simp
          | some c => rw [hi] at hd; cases hd
  have hS : ∀ f, (if r.face = f ∧ (own e.routes r.face).all (fun x => decide (r.cost ≤ x)) = true then some (some r.cost)
        else if (!captures e.routes && r.capture) = true ∧ e.hasInherited f = true ∧ (rsFind (ancestors b.table (parentOf b.table n)) f).isSome = true then some none
        else none).getD (view b.routes n f) = view R' n f := by
    intro f
    rw [view_of (R := R') (by rw [hRn]; simp), hRn, own_append, captures_append]
    by_cases hc : r.face = f ∧ (own e.routes f).all (fun x => decide (r.cost ≤ x)) = true
    · rw [if_pos hc, if_pos (by rw [hc.1]; exact ⟨rfl, hc.2⟩)]; rfl
    · rw [if_neg hc, if_neg (by rintro ⟨h1, h2⟩; rw [h1] at h2; exact hc ⟨h1, h2⟩), hinh]
      rw [view_of (R := b.routes) (by rw [hre]; exact hne), hre]
      cases hc1 : captures e.routes with
      | true => simp
      | false =>
        cases hc2 : r.capture with
        | false => simp
        | true =>
          simp only [Bool.not_false, Bool.and_self, true_and, Bool.false_eq_true, if_false, Bool.or_true, if_true, Option.or_none]
          rw [hancf]
          rcases hfirst hc1 hc2 f with hi | ho
          · rw [hi]; simp
          · rw [ho]
            simp only [Option.none_or]
            by_cases hi : e.hasInherited f = true
            · cases hv : inh b.routes n f with
              | none => simp
              | some c => simp [hi]
            · rw [if_neg (fun h => hi h.1)]
              show inh b.routes n f = none
              apply Decidable.byContradiction
              intro hv
              refine hi (h.inhr n e f hg ho ?_)
              rw [view_of (R := b.routes) (by rw [hre]; exact hne), hre, ho, hc1]
              exact hv
  have hfib := hE.correct h hR (fun _ => hP) hS
  refine ⟨hfib, fun m f h1 h2 h3 => ?_⟩
  have hmf : ¬ (n = m ∧ r.face = f) := by
    rintro ⟨rfl, rfl⟩
    rw [hRn, own_none] at h2
    exact h2 r (by simp) rfl
  refine inhOk_at h ?_ (hfib m f) ?_ h3
  · unfold forNewRoute
    dsimp only
    refine PairedAt.append (PairedAt.append (removeInherited_paired _ _ m f) (modifyChildren_paired _ _ _ _ m f)) ?_
    split
    · rw [hname]; exact PairedAt.fib hmf
    · rfl
  · by_cases hm : m = n
    · subst hm
      rw [hRn, own_none] at h2
      rw [hre, own_none]
      exact fun x hx => h2 x (by simp [hx])
    · rw [← hR m hm]; exact h2

end Verif.Rib
