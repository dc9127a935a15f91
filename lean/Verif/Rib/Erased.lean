import Verif.Rib.Updated

/-
Unregistration brings the FIB to what the remaining routes call for.
-/
namespace Verif.Rib

open Spec (own ownInherit captures inheritedFrom view)

theorem ite_iff {α : Type} {P Q : Prop} [Decidable P] [Decidable Q] (h : P ↔ Q) (a b : α) : (if P then a else b) = if Q then a else b := by
  by_cases hP : P
  · rw [if_pos hP, if_pos (h.1 hP)]
  · rw [if_neg hP, if_neg (fun hq => hP (h.2 hq))]

theorem countP_eraseP {l : List Route} {r old : Route} (h : l.find? (·.same r) = some old) :
    l.countP (·.capture) = (l.eraseP (·.same r)).countP (·.capture) + if old.capture then 1 else 0 := by
  induction l with
  | nil => cases h
  | cons x l ih =>
    by_cases hx : x.same r = true
    · rw [List.find?_cons_of_pos (p := fun y : Route => y.same r) hx] at h
      rw [List.eraseP_cons_of_pos (p := fun y : Route => y.same r) hx, List.countP_cons, Option.some.inj h]
    · rw [List.find?_cons_of_neg (p := fun y : Route => y.same r) hx] at h
      rw [List.eraseP_cons_of_neg (p := fun y : Route => y.same r) hx, List.countP_cons, List.countP_cons, ih h]
      omega

theorem erase_count {k : Nat} (hk : k < W) {e : Entry} {r old : Route} (hc : e.nCapture = e.routes.countP (·.capture)) (hl : e.routes.length ≤ k)
    (hf : e.findRoute r = some old) :
    (if old.capture then (e.nCapture + (W - 1)) % W else e.nCapture) = (e.routes.eraseP (·.same r)).countP (·.capture) := by
  have h1 := countP_eraseP hf
  have h2 := List.countP_le_length (p := (·.capture)) (l := e.routes)
  rw [hc]
  split
  · rename_i ho
    rw [if_pos ho] at h1
    rw [h1, show (e.routes.eraseP (·.same r)).countP (·.capture) + 1 + (W - 1) = (e.routes.eraseP (·.same r)).countP (·.capture) + W from by
      have : 1 ≤ W := by decide
      omega, Nat.add_mod_right, Nat.mod_eq_of_lt (by omega)]
  · rename_i ho
    rw [if_neg ho] at h1
    omega

/-! ### The second lowest cost -/

theorem secondLowest_some {tie : List Route → Nat} {e : Entry} {f : Nat} {x : Route} (h : e.secondLowest tie f = some x) :
    x ∈ e.routes ∧ x.face = f ∧ 2 ≤ (e.routes.filter (·.face == f)).length := by
  unfold Entry.secondLowest at h
  dsimp only at h
  cases h1 : Entry.lowest (e.routes.filter (·.face == f)) with
  | none => rw [h1] at h; cases h
  | some l =>
    rw [h1] at h
    dsimp only at h
    cases h2 : Entry.lowest ((e.routes.filter (·.face == f)).erase l) with
    | none => rw [h2] at h; cases h
    | some y =>
      rw [h2] at h
      dsimp only at h
      have hx := List.mem_of_getElem? h
      have hx := (List.mem_filter.1 hx).1
      have hx' := List.mem_filter.1 hx
      refine ⟨hx'.1, by simpa using hx'.2, ?_⟩
      have hl := (lowest_some h1).1
      have hy := (lowest_some h2).1
      have h3 := List.length_erase_of_mem hl
      have h4 := List.length_pos_of_mem hy
      omega

theorem secondLowest_none {tie : List Route → Nat} {e : Entry} {f : Nat} (h : e.secondLowest tie f = none) :
    (e.routes.filter (·.face == f)).length ≤ 1 := by
  unfold Entry.secondLowest at h
  dsimp only at h
  cases h1 : Entry.lowest (e.routes.filter (·.face == f)) with
  | none =>
    rw [lowest_none] at h1
    rw [h1]; exact Nat.zero_le _
  | some l =>
    rw [h1] at h
    dsimp only at h
    have hl := (lowest_some h1).1
    have h3 := List.length_erase_of_mem hl
    cases h2 : Entry.lowest ((e.routes.filter (·.face == f)).erase l) with
    | none =>
      rw [lowest_none] at h2
      rw [h2] at h3
      have : ([] : List Route).length = 0 := rfl
      omega
    | some y =>
      rw [h2] at h
      dsimp only at h
      exfalso
      have hy := List.mem_of_mem_erase (lowest_some h2).1
      have hm : y ∈ (e.routes.filter (·.face == f)).filter (·.cost == y.cost) := List.mem_filter.2 ⟨hy, by simp⟩
      have hpos := List.length_pos_of_mem hm
      rw [List.getElem?_eq_none_iff] at h
      have := Nat.mod_lt (tie (e.routes.filter (·.face == f))) hpos
      omega

/-- There is another route to the face. -/
theorem others_iff {e : Entry} {r old : Route} (hk : e.routes.Pairwise (fun a c => a.same c = false)) (ho : old ∈ e.routes) (hs : old.same r = true) :
    2 ≤ (e.routes.filter (·.face == r.face)).length ↔ ∃ x ∈ Spec.dropRoute e.routes r, x.face = r.face := by
  have hof := (same_iff.1 hs).1
  have hpf : (e.routes.filter (·.face == r.face)).Pairwise (fun a c => a.same c = false) := List.Pairwise.filter _ hk
  constructor
  · intro hl
    match hm : e.routes.filter (·.face == r.face) with
    | [] => rw [hm] at hl; simp at hl
    | [_] => rw [hm] at hl; simp at hl
    | a :: c :: l =>
      rw [hm] at hpf
      have hac := (List.pairwise_cons.1 hpf).1 c List.mem_cons_self
      have ha : a ∈ e.routes.filter (·.face == r.face) := by rw [hm]; exact List.mem_cons_self
      have hc : c ∈ e.routes.filter (·.face == r.face) := by rw [hm]; exact List.mem_cons_of_mem _ List.mem_cons_self
      have ha' := List.mem_filter.1 ha
      have hc' := List.mem_filter.1 hc
      by_cases has : a.same r = true
      · refine ⟨c, List.mem_filter.2 ⟨hc'.1, ?_⟩, by simpa using hc'.2⟩
        show (!c.same r) = true
        cases hcs : c.same r with
        | false => rfl
        | true =>
          rw [same_trans has (by rw [same_comm]; exact hcs)] at hac
          cases hac
      · refine ⟨a, List.mem_filter.2 ⟨ha'.1, ?_⟩, by simpa using ha'.2⟩
        show (!a.same r) = true
        rw [Bool.eq_false_iff.2 has]; rfl
  · rintro ⟨x, hx, hxf⟩
    obtain ⟨hx1, hx2⟩ := List.mem_filter.1 hx
    have hxs : x.same r = false := by
      have : (!x.same r) = true := hx2
      simpa using this
    have h1 : old ∈ e.routes.filter (·.face == r.face) := List.mem_filter.2 ⟨ho, by simpa using hof⟩
    have h2 : x ∈ e.routes.filter (·.face == r.face) := List.mem_filter.2 ⟨hx1, by simpa using hxf⟩
    match hm : e.routes.filter (·.face == r.face) with
    | [] => rw [hm] at h1; cases h1
    | [a] =>
      rw [hm, List.mem_singleton] at h1 h2
      rw [h2, ← h1, hs] at hxs
      cases hxs
    | a :: c :: l => rw [hm]; simp

/-! ### The parts -/

theorem Eff.erasedChildren {k : Nat} {b : Rib} (h : Good k b) {n : Name} {e : Entry} (hn : e.name = n) (hC : IsChildren b.table n e.children)
    (hu : Uniq (ancestors b.table e.parent)) (old : Route) (co : Bool) :
    Eff b n (forErasedChildren b.table e old co)
      (fun f => if (old.capture = true ∧ co = true ∧ e.routes.isEmpty = false) ∨ (old.ci = true ∧ old.capture = false ∧ e.hasCapture = false)
        then (rsFind (ancestors b.table e.parent) f).map (·.cost) else none)
      (fun f => old.ci && old.face == f)
      (fun f => if old.capture = true ∧ co = true ∧ e.routes.isEmpty = false ∧ e.hasFace f = false
        then (rsFind (ancestors b.table e.parent) f).map (fun x => some x.cost) else none) := by
  have hsf : ∀ f, (rsFind [old] f).isSome = (old.face == f) := by
    intro f
    rw [rsFind_singleton]
    by_cases hf : old.face = f <;> simp [hf]
  have hS : ∀ f, (if e.hasFace f = true then none else (rsFind (ancestors b.table e.parent) f).map (fun x => some x.cost) : Option (Option Nat)) =
      if e.hasFace f = false then (rsFind (ancestors b.table e.parent) f).map (fun x => some x.cost) else none := by
    intro f; cases e.hasFace f <;> rfl
  unfold forErasedChildren
  dsimp only
  cases hci : old.ci <;> cases hcap : old.capture <;> simp only [Bool.and_self, Bool.and_false, Bool.and_true, Bool.false_eq_true, if_false, if_true]
  · refine (Eff.nil b n).congr (fun f => ?_) (fun f => ?_) (fun f => ?_) <;> simp
  · by_cases hc : (co && !e.routes.isEmpty) = true
    · rw [if_pos hc]
      simp only [Bool.and_eq_true, Bool.not_eq_true'] at hc
      refine ((Eff.addInh b hn hu).before (Eff.mod h hC hu [])).congr (fun f => ?_) (fun f => ?_) (fun f => ?_)
      · simp [hc.1, hc.2]
      · simp [rsFind_nil]
      · rw [hS]; simp [hc.1, hc.2]
    · rw [if_neg hc]
      refine (Eff.mod h hC List.Pairwise.nil []).congr (fun f => ?_) (fun f => ?_) (fun f => ?_)
      · cases co <;> cases he : e.routes.isEmpty <;> simp_all [rsFind_nil]
      · simp [rsFind_nil]
      · cases co <;> cases he : e.routes.isEmpty <;> simp_all
  · have hu' : Uniq (if e.hasCapture = true then [] else ancestors b.table e.parent) := by
      split
      · exact List.Pairwise.nil
      · exact hu
    refine (Eff.mod h hC hu' [old]).congr (fun f => ?_) (fun f => ?_) (fun f => ?_)
    · cases hcp : e.hasCapture <;> simp [rsFind_nil]
    · rw [hsf]; simp
    · simp
  · by_cases hc : (co && !e.routes.isEmpty) = true
    · rw [if_pos hc]
      simp only [Bool.and_eq_true, Bool.not_eq_true'] at hc
      refine ((Eff.addInh b hn hu).before (Eff.mod h hC hu [old])).congr (fun f => ?_) (fun f => ?_) (fun f => ?_)
      · simp [hc.1, hc.2]
      · rw [hsf]; simp
      · rw [hS]; simp [hc.1, hc.2]
    · rw [if_neg hc]
      refine (Eff.mod h hC List.Pairwise.nil [old]).congr (fun f => ?_) (fun f => ?_) (fun f => ?_)
      · cases co <;> cases he : e.routes.isEmpty <;> simp_all [rsFind_nil]
      · rw [hsf]; simp
      · cases co <;> cases he : e.routes.isEmpty <;> simp_all

theorem erasedChildren_paired (t : List Entry) (e : Entry) (old : Route) (co : Bool) : Paired (forErasedChildren t e old co) := by
  unfold forErasedChildren
  dsimp only
  refine Paired.ite (Paired.ite ((addInherited_paired _ _).append (modifyChildren_paired _ _ _ _)) (modifyChildren_paired _ _ _ _)) ?_
  refine Paired.ite (modifyChildren_paired _ _ _ _) ?_
  exact Paired.ite (Paired.ite ((addInherited_paired _ _).append (modifyChildren_paired _ _ _ _)) (modifyChildren_paired _ _ _ _)) Paired.nil

theorem lastFib_erasedEntry (e : Entry) (m : Name) (f : Nat) :
    lastFib (forErasedEntry e) m f = if e.name = m ∧ e.hasInherited f = true then some none else none := by
  unfold forErasedEntry Entry.hasInherited
  induction e.inherited with
  | nil => simp [lastFib, last]
  | cons x l ih =>
    rw [List.map_cons, lastFib, last]
    unfold lastFib at ih
    rw [ih, List.any_cons]
    by_cases hm : e.name = m
    · by_cases hx : x.face = f
      · simp [hitFib, hm, hx]
        split <;> rfl
      · have : (x.face == f) = false := by simpa using hx
        simp [hitFib, hm, hx]
    · simp [hitFib, hm]

theorem Eff.erasedEntry (b : Rib) {n : Name} {e : Entry} (hn : e.name = n) :
    Eff b n (forErasedEntry e) (fun _ => none) (fun _ => false) (fun f => if e.hasInherited f = true then some none else none) := by
  refine Eff.selfOnly (fun m f hm => ?_) (fun f => ?_)
  · rw [lastFib_erasedEntry, if_neg (fun hc => hm (hc.1.symm.trans hn))]
  · rw [lastFib_erasedEntry]; simp [hn]

theorem lastInh_erasedEntry (e : Entry) (m : Name) (f : Nat) : lastInh (forErasedEntry e) m f = none := by
  refine last_eq_none (fun x hx => ?_)
  obtain ⟨y, _, rfl⟩ := List.mem_map.1 hx
  rfl

theorem erased_correct {k : Nat} (hk : k < W) {b : Rib} (h : Good k b) (tie : List Route → Nat) {n : Name} {r : Route}
    {R' : Name → List Route} (hR : ∀ x, x ≠ n → R' x = b.routes x) (hRn : R' n = Spec.dropRoute (b.routes n) r) (hb : BenignErase b.routes n r) :
    Correct b R' (forUnregistration tie b.table n r) := by
  unfold forUnregistration
  have htriv : (∀ x ∈ b.routes n, x.same r = false) → Correct b R' [] := by
    intro hno
    rw [dropRoute_not_mem hno] at hRn
    have : R' = b.routes := by
      funext x
      by_cases hx : x = n
      · rw [hx]; exact hRn
      · exact hR x hx
    rw [this]
    refine ⟨fun m f => rfl, fun m f h1 h2 h3 => ?_⟩
    exact inhOk_at h (E := []) rfl rfl h2 h3
  cases hg : get b.table n with
  | none => exact htriv (fun x hx => by rw [routes_none hg] at hx; cases hx)
  | some e =>
    have hre := routes_get hg
    dsimp only
    cases hf : e.findRoute r with
    | none =>
      refine htriv (fun x hx => ?_)
      rw [hre] at hx
      exact Bool.eq_false_iff.2 (List.find?_eq_none.1 hf x hx)
    | some old =>
      dsimp only
      have hname := get_name hg
      have hne := h.rinv.nonempty n e hg
      have hpar := h.rinv.tree.parent n e hg
      have hos := findRoute_same hf
      have hom := findRoute_mem hf
      have hof := (same_iff.1 hos).1
      have huniq := h.rinv.keys n e hg
      have hanc := ancestors_find h.rinv h.cap h.reg.cost n
      have hinh : ∀ f, inh R' n f = inh b.routes n f := fun f => inh_same hR
      have hcapt := hasCapture_of_count (h.cap n e hg)
      have hb1 := hb.others
      have hb2 := hb.replaced
      have hb3 := hb.only
      rw [hre] at hb1 hb2 hb3 hRn
      have hb1 := hb1 old hom hos
      have hb2 := hb2 old hom hos
      have hb3 := hb3 old hom hos
      rw [← hRn] at hb2 hb3
      -- the copy of the entry
      have htemp := eraseRoute_some hf
      obtain ⟨s1, s2, s3, s4⟩ := eraseRoute_same e r
      generalize htm : e.eraseRoute r = temp at *
      have htr : temp.routes = R' n := by
        rw [htemp, hRn]
        exact eraseP_eq_filter huniq
      have htc : temp.hasCapture = captures (R' n) := by
        rw [← htr]
        refine hasCapture_of_count ?_
        rw [htemp]
        exact erase_count hk (h.cap n e hg) (h.rinv.bound n e hg) hf
      have hCt : IsChildren b.table n temp.children := by rw [s3]; exact h.rinv.tree.isChildren hg
      have hnt : temp.name = n := s1.trans hname
      have hpt : temp.parent = parentOf b.table n := s2.trans hpar
      have hsort := ancestors_sorted b.table (parentOf b.table n)
      -- the routes
      have hmem : ∀ x, x ∈ R' n ↔ x ∈ e.routes ∧ x.same r = false := by
        intro x
        rw [hRn]
        unfold Spec.dropRoute
        rw [List.mem_filter]
        show _ ∧ (!x.same r) = true ↔ _
        simp
      have hiff : ∀ x, x.face ≠ r.face → (x ∈ R' n ↔ x ∈ e.routes) := by
        intro x hx
        rw [hmem]
        exact ⟨fun h => h.1, fun h => ⟨h, Bool.eq_false_iff.2 (fun hc => hx (same_iff.1 hc).1)⟩⟩
      have hownf : ∀ f, f ≠ r.face → own (R' n) f = own e.routes f := by
        intro f hff
        rw [own_eq, own_eq]
        refine minBy_congr (fun x hp => hiff x (fun hc => hff ?_))
        have : x.face = f := by simpa using hp
        rw [← this, hc]
      have hoif : ∀ f, f ≠ r.face → ownInherit (R' n) f = ownInherit e.routes f := by
        intro f hff
        rw [ownInherit_eq, ownInherit_eq]
        refine minBy_congr (fun x hp => hiff x (fun hc => hff ?_))
        simp only [Bool.and_eq_true, beq_iff_eq] at hp
        rw [← hp.1, hc]
      have hcapsub : captures (R' n) = true → captures e.routes = true := by
        unfold captures
        rw [List.any_eq_true, List.any_eq_true]
        rintro ⟨x, hx, hc⟩
        exact ⟨x, ((hmem x).1 hx).1, hc⟩
      have hcapold : captures e.routes = true → captures (R' n) = false → old.capture = true := by
        intro h1 h2
        unfold captures at h1
        rw [List.any_eq_true] at h1
        obtain ⟨x, hx, hc⟩ := h1
        rw [captures_false] at h2
        cases hs : x.same r with
        | false =>
          rw [h2 x ((hmem x).2 ⟨hx, hs⟩)] at hc
          cases hc
        | true =>
          rw [← keys_unique huniq hx hom (same_trans hs (by rw [same_comm]; exact hos))]
          exact hc
      have hcapold' : old.capture = true → captures e.routes = true := by
        intro hc
        unfold captures
        rw [List.any_eq_true]
        exact ⟨old, hom, hc⟩
      have holdci : old.ci = false → ownInherit e.routes r.face = none := by
        intro hc
        rw [ownInherit_none]
        intro x hx hxf
        rw [(hb1 x hx hxf).2, hc]
      have hsub : ∀ x ∈ R' n, x.face = r.face → x.cost = old.cost ∧ x.ci = old.ci := fun x hx hxf => hb1 x ((hmem x).1 hx).1 hxf
      have hlen : e.routes.length = 1 ↔ R' n = [] := by
        have h1 : (e.routes.eraseP (·.same r)).length = e.routes.length - 1 := List.length_eraseP_of_mem (p := fun y : Route => y.same r) hom hos
        rw [eraseP_eq_filter huniq, ← hRn] at h1
        have h2 := List.length_pos_of_mem hom
        constructor
        · intro h3
          rw [← List.length_eq_zero_iff]; omega
        · intro h3
          rw [h3] at h1
          have : ([] : List Route).length = 0 := rfl
          omega
      have hemp : temp.routes.isEmpty = decide (R' n = []) := by
        rw [htr]
        cases R' n <;> simp
      -- another route to the face
      let other : Bool := (own (R' n) r.face).isSome
      have hother : other = true ↔ 2 ≤ (e.routes.filter (·.face == r.face)).length := by
        rw [others_iff huniq hom hos, ← hRn]
        show (own (R' n) r.face).isSome = true ↔ _
        cases ho : own (R' n) r.face with
        | none =>
          rw [own_none] at ho
          constructor
          · intro hc; cases hc
          · rintro ⟨x, hx, hxf⟩; exact absurd hxf (ho x hx)
        | some c =>
          rw [own_eq, minBy_some] at ho
          obtain ⟨⟨x, hx, hp, _⟩, _⟩ := ho
          exact ⟨fun _ => ⟨x, hx, by simpa using hp⟩, fun _ => rfl⟩
      have hothero : other = true → own (R' n) r.face = some old.cost := by
        intro ho
        have ho : (own (R' n) r.face).isSome = true := ho
        obtain ⟨c, hc⟩ := Option.isSome_iff_exists.1 ho
        rw [hc]
        rw [own_eq, minBy_some] at hc
        obtain ⟨⟨x, hx, hp, hxc⟩, _⟩ := hc
        rw [← hxc, (hsub x hx (by simpa using hp)).1]
      have hotheri : ownInherit (R' n) r.face = if other = true ∧ old.ci = true then some old.cost else none := by
        by_cases hc : other = true ∧ old.ci = true
        · rw [if_pos hc, ownInherit_eq]
          have ho := hothero hc.1
          rw [own_eq, minBy_some] at ho
          obtain ⟨⟨x, hx, hp, hxc⟩, _⟩ := ho
          have hp : x.face = r.face := by simpa using hp
          refine minBy_const ⟨x, hx, by simp [hp, (hsub x hx hp).2, hc.2]⟩ (fun y hy hyp => ?_)
          simp only [Bool.and_eq_true, beq_iff_eq] at hyp
          exact (hsub y hy hyp.1).1
        · rw [if_neg hc, ownInherit_none]
          intro x hx hxf
          rw [Bool.eq_false_iff]
          intro hxc
          apply hc
          refine ⟨?_, by rw [← (hsub x hx hxf).2]; exact hxc⟩
          show (own (R' n) r.face).isSome = true
          cases ho : own (R' n) r.face with
          | some c => rfl
          | none => exact absurd hxf (own_none.1 ho x hx)
      -- the part for the next route
      have hnext : Eff b n (match e.secondLowest tie r.face with | some next => forNewRoute b.table temp next false | none => [])
          (fun f => if r.face = f ∧ other = true ∧ old.ci = true then some old.cost else none) (fun _ => false)
          (fun f => if r.face = f ∧ other = true then some (some old.cost) else none) := by
        cases hsl : e.secondLowest tie r.face with
        | none =>
          have := secondLowest_none hsl
          have hno : ¬ other = true := fun hc => by have := hother.1 hc; omega
          refine (Eff.nil b n).congr (fun f => ?_) (fun _ => rfl) (fun f => ?_)
          · rw [if_neg (fun hc => hno hc.2.1)]
          · rw [if_neg (fun hc => hno hc.2)]
        | some next =>
          obtain ⟨n1, n2, n3⟩ := secondLowest_some hsl
          have hyes := hother.2 n3
          have hn' := hb1 next n1 n2
          refine (Eff.newRoute h hnt hCt next false).congr (fun f => ?_) (fun f => by simp) (fun f => ?_)
          · rw [n2, hn'.1, hn'.2, htr, hotheri]
            by_cases hc : r.face = f ∧ other = true ∧ old.ci = true
            · rw [if_pos hc, if_pos ⟨hc.1, hc.2.2, by rw [if_pos hc.2]; simp⟩]
            · rw [if_neg hc, if_neg (fun hc' => hc ⟨hc'.1, hyes, hc'.2.1⟩)]
          · rw [n2, hn'.1, htr, hothero hyes]
            simp [hyes]
      have hnextPair : ∀ m f, ¬ (n = m ∧ r.face = f) →
          PairedAt m f (match e.secondLowest tie r.face with | some next => forNewRoute b.table temp next false | none => []) := by
        intro m f hmf
        cases hsl : e.secondLowest tie r.face with
        | none => rfl
        | some next =>
          obtain ⟨n1, n2, n3⟩ := secondLowest_some hsl
          unfold forNewRoute
          dsimp only
          refine PairedAt.append (PairedAt.append (removeInherited_paired _ _ m f) (modifyChildren_paired _ _ _ _ m f)) ?_
          split
          · rw [hnt, n2]; exact PairedAt.fib hmf
          · rfl
      -- the children
      have hco : (e.hasCapture && !temp.hasCapture) = (captures e.routes && !captures (R' n)) := by rw [hcapt, htc]
      have hch := Eff.erasedChildren h hnt hCt (by rw [hpt]; exact hsort.uniq) old (e.hasCapture && !temp.hasCapture)
      -- the part for the name itself
      have htail : Eff b n (if (!temp.hasCapture && !temp.routes.isEmpty) = true then
            match rsFind (ancestors b.table temp.parent) old.face with
            | some a => emitAdd temp.name a
            | none => []
          else []) (fun _ => none) (fun _ => false)
          (fun f => if r.face = f ∧ captures (R' n) = false ∧ R' n ≠ [] then (inh b.routes n r.face).map some else none) := by
        rw [htc, hemp, hpt, hof, hnt]
        by_cases hc : captures (R' n) = false ∧ R' n ≠ []
        · rw [if_pos (by simp [hc.1, hc.2])]
          have ha := hanc r.face
          cases hq : rsFind (ancestors b.table (parentOf b.table n)) r.face with
          | none =>
            rw [hq] at ha
            refine (Eff.nil b n).congr (fun _ => rfl) (fun _ => rfl) (fun f => ?_)
            rw [← ha]
            simp
          | some a =>
            rw [hq] at ha
            refine (Eff.add1 b n a).congr (fun _ => rfl) (fun _ => rfl) (fun f => ?_)
            rw [← ha, rsFind_face hq]
            by_cases hff : r.face = f
            · rw [if_pos hff, if_pos ⟨hff, hc⟩]; rfl
            · rw [if_neg hff, if_neg (fun h => hff h.1)]
        · rw [if_neg (by simpa using hc)]
          refine (Eff.nil b n).congr (fun _ => rfl) (fun _ => rfl) (fun f => ?_)
          rw [if_neg (fun h => hc h.2)]
      have htailPair : Paired (if (!temp.hasCapture && !temp.routes.isEmpty) = true then
            match rsFind (ancestors b.table temp.parent) old.face with
            | some a => emitAdd temp.name a
            | none => []
          else []) := by
        split
        · split
          · exact Paired.emitAdd _ _
          · exact Paired.nil
        · exact Paired.nil
      -- the name disappears
      have hlast : Eff b n (if e.routes.length = 1 then forErasedEntry e else []) (fun _ => none) (fun _ => false)
          (fun f => if R' n = [] ∧ e.hasInherited f = true then some none else none) := by
        by_cases hc : R' n = []
        · rw [if_pos (hlen.2 hc)]
          exact (Eff.erasedEntry b hname).congr (fun _ => rfl) (fun _ => rfl) (fun f => by simp [hc])
        · rw [if_neg (fun hl => hc (hlen.1 hl))]
          exact (Eff.nil b n).congr (fun _ => rfl) (fun _ => rfl) (fun f => by rw [if_neg (fun hx => hc hx.1)])
      have hinhs : ∀ f, (rsFind (ancestors b.table temp.parent) f).map (fun x => some x.cost) = (inh b.routes n f).map some := by
        intro f
        rw [hpt, ← hanc f, Option.map_map]
        rfl
      have hch' : Eff b n (forErasedChildren b.table temp old (e.hasCapture && !temp.hasCapture))
          (fun f => if captures (R' n) = false ∧ ((old.capture = true ∧ R' n ≠ []) ∨ (old.ci = true ∧ old.capture = false)) then inh b.routes n f else none)
          (fun f => old.ci && r.face == f)
          (fun f => if captures (R' n) = false ∧ old.capture = true ∧ R' n ≠ [] ∧ own (R' n) f = none then (inh b.routes n f).map some else none) := by
        refine hch.congr (fun f => ?_) (fun f => by rw [hof]) (fun f => ?_)
        · rw [hpt, hanc f]
          refine ite_iff ?_ _ _
          rw [hco, hemp, htc]
          simp only [Bool.and_eq_true, Bool.not_eq_true', decide_eq_false_iff_not]
          constructor
          · rintro (⟨h1, h2, h3⟩ | ⟨h1, h2, h3⟩)
            · exact ⟨h2.2, .inl ⟨h1, h3⟩⟩
            · exact ⟨h3, .inr ⟨h1, h2⟩⟩
          · rintro ⟨h1, ⟨h2, h3⟩ | ⟨h2, h3⟩⟩
            · exact .inl ⟨h2, ⟨hcapold' h2, h1⟩, h3⟩
            · exact .inr ⟨h2, h3, h1⟩
        · rw [hinhs f]
          refine ite_iff ?_ _ _
          rw [hco, hemp, hasFace_iff, htr]
          simp only [Bool.and_eq_true, Bool.not_eq_true', decide_eq_false_iff_not]
          constructor
          · rintro ⟨h1, h2, h3, h4⟩; exact ⟨h2.2, h1, h3, h4⟩
          · rintro ⟨h1, h2, h3, h4⟩; exact ⟨h2, ⟨hcapold' h2, h1⟩, h3, h4⟩
      have hE := (((((Eff.fib1 b n r.face none).before hch').adds htail).adds hnext).adds hlast)
      have hP : (∃ m, n <+: m ∧ m ≠ n ∧ b.routes m ≠ []) → PassOk b.routes R' n
          (fun f => if r.face = f ∧ other = true ∧ old.ci = true then some old.cost else
            if captures (R' n) = false ∧ ((old.capture = true ∧ R' n ≠ []) ∨ (old.ci = true ∧ old.capture = false)) then inh b.routes n f else none)
          (fun f => old.ci && r.face == f) := by
        rintro ⟨m0, hm1, hm2, hm3⟩
        have hb3' : old.capture = true → R' n = [] → ∀ f, inh b.routes n f = none := by
          intro h1 h2
          rcases hb3 h1 h2 with h3 | h3
          · exact absurd (h3 m0 hm1 hm2) hm3
          · exact h3
        have hsame : ∀ f, (∀ hU : captures (R' n) = false ∧ ((old.capture = true ∧ R' n ≠ []) ∨ (old.ci = true ∧ old.capture = false)), inh b.routes n f = none) →
            (if captures (R' n) = true then none else inh b.routes n f) = (if captures e.routes = true then none else inh b.routes n f) := by
          intro f hU
          cases c1 : captures (R' n) with
          | true => rw [hcapsub c1]
          | false =>
            cases c2 : captures e.routes with
            | false => rfl
            | true =>
              have ho := hcapold c2 c1
              have : inh b.routes n f = none := by
                by_cases hem : R' n = []
                · exact hb3' ho hem f
                · exact hU ⟨c1, .inl ⟨ho, hem⟩⟩
              rw [this]; simp
        refine ⟨fun f c hc => ?_, fun f hd => ?_, fun f ha hd => ?_, fun f ha hd => ?_⟩
        · rw [pass_of, hinh]
          by_cases h1 : r.face = f ∧ other = true ∧ old.ci = true
          · rw [if_pos h1] at hc
            rw [← h1.1, hotheri, if_pos h1.2]
            exact hc
          · rw [if_neg h1] at hc
            by_cases hU : captures (R' n) = false ∧ ((old.capture = true ∧ R' n ≠ []) ∨ (old.ci = true ∧ old.capture = false))
            · rw [if_pos hU] at hc
              rw [if_neg (by rw [hU.1]; exact Bool.false_ne_true), hc]
              by_cases hff : f = r.face
              · rw [hff, hotheri, if_neg (fun hx => h1 ⟨hff.symm, hx⟩)]; rfl
              · rw [hoif f hff]
                rcases hb2 (hU.2.elim (fun x => .inr x.1) (fun x => .inl x.1)) hU.1 f hff with hx | hx | hx
                · have : inh b.routes n f = none := hx
                  rw [this] at hc; cases hc
                · rw [hx]; rfl
                · have : inh b.routes n f = ownInherit e.routes f := hx
                  rw [← this, hc]; rfl
            · rw [if_neg hU] at hc; cases hc
        · simp only [Bool.and_eq_true, beq_iff_eq] at hd
          left
          rw [hre]
          exact ⟨old, hom, hof.trans hd.2, hd.1⟩
        · simp only [Bool.and_eq_true, beq_iff_eq] at hd
          have h1 : ¬ (r.face = f ∧ other = true ∧ old.ci = true) := by
            intro hx; rw [if_pos hx] at ha; cases ha
          rw [if_neg h1] at ha
          rw [pass_of, hinh, ← hd.2, hotheri, if_neg (fun hx => h1 ⟨hd.2, hx⟩), Option.none_or]
          rw [← hd.2] at ha
          cases c1 : captures (R' n) with
          | true => simp
          | false =>
            simp only [Bool.false_eq_true, if_false]
            by_cases hU : captures (R' n) = false ∧ ((old.capture = true ∧ R' n ≠ []) ∨ (old.ci = true ∧ old.capture = false))
            · rw [if_pos hU] at ha; exact ha
            · by_cases ho : old.capture = true
              · refine hb3' ho (Decidable.byContradiction (fun hem => hU ⟨c1, .inl ⟨ho, hem⟩⟩)) _
              · exact absurd ⟨c1, .inr ⟨hd.1, Bool.eq_false_iff.2 ho⟩⟩ hU
        · have h1 : ¬ (r.face = f ∧ other = true ∧ old.ci = true) := by
            intro hx; rw [if_pos hx] at ha; cases ha
          rw [if_neg h1] at ha
          rw [pass_of, pass_of, hinh, hre, hsame f (fun hU => by rw [if_pos hU] at ha; exact ha)]
          congr 1
          by_cases hff : f = r.face
          · have hci : old.ci = false := by
              rw [hff] at hd
              simpa using hd
            rw [hff, hotheri, holdci hci, if_neg (fun hx => by rw [hci] at hx; cases hx.2)]
          · exact hoif f hff
      have hE := hE.congr (A' := fun f => if r.face = f ∧ other = true ∧ old.ci = true then some old.cost else
            if captures (R' n) = false ∧ ((old.capture = true ∧ R' n ≠ []) ∨ (old.ci = true ∧ old.capture = false)) then inh b.routes n f else none)
          (fun f => by
            simp only [Option.none_or]
            by_cases h1 : r.face = f ∧ other = true ∧ old.ci = true
            · rw [if_pos h1, if_pos h1]; rfl
            · rw [if_neg h1, if_neg h1, Option.none_or]) (fun _ => rfl) (fun _ => rfl)
      have hview : ∀ f, view b.routes n f = (own e.routes f).or (if captures e.routes = true then none else inh b.routes n f) := by
        intro f
        rw [view_of (by rw [hre]; exact hne), hre]
      have hS : ∀ f, (((if R' n = [] ∧ e.hasInherited f = true then some none else none : Option (Option Nat)).or
          ((if r.face = f ∧ other = true then some (some old.cost) else none).or
          ((if r.face = f ∧ captures (R' n) = false ∧ R' n ≠ [] then (inh b.routes n r.face).map some else none).or
          ((if captures (R' n) = false ∧ old.capture = true ∧ R' n ≠ [] ∧ own (R' n) f = none then (inh b.routes n f).map some else none).or
            (if r.face = f then some none else none))))).getD (view b.routes n f)) = view R' n f := by
        intro f
        by_cases hem : R' n = []
        · rw [view_nil hem]
          have hno : ¬ other = true := by
            show ¬ (own (R' n) r.face).isSome = true
            rw [hem]; exact fun hc => by cases hc
          rw [if_neg (fun hx : r.face = f ∧ other = true => hno hx.2), if_neg (fun hx : r.face = f ∧ captures (R' n) = false ∧ R' n ≠ [] => hx.2.2 hem),
            if_neg (fun hx : captures (R' n) = false ∧ old.capture = true ∧ R' n ≠ [] ∧ own (R' n) f = none => hx.2.2.1 hem)]
          by_cases hi : e.hasInherited f = true
          · rw [if_pos ⟨hem, hi⟩]; rfl
          · rw [if_neg (fun hx : R' n = [] ∧ e.hasInherited f = true => hi hx.2)]
            by_cases hff : r.face = f
            · rw [if_pos hff]; rfl
            · rw [if_neg hff]
              show view b.routes n f = none
              apply Decidable.byContradiction
              intro hv
              refine hi (h.inhr n e f hg ?_ hv)
              rw [← hownf f (fun hc => hff hc.symm), hem]; rfl
        · rw [view_of hem, hinh, if_neg (fun hx : R' n = [] ∧ e.hasInherited f = true => hem hx.1), Option.none_or]
          by_cases hff : r.face = f
          · subst hff
            by_cases ho : other = true
            · rw [if_pos ⟨rfl, ho⟩, hothero ho]; rfl
            · have hon : own (R' n) r.face = none := by
                cases hq : own (R' n) r.face with
                | none => rfl
                | some c => exact absurd (show (own (R' n) r.face).isSome = true by rw [hq]; rfl) ho
              rw [if_neg (fun hx : r.face = r.face ∧ other = true => ho hx.2), hon, Option.none_or, Option.none_or, if_pos (rfl : r.face = r.face)]
              cases c1 : captures (R' n) with
              | true => simp
              | false =>
                rw [if_pos ⟨rfl, rfl, hem⟩]
                cases hi : inh b.routes n r.face with
                | none => simp
                | some c => simp
          · rw [if_neg (fun hx : r.face = f ∧ other = true => hff hx.1), if_neg (fun hx : r.face = f ∧ captures (R' n) = false ∧ R' n ≠ [] => hff hx.1),
              if_neg hff, Option.none_or, Option.none_or, Option.or_none, hview, hownf f (fun hc => hff hc.symm)]
            cases hw : own e.routes f with
            | some c => simp
            | none =>
              cases c1 : captures (R' n) with
              | true => rw [hcapsub c1]; simp
              | false =>
                cases c2 : captures e.routes with
                | true =>
                  rw [if_pos ⟨rfl, hcapold c2 c1, hem, rfl⟩]
                  cases inh b.routes n f <;> rfl
                | false =>
                  rw [if_neg (fun hx => by rw [hcapold' hx.2.1] at c2; cases c2)]
                  rfl
      have hfib := hE.correct h hR hP hS
      have hform : forErasedRoute b.table temp old (e.hasCapture && !temp.hasCapture) =
          ([.fib n r.face none] ++ forErasedChildren b.table temp old (e.hasCapture && !temp.hasCapture)) ++
          (if (!temp.hasCapture && !temp.routes.isEmpty) = true then
            match rsFind (ancestors b.table temp.parent) old.face with
            | some a => emitAdd temp.name a
            | none => []
          else []) := by
        unfold forErasedRoute
        rw [hnt, hof]; rfl
      rw [hform]
      refine ⟨hfib, fun m f h1 h2 h3 => ?_⟩
      by_cases hmf : n = m ∧ r.face = f
      · obtain ⟨rfl, rfl⟩ := hmf
        left
        have hno : ¬ other = true := by
          show ¬ (own (R' n) r.face).isSome = true
          rw [h2]; exact fun hc => by cases hc
        have hsl : e.secondLowest tie r.face = none := by
          cases hq : e.secondLowest tie r.face with
          | none => rfl
          | some x => exact absurd (hother.2 (secondLowest_some hq).2.2) hno
        rw [view_of h1, h2, Option.none_or, hinh] at h3
        have c1 : captures (R' n) = false := by
          rw [Bool.eq_false_iff]
          intro hc
          rw [if_pos hc] at h3
          exact h3 rfl
        rw [if_neg (by rw [c1]; exact Bool.false_ne_true), ← hanc] at h3
        rw [hsl, if_neg (fun hl => h1 (hlen.1 hl)), if_pos (by rw [htc, c1, hemp]; simp [h1]), hpt, hof, hnt]
        cases hq : rsFind (ancestors b.table (parentOf b.table n)) r.face with
        | none => rw [hq] at h3; exact absurd rfl h3
        | some a =>
          dsimp only
          unfold lastInh
          rw [List.append_nil, List.append_nil, last_append]
          have ha := rsFind_face hq
          simp [emitAdd, last, hitInh, ha]
      · refine inhOk_at h ?_ (hfib m f) ?_ h3
        · refine PairedAt.append (PairedAt.append (PairedAt.append (PairedAt.append (PairedAt.fib hmf) (erasedChildren_paired _ _ _ _ m f)) (htailPair m f)) (hnextPair m f hmf)) ?_
          by_cases hl : e.routes.length = 1
          · rw [if_pos hl]
            have hmn : ¬ e.name = m := by
              rw [hname]
              rintro rfl
              exact h1 (hlen.1 hl)
            show lastInh _ m f = (lastFib _ m f).map _
            rw [lastInh_erasedEntry, lastFib_erasedEntry, if_neg (fun hx => hmn hx.1)]; rfl
          · rw [if_neg hl]; rfl
        · by_cases hm : m = n
          · subst hm
            rw [hre, ← hownf f (fun hc => hmf ⟨rfl, hc.symm⟩)]; exact h2
          · rw [← hR m hm]; exact h2

end Verif.Rib
