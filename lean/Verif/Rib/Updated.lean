import Verif.Rib.Register

/-
An update of a route brings the FIB to what the new routes call for.
-/
namespace Verif.Rib

open Spec (own ownInherit captures inheritedFrom view)

theorem keys_unique {l : List Route} (h : l.Pairwise (fun a c => a.same c = false)) {x y : Route} (hx : x ∈ l) (hy : y ∈ l) (hs : x.same y = true) : x = y := by
  induction l with
  | nil => cases hx
  | cons z l ih =>
    obtain ⟨h1, h2⟩ := List.pairwise_cons.1 h
    rcases List.mem_cons.1 hx with rfl | hx
    · rcases List.mem_cons.1 hy with rfl | hy
      · rfl
      · rw [h1 y hy] at hs; cases hs
    · rcases List.mem_cons.1 hy with hy | hy
      · rw [hy, same_comm, h1 x (by assumption)] at hs; cases hs
      · exact ih h2 hx hy

theorem setRoute_old {l : List Route} {r old : Route} (ho : old ∈ l) (hs : old.same r = true) :
    Spec.setRoute l r = l.map (fun x => if x.same r then r else x) := by
  unfold Spec.setRoute
  rw [if_pos]
  · rfl
  · rw [List.any_eq_true]
    exact ⟨old, ho, hs⟩

theorem mem_setRoute_old {l : List Route} {r old : Route} (ho : old ∈ l) (hs : old.same r = true) {x : Route} :
    x ∈ Spec.setRoute l r ↔ x = r ∨ (x ∈ l ∧ x.same r = false) := by
  rw [setRoute_old ho hs, List.mem_map]
  constructor
  · rintro ⟨y, hy, hxy⟩
    by_cases hys : y.same r = true
    · rw [if_pos hys] at hxy; exact .inl hxy.symm
    · rw [if_neg hys] at hxy
      rw [← hxy]
      exact .inr ⟨hy, Bool.eq_false_iff.2 hys⟩
  · rintro (h | ⟨h1, h2⟩)
    · exact ⟨old, ho, by rw [if_pos hs, h]⟩
    · exact ⟨x, h1, by rw [h2]; rfl⟩

theorem same_self (r : Route) : r.same r = true := by unfold Route.same; simp

theorem updatedEntry_routes {e : Entry} {r old : Route} (ho : old ∈ e.routes) (hs : old.same r = true) :
    e.routes.map (fun y => if y.same r then { y with ci := r.ci, capture := r.capture, cost := r.cost } else y) = Spec.setRoute e.routes r := by
  rw [setRoute_old ho hs]
  apply List.map_congr_left
  intro y _
  by_cases hy : y.same r = true
  · rw [if_pos hy, if_pos hy]
    obtain ⟨h1, h2⟩ := same_iff.1 hy
    cases y
    cases r
    simp only at h1 h2
    subst h1 h2
    rfl
  · rw [if_neg hy, if_neg hy]

/-- What is emitted, given that the routes to the face agree. -/
def updatedEmits (t : List Entry) (e : Entry) (r old : Route) : List Emit :=
  (if r.cost ≠ old.cost then [.fib e.name r.face (some r.cost)] else []) ++
    (if r.ci = true ∧ (r.cost ≠ old.cost ∨ old.ci = false) then modifyChildren t e.children [r] []
     else if old.ci = true ∧ r.ci = false then modifyChildren t e.children [] [r] else [])

theorem updated_emits {t : List Entry} {e : Entry} {r old : Route} (hcap : old.capture = r.capture) (hown : own e.routes r.face = some r.cost)
    (hci : ownInherit e.routes r.face = if r.ci then some r.cost else none)
    (hanc : old.ci = true → r.ci = false → rsFind (ancestors t e.parent) r.face = none) :
    forUpdatedRoute t e r old = .ok (updatedEmits t e r old) := by
  have hl := lowestCost_eq e r.face
  rw [hown, Option.map_eq_some_iff] at hl
  obtain ⟨l, hl1, hl2⟩ := hl
  have hp := lowestCI_eq e r.face
  rw [hci] at hp
  have hpall : (e.lowestCI r.face).all (fun p => decide (r.cost ≤ p.cost)) = true := by
    cases hq : e.lowestCI r.face with
    | none => rfl
    | some p =>
      rw [hq] at hp
      simp only [Option.map_some] at hp
      split at hp
      · have hp := Option.some.inj hp
        simp only [Option.all_some, decide_eq_true_eq]
        omega
      · cases hp
  have hcc : forCaptureChange t e r old = [] := by
    unfold forCaptureChange
    dsimp only
    rw [hcap]
    cases r.capture <;> rfl
  have hCI : forCIChange t e r old = if r.ci = true ∧ old.ci = false then modifyChildren t e.children [r] []
      else if old.ci = true ∧ r.ci = false then modifyChildren t e.children [] [r] else [] := by
    unfold forCIChange
    dsimp only
    rw [hpall]
    cases h1 : r.ci with
    | true =>
      cases h2 : old.ci <;> simp
    | false =>
      cases h2 : old.ci with
      | false => simp
      | true =>
        rw [h1] at hp
        simp only [Bool.false_eq_true, if_false, Option.map_eq_none_iff] at hp
        rw [hp, hanc h2 h1]
        simp
  unfold forUpdatedRoute updatedEmits
  by_cases hc : r.cost = old.cost
  · by_cases htriv : r.ci = old.ci ∧ r.capture = old.capture ∧ r.cost = old.cost
    · rw [if_pos htriv]
      have h1 := htriv.1
      rw [h1]
      cases old.ci <;> simp [hc]
    · rw [if_neg htriv, if_neg (fun h : r.cost ≠ old.cost => h hc), hcc, hCI]
      simp [hc]
  · rw [if_neg (fun h => hc h.2.2), if_pos hc, if_pos hc, hcc]
    have hcost : forCostChange t e r old =
        .ok (if r.ci = true ∧ old.ci = true then ([Emit.fib e.name r.face (some r.cost)] ++ modifyChildren t e.children [r] [], true)
          else ([Emit.fib e.name r.face (some r.cost)], false)) := by
      unfold forCostChange
      dsimp only
      rw [hl1]
      dsimp only
      rw [if_pos (show r.cost ≤ l.cost by omega), hpall, hcap]
      show Except.ok _ = _
      congr 1
      cases r.ci <;> cases old.ci <;> simp
    rw [hcost]
    show Except.ok _ = _
    congr 1
    rw [hCI]
    cases h1 : r.ci <;> cases h2 : old.ci <;> simp [hc]

theorem updated_correct {k : Nat} {b : Rib} (h : Good k b) {n : Name} {e : Entry} {r old : Route} (hg : get b.table n = some e) (hf : e.findRoute r = some old)
    {R' : Name → List Route} (hR : ∀ x, x ≠ n → R' x = b.routes x) (hRn : R' n = Spec.setRoute (b.routes n) r)
    (hb : BenignRegister b.routes n r) :
    ∃ E, forUpdatedRoute b.table
      { e with routes := e.routes.map (fun y => if y.same r then { y with ci := r.ci, capture := r.capture, cost := r.cost } else y) } r old = .ok E ∧
      Correct b R' E := by
  have hname := get_name hg
  have hre := routes_get hg
  have hne := h.rinv.nonempty n e hg
  have hC := h.rinv.tree.isChildren hg
  have hpar := h.rinv.tree.parent n e hg
  have hos := findRoute_same hf
  have hom := findRoute_mem hf
  have huniq := h.rinv.keys n e hg
  have hanc := ancestors_find h.rinv h.cap h.reg.cost n
  have hinh : ∀ f, inh R' n f = inh b.routes n f := fun f => inh_same hR
  have hbc := hb.capture
  have hbi := hb.inherit
  have hbo := hb.others
  rw [hre] at hbc hbi hbo hRn
  have hcap := hbc old hom hos
  have hmem : ∀ x, x ∈ R' n ↔ x = r ∨ (x ∈ e.routes ∧ x.same r = false) := fun x => by rw [hRn]; exact mem_setRoute_old hom hos
  have hface : ∀ x ∈ R' n, x.face = r.face → x.cost = r.cost ∧ x.ci = r.ci := by
    intro x hx hxf
    rcases (hmem x).1 hx with rfl | ⟨h1, h2⟩
    · exact ⟨rfl, rfl⟩
    · exact hbo old hom hos x h1 hxf h2
  have hrm : r ∈ R' n := (hmem r).2 (.inl rfl)
  have hown : own (R' n) r.face = some r.cost := by
    rw [own_eq]
    exact minBy_const ⟨r, hrm, by simp⟩ (fun x hx hp => (hface x hx (by simpa using hp)).1)
  have hoi : ownInherit (R' n) r.face = if r.ci then some r.cost else none := by
    rw [ownInherit_eq]
    cases hci : r.ci with
    | true =>
      refine minBy_const ⟨r, hrm, by simp [hci]⟩ (fun x hx hp => ?_)
      simp only [Bool.and_eq_true, beq_iff_eq] at hp
      exact (hface x hx hp.1).1
    | false =>
      simp only [Bool.false_eq_true, if_false]
      rw [minBy_none]
      intro x hx
      rw [Bool.eq_false_iff]
      intro hp
      simp only [Bool.and_eq_true, beq_iff_eq] at hp
      have := (hface x hx hp.1).2
      rw [hp.2, hci] at this
      cases this
  have hiff : ∀ x, x.face ≠ r.face → (x ∈ R' n ↔ x ∈ e.routes) := by
    intro x hx
    rw [hmem]
    constructor
    · rintro (h1 | h1)
      · rw [h1] at hx; exact absurd rfl hx
      · exact h1.1
    · intro h1
      refine .inr ⟨h1, Bool.eq_false_iff.2 (fun hc => hx (same_iff.1 hc).1)⟩
  have hownf : ∀ f, f ≠ r.face → own (R' n) f = own e.routes f := by
    intro f hf
    rw [own_eq, own_eq]
    refine minBy_congr (fun x hp => hiff x (fun hc => hf ?_))
    have : x.face = f := by simpa using hp
    rw [← this, hc]
  have hoif : ∀ f, f ≠ r.face → ownInherit (R' n) f = ownInherit e.routes f := by
    intro f hf
    rw [ownInherit_eq, ownInherit_eq]
    refine minBy_congr (fun x hp => hiff x (fun hc => hf ?_))
    simp only [Bool.and_eq_true, beq_iff_eq] at hp
    rw [← hp.1, hc]
  have hcaps : captures (R' n) = captures e.routes := by
    rw [Bool.eq_iff_iff]
    unfold captures
    rw [List.any_eq_true, List.any_eq_true]
    constructor
    · rintro ⟨x, hx, hc⟩
      rcases (hmem x).1 hx with h1 | h1
      · exact ⟨old, hom, by rw [hcap, ← h1]; exact hc⟩
      · exact ⟨x, h1.1, hc⟩
    · rintro ⟨x, hx, hc⟩
      by_cases hs : x.same r = true
      · exact ⟨r, hrm, by rw [← hbc x hx hs]; exact hc⟩
      · exact ⟨x, (hmem x).2 (.inr ⟨hx, Bool.eq_false_iff.2 hs⟩), hc⟩
  -- the routes to the face before
  have hfaceOld : ∀ x ∈ e.routes, x.face = r.face → x = old ∨ (x.cost = r.cost ∧ x.ci = r.ci) := by
    intro x hx hxf
    by_cases hs : x.same r = true
    · left
      exact keys_unique huniq hx hom (same_trans hs (by rw [same_comm]; exact hos))
    · exact .inr (hbo old hom hos x hx hxf (Bool.eq_false_iff.2 hs))
  have hof := (same_iff.1 hos).1
  have hownOld : r.cost = old.cost → own e.routes r.face = some r.cost := by
    intro hc
    rw [own_eq]
    refine minBy_const ⟨old, hom, by simpa using hof⟩ (fun x hx hp => ?_)
    rcases hfaceOld x hx (by simpa using hp) with h1 | h1
    · rw [h1, hc]
    · exact h1.1
  let e' : Entry := { e with routes := e.routes.map (fun y => if y.same r then { y with ci := r.ci, capture := r.capture, cost := r.cost } else y) }
  have he' : e'.routes = R' n := by rw [hRn]; exact updatedEntry_routes hom hos
  refine ⟨updatedEmits b.table e' r old, ?_, ?_⟩
  · refine updated_emits hcap (by rw [he']; exact hown) (by rw [he']; exact hoi) (fun h1 h2 => ?_)
    have hi := hbi old hom hos h1 h2
    have := hanc r.face
    show rsFind (ancestors b.table e.parent) r.face = none
    rw [hpar]
    have hi : inh b.routes n r.face = none := hi
    rw [hi, Option.map_eq_none_iff] at this
    exact this
  · have hname' : e'.name = n := hname
    have hC' : IsChildren b.table n e'.children := hC
    have hself : ∀ f, ((if r.cost ≠ old.cost ∧ r.face = f then some (some r.cost) else none : Option (Option Nat))).getD (view b.routes n f) = view R' n f := by
      intro f
      rw [view_of (R := R') (by intro hc; rw [hc] at hrm; cases hrm), view_of (R := b.routes) (by rw [hre]; exact hne), hcaps, hinh, hre]
      by_cases hff : r.face = f
      · subst hff
        rw [hown]
        by_cases hc : r.cost = old.cost
        · rw [if_neg (fun h => h.1 hc), hownOld hc]; rfl
        · rw [if_pos ⟨hc, rfl⟩]; rfl
      · rw [if_neg (fun h => hff h.2), hownf f (Ne.symm hff)]; rfl
    have hhead : Eff b n (if r.cost ≠ old.cost then [Emit.fib e'.name r.face (some r.cost)] else []) (fun _ => none) (fun _ => false)
        (fun f => if r.cost ≠ old.cost ∧ r.face = f then some (some r.cost) else none) := by
      by_cases hc : r.cost ≠ old.cost
      · rw [if_pos hc, hname']
        exact (Eff.fib1 b n _ _).congr (fun _ => rfl) (fun _ => rfl) (fun f => by simp [hc])
      · rw [if_neg hc]
        exact (Eff.nil b n).congr (fun _ => rfl) (fun _ => rfl) (fun f => by rw [if_neg (fun h => hc h.1)])
    have key : ∃ A D, Eff b n (updatedEmits b.table e' r old) A D (fun f => if r.cost ≠ old.cost ∧ r.face = f then some (some r.cost) else none) ∧
        PassOk b.routes R' n A D := by
      have hpass : ∀ f, f ≠ r.face → pass R' n f = pass b.routes n f := by
        intro f hff
        rw [pass_of, pass_of, hoif f hff, hcaps, hinh, hre]
      unfold updatedEmits
      by_cases c1 : r.ci = true ∧ (r.cost ≠ old.cost ∨ old.ci = false)
      · rw [if_pos c1]
        refine ⟨_, _, (hhead.before (Eff.mod h hC' (uniq_singleton r) [])).congr (fun _ => rfl) (fun _ => rfl) (fun f => by rw [Option.none_or]),
          ⟨fun f c hc => ?_, fun f hd => (by cases hd), fun f _ hd => (by cases hd), fun f ha _ => ?_⟩⟩
        · rw [rsFind_singleton] at hc
          by_cases hff : r.face = f
          · rw [if_pos hff] at hc
            rw [pass_of, ← hff, hoi, c1.1]
            exact hc
          · rw [if_neg hff] at hc; cases hc
        · rw [rsFind_singleton] at ha
          by_cases hff : r.face = f
          · rw [if_pos hff] at ha; cases ha
          · exact hpass f (Ne.symm hff)
      · rw [if_neg c1]
        by_cases c2 : old.ci = true ∧ r.ci = false
        · rw [if_pos c2]
          refine ⟨_, _, (hhead.before (Eff.mod h hC' List.Pairwise.nil [r])).congr (fun _ => rfl) (fun _ => rfl) (fun f => by rw [Option.none_or]),
            ⟨fun f c hc => (by cases hc), fun f hd => ?_, fun f _ hd => ?_, fun f _ hd => ?_⟩⟩
          · rw [rsFind_singleton] at hd
            by_cases hff : r.face = f
            · left
              rw [hre]
              exact ⟨old, hom, hof.trans hff, c2.1⟩
            · rw [if_neg hff] at hd; cases hd
          · rw [rsFind_singleton] at hd
            by_cases hff : r.face = f
            · have hi : inh b.routes n r.face = none := hbi old hom hos c2.1 c2.2
              rw [pass_of, ← hff, hoi, c2.2, hinh, hi]
              simp
            · rw [if_neg hff] at hd; cases hd
          · rw [rsFind_singleton] at hd
            by_cases hff : r.face = f
            · rw [if_pos hff] at hd; cases hd
            · exact hpass f (Ne.symm hff)
        · rw [if_neg c2]
          refine ⟨_, _, (hhead.before (Eff.nil b n)).congr (fun _ => rfl) (fun _ => rfl) (fun f => by rw [Option.none_or]),
            ⟨fun f c hc => (by cases hc), fun f hd => (by cases hd), fun f _ hd => (by cases hd), fun f _ _ => ?_⟩⟩
          by_cases hff : f = r.face
          · subst hff
            rw [pass_of, pass_of, hoi, hcaps, hinh, hre]
            congr 1
            cases hci : r.ci with
            | true =>
              have hold : old.ci = true := by
                cases ho : old.ci with
                | true => rfl
                | false => exact absurd ⟨hci, .inr ho⟩ c1
              have hcost : r.cost = old.cost := by
                apply Decidable.byContradiction
                intro hc
                exact c1 ⟨hci, .inl hc⟩
              simp only [if_true]
              symm
              rw [ownInherit_eq]
              refine minBy_const ⟨old, hom, by simp [hof, hold]⟩ (fun x hx hp => ?_)
              simp only [Bool.and_eq_true, beq_iff_eq] at hp
              rcases hfaceOld x hx hp.1 with h1 | h1
              · rw [h1, hcost]
              · exact h1.1
            | false =>
              simp only [Bool.false_eq_true, if_false]
              symm
              rw [ownInherit_none]
              intro x hx hxf
              rcases hfaceOld x hx hxf with h1 | h1
              · rw [h1]
                cases ho : old.ci with
                | false => rfl
                | true => exact absurd ⟨ho, hci⟩ c2
              · rw [h1.2, hci]
          · exact hpass f hff
    obtain ⟨A, D, hE, hP⟩ := key
    have hfib := hE.correct h hR (fun _ => hP) hself
    refine ⟨hfib, fun m f h1 h2 h3 => ?_⟩
    have hmf : ¬ (n = m ∧ r.face = f) := by
      rintro ⟨rfl, rfl⟩
      rw [hown] at h2
      cases h2
    refine inhOk_at h ?_ (hfib m f) ?_ h3
    · unfold updatedEmits
      refine PairedAt.append ?_ ?_
      · split
        · rw [hname']; exact PairedAt.fib hmf
        · rfl
      · have : Paired (if r.ci = true ∧ (r.cost ≠ old.cost ∨ old.ci = false) then modifyChildren b.table e'.children [r] []
          else if old.ci = true ∧ r.ci = false then modifyChildren b.table e'.children [] [r] else []) :=
          Paired.ite (modifyChildren_paired _ _ _ _) (Paired.ite (modifyChildren_paired _ _ _ _) Paired.nil)
        exact this m f
    · by_cases hm : m = n
      · subst hm
        rw [hre, ← hownf f (fun hc => hmf ⟨rfl, hc.symm⟩)]
        exact h2
      · rw [← hR m hm]; exact h2

end Verif.Rib
