import Verif.Rib.Erased

/-
The FIB agrees with the routes after every benign history.
-/
namespace Verif.Rib

open Spec (own ownInherit captures inheritedFrom view)

theorem after_other {R : Name → List Route} {u : Update} {x : Name} (h : x ≠ u.name) : Spec.after R u x = R x := by
  unfold Spec.after; rw [if_neg h]

theorem after_register {R : Name → List Route} {u : Update} (h : u.action = .register) : Spec.after R u u.name = Spec.setRoute (R u.name) u.route := by
  unfold Spec.after; rw [if_pos rfl, h]

theorem after_erase {R : Name → List Route} {u : Update} (h : u.action ≠ .register) : Spec.after R u u.name = Spec.dropRoute (R u.name) u.route := by
  unfold Spec.after
  rw [if_pos rfl]
  cases ha : u.action with
  | register => exact absurd ha h
  | unregister => rfl
  | removeFace => rfl

theorem registration_correct {k : Nat} {b : Rib} (h : Good k b) {n : Name} {r : Route} {R' : Name → List Route}
    (hR : ∀ x, x ≠ n → R' x = b.routes x) (hRn : R' n = Spec.setRoute (b.routes n) r) (hreg : Regular R') (hb : BenignRegister b.routes n r) :
    ∃ E, forRegistration b.table n r = .ok E ∧ Correct b R' E := by
  unfold forRegistration
  cases hg : get b.table n with
  | none =>
    refine ⟨_, rfl, newEntry_correct h hg hR ?_⟩
    rw [hRn, routes_none hg]; rfl
  | some e =>
    dsimp only
    cases hf : e.findRoute r with
    | none => exact ⟨_, rfl, newRoute_correct h hg hf hR hRn hreg hb⟩
    | some old => exact updated_correct h hg hf hR hRn hb

theorem emits_correct {k : Nat} (hk : k < W) {s : Sys} (h : Good k s.rib) (tie : List Route → Nat) {u : Update} (hb : Benign s (.update u)) :
    ∃ E, emits tie s.rib.table u = .ok E ∧ Correct s.rib (Spec.after s.rib.routes u) E := by
  obtain ⟨hreg, hb⟩ := hb
  unfold emits
  cases ha : u.action with
  | register =>
    rw [ha] at hb
    exact registration_correct h (fun x hx => after_other hx) (after_register ha) hreg hb
  | unregister =>
    rw [ha] at hb
    exact ⟨_, rfl, erased_correct hk h tie (fun x hx => after_other hx) (after_erase (by rw [ha]; exact fun hc => by cases hc)) hb⟩
  | removeFace =>
    rw [ha] at hb
    exact ⟨_, rfl, erased_correct hk h tie (fun x hx => after_other hx) (after_erase (by rw [ha]; exact fun hc => by cases hc)) hb.1⟩

theorem Good.mono {k k' : Nat} {b : Rib} (h : Good k b) (hk : k ≤ k') : Good k' b := ⟨h.rinv.mono hk, h.cap, h.reg, h.inhr⟩

theorem countP_setRoute_old {l : List Route} {r : Route} (hany : l.any (fun x => x.face == r.face && x.origin == r.origin) = true)
    (h : ∀ x ∈ l, x.same r = true → x.capture = r.capture) : (Spec.setRoute l r).countP (·.capture) = l.countP (·.capture) := by
  unfold Spec.setRoute
  rw [if_pos hany, List.countP_map]
  refine List.countP_congr (fun x hx => ?_)
  show (if x.face == r.face && x.origin == r.origin then r else x).capture = true ↔ x.capture = true
  by_cases hs : (x.face == r.face && x.origin == r.origin) = true
  · rw [if_pos hs, h x hx hs]
  · rw [if_neg hs]

theorem base_entry {k : Nat} (hk : k + 1 < W) {b b1 : Rib} (hri : RInv k b) (hcok : CapOk b) {u : Update} (hb : base b u = .ok b1)
    (hc : u.action = .register → ∀ old ∈ b.routes u.name, old.same u.route = true → old.capture = u.route.capture) {m : Name} {x : Entry}
    (hx : get b1.table m = some x) :
    x.nCapture = x.routes.countP (·.capture) ∧ ∀ e, get b.table m = some e → x.inherited = e.inherited := by
  unfold base at hb
  by_cases hr : u.action = .register
  · rw [if_pos hr] at hb
    rw [← Except.ok.inj hb] at hx
    rcases insert_entry hx with ⟨_, e, h1, h2, h3, h4⟩ | ⟨h1, h2, h3, h4, _⟩ | ⟨h1, e, h2, h3, h4, h5⟩
    · refine ⟨by rw [h2, h3]; exact hcok m e h1, fun e' he' => ?_⟩
      rw [h1] at he'
      rw [← Option.some.inj he', h4]
    · refine ⟨?_, fun e he => ?_⟩
      · rw [h4, h3, List.countP_cons]; simp
      · rw [h1, h2] at he; cases he
    · refine ⟨?_, fun e' he' => ?_⟩
      · have hcap := hcok u.name e h2
        have hlen := hri.bound u.name e h2
        have hle := List.countP_le_length (p := (·.capture)) (l := e.routes)
        rw [h3, h4]
        cases hf : e.findRoute u.route with
        | none =>
          rw [setRoute_new (fun y hy => Bool.eq_false_iff.2 (List.find?_eq_none.1 hf y hy)), List.countP_append, List.countP_cons]
          cases hcp : u.route.capture with
          | false => simp [hcap]
          | true =>
            simp only [Option.isNone_none, Bool.and_self, if_true, List.countP_nil]
            rw [hcap, Nat.mod_eq_of_lt (by omega)]
        | some old =>
          simp only [Option.isNone_some, Bool.false_and, Bool.false_eq_true, if_false]
          rw [countP_setRoute_old]
          · exact hcap
          · rw [List.any_eq_true]
            exact ⟨old, findRoute_mem hf, findRoute_same hf⟩
          · have := hc hr
            rw [routes_get h2] at this
            exact this
      · rw [h1, h2] at he'
        rw [← Option.some.inj he', h5]
  · rw [if_neg hr] at hb
    rcases erase_entry hri hb hx with ⟨e, h1, h2, h3, h4, _⟩ | ⟨h1, e, old, h2, hf, h3, h4, h5⟩
    · refine ⟨by rw [h2, h3]; exact hcok m e h1, fun e' he' => ?_⟩
      rw [h1] at he'
      rw [← Option.some.inj he', h4]
    · refine ⟨?_, fun e' he' => ?_⟩
      · rw [h3, h4]
        exact erase_count (by omega) (hcok u.name e h2) (hri.bound u.name e h2) hf
      · rw [h1, h2] at he'
        rw [← Option.some.inj he', h5]

/-- The RIB and the FIB agree. -/
structure Sync (k : Nat) (s : Sys) : Prop where
  good : Good k s.rib
  unborn : ∀ n r, r ∈ s.rib.routes n → s.face r.face ≠ .unborn
  dead : ∀ n f, s.face f ≠ .alive → s.fib n f = none
  live : ∀ n f, s.face f = .alive → s.fib n f = view s.rib.routes n f

theorem inheritedFrom_no_face {R : Name → List Route} {f : Nat} (h : ∀ n r, r ∈ R n → r.face ≠ f) (n : Name) (k : Nat) : inheritedFrom R n f k = none := by
  induction k with
  | zero => rfl
  | succ k ih =>
    unfold inheritedFrom
    rw [ownInherit_none.2 (fun x hx hf => absurd hf (h _ x hx)), ih]
    simp

theorem view_no_face {R : Name → List Route} {f : Nat} (h : ∀ n r, r ∈ R n → r.face ≠ f) (n : Name) : view R n f = none := by
  unfold view
  rw [inheritedFrom_no_face h, own_none.2 (fun x hx => h _ x hx)]
  simp

theorem routes_init (n : Name) : Rib.init.routes n = [] := rfl

theorem Sync.init : Sync 0 Sys.init := by
  refine ⟨⟨RInv.init, (fun n e h => by cases h), ⟨(fun n r r' h => by cases h), (fun n n' r r' _ _ h => by cases h)⟩, (fun n e f h => by cases h)⟩,
    (fun n r h => by cases h), fun _ _ _ => rfl, fun _ _ h => by cases h⟩

theorem Sync.step {k : Nat} (hk : k + 1 < W) {s : Sys} (h : Sync k s) (tie : List Route → Nat) {o : Op} (hb : Benign s o) :
    ∃ s', s.step tie o = .ok s' ∧ Sync (k + 1) s' := by
  cases o with
  | create f =>
    refine ⟨_, rfl, ?_⟩
    by_cases hf : s.face f = .unborn
    · rw [if_pos hf]
      refine ⟨h.good.mono (Nat.le_succ k), fun n r hr => ?_, fun n g hg => ?_, fun n g hg => ?_⟩
      · dsimp only
        split
        · exact fun hc => by cases hc
        · exact h.unborn n r hr
      · dsimp only at hg
        by_cases hgf : g = f
        · rw [if_pos hgf] at hg; exact absurd rfl hg
        · rw [if_neg hgf] at hg; exact h.dead n g hg
      · dsimp only at hg ⊢
        by_cases hgf : g = f
        · rw [hgf, h.dead n f (by rw [hf]; exact fun hc => by cases hc)]
          exact (view_no_face (fun n r hr hc => h.unborn n r hr (by rw [hc]; exact hf)) n).symm
        · rw [if_neg hgf] at hg; exact h.live n g hg
    · rw [if_neg hf]
      exact ⟨h.good.mono (Nat.le_succ k), h.unborn, h.dead, h.live⟩
  | destroy f =>
    refine ⟨_, rfl, ?_⟩
    by_cases hf : s.face f = .alive
    · rw [if_pos hf]
      refine ⟨h.good.mono (Nat.le_succ k), fun n r hr => ?_, fun n g hg => ?_, fun n g hg => ?_⟩
      · dsimp only
        split
        · exact fun hc => by cases hc
        · exact h.unborn n r hr
      · dsimp only at hg ⊢
        by_cases hgf : g = f
        · rw [if_pos hgf]
        · rw [if_neg hgf] at hg ⊢; exact h.dead n g hg
      · dsimp only at hg ⊢
        by_cases hgf : g = f
        · rw [if_pos hgf] at hg; cases hg
        · rw [if_neg hgf] at hg ⊢; exact h.live n g hg
    · rw [if_neg hf]
      exact ⟨h.good.mono (Nat.le_succ k), h.unborn, h.dead, h.live⟩
  | update u =>
    obtain ⟨E, hE, hc⟩ := emits_correct (by omega) h.good tie hb
    have hu := update_cases (tie := tie) (u := u) h.good.rinv
    rw [hE] at hu
    dsimp only at hu
    obtain ⟨s', hs, hface, hdead, hcase⟩ := hu
    refine ⟨s', hs, ?_⟩
    have hdead' : ∀ n f, s'.face f ≠ .alive → s'.fib n f = none := by
      intro n f hf
      rw [hface] at hf
      exact hdead n f hf (h.dead n f hf)
    rcases hcase with ⟨h1, _, _, h4⟩ | ⟨b1, h1, h2, h3, h4, h5, h6, h7, h8⟩
    · refine ⟨by rw [h1]; exact h.good.mono (Nat.le_succ k), ?_, hdead', fun n f hf => ?_⟩
      · rw [h1, hface]; exact h.unborn
      · rw [hface] at hf
        rw [h4 n f hf, h1]; exact h.live n f hf
    · have hrr : s'.rib.routes = Spec.after s.rib.routes u := funext h4
      have hbc : u.action = .register → ∀ old ∈ s.rib.routes u.name, old.same u.route = true → old.capture = u.route.capture := by
        intro ha
        have := hb.2
        rw [ha] at this
        exact this.capture
      have hent : ∀ (m : Name) (e' : Entry), get s'.rib.table m = some e' → ∃ e l, get b1.table m = some e ∧ e' = { e with inherited := l } := by
        intro m e' he'
        cases hg : get b1.table m with
        | none => rw [h5.1 m hg] at he'; cases he'
        | some e =>
          obtain ⟨l, hl⟩ := h5.2 m e hg
          rw [hl] at he'
          exact ⟨e, l, rfl, (Option.some.inj he').symm⟩
      refine ⟨⟨h3, fun n e' he' => ?_, by rw [hrr]; exact hb.1, fun n e' f he' ho hv => ?_⟩, fun n r hr hun => ?_, hdead', fun n f hf => ?_⟩
      · obtain ⟨e, l, hg, rfl⟩ := hent n e' he'
        exact (base_entry hk h.good.rinv h.good.cap h1 hbc hg).1
      · obtain ⟨e, l, hg, heq⟩ := hent n e' he'
        have hrn : Spec.after s.rib.routes u n = e'.routes := by rw [← hrr]; exact routes_get he'
        rw [h6 n e e' f hg he']
        rcases hc.inh n f (by rw [hrn]; exact h3.nonempty n e' he') (by rw [hrn]; exact ho) (by rw [← hrr]; exact hv) with hi | ⟨hi, e0, he0, hi0⟩
        · rw [hi]; rfl
        · rw [hi]
          show e.hasInherited f = true
          unfold Entry.hasInherited at hi0 ⊢
          rw [(base_entry hk h.good.rinv h.good.cap h1 hbc hg).2 e0 he0]
          exact hi0
      · rw [hface] at hun
        rw [hrr] at hr
        by_cases hn : n = u.name
        · rw [hn] at hr
          by_cases ha : u.action = .register
          · have hno : ∀ n x, x ∈ s.rib.routes n → x.face ≠ r.face := fun n x hx hxf => h.unborn n x hx (by rw [hxf]; exact hun)
            have hrf : r.face = u.route.face := by
              rw [after_register ha] at hr
              unfold Spec.setRoute at hr
              split at hr
              · obtain ⟨y, hy, hyr⟩ := List.mem_map.1 hr
                split at hyr
                · rw [← hyr]
                · rw [hyr] at hy
                  exact absurd rfl (hno _ r hy)
              · rcases List.mem_append.1 hr with hr | hr
                · exact absurd rfl (hno _ r hr)
                · rw [List.mem_singleton.1 hr]
            apply h8 (by rw [ha]; exact fun hc => by cases hc) (by rw [← hrf, hun]; exact fun hc => by cases hc)
            have hfib := hc.fib u.name r.face
            rw [view_no_face hno] at hfib
            have hv : ∃ c, view (Spec.after s.rib.routes u) u.name r.face = some c := by
              rw [view_of (fun hnil => by rw [hnil] at hr; cases hr)]
              cases ho : own (Spec.after s.rib.routes u u.name) r.face with
              | none => exact absurd rfl (own_none.1 ho r hr)
              | some c => exact ⟨c, rfl⟩
            obtain ⟨c, hv⟩ := hv
            rw [hv] at hfib
            refine ⟨u.name, c, ?_⟩
            rw [← hrf]
            cases hl : lastFib E u.name r.face with
            | none => rw [hl] at hfib; cases hfib
            | some v => rw [hl] at hfib; exact congrArg some hfib
          · rw [after_erase ha] at hr
            exact h.unborn _ r (List.mem_filter.1 hr).1 hun
        · rw [after_other hn] at hr
          exact h.unborn n r hr hun
      · rw [hface] at hf
        rw [h7 n f hf, h.live n f hf, hrr]
        · exact hc.fib n f
        · intro ha hff
          have := hb.2
          rw [ha] at this
          rw [hff, this.2] at hf
          cases hf

theorem Sync.run {k : Nat} {s : Sys} (h : Sync k s) (tie : List Route → Nat) {ops : List Op} (hl : k + ops.length < W) (hb : BenignRun tie s ops) :
    ∃ s', s.run tie ops = .ok s' ∧ Sync (k + ops.length) s' := by
  induction ops generalizing k s with
  | nil => exact ⟨s, rfl, h⟩
  | cons o l ih =>
    obtain ⟨hb1, hb2⟩ := hb
    rw [List.length_cons] at hl
    obtain ⟨s1, h1, h2⟩ := h.step (by omega) tie hb1
    rw [h1] at hb2
    obtain ⟨s2, h3, h4⟩ := ih h2 (by omega) hb2
    refine ⟨s2, ?_, ?_⟩
    · unfold Sys.run; rw [h1]; exact h3
    · rw [List.length_cons]
      have : k + (l.length + 1) = k + 1 + l.length := by omega
      rw [this]; exact h4

end Verif.Rib
