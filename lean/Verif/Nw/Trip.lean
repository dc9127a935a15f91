import Verif.Nw.Props
import Verif.Nw.TripSpec
import Verif.Strat.Props
import Verif.Fw.DataProps

/-
C107: an Interest that is forwarded along a path to a producer brings the Data back.
-/
namespace Verif.Nw

open Fw Strat
open Tb (FaceId Time FwInterest NextHop)

variable {env : Env} {st : Strategy} {s s' : St}

/-! ### One forwarder -/

/-- The Interest is pending for the face. -/
def Pend (s : St) (i : FwInterest) (f : FaceId) (t : Time) : Prop :=
  ∃ e ∈ s.pit, e.interest.toInterest = i.toInterest ∧ ∃ r ∈ e.ins, r.face = f ∧ r.expiry = t

theorem out_step {N : Type} {h : Hop N} (hi : Inv s) (hc : CsOk s) {i : FwInterest} (hr : Ready env s h i) (hw : Name.WF i.name) :
    ∃ s' j, step env h.st s (.interest i h.inn) = some s' ∧ CsOk s' ∧ Carries s.cfg i j ∧ .interest h.out j ∈ s'.sent ∧
      s'.faces = s.faces ∧ s'.now = s.now ∧ Pend s' i h.inn (s.now + min i.lifetime Tb.tenDays) ∧ ∃ new, Emits s s' new := by
  obtain ⟨s', h1, h2⟩ := step_ok (env := env) hr.honest hi hc (ev := .interest i h.inn) hw
  obtain ⟨r, u, e, j, hcl⟩ := passed_call hi hr.passed h1
  obtain ⟨gs, hg, hst⟩ := hr.forwards r u j e hcl.faces hcl.now hcl.find hcl.outs hcl.carries
  have h3 := hcl.calls
  rw [hst] at h3
  have h4 := sent_interests j gs { r with calls := r.calls ++ [.afterReceiveInterest j h.inn u] } s' e hcl.find h3
  obtain ⟨gi, hgi⟩ := Option.isSome_iff_exists.1 hr.out
  refine ⟨s', j, h1, h2, hcl.carries, ?_, h4.faces.trans hcl.faces, h4.now.trans hcl.now, ?_, _, h4.sent.trans (by dsimp only; rw [hcl.sent])⟩
  · rw [h4.sent]
    refine List.mem_append_right _ (List.mem_flatMap.2 ⟨h.out, hg, ?_⟩)
    unfold wire
    dsimp only
    rw [hcl.faces, hgi]
    dsimp only
    rw [if_neg (fun hc => hr.hops j hcl.carries ⟨hc.1, gi, hgi, hc.2⟩)]
    exact List.mem_singleton_self _
  · obtain ⟨e', h5, h6, h7⟩ := h4.ents e hcl.find
    obtain ⟨x, x1, x2, x3, x4⟩ := hcl.inRec
    refine ⟨e', (find_some h5).1, by rw [h7]; exact hcl.key, x, by rw [h6]; exact x1, x2, ?_⟩
    rw [x4]
    unfold Tb.recExpiry
    rw [hcl.carries.lifetime]

theorem back_step {N : Type} {h : Hop N} (hi : Inv s) (hc : CsOk s) (hp : PlainData h.st) (hh : Honest h.st) {i : FwInterest} {d : Data} (hd : Cs.DataWF d)
    (hl : ¬UnderLocalhost d.name) (ho : (s.faces h.out).isSome) (hn : h.out ≠ h.inn) (hm : i.matchesData d = true) {t : Time}
    (hpe : Pend s i h.inn t) (ht : s.now < t) :
    ∃ s' new, step env h.st s (.data d h.out) = some s' ∧ CsOk s' ∧ Emits s s' new ∧ .data h.inn d ∈ new := by
  obtain ⟨s', h1, h2⟩ := step_ok (env := env) hh hi hc (ev := .data d h.out) hd
  obtain ⟨fi, hf⟩ := Option.isSome_iff_exists.1 ho
  obtain ⟨new, h3, h4, -⟩ := (data_spec hi hp hf (fun h => hl h.2) h1).sent
  refine ⟨s', new, h1, h2, h3, ?_⟩
  have hw : Waits s d h.out h.inn := by
    obtain ⟨e, e1, e2, r, r1, r2, r3⟩ := hpe
    refine ⟨⟨e, e1, ?_, r, r1, r2, by rw [r3]; exact ht⟩, fun fi _ => ⟨fun h => absurd h.symm hn, fun h => absurd h hl⟩⟩
    show Interest.matchesData e.interest.toInterest d = true
    rw [e2]; exact hm
  have := (h4 h.inn).1 hw
  exact List.one_le_count_iff.1 (by rw [this]; exact Nat.le_refl 1)

/-- The state after a while. -/
abbrev later (s : St) (dt : Time) : St := { s with now := s.now + dt, cs := s.cs.tick dt }

theorem later_ok (hi : Inv s) (hc : CsOk s) (dt : Time) : Inv (later s dt) ∧ CsOk (later s dt) := by
  have hst : Honest (fun _ _ => []) := by intro s t a ha; cases ha
  obtain ⟨s1, h1, h2⟩ := step_ok (env := ⟨fun _ _ => 0, 0⟩) hst hi hc (ev := .tick dt) trivial
  have h3 := step_inv hi h1
  cases h1
  exact ⟨h3, h2⟩

/-! ### The path -/

variable {N : Type} [DecidableEq N] {T : Topology N} {envs : N → Env} {App : N → Event → Prop}

theorem Course.trans {p : List (Hop N)} {k m : Nat} {a b c : N → St} (h1 : Course T envs App p k a b) (h2 : Course T envs App p m b c) :
    Course T envs App p (k + m) a c := by
  induction h1 with
  | nil => rw [Nat.zero_add]; exact h2
  | @cons k s t x hm ev hh s' h _ ih =>
    rw [Nat.add_right_comm]
    exact .cons x hm ev hh s' h (ih h2)

theorem Course.mono {p q : List (Hop N)} (hpq : ∀ x ∈ p, x ∈ q) {k : Nat} {a b : N → St} (h1 : Course T envs App p k a b) : Course T envs App q k a b := by
  induction h1 with
  | nil => exact .nil _
  | @cons k s t x hm ev hh s' h _ ih => exact .cons x (hpq x hm) ev hh s' h ih

omit [DecidableEq N] in
theorem pathReady_congr {a b : N → St} : ∀ {l : List (Hop N)} {i : FwInterest}, (∀ h ∈ l, b h.node = a h.node) → PathReady envs a l i → PathReady envs b l i
  | [], _, _, _ => trivial
  | h :: l, i, he, hp => by
    have h1 := he h (List.mem_cons_self ..)
    refine ⟨by rw [h1]; exact hp.1, fun j hj => pathReady_congr (fun x hx => he x (List.mem_cons_of_mem _ hx)) (hp.2 j (by rw [← h1]; exact hj))⟩

theorem trip {d : Data} (hd : Cs.DataWF d) (hl : ¬UnderLocalhost d.name) : ∀ (l : List (Hop N)) (h : Hop N) (s : N → St) (i : FwInterest),
    ((h :: l).map (·.node)).Nodup → (∀ x ∈ h :: l, Inv (s x.node) ∧ CsOk (s x.node)) → Linked T (h :: l) → PathReady envs s (h :: l) i →
    Happens T App s h.node (.interest i h.inn) → Answers App d (h :: l) → Name.WF i.name → i.matchesData d = true →
    ∃ s', Course T envs App (h :: l) (3 * (l.length + 1)) s s' ∧ (∀ z, z ∉ (h :: l).map (·.node) → s' z = s z) ∧
      ∃ new, Emits (s h.node) (s' h.node) new ∧ .data h.inn d ∈ new := by
  intro l
  induction l with
  | nil =>
    intro h s i hn hi hk hp hh ha hw hm
    obtain ⟨hi1, hi2⟩ := hi h (List.mem_cons_self ..)
    obtain ⟨s1, j, a1, a2, a3, a4, a5, a6, a7, new0, a8⟩ := out_step (env := envs h.node) hi1 hi2 hp.1 hw
    have b1 := step_inv hi1 a1
    have c1 := later_ok b1 a2 h.wait
    obtain ⟨s2, new, d1, d2, d3, d4⟩ := back_step (env := envs h.node) (s := (later s1 h.wait)) c1.1 c1.2 hp.1.plain hp.1.honest
      hd hl (by dsimp only; rw [a5]; exact hp.1.out) hp.1.other hm (t := (s h.node).now + min i.lifetime Tb.tenDays) a7
      (by dsimp only; rw [a6]; have := hp.1.wait; exact Nat.add_lt_add_left this _)
    refine ⟨_, .cons h (List.mem_cons_self ..) _ hh s1 a1 (.cons h (List.mem_cons_self ..) (.tick h.wait) (.internal (.tick _)) (later s1 h.wait) ?_
      (.cons h (List.mem_cons_self ..) (.data d h.out) (.application ha (Or.inr (Or.inl ⟨_, _, rfl⟩))) s2 ?_ (.nil _))), ?_, new0 ++ new, ?_, List.mem_append_right _ d4⟩
    · simp only [if_true]; rfl
    · simp only [if_true]; exact d1
    · intro z hz
      have : z ≠ h.node := by simpa using hz
      simp only [if_neg this]
    · unfold Emits at *
      simp only [if_true]
      rw [d3]; dsimp only; rw [a8, List.append_assoc]
  | cons h2 l ih =>
    intro h s i hn hi hk hp hh ha hw hm
    obtain ⟨hi1, hi2⟩ := hi h (List.mem_cons_self ..)
    obtain ⟨hn1, hn2⟩ := List.nodup_cons.1 hn
    obtain ⟨s1, j, a1, a2, a3, a4, a5, a6, a7, new0, a8⟩ := out_step (env := envs h.node) hi1 hi2 hp.1 hw
    have b1 := step_inv hi1 a1
    have hne : ∀ x ∈ h2 :: l, (fun z => if z = h.node then s1 else s z) x.node = s x.node := by
      intro x hx
      have : x.node ≠ h.node := fun hc => hn1 (by show h.node ∈ _; rw [← hc]; exact List.mem_map_of_mem (f := fun x : Hop N => x.node) hx)
      simp only [if_neg this]
    have hj : j.toInterest = i.toInterest := a3.key
    obtain ⟨t, t1, t2, new1, t3, t4⟩ := ih h2 (fun z => if z = h.node then s1 else s z) j hn2
      (fun x hx => by have := hne x hx; dsimp only at this ⊢; rw [this]; exact hi x (List.mem_cons_of_mem _ hx)) hk.2.2 (pathReady_congr hne (hp.2 j a3))
      (.arrives (.interest (y := h.node) (g := h.out) (i := j) hk.1 (by simp only [if_true]; exact a4) rfl)) ha
      (by rw [a3.name]; exact hw) (by show Interest.matchesData j.toInterest d = true; rw [hj]; exact hm)
    have hth : t h.node = s1 := by rw [t2 h.node hn1]; simp only [if_true]
    have c1 := later_ok b1 a2 h.wait
    obtain ⟨s2, new, d1, d2, d3, d4⟩ := back_step (env := envs h.node) (s := (later s1 h.wait)) c1.1 c1.2 hp.1.plain hp.1.honest
      hd hl (by dsimp only; rw [a5]; exact hp.1.out) hp.1.other hm (t := (s h.node).now + min i.lifetime Tb.tenDays) a7
      (by dsimp only; rw [a6]; have := hp.1.wait; exact Nat.add_lt_add_left this _)
    have hdm : .data h2.inn d ∈ (t h2.node).sent := by
      unfold Emits at t3
      rw [t3]; exact List.mem_append_right _ t4
    have hne2 : h2.node ≠ h.node := fun hc => hn1 (by show h.node ∈ _; rw [← hc]; exact List.mem_cons_self ..)
    have hlast : Course T envs App (h :: h2 :: l) 2 t (fun z => if z = h.node then s2 else (fun z => if z = h.node then (later s1 h.wait) else t z) z) := by
      refine .cons h (List.mem_cons_self ..) (.tick h.wait) (.internal (.tick _)) (later s1 h.wait) (by rw [hth]; rfl)
        (.cons h (List.mem_cons_self ..) (.data d h.out) (.arrives (.data (y := h2.node) (g := h2.inn) (d := d) hk.2.1 ?_ rfl)) s2 ?_ (.nil _))
      · simp only [if_neg hne2]; exact hdm
      · simp only [if_true]; exact d1
    have hcount : 3 * ((h2 :: l).length + 1) = 3 * (l.length + 1) + 2 + 1 := by simp only [List.length_cons]; omega
    refine ⟨_, by rw [hcount]; exact .cons h (List.mem_cons_self ..) _ hh s1 a1 ((t1.mono (fun x hx => List.mem_cons_of_mem _ hx)).trans hlast), ?_, new0 ++ new, ?_, List.mem_append_right _ d4⟩
    · intro z hz
      have hz1 : z ≠ h.node := fun hc => hz (by rw [hc]; exact List.mem_cons_self ..)
      have hz2 : z ∉ (h2 :: l).map (·.node) := fun hc => hz (List.mem_cons_of_mem _ hc)
      simp only [if_neg hz1]
      rw [t2 z hz2, if_neg hz1]
    · unfold Emits at *
      simp only [if_true]
      rw [d3]; dsimp only; rw [a8, List.append_assoc]

theorem history_ok {e : Env} {a : St} (h : HasHistory e a) : Inv a ∧ CsOk a := by
  obtain ⟨n, l, h1, h2⟩ := h
  refine ⟨reach_inv h2, ?_⟩
  have : ∀ {l : List (Strategy × Event)} {x y : St}, Inv x → CsOk x → (∀ z ∈ l, Honest z.1 ∧ WellFormed z.2) → run e x l = some y → CsOk y := by
    intro l
    induction l with
    | nil => intro x y _ hc _ hr; cases hr; exact hc
    | cons z l ih =>
      intro x y hi hc hl hr
      obtain ⟨hz1, hz2⟩ := hl z (List.mem_cons_self ..)
      obtain ⟨x1, k1, k2⟩ := step_ok (env := e) hz1 hi hc hz2
      simp only [run, k1, Option.bind_some] at hr
      exact ih (step_inv hi k1) k2 (fun w hw => hl w (List.mem_cons_of_mem _ hw)) hr
  exact this (init_inv n) ⟨[], Cs.init_inv n⟩ h1 h2

end Verif.Nw
