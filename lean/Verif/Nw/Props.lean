import Verif.Nw.Lemmas

/-
Properties of networks of forwarders (C105, C106): any topology, any strategies that make up no packets (which includes those NFD is
supplied with), any loss, duplication, reordering and delay, any management and configuration of the nodes, any behaviour of applications.
-/
namespace Verif.Nw

open Fw Strat
open Tb (FaceId FwInterest NextHop)

variable {N : Type} [DecidableEq N] {T : Topology N} {env : N → Env} {limit : N → Nat} {App : N → Event → Prop} {s : N → St}

/-! ### C105: HopLimit -/

/-- C105: an Interest sent on a link comes from an application's Interest for the same, over some number of links, and with every node it
has passed the HopLimit has gone down by one; it is at least 1. -/
theorem C105_distance (hr : Reachable T env limit Conveyor App s) {y x : N} {g f : FaceId} {i : FwInterest} (hs : .interest g i ∈ (s y).sent)
    (hl : (x, f) ∈ T y g) :
    ∃ a j fa n, App a (.interest j fa) ∧ j.toInterest = i.toInterest ∧ Reaches T n a y ∧
      ∀ r0, j.hopLimit = some r0 → ∃ r, i.hopLimit = some r ∧ 1 ≤ r ∧ n + 1 + r ≤ r0 := by
  obtain ⟨⟨a, j, fa, n, h1, h2, h3, h4⟩, h5⟩ := (reach_ok hr y).2.sent _ hs
  refine ⟨a, j, fa, n, h1, h2, h3, ?_⟩
  intro r0 hr0
  obtain ⟨r, h6, h7⟩ := h4 r0 hr0
  have h8 := h5 (fun h => by rw [h] at hl; cases hl)
  have : r ≠ 0 := fun h => h8 (h ▸ h6)
  exact ⟨r, h6, by omega, by omega⟩

omit [DecidableEq N] in
theorem Reaches.mono {n m : Nat} {a b : N} (h : Reaches T n a b) (hm : n ≤ m) : Reaches T m a b := by
  induction h generalizing m with
  | here => exact .here _ _
  | @hop n x y z g f _ hl ih =>
    obtain ⟨k, rfl⟩ : ∃ k, m = k + 1 := ⟨m - 1, by omega⟩
    exact (ih (by omega)).hop hl

/-- C105: if applications ask for something with HopLimits of at most `h` only, then an Interest for it arrives only at nodes that are less
than `h` links away from such an application. In particular it is sent on no link if `h` is 1. -/
theorem C105_scope (hr : Reachable T env limit Conveyor App s) {k : Interest} {h : Nat}
    (hk : ∀ a j f, App a (.interest j f) → j.toInterest = k → ∃ r, j.hopLimit = some r ∧ r ≤ h) {x : N} {f : FaceId} {i : FwInterest}
    (ha : Arrives T s x (.interest i f)) (hi : i.toInterest = k) :
    2 ≤ h ∧ ∃ a j fa n, App a (.interest j fa) ∧ j.toInterest = k ∧ n < h ∧ Reaches T n a x := by
  cases ha with
  | @interest y _ g i0 _ hl hs hw =>
    have h0 : i.toInterest = i0.toInterest := by rw [hw]
    obtain ⟨a, j, fa, n, h1, h2, h3, h4⟩ := C105_distance hr hs hl
    have h5 : j.toInterest = k := by rw [h2, ← h0, hi]
    obtain ⟨r0, h6, h7⟩ := hk a j fa h1 h5
    obtain ⟨r, -, h8, h9⟩ := h4 r0 h6
    exact ⟨by omega, a, j, fa, n + 1, h1, h5, by omega, h3.hop hl⟩

/-! ### C106: what Data and Nacks answer -/

/-- C106: Data sent on a face answers an Interest of whoever is behind that face: an application's, or one that a neighbour has sent. -/
theorem C106_data_answers (hr : Reachable T env limit Conveyor App s) {y : N} {g : FaceId} {d : Data} (hs : .data g d ∈ (s y).sent) :
    (∃ i, App y (.interest i g) ∧ i.matchesData d = true) ∨
    ∃ x f i, (y, g) ∈ T x f ∧ .interest f i ∈ (s x).sent ∧ i.matchesData d = true := by
  obtain ⟨-, k, h1, h2⟩ := (reach_ok hr y).2.sent _ hs
  rcases h1 with ⟨i, h1, rfl⟩ | ⟨x, f, i, h1, h3, rfl⟩
  · exact Or.inl ⟨i, h1, h2⟩
  · exact Or.inr ⟨x, f, i, h1, h3, h2⟩

/-- C106: every Data that a node stores or sends is one that an application has produced, unchanged but for the caching policy, which is
not transmitted. -/
theorem C106_authentic (hr : Reachable T env limit Conveyor App s) (y : N) :
    (∀ e ∈ (s y).cs.table, ∃ x f d0, App x (.data d0 f) ∧ e.data = { d0 with noCache := e.data.noCache }) ∧
    ∀ g d, .data g d ∈ (s y).sent → ∃ x f d0, App x (.data d0 f) ∧ d = { d0 with noCache := d.noCache } :=
  ⟨(reach_ok hr y).2.cs, fun _ _ hs => ((reach_ok hr y).2.sent _ hs).1⟩

/-- C106: a Nack sent on a face answers an Interest of whoever is behind that face. -/
theorem C106_nack_answers (hr : Reachable T env limit Conveyor App s) {y : N} {g : FaceId} {i : FwInterest} {k : Nat} (hs : .nack g i k ∈ (s y).sent) :
    (∃ j, App y (.interest j g) ∧ j.toInterest = i.toInterest) ∨
    ∃ x f j, (y, g) ∈ T x f ∧ .interest f j ∈ (s x).sent ∧ j.toInterest = i.toInterest :=
  ((reach_ok hr y).2.sent _ hs).2

/-- C106: Interests are not made up either: each comes from an application that can be reached backwards over links. -/
theorem C106_interest_origin (hr : Reachable T env limit Conveyor App s) {y : N} {g : FaceId} {i : FwInterest} (hs : .interest g i ∈ (s y).sent) :
    ∃ a j f n, App a (.interest j f) ∧ j.toInterest = i.toInterest ∧ Reaches T n a y := by
  obtain ⟨⟨a, j, f, n, h1, h2, h3, -⟩, -⟩ := (reach_ok hr y).2.sent _ hs
  exact ⟨a, j, f, n, h1, h2, h3⟩

/-- C106: the strategies NFD is supplied with make up no packets; self-learning, if the Data whose announcement has been looked up is one it
was shown. -/
theorem C106_supplied (s0 : St) :
    (∀ st, Supplied st → Conveyor s0 st) ∧
    ∀ nhs table nd dd pending, (∀ u d f, pending = some (u, d, f) → ShownData s0.calls d) → Conveyor s0 (selfLearningS nhs table nd dd pending) :=
  ⟨fun _ h => conveyor_supplied s0 h, fun nhs table nd dd pending h => conveyor_selfLearning s0 nhs table nd dd pending h⟩

/-! ### A line of three forwarders -/

/-- The state after one event. -/
def play (env : N → Env) (s : N → St) (x : N) (st : Strategy) (ev : Event) : N → St :=
  fun z => if z = x then (step (env x) st (s x) ev).getD (s x) else s z

theorem reach_play {S : St → Strategy → Prop} (hr : Reachable T env limit S App s) {x : N} {st : Strategy} (hst : S (s x) st) {ev : Event}
    (hh : Happens T App s x ev) (hs : (step (env x) st (s x) ev).isSome = true) : Reachable T env limit S App (play env s x st ev) := by
  obtain ⟨s', h⟩ := Option.isSome_iff_exists.1 hs
  have : play env s x st ev = fun z => if z = x then s' else s z := by
    unfold play; rw [h]; rfl
  rw [this]
  exact .step hr x st hst ev hh s' h

/-- Node 0 and 2 have an application on face 256; 0 - 1 - 2 are joined by links. -/
abbrev exT : Topology (Fin 3) := fun x g =>
  if x = 0 ∧ g = 257 then [(1, 257)] else if x = 1 ∧ g = 257 then [(0, 257)] else if x = 1 ∧ g = 258 then [(2, 257)]
  else if x = 2 ∧ g = 257 then [(1, 258)] else []

abbrev exEnv : Fin 3 → Env := fun _ => { hash := fun n x => 1 + n.length + 100 * x, dnlLifetime := 6000000000 }
abbrev exC (b : Byte) : Component := ⟨8, [b]⟩
abbrev exI : FwInterest := { name := [exC 1], canBePrefix := true, nonce := 7, hopLimit := some 3 }
abbrev exD : Data := { name := [exC 1, exC 2], digest := [5], freshness := 0 }

/-- The application at node 0 asks; that at node 2 answers. -/
abbrev exApp : Fin 3 → Event → Prop := fun x ev => (x = 0 ∧ ev = .interest exI 256) ∨ (x = 2 ∧ ev = .data exD 256)

/-- Best-route with a route to face `g`. -/
abbrev exS (g : FaceId) : Strategy := bestRouteS {} [⟨g, 0⟩] none

abbrev ex0 : Fin 3 → St := fun _ => init 10
abbrev ex1 := play exEnv ex0 0 (exS 257) (.addFace 256 ⟨.loc, .p2p⟩)
abbrev ex2 := play exEnv ex1 0 (exS 257) (.addFace 257 ⟨.nonLocal, .p2p⟩)
abbrev ex3 := play exEnv ex2 1 (exS 258) (.addFace 257 ⟨.nonLocal, .p2p⟩)
abbrev ex4 := play exEnv ex3 1 (exS 258) (.addFace 258 ⟨.nonLocal, .p2p⟩)
abbrev ex5 := play exEnv ex4 2 (exS 256) (.addFace 256 ⟨.loc, .p2p⟩)
abbrev ex6 := play exEnv ex5 2 (exS 256) (.addFace 257 ⟨.nonLocal, .p2p⟩)
/-- The Interest travels from node 0 to the application at node 2. -/
abbrev ex7 := play exEnv ex6 0 (exS 257) (.interest exI 256)
abbrev ex8 := play exEnv ex7 1 (exS 258) (.interest { exI with hopLimit := some 2 } 257)
abbrev ex9 := play exEnv ex8 2 (exS 256) (.interest { exI with hopLimit := some 1 } 257)
/-- The Data travels back. -/
abbrev ex10 := play exEnv ex9 2 (exS 256) (.data exD 256)
abbrev ex11 := play exEnv ex10 1 (exS 258) (.data exD 258)
abbrev ex12 := play exEnv ex11 0 (exS 257) (.data exD 257)

theorem exConv (s0 : St) (g : FaceId) : Conveyor s0 (exS g) := conveyor_supplied s0 (.bestRoute _ _ _)

theorem exReach : Reachable exT exEnv (fun _ => 10) Conveyor exApp ex12 := by
  have h0 : Reachable exT exEnv (fun _ => 10) Conveyor exApp ex0 := .start
  have h1 : Reachable exT exEnv (fun _ => 10) Conveyor exApp ex1 := reach_play h0 (x := 0) (exConv _ 257) (.internal (.addFace 256 ⟨.loc, .p2p⟩ (by decide))) rfl
  have h2 : Reachable exT exEnv (fun _ => 10) Conveyor exApp ex2 := reach_play h1 (x := 0) (exConv _ 257) (.internal (.addFace 257 ⟨.nonLocal, .p2p⟩ (fun _ => rfl))) rfl
  have h3 : Reachable exT exEnv (fun _ => 10) Conveyor exApp ex3 := reach_play h2 (x := 1) (exConv _ 258) (.internal (.addFace 257 ⟨.nonLocal, .p2p⟩ (fun _ => rfl))) rfl
  have h4 : Reachable exT exEnv (fun _ => 10) Conveyor exApp ex4 := reach_play h3 (x := 1) (exConv _ 258) (.internal (.addFace 258 ⟨.nonLocal, .p2p⟩ (fun _ => rfl))) rfl
  have h5 : Reachable exT exEnv (fun _ => 10) Conveyor exApp ex5 := reach_play h4 (x := 2) (exConv _ 256) (.internal (.addFace 256 ⟨.loc, .p2p⟩ (by decide))) rfl
  have h6 : Reachable exT exEnv (fun _ => 10) Conveyor exApp ex6 := reach_play h5 (x := 2) (exConv _ 256) (.internal (.addFace 257 ⟨.nonLocal, .p2p⟩ (fun _ => rfl))) rfl
  have h7 : Reachable exT exEnv (fun _ => 10) Conveyor exApp ex7 := reach_play h6 (x := 0) (exConv _ 257) (.application (ev := .interest exI 256) (Or.inl ⟨rfl, rfl⟩) (Or.inl ⟨_, _, rfl⟩)) (by decide +kernel)
  have h8 : Reachable exT exEnv (fun _ => 10) Conveyor exApp ex8 := reach_play h7 (x := 1) (exConv _ 258)
    (.arrives (.interest (y := 0) (f := 257) (g := 257) (i := { exI with hopLimit := some 2 }) (i' := { exI with hopLimit := some 2 }) (by decide) (by decide +kernel) rfl)) (by decide +kernel)
  have h9 : Reachable exT exEnv (fun _ => 10) Conveyor exApp ex9 := reach_play h8 (x := 2) (exConv _ 256)
    (.arrives (.interest (y := 1) (f := 257) (g := 258) (i := { exI with hopLimit := some 1 }) (i' := { exI with hopLimit := some 1 }) (by decide) (by decide +kernel) rfl)) (by decide +kernel)
  have h10 : Reachable exT exEnv (fun _ => 10) Conveyor exApp ex10 := reach_play h9 (x := 2) (exConv _ 256) (.application (ev := .data exD 256) (Or.inr ⟨rfl, rfl⟩) (Or.inr (Or.inl ⟨_, _, rfl⟩))) (by decide +kernel)
  have h11 : Reachable exT exEnv (fun _ => 10) Conveyor exApp ex11 := reach_play h10 (x := 1) (exConv _ 258)
    (.arrives (.data (y := 2) (f := 258) (g := 257) (d := exD) (d' := exD) (by decide) (by decide +kernel) rfl)) (by decide +kernel)
  exact reach_play h11 (x := 0) (exConv _ 257)
    (.arrives (.data (y := 1) (f := 257) (g := 257) (d := exD) (d' := exD) (by decide) (by decide +kernel) rfl)) (by decide +kernel)

/-- C105 applies: HopLimit 3 lets the Interest cross two links, the second with HopLimit 1 - as far as the theorem allows. -/
example : Reachable exT exEnv (fun _ => 10) Conveyor exApp ex12 ∧ .interest 258 { exI with hopLimit := some 1 } ∈ (ex12 1).sent ∧ (2, 257) ∈ exT 1 258 :=
  ⟨exReach, by decide +kernel, by decide⟩
example : ∀ a j f, exApp a (.interest j f) → j.toInterest = exI.toInterest → ∃ r, j.hopLimit = some r ∧ r ≤ 3 := by
  rintro a j f (⟨-, h⟩ | ⟨-, h⟩) -
  · injection h with h; exact ⟨3, by rw [h], Nat.le_refl 3⟩
  · cases h
example : Arrives exT ex12 2 (.interest { exI with hopLimit := some 1 } 257) :=
  .interest (y := 1) (g := 258) (i := { exI with hopLimit := some 1 }) (by decide) (by decide +kernel) rfl
/-- C106 applies: the Data has got back to the application, and is stored at every node. -/
example : Reachable exT exEnv (fun _ => 10) Conveyor exApp ex12 ∧ .data 256 exD ∈ (ex12 0).sent ∧ .data 257 exD ∈ (ex12 1).sent ∧ (ex12 1).cs.table.length = 1 :=
  ⟨exReach, by decide +kernel, by decide +kernel, by decide +kernel⟩
/-- C106 applies to Nacks: a node without a route answers with one. -/
example : Reachable exT exEnv (fun _ => 10) Conveyor exApp (play exEnv ex0 0 (exS 257) (.addFace 256 ⟨.loc, .p2p⟩)) ∧
    .nack 256 { exI with hopLimit := some 2 } nackNoRoute ∈ (play exEnv ex1 0 (bestRouteS {} [] none) (.interest exI 256) 0).sent :=
  ⟨reach_play .start (x := 0) (exConv _ 257) (.internal (.addFace 256 ⟨.loc, .p2p⟩ (by decide))) rfl, by decide +kernel⟩
/-- Strategies are not all conveyors. -/
example : ¬Conveyor (init 0) (fun _ t => match t with | .afterReceiveNack _ _ f u => [.sendDataToAll u exD f] | _ => []) := by
  intro h
  obtain ⟨f, u, h⟩ := h (init 0) (.afterReceiveNack exI 0 1 0) (fun _ h => h) (.sendDataToAll 0 exD 1) (by simp)
  simp [init] at h

end Verif.Nw
