import Verif.Nw.Pipes
import Verif.Nw.Supplied

/-
The invariant of a network: every node is `Ok` for what applications may send and its neighbours have sent.
-/
namespace Verif.Nw

open Fw
open Tb (FaceId FwInterest)

variable {N : Type} {T : Topology N} {App : N → Event → Prop} {s : N → St}

/-- What is maintained at node `y`. -/
def predAt (T : Topology N) (App : N → Event → Prop) (s : N → St) (y : N) : Pred where
  int := Traces T App y
  dat := Produced App
  rcv := Asked T App s y
  lk := fun f => T y f ≠ []

theorem Pred.okD.mono {P P' : Pred} (hd : P'.dat = P.dat) (hr : ∀ g k, P.rcv g k → P'.rcv g k) {g : FaceId} {d : Data} (h : P.okD g d) : P'.okD g d :=
  ⟨hd ▸ h.1, h.2.choose, hr _ _ h.2.choose_spec.1, h.2.choose_spec.2⟩

theorem Clean.mono {P P' : Pred} (hi : P'.int = P.int) (hd : P'.dat = P.dat) (hl : P'.lk = P.lk) (hr : ∀ g k, P.rcv g k → P'.rcv g k) {x : St}
    (h : Clean P x) : Clean P' x := by
  have hI : ∀ i, P.okI i → P'.okI i := by intro i h; unfold Pred.okI; rw [hi]; exact h
  refine ⟨fun e he => hI _ (h.ent e he), fun e he r hm => ⟨hI _ (h.ins e he r hm).1, hr _ _ (h.ins e he r hm).2⟩, fun e he => hd ▸ h.cs e he, ?_, ?_,
    fun f fi hf hk => h.faces f fi hf (hl ▸ hk)⟩
  · intro p hp
    have := h.sent p hp
    cases p with
    | interest g i => exact ⟨hI _ this.1, fun hk => this.2 (hl ▸ hk)⟩
    | data g d => exact Pred.okD.mono hd hr this
    | nack g i k => exact ⟨hI _ this.1, hr _ _ this.2⟩
  · intro c hc
    have := h.calls c hc
    cases c with
    | afterReceiveInterest i f u => exact ⟨hI _ this.1, hr _ _ this.2⟩
    | onInterestLoop i f => exact ⟨hI _ this.1, hr _ _ this.2⟩
    | afterContentStoreHit d f u => exact Pred.okD.mono hd hr this
    | beforeSatisfyInterest d f u => show P'.dat d; rw [hd]; exact this
    | afterReceiveData d f u => show P'.dat d; rw [hd]; exact this
    | _ => trivial

theorem step_sent {env : Env} {st : Strategy} {a b : St} {ev : Event} (hi : Inv a) (h : step env st a ev = some b) : ∀ p ∈ a.sent, p ∈ b.sent := by
  obtain ⟨new, h1, -⟩ := step_sends (any_respects st) hi h
  intro p hp
  rw [h1]
  exact List.mem_append_left _ hp

theorem SameData.trans {a b c : Data} (h1 : SameData a b) (h2 : SameData b c) : SameData a c := by
  unfold SameData at *
  rw [h2, h1]

theorem traces_here {x : N} {i : FwInterest} {f : FaceId} {h : Option Nat} (ha : App x (.interest i f)) (h0 : i.hopLimit ≠ some 0)
    (hh : ∀ r, i.hopLimit = some r → h = some (r - 1)) : Traces T App x i.toInterest h := by
  refine ⟨x, i, f, 0, ha, rfl, .here 0 x, ?_⟩
  intro r0 hr
  refine ⟨r0 - 1, hh r0 hr, ?_⟩
  have : r0 ≠ 0 := fun h => h0 (h ▸ hr)
  omega

theorem traces_hop {x y : N} {k : Interest} {f g : FaceId} {h h' : Option Nat} (ht : Traces T App y k h) (hl : (x, f) ∈ T y g) (h0 : h ≠ some 0)
    (hh : ∀ r, h = some r → h' = some (r - 1)) : Traces T App x k h' := by
  obtain ⟨a, j, fa, n, h1, h2, h3, h4⟩ := ht
  refine ⟨a, j, fa, n + 1, h1, h2, h3.hop hl, ?_⟩
  intro r0 hr
  obtain ⟨r, h5, h6⟩ := h4 r0 hr
  have : r ≠ 0 := fun h => h0 (h ▸ h5)
  exact ⟨r - 1, hh r h5, by omega⟩

theorem less {h : Option Nat} : (∀ r, h = some r → h.map (· - 1) = some (r - 1)) ∧ ∀ c, ∀ r, h = some r → leavesWith c h = some (r - 1) :=
  ⟨fun r hr => by rw [hr]; rfl, fun c r hr => by rw [hr]; rfl⟩

/-- What happens at a node is what its invariant allows. -/
theorem event_ok (hg : ∀ y, Ok (predAt T App s y) (s y)) {x : N} {ev : Event} (h : Happens T App s x ev) : (predAt T App s x).event ev := by
  cases h with
  | arrives h =>
    cases h with
    | @interest y f g i i' hl hs hw =>
      obtain ⟨h1, h2⟩ := (hg y).2.sent _ hs
      have hk : i'.toInterest = i.toInterest := by rw [hw]
      have hh : i'.hopLimit = i.hopLimit := by rw [hw]
      have h3 : i.hopLimit ≠ some 0 := h2 (fun h => by rw [h] at hl; cases hl)
      refine ⟨Or.inr ⟨y, g, i, hl, hs, hk.symm⟩, fun _ => ?_⟩
      rw [hk, hh]
      exact ⟨traces_hop h1 hl h3 less.1, fun c => traces_hop h1 hl h3 (less.2 c)⟩
    | @data y f g d d' hl hs hw =>
      obtain ⟨⟨x0, f0, d0, h1, h2⟩, -⟩ := (hg y).2.sent _ hs
      exact ⟨x0, f0, d0, h1, h2.trans hw⟩
    | nack => trivial
  | internal h =>
    cases h with
    | addFace f fi h => exact h
    | cs op h => exact h
    | _ => trivial
  | application h hk =>
    rcases hk with ⟨i, f, rfl⟩ | ⟨d, f, rfl⟩ | ⟨i, k, f, rfl⟩
    · exact ⟨Or.inl ⟨i, h, rfl⟩, fun h0 => ⟨traces_here h h0 less.1, fun c => traces_here h h0 (less.2 c)⟩⟩
    · exact ⟨x, f, d, h, rfl⟩
    · trivial

variable [DecidableEq N] {env : N → Env} {limit : N → Nat}

theorem reach_ok (hr : Reachable T env limit Conveyor App s) : ∀ y, Ok (predAt T App s y) (s y) := by
  induction hr with
  | start => exact fun y => ok_init _ _
  | @step s hr x st hst ev hh s' h ih =>
    intro y
    have hx : Ok (predAt T App s x) s' := (ih x).step hst (event_ok ih hh) h
    have hy : Ok (predAt T App s y) (if y = x then s' else s y) := by
      split
      · rename_i h; subst h; exact hx
      · exact ih y
    refine ⟨hy.1, Clean.mono (P := predAt T App s y) (P' := predAt T App (fun z => if z = x then s' else s z) y) rfl rfl rfl ?_ hy.2⟩
    rintro g k (h1 | ⟨z, f, i, h1, h2, h3⟩)
    · exact Or.inl h1
    · refine Or.inr ⟨z, f, i, h1, ?_, h3⟩
      dsimp only
      split
      · rename_i h4; subst h4; exact step_sent (ih z).1 h _ h2
      · exact h2

/-- A network in which the strategies satisfy a stronger condition. -/
theorem Reachable.mono {S S' : St → Strategy → Prop} (h : ∀ a st, S a st → S' a st) (hr : Reachable T env limit S App s) : Reachable T env limit S' App s := by
  induction hr with
  | start => exact .start
  | step _ x st hst ev hh s' hs ih => exact .step ih x st (h _ _ hst) ev hh s' hs

end Verif.Nw
