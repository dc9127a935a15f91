/-
Invariants about the effects of a UDP face.
-/
import Verif.Dg.Acts

namespace Verif.Dg
open Verif.Lp (Bytes readElem parseBlock)
open Verif.Tp (TState Persist validTransition leaving maxPacket)

theorem arrived_append (a b : List Out) : arrived (a ++ b) = arrived a ++ arrived b := by
  fun_induction arrived a <;> simp_all [arrived]

theorem viaChannel_append (a b : List Out) : viaChannel (a ++ b) = viaChannel a ++ viaChannel b := by
  fun_induction viaChannel a <;> simp_all [viaChannel]

theorem delivered_append (a b : List Out) : delivered (a ++ b) = delivered a ++ delivered b := by
  fun_induction delivered a <;> simp_all [delivered]

theorem accepted_append (a b : List Out) : accepted (a ++ b) = accepted a ++ accepted b := by
  fun_induction accepted a <;> simp_all [accepted]

theorem sentOut_append (a b : List Out) : sentOut (a ++ b) = sentOut a ++ sentOut b := by
  fun_induction sentOut a <;> simp_all [sentOut]

theorem finished_append (a b : List Out) : finished (a ++ b) = finished a ++ finished b := by
  fun_induction finished a <;> simp_all [finished]

theorem lastActive_append (a b : List Out) : lastActive (a ++ b) = max (lastActive a) (lastActive b) := by
  fun_induction lastActive a <;> simp_all [lastActive] <;> omega

theorem sentOut_sub (o : List Out) : (sentOut o).Sublist (finished o) := by
  fun_induction finished o <;> simp_all [sentOut]

/-- Closures due to inactivity come at least `T` after every packet before them. -/
def IdleOk (T : Nat) (o : List Out) : Prop := ∀ a t b, o = a ++ .idle t :: b → ∀ p u, .deliver p u ∈ a → u + T ≤ t

theorem IdleOk.snoc {T : Nat} {o : List Out} {x : Out} (h : IdleOk T o) (hx : ∀ t, x = .idle t → ∀ p u, .deliver p u ∈ o → u + T ≤ t) :
    IdleOk T (o ++ [x]) := by
  intro a t b e p u hm
  rcases List.eq_nil_or_concat b with rfl | ⟨b', y, rfl⟩
  · have := List.append_inj' e rfl
    obtain ⟨rfl, h2⟩ := this
    cases h2
    exact hx t rfl p u hm
  · have e' : o ++ [x] = (a ++ .idle t :: b') ++ [y] := by rw [e]; simp
    obtain ⟨h1, _⟩ := List.append_inj' e' rfl
    exact h a t b' h1 p u hm

theorem IdleOk.other {T : Nat} {o : List Out} {x : Out} (h : IdleOk T o) (hx : ∀ t, x ≠ .idle t) : IdleOk T (o ++ [x]) :=
  h.snoc (fun t e => absurd e (hx t))

structure VInv (T now : Nat) (v : View) : Prop where
  path : Path .up v.out v.state
  recv : delivered v.out = (arrived v.out).filter oneTlv
  send : v.state = .up → accepted v.out = finished v.out ++ v.sends
  sendPre : finished v.out <+: accepted v.out
  times : ∀ b t, .deliver b t ∈ v.out → t ≤ now
  quiet : ∀ due, v.timer = some due → v.recent = false → ∀ b t, .deliver b t ∈ v.out → t + T ≤ due
  idle : IdleOk T v.out
  timerOn : ∀ due, v.timer = some due → v.persist = .onDemand ∧ 0 < T
  hasTimer : v.state = .up → v.persist = .onDemand → 0 < T → ∃ due, v.timer = some due ∧ v.expires = some due
  noExpiry : v.persist ≠ .onDemand ∨ T = 0 → v.expires = none

theorem VInv.mono {T now now' : Nat} {v : View} (h : VInv T now v) (hn : now ≤ now') : VInv T now' v :=
  { h with times := fun b t hm => Nat.le_trans (h.times b t hm) hn }

theorem vinv_new (T now ep : Nat) (p : Persist) : VInv T now (view (newFace T now ep p)) := by
  by_cases hp : p = .onDemand
  · subst hp
    by_cases hT : T > 0
    · have hv : view (newFace T now ep .onDemand) =
          { ep := ep, state := .up, persist := .onDemand, sends := [], recent := false, timer := some (now + T), expires := some (now + T),
            dead := false, out := [.onDemand now] } := by
        simp [newFace, view, hT, scheduleIdle]
      rw [hv]
      constructor
      · exact .snoc (o := []) .nil .onDemand
      · rfl
      · intro _; rfl
      · exact List.prefix_refl _
      · intro b t hm; simp at hm
      · intro due _ _ b t hm; simp at hm
      · exact IdleOk.other (o := []) (fun a t b e => by simp at e) (fun t e => by cases e)
      · intro due _; exact ⟨rfl, hT⟩
      · intro _ _ _; exact ⟨_, rfl, rfl⟩
      · intro h; rcases h with h | h
        · exact absurd rfl h
        · omega
    · have hv : view (newFace T now ep .onDemand) =
          { ep := ep, state := .up, persist := .onDemand, sends := [], recent := false, timer := none, expires := none,
            dead := false, out := [.onDemand now] } := by
        simp [newFace, view, hT]
      rw [hv]
      constructor
      · exact .snoc (o := []) .nil .onDemand
      · rfl
      · intro _; rfl
      · exact List.prefix_refl _
      · intro b t hm; simp at hm
      · intro due _ _ b t hm; simp at hm
      · exact IdleOk.other (o := []) (fun a t b e => by simp at e) (fun t e => by cases e)
      · intro due h; cases h
      · intro _ _ h; exact absurd h hT
      · intro _; rfl
  · have hv : view (newFace T now ep p) =
        { ep := ep, state := .up, persist := p, sends := [], recent := false, timer := none, expires := none, dead := false, out := [] } := by
      simp [newFace, view, hp]
    rw [hv]
    constructor
    · exact .nil
    · rfl
    · intro _; rfl
    · exact List.prefix_refl _
    · intro b t hm; simp at hm
    · intro due _ _ b t hm; simp at hm
    · intro a t b e; simp at e
    · intro due h; cases h
    · intro _ h; exact absurd h hp
    · intro _; rfl

theorem mem_snoc_deliver {o : List Out} {x : Out} {b : Bytes} {t : Nat} (hx : ∀ b t, x ≠ .deliver b t) (h : .deliver b t ∈ o ++ [x]) :
    .deliver b t ∈ o := by
  rcases List.mem_append.1 h with h | h
  · exact h
  · rw [List.mem_singleton] at h; exact absurd h.symm (hx b t)

theorem vinv_arrive {T now : Nat} {v : View} {o : Out} {b : Bytes} (h : VInv T now v) (hc : v.state ≠ .closed) (ho : o = .got b ∨ o = .dispatched b) :
    VInv T now (arriveView now v o b) := by
  have ho1 : ∀ b t, o ≠ .deliver b t := by rcases ho with rfl | rfl <;> intro b t e <;> cases e
  have ho2 : ∀ t, o ≠ .idle t := by rcases ho with rfl | rfl <;> intro t e <;> cases e
  have hp : Path .up (v.out ++ [o]) v.state := by
    rcases ho with rfl | rfl
    · exact .snoc h.path (.got hc)
    · exact .snoc h.path (.dispatched hc)
  have ha : arrived [o] = [b] := by rcases ho with rfl | rfl <;> rfl
  have hd : delivered [o] = [] := by rcases ho with rfl | rfl <;> rfl
  have hacc : accepted [o] = [] := by rcases ho with rfl | rfl <;> rfl
  have hfin : finished [o] = [] := by rcases ho with rfl | rfl <;> rfl
  cases hb : oneTlv b with
  | false =>
    have hv : arriveView now v o b = { v with out := v.out ++ [o] } := by simp [arriveView, hb]
    rw [hv]
    constructor
    · exact hp
    · show delivered (v.out ++ [o]) = (arrived (v.out ++ [o])).filter oneTlv
      rw [delivered_append, arrived_append, ha, hd, List.filter_append, h.recv]
      simp [hb]
    · intro hu
      show accepted (v.out ++ [o]) = finished (v.out ++ [o]) ++ v.sends
      rw [accepted_append, finished_append, hacc, hfin, List.append_nil, List.append_nil]
      exact h.send hu
    · show finished (v.out ++ [o]) <+: accepted (v.out ++ [o])
      rw [accepted_append, finished_append, hacc, hfin, List.append_nil, List.append_nil]
      exact h.sendPre
    · intro b t hm; exact h.times b t (mem_snoc_deliver ho1 hm)
    · intro due ht hr b t hm; exact h.quiet due ht hr b t (mem_snoc_deliver ho1 hm)
    · exact h.idle.other ho2
    · exact h.timerOn
    · exact h.hasTimer
    · exact h.noExpiry
  | true =>
    have hv : arriveView now v o b = { v with recent := true, out := (v.out ++ [o]) ++ [.deliver b now] } := by simp [arriveView, hb]
    rw [hv]
    constructor
    · exact .snoc hp (.deliver hc)
    · show delivered ((v.out ++ [o]) ++ [.deliver b now]) = (arrived ((v.out ++ [o]) ++ [.deliver b now])).filter oneTlv
      rw [delivered_append, delivered_append, arrived_append, arrived_append, ha, hd, h.recv]
      simp [arrived, delivered, hb]
    · intro hu
      show accepted ((v.out ++ [o]) ++ [.deliver b now]) = finished ((v.out ++ [o]) ++ [.deliver b now]) ++ v.sends
      rw [accepted_append, accepted_append, finished_append, finished_append, hacc, hfin]
      simpa [accepted, finished] using h.send hu
    · show finished ((v.out ++ [o]) ++ [.deliver b now]) <+: accepted ((v.out ++ [o]) ++ [.deliver b now])
      rw [accepted_append, accepted_append, finished_append, finished_append, hacc, hfin]
      simpa [accepted, finished] using h.sendPre
    · intro b' t hm
      rcases List.mem_append.1 hm with hm | hm
      · exact h.times b' t (mem_snoc_deliver ho1 hm)
      · rw [List.mem_singleton] at hm; cases hm; exact Nat.le_refl _
    · intro due ht hr; cases hr
    · exact (h.idle.other ho2).other (fun t e => by cases e)
    · exact h.timerOn
    · exact h.hasTimer
    · exact h.noExpiry

theorem vinv_act {T now : Nat} {v w : View} (h : VInv T now v) (a : Act T now v w) : VInv T now w := by
  cases a with
  | accept p hu =>
    constructor
    · exact .snoc h.path (hu ▸ .accepted)
    · show delivered (v.out ++ [_]) = (arrived (v.out ++ [_])).filter oneTlv
      rw [delivered_append, arrived_append, h.recv]; simp [delivered, arrived]
    · intro _
      show accepted (v.out ++ [_]) = finished (v.out ++ [_]) ++ (v.sends ++ [p])
      rw [accepted_append, finished_append, h.send hu]; simp [accepted, finished]
    · show finished (v.out ++ [_]) <+: accepted (v.out ++ [_])
      rw [accepted_append, finished_append]
      simp only [finished, List.append_nil]
      exact h.sendPre.trans (List.prefix_append _ _)
    · intro b t hm; exact h.times b t (mem_snoc_deliver (fun _ _ e => by cases e) hm)
    · intro due ht hr b t hm; exact h.quiet due ht hr b t (mem_snoc_deliver (fun _ _ e => by cases e) hm)
    · exact h.idle.other (fun t e => by cases e)
    · exact h.timerOn
    · exact h.hasTimer
    · exact h.noExpiry
  | leave n hu hn =>
    constructor
    · refine .snoc h.path ?_
      rw [hu]
      rcases hn with rfl | rfl
      · exact .closing
      · exact .failed
    · show delivered (v.out ++ [_]) = (arrived (v.out ++ [_])).filter oneTlv
      rw [delivered_append, arrived_append, h.recv]; simp [delivered, arrived]
    · intro hx
      rcases hn with rfl | rfl <;> cases hx
    · show finished (v.out ++ [_]) <+: accepted (v.out ++ [_])
      rw [accepted_append, finished_append]
      simpa [finished, accepted] using h.sendPre
    · intro b t hm; exact h.times b t (mem_snoc_deliver (fun _ _ e => by cases e) hm)
    · intro due ht hr b t hm; exact h.quiet due ht hr b t (mem_snoc_deliver (fun _ _ e => by cases e) hm)
    · exact h.idle.other (fun t e => by cases e)
    · exact h.timerOn
    · intro hx
      rcases hn with rfl | rfl <;> cases hx
    · exact h.noExpiry
  | closed hs =>
    constructor
    · refine .snoc h.path ?_
      rcases hs with hs | hs <;> rw [hs]
      · exact .closed1
      · exact .closed2
    · show delivered (v.out ++ [_]) = (arrived (v.out ++ [_])).filter oneTlv
      rw [delivered_append, arrived_append, h.recv]; simp [delivered, arrived]
    · intro hx; cases hx
    · show finished (v.out ++ [_]) <+: accepted (v.out ++ [_])
      rw [accepted_append, finished_append]
      simpa [finished, accepted] using h.sendPre
    · intro b t hm; exact h.times b t (mem_snoc_deliver (fun _ _ e => by cases e) hm)
    · intro due ht hr b t hm; exact h.quiet due ht hr b t (mem_snoc_deliver (fun _ _ e => by cases e) hm)
    · exact h.idle.other (fun t e => by cases e)
    · exact h.timerOn
    · intro hx; cases hx
    · exact h.noExpiry
  | arrive b hc => exact vinv_arrive h hc (Or.inl rfl)
  | sent p r ok hu hs =>
    have hx1 : ∀ b t, (if ok then Out.sent p else .unsent p) ≠ .deliver b t := by cases ok <;> intro b t e <;> cases e
    have hx2 : ∀ t, (if ok then Out.sent p else .unsent p) ≠ .idle t := by cases ok <;> intro t e <;> cases e
    have hacc : accepted [if ok then Out.sent p else .unsent p] = [] := by cases ok <;> rfl
    have hfin : finished [if ok then Out.sent p else .unsent p] = [p] := by cases ok <;> rfl
    have hs' := h.send hu
    rw [hs] at hs'
    constructor
    · refine .snoc h.path ?_
      rw [hu]
      cases ok
      · exact .unsent
      · exact .sent
    · show delivered (v.out ++ [_]) = (arrived (v.out ++ [_])).filter oneTlv
      rw [delivered_append, arrived_append, h.recv]
      cases ok <;> simp [delivered, arrived]
    · intro _
      show accepted (v.out ++ [_]) = finished (v.out ++ [_]) ++ r
      rw [accepted_append, finished_append, hacc, hfin, hs']; simp
    · show finished (v.out ++ [_]) <+: accepted (v.out ++ [_])
      rw [accepted_append, finished_append, hacc, hfin, hs']
      exact ⟨r, by simp⟩
    · intro b t hm; exact h.times b t (mem_snoc_deliver hx1 hm)
    · intro due ht hr b t hm; exact h.quiet due ht hr b t (mem_snoc_deliver hx1 hm)
    · exact h.idle.other hx2
    · exact h.timerOn
    · exact h.hasTimer
    · exact h.noExpiry
  | onDemand hne hd =>
    constructor
    · exact .snoc h.path .onDemand
    · show delivered (v.out ++ [_]) = (arrived (v.out ++ [_])).filter oneTlv
      rw [delivered_append, arrived_append, h.recv]; simp [delivered, arrived]
    · intro hu
      show accepted (v.out ++ [_]) = finished (v.out ++ [_]) ++ v.sends
      rw [accepted_append, finished_append]
      simpa [accepted, finished] using h.send hu
    · show finished (v.out ++ [_]) <+: accepted (v.out ++ [_])
      rw [accepted_append, finished_append]
      simpa [finished, accepted] using h.sendPre
    · intro b t hm; exact h.times b t (mem_snoc_deliver (fun _ _ e => by cases e) hm)
    · intro due ht hr b t hm
      have := h.times b t (mem_snoc_deliver (fun _ _ e => by cases e) hm)
      dsimp only at ht
      split at ht
      · cases ht; omega
      · cases ht
    · exact h.idle.other (fun t e => by cases e)
    · intro due ht
      dsimp only at ht
      split at ht
      · exact ⟨rfl, by assumption⟩
      · cases ht
    · intro _ _ hT
      exact ⟨now + T, by simp [hT], by simp [hT]⟩
    · intro hx
      rcases hx with hx | hx
      · exact absurd rfl hx
      · simp [hx]
  | persist p hp hd =>
    exact { path := h.path, recv := h.recv, send := h.send, sendPre := h.sendPre, times := h.times, quiet := fun due ht => (by cases ht),
            idle := h.idle, timerOn := fun due ht => (by cases ht), hasTimer := fun _ hx => absurd hx hp, noExpiry := fun _ => rfl }
  | fire due ht hle hr hs hd =>
    constructor
    · exact .snoc h.path .idle
    · show delivered (v.out ++ [_]) = (arrived (v.out ++ [_])).filter oneTlv
      rw [delivered_append, arrived_append, h.recv]; simp [delivered, arrived]
    · intro hu; exact absurd hu hs
    · show finished (v.out ++ [_]) <+: accepted (v.out ++ [_])
      rw [accepted_append, finished_append]
      simpa [finished, accepted] using h.sendPre
    · intro b t hm; exact h.times b t (mem_snoc_deliver (fun _ _ e => by cases e) hm)
    · intro due ht; cases ht
    · refine h.idle.snoc (fun t e p u hm => ?_)
      cases e
      have := h.quiet due ht hr p u hm
      omega
    · intro due ht; cases ht
    · intro hu; exact absurd hu hs
    · exact h.noExpiry
  | fireUp due ht hle hr hu =>
    constructor
    · have : Path .up ((v.out ++ [.idle now]) ++ [.state .up .closing]) .closing := .snoc (.snoc h.path .idle) (hu ▸ .closing)
      simpa using this
    · show delivered (v.out ++ [_, _]) = (arrived (v.out ++ [_, _])).filter oneTlv
      rw [delivered_append, arrived_append, h.recv]; simp [delivered, arrived]
    · intro hx; cases hx
    · show finished (v.out ++ [_, _]) <+: accepted (v.out ++ [_, _])
      rw [accepted_append, finished_append]
      simpa [finished, accepted] using h.sendPre
    · intro b t hm
      refine h.times b t ?_
      simpa using hm
    · intro due ht; cases ht
    · have : IdleOk T ((v.out ++ [.idle now]) ++ [.state .up .closing]) := by
        refine IdleOk.other (h.idle.snoc (fun t e p u hm => ?_)) (fun t e => by cases e)
        cases e
        have := h.quiet due ht hr p u hm
        omega
      simpa using this
    · intro due ht; cases ht
    · intro hx; cases hx
    · exact h.noExpiry
  | again due ht hle hr hd =>
    have ho := h.timerOn due ht
    exact { path := h.path, recv := h.recv, send := h.send, sendPre := h.sendPre, times := h.times,
            quiet := fun d hd _ b t hm => (by cases hd; have := h.times b t hm; omega),
            idle := h.idle, timerOn := fun _ _ => ho, hasTimer := fun _ _ _ => ⟨_, rfl, rfl⟩,
            noExpiry := fun hx => (by rcases hx with hx | hx; exact absurd ho.1 hx; have := ho.2; omega) }
  | free hs =>
    exact { path := h.path, recv := h.recv, send := h.send, sendPre := h.sendPre, times := h.times, quiet := fun due ht => (by cases ht),
            idle := h.idle, timerOn := fun due ht => (by cases ht), hasTimer := fun hx => (by rw [show v.state = _ from hs] at hx; cases hx),
            noExpiry := h.noExpiry }

theorem vinv_acts {T now : Nat} {v w : View} (h : VInv T now v) (a : Acts T now v w) : VInv T now w := by
  induction a with
  | refl => exact h
  | tail _ a ih => exact vinv_act ih a

theorem acts_ep {T now : Nat} {v w : View} (a : Acts T now v w) : w.ep = v.ep := by
  induction a with
  | refl => rfl
  | tail _ a ih => rw [← ih]; cases a <;> rfl

theorem acts_via {T now : Nat} {v w : View} (a : Acts T now v w) : viaChannel w.out = viaChannel v.out := by
  induction a with
  | refl => rfl
  | tail _ a ih =>
    rw [← ih]
    cases a with
    | arrive b hc =>
      simp only [arriveView, viaChannel_append]
      split <;> simp [viaChannel]
    | sent p r ok => cases ok <;> simp [viaChannel_append, viaChannel]
    | _ => simp [viaChannel_append, viaChannel]

/-- A CLOSED face stays CLOSED. -/
theorem acts_closed {T now : Nat} {v w : View} (a : Acts T now v w) (h : v.state = .closed) : w.state = .closed := by
  induction a with
  | refl => exact h
  | tail _ a ih => cases a <;> simp_all [arriveView]

/-- If scheduled functions run in time: the timer has not passed, and will run at most `2 T` after the last activity. -/
structure Timely (T now : Nat) (v : View) : Prop where
  due : ∀ due, v.timer = some due → now ≤ due
  bound : ∀ due, v.timer = some due → due ≤ lastActive v.out + 2 * T
  boundRecent : ∀ due, v.timer = some due → v.recent = true → due ≤ lastActive v.out + T

theorem timely_new (T now ep : Nat) (p : Persist) : Timely T now (view (newFace T now ep p)) := by
  by_cases hp : p = .onDemand ∧ T > 0
  · obtain ⟨rfl, hT⟩ := hp
    constructor <;> simp [newFace, view, hT, scheduleIdle, lastActive] <;> omega
  · constructor <;> simp [newFace, view, hp]

theorem timely_arrive {T now : Nat} {v : View} {o : Out} {b : Bytes} (h : Timely T now v) (ho : o = .got b ∨ o = .dispatched b)
    (hq : ∀ due, v.timer = some due → v.recent = false → due ≤ now + T) : Timely T now (arriveView now v o b) := by
  have hl : lastActive (arriveView now v o b).out = max (lastActive v.out) (if oneTlv b then now else 0) := by
    simp only [arriveView, lastActive_append]
    rcases ho with rfl | rfl <;> cases oneTlv b <;> simp [lastActive]
  constructor
  · exact h.due
  · intro due ht
    rw [hl]
    have := h.bound due ht
    omega
  · intro due ht hr
    rw [hl]
    cases hrec : v.recent with
    | true => have := h.boundRecent due ht hrec; omega
    | false =>
      have h1 : oneTlv b = true := by simpa [arriveView, hrec] using hr
      have := hq due ht hrec
      simp only [h1]
      simp; omega

/-- The function is never scheduled further ahead than `T`. -/
def Near (T now : Nat) (v : View) : Prop := ∀ due, v.timer = some due → due ≤ now + T

theorem near_new (T now ep : Nat) (p : Persist) : Near T now (view (newFace T now ep p)) := by
  intro due h
  by_cases hp : p = .onDemand ∧ T > 0
  · obtain ⟨rfl, hT⟩ := hp
    simp [newFace, view, hT, scheduleIdle] at h
    omega
  · simp [newFace, view, hp] at h

theorem near_act {T now : Nat} {v w : View} (h : Near T now v) (a : Act T now v w) : Near T now w := by
  cases a with
  | onDemand hne hd =>
    intro due ht
    dsimp only at ht
    split at ht
    · cases ht; omega
    · cases ht
  | persist => intro due ht; cases ht
  | fire => intro due ht; cases ht
  | fireUp => intro due ht; cases ht
  | free => intro due ht; cases ht
  | again => intro due ht; cases ht; omega
  | _ => exact h

theorem near_acts {T now : Nat} {v w : View} (h : Near T now v) (a : Acts T now v w) : Near T now w := by
  induction a with
  | refl => exact h
  | tail _ a ih => exact near_act ih a

theorem timely_act {T now : Nat} {v w : View} (h : Timely T now v) (hn : Near T now v) (a : Act T now v w) : Timely T now w := by
  have keep : ∀ o : List Out, (∀ due, v.timer = some due → due ≤ lastActive (v.out ++ o) + 2 * T) ∧
      (∀ due, v.timer = some due → v.recent = true → due ≤ lastActive (v.out ++ o) + T) := by
    intro o
    rw [lastActive_append]
    constructor
    · intro due ht; have := h.bound due ht; omega
    · intro due ht hr; have := h.boundRecent due ht hr; omega
  cases a with
  | accept p hu => exact ⟨h.due, (keep _).1, (keep _).2⟩
  | leave n hu hx => exact ⟨h.due, (keep _).1, (keep _).2⟩
  | closed hs => exact ⟨h.due, (keep _).1, (keep _).2⟩
  | arrive b hc => exact timely_arrive h (Or.inl rfl) (fun due ht _ => hn due ht)
  | sent p r ok hu hs => exact ⟨h.due, (keep _).1, (keep _).2⟩
  | onDemand hne hd =>
    have hl : lastActive (v.out ++ [.onDemand now]) = max (lastActive v.out) now := by simp [lastActive_append, lastActive]
    constructor <;> intro due ht <;> dsimp only at ht ⊢ <;> (try rw [hl]) <;> split at ht
    · cases ht; omega
    · cases ht
    · cases ht; omega
    · cases ht
    · cases ht; intro _; omega
    · cases ht
  | persist p hp hd => exact ⟨fun _ ht => (by cases ht), fun _ ht => (by cases ht), fun _ ht => (by cases ht)⟩
  | fire due ht hle hr hs hd => exact ⟨fun _ ht => (by cases ht), fun _ ht => (by cases ht), fun _ ht => (by cases ht)⟩
  | fireUp due ht hle hr hu => exact ⟨fun _ ht => (by cases ht), fun _ ht => (by cases ht), fun _ ht => (by cases ht)⟩
  | again due ht hle hr hd =>
    have h1 := h.due due ht
    have h2 := h.boundRecent due ht hr
    refine ⟨fun d hd => ?_, fun d hd => ?_, fun d hd hx => (by cases hx)⟩
    · cases hd; omega
    · cases hd
      show now + T ≤ lastActive v.out + 2 * T
      omega
  | free hs => exact ⟨fun _ ht => (by cases ht), fun _ ht => (by cases ht), fun _ ht => (by cases ht)⟩

theorem timely_acts {T now : Nat} {v w : View} (h : Timely T now v) (hn : Near T now v) (a : Acts T now v w) : Timely T now w := by
  induction a with
  | refl => exact h
  | tail a1 a ih => exact timely_act ih (near_acts hn a1) a

end Verif.Dg
