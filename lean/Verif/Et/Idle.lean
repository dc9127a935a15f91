/-
When an Ethernet face is closed for inactivity, and in which states it has which effects.
-/
import Verif.Et.Trace

namespace Verif.Et
open Verif.Lp (Bytes)
open Verif.Tp (TState Persist validTransition leaving maxPacket)

variable {c : Cfg}

/-! Inactivity -/

/-- The delivered packets are not later than `now`. The scheduled function runs at the earliest `T` after the last packet, unless a packet has
been received since it was scheduled. A face was closed for inactivity only when there was no packet during the last `T`. -/
structure IdleInv (T now : Nat) (v : View) : Prop where
  past : ∀ p e t, Out.deliver p e t ∈ v.out → t ≤ now
  quiet : ∀ due, v.timer = some due → v.recent = false → ∀ p e t, Out.deliver p e t ∈ v.out → t + T ≤ due
  idle : ∀ before t after, v.out = before ++ Out.idle t :: after → ∀ p e u, Out.deliver p e u ∈ before → u + T ≤ t

def NoDeliver (o : List Out) : Prop := ∀ p e t, Out.deliver p e t ∉ o
def NoIdle (o : List Out) : Prop := ∀ t, Out.idle t ∉ o

/-- Extending the effects by something else than `idle`. -/
theorem idle_ext {T : Nat} {a o : List Out}
    (h : ∀ before t after, a = before ++ Out.idle t :: after → ∀ p e u, Out.deliver p e u ∈ before → u + T ≤ t) (ho : NoIdle o) :
    ∀ before t after, a ++ o = before ++ Out.idle t :: after → ∀ p e u, Out.deliver p e u ∈ before → u + T ≤ t := by
  intro before t after he p e u hm
  rcases List.append_eq_append_iff.1 he with ⟨m, h1, h2⟩ | ⟨m, h1, h2⟩
  · exact absurd (by rw [h2]; exact List.mem_append_right _ List.mem_cons_self) (ho t)
  · cases m with
    | nil =>
      exact absurd (by rw [← h2.trans (List.nil_append _)] ; exact List.mem_cons_self) (ho t)
    | cons y m =>
      cases h2
      exact h before t m h1 p e u hm

theorem quiet_noIdle {o : List Out} (h : ∀ x ∈ o, Quiet c x) : NoIdle o := fun _ hm => h _ hm
theorem quiet_noDeliver {o : List Out} (h : ∀ x ∈ o, Quiet c x) : NoDeliver o := fun _ _ _ hm => h _ hm

theorem IdleInv.keep {T now : Nat} {v w : View} (h : IdleInv T now v) (k : KeepsV c v w) : IdleInv T now w := by
  obtain ⟨o, h1, h2⟩ := k.out
  have hm : ∀ p e t, Out.deliver p e t ∈ w.out → Out.deliver p e t ∈ v.out := by
    intro p e t hm
    rw [h1, List.mem_append] at hm
    exact hm.elim id (fun hm => absurd hm (quiet_noDeliver h2 p e t))
  refine ⟨fun p e t hh => h.past p e t (hm p e t hh), ?_, ?_⟩
  · intro due ht hr p e t hh
    exact h.quiet due (k.timer ▸ ht) (k.recent ▸ hr) p e t (hm p e t hh)
  · rw [h1]; exact idle_ext h.idle (quiet_noIdle h2)

/-- An effect that is no packet. -/
theorem IdleInv.other {T now : Nat} {v : View} (h : IdleInv T now v) {o : Out} (h1 : ∀ p e t, o ≠ .deliver p e t) (h2 : ∀ t, o ≠ .idle t) :
    IdleInv T now (vEmit v o) := by
  have hm : ∀ p e t, Out.deliver p e t ∈ v.out ++ [o] → Out.deliver p e t ∈ v.out := by
    intro p e t hm
    rw [List.mem_append, List.mem_singleton] at hm
    exact hm.elim id (fun hm => absurd hm.symm (h1 p e t))
  refine ⟨fun p e t hh => h.past p e t (hm p e t hh), fun due ht hr p e t hh => h.quiet due ht hr p e t (hm p e t hh), ?_⟩
  refine idle_ext h.idle ?_
  intro t hh
  rw [List.mem_singleton] at hh
  exact h2 t hh.symm

theorem IdleInv.deliver {T now : Nat} {v : View} (h : IdleInv T now v) (p : Bytes) (e : Option Bytes) :
    IdleInv T now { vEmit v (.deliver p e now) with recent := true } := by
  refine ⟨?_, ?_, ?_⟩
  · intro p' e' t hm
    have hm : Out.deliver p' e' t ∈ v.out ++ [.deliver p e now] := hm
    rw [List.mem_append, List.mem_singleton] at hm
    rcases hm with hm | hm
    · exact h.past p' e' t hm
    · cases hm; exact Nat.le_refl _
  · intro due ht hr; cases hr
  · refine idle_ext h.idle ?_
    intro t hh
    rw [List.mem_singleton] at hh
    cases hh

theorem IdleInv.timer {T now : Nat} {v : View} (h : IdleInv T now v) {p : Persist} {r : Bool} {due : Nat} (hd : due = now + T) :
    IdleInv T now { v with persist := p, recent := r, timer := some due } := by
  refine ⟨h.past, ?_, h.idle⟩
  intro due' ht _ p e t hm
  cases ht
  have := h.past p e t hm
  omega

theorem IdleInv.noTimer {T now : Nat} {v : View} (h : IdleInv T now v) {p : Persist} {r : Bool} :
    IdleInv T now { v with persist := p, recent := r, timer := none } :=
  ⟨h.past, (by intro _ ht; cases ht), h.idle⟩

theorem IdleInv.trans {c : Cfg} {nf : Bool} {P : Bytes → Prop} {now : Nat} {v w : View} (h : IdleInv c.T now v) (t : Trans c nf P now v w) :
    IdleInv c.T now w := by
  cases t with
  | keep k => exact h.keep k
  | refused p _ _ k => exact (h.other (by intros; simp) (by intros; simp)).keep k
  | unparsed p _ _ _ k => exact (h.other (by intros; simp) (by intros; simp)).keep k
  | delivered p b _ _ _ k => exact ((h.other (by intros; simp) (by intros; simp)).deliver b _).keep k
  | dUnparsed pl s _ k => exact (h.other (by intros; simp) (by intros; simp)).keep k
  | dDelivered pl s b _ k => exact ((h.other (by intros; simp) (by intros; simp)).deliver b _).keep k
  | onDemand hw =>
    rw [hw]
    have h' : IdleInv c.T now (vEmit v (.onDemand now)) := h.other (by intros; simp) (by intros; simp)
    split
    · exact h'.timer rfl
    · exact h'.noTimer
  | other p _ hw => rw [hw]; exact h.noTimer
  | idle due ht hd hr _ k =>
    refine IdleInv.keep (v := { vEmit v (.idle now) with timer := none }) ?_ k
    refine ⟨?_, (by intro _ ht; cases ht), ?_⟩
    · intro p e t hm
      have hm : Out.deliver p e t ∈ v.out ++ [.idle now] := hm
      rw [List.mem_append, List.mem_singleton] at hm
      exact hm.elim (h.past p e t) (fun hm => by cases hm)
    · intro before t after he p e u hm
      have he : v.out ++ [.idle now] = before ++ .idle t :: after := he
      rcases List.append_eq_append_iff.1 he with ⟨m, h1, h2⟩ | ⟨m, h1, h2⟩
      · cases m with
        | nil =>
          cases h2
          rw [h1, List.append_nil] at hm
          have := h.quiet due ht hr p e u hm
          omega
        | cons y m =>
          have := congrArg List.length h2
          simp at this
      · cases m with
        | nil =>
          cases h2
          rw [List.append_nil] at h1
          rw [← h1] at hm
          have := h.quiet due ht hr p e u hm
          omega
        | cons y m =>
          cases h2
          exact h.idle before t m h1 p e u hm
  | renew due _ _ _ hw => rw [hw]; exact h.timer rfl
  | netif n _ _ hw =>
    rw [hw]
    have h' : IdleInv c.T now (vEmit v (.state v.state n)) := h.other (by intros; simp) (by intros; simp)
    exact ⟨h'.past, h'.quiet, h'.idle⟩
  | dealloc _ hw => rw [hw]; exact h.noTimer

theorem IdleInv.tick {T now : Nat} {v : View} (h : IdleInv T now v) (d : Nat) : IdleInv T (now + d) v :=
  ⟨fun p e t hm => Nat.le_trans (h.past p e t hm) (Nat.le_add_right _ _), h.quiet, h.idle⟩

/-! How long a face can be idle -/

/-- Scheduled functions run in time: the time is not beyond that of the scheduled function, and this is not too far away. -/
structure Timely (T now : Nat) (v : View) : Prop where
  near : ∀ due, v.timer = some due → due ≤ now + T
  bound : ∀ due, v.timer = some due → due ≤ lastActive v.out + 2 * T
  boundRecent : ∀ due, v.timer = some due → v.recent = true → due ≤ lastActive v.out + T

theorem lastActive_append (a b : List Out) : lastActive (a ++ b) = max (lastActive a) (lastActive b) := by
  induction a with
  | nil => simp [lastActive]
  | cons x a ih =>
    cases x <;> simp only [List.cons_append, lastActive, ih]
    all_goals omega

theorem lastActive_quiet {o : List Out} (h : ∀ x ∈ o, Quiet c x) : lastActive o = 0 := by
  induction o with
  | nil => rfl
  | cons x o ih =>
    have h1 := h x List.mem_cons_self
    have h2 := ih (fun y hy => h y (List.mem_cons_of_mem _ hy))
    cases x <;> first | exact h2 | exact h1.elim

theorem KeepsV.lastActive {v w : View} (h : KeepsV c v w) : lastActive w.out = lastActive v.out := by
  obtain ⟨o, h1, h2⟩ := h.out
  rw [h1, lastActive_append, lastActive_quiet h2]
  omega

theorem Timely.keep {T now : Nat} {v w : View} (h : Timely T now v) (k : KeepsV c v w) : Timely T now w := by
  refine ⟨?_, ?_, ?_⟩
  · intro due ht; exact h.near due (k.timer ▸ ht)
  · intro due ht; rw [k.lastActive]; exact h.bound due (k.timer ▸ ht)
  · intro due ht hr; rw [k.lastActive]; exact h.boundRecent due (k.timer ▸ ht) (k.recent ▸ hr)

theorem Timely.other {T now : Nat} {v : View} (h : Timely T now v) {o : Out} (ho : lastActive [o] = 0) : Timely T now (vEmit v o) := by
  have hl : lastActive (vEmit v o).out = lastActive v.out := by
    show lastActive (v.out ++ [o]) = _
    rw [lastActive_append, ho]; omega
  exact ⟨h.near, fun due ht => hl ▸ h.bound due ht, fun due ht hr => hl ▸ h.boundRecent due ht hr⟩

theorem Timely.deliver {T now : Nat} {v : View} (h : Timely T now v) (p : Bytes) (e : Option Bytes) :
    Timely T now { vEmit v (.deliver p e now) with recent := true } := by
  have hl : lastActive (v.out ++ [.deliver p e now]) = max (lastActive v.out) now := by
    rw [lastActive_append]; simp [lastActive]
  refine ⟨h.near, ?_, ?_⟩
  · intro due ht
    have := h.bound due ht
    show due ≤ lastActive (v.out ++ [.deliver p e now]) + 2 * T
    rw [hl]; omega
  · intro due ht _
    have := h.near due ht
    show due ≤ lastActive (v.out ++ [.deliver p e now]) + T
    rw [hl]; omega

/-- When the scheduled function runs, it is not late: `now` is its time. -/
theorem Timely.trans {c : Cfg} {nf : Bool} {P : Bytes → Prop} {now : Nat} {v w : View} (h : Timely c.T now v) (ht : ∀ due, v.timer = some due → now ≤ due)
    (t : Trans c nf P now v w) : Timely c.T now w := by
  cases t with
  | keep k => exact h.keep k
  | refused p _ _ k => exact (h.other rfl).keep k
  | unparsed p _ _ _ k => exact (h.other rfl).keep k
  | delivered p b _ _ _ k => exact ((h.other rfl).deliver b _).keep k
  | dUnparsed pl s _ k => exact (h.other rfl).keep k
  | dDelivered pl s b _ k => exact ((h.other rfl).deliver b _).keep k
  | onDemand hw =>
    rw [hw]
    have hl : lastActive (v.out ++ [.onDemand now]) = max (lastActive v.out) now := by
      rw [lastActive_append]; simp [lastActive]
    split
    · refine ⟨?_, ?_, ?_⟩
      · intro due hd; cases hd; exact Nat.le_refl _
      · intro due hd; cases hd
        show now + c.T ≤ lastActive (v.out ++ [.onDemand now]) + 2 * c.T
        rw [hl]; omega
      · intro due hd _; cases hd
        show now + c.T ≤ lastActive (v.out ++ [.onDemand now]) + c.T
        rw [hl]; omega
    · exact ⟨(by intro _ hd; cases hd), (by intro _ hd; cases hd), (by intro _ hd; cases hd)⟩
  | other p _ hw => rw [hw]; exact ⟨(by intro _ hd; cases hd), (by intro _ hd; cases hd), (by intro _ hd; cases hd)⟩
  | idle due _ _ _ _ k =>
    refine Timely.keep (v := { vEmit v (.idle now) with timer := none }) ?_ k
    exact ⟨(by intro _ hd; cases hd), (by intro _ hd; cases hd), (by intro _ hd; cases hd)⟩
  | renew due h1 h2 h3 hw =>
    rw [hw]
    have a := h.boundRecent due h1 h3
    refine ⟨?_, ?_, ?_⟩
    · intro x hd; cases hd; exact Nat.le_refl _
    · intro x hd; cases hd
      have := ht due h1
      show now + c.T ≤ lastActive v.out + 2 * c.T
      omega
    · intro x _ hr; cases hr
  | netif n _ _ hw =>
    rw [hw]
    have h' : Timely c.T now (vEmit v (.state v.state n)) := h.other rfl
    exact ⟨h'.near, h'.bound, h'.boundRecent⟩
  | dealloc _ hw => rw [hw]; exact ⟨(by intro _ hd; cases hd), (by intro _ hd; cases hd), (by intro _ hd; cases hd)⟩

/-! States -/

/-- The effects are a path that ends in the state of the face. -/
def PathTo (f g : Face) : Prop := ∀ t, Path t f.out f.state → Path t g.out g.state

theorem PathTo.refl (f : Face) : PathTo f f := fun _ h => h
theorem PathTo.trans {f g h : Face} (a : PathTo f g) (b : PathTo g h) : PathTo f h := fun t x => b t (a t x)

theorem path_emit {f : Face} {o : Out} (h : Follows f.state o f.state) : PathTo f (emit f o) := fun _ hp => .snoc hp h

theorem follows_valid {s n : TState} (h : validTransition s n = true) : Follows s (.state s n) n := by
  cases s <;> cases n <;> simp [validTransition] at h
  · exact .down
  · exact .leave (Or.inl rfl) (Or.inl rfl)
  · exact .leave (Or.inl rfl) (Or.inr rfl)
  · exact .up
  · exact .leave (Or.inr rfl) (Or.inl rfl)
  · exact .leave (Or.inr rfl) (Or.inr rfl)
  · exact .closed (Or.inl rfl)
  · exact .closed (Or.inr rfl)

theorem path_setState {f g : Face} {n : TState} (h : setState f n = .ok g) : PathTo f g := by
  unfold setState at h
  split at h
  · cases h; exact .refl _
  · split at h
    · rename_i hv
      cases h
      intro t hp
      have : Path t (f.out ++ [.state f.state n]) n := .snoc hp (follows_valid hv)
      split <;> exact this
    · cases h

theorem path_doClose (f : Face) : PathTo f (doClose f) := by
  unfold doClose post
  dsimp only
  split <;> exact fun _ h => h

theorem path_close {f g : Face} (h : close f = .ok g) : PathTo f g := by
  unfold close at h
  split at h
  · cases h; exact .refl _
  · obtain ⟨a, h1, h2⟩ := bind_ok h
    cases h2
    exact (path_setState h1).trans (path_doClose _)

theorem path_handleError {f g : Face} (h : handleError f = .ok g) : PathTo f g := by
  unfold handleError at h
  split at h
  · cases h; exact .refl _
  · obtain ⟨a, h1, h2⟩ := bind_ok h
    cases h2
    exact (path_setState h1).trans (path_doClose _)

theorem path_send {c : Cfg} {f g : Face} {p : Bytes} {ok : Bool} (h : send c f p ok = .ok g) : PathTo f g := by
  unfold send at h
  split at h
  · cases h
  · split at h
    · cases h; exact .refl _
    · rename_i hs
      have hs := upDown hs
      dsimp only at h
      generalize hf : (if f.state = .up then emit f (.counted p) else f) = f1 at h
      have hs1 : f1.state = f.state := by rw [← hf]; split <;> rfl
      have k1 : PathTo f f1 := by
        rw [← hf]; split
        · rename_i hu; exact path_emit (by rw [hu]; exact .counted)
        · exact .refl _
      split at h
      · cases h
      · split at h
        · cases h
          exact k1.trans (path_emit (.sent (by rw [hs1]; exact hs)))
        · exact k1.trans ((path_emit (.sent (by rw [hs1]; exact hs))).trans (path_handleError h))

theorem path_acts {c : Cfg} : ∀ {l : List Act} {f g : Face}, acts c f l = .ok g → PathTo f g
  | [], f, g, h => by cases h; exact .refl _
  | a :: l, f, g, h => by
    obtain ⟨x, h1, h2⟩ := bind_ok h
    have : PathTo f x := by
      cases a with
      | send p ok => exact path_send h1
      | close => exact path_close h1
    exact this.trans (path_acts h2)

theorem path_receive {c : Cfg} {now : Nat} {f g : Face} {b s : Bytes} {l : List Act} (hs : f.state ≠ .closed)
    (h : receivePayload c now f b s l = .ok g) : PathTo f g := by
  unfold receivePayload at h
  split at h
  · cases h; exact .refl _
  · split at h
    · cases h
    · refine PathTo.trans ?_ (path_acts h)
      intro t hp
      exact .snoc hp (.deliver hs)

theorem path_finishRead {c : Cfg} {f g : Face} (h : finishRead c f = .ok g) : PathTo f g := by
  unfold finishRead at h
  split at h
  · cases h
  · cases h
    unfold asyncRead
    split <;> exact fun _ h => h

theorem path_handleRead {c : Cfg} {now : Nat} {f g : Face} {pkt : Option Bytes} {l : List Act} (hp : f.pcap = true → f.state = .up ∨ f.state = .down)
    (h : handleRead c now f pkt l = .ok g) : PathTo f g := by
  unfold handleRead at h
  cases hc : f.pcap with
  | false => rw [hc] at h; cases h
  | true =>
    have hs := hp hc
    rw [if_neg (by rw [hc]; decide)] at h
    cases pkt with
    | none => exact path_finishRead h
    | some p =>
      dsimp only at h
      generalize (if isMulticast c.rem = true then c.rem else c.loc) = e at h
      have k1 : PathTo f (emit f (.got p)) := path_emit (.got hs)
      split at h
      · obtain ⟨a, h1, h2⟩ := bind_ok h
        refine k1.trans ((path_receive ?_ h1).trans (path_finishRead h2))
        show f.state ≠ .closed
        rcases hs with hs | hs <;> rw [hs] <;> decide
      · exact k1.trans (path_finishRead h)

theorem path_handle {c : Cfg} {now : Nat} {f g : Face} {x : Handler} (hp : f.pcap = true → f.state = .up ∨ f.state = .down)
    (h : handle c now f x = .ok g) : PathTo f g := by
  cases x with
  | readOk pkt d => exact path_handleRead hp h
  | readErr e =>
    have h : (if _ then _ else _) = _ := h
    split at h
    · exact path_handleError h
    · cases h; exact .refl _
  | close => exact path_setState h
  | dealloc => cases h; exact fun _ h => h

theorem step_path {c : Cfg} {now : Nat} {f g : Face} {e : Event} (hp : Phase f) (h : faceStep c now f e = .ok g) : PathTo f g := by
  have hpc : f.pcap = true → f.state = .up ∨ f.state = .down := fun hh => (hp.livePcap hh).state
  have comp : ∀ {x : Handler} {b : Bool}, complete c now { f with reading := false } x b = .ok g → PathTo f g := by
    intro x b hh
    unfold complete at hh
    split at hh
    · have := path_handle (f := { f with reading := false }) hpc hh
      exact this
    · cases hh; exact fun _ h => h
  cases e with
  | act a =>
    simp only [faceStep] at h
    split at h
    · cases h; exact .refl _
    · cases a with
      | send p ok => exact path_send h
      | close => exact path_close h
  | setPersist x =>
    simp only [faceStep] at h
    split at h
    · cases h; exact .refl _
    · cases h
      unfold setPersist
      split
      · exact .refl _
      · dsimp only
        have hd : ∀ t, Path t f.out f.state → Path t (f.out ++ [.onDemand now]) f.state := fun t hh => .snoc hh .onDemand
        split <;> split <;> first | exact hd | exact fun _ h => h
  | netif b =>
    simp only [faceStep] at h
    split at h
    · cases h; exact .refl _
    · unfold netif at h
      split at h
      · split at h
        · exact path_setState h
        · cases h; exact .refl _
      · split at h
        · exact path_setState h
        · cases h; exact .refl _
  | mtu n =>
    simp only [faceStep] at h
    cases h
    split <;> exact fun _ h => h
  | wire w d b =>
    simp only [faceStep] at h
    split at h
    · exact comp h
    · cases h; exact .refl _
  | nothing b =>
    simp only [faceStep] at h
    split at h
    · exact comp h
    · cases h; exact .refl _
  | fail b =>
    simp only [faceStep] at h
    split at h
    · exact comp h
    · cases h; exact .refl _
  | dispatch pl s l =>
    simp only [faceStep] at h
    split at h
    · cases h; exact .refl _
    · rename_i hc
      have hc : f.state ≠ .closed := fun hh => hc (Or.inl hh)
      exact PathTo.trans (path_emit (.dispatched hc)) (path_receive hc h)
  | timer =>
    simp only [faceStep] at h
    cases ht : f.timer with
    | none => rw [ht] at h; cases h; exact .refl _
    | some due =>
      rw [ht] at h
      dsimp only at h
      split at h
      · cases h; exact .refl _
      · unfold idleCheck at h
        dsimp only at h
        split at h
        · refine PathTo.trans (g := emit { f with timer := none } (.idle now)) ?_ (path_close h)
          intro t hp
          exact .snoc hp .idle
        · cases h; exact fun _ h => h
  | next =>
    simp only [faceStep] at h
    cases hq : f.q with
    | nil => rw [hq] at h; cases h; exact .refl _
    | cons x r =>
      rw [hq] at h
      dsimp only at h
      split at h
      · split at h
        · cases h; exact fun _ h => h
        · cases h
      · have := path_handle (f := { f with q := r }) hpc h
        exact this
  | tick n => simp only [faceStep] at h; cases h; exact .refl _

/-! A face that is not UP or DOWN does not become so. -/

theorem Follows.det {t u v : TState} {x : Out} (h : Follows t x u) (h' : Follows t x v) : u = v := by
  cases h <;> cases h' <;> rfl

theorem Path.det {t u v : TState} {o : List Out} (h : Path t o u) (h' : Path t o v) : u = v := by
  induction h generalizing v with
  | nil =>
    generalize ho : ([] : List Out) = o at h'
    cases h' with
    | nil => rfl
    | snoc a b => simp at ho
  | snoc a b ih =>
    rename_i u1 v1 o1 x
    generalize ho : o1 ++ [x] = o at h'
    cases h' with
    | nil => simp at ho
    | snoc c d =>
      have := List.append_inj' ho rfl
      obtain ⟨rfl, hx⟩ := this
      cases hx
      cases ih c
      exact b.det d

theorem Path.split {t v : TState} {a b : List Out} (h : Path t (a ++ b) v) : ∃ u, Path t a u ∧ Path u b v := by
  generalize ho : a ++ b = o at h
  induction h generalizing a b with
  | nil =>
    obtain ⟨rfl, rfl⟩ := List.append_eq_nil_iff.1 ho
    exact ⟨t, .nil, .nil⟩
  | snoc p f ih =>
    rename_i u1 v1 o1 x
    rcases List.eq_nil_or_concat b with rfl | ⟨b', y, rfl⟩
    · rw [List.append_nil] at ho
      rw [ho]
      exact ⟨v1, .snoc p f, .nil⟩
    · rw [List.concat_eq_append] at ho ⊢
      rw [← List.append_assoc] at ho
      have := List.append_inj' ho rfl
      obtain ⟨h1, hx⟩ := this
      cases hx
      obtain ⟨w, h2, h3⟩ := ih h1
      exact ⟨w, h2, .snoc h3 f⟩

theorem Path.gone {t u : TState} {o : List Out} (h : Path t o u) (ht : t ≠ .up ∧ t ≠ .down) : u ≠ .up ∧ u ≠ .down := by
  induction h with
  | nil => exact ht
  | snoc _ f ih =>
    cases f with
    | down => exact absurd rfl ih.1
    | up => exact absurd rfl ih.2
    | leave h1 _ => rcases h1 with rfl | rfl; exact absurd rfl ih.1; exact absurd rfl ih.2
    | closed _ => exact ⟨by decide, by decide⟩
    | counted => exact absurd rfl ih.1
    | sent _ => exact ih
    | got _ => exact ih
    | dispatched _ => exact ih
    | deliver _ => exact ih
    | onDemand => exact ih
    | idle => exact ih

/-- An on-demand face that is UP or DOWN has a scheduled function. -/
def HasTimer (T : Nat) (v : View) : Prop := (v.state = .up ∨ v.state = .down) → v.persist = .onDemand → 0 < T → v.timer ≠ none

theorem HasTimer.trans {c : Cfg} {nf : Bool} {P : Bytes → Prop} {now : Nat} {v w : View} (h : HasTimer c.T v)
    (hb : (w.state = .up ∨ w.state = .down) → v.state = .up ∨ v.state = .down) (t : Trans c nf P now v w) : HasTimer c.T w := by
  intro hs hp hT
  have hv := hb hs
  have keep : ∀ {u : View}, KeepsV c u w → u.persist = v.persist → u.timer = v.timer → w.timer ≠ none := by
    intro u k h1 h2
    rw [k.timer, h2]
    exact h hv (by rw [← h1, ← k.persist]; exact hp) hT
  cases t with
  | keep k => exact keep k rfl rfl
  | refused p _ _ k => exact keep k rfl rfl
  | unparsed p _ _ _ k => exact keep k rfl rfl
  | delivered p b _ _ _ k => exact keep k rfl rfl
  | dUnparsed pl s _ k => exact keep k rfl rfl
  | dDelivered pl s b _ k => exact keep k rfl rfl
  | onDemand hw => rw [hw]; simp [hT]
  | other p hne hw => rw [hw] at hp; exact absurd hp hne
  | idle due _ _ _ hx k => rcases hs with hs | hs; exact absurd hs hx.1; exact absurd hs hx.2
  | renew due _ _ _ hw => rw [hw]; simp
  | netif n _ _ hw => rw [hw] at hp ⊢; exact h hv hp hT
  | dealloc hc hw => rw [hc] at hv; rcases hv with hv | hv <;> cases hv

/-- Only on-demand faces have a scheduled function. -/
def OnlyOnDemand (T : Nat) (v : View) : Prop := v.timer ≠ none → v.persist = .onDemand ∧ 0 < T

theorem OnlyOnDemand.trans {c : Cfg} {nf : Bool} {P : Bytes → Prop} {now : Nat} {v w : View} (h : OnlyOnDemand c.T v) (t : Trans c nf P now v w) :
    OnlyOnDemand c.T w := by
  have keep : ∀ {u : View}, KeepsV c u w → u.persist = v.persist → u.timer = v.timer → OnlyOnDemand c.T w := by
    intro u k h1 h2 ht
    rw [k.timer, h2] at ht
    rw [k.persist, h1]
    exact h ht
  cases t with
  | keep k => exact keep k rfl rfl
  | refused p _ _ k => exact keep k rfl rfl
  | unparsed p _ _ _ k => exact keep k rfl rfl
  | delivered p b _ _ _ k => exact keep k rfl rfl
  | dUnparsed pl s _ k => exact keep k rfl rfl
  | dDelivered pl s b _ k => exact keep k rfl rfl
  | onDemand hw =>
    rw [hw]
    intro ht
    refine ⟨rfl, ?_⟩
    dsimp only at ht
    split at ht
    · assumption
    · exact absurd rfl ht
  | other p hne hw => rw [hw]; intro ht; exact absurd rfl ht
  | idle due _ _ _ hx k => intro ht; rw [k.timer] at ht; exact absurd rfl ht
  | renew due h1 _ _ hw => rw [hw]; intro _; exact h (by rw [h1]; simp)
  | netif n _ _ hw => rw [hw]; exact h
  | dealloc hc hw => rw [hw]; intro ht; exact absurd rfl ht

end Verif.Et
