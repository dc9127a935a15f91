/-
The effects of an Ethernet face: what is delivered, in which state, and when a face is closed for inactivity.
-/
import Verif.Et.Lemmas

namespace Verif.Et
open Verif.Lp (Bytes readElem parseBlock)
open Verif.Tp (TState Persist validTransition leaving maxPacket IsPacket)

variable {c : Cfg}

/-- The parts of a face that matter here. -/
structure View where
  persist : Persist
  recent : Bool
  timer : Option Nat
  state : TState
  out : List Out

def view (f : Face) : View := ⟨f.persist, f.recent, f.timer, f.state, f.out⟩

def vEmit (v : View) (o : Out) : View := { v with out := v.out ++ [o] }

structure KeepsV (c : Cfg) (v w : View) : Prop where
  persist : w.persist = v.persist
  recent : w.recent = v.recent
  timer : w.timer = v.timer
  out : ∃ o, w.out = v.out ++ o ∧ ∀ x ∈ o, Quiet c x

theorem Keeps.view {f g : Face} (h : Keeps c f g) : KeepsV c (view f) (view g) := ⟨h.persist, h.recent, h.timer, h.out⟩

theorem KeepsV.refl (v : View) : KeepsV c v v := ⟨rfl, rfl, rfl, [], by simp, by intro x hx; cases hx⟩

/-- `EndpointId` of a packet. -/
def ep (c : Cfg) (s : Bytes) : Option Bytes := if isMulticast c.rem then some s else none

/-- The destination that a frame must have in debug builds. -/
def dest (c : Cfg) : Addr := if isMulticast c.rem then c.rem else c.loc

/-- The state of the network interface changes. -/
def isNetif : Event → Bool
  | .netif _ => true
  | _ => false

/-- What a step does. `P` holds for the frames that libpcap returns. -/
inductive Trans (c : Cfg) (nf : Bool) (P : Bytes → Prop) (now : Nat) (v w : View) : Prop
  | keep : KeepsV c v w → Trans c nf P now v w
  | refused (p : Bytes) : P p → headerOk c.debug p c.loc (dest c) = false → KeepsV c (vEmit v (.got p)) w → Trans c nf P now v w
  | unparsed (p : Bytes) : P p → headerOk c.debug p c.loc (dest c) = true → (∀ b, ¬ Carries (p.drop 14) b) → KeepsV c (vEmit v (.got p)) w →
      Trans c nf P now v w
  | delivered (p b : Bytes) : P p → headerOk c.debug p c.loc (dest c) = true → Carries (p.drop 14) b →
      KeepsV c { vEmit (vEmit v (.got p)) (.deliver b (ep c (srcOf p)) now) with recent := true } w → Trans c nf P now v w
  | dUnparsed (pl s : Bytes) : (∀ b, ¬ Carries pl b) → KeepsV c (vEmit v (.dispatched pl s)) w → Trans c nf P now v w
  | dDelivered (pl s b : Bytes) : Carries pl b →
      KeepsV c { vEmit (vEmit v (.dispatched pl s)) (.deliver b (ep c s) now) with recent := true } w → Trans c nf P now v w
  | onDemand : w = { vEmit v (.onDemand now) with persist := .onDemand, timer := if c.T > 0 then some (now + c.T) else none } →
      Trans c nf P now v w
  | other (p : Persist) : p ≠ .onDemand → w = { v with persist := p, timer := none } → Trans c nf P now v w
  | idle (due : Nat) : v.timer = some due → due ≤ now → v.recent = false → w.state ≠ .up ∧ w.state ≠ .down →
      KeepsV c { vEmit v (.idle now) with timer := none } w → Trans c nf P now v w
  | renew (due : Nat) : v.timer = some due → due ≤ now → v.recent = true → w = { v with timer := some (now + c.T), recent := false } →
      Trans c nf P now v w
  | netif (n : TState) : nf = true → n = .up ∨ n = .down → w = { vEmit v (.state v.state n) with state := n } → Trans c nf P now v w
  | dealloc : v.state = .closed → w = { v with timer := none } → Trans c nf P now v w

theorem keeps_asyncRead (f : Face) : Keeps c f (asyncRead f) := by
  unfold asyncRead
  split
  · exact ⟨rfl, rfl, rfl, rfl, rfl, fun _ _ h => h, [], by simp, by intro x hx; cases hx⟩
  · refine ⟨rfl, rfl, rfl, rfl, rfl, ?_, [], by simp [post], by intro x hx; cases hx⟩
    intro p d h
    simpa [post] using h

theorem keeps_finishRead {c : Cfg} {f g : Face} (h : finishRead c f = .ok g) : Keeps c f g := by
  unfold finishRead at h
  split at h
  · cases h
  · cases h; exact keeps_asyncRead f

theorem receive_spec {c : Cfg} {now : Nat} {f g : Face} {b s : Bytes} {l : List Act} (h : receivePayload c now f b s l = .ok g) :
    (firstBlock b = none ∧ g = f) ∨ ∃ p, firstBlock b = some p ∧ Keeps c (emit { f with recent := true } (.deliver p (ep c s) now)) g := by
  unfold receivePayload at h
  cases hb : firstBlock b with
  | none => rw [hb] at h; cases h; exact Or.inl ⟨rfl, rfl⟩
  | some p =>
    rw [hb] at h
    dsimp only at h
    split at h
    · cases h
    · exact Or.inr ⟨p, rfl, keeps_acts h⟩

theorem handleRead_trans {c : Cfg} {nf : Bool} {P : Bytes → Prop} {now : Nat} {f g : Face} {pkt : Option Bytes} {l : List Act}
    (hP : ∀ p, pkt = some p → P p) (h : handleRead c now f pkt l = .ok g) : Trans c nf P now (view f) (view g) := by
  unfold handleRead at h
  split at h
  · cases h
  · cases pkt with
    | none => exact .keep (keeps_finishRead h).view
    | some p =>
      dsimp only at h
      rw [show (if isMulticast c.rem = true then c.rem else c.loc) = dest c from rfl] at h
      cases hh : headerOk c.debug p c.loc (dest c) with
      | false =>
        rw [hh, if_neg (by decide)] at h
        exact .refused p (hP p rfl) hh (keeps_finishRead h).view
      | true =>
        rw [hh, if_pos rfl] at h
        obtain ⟨a, h1, h2⟩ := bind_ok h
        have k := keeps_finishRead h2
        rcases receive_spec h1 with ⟨hn, rfl⟩ | ⟨b, hb, hk⟩
        · exact .unparsed p (hP p rfl) hh (firstBlock_none.1 hn) k.view
        · exact .delivered p b (hP p rfl) hh (firstBlock_iff.1 hb) (hk.trans k).view

theorem handle_trans {c : Cfg} {nf : Bool} {P : Bytes → Prop} {now : Nat} {f g : Face} {x : Handler}
    (hP : ∀ p d, x = .readOk (some p) d → P p) (hD : x = .dealloc → f.state = .closed) (h : handle c now f x = .ok g) : Trans c nf P now (view f) (view g) := by
  cases x with
  | readOk pkt d => exact handleRead_trans (fun p hp => hP p d (by rw [hp])) h
  | readErr e =>
    have h : (if _ then _ else _) = _ := h
    split at h
    · exact .keep (keeps_handleError (c := c) h).view
    · cases h; exact .keep (KeepsV.refl _)
  | close => exact .keep (keeps_setState (c := c) (by decide) h).view
  | dealloc => cases h; exact .dealloc (hD rfl) rfl

/-- The frame passed the filter. -/
def FromWire (c : Cfg) (p : Bytes) : Prop := ∃ w, passes c.loc c.rem w = true ∧ p = captured w.octets

/-- The frames whose handlers are in the queue have passed the filter. -/
def Filtered (c : Cfg) (f : Face) : Prop := ∀ p d, Handler.readOk (some p) d ∈ f.q → FromWire c p

theorem step_trans {c : Cfg} {now : Nat} {f g : Face} {e : Event} (hp : Phase f) (hf : Filtered c f) (h : faceStep c now f e = .ok g) :
    Trans c (isNetif e) (FromWire c) now (view f) (view g) := by
  cases e with
  | act a =>
    simp only [faceStep] at h
    split at h
    · cases h; exact .keep (KeepsV.refl _)
    · exact .keep (keeps_act h).view
  | setPersist p =>
    simp only [faceStep] at h
    split at h
    · cases h; exact .keep (KeepsV.refl _)
    · cases h
      unfold setPersist
      split
      · exact .keep (KeepsV.refl _)
      · dsimp only
        cases p with
        | onDemand =>
          refine .onDemand ?_
          by_cases hT : c.T > 0
          · simp only [hT, and_true, if_true]; rfl
          · simp only [hT, and_false, if_false, if_true]; rfl
        | persistent => exact .other .persistent (by decide) rfl
        | permanent => exact .other .permanent (by decide) rfl
  | netif b =>
    simp only [faceStep] at h
    split at h
    · cases h; exact .keep (KeepsV.refl _)
    · unfold netif at h
      split at h
      · split at h
        · rename_i hs
          rw [show setState f .up = .ok (emit { f with state := .up } (.state f.state .up)) by simp [setState, hs, validTransition]] at h
          cases h
          exact .netif .up rfl (Or.inl rfl) rfl
        · cases h; exact .keep (KeepsV.refl _)
      · split at h
        · rename_i hs
          rw [show setState f .down = .ok (emit { f with state := .down } (.state f.state .down)) by simp [setState, hs, validTransition]] at h
          cases h
          exact .netif .down rfl (Or.inr rfl) rfl
        · cases h; exact .keep (KeepsV.refl _)
  | mtu n =>
    simp only [faceStep] at h
    cases h
    split <;> exact .keep (KeepsV.refl _)
  | wire w d b =>
    simp only [faceStep] at h
    split at h
    · rename_i hr
      unfold complete at h
      split at h
      · have := handle_trans (nf := false) (P := FromWire c) (f := { f with reading := false }) (by
          intro p d' hh
          cases hh
          exact ⟨w, hr.2, rfl⟩) (by intro hh; cases hh) h
        exact this
      · cases h; exact .keep (KeepsV.refl _)
    · cases h; exact .keep (KeepsV.refl _)
  | nothing b =>
    simp only [faceStep] at h
    split at h
    · unfold complete at h
      split at h
      · have := handle_trans (nf := false) (P := FromWire c) (f := { f with reading := false }) (by intro p d' hh; cases hh) (by intro hh; cases hh) h
        exact this
      · cases h; exact .keep (KeepsV.refl _)
    · cases h; exact .keep (KeepsV.refl _)
  | fail b =>
    simp only [faceStep] at h
    split at h
    · unfold complete at h
      split at h
      · have := handle_trans (nf := false) (P := FromWire c) (f := { f with reading := false }) (by intro p d' hh; cases hh) (by intro hh; cases hh) h
        exact this
      · cases h; exact .keep (KeepsV.refl _)
    · cases h; exact .keep (KeepsV.refl _)
  | dispatch pl s d =>
    simp only [faceStep] at h
    split at h
    · cases h; exact .keep (KeepsV.refl _)
    · rcases receive_spec h with ⟨hn, rfl⟩ | ⟨b, hb, hk⟩
      · exact .dUnparsed pl s (firstBlock_none.1 hn) (KeepsV.refl _)
      · exact .dDelivered pl s b (firstBlock_iff.1 hb) hk.view
  | timer =>
    simp only [faceStep] at h
    cases ht : f.timer with
    | none => rw [ht] at h; cases h; exact .keep (KeepsV.refl _)
    | some due =>
      rw [ht] at h
      dsimp only at h
      split at h
      · cases h; exact .keep (KeepsV.refl _)
      · rename_i hd
        have hd : due ≤ now := by omega
        unfold idleCheck at h
        dsimp only at h
        cases hr : f.recent with
        | false =>
          rw [if_pos (by rw [hr]; rfl)] at h
          refine .idle due ht hd hr ?_ (keeps_close (c := c) h).view
          by_cases hs : f.state ≠ .up ∧ f.state ≠ .down
          · rw [close_other (f := emit { f with timer := none } (.idle now)) hs] at h
            cases h
            exact hs
          · have hl := hp.live (upDown hs)
            have := close_live (f := emit { f with timer := none } (.idle now)) ⟨hl.state, hl.isOpen, hl.pcap, hl.dead, hl.q⟩
            rw [h] at this
            exact Leaving.states this
        | true =>
          rw [if_neg (by rw [hr]; decide)] at h
          cases h
          exact .renew due ht hd hr rfl
  | next =>
    simp only [faceStep] at h
    cases hq : f.q with
    | nil => rw [hq] at h; cases h; exact .keep (KeepsV.refl _)
    | cons x r =>
      rw [hq] at h
      dsimp only at h
      cases hd : f.dead with
      | true =>
        exfalso
        rcases hp with hp | hp | hp | hp
        · rw [hp.dead] at hd; cases hd
        · rw [hp.dead] at hd; cases hd
        · rw [hp.dead] at hd; cases hd
        · rw [hp.q] at hq; cases hq
      | false =>
        rw [hd, if_neg (by decide), ← hd] at h
        have := handle_trans (nf := false) (P := FromWire c) (f := { f with q := r }) (by
          intro p d' hh
          exact hf p d' (by rw [hq, hh]; exact List.mem_cons_self)) (by
          intro hh
          rcases hp with hp | hp | hp | hp
          · have := hp.q x (by rw [hq]; exact List.mem_cons_self)
            rw [hh] at this; cases this
          · obtain ⟨l, r2, h1, h2, h3⟩ := hp.q
            rw [hq] at h1
            cases l with
            | nil => cases h1; cases hh
            | cons y l =>
              cases h1
              have := h2 x List.mem_cons_self
              rw [hh] at this; cases this
          · exact hp.state
          · exact hp.state) h
        exact this
  | tick d => simp only [faceStep] at h; cases h; exact .keep (KeepsV.refl _)

/-! The queue -/

theorem receive_q {c : Cfg} {now : Nat} {f g : Face} {b s : Bytes} {l : List Act} (h : receivePayload c now f b s l = .ok g) :
    ∀ p d, Handler.readOk p d ∈ g.q → Handler.readOk p d ∈ f.q := by
  rcases receive_spec h with ⟨_, rfl⟩ | ⟨b, _, hk⟩
  · exact fun _ _ h => h
  · exact hk.q

theorem handle_q {c : Cfg} {now : Nat} {f g : Face} {x : Handler} (h : handle c now f x = .ok g) :
    ∀ p d, Handler.readOk p d ∈ g.q → Handler.readOk p d ∈ f.q := by
  cases x with
  | readOk pkt d =>
    have h : handleRead c now f pkt d = .ok g := h
    unfold handleRead at h
    split at h
    · cases h
    · cases pkt with
      | none => exact (keeps_finishRead h).q
      | some p =>
        dsimp only at h
        generalize (if isMulticast c.rem = true then c.rem else c.loc) = e at h
        split at h
        · obtain ⟨a, h1, h2⟩ := bind_ok h
          exact fun p d hh => receive_q h1 p d ((keeps_finishRead h2).q p d hh)
        · exact (keeps_finishRead h).q
  | readErr e =>
    have h : (if _ then _ else _) = _ := h
    split at h
    · exact (keeps_handleError (c := c) h).q
    · cases h; exact fun _ _ h => h
  | close => exact (keeps_setState (c := c) (by decide) h).q
  | dealloc => cases h; exact fun _ _ h => h

theorem step_q {c : Cfg} {now : Nat} {f g : Face} {e : Event} (h : faceStep c now f e = .ok g) (p : Option Bytes) (d : List Act)
    (hm : Handler.readOk p d ∈ g.q) :
    Handler.readOk p d ∈ f.q ∨ (∃ w, e = .wire w d false ∧ passes c.loc c.rem w = true ∧ p = some (captured w.octets)) ∨
      (e = .nothing false ∧ p = none) := by
  have comp : ∀ {x : Handler} {b : Bool}, complete c now { f with reading := false } x b = .ok g →
      Handler.readOk p d ∈ f.q ∨ (b = false ∧ x = .readOk p d) := by
    intro x b hh
    unfold complete at hh
    cases b with
    | true => exact Or.inl (handle_q hh p d hm)
    | false =>
      rw [if_neg (by decide)] at hh
      cases hh
      simp only [post, List.mem_append, List.mem_singleton] at hm
      rcases hm with hm | hm
      · exact Or.inl hm
      · exact Or.inr ⟨rfl, hm.symm⟩
  cases e with
  | act a =>
    simp only [faceStep] at h
    split at h
    · cases h; exact Or.inl hm
    · exact Or.inl ((keeps_act h).q p d hm)
  | setPersist x =>
    simp only [faceStep] at h
    split at h
    · cases h; exact Or.inl hm
    · cases h
      refine Or.inl ?_
      unfold setPersist at hm
      split at hm
      · exact hm
      · dsimp only at hm
        split at hm <;> split at hm <;> exact hm
  | netif b =>
    simp only [faceStep] at h
    split at h
    · cases h; exact Or.inl hm
    · refine Or.inl ?_
      have hset : ∀ n, setState f n = .ok g → Handler.readOk p d ∈ f.q := by
        intro n hs
        unfold setState at hs
        split at hs
        · cases hs; exact hm
        · split at hs
          · cases hs
            split at hm
            · simpa [post, emit] using hm
            · exact hm
          · cases hs
      unfold netif at h
      split at h
      · split at h
        · exact hset _ h
        · cases h; exact hm
      · split at h
        · exact hset _ h
        · cases h; exact hm
  | mtu n =>
    simp only [faceStep] at h
    cases h
    split at hm <;> exact Or.inl hm
  | wire w d' b =>
    simp only [faceStep] at h
    split at h
    · rename_i hr
      rcases comp h with hh | ⟨rfl, hx⟩
      · exact Or.inl hh
      · cases hx; exact Or.inr (Or.inl ⟨w, rfl, hr.2, rfl⟩)
    · cases h; exact Or.inl hm
  | nothing b =>
    simp only [faceStep] at h
    split at h
    · rcases comp h with hh | ⟨rfl, hx⟩
      · exact Or.inl hh
      · cases hx; exact Or.inr (Or.inr ⟨rfl, rfl⟩)
    · cases h; exact Or.inl hm
  | fail b =>
    simp only [faceStep] at h
    split at h
    · rcases comp h with hh | ⟨_, hx⟩
      · exact Or.inl hh
      · cases hx
    · cases h; exact Or.inl hm
  | dispatch pl s l =>
    simp only [faceStep] at h
    split at h
    · cases h; exact Or.inl hm
    · exact Or.inl (receive_q h p d hm)
  | timer =>
    simp only [faceStep] at h
    cases ht : f.timer with
    | none => rw [ht] at h; cases h; exact Or.inl hm
    | some due =>
      rw [ht] at h
      dsimp only at h
      split at h
      · cases h; exact Or.inl hm
      · unfold idleCheck at h
        dsimp only at h
        split at h
        · exact Or.inl ((keeps_close (c := c) h).q p d hm)
        · cases h; exact Or.inl hm
  | next =>
    simp only [faceStep] at h
    cases hq : f.q with
    | nil => rw [hq] at h; cases h; rw [hq] at hm; cases hm
    | cons x r =>
      rw [hq] at h
      dsimp only at h
      refine Or.inl (List.mem_cons_of_mem _ ?_)
      split at h
      · split at h
        · cases h; exact hm
        · cases h
      · exact handle_q h p d hm
  | tick n => simp only [faceStep] at h; cases h; exact Or.inl hm

theorem filtered_step {c : Cfg} {now : Nat} {f g : Face} {e : Event} (hf : Filtered c f) (h : faceStep c now f e = .ok g) : Filtered c g := by
  intro p d hm
  rcases step_q h (some p) d hm with hh | ⟨w, _, h1, h2⟩ | ⟨_, h2⟩
  · exact hf p d hh
  · cases h2; exact ⟨w, h1, rfl⟩
  · cases h2

/-! What is delivered -/

theorem arrived_append (a b : List Out) : arrived (a ++ b) = arrived a ++ arrived b := by
  induction a with
  | nil => rfl
  | cons x a ih =>
    cases x <;> simp only [List.cons_append, arrived, ih]
    split <;> rfl

theorem delivered_append (a b : List Out) : delivered (a ++ b) = delivered a ++ delivered b := by
  induction a with
  | nil => rfl
  | cons x a ih => cases x <;> simp only [List.cons_append, delivered, ih]

theorem arrived_quiet {o : List Out} (h : ∀ x ∈ o, Quiet c x) : arrived o = [] := by
  induction o with
  | nil => rfl
  | cons x o ih =>
    have h1 := h x List.mem_cons_self
    have h2 := ih (fun y hy => h y (List.mem_cons_of_mem _ hy))
    cases x <;> first | exact h2 | exact h1.elim

theorem delivered_quiet {o : List Out} (h : ∀ x ∈ o, Quiet c x) : delivered o = [] := by
  induction o with
  | nil => rfl
  | cons x o ih =>
    have h1 := h x List.mem_cons_self
    have h2 := ih (fun y hy => h y (List.mem_cons_of_mem _ hy))
    cases x <;> first | exact h2 | exact h1.elim

theorem Delivers.take_snoc {e : Bytes → Option Bytes} {a d pl s p} (h : Delivers e a d) (hc : Carries pl p) :
    Delivers e (a ++ [(pl, s)]) (d ++ [(p, e s)]) := by
  induction h with
  | nil => exact .take hc .nil
  | take h1 _ ih => exact .take h1 ih
  | skip h1 _ ih => exact .skip h1 ih

theorem Delivers.skip_snoc {e : Bytes → Option Bytes} {a d pl s} (h : Delivers e a d) (hc : ∀ p, ¬ Carries pl p) :
    Delivers e (a ++ [(pl, s)]) d := by
  induction h with
  | nil => exact .skip hc .nil
  | take h1 _ ih => exact .take h1 ih
  | skip h1 _ ih => exact .skip h1 ih

def DeliversOut (c : Cfg) (o : List Out) : Prop := Delivers (ep c) (arrived o) (delivered o)

theorem KeepsV.arrived {v w : View} (h : KeepsV c v w) : arrived w.out = arrived v.out := by
  obtain ⟨o, h1, h2⟩ := h.out
  rw [h1, arrived_append, arrived_quiet h2, List.append_nil]

theorem KeepsV.delivered {v w : View} (h : KeepsV c v w) : delivered w.out = delivered v.out := by
  obtain ⟨o, h1, h2⟩ := h.out
  rw [h1, delivered_append, delivered_quiet h2, List.append_nil]

theorem headerOk_iff {p : Bytes} {a b : Addr} : headerOk false p a b = true ↔ 60 ≤ p.length ∧ (p.drop 12).take 2 = [0x86, 0x24] := by
  unfold headerOk typeOf
  show (if p.length < 60 then false else _) = true ↔ _
  constructor
  · intro h
    split at h
    · cases h
    · split at h
      · cases h
      · rename_i h1 h2
        exact ⟨by omega, Decidable.not_not.1 h2⟩
  · rintro ⟨h1, h2⟩
    rw [if_neg (by omega), if_neg (by rw [h2]; decide), if_neg (by simp), if_neg (by simp)]

theorem delivers_trans {c : Cfg} {nf : Bool} {P : Bytes → Prop} {now : Nat} {v w : View} (hr : c.debug = false) (hd : DeliversOut c v.out) (h : Trans c nf P now v w) :
    DeliversOut c w.out := by
  unfold DeliversOut at hd ⊢
  cases h with
  | keep k => rw [k.arrived, k.delivered]; exact hd
  | refused p _ hh k =>
    rw [hr] at hh
    rw [k.arrived, k.delivered]
    simp only [vEmit, arrived_append, delivered_append, arrived, delivered, List.append_nil]
    rw [if_neg (by rw [← headerOk_iff (a := c.loc) (b := dest c), hh]; decide), List.append_nil]
    exact hd
  | unparsed p _ hh hc k =>
    rw [hr] at hh
    rw [k.arrived, k.delivered]
    simp only [vEmit, arrived_append, delivered_append, arrived, delivered, List.append_nil]
    rw [if_pos (headerOk_iff.1 hh)]
    exact hd.skip_snoc hc
  | delivered p b _ hh hc k =>
    rw [hr] at hh
    rw [k.arrived, k.delivered]
    simp only [vEmit, arrived_append, delivered_append, arrived, delivered, List.append_nil]
    rw [if_pos (headerOk_iff.1 hh)]
    exact hd.take_snoc hc
  | dUnparsed pl s hc k =>
    rw [k.arrived, k.delivered]
    simp only [vEmit, arrived_append, delivered_append, arrived, delivered, List.append_nil]
    exact hd.skip_snoc hc
  | dDelivered pl s b hc k =>
    rw [k.arrived, k.delivered]
    simp only [vEmit, arrived_append, delivered_append, arrived, delivered, List.append_nil]
    exact hd.take_snoc hc
  | onDemand hw =>
    rw [hw]
    simp only [vEmit, arrived_append, delivered_append, arrived, delivered, List.append_nil]
    exact hd
  | other p _ hw => rw [hw]; exact hd
  | idle due _ _ _ _ k =>
    rw [k.arrived, k.delivered]
    simp only [vEmit, arrived_append, delivered_append, arrived, delivered, List.append_nil]
    exact hd
  | renew due _ _ _ hw => rw [hw]; exact hd
  | netif n _ _ hw =>
    rw [hw]
    simp only [vEmit, arrived_append, delivered_append, arrived, delivered, List.append_nil]
    exact hd
  | dealloc _ hw => rw [hw]; exact hd

/-- Which frames reach the face. -/
theorem got_trans {c : Cfg} {nf : Bool} {P : Bytes → Prop} {now : Nat} {v w : View} (hd : ∀ p, Out.got p ∈ v.out → P p) (h : Trans c nf P now v w) :
    ∀ p, Out.got p ∈ w.out → P p := by
  have keep : ∀ {u : View}, KeepsV c u w → (∀ p, Out.got p ∈ u.out → P p) → ∀ p, Out.got p ∈ w.out → P p := by
    intro u k hu p hm
    obtain ⟨o, h1, h2⟩ := k.out
    rw [h1, List.mem_append] at hm
    rcases hm with hm | hm
    · exact hu p hm
    · exact (h2 _ hm).elim
  cases h with
  | keep k => exact keep k hd
  | refused p hp _ k =>
    refine keep k fun x hx => ?_
    simp only [vEmit, List.mem_append, List.mem_singleton, Out.got.injEq] at hx
    rcases hx with hx | rfl
    · exact hd x hx
    · exact hp
  | unparsed p hp _ _ k =>
    refine keep k fun x hx => ?_
    simp only [vEmit, List.mem_append, List.mem_singleton, Out.got.injEq] at hx
    rcases hx with hx | rfl
    · exact hd x hx
    · exact hp
  | delivered p b hp _ _ k =>
    refine keep k fun x hx => ?_
    simp only [vEmit, List.mem_append, List.mem_singleton, Out.got.injEq] at hx
    rcases hx with (hx | rfl) | hx
    · exact hd x hx
    · exact hp
    · cases hx
  | dUnparsed pl s _ k =>
    refine keep k fun x hx => ?_
    simp only [vEmit, List.mem_append, List.mem_singleton] at hx
    rcases hx with hx | hx
    · exact hd x hx
    · cases hx
  | dDelivered pl s b _ k =>
    refine keep k fun x hx => ?_
    simp only [vEmit, List.mem_append, List.mem_singleton] at hx
    rcases hx with (hx | hx) | hx
    · exact hd x hx
    · cases hx
    · cases hx
  | onDemand hw =>
    rw [hw]
    intro x hx
    simp only [vEmit, List.mem_append, List.mem_singleton] at hx
    rcases hx with hx | hx
    · exact hd x hx
    · cases hx
  | other p _ hw => rw [hw]; exact hd
  | idle due _ _ _ _ k =>
    refine keep k fun x hx => ?_
    simp only [vEmit, List.mem_append, List.mem_singleton] at hx
    rcases hx with hx | hx
    · exact hd x hx
    · cases hx
  | renew due _ _ _ hw => rw [hw]; exact hd
  | netif n _ _ hw =>
    rw [hw]
    intro x hx
    simp only [vEmit, List.mem_append, List.mem_singleton] at hx
    rcases hx with hx | hx
    · exact hd x hx
    · cases hx
  | dealloc _ hw => rw [hw]; exact hd

end Verif.Et
