/-
C119: Ethernet faces over time: the state of the interface, permanent faces, waiting for frames, inactivity.
-/
import Verif.Et.Same

namespace Verif.Et
open Verif.Lp (Bytes parseBlock)
open Verif.Tp (TState Persist validTransition leaving maxPacket)

variable {c : Cfg}

/-- Whether the network interface is running after the events. -/
def runningAfter (running : Bool) : List Event → Bool
  | [] => running
  | .netif b :: es => runningAfter b es
  | _ :: es => runningAfter running es

theorem back_step {t : TState} {s s' : Sys} {e : Event} (h : Inv c t s) (hs : step c s e = .ok s') :
    (s'.f.state = .up ∨ s'.f.state = .down) → s.f.state = .up ∨ s.f.state = .down := by
  have h1 := (step_ok hs).1
  exact inv_back h.path (step_path h.phase h1 t h.path) (step_trans h.phase h.filtered h1)

theorem run_live {t : TState} : ∀ {es : List Event} {s s' : Sys} {running : Bool}, Inv c t s →
    ((s.f.state = .up ∨ s.f.state = .down) → s.f.state = if running then .up else .down) → run c s es = .ok s' →
    (s'.f.state = .up ∨ s'.f.state = .down) → s'.f.state = if runningAfter running es then .up else .down
  | [], s, s', r, _, hr, he, hl => by cases he; exact hr hl
  | e :: es, s, s', r, hi, hr, he, hl => by
    obtain ⟨a, h1, h2⟩ := bind_ok he
    have hia := inv_step hi h1
    have key : ∀ r', ((a.f.state = .up ∨ a.f.state = .down) → a.f.state = if r' then .up else .down) →
        s'.f.state = if runningAfter r' es then .up else .down := fun r' hh => run_live hia hh h2 hl
    have st : (a.f.state = .up ∨ a.f.state = .down) → StepLive e s.f a.f := by
      intro ha
      exact step_live hi.phase (step_ok h1).1 (hia.phase.live ha) (back_step hi h1)
    cases e with
    | netif b => exact key b fun ha => (st ha).state
    | _ => exact key r fun ha => ((st ha).state).trans (hr (back_step hi h1 ha))

/-- C119: as long as a face is neither closed nor failed, it is UP while the network interface is running, and DOWN otherwise. -/
theorem C119_interface (c : Cfg) (now : Nat) (p : Persist) (mtu : Nat) (running : Bool) (es : List Event) (s : Sys)
    (h : run c (start c now p mtu running) es = .ok s) (hs : s.f.state = .up ∨ s.f.state = .down) :
    s.f.state = if runningAfter running es then .up else .down := by
  refine run_live (inv_init c now p mtu running) ?_ h hs
  intro _
  show (newFace c now p mtu running).state = _
  unfold newFace scheduleIdle; dsimp only; split <;> rfl

/-- The frames that have arrived and wait for being processed. -/
def pendingFrames (f : Face) : Nat := (f.q.filter fun h => match h with | .readOk _ _ => true | _ => false).length

/-- C119 (proved part): as long as waiting does not fail, a face that is UP or DOWN waits for frames, or there is one to be processed. -/
theorem C119_receiving_partial (c : Cfg) (now : Nat) (p : Persist) (mtu : Nat) (running : Bool) (es : List Event)
    (hn : ∀ b, .fail b ∉ es) (s : Sys) (h : run c (start c now p mtu running) es = .ok s) (hs : s.f.state = .up ∨ s.f.state = .down) :
    s.f.reading = true ∨ 0 < pendingFrames s.f := by
  have key : ∀ {es : List Event} {s s' : Sys}, (∀ b, .fail b ∉ es) → Inv c (first running) s →
      ((s.f.state = .up ∨ s.f.state = .down) → (∀ h ∈ s.f.q, ∃ p d, h = Handler.readOk p d) ∧ (s.f.reading = true ∨ HasOk s.f)) →
      run c s es = .ok s' → (s'.f.state = .up ∨ s'.f.state = .down) → s'.f.reading = true ∨ HasOk s'.f := by
    intro es
    induction es with
    | nil => intro s s' _ _ hr he hl; cases he; exact (hr hl).2
    | cons e es ih =>
      intro s s' hn hi hr he hl
      obtain ⟨a, h1, h2⟩ := bind_ok he
      have hia := inv_step hi h1
      refine ih (fun b hm => hn b (List.mem_cons_of_mem _ hm)) hia ?_ h2 hl
      intro ha
      have st := step_live hi.phase (step_ok h1).1 (hia.phase.live ha) (back_step hi h1)
      obtain ⟨r1, r2⟩ := hr st.live.state
      refine st.waits ?_ r1 r2
      rintro b rfl
      exact hn b List.mem_cons_self
  have hq : (newFace c now p mtu running).q = [] ∧ (newFace c now p mtu running).reading = true := by
    unfold newFace scheduleIdle; dsimp only; split <;> exact ⟨rfl, rfl⟩
  have := key hn (inv_init c now p mtu running) (fun _ => ⟨fun x hh => (by have hh : x ∈ (newFace c now p mtu running).q := hh; rw [hq.1] at hh; cases hh), Or.inl hq.2⟩) h hs
  rcases this with h | ⟨p, d, hm⟩
  · exact Or.inl h
  · refine Or.inr ?_
    unfold pendingFrames
    exact List.length_pos_of_mem (List.mem_filter.2 ⟨hm, rfl⟩)

/-! Permanent faces -/

/-- The face is not closed, not even by what processes its packets, and its persistency is not changed. -/
def NotClosing : Event → Prop
  | .act a => a ≠ .close
  | .wire _ l _ => .close ∉ l
  | .dispatch _ _ l => .close ∉ l
  | .setPersist _ => False
  | _ => True

/-- A permanent face that is UP or DOWN; if `deaf`, no frame arrives. -/
structure Perm (deaf : Bool) (f : Face) : Prop where
  live : Live f
  permanent : f.persist = .permanent
  timer : f.timer = none
  handlers : ∀ p d, Handler.readOk p d ∈ f.q → .close ∉ d
  deaf : deaf = true → f.reading = false ∧ (∀ p d, Handler.readOk p d ∉ f.q) ∧ ∀ b, Out.got b ∉ f.out

theorem handleError_perm {f : Face} (h : f.persist = .permanent) : handleError f = .ok f := by
  unfold handleError; rw [if_pos h]

theorem Keeps.gotFree {f g : Face} (k : Keeps c f g) (h : ∀ b, Out.got b ∉ f.out) : ∀ b, Out.got b ∉ g.out := by
  obtain ⟨o, h1, h2⟩ := k.out
  intro b hm
  rw [h1, List.mem_append] at hm
  rcases hm with hm | hm
  · exact h b hm
  · exact (h2 _ hm).elim

theorem Perm.keep {deaf : Bool} {f g : Face} (h : Perm deaf f) (k : Keeps c f g) (hl : Live g) (hr : g.reading = f.reading) : Perm deaf g := by
  refine ⟨hl, k.persist.trans h.permanent, k.timer.trans h.timer, fun p d hm => h.handlers p d (k.q p d hm), fun hd => ?_⟩
  obtain ⟨h1, h2, h3⟩ := h.deaf hd
  exact ⟨hr.trans h1, fun p d hm => h2 p d (k.q p d hm), k.gotFree h3⟩

theorem perm_send {deaf : Bool} {f g : Face} {p : Bytes} {ok : Bool} (h : Perm deaf f) (hs : send c f p ok = .ok g) : Perm deaf g := by
  have hg : Live g := by
    have hs' := hs
    unfold send at hs'
    split at hs'
    · cases hs'
    · rw [if_neg (fun hh => not_live_state hh h.live)] at hs'
      dsimp only at hs'
      generalize hf : (if f.state = .up then emit f (.counted p) else f) = f1 at hs'
      have l1 : Live f1 ∧ f1.persist = .permanent := by
        rw [← hf]; split
        · exact ⟨h.live.emit _, h.permanent⟩
        · exact ⟨h.live, h.permanent⟩
      split at hs'
      · cases hs'
      · split at hs'
        · cases hs'; exact l1.1.emit _
        · rw [handleError_perm (f := emit f1 (.sent p none)) l1.2] at hs'
          cases hs'; exact l1.1.emit _
  exact h.keep (keeps_send hs) hg (send_same (Or.inl h.live) hs hg).2.1

theorem perm_acts {deaf : Bool} : ∀ {l : List Act} {f g : Face}, .close ∉ l → Perm deaf f → acts c f l = .ok g → Perm deaf g
  | [], f, g, _, h, hs => by cases hs; exact h
  | a :: l, f, g, hn, h, hs => by
    obtain ⟨x, h1, h2⟩ := bind_ok hs
    refine perm_acts (fun hm => hn (List.mem_cons_of_mem _ hm)) ?_ h2
    cases a with
    | send p ok => exact perm_send h h1
    | close => exact absurd List.mem_cons_self hn

theorem perm_receive {deaf : Bool} {now : Nat} {f g : Face} {b s : Bytes} {l : List Act} (hn : .close ∉ l) (h : Perm deaf f)
    (hs : receivePayload c now f b s l = .ok g) : Perm deaf g := by
  unfold receivePayload at hs
  split at hs
  · cases hs; exact h
  · split at hs
    · cases hs
    · refine perm_acts hn ?_ hs
      have hl := h.live
      refine ⟨⟨hl.state, hl.isOpen, hl.pcap, hl.dead, hl.q⟩, h.permanent, h.timer, h.handlers, fun hd => ?_⟩
      obtain ⟨h1, h2, h3⟩ := h.deaf hd
      refine ⟨h1, h2, fun x hm => ?_⟩
      have hm : Out.got x ∈ f.out ++ [_] := hm
      rw [List.mem_append, List.mem_singleton] at hm
      exact hm.elim (h3 x) (fun hh => by cases hh)

theorem perm_handleRead {now : Nat} {f g : Face} {pkt : Option Bytes} {l : List Act} (hn : .close ∉ l) (h : Perm false f)
    (hs : handleRead c now f pkt l = .ok g) : Perm false g := by
  have fin : ∀ {x : Face}, Perm false x → finishRead c x = .ok g → Perm false g := by
    intro x hx hf
    unfold finishRead at hf
    split at hf
    · cases hf
    · cases hf
      unfold asyncRead
      have hl := hx.live
      rw [if_pos hl.isOpen]
      exact ⟨⟨hl.state, hl.isOpen, hl.pcap, hl.dead, hl.q⟩, hx.permanent, hx.timer, hx.handlers, fun hd => by cases hd⟩
  unfold handleRead at hs
  rw [if_neg (by rw [h.live.pcap]; decide)] at hs
  have hem : ∀ p, Perm false (emit f (.got p)) := fun p =>
    ⟨h.live.emit _, h.permanent, h.timer, h.handlers, fun hd => by cases hd⟩
  cases pkt with
  | none => exact fin h hs
  | some p =>
    dsimp only at hs
    generalize (if isMulticast c.rem = true then c.rem else c.loc) = d at hs
    split at hs
    · obtain ⟨a, h1, h2⟩ := bind_ok hs
      exact fin (perm_receive hn (hem p) h1) h2
    · exact fin (hem p) hs

theorem Perm.weaken {deaf : Bool} {f : Face} (h : Perm deaf f) : Perm false f :=
  ⟨h.live, h.permanent, h.timer, h.handlers, fun hd => by cases hd⟩

theorem Perm.noWait {deaf : Bool} {f : Face} (h : Perm deaf f) : Perm deaf { f with reading := false } := by
  have hl := h.live
  exact ⟨⟨hl.state, hl.isOpen, hl.pcap, hl.dead, hl.q⟩, h.permanent, h.timer, h.handlers, fun hd => ⟨rfl, (h.deaf hd).2⟩⟩

theorem perm_complete {deaf : Bool} {now : Nat} {f g : Face} {x : Handler} {b : Bool} (h : Perm deaf f) (hr : f.reading = true)
    (hx : isIo x = true) (hn : ∀ p d, x = .readOk p d → .close ∉ d) (hs : complete c now { f with reading := false } x b = .ok g) : Perm deaf g := by
  have hd : deaf = false := by
    cases deaf with
    | false => rfl
    | true => rw [(h.deaf rfl).1] at hr; cases hr
  subst hd
  unfold complete at hs
  split at hs
  · cases x with
    | readOk p d => exact perm_handleRead (hn p d rfl) h.noWait hs
    | readErr e =>
      have hs : (if _ then _ else _) = _ := hs
      split at hs
      · rw [handleError_perm (f := { f with reading := false }) h.permanent] at hs
        cases hs; exact h.noWait
      · cases hs; exact h.noWait
    | close => cases hx
    | dealloc => cases hx
  · cases hs
    have hl := h.live
    refine ⟨⟨hl.state, hl.isOpen, hl.pcap, hl.dead, hl.q.append (.single hx)⟩, h.permanent, h.timer, ?_, fun hd => by cases hd⟩
    intro p d hm
    simp only [post, List.mem_append, List.mem_singleton] at hm
    rcases hm with hm | hm
    · exact h.handlers p d hm
    · exact hn p d hm.symm

theorem perm_step {deaf : Bool} {now : Nat} {f g : Face} {e : Event} (he : NotClosing e) (h : Perm deaf f) (hs : faceStep c now f e = .ok g) :
    Perm deaf g := by
  have hl := h.live
  have hnc : f.state ≠ .closed := by rcases hl.state with e | e <;> rw [e] <;> decide
  cases e with
  | act a =>
    simp only [faceStep] at hs
    rw [if_neg hnc] at hs
    cases a with
    | send p ok => exact perm_send h hs
    | close => exact absurd rfl he
  | setPersist x => exact he.elim
  | netif b =>
    simp only [faceStep] at hs
    rw [if_neg (by rw [hl.dead]; decide)] at hs
    have set : ∀ {n : TState}, n = .up ∨ n = .down → setState f n = .ok g → Perm deaf g := by
      intro n hn hh
      unfold setState at hh
      split at hh
      · cases hh; exact h
      · split at hh
        · cases hh
          rw [if_neg (by rcases hn with rfl | rfl <;> decide)]
          refine ⟨⟨hn, hl.isOpen, hl.pcap, hl.dead, hl.q⟩, h.permanent, h.timer, h.handlers, fun hd => ?_⟩
          obtain ⟨h1, h2, h3⟩ := h.deaf hd
          refine ⟨h1, h2, fun x hm => ?_⟩
          have hm : Out.got x ∈ f.out ++ [_] := hm
          rw [List.mem_append, List.mem_singleton] at hm
          exact hm.elim (h3 x) (fun hh => by cases hh)
        · cases hh
    unfold netif at hs
    split at hs
    · split at hs
      · exact set (Or.inl rfl) hs
      · cases hs; exact h
    · split at hs
      · exact set (Or.inr rfl) hs
      · cases hs; exact h
  | mtu n =>
    simp only [faceStep] at hs
    cases hs
    split
    · exact h
    · exact ⟨⟨hl.state, hl.isOpen, hl.pcap, hl.dead, hl.q⟩, h.permanent, h.timer, h.handlers, h.deaf⟩
  | wire w d b =>
    simp only [faceStep] at hs
    split at hs
    · rename_i hr; exact perm_complete h hr.1 rfl (by intro p d' hh; cases hh; exact he) hs
    · cases hs; exact h
  | nothing b =>
    simp only [faceStep] at hs
    split at hs
    · rename_i hr; exact perm_complete h hr rfl (by intro p d' hh; cases hh; simp) hs
    · cases hs; exact h
  | fail b =>
    simp only [faceStep] at hs
    split at hs
    · rename_i hr; exact perm_complete h hr rfl (by intro p d' hh; cases hh) hs
    · cases hs; exact h
  | dispatch pl s l =>
    simp only [faceStep] at hs
    split at hs
    · cases hs; exact h
    · refine perm_receive he ?_ hs
      refine ⟨hl.emit _, h.permanent, h.timer, h.handlers, fun hd => ?_⟩
      obtain ⟨h1, h2, h3⟩ := h.deaf hd
      refine ⟨h1, h2, fun x hm => ?_⟩
      have hm : Out.got x ∈ f.out ++ [_] := hm
      rw [List.mem_append, List.mem_singleton] at hm
      exact hm.elim (h3 x) (fun hh => by cases hh)
  | timer =>
    simp only [faceStep] at hs
    rw [h.timer] at hs
    cases hs; exact h
  | next =>
    simp only [faceStep] at hs
    cases hq : f.q with
    | nil => rw [hq] at hs; cases hs; exact h
    | cons x r =>
      rw [hq] at hs
      dsimp only at hs
      rw [if_neg (by rw [hl.dead]; decide)] at hs
      have hio : IoOnly (x :: r) := hq ▸ hl.q
      have sub : ∀ p d, Handler.readOk p d ∈ r → Handler.readOk p d ∈ f.q := fun p d hm => by rw [hq]; exact List.mem_cons_of_mem _ hm
      have h' : Perm deaf { f with q := r } :=
        ⟨⟨hl.state, hl.isOpen, hl.pcap, hl.dead, hio.tail⟩, h.permanent, h.timer, fun p d hm => h.handlers p d (sub p d hm),
          fun hd => ⟨(h.deaf hd).1, fun p d hm => (h.deaf hd).2.1 p d (sub p d hm), (h.deaf hd).2.2⟩⟩
      have hio := hio x List.mem_cons_self
      cases x with
      | readOk p d =>
        have hd : deaf = false := by
          cases deaf with
          | false => rfl
          | true => exact absurd (by rw [hq]; exact List.mem_cons_self) ((h.deaf rfl).2.1 p d)
        subst hd
        exact perm_handleRead (h.handlers p d (by rw [hq]; exact List.mem_cons_self)) h' hs
      | readErr e =>
        have hs : (if _ then _ else _) = _ := hs
        split at hs
        · rw [handleError_perm (f := { f with q := r }) h.permanent] at hs
          cases hs; exact h'
        · cases hs; exact h'
      | close => cases hio
      | dealloc => cases hio
  | tick d => simp only [faceStep] at hs; cases hs; exact h

theorem perm_run {deaf : Bool} {es : List Event} (he : ∀ e ∈ es, NotClosing e) : ∀ {s s' : Sys}, Perm deaf s.f → run c s es = .ok s' → Perm deaf s'.f := by
  induction es with
  | nil => intro s s' h hr; cases hr; exact h
  | cons e es ih =>
    intro s s' h hr
    obtain ⟨a, h1, h2⟩ := bind_ok hr
    exact ih (fun x hx => he x (List.mem_cons_of_mem _ hx)) (perm_step (he e List.mem_cons_self) h (step_ok h1).1) h2

theorem perm_new (c : Cfg) (now mtu : Nat) (running : Bool) : Perm false (newFace c now .permanent mtu running) := by
  unfold newFace
  dsimp only
  rw [if_neg (by rintro ⟨h, _⟩; cases h)]
  refine ⟨⟨(by cases running <;> simp), rfl, rfl, rfl, .nil⟩, rfl, rfl, (by intro _ _ hm; cases hm), fun hd => by cases hd⟩

/-- C119: a permanent face, such as a multicast face, stays UP or DOWN until it is closed, whatever fails. -/
theorem C119_permanent (c : Cfg) (now mtu : Nat) (running : Bool) (es : List Event) (he : ∀ e ∈ es, NotClosing e) (s : Sys)
    (h : run c (start c now .permanent mtu running) es = .ok s) : s.f.state = .up ∨ s.f.state = .down :=
  (perm_run he (perm_new c now mtu running) h).live.state

/-- C119: a permanent face whose wait has failed once stays UP or DOWN, but gets no frame any more, whatever happens until it is closed. -/
theorem C119_deaf (c : Cfg) (now mtu : Nat) (running : Bool) (es : List Event) (he : ∀ e ∈ es, NotClosing e) (s : Sys)
    (h : run c (start c now .permanent mtu running) (.fail true :: es) = .ok s) :
    (s.f.state = .up ∨ s.f.state = .down) ∧ ∀ b, .got b ∉ s.f.out := by
  obtain ⟨a, h1, h2⟩ := bind_ok h
  have hp : Perm true a.f := by
    have hs := (step_ok h1).1
    have hf := perm_new c now mtu running
    have hq : (newFace c now .permanent mtu running).q = [] ∧ (newFace c now .permanent mtu running).out = [] ∧
        (newFace c now .permanent mtu running).reading = true := by
      unfold newFace; dsimp only; rw [if_neg (by rintro ⟨h, _⟩; cases h)]; exact ⟨rfl, rfl, rfl⟩
    simp only [faceStep, start] at hs
    have hs : (if (newFace c now .permanent mtu running).reading = true then _ else _) = _ := hs
    rw [if_pos hq.2.2] at hs
    unfold complete at hs
    rw [if_pos rfl] at hs
    have hs : (if _ then _ else _) = _ := hs
    have base : Perm true { newFace c now .permanent mtu running with reading := false } := by
      have hl := hf.live
      refine ⟨⟨hl.state, hl.isOpen, hl.pcap, hl.dead, hl.q⟩, hf.permanent, hf.timer, hf.handlers, fun _ => ⟨rfl, ?_, ?_⟩⟩
      · intro p d hm
        have hm : Handler.readOk p d ∈ (newFace c now .permanent mtu running).q := hm
        rw [hq.1] at hm; cases hm
      · intro b hm
        have hm : Out.got b ∈ (newFace c now .permanent mtu running).out := hm
        rw [hq.2.1] at hm; cases hm
    split at hs
    · rw [handleError_perm (f := { newFace c now .permanent mtu running with reading := false }) hf.permanent] at hs
      injection hs with hs; rw [← hs]
      exact base
    · injection hs with hs; rw [← hs]; exact base
  have := perm_run he hp h2
  exact ⟨this.live.state, (this.deaf rfl).2.2⟩

/-! Inactivity -/

/-- The scheduler runs the scheduled function in time: time does not pass beyond it. -/
def InTime (c : Cfg) (s : Sys) : List Event → Prop
  | [] => True
  | e :: es => (∀ d, e = .tick d → ∀ due, s.f.timer = some due → s.now + d ≤ due) ∧ ∀ s', step c s e = .ok s' → InTime c s' es

theorem timely_run {t : TState} : ∀ {es : List Event} {s s' : Sys}, Inv c t s → Timely c.T s.now (view s.f) →
    (∀ due, s.f.timer = some due → s.now ≤ due) → InTime c s es → run c s es = .ok s' →
    Timely c.T s'.now (view s'.f) ∧ ∀ due, s'.f.timer = some due → s'.now ≤ due
  | [], s, s', _, h, hn, _, hr => by cases hr; exact ⟨h, hn⟩
  | e :: es, s, s', hi, h, hn, ht, hr => by
    obtain ⟨a, h1, h2⟩ := bind_ok hr
    have hia := inv_step hi h1
    obtain ⟨h3, h4⟩ := step_ok h1
    have tr := step_trans hi.phase hi.filtered h3
    have hta := h.trans hn tr
    have keep : ∀ {u : View}, u.timer = s.f.timer → KeepsV c u (view a.f) → ∀ due, a.f.timer = some due → s.now ≤ due := by
      intro u hu k due hd
      have k1 : a.f.timer = u.timer := k.timer
      exact hn due (by rw [← hu, ← k1]; exact hd)
    have hna : ∀ due, a.f.timer = some due → s.now ≤ due := by
      cases tr with
      | keep k => exact keep rfl k
      | refused p _ _ k => exact keep (u := vEmit (view s.f) (.got p)) rfl k
      | unparsed p _ _ _ k => exact keep (u := vEmit (view s.f) (.got p)) rfl k
      | delivered p b _ _ _ k => exact keep rfl k
      | dUnparsed pl s _ k => exact keep (u := vEmit (view _) (.dispatched pl s)) rfl k
      | dDelivered pl s b _ k => exact keep rfl k
      | onDemand hw =>
        intro due hd
        have hw : a.f.timer = if c.T > 0 then some (s.now + c.T) else none := congrArg View.timer hw
        rw [hw] at hd
        split at hd
        · cases hd; omega
        · cases hd
      | other p _ hw =>
        intro due hd
        have hw : a.f.timer = none := congrArg View.timer hw
        rw [hw] at hd; cases hd
      | idle due _ _ _ _ k =>
        intro due hd
        have k1 : a.f.timer = none := k.timer
        rw [k1] at hd; cases hd
      | renew due _ _ _ hw =>
        intro due hd
        have hw : a.f.timer = some (s.now + c.T) := congrArg View.timer hw
        rw [hw] at hd; cases hd; omega
      | netif n _ _ hw =>
        intro due hd
        have hw : a.f.timer = s.f.timer := congrArg View.timer hw
        exact hn due (hw ▸ hd)
      | dealloc _ hw =>
        intro due hd
        have hw : a.f.timer = none := congrArg View.timer hw
        rw [hw] at hd; cases hd
    refine timely_run hia ?_ ?_ (ht.2 a h1) h2
    · rcases h4 with h4 | ⟨d, he, h4, h5⟩
      · rw [h4]; exact hta
      · rw [h4, h5]
        exact ⟨fun due hd => Nat.le_trans (h.near due hd) (by omega), h.bound, h.boundRecent⟩
    · rcases h4 with h4 | ⟨d, he, h4, h5⟩
      · rw [h4]; exact hna
      · rw [h4, h5]
        exact fun due hd => ht.1 d he due hd

/-- C119: an on-demand face that is UP or DOWN had a packet, or became on-demand, at most two idle timeouts ago. -/
theorem C119_idle_bound (c : Cfg) (hT : 0 < c.T) (now : Nat) (p : Persist) (mtu : Nat) (running : Bool) (es : List Event) (s : Sys)
    (ht : InTime c (start c now p mtu running) es) (h : run c (start c now p mtu running) es = .ok s)
    (hs : s.f.state = .up ∨ s.f.state = .down) (hp : s.f.persist = .onDemand) : s.now ≤ lastActive s.f.out + 2 * c.T := by
  have hi := inv_init c now p mtu running
  have h0 : Timely c.T now (view (newFace c now p mtu running)) ∧ ∀ due, (newFace c now p mtu running).timer = some due → now ≤ due := by
    unfold newFace scheduleIdle
    dsimp only
    split
    · rename_i hh
      refine ⟨⟨?_, ?_, ?_⟩, ?_⟩
      · intro due hd; cases hd; exact Nat.le_refl _
      · intro due hd; cases hd
        dsimp only [view]
        rw [if_pos hh.1]
        simp only [lastActive]
        omega
      · intro due _ hr; cases hr
      · intro due hd; cases hd; omega
    · exact ⟨⟨(by intro _ hd; cases hd), (by intro _ hd; cases hd), (by intro _ hd; cases hd)⟩, by intro _ hd; cases hd⟩
  have hr := inv_run hi h
  obtain ⟨h1, h2⟩ := timely_run hi h0.1 h0.2 ht h
  cases hd : s.f.timer with
  | none => exact absurd hd (hr.hasTimer hs hp hT)
  | some due =>
    have a := h2 due hd
    have b := h1.bound due hd
    exact Nat.le_trans a b

theorem demand_trans {nf : Bool} {P : Bytes → Prop} {now : Nat} {v w : View}
    (h : (∀ t, Out.onDemand t ∉ v.out) → v.timer = none ∧ ∀ t, Out.idle t ∉ v.out) (tr : Trans c nf P now v w) :
    (∀ t, Out.onDemand t ∉ w.out) → w.timer = none ∧ ∀ t, Out.idle t ∉ w.out := by
  intro hw
  have keep : ∀ {u : View} (o : List Out), u.out = v.out ++ o → u.timer = v.timer → (∀ t, Out.idle t ∉ o) → KeepsV c u w →
      w.timer = none ∧ ∀ t, Out.idle t ∉ w.out := by
    intro u o hu htm hn k
    obtain ⟨o', h1, h2⟩ := k.out
    obtain ⟨a, b⟩ := h (fun t hm => hw t (by rw [h1, hu]; exact List.mem_append_left _ (List.mem_append_left _ hm)))
    refine ⟨by rw [k.timer, htm, a], fun t hm => ?_⟩
    rw [h1, hu, List.mem_append, List.mem_append] at hm
    rcases hm with (hm | hm) | hm
    · exact b t hm
    · exact hn t hm
    · exact (h2 _ hm).elim
  cases tr with
  | keep k => exact keep [] (List.append_nil _).symm rfl (by simp) k
  | refused p _ _ k => exact keep [.got p] (u := vEmit v (.got p)) rfl rfl (by simp) k
  | unparsed p _ _ _ k => exact keep [.got p] (u := vEmit v (.got p)) rfl rfl (by simp) k
  | delivered p b _ _ _ k =>
    exact keep [.got p, .deliver b (ep c (srcOf p)) now]
      (u := { vEmit (vEmit v (.got p)) (.deliver b (ep c (srcOf p)) now) with recent := true }) (List.append_assoc _ _ _) rfl (by simp) k
  | dUnparsed pl s _ k => exact keep [.dispatched pl s] (u := vEmit v (.dispatched pl s)) rfl rfl (by simp) k
  | dDelivered pl s b _ k =>
    exact keep [.dispatched pl s, .deliver b (ep c s) now]
      (u := { vEmit (vEmit v (.dispatched pl s)) (.deliver b (ep c s) now) with recent := true }) (List.append_assoc _ _ _) rfl (by simp) k
  | onDemand he => exact absurd (by rw [he]; exact List.mem_append_right _ List.mem_cons_self) (hw now)
  | other p _ he => rw [he] at hw ⊢; exact ⟨rfl, (h hw).2⟩
  | idle due ht _ _ _ k =>
    obtain ⟨o', h1, h2⟩ := k.out
    have := (h (fun t hm => hw t (by rw [h1]; exact List.mem_append_left _ (List.mem_append_left _ hm)))).1
    rw [ht] at this; cases this
  | renew due ht _ _ he =>
    rw [he] at hw
    have := (h hw).1
    rw [ht] at this; cases this
  | netif n _ _ he =>
    rw [he] at hw ⊢
    obtain ⟨a, b⟩ := h (fun t hm => hw t (List.mem_append_left _ hm))
    refine ⟨a, fun t hm => ?_⟩
    have hm : Out.idle t ∈ v.out ++ [_] := hm
    rw [List.mem_append, List.mem_singleton] at hm
    exact hm.elim (b t) (fun hh => by cases hh)
  | dealloc _ he => rw [he] at hw ⊢; exact ⟨rfl, (h hw).2⟩

/-- C119: only a face that is or has been on-demand is closed for inactivity. -/
theorem C119_only_on_demand (c : Cfg) (now : Nat) (p : Persist) (mtu : Nat) (running : Bool) (es : List Event) (s : Sys)
    (h : run c (start c now p mtu running) es = .ok s) (t : Nat) (hi : .idle t ∈ s.f.out) : ∃ u, .onDemand u ∈ s.f.out := by
  refine Classical.byContradiction fun hn => ?_
  have h0 : (∀ t, Out.onDemand t ∉ (newFace c now p mtu running).out) → (newFace c now p mtu running).timer = none ∧
      ∀ t, Out.idle t ∉ (newFace c now p mtu running).out := by
    unfold newFace scheduleIdle
    dsimp only
    split
    · rename_i hh
      intro hx
      dsimp only at hx
      rw [if_pos hh.1] at hx
      exact absurd List.mem_cons_self (hx now)
    · intro _
      refine ⟨rfl, fun t hm => ?_⟩
      dsimp only at hm
      split at hm <;> simp at hm
  have key : Inv c (first running) s ∧ ((∀ t, Out.onDemand t ∉ (view s.f).out) → (view s.f).timer = none ∧ ∀ t, Out.idle t ∉ (view s.f).out) := by
    refine run_ind (P := fun s => Inv c (first running) s ∧
      ((∀ t, Out.onDemand t ∉ (view s.f).out) → (view s.f).timer = none ∧ ∀ t, Out.idle t ∉ (view s.f).out)) ?_ ⟨inv_init c now p mtu running, h0⟩ h
    rintro s e s' ⟨h1, h2⟩ hs
    exact ⟨inv_step h1 hs, demand_trans h2 (step_trans h1.phase h1.filtered (step_ok hs).1)⟩
  exact (key.2 (fun u hu => hn ⟨u, hu⟩)).2 t hi

/-! The hypotheses of the theorems above are met -/

open Ex in
/-- C119_interface, C119_receiving_partial: the interface goes down and up while a frame waits for its handler; libpcap then returns nothing. -/
example : ok (run cfgB (start cfgB 0 .persistent 1500 true) [.netif false, .wire fromA [] false, .netif true, .next, .nothing true])
    (fun s => decide (s.f.state = .up ∧ s.f.reading = true ∧
      s.f.out = [.state .up .down, .state .down .up, .got fromA.octets, .deliver pkt none 0])) = true ∧
    runningAfter true [.netif false, .wire fromA [] false, .netif true, .next, .nothing true] = true := ⟨by decide +kernel, rfl⟩

open Ex in
/-- C119_permanent: a multicast face that cannot send. -/
example : (∀ e ∈ [Event.wire toGroup [.send pkt false] true, .netif false, .act (.send pkt false)], NotClosing e) ∧
    ok (run cfgG (start cfgG 0 .permanent 1500 true) [.wire toGroup [.send pkt false] true, .netif false, .act (.send pkt false)])
      (fun s => decide (s.f.state = .down)) = true := by
  refine ⟨?_, by decide +kernel⟩
  intro e he
  simp only [List.mem_cons, List.not_mem_nil, or_false] at he
  rcases he with rfl | rfl | rfl <;> simp [NotClosing]

open Ex in
/-- C119_deaf: without the failed wait the frame is delivered, with it it is not, and the multicast face is UP. -/
example : ok (run cfgG (start cfgG 0 .permanent 1500 true) [.wire toGroup [] true]) (fun s => decide (s.f.out.length = 2)) = true ∧
    ok (run cfgG (start cfgG 0 .permanent 1500 true) [.fail true, .wire toGroup [] true])
      (fun s => decide (s.f.state = .up ∧ s.f.out = [])) = true := ⟨by decide +kernel, by decide +kernel⟩

/-- `InTime`, to be computed. -/
def inTimeB (c : Cfg) (s : Sys) : List Event → Bool
  | [] => true
  | e :: es =>
    (match e, s.f.timer with | .tick d, some due => decide (s.now + d ≤ due) | _, _ => true) &&
      (match step c s e with | .ok s' => inTimeB c s' es | .error _ => true)

theorem inTimeB_sound : ∀ {es : List Event} {s : Sys}, inTimeB c s es = true → InTime c s es
  | [], _, _ => trivial
  | e :: es, s, h => by
    simp only [inTimeB, Bool.and_eq_true] at h
    refine ⟨?_, ?_⟩
    · rintro d rfl due hd
      have := h.1
      rw [hd] at this
      simpa using this
    · intro s' hs
      have := h.2
      rw [hs] at this
      exact inTimeB_sound this

open Ex in
/-- C119_idle_bound, C119_only_on_demand: a packet arrives at 5; at 19 the face is UP. -/
example : InTime cfgB (start cfgB 0 .onDemand 1500 true) [.tick 5, .wire fromA [] true, .tick 5, .timer, .tick 9] ∧
    ok (run cfgB (start cfgB 0 .onDemand 1500 true) [.tick 5, .wire fromA [] true, .tick 5, .timer, .tick 9])
      (fun s => decide (s.f.state = .up ∧ s.f.persist = .onDemand ∧ s.now = 19 ∧ lastActive s.f.out = 5)) = true :=
  ⟨inTimeB_sound (by decide +kernel), by decide +kernel⟩

end Verif.Et
