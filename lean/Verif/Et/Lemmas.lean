/-
Ethernet frames: what is sent is what is captured and delivered. Invariants of the transport.
-/
import Verif.Et.Spec
import Verif.Tp.Frame

namespace Verif.Et
open Verif.Lp (Bytes readElem parseBlock)
open Verif.Tp (TState Persist validTransition leaving maxPacket IsPacket)

/-! Frames -/

theorem frame_eq (s d : Addr) (p : Bytes) :
    frame s d p = d.1 ++ (s.1 ++ (typeNdn ++ (p ++ List.replicate (minData - p.length) 0))) := by
  unfold frame
  dsimp only
  split
  · rw [List.drop_replicate]
  · rename_i h
    rw [show minData - p.length = 0 by omega]
    simp

theorem drop6 (a : Addr) (r : Bytes) : (a.1 ++ r).drop 6 = r := by
  have h : List.drop a.1.length (a.1 ++ r) = r := List.drop_left
  rw [a.2] at h; exact h

theorem take6 (a : Addr) (r : Bytes) : (a.1 ++ r).take 6 = a.1 := by
  have h : List.take a.1.length (a.1 ++ r) = a.1 := List.take_left
  rw [a.2] at h; exact h

theorem drop12 (a b : Addr) (r : Bytes) : (a.1 ++ (b.1 ++ r)).drop 12 = r := by
  rw [show 12 = 6 + 6 from rfl, ← List.drop_drop, drop6, drop6]

theorem drop14 (a b : Addr) (r : Bytes) : (a.1 ++ (b.1 ++ (typeNdn ++ r))).drop 14 = r := by
  rw [show 14 = 12 + 2 from rfl, ← List.drop_drop, drop12]
  rfl

theorem frame_src (s d : Addr) (p : Bytes) : srcOf (frame s d p) = s.1 := by
  rw [frame_eq, srcOf, drop6, take6]

theorem frame_dst (s d : Addr) (p : Bytes) : dstOf (frame s d p) = d.1 := by
  rw [frame_eq, dstOf, take6]

theorem frame_type (s d : Addr) (p : Bytes) : typeOf (frame s d p) = typeNdn := by
  rw [frame_eq, typeOf, drop12]
  rfl

theorem frame_payload (s d : Addr) (p : Bytes) : (frame s d p).drop 14 = p ++ List.replicate (minData - p.length) 0 := by
  rw [frame_eq, drop14]

theorem frame_length (s d : Addr) (p : Bytes) : (frame s d p).length = 14 + max p.length 46 := by
  rw [frame_eq]
  simp only [List.length_append, s.2, d.2, List.length_replicate, List.length_cons, List.length_nil]
  show 6 + (6 + (0 + 1 + 1 + (p.length + (46 - p.length)))) = 14 + max p.length 46
  omega

theorem isFrame_frame (s d : Addr) (p : Bytes) : IsFrame s d p (frame s d p) := by
  refine ⟨frame_dst s d p, frame_src s d p, frame_type s d p, ?_, ?_, frame_length s d p⟩
  · rw [frame_payload, List.take_left]
  · intro x hx
    rw [← List.drop_drop, frame_payload, List.drop_left] at hx
    exact (List.mem_replicate.1 hx).2

theorem isPacket_iff {p : Bytes} : IsPacket p ↔ (parseBlock p).isSome = true := by
  unfold IsPacket parseBlock
  constructor
  · rintro ⟨e, h⟩; rw [h]; rfl
  · intro h
    split at h
    · rename_i e he; exact ⟨e, he⟩
    · cases h

theorem firstBlock_iff {b p : Bytes} : firstBlock b = some p ↔ Carries b p := by
  unfold Carries
  rw [← isPacket_iff]
  constructor
  · intro h
    unfold firstBlock at h
    split at h
    · cases h
    · rename_i e r hr
      cases h
      exact ⟨List.take_prefix _ _, (Tp.readElem_split hr).2⟩
  · rintro ⟨⟨c, rfl⟩, e, h⟩
    unfold firstBlock
    rw [Tp.readElem_append h]
    simp

theorem firstBlock_none {b : Bytes} : firstBlock b = none ↔ ∀ p, ¬ Carries b p := by
  constructor
  · intro h p hp
    rw [firstBlock_iff.2 hp] at h
    cases h
  · intro h
    cases hb : firstBlock b with
    | none => rfl
    | some p => exact absurd (firstBlock_iff.1 hb) (h p)

/-! Effects of sending and closing. -/

variable {c : Cfg}

def Quiet (c : Cfg) : Out → Prop
  | .state _ n => n ≠ .up ∧ n ≠ .down
  | .counted _ => True
  | .sent p r => r = none ∨ r = some (frame c.loc c.rem p)
  | _ => False

/-- What sending and closing leave as it is. -/
structure Keeps (c : Cfg) (f g : Face) : Prop where
  persist : g.persist = f.persist
  mtu : g.mtu = f.mtu
  recent : g.recent = f.recent
  timer : g.timer = f.timer
  dead : g.dead = f.dead
  q : ∀ p d, Handler.readOk p d ∈ g.q → Handler.readOk p d ∈ f.q
  out : ∃ o, g.out = f.out ++ o ∧ ∀ x ∈ o, Quiet c x

theorem Keeps.refl (f : Face) : Keeps c f f := ⟨rfl, rfl, rfl, rfl, rfl, fun _ _ h => h, [], by simp, by intro x hx; cases hx⟩

theorem Keeps.trans {f g h : Face} (a : Keeps c f g) (b : Keeps c g h) : Keeps c f h := by
  obtain ⟨o, ho, hq⟩ := a.out
  obtain ⟨o', ho', hq'⟩ := b.out
  refine ⟨b.persist.trans a.persist, b.mtu.trans a.mtu, b.recent.trans a.recent, b.timer.trans a.timer, b.dead.trans a.dead,
    fun p d h => a.q p d (b.q p d h), o ++ o', ?_, ?_⟩
  · rw [ho', ho, List.append_assoc]
  · intro x hx
    rcases List.mem_append.1 hx with hx | hx
    · exact hq x hx
    · exact hq' x hx

theorem keeps_emit {f : Face} {o : Out} (h : Quiet c o) : Keeps c f (emit f o) :=
  ⟨rfl, rfl, rfl, rfl, rfl, fun _ _ h => h, [o], rfl, by intro x hx; rw [List.mem_singleton] at hx; rw [hx]; exact h⟩

theorem keeps_setState {f g : Face} {n : TState} (hn : n ≠ .up ∧ n ≠ .down) (h : setState f n = .ok g) : Keeps c f g := by
  unfold setState at h
  split at h
  · cases h; exact .refl _
  · split at h
    · cases h
      split
      · refine ⟨rfl, rfl, rfl, rfl, rfl, ?_, [_], rfl, by intro x hx; rw [List.mem_singleton] at hx; rw [hx]; exact hn⟩
        intro p d h
        simpa [post, emit] using h
      · exact ⟨rfl, rfl, rfl, rfl, rfl, fun _ _ h => h, [_], rfl, by intro x hx; rw [List.mem_singleton] at hx; rw [hx]; exact hn⟩
    · cases h

theorem keeps_doClose (f : Face) : Keeps c f (doClose f) := by
  unfold doClose post
  dsimp only
  split
  · refine ⟨rfl, rfl, rfl, rfl, rfl, ?_, [], by simp, by intro x hx; cases hx⟩
    intro p d h
    simp only [List.mem_append, List.mem_singleton] at h
    rcases h with (h | h) | h
    · exact h
    · split at h <;> simp at h
    · cases h
  · refine ⟨rfl, rfl, rfl, rfl, rfl, ?_, [], by simp, by intro x hx; cases hx⟩
    intro p d h
    simpa using h

theorem bind_ok {α β : Type} {x : Except Fault α} {k : α → Except Fault β} {b : β} (h : (x >>= k) = .ok b) : ∃ a, x = .ok a ∧ k a = .ok b := by
  cases x with
  | error e => cases h
  | ok a => exact ⟨a, rfl, h⟩

theorem keeps_close {f g : Face} (h : close f = .ok g) : Keeps c f g := by
  unfold close at h
  split at h
  · cases h; exact .refl _
  · obtain ⟨a, h1, h2⟩ := bind_ok h
    cases h2
    exact (keeps_setState (by decide) h1).trans (keeps_doClose _)

theorem keeps_handleError {f g : Face} (h : handleError f = .ok g) : Keeps c f g := by
  unfold handleError at h
  split at h
  · cases h; exact .refl _
  · obtain ⟨a, h1, h2⟩ := bind_ok h
    cases h2
    exact (keeps_setState (by decide) h1).trans (keeps_doClose _)

theorem keeps_send {c : Cfg} {f g : Face} {p : Bytes} {ok : Bool} (h : send c f p ok = .ok g) : Keeps c f g := by
  unfold send at h
  split at h
  · cases h
  · split at h
    · cases h; exact .refl _
    · dsimp only at h
      generalize hf : (if f.state = .up then emit f (.counted p) else f) = f1 at h
      have k1 : Keeps c f f1 := by
        rw [← hf]; split
        · exact keeps_emit trivial
        · exact .refl _
      split at h
      · cases h
      · split at h
        · cases h
          exact k1.trans (keeps_emit (Or.inr rfl))
        · exact k1.trans ((keeps_emit (o := .sent p none) (Or.inl rfl)).trans (keeps_handleError h))

theorem keeps_act {c : Cfg} {f g : Face} {a : Act} (h : act c f a = .ok g) : Keeps c f g := by
  cases a with
  | send p ok => exact keeps_send h
  | close => exact keeps_close h

theorem keeps_acts {c : Cfg} : ∀ {l : List Act} {f g : Face}, acts c f l = .ok g → Keeps c f g
  | [], f, g, h => by cases h; exact .refl _
  | a :: l, f, g, h => by
    obtain ⟨x, h1, h2⟩ := bind_ok h
    exact (keeps_act h1).trans (keeps_acts h2)

/-! Phases -/

def isIo : Handler → Bool
  | .readOk _ _ | .readErr _ => true
  | .close | .dealloc => false

def IoOnly (l : List Handler) : Prop := ∀ h ∈ l, isIo h = true

theorem IoOnly.nil : IoOnly [] := by intro h hh; cases hh

theorem IoOnly.append {a b : List Handler} (ha : IoOnly a) (hb : IoOnly b) : IoOnly (a ++ b) := by
  intro h hh
  rcases List.mem_append.1 hh with hh | hh
  · exact ha h hh
  · exact hb h hh

theorem IoOnly.single {h : Handler} (hh : isIo h = true) : IoOnly [h] := by
  intro x hx
  rw [List.mem_singleton] at hx
  rw [hx]; exact hh

theorem IoOnly.tail {h : Handler} {l : List Handler} (hl : IoOnly (h :: l)) : IoOnly l := fun x hx => hl x (List.mem_cons_of_mem _ hx)

/-- UP or DOWN. -/
structure Live (f : Face) : Prop where
  state : f.state = .up ∨ f.state = .down
  isOpen : f.isOpen = true
  pcap : f.pcap = true
  dead : f.dead = false
  q : IoOnly f.q

/-- CLOSING or FAILED: the deferred function is in the queue, once. -/
structure Leaving (f : Face) : Prop where
  state : f.state = .closing ∨ f.state = .failed
  isOpen : f.isOpen = false
  pcap : f.pcap = false
  reading : f.reading = false
  dead : f.dead = false
  q : ∃ l r, f.q = l ++ .close :: r ∧ IoOnly l ∧ IoOnly r

/-- CLOSED: deallocation is the last in the queue. -/
structure Closed (f : Face) : Prop where
  state : f.state = .closed
  isOpen : f.isOpen = false
  pcap : f.pcap = false
  reading : f.reading = false
  dead : f.dead = false
  q : ∃ l, f.q = l ++ [.dealloc] ∧ IoOnly l

structure Dead (f : Face) : Prop where
  state : f.state = .closed
  pcap : f.pcap = false
  reading : f.reading = false
  dead : f.dead = true
  q : f.q = []
  timer : f.timer = none

def Phase (f : Face) : Prop := Live f ∨ Leaving f ∨ Closed f ∨ Dead f

theorem setState_leave {f : Face} (h : f.state = .up ∨ f.state = .down) {n : TState} (hn : n = .closing ∨ n = .failed) :
    setState f n = .ok (emit { f with state := n } (.state f.state n)) := by
  rcases h with h | h <;> rcases hn with rfl | rfl <;> simp [setState, h, validTransition]

theorem leaving_doClose {f : Face} (h : Live f) {n : TState} (hn : n = .closing ∨ n = .failed) :
    Leaving (doClose (emit { f with state := n } (.state f.state n))) := by
  have ho := h.isOpen
  refine ⟨?_, ?_, ?_, ?_, ?_, f.q ++ (if f.reading then [.readErr .aborted] else []), [], ?_, ?_, .nil⟩
  · simpa [doClose, emit, ho, post] using hn
  · simp [doClose, emit, ho, post]
  · simp [doClose, emit, ho, post]
  · simp [doClose, emit, ho, post]
  · simp [doClose, emit, ho, post, h.dead]
  · simp [doClose, emit, ho, post]
  · refine h.q.append ?_
    split
    · exact .single rfl
    · exact .nil

theorem Live.emit {f : Face} (h : Live f) (o : Out) : Live (emit f o) := ⟨h.state, h.isOpen, h.pcap, h.dead, h.q⟩
theorem Leaving.emit {f : Face} (h : Leaving f) (o : Out) : Leaving (emit f o) := ⟨h.state, h.isOpen, h.pcap, h.reading, h.dead, h.q⟩

theorem not_live_state {f : Face} (h : f.state ≠ .up ∧ f.state ≠ .down) : ¬ Live f := by
  intro hl
  rcases hl.state with e | e
  · exact h.1 e
  · exact h.2 e

theorem Phase.live {f : Face} (h : Phase f) (hs : f.state = .up ∨ f.state = .down) : Live f := by
  rcases h with h | h | h | h
  · exact h
  · rcases h.state with e | e <;> rw [e] at hs <;> rcases hs with hs | hs <;> cases hs
  · rw [h.state] at hs; rcases hs with hs | hs <;> cases hs
  · rw [h.state] at hs; rcases hs with hs | hs <;> cases hs

theorem Phase.liveReading {f : Face} (h : Phase f) (hs : f.reading = true) : Live f := by
  rcases h with h | h | h | h
  · exact h
  · rw [h.reading] at hs; cases hs
  · rw [h.reading] at hs; cases hs
  · rw [h.reading] at hs; cases hs

theorem Phase.livePcap {f : Face} (h : Phase f) (hs : f.pcap = true) : Live f := by
  rcases h with h | h | h | h
  · exact h
  · rw [h.pcap] at hs; cases hs
  · rw [h.pcap] at hs; cases hs
  · rw [h.pcap] at hs; cases hs

theorem upDown {f : Face} (h : ¬ (f.state ≠ .up ∧ f.state ≠ .down)) : f.state = .up ∨ f.state = .down := by
  cases hs : f.state <;> simp_all

/-- What a result may be: the face, with a property, or a fault that is admissible. -/
def Res (P : Face → Prop) (E : Fault → Prop) : Except Fault Face → Prop
  | .ok f => P f
  | .error e => E e

theorem close_live {f : Face} (h : Live f) : Res Leaving (fun _ => False) (close f) := by
  unfold close
  rw [if_neg (fun hh => not_live_state hh h), setState_leave h.state (Or.inl rfl)]
  exact leaving_doClose h (Or.inl rfl)

theorem close_other {f : Face} (h : f.state ≠ .up ∧ f.state ≠ .down) : close f = .ok f := by
  unfold close
  rw [if_pos h]

theorem handleError_live {f : Face} (h : Live f) :
    Res (fun g => (f.persist = .permanent ∧ g = f) ∨ (f.persist ≠ .permanent ∧ Leaving g)) (fun _ => False) (handleError f) := by
  unfold handleError
  split
  · rename_i hp; exact Or.inl ⟨hp, rfl⟩
  · rename_i hp
    rw [setState_leave h.state (Or.inr rfl)]
    exact Or.inr ⟨hp, leaving_doClose h (Or.inr rfl)⟩

/-- Only assertions can fail, and only in debug builds. -/
def Asserts (c : Cfg) (e : Fault) : Prop := c.debug = true ∧ e = .assertion

theorem send_live {c : Cfg} {f : Face} (h : Live f) (p : Bytes) (ok : Bool) :
    Res (fun g => Live g ∨ Leaving g) (Asserts c) (send c f p ok) := by
  unfold send
  split
  · rename_i hh; exact ⟨hh.1, rfl⟩
  · rw [if_neg (fun hh => not_live_state hh h)]
    dsimp only
    generalize hf : (if f.state = .up then emit f (.counted p) else f) = f1
    have l1 : Live f1 := by rw [← hf]; split; exact h.emit _; exact h
    rw [if_neg (by rw [l1.pcap]; decide)]
    split
    · exact Or.inl (l1.emit _)
    · have := handleError_live (l1.emit (.sent p none))
      generalize handleError (emit f1 (.sent p none)) = r at this
      cases r with
      | error e => exact this.elim
      | ok g =>
        rcases this with ⟨_, hg⟩ | ⟨_, hg⟩
        · rw [hg]; exact Or.inl (l1.emit _)
        · exact Or.inr hg

theorem send_other {c : Cfg} {f : Face} (h : f.state ≠ .up ∧ f.state ≠ .down) (p : Bytes) (ok : Bool) :
    Res (fun g => g = f) (Asserts c) (send c f p ok) := by
  unfold send
  split
  · rename_i hh; exact ⟨hh.1, rfl⟩
  · exact rfl

theorem Leaving.states {f : Face} (h : Leaving f) : f.state ≠ .up ∧ f.state ≠ .down := by
  rcases h.state with e | e <;> rw [e] <;> exact ⟨by decide, by decide⟩

theorem act_live {c : Cfg} {f : Face} (h : Live f ∨ Leaving f) (a : Act) : Res (fun g => Live g ∨ Leaving g) (Asserts c) (act c f a) := by
  rcases h with h | h
  · cases a with
    | send p ok => exact send_live h p ok
    | close =>
      have := close_live h
      show Res _ _ (close f)
      generalize close f = r at this
      cases r with
      | error e => exact this.elim
      | ok g => exact Or.inr this
  · cases a with
    | send p ok =>
      have := send_other (c := c) h.states p ok
      show Res _ _ (send c f p ok)
      generalize send c f p ok = r at this
      cases r with
      | error e => exact this
      | ok g =>
        have : g = f := this
        rw [this]; exact Or.inr h
    | close =>
      show Res _ _ (close f)
      rw [close_other h.states]; exact Or.inr h

theorem acts_live {c : Cfg} : ∀ (l : List Act) {f : Face}, (Live f ∨ Leaving f) → Res (fun g => Live g ∨ Leaving g) (Asserts c) (acts c f l)
  | [], f, h => h
  | a :: l, f, h => by
    have h1 := act_live (c := c) h a
    show Res _ _ (act c f a >>= fun g => acts c g l)
    generalize act c f a = r at h1
    cases r with
    | error e => exact h1
    | ok g => exact acts_live l h1

theorem receive_live {c : Cfg} {f : Face} (h : Live f ∨ Leaving f) (now : Nat) (b s : Bytes) (l : List Act) :
    Res (fun g => Live g ∨ Leaving g) (Asserts c) (receivePayload c now f b s l) := by
  unfold receivePayload
  split
  · exact h
  · split
    · rename_i hh; exact ⟨hh.1, rfl⟩
    · refine acts_live l ?_
      rcases h with h | h
      · exact Or.inl ⟨h.state, h.isOpen, h.pcap, h.dead, h.q⟩
      · exact Or.inr ⟨h.state, h.isOpen, h.pcap, h.reading, h.dead, h.q⟩

theorem asyncRead_live {f : Face} (h : Live f ∨ Leaving f) : Live (asyncRead f) ∨ Leaving (asyncRead f) := by
  unfold asyncRead
  rcases h with h | h
  · rw [if_pos h.isOpen]
    exact Or.inl ⟨h.state, h.isOpen, h.pcap, h.dead, h.q⟩
  · rw [if_neg (by rw [h.isOpen]; decide)]
    obtain ⟨l, r, h1, h2, h3⟩ := h.q
    refine Or.inr ⟨h.state, h.isOpen, h.pcap, h.reading, h.dead, l, r ++ [.readErr .other], ?_, h2, h3.append (.single rfl)⟩
    simp [post, h1]

/-- The faults that happen: those of debug builds, and the use of libpcap after it is closed, which in other builds happens only to `Q`. -/
def Bad (c : Cfg) (Q : Prop) (e : Fault) : Prop := (c.debug = true ∧ e = .assertion) ∨ (e = .nullPcap ∧ (c.debug = true ∨ Q))

theorem finishRead_live {c : Cfg} {f : Face} (h : Live f ∨ Leaving f) (Q : Prop) :
    Res (fun g => Live g ∨ Leaving g) (Bad c Q) (finishRead c f) := by
  unfold finishRead
  split
  · rename_i hh; exact Or.inr ⟨rfl, Or.inl hh.1⟩
  · exact asyncRead_live h

theorem handleRead_live {c : Cfg} {f : Face} (h : Live f) (Q : Prop) (now : Nat) (pkt : Option Bytes) (l : List Act) :
    Res (fun g => Live g ∨ Leaving g) (Bad c Q) (handleRead c now f pkt l) := by
  unfold handleRead
  rw [if_neg (by rw [h.pcap]; decide)]
  cases pkt with
  | none => exact finishRead_live (Or.inl h) Q
  | some p =>
    dsimp only
    generalize (if isMulticast c.rem then c.rem else c.loc) = d
    split
    · have h1 := receive_live (c := c) (Or.inl (h.emit (.got p))) now (p.drop hdrLen) (srcOf p) l
      generalize receivePayload c now (emit f (.got p)) (p.drop hdrLen) (srcOf p) l = r at h1
      cases r with
      | error e => exact Or.inl h1
      | ok g => exact finishRead_live h1 Q
    · exact finishRead_live (Or.inl (h.emit _)) Q

theorem Res.mono {P P' : Face → Prop} {E E' : Fault → Prop} {r : Except Fault Face} (h : Res P E r) (hp : ∀ f, P f → P' f)
    (he : ∀ e, E e → E' e) : Res P' E' r := by
  cases r with
  | ok f => exact hp f h
  | error e => exact he e h

theorem Asserts.bad {c : Cfg} {Q : Prop} {e : Fault} (h : Asserts c e) : Bad c Q e := Or.inl h

theorem liveOrLeaving {f : Face} (h : Live f ∨ Leaving f) : Phase f := h.elim Or.inl (fun h => Or.inr (Or.inl h))

/-- `Q`: a completed wait is in the queue. -/
def HasOk (f : Face) : Prop := ∃ p d, Handler.readOk p d ∈ f.q

theorem handle_phase {c : Cfg} {f : Face} (h : Phase f) (hd : f.dead = false) (now : Nat) {x : Handler} {r : List Handler} (hq : f.q = x :: r) :
    Res Phase (Bad c (HasOk f)) (handle c now { f with q := r } x) := by
  rcases h with h | h | h | h
  · have h' : Live { f with q := r } := ⟨h.state, h.isOpen, h.pcap, h.dead, (hq ▸ h.q : IoOnly (x :: r)).tail⟩
    cases x with
    | readOk p d => exact (handleRead_live h' (HasOk f) now p d).mono (fun _ => liveOrLeaving) (fun _ => id)
    | readErr e =>
      show Res _ _ (if _ then _ else _)
      split
      · refine (handleError_live h').mono ?_ (fun _ hh => hh.elim)
        rintro g (⟨_, rfl⟩ | ⟨_, hg⟩)
        · exact Or.inl h'
        · exact Or.inr (Or.inl hg)
      · exact Or.inl h'
    | close => have := h.q .close (by rw [hq]; exact List.mem_cons_self); cases this
    | dealloc => have := h.q .dealloc (by rw [hq]; exact List.mem_cons_self); cases this
  · obtain ⟨l, r2, h1, h2, h3⟩ := h.q
    rw [hq] at h1
    cases l with
    | nil =>
      cases h1
      show Res _ _ (setState { f with q := r } .closed)
      have : setState { f with q := r } .closed = .ok (post (emit { f with q := r, state := .closed } (.state f.state .closed)) .dealloc) := by
        rcases h.state with e | e <;> simp [setState, e, validTransition]
      rw [this]
      exact Or.inr (Or.inr (Or.inl ⟨rfl, h.isOpen, h.pcap, h.reading, h.dead, r, rfl, h3⟩))
    | cons y l =>
      cases h1
      have h' : Leaving { f with q := l ++ .close :: r2 } := ⟨h.state, h.isOpen, h.pcap, h.reading, h.dead, l, r2, rfl, h2.tail, h3⟩
      cases x with
      | readOk p d =>
        show Res _ _ (handleRead _ _ _ _ _)
        unfold handleRead
        rw [if_pos (by rw [h'.pcap]; rfl)]
        exact Or.inr ⟨rfl, Or.inr ⟨p, d, by rw [hq]; exact List.mem_cons_self⟩⟩
      | readErr e =>
        show Res _ _ (if _ then _ else _)
        rw [if_neg (by rintro ⟨_, hh⟩; rcases h'.state with e | e <;> rw [e] at hh <;> cases hh)]
        exact Or.inr (Or.inl h')
      | close => have := h2 .close List.mem_cons_self; cases this
      | dealloc => have := h2 .dealloc List.mem_cons_self; cases this
  · obtain ⟨l, h1, h2⟩ := h.q
    rw [hq] at h1
    cases l with
    | nil =>
      cases h1
      exact Or.inr (Or.inr (Or.inr ⟨h.state, h.pcap, h.reading, rfl, rfl, rfl⟩))
    | cons y l =>
      cases h1
      have h' : Closed { f with q := l ++ [.dealloc] } := ⟨h.state, h.isOpen, h.pcap, h.reading, h.dead, l, rfl, h2.tail⟩
      cases x with
      | readOk p d =>
        show Res _ _ (handleRead _ _ _ _ _)
        unfold handleRead
        rw [if_pos (by rw [h'.pcap]; rfl)]
        exact Or.inr ⟨rfl, Or.inr ⟨p, d, by rw [hq]; exact List.mem_cons_self⟩⟩
      | readErr e =>
        show Res _ _ (if _ then _ else _)
        rw [if_neg (by rintro ⟨_, hh⟩; rw [h'.state] at hh; cases hh)]
        exact Or.inr (Or.inr (Or.inl h'))
      | close => have := h2 .close List.mem_cons_self; cases this
      | dealloc => have := h2 .dealloc List.mem_cons_self; cases this
  · rw [h.dead] at hd; cases hd

theorem complete_phase {c : Cfg} {f : Face} (h : Live f) (Q : Prop) (now : Nat) {x : Handler} (hx : isIo x = true) (b : Bool) :
    Res Phase (Bad c Q) (complete c now { f with reading := false } x b) := by
  have h' : Live { f with reading := false } := ⟨h.state, h.isOpen, h.pcap, h.dead, h.q⟩
  unfold complete
  split
  · cases x with
    | readOk p d => exact (handleRead_live h' Q now p d).mono (fun _ => liveOrLeaving) (fun _ => id)
    | readErr e =>
      show Res _ _ (if _ then _ else _)
      split
      · refine (handleError_live h').mono ?_ (fun _ hh => hh.elim)
        rintro g (⟨_, rfl⟩ | ⟨_, hg⟩)
        · exact Or.inl h'
        · exact Or.inr (Or.inl hg)
      · exact Or.inl h'
    | close => cases hx
    | dealloc => cases hx
  · exact Or.inl ⟨h.state, h.isOpen, h.pcap, h.dead, h.q.append (.single hx)⟩

/-- Changes of fields that the phase does not depend on. -/
theorem Phase.congr {f g : Face} (h : Phase f) (h1 : g.state = f.state) (h2 : g.isOpen = f.isOpen) (h3 : g.pcap = f.pcap)
    (h4 : g.reading = f.reading) (h5 : g.dead = f.dead) (h6 : g.q = f.q) (h7 : f.dead = true → g.timer = f.timer) : Phase g := by
  rcases h with h | h | h | h
  · exact Or.inl ⟨h1 ▸ h.state, h2.trans h.isOpen, h3.trans h.pcap, h5.trans h.dead, h6 ▸ h.q⟩
  · exact Or.inr (Or.inl ⟨h1 ▸ h.state, h2.trans h.isOpen, h3.trans h.pcap, h4.trans h.reading, h5.trans h.dead, h6 ▸ h.q⟩)
  · exact Or.inr (Or.inr (Or.inl ⟨h1 ▸ h.state, h2.trans h.isOpen, h3.trans h.pcap, h4.trans h.reading, h5.trans h.dead, h6 ▸ h.q⟩))
  · exact Or.inr (Or.inr (Or.inr ⟨h1.trans h.state, h3.trans h.pcap, h4.trans h.reading, h5.trans h.dead, h6.trans h.q, (h7 h.dead).trans h.timer⟩))

theorem Phase.notClosed {f : Face} (h : Phase f) (hc : f.state ≠ .closed) : Live f ∨ Leaving f := by
  rcases h with h | h | h | h
  · exact Or.inl h
  · exact Or.inr h
  · exact absurd h.state hc
  · exact absurd h.state hc

theorem Phase.notClosedDead {f : Face} (h : Phase f) (hc : f.state ≠ .closed) : f.dead = false := by
  rcases h.notClosed hc with h | h
  · exact h.dead
  · exact h.dead

theorem netif_phase {f : Face} (h : Phase f) (b : Bool) : Res Phase (fun _ => False) (netif f b) := by
  unfold netif
  split
  · split
    · rename_i hs
      have hl := h.live (Or.inr hs)
      rw [show setState f .up = .ok (emit { f with state := .up } (.state f.state .up)) by simp [setState, hs, validTransition]]
      exact Or.inl ⟨Or.inl rfl, hl.isOpen, hl.pcap, hl.dead, hl.q⟩
    · exact h
  · split
    · rename_i hs
      have hl := h.live (Or.inl hs)
      rw [show setState f .down = .ok (emit { f with state := .down } (.state f.state .down)) by simp [setState, hs, validTransition]]
      exact Or.inl ⟨Or.inr rfl, hl.isOpen, hl.pcap, hl.dead, hl.q⟩
    · exact h

theorem close_phase {f : Face} (h : Phase f) : Res Phase (fun _ => False) (close f) := by
  by_cases hs : f.state ≠ .up ∧ f.state ≠ .down
  · rw [close_other hs]; exact h
  · exact (close_live (h.live (upDown hs))).mono (fun _ hg => Or.inr (Or.inl hg)) (fun _ => id)

theorem setPersist_phase {c : Cfg} {f : Face} (h : Phase f) (hc : f.state ≠ .closed) (now : Nat) (p : Persist) :
    Phase (setPersist c now f p) := by
  have hd := h.notClosedDead hc
  unfold setPersist
  split
  · exact h
  · dsimp only
    split <;> split <;> exact h.congr rfl rfl rfl rfl rfl rfl (fun hh => by rw [hd] at hh; cases hh)

theorem step_phase {c : Cfg} {now : Nat} {f : Face} (h : Phase f) (e : Event) : Res Phase (Bad c (HasOk f)) (faceStep c now f e) := by
  cases e with
  | act a =>
    simp only [faceStep]
    split
    · exact h
    · rename_i hc
      exact (act_live (h.notClosed hc) a).mono (fun _ => liveOrLeaving) (fun _ => Asserts.bad)
  | setPersist p =>
    simp only [faceStep]
    split
    · exact h
    · rename_i hc; exact setPersist_phase h hc now p
  | netif b =>
    simp only [faceStep]
    split
    · exact h
    · exact (netif_phase h b).mono (fun _ => id) (fun _ => False.elim)
  | mtu n =>
    simp only [faceStep]
    split
    · exact h
    · exact h.congr rfl rfl rfl rfl rfl rfl (fun _ => rfl)
  | wire w d b =>
    simp only [faceStep]
    split
    · rename_i hr; exact complete_phase (h.liveReading hr.1) _ now rfl b
    · exact h
  | nothing b =>
    simp only [faceStep]
    split
    · rename_i hr; exact complete_phase (h.liveReading hr) _ now rfl b
    · exact h
  | fail b =>
    simp only [faceStep]
    split
    · rename_i hr; exact complete_phase (h.liveReading hr) _ now rfl b
    · exact h
  | dispatch pl s d =>
    simp only [faceStep]
    split
    · exact h
    · rename_i hc
      have hc : f.state ≠ .closed := fun hh => hc (Or.inl hh)
      refine (receive_live ?_ now pl s d).mono (fun _ => liveOrLeaving) (fun _ => Asserts.bad)
      rcases h.notClosed hc with h | h
      · exact Or.inl (h.emit _)
      · exact Or.inr (h.emit _)
  | timer =>
    simp only [faceStep]
    cases ht : f.timer with
    | none => exact h
    | some due =>
      dsimp only
      split
      · exact h
      · have hd : f.dead = true → False := by
          intro hh
          rcases h with h | h | h | h
          · rw [h.dead] at hh; cases hh
          · rw [h.dead] at hh; cases hh
          · rw [h.dead] at hh; cases hh
          · rw [h.timer] at ht; cases ht
        unfold idleCheck
        dsimp only
        split
        · refine (close_phase ?_).mono (fun _ => id) (fun _ => False.elim)
          exact h.congr rfl rfl rfl rfl rfl rfl (fun hh => (hd hh).elim)
        · exact h.congr rfl rfl rfl rfl rfl rfl (fun hh => (hd hh).elim)
  | next =>
    simp only [faceStep]
    cases hq : f.q with
    | nil => exact h
    | cons x r =>
      dsimp only
      cases hd : f.dead with
      | false =>
        rw [if_neg (by decide)]
        rw [← hd]
        exact handle_phase h hd now hq
      | true =>
        exfalso
        rcases h with h | h | h | h
        · rw [h.dead] at hd; cases hd
        · rw [h.dead] at hd; cases hd
        · rw [h.dead] at hd; cases hd
        · rw [h.q] at hq; cases hq
  | tick d => exact h

theorem phase_new (c : Cfg) (now : Nat) (p : Persist) (mtu : Nat) (running : Bool) : Phase (newFace c now p mtu running) := by
  unfold newFace scheduleIdle
  refine Or.inl ?_
  dsimp only
  cases running <;> split <;> exact ⟨(by simp), rfl, rfl, rfl, .nil⟩

end Verif.Et
