/-
Invariants of a UDP face: its state, its queue of handlers and its outstanding operations.
-/
import Verif.Dg.Model

namespace Verif.Dg
open Verif.Lp (Bytes readElem)
open Verif.Tp (TState Persist validTransition leaving maxPacket)

/-- The handler of an operation on the socket. -/
def isIo : Handler → Bool
  | .recvOk _ | .recvErr _ | .sendOk | .sendErr _ => true
  | .close | .dealloc => false

def isRecv : Handler → Bool
  | .recvOk _ | .recvErr _ => true
  | _ => false

def IoOnly (l : List Handler) : Prop := ∀ h ∈ l, isIo h = true

theorem IoOnly.nil : IoOnly [] := by intro h hh; cases hh

theorem IoOnly.append {a b : List Handler} (ha : IoOnly a) (hb : IoOnly b) : IoOnly (a ++ b) := by
  intro h hh
  rcases List.mem_append.1 hh with hh | hh
  · exact ha h hh
  · exact hb h hh

theorem IoOnly.tail {h : Handler} {l : List Handler} (hl : IoOnly (h :: l)) : IoOnly l := fun x hx => hl x (List.mem_cons_of_mem _ hx)

theorem IoOnly.head {h : Handler} {l : List Handler} (hl : IoOnly (h :: l)) : isIo h = true := hl h List.mem_cons_self

theorem IoOnly.single {h : Handler} (hh : isIo h = true) : IoOnly [h] := by
  intro x hx
  rw [List.mem_singleton] at hx
  rw [hx]; exact hh

/-- The phase a face is in. -/
inductive Phase (f : Face) : Prop where
  /-- UP: the socket is open, and a receive is outstanding, or exactly one receive handler is queued -/
  | up : f.state = .up → f.isOpen = true → f.dead = false → IoOnly f.q →
      f.q.countP isRecv + (if f.reading = true then 1 else 0) = 1 → Phase f
  /-- CLOSING or FAILED: handlers of the socket, then the deferred function -/
  | leaving (l : List Handler) : f.state = .closing ∨ f.state = .failed → f.isOpen = false → f.reading = false → f.sends = [] →
      f.dead = false → f.q = l ++ [.close] → IoOnly l → Phase f
  /-- CLOSED: only deallocation is left -/
  | closed : f.state = .closed → f.isOpen = false → f.reading = false → f.sends = [] → f.dead = false → f.q = [.dealloc] → Phase f
  /-- deallocated -/
  | dead : f.state = .closed → f.isOpen = false → f.reading = false → f.sends = [] → f.dead = true → f.q = [] → f.timer = none → Phase f

theorem setState_up {f : Face} (n : TState) (h : f.state = .up) (hn : n = .closing ∨ n = .failed) :
    setState f n = .ok (emit { f with state := n } (.state .up n)) := by
  rcases hn with rfl | rfl <;> simp [setState, h, validTransition]

theorem countP_aborted (l : List Bytes) : (l.map (fun _ => Handler.sendErr .aborted)).countP isRecv = 0 := by
  induction l with
  | nil => rfl
  | cons a l ih => simp [List.countP_cons, isRecv]

/-- Leaving UP, by whatever cause. -/
theorem phase_doClose {f : Face} {n : TState} {o : List Out} (hp : f.isOpen = true) (hd : f.dead = false) (hq : IoOnly f.q)
    (hn : n = .closing ∨ n = .failed) : Phase (doClose { f with state := n, out := o }) := by
  refine .leaving (f.q ++ (if f.reading then [.recvErr .aborted] else []) ++ f.sends.map (fun _ => .sendErr .aborted)) ?_ ?_ ?_ ?_ ?_ ?_ ?_
  · simpa [doClose, hp, post] using hn
  · simp [doClose, hp, post]
  · simp [doClose, hp, post]
  · simp [doClose, hp, post]
  · simp [doClose, hp, post, hd]
  · simp [doClose, hp, post]
  · refine (hq.append ?_).append ?_
    · split
      · exact .single rfl
      · exact .nil
    · intro h hh
      rcases List.mem_map.1 hh with ⟨_, _, rfl⟩
      rfl

/-- Only the phase-relevant fields matter. -/
theorem Phase.congr {f g : Face} (h : Phase f) (h1 : g.state = f.state) (h2 : g.isOpen = f.isOpen) (h3 : g.reading = f.reading)
    (h4 : f.state ≠ .up → g.sends = f.sends) (h5 : g.dead = f.dead) (h6 : g.q = f.q) (h7 : f.timer = none → f.dead = true → g.timer = none) : Phase g := by
  cases h with
  | up a b c d e => exact .up (h1.trans a) (h2.trans b) (h5.trans c) (h6 ▸ d) (by rw [h6, h3]; exact e)
  | leaving l a b c d e q r =>
    have hne : f.state ≠ .up := by rcases a with a | a <;> rw [a] <;> decide
    exact .leaving l (by rw [h1]; exact a) (h2.trans b) (h3.trans c) ((h4 hne).trans d) (h5.trans e) (h6.trans q) r
  | closed a b c d e q => exact .closed (h1.trans a) (h2.trans b) (h3.trans c) ((h4 (by rw [a]; decide)).trans d) (h5.trans e) (h6.trans q)
  | dead a b c d e q r =>
    exact .dead (h1.trans a) (h2.trans b) (h3.trans c) ((h4 (by rw [a]; decide)).trans d) (h5.trans e) (h6.trans q) (h7 r e)

theorem phase_newFace (T now ep : Nat) (p : Persist) : Phase (newFace T now ep p) := by
  unfold newFace scheduleIdle
  dsimp only
  split <;> exact .up rfl rfl rfl .nil rfl

/-- What closing a face does. -/
theorem close_up {f : Face} (h : f.state = .up) :
    close f = .ok (doClose { f with state := .closing, out := f.out ++ [.state .up .closing] }) := by
  unfold close
  rw [if_neg (by rw [h]; simp), setState_up _ h (Or.inl rfl)]
  rfl

theorem close_other {f : Face} (h : f.state ≠ .up) (hd : f.state ≠ .down) : close f = .ok f := by
  unfold close
  rw [if_pos ⟨h, hd⟩]

/-- When an error leads to failure. -/
def Fatal (f : Face) (e : Err) : Prop := f.state = .up ∧ e = .other ∧ f.persist ≠ .permanent

theorem processError_fatal {f : Face} {e : Err} (h : Fatal f e) :
    processError f e = .ok (doClose { f with state := .failed, out := f.out ++ [.state .up .failed] }) := by
  obtain ⟨h1, rfl, h3⟩ := h
  unfold processError
  rw [if_neg (by rw [h1]; simp [leaving]), if_neg h3, setState_up _ h1 (Or.inr rfl)]
  rfl

theorem processError_other {f : Face} {e : Err} (h : ¬ Fatal f e) (hd : f.state ≠ .down) : processError f e = .ok f := by
  unfold processError
  by_cases h1 : leaving f.state = true ∨ e = .aborted
  · rw [if_pos h1]
  · rw [if_neg h1]
    by_cases h2 : f.persist = .permanent
    · rw [if_pos h2]
    · exfalso
      refine h ⟨?_, ?_, h2⟩
      · cases hs : f.state <;> simp_all [leaving]
      · cases e with
        | aborted => exact absurd (Or.inr rfl) h1
        | other => rfl

theorem Phase.notDown {f : Face} (h : Phase f) : f.state ≠ .down := by
  cases h with
  | up a => rw [a]; decide
  | leaving l a => rcases a with a | a <;> rw [a] <;> decide
  | closed a => rw [a]; decide
  | dead a => rw [a]; decide

theorem Phase.ofUp {f : Face} (h : Phase f) (hu : f.state = .up) : f.isOpen = true ∧ f.dead = false ∧ IoOnly f.q ∧
    f.q.countP isRecv + (if f.reading = true then 1 else 0) = 1 := by
  cases h with
  | up a b c d e => exact ⟨b, c, d, e⟩
  | leaving l a => rcases a with a | a <;> rw [a] at hu <;> cases hu
  | closed a => rw [a] at hu; cases hu
  | dead a => rw [a] at hu; cases hu

theorem Phase.ofReading {f : Face} (h : Phase f) (hr : f.reading = true) : f.state = .up := by
  cases h with
  | up a => exact a
  | leaving l a b c => rw [c] at hr; cases hr
  | closed a b c => rw [c] at hr; cases hr
  | dead a b c => rw [c] at hr; cases hr

theorem Phase.ofSends {f : Face} (h : Phase f) (hr : f.sends ≠ []) : f.state = .up := by
  cases h with
  | up a => exact a
  | leaving l a b c d => exact absurd d hr
  | closed a b c d => exact absurd d hr
  | dead a b c d => exact absurd d hr

theorem Phase.ofOpen {f : Face} (h : Phase f) : f.isOpen = true ↔ f.state = .up := by
  cases h with
  | up a b => simp [a, b]
  | leaving l a b => rcases a with a | a <;> simp [a, b]
  | closed a b => simp [a, b]
  | dead a b => simp [a, b]

/-- What `receiveDatagram` may change. -/
theorem receiveDatagram_shape (now : Nat) (f : Face) (b : Bytes) :
    receiveDatagram now f b = f ∨ receiveDatagram now f b = { f with recent := true, out := f.out ++ [.deliver b now] } := by
  unfold receiveDatagram
  cases readElem b with
  | none => exact Or.inl rfl
  | some x =>
    obtain ⟨e, r⟩ := x
    dsimp only
    by_cases h : b.length - r.length ≠ b.length
    · rw [if_pos h]; exact Or.inl rfl
    · rw [if_neg h]; exact Or.inr rfl

theorem phase_receiveDatagram {now : Nat} {f : Face} {b : Bytes} (h : Phase f) : Phase (receiveDatagram now f b) := by
  rcases receiveDatagram_shape now f b with e | e <;> rw [e]
  · exact h
  · exact h.congr rfl rfl rfl (fun _ => rfl) rfl rfl (fun h _ => h)

theorem phase_close {f f' : Face} (h : Phase f) (e : close f = .ok f') : Phase f' := by
  by_cases hu : f.state = .up
  · rw [close_up hu] at e
    cases e
    obtain ⟨a, b, c, _⟩ := h.ofUp hu
    exact phase_doClose a b c (Or.inl rfl)
  · rw [close_other hu h.notDown] at e
    cases e; exact h

theorem phase_processError {f f' : Face} {x : Err} (h : Phase f) (e : processError f x = .ok f') : Phase f' := by
  by_cases hu : Fatal f x
  · rw [processError_fatal hu] at e
    cases e
    obtain ⟨a, b, c, _⟩ := h.ofUp hu.1
    exact phase_doClose a b c (Or.inr rfl)
  · rw [processError_other hu h.notDown] at e
    cases e; exact h

/-- A face that is about to run a receive handler, which is no longer in the queue. -/
inductive Ready (f : Face) : Prop where
  | up : f.state = .up → f.isOpen = true → f.dead = false → IoOnly f.q → f.q.countP isRecv = 0 → f.reading = false → Ready f
  | leaving (l : List Handler) : f.state = .closing ∨ f.state = .failed → f.isOpen = false → f.reading = false → f.sends = [] →
      f.dead = false → f.q = l ++ [.close] → IoOnly l → Ready f

theorem phase_rearm {f : Face} (h : Ready f) : Phase (rearm f) := by
  cases h with
  | up a b c d e g =>
    unfold rearm
    rw [if_pos b]
    exact .up a b c d (by simp [e])
  | leaving l a b c d e g i =>
    unfold rearm
    rw [if_neg (by rw [b]; decide)]
    exact .leaving l a b c d e g i

theorem ready_receiveDatagram {now : Nat} {f : Face} {b : Bytes} (h : Ready f) : Ready (receiveDatagram now f b) := by
  rcases receiveDatagram_shape now f b with e | e <;> rw [e]
  · exact h
  · cases h with
    | up a b c d e g => exact .up a b c d e g
    | leaving l a b c d e g i => exact .leaving l a b c d e g i

theorem ready_emit {f : Face} {o : Out} (h : Ready f) : Ready (emit f o) := by
  cases h with
  | up a b c d e g => exact .up a b c d e g
  | leaving l a b c d e g i => exact .leaving l a b c d e g i

theorem ready_notDown {f : Face} (h : Ready f) : f.state ≠ .down := by
  cases h with
  | up a => rw [a]; decide
  | leaving l a => rcases a with a | a <;> rw [a] <;> decide

theorem ready_processError {f f' : Face} {x : Err} (h : Ready f) (e : processError f x = .ok f') : Ready f' := by
  by_cases hu : Fatal f x
  · rw [processError_fatal hu] at e
    cases e
    cases h with
    | up a b c d g i =>
      cases phase_doClose (f := f) (n := .failed) (o := f.out ++ [.state .up .failed]) b c d (Or.inr rfl) with
      | up a' => simp [doClose, b, post] at a'
      | leaving l a b c d e g i => exact .leaving l a b c d e g i
      | closed a' => simp [doClose, b, post] at a'
      | dead a' => simp [doClose, b, post] at a'
    | leaving l a => rcases a with a | a <;> rw [hu.1] at a <;> cases a
  · rw [processError_other hu (ready_notDown h)] at e
    cases e; exact h

/-- Handling a receive, in a face that is ready for it. -/
theorem phase_handleRecv {now : Nat} {f f' : Face} {h : Handler} (hh : isRecv h = true) (hr : Ready f) (e : handle now f h = .ok f') : Phase f' := by
  cases h with
  | recvOk b =>
    simp only [handle] at e
    cases e
    exact phase_rearm (ready_receiveDatagram (ready_emit hr))
  | recvErr x =>
    simp only [handle, bind, Except.bind] at e
    cases hp : processError f x with
    | error y => rw [hp] at e; cases e
    | ok g =>
      rw [hp] at e
      cases e
      exact phase_rearm (ready_processError hr hp)
  | sendOk => cases hh
  | sendErr x => cases hh
  | close => cases hh
  | dealloc => cases hh

/-- Handling a send. -/
theorem phase_handleSend {now : Nat} {f f' : Face} {h : Handler} (hh : isIo h = true) (hr : isRecv h = false) (hp : Phase f)
    (e : handle now f h = .ok f') : Phase f' := by
  cases h with
  | recvOk b => cases hr
  | recvErr x => cases hr
  | sendOk => simp only [handle] at e; cases e; exact hp
  | sendErr x => exact phase_processError hp e
  | close => cases hh
  | dealloc => cases hh

/-- Every step of a face keeps its phase invariant. -/
theorem phase_step {T now : Nat} {f f' : Face} {ev : FEvent} (h : Phase f) (e : faceStep T now f ev = .ok f') : Phase f' := by
  cases ev with
  | send p =>
    simp only [faceStep] at e
    split at e
    · cases e; exact h
    · cases e
      unfold send
      by_cases hu : f.state = .up
      · rw [if_neg (by rw [hu]; simp), if_pos hu]
        refine h.congr rfl rfl rfl (fun hn => absurd hu hn) rfl rfl (fun h _ => h)
      · rw [if_pos ⟨hu, h.notDown⟩]; exact h
  | close =>
    simp only [faceStep] at e
    split at e
    · cases e; exact h
    · exact phase_close h e
  | setPersist p =>
    simp only [faceStep] at e
    split at e
    · cases e; exact h
    · rename_i hc
      cases e
      have hdead : f.dead = false := by
        cases h with
        | up a b c => exact c
        | leaving l a b c d e => exact e
        | closed a => exact absurd a hc
        | dead a => exact absurd a hc
      unfold setPersist scheduleIdle
      dsimp only
      split
      · exact h
      · split <;> split <;> exact h.congr rfl rfl rfl (fun _ => rfl) rfl rfl (fun _ hd => absurd hd (by rw [hdead]; decide))
  | recv b o =>
    simp only [faceStep] at e
    split at e
    · rename_i hr
      have hu := h.ofReading hr
      obtain ⟨a1, a2, a3, a4⟩ := h.ofUp hu
      rw [if_pos hr] at a4
      unfold complete at e
      cases o with
      | true =>
        rw [if_pos rfl] at e
        exact phase_handleRecv rfl (f := { f with reading := false }) (.up hu a1 a2 a3 (by show List.countP isRecv f.q = 0; omega) rfl) e
      | false =>
        rw [if_neg (by decide)] at e
        cases e
        refine .up hu a1 a2 (a3.append (.single rfl)) ?_
        show (f.q ++ [Handler.recvOk (b.take maxPacket)]).countP isRecv + 0 = 1
        rw [List.countP_append]
        have : List.countP isRecv [Handler.recvOk (b.take maxPacket)] = 1 := rfl
        omega
    · cases e; exact h
  | recvFail o =>
    simp only [faceStep] at e
    split at e
    · rename_i hr
      have hu := h.ofReading hr
      obtain ⟨a1, a2, a3, a4⟩ := h.ofUp hu
      rw [if_pos hr] at a4
      unfold complete at e
      cases o with
      | true =>
        rw [if_pos rfl] at e
        exact phase_handleRecv rfl (f := { f with reading := false }) (.up hu a1 a2 a3 (by show List.countP isRecv f.q = 0; omega) rfl) e
      | false =>
        rw [if_neg (by decide)] at e
        cases e
        refine .up hu a1 a2 (a3.append (.single rfl)) ?_
        show (f.q ++ [Handler.recvErr .other]).countP isRecv + 0 = 1
        rw [List.countP_append]
        have : List.countP isRecv [Handler.recvErr .other] = 1 := rfl
        omega
    · cases e; exact h
  | sendDone ok o =>
    simp only [faceStep] at e
    split at e
    · cases e; exact h
    · rename_i p r hs
      have hu := h.ofSends (by rw [hs]; simp)
      obtain ⟨a1, a2, a3, a4⟩ := h.ofUp hu
      have hp : Phase (emit { f with sends := r } (if ok then .sent p else .unsent p)) := .up hu a1 a2 a3 a4
      unfold complete at e
      cases o with
      | true =>
        rw [if_pos rfl] at e
        refine phase_handleSend ?_ ?_ hp e <;> cases ok <;> rfl
      | false =>
        rw [if_neg (by decide)] at e
        cases e
        refine .up hu a1 a2 (a3.append (.single (by cases ok <;> rfl))) ?_
        have : isRecv (if ok = true then Handler.sendOk else Handler.sendErr .other) = false := by cases ok <;> rfl
        show (f.q ++ [if ok = true then Handler.sendOk else Handler.sendErr .other]).countP isRecv + (if f.reading = true then 1 else 0) = 1
        rw [List.countP_append, List.countP_singleton, this]
        exact a4
  | timer =>
    simp only [faceStep] at e
    split at e
    · cases e; exact h
    · rename_i due ht
      split at e
      · cases e; exact h
      · split at e
        · cases e
        · rename_i hd
          have hg : Phase { f with timer := none } := h.congr rfl rfl rfl (fun _ => rfl) rfl rfl (fun _ hx => absurd hx hd)
          unfold idleCheck at e
          dsimp only at e
          split at e
          · refine phase_close (f := emit { f with timer := none } (.idle now)) ?_ e
            exact hg.congr rfl rfl rfl (fun _ => rfl) rfl rfl (fun h _ => h)
          · cases e
            exact hg.congr rfl rfl rfl (fun _ => rfl) rfl rfl (fun _ hx => absurd hx hd)
  | next =>
    simp only [faceStep] at e
    split at e
    · cases e; exact h
    · rename_i x r hq
      split at e
      · cases e
      · rename_i hd
        cases h with
        | up a b c d g =>
          rw [hq] at d g
          by_cases hr : isRecv x = true
          · refine phase_handleRecv hr (f := { f with q := r }) ?_ e
            rw [List.countP_cons, if_pos hr] at g
            have hrd : f.reading = false := by
              cases hx : f.reading with
              | false => rfl
              | true => rw [hx] at g; simp at g
            exact .up a b c d.tail (by dsimp only; omega) hrd
          · refine phase_handleSend d.head (by simpa using hr) (f := { f with q := r }) ?_ e
            rw [List.countP_cons, if_neg hr] at g
            exact .up a b c d.tail g
        | leaving l a b c d g i j =>
          rw [hq] at i
          cases l with
          | nil =>
            cases i
            simp only [handle] at e
            rcases a with a | a
            · simp [setState, a, validTransition, emit, post] at e
              cases e
              exact .closed rfl b c d g (by simp)
            · simp [setState, a, validTransition, emit, post] at e
              cases e
              exact .closed rfl b c d g (by simp)
          | cons y l =>
            rw [List.cons_append] at i
            cases i
            by_cases hr : isRecv x = true
            · exact phase_handleRecv hr (f := { f with q := l ++ [.close] }) (.leaving l a b c d g rfl j.tail) e
            · exact phase_handleSend j.head (by simpa using hr) (f := { f with q := l ++ [.close] }) (.leaving l a b c d g rfl j.tail) e
        | closed a b c d g i =>
          rw [hq] at i
          cases i
          simp only [handle] at e
          cases e
          exact .dead a b c d rfl rfl rfl
        | dead a b c d g i => rw [hq] at i; cases i

end Verif.Dg
