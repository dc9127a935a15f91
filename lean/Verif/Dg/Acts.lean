/-
What a step of a UDP face can do, apart from the queue of handlers.
-/
import Verif.Dg.Inv
import Verif.Dg.Spec

namespace Verif.Dg
open Verif.Lp (Bytes readElem parseBlock)
open Verif.Tp (TState Persist validTransition leaving maxPacket)

structure View where
  ep : Nat
  state : TState
  persist : Persist
  sends : List Bytes
  recent : Bool
  timer : Option Nat
  expires : Option Nat
  dead : Bool
  out : List Out

def view (f : Face) : View where
  ep := f.ep
  state := f.state
  persist := f.persist
  sends := f.sends
  recent := f.recent
  timer := f.timer
  expires := f.expires
  dead := f.dead
  out := f.out

/-- A datagram arrives. -/
def arriveView (now : Nat) (v : View) (o : Out) (b : Bytes) : View :=
  { v with recent := v.recent || oneTlv b, out := v.out ++ o :: (if oneTlv b then [.deliver b now] else []) }

/-- Elementary changes. -/
inductive Act (T now : Nat) : View → View → Prop
  | accept (v : View) (p : Bytes) : v.state = .up → Act T now v { v with sends := v.sends ++ [p], out := v.out ++ [.accepted p] }
  | leave (v : View) (n : TState) : v.state = .up → n = .closing ∨ n = .failed →
      Act T now v { v with state := n, sends := [], out := v.out ++ [.state .up n] }
  | closed (v : View) : v.state = .closing ∨ v.state = .failed →
      Act T now v { v with state := .closed, out := v.out ++ [.state v.state .closed] }
  | arrive (v : View) (b : Bytes) : v.state ≠ .closed → Act T now v (arriveView now v (.got b) b)
  | sent (v : View) (p : Bytes) (r : List Bytes) (ok : Bool) : v.state = .up → v.sends = p :: r →
      Act T now v { v with sends := r, out := v.out ++ [if ok then .sent p else .unsent p] }
  | onDemand (v : View) : v.persist ≠ .onDemand → v.dead = false →
      Act T now v { v with persist := .onDemand, timer := if T > 0 then some (now + T) else none,
                           expires := if T > 0 then some (now + T) else none, out := v.out ++ [.onDemand now] }
  | persist (v : View) (p : Persist) : p ≠ .onDemand → v.dead = false → Act T now v { v with persist := p, timer := none, expires := none }
  | fire (v : View) (due : Nat) : v.timer = some due → due ≤ now → v.recent = false → v.state ≠ .up → v.dead = false →
      Act T now v { v with timer := none, out := v.out ++ [.idle now] }
  | fireUp (v : View) (due : Nat) : v.timer = some due → due ≤ now → v.recent = false → v.state = .up →
      Act T now v { v with timer := none, state := .closing, sends := [], out := v.out ++ [.idle now, .state .up .closing] }
  | again (v : View) (due : Nat) : v.timer = some due → due ≤ now → v.recent = true → v.dead = false →
      Act T now v { v with recent := false, timer := some (now + T), expires := some (now + T) }
  | free (v : View) : v.state = .closed → Act T now v { v with dead := true, timer := none }

inductive Acts (T now : Nat) : View → View → Prop
  | refl (v : View) : Acts T now v v
  | tail {v w x : View} : Acts T now v w → Act T now w x → Acts T now v x

theorem Acts.one {T now : Nat} {v w : View} (h : Act T now v w) : Acts T now v w := .tail (.refl v) h

theorem Acts.trans {T now : Nat} {v w x : View} (h : Acts T now v w) (h' : Acts T now w x) : Acts T now v x := by
  induction h' with
  | refl => exact h
  | tail _ ha ih => exact .tail ih ha

theorem readVar_lt {b r : Bytes} {n : Nat} (h : Lp.readVar b = some (n, r)) : r.length < b.length := by
  cases b with
  | nil => simp [Lp.readVar] at h
  | cons x t =>
    simp only [Lp.readVar] at h
    by_cases h1 : x.toNat < 253
    · rw [if_pos h1] at h
      cases h; simp
    · rw [if_neg h1] at h
      generalize (if x.toNat = 253 then 2 else if x.toNat = 254 then 4 else 8) = k at h
      by_cases h2 : t.length < k
      · rw [if_pos h2] at h; cases h
      · rw [if_neg h2] at h
        cases h
        simp only [List.length_drop, List.length_cons]
        omega

theorem readElem_lt {b r : Bytes} {e : Lp.Elem} (h : readElem b = some (e, r)) : r.length < b.length := by
  unfold readElem at h
  cases h1 : Lp.readVar b with
  | none => rw [h1] at h; cases h
  | some x =>
    obtain ⟨t, r1⟩ := x
    rw [h1] at h
    dsimp only at h
    split at h
    · cases h
    · cases h2 : Lp.readVar r1 with
      | none => rw [h2] at h; cases h
      | some y =>
        obtain ⟨l, r2⟩ := y
        rw [h2] at h
        dsimp only at h
        split at h
        · cases h
        · cases h
          have a := readVar_lt h1
          have b := readVar_lt h2
          rw [List.length_drop]; omega

theorem receiveDatagram_eq (now : Nat) (f : Face) (b : Bytes) :
    receiveDatagram now f b = { f with recent := f.recent || oneTlv b, out := f.out ++ (if oneTlv b then [.deliver b now] else []) } := by
  unfold receiveDatagram oneTlv parseBlock
  cases h : readElem b with
  | none => simp
  | some x =>
    obtain ⟨e, r⟩ := x
    have := readElem_lt h
    dsimp only
    cases r with
    | nil => simp [emit]
    | cons y t =>
      have hne : b.length - (y :: t).length ≠ b.length := by simp only [List.length_cons] at this ⊢; omega
      rw [if_pos hne]
      simp

theorem act_close {T now : Nat} {f f' : Face} (h : Phase f) (e : close f = .ok f') : Acts T now (view f) (view f') := by
  by_cases hu : f.state = .up
  · rw [close_up hu] at e
    cases e
    obtain ⟨a, _⟩ := h.ofUp hu
    have hv : view (doClose { f with state := .closing, out := f.out ++ [.state .up .closing] }) =
        { view f with state := .closing, sends := [], out := (view f).out ++ [.state .up .closing] } := by
      simp [view, doClose, a, post]
    rw [hv]
    exact .one (.leave _ _ hu (Or.inl rfl))
  · rw [close_other hu h.notDown] at e
    cases e; exact .refl _

theorem act_processError {T now : Nat} {f f' : Face} {x : Err} (ho : f.isOpen = true ↔ f.state = .up) (hd : f.state ≠ .down)
    (e : processError f x = .ok f') : Acts T now (view f) (view f') := by
  by_cases hu : Fatal f x
  · rw [processError_fatal hu] at e
    cases e
    have a := ho.2 hu.1
    have hv : view (doClose { f with state := .failed, out := f.out ++ [.state .up .failed] }) =
        { view f with state := .failed, sends := [], out := (view f).out ++ [.state .up .failed] } := by
      simp [view, doClose, a, post]
    rw [hv]
    exact .one (.leave _ _ hu.1 (Or.inr rfl))
  · rw [processError_other hu hd] at e
    cases e; exact .refl _

theorem view_rearm (f : Face) : view (rearm f) = view f := by
  unfold rearm
  split <;> rfl

theorem act_handleIo {T now : Nat} {f f' : Face} {x : Handler} (hx : isIo x = true) (ho : f.isOpen = true ↔ f.state = .up)
    (hd : f.state ≠ .down) (hc : f.state ≠ .closed) (e : handle now f x = .ok f') : Acts T now (view f) (view f') := by
  cases x with
  | recvOk b =>
    simp only [handle] at e
    cases e
    rw [view_rearm, receiveDatagram_eq]
    have hv : view { emit f (.got b) with recent := (emit f (.got b)).recent || oneTlv b, out := (emit f (.got b)).out ++ (if oneTlv b then [.deliver b now] else []) } =
        arriveView now (view f) (.got b) b := by
      simp [view, emit, arriveView]
    rw [hv]
    exact .one (.arrive _ b hc)
  | recvErr y =>
    simp only [handle, bind, Except.bind] at e
    cases hp : processError f y with
    | error z => rw [hp] at e; cases e
    | ok g =>
      rw [hp] at e
      cases e
      rw [view_rearm]
      exact act_processError ho hd hp
  | sendOk => simp only [handle] at e; cases e; exact .refl _
  | sendErr y => exact act_processError ho hd e
  | close => cases hx
  | dealloc => cases hx

/-- Every step of a face consists of elementary changes. -/
theorem step_acts {T now : Nat} {f f' : Face} {ev : FEvent} (h : Phase f) (e : faceStep T now f ev = .ok f') : Acts T now (view f) (view f') := by
  cases ev with
  | send p =>
    simp only [faceStep] at e
    split at e
    · cases e; exact .refl _
    · cases e
      unfold send
      by_cases hu : f.state = .up
      · rw [if_neg (by rw [hu]; simp), if_pos hu]
        exact .one (.accept (view f) p hu)
      · rw [if_pos ⟨hu, h.notDown⟩]; exact .refl _
  | close =>
    simp only [faceStep] at e
    split at e
    · cases e; exact .refl _
    · exact act_close h e
  | setPersist p =>
    simp only [faceStep] at e
    split at e
    · cases e; exact .refl _
    · rename_i hc
      cases e
      have hdead : f.dead = false := by
        cases h with
        | up a b c => exact c
        | leaving l a b c d e => exact e
        | closed a => exact absurd a hc
        | dead a => exact absurd a hc
      unfold setPersist scheduleIdle
      dsimp only
      split
      · exact .refl _
      · rename_i hne
        by_cases hp : p = .onDemand
        · subst hp
          have ha : Act T now (view f) _ := .onDemand (view f) hne hdead
          by_cases hT : T > 0
          · rw [if_pos ⟨rfl, hT⟩]
            simp only [if_pos hT] at ha
            exact .one ha
          · rw [if_neg (fun x => hT x.2)]
            simp only [if_neg hT] at ha
            exact .one ha
        · rw [if_neg (fun x => hp x.1)]
          simp only [if_neg hp]
          exact .one (.persist (view f) p hp hdead)
  | recv b o =>
    simp only [faceStep] at e
    split at e
    · rename_i hr
      have hu := h.ofReading hr
      unfold complete at e
      cases o with
      | true =>
        rw [if_pos rfl] at e
        exact act_handleIo rfl (f := { f with reading := false }) h.ofOpen h.notDown (by show f.state ≠ _; rw [hu]; decide) e
      | false =>
        rw [if_neg (by decide)] at e
        cases e
        exact .refl _
    · cases e; exact .refl _
  | recvFail o =>
    simp only [faceStep] at e
    split at e
    · rename_i hr
      have hu := h.ofReading hr
      unfold complete at e
      cases o with
      | true =>
        rw [if_pos rfl] at e
        exact act_handleIo rfl (f := { f with reading := false }) h.ofOpen h.notDown (by show f.state ≠ _; rw [hu]; decide) e
      | false =>
        rw [if_neg (by decide)] at e
        cases e
        exact .refl _
    · cases e; exact .refl _
  | sendDone ok o =>
    simp only [faceStep] at e
    split at e
    · cases e; exact .refl _
    · rename_i p r hs
      have hu := h.ofSends (by rw [hs]; simp)
      have h1 : Acts T now (view f) (view (emit { f with sends := r } (if ok then .sent p else .unsent p))) := .one (.sent (view f) p r ok hu hs)
      unfold complete at e
      cases o with
      | true =>
        rw [if_pos rfl] at e
        exact h1.trans (act_handleIo (by cases ok <;> rfl) (f := emit { f with sends := r } (if ok then .sent p else .unsent p)) h.ofOpen h.notDown
          (by show f.state ≠ _; rw [hu]; decide) e)
      | false =>
        rw [if_neg (by decide)] at e
        cases e
        exact h1
  | timer =>
    simp only [faceStep] at e
    split at e
    · cases e; exact .refl _
    · rename_i due ht
      split at e
      · cases e; exact .refl _
      · rename_i hlt
        split at e
        · cases e
        · rename_i hd
          have hdf : f.dead = false := by simpa using hd
          unfold idleCheck at e
          dsimp only at e
          by_cases hrec : f.recent = false
          · rw [if_pos (by rw [hrec]; rfl)] at e
            by_cases hu : f.state = .up
            · rw [close_up (f := emit { f with timer := none } (.idle now)) hu] at e
              cases e
              obtain ⟨a, _⟩ := h.ofUp hu
              have ha := Act.fireUp (T := T) (now := now) (view f) due ht (by omega) hrec hu
              have hv : view (doClose { emit { f with timer := none } (.idle now) with
                    state := .closing, out := (emit { f with timer := none } (.idle now)).out ++ [.state .up .closing] }) =
                  { view f with timer := none, state := .closing, sends := [], out := (view f).out ++ [.idle now, .state .up .closing] } := by
                simp [view, doClose, a, post, emit]
              rw [hv]
              exact .one ha
            · rw [close_other (f := emit { f with timer := none } (.idle now)) hu h.notDown] at e
              cases e
              exact .one (.fire (view f) due ht (by omega) hrec hu hdf)
          · have hrec : f.recent = true := by simpa using hrec
            rw [if_neg (by rw [hrec]; decide)] at e
            cases e
            exact .one (.again (view f) due ht (by omega) hrec hdf)
  | next =>
    simp only [faceStep] at e
    split at e
    · cases e; exact .refl _
    · rename_i x r hq
      split at e
      · cases e
      · rename_i hd
        cases h with
        | up a b c d g =>
          rw [hq] at d
          exact act_handleIo d.head (f := { f with q := r }) (by show f.isOpen = true ↔ f.state = .up; simp [a, b]) (by show f.state ≠ _; rw [a]; decide)
            (by show f.state ≠ _; rw [a]; decide) e
        | leaving l a b c d g i j =>
          rw [hq] at i
          cases l with
          | nil =>
            cases i
            simp only [handle] at e
            have hc : Acts T now (view f) _ := .one (.closed (view f) a)
            rcases a with a | a
            · simp [setState, a, validTransition, emit, post] at e
              cases e
              simp only [view, a] at hc ⊢
              exact hc
            · simp [setState, a, validTransition, emit, post] at e
              cases e
              simp only [view, a] at hc ⊢
              exact hc
          | cons y l =>
            rw [List.cons_append] at i
            cases i
            exact act_handleIo j.head (f := { f with q := l ++ [.close] }) (by show f.isOpen = true ↔ f.state = .up; rcases a with a | a <;> simp [a, b])
              (by show f.state ≠ _; rcases a with a | a <;> rw [a] <;> decide) (by show f.state ≠ _; rcases a with a | a <;> rw [a] <;> decide) e
        | closed a b c d g i =>
          rw [hq] at i
          cases i
          simp only [handle] at e
          cases e
          exact .one (.free (view f) a)
        | dead a b c d g i => rw [hq] at i; cases i

theorem dispatch_view {now : Nat} {f f' : Face} {b : Bytes} (e : dispatch now f b = .ok f') :
    view f' = arriveView now (view f) (.dispatched b) b := by
  unfold dispatch at e
  split at e
  · cases e
  · cases e
    rw [receiveDatagram_eq]
    simp [view, emit, arriveView]

/-- No step of a face faults. -/
theorem processError_ok {f : Face} (x : Err) (h : f.state ≠ .down) : ∃ f', processError f x = .ok f' := by
  by_cases hu : Fatal f x
  · exact ⟨_, processError_fatal hu⟩
  · exact ⟨_, processError_other hu h⟩

theorem close_ok {f : Face} (h : f.state ≠ .down) : ∃ f', close f = .ok f' := by
  by_cases hu : f.state = .up
  · exact ⟨_, close_up hu⟩
  · exact ⟨_, close_other hu h⟩

theorem handleIo_ok {now : Nat} {f : Face} {x : Handler} (hx : isIo x = true) (h : f.state ≠ .down) : ∃ f', handle now f x = .ok f' := by
  cases x with
  | recvOk b => exact ⟨_, rfl⟩
  | recvErr y =>
    obtain ⟨g, hg⟩ := processError_ok y h
    exact ⟨rearm g, by simp only [handle, bind, Except.bind, hg]⟩
  | sendOk => exact ⟨_, rfl⟩
  | sendErr y => exact processError_ok y h
  | close => cases hx
  | dealloc => cases hx

theorem faceStep_ok {T now : Nat} {f : Face} (ev : FEvent) (h : Phase f) : ∃ f', faceStep T now f ev = .ok f' := by
  cases ev with
  | send p => simp only [faceStep]; split <;> exact ⟨_, rfl⟩
  | close =>
    simp only [faceStep]; split
    · exact ⟨_, rfl⟩
    · exact close_ok h.notDown
  | setPersist p => simp only [faceStep]; split <;> exact ⟨_, rfl⟩
  | recv b o =>
    simp only [faceStep, complete]; split
    · cases o with
      | true => rw [if_pos rfl]; exact handleIo_ok rfl h.notDown
      | false => exact ⟨_, rfl⟩
    · exact ⟨_, rfl⟩
  | recvFail o =>
    simp only [faceStep, complete]; split
    · cases o with
      | true => rw [if_pos rfl]; exact handleIo_ok rfl h.notDown
      | false => exact ⟨_, rfl⟩
    · exact ⟨_, rfl⟩
  | sendDone ok o =>
    simp only [faceStep, complete]; split
    · exact ⟨_, rfl⟩
    · cases o with
      | true => rw [if_pos rfl]; exact handleIo_ok (by cases ok <;> rfl) h.notDown
      | false => exact ⟨_, rfl⟩
  | timer =>
    simp only [faceStep]; split
    · exact ⟨_, rfl⟩
    · rename_i due ht
      split
      · exact ⟨_, rfl⟩
      · rw [if_neg]
        · unfold idleCheck
          dsimp only
          split
          · exact close_ok (f := emit { f with timer := none } (.idle now)) h.notDown
          · exact ⟨_, rfl⟩
        · intro hd
          cases h with
          | up a b c => rw [c] at hd; cases hd
          | leaving l a b c d e => rw [e] at hd; cases hd
          | closed a b c d e => rw [e] at hd; cases hd
          | dead a b c d e q t => rw [t] at ht; cases ht
  | next =>
    simp only [faceStep]; split
    · exact ⟨_, rfl⟩
    · rename_i x r hq
      cases h with
      | up a b c d =>
        rw [hq] at d
        rw [if_neg (by rw [c]; decide)]
        exact handleIo_ok d.head (f := { f with q := r }) (by show f.state ≠ _; rw [a]; decide)
      | leaving l a b c d e i j =>
        rw [if_neg (by rw [e]; decide)]
        rw [hq] at i
        cases l with
        | nil =>
          cases i
          rcases a with a | a <;> simp [handle, setState, a, validTransition]
        | cons y l =>
          rw [List.cons_append] at i
          cases i
          exact handleIo_ok j.head (f := { f with q := l ++ [.close] }) (by show f.state ≠ _; rcases a with a | a <;> rw [a] <;> decide)
      | closed a b c d e i =>
        rw [hq] at i; cases i
        rw [if_neg (by rw [e]; decide)]
        exact ⟨_, rfl⟩
      | dead a b c d e i => rw [hq] at i; cases i

end Verif.Dg
