/-
C81: UDP faces. C82: UDP channels.
-/
import Verif.Dg.Chan

namespace Verif.Dg
open Verif.Lp (Bytes readElem parseBlock)
open Verif.Tp (TState Persist validTransition leaving maxPacket)

/-- The state after a run satisfies a test. -/
def okWith (r : Except Fault Chan) (p : Chan → Bool) : Bool :=
  match r with
  | .ok c => p c
  | .error _ => false

theorem okWith_ex {r : Except Fault Chan} {p : Chan → Bool} (h : okWith r p = true) : ∃ c, r = .ok c ∧ p c = true := by
  cases r with
  | error e => cases h
  | ok c => exact ⟨c, rfl, h⟩

/-- C81: whatever happens, no exception escapes, and nothing is done with a face that is deallocated. -/
theorem C81_safe (T : Nat) (es : List Event) : ∃ c, run T Chan.init es = .ok c := by
  obtain ⟨c, h, _⟩ := run_ok (cinv_init T) es
  exact ⟨c, h⟩

/-- C81: each face goes from UP to CLOSING or FAILED, and from there to CLOSED, each at most once; packets are accepted and sent only in UP, and
none is delivered in CLOSED. -/
theorem C81_path (T : Nat) (es : List Event) (c : Chan) (h : run T Chan.init es = .ok c) (k : Nat) (f : Face) (hf : c.faces[k]? = some f) :
    Path .up f.out f.state :=
  ((run_cinv h).good k f hf).trace.path

/-- C81: the packets that a face delivers are exactly those datagrams that are one TLV element, once each and in order. -/
theorem C81_delivery (T : Nat) (es : List Event) (c : Chan) (h : run T Chan.init es = .ok c) (k : Nat) (f : Face) (hf : c.faces[k]? = some f) :
    delivered f.out = (arrived f.out).filter oneTlv :=
  ((run_cinv h).good k f hf).trace.recv

/-- C81: what leaves through the socket is what the link service sent, in order and without duplicates; while the face is UP, everything that
was accepted has left, has failed or is outstanding. -/
theorem C81_send (T : Nat) (es : List Event) (c : Chan) (h : run T Chan.init es = .ok c) (k : Nat) (f : Face) (hf : c.faces[k]? = some f) :
    (sentOut f.out).Sublist (accepted f.out) ∧ (f.state = .up → accepted f.out = finished f.out ++ f.sends) := by
  have hi := ((run_cinv h).good k f hf).trace
  exact ⟨(sentOut_sub f.out).trans hi.sendPre.sublist, hi.send⟩

/-- C81: a face that is UP keeps receiving: a receive is outstanding, or its handler is in the queue. -/
theorem C81_receiving (T : Nat) (es : List Event) (c : Chan) (h : run T Chan.init es = .ok c) (k : Nat) (f : Face) (hf : c.faces[k]? = some f)
    (hu : f.state = .up) : f.reading = true ∨ ∃ x ∈ f.q, (∃ b, x = .recvOk b) ∨ (∃ e, x = .recvErr e) := by
  obtain ⟨_, _, _, hr⟩ := ((run_cinv h).good k f hf).phase.ofUp hu
  by_cases hx : f.reading = true
  · exact Or.inl hx
  · rw [if_neg hx] at hr
    obtain ⟨x, hm, hx⟩ := List.countP_pos_iff.1 (show 0 < f.q.countP isRecv by omega)
    refine Or.inr ⟨x, hm, ?_⟩
    cases x with
    | recvOk b => exact Or.inl ⟨b, rfl⟩
    | recvErr e => exact Or.inr ⟨e, rfl⟩
    | _ => cases hx

/-- C81: a face is closed for inactivity only when no packet was delivered during the last `T`. -/
theorem C81_idle (T : Nat) (es : List Event) (c : Chan) (h : run T Chan.init es = .ok c) (k : Nat) (f : Face) (hf : c.faces[k]? = some f)
    (before after : List Out) (t : Nat) (ho : f.out = before ++ .idle t :: after) (p : Bytes) (u : Nat) (hp : .deliver p u ∈ before) : u + T ≤ t :=
  ((run_cinv h).good k f hf).trace.idle before t after ho p u hp

/-- C81: an on-demand face that is UP has an expiration time, when the channel closes idle faces. Other faces have none. -/
theorem C81_expiration (T : Nat) (es : List Event) (c : Chan) (h : run T Chan.init es = .ok c) (k : Nat) (f : Face) (hf : c.faces[k]? = some f) :
    (f.state = .up → f.persist = .onDemand → 0 < T → f.expires ≠ none) ∧ (f.persist ≠ .onDemand ∨ T = 0 → f.expires = none) := by
  have hi := ((run_cinv h).good k f hf).trace
  refine ⟨fun h1 h2 h3 => ?_, hi.noExpiry⟩
  obtain ⟨due, _, h5⟩ := hi.hasTimer h1 h2 h3
  have : f.expires = some due := h5
  rw [this]; simp

/-- The scheduler runs every scheduled function in time: time does not pass beyond it. -/
def InTime (T : Nat) (c : Chan) : List Event → Prop
  | [] => True
  | e :: es =>
    (∀ d, e = .tick d → ∀ (k : Nat) (f : Face) due, c.faces[k]? = some f → f.timer = some due → c.now + d ≤ due) ∧
    ∀ c', step T c e = .ok c' → InTime T c' es

def AllTimely (T : Nat) (c : Chan) : Prop := ∀ (k : Nat) (f : Face), c.faces[k]? = some f → Timely T c.now (view f)

theorem timely_put {T : Nat} {c : Chan} (h : AllTimely T c) {k : Nat} {f f' : Face} (hf : Timely T c.now (view f')) :
    AllTimely T (putFace c k f f') := by
  intro j g hj
  have hj : (c.faces.set k f')[j]? = some g := hj
  rw [List.getElem?_set] at hj
  split at hj
  · split at hj
    · cases hj; exact hf
    · cases hj
  · exact h j g hj

theorem timely_createFace {T : Nat} {c : Chan} (hi : CInv T c) (h : AllTimely T c) {ep : Nat} {p : Persist} {ok b : Bool} {k : Nat} {c' : Chan}
    (e : createFace T c ep p ok = some (b, k, c')) : AllTimely T c' ∧ CInv T c' ∧ c'.now = c.now := by
  rcases createFace_spec hi ep p ok with ⟨k', f, h1, _⟩ | ⟨_, _, h1⟩ | ⟨_, _, c1, h1, h2, h3, h4, _⟩
  · rw [h1] at e; cases e; exact ⟨h, hi, rfl⟩
  · rw [h1] at e; cases e
  · rw [h1] at e; cases e
    refine ⟨?_, h2, h4⟩
    intro j g hj
    rw [h3, List.getElem?_append] at hj
    rw [h4]
    split at hj
    · exact h j g hj
    · rw [List.getElem?_singleton] at hj
      split at hj
      · cases hj; exact timely_new _ _ _ _
      · cases hj

theorem timely_newPeer {T : Nat} {c c' : Chan} (hi : CInv T c) (h : AllTimely T c) {x : Option (Nat × Bytes × Bool)}
    (e : handleNewPeer T c x = .ok c') : AllTimely T c' := by
  cases x with
  | none => simp only [handleNewPeer] at e; cases e; exact h
  | some y =>
    obtain ⟨ep, b, ok⟩ := y
    simp only [handleNewPeer] at e
    cases hc : createFace T c ep .onDemand ok with
    | none => rw [hc] at e; cases e; exact h
    | some z =>
      obtain ⟨cr, k, c1⟩ := z
      obtain ⟨h1, h2, h3⟩ := timely_createFace hi h hc
      rw [hc] at e
      dsimp only at e
      generalize hc2 : (if cr = true then cemit c1 (.newPeer k) else c1) = c2 at e
      have h1' : AllTimely T c2 := by rw [← hc2]; split <;> exact h1
      have h2' : CInv T c2 := by
        rw [← hc2]; split
        · exact h2.emit (by intro _ _ _ e; cases e)
        · exact h2
      cases hf : c2.faces[k]? with
      | none => rw [hf] at e; cases e
      | some f =>
        rw [hf] at e
        dsimp only at e
        cases hd : dispatch c2.now f b with
        | error y => rw [hd] at e; cases e
        | ok f' =>
          rw [hd] at e
          cases e
          refine timely_put (f := f) h1' ?_
          rw [dispatch_view hd]
          exact timely_arrive (h1' k f hf) (Or.inr rfl) (fun due ht _ => (h2'.good k f hf).near due ht)

theorem timely_step {T : Nat} {c c' : Chan} {e : Event} (hi : CInv T c) (h : AllTimely T c)
    (hp : ∀ d, e = .tick d → ∀ (k : Nat) (f : Face) due, c.faces[k]? = some f → f.timer = some due → c.now + d ≤ due)
    (he : step T c e = .ok c') : AllTimely T c' := by
  cases e with
  | tick d =>
    simp only [step] at he
    cases he
    intro k f hf
    have := h k f hf
    exact ⟨fun due ht => hp d rfl k f due hf ht, this.bound, this.boundRecent⟩
  | face k ev =>
    simp only [step] at he
    cases hf : c.faces[k]? with
    | none => rw [hf] at he; cases he; exact h
    | some f =>
      rw [hf] at he
      dsimp only at he
      cases hs : faceStep T c.now f ev with
      | error y => rw [hs] at he; cases he
      | ok f' =>
        rw [hs] at he
        cases he
        have hg := hi.good k f hf
        exact timely_put h (timely_acts (h k f hf) hg.near (step_acts hg.phase hs))
  | connect req ep p ok =>
    simp only [step, connect] at he
    cases hc : createFace T c ep p ok with
    | none => rw [hc] at he; cases he; exact h
    | some z =>
      obtain ⟨cr, k, c1⟩ := z
      rw [hc] at he
      cases he
      exact (timely_createFace hi h hc).1
  | listen =>
    simp only [step] at he
    split at he <;> cases he <;> exact h
  | peer ep b ok o =>
    simp only [step] at he
    split at he
    · cases he; exact h
    · split at he
      · exact timely_newPeer (hi.same (c' := { c with waiting := false }) rfl rfl rfl rfl) h he
      · cases he; exact h
  | peerFail o =>
    simp only [step] at he
    split at he
    · cases he; exact h
    · split at he
      · exact timely_newPeer (hi.same (c' := { c with waiting := false }) rfl rfl rfl rfl) h he
      · cases he; exact h
  | next =>
    simp only [step] at he
    split at he
    · cases he; exact h
    · exact timely_newPeer (hi.same (c' := { c with pending := none }) rfl rfl rfl rfl) h he

theorem timely_run {T : Nat} {c c' : Chan} {es : List Event} (hi : CInv T c) (h : AllTimely T c) (hp : InTime T c es) (he : run T c es = .ok c') :
    AllTimely T c' := by
  induction es generalizing c with
  | nil => simp only [run] at he; cases he; exact h
  | cons e es ih =>
    simp only [run, bind, Except.bind] at he
    cases hs : step T c e with
    | error y => rw [hs] at he; cases he
    | ok c1 =>
      rw [hs] at he
      obtain ⟨c2, h1, h2⟩ := step_ok hi e
      rw [hs] at h1; cases h1
      exact ih h2 (timely_step hi h hp.1 hs) (hp.2 c1 hs) he

/-- C81: when scheduled functions run in time, an on-demand face is UP for at most `2 T` after the last packet was delivered, or after it became
on-demand. -/
theorem C81_lifetime (T : Nat) (hT : 0 < T) (es : List Event) (c : Chan) (h : run T Chan.init es = .ok c) (hp : InTime T Chan.init es)
    (k : Nat) (f : Face) (hf : c.faces[k]? = some f) (hu : f.state = .up) (ho : f.persist = .onDemand) : c.now ≤ lastActive f.out + 2 * T := by
  have ht : AllTimely T c := timely_run (cinv_init T) (by intro k f hf; simp [Chan.init] at hf) hp h
  obtain ⟨due, h1, _⟩ := ((run_cinv h).good k f hf).trace.hasTimer hu ho hT
  have := (ht k f hf).due due h1
  have := (ht k f hf).bound due h1
  have e : (view f).out = f.out := rfl
  rw [e] at this
  omega

/-- Why a face leaves UP: it is closed; it is on-demand and idle; or an operation failed, and it is not permanent. -/
inductive Cause (T now : Nat) (f f' : Face) : FEvent → Prop
  | asked : f'.state = .closing → Cause T now f f' .close
  | idle : f'.state = .closing → f.persist = .onDemand → 0 < T → (∀ p t, .deliver p t ∈ f.out → t + T ≤ now) →
      (∀ x, f.expires = some x → x ≤ now) → Cause T now f f' .timer
  | recvFailed : f'.state = .failed → f.persist ≠ .permanent → Cause T now f f' (.recvFail true)
  | sendFailed : f'.state = .failed → f.persist ≠ .permanent → Cause T now f f' (.sendDone false true)
  | queued (r : List Handler) : f'.state = .failed → f.persist ≠ .permanent → f.q = .recvErr .other :: r ∨ f.q = .sendErr .other :: r →
      Cause T now f f' .next

theorem processError_cause {f f' : Face} {x : Err} (hd : f.state ≠ .down) (hu : f.state = .up) (e : processError f x = .ok f') (hs : f'.state ≠ .up) :
    f'.state = .failed ∧ f.persist ≠ .permanent ∧ x = .other := by
  by_cases hx : Fatal f x
  · rw [processError_fatal hx] at e
    cases e
    refine ⟨?_, hx.2.2, hx.2.1⟩
    unfold doClose post
    dsimp only
    split <;> rfl
  · rw [processError_other hx hd] at e
    cases e
    exact absurd hu hs

theorem rearm_state (f : Face) : (rearm f).state = f.state := by
  unfold rearm
  split <;> rfl

theorem handle_cause {now : Nat} {f f' : Face} {x : Handler} (hx : isIo x = true) (hd : f.state ≠ .down) (hu : f.state = .up)
    (e : handle now f x = .ok f') (hs : f'.state ≠ .up) : f'.state = .failed ∧ f.persist ≠ .permanent ∧ (x = .recvErr .other ∨ x = .sendErr .other) := by
  cases x with
  | recvOk b =>
    simp only [handle] at e
    cases e
    rw [rearm_state, receiveDatagram_eq] at hs
    exact absurd hu hs
  | recvErr y =>
    simp only [handle, bind, Except.bind] at e
    cases hp : processError f y with
    | error z => rw [hp] at e; cases e
    | ok g =>
      rw [hp] at e
      cases e
      rw [rearm_state] at hs ⊢
      obtain ⟨a, b, c⟩ := processError_cause hd hu hp hs
      exact ⟨a, b, Or.inl (by rw [c])⟩
  | sendOk => simp only [handle] at e; cases e; exact absurd hu hs
  | sendErr y =>
    obtain ⟨a, b, c⟩ := processError_cause hd hu e hs
    exact ⟨a, b, Or.inr (by rw [c])⟩
  | close => cases hx
  | dealloc => cases hx

/-- C81: a face leaves UP only for one of three causes. -/
theorem C81_cause (T : Nat) (es : List Event) (c : Chan) (h : run T Chan.init es = .ok c) (k : Nat) (f : Face) (hf : c.faces[k]? = some f)
    (hu : f.state = .up) (ev : FEvent) (f' : Face) (hs : faceStep T c.now f ev = .ok f') (hn : f'.state ≠ .up) : Cause T c.now f f' ev := by
  have hg := (run_cinv h).good k f hf
  obtain ⟨ho, hd, hq, _⟩ := hg.phase.ofUp hu
  have hnd : f.state ≠ .down := by rw [hu]; decide
  have hnc : f.state ≠ .closed := by rw [hu]; decide
  cases ev with
  | send p =>
    simp only [faceStep] at hs
    rw [if_neg hnc] at hs
    cases hs
    unfold send at hn
    rw [if_neg (by rw [hu]; simp), if_pos hu] at hn
    exact absurd hu hn
  | close =>
    simp only [faceStep] at hs
    rw [if_neg hnc, close_up hu] at hs
    cases hs
    refine .asked ?_
    unfold doClose post
    dsimp only
    split <;> rfl
  | setPersist p =>
    simp only [faceStep] at hs
    rw [if_neg hnc] at hs
    cases hs
    exfalso
    apply hn
    unfold setPersist scheduleIdle
    dsimp only
    split
    · exact hu
    · split <;> split <;> exact hu
  | recv b o =>
    simp only [faceStep] at hs
    split at hs
    · unfold complete at hs
      split at hs
      · obtain ⟨_, _, hx⟩ := handle_cause (f := { f with reading := false }) rfl hnd hu hs hn
        rcases hx with hx | hx <;> cases hx
      · cases hs; exact absurd hu hn
    · cases hs; exact absurd hu hn
  | recvFail o =>
    simp only [faceStep] at hs
    split at hs
    · unfold complete at hs
      cases o with
      | true =>
        rw [if_pos rfl] at hs
        obtain ⟨h1, h2, _⟩ := handle_cause (f := { f with reading := false }) rfl hnd hu hs hn
        exact .recvFailed h1 h2
      | false => rw [if_neg (by decide)] at hs; cases hs; exact absurd hu hn
    · cases hs; exact absurd hu hn
  | sendDone ok o =>
    simp only [faceStep] at hs
    split at hs
    · cases hs; exact absurd hu hn
    · rename_i p r hsn
      unfold complete at hs
      cases o with
      | true =>
        rw [if_pos rfl] at hs
        obtain ⟨h1, h2, h3⟩ := handle_cause (f := emit { f with sends := r } (if ok then .sent p else .unsent p)) (by cases ok <;> rfl) hnd hu hs hn
        cases ok with
        | true => rcases h3 with h3 | h3 <;> cases h3
        | false => exact .sendFailed h1 h2
      | false => rw [if_neg (by decide)] at hs; cases hs; exact absurd hu hn
  | timer =>
    simp only [faceStep] at hs
    split at hs
    · cases hs; exact absurd hu hn
    · rename_i due ht
      split at hs
      · cases hs; exact absurd hu hn
      · rename_i hlt
        rw [if_neg (by rw [hd]; decide)] at hs
        unfold idleCheck at hs
        dsimp only at hs
        by_cases hrec : f.recent = false
        · rw [if_pos (by rw [hrec]; rfl), close_up (f := emit { f with timer := none } (.idle c.now)) hu] at hs
          cases hs
          have hon := hg.trace.timerOn due ht
          refine .idle ?_ hon.1 hon.2 ?_ ?_
          · unfold doClose post
            dsimp only
            split <;> rfl
          · intro p t hm
            have := hg.trace.quiet due ht hrec p t hm
            omega
          · intro x hx
            obtain ⟨d, h1, h2⟩ := hg.trace.hasTimer hu hon.1 hon.2
            have h1 : f.timer = some d := h1
            have h2 : f.expires = some d := h2
            rw [ht] at h1
            rw [hx] at h2
            cases h1; cases h2
            omega
        · have hrec : f.recent = true := by simpa using hrec
          rw [if_neg (by rw [hrec]; decide)] at hs
          cases hs; exact absurd hu hn
  | next =>
    simp only [faceStep] at hs
    split at hs
    · cases hs; exact absurd hu hn
    · rename_i x r hqx
      rw [if_neg (by rw [hd]; decide)] at hs
      rw [hqx] at hq
      obtain ⟨h1, h2, h3⟩ := handle_cause (f := { f with q := r }) hq.head hnd hu hs hn
      refine .queued r h1 h2 ?_
      rcases h3 with h3 | h3 <;> rw [hqx, h3]
      · exact Or.inl rfl
      · exact Or.inr rfl

/-- Invokes the handlers of a face, `n` of them. -/
def drain (T now : Nat) (f : Face) : Nat → Except Fault Face
  | 0 => .ok f
  | n + 1 => do
    let f ← faceStep T now f .next
    drain T now f n

theorem handle_leaving {now : Nat} {f f' : Face} {x : Handler} (hx : isIo x = true) (hl : f.state = .closing ∨ f.state = .failed)
    (ho : f.isOpen = false) (e : handle now f x = .ok f') : f'.state = f.state ∧ f'.q = f.q ∧ f'.isOpen = false := by
  have hnd : f.state ≠ .down := by rcases hl with hl | hl <;> rw [hl] <;> decide
  have hpe : ∀ y g, processError f y = .ok g → g = f := by
    intro y g hg
    rw [processError_other (fun hx => by rcases hl with hl | hl <;> rw [hx.1] at hl <;> cases hl) hnd] at hg
    cases hg; rfl
  cases x with
  | recvOk b =>
    simp only [handle] at e
    cases e
    rw [receiveDatagram_eq]
    simp [rearm, emit, ho]
  | recvErr y =>
    simp only [handle, bind, Except.bind] at e
    cases hp : processError f y with
    | error z => rw [hp] at e; cases e
    | ok g =>
      rw [hp] at e
      cases e
      rw [hpe y g hp]
      simp [rearm, ho]
  | sendOk => simp only [handle] at e; cases e; exact ⟨rfl, rfl, ho⟩
  | sendErr y => rw [hpe y f' e]; exact ⟨rfl, rfl, ho⟩
  | close => cases hx
  | dealloc => cases hx

theorem drain_closes {T now : Nat} (l : List Handler) {f : Face} (hl : f.state = .closing ∨ f.state = .failed) (h : Phase f)
    (hq : f.q = l ++ [.close]) : ∃ f', drain T now f (l.length + 1) = .ok f' ∧ f'.state = .closed ∧ f'.q = [.dealloc] := by
  induction l generalizing f with
  | nil =>
    have hd : f.dead = false := by
      cases h with
      | up a => rw [a] at hl; rcases hl with hl | hl <;> cases hl
      | leaving l a b c d e => exact e
      | closed a => rw [a] at hl; rcases hl with hl | hl <;> cases hl
      | dead a => rw [a] at hl; rcases hl with hl | hl <;> cases hl
    rcases hl with hl | hl <;>
      exact ⟨_, by simp [drain, faceStep, hq, hd, handle, setState, hl, validTransition, bind, Except.bind]; rfl, by simp [post, emit], by simp [post, emit]⟩
  | cons x l ih =>
    obtain ⟨f1, h1⟩ := faceStep_ok (T := T) (now := now) .next h
    have hp1 := phase_step h h1
    have hs1 : handle now { f with q := l ++ [.close] } x = .ok f1 := by
      simp only [faceStep] at h1
      rw [hq] at h1
      dsimp only [List.cons_append] at h1
      split at h1
      · cases h1
      · exact h1
    cases h with
    | up a => rw [a] at hl; rcases hl with hl | hl <;> cases hl
    | leaving l' a b c d e g i =>
      rw [hq] at g
      have hll := List.append_inj' g rfl
      obtain ⟨rfl, _⟩ := hll
      obtain ⟨r1, r2, _⟩ := handle_leaving (f := { f with q := l ++ [.close] }) i.head hl b hs1
      obtain ⟨f', h2, h3⟩ := ih (f := f1) (by rw [r1]; exact hl) hp1 r2
      exact ⟨f', by simp only [drain, List.length_cons, bind, Except.bind, h1]; exact h2, h3⟩
    | closed a => rw [a] at hl; rcases hl with hl | hl <;> cases hl
    | dead a => rw [a] at hl; rcases hl with hl | hl <;> cases hl

/-- C81: a face that is CLOSING or FAILED is CLOSED once the handlers in its queue have run; only its deallocation remains. -/
theorem C81_closes (T : Nat) (es : List Event) (c : Chan) (h : run T Chan.init es = .ok c) (k : Nat) (f : Face) (hf : c.faces[k]? = some f)
    (hl : f.state = .closing ∨ f.state = .failed) : ∃ f', drain T c.now f f.q.length = .ok f' ∧ f'.state = .closed ∧ f'.q = [.dealloc] := by
  have hp := ((run_cinv h).good k f hf).phase
  cases hp with
  | up a => rw [a] at hl; rcases hl with hl | hl <;> cases hl
  | leaving l a b c d e g i =>
    have := drain_closes (T := T) (now := Chan.now ‹Chan›) l hl (.leaving l a b c d e g i) g
    rw [g]
    simpa using this
  | closed a => rw [a] at hl; rcases hl with hl | hl <;> cases hl
  | dead a => rw [a] at hl; rcases hl with hl | hl <;> cases hl

/-! ### C82 -/

/-- C82: two faces of a channel that are not CLOSED have different remote endpoints. -/
theorem C82_one_face (T : Nat) (es : List Event) (c : Chan) (h : run T Chan.init es = .ok c) (j k : Nat) (f g : Face) (hf : c.faces[j]? = some f)
    (hg : c.faces[k]? = some g) (he : f.ep = g.ep) (hfs : f.state ≠ .closed) (hgs : g.state ≠ .closed) : j = k := by
  have hi := run_cinv h
  exact unique_of_keys hi.keys ((hi.map f.ep j).2 ⟨f, hf, rfl, hfs⟩) ((hi.map f.ep k).2 ⟨g, hg, he.symm, hgs⟩)

/-- C82: a request is answered at once. If there is a face for the endpoint that is not CLOSED, the answer is this face, and it stays as it is.
Otherwise the answer is a new face for this endpoint, which is UP and has the requested persistency; or, if the operating system refuses,
failure, and no face is added. -/
theorem C82_connect (T : Nat) (es : List Event) (c : Chan) (h : run T Chan.init es = .ok c) (req ep : Nat) (p : Persist) (ok : Bool) (c' : Chan)
    (hs : step T c (.connect req ep p ok) = .ok c') :
    (∃ (k : Nat) (f : Face), c.faces[k]? = some f ∧ f.ep = ep ∧ f.state ≠ .closed ∧ c'.faces = c.faces ∧ c'.out = c.out ++ [.answer req (.created k)]) ∨
    ((∀ (k : Nat) (f : Face), c.faces[k]? = some f → f.ep = ep → f.state = .closed) ∧ ok = true ∧
      ∃ f : Face, c'.faces = c.faces ++ [f] ∧ f.ep = ep ∧ f.state = .up ∧ f.persist = p ∧ c'.out = c.out ++ [.answer req (.created c.faces.length)]) ∨
    ((∀ (k : Nat) (f : Face), c.faces[k]? = some f → f.ep = ep → f.state = .closed) ∧ ok = false ∧
      c'.faces = c.faces ∧ c'.out = c.out ++ [.answer req (.failed 504)]) := by
  simp only [step, connect] at hs
  cases hs
  rcases createFace_spec (run_cinv h) ep p ok with ⟨k, f, h1, h2, h3, h4⟩ | ⟨h1, h2, h3⟩ | ⟨h1, h2, c1, h3, h4, h5, h6, h7, _⟩
  · rw [h1]; exact Or.inl ⟨k, f, h2, h3, h4, rfl, rfl⟩
  · rw [h3]; exact Or.inr (Or.inr ⟨h1, h2, rfl, rfl⟩)
  · rw [h3]
    refine Or.inr (Or.inl ⟨h1, h2, newFace T c.now ep p, h5, ?_, ?_, ?_, ?_⟩)
    · unfold newFace scheduleIdle; dsimp only; split <;> rfl
    · unfold newFace scheduleIdle; dsimp only; split <;> rfl
    · unfold newFace scheduleIdle; dsimp only; split <;> rfl
    · show c1.out ++ _ = _
      rw [h7]

/-- How often request `req` was made. -/
def requested (req : Nat) : List Event → Nat
  | [] => 0
  | .connect r _ _ _ :: es => (if r = req then 1 else 0) + requested req es
  | _ :: es => requested req es

theorem newPeer_out {T : Nat} {c c' : Chan} {x : Option (Nat × Bytes × Bool)} (e : handleNewPeer T c x = .ok c') :
    ∃ o, c'.out = c.out ++ o ∧ (∀ r a, .answer r a ∉ o) ∧ c'.isOpen = c.isOpen ∧ c'.pending = c.pending ∧
      ((c'.waiting = true ∧ ∀ n, .failed n ∉ o) ∨
       (c'.waiting = c.waiting ∧ ∀ ep b k, .peer ep b k ∉ o) ∧ (x = none ∨ ∃ ep b, x = some (ep, b, false))) := by
  cases x with
  | none =>
    simp only [handleNewPeer] at e
    cases e
    exact ⟨[.failed 500], rfl, by simp, rfl, rfl, Or.inr ⟨⟨rfl, by simp⟩, Or.inl rfl⟩⟩
  | some y =>
    obtain ⟨ep, b, ok⟩ := y
    simp only [handleNewPeer] at e
    unfold createFace at e
    cases hl : c.map.lookup ep with
    | some k =>
      rw [hl] at e
      dsimp only at e
      rw [if_neg (by decide)] at e
      cases hf : c.faces[k]? with
      | none => rw [hf] at e; cases e
      | some f =>
        rw [hf] at e
        dsimp only at e
        cases hd : dispatch c.now f b with
        | error y => rw [hd] at e; cases e
        | ok f' =>
          rw [hd] at e
          cases e
          exact ⟨[.peer ep b k], rfl, by simp, rfl, rfl, Or.inl ⟨rfl, by simp⟩⟩
    | none =>
      rw [hl] at e
      dsimp only at e
      cases ok with
      | false =>
        rw [if_pos (by decide)] at e
        cases e
        exact ⟨[.failed 504], rfl, by simp, rfl, rfl, Or.inr ⟨⟨rfl, by simp⟩, Or.inr ⟨ep, b, rfl⟩⟩⟩
      | true =>
        rw [if_neg (by decide)] at e
        dsimp only at e
        rw [if_pos rfl] at e
        simp only [cemit] at e
        cases hf : (c.faces ++ [newFace T c.now ep .onDemand])[c.faces.length]? with
        | none => rw [hf] at e; cases e
        | some f =>
          rw [hf] at e
          dsimp only at e
          cases hd : dispatch c.now f b with
          | error y => rw [hd] at e; cases e
          | ok f' =>
            rw [hd] at e
            cases e
            refine ⟨[.newPeer c.faces.length, .peer ep b c.faces.length], ?_, by simp, rfl, rfl, Or.inl ⟨rfl, by simp⟩⟩
            simp [putFace]

theorem answers_none {o : List COut} (h : ∀ r a, .answer r a ∉ o) (req : Nat) : answers req o = [] := by
  induction o with
  | nil => rfl
  | cons x o ih =>
    have ih := ih (fun r a hm => h r a (List.mem_cons_of_mem _ hm))
    cases x with
    | answer r a => exact absurd List.mem_cons_self (h r a)
    | _ => simpa [answers] using ih

theorem step_answers {T : Nat} {c c' : Chan} {e : Event} (hs : step T c e = .ok c') (req : Nat) :
    (answers req c'.out).length = (answers req c.out).length + requested req [e] := by
  have key : ∀ (c1 : Chan) x, c1.out = c.out → handleNewPeer T c1 x = .ok c' → (answers req c'.out).length = (answers req c.out).length := by
    intro c1 x h1 h2
    obtain ⟨o, h3, h4, _⟩ := newPeer_out h2
    rw [h3, h1, answers_append, answers_none h4, List.append_nil]
  cases e with
  | tick d => simp only [step] at hs; cases hs; rfl
  | face k ev =>
    simp only [step] at hs
    cases hf : c.faces[k]? with
    | none => rw [hf] at hs; cases hs; rfl
    | some f =>
      rw [hf] at hs
      dsimp only at hs
      cases hd : faceStep T c.now f ev with
      | error y => rw [hd] at hs; cases hs
      | ok f' => rw [hd] at hs; cases hs; rfl
  | connect r ep p ok =>
    simp only [step, connect, createFace] at hs
    cases hs
    have : ∀ a, (answers req (c.out ++ [.answer r a])).length = (answers req c.out).length + requested req [.connect r ep p ok] := by
      intro a
      rw [answers_append]
      by_cases hr : r = req <;> simp [answers, requested, hr]
    cases hl : c.map.lookup ep with
    | some k => exact this _
    | none =>
      dsimp only
      cases ok with
      | false => exact this _
      | true => exact this _
  | listen => simp only [step] at hs; split at hs <;> cases hs <;> rfl
  | peer ep b ok o =>
    simp only [step] at hs
    split at hs
    · cases hs; rfl
    · split at hs
      · exact key { c with waiting := false } _ rfl hs
      · cases hs; rfl
  | peerFail o =>
    simp only [step] at hs
    split at hs
    · cases hs; rfl
    · split at hs
      · exact key { c with waiting := false } _ rfl hs
      · cases hs; rfl
  | next =>
    simp only [step] at hs
    split at hs
    · cases hs; rfl
    · exact key { c with pending := none } _ rfl hs

theorem requested_cons (req : Nat) (e : Event) (es : List Event) : requested req (e :: es) = requested req [e] + requested req es := by
  cases e <;> simp [requested]

/-- C82: every request is answered exactly once. -/
theorem C82_answered (T : Nat) (es : List Event) (c : Chan) (h : run T Chan.init es = .ok c) (req : Nat) :
    (answers req c.out).length = requested req es := by
  have key : ∀ (es : List Event) (c0 c : Chan), run T c0 es = .ok c → (answers req c.out).length = (answers req c0.out).length + requested req es := by
    intro es
    induction es with
    | nil => intro c0 c h; simp only [run] at h; cases h; rfl
    | cons e es ih =>
      intro c0 c h
      simp only [run, bind, Except.bind] at h
      cases hs : step T c0 e with
      | error y => rw [hs] at h; cases h
      | ok c1 =>
        rw [hs] at h
        have h1 := ih c1 c h
        have h2 := step_answers hs req
        rw [requested_cons]
        omega
  have := key es _ c h
  simpa [Chan.init, answers] using this

/-- C82: every datagram that the channel dispatches goes to a face whose remote endpoint is the sender; and what a face gets through the channel
is exactly what was dispatched to it, in order. -/
theorem C82_dispatch (T : Nat) (es : List Event) (c : Chan) (h : run T Chan.init es = .ok c) :
    (∀ (ep : Nat) (b : Bytes) (k : Nat), .peer ep b k ∈ c.out → ∃ f, c.faces[k]? = some f ∧ f.ep = ep) ∧
    ∀ (k : Nat) (f : Face), c.faces[k]? = some f → viaChannel f.out = dispatchedTo k c.out := by
  have hi := run_cinv h
  refine ⟨hi.peers, fun k f hf => ?_⟩
  have := hi.disp k
  rw [hf] at this
  exact this.symm

/-- C82: while the channel waits for datagrams, a datagram that arrives is dispatched to the face of its sender, which is created if there is none
and the operating system permits it; and the channel waits for the next one. -/
theorem C82_peer (T : Nat) (es : List Event) (c : Chan) (h : run T Chan.init es = .ok c) (hw : c.waiting = true) (ep : Nat) (b : Bytes) (ok : Bool)
    (hok : ok = true ∨ ∃ (k : Nat) (f : Face), c.faces[k]? = some f ∧ f.ep = ep ∧ f.state ≠ .closed) :
    ∃ c' k f, step T c (.peer ep b ok true) = .ok c' ∧ c'.waiting = true ∧ c'.faces[k]? = some f ∧ f.ep = ep ∧ f.state ≠ .closed ∧
      ∃ o, c'.out = c.out ++ o ++ [.peer ep (b.take maxPacket) k] ∧ (o = [] ∨ o = [.newPeer k]) := by
  have hi := (run_cinv h).same (c' := { c with waiting := false }) rfl rfl rfl rfl
  simp only [step, hw]
  simp only [Bool.not_true, Bool.false_eq_true, if_false, if_true, handleNewPeer]
  rcases createFace_spec hi ep .onDemand ok with ⟨k, f, h1, h2, h3, h4⟩ | ⟨h1, h2, h3⟩ | ⟨_, _, c1, h1, h2, h3, h4, h5, _⟩
  · rw [h1]
    obtain ⟨f', hf'⟩ := dispatch_ok (now := c.now) (b.take maxPacket) (hi.good k f h2).phase h4
    obtain ⟨hs, he⟩ := dispatch_state hf'
    have hk : k < c.faces.length := by
      rcases Nat.lt_or_ge k c.faces.length with hx | hx
      · exact hx
      · have h2 : c.faces[k]? = some f := h2
        rw [List.getElem?_eq_none hx] at h2; cases h2
    have h2' : c.faces[k]? = some f := h2
    refine ⟨_, k, f', by simp [h2', hf', bind, Except.bind]; rfl, rfl, ?_, he.trans h3, by rw [hs]; exact h4, [], ?_, Or.inl rfl⟩
    · show (c.faces.set k f')[k]? = some f'
      rw [List.getElem?_set, if_pos rfl, if_pos hk]
    · simp [cemit, putFace]
  · exfalso
    rcases hok with hok | ⟨k, f, hf, he, hs⟩
    · rw [hok] at h2; cases h2
    · exact hs (h1 k f hf he)
  · rw [h1]
    have hnew : (newFace T c.now ep .onDemand).ep = ep ∧ (newFace T c.now ep .onDemand).state = .up := by
      unfold newFace scheduleIdle
      dsimp only
      split <;> exact ⟨rfl, rfl⟩
    have h4' : c1.now = c.now := h4
    have h3' : c1.faces = c.faces ++ [newFace T c.now ep .onDemand] := h3
    have h5' : c1.out = c.out := h5
    have hf : c1.faces[c.faces.length]? = some (newFace T c.now ep .onDemand) := by rw [h3']; simp
    obtain ⟨f', hf'⟩ := dispatch_ok (now := c.now) (b.take maxPacket) (h2.good _ _ hf).phase (by rw [hnew.2]; decide)
    obtain ⟨hs, he⟩ := dispatch_state hf'
    refine ⟨_, c.faces.length, f', by simp [cemit, hf, h4', hf', bind, Except.bind]; rfl, rfl, ?_, he.trans hnew.1, ?_, [.newPeer c.faces.length], ?_, Or.inr rfl⟩
    · show (c1.faces.set c.faces.length f')[c.faces.length]? = some f'
      rw [List.getElem?_set, if_pos rfl, if_pos (by rw [h3']; simp)]
    · rw [hs, hnew.2]; decide
    · simp [putFace, h5']

/-- The state of the listening socket. -/
structure LInv (c : Chan) : Prop where
  opened : c.waiting = true ∨ c.pending ≠ none → c.isOpen = true
  once : c.waiting = true → c.pending = none
  deaf : ∀ n, .failed n ∈ c.out → c.isOpen = true ∧ c.waiting = false ∧ c.pending = none

theorem linv_newPeer {T : Nat} {c c' : Chan} {x : Option (Nat × Bytes × Bool)} (h1 : c.isOpen = true) (h2 : c.waiting = false) (h3 : c.pending = none)
    (h4 : ∀ n, .failed n ∉ c.out) (e : handleNewPeer T c x = .ok c') : LInv c' := by
  obtain ⟨o, g1, _, g2, g3, g4⟩ := newPeer_out e
  refine ⟨fun _ => g2.trans h1, fun _ => g3.trans h3, fun n hm => ?_⟩
  refine ⟨g2.trans h1, ?_, g3.trans h3⟩
  rw [g1] at hm
  rcases List.mem_append.1 hm with hm | hm
  · exact absurd hm (h4 n)
  · rcases g4 with g4 | g4
    · exact absurd hm (g4.2 n)
    · rw [g4.1.1]; exact h2

theorem LInv.same {c c' : Chan} (h : LInv c) (h1 : c'.isOpen = c.isOpen) (h2 : c'.waiting = c.waiting) (h3 : c'.pending = c.pending)
    (h4 : ∀ n, .failed n ∈ c'.out → .failed n ∈ c.out) : LInv c' where
  opened := by rw [h1, h2, h3]; exact h.opened
  once := by rw [h2, h3]; exact h.once
  deaf := fun n hm => by rw [h1, h2, h3]; exact h.deaf n (h4 n hm)

theorem linv_step {T : Nat} {c c' : Chan} {e : Event} (h : LInv c) (hs : step T c e = .ok c') : LInv c' := by
  cases e with
  | tick d => simp only [step] at hs; cases hs; exact h.same rfl rfl rfl (fun _ hm => hm)
  | face k ev =>
    simp only [step] at hs
    cases hf : c.faces[k]? with
    | none => rw [hf] at hs; cases hs; exact h
    | some f =>
      rw [hf] at hs
      dsimp only at hs
      cases hd : faceStep T c.now f ev with
      | error y => rw [hd] at hs; cases hs
      | ok f' => rw [hd] at hs; cases hs; exact h.same rfl rfl rfl (fun _ hm => hm)
  | connect r ep p ok =>
    simp only [step, connect, createFace] at hs
    cases hs
    cases hl : c.map.lookup ep with
    | some k => exact h.same rfl rfl rfl (fun n hm => by simpa [cemit] using hm)
    | none =>
      dsimp only
      cases ok with
      | false => exact h.same rfl rfl rfl (fun n hm => by simpa [cemit] using hm)
      | true => exact h.same rfl rfl rfl (fun n hm => by simpa [cemit] using hm)
  | listen =>
    simp only [step] at hs
    split at hs
    · cases hs; exact h
    · rename_i ho
      cases hs
      refine ⟨fun _ => rfl, fun _ => ?_, fun n hm => ?_⟩
      · show c.pending = none
        apply Decidable.byContradiction
        intro hx
        exact ho (h.opened (Or.inr hx))
      · exact absurd (h.deaf n hm).1 ho
  | peer ep b ok o =>
    simp only [step] at hs
    split at hs
    · cases hs; exact h
    · rename_i hw
      have hw : c.waiting = true := by simpa using hw
      have hno : ∀ n, .failed n ∉ c.out := fun n hm => by have := (h.deaf n hm).2.1; rw [hw] at this; cases this
      split at hs
      · exact linv_newPeer (c := { c with waiting := false }) (h.opened (Or.inl hw)) rfl (h.once hw) hno hs
      · cases hs
        exact ⟨fun _ => h.opened (Or.inl hw), fun hx => (by cases hx), fun n hm => absurd hm (hno n)⟩
  | peerFail o =>
    simp only [step] at hs
    split at hs
    · cases hs; exact h
    · rename_i hw
      have hw : c.waiting = true := by simpa using hw
      have hno : ∀ n, .failed n ∉ c.out := fun n hm => by have := (h.deaf n hm).2.1; rw [hw] at this; cases this
      split at hs
      · exact linv_newPeer (c := { c with waiting := false }) (h.opened (Or.inl hw)) rfl (h.once hw) hno hs
      · cases hs
        exact ⟨fun _ => h.opened (Or.inl hw), fun hx => (by cases hx), fun n hm => absurd hm (hno n)⟩
  | next =>
    simp only [step] at hs
    split at hs
    · cases hs; exact h
    · rename_i x hp
      have hpn : c.pending ≠ none := by rw [hp]; simp
      have hno : ∀ n, .failed n ∉ c.out := fun n hm => hpn (h.deaf n hm).2.2
      have hw : c.waiting = false := by
        cases hx : c.waiting with
        | false => rfl
        | true => exact absurd (h.once hx) hpn
      exact linv_newPeer (c := { c with pending := none }) (h.opened (Or.inr hpn)) hw rfl hno hs

theorem linv_run {T : Nat} {c c' : Chan} {es : List Event} (h : LInv c) (hs : run T c es = .ok c') : LInv c' := by
  induction es generalizing c with
  | nil => simp only [run] at hs; cases hs; exact h
  | cons e es ih =>
    simp only [run, bind, Except.bind] at hs
    cases h1 : step T c e with
    | error y => rw [h1] at hs; cases hs
    | ok c1 => rw [h1] at hs; exact ih (linv_step h h1) hs

theorem linv_init : LInv Chan.init := ⟨fun h => by simp [Chan.init] at h, fun h => by simp [Chan.init] at h, fun n h => by simp [Chan.init] at h⟩

/-- The receive of the channel fails, or a face cannot be created for a new peer. -/
def Refusal : Event → Bool
  | .peerFail _ => true
  | .peer _ _ ok _ => !ok
  | _ => false

/-- Whether the channel was told to listen. -/
def Listened (es : List Event) : Bool := es.any (fun e => e == .listen)

structure Hears (c : Chan) : Prop where
  hears : c.waiting = true ∨ c.pending ≠ none
  fine : ∀ x, c.pending = some x → ∃ ep b, x = some (ep, b, true)

theorem hears_step {T : Nat} {c c' : Chan} {e : Event} (hr : Refusal e = false) (hs : step T c e = .ok c')
    (h : Hears c ∨ (c.isOpen = false ∧ c.waiting = false ∧ c.pending = none)) :
    Hears c' ∨ (¬ Hears c ∧ e ≠ .listen ∧ c'.isOpen = false ∧ c'.waiting = false ∧ c'.pending = none) := by
  have key : ∀ (c1 : Chan) ep b, c1.pending = none → handleNewPeer T c1 (some (ep, b, true)) = .ok c' → Hears c' := by
    intro c1 ep b h1 h2
    obtain ⟨o, _, _, _, g3, g4⟩ := newPeer_out h2
    rcases g4 with g4 | g4
    · exact ⟨Or.inl g4.1, fun x hx => by rw [g3, h1] at hx; cases hx⟩
    · rcases g4.2 with g5 | ⟨_, _, g5⟩ <;> cases g5
  have keep : c'.isOpen = c.isOpen → c'.waiting = c.waiting → c'.pending = c.pending → e ≠ .listen →
      Hears c' ∨ (¬ Hears c ∧ e ≠ .listen ∧ c'.isOpen = false ∧ c'.waiting = false ∧ c'.pending = none) := by
    intro h1 h2 h3 h4
    rcases h with h | h
    · exact Or.inl ⟨by rw [h2, h3]; exact h.hears, by rw [h3]; exact h.fine⟩
    · refine Or.inr ⟨fun hh => ?_, h4, by rw [h1, h2, h3]; exact h⟩
      rcases hh.hears with a | a
      · rw [h.2.1] at a; cases a
      · exact a h.2.2
  cases e with
  | tick d => simp only [step] at hs; cases hs; exact keep rfl rfl rfl (by simp)
  | face k ev =>
    simp only [step] at hs
    cases hf : c.faces[k]? with
    | none => rw [hf] at hs; cases hs; exact keep rfl rfl rfl (by simp)
    | some f =>
      rw [hf] at hs
      dsimp only at hs
      cases hd : faceStep T c.now f ev with
      | error y => rw [hd] at hs; cases hs
      | ok f' => rw [hd] at hs; cases hs; exact keep rfl rfl rfl (by simp)
  | connect r ep p ok =>
    simp only [step, connect, createFace] at hs
    cases hs
    cases hl : c.map.lookup ep with
    | some k => simp only [hl] at keep; exact keep rfl rfl rfl (by simp)
    | none =>
      dsimp only
      cases ok with
      | false => simp only [hl] at keep; exact keep rfl rfl rfl (by simp)
      | true => simp only [hl] at keep; exact keep rfl rfl rfl (by simp)
  | listen =>
    simp only [step] at hs
    split at hs
    · rename_i ho
      cases hs
      rcases h with h | h
      · exact Or.inl h
      · rw [ho] at h; cases h.1
    · cases hs
      rcases h with h | h
      · exact Or.inl ⟨Or.inl rfl, h.fine⟩
      · exact Or.inl ⟨Or.inl rfl, fun x hx => by rw [h.2.2] at hx; cases hx⟩
  | peer ep b ok o =>
    have hok : ok = true := by simpa [Refusal] using hr
    subst hok
    simp only [step] at hs
    split at hs
    · cases hs; exact keep rfl rfl rfl (by simp)
    · rename_i hw
      have hw : c.waiting = true := by simpa using hw
      split at hs
      · rcases h with h | h
        · cases hp : c.pending with
          | none => exact Or.inl (key { c with waiting := false } _ _ hp hs)
          | some x =>
            left
            obtain ⟨o, _, _, _, g3, g4⟩ := newPeer_out hs
            rcases g4 with g4 | g4
            · exact ⟨Or.inl g4.1, by rw [g3]; exact h.fine⟩
            · rcases g4.2 with g5 | ⟨_, _, g5⟩ <;> cases g5
        · rw [hw] at h; cases h.2.1
      · cases hs
        exact Or.inl ⟨Or.inr (by simp), fun x hx => by cases hx; exact ⟨_, _, rfl⟩⟩
  | peerFail o => cases hr
  | next =>
    simp only [step] at hs
    split at hs
    · cases hs; exact keep rfl rfl rfl (by simp)
    · rename_i x hp
      rcases h with h | h
      · obtain ⟨ep, b, rfl⟩ := h.fine x hp
        exact Or.inl (key { c with pending := none } ep b rfl hs)
      · rw [hp] at h; cases h.2.2

/-- C82 (partial: the receive of the channel never fails, and the operating system never refuses a socket for a new peer): once the channel was
told to listen, it waits for a datagram, or is about to dispatch one. -/
theorem C82_listening_partial (T : Nat) (es : List Event) (c : Chan) (h : run T Chan.init es = .ok c) (hr : ∀ e ∈ es, Refusal e = false)
    (hl : Listened es = true) : c.waiting = true ∨ c.pending ≠ none := by
  have key : ∀ (es : List Event) (c0 c : Chan), run T c0 es = .ok c → (∀ e ∈ es, Refusal e = false) →
      (Hears c0 ∨ (c0.isOpen = false ∧ c0.waiting = false ∧ c0.pending = none)) → (Hears c0 ∨ Listened es = true) → Hears c := by
    intro es
    induction es with
    | nil =>
      intro c0 c h _ _ h2
      simp only [run] at h
      cases h
      rcases h2 with h2 | h2
      · exact h2
      · cases h2
    | cons e es ih =>
      intro c0 c h hr h1 h2
      simp only [run, bind, Except.bind] at h
      cases hs : step T c0 e with
      | error y => rw [hs] at h; cases h
      | ok c1 =>
        rw [hs] at h
        have h3 := hears_step (hr e List.mem_cons_self) hs h1
        refine ih c1 c h (fun x hx => hr x (List.mem_cons_of_mem _ hx)) ?_ ?_
        · rcases h3 with h3 | h3
          · exact Or.inl h3
          · exact Or.inr h3.2.2
        · rcases h3 with h3 | h3
          · exact Or.inl h3
          · rcases h2 with h2 | h2
            · exact absurd h2 h3.1
            · right
              unfold Listened at h2 ⊢
              rw [List.any_cons] at h2
              have : (e == .listen) = false := by simpa using h3.2.1
              rw [this] at h2
              simpa using h2
  exact (key es _ c h hr (Or.inr ⟨rfl, rfl, rfl⟩) (Or.inr hl)).hears

theorem deaf_step {T : Nat} {c c' : Chan} {e : Event} (h : c.isOpen = true ∧ c.waiting = false ∧ c.pending = none) (hs : step T c e = .ok c') :
    (c'.isOpen = true ∧ c'.waiting = false ∧ c'.pending = none) ∧ (∀ ep b k, .peer ep b k ∈ c'.out → .peer ep b k ∈ c.out) := by
  obtain ⟨h1, h2, h3⟩ := h
  cases e with
  | tick d => simp only [step] at hs; cases hs; exact ⟨⟨h1, h2, h3⟩, fun _ _ _ hm => hm⟩
  | face k ev =>
    simp only [step] at hs
    cases hf : c.faces[k]? with
    | none => rw [hf] at hs; cases hs; exact ⟨⟨h1, h2, h3⟩, fun _ _ _ hm => hm⟩
    | some f =>
      rw [hf] at hs
      dsimp only at hs
      cases hd : faceStep T c.now f ev with
      | error y => rw [hd] at hs; cases hs
      | ok f' => rw [hd] at hs; cases hs; exact ⟨⟨h1, h2, h3⟩, fun _ _ _ hm => hm⟩
  | connect r ep p ok =>
    simp only [step, connect, createFace] at hs
    cases hs
    cases hl : c.map.lookup ep with
    | some k => exact ⟨⟨h1, h2, h3⟩, fun _ _ _ hm => by simpa [cemit] using hm⟩
    | none =>
      dsimp only
      cases ok with
      | false => exact ⟨⟨h1, h2, h3⟩, fun _ _ _ hm => by simpa [cemit] using hm⟩
      | true => exact ⟨⟨h1, h2, h3⟩, fun _ _ _ hm => by simpa [cemit] using hm⟩
  | listen =>
    simp only [step] at hs
    rw [if_pos h1] at hs
    cases hs; exact ⟨⟨h1, h2, h3⟩, fun _ _ _ hm => hm⟩
  | peer ep b ok o =>
    simp only [step] at hs
    rw [if_pos (by rw [h2]; rfl)] at hs
    cases hs; exact ⟨⟨h1, h2, h3⟩, fun _ _ _ hm => hm⟩
  | peerFail o =>
    simp only [step] at hs
    rw [if_pos (by rw [h2]; rfl)] at hs
    cases hs; exact ⟨⟨h1, h2, h3⟩, fun _ _ _ hm => hm⟩
  | next =>
    simp only [step] at hs
    rw [h3] at hs
    cases hs; exact ⟨⟨h1, h2, h3⟩, fun _ _ _ hm => hm⟩

/-- C82, what the code does instead of listening for good: after one failure (a receive error, or a socket that the operating system refuses), the
channel never accepts a datagram from a new peer again, whatever happens afterwards, although it still counts as listening. -/
theorem C82_deaf (T : Nat) (es : List Event) (c : Chan) (h : run T Chan.init es = .ok c) (n : Nat) (hn : .failed n ∈ c.out)
    (es' : List Event) (c' : Chan) (h' : run T c es' = .ok c') :
    c'.isOpen = true ∧ ∀ ep b k, .peer ep b k ∈ c'.out → .peer ep b k ∈ c.out := by
  have hd := (linv_run linv_init h).deaf n hn
  clear hn h
  induction es' generalizing c with
  | nil => simp only [run] at h'; cases h'; exact ⟨hd.1, fun _ _ _ hm => hm⟩
  | cons e es' ih =>
    simp only [run, bind, Except.bind] at h'
    cases hs : step T c e with
    | error y => rw [hs] at h'; cases h'
    | ok c1 =>
      rw [hs] at h'
      obtain ⟨h1, h2⟩ := deaf_step hd hs
      obtain ⟨h3, h4⟩ := ih c1 h' h1
      exact ⟨h3, fun ep b k hm => h2 ep b k (h4 ep b k hm)⟩

/-- C82: such a failure happens: the first peer cannot be served because the operating system refuses a socket; a second one, for which it would not,
is not heard. -/
theorem C82_deaf_witness : ∃ c, run 10 Chan.init [.listen, .peer 1 [5, 0] false true, .peer 2 [5, 0] true true, .listen, .peer 2 [5, 0] true true] = .ok c ∧
    c.out = [.failed 504] ∧ c.faces.length = 0 := by
  obtain ⟨c, h1, h2⟩ := okWith_ex (r := run 10 Chan.init [.listen, .peer 1 [5, 0] false true, .peer 2 [5, 0] true true, .listen, .peer 2 [5, 0] true true])
    (p := fun c => c.out == [.failed 504] && c.faces.length == 0) (by decide +kernel)
  simp only [Bool.and_eq_true, beq_iff_eq] at h2
  exact ⟨c, h1, h2.1, h2.2⟩

/-- C82: a request may be answered with a face that is going away: it is CLOSING when the request is made, and CLOSED right afterwards. -/
theorem C82_dying : ∃ es c f, run 10 Chan.init es = .ok c ∧ c.faces = [f] ∧ f.state = .closed ∧ f.out = [.state .up .closing, .state .closing .closed] ∧
    c.out = [.answer 1 (.created 0), .answer 2 (.created 0)] ∧
    es = [.connect 1 7 .persistent true, .face 0 .close, .connect 2 7 .persistent true, .face 0 .next, .face 0 .next] := by
  obtain ⟨c, h1, h2⟩ := okWith_ex
    (r := run 10 Chan.init [.connect 1 7 .persistent true, .face 0 .close, .connect 2 7 .persistent true, .face 0 .next, .face 0 .next])
    (p := fun c => match c.faces with
      | [f] => f.state == .closed && f.out == [.state .up .closing, .state .closing .closed] && c.out == [.answer 1 (.created 0), .answer 2 (.created 0)]
      | _ => false) (by decide +kernel)
  revert h2
  cases hf : c.faces with
  | nil => intro h2; cases h2
  | cons f r =>
    cases r with
    | cons a b => intro h2; cases h2
    | nil =>
      intro h2
      simp only [Bool.and_eq_true, beq_iff_eq] at h2
      exact ⟨_, c, f, h1, hf, h2.1.1, h2.1.2, h2.2, rfl⟩

/-- A datagram of 8801 octets, which is not one TLV element: an element of 8800 octets, and one octet more. -/
def longDatagram : Bytes := [5, 253, 34, 92] ++ List.replicate 8797 0

/-- C81: a datagram longer than 8800 octets is cut off, and what remains may be delivered although the datagram is not one TLV element. -/
theorem C81_truncation : ∃ c f, run 0 Chan.init [.connect 1 7 .persistent true, .face 0 (.recv longDatagram true)] = .ok c ∧ c.faces = [f] ∧
    oneTlv longDatagram = false ∧ delivered f.out = [longDatagram.take 8800] := by
  obtain ⟨c, h1, h2⟩ := okWith_ex (r := run 0 Chan.init [.connect 1 7 .persistent true, .face 0 (.recv longDatagram true)])
    (p := fun c => match c.faces with
      | [f] => delivered f.out == [longDatagram.take 8800]
      | _ => false) (by decide +kernel)
  revert h2
  cases hf : c.faces with
  | nil => intro h2; cases h2
  | cons f r =>
    cases r with
    | cons a b => intro h2; cases h2
    | nil =>
      intro h2
      simp only [beq_iff_eq] at h2
      exact ⟨c, f, h1, hf, by decide +kernel, h2⟩

/-! ### Examples -/

/-- A new peer is served, its face survives a check because of a packet, and is closed by the next one; a datagram that is not one element does not
count. -/
def exIdle : List Event :=
  [.listen, .peer 7 [5, 0] true true, .tick 4, .face 0 (.recv [5, 1, 9] false), .face 0 .next, .tick 6, .face 0 .timer, .tick 3,
   .face 0 (.recv [5, 1] true), .tick 7, .face 0 .timer, .face 0 .next, .face 0 .next]

example : okWith (run 10 Chan.init exIdle) (fun c => match c.faces with
    | [f] => f.state == .closed && f.out == [.onDemand 0, .dispatched [5, 0], .deliver [5, 0] 0, .got [5, 1, 9], .deliver [5, 1, 9] 4, .got [5, 1], .idle 20,
        .state .up .closing, .state .closing .closed] && delivered f.out == [[5, 0], [5, 1, 9]] && arrived f.out == [[5, 0], [5, 1, 9], [5, 1]]
    | _ => false) = true := by decide +kernel

/-- The same events, up to the first check: the face is UP and on-demand, and all functions ran in time. -/
example : okWith (run 10 Chan.init (exIdle.take 7)) (fun c => match c.faces with
    | [f] => f.state == .up && f.persist == .onDemand && lastActive f.out == 4 && c.now == 10 && f.timer == some 20 && f.expires == some 20
    | _ => false) = true := by decide +kernel

/-- A test for `InTime`. -/
def inTime (T : Nat) (c : Chan) : List Event → Bool
  | [] => true
  | e :: es =>
    (match e with
      | .tick d => c.faces.all (fun f => match f.timer with | some due => decide (c.now + d ≤ due) | none => true)
      | _ => true) &&
    (match step T c e with
      | .ok c' => inTime T c' es
      | .error _ => true)

theorem inTime_sound {T : Nat} {c : Chan} {es : List Event} (h : inTime T c es = true) : InTime T c es := by
  induction es generalizing c with
  | nil => trivial
  | cons e es ih =>
    simp only [inTime, Bool.and_eq_true] at h
    refine ⟨?_, fun c' hc' => ?_⟩
    · rintro d rfl k f due hf ht
      have h1 := List.all_eq_true.1 h.1 f (List.mem_of_getElem? hf)
      rw [ht] at h1
      simpa using h1
    · have h2 := h.2
      rw [hc'] at h2
      exact ih h2

example : InTime 10 Chan.init (exIdle.take 7) := inTime_sound (by decide +kernel)

/-- Two sends, of which one fails: a permanent face stays UP, a persistent one fails. -/
example : okWith (run 10 Chan.init [.connect 1 7 .permanent true, .face 0 (.send [1]), .face 0 (.send [2]), .face 0 (.sendDone false true), .face 0 (.sendDone true true)])
    (fun c => match c.faces with
      | [f] => f.state == .up && sentOut f.out == [[2]] && accepted f.out == [[1], [2]] && finished f.out == [[1], [2]] && f.expires == none
      | _ => false) = true := by decide +kernel

example : okWith (run 10 Chan.init [.connect 1 7 .persistent true, .face 0 (.send [1]), .face 0 (.send [2]), .face 0 (.sendDone false false), .face 0 .next])
    (fun c => match c.faces with
      | [f] => f.state == .failed && f.q == [.recvErr .aborted, .sendErr .aborted, .close]
      | _ => false) = true := by decide +kernel

/-- Two requests for one endpoint get the same face; another endpoint gets another one. -/
example : okWith (run 10 Chan.init [.connect 1 7 .persistent true, .connect 2 7 .permanent true, .connect 3 8 .permanent true, .connect 4 9 .permanent false])
    (fun c => c.out == [.answer 1 (.created 0), .answer 2 (.created 0), .answer 3 (.created 1), .answer 4 (.failed 504)] && c.faces.map (·.ep) == [7, 8] &&
      c.faces.map (·.persist) == [.persistent, .permanent]) = true := by decide +kernel

end Verif.Dg
