import Verif.Rib.AsyncInv
import Verif.Rib.Witness

/-
C58: every update of the RIB is reported exactly once, one batch at a time.
-/
namespace Verif.Rib.Async

/-! ### Helpers -/

theorem batch_ok {k : Nat} {tie : List Route → Nat} {b : Rib} (h : RInv k b) (u : Update) :
    (∀ f, plan tie b.table u = .error f → f = .nullPointer ∧ Crashes b.routes u) ∧
    ∀ p, plan tie b.table u = .ok p → ∃ b', commit b u p.inherited = .ok b' ∧ RInv (k + 1) b' ∧ ∀ n, b'.routes n = Spec.after b.routes u n := by
  have hp := plan_eq tie b.table u
  cases hE : emits tie b.table u with
  | error f =>
    rw [hE] at hp
    refine ⟨fun f' h' => ?_, fun p h' => ?_⟩
    · rw [hp] at h'
      cases h'
      exact (emits_error h tie u f).1 hE
    · rw [hp] at h'; cases h'
  | ok E =>
    rw [hE] at hp
    refine ⟨(fun f h' => by rw [hp] at h'; cases h'), fun p h' => ?_⟩
    rw [hp] at h'
    have h' : (if u.action = .removeFace then { planOf u.route.face E with batch := [] } else planOf u.route.face E) = p := Except.ok.inj h'
    have hi : p.inherited = (planOf u.route.face E).inherited := by
      rw [← h']; split <;> rfl
    obtain ⟨b1, b', c1, c2, c3, c4, c5, c6, c7⟩ := commit_ok h hE
    rw [hi]
    rw [planOf_inherited]
    exact ⟨b', c2, c3, c4⟩

/-- The routes after updates that were accepted or refused. -/
def routesAfter : (Name → List Route) → List (Update × Bool) → (Name → List Route)
  | R, [] => R
  | R, (u, ok) :: l => routesAfter (if ok then Spec.after R u else R) l

theorem ribAfter_routes {k : Nat} {tie : List Route → Nat} {b b' : Rib} (h : RInv k b) {l : List (Update × Bool)} (hr : ribAfter tie b l = .ok b') :
    RInv (k + l.length) b' ∧ b'.routes = routesAfter b.routes l := by
  induction l generalizing k b with
  | nil => rw [← Except.ok.inj hr]; exact ⟨h, rfl⟩
  | cons x l ih =>
    obtain ⟨u, o⟩ := x
    cases o with
    | false =>
      obtain ⟨h1, h2⟩ := ih h hr
      exact ⟨h1.mono (by simp), h2⟩
    | true =>
      rw [ribAfter] at hr
      cases hp : plan tie b.table u with
      | error f => rw [hp] at hr; cases hr
      | ok p =>
        rw [hp] at hr
        dsimp only at hr
        obtain ⟨b1, h1, h2, h3⟩ := (batch_ok h u).2 p hp
        rw [h1] at hr
        obtain ⟨h4, h5⟩ := ih h2 hr
        refine ⟨by rw [List.length_cons, show k + (l.length + 1) = k + 1 + l.length by omega]; exact h4, ?_⟩
        rw [h5, funext h3]
        rfl

theorem Inv.rinv {tie : List Route → Nat} {s : St} (h : Inv tie s) : ∃ k, RInv k s.rib := ⟨_, (ribAfter_routes RInv.init h.rib).1⟩

/-! ### Example data -/

abbrev reg (n : Name) (f o c : Nat) (ci cap : Bool) : Update := ⟨.register, n, ⟨f, o, c, ci, cap⟩⟩
abbrev unreg (n : Name) (f o : Nat) : Update := ⟨.unregister, n, ⟨f, o, 0, false, false⟩⟩

/-- Five updates are submitted, some while others are processed; a command times out, and one is refused. -/
def sample : List Event :=
  [.submit [reg W.ab 2 0 5 true false], .submit [reg W.root 1 0 10 true false], .reply 0 .timeout, .reply 0 .ok, .submit [reg W.a 3 0 1 true false, unreg W.ab 2 0],
   .reply 1 .ok, .reply 0 .ok, .reply 0 .ok, .reply 0 .faceNotFound]

def okAnd (r : Except Fault St) (p : St → Bool) : Bool := match r with | .ok s => p s | .error _ => false

/-- A decidable form of `CleanRun`. -/
def cleanRun (tie : List Route → Nat) : St → List Event → Bool
  | _, [] => true
  | s, e :: l =>
    (match e with
     | .reply i .faceNotFound =>
       match s.inflight[i]? with
       | none => true
       | some c => c.upd.face != c.batch.2.route.face || s.inflight.length == 1
     | _ => true) &&
    match step tie s e with
    | .error _ => true
    | .ok s => cleanRun tie s l

theorem cleanRun_sound {tie : List Route → Nat} {s : St} {l : List Event} (h : cleanRun tie s l = true) : CleanRun tie s l := by
  induction l generalizing s with
  | nil => trivial
  | cons e l ih =>
    unfold cleanRun at h
    rw [Bool.and_eq_true] at h
    refine ⟨?_, ?_⟩
    · cases e with
      | submit us => trivial
      | reply i code =>
        cases code with
        | faceNotFound =>
          intro c hi hf
          have h1 := h.1
          simp only [hi, Bool.or_eq_true, bne_iff_ne, ne_eq, beq_iff_eq] at h1
          exact h1.resolve_left (fun hc => hc hf)
        | ok => trivial
        | timeout => trivial
        | other => trivial
    · cases hs : step tie s e with
      | error f => trivial
      | ok s1 => have h2 := h.2; rw [hs] at h2; exact ih h2

/-! ### The properties -/

/-- The callbacks are called in the order of the updates, each once. Missing: runs in which the forwarder refuses more than one command of a batch for the face of the batch. -/
theorem C58_once_partial (tie : List Route → Nat) (es : List Event) (hc : CleanRun tie init es) (s : St) (hr : run tie init es = .ok s) :
    s.reports.map (·.1) = List.range s.reports.length ∧ s.reports.length ≤ s.submitted.length := by
  have h := run_inv (Inv.init tie) hc hr
  exact ⟨h.order, Nat.le_trans (Nat.le_add_right _ _) h.count⟩

example : cleanRun W.tie init sample = true ∧
    okAnd (run W.tie init sample) (fun s => s.reports == [(0, true), (1, true), (2, false)] && s.submitted.length == 4 && s.inflight.length == 1) = true := by
  refine ⟨?_, ?_⟩ <;> decide +kernel

/-- Batches do not overlap: all commands in flight belong to the first update that is not reported. -/
theorem C58_overlap_partial (tie : List Route → Nat) (es : List Event) (hc : CleanRun tie init es) (s : St) (hr : run tie init es = .ok s) (c : Cmd) (h : c ∈ s.inflight) :
    c.batch.1 = s.reports.length ∧ s.submitted[s.reports.length]? = some c.batch.2 := by
  have hi := run_inv (Inv.init tie) hc hr
  cases hb : s.busy with
  | false => rw [(hi.idle hb).2] at h; cases h
  | true =>
    obtain ⟨b, hw⟩ := hi.work hb
    rw [hw.cmds c h]
    exact ⟨hw.num, by rw [← hw.num]; exact hw.sub⟩

/-- As long as not all updates are reported there is a command in flight; and when all are, there is none. -/
theorem C58_progress_partial (tie : List Route → Nat) (es : List Event) (hc : CleanRun tie init es) (s : St) (hr : run tie init es = .ok s) :
    s.reports.length < s.submitted.length ↔ s.inflight ≠ [] := by
  have hi := run_inv (Inv.init tie) hc hr
  cases hb : s.busy with
  | false =>
    obtain ⟨h1, h2⟩ := hi.idle hb
    have hq := hi.queue
    rw [hb, h1] at hq
    have := number_nil.1 hq.symm
    rw [List.drop_eq_nil_iff] at this
    simp only [Bool.false_eq_true, if_false] at this
    exact ⟨fun hc => by omega, fun hc => absurd h2 hc⟩
  | true =>
    obtain ⟨b, hw⟩ := hi.work hb
    have := hi.count
    rw [hb] at this
    exact ⟨fun _ => hw.some, fun _ => this⟩

/-- A run of the system without further updates in which, until all are reported, every event answers a command in flight. -/
structure Answered (tie : List Route → Nat) (st : Nat → St) : Prop where
  step : ∀ n, (st n).reports.length < (st n).submitted.length →
    ∃ i code c, (st n).inflight[i]? = some c ∧ Clean (st n) (.reply i code) ∧ step tie (st n) (.reply i code) = .ok (st (n + 1))

/-- If every command is answered, all updates are reported in the end, whatever the order and the answers. -/
theorem C58_terminates_partial (tie : List Route → Nat) (es : List Event) (hc : CleanRun tie init es) (s : St) (hr : run tie init es = .ok s)
    (st : Nat → St) (h0 : st 0 = s) (ha : Answered tie st) : ∃ n, (st n).reports.length = s.submitted.length := by
  have key : ∀ (a w n : Nat) (s0 : St), st n = s0 → Inv tie s0 → s0.submitted = s.submitted → s.submitted.length - s0.reports.length = a → weight s0 = w →
      ∃ n, (st n).reports.length = s.submitted.length := by
    intro a
    induction a using Nat.strongRecOn with
    | _ a iha =>
      intro w
      induction w using Nat.strongRecOn with
      | _ w ihw =>
        intro n s0 hn hi hs hla hlw
        have hle : s0.reports.length ≤ s.submitted.length := by rw [← hs]; exact Nat.le_trans (Nat.le_add_right _ _) hi.count
        by_cases hlt : s0.reports.length < s.submitted.length
        · obtain ⟨i, code, c, a1, a2, a3⟩ := ha.step n (by rw [hn, hs]; exact hlt)
          rw [hn] at a1 a2 a3
          obtain ⟨r1, r2, r3⟩ := reply_inv hi a2 a1 a3
          rcases r3 with r3 | ⟨r3, r4⟩
          · exact iha (s.submitted.length - (st (n + 1)).reports.length) (by omega) _ (n + 1) _ rfl r1 (by rw [r2, hs]) rfl rfl
          · exact ihw _ (by rw [← hlw]; exact r4) (n + 1) _ rfl r1 (by rw [r2, hs]) (by rw [r3]; exact hla) rfl
        · exact ⟨n, by rw [hn]; omega⟩
  exact key _ _ 0 s h0 (run_inv (Inv.init tie) hc hr) rfl rfl rfl

/-- The routes of the RIB follow from the updates that were reported as successful, in order. -/
theorem C58_routes_partial (tie : List Route → Nat) (es : List Event) (hc : CleanRun tie init es) (s : St) (hr : run tie init es = .ok s) :
    s.rib.routes = routesAfter (fun _ => []) (s.submitted.zip (s.reports.map (·.2))) :=
  (ribAfter_routes RInv.init (run_inv (Inv.init tie) hc hr).rib).2

example : okAnd (run W.tie init sample) (fun s => s.rib.routes W.root == [⟨1, 0, 10, true, false⟩] && s.rib.routes W.a == []) = true := by decide +kernel

/-- How often a command timed out is at most the number of timeouts. -/
theorem tries_le {tie : List Route → Nat} {es : List Event} {s s' : St} {k : Nat} (h : ∀ c ∈ s.inflight, c.tries ≤ k) (hr : run tie s es = .ok s') :
    ∀ c ∈ s'.inflight, c.tries ≤ k + es.countP (fun e => match e with | .reply _ .timeout => true | _ => false) := by
  have hsend : ∀ {k : Nat} {s : St} {b : Batch} {l : List FibUpd}, (∀ c ∈ s.inflight, c.tries ≤ k) → ∀ c ∈ (send s b l).inflight, c.tries ≤ k := by
    intro k s b l h c hc
    rcases List.mem_append.1 hc with hc | hc
    · exact h c hc
    · obtain ⟨u, _, rfl⟩ := List.mem_map.1 hc
      exact Nat.zero_le _
  have hnext : ∀ {k : Nat} (n : Nat) {s s' : St}, (∀ c ∈ s.inflight, c.tries ≤ k) → next tie n s = .ok s' → ∀ c ∈ s'.inflight, c.tries ≤ k := by
    intro k n
    induction n with
    | zero => intro s s' h hr; rw [← Except.ok.inj hr]; exact h
    | succ n ih =>
      intro s s' h hr
      unfold next at hr
      by_cases hb : s.busy = true
      · rw [if_pos hb] at hr; rw [← Except.ok.inj hr]; exact h
      · rw [if_neg hb] at hr
        cases hq : s.queue with
        | nil => rw [hq] at hr; rw [← Except.ok.inj hr]; exact h
        | cons b q =>
          rw [hq] at hr
          dsimp only at hr
          cases hp : plan tie s.rib.table b.2 with
          | error f => rw [hp] at hr; cases hr
          | ok p =>
            rw [hp] at hr
            dsimp only at hr
            by_cases h1 : p.batch ≠ []
            · rw [if_pos h1] at hr; rw [← Except.ok.inj hr]; exact hsend h
            · rw [if_neg h1] at hr
              by_cases h2 : p.other ≠ []
              · rw [if_pos h2] at hr; rw [← Except.ok.inj hr]; exact hsend h
              · rw [if_neg h2] at hr
                unfold succeed at hr
                dsimp only at hr
                cases hc : commit s.rib b.2 p.inherited with
                | error f => rw [hc] at hr; cases hr
                | ok r => rw [hc] at hr; exact ih (by exact h) hr
  have hfin : ∀ {k : Nat} {s s' : St} {b : Batch}, (∀ c ∈ s.inflight, c.tries ≤ k) → finish tie s b = .ok s' → ∀ c ∈ s'.inflight, c.tries ≤ k := by
    intro k s s' b h hr
    unfold finish succeed at hr
    cases hc : commit s.rib b.2 s.inherited with
    | error f => rw [hc] at hr; cases hr
    | ok r => rw [hc] at hr; exact hnext _ (by exact h) hr
  have hoth : ∀ {k : Nat} {s s' : St} {x : Cmd}, (∀ c ∈ s.inflight, c.tries ≤ k) → otherDone tie s x = .ok s' → ∀ c ∈ s'.inflight, c.tries ≤ k := by
    intro k s s' x h hr
    unfold otherDone at hr
    dsimp only at hr
    split at hr
    · exact hfin (by exact h) hr
    · rw [← Except.ok.inj hr]; exact h
  induction es generalizing s k with
  | nil => rw [← Except.ok.inj hr]; exact h
  | cons e l ih =>
    unfold run at hr
    cases hs : step tie s e with
    | error f => rw [hs] at hr; cases hr
    | ok s1 =>
      rw [hs] at hr
      rw [List.countP_cons]
      cases e with
      | submit us =>
        simp only [Bool.false_eq_true, if_false, Nat.add_zero]
        exact ih (hnext _ (by exact h) hs) hr
      | reply i code =>
        cases hi : s.inflight[i]? with
        | none =>
          simp only [step, hi] at hs
          rw [← Except.ok.inj hs] at hr
          exact fun c hc => Nat.le_trans (ih h hr c hc) (by omega)
        | some c =>
          simp only [step, hi] at hs
          have h' : ∀ x ∈ s.inflight.eraseIdx i, x.tries ≤ k := fun x hx => h x (List.mem_of_mem_eraseIdx hx)
          have hcm := h c (List.mem_of_getElem? hi)
          unfold answer at hs
          cases code with
          | other => cases hs
          | ok =>
            simp only [Bool.false_eq_true, if_false, Nat.add_zero]
            refine ih ?_ hr
            dsimp only at hs
            split at hs
            · split at hs
              · split at hs
                · rw [← Except.ok.inj hs]; exact hsend (by exact h')
                · exact hfin (by exact h') hs
              · rw [← Except.ok.inj hs]; exact h'
            · exact hoth (by exact h') hs
          | faceNotFound =>
            simp only [Bool.false_eq_true, if_false, Nat.add_zero]
            refine ih ?_ hr
            dsimp only at hs
            split at hs
            · exact hnext _ (by exact h') hs
            · exact hoth (by exact h') hs
          | timeout =>
            simp only [if_true]
            rw [Nat.add_comm (List.countP _ l) 1, ← Nat.add_assoc]
            refine ih ?_ hr
            dsimp only at hs
            split at hs
            · rw [← Except.ok.inj hs]
              intro x hx
              rcases List.mem_append.1 hx with hx | hx
              · exact Nat.le_succ_of_le (h' x hx)
              · rw [List.mem_singleton.1 hx]; exact Nat.succ_le_succ hcm
            · cases hs

/-- The only errors: the crash of C56, and a command that is answered with an unexpected error or timed out eleven times. -/
theorem C58_faults_partial (tie : List Route → Nat) (es : List Event) (hc : CleanRun tie init es) (f : Fault) (hr : run tie init es = .error f) :
    f = .nullPointer ∨ (f = .nonRecoverable ∧ ((∃ i, .reply i .other ∈ es) ∨ 11 ≤ es.countP (fun e => match e with | .reply _ .timeout => true | _ => false))) := by
  have hnext : ∀ (n : Nat) {k : Nat} {s : St} {f : Fault}, RInv k s.rib → next tie n s = .error f → f = .nullPointer := by
    intro n
    induction n with
    | zero => intro k s f h hr; cases hr
    | succ n ih =>
      intro k s f h hr
      unfold next at hr
      by_cases hb : s.busy = true
      · rw [if_pos hb] at hr; cases hr
      · rw [if_neg hb] at hr
        cases hq : s.queue with
        | nil => rw [hq] at hr; cases hr
        | cons b q =>
          rw [hq] at hr
          dsimp only at hr
          cases hp : plan tie s.rib.table b.2 with
          | error g =>
            rw [hp] at hr
            have hr : Except.error (α := St) g = .error f := hr
            cases hr
            exact ((batch_ok h b.2).1 _ hp).1
          | ok p =>
            rw [hp] at hr
            dsimp only at hr
            by_cases h1 : p.batch ≠ []
            · rw [if_pos h1] at hr; cases hr
            · rw [if_neg h1] at hr
              by_cases h2 : p.other ≠ []
              · rw [if_pos h2] at hr; cases hr
              · rw [if_neg h2] at hr
                unfold succeed at hr
                dsimp only at hr
                obtain ⟨b', e1, e2, _⟩ := (batch_ok h b.2).2 p hp
                rw [e1] at hr
                exact ih (by exact e2) hr
  have hfin : ∀ {k : Nat} {s : St} {b : Batch} {f : Fault}, RInv k s.rib → (∃ p, plan tie s.rib.table b.2 = .ok p ∧ s.inherited = p.inherited) →
      finish tie s b = .error f → f = .nullPointer := by
    intro k s b f h hp hr
    unfold finish succeed at hr
    obtain ⟨p, hp, hq⟩ := hp
    obtain ⟨b', e1, e2, _⟩ := (batch_ok h b.2).2 p hp
    rw [hq, e1] at hr
    exact hnext _ (by exact e2) hr
  have hoth : ∀ {k : Nat} {s : St} {x : Cmd} {f : Fault}, RInv k s.rib → (∃ p, plan tie s.rib.table x.batch.2 = .ok p ∧ s.inherited = p.inherited) →
      otherDone tie s x = .error f → f = .nullPointer := by
    intro k s x f h hp hr
    unfold otherDone at hr
    dsimp only at hr
    split at hr
    · exact hfin (by exact h) (by exact hp) hr
    · cases hr
  suffices hgen : ∀ (l pre : List Event) (s : St), run tie init pre = .ok s → Inv tie s → CleanRun tie s l → run tie s l = .error f →
      f = .nullPointer ∨ (f = .nonRecoverable ∧ ((∃ i, .reply i .other ∈ pre ++ l) ∨
        11 ≤ (pre ++ l).countP (fun e => match e with | .reply _ .timeout => true | _ => false))) from
    hgen es [] init rfl (Inv.init tie) hc hr
  intro l
  induction l with
  | nil => intro pre s _ _ _ hr; cases hr
  | cons e l ih =>
    intro pre s hpre hi hc hr
    obtain ⟨hc1, hc2⟩ := hc
    have hrun : ∀ {s1 : St}, step tie s e = .ok s1 → run tie init (pre ++ [e]) = .ok s1 := by
      intro s1 hs
      have : ∀ (a : List Event) (z : St), run tie z a = .ok s → run tie z (a ++ [e]) = .ok s1 := by
        intro a
        induction a with
        | nil =>
          intro z hz
          rw [Except.ok.inj hz, List.nil_append, run, hs]
          rfl
        | cons x a iha =>
          intro z hz
          rw [List.cons_append]
          unfold run at hz ⊢
          cases hx : step tie z x with
          | error g => rw [hx] at hz; cases hz
          | ok z1 => rw [hx] at hz; exact iha z1 hz
      exact this pre init hpre
    unfold run at hr
    cases hs : step tie s e with
    | ok s1 =>
      rw [hs] at hr hc2
      have := ih (pre ++ [e]) s1 (hrun hs) (run_inv hi (es := [e]) ⟨hc1, by rw [hs]; trivial⟩ (by rw [run, hs]; rfl)) hc2 hr
      rw [List.append_assoc] at this
      exact this
    | error g =>
      rw [hs] at hr
      have hr : Except.error (α := St) g = .error f := hr
      cases hr
      obtain ⟨k, hri⟩ := hi.rinv
      cases e with
      | submit us => exact .inl (hnext _ (by exact hri) hs)
      | reply i code =>
        cases hii : s.inflight[i]? with
        | none => simp only [step, hii] at hs; cases hs
        | some c =>
          simp only [step, hii] at hs
          have hcm := List.mem_of_getElem? hii
          have hbusy : s.busy = true := by
            cases hb : s.busy with
            | true => rfl
            | false => rw [(hi.idle hb).2] at hii; cases hii
          obtain ⟨b, hw⟩ := hi.work hbusy
          have hpl := hw.plan
          rw [← hw.cmds c hcm] at hpl
          unfold answer at hs
          cases code with
          | other =>
            cases hs
            exact .inr ⟨rfl, .inl ⟨i, by simp⟩⟩
          | timeout =>
            dsimp only at hs
            split at hs
            · cases hs
            · rename_i ht
              cases hs
              refine .inr ⟨rfl, .inr ?_⟩
              have h1 := tries_le (k := 0) (fun c hc => by cases hc) hpre c hcm
              rw [List.countP_append, List.countP_cons]
              simp only [if_true]
              omega
          | ok =>
            dsimp only at hs
            split at hs
            · split at hs
              · split at hs
                · cases hs
                · exact .inl (hfin (by exact hri) (by exact hpl) hs)
              · cases hs
            · exact .inl (hoth (by exact hri) (by exact hpl) hs)
          | faceNotFound =>
            dsimp only at hs
            split at hs
            · exact .inl (hnext _ (by exact hri) hs)
            · exact .inl (hoth (by exact hri) (by exact hpl) hs)

/-- Eleven timeouts of the same command are an error. -/
example : okAnd (run W.tie init (.submit [reg W.a 1 0 1 true false] :: List.replicate 10 (.reply 0 .timeout))) (fun s => s.inflight.length == 1) = true ∧
    run W.tie init (.submit [reg W.a 1 0 1 true false] :: List.replicate 11 (.reply 0 .timeout)) = .error .nonRecoverable := by
  refine ⟨?_, ?_⟩ <;> decide +kernel

/-! ### Where the code does not have the property -/

/-- Two commands of a batch are refused, and the next update is for the same face: the failure of the first update is reported twice, and commands of two later updates are in flight together. -/
theorem C58_violated_twice : ∃ s, run W.tie init
    [.submit [reg W.ab 2 0 5 true false], .reply 0 .ok, .submit [reg W.root 1 0 10 true false], .submit [reg W.a 1 0 1 true false], .submit [reg W.a 3 0 1 true false],
     .reply 0 .faceNotFound, .reply 0 .faceNotFound] = .ok s ∧
    s.reports = [(0, true), (1, false), (1, false)] ∧ ∃ c ∈ s.inflight, ∃ c' ∈ s.inflight, c.batch ≠ c'.batch := by
  have : okAnd (run W.tie init
    [.submit [reg W.ab 2 0 5 true false], .reply 0 .ok, .submit [reg W.root 1 0 10 true false], .submit [reg W.a 1 0 1 true false], .submit [reg W.a 3 0 1 true false],
     .reply 0 .faceNotFound, .reply 0 .faceNotFound])
    (fun s => decide (s.reports = [(0, true), (1, false), (1, false)] ∧ ∃ c ∈ s.inflight, ∃ c' ∈ s.inflight, c.batch ≠ c'.batch)) = true := by
    decide +kernel
  unfold okAnd at this
  split at this
  · rename_i s hs
    exact ⟨s, hs, of_decide_eq_true this⟩
  · cases this

/-- The same, but the next update is for another face: the first update is reported as failed, and then as successful, and the route that was refused is in the RIB. -/
theorem C58_violated_both : ∃ s, run W.tie init
    [.submit [reg W.ab 2 0 5 true false], .reply 0 .ok, .submit [reg W.root 1 0 10 true false], .submit [reg W.a 2 0 1 true false], .submit [reg W.a 3 0 1 true false],
     .reply 0 .faceNotFound, .reply 0 .faceNotFound] = .ok s ∧
    s.reports = [(0, true), (1, false), (1, true)] ∧ s.rib.routes W.root = [⟨1, 0, 10, true, false⟩] := by
  have : okAnd (run W.tie init
    [.submit [reg W.ab 2 0 5 true false], .reply 0 .ok, .submit [reg W.root 1 0 10 true false], .submit [reg W.a 2 0 1 true false], .submit [reg W.a 3 0 1 true false],
     .reply 0 .faceNotFound, .reply 0 .faceNotFound])
    (fun s => decide (s.reports = [(0, true), (1, false), (1, true)] ∧ s.rib.routes W.root = [⟨1, 0, 10, true, false⟩])) = true := by
    decide +kernel
  unfold okAnd at this
  split at this
  · rename_i s hs
    exact ⟨s, hs, of_decide_eq_true this⟩
  · cases this

/-- A command to remove a next hop that is not answered in time is repeated as a command to add it. -/
theorem C58_violated_retry : ∃ s, run W.tie init [.submit [reg W.a 1 0 5 true false], .reply 0 .ok, .submit [unreg W.a 1 0], .reply 0 .timeout] = .ok s ∧
    ∃ c ∈ s.inflight, c.upd.adding = false ∧ c.adding = true := by
  have : okAnd (run W.tie init [.submit [reg W.a 1 0 5 true false], .reply 0 .ok, .submit [unreg W.a 1 0], .reply 0 .timeout])
      (fun s => decide (∃ c ∈ s.inflight, c.upd.adding = false ∧ c.adding = true)) = true := by decide +kernel
  unfold okAnd at this
  split at this
  · rename_i s hs
    exact ⟨s, hs, of_decide_eq_true this⟩
  · cases this

end Verif.Rib.Async
