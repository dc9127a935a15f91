import Verif.Rib.Async
import Verif.Rib.History
import Mathlib.Data.List.Perm.Basic

/-
Invariants of the queue of RIB updates when no batch is refused while it has other commands in flight.
-/
namespace Verif.Rib.Async

/-- The RIB after some batches, each with whether it succeeded. -/
def ribAfter (tie : List Route → Nat) : Rib → List (Update × Bool) → Except Fault Rib
  | b, [] => .ok b
  | b, (_, false) :: l => ribAfter tie b l
  | b, (u, true) :: l =>
    match plan tie b.table u with
    | .error f => .error f
    | .ok p =>
      match commit b u p.inherited with
      | .error f => .error f
      | .ok b => ribAfter tie b l

theorem ribAfter_append (tie : List Route → Nat) (b b' : Rib) (l l' : List (Update × Bool)) (h : ribAfter tie b l = .ok b') :
    ribAfter tie b (l ++ l') = ribAfter tie b' l' := by
  induction l generalizing b with
  | nil => rw [← Except.ok.inj h]; rfl
  | cons x l ih =>
    obtain ⟨u, o⟩ := x
    cases o with
    | false => exact ih b h
    | true =>
      rw [List.cons_append]
      rw [ribAfter] at h ⊢
      cases hp : plan tie b.table u with
      | error f => rw [hp] at h; cases h
      | ok p =>
        rw [hp] at h
        dsimp only at h ⊢
        cases hc : commit b u p.inherited with
        | error f => rw [hc] at h; cases h
        | ok b1 =>
          rw [hc] at h
          dsimp only at h ⊢
          exact ih b1 h

/-- The batches reported so far. -/
def doneBatches (s : St) : List (Update × Bool) := s.submitted.zip (s.reports.map (·.2))

/-- A batch is being processed. -/
structure Working (tie : List Route → Nat) (s : St) (b : Batch) : Prop where
  num : b.1 = s.reports.length
  sub : s.submitted[b.1]? = some b.2
  face : s.face = b.2.route.face
  plan : ∃ p, plan tie s.rib.table b.2 = .ok p ∧ s.inherited = p.inherited
  batchFace : ∀ u ∈ s.batchUpds, u.face = s.face
  otherFace : ∀ u ∈ s.otherUpds, u.face ≠ s.face
  batchNodup : s.batchUpds.Nodup
  otherNodup : s.otherUpds.Nodup
  cmds : ∀ c ∈ s.inflight, c.batch = b
  tries : ∀ c ∈ s.inflight, c.tries ≤ 10
  perm : (s.inflight.map (·.upd)).Perm (if s.batchUpds = [] then s.otherUpds else s.batchUpds)
  some : s.inflight ≠ []

structure Inv (tie : List Route → Nat) (s : St) : Prop where
  order : s.reports.map (·.1) = List.range s.reports.length
  queue : s.queue = number (s.reports.length + (if s.busy then 1 else 0)) (s.submitted.drop (s.reports.length + (if s.busy then 1 else 0)))
  count : s.reports.length + (if s.busy then 1 else 0) ≤ s.submitted.length
  rib : ribAfter tie Rib.init (doneBatches s) = .ok s.rib
  idle : s.busy = false → s.queue = [] ∧ s.inflight = []
  work : s.busy = true → ∃ b, Working tie s b

theorem number_append (k : Nat) (l l' : List Update) : number k (l ++ l') = number k l ++ number (k + l.length) l' := by
  induction l generalizing k with
  | nil => rfl
  | cons u l ih =>
    rw [List.cons_append, number, number, ih, List.cons_append, List.length_cons, show k + 1 + l.length = k + (l.length + 1) by omega]

theorem number_nil {k : Nat} {l : List Update} : number k l = [] ↔ l = [] := by
  cases l with
  | nil => exact ⟨fun _ => rfl, fun _ => rfl⟩
  | cons u l => exact ⟨(fun h => by cases h), (fun h => by cases h)⟩

theorem number_length (k : Nat) (l : List Update) : (number k l).length = l.length := by
  induction l generalizing k with
  | nil => rfl
  | cons u l ih => rw [number, List.length_cons, List.length_cons, ih]

/-- `plan` gives lists of different updates for the right faces. -/
theorem plan_inv {tie : List Route → Nat} {t : List Entry} {u : Update} {p : Plan} (h : plan tie t u = .ok p) :
    (∀ x ∈ p.batch, x.face = u.route.face) ∧ (∀ x ∈ p.other, x.face ≠ u.route.face) ∧ p.batch.Nodup ∧ p.other.Nodup := by
  have hn : ∀ {l : List FibUpd}, Keyed l → l.Nodup := by
    intro l hl
    refine List.Pairwise.imp ?_ hl
    intro a c hac he
    rw [he] at hac
    exact hac ⟨rfl, rfl⟩
  rw [plan_eq] at h
  cases hE : emits tie t u with
  | error f => rw [hE] at h; cases h
  | ok E =>
    rw [hE] at h
    have h : (if u.action = .removeFace then { planOf u.route.face E with batch := [] } else planOf u.route.face E) = p := Except.ok.inj h
    have hi := planOf_inv u.route.face E
    by_cases ha : u.action = .removeFace
    · rw [if_pos ha] at h
      rw [← h]
      exact ⟨(fun _ h => by cases h), hi.otherFace, List.nodup_nil, hn hi.otherKeyed⟩
    · rw [if_neg ha] at h
      rw [← h]
      exact ⟨hi.batchFace, hi.otherFace, hn hi.batchKeyed, hn hi.otherKeyed⟩

/-- What holds between batches. -/
structure Between (tie : List Route → Nat) (s : St) : Prop where
  order : s.reports.map (·.1) = List.range s.reports.length
  queue : s.queue = number s.reports.length (s.submitted.drop s.reports.length)
  count : s.reports.length ≤ s.submitted.length
  rib : ribAfter tie Rib.init (doneBatches s) = .ok s.rib
  idle : s.busy = false
  inflight : s.inflight = []

theorem zip_concat {α β : Type} {l : List α} {m : List β} {x : α} {y : β} (h : l[m.length]? = some x) :
    l.zip (m ++ [y]) = l.zip m ++ [(x, y)] := by
  induction m generalizing l with
  | nil =>
    cases l with
    | nil => cases h
    | cons a l => simp at h; simp [h]
  | cons b m ih =>
    cases l with
    | nil => cases h
    | cons a l =>
      simp only [List.length_cons, List.getElem?_cons_succ] at h
      rw [List.cons_append, List.zip_cons_cons, List.zip_cons_cons, ih h, List.cons_append]

/-- The end of a batch. -/
theorem between_of_done {tie : List Route → Nat} {s s' : St} {b : Batch} {o : Bool} (horder : s.reports.map (·.1) = List.range s.reports.length)
    (hq : s.queue = number (s.reports.length + 1) (s.submitted.drop (s.reports.length + 1))) (hc : s.reports.length + 1 ≤ s.submitted.length)
    (hrib : ribAfter tie Rib.init (doneBatches s) = .ok s.rib) (hnum : b.1 = s.reports.length) (hsub : s.submitted[b.1]? = some b.2)
    (hp : o = true → ∃ p, plan tie s.rib.table b.2 = .ok p ∧ commit s.rib b.2 p.inherited = .ok s'.rib) (hf : o = false → s'.rib = s.rib)
    (h1 : s'.queue = s.queue) (h2 : s'.submitted = s.submitted) (h3 : s'.reports = s.reports ++ [(b.1, o)]) (h4 : s'.busy = false) (h5 : s'.inflight = []) :
    Between tie s' := by
  have hl : s'.reports.length = s.reports.length + 1 := by rw [h3]; simp
  refine ⟨?_, ?_, ?_, ?_, h4, h5⟩
  · rw [hl, h3, List.map_append, horder, List.range_succ, hnum]; rfl
  · rw [h1, hl, h2]; exact hq
  · rw [hl, h2]; exact hc
  · have hd : doneBatches s' = doneBatches s ++ [(b.2, o)] := by
      unfold doneBatches
      rw [h2, h3, List.map_append]
      refine zip_concat ?_
      rw [List.length_map, ← hnum]; exact hsub
    rw [hd, ribAfter_append _ _ _ _ _ hrib]
    cases o with
    | false => rw [hf rfl]; rfl
    | true =>
      obtain ⟨p, hp1, hp2⟩ := hp rfl
      unfold ribAfter
      rw [hp1]
      dsimp only
      rw [hp2]
      rfl

theorem drop_cons {α : Type} {l : List α} {k : Nat} {x : α} {r : List α} (h : l.drop k = x :: r) : l[k]? = some x ∧ l.drop (k + 1) = r := by
  constructor
  · have : (l.drop k)[0]? = some x := by rw [h]; rfl
    rw [List.getElem?_drop] at this
    simpa using this
  · have : (l.drop k).drop 1 = r := by rw [h]; rfl
    rwa [List.drop_drop] at this

/-- Start of a batch that needs commands. -/
theorem start_inv {tie : List Route → Nat} {s : St} (h : Between tie s) {b : Batch} {q : List Batch} (hq : s.queue = b :: q) {p : Plan}
    (hp : plan tie s.rib.table b.2 = .ok p) {l : List FibUpd} (hl : l ≠ []) (hl' : l = if p.batch = [] then p.other else p.batch) :
    Inv tie (send { s with busy := true, queue := q, face := b.2.route.face, batchUpds := p.batch, otherUpds := p.other, inherited := p.inherited } b l) := by
  have hq' := h.queue
  rw [hq] at hq'
  obtain ⟨p1, p2, p3, p4⟩ := plan_inv hp
  cases hd : s.submitted.drop s.reports.length with
  | nil => rw [hd] at hq'; cases hq'
  | cons u r =>
    rw [hd] at hq'
    obtain ⟨d1, d2⟩ := drop_cons hd
    have hb : b = (s.reports.length, u) := (List.cons.inj hq').1
    have hqr : q = number (s.reports.length + 1) r := (List.cons.inj hq').2
    refine ⟨h.order, ?_, ?_, h.rib, (fun hc => by cases hc), fun _ => ⟨b, ?_⟩⟩
    · show q = number (s.reports.length + 1) (s.submitted.drop (s.reports.length + 1))
      rw [d2]; exact hqr
    · show s.reports.length + 1 ≤ s.submitted.length
      have := (List.getElem?_eq_some_iff.1 d1).1
      omega
    · have hif : s.inflight = [] := h.inflight
      have hmem : ∀ c ∈ (send { s with busy := true, queue := q, face := b.2.route.face, batchUpds := p.batch, otherUpds := p.other, inherited := p.inherited } b l).inflight,
          c.batch = b ∧ c.tries = 0 := by
        intro c hc
        unfold send at hc
        rw [hif] at hc
        simp only [List.nil_append, List.mem_map] at hc
        obtain ⟨x, _, rfl⟩ := hc
        exact ⟨rfl, rfl⟩
      refine ⟨by rw [hb]; rfl, ?_, rfl, ⟨p, hp, rfl⟩, p1, p2, p3, p4, fun c hc => (hmem c hc).1, fun c hc => by rw [(hmem c hc).2]; omega, ?_, ?_⟩
      · rw [hb]; exact d1
      · unfold send
        rw [hif]
        dsimp only
        rw [List.nil_append, List.map_map, ← hl']
        have : ((fun x : Cmd => x.upd) ∘ fun u => (⟨u, u.adding, b, 0⟩ : Cmd)) = id := rfl
        rw [this, List.map_id]
      · unfold send
        rw [hif]
        dsimp only
        rw [List.nil_append]
        intro hc
        exact hl (List.map_eq_nil_iff.1 hc)

theorem next_inv {tie : List Route → Nat} (k : Nat) {s s' : St} (h : Between tie s) (hk : s.queue.length < k) (hr : next tie k s = .ok s') :
    Inv tie s' ∧ s'.submitted = s.submitted ∧ s.reports.length ≤ s'.reports.length := by
  induction k generalizing s with
  | zero => omega
  | succ k ih =>
    unfold next at hr
    rw [if_neg (by rw [h.idle]; exact Bool.false_ne_true)] at hr
    cases hq : s.queue with
    | nil =>
      rw [hq] at hr
      rw [← Except.ok.inj hr]
      have hnil := h.queue
      rw [hq] at hnil
      have hnil := number_nil.1 hnil.symm
      have hidle := h.idle
      refine ⟨⟨h.order, ?_, ?_, h.rib, fun _ => ⟨hq, h.inflight⟩, (fun hc => by rw [hidle] at hc; cases hc)⟩, rfl, Nat.le_refl _⟩
      · rw [hidle]; exact h.queue
      · rw [hidle]; exact h.count
    | cons b q =>
      rw [hq] at hr
      dsimp only at hr
      cases hp : plan tie s.rib.table b.2 with
      | error f => rw [hp] at hr; cases hr
      | ok p =>
        rw [hp] at hr
        dsimp only at hr
        by_cases h1 : p.batch ≠ []
        · rw [if_pos h1] at hr
          rw [← Except.ok.inj hr]
          exact ⟨start_inv h hq hp h1 (by rw [if_neg h1]), rfl, Nat.le_refl _⟩
        · rw [if_neg h1] at hr
          by_cases h2 : p.other ≠ []
          · rw [if_pos h2] at hr
            rw [← Except.ok.inj hr]
            exact ⟨start_inv h hq hp h2 (by rw [if_pos (Decidable.not_not.1 h1)]), rfl, Nat.le_refl _⟩
          · rw [if_neg h2] at hr
            unfold succeed at hr
            dsimp only at hr
            cases hc : commit s.rib b.2 p.inherited with
            | error f => rw [hc] at hr; cases hr
            | ok r =>
              rw [hc] at hr
              dsimp only at hr
              have hq' := h.queue
              rw [hq] at hq'
              cases hd : s.submitted.drop s.reports.length with
              | nil => rw [hd] at hq'; cases hq'
              | cons u rest =>
                rw [hd] at hq'
                obtain ⟨d1, d2⟩ := drop_cons hd
                have hb : b = (s.reports.length, u) := (List.cons.inj hq').1
                have hqr : q = number (s.reports.length + 1) rest := (List.cons.inj hq').2
                have hlen := (List.getElem?_eq_some_iff.1 d1).1
                have hbt := between_of_done (tie := tie) (s := { s with queue := q })
                  (s' := { s with rib := r, busy := false, queue := q, face := b.2.route.face, batchUpds := p.batch, otherUpds := p.other, inherited := p.inherited, reports := s.reports ++ [(b.1, true)] }) (b := b) (o := true)
                  h.order (by rw [d2]; exact hqr) (by show s.reports.length + 1 ≤ s.submitted.length; omega) h.rib (by rw [hb]) (by rw [hb]; exact d1) (fun _ => ⟨p, hp, hc⟩) (fun hc => by cases hc) rfl rfl rfl rfl h.inflight
                obtain ⟨r1, r2, r3⟩ := ih hbt (by rw [hq] at hk; simp only [List.length_cons] at hk; dsimp only; omega) hr
                refine ⟨r1, r2, Nat.le_trans ?_ r3⟩
                simp

theorem sendBatch_inv {tie : List Route → Nat} {s s' : St} (h : Between tie s) (hr : sendBatchFromQueue tie s = .ok s') :
    Inv tie s' ∧ s'.submitted = s.submitted ∧ s.reports.length ≤ s'.reports.length := next_inv _ h (Nat.lt_succ_self _) hr

theorem Inv.init (tie : List Route → Nat) : Inv tie init :=
  ⟨rfl, rfl, Nat.le_refl _, rfl, fun _ => ⟨rfl, rfl⟩, fun h => by cases h⟩

/-- How much is left of the batch being processed: commands may still be sent, and repeated. -/
def weight (s : St) : Nat := (s.inflight.map (fun c => 11 - c.tries)).sum + if s.batchUpds = [] then 0 else 11 * s.otherUpds.length

theorem sum_eraseIdx {l : List Cmd} {i : Nat} {c : Cmd} (h : l[i]? = some c) (g : Cmd → Nat) : (l.map g).sum = g c + ((l.eraseIdx i).map g).sum := by
  induction l generalizing i with
  | nil => cases h
  | cons x l ih =>
    cases i with
    | zero =>
      have : x = c := by simpa using h
      simp [this]
    | succ i =>
      have h : l[i]? = some c := by simpa using h
      rw [List.eraseIdx_cons_succ, List.map_cons, List.map_cons, List.sum_cons, List.sum_cons, ih h]
      omega

theorem perm_eraseIdx {l : List Cmd} {i : Nat} {c : Cmd} (h : l[i]? = some c) : (c :: l.eraseIdx i).Perm l := by
  obtain ⟨hi, hc⟩ := List.getElem?_eq_some_iff.1 h
  rw [← hc]
  exact List.getElem_cons_eraseIdx_perm hi

/-- A command is done: the update is no longer in the list. -/
theorem perm_done {l : List Cmd} {i : Nat} {c : Cmd} (h : l[i]? = some c) {L : List FibUpd} (hp : (l.map (·.upd)).Perm L) (hn : L.Nodup) :
    ((l.eraseIdx i).map (·.upd)).Perm (L.filter (· ≠ c.upd)) := by
  have h1 : (c.upd :: (l.eraseIdx i).map (·.upd)).Perm L := ((perm_eraseIdx h).map (fun x : Cmd => x.upd)).trans hp
  have h2 := h1.filter (· ≠ c.upd)
  have h3 : (c.upd :: (l.eraseIdx i).map (·.upd)).Nodup := h1.nodup_iff.2 hn
  rw [List.filter_cons_of_neg (by simp)] at h2
  rw [List.filter_eq_self.2] at h2
  · exact h2
  · intro x hx
    have := (List.nodup_cons.1 h3).1
    simp only [ne_eq, decide_not, Bool.not_eq_true', decide_eq_false_iff_not]
    intro he
    rw [he] at hx
    exact this hx

theorem perm_eq_nil {l : List Cmd} {L : List FibUpd} (hp : (l.map (·.upd)).Perm L) : l = [] ↔ L = [] := by
  constructor
  · intro h; rw [h] at hp; exact hp.symm.eq_nil
  · intro h; rw [h] at hp; exact List.map_eq_nil_iff.1 hp.eq_nil

/-- A batch is not refused while it has other commands in flight. -/
def Clean (s : St) : Event → Prop
  | .reply i .faceNotFound => ∀ c, s.inflight[i]? = some c → c.upd.face = c.batch.2.route.face → s.inflight.length = 1
  | _ => True

theorem length_filter_mem {L : List FibUpd} {u : FibUpd} (h : u ∈ L) : (L.filter (· ≠ u)).length < L.length := by
  induction L with
  | nil => cases h
  | cons x L ih =>
    by_cases hx : x = u
    · rw [List.filter_cons_of_neg (by simp [hx])]
      exact Nat.lt_succ_of_le (List.length_filter_le _ _)
    · rw [List.filter_cons_of_pos (by simp [hx])]
      rcases List.mem_cons.1 h with h | h
      · exact absurd h.symm hx
      · have := ih h
        simp only [List.length_cons]
        omega

/-- The batch goes on, or the next one begins. -/
def Advance (s s' : St) : Prop := s.reports.length < s'.reports.length ∨ (s'.reports = s.reports ∧ weight s' < weight s)

theorem finish_inv {tie : List Route → Nat} {s s' : St} {b : Batch} (h1 : s.reports.map (·.1) = List.range s.reports.length)
    (h2 : s.queue = number (s.reports.length + 1) (s.submitted.drop (s.reports.length + 1))) (h3 : s.reports.length + 1 ≤ s.submitted.length)
    (h4 : ribAfter tie Rib.init (doneBatches s) = .ok s.rib) (h5 : b.1 = s.reports.length) (h6 : s.submitted[b.1]? = some b.2)
    (h7 : ∃ p, plan tie s.rib.table b.2 = .ok p ∧ s.inherited = p.inherited) (h8 : s.inflight = []) (hr : finish tie s b = .ok s') :
    Inv tie s' ∧ s'.submitted = s.submitted ∧ s.reports.length < s'.reports.length := by
  unfold finish succeed at hr
  obtain ⟨p, hp1, hp2⟩ := h7
  rw [hp2] at hr
  cases hc : commit s.rib b.2 p.inherited with
  | error f => rw [hc] at hr; cases hr
  | ok r =>
    rw [hc] at hr
    dsimp only at hr
    have hb := between_of_done (tie := tie) (s := s) (s' := { s with rib := r, busy := false, inherited := p.inherited, reports := s.reports ++ [(b.1, true)] }) (b := b) (o := true)
      h1 h2 h3 h4 h5 h6 (fun _ => ⟨p, hp1, hc⟩) (fun hc => by cases hc) rfl rfl rfl rfl h8
    obtain ⟨r1, r2, r3⟩ := sendBatch_inv hb hr
    refine ⟨r1, r2, Nat.lt_of_lt_of_le ?_ r3⟩
    simp

theorem reply_inv {tie : List Route → Nat} {s s' : St} (h : Inv tie s) {i : Nat} {code : Code} (hcl : Clean s (.reply i code)) {c : Cmd} (hi : s.inflight[i]? = some c)
    (hr : step tie s (.reply i code) = .ok s') : Inv tie s' ∧ s'.submitted = s.submitted ∧ Advance s s' := by
  have hbusy : s.busy = true := by
    cases hb : s.busy with
    | true => rfl
    | false => rw [(h.idle hb).2] at hi; cases hi
  obtain ⟨b, hw⟩ := h.work hbusy
  have horder := h.order
  have hqueue := h.queue
  have hcount := h.count
  rw [hbusy] at hqueue hcount
  simp only [if_true] at hqueue hcount
  have hcm : c ∈ s.inflight := List.mem_of_getElem? hi
  have hcb : c.batch = b := hw.cmds c hcm
  have hct := hw.tries c hcm
  have hsum := sum_eraseIdx hi (fun c => 11 - c.tries)
  have hsub : ∀ x ∈ s.inflight.eraseIdx i, x ∈ s.inflight := fun x hx => List.mem_of_mem_eraseIdx hx
  simp only [step, hi] at hr
  -- an update for another face is done
  have hother : c.upd.face ≠ s.face → otherDone tie { s with inflight := s.inflight.eraseIdx i } c = .ok s' → Inv tie s' ∧ s'.submitted = s.submitted ∧ Advance s s' := by
    intro hf hr
    have hbn : s.batchUpds = [] := by
      apply Decidable.byContradiction
      intro hne
      have hp := hw.perm
      rw [if_neg hne] at hp
      exact hf (hw.batchFace _ (hp.mem_iff.1 (List.mem_map.2 ⟨c, hcm, rfl⟩)))
    have hp := hw.perm
    rw [if_pos hbn] at hp
    have hp' := perm_done hi hp hw.otherNodup
    unfold otherDone at hr
    dsimp only at hr
    by_cases hnil : s.otherUpds.filter (· ≠ c.upd) = []
    · rw [if_pos hnil] at hr
      rw [hnil] at hp'
      have hin : s.inflight.eraseIdx i = [] := (perm_eq_nil hp').2 rfl
      obtain ⟨r1, r2, r3⟩ := finish_inv (s := { s with inflight := s.inflight.eraseIdx i, otherUpds := s.otherUpds.filter (· ≠ c.upd) }) (b := c.batch)
        horder hqueue hcount h.rib (by rw [hcb]; exact hw.num) (by rw [hcb]; exact hw.sub) (by rw [hcb]; exact hw.plan) hin hr
      exact ⟨r1, r2, .inl r3⟩
    · rw [if_neg hnil] at hr
      rw [← Except.ok.inj hr]
      refine ⟨⟨horder, ?_, ?_, h.rib, (fun hc => by rw [hbusy] at hc; cases hc), fun _ => ⟨b, hw.num, hw.sub, hw.face, hw.plan, hw.batchFace,
        fun u hu => hw.otherFace u (List.mem_filter.1 hu).1, hw.batchNodup, List.Pairwise.filter _ hw.otherNodup,
        fun x hx => hw.cmds x (hsub x hx), fun x hx => hw.tries x (hsub x hx), ?_, ?_⟩⟩, rfl, .inr ⟨rfl, ?_⟩⟩
      · dsimp only; rw [hbusy]; exact hqueue
      · dsimp only; rw [hbusy]; exact hcount
      · dsimp only; rw [if_pos hbn]; exact hp'
      · exact fun hc => hnil ((perm_eq_nil hp').1 hc)
      · unfold weight
        dsimp only
        rw [if_pos hbn, if_pos hbn, hsum]
        omega
  cases code with
  | other => cases hr
  | timeout =>
    unfold answer at hr
    dsimp only at hr
    by_cases ht : c.tries < 10
    · rw [if_pos ht] at hr
      rw [← Except.ok.inj hr]
      refine ⟨⟨horder, ?_, ?_, h.rib, (fun hc => by rw [hbusy] at hc; cases hc), fun _ => ⟨b, hw.num, hw.sub, hw.face, hw.plan, hw.batchFace, hw.otherFace, hw.batchNodup,
        hw.otherNodup, fun x hx => ?_, fun x hx => ?_, ?_, ?_⟩⟩, rfl, .inr ⟨rfl, ?_⟩⟩
      · dsimp only; rw [hbusy]; exact hqueue
      · dsimp only; rw [hbusy]; exact hcount
      · rcases List.mem_append.1 hx with hx | hx
        · exact hw.cmds x (hsub x hx)
        · rw [List.mem_singleton.1 hx]; exact hcb
      · rcases List.mem_append.1 hx with hx | hx
        · exact hw.tries x (hsub x hx)
        · rw [List.mem_singleton.1 hx]; exact ht
      · refine List.Perm.trans ?_ hw.perm
        dsimp only
        rw [List.map_append]
        refine List.Perm.trans List.perm_append_comm ?_
        exact (perm_eraseIdx hi).map (fun x : Cmd => x.upd)
      · dsimp only
        simp
      · unfold weight
        dsimp only
        rw [hsum, List.map_append, List.sum_append]
        simp only [List.map_cons, List.map_nil, List.sum_cons, List.sum_nil]
        omega
    · rw [if_neg ht] at hr; cases hr
  | faceNotFound =>
    unfold answer at hr
    dsimp only at hr
    by_cases hf : c.upd.face = s.face
    · rw [if_pos hf] at hr
      have h1 := hcl c hi (by rw [hcb, ← hw.face]; exact hf)
      have hin : s.inflight.eraseIdx i = [] := by
        rw [← List.length_eq_zero_iff, List.length_eraseIdx_of_lt (List.getElem?_eq_some_iff.1 hi).1]
        omega
      have hb := between_of_done (tie := tie) (s := s) (s' := fail { s with inflight := s.inflight.eraseIdx i } c.batch) (b := b) (o := false)
        horder hqueue hcount h.rib hw.num hw.sub (fun hc => by cases hc) (fun _ => rfl) rfl rfl (by rw [hcb]; rfl) rfl hin
      obtain ⟨r1, r2, r3⟩ := sendBatch_inv hb hr
      refine ⟨r1, r2, .inl (Nat.lt_of_lt_of_le ?_ r3)⟩
      simp [fail]
    · rw [if_neg hf] at hr
      exact hother hf hr
  | ok =>
    unfold answer at hr
    dsimp only at hr
    by_cases hf : c.upd.face = s.face
    · rw [if_pos hf] at hr
      have hbn : s.batchUpds ≠ [] := by
        intro hne
        have hp := hw.perm
        rw [if_pos hne] at hp
        exact hw.otherFace _ (hp.mem_iff.1 (List.mem_map.2 ⟨c, hcm, rfl⟩)) hf
      have hp := hw.perm
      rw [if_neg hbn] at hp
      have hp' := perm_done hi hp hw.batchNodup
      by_cases hnil : s.batchUpds.filter (· ≠ c.upd) = []
      · rw [if_pos hnil] at hr
        rw [hnil] at hp'
        have hin : s.inflight.eraseIdx i = [] := (perm_eq_nil hp').2 rfl
        by_cases ho : s.otherUpds ≠ []
        · rw [if_pos ho] at hr
          rw [← Except.ok.inj hr]
          have hmem : ∀ x ∈ (send { s with inflight := s.inflight.eraseIdx i, batchUpds := s.batchUpds.filter (· ≠ c.upd) } c.batch s.otherUpds).inflight,
              x.batch = b ∧ x.tries = 0 := by
            intro x hx
            unfold send at hx
            rw [hin] at hx
            simp only [List.nil_append, List.mem_map] at hx
            obtain ⟨y, _, rfl⟩ := hx
            exact ⟨hcb, rfl⟩
          refine ⟨⟨horder, ?_, ?_, h.rib, (fun hc => by dsimp only [send] at hc; rw [hbusy] at hc; cases hc), fun _ => ⟨b, hw.num, hw.sub, hw.face, hw.plan,
            fun u hu => hw.batchFace u (List.mem_filter.1 hu).1, hw.otherFace, List.Pairwise.filter _ hw.batchNodup, hw.otherNodup,
            fun x hx => (hmem x hx).1, fun x hx => by rw [(hmem x hx).2]; omega, ?_, ?_⟩⟩, rfl, .inr ⟨rfl, ?_⟩⟩
          · dsimp only [send]; rw [hbusy]; exact hqueue
          · dsimp only [send]; rw [hbusy]; exact hcount
          · dsimp only [send]
            simp only [hnil, if_true]
            rw [hin, List.nil_append, List.map_map]
            have : ((fun x : Cmd => x.upd) ∘ fun u => (⟨u, u.adding, c.batch, 0⟩ : Cmd)) = id := rfl
            rw [this, List.map_id]
          · dsimp only [send]
            rw [hin, List.nil_append]
            exact fun hc => ho (List.map_eq_nil_iff.1 hc)
          · unfold weight
            dsimp only [send]
            simp only [hnil, if_true]
            rw [if_neg hbn, hsum, hin, List.nil_append, List.map_map]
            have : ((fun c : Cmd => 11 - c.tries) ∘ fun u => (⟨u, u.adding, c.batch, 0⟩ : Cmd)) = fun _ => 11 := rfl
            rw [this, List.map_const', List.sum_replicate_nat]
            simp only [List.map_nil, List.sum_nil]
            rw [Nat.mul_comm]
            omega
        · rw [if_neg ho] at hr
          obtain ⟨r1, r2, r3⟩ := finish_inv (s := { s with inflight := s.inflight.eraseIdx i, batchUpds := s.batchUpds.filter (· ≠ c.upd) }) (b := c.batch)
            horder hqueue hcount h.rib (by rw [hcb]; exact hw.num) (by rw [hcb]; exact hw.sub) (by rw [hcb]; exact hw.plan) hin hr
          exact ⟨r1, r2, .inl r3⟩
      · rw [if_neg hnil] at hr
        rw [← Except.ok.inj hr]
        refine ⟨⟨horder, ?_, ?_, h.rib, (fun hc => by rw [hbusy] at hc; cases hc), fun _ => ⟨b, hw.num, hw.sub, hw.face, hw.plan,
          fun u hu => hw.batchFace u (List.mem_filter.1 hu).1, hw.otherFace, List.Pairwise.filter _ hw.batchNodup, hw.otherNodup,
          fun x hx => hw.cmds x (hsub x hx), fun x hx => hw.tries x (hsub x hx), ?_, ?_⟩⟩, rfl, .inr ⟨rfl, ?_⟩⟩
        · dsimp only; rw [hbusy]; exact hqueue
        · dsimp only; rw [hbusy]; exact hcount
        · dsimp only; rw [if_neg hnil]; exact hp'
        · exact fun hc => hnil ((perm_eq_nil hp').1 hc)
        · unfold weight
          dsimp only
          rw [if_neg hbn, if_neg hnil, hsum]
          omega
    · rw [if_neg hf] at hr
      exact hother hf hr

theorem submit_inv {tie : List Route → Nat} {s s' : St} (h : Inv tie s) {us : List Update} (hr : step tie s (.submit us) = .ok s') :
    Inv tie s' ∧ s'.submitted = s.submitted ++ us ∧ s.reports.length ≤ s'.reports.length := by
  have hzip : ∀ (l l' : List Update) (m : List Bool), m.length ≤ l.length → (l ++ l').zip m = l.zip m := by
    intro l l' m hl
    induction l generalizing m with
    | nil => cases m with
      | nil => simp
      | cons x m => simp at hl
    | cons a l ih =>
      cases m with
      | nil => simp
      | cons x m => rw [List.cons_append, List.zip_cons_cons, List.zip_cons_cons, ih m (by simpa using hl)]
  have hrib : ribAfter tie Rib.init (doneBatches { s with queue := s.queue ++ number s.submitted.length us, submitted := s.submitted ++ us }) = .ok s.rib := by
    unfold doneBatches
    dsimp only
    rw [hzip _ _ _ (by rw [List.length_map]; have := h.count; omega)]
    exact h.rib
  have hqueue : ∀ k, k ≤ s.submitted.length → s.queue = number k (s.submitted.drop k) →
      s.queue ++ number s.submitted.length us = number k ((s.submitted ++ us).drop k) := by
    intro k hk hq
    rw [List.drop_append_of_le_length hk, number_append, ← hq, List.length_drop, show k + (s.submitted.length - k) = s.submitted.length by omega]
  cases hb : s.busy with
  | true =>
    unfold step sendBatchFromQueue next at hr
    dsimp only at hr
    rw [if_pos hb] at hr
    rw [← Except.ok.inj hr]
    have h1 := h.queue
    have h2 := h.count
    rw [hb] at h1 h2
    refine ⟨⟨h.order, ?_, ?_, hrib, (fun hc => by rw [hb] at hc; cases hc), fun _ => ?_⟩, rfl, Nat.le_refl _⟩
    · dsimp only; rw [hb]; exact hqueue _ h2 h1
    · dsimp only; rw [hb, List.length_append]; exact Nat.le_trans h2 (Nat.le_add_right _ _)
    · obtain ⟨b, hw⟩ := h.work hb
      refine ⟨b, hw.num, ?_, hw.face, hw.plan, hw.batchFace, hw.otherFace, hw.batchNodup, hw.otherNodup, hw.cmds, hw.tries, hw.perm, hw.some⟩
      dsimp only
      rw [List.getElem?_append_left (List.getElem?_eq_some_iff.1 hw.sub).1]
      exact hw.sub
  | false =>
    have h1 := h.queue
    have h2 := h.count
    rw [hb] at h1 h2
    have hbt : Between tie { s with queue := s.queue ++ number s.submitted.length us, submitted := s.submitted ++ us } :=
      ⟨h.order, hqueue _ h2 h1, (by dsimp only; rw [List.length_append]; exact Nat.le_trans h2 (Nat.le_add_right _ _)), hrib, hb, (h.idle hb).2⟩
    exact sendBatch_inv hbt hr

/-- All events are clean where they happen. -/
def CleanRun (tie : List Route → Nat) : St → List Event → Prop
  | _, [] => True
  | s, e :: l =>
    Clean s e ∧
    match step tie s e with
    | .error _ => True
    | .ok s => CleanRun tie s l

theorem run_inv {tie : List Route → Nat} {s s' : St} (h : Inv tie s) {es : List Event} (hc : CleanRun tie s es) (hr : run tie s es = .ok s') : Inv tie s' := by
  induction es generalizing s with
  | nil => rw [← Except.ok.inj hr]; exact h
  | cons e l ih =>
    obtain ⟨hc1, hc2⟩ := hc
    unfold run at hr
    cases hs : step tie s e with
    | error f => rw [hs] at hr; cases hr
    | ok s1 =>
      rw [hs] at hr hc2
      refine ih ?_ hc2 hr
      cases e with
      | submit us => exact (submit_inv h hs).1
      | reply i code =>
        cases hi : s.inflight[i]? with
        | none =>
          simp only [step, hi] at hs
          rw [← Except.ok.inj hs]
          exact h
        | some c => exact (reply_inv h hc1 hi hs).1

end Verif.Rib.Async
