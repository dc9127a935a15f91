import Verif.Fw.Lemmas
import Verif.Dnl.Props

/-
Every event decomposes into primitive updates (`Prim`).
-/
namespace Verif.Fw

open Tb (FaceId Time FwInterest InRec OutRec PitEntry NextHop)

/-- The counters that count packets out and finalized Interests. -/
def Counters.outs (c : Counters) : Nat × Nat × Nat × Nat × Nat :=
  (c.nOutInterests, c.nOutData, c.nOutNacks, c.nSatisfied, c.nUnsatisfied)

/-- Primitive updates. `Q` is what is known about the actions of the strategy, `R` about Interests recorded as pending. -/
inductive Prim (env : Env) (Q : (FaceId → Option FaceInfo) → Action → Prop) (R : FwInterest → FaceId → Prop) : St → St → Prop
  | aux (s : St) (cs : Cs.Cs) (dnl : Dnl.Dnl) (ctr : Counters) (calls : List Trigger) (cfg : Config)
      (h : ctr.outs = s.ctr.outs) (hdnl : Dnl.CapOk s.dnl → Dnl.CapOk dnl) : Prim env Q R s { s with cs := cs, dnl := dnl, ctr := ctr, calls := calls, cfg := cfg }
  | interest (s : St) (u : Nat) (i : FwInterest) (g : FaceId)
      (h : Q s.faces (.sendInterest u i g) ∨ i.nextHop = some g) : Prim env Q R s (onOutgoingInterest s u i g)
  | data (s : St) (d : Data) (g : FaceId) : Prim env Q R s (onOutgoingData s d g)
  | nack (s : St) (u r : Nat) (g : FaceId) : Prim env Q R s (onOutgoingNack s u r g)
  | nackPkt (s : St) (i : FwInterest) (r : Nat) (g : FaceId) (h : Q s.faces (.sendNackPacket i r g)) :
      Prim env Q R s (sendNackPacket s i r g)
  | timer (s : St) (u ms : Nat) : Prim env Q R s (setExpiryTimer s u ms)
  | record (s : St) (i : FwInterest) (f : FaceId) (fi : FaceInfo) (hr : R i f) (hf : s.faces f = some fi)
      (hs : ¬(fi.scope = .nonLocal ∧ isLocalhost i.name = true))
      (hd : isDuplicate fi.link (findDuplicateNonce (pitInsert s i).2.1.toPitEntry i.nonce f) = false) :
      Prim env Q R s (recordInterest (pitInsert s i).1 i f (pitInsert s i).2.1.uid (pitInsert s i).2.2)
  | hit (s : St) (i : FwInterest) (d : Data) :
      Prim env Q R s (setExpiryTimer ((pitInsert s i).1.mod (pitInsert s i).2.1.uid
        (fun e => { e with satisfied := true, freshness := d.freshness })) (pitInsert s i).2.1.uid 0)
  | satisfy (s : St) (u fr : Nat) : Prim env Q R s (s.mod u (fun e => { e with satisfied := true, freshness := fr }))
  | delIn (s : St) (u : Nat) (g : FaceId) :
      Prim env Q R s (s.mod u (fun e => { e with toPitEntry := Tb.deleteIn e.toPitEntry g }))
  | delOut (s : St) (u : Nat) (g : FaceId) :
      Prim env Q R s (s.mod u (fun e => { e with toPitEntry := Tb.deleteOut e.toPitEntry g }))
  | clearOut (s : St) (u : Nat) (g : FaceId) :
      Prim env Q R s (s.mod u (fun e => { e with toPitEntry := Tb.deleteOut (Tb.clearIns e.toPitEntry) g }))
  | setNack (s : St) (u : Nat) (f : FaceId) (n k : Nat) :
      Prim env Q R s (s.mod u (fun e => { e with toPitEntry := Tb.setNack e.toPitEntry f n k }))
  | finalize (s s' : St) (t : Timer) (ht : t ∈ s.sched) (hd : t.due ≤ s.now)
      (h : onInterestFinalize env { s with sched := s.sched.filter (fun x => x.id ≠ t.id) } t.uid = some s') : Prim env Q R s s'

inductive Path (env : Env) (Q : (FaceId → Option FaceInfo) → Action → Prop) (R : FwInterest → FaceId → Prop) : St → St → Prop
  | refl (s : St) : Path env Q R s s
  | head {s s1 s2 : St} (h : Prim env Q R s s1) (hp : Path env Q R s1 s2) : Path env Q R s s2

variable {env : Env} {Q : (FaceId → Option FaceInfo) → Action → Prop} {R L : FwInterest → FaceId → Prop}

theorem Path.trans {a b c : St} (h : Path env Q R a b) (h' : Path env Q R b c) : Path env Q R a c := by
  induction h with
  | refl => exact h'
  | head p _ ih => exact .head p (ih h')

theorem Prim.path {a b : St} (h : Prim env Q R a b) : Path env Q R a b := .head h (.refl _)

/-! ### Faces, clock and configuration do not change -/

structure Frame (a b : St) : Prop where
  faces : b.faces = a.faces
  now : b.now = a.now

theorem Frame.refl (a : St) : Frame a a := ⟨rfl, rfl⟩
theorem Frame.trans {a b c : St} (h : Frame a b) (h' : Frame b c) : Frame a c := ⟨h'.faces.trans h.faces, h'.now.trans h.now⟩

theorem frame_timer (s : St) (u ms : Nat) : Frame s (setExpiryTimer s u ms) := by
  unfold setExpiryTimer; split <;> exact ⟨rfl, rfl⟩
theorem frame_interest (s : St) (u : Nat) (i : FwInterest) (g : FaceId) : Frame s (onOutgoingInterest s u i g) := by
  unfold onOutgoingInterest; split
  · split <;> exact ⟨rfl, rfl⟩
  · exact .refl s
theorem frame_data (s : St) (d : Data) (g : FaceId) : Frame s (onOutgoingData s d g) := by
  unfold onOutgoingData; split
  · exact .refl s
  · split <;> exact ⟨rfl, rfl⟩
theorem frame_nack (s : St) (u r : Nat) (g : FaceId) : Frame s (onOutgoingNack s u r g) := by
  unfold onOutgoingNack; split
  · exact .refl s
  · split
    · exact .refl s
    · split <;> exact ⟨rfl, rfl⟩
theorem frame_nackPkt (s : St) (i : FwInterest) (r : Nat) (g : FaceId) : Frame s (sendNackPacket s i r g) := by
  unfold sendNackPacket; split <;> exact ⟨rfl, rfl⟩
theorem frame_insert (s : St) (i : FwInterest) : Frame s (pitInsert s i).1 := by
  unfold pitInsert; split <;> exact ⟨rfl, rfl⟩
theorem frame_record (s : St) (i : FwInterest) (f : FaceId) (u : Nat) (b : Bool) : Frame s (recordInterest s i f u b) := by
  unfold recordInterest
  exact Frame.trans (b := s.mod u _) ⟨rfl, rfl⟩ (frame_timer _ _ _)
theorem frame_dnl (s : St) (u : Nat) (f : Option FaceId) : Frame s (insertDeadNonceList env s u f) := by
  unfold insertDeadNonceList; split
  · exact .refl s
  · split <;> exact ⟨rfl, rfl⟩

theorem Prim.frame {a b : St} (h : Prim env Q R a b) : Frame a b := by
  cases h with
  | aux => exact ⟨rfl, rfl⟩
  | interest => exact frame_interest ..
  | data => exact frame_data ..
  | nack => exact frame_nack ..
  | nackPkt => exact frame_nackPkt ..
  | timer => exact frame_timer ..
  | record i => exact (frame_insert a i).trans (frame_record ..)
  | hit i d => exact (frame_insert a i).trans (Frame.trans (b := (pitInsert a i).1.mod _ _) ⟨rfl, rfl⟩ (frame_timer _ _ _))
  | satisfy => exact ⟨rfl, rfl⟩
  | delIn => exact ⟨rfl, rfl⟩
  | delOut => exact ⟨rfl, rfl⟩
  | clearOut => exact ⟨rfl, rfl⟩
  | setNack => exact ⟨rfl, rfl⟩
  | finalize _ t ht hd h =>
    unfold onInterestFinalize at h
    split at h
    · cases h
    · cases h
      have := frame_dnl (env := env) { a with sched := a.sched.filter (fun x => x.id ≠ t.id) } t.uid none
      split <;> exact ⟨this.1, this.2⟩

theorem Path.frame {a b : St} (h : Path env Q R a b) : Frame a b := by
  induction h with
  | refl => exact .refl _
  | head p _ ih => exact p.frame.trans ih

/-! ### Strategy calls -/

theorem path_sendDataList (u : Nat) (d : Data) :
    ∀ (l : List FaceId) (s s' : St), sendDataList u d s l = some s' → Path env Q R s s'
  | [], s, s', h => by cases h; exact .refl _
  | g :: l, s, s', h => by
    simp only [sendDataList, Option.bind_eq_some_iff] at h
    obtain ⟨s1, h1, h2⟩ := h
    refine Path.trans ?_ (path_sendDataList u d l s1 s' h2)
    unfold sendData at h1
    split at h1
    · cases h1; exact .refl _
    · split at h1
      · cases h1
        exact .head (.delIn s u g) (.head (.data _ d g) (.refl _))
      · cases h1

theorem path_act {s s' : St} {a : Action} (hQ : Q s.faces a) (h : act s a = some s') : Path env Q R s s' := by
  cases a with
  | sendInterest u i g => cases h; exact (Prim.interest s u i g (Or.inl hQ)).path
  | sendData u d g =>
    apply path_sendDataList u d [g] s s'
    simp only [act] at h
    simp only [sendDataList, h, Option.bind_some]
  | sendDataToAll u d f =>
    simp only [act, sendDataToAll] at h
    split at h
    · cases h; exact .refl _
    · exact path_sendDataList u d _ s s' h
  | sendNack u r g => cases h; exact (Prim.nack s u r g).path
  | sendNackPacket i r g => cases h; exact (Prim.nackPkt s i r g hQ).path
  | setExpiryTimer u ms => cases h; exact (Prim.timer s u ms).path

theorem path_acts : ∀ (l : List Action) (s s' : St), (∀ a ∈ l, Q s.faces a) → acts s l = some s' → Path env Q R s s'
  | [], s, s', _, h => by cases h; exact .refl _
  | a :: l, s, s', hQ, h => by
    simp only [acts, Option.bind_eq_some_iff] at h
    obtain ⟨s1, h1, h2⟩ := h
    have p := path_act (env := env) (R := R) (hQ a (List.mem_cons_self ..)) h1
    refine p.trans (path_acts l s1 s' ?_ h2)
    intro b hb
    rw [p.frame.faces]
    exact hQ b (List.mem_cons_of_mem _ hb)

/-- What the pipelines guarantee about a trigger when they call a strategy: an Interest is passed on only if its face exists and
its scope is respected, and a looping Interest only if its face is point-to-point; `L` says which looping Interests there can be. -/
def TrigOk (L : FwInterest → FaceId → Prop) (faces : FaceId → Option FaceInfo) : Trigger → Prop
  | .onInterestLoop i f => L i f ∧
    ∃ fi, faces f = some fi ∧ fi.link = .p2p ∧ ¬(fi.scope = .nonLocal ∧ isLocalhost i.name = true)
  | .afterReceiveInterest i f _ => ∃ fi, faces f = some fi ∧ ¬(fi.scope = .nonLocal ∧ isLocalhost i.name = true)
  | _ => True

/-- What is known about a strategy: its actions satisfy `Q` for the faces that exist when it is called. -/
def Respects (L : FwInterest → FaceId → Prop) (Q : (FaceId → Option FaceInfo) → Action → Prop) (st : Strategy) : Prop :=
  ∀ s t, TrigOk L s.faces t → ∀ a ∈ st s t, Q s.faces a

theorem path_call {st : Strategy} (hQ : Respects L Q st) {s s' : St} {t : Trigger} (h : call st s t = some s') (ht : TrigOk L s.faces t) :
    Path env Q R s s' :=
  Path.head (.aux s s.cs s.dnl s.ctr (s.calls ++ [t]) s.cfg rfl id) (path_acts _ _ _ (hQ s t ht) h)

theorem capOk_foldl {α : Type} {f : α → Dnl.Entry} : ∀ {l : List α} {d : Dnl.Dnl}, Dnl.CapOk d →
    Dnl.CapOk (l.foldl (fun d r => d.addEntry (f r)) d)
  | [], _, h => h
  | r :: l, d, h => capOk_foldl (l := l) (d := d.addEntry (f r)) (Dnl.capOk_step h (fun _ _ => f r) (.add [] 0))

theorem dnl_cap (s : St) (u : Nat) (f : Option FaceId) :
    ∃ d, insertDeadNonceList env s u f = { s with dnl := d } ∧ (Dnl.CapOk s.dnl → Dnl.CapOk d) := by
  unfold insertDeadNonceList
  split
  · exact ⟨s.dnl, rfl, id⟩
  · split
    · exact ⟨_, rfl, capOk_foldl⟩
    · exact ⟨s.dnl, rfl, id⟩

theorem dnl_eq (s : St) (u : Nat) (f : Option FaceId) : ∃ d, insertDeadNonceList env s u f = { s with dnl := d } := by
  obtain ⟨d, h, -⟩ := dnl_cap (env := env) s u f
  exact ⟨d, h⟩

theorem path_dnl (s : St) (u : Nat) (f : Option FaceId) : Path env Q R s (insertDeadNonceList env s u f) := by
  obtain ⟨d, h, hc⟩ := dnl_cap (env := env) s u f
  rw [h]
  exact (Prim.aux s s.cs d s.ctr s.calls s.cfg rfl hc).path

/-! ### Pipelines -/

theorem pitInsert_aux (s : St) (i : FwInterest) (cs : Cs.Cs) (ctr : Counters) :
    pitInsert { s with cs := cs, ctr := ctr } i =
      ({ (pitInsert s i).1 with cs := cs, ctr := ctr }, (pitInsert s i).2) := by
  have hf : pitFind { s with cs := cs, ctr := ctr } i.toInterest = pitFind s i.toInterest := rfl
  unfold pitInsert
  rw [hf]
  cases pitFind s i.toInterest <;> rfl

theorem path_loop {st : Strategy} (hQ : Respects L Q st) {s s' : St} {i : FwInterest} {f : FaceId} {fi : FaceInfo}
    (hf : s.faces f = some fi) (hs : ¬(fi.scope = .nonLocal ∧ isLocalhost i.name = true))
    (hL : L i f) (h : onInterestLoop st s i f fi = some s') : Path env Q R s s' := by
  unfold onInterestLoop at h
  split at h
  · cases h; exact .refl _
  · rename_i hl
    exact path_call hQ h ⟨hL, fi, hf, Decidable.of_not_not hl, hs⟩

theorem insert_of_dup {s : St} {i : FwInterest} {l : Link} {f : FaceId}
    (h : isDuplicate l (findDuplicateNonce (pitInsert s i).2.1.toPitEntry i.nonce f) = true) : (pitInsert s i).1 = s := by
  unfold pitInsert at h ⊢
  split
  · rfl
  · rename_i hf
    simp only [hf, isDuplicate, findDuplicateNonce, List.any_nil] at h
    split at h <;> simp at h

theorem path_miss {st : Strategy} (hQ : Respects L Q st) {s s' : St} {i : FwInterest} {f : FaceId} {fi : FaceInfo} {cs : Cs.Cs} (hr : R i f)
    (hf : s.faces f = some fi) (hs : ¬(fi.scope = .nonLocal ∧ isLocalhost i.name = true))
    (hd : isDuplicate fi.link (findDuplicateNonce (pitInsert s i).2.1.toPitEntry i.nonce f) = false)
    (h : onContentStoreMiss st { (pitInsert s i).1 with cs := cs } i f (pitInsert s i).2.1.uid (pitInsert s i).2.2 = some s') :
    Path env Q R s s' := by
  unfold onContentStoreMiss at h
  simp only at h
  have hctr : (pitInsert s i).1.ctr = s.ctr := by unfold pitInsert; split <;> rfl
  refine Path.head (.aux s cs s.dnl { s.ctr with nCsMisses := s.ctr.nCsMisses + 1 } s.calls s.cfg rfl id) ?_
  have hp := pitInsert_aux s i cs { s.ctr with nCsMisses := s.ctr.nCsMisses + 1 }
  have hr := Prim.record (env := env) (Q := Q) (R := R)
    { s with cs := cs, ctr := { s.ctr with nCsMisses := s.ctr.nCsMisses + 1 } } i f fi hr hf hs
    (by rw [hp]; exact hd)
  rw [hp] at hr
  rw [hctr] at h
  refine Path.head hr ?_
  split at h
  · rename_i g hg
    split at h
    · cases h; exact (Prim.interest _ _ _ g (Or.inr hg)).path
    · cases h; exact .refl _
  · refine path_call hQ h ⟨fi, ?_, ?_⟩
    · rw [(frame_record ..).faces]
      show (pitInsert s i).1.faces f = some fi
      rw [(frame_insert s i).faces]
      exact hf
    · have : ∀ c, (addHop c i).name = i.name := by intro c; unfold addHop; split <;> rfl
      rw [this]
      exact hs

theorem path_lookup {st : Strategy} (hQ : Respects L Q st) {s s' : St} {i : FwInterest} {f : FaceId} {fi : FaceInfo} (hr : R i f)
    (hf : s.faces f = some fi) (hs : ¬(fi.scope = .nonLocal ∧ isLocalhost i.name = true))
    (hL : L i f) (h : lookupInterest st s i f fi = some s') : Path env Q R s s' := by
  unfold lookupInterest at h
  simp only at h
  split at h
  · rename_i hd
    rw [insert_of_dup hd] at h
    exact path_loop hQ hf hs hL h
  · rename_i hd
    have hd := eq_false_of_ne_true hd
    split at h
    · rw [Option.bind_eq_some_iff] at h
      obtain ⟨c, hc, h⟩ := h
      split at h
      · rename_i d _
        unfold onContentStoreHit at h
        simp only at h
        have hctr : (pitInsert s i).1.ctr = s.ctr := by unfold pitInsert; split <;> rfl
        rw [hctr] at h
        refine Path.head (.aux s c.1 s.dnl { s.ctr with nCsHits := s.ctr.nCsHits + 1 } s.calls s.cfg rfl id) ?_
        have hp := pitInsert_aux s i c.1 { s.ctr with nCsHits := s.ctr.nCsHits + 1 }
        have hh := Prim.hit (env := env) (Q := Q) (R := R) { s with cs := c.1, ctr := { s.ctr with nCsHits := s.ctr.nCsHits + 1 } } i d
        rw [hp] at hh
        exact Path.head hh (path_call hQ h trivial)
      · exact path_miss hQ hr hf hs hd h
    · exact path_miss (cs := (pitInsert s i).1.cs) hQ hr hf hs hd h

theorem path_incomingInterest {st : Strategy} (hQ : Respects L Q st) {s s' : St} {i : FwInterest} {f : FaceId}
    (hr : i.hopLimit ≠ some 0 → ∀ c, R (stripHint c (decHop i)) f) (hL : L (decHop i) f ∧ ∀ c, L (stripHint c (decHop i)) f)
    (h : onIncomingInterest env st s i f = some s') : Path env Q R s s' := by
  unfold onIncomingInterest at h
  split at h
  · cases h; exact .refl _
  · rename_i fi hf
    refine Path.head (.aux s s.cs s.dnl { s.ctr with nInInterests := s.ctr.nInInterests + 1 } s.calls s.cfg rfl id) ?_
    simp only at h
    split at h
    · cases h; exact .refl _
    · rename_i hl
      split at h
      · cases h; exact .refl _
      · rename_i hs
        split at h
        · exact path_loop hQ (s := { s with ctr := _ }) hf hs hL.1 h
        · refine path_lookup hQ (hr hl _) hf ?_ (hL.2 _) h
          have : ∀ (c : Config) (i : FwInterest), (stripHint c i).name = i.name := by
            intro c i; unfold stripHint; split <;> rfl
          rw [this]
          exact hs

theorem path_satisfyEntry (s : St) (d : Data) (f : FaceId) (u : Nat) : Path env Q R s (satisfyEntry env s d f u) :=
  Path.head (.satisfy s u d.freshness) ((path_dnl _ u (some f)).trans (Prim.delOut _ u f).path)

theorem path_satisfyStep {st : Strategy} (hQ : Respects L Q st) {s : St} {d : Data} {f : FaceId} {u : Nat} {acc : List FaceId}
    {r : St × List FaceId} (h : satisfyStep env st s d f u acc = some r) : Path env Q R s r.1 := by
  unfold satisfyStep at h
  rw [Option.map_eq_some_iff] at h
  obtain ⟨s1, h1, rfl⟩ := h
  exact Path.head (.timer s u 0) ((path_call hQ h1 trivial).trans (Path.head (.satisfy s1 u d.freshness)
    ((path_dnl _ u (some f)).trans (Prim.clearOut _ u f).path)))

theorem path_satisfyAll {st : Strategy} (hQ : Respects L Q st) {d : Data} {f : FaceId} :
    ∀ (us : List Nat) (s : St) (acc : List FaceId) (r : St × List FaceId), satisfyAll env st d f s us acc = some r → Path env Q R s r.1
  | [], s, acc, r, h => by cases h; exact .refl _
  | u :: us, s, acc, r, h => by
    simp only [satisfyAll, Option.bind_eq_some_iff] at h
    obtain ⟨r1, h1, h2⟩ := h
    exact (path_satisfyStep hQ h1).trans (path_satisfyAll hQ us r1.1 r1.2 r h2)

theorem path_dataList (d : Data) : ∀ (l : List FaceId) (s : St), Path env Q R s (l.foldl (fun s g => onOutgoingData s d g) s)
  | [], s => .refl s
  | g :: l, s => Path.head (.data s d g) (path_dataList d l _)

theorem path_satisfyMany {st : Strategy} (hQ : Respects L Q st) {s s' : St} {d : Data} {f : FaceId} {us : List Nat}
    (h : satisfyMany env st s d f us = some s') : Path env Q R s s' := by
  unfold satisfyMany at h
  rw [Option.map_eq_some_iff] at h
  obtain ⟨r, h1, rfl⟩ := h
  exact (path_satisfyAll hQ us s [] r h1).trans (path_dataList d _ _)

theorem path_satisfyOne {st : Strategy} (hQ : Respects L Q st) {s s' : St} {d : Data} {f : FaceId} {u : Nat}
    (h : satisfyOne env st s d f u = some s') : Path env Q R s s' := by
  unfold satisfyOne at h
  rw [Option.map_eq_some_iff] at h
  obtain ⟨s1, h1, rfl⟩ := h
  exact Path.head (.timer s u 0) ((path_call hQ h1 trivial).trans (path_satisfyEntry s1 d f u))

theorem path_incomingData {st : Strategy} (hQ : Respects L Q st) {s s' : St} {d : Data} {f : FaceId}
    (h : onIncomingData env st s d f = some s') : Path env Q R s s' := by
  unfold onIncomingData at h
  split at h
  · cases h; exact .refl _
  · rename_i fi hf
    simp only at h
    have aux : ∀ (cs : Cs.Cs) (ctr : Counters), ctr.outs = s.ctr.outs → Prim env Q R s { s with cs := cs, ctr := ctr } :=
      fun cs ctr hc => Prim.aux s cs s.dnl ctr s.calls s.cfg hc id
    split at h
    · cases h; exact (aux s.cs { s.ctr with nInData := s.ctr.nInData + 1 } rfl).path
    · split at h
      · unfold onDataUnsolicited at h
        simp only at h
        split at h
        · rw [Option.map_eq_some_iff] at h
          obtain ⟨c, _, rfl⟩ := h
          exact Prim.path (aux c { s.ctr with nInData := s.ctr.nInData + 1, nUnsolicitedData := s.ctr.nUnsolicitedData + 1 } rfl)
        · cases h; exact Prim.path (aux s.cs { s.ctr with nInData := s.ctr.nInData + 1, nUnsolicitedData := s.ctr.nUnsolicitedData + 1 } rfl)
      · rw [Option.bind_eq_some_iff] at h
        obtain ⟨c, _, h⟩ := h
        exact Path.head (aux c { s.ctr with nInData := s.ctr.nInData + 1 } rfl) (path_satisfyOne hQ h)
      · rw [Option.bind_eq_some_iff] at h
        obtain ⟨c, _, h⟩ := h
        exact Path.head (aux c { s.ctr with nInData := s.ctr.nInData + 1 } rfl) (path_satisfyMany hQ h)

theorem path_incomingNack {st : Strategy} (hQ : Respects L Q st) {s s' : St} {i : FwInterest} {k : Nat} {f : FaceId}
    (h : onIncomingNack st s i k f = some s') : Path env Q R s s' := by
  unfold onIncomingNack at h
  split at h
  · cases h; exact .refl _
  · simp only at h
    refine Path.head (.aux s s.cs s.dnl { s.ctr with nInNacks := s.ctr.nInNacks + 1 } s.calls s.cfg rfl id) ?_
    split at h
    · cases h; exact .refl _
    · split at h
      · cases h; exact .refl _
      · rename_i e _
        split at h
        · cases h; exact .refl _
        · split at h
          · cases h; exact .refl _
          · unfold acceptNack at h
            simp only at h
            refine Path.head (.setNack _ e.uid f i.nonce k) ?_
            split at h
            · exact path_call hQ h trivial
            · exact Path.head (.timer _ _ 0) (path_call hQ h trivial)

theorem path_newNextHop {st : Strategy} (hQ : Respects L Q st) (nh : NextHop) :
    ∀ (us : List Nat) (s s' : St), onNewNextHop st nh s us = some s' → Path env Q R s s'
  | [], s, s', h => by cases h; exact .refl _
  | u :: us, s, s', h => by
    simp only [onNewNextHop, Option.bind_eq_some_iff] at h
    obtain ⟨s1, h1, h2⟩ := h
    exact (path_call hQ h1 trivial).trans (path_newNextHop hQ nh us s1 s' h2)

theorem path_fire {s s' : St} {id : Nat} (h : fire env s id = some s') : Path env Q R s s' := by
  unfold fire at h
  split at h
  · cases h; exact .refl _
  · rename_i t ht
    split at h
    · rename_i hd
      have hid : t.id = id := by simpa using List.find?_some ht
      subst hid
      exact (Prim.finalize s s' t (List.mem_of_find?_eq_some ht) hd h).path
    · cases h; exact .refl _

/-- Events about faces and time. -/
def Event.isFrame : Event → Bool
  | .tick _ => true
  | .addFace _ _ => true
  | .removeFace _ => true
  | _ => false

/-- What an event may add to the pending Interests: the packet it delivers, with the HopLimit decremented and possibly without
forwarding hint. -/
def Event.recv : Event → FwInterest → FaceId → Prop
  | .interest i f, j, g => g = f ∧ i.hopLimit ≠ some 0 ∧ ∃ c, j = stripHint c (decHop i)
  | _, _, _ => False

/-- Which looping Interests an event may report to the strategy. -/
def Event.loops : Event → FwInterest → FaceId → Prop
  | .interest i f, j, g => g = f ∧ (j = decHop i ∨ ∃ c, j = stripHint c (decHop i))
  | _, _, _ => False

/-- Every other event is a sequence of primitive updates. -/
theorem step_path {st : Strategy} {ev : Event} (hQ : Respects ev.loops Q st) {s s' : St} (he : ev.isFrame = false)
    (h : step env st s ev = some s') : Path env Q ev.recv s s' := by
  cases ev with
  | interest i f => exact path_incomingInterest hQ (fun hl c => ⟨rfl, hl, c, rfl⟩) ⟨⟨rfl, Or.inl rfl⟩, fun c => ⟨rfl, Or.inr ⟨c, rfl⟩⟩⟩ h
  | data d f => exact path_incomingData hQ h
  | nack i k f => exact path_incomingNack hQ h
  | dropped i f =>
    simp only [step] at h
    split at h
    · exact path_call hQ h trivial
    · cases h; exact .refl _
  | newNextHop nh us => exact path_newNextHop hQ nh us s s' h
  | async => exact path_call hQ h trivial
  | fire id => exact path_fire h
  | tick dt => simp [Event.isFrame] at he
  | addFace f fi => simp [Event.isFrame] at he
  | removeFace f => simp [Event.isFrame] at he
  | config c => cases h; exact (Prim.aux s s.cs s.dnl s.ctr s.calls c rfl id).path
  | cs op =>
    simp only [step, Option.map_eq_some_iff] at h
    obtain ⟨r, _, rfl⟩ := h
    exact (Prim.aux s r.1 s.dnl s.ctr s.calls s.cfg rfl id).path
  | dnl op => cases h; exact (Prim.aux s s.cs _ s.ctr s.calls s.cfg rfl (fun hc => Dnl.capOk_step hc env.hash op)).path

end Verif.Fw
