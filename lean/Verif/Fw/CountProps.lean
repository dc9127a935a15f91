import Verif.Fw.CountSpec
import Verif.Fw.DataProps

/-
C74 for the counters of received packets.
-/
namespace Verif.Fw

open Tb (FaceId Time FwInterest InRec OutRec PitEntry NextHop)

/-- The counters of received packets. -/
def Counters.ins (c : Counters) : Nat × Nat × Nat × Nat × Nat × Nat :=
  (c.nInInterests, c.nInData, c.nInNacks, c.nUnsolicitedData, c.nCsHits, c.nCsMisses)

theorem ins_timer (s : St) (u ms : Nat) : (setExpiryTimer s u ms).ctr.ins = s.ctr.ins := by
  unfold setExpiryTimer; split <;> rfl
theorem ins_interest (s : St) (u : Nat) (i : FwInterest) (g : FaceId) : (onOutgoingInterest s u i g).ctr.ins = s.ctr.ins := by
  unfold onOutgoingInterest; split
  · split <;> rfl
  · rfl
theorem ins_data (s : St) (d : Data) (g : FaceId) : (onOutgoingData s d g).ctr.ins = s.ctr.ins := by
  unfold onOutgoingData; split
  · rfl
  · split <;> rfl
theorem ins_nack (s : St) (u r : Nat) (g : FaceId) : (onOutgoingNack s u r g).ctr.ins = s.ctr.ins := by
  unfold onOutgoingNack; split
  · rfl
  · split
    · rfl
    · split <;> rfl
theorem ins_nackPkt (s : St) (i : FwInterest) (r : Nat) (g : FaceId) : (sendNackPacket s i r g).ctr.ins = s.ctr.ins := by
  unfold sendNackPacket; split <;> rfl
theorem ins_dnl (env : Env) (s : St) (u : Nat) (f : Option FaceId) : (insertDeadNonceList env s u f).ctr = s.ctr := by
  obtain ⟨d, h⟩ := dnl_eq (env := env) s u f
  rw [h]

theorem ins_sendData {s s' : St} {u : Nat} {d : Data} {g : FaceId} (h : sendData s u d g = some s') : s'.ctr.ins = s.ctr.ins := by
  unfold sendData at h
  split at h
  · cases h; rfl
  · split at h
    · cases h; exact ins_data _ d g
    · cases h

theorem ins_sendDataList (u : Nat) (d : Data) : ∀ (l : List FaceId) (s s' : St), sendDataList u d s l = some s' → s'.ctr.ins = s.ctr.ins
  | [], s, s', h => by cases h; rfl
  | g :: l, s, s', h => by
    simp only [sendDataList, Option.bind_eq_some_iff] at h
    obtain ⟨s1, h1, h2⟩ := h
    exact (ins_sendDataList u d l s1 s' h2).trans (ins_sendData h1)

theorem ins_act {s s' : St} {a : Action} (h : act s a = some s') : s'.ctr.ins = s.ctr.ins := by
  cases a with
  | sendInterest u i g => cases h; exact ins_interest ..
  | sendData u d g => exact ins_sendData h
  | sendDataToAll u d f =>
    simp only [act, sendDataToAll] at h
    split at h
    · cases h; rfl
    · exact ins_sendDataList u d _ s s' h
  | sendNack u r g => cases h; exact ins_nack ..
  | sendNackPacket i r g => cases h; exact ins_nackPkt ..
  | setExpiryTimer u ms => cases h; exact ins_timer ..

theorem ins_acts : ∀ (l : List Action) (s s' : St), acts s l = some s' → s'.ctr.ins = s.ctr.ins
  | [], s, s', h => by cases h; rfl
  | a :: l, s, s', h => by
    simp only [acts, Option.bind_eq_some_iff] at h
    obtain ⟨s1, h1, h2⟩ := h
    exact (ins_acts l s1 s' h2).trans (ins_act h1)

theorem ins_call {st : Strategy} {s s' : St} {t : Trigger} (h : call st s t = some s') : s'.ctr.ins = s.ctr.ins :=
  (ins_acts _ { s with calls := s.calls ++ [t] } _ h : _)

theorem ins_loop {st : Strategy} {s s' : St} {i : FwInterest} {f : FaceId} {fi : FaceInfo} (h : onInterestLoop st s i f fi = some s') :
    s'.ctr.ins = s.ctr.ins := by
  unfold onInterestLoop at h
  split at h
  · cases h; rfl
  · exact ins_call h

theorem ins_recorded (s : St) (i : FwInterest) (f : FaceId) (c : Cs.Cs) :
    (recorded s i f c).ctr.ins = { s.ctr with nCsMisses := s.ctr.nCsMisses + 1 }.ins := by
  unfold recorded recordInterest
  exact ins_timer ..

theorem ins_answered (s : St) (i : FwInterest) (d : Data) (c : Cs.Cs) :
    (answered s i d c).ctr.ins = { s.ctr with nCsHits := s.ctr.nCsHits + 1 }.ins := by
  unfold answered
  exact ins_timer ..

theorem ins_satisfyStep {env : Env} {st : Strategy} {s : St} {d : Data} {f : FaceId} {u : Nat} {acc : List FaceId}
    {r : St × List FaceId} (h : satisfyStep env st s d f u acc = some r) : r.1.ctr.ins = s.ctr.ins := by
  unfold satisfyStep at h
  rw [Option.map_eq_some_iff] at h
  obtain ⟨s1, h1, rfl⟩ := h
  show (insertDeadNonceList env _ u (some f)).ctr.ins = _
  rw [ins_dnl]
  exact (ins_call h1).trans (ins_timer ..)

theorem ins_satisfyAll {env : Env} {st : Strategy} {d : Data} {f : FaceId} :
    ∀ (us : List Nat) (s : St) (acc : List FaceId) (r : St × List FaceId), satisfyAll env st d f s us acc = some r → r.1.ctr.ins = s.ctr.ins
  | [], s, acc, r, h => by cases h; rfl
  | u :: us, s, acc, r, h => by
    simp only [satisfyAll, Option.bind_eq_some_iff] at h
    obtain ⟨r1, h1, h2⟩ := h
    exact (ins_satisfyAll us r1.1 r1.2 r h2).trans (ins_satisfyStep h1)

theorem ins_foldData (d : Data) : ∀ (l : List FaceId) (s : St), (l.foldl (fun s g => onOutgoingData s d g) s).ctr.ins = s.ctr.ins
  | [], _ => rfl
  | g :: l, s => (ins_foldData d l _).trans (ins_data s d g)

theorem ins_finalize {env : Env} {s s' : St} {u : Nat} (h : onInterestFinalize env s u = some s') : s'.ctr.ins = s.ctr.ins := by
  unfold onInterestFinalize at h
  split at h
  · cases h
  · cases h
    have := ins_dnl env s u none
    show (if _ then _ else _ : St).ctr.ins = _
    split
    · show Counters.ins { (insertDeadNonceList env s u none).ctr with nSatisfied := _ } = _
      rw [this]; rfl
    · show Counters.ins { (insertDeadNonceList env s u none).ctr with nUnsatisfied := _ } = _
      rw [this]; rfl

theorem ins_newNextHop {st : Strategy} {nh : NextHop} : ∀ (us : List Nat) (s s' : St), onNewNextHop st nh s us = some s' → s'.ctr.ins = s.ctr.ins
  | [], s, s', h => by cases h; rfl
  | u :: us, s, s', h => by
    simp only [onNewNextHop, Option.bind_eq_some_iff] at h
    obtain ⟨s1, h1, h2⟩ := h
    exact (ins_newNextHop us s1 s' h2).trans (ins_call h1)

open Classical in
/-- What one event adds to each counter. -/
structure Adds (env : Env) (s : St) (ev : Event) (s' : St) : Prop where
  interests : s'.ctr.nInInterests = s.ctr.nInInterests + if InterestArrives s ev then 1 else 0
  data : s'.ctr.nInData = s.ctr.nInData + if DataArrives s ev then 1 else 0
  nacks : s'.ctr.nInNacks = s.ctr.nInNacks + if NackArrives s ev then 1 else 0
  unsolicited : s'.ctr.nUnsolicitedData = s.ctr.nUnsolicitedData + if UnaskedData s ev then 1 else 0
  hits : s'.ctr.nCsHits = s.ctr.nCsHits + if Processed env s ev ∧ FromCache s ev then 1 else 0
  misses : s'.ctr.nCsMisses = s.ctr.nCsMisses + if Processed env s ev ∧ ¬FromCache s ev then 1 else 0

theorem ins_eq {c c' : Counters} (h : c'.ins = c.ins) : c'.nInInterests = c.nInInterests ∧ c'.nInData = c.nInData ∧ c'.nInNacks = c.nInNacks ∧
    c'.nUnsolicitedData = c.nUnsolicitedData ∧ c'.nCsHits = c.nCsHits ∧ c'.nCsMisses = c.nCsMisses := by
  simpa only [Counters.ins, Prod.mk.injEq] using h

/-- An event that is not a packet from an existing face. -/
theorem adds_none {env : Env} {s s' : St} {ev : Event} (h : s'.ctr.ins = s.ctr.ins)
    (h1 : ¬InterestArrives s ev) (h2 : ¬DataArrives s ev) (h3 : ¬NackArrives s ev) : Adds env s ev s' := by
  obtain ⟨a, b, c, d, e, f⟩ := ins_eq h
  have hp : ¬Processed env s ev := by
    rintro ⟨i, f, fi, rfl, hf, -⟩
    exact h1 ⟨i, f, rfl, by rw [hf]; exact (fun h => by cases h)⟩
  have hu : ¬UnaskedData s ev := by
    rintro ⟨d, f, fi, rfl, hf, -⟩
    exact h2 ⟨d, f, rfl, by rw [hf]; exact (fun h => by cases h)⟩
  constructor <;> simp_all

theorem adds_interest {env : Env} {st : Strategy} {s s' : St} (hi : Inv s) {i : FwInterest} {f : FaceId}
    (h : step env st s (.interest i f) = some s') : Adds env s (.interest i f) s' := by
  have n2 : ¬DataArrives s (.interest i f) := by rintro ⟨_, _, h, -⟩; cases h
  have n3 : ¬NackArrives s (.interest i f) := by rintro ⟨_, _, _, h, -⟩; cases h
  have n4 : ¬UnaskedData s (.interest i f) := by rintro ⟨_, _, _, h, -⟩; cases h
  cases hf : s.faces f with
  | none =>
    have : s' = s := by
      simp only [step, onIncomingInterest, hf] at h; cases h; rfl
    refine adds_none (by rw [this]) ?_ n2 n3
    rintro ⟨_, _, h, hx⟩; cases h; exact hx hf
  | some fi =>
    have n1 : InterestArrives s (.interest i f) := ⟨i, f, rfl, by rw [hf]; exact (fun h => by cases h)⟩
    have hproc : Processed env s (.interest i f) ↔ Admissible i fi ∧ ¬Looping env s i f fi.link := by
      constructor
      · rintro ⟨_, _, fi', h, hf', ha, hl⟩
        cases h
        rw [hf] at hf'; cases hf'
        exact ⟨ha, hl⟩
      · rintro ⟨ha, hl⟩
        exact ⟨i, f, fi, rfl, hf, ha, hl⟩
    have hfc : FromCache s (.interest i f) ↔ (∀ e ∈ s.pit, e.interest.toInterest = i.toInterest → e.ins = []) ∧ ∃ c d, s.cs.find i.toInterest = some (c, some d) := by
      constructor
      · rintro ⟨_, _, c, d, h, h1, h2⟩
        cases h
        exact ⟨h1, c, d, h2⟩
      · rintro ⟨h1, c, d, h2⟩
        exact ⟨i, f, c, d, rfl, h1, h2⟩
    have drop : s'.ctr.ins = (counted s).ctr.ins → ¬Processed env s (.interest i f) → Adds env s (.interest i f) s' := by
      intro hc hp
      obtain ⟨a, b, c, d, e, f⟩ := ins_eq hc
      constructor <;> simp_all
    by_cases ha : Admissible i fi
    · have miss : ∀ c : Cs.Cs, ((c = s.cs ∧ ∃ e ∈ s.pit, e.interest.toInterest = i.toInterest ∧ e.ins ≠ []) ∨ s.cs.find i.toInterest = some (c, none)) →
          ¬Looping env s i f fi.link → s'.ctr.ins = { (counted s).ctr with nCsMisses := (counted s).ctr.nCsMisses + 1 }.ins → Adds env s (.interest i f) s' := by
        intro c hc hl hs
        have hnot : ¬FromCache s (.interest i f) := by
          rw [hfc]
          rintro ⟨h1, c', d', h2⟩
          rcases hc with ⟨-, e, he, hk, hne⟩ | hc
          · exact hne (h1 e he hk)
          · rw [hc] at h2; cases h2
        have hp := hproc.2 ⟨ha, hl⟩
        obtain ⟨a, b, c, d, e, f⟩ := ins_eq hs
        constructor <;> simp_all
      cases interest_outcome hi hf ha h with
      | loop j hl hj hh =>
        exact drop (ins_loop hh) (fun hp => (hproc.1 hp).2 hl)
      | hit hl c d he hc hh =>
        have hs := (ins_call hh).trans (ins_answered ..)
        have hp := hproc.2 ⟨ha, hl⟩
        have hyes := hfc.2 ⟨he, c, d, hc⟩
        obtain ⟨a, b, c, d, e, f⟩ := ins_eq hs
        constructor <;> simp_all
      | direct hl c hc g hg hh =>
        refine miss c hc hl ?_
        rw [hh]
        split
        · exact (ins_interest ..).trans (ins_recorded ..)
        · exact ins_recorded ..
      | pass hl c hc hg hh =>
        exact miss c hc hl ((ins_call hh).trans (ins_recorded ..))
    · refine drop ?_ (fun hp => ha (hproc.1 hp).1)
      simp only [step, onIncomingInterest, hf] at h
      split at h
      · cases h; rfl
      · rename_i hz
        split at h
        · cases h; rfl
        · rename_i hs
          exact absurd ⟨hz, by rw [← localhost_iff]; exact hs⟩ ha

theorem adds_data {env : Env} {st : Strategy} {s s' : St} {d : Data} {f : FaceId}
    (h : step env st s (.data d f) = some s') : Adds env s (.data d f) s' := by
  have n1 : ¬InterestArrives s (.data d f) := by rintro ⟨_, _, h, -⟩; cases h
  have n3 : ¬NackArrives s (.data d f) := by rintro ⟨_, _, _, h, -⟩; cases h
  have n5 : ¬Processed env s (.data d f) := by rintro ⟨_, _, _, h, -⟩; cases h
  cases hf : s.faces f with
  | none =>
    have : s' = s := by
      simp only [step, onIncomingData, hf] at h; cases h; rfl
    refine adds_none (by rw [this]) n1 ?_ n3
    rintro ⟨_, _, h, hx⟩; cases h; exact hx hf
  | some fi =>
    have n2 : DataArrives s (.data d f) := ⟨d, f, rfl, by rw [hf]; exact (fun h => by cases h)⟩
    have hun : UnaskedData s (.data d f) ↔ ¬(fi.scope = .nonLocal ∧ UnderLocalhost d.name) ∧ ∀ e ∈ s.pit, e.interest.matchesData d = false := by
      constructor
      · rintro ⟨_, _, fi', h, hf', h1, h2⟩
        cases h
        rw [hf] at hf'; cases hf'
        exact ⟨h1, h2⟩
      · rintro ⟨h1, h2⟩
        exact ⟨d, f, fi, rfl, hf, h1, h2⟩
    have asked : s'.ctr.ins = { s.ctr with nInData := s.ctr.nInData + 1 }.ins → ¬UnaskedData s (.data d f) → Adds env s (.data d f) s' := by
      intro hc hp
      obtain ⟨a, b, c, d, e, f⟩ := ins_eq hc
      constructor <;> simp_all
    simp only [step, onIncomingData, hf] at h
    split at h
    · rename_i hs
      cases h
      exact asked rfl (fun hu => (hun.1 hu).1 (by rw [← localhost_iff]; exact hs))
    · rename_i hs
      have some_match : ∀ u us, (dataMatches s d).map (·.uid) = u :: us → ¬UnaskedData s (.data d f) := by
        intro u us hm hu
        have : u ∈ (dataMatches s d).map (·.uid) := by rw [hm]; exact List.mem_cons_self
        obtain ⟨e, he, -⟩ := List.mem_map.1 this
        obtain ⟨he, hme⟩ := List.mem_filter.1 he
        rw [(hun.1 hu).2 e he] at hme
        cases hme
      split at h
      · rename_i hm
        have hm : (dataMatches s d).map (·.uid) = [] := hm
        have hu : UnaskedData s (.data d f) := by
          refine hun.2 ⟨by rw [← localhost_iff]; exact hs, fun e he => ?_⟩
          have : dataMatches s d = [] := List.map_eq_nil_iff.1 hm
          cases hme : e.interest.matchesData d with
          | false => rfl
          | true =>
            have : e ∈ dataMatches s d := List.mem_filter.2 ⟨he, hme⟩
            rw [List.map_eq_nil_iff.1 hm] at this; cases this
        have hc : s'.ctr.ins = { s.ctr with nInData := s.ctr.nInData + 1, nUnsolicitedData := s.ctr.nUnsolicitedData + 1 }.ins := by
          unfold onDataUnsolicited at h
          simp only at h
          split at h
          · rw [Option.map_eq_some_iff] at h
            obtain ⟨c, -, rfl⟩ := h
            rfl
          · cases h; rfl
        obtain ⟨a, b, c, d, e, f⟩ := ins_eq hc
        constructor <;> simp_all
      · rename_i u hm
        rw [Option.bind_eq_some_iff] at h
        obtain ⟨c, -, h⟩ := h
        refine asked ?_ (some_match _ _ hm)
        unfold satisfyOne at h
        rw [Option.map_eq_some_iff] at h
        obtain ⟨s1, h1, rfl⟩ := h
        show (insertDeadNonceList env _ u (some f)).ctr.ins = _
        rw [ins_dnl]
        exact (ins_call h1).trans (ins_timer ..)
      · rename_i hm1 hm2
        rw [Option.bind_eq_some_iff] at h
        obtain ⟨c, -, h⟩ := h
        cases hm : (dataMatches s d).map (·.uid) with
        | nil => exact absurd hm hm1
        | cons u us =>
          refine asked ?_ (some_match _ _ hm)
          unfold satisfyMany at h
          rw [Option.map_eq_some_iff] at h
          obtain ⟨r, h1, rfl⟩ := h
          exact (ins_foldData d _ _).trans (ins_satisfyAll _ _ _ _ h1)

theorem adds_nack {env : Env} {st : Strategy} {s s' : St} {i : FwInterest} {r : Nat} {f : FaceId}
    (h : step env st s (.nack i r f) = some s') : Adds env s (.nack i r f) s' := by
  have n1 : ¬InterestArrives s (.nack i r f) := by rintro ⟨_, _, h, -⟩; cases h
  have n2 : ¬DataArrives s (.nack i r f) := by rintro ⟨_, _, h, -⟩; cases h
  have n4 : ¬UnaskedData s (.nack i r f) := by rintro ⟨_, _, _, h, -⟩; cases h
  have n5 : ¬Processed env s (.nack i r f) := by rintro ⟨_, _, _, h, -⟩; cases h
  cases hf : s.faces f with
  | none =>
    have : s' = s := by
      simp only [step, onIncomingNack, hf] at h; cases h; rfl
    refine adds_none (by rw [this]) n1 n2 ?_
    rintro ⟨_, _, _, h, hx⟩; cases h; exact hx hf
  | some fi =>
    have n3 : NackArrives s (.nack i r f) := ⟨i, r, f, rfl, by rw [hf]; exact (fun h => by cases h)⟩
    have hc : s'.ctr.ins = { s.ctr with nInNacks := s.ctr.nInNacks + 1 }.ins := by
      simp only [step, onIncomingNack, hf] at h
      split at h
      · cases h; rfl
      · split at h
        · cases h; rfl
        · split at h
          · cases h; rfl
          · split at h
            · cases h; rfl
            · unfold acceptNack at h
              simp only at h
              refine (ins_call h).trans ?_
              split
              · rfl
              · exact ins_timer ..
    obtain ⟨a, b, c, d, e, f⟩ := ins_eq hc
    constructor <;> simp_all

theorem adds_step {env : Env} {st : Strategy} {s s' : St} (hi : Inv s) {ev : Event} (h : step env st s ev = some s') : Adds env s ev s' := by
  have other : (∀ i f, ev ≠ .interest i f) → (∀ d f, ev ≠ .data d f) → (∀ i r f, ev ≠ .nack i r f) → s'.ctr.ins = s.ctr.ins → Adds env s ev s' := by
    intro h1 h2 h3 hc
    refine adds_none hc ?_ ?_ ?_
    · rintro ⟨i, f, he, -⟩; exact h1 i f he
    · rintro ⟨i, f, he, -⟩; exact h2 i f he
    · rintro ⟨i, r, f, he, -⟩; exact h3 i r f he
  cases ev with
  | interest i f => exact adds_interest hi h
  | data d f => exact adds_data h
  | nack i r f => exact adds_nack h
  | dropped i f =>
    refine other (by simp) (by simp) (by simp) ?_
    simp only [step] at h
    split at h
    · exact ins_call h
    · cases h; rfl
  | newNextHop nh us => exact other (by simp) (by simp) (by simp) (ins_newNextHop us s s' h)
  | async => exact other (by simp) (by simp) (by simp) (ins_call h)
  | fire id =>
    refine other (by simp) (by simp) (by simp) ?_
    simp only [step, fire] at h
    split at h
    · cases h; rfl
    · split at h
      · have := ins_finalize h
        exact this
      · cases h; rfl
  | tick dt => cases h; exact other (by simp) (by simp) (by simp) rfl
  | addFace f info =>
    refine other (by simp) (by simp) (by simp) ?_
    simp only [step] at h
    cases h
    split <;> rfl
  | removeFace f => cases h; exact other (by simp) (by simp) (by simp) rfl
  | config c => cases h; exact other (by simp) (by simp) (by simp) rfl
  | cs op =>
    refine other (by simp) (by simp) (by simp) ?_
    simp only [step, Option.map_eq_some_iff] at h
    obtain ⟨r, -, rfl⟩ := h
    rfl
  | dnl op => cases h; exact other (by simp) (by simp) (by simp) rfl

/-- If every event adds to a counter exactly when it has the property, the counter is the tally. -/
theorem tally_run {env : Env} (p : St → Event → Prop) (get : Counters → Nat)
    (hp : ∀ (st : Strategy) (s s' : St) (ev : Event), Inv s → step env st s ev = some s' →
      (p s ev → get s'.ctr = get s.ctr + 1) ∧ (¬p s ev → get s'.ctr = get s.ctr)) :
    ∀ (l : List (Strategy × Event)) (s s' : St), Inv s → run env s l = some s' → get s'.ctr = get s.ctr + tally env p s l
  | [], s, s', _, h => by cases h; rfl
  | x :: l, s, s', hi, h => by
    simp only [run, Option.bind_eq_some_iff] at h
    obtain ⟨s1, h1, h2⟩ := h
    have ih := tally_run p get hp l s1 s' (step_inv hi h1) h2
    obtain ⟨ha, hb⟩ := hp x.1 s s1 x.2 hi h1
    simp only [tally, h1]
    by_cases hx : p s x.2
    · rw [if_pos hx, ih, ha hx]; omega
    · rw [if_neg hx, ih, hb hx]; omega

variable {env : Env} {n : Nat} {l : List (Strategy × Event)} {s : St}

/-- **C74.** After any history, the counters of received packets are the numbers of Interests, Data and Nacks that came from faces. -/
theorem C74_received (hr : run env (init n) l = some s) :
    s.ctr.nInInterests = tally env InterestArrives (init n) l ∧ s.ctr.nInData = tally env DataArrives (init n) l ∧
    s.ctr.nInNacks = tally env NackArrives (init n) l := by
  have h1 := tally_run InterestArrives (·.nInInterests) (fun st s s' ev hi h =>
    ⟨fun hx => by simpa [hx] using (adds_step hi h).interests, fun hx => by simpa [hx] using (adds_step hi h).interests⟩) l _ s (init_inv n) hr
  have h2 := tally_run DataArrives (·.nInData) (fun st s s' ev hi h =>
    ⟨fun hx => by simpa [hx] using (adds_step hi h).data, fun hx => by simpa [hx] using (adds_step hi h).data⟩) l _ s (init_inv n) hr
  have h3 := tally_run NackArrives (·.nInNacks) (fun st s s' ev hi h =>
    ⟨fun hx => by simpa [hx] using (adds_step hi h).nacks, fun hx => by simpa [hx] using (adds_step hi h).nacks⟩) l _ s (init_inv n) hr
  simpa [init] using And.intro h1 (And.intro h2 h3)

/-- **C74.** nUnsolicitedData is the number of Data that were let in and that no pending Interest asked for. -/
theorem C74_unsolicited (hr : run env (init n) l = some s) : s.ctr.nUnsolicitedData = tally env UnaskedData (init n) l := by
  have h1 := tally_run UnaskedData (·.nUnsolicitedData) (fun st s s' ev hi h =>
    ⟨fun hx => by simpa [hx] using (adds_step hi h).unsolicited, fun hx => by simpa [hx] using (adds_step hi h).unsolicited⟩) l _ s (init_inv n) hr
  simpa [init] using h1

/-- **C74.** Of the Interests that are neither dropped nor looping, nCsHits counts those that nobody was waiting for and that the
Content Store can answer, and nCsMisses all others; so an Interest that someone waits for already counts as a miss, whatever the
Content Store holds. -/
theorem C74_cache (hr : run env (init n) l = some s) :
    s.ctr.nCsHits = tally env (fun s ev => Processed env s ev ∧ FromCache s ev) (init n) l ∧
    s.ctr.nCsMisses = tally env (fun s ev => Processed env s ev ∧ ¬FromCache s ev) (init n) l := by
  have h1 := tally_run (fun s ev => Processed env s ev ∧ FromCache s ev) (·.nCsHits) (fun st s s' ev hi h =>
    ⟨fun hx => (adds_step hi h).hits.trans (by rw [if_pos hx]), fun hx => (adds_step hi h).hits.trans (by rw [if_neg hx]; rfl)⟩) l _ s (init_inv n) hr
  have h2 := tally_run (fun s ev => Processed env s ev ∧ ¬FromCache s ev) (·.nCsMisses) (fun st s s' ev hi h =>
    ⟨fun hx => (adds_step hi h).misses.trans (by rw [if_pos hx]), fun hx => (adds_step hi h).misses.trans (by rw [if_neg hx]; rfl)⟩) l _ s (init_inv n) hr
  simpa [init] using And.intro h1 h2

/-- Interests that wait, one that the Content Store answers, Data that was asked for and Data that was not, Interests and Data from
a face that does not exist. -/
example : (run exEnv (init 10) (exPending ++ [(exStrategy, .data exData 258), (exStrategy, .interest { exI2 with nonce := 9 } 256),
    (exStrategy, .data { exData with name := [exC 77] } 258), (exStrategy, .data exData 999), (exStrategy, .interest exI1 999),
    (exStrategy, .interest { exI1 with hopLimit := some 0 } 257)])).any
    (fun s => s.ctr.nCsHits == 1 && s.ctr.nInData == 2 && s.ctr.nUnsolicitedData == 1 && decide (s.ctr.nCsMisses + 2 = s.ctr.nInInterests) &&
      decide (2 ≤ s.ctr.nCsMisses)) = true := by decide +kernel

end Verif.Fw
