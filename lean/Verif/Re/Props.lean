import Verif.Re.Model
import Verif.Ws.Props
import Verif.Dg.Model

/-
C111: a face that fails while a packet is sent on it.
-/
namespace Verif.Re

/-! ### Specification -/

/-- The Interest is to be sent on this face. -/
def Wanted (e : Env) (f : FaceId) : Bool := e.eligible f && !e.zero f
def WantedUnsuppressed (e : Env) (f : FaceId) : Bool := decide (e.retx f ≠ .suppress) && Wanted e f

/-- What forwarding to the faces `l`, in this order and to each once, should leave behind: nothing changed but for the records. -/
structure Forwarded (s s' : St) (l : List FaceId) : Prop where
  tried : s'.tried = s.tried ++ l
  faces : s'.faces = s.faces
  nexthops : s'.nexthops = s.nexthops
  ins : s'.ins = s.ins
  records : ∀ f ∈ l, ∃ r, (f, r) ∈ s'.outs
  kept : ∀ r ∈ s.outs, r ∈ s'.outs

/-! ### Lemmas -/

theorem insert_spec {s s' : St} {f : FaceId} {r : Nat} (h : insertOutRecord s f = (s', r)) :
    (f, r) ∈ s'.outs ∧ (∀ x ∈ s.outs, x ∈ s'.outs) ∧ s'.faces = s.faces ∧ s'.nexthops = s.nexthops ∧ s'.fibVer = s.fibVer ∧ s'.ins = s.ins ∧ s'.tried = s.tried := by
  unfold insertOutRecord at h
  split at h
  · next x hx =>
    cases h
    have h1 := List.find?_some hx
    have h2 := List.mem_of_find?_eq_some hx
    refine ⟨?_, fun _ hx => hx, rfl, rfl, rfl, rfl, rfl⟩
    simp at h1
    subst h1
    exact h2
  · cases h
    refine ⟨by simp, fun x hx => by simp [hx], rfl, rfl, rfl, rfl, rfl⟩

theorem sendOn_ok {dead : FaceId → Bool} {s : St} {f : FaceId} (hf : f ∈ s.faces) (hd : dead f = false) : sendOn dead s f = { s with tried := s.tried ++ [f] } := by
  unfold sendOn
  rw [if_pos (by simpa using hf)]
  simp [hd]

theorem sendOn_dead {dead : FaceId → Bool} {s : St} {f : FaceId} (hf : f ∈ s.faces) (hd : dead f = true) :
    sendOn dead s f = removeFace { s with tried := s.tried ++ [f] } f := by
  unfold sendOn
  rw [if_pos (by simpa using hf)]
  simp [hd]

/-- What the body of a loop over the next hops does. -/
structure Body (body : St → FaceId → Option St) (dead P : FaceId → Bool) : Prop where
  skip : ∀ s f, P f = false → body s f = some s
  ok : ∀ s f, P f = true → dead f = false → f ∈ s.faces → ∃ s', body s f = some s' ∧ s'.fibVer = s.fibVer ∧ Forwarded s s' [f]
  bad : ∀ s f, P f = true → dead f = true → f ∈ s.faces → f ∈ s.nexthops → ∀ s', body s f = some s' → s'.fibVer ≠ s.fibVer

theorem Forwarded.refl (s : St) : Forwarded s s [] := ⟨by simp, rfl, rfl, rfl, fun _ h => (by cases h), fun _ h => h⟩

theorem Forwarded.trans {s s' s'' : St} {a b : List FaceId} (h : Forwarded s s' a) (h' : Forwarded s' s'' b) : Forwarded s s'' (a ++ b) := by
  refine ⟨by rw [h'.tried, h.tried, List.append_assoc], h'.faces.trans h.faces, h'.nexthops.trans h.nexthops, h'.ins.trans h.ins, ?_, fun r hr => h'.kept r (h.kept r hr)⟩
  intro f hf
  rcases List.mem_append.1 hf with hf | hf
  · obtain ⟨r, hr⟩ := h.records f hf
    exact ⟨r, h'.kept _ hr⟩
  · exact h'.records f hf

theorem loop_ok {body : St → FaceId → Option St} {dead P : FaceId → Bool} (hb : Body body dead P) {ver : Nat} :
    ∀ (n i : Nat) (s : St), s.fibVer = ver → i + n = s.nexthops.length → (∀ f ∈ s.nexthops, f ∈ s.faces) → (∀ f ∈ s.nexthops.drop i, P f = true → dead f = false) →
    ∃ s', loopFrom body ver n i s = some s' ∧ Forwarded s s' ((s.nexthops.drop i).filter P)
  | 0, i, s, hv, hl, _, _ => by
    refine ⟨s, ?_, ?_⟩
    · unfold loopFrom; rw [if_neg (by simp [hv])]
    · rw [List.drop_of_length_le (by omega)]
      exact Forwarded.refl s
  | n + 1, i, s, hv, hl, hf, hd => by
    have hi : i < s.nexthops.length := by omega
    have hdrop : s.nexthops.drop i = s.nexthops[i] :: s.nexthops.drop (i + 1) := List.drop_eq_getElem_cons hi
    have hmem : s.nexthops[i] ∈ s.nexthops := List.getElem_mem hi
    rw [hdrop] at hd ⊢
    generalize hg : s.nexthops[i] = f at *
    have hget : s.nexthops[i]? = some f := by rw [List.getElem?_eq_getElem hi, hg]
    have hgo : loopFrom body ver (n + 1) i s = (body s f).bind (fun s => loopFrom body ver n (i + 1) s) := by
      rw [loopFrom, if_neg (by simp [hv]), hget]
      rfl
    rw [hgo]
    cases hp : P f with
    | false =>
      obtain ⟨s', h1, h2⟩ := loop_ok hb n (i + 1) s hv (by omega) hf (fun g hg => hd g (List.mem_cons_of_mem _ hg))
      refine ⟨s', ?_, ?_⟩
      · rw [hb.skip s f hp]; exact h1
      · rw [List.filter_cons_of_neg (by simp [hp])]; exact h2
    | true =>
      obtain ⟨s1, h1, h2, h3⟩ := hb.ok s f hp (hd f (List.mem_cons_self ..) hp) (hf f hmem)
      obtain ⟨s', h4, h5⟩ := loop_ok hb n (i + 1) s1 (h2.trans hv) (by rw [h3.nexthops]; omega) (by rw [h3.nexthops, h3.faces]; exact hf)
        (by rw [h3.nexthops]; exact fun g hg => hd g (List.mem_cons_of_mem _ hg))
      refine ⟨s', ?_, ?_⟩
      · rw [h1]; exact h4
      · rw [List.filter_cons_of_pos hp]
        rw [h3.nexthops] at h5
        exact h3.trans h5

theorem loop_bad {body : St → FaceId → Option St} {dead P : FaceId → Bool} (hb : Body body dead P) {ver : Nat} :
    ∀ (n i : Nat) (s : St), i + n = s.nexthops.length → (∀ f ∈ s.nexthops, f ∈ s.faces) → (∃ f ∈ s.nexthops.drop i, P f = true ∧ dead f = true) →
    loopFrom body ver n i s = none
  | 0, i, s, hl, _, hd => by
    rw [List.drop_of_length_le (by omega)] at hd
    obtain ⟨f, hf, _⟩ := hd
    cases hf
  | n + 1, i, s, hl, hf, hd => by
    have hi : i < s.nexthops.length := by omega
    have hdrop : s.nexthops.drop i = s.nexthops[i] :: s.nexthops.drop (i + 1) := List.drop_eq_getElem_cons hi
    have hmem : s.nexthops[i] ∈ s.nexthops := List.getElem_mem hi
    rw [hdrop] at hd
    generalize hg : s.nexthops[i] = f at *
    have hget : s.nexthops[i]? = some f := by rw [List.getElem?_eq_getElem hi, hg]
    by_cases hv : s.fibVer = ver
    · have hgo : loopFrom body ver (n + 1) i s = (body s f).bind (fun s => loopFrom body ver n (i + 1) s) := by
        rw [loopFrom, if_neg (by simp [hv]), hget]
        rfl
      rw [hgo]
      by_cases hp : P f = true ∧ dead f = true
      · cases h : body s f with
        | none => rfl
        | some s1 =>
          have := hb.bad s f hp.1 hp.2 (hf f hmem) hmem s1 h
          show loopFrom body ver n (i + 1) s1 = none
          unfold loopFrom
          rw [if_pos (by rw [← hv]; exact this)]
      · have hd' : ∃ g ∈ s.nexthops.drop (i + 1), P g = true ∧ dead g = true := by
          obtain ⟨g, h1, h2⟩ := hd
          rcases List.mem_cons.1 h1 with rfl | h1
          · exact absurd h2 hp
          · exact ⟨g, h1, h2⟩
        cases hq : P f with
        | false =>
          rw [hb.skip s f hq]
          exact loop_bad hb n (i + 1) s (by omega) hf hd'
        | true =>
          have hdf : dead f = false := by
            cases h : dead f with
            | false => rfl
            | true => exact absurd ⟨hq, h⟩ hp
          obtain ⟨s1, h1, h2, h3⟩ := hb.ok s f hq hdf (hf f hmem)
          rw [h1]
          exact loop_bad hb n (i + 1) s1 (by rw [h3.nexthops]; omega) (by rw [h3.nexthops, h3.faces]; exact hf) (by rw [h3.nexthops]; exact hd')
    · rw [loopFrom, if_pos hv]

theorem forNextHops_spec {body : St → FaceId → Option St} {dead P : FaceId → Bool} (hb : Body body dead P) (s : St) (hf : ∀ f ∈ s.nexthops, f ∈ s.faces) :
    (forNextHops body s = none ↔ ∃ f ∈ s.nexthops, P f = true ∧ dead f = true) ∧
    (∀ s', forNextHops body s = some s' → Forwarded s s' (s.nexthops.filter P)) := by
  by_cases h : ∃ f ∈ s.nexthops, P f = true ∧ dead f = true
  · have := loop_bad hb (ver := s.fibVer) s.nexthops.length 0 s (by omega) hf (by simpa using h)
    refine ⟨⟨fun _ => h, fun _ => this⟩, fun s' hs => ?_⟩
    rw [show forNextHops body s = none from this] at hs
    cases hs
  · obtain ⟨s', h1, h2⟩ := loop_ok hb (ver := s.fibVer) s.nexthops.length 0 s rfl (by omega) hf (fun f hm hp => by
      cases hd : dead f with
      | false => rfl
      | true => exact absurd ⟨f, by simpa using hm, hp, hd⟩ h)
    have h1' : forNextHops body s = some s' := h1
    refine ⟨⟨fun hn => (by rw [h1'] at hn; cases hn), fun hx => absurd hx h⟩, fun s'' hs => ?_⟩
    rw [h1'] at hs
    cases hs
    simpa using h2

theorem outgoing_ok {dead zero : FaceId → Bool} {s : St} {f : FaceId} (hz : zero f = false) (hd : dead f = false) (hf : f ∈ s.faces) :
    ∃ s' r, onOutgoingInterest dead zero s f = (s', some r) ∧ s'.fibVer = s.fibVer ∧ (f, r) ∈ s'.outs ∧ Forwarded s s' [f] := by
  unfold onOutgoingInterest
  rw [if_neg (by simp [hz])]
  generalize hi : insertOutRecord s f = x
  obtain ⟨s1, r⟩ := x
  obtain ⟨h1, h2, h3, h4, h5, h6, h7⟩ := insert_spec hi
  refine ⟨_, r, rfl, ?_, ?_, ?_⟩ <;> rw [sendOn_ok (by rw [h3]; exact hf) hd]
  · exact h5
  · exact h1
  · refine ⟨?_, h3, h4, h6, ?_, h2⟩
    · show s1.tried ++ [f] = _
      rw [h7]
    · intro g hg
      rw [List.mem_singleton.1 hg]
      exact ⟨r, h1⟩

theorem outgoing_dead {dead zero : FaceId → Bool} {s : St} {f : FaceId} (hz : zero f = false) (hd : dead f = true) (hf : f ∈ s.faces) :
    ∃ s' r, onOutgoingInterest dead zero s f = (s', some r) ∧ (f, r) ∉ s'.outs ∧ (f ∈ s.nexthops → s'.fibVer ≠ s.fibVer) ∧
      s'.nexthops = s.nexthops.filter (· != f) ∧ s'.tried = s.tried ++ [f] := by
  unfold onOutgoingInterest
  rw [if_neg (by simp [hz])]
  generalize hi : insertOutRecord s f = x
  obtain ⟨s1, r⟩ := x
  obtain ⟨h1, h2, h3, h4, h5, h6, h7⟩ := insert_spec hi
  refine ⟨_, r, rfl, ?_, ?_, ?_, ?_⟩ <;> rw [sendOn_dead (by rw [h3]; exact hf) hd] <;> unfold removeFace
  · simp
  · intro hn
    rw [← h4] at hn
    dsimp only
    rw [if_pos (by simpa using hn), h5]
    omega
  · dsimp only; rw [h4]
  · dsimp only; rw [h7]

theorem outgoing_zero {dead zero : FaceId → Bool} {s : St} {f : FaceId} (hz : zero f = true) : onOutgoingInterest dead zero s f = (s, none) := by
  unfold onOutgoingInterest
  rw [if_pos hz]

theorem mark_ok {s : St} {f : FaceId} {r : Nat} (h : (f, r) ∈ s.outs) : mark s f r = some { s with marked := s.marked ++ [(f, r)] } := by
  unfold mark
  rw [if_pos (by simpa using h)]

theorem mark_bad {s : St} {f : FaceId} {r : Nat} (h : (f, r) ∉ s.outs) : mark s f r = none := by
  unfold mark
  rw [if_neg (by simpa using h)]

theorem learnBody_spec (e : Env) : Body (learnBody e) e.dead (Wanted e) := by
  refine ⟨?_, ?_, ?_⟩
  · intro s f hp
    unfold learnBody
    by_cases he : e.eligible f
    · have hz : e.zero f = true := by simpa [Wanted, he] using hp
      rw [if_neg (by simp [he]), outgoing_zero hz]
    · rw [if_pos (by simp [he])]
  · intro s f hp hd hf
    simp only [Wanted, Bool.and_eq_true, Bool.not_eq_true'] at hp
    unfold learnBody
    rw [if_neg (by simp [hp.1])]
    obtain ⟨s', r, h1, h2, h3, h4⟩ := outgoing_ok (dead := e.dead) hp.2 hd hf
    rw [h1]
    refine ⟨_, mark_ok h3, h2, ⟨h4.tried, h4.faces, h4.nexthops, h4.ins, h4.records, h4.kept⟩⟩
  · intro s f hp hd hf _ s' hs
    simp only [Wanted, Bool.and_eq_true, Bool.not_eq_true'] at hp
    unfold learnBody at hs
    rw [if_neg (by simp [hp.1])] at hs
    obtain ⟨s1, r, h1, h2, -⟩ := outgoing_dead (dead := e.dead) hp.2 hd hf
    rw [h1] at hs
    dsimp only at hs
    rw [mark_bad h2] at hs
    cases hs

theorem multicastBody_spec (e : Env) : Body (fun s f =>
    if e.retx f = .suppress then some s
    else if !e.eligible f then some s
    else
      match onOutgoingInterest e.dead e.zero s f with
      | (s, some r) => if e.retx f = .forward then mark s f r else some s
      | (s, none) => some s) e.dead (WantedUnsuppressed e) := by
  refine ⟨?_, ?_, ?_⟩
  · intro s f hp
    by_cases hr : e.retx f = .suppress
    · rw [if_pos hr]
    · rw [if_neg hr]
      by_cases he : e.eligible f
      · have hz : e.zero f = true := by simpa [WantedUnsuppressed, Wanted, he, hr] using hp
        rw [if_neg (by simp [he]), outgoing_zero hz]
      · rw [if_pos (by simp [he])]
  · intro s f hp hd hf
    simp only [WantedUnsuppressed, Wanted, Bool.and_eq_true, Bool.not_eq_true', decide_eq_true_eq] at hp
    rw [if_neg hp.1, if_neg (by simp [hp.2.1])]
    obtain ⟨s', r, h1, h2, h3, h4⟩ := outgoing_ok (dead := e.dead) hp.2.2 hd hf
    rw [h1]
    dsimp only
    split
    · refine ⟨_, mark_ok h3, h2, ⟨h4.tried, h4.faces, h4.nexthops, h4.ins, h4.records, h4.kept⟩⟩
    · exact ⟨_, rfl, h2, h4⟩
  · intro s f hp hd hf hn s' hs
    simp only [WantedUnsuppressed, Wanted, Bool.and_eq_true, Bool.not_eq_true', decide_eq_true_eq] at hp
    rw [if_neg hp.1, if_neg (by simp [hp.2.1])] at hs
    obtain ⟨s1, r, h1, h2, h3, -⟩ := outgoing_dead (dead := e.dead) hp.2.2 hd hf
    rw [h1] at hs
    dsimp only at hs
    split at hs
    · rw [mark_bad h2] at hs; cases hs
    · cases hs
      exact h3 hn

theorem accessBody_spec (e : Env) : Body (fun s f => if !e.eligible f then some s else some (onOutgoingInterest e.dead e.zero s f).1) e.dead (Wanted e) := by
  refine ⟨?_, ?_, ?_⟩
  · intro s f hp
    by_cases he : e.eligible f
    · have hz : e.zero f = true := by simpa [Wanted, he] using hp
      rw [if_neg (by simp [he]), outgoing_zero hz]
    · rw [if_pos (by simp [he])]
  · intro s f hp hd hf
    simp only [Wanted, Bool.and_eq_true, Bool.not_eq_true'] at hp
    rw [if_neg (by simp [hp.1])]
    obtain ⟨s', r, h1, h2, h3, h4⟩ := outgoing_ok (dead := e.dead) hp.2 hd hf
    rw [h1]
    exact ⟨_, rfl, h2, h4⟩
  · intro s f hp hd hf hn s' hs
    simp only [Wanted, Bool.and_eq_true, Bool.not_eq_true'] at hp
    rw [if_neg (by simp [hp.1])] at hs
    obtain ⟨s1, r, h1, h2, h3, -⟩ := outgoing_dead (dead := e.dead) hp.2 hd hf
    rw [h1] at hs
    cases hs
    exact h3 hn

theorem learnFrom_spec (e : Env) : ∀ (l : List FaceId) (s : St), (∀ f ∈ l, f ∈ s.faces) →
    (learnFrom e l s = none ↔ ∃ f ∈ l, Wanted e f = true ∧ e.dead f = true) ∧
    (∀ s', learnFrom e l s = some s' → Forwarded s s' (l.filter (Wanted e)))
  | [], s, _ => ⟨⟨fun h => (by cases h), fun ⟨f, hf, _⟩ => (by cases hf)⟩, fun s' h => by cases h; exact Forwarded.refl s⟩
  | f :: l, s, hl => by
    have hb := learnBody_spec e
    have hrest : ∀ g ∈ l, g ∈ s.faces := fun g hg => hl g (List.mem_cons_of_mem _ hg)
    show ((learnBody e s f).bind (learnFrom e l) = none ↔ _) ∧ ∀ s', (learnBody e s f).bind (learnFrom e l) = some s' → _
    cases hp : Wanted e f with
    | false =>
      rw [hb.skip s f hp, List.filter_cons_of_neg (by simp [hp])]
      obtain ⟨h1, h2⟩ := learnFrom_spec e l s hrest
      refine ⟨h1.trans ⟨fun ⟨g, hg, h⟩ => ⟨g, List.mem_cons_of_mem _ hg, h⟩, fun ⟨g, hg, h⟩ => ?_⟩, h2⟩
      rcases List.mem_cons.1 hg with rfl | hg
      · rw [hp] at h; cases h.1
      · exact ⟨g, hg, h⟩
    | true =>
      cases hd : e.dead f with
      | false =>
        obtain ⟨s1, h1, -, h3⟩ := hb.ok s f hp hd (hl f (List.mem_cons_self ..))
        rw [h1, List.filter_cons_of_pos hp]
        obtain ⟨g1, g2⟩ := learnFrom_spec e l s1 (by rw [h3.faces]; exact hrest)
        refine ⟨g1.trans ⟨fun ⟨g, hg, h⟩ => ⟨g, List.mem_cons_of_mem _ hg, h⟩, fun ⟨g, hg, h⟩ => ?_⟩, fun s' hs => h3.trans (g2 s' hs)⟩
        rcases List.mem_cons.1 hg with rfl | hg
        · rw [hd] at h; cases h.2
        · exact ⟨g, hg, h⟩
      | true =>
        have : learnBody e s f = none := by
          simp only [Wanted, Bool.and_eq_true, Bool.not_eq_true'] at hp
          unfold learnBody
          rw [if_neg (by simp [hp.1])]
          obtain ⟨s1, r, h1, h2, -⟩ := outgoing_dead (dead := e.dead) hp.2 hd (hl f (List.mem_cons_self ..))
          rw [h1]
          exact mark_bad h2
        rw [this]
        exact ⟨⟨fun _ => ⟨f, List.mem_cons_self .., hp, hd⟩, fun _ => rfl⟩, fun s' hs => by cases hs⟩

/-! ### Properties -/

/-- C111: Data goes to each face that waits for it, once, whichever of these fail; those do not wait any more, and the faces that failed are removed, but
no other ones. -/
theorem C111_data (dead : FaceId → Bool) : ∀ (pending : List FaceId) (s : St), pending.Nodup → (∀ f ∈ pending, f ∈ s.faces) →
    (sendDataToAll dead s pending).tried = s.tried ++ pending ∧
    (∀ f, f ∈ (sendDataToAll dead s pending).ins ↔ f ∈ s.ins ∧ f ∉ pending) ∧
    (∀ f, f ∈ (sendDataToAll dead s pending).faces ↔ f ∈ s.faces ∧ ¬(f ∈ pending ∧ dead f = true))
  | [], s, _, _ => by simp [sendDataToAll]
  | f :: l, s, hn, hf => by
    rw [List.nodup_cons] at hn
    have hff : f ∈ s.faces := hf f (List.mem_cons_self ..)
    have key : (sendData dead s f).tried = s.tried ++ [f] ∧ (∀ g, g ∈ (sendData dead s f).ins ↔ g ∈ s.ins ∧ g ≠ f) ∧
        (∀ g, g ∈ (sendData dead s f).faces ↔ g ∈ s.faces ∧ ¬(g = f ∧ dead f = true)) := by
      unfold sendData
      dsimp only
      rw [if_pos (by simpa using hff)]
      cases hd : dead f with
      | false =>
        rw [sendOn_ok (by exact hff) hd]
        simp
      | true =>
        rw [sendOn_dead (by exact hff) hd]
        unfold removeFace
        simp
    obtain ⟨k1, k2, k3⟩ := key
    have ih := C111_data dead l (sendData dead s f) hn.2 (fun g hg => by
      rw [k3]
      refine ⟨hf g (List.mem_cons_of_mem _ hg), fun h => ?_⟩
      rw [h.1] at hg
      exact hn.1 hg)
    obtain ⟨i1, i2, i3⟩ := ih
    have hgo : sendDataToAll dead s (f :: l) = sendDataToAll dead (sendData dead s f) l := rfl
    rw [hgo]
    refine ⟨by rw [i1, k1]; simp, fun g => ?_, fun g => ?_⟩
    · rw [i2, k2, List.mem_cons]
      constructor
      · rintro ⟨⟨a, b⟩, c⟩; exact ⟨a, fun h => h.elim b c⟩
      · rintro ⟨a, b⟩; exact ⟨⟨a, fun h => b (Or.inl h)⟩, fun h => b (Or.inr h)⟩
    · rw [i3, k3, List.mem_cons]
      constructor
      · rintro ⟨⟨a, b⟩, c⟩
        refine ⟨a, ?_⟩
        rintro ⟨rfl | h, h'⟩
        · exact b ⟨rfl, h'⟩
        · exact c ⟨h, h'⟩
      · rintro ⟨a, b⟩
        refine ⟨⟨a, ?_⟩, fun h => b ⟨Or.inr h.1, h.2⟩⟩
        rintro ⟨rfl, h⟩
        exact b ⟨Or.inl rfl, h⟩

/-- C111: and so do Nacks. -/
theorem C111_nacks (dead : FaceId → Bool) : ∀ (l : List FaceId) (s : St), l.Nodup → (∀ f ∈ l, f ∈ s.faces ∧ f ∈ s.ins) →
    (sendNacks dead s l).tried = s.tried ++ l ∧
    (∀ f, f ∈ (sendNacks dead s l).ins ↔ f ∈ s.ins ∧ f ∉ l) ∧
    (∀ f, f ∈ (sendNacks dead s l).faces ↔ f ∈ s.faces ∧ ¬(f ∈ l ∧ dead f = true))
  | [], s, _, _ => by simp [sendNacks]
  | f :: l, s, hn, hf => by
    rw [List.nodup_cons] at hn
    obtain ⟨hff, hfi⟩ := hf f (List.mem_cons_self ..)
    have key : (sendNack dead s f).tried = s.tried ++ [f] ∧ (∀ g, g ∈ (sendNack dead s f).ins ↔ g ∈ s.ins ∧ g ≠ f) ∧
        (∀ g, g ∈ (sendNack dead s f).faces ↔ g ∈ s.faces ∧ ¬(g = f ∧ dead f = true)) := by
      unfold sendNack
      rw [if_neg (by simpa using hff), if_neg (by simpa using hfi)]
      cases hd : dead f with
      | false =>
        rw [sendOn_ok (by exact hff) hd]
        simp
      | true =>
        rw [sendOn_dead (by exact hff) hd]
        unfold removeFace
        simp
    obtain ⟨k1, k2, k3⟩ := key
    have hne : ∀ g ∈ l, g ≠ f := fun g hg h => by rw [h] at hg; exact hn.1 hg
    have ih := C111_nacks dead l (sendNack dead s f) hn.2 (fun g hg => by
      rw [k3, k2]
      have := hf g (List.mem_cons_of_mem _ hg)
      exact ⟨⟨this.1, fun h => hne g hg h.1⟩, this.2, hne g hg⟩)
    obtain ⟨i1, i2, i3⟩ := ih
    have hgo : sendNacks dead s (f :: l) = sendNacks dead (sendNack dead s f) l := rfl
    rw [hgo]
    refine ⟨by rw [i1, k1]; simp, fun g => ?_, fun g => ?_⟩
    · rw [i2, k2, List.mem_cons]
      constructor
      · rintro ⟨⟨a, b⟩, c⟩; exact ⟨a, fun h => h.elim b c⟩
      · rintro ⟨a, b⟩; exact ⟨⟨a, fun h => b (Or.inl h)⟩, fun h => b (Or.inr h)⟩
    · rw [i3, k3, List.mem_cons]
      constructor
      · rintro ⟨⟨a, b⟩, c⟩
        refine ⟨a, ?_⟩
        rintro ⟨rfl | h, h'⟩
        · exact b ⟨rfl, h'⟩
        · exact c ⟨h, h'⟩
      · rintro ⟨a, b⟩
        refine ⟨⟨a, ?_⟩, fun h => b ⟨Or.inr h.1, h.2⟩⟩
        rintro ⟨rfl, h⟩
        exact b ⟨Or.inl rfl, h⟩

/-- C111, the multicast strategy: an Interest goes to each next hop it is to go to, in order and once — if none of these fails. If one does, behaviour is
undefined: `↔`. -/
theorem C111_multicast_partial (e : Env) (s : St) (hf : ∀ f ∈ s.nexthops, f ∈ s.faces) :
    (multicast e s = none ↔ ∃ f ∈ s.nexthops, WantedUnsuppressed e f = true ∧ e.dead f = true) ∧
    (∀ s', multicast e s = some s' → Forwarded s s' (s.nexthops.filter (WantedUnsuppressed e))) :=
  forNextHops_spec (multicastBody_spec e) s hf

/-- C111: likewise the access strategy … -/
theorem C111_access_partial (e : Env) (s : St) (hf : ∀ f ∈ s.nexthops, f ∈ s.faces) :
    (accessMulticast e s = none ↔ ∃ f ∈ s.nexthops, Wanted e f = true ∧ e.dead f = true) ∧
    (∀ s', accessMulticast e s = some s' → Forwarded s s' (s.nexthops.filter (Wanted e))) :=
  forNextHops_spec (accessBody_spec e) s hf

/-- … and the self-learning strategy, with its next hops … -/
theorem C111_learn_partial (e : Env) (s : St) (hf : ∀ f ∈ s.nexthops, f ∈ s.faces) :
    (learnMulticast e s = none ↔ ∃ f ∈ s.nexthops, Wanted e f = true ∧ e.dead f = true) ∧
    (∀ s', learnMulticast e s = some s' → Forwarded s s' (s.nexthops.filter (Wanted e))) :=
  forNextHops_spec (learnBody_spec e) s hf

/-- … and with all faces. -/
theorem C111_broadcast_partial (e : Env) (s : St) :
    (learnBroadcast e s = none ↔ ∃ f ∈ s.faces, Wanted e f = true ∧ e.dead f = true) ∧
    (∀ s', learnBroadcast e s = some s' → Forwarded s s' (s.faces.reverse.filter (Wanted e))) := by
  have := learnFrom_spec e s.faces.reverse s (fun f hf => List.mem_reverse.1 hf)
  refine ⟨this.1.trans ⟨?_, ?_⟩, this.2⟩ <;> rintro ⟨f, hf, h⟩
  · exact ⟨f, List.mem_reverse.1 hf, h⟩
  · exact ⟨f, List.mem_reverse.2 hf, h⟩

/-- C111: strategies that send to one next hop and are done with it (best-route, random) are not affected: the face is tried, and no other one is removed. -/
theorem C111_one (e : Env) (s : St) {f : FaceId} (hf : f ∈ s.faces) (hz : e.zero f = false) :
    ∃ s', sendOne e f s = some s' ∧ s'.tried = s.tried ++ [f] ∧ ∀ g, g ≠ f → (g ∈ s'.nexthops ↔ g ∈ s.nexthops) := by
  refine ⟨_, rfl, ?_⟩
  cases hd : e.dead f with
  | false =>
    obtain ⟨s', r, h1, h2, h3, h4⟩ := outgoing_ok (dead := e.dead) hz hd hf
    rw [h1]
    exact ⟨h4.tried, fun g _ => by rw [h4.nexthops]⟩
  | true =>
    obtain ⟨s', r, h1, -, -, h2, h3⟩ := outgoing_dead (dead := e.dead) hz hd hf
    rw [h1]
    refine ⟨h3, fun g hg => ?_⟩
    show g ∈ s'.nexthops ↔ _
    rw [h2]
    simp [hg]

/-- C111, ASF: the FIB entry is used after it has been destroyed if and only if the face that fails is its only next hop. -/
theorem C111_asf_partial (e : Env) (s : St) {f : FaceId} (hf : f ∈ s.faces) (hn : f ∈ s.nexthops) :
    asfForward e f s = none ↔ e.zero f = false ∧ e.dead f = true ∧ ∀ g ∈ s.nexthops, g = f := by
  unfold asfForward
  dsimp only
  cases hz : e.zero f with
  | true =>
    rw [outgoing_zero hz]
    dsimp only
    rw [if_neg (fun h => by rw [h] at hn; cases hn)]
    simp
  | false =>
    cases hd : e.dead f with
    | false =>
      obtain ⟨s', r, h1, h2, h3, h4⟩ := outgoing_ok (dead := e.dead) hz hd hf
      rw [h1]
      dsimp only
      rw [h4.nexthops, if_neg (fun h => by rw [h] at hn; cases hn)]
      simp
    | true =>
      obtain ⟨s', r, h1, -, -, h2, h3⟩ := outgoing_dead (dead := e.dead) hz hd hf
      rw [h1]
      dsimp only
      rw [h2]
      simp only [List.filter_eq_nil_iff, bne_iff_ne, ne_eq, Classical.not_not, true_and]
      constructor
      · intro h
        split at h
        · assumption
        · cases h
      · intro h
        rw [if_pos h]

/-- C111, new next hops: behaviour is undefined if the face fails for one of the affected entries and this is not the last one. -/
theorem C111_new_next_hop (dead : FaceId → Bool) (s : St) {f : FaceId} (hf : f ∈ s.faces) (hn : f ∈ s.nexthops) (a b : List Bool) (c : Bool) (hd : dead f = true)
    (ha : ∀ x ∈ a, x = false) : onNewNextHop dead f s (a ++ true :: c :: b) = none := by
  have h0 : ∀ (a l : List Bool), (∀ x ∈ a, x = false) → (a ++ l).foldlM (afterNewNextHop dead s.fibVer f) s = l.foldlM (afterNewNextHop dead s.fibVer f) s := by
    intro a l
    induction a with
    | nil => intro _; rfl
    | cons x a ih =>
      intro ha
      have hx := ha x (List.mem_cons_self ..)
      subst hx
      show ((afterNewNextHop dead s.fibVer f s false).bind (fun s' => (a ++ l).foldlM (afterNewNextHop dead s.fibVer f) s')) = _
      unfold afterNewNextHop
      rw [if_neg (by simp)]
      exact ih (fun y hy => ha y (List.mem_cons_of_mem _ hy))
  unfold onNewNextHop
  rw [h0 a _ ha]
  show ((afterNewNextHop dead s.fibVer f s true).bind (fun s' => (c :: b).foldlM (afterNewNextHop dead s.fibVer f) s')) = _
  have h1 : afterNewNextHop dead s.fibVer f s true = some (sendOn dead s f) := by
    unfold afterNewNextHop
    rw [if_neg (by simp)]
    rfl
  rw [h1]
  have hv : (sendOn dead s f).fibVer = s.fibVer + 1 := by
    rw [sendOn_dead hf hd]
    unfold removeFace
    dsimp only
    rw [if_pos (by simpa using hn)]
  show ((afterNewNextHop dead s.fibVer f (sendOn dead s f) c).bind (fun s' => b.foldlM (afterNewNextHop dead s.fibVer f) s')) = _
  unfold afterNewNextHop
  rw [if_pos (by rw [hv]; omega)]
  rfl

/-- C111: which faces fail so: WebSocket faces whose connection is being closed, for instance by the peer. -/
theorem C111_websocket {now : Nat} {c : Ws.Conn} (h : Ws.Up now c) (hs : c.sess ≠ .live) (p : Lp.Bytes) : ¬Ws.Exists (Ws.send c p) := by
  have hc : Ws.cstep now c (.send p) = some (Ws.send c p) := rfl
  rcases Ws.cstep_up h hc with hu | hd
  · exfalso
    have hst := hu.state
    unfold Ws.send at hst
    rw [if_neg (by simp [h.state])] at hst
    unfold Ws.doSend at hst
    rw [if_pos h.state, if_neg (by exact hs)] at hst
    unfold Ws.processErrorCode at hst
    rw [if_neg (by show ¬(c.state = _ ∨ c.state = _ ∨ c.state = _); rw [h.state]; decide)] at hst
    unfold Ws.doClose Ws.setState Ws.Conn.note at hst
    simp [h.state, Tp.validTransition] at hst
  · exact hd.gone

/-- A peer gets there by connecting and sending a close frame. -/
example : (Ws.run {} [.opened false, .on 0 .closeFrame]).any (fun s => s.conns.all (fun c => c.sess == .closing && c.known && c.state == .up)) = true := by decide +kernel

/-- C111: stream transports do not: sending leaves their state alone … -/
theorem C111_stream (s : Tp.St) (p : Lp.Bytes) : (Tp.send s p).state = s.state := by
  have hq : ∀ s : Tp.St, (Tp.sendFromQueue s).state = s.state := by
    intro s
    unfold Tp.sendFromQueue
    first
      | rfl
      | (split <;> rfl)
  have h : ∀ s : Tp.St, (Tp.doSend s p).state = s.state := by
    intro s
    unfold Tp.doSend
    split
    · rfl
    · dsimp only
      split
      · rw [hq]
      · rfl
  unfold Tp.send
  split
  · rw [h]; rfl
  · split
    · rw [h]
    · rfl

/-- … and neither do datagram transports. -/
theorem C111_datagram (f : Dg.Face) (p : Lp.Bytes) : (Dg.send f p).state = f.state := by
  unfold Dg.send
  split
  · rfl
  · dsimp only
    split <;> rfl

/-! ### Examples -/

/-- Three next hops, Interest from face 300. -/
abbrev exS : St := { faces := [257, 258, 259, 300, 301], nexthops := [258, 257, 259], ins := [300, 301] }
abbrev exE (d : List FaceId) : Env := { dead := fun f => d.contains f, zero := fun _ => false, eligible := fun f => f != 300, retx := fun _ => .new }

example : (multicast (exE []) exS).any (fun s => s.tried == [258, 257, 259] && s.outs == [(258, 0), (257, 1), (259, 2)]) = true := by decide +kernel
/-- Also the last one. -/
example : multicast (exE [259]) exS = none := by decide +kernel
example : accessMulticast (exE [257]) exS = none ∧ learnMulticast (exE [257]) exS = none ∧ learnBroadcast (exE [301]) exS = none := by decide +kernel
example : (sendOne (exE [258]) 258 exS).any (fun s => s.tried == [258] && s.nexthops == [257, 259] && s.outs == []) = true := by decide +kernel
example : asfForward (exE [258]) 258 { exS with nexthops := [258] } = none ∧ (asfForward (exE [258]) 258 exS).isSome := by decide +kernel
example : (sendDataToAll (fun f => f = 300) exS [301, 300]).tried = [301, 300] ∧ (sendDataToAll (fun f => f = 300) exS [301, 300]).faces = [257, 258, 259, 301] := by
  decide +kernel
example : (sendNacks (fun _ => true) exS [300, 301]).tried = [300, 301] := by decide +kernel
example : onNewNextHop (fun f => f = 258) 258 exS [true, true] = none ∧ (onNewNextHop (fun f => f = 258) 258 exS [false, true]).isSome := by decide +kernel

end Verif.Re
