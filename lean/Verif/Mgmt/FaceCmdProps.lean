import Verif.Mgmt.FaceCmd

/-! C62: the command `faces/update`; C85: the dataset `faces/query`. -/
namespace Verif.FaceCmd

/-! ### Specification -/

/-- The persistency of a face may be set to `p`: it is that already, or has never been set, or the transport supports changes
and `p` is a real persistency. -/
def PersistencyOk (f : Face) (p : Persistency) : Prop :=
  p = f.persistency ∨ f.persistency = .none ∨ p ≠ .none ∧ f.flexible = true

/-- The MTU of a face may be overridden with `m`: it has a generic link service, its transport has a limited MTU, and `m` is at
least 64. -/
def MtuOk (f : Face) (m : Nat) : Prop := f.link ≠ none ∧ f.transportMtu ≠ -1 ∧ 64 ≤ m

/-- Local fields may be switched on only on a face of local scope; switching them off is no mistake. -/
def LocalFieldsOk (f : Face) (b : Bool) : Prop := b = true → f.isLocal = true

/-- Every property asked for is acceptable. -/
def AllOk (f : Face) (p : Params) : Prop :=
  (∀ b, p.localFields = some b → LocalFieldsOk f b) ∧ (∀ x, p.persistency = some x → PersistencyOk f x) ∧ ∀ m, p.mtu = some m → MtuOk f m

/-- The face the command is about: the one named, or the one it came from if none is named. -/
def Target (incoming : Option Nat) (p : Params) (id : Nat) : Prop := p.faceId ≠ 0 ∧ id = p.faceId ∨ p.faceId = 0 ∧ incoming = some id

/-- The value of a property after the command: as asked for, or as before. -/
def Applied {α : Type} (asked : Option α) (before after : α) : Prop := after = asked.getD before

/-! ### Lemmas -/

theorem canChange_iff (f : Face) (p : Persistency) : canChangePersistencyTo f p = true ↔ PersistencyOk f p := by
  unfold canChangePersistencyTo PersistencyOk
  grind

theorem canOverride_iff (f : Face) (m : Nat) : (f.link = none ∨ canOverrideMtuTo f (actualMtu m) = false) ↔ ¬ MtuOk f m := by
  unfold canOverrideMtuTo MtuOk actualMtu mtuUnlimited minMtu ssizeMax
  by_cases h : f.transportMtu = -1
  · simp [h]
  · rw [if_neg h]
    simp only [decide_eq_false_iff_not]
    constructor
    · rintro (h1 | h1) ⟨h2, -, h3⟩
      · exact h2 h1
      · omega
    · intro h1
      by_cases h2 : f.link = none
      · exact Or.inl h2
      · right
        intro h3
        exact h1 ⟨h2, h, by omega⟩

theorem invalid_local (f : Face) (p : Params) (b : Bool) :
    (invalidProps f p).localFields = some b ↔ p.localFields = some b ∧ ¬ LocalFieldsOk f b := by
  unfold invalidProps LocalFieldsOk
  dsimp only
  cases h : p.localFields with
  | none => simp
  | some x => cases x <;> cases b <;> cases f.isLocal <;> simp

theorem invalid_persistency (f : Face) (p : Params) (x : Persistency) :
    (invalidProps f p).persistency = some x ↔ p.persistency = some x ∧ ¬ PersistencyOk f x := by
  unfold invalidProps
  dsimp only
  cases h : p.persistency with
  | none => simp
  | some y =>
    dsimp only
    by_cases hy : canChangePersistencyTo f y = true
    · rw [if_pos hy]
      simp only [reduceCtorEq, Option.some.injEq, false_iff, not_and, Classical.not_not]
      rintro rfl; exact (canChange_iff ..).1 hy
    · rw [if_neg hy]
      simp only [Option.some.injEq]
      exact ⟨fun h => ⟨h, by rw [← h, ← canChange_iff]; exact hy⟩, fun h => h.1⟩

theorem invalid_mtu (f : Face) (p : Params) (m : Nat) :
    (invalidProps f p).mtu = some m ↔ p.mtu = some m ∧ ¬ MtuOk f m := by
  unfold invalidProps
  dsimp only
  cases h : p.mtu with
  | none => simp
  | some y =>
    dsimp only
    by_cases hy : f.link = none ∨ canOverrideMtuTo f (actualMtu y) = false
    · rw [if_pos hy]
      simp only [Option.some.injEq]
      exact ⟨fun h => ⟨h, by rw [← h, ← canOverride_iff]; exact hy⟩, fun h => h.1⟩
    · rw [if_neg hy]
      rw [canOverride_iff, Classical.not_not] at hy
      simp only [reduceCtorEq, Option.some.injEq, false_iff, not_and, Classical.not_not]
      rintro rfl; exact hy

theorem valid_iff (f : Face) (p : Params) : areParamsValid f p = true ↔ AllOk f p := by
  unfold areParamsValid AllOk
  simp only [Bool.and_eq_true, Option.isNone_iff_eq_none]
  constructor
  · rintro ⟨⟨h1, h2⟩, h3⟩
    refine ⟨fun b hb => ?_, fun x hx => ?_, fun m hm => ?_⟩
    · exact Classical.not_not.1 fun hn => by rw [(invalid_local f p b).2 ⟨hb, hn⟩] at h1; cases h1
    · exact Classical.not_not.1 fun hn => by rw [(invalid_persistency f p x).2 ⟨hx, hn⟩] at h2; cases h2
    · exact Classical.not_not.1 fun hn => by rw [(invalid_mtu f p m).2 ⟨hm, hn⟩] at h3; cases h3
  · rintro ⟨h1, h2, h3⟩
    refine ⟨⟨?_, ?_⟩, ?_⟩
    · cases h : (invalidProps f p).localFields with
      | none => rfl
      | some b => obtain ⟨hb, hn⟩ := (invalid_local f p b).1 h; exact absurd (h1 b hb) hn
    · cases h : (invalidProps f p).persistency with
      | none => rfl
      | some b => obtain ⟨hb, hn⟩ := (invalid_persistency f p b).1 h; exact absurd (h2 b hb) hn
    · cases h : (invalidProps f p).mtu with
      | none => rfl
      | some b => obtain ⟨hb, hn⟩ := (invalid_mtu f p b).1 h; exact absurd (h3 b hb) hn

theorem target_eq (incoming : Option Nat) (p : Params) (id : Nat) :
    (if p.faceId = 0 then incoming else some p.faceId) = some id ↔ Target incoming p id := by
  unfold Target
  by_cases h : p.faceId = 0
  · simp [h]
  · simp [h, eq_comm]

/-! ### Properties -/

/-- C62. A command whose target face cannot be determined or does not exist is answered with 404 and changes nothing. -/
theorem C62_not_found (t : Faces) (incoming : Option Nat) (p : Params) (h : ∀ id, Target incoming p id → t id = none) :
    updateFace t incoming p = (t, ⟨404, none⟩) := by
  unfold updateFace
  cases hid : (if p.faceId = 0 then incoming else some p.faceId) with
  | none => rfl
  | some id => simp only [h id ((target_eq ..).1 hid)]

/-- C62. If any property asked for is not acceptable, the command is answered with 409, changes nothing at all, and the body names
exactly the unacceptable properties with the values asked for. -/
theorem C62_invalid (t : Faces) (incoming : Option Nat) (p : Params) (id : Nat) (f : Face) (hid : Target incoming p id) (hf : t id = some f)
    (hbad : ¬ AllOk f p) :
    (updateFace t incoming p).1 = t ∧ (updateFace t incoming p).2.code = 409 ∧ ∃ b, (updateFace t incoming p).2.body = some b ∧
      (∀ x, b.localFields = some x ↔ p.localFields = some x ∧ ¬ LocalFieldsOk f x) ∧
      (∀ x, b.persistency = some x ↔ p.persistency = some x ∧ ¬ PersistencyOk f x) ∧
      (∀ x, b.mtu = some x ↔ p.mtu = some x ∧ ¬ MtuOk f x) ∧
      b.reliability = none ∧ b.congestion = none ∧ b.interval = none ∧ b.threshold = none := by
  have hv : areParamsValid f p = false := by
    cases h : areParamsValid f p with
    | false => rfl
    | true => exact absurd ((valid_iff f p).1 h) hbad
  unfold updateFace
  simp only [(target_eq incoming p id).2 hid, hf, hv, if_true]
  exact ⟨trivial, trivial, _, rfl, invalid_local f p, invalid_persistency f p, invalid_mtu f p, rfl, rfl, rfl, rfl⟩

/-- C62. If every property asked for is acceptable, the command is answered with 200; on a face with a generic link service every
property then has the value asked for, or its old value where none was asked for; nothing else about the face and no other face
changes; and the body reports the values now in effect. (An MTU beyond the range of the code is cut to its largest value. Only on
local faces are local fields touched, but there is nothing to apply on other faces, see `C62_local_fields`.) -/
theorem C62_valid (t : Faces) (incoming : Option Nat) (p : Params) (id : Nat) (f : Face) (o : Opts) (hid : Target incoming p id)
    (hf : t id = some f) (ho : f.link = some o) (hok : AllOk f p) (hl : f.isLocal = true ∨ o.localFields = false) :
    ∃ f' o', (updateFace t incoming p).1 id = some f' ∧ f'.link = some o' ∧
      Applied p.persistency f.persistency f'.persistency ∧
      Applied p.localFields o.localFields o'.localFields ∧
      Applied p.reliability o.reliability o'.reliability ∧
      Applied p.congestion o.congestion o'.congestion ∧
      Applied p.interval o.interval o'.interval ∧
      Applied p.threshold o.threshold o'.threshold ∧
      Applied (p.mtu.map (fun m => ((min (2 ^ 63 - 1) m : Nat) : Int))) o.overrideMtu o'.overrideMtu ∧
      f = { f' with persistency := f.persistency, link := f.link } ∧
      (∀ i, i ≠ id → (updateFace t incoming p).1 i = t i) ∧
      (updateFace t incoming p).2.code = 200 ∧
      ∃ b, (updateFace t incoming p).2.body = some b ∧ b.faceId = id ∧ b.persistency = some f'.persistency ∧
        b.localFields = some o'.localFields ∧ b.reliability = some o'.reliability ∧ b.congestion = some o'.congestion ∧
        b.interval = some o'.interval ∧ b.threshold = some o'.threshold ∧ b.mtu = copyMtu f' := by
  have hv : areParamsValid f p = true := (valid_iff f p).2 hok
  unfold updateFace
  simp only [(target_eq incoming p id).2 hid, hf, hv, Bool.true_eq_false, if_false]
  have hlf : (if f.isLocal = true then p.localFields.getD o.localFields else o.localFields) = p.localFields.getD o.localFields := by
    by_cases h : f.isLocal = true
    · rw [if_pos h]
    · rw [if_neg h]
      have h2 := hl.resolve_left h
      rw [h2]
      cases hp : p.localFields with
      | none => rfl
      | some b =>
        cases b with
        | false => rfl
        | true => exact absurd (hok.1 true hp rfl) h
  obtain ⟨o', ho', hch⟩ : ∃ o' : Opts, o' = { localFields := p.localFields.getD o.localFields, reliability := p.reliability.getD o.reliability, congestion := p.congestion.getD o.congestion, interval := p.interval.getD o.interval, threshold := p.threshold.getD o.threshold, overrideMtu := (p.mtu.map actualMtu).getD o.overrideMtu } ∧
      change f p = { f with persistency := p.persistency.getD f.persistency, link := some o' } :=
    ⟨_, rfl, by unfold change updateOptions; simp only [ho, hlf]⟩
  rw [hch]
  refine ⟨{ f with persistency := p.persistency.getD f.persistency, link := some o' }, o', by simp [put], rfl, rfl, ?_, ?_, ?_, ?_, ?_, ?_, rfl, ?_, trivial, _, rfl, ?_⟩
  · rw [ho']; rfl
  · rw [ho']; rfl
  · rw [ho']; rfl
  · rw [ho']; rfl
  · rw [ho']; rfl
  · rw [ho']; rfl
  · intro i hi; simp [put, hi]
  · simp [makeUpdateFaceResponse, copyMtu, getMtu]

/-- C62. What is reported about the MTU in the body: the smaller of the override and the transport's own limit, at most the largest
packet size. -/
theorem C62_reported_mtu (f : Face) (o : Opts) (ho : f.link = some o) (h1 : 0 ≤ o.overrideMtu) (h2 : 0 ≤ f.transportMtu) (m : Nat) :
    copyMtu f = some m ↔ (m : Int) = min (min o.overrideMtu f.transportMtu) 8800 := by
  unfold copyMtu getMtu maxPacket
  simp only [ho]
  rw [if_pos (by omega)]
  simp only [Option.some.injEq]
  omega

/-- C62. No sequence of update commands switches local fields on, on a face that is not of local scope. -/
theorem C62_local_fields (cmds : List (Option Nat × Params)) (t : Faces)
    (h : ∀ id f o, t id = some f → f.link = some o → o.localFields = true → f.isLocal = true) :
    ∀ id f o, cmds.foldl (fun t c => (updateFace t c.1 c.2).1) t id = some f → f.link = some o → o.localFields = true → f.isLocal = true := by
  induction cmds generalizing t with
  | nil => exact h
  | cons c cs ih =>
    apply ih
    intro id f o hf ho hl
    dsimp only at hf
    unfold updateFace at hf
    split at hf
    · exact h id f o hf ho hl
    · next id' _ =>
      split at hf
      · exact h id f o hf ho hl
      · next f' hf' =>
        split at hf
        · exact h id f o hf ho hl
        · simp only [put] at hf
          split at hf
          · next hh =>
            subst hh
            cases hf
            unfold change updateOptions at ho ⊢
            dsimp only at ho ⊢
            cases hlk : f'.link with
            | none => rw [hlk] at ho; simp [hlk] at ho
            | some o' =>
              rw [hlk] at ho
              simp only [Option.some.injEq] at ho ⊢
              subst ho
              dsimp only at hl
              by_cases hi : f'.isLocal = true
              · exact hi
              · rw [if_neg hi] at hl; exact h _ f' o' hf' hlk hl
          · exact h id f o hf ho hl

/-- C62 is violated on faces whose link service is not the generic one (such as the null face): every property but persistency and
MTU is ignored, yet the answer is 200. -/
theorem C62_violated_ignored (t : Faces) (incoming : Option Nat) (p : Params) (id : Nat) (f : Face) (hid : Target incoming p id)
    (hf : t id = some f) (ho : f.link = none) (hok : AllOk f p) :
    (updateFace t incoming p).2.code = 200 ∧ (updateFace t incoming p).1 id = some { f with persistency := p.persistency.getD f.persistency } := by
  have hv : areParamsValid f p = true := (valid_iff f p).2 hok
  unfold updateFace
  simp only [(target_eq incoming p id).2 hid, hf, hv, Bool.true_eq_false, if_false]
  simp [put, change, updateOptions, ho]

/-- C62. `faces/destroy` is answered with 200 whether or not the face exists; it closes that face and changes no other. -/
theorem C62_destroy (t : Faces) (id : Nat) :
    (destroyFace t id).2.code = 200 ∧ (∀ i, i ≠ id → (destroyFace t id).1 i = t i) ∧
    ∀ f, (destroyFace t id).1 id = some f → f.closed = true ∧ ∃ f0, t id = some f0 ∧ f = { f0 with closed := true } := by
  unfold destroyFace
  cases h : t id with
  | none => simp [h]
  | some f => refine ⟨rfl, fun i hi => by simp [put, hi], fun f' hf' => ?_⟩; simp [put] at hf'; subst hf'; exact ⟨rfl, f, rfl, rfl⟩

/-- C85. A face is in the answer to a query iff it is a face of the table and agrees with every field present in the filter, where
a URI scheme may be that of either end. -/
theorem C85_query (q : Filter) (l : List (Nat × Face)) (id : Nat) (f : Face) :
    (id, f) ∈ queryFaces q l ↔ (id, f) ∈ l ∧ (∀ x, q.faceId = some x → x = id) ∧
      (∀ x, q.uriScheme = some x → x = f.remoteScheme ∨ x = f.localScheme) ∧ (∀ x, q.remoteUri = some x → x = f.remoteUri) ∧
      (∀ x, q.localUri = some x → x = f.localUri) ∧ (∀ x, q.isLocal = some x → x = f.isLocal) ∧
      (∀ x, q.persistency = some x → x = f.persistency) ∧ ∀ x, q.linkType = some x → x = f.linkType := by
  have any_ne : ∀ {α : Type} [DecidableEq α] (o : Option α) (a : α), (o.any (· != a) = true) ↔ ¬ ∀ x, o = some x → x = a := by
    intro α _ o a
    cases o <;> simp
  have any_ne2 : ∀ (o : Option String) (a b : String), (o.any (fun x => x != a && x != b) = true) ↔ ¬ ∀ x, o = some x → x = a ∨ x = b := by
    intro o a b
    cases o <;> simp
  unfold queryFaces
  rw [List.mem_filter]
  apply and_congr_right
  intro _
  have hb : matchFilter q id f = true ↔ ¬ (q.faceId.any (· != id) = true) ∧
      ¬ (q.uriScheme.any (fun x => x != f.remoteScheme && x != f.localScheme) = true) ∧ ¬ (q.remoteUri.any (· != f.remoteUri) = true) ∧
      ¬ (q.localUri.any (· != f.localUri) = true) ∧ ¬ (q.isLocal.any (· != f.isLocal) = true) ∧
      ¬ (q.persistency.any (· != f.persistency) = true) ∧ ¬ (q.linkType.any (· != f.linkType) = true) := by
    unfold matchFilter
    generalize q.faceId.any (· != id) = b1
    generalize q.uriScheme.any (fun x => x != f.remoteScheme && x != f.localScheme) = b2
    generalize q.remoteUri.any (· != f.remoteUri) = b3
    generalize q.localUri.any (· != f.localUri) = b4
    generalize q.isLocal.any (· != f.isLocal) = b5
    generalize q.persistency.any (· != f.persistency) = b6
    generalize q.linkType.any (· != f.linkType) = b7
    cases b1 <;> cases b2 <;> cases b3 <;> cases b4 <;> cases b5 <;> cases b6 <;> cases b7 <;> simp
  dsimp only
  rw [hb]
  simp only [any_ne, any_ne2, Classical.not_not]

/- A TCP face, a UDP multicast face, a null face. -/
def exOpts : Opts := ⟨false, false, true, 100, 65536, 2 ^ 63 - 1⟩
def exTcp : Face := { isLocal := false, persistency := .persistent, flexible := true, transportMtu := -1, link := some exOpts, remoteScheme := "tcp4" }
def exMcast : Face := { isLocal := false, persistency := .permanent, flexible := false, transportMtu := 1500, link := some exOpts, remoteScheme := "udp4" }
def exNull : Face := { isLocal := true, persistency := .permanent, flexible := false, transportMtu := -1, link := none }
def exT : Faces := fun i => if i = 254 then some exNull else if i = 300 then some exTcp else if i = 301 then some exMcast else none

example : updateFace exT (some 7) { faceId := 0, reliability := some true } = (exT, ⟨404, none⟩) :=
  C62_not_found _ _ _ (fun id h => by rcases h with ⟨h, -⟩ | ⟨-, h⟩; exact absurd rfl h; cases h; decide)
example : (updateFace exT none { faceId := 300, mtu := some 1000, localFields := some true, persistency := some .permanent, interval := some 5 }).2
    = ⟨409, some { faceId := 0, mtu := some 1000, localFields := some true }⟩ := by decide +kernel
example : ¬ AllOk exTcp { faceId := 300, mtu := some 1000 } := fun h => (h.2.2 1000 rfl).2.1 rfl
example : (updateFace exT (some 301) { faceId := 0, mtu := some 1000, congestion := some false, localFields := some false }).2
    = ⟨200, some { faceId := 301, persistency := some .permanent, mtu := some 1000, localFields := some false, reliability := some false, congestion := some false, interval := some 100, threshold := some 65536 }⟩ := by
  decide +kernel
example : AllOk exMcast { faceId := 0, mtu := some 1000, congestion := some false, localFields := some false } := by
  refine ⟨?_, ?_, ?_⟩
  · intro b hb; cases hb; exact fun h => by cases h
  · intro x hx; cases hx
  · intro m hm; cases hm; exact ⟨by decide, by decide, by decide⟩
example : (updateFace exT none { faceId := 254, reliability := some true }).2.code = 200 := by decide +kernel
example : queryFaces { uriScheme := some "udp4", isLocal := some false } [(254, exNull), (300, exTcp), (301, exMcast)] = [(301, exMcast)] := by
  decide +kernel

end Verif.FaceCmd
