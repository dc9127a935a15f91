import Verif.Nfdc.OpsProps

/-! C102, continued: `face create`, `face list` and `route list`. -/
namespace Verif.Nfdc.Ops

theorem mtuOf_eq (m : Option Tok) (v : Option Nat) : mtuOf m = some v ↔ MtuMeans m v := by
  constructor
  · intro h
    unfold mtuOf at h
    cases m with
    | none => cases h; exact .absent
    | some t =>
      dsimp only at h
      split at h
      · rename_i ht; subst ht; cases h; exact .auto
      · rename_i ht
        simp only [Option.map_eq_some_iff] at h
        obtain ⟨n, hn, rfl⟩ := h
        exact .number t n ht ((castUnsigned_eq t n).1 hn)
  · intro h
    cases h with
    | absent => rfl
    | auto => rfl
    | number t n ht hn =>
      unfold mtuOf
      dsimp only
      rw [if_neg ht, (castUnsigned_eq t n).2 hn]; rfl

theorem mtuMeans_unique {m : Option Tok} {v w : Option Nat} (h1 : MtuMeans m v) (h2 : MtuMeans m w) : v = w := by
  have := (mtuOf_eq m v).2 h1
  rw [(mtuOf_eq m w).2 h2] at this
  exact (Option.some.inj this).symm

theorem persLess_rank (x y : Pers) : persLess x y = true ↔ rank x < rank y := by cases x <;> cases y <;> decide

theorem changes_asked (a : CreateArgs) (mtu : Option Nat) (hm : MtuMeans a.mtu mtu) (b : Info) : AsAsked a b (changes a mtu b) ∧ Sparing a b (changes a mtu b) := by
  have hp := persLess_rank b.pers a.pers
  constructor
  · refine ⟨?_, ?_, ?_, rfl, rfl, ?_⟩
    · simp only [changes]
      split
      · exact Nat.le_refl _
      · rename_i h; rw [hp] at h; simp only [Option.getD_none]; omega
    · intro v hv
      simp only [changes, hv]
      by_cases h : v = b.reliability
      · subst h; simp
      · simp [h]
    · intro v hv
      simp only [changes, hv]
      by_cases h : v = b.marking
      · subst h; simp
      · simp [h]
    · intro m hm2
      have := mtuMeans_unique hm hm2
      subst this
      simp only [changes]
      by_cases h : b.mtu = some m
      · simp [h]
      · simp [h]
  · refine ⟨rfl, ⟨rfl, rfl⟩, ?_, ?_, ?_, ?_⟩
    · intro v hv
      simp only [changes] at hv
      split at hv
      · rename_i h; rw [hp] at h; cases hv; exact ⟨rfl, h⟩
      · cases hv
    · intro v hv
      simp only [changes] at hv
      split at hv
      · rename_i h; exact ⟨hv, fun e => h.2 (by rw [hv, e])⟩
      · cases hv
    · intro v hv
      simp only [changes] at hv
      split at hv
      · rename_i h; exact ⟨hv, fun e => h.2 (by rw [hv, e])⟩
      · cases hv
    · intro v hv
      simp only [changes] at hv
      split at hv
      · rename_i h; subst hv; exact ⟨hm, fun e => h.2 e⟩
      · cases hv

theorem changes_none (a : CreateArgs) (mtu : Option Nat) (hm : MtuMeans a.mtu mtu) (b : Info) :
    anyChange (changes a mtu b) = false ↔ AsAsked a b (noChange b) := by
  constructor
  · intro h
    obtain ⟨h1, _⟩ := changes_asked a mtu hm b
    have : changes a mtu b = noChange b := by
      simp only [anyChange, Bool.or_eq_false_iff, Option.isSome_eq_false_iff, Option.isNone_iff_eq_none] at h
      obtain ⟨⟨⟨⟨⟨e1, e2⟩, e3⟩, e4⟩, e5⟩, e6⟩ := h
      have e7 : (changes a mtu b).id = some b.id := rfl
      have e8 : (changes a mtu b).uri = none := rfl
      have e9 : (changes a mtu b).localUri = none := rfl
      generalize changes a mtu b = q at *
      cases q
      simp only at *
      subst_vars
      rfl
    rw [this] at h1; exact h1
  · intro h
    have hp := persLess_rank b.pers a.pers
    have h1 := h.pers
    have h2 := h.reliability
    have h3 := h.marking
    have h4 := h.interval
    have h5 := h.threshold
    have h6 := h.mtu
    simp only [noChange, Option.getD_none] at h1 h2 h3 h4 h5 h6
    have c1 : (changes a mtu b).pers = none := by
      simp only [changes]; rw [if_neg]; rw [hp]; omega
    have c2 : (changes a mtu b).reliability = none := by
      simp only [changes]; rw [if_neg]
      rintro ⟨e1, e2⟩
      obtain ⟨v, hv⟩ := Option.isSome_iff_exists.1 e1
      exact e2 (by rw [hv, h2 v hv])
    have c3 : (changes a mtu b).marking = none := by
      simp only [changes]; rw [if_neg]
      rintro ⟨e1, e2⟩
      obtain ⟨v, hv⟩ := Option.isSome_iff_exists.1 e1
      exact e2 (by rw [hv, h3 v hv])
    have c4 : (changes a mtu b).mtu = none := by
      simp only [changes]; rw [if_neg]
      rintro ⟨e1, e2⟩
      obtain ⟨v, hv⟩ := Option.isSome_iff_exists.1 e1
      subst hv
      rcases h6 v hm with h | h
      · cases h
      · exact e2 h.2
    have c5 : (changes a mtu b).interval = none := h4.symm
    have c6 : (changes a mtu b).threshold = none := h5.symm
    simp only [anyChange, c1, c2, c3, c4, c5, c6]
    rfl

/-- What is claimed of `face create`. -/
structure CreateClaims (a : CreateArgs) (h : Hist) (n : Nat) : Prop where
  success : n = 0 ↔ (∃ p i, .create p (.ok i) ∈ h) ∨ (∃ q i, .update q (.ok i) ∈ h) ∨
    ∃ p b, .create p (.fail 409 (some b)) ∈ h ∧ h.head? = some (.canon a.remote (some b.uri)) ∧ AsAsked a b (noChange b)
  commands : ∀ k ∈ h, isCommand k = true → (∃ p r, k = .create p r ∧ Requests a h p) ∨
    ∃ q r p b, k = .update q r ∧ .create p (.fail 409 (some b)) ∈ h ∧ h.head? = some (.canon a.remote (some b.uri)) ∧ AsAsked a b q ∧ Sparing a b q
  oneCreate : (h.filter isCreate).length ≤ 1
  oneUpdate : (h.filter isUpdate).length ≤ 1
  codes : n = 0 ∨ (n = 2 ∧ h = [] ∧ ∀ m, ¬ MtuMeans a.mtu m) ∨
    (n = 4 ∧ (.canon a.remote none ∈ h ∨ ∃ l, a.localUri = some l ∧ .canon l none ∈ h) ∧ ∀ k ∈ h, isCommand k = false) ∨
    (n = 1 ∧ ∃ p c o, .create p (.fail c o) ∈ h)

/-- Calls that only resolve names. -/
theorem canon_claims {a : CreateArgs} {h : Hist} (hh : ∀ k ∈ h, ∃ u r, k = Call.canon u r)
    (hc : .canon a.remote none ∈ h ∨ ∃ l, a.localUri = some l ∧ .canon l none ∈ h) : CreateClaims a h 4 := by
  have hno : ∀ k ∈ h, isCommand k = false := fun k hk => by obtain ⟨u, r, rfl⟩ := hh k hk; rfl
  refine ⟨⟨by simp, ?_⟩, ?_, ?_, ?_, .inr (.inr (.inl ⟨rfl, hc, hno⟩))⟩
  · rintro (⟨p, i, hm⟩ | ⟨p, i, hm⟩ | ⟨p, b, hm, _⟩) <;> (obtain ⟨u, r, e⟩ := hh _ hm; cases e)
  · intro k hk hc; rw [hno k hk] at hc; cases hc
  · have : h.filter isCreate = [] := by
      rw [List.filter_eq_nil_iff]; intro k hk; obtain ⟨u, r, rfl⟩ := hh k hk; simp [isCreate]
    rw [this]; simp
  · have : h.filter isUpdate = [] := by
      rw [List.filter_eq_nil_iff]; intro k hk; obtain ⟨u, r, rfl⟩ := hh k hk; simp [isUpdate]
    rw [this]; simp

theorem doCreate_claims (x : World) (h : Hist) (a : CreateArgs) (mtu : Option Nat) (remote : Uri) (l : Option Uri) (hh : ∀ k ∈ h, ∃ u r, k = Call.canon u r)
    (hm : MtuMeans a.mtu mtu) (hd : h.head? = some (.canon a.remote (some remote))) (hl1 : a.localUri = none → l = none)
    (hl2 : ∀ u, a.localUri = some u → ∃ c, l = some c ∧ .canon u (some c) ∈ h) :
    CreateClaims a (doCreate x h a mtu remote l).1 (doCreate x h a mtu remote l).2 := by
  have hno : ∀ k ∈ h, isCommand k = false := fun k hk => by obtain ⟨u, r, rfl⟩ := hh k hk; rfl
  have hc0 : h.filter isCreate = [] := by
    rw [List.filter_eq_nil_iff]; intro k hk; obtain ⟨u, r, rfl⟩ := hh k hk; simp [isCreate]
  have hu0 : h.filter isUpdate = [] := by
    rw [List.filter_eq_nil_iff]; intro k hk; obtain ⟨u, r, rfl⟩ := hh k hk; simp [isUpdate]
  have hne : h ≠ [] := by intro e; rw [e] at hd; cases hd
  have head : ∀ t, (h ++ t).head? = some (.canon a.remote (some remote)) := by
    intro t; cases h with
    | nil => exact absurd rfl hne
    | cons k h => exact hd
  have hcm : ∀ p r, Call.create p r ∉ h := fun p r hm => by obtain ⟨u, v, e⟩ := hh _ hm; cases e
  have hum : ∀ p r, Call.update p r ∉ h := fun p r hm => by obtain ⟨u, v, e⟩ := hh _ hm; cases e
  unfold doCreate
  dsimp only
  generalize hp : ({ uri := some remote, localUri := l, pers := some a.pers, reliability := a.reliability, marking := a.marking, interval := a.interval, threshold := a.threshold, mtu := mtu } : Params) = p
  have req : ∀ t, Requests a (h ++ t) p := by
    intro t
    subst hp
    refine ⟨rfl, ⟨remote, rfl, head t⟩, hl1, ?_, rfl, rfl, rfl, rfl, rfl, hm⟩
    intro u hu
    obtain ⟨c, h1, h2⟩ := hl2 u hu
    exact ⟨c, h1, by simp [h2]⟩
  -- only the creation
  have one : ∀ r, ∀ n, (n = 0 ↔ (∃ i, r = Resp.ok i) ∨ ∃ b, r = .fail 409 (some b) ∧ b.uri = remote ∧ AsAsked a b (noChange b)) →
      (n = 0 ∨ (n = 1 ∧ ∃ c o, r = .fail c o)) → CreateClaims a (h ++ [.create p r]) n := by
    intro r n hn hn2
    refine ⟨?_, ?_, ?_, ?_, ?_⟩
    · rw [hn]
      constructor
      · rintro (⟨i, rfl⟩ | ⟨b, rfl, rfl, hb⟩)
        · exact .inl ⟨p, i, by simp⟩
        · exact .inr (.inr ⟨p, b, by simp, head _, hb⟩)
      · rintro (⟨q, i, hq⟩ | ⟨q, i, hq⟩ | ⟨q, b, hq, hb, hb2⟩)
        · simp only [List.mem_append, List.mem_singleton, Call.create.injEq] at hq
          rcases hq with hq | hq
          · exact absurd hq (hcm _ _)
          · exact .inl ⟨i, hq.2.symm⟩
        · simp only [List.mem_append, List.mem_singleton, reduceCtorEq, or_false] at hq
          exact absurd hq (hum _ _)
        · simp only [List.mem_append, List.mem_singleton, Call.create.injEq] at hq
          rcases hq with hq | hq
          · exact absurd hq (hcm _ _)
          · rw [head] at hb
            simp only [Option.some.injEq, Call.canon.injEq, true_and] at hb
            exact .inr ⟨b, hq.2.symm, hb.symm, hb2⟩
    · intro k hk hc
      simp only [List.mem_append, List.mem_singleton] at hk
      rcases hk with hk | rfl
      · rw [hno k hk] at hc; cases hc
      · exact .inl ⟨p, r, rfl, req _⟩
    · rw [List.filter_append, hc0]; exact Nat.le_refl 1
    · rw [List.filter_append, hu0]; exact Nat.zero_le 1
    · rcases hn2 with h | ⟨h, c, o, rfl⟩
      · exact .inl h
      · exact .inr (.inr (.inr ⟨h, p, c, o, by simp⟩))
  cases hx : x.create h p with
  | ok i => exact one _ 0 ⟨fun _ => .inl ⟨i, rfl⟩, fun _ => rfl⟩ (.inl rfl)
  | fail c o =>
    dsimp only
    by_cases hc : c = 409
    · subst hc
      rw [if_pos rfl]
      unfold handle409
      cases o with
      | none => exact one _ 1 (by simp) (.inr ⟨rfl, 409, none, rfl⟩)
      | some b =>
        dsimp only
        by_cases hb : b.uri = remote
        · rw [if_neg (by simpa using hb)]
          obtain ⟨ca, cs⟩ := changes_asked a mtu hm b
          have cn := changes_none a mtu hm b
          generalize changes a mtu b = q at ca cs cn
          cases hany : anyChange q with
          | false =>
            simp only [Bool.false_eq_true, if_false]
            exact one _ 0 ⟨fun _ => .inr ⟨b, rfl, hb, cn.1 hany⟩, fun _ => rfl⟩ (.inl rfl)
          | true =>
            simp only [if_true]
            have hnn : ¬ AsAsked a b (noChange b) := fun h => by rw [cn.2 h] at hany; cases hany
            have two : ∀ r n, (n = 0 ↔ ∃ i, r = Resp.ok i) → (n = 0 ∨ n = 1) →
                CreateClaims a ((h ++ [.create p (.fail 409 (some b))]) ++ [.update q r]) n := by
              intro r n hn hn2
              refine ⟨?_, ?_, ?_, ?_, ?_⟩
              · rw [hn]
                constructor
                · rintro ⟨i, rfl⟩; exact .inr (.inl ⟨q, i, by simp⟩)
                · rintro (⟨q', i, hq⟩ | ⟨q', i, hq⟩ | ⟨q', b', hq, hb, hb2⟩)
                  · simp only [List.mem_append, List.mem_singleton, Call.create.injEq, reduceCtorEq, or_false, and_false] at hq
                    exact absurd hq (hcm _ _)
                  · simp only [List.mem_append, List.mem_singleton, reduceCtorEq, or_false, Call.update.injEq] at hq
                    rcases hq with hq | hq
                    · exact absurd hq (hum _ _)
                    · exact ⟨i, hq.2.symm⟩
                  · simp only [List.mem_append, List.mem_singleton, Call.create.injEq, reduceCtorEq, or_false, Resp.fail.injEq, Option.some.injEq, true_and] at hq
                    rcases hq with hq | hq
                    · exact absurd hq (hcm _ _)
                    · rw [hq.2] at hb2; exact absurd hb2 hnn
              · intro k hk hc
                simp only [List.mem_append, List.mem_singleton] at hk
                rcases hk with (hk | rfl) | rfl
                · rw [hno k hk] at hc; cases hc
                · exact .inl ⟨p, _, rfl, by rw [List.append_assoc]; exact req _⟩
                · refine .inr ⟨q, r, p, b, rfl, by simp, ?_, ca, cs⟩
                  rw [List.append_assoc, head, hb]
              · rw [List.filter_append, List.filter_append, hc0]; exact Nat.le_refl 1
              · rw [List.filter_append, List.filter_append, hu0]; exact Nat.le_refl 1
              · rcases hn2 with h | h
                · exact .inl h
                · exact .inr (.inr (.inr ⟨h, p, 409, some b, by simp⟩))
            cases x.update (h ++ [.create p (.fail 409 (some b))]) q with
            | ok i => exact two (.ok i) 0 ⟨fun _ => ⟨i, rfl⟩, fun _ => rfl⟩ (.inl rfl)
            | fail c o => exact two (.fail c o) 1 (by simp) (.inr rfl)
        · rw [if_pos (by simpa using hb)]
          refine one _ 1 ⟨by simp, ?_⟩ (.inr ⟨rfl, 409, some b, rfl⟩)
          rintro (⟨i, h⟩ | ⟨b', h, h2, _⟩)
          · cases h
          · simp only [Resp.fail.injEq, Option.some.injEq, true_and] at h
            subst h; exact absurd h2 hb
    · rw [if_neg hc]
      refine one _ 1 ⟨by simp, ?_⟩ (.inr ⟨rfl, c, o, rfl⟩)
      rintro (⟨i, h⟩ | ⟨b', h, h2, _⟩)
      · cases h
      · simp only [Resp.fail.injEq] at h; exact absurd h.1 hc

/-- `nfdc face create`: it asks NFD once for a face with exactly the options given. If NFD says that the face exists, it asks once for exactly those changes that
make the face what was asked for, without touching options that were not given or are so already, and without lowering the persistency; if the face is so already it asks for no change. The exit code is 0
exactly if the face has been created, or changed, or was as asked for; 2 if the MTU is no number, with no request at all; 4 if a FaceUri is not canonical, with no command; 1 otherwise. -/
theorem C102_create (x : World) (a : CreateArgs) (h : Hist) (n : Nat) (hr : faceCreate x a = (h, n)) : CreateClaims a h n := by
  unfold faceCreate at hr
  cases hm : mtuOf a.mtu with
  | none =>
    rw [hm] at hr
    simp only [Prod.mk.injEq] at hr
    obtain ⟨rfl, rfl⟩ := hr
    refine ⟨by simp, by simp, by simp, by simp, .inr (.inl ⟨rfl, rfl, ?_⟩)⟩
    intro m hmm
    rw [(mtuOf_eq a.mtu m).2 hmm] at hm; cases hm
  | some mtu =>
    have hmm := (mtuOf_eq a.mtu mtu).1 hm
    rw [hm] at hr
    simp only [canonize] at hr
    cases hc : x.canon [] a.remote with
    | none =>
      rw [hc] at hr
      simp only [Prod.mk.injEq] at hr
      obtain ⟨rfl, rfl⟩ := hr
      exact canon_claims (by simp) (.inl (by simp))
    | some remote =>
      rw [hc] at hr
      simp only at hr
      cases hl : a.localUri with
      | none =>
        rw [hl] at hr
        simp only at hr
        have := doCreate_claims x ([] ++ [.canon a.remote (some remote)]) a mtu remote none (by simp) hmm rfl (fun _ => rfl) (by simp [hl])
        rw [hr] at this
        exact this
      | some l =>
        rw [hl] at hr
        simp only at hr
        cases hc2 : x.canon ([] ++ [.canon a.remote (some remote)]) l with
        | none =>
          rw [hc2] at hr
          simp only [Prod.mk.injEq] at hr
          obtain ⟨rfl, rfl⟩ := hr
          exact canon_claims (by simp) (.inr ⟨l, hl, by simp⟩)
        | some cl =>
          rw [hc2] at hr
          simp only at hr
          have := doCreate_claims x ([] ++ [.canon a.remote (some remote)] ++ [.canon l (some cl)]) a mtu remote (some cl) (by simp) hmm rfl (by simp [hl])
            (by intro u hu; rw [hl] at hu; cases hu; exact ⟨cl, rfl, by simp⟩)
          rw [hr] at this
          exact this

/-- A command that succeeds twice: asking for a face as it has just been reported changes nothing. -/
theorem C102_create_again (x : World) (a : CreateArgs) (h : Hist) (n : Nat) (hr : faceCreate x a = (h, n)) (p : Params) (b : Info)
    (hb : .create p (.fail 409 (some b)) ∈ h) (hu : h.head? = some (.canon a.remote (some b.uri))) (ha : AsAsked a b (noChange b)) :
    n = 0 ∧ ∀ q r, .update q r ∉ h := by
  have hcl := C102_create x a h n hr
  refine ⟨hcl.success.2 (.inr (.inr ⟨p, b, hb, hu, ha⟩)), ?_⟩
  intro q r hq
  rcases hcl.commands _ hq rfl with ⟨_, _, e, _⟩ | ⟨q', r', p', b', e, hb', _, hask, hsp⟩
  · cases e
  · cases e
    -- there is only one request to create
    have hone := hcl.oneCreate
    have hbb : b' = b := by
      have m1 : Call.create p (.fail 409 (some b)) ∈ h.filter isCreate := List.mem_filter.2 ⟨hb, rfl⟩
      have m2 : Call.create p' (.fail 409 (some b')) ∈ h.filter isCreate := List.mem_filter.2 ⟨hb', rfl⟩
      cases hf : h.filter isCreate with
      | nil => rw [hf] at m1; cases m1
      | cons z zs =>
        rw [hf] at hone m1 m2
        have : zs = [] := by cases zs with | nil => rfl | cons _ _ => simp at hone
        subst this
        simp only [List.mem_singleton] at m1 m2
        rw [← m1] at m2
        simp only [Call.create.injEq, Resp.fail.injEq, Option.some.injEq, true_and] at m2
        exact m2.2
    subst hbb
    -- a change would be of something that is so already
    unfold faceCreate at hr
    cases hm : mtuOf a.mtu with
    | none => rw [hm] at hr; simp only [Prod.mk.injEq] at hr; rw [← hr.1] at hb; cases hb
    | some mtu =>
      have hmm := (mtuOf_eq a.mtu mtu).1 hm
      have hno := (changes_none a mtu hmm b').2 ha
      rw [hm] at hr
      have key : ∀ h0 remote l, (∀ k ∈ h0, ∃ u v, k = Call.canon u v) → doCreate x h0 a mtu remote l = (h, n) → False := by
        intro h0 remote l h0c hd
        have hcr : ∀ p r, Call.create p r ∉ h0 := fun p r hm => by obtain ⟨u, v, e⟩ := h0c _ hm; cases e
        have hup : ∀ p r, Call.update p r ∉ h0 := fun p r hm => by obtain ⟨u, v, e⟩ := h0c _ hm; cases e
        unfold doCreate at hd
        dsimp only at hd
        generalize ({ uri := some remote, localUri := l, pers := some a.pers, reliability := a.reliability, marking := a.marking, interval := a.interval, threshold := a.threshold, mtu := mtu } : Params) = pp at hd
        have no : ∀ r, h = h0 ++ [.create pp r] → False := by
          rintro r rfl
          simp only [List.mem_append, List.mem_singleton, reduceCtorEq, or_false] at hq
          exact hup _ _ hq
        cases hx : x.create h0 pp with
        | ok i => rw [hx] at hd; simp only [Prod.mk.injEq] at hd; exact no _ hd.1.symm
        | fail c o =>
          rw [hx] at hd
          dsimp only at hd
          split at hd
          · unfold handle409 at hd
            cases o with
            | none => simp only [Prod.mk.injEq] at hd; exact no _ hd.1.symm
            | some b2 =>
              dsimp only at hd
              split at hd
              · simp only [Prod.mk.injEq] at hd; exact no _ hd.1.symm
              · have hb2 : b2 = b' := by
                  have hmem : Call.create p (.fail 409 (some b')) ∈ h0 ++ [.create pp (.fail c (some b2))] := by
                    split at hd
                    · split at hd <;>
                      · simp only [Prod.mk.injEq] at hd
                        rw [← hd.1] at hb
                        simp only [List.mem_append, List.mem_singleton, reduceCtorEq, or_false] at hb ⊢
                        exact hb
                    · simp only [Prod.mk.injEq] at hd
                      rw [← hd.1] at hb; exact hb
                  simp only [List.mem_append, List.mem_singleton, Call.create.injEq, Resp.fail.injEq, Option.some.injEq] at hmem
                  rcases hmem with h | h
                  · exact absurd h (hcr _ _)
                  · exact h.2.2.symm
                subst hb2
                rw [hno] at hd
                simp only [Bool.false_eq_true, if_false, Prod.mk.injEq] at hd
                exact no _ hd.1.symm
          · simp only [Prod.mk.injEq] at hd; exact no _ hd.1.symm
      simp only [canonize] at hr
      cases hc : x.canon [] a.remote with
      | none => rw [hc] at hr; simp only [Prod.mk.injEq] at hr; rw [← hr.1] at hb; simp at hb
      | some remote =>
        rw [hc] at hr
        simp only at hr
        cases hl : a.localUri with
        | none => rw [hl] at hr; exact key _ _ _ (by simp) hr
        | some l =>
          rw [hl] at hr
          simp only at hr
          cases hc2 : x.canon ([] ++ [.canon a.remote (some remote)]) l with
          | none => rw [hc2] at hr; simp only [Prod.mk.injEq] at hr; rw [← hr.1] at hb; simp at hb
          | some cl => rw [hc2] at hr; exact key _ _ _ (by simp) hr

/-- `nfdc route list`: it lists exactly the routes in NFD's answer whose face is among those the argument stands for, if given, and whose origin is the one given, if
given. The exit code is 0 if there are any and 6 if there are none. -/
theorem C102_route_list (x : World) (t : Option Target) (origin : Option Nat) (h : Hist) (n : Nat) (rows : List Row)
    (hr : routeList x t origin = some (h, n, rows)) :
    (∀ k ∈ h, isCommand k = false) ∧
    ((∃ all, .rib (some all) ∈ h ∧ (n = if rows = [] then 6 else 0) ∧
      ∀ r, r ∈ rows ↔ r ∈ all ∧ (∀ u, t = some u → ∃ l, Matches x h u l ∧ ∃ s ∈ l, s.id = r.face) ∧ ∀ o, origin = some o → r.origin = o) ∨
     (n ≠ 0 ∧ rows = [] ∧ ∀ all, .rib (some all) ∉ h)) := by
  have listing : ∀ (h0 : Hist) (nexthops : List Nat) (P : Row → Prop), (∀ k ∈ h0, isCommand k = false) → (∀ r, Call.rib r ∉ h0) →
      (∀ r, (nexthops.isEmpty || nexthops.contains r.face) = true ↔ P r) →
      listRoutes x h0 (fun r => (nexthops.isEmpty || nexthops.contains r.face) && (origin.isNone || origin == some r.origin)) = (h, n, rows) →
      (∃ o, h = h0 ++ [.rib o]) ∧ (∀ k ∈ h, isCommand k = false) ∧
      ((∃ all, .rib (some all) ∈ h ∧ (n = if rows = [] then 6 else 0) ∧ ∀ r, r ∈ rows ↔ r ∈ all ∧ P r ∧ ∀ o, origin = some o → r.origin = o) ∨
       (n ≠ 0 ∧ rows = [] ∧ ∀ all, .rib (some all) ∉ h)) := by
    intro h0 nexthops P h1 h2 hP hl
    unfold listRoutes at hl
    dsimp only at hl
    have hcmd : ∀ o, ∀ k ∈ h0 ++ [Call.rib o], isCommand k = false := by
      intro o k hk
      simp only [List.mem_append, List.mem_singleton] at hk
      rcases hk with hk | rfl
      · exact h1 k hk
      · rfl
    cases hx : x.rib h0 with
    | none =>
      rw [hx] at hl
      simp only [Prod.mk.injEq] at hl
      obtain ⟨rfl, rfl, rfl⟩ := hl
      refine ⟨⟨none, rfl⟩, hcmd _, .inr ⟨by simp, rfl, ?_⟩⟩
      intro all hm
      simp only [List.mem_append, List.mem_singleton, Call.rib.injEq, reduceCtorEq, or_false] at hm
      exact h2 _ hm
    | some all =>
      rw [hx] at hl
      simp only [Prod.mk.injEq] at hl
      obtain ⟨rfl, rfl, rfl⟩ := hl
      refine ⟨⟨some all, rfl⟩, hcmd _, .inl ⟨all, by simp, rfl, ?_⟩⟩
      intro r
      rw [List.mem_filter, Bool.and_eq_true, hP]
      have : (origin.isNone || origin == some r.origin) = true ↔ ∀ o, origin = some o → r.origin = o := by
        cases origin with
        | none => simp
        | some o =>
          simp only [Option.isNone_some, Bool.false_or, beq_iff_eq, Option.some.injEq]
          constructor
          · rintro rfl o rfl; rfl
          · intro h; exact (h o rfl).symm
      rw [this]
  unfold routeList at hr
  dsimp only at hr
  cases t with
  | none =>
    simp only [Option.some.injEq] at hr
    obtain ⟨_, q1, q2⟩ := listing [] [] (fun _ => True) (by simp) (by simp) (by simp) hr
    refine ⟨q1, ?_⟩
    rcases q2 with ⟨all, a1, a2, a3⟩ | q2
    · exact .inl ⟨all, a1, a2, fun r => by rw [a3]; simp⟩
    · exact .inr q2
  | some u =>
    obtain ⟨h0, c, l, he, hf⟩ := findTarget_ex x u true
    dsimp only at hr
    rw [he] at hr
    obtain ⟨k1, k2, k3, k4, k5, k6, k7⟩ := hf.facts []
    have hrib : ∀ r, Call.rib r ∉ h0 := by
      intro r hm
      cases hf with
      | canon u _ => simp at hm
      | ask pre f r' c l hp _ _ _ _ =>
        simp only [List.mem_append, List.mem_singleton, reduceCtorEq, or_false] at hm
        obtain ⟨u, v, e⟩ := hp _ hm; cases e
    have fail : ∀ m, m ≠ 0 → (h0, m, ([] : List Row)) = (h, n, rows) → (∀ k ∈ h, isCommand k = false) ∧
        (n ≠ 0 ∧ rows = [] ∧ ∀ all, .rib (some all) ∉ h) := by
      intro m hm e
      simp only [Prod.mk.injEq] at e
      obtain ⟨rfl, rfl, rfl⟩ := e
      exact ⟨k1, hm, rfl, fun all => hrib _⟩
    cases c with
    | ambiguous => cases hr
    | error =>
      obtain ⟨q1, q2⟩ := fail 1 (by simp) (Option.some.inj hr)
      exact ⟨q1, .inr q2⟩
    | notFound =>
      obtain ⟨q1, q2⟩ := fail 3 (by simp) (Option.some.inj hr)
      exact ⟨q1, .inr q2⟩
    | canonizeError =>
      obtain ⟨q1, q2⟩ := fail 4 (by simp) (Option.some.inj hr)
      exact ⟨q1, .inr q2⟩
    | ok =>
      simp only [Option.some.injEq] at hr
      have hl := (k2 rfl).1
      have hne : (faceIds l).isEmpty = false := by
        cases l with
        | nil => exact absurd rfl hl
        | cons s l =>
          have : s.id ∈ faceIds (s :: l) := (faceIds_mem _ _).2 ⟨s, by simp, rfl⟩
          cases hfi : faceIds (s :: l) with
          | nil => rw [hfi] at this; cases this
          | cons _ _ => rfl
      obtain ⟨⟨o, ho⟩, q1, q2⟩ := listing h0 (faceIds l) (fun r => ∃ s ∈ l, s.id = r.face) k1 hrib (by
        intro r
        rw [hne, Bool.false_or, List.contains_iff_mem, faceIds_mem]) hr
      have hM : Matches x h u l := by rw [ho]; exact ((hf.facts [.rib o]).2.1 rfl).2.1
      have hM2 : ∀ l', Matches x h u l' → l' = l := by
        rintro l' ⟨f, hA, hQ⟩
        rw [ho] at hA hQ
        have hQ0 : Call.query f (some l') ∈ h0 := by
          simp only [List.mem_append, List.mem_singleton, reduceCtorEq, or_false] at hQ; exact hQ
        have hA0 : Asks x h0 u f := by
          cases hA with
          | id n => exact .id n
          | plain u hc => exact .plain u hc
          | canon u c hc hm =>
            refine .canon u c hc ?_
            simp only [List.mem_append, List.mem_singleton, reduceCtorEq, or_false] at hm; exact hm
        exact (k7 l' ⟨f, hA0, hQ0⟩).1
      refine ⟨q1, ?_⟩
      rcases q2 with ⟨all, a1, a2, a3⟩ | q2
      · refine .inl ⟨all, a1, a2, fun r => ?_⟩
        rw [a3]
        constructor
        · rintro ⟨b1, b2, b3⟩
          exact ⟨b1, fun v hv => by cases hv; exact ⟨l, hM, b2⟩, b3⟩
        · rintro ⟨b1, b2, b3⟩
          obtain ⟨l', hl', hs⟩ := b2 u rfl
          rw [hM2 l' hl'] at hs
          exact ⟨b1, hs, b3⟩
      · exact .inr q2

/-- `nfdc route remove` and `nfdc route list` fail to handle only one answer: several faces with the FaceId asked for. -/
theorem C102_none (x : World) (name : Nat) (t : Target) (origin : Option Nat) (hr : routeRemove x name t origin = none ∨ routeList x (some t) origin = none) :
    ∃ i l, t = .id i ∧ x.query [] { id := some i } = some l ∧ 1 < l.length := by
  obtain ⟨h0, c, l, he, hf⟩ := findTarget_ex x t true
  have hc : c = .ambiguous := by
    rcases hr with hr | hr
    · unfold routeRemove at hr
      rw [he] at hr
      cases c with
      | ambiguous => rfl
      | _ => cases hr
    · unfold routeList at hr
      dsimp only at hr
      rw [he] at hr
      cases c with
      | ambiguous => rfl
      | _ => cases hr
  subst hc
  obtain ⟨_, hl, hi⟩ := (hf.facts []).2.2.2.1 rfl
  rcases hi with hi | ⟨i, rfl⟩
  · cases hi
  · refine ⟨i, l, rfl, ?_, hl⟩
    unfold findTarget at he
    dsimp only at he
    unfold findFace findQuery at he
    dsimp only at he
    cases hq : x.query [] { id := some i } with
    | none => rw [hq] at he; simp at he
    | some l' =>
      rw [hq] at he
      dsimp only at he
      split at he
      · simp at he
      · split at he
        · simp only [Prod.mk.injEq, true_and] at he; rw [he.2]
        · simp at he

/-- `nfdc face list`: it lists what NFD answers to one query, which asks for the scheme given and for the canonical forms of the FaceUris given. The exit code is 0
if there are any, 3 if there are none, 4 if a FaceUri has no canonical form and 1 if NFD does not answer. -/
theorem C102_face_list (x : World) (remote localUri : Option Uri) (scheme : Option String) (h : Hist) (n : Nat) (rows : List Status)
    (hr : faceList x remote localUri scheme = (h, n, rows)) :
    (∀ k ∈ h, isCommand k = false) ∧
    ((∃ r l u, .query { remote := r, localUri := l, scheme := scheme } u ∈ h ∧ Listed x h remote r ∧ Listed x h localUri l ∧
        ((u = none ∧ n = 1 ∧ rows = []) ∨ ∃ all, u = some all ∧ rows = all ∧ n = if all = [] then 3 else 0)) ∨
     (n = 4 ∧ rows = [] ∧ ∃ u, (remote = some u ∨ localUri = some u) ∧ .canon u none ∈ h)) := by
  -- the query
  have ask : ∀ (h0 : Hist) (r l : Option Uri), (∀ k ∈ h0, isCommand k = false) → Listed x h0 remote r → Listed x h0 localUri l →
      ∀ h c s, findQuery x h0 { remote := r, localUri := l, scheme := scheme } true = (h, c, s) →
      ∀ n rows, (n, rows) = (match c with | .ok => (0, s) | c => (c.num, [])) → (∀ k ∈ h, isCommand k = false) ∧
      ((∃ r l u, .query { remote := r, localUri := l, scheme := scheme } u ∈ h ∧ Listed x h remote r ∧ Listed x h localUri l ∧
        ((u = none ∧ n = 1 ∧ rows = []) ∨ ∃ all, u = some all ∧ rows = all ∧ n = if all = [] then 3 else 0)) ∨
       (n = 4 ∧ rows = [] ∧ ∃ u, (remote = some u ∨ localUri = some u) ∧ .canon u none ∈ h)) := by
    intro h0 r l hno hl1 hl2 h c s hq n rows hres
    have mono : ∀ y v w, Listed x h0 v w → Listed x (h0 ++ y) v w := by
      intro y v w hv
      cases hv with
      | absent => exact .absent
      | plain u hc => exact .plain u hc
      | canon u c hc hm => exact .canon u c hc (by simp [hm])
    have hcmd : ∀ o, ∀ k ∈ h0 ++ [Call.query { remote := r, localUri := l, scheme := scheme } o], isCommand k = false := by
      intro o k hk
      simp only [List.mem_append, List.mem_singleton] at hk
      rcases hk with hk | rfl
      · exact hno k hk
      · rfl
    unfold findQuery at hq
    dsimp only at hq
    cases hx : x.query h0 { remote := r, localUri := l, scheme := scheme } with
    | none =>
      rw [hx] at hq
      simp only [Prod.mk.injEq] at hq
      obtain ⟨rfl, rfl, rfl⟩ := hq
      simp only [Prod.mk.injEq] at hres
      exact ⟨hcmd _, .inl ⟨r, l, none, by simp, mono _ _ _ hl1, mono _ _ _ hl2, .inl ⟨rfl, hres.1, hres.2⟩⟩⟩
    | some all =>
      rw [hx] at hq
      dsimp only at hq
      by_cases h0 : all.length = 0
      · rw [if_pos h0] at hq
        simp only [Prod.mk.injEq] at hq
        obtain ⟨rfl, rfl, rfl⟩ := hq
        simp only [Prod.mk.injEq] at hres
        have hn := List.length_eq_zero_iff.1 h0
        refine ⟨hcmd _, .inl ⟨r, l, some all, by simp, mono _ _ _ hl1, mono _ _ _ hl2, .inr ⟨all, rfl, ?_, ?_⟩⟩⟩
        · rw [hres.2, hn]
        · rw [if_pos hn]; exact hres.1
      · rw [if_neg h0, if_neg (by simp)] at hq
        simp only [Prod.mk.injEq] at hq
        obtain ⟨rfl, rfl, rfl⟩ := hq
        simp only [Prod.mk.injEq] at hres
        refine ⟨hcmd _, .inl ⟨r, l, some all, by simp, mono _ _ _ hl1, mono _ _ _ hl2, .inr ⟨all, rfl, hres.2, ?_⟩⟩⟩
        rw [if_neg (fun e => h0 (by rw [e]; rfl))]; exact hres.1
  have bad : ∀ h0 u, (∀ k ∈ h0, isCommand k = false) → (remote = some u ∨ localUri = some u) → Call.canon u none ∈ h0 →
      (h0, 4, ([] : List Status)) = (h, n, rows) → (∀ k ∈ h, isCommand k = false) ∧
      ((∃ r l u, .query { remote := r, localUri := l, scheme := scheme } u ∈ h ∧ Listed x h remote r ∧ Listed x h localUri l ∧
        ((u = none ∧ n = 1 ∧ rows = []) ∨ ∃ all, u = some all ∧ rows = all ∧ n = if all = [] then 3 else 0)) ∨
       (n = 4 ∧ rows = [] ∧ ∃ u, (remote = some u ∨ localUri = some u) ∧ .canon u none ∈ h)) := by
    intro h0 u h1 h2 h3 e
    simp only [Prod.mk.injEq] at e
    obtain ⟨rfl, rfl, rfl⟩ := e
    exact ⟨h1, .inr ⟨rfl, rfl, u, h2, h3⟩⟩
  unfold faceList findFace at hr
  dsimp only at hr
  have fin : ∀ (h0 : Hist) (r l : Option Uri), (∀ k ∈ h0, isCommand k = false) → Listed x h0 remote r → Listed x h0 localUri l →
      (match findQuery x h0 { remote := r, localUri := l, scheme := scheme } true with | (h, .ok, l) => (h, 0, l) | (h, c, _) => (h, c.num, [])) = (h, n, rows) →
      (∀ k ∈ h, isCommand k = false) ∧
      ((∃ r l u, .query { remote := r, localUri := l, scheme := scheme } u ∈ h ∧ Listed x h remote r ∧ Listed x h localUri l ∧
        ((u = none ∧ n = 1 ∧ rows = []) ∨ ∃ all, u = some all ∧ rows = all ∧ n = if all = [] then 3 else 0)) ∨
       (n = 4 ∧ rows = [] ∧ ∃ u, (remote = some u ∨ localUri = some u) ∧ .canon u none ∈ h)) := by
    intro h0 r l h1 h2 h3 e
    rcases hq : findQuery x h0 { remote := r, localUri := l, scheme := scheme } true with ⟨h', c, s⟩
    rw [hq] at e
    have := ask h0 r l h1 h2 h3 h' c s hq
    cases c <;> (simp only [Prod.mk.injEq] at e; obtain ⟨rfl, rfl, rfl⟩ := e; exact this _ _ rfl)
  have canonOut : ∀ h0 u, (∀ k ∈ h0, isCommand k = false) → ∃ h1 c, findCanonize x h0 u = (h1, c) ∧ (∀ k ∈ h1, isCommand k = false) ∧ (∀ k ∈ h0, k ∈ h1) ∧
      (c = none → Call.canon u none ∈ h1) ∧ (∀ v, c = some v → Listed x h1 (some u) (some v)) := by
    intro h0 u hno
    unfold findCanonize canonize
    cases hc : x.canCanonize u.scheme with
    | false =>
      refine ⟨h0, some u, by simp, hno, fun _ h => h, by simp, ?_⟩
      intro v hv; cases hv; exact .plain u hc
    | true =>
      refine ⟨_, _, by simp only [if_true]; rfl, ?_, fun k hk => by simp [hk], ?_, ?_⟩
      · intro k hk
        simp only [List.mem_append, List.mem_singleton] at hk
        rcases hk with hk | rfl
        · exact hno k hk
        · rfl
      · intro e; rw [e]; simp
      · intro v e; rw [e]; exact .canon u v hc (by simp)
  have mono : ∀ h0 h1 : Hist, (∀ k ∈ h0, k ∈ h1) → ∀ v w, Listed x h0 v w → Listed x h1 v w := by
    intro h0 h1 hs v w hv
    cases hv with
    | absent => exact .absent
    | plain u hc => exact .plain u hc
    | canon u c hc hm => exact .canon u c hc (hs _ hm)
  cases remote with
  | none =>
    cases localUri with
    | none => exact fin [] none none (by simp) .absent .absent hr
    | some l =>
      obtain ⟨h1, c, e, a1, a2, a3, a4⟩ := canonOut [] l (by simp)
      dsimp only at hr
      rw [e] at hr
      cases c with
      | none => exact bad h1 l a1 (.inr rfl) (a3 rfl) hr
      | some v => exact fin h1 none (some v) a1 .absent (a4 v rfl) hr
  | some r =>
    obtain ⟨h1, c, e, a1, a2, a3, a4⟩ := canonOut [] r (by simp)
    dsimp only at hr
    rw [e] at hr
    cases c with
    | none => exact bad h1 r a1 (.inl rfl) (a3 rfl) hr
    | some v =>
      cases localUri with
      | none => exact fin h1 (some v) none a1 (a4 v rfl) .absent hr
      | some l =>
        obtain ⟨h2, c2, e2, b1, b2, b3, b4⟩ := canonOut h1 l a1
        dsimp only at hr
        rw [e2] at hr
        cases c2 with
        | none => exact bad h2 l b1 (.inr rfl) (b3 rfl) hr
        | some v2 => exact fin h2 (some v) (some v2) b1 (mono h1 h2 b2 _ _ (a4 v rfl)) (b4 v2 rfl) hr

/-! A world: two faces toward `u`, one toward `v`, none toward `w`. -/
def u : Uri := ⟨"udp4", 1⟩
def v : Uri := ⟨"udp4", 2⟩
def w : Uri := ⟨"tcp4", 3⟩
def e : Uri := ⟨"ether", 4⟩
def all : List Status := [⟨1, u, v⟩, ⟨2, u, w⟩, ⟨3, v, w⟩]

def wEx : World where
  canCanonize s := s != "ether"
  canon _ x := if x.rest = 9 then none else some x
  query _ f := some (all.filter (fun s => (f.id.isNone || f.id == some s.id) && (f.remote.isNone || f.remote == some s.remote)))
  create _ p := if p.uri = some w then .ok ⟨7, w, .persistent, false, false, none⟩ else .fail 409 (some ⟨3, p.uri.getD u, .onDemand, false, true, some 1500⟩)
  update _ _ := .ok ⟨3, v, .permanent, true, true, some 1500⟩
  destroy _ i := i != 3
  register _ _ := true
  unregister _ p := p.face != 2
  rib _ := some [⟨5, 1, 0⟩, ⟨5, 3, 255⟩, ⟨6, 2, 0⟩]

def Ex.exit {α : Type} (r : Hist × α) : α := r.2

/-- One face, none, several, refused. -/
example : Ex.exit (faceDestroy wEx (.id 1)) = 0 ∧ Ex.exit (faceDestroy wEx (.id 4)) = 3 ∧ Ex.exit (faceDestroy wEx (.uri u)) = 5 ∧
    Ex.exit (faceDestroy wEx (.uri v)) = 1 ∧ Ex.exit (faceDestroy wEx (.uri ⟨"udp4", 9⟩)) = 4 := by decide +kernel

/-- To an existing face; to a new one; no Ethernet face is created. -/
example : (routeAdd wEx { prefix_ := 8, nexthop := .uri v, capture := true }).1.getLast? = some (.register ⟨8, 3, 255, 0, 3, none⟩ true) ∧
    (routeAdd wEx { prefix_ := 8, nexthop := .uri w, cost := some 4, noInherit := true }).1.getLast? = some (.register ⟨8, 7, 255, 4, 0, none⟩ true) ∧
    Ex.exit (routeAdd wEx { prefix_ := 8, nexthop := .uri e }) = 3 := by decide +kernel

/-- One of two routes cannot be removed. -/
example : (routeRemove wEx 8 (.uri u) none).map Ex.exit = some 1 ∧ (routeRemove wEx 8 (.id 1) (some 0)).map Ex.exit = some 0 := by decide +kernel

/-- An existing face is changed only in what differs. -/
example : faceCreate wEx { remote := v, reliability := some true, marking := some true, mtu := some ['1', '5', '0', '0'] } =
    ([.canon v (some v), .create { uri := some v, pers := some .persistent, reliability := some true, marking := some true, mtu := some 1500 }
      (.fail 409 (some ⟨3, v, .onDemand, false, true, some 1500⟩)),
      .update { id := some 3, pers := some .persistent, reliability := some true } (.ok ⟨3, v, .permanent, true, true, some 1500⟩)], 0) ∧
    Ex.exit (faceCreate wEx { remote := v, mtu := some ['x'] }) = 2 := by decide +kernel

/-- The hypotheses of `C102_create_again` are met. -/
example : (faceCreate wEx { remote := v, pers := .onDemand }).1 = [.canon v (some v),
      .create { uri := some v, pers := some .onDemand } (.fail 409 (some ⟨3, v, .onDemand, false, true, some 1500⟩))] ∧
    AsAsked { remote := v, pers := .onDemand } ⟨3, v, .onDemand, false, true, some 1500⟩ (noChange ⟨3, v, .onDemand, false, true, some 1500⟩) := by
  refine ⟨by decide +kernel, ⟨by decide, by simp, by simp, rfl, rfl, ?_⟩⟩
  intro m hm; cases hm

example : (routeList wEx (some (.uri u)) none).map Ex.exit = some (0, [⟨5, 1, 0⟩, ⟨6, 2, 0⟩]) ∧ (routeList wEx none (some 9)).map Ex.exit = some (6, []) := by decide +kernel

example : Ex.exit (faceList wEx (some u) none none) = (0, [⟨1, u, v⟩, ⟨2, u, w⟩]) ∧ Ex.exit (faceList wEx (some w) none none) = (3, []) ∧
    Ex.exit (faceList wEx none (some ⟨"udp4", 9⟩) none) = (4, []) := by decide +kernel

/-- A world in which several faces have the same FaceId. -/
example : routeRemove { wEx with query := fun _ _ => some all } 8 (.id 1) none = none := by decide +kernel

end Verif.Nfdc.Ops
