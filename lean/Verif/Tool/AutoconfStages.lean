import Verif.Tool.AutoconfLemmas

/-
The stages of a program that runs once (C108).
-/
namespace Verif.Ac

variable {parses : Text → Bool}

/-- Neither starts a stage nor tries a hub. -/
def Still : Obs → Bool
  | .started _ => false
  | .request (.canonize _ _) => false
  | _ => true

theorem stages_append (l m : List Obs) : stages (l ++ m) = stages l ++ stages m := List.filterMap_append
theorem tries_append (l m : List Obs) : tries (l ++ m) = tries l + tries m := List.countP_append

theorem stages_still {m : List Obs} (h : ∀ o ∈ m, Still o = true) : stages m = [] := by
  unfold stages
  rw [List.filterMap_eq_nil_iff]
  intro o ho
  have := h o ho
  cases o <;> first | rfl | cases this

theorem tries_still {m : List Obs} (h : ∀ o ∈ m, Still o = true) : tries m = 0 := by
  unfold tries
  rw [List.countP_eq_zero]
  intro o ho
  have := h o ho
  cases o with
  | request r => cases r <;> first | exact Bool.false_ne_true | cases this
  | _ => exact Bool.false_ne_true

/-- While the first stage is in progress. -/
def K0 (s : St) : Prop := stages s.log = [0] ∧ tries s.log = 0 ∧ completes s.log = 0 ∧ ∀ u t, .request (.canonize u t) ∉ s.log

/-- Afterwards; `l` are the events so far. -/
def K1 (parses : Text → Bool) (l : List Event) (s : St) : Prop := ∃ k, 1 ≤ k ∧ k ≤ 4 ∧ stages s.log = List.range k ∧
  (tries s.log = 0 ∧ (s.ended = none → k = 4) ∧ (0 < completes s.log → k = 4) ∨ tries s.log = 1) ∧
  ∀ u t, .request (.canonize u t) ∈ s.log → parses u = true ∧ ∃ e ∈ l, Offers (k - 1) u e

def K (parses : Text → Bool) (l : List Event) (s : St) : Prop := (s.disc.isSome → K0 s) ∧ (s.disc = none → K1 parses l s)

theorem completes_note_started (l : List Obs) (k : Nat) : completes (l ++ [.started k]) = completes l := by
  rw [completes_append]; rfl

theorem K1.still {l : List Event} {s s' : St} {m : List Obs} (h : K1 parses l s) (hm : ∀ o ∈ m, Still o = true) (hl : s'.log = s.log ++ m)
    (he : s.ended = none) (ev : List Event) : K1 parses (l ++ ev) s' := by
  obtain ⟨k, h1, h2, h3, h4, h5⟩ := h
  refine ⟨k, h1, h2, ?_, ?_, ?_⟩
  · rw [hl, stages_append, stages_still hm, List.append_nil, h3]
  · rw [hl, tries_append, tries_still hm]
    rcases h4 with ⟨h4, h6, -⟩ | h4
    · exact Or.inl ⟨h4, fun _ => h6 he, fun _ => h6 he⟩
    · exact Or.inr h4
  · intro u t hu
    rw [hl] at hu
    rcases List.mem_append.1 hu with hu | hu
    · obtain ⟨h6, e, h7, h8⟩ := h5 u t hu
      exact ⟨h6, e, List.mem_append_left _ h7, h8⟩
    · cases hm _ hu

theorem rest_disc : ∀ (l : List Outcome) (s : St) (k : Nat), (rest parses s k l).disc = s.disc
  | [], s, k => by
    unfold rest complete St.note
    dsimp only
    split <;> rfl
  | o :: l, s, k => by
    unfold rest
    cases o with
    | raised => rfl
    | failed => exact rest_disc l _ _
    | uri t =>
      dsimp only
      split
      · rfl
      · exact rest_disc l _ _

theorem complete_log (s : St) (b : Bool) : (complete s b).log = s.log ++ [.complete b] := by
  unfold complete St.note
  dsimp only
  split <;> rfl

theorem complete_ended (s : St) (b : Bool) : (complete s b).ended = s.ended := by
  unfold complete St.note
  dsimp only
  split <;> rfl

/-- `Offers` of the stages after the first, in a list of outcomes that begins at stage `k`. -/
theorem rest_K {l : List Event} : ∀ (os : List Outcome) (s : St) (k : Nat), 1 ≤ k → k + os.length = 4 → stages s.log = List.range k → tries s.log = 0 →
    completes s.log = 0 → (∀ u t, .request (.canonize u t) ∉ s.log) → (∀ j u, os[j]? = some (.uri u) → ∃ e ∈ l, Offers (k + j) u e) →
    K1 parses l (rest parses s k os)
  | [], s, k, hk, hlen, h1, h2, h3, h4, _ => by
    have hk4 : k = 4 := by simpa using hlen
    refine ⟨k, hk, by omega, ?_, Or.inl ⟨?_, fun _ => hk4, fun _ => hk4⟩, ?_⟩
    · rw [rest, complete_log, stages_append, h1]; exact List.append_nil _
    · rw [rest, complete_log, tries_append, h2]; rfl
    · intro u t hu
      rw [rest, complete_log] at hu
      rcases List.mem_append.1 hu with hu | hu
      · exact absurd hu (h4 u t)
      · cases List.mem_singleton.1 hu
  | o :: os, s, k, hk, hlen, h1, h2, h3, h4, h5 => by
    have hlen' : k + 1 + os.length = 4 := by simp only [List.length_cons] at hlen; omega
    have g1 : stages (s.note [.started k]).log = List.range (k + 1) := by
      show stages (s.log ++ [.started k]) = _
      rw [stages_append, h1, List.range_succ]; rfl
    have g2 : tries (s.note [.started k]).log = 0 := by
      show tries (s.log ++ [.started k]) = _
      rw [tries_append, h2]; rfl
    have g3 : completes (s.note [.started k]).log = 0 := by
      show completes (s.log ++ [.started k]) = _
      rw [completes_note_started, h3]
    have g4 : ∀ u t, .request (.canonize u t) ∉ (s.note [.started k]).log := by
      intro u t hu
      rcases List.mem_append.1 hu with hu | hu
      · exact h4 u t hu
      · cases List.mem_singleton.1 hu
    have ih := rest_K (l := l) os (s.note [.started k]) (k + 1) (by omega) hlen' g1 g2 g3 g4
      (fun j u hj => by
        obtain ⟨e, he, ho⟩ := h5 (j + 1) u hj
        exact ⟨e, he, by rw [show k + 1 + j = k + (j + 1) by omega]; exact ho⟩)
    unfold rest
    cases o with
    | raised =>
      refine ⟨k + 1, by omega, by omega, g1, Or.inl ⟨g2, ?_, ?_⟩, fun u t hu => absurd hu (g4 u t)⟩
      · intro h; cases h
      · intro h
        have : completes (s.note [.started k]).log = 0 := g3
        exact absurd h (by show ¬ 0 < completes (s.note [.started k]).log; omega)
    | failed => exact ih
    | uri w =>
      dsimp only
      split
      · rename_i hp
        refine ⟨k + 1, by omega, by omega, ?_, Or.inr ?_, ?_⟩
        · show stages ((s.note [.started k]).log ++ [.request (.canonize w 4000)]) = _
          rw [stages_append, g1]; exact List.append_nil _
        · show tries ((s.note [.started k]).log ++ [.request (.canonize w 4000)]) = _
          rw [tries_append, g2]; rfl
        · intro u t hu
          rcases List.mem_append.1 hu with hu | hu
          · exact absurd hu (g4 u t)
          · cases List.mem_singleton.1 hu
            obtain ⟨e, he, ho⟩ := h5 0 w rfl
            exact ⟨hp, e, he, ho⟩
      · exact ih

theorem discFailed_K {l : List Event} {s : St} {o : Others} {ev : Event} (h : K0 s)
    (ho : ∀ k u, (k = 1 ∧ o.search = .uri u ∨ k = 2 ∧ o.fch = .uri u ∨ k = 3 ∧ o.identity = .uri u) → Offers k u ev) :
    K parses (l ++ [ev]) (discFailed parses s o) := by
  have hd : (discFailed parses s o).disc = none := rest_disc _ _ _
  refine ⟨fun h => by (rw [hd] at h; cases h), fun _ => ?_⟩
  refine rest_K [o.search, o.fch, o.identity] { s with disc := none } 1 (Nat.le_refl _) rfl h.1 h.2.1 h.2.2.1 h.2.2.2 ?_
  intro j u hj
  refine ⟨ev, List.mem_append_right _ (List.mem_singleton_self _), ?_⟩
  match j, hj with
  | 0, hj => exact ho _ _ (Or.inl ⟨rfl, Option.some.inj hj⟩)
  | 1, hj => exact ho _ _ (Or.inr (Or.inl ⟨rfl, Option.some.inj hj⟩))
  | 2, hj => exact ho _ _ (Or.inr (Or.inr ⟨rfl, Option.some.inj hj⟩))

theorem K0.still {s s' : St} {m : List Obs} (h : K0 s) (hm : ∀ o ∈ m, Still o = true) (hc : completes m = 0) (hl : s'.log = s.log ++ m) : K0 s' := by
  obtain ⟨h1, h2, h3, h4⟩ := h
  refine ⟨?_, ?_, ?_, ?_⟩
  · rw [hl, stages_append, stages_still hm, h1]; rfl
  · rw [hl, tries_append, tries_still hm, h2]
  · rw [hl, completes_append, hc, h3]
  · intro u t hu
    rw [hl] at hu
    rcases List.mem_append.1 hu with hu | hu
    · exact h4 u t hu
    · cases hm _ hu

theorem K.disc_still {l : List Event} {s s' : St} {m : List Obs} (h : K parses l s) (hd : s.disc.isSome) (hd' : s'.disc.isSome)
    (hm : ∀ o ∈ m, Still o = true) (hc : completes m = 0) (hl : s'.log = s.log ++ m) (ev : Event) : K parses (l ++ [ev]) s' :=
  ⟨fun _ => (h.1 hd).still hm hc hl, fun h => by (rw [h] at hd'; cases hd')⟩

theorem K.flow_still {l : List Event} {s s' : St} {m : List Obs} (h : K parses l s) (hd : s.disc = none) (hd' : s'.disc = none)
    (hm : ∀ o ∈ m, Still o = true) (hl : s'.log = s.log ++ m) (he : s.ended = none) (ev : Event) : K parses (l ++ [ev]) s' :=
  ⟨fun h => by (rw [hd'] at h; cases h), fun _ => (h.2 hd).still hm hl he _⟩

theorem afterReg_K {l : List Event} {s : St} {n a b : Nat} {ok : Bool} {o : Others} (h : K parses l s) (hd : s.disc.isSome) :
    K parses (l ++ [.registered ok o]) (afterReg parses s n a b o) := by
  unfold afterReg
  split
  · exact h.disc_still (m := []) hd rfl (by simp) rfl (by simp) _
  · split
    · exact h.disc_still (m := [.request discoveryStrategy]) hd rfl (by simp [Still]) rfl rfl _
    · exact discFailed_K (h.1 hd) (fun k u hk => hk)

/-- A flow exists only after the first stage. -/
theorem J.no_disc {s : St} (h : J s 0) (hd : s.daemon = false) {i : Nat} {x : Flow} (hi : s.flows[i]? = some x) : s.disc = none := by
  have h1 := h.runs
  rw [(h.once hd).1] at h1
  have h2 : i < s.flows.length := (List.getElem?_eq_some_iff.1 hi).1
  cases hdc : s.disc with
  | none => rfl
  | some y =>
    rw [hdc] at h1
    simp only [Option.isSome_some, if_true] at h1
    omega

theorem registerPrefixes_K {l : List Event} {s : St} {i : Nat} {u : Text} {f k : Nat} {m : List Obs} {s0 : St} (h : K parses l s0) (hd : s0.disc = none)
    (he : s0.ended = none) (hd' : s.disc = none) (hm : ∀ o ∈ m, Still o = true) (hl : s.log = s0.log ++ m) (ev : Event) :
    K parses (l ++ [ev]) (registerPrefixes s i u f k) := by
  unfold registerPrefixes
  split
  · refine h.flow_still (m := m ++ [.complete true]) hd ?_ ?_ ?_ he ev
    · show (complete _ _).disc = none
      unfold complete St.note
      dsimp only
      split <;> exact hd'
    · intro o ho
      rcases List.mem_append.1 ho with ho | ho
      · exact hm o ho
      · cases List.mem_singleton.1 ho; rfl
    · rw [complete_log, ← List.append_assoc, ← hl]
  · rename_i n _
    refine h.flow_still (m := m ++ [.request (hubRoute n f)]) hd (by exact hd') ?_ ?_ he ev
    · intro o ho
      rcases List.mem_append.1 ho with ho | ho
      · exact hm o ho
      · cases List.mem_singleton.1 ho; rfl
    · show s.log ++ _ = _
      rw [hl, List.append_assoc]

theorem complete_K {l : List Event} {s : St} {fl : List Flow} (h : K parses l s) (hd : s.disc = none) (he : s.ended = none) (b : Bool) (ev : Event) :
    K parses (l ++ [ev]) (complete { s with flows := fl } b) := by
  refine h.flow_still (m := [.complete b]) hd ?_ ?_ ?_ he ev
  · unfold complete St.note
    dsimp only
    split <;> exact hd
  · intro o ho; cases List.mem_singleton.1 ho; rfl
  · rw [complete_log]

theorem step_K {l : List Event} {s s' : St} {ev : Event} (h : K parses l s) (hj : J s 0) (hd : s.daemon = false) (hs : step parses s ev = some s') :
    K parses (l ++ [ev]) s' := by
  have hfr := hj.fresh
  unfold step at hs
  rw [if_neg (by rw [hfr]; decide)] at hs
  cases ev with
  | fire =>
    dsimp only at hs
    rw [(hj.once hd).2.1] at hs
    cases hs
  | queried fs o =>
    dsimp only at hs
    split at hs
    · rename_i hq
      have hsome : s.disc.isSome := by rw [hq]; rfl
      split at hs <;> cases hs
      · exact discFailed_K (h.1 hsome) (fun k u hk => hk)
      · exact discFailed_K ((h.1 hsome).still (m := [.granted .faceQuery]) (by simp [Still]) rfl rfl) (fun k u hk => hk)
      · refine h.disc_still (m := _) hsome rfl ?_ ?_ rfl _
        · intro x hx
          rcases List.mem_cons.1 hx with rfl | hx
          · rfl
          · obtain ⟨y, -, rfl⟩ := List.mem_map.1 hx
            rfl
        · unfold completes
          rw [List.countP_eq_zero]
          intro x hx
          rcases List.mem_cons.1 hx with rfl | hx
          · simp
          · obtain ⟨y, -, rfl⟩ := List.mem_map.1 hx
            simp
    · cases hs
  | registered ok o =>
    dsimp only at hs
    split at hs
    · rename_i n a b hq
      have hsome : s.disc.isSome := by rw [hq]; rfl
      cases hs
      cases ok
      · exact afterReg_K h hsome
      · exact afterReg_K h hsome
    · cases hs
  | strategySet ok o =>
    dsimp only at hs
    split at hs
    · rename_i hq
      have hsome : s.disc.isSome := by rw [hq]; rfl
      cases hs
      cases ok
      · exact discFailed_K (h.1 hsome) (fun k u hk => hk)
      · exact h.disc_still (m := [.granted discoveryStrategy, .request discoveryInterest]) hsome rfl (by simp [Still]) rfl rfl _
    · cases hs
  | hubData c o =>
    dsimp only at hs
    split at hs
    · rename_i hq
      have hsome : s.disc.isSome := by rw [hq]; rfl
      have hoff : ∀ k u, (k = 1 ∧ o.search = .uri u ∨ k = 2 ∧ o.fch = .uri u ∨ k = 3 ∧ o.identity = .uri u) → Offers k u (.hubData c o) :=
        fun k u hk => Or.inr hk
      cases c with
      | malformed => cases hs; exact h.disc_still (m := []) hsome (by exact hsome) (by simp) rfl (by simp [raise]) _
      | noUri => cases hs; exact discFailed_K (h.1 hsome) hoff
      | uri w =>
        cases hs
        by_cases hp : parses w = true
        · rw [if_pos hp]
          obtain ⟨h1, h2, h3, h4⟩ := h.1 hsome
          refine ⟨fun h => (by cases h), fun _ => ⟨1, Nat.le_refl _, by omega, ?_, Or.inr ?_, ?_⟩⟩
          · show stages (s.log ++ [.request (.canonize w 4000)]) = _
            rw [stages_append, h1]; rfl
          · show tries (s.log ++ [.request (.canonize w 4000)]) = _
            rw [tries_append, h2]; rfl
          · intro u t hu
            rcases List.mem_append.1 hu with hu | hu
            · exact absurd hu (h4 u t)
            · cases List.mem_singleton.1 hu
              exact ⟨hp, _, List.mem_append_right _ (List.mem_singleton_self _), Or.inl ⟨rfl, rfl⟩⟩
        · rw [if_neg hp]; exact discFailed_K (h.1 hsome) hoff
    · cases hs
  | hubLost o =>
    dsimp only at hs
    split at hs
    · rename_i hq
      have hsome : s.disc.isSome := by rw [hq]; rfl
      cases hs
      exact discFailed_K (h.1 hsome) (fun k u hk => hk)
    · cases hs
  | canonized i u =>
    dsimp only at hs
    split at hs
    · rename_i v hi
      have hnd := hj.no_disc hd hi
      split at hs <;> cases hs
      · exact h.flow_still (m := [.request (.faceCreate _)]) hnd (by exact hnd) (by simp [Still]) rfl hfr _
      · exact complete_K h hnd hfr _ _
    · cases hs
  | created i r =>
    dsimp only at hs
    split at hs
    · rename_i u hi
      have hnd := hj.no_disc hd hi
      split at hs <;> cases hs
      · exact registerPrefixes_K (s0 := s) (m := [.face _ _]) h hnd hfr (by exact hnd) (by simp [Still]) rfl _
      · exact registerPrefixes_K (s0 := s) (m := [.face _ _]) h hnd hfr (by exact hnd) (by simp [Still]) rfl _
      · exact h.flow_still (m := []) hnd (by exact hnd) (by simp) (by simp [raise]) hfr _
      · exact complete_K h hnd hfr _ _
    · cases hs
  | routed i ok =>
    dsimp only at hs
    split at hs
    · rename_i u f k hi
      have hnd := hj.no_disc hd hi
      split at hs <;> cases hs
      · exact registerPrefixes_K (s0 := s) (m := [.granted _]) h hnd hfr (by exact hnd) (by simp [Still]) rfl _
      · exact complete_K h hnd hfr _ _
    · cases hs
  | networkChanged =>
    dsimp only at hs
    rw [hd] at hs
    cases hs
  | terminate =>
    dsimp only at hs
    rw [hd] at hs
    cases hs
  | idle =>
    dsimp only at hs
    split at hs <;> cases hs
    rename_i hc
    simp only [Bool.and_eq_true, Option.isNone_iff_eq_none] at hc
    exact h.flow_still (m := []) hc.1.2 (by exact hc.1.2) (by simp) (by simp) hfr _
  | tick dt =>
    cases hs
    cases hdc : s.disc with
    | none => exact h.flow_still (m := []) hdc rfl (by simp) (by simp) hfr _
    | some x =>
      have hsome : s.disc.isSome := by rw [hdc]; rfl
      exact h.disc_still (m := []) hsome rfl (by simp) rfl (by simp) _

theorem init_K : K parses [] (init false) :=
  ⟨fun _ => ⟨rfl, rfl, rfl, fun u t h => by simp [init, runOnce, St.note] at h⟩, fun h => by cases h⟩

end Verif.Ac
