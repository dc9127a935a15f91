/-
Invariants of a UDP channel with its faces.
-/
import Verif.Dg.Trace

namespace Verif.Dg
open Verif.Lp (Bytes readElem parseBlock)
open Verif.Tp (TState Persist validTransition leaving maxPacket)

theorem dispatchedTo_append (k : Nat) (a b : List COut) : dispatchedTo k (a ++ b) = dispatchedTo k a ++ dispatchedTo k b := by
  fun_induction dispatchedTo k a <;> simp_all [dispatchedTo]

theorem answers_append (r : Nat) (a b : List COut) : answers r (a ++ b) = answers r a ++ answers r b := by
  fun_induction answers r a <;> simp_all [answers]

/-- What is true of each face. -/
structure Good (T now : Nat) (f : Face) : Prop where
  phase : Phase f
  trace : VInv T now (view f)
  near : Near T now (view f)

theorem Good.mono {T now now' : Nat} {f : Face} (h : Good T now f) (hn : now ≤ now') : Good T now' f :=
  ⟨h.phase, h.trace.mono hn, fun due ht => Nat.le_trans (h.near due ht) (by omega)⟩

theorem good_new (T now ep : Nat) (p : Persist) : Good T now (newFace T now ep p) :=
  ⟨phase_newFace _ _ _ _, vinv_new _ _ _ _, near_new _ _ _ _⟩

theorem good_step {T now : Nat} {f f' : Face} {ev : FEvent} (h : Good T now f) (e : faceStep T now f ev = .ok f') : Good T now f' :=
  ⟨phase_step h.phase e, vinv_acts h.trace (step_acts h.phase e), near_acts h.near (step_acts h.phase e)⟩

theorem phase_dispatch {now : Nat} {f f' : Face} {b : Bytes} (h : Phase f) (e : dispatch now f b = .ok f') : Phase f' := by
  unfold dispatch at e
  split at e
  · cases e
  · cases e
    exact phase_receiveDatagram (h.congr rfl rfl rfl (fun _ => rfl) rfl rfl (fun h _ => h))

theorem good_dispatch {T now : Nat} {f f' : Face} {b : Bytes} (h : Good T now f) (hc : f.state ≠ .closed) (e : dispatch now f b = .ok f') :
    Good T now f' := by
  have hv := dispatch_view e
  refine ⟨phase_dispatch h.phase e, ?_, ?_⟩
  · rw [hv]; exact vinv_arrive h.trace hc (Or.inr rfl)
  · rw [hv]; exact h.near

theorem dispatch_ok {now : Nat} {f : Face} (b : Bytes) (h : Phase f) (hc : f.state ≠ .closed) : ∃ f', dispatch now f b = .ok f' := by
  unfold dispatch
  rw [if_neg]
  · exact ⟨_, rfl⟩
  · intro hd
    cases h with
    | up a b c => rw [c] at hd; cases hd
    | leaving l a b c d e => rw [e] at hd; cases hd
    | closed a => exact hc a
    | dead a => exact hc a

theorem dispatch_state {now : Nat} {f f' : Face} {b : Bytes} (e : dispatch now f b = .ok f') : f'.state = f.state ∧ f'.ep = f.ep := by
  have hv := dispatch_view e
  have h1 : (view f').state = (view f).state := by rw [hv]; rfl
  have h2 : (view f').ep = (view f).ep := by rw [hv]; rfl
  exact ⟨h1, h2⟩

structure CInv (T : Nat) (c : Chan) : Prop where
  good : ∀ (k : Nat) (f : Face), c.faces[k]? = some f → Good T c.now f
  map : ∀ (ep k : Nat), (ep, k) ∈ c.map ↔ ∃ f, c.faces[k]? = some f ∧ f.ep = ep ∧ f.state ≠ .closed
  keys : (c.map.map Prod.fst).Nodup
  disp : ∀ k : Nat, dispatchedTo k c.out = match c.faces[k]? with | some f => viaChannel f.out | none => []
  peers : ∀ (ep : Nat) (b : Bytes) (k : Nat), .peer ep b k ∈ c.out → ∃ f, c.faces[k]? = some f ∧ f.ep = ep

theorem cinv_init (T : Nat) : CInv T Chan.init where
  good := by intro k f h; simp [Chan.init] at h
  map := by intro ep k; simp [Chan.init]
  keys := by simp [Chan.init]
  disp := by intro k; simp [Chan.init, dispatchedTo]
  peers := by intro ep b k h; simp [Chan.init] at h

theorem CInv.same {T : Nat} {c c' : Chan} (h : CInv T c) (h1 : c'.now = c.now) (h2 : c'.faces = c.faces) (h3 : c'.map = c.map) (h4 : c'.out = c.out) :
    CInv T c' where
  good := by rw [h1, h2]; exact h.good
  map := by rw [h2, h3]; exact h.map
  keys := by rw [h3]; exact h.keys
  disp := by rw [h2, h4]; exact h.disp
  peers := by rw [h2, h4]; exact h.peers

/-- Adding an effect that is not a dispatch. -/
theorem CInv.emit {T : Nat} {c : Chan} {o : COut} (h : CInv T c) (ho : ∀ ep b k, o ≠ .peer ep b k) : CInv T (cemit c o) where
  good := h.good
  map := h.map
  keys := h.keys
  disp := by
    intro k
    show dispatchedTo k (c.out ++ [o]) = _
    rw [dispatchedTo_append, h.disp k]
    cases o with
    | peer ep b j => exact absurd rfl (ho ep b j)
    | _ => simp [dispatchedTo, cemit]
  peers := by
    intro ep b k hm
    rcases List.mem_append.1 hm with hm | hm
    · exact h.peers ep b k hm
    · rw [List.mem_singleton] at hm; exact absurd hm.symm (ho ep b k)

theorem map_filter_nodup (m : List (Nat × Nat)) (p : Nat × Nat → Bool) (h : (m.map Prod.fst).Nodup) : ((m.filter p).map Prod.fst).Nodup :=
  List.Nodup.sublist (List.Sublist.map _ List.filter_sublist) h

theorem unique_of_keys {m : List (Nat × Nat)} (h : (m.map Prod.fst).Nodup) {e a b : Nat} (ha : (e, a) ∈ m) (hb : (e, b) ∈ m) : a = b := by
  induction m with
  | nil => cases ha
  | cons x m ih =>
    rw [List.map_cons, List.nodup_cons] at h
    rcases List.mem_cons.1 ha with ha | ha
    · rcases List.mem_cons.1 hb with hb | hb
      · rw [← ha] at hb; cases hb; rfl
      · exact absurd (List.mem_map.2 ⟨_, hb, by rw [← ha]⟩) h.1
    · rcases List.mem_cons.1 hb with hb | hb
      · exact absurd (List.mem_map.2 ⟨_, ha, by rw [← hb]⟩) h.1
      · exact ih h.2 ha hb

/-- Replacing a face by its successor. -/
theorem map_putFace {T : Nat} {c : Chan} (h : CInv T c) {k : Nat} {f f' : Face} (hf : c.faces[k]? = some f) (he : f'.ep = f.ep)
    (hs : f.state = .closed → f'.state = .closed) (ep j : Nat) :
    (ep, j) ∈ (putFace c k f f').map ↔ ∃ g, (putFace c k f f').faces[j]? = some g ∧ g.ep = ep ∧ g.state ≠ .closed := by
  have hk : k < c.faces.length := by
    rcases Nat.lt_or_ge k c.faces.length with h | h
    · exact h
    · rw [List.getElem?_eq_none h] at hf; cases hf
  show (ep, j) ∈ (if f'.state = .closed ∧ f.state ≠ .closed then c.map.filter (fun x => x.1 != f.ep) else c.map) ↔
    ∃ g, (c.faces.set k f')[j]? = some g ∧ g.ep = ep ∧ g.state ≠ .closed
  rw [List.getElem?_set]
  by_cases hj : k = j
  · subst hj
    rw [if_pos rfl, if_pos hk]
    by_cases hc : f'.state = .closed
    · constructor
      · intro hm
        exfalso
        by_cases hfc : f.state = .closed
        · rw [if_neg (fun x => x.2 hfc)] at hm
          obtain ⟨g, hg, _, hg3⟩ := (h.map ep k).1 hm
          rw [hf] at hg; cases hg
          exact hg3 hfc
        · rw [if_pos ⟨hc, hfc⟩] at hm
          have hm' := List.mem_filter.1 hm
          obtain ⟨g, hg, hg2, _⟩ := (h.map ep k).1 hm'.1
          rw [hf] at hg; cases hg
          simp [hg2] at hm'
      · rintro ⟨g, hg, _, hg3⟩
        cases hg
        exact absurd hc hg3
    · rw [if_neg (fun x => hc x.1), h.map ep k]
      have hfc : f.state ≠ .closed := fun x => hc (hs x)
      constructor
      · rintro ⟨g, hg, hg2, _⟩
        rw [hf] at hg; cases hg
        exact ⟨f', rfl, he.trans hg2, hc⟩
      · rintro ⟨g, hg, hg2, _⟩
        cases hg
        exact ⟨f, hf, he.symm.trans hg2, hfc⟩
  · rw [if_neg hj]
    by_cases hc : f'.state = .closed ∧ f.state ≠ .closed
    · rw [if_pos hc, List.mem_filter, h.map ep j]
      constructor
      · rintro ⟨hx, _⟩; exact hx
      · rintro ⟨g, hg, hg2, hg3⟩
        refine ⟨⟨g, hg, hg2, hg3⟩, ?_⟩
        simp only [bne_iff_ne, ne_eq]
        intro hep
        have h1 : (ep, j) ∈ c.map := (h.map ep j).2 ⟨g, hg, hg2, hg3⟩
        have h2 : (ep, k) ∈ c.map := (h.map ep k).2 ⟨f, hf, hep.symm, hc.2⟩
        exact hj (unique_of_keys h.keys h2 h1)
    · rw [if_neg hc, h.map ep j]

theorem keys_putFace {c : Chan} {k : Nat} {f f' : Face} (h : (c.map.map Prod.fst).Nodup) : ((putFace c k f f').map.map Prod.fst).Nodup := by
  show ((if f'.state = .closed ∧ f.state ≠ .closed then c.map.filter (fun x => x.1 != f.ep) else c.map).map Prod.fst).Nodup
  split
  · exact map_filter_nodup _ _ h
  · exact h

theorem good_putFace {T : Nat} {c : Chan} (h : CInv T c) {k : Nat} {f f' : Face} (hg : Good T c.now f') (j : Nat) (g : Face)
    (hj : (putFace c k f f').faces[j]? = some g) : Good T c.now g := by
  have hj : (c.faces.set k f')[j]? = some g := hj
  rw [List.getElem?_set] at hj
  split at hj
  · split at hj
    · cases hj; exact hg
    · cases hj
  · exact h.good j g hj

theorem cinv_face {T : Nat} {c : Chan} (h : CInv T c) {k : Nat} {f f' : Face} {ev : FEvent} (hf : c.faces[k]? = some f)
    (e : faceStep T c.now f ev = .ok f') : CInv T (putFace c k f f') := by
  have hg := h.good k f hf
  have ha := step_acts hg.phase e
  have hep : f'.ep = f.ep := acts_ep ha
  have hk : k < c.faces.length := by
    rcases Nat.lt_or_ge k c.faces.length with h | h
    · exact h
    · rw [List.getElem?_eq_none h] at hf; cases hf
  refine ⟨?_, ?_, keys_putFace (k := k) h.keys, ?_, ?_⟩
  · exact good_putFace h (good_step hg e)
  · exact map_putFace h hf hep (acts_closed ha)
  · intro j
    show dispatchedTo j c.out = match (c.faces.set k f')[j]? with | some f => viaChannel f.out | none => []
    rw [h.disp j, List.getElem?_set]
    by_cases hj : k = j
    · subst hj
      rw [if_pos rfl, if_pos hk, hf]
      exact (acts_via ha).symm
    · rw [if_neg hj]
  · intro ep b j hm
    obtain ⟨g, hg1, hg2⟩ := h.peers ep b j hm
    show ∃ f, (c.faces.set k f')[j]? = some f ∧ f.ep = ep
    rw [List.getElem?_set]
    by_cases hj : k = j
    · subst hj
      rw [if_pos rfl, if_pos hk]
      rw [hf] at hg1; cases hg1
      exact ⟨f', rfl, hep.trans hg2⟩
    · rw [if_neg hj]; exact ⟨g, hg1, hg2⟩

theorem cinv_dispatch {T : Nat} {c : Chan} (h : CInv T c) {k ep : Nat} {f f' : Face} {b : Bytes} (hf : c.faces[k]? = some f) (hep : f.ep = ep)
    (hc : f.state ≠ .closed) (e : dispatch c.now f b = .ok f') : CInv T (cemit (putFace c k f f') (.peer ep b k)) := by
  have hg := h.good k f hf
  obtain ⟨hs, he⟩ := dispatch_state e
  have hk : k < c.faces.length := by
    rcases Nat.lt_or_ge k c.faces.length with h | h
    · exact h
    · rw [List.getElem?_eq_none h] at hf; cases hf
  have hvia : viaChannel f'.out = viaChannel f.out ++ [b] := by
    have hv := dispatch_view e
    have h1 : f'.out = (arriveView c.now (view f) (.dispatched b) b).out := by rw [← hv]; rfl
    rw [h1]
    simp only [arriveView, viaChannel_append, view]
    split <;> simp [viaChannel]
  refine ⟨?_, ?_, keys_putFace (k := k) h.keys, ?_, ?_⟩
  · exact good_putFace (f := f) h (good_dispatch hg hc e)
  · exact map_putFace h hf he (fun x => absurd x hc)
  · intro j
    show dispatchedTo j (c.out ++ [.peer ep b k]) = match (c.faces.set k f')[j]? with | some f => viaChannel f.out | none => []
    rw [dispatchedTo_append, h.disp j, List.getElem?_set]
    by_cases hj : k = j
    · subst hj
      rw [if_pos rfl, if_pos hk, hf]
      simp [dispatchedTo, hvia]
    · rw [if_neg hj]
      simp [dispatchedTo, hj]
  · intro ep' b' j hm
    show ∃ f, (c.faces.set k f')[j]? = some f ∧ f.ep = ep'
    rw [List.getElem?_set]
    rcases List.mem_append.1 hm with hm | hm
    · obtain ⟨g, hg1, hg2⟩ := h.peers ep' b' j hm
      by_cases hj : k = j
      · subst hj
        rw [if_pos rfl, if_pos hk]
        rw [hf] at hg1; cases hg1
        exact ⟨f', rfl, he.trans hg2⟩
      · rw [if_neg hj]; exact ⟨g, hg1, hg2⟩
    · rw [List.mem_singleton] at hm
      cases hm
      rw [if_pos rfl, if_pos hk]
      exact ⟨f', rfl, he.trans hep⟩

theorem mem_of_lookup {m : List (Nat × Nat)} {e k : Nat} (h : m.lookup e = some k) : (e, k) ∈ m := by
  induction m with
  | nil => simp at h
  | cons x m ih =>
    obtain ⟨a, b⟩ := x
    rw [List.lookup_cons] at h
    cases hx : e == a with
    | true =>
      rw [hx] at h
      cases h
      rw [beq_iff_eq] at hx
      rw [hx]; exact List.mem_cons_self
    | false =>
      rw [hx] at h
      exact List.mem_cons_of_mem _ (ih h)

theorem not_mem_of_lookup {m : List (Nat × Nat)} {e k : Nat} (h : m.lookup e = none) : (e, k) ∉ m := by
  induction m with
  | nil => simp
  | cons x m ih =>
    obtain ⟨a, b⟩ := x
    rw [List.lookup_cons] at h
    cases hx : e == a with
    | true => rw [hx] at h; cases h
    | false =>
      rw [hx] at h
      intro hm
      rcases List.mem_cons.1 hm with hm | hm
      · cases hm; simp at hx
      · exact ih h hm

/-- A new face for an endpoint that has none. -/
theorem cinv_add {T : Nat} {c : Chan} (h : CInv T c) {ep : Nat} (p : Persist) (hl : c.map.lookup ep = none) :
    CInv T { c with faces := c.faces ++ [newFace T c.now ep p], map := c.map.filter (fun x => x.1 != ep) ++ [(ep, c.faces.length)] } := by
  have hnew : (newFace T c.now ep p).ep = ep ∧ (newFace T c.now ep p).state = .up ∧ viaChannel (newFace T c.now ep p).out = [] := by
    unfold newFace scheduleIdle
    dsimp only
    split <;> refine ⟨rfl, rfl, ?_⟩ <;> (dsimp only; split <;> rfl)
  have hfil : c.map.filter (fun x => x.1 != ep) = c.map := by
    rw [List.filter_eq_self]
    intro x hx
    simp only [bne_iff_ne, ne_eq]
    intro hxe
    exact not_mem_of_lookup (k := x.2) hl (hxe ▸ hx)
  refine ⟨?_, ?_, ?_, ?_, ?_⟩
  · intro k f hf
    have hf : (c.faces ++ [newFace T c.now ep p])[k]? = some f := hf
    rw [List.getElem?_append] at hf
    split at hf
    · exact h.good k f hf
    · rw [List.getElem?_singleton] at hf
      split at hf
      · cases hf; exact good_new _ _ _ _
      · cases hf
  · intro e k
    show (e, k) ∈ c.map.filter (fun x => x.1 != ep) ++ [(ep, c.faces.length)] ↔ ∃ f, (c.faces ++ [newFace T c.now ep p])[k]? = some f ∧ f.ep = e ∧ f.state ≠ .closed
    rw [hfil, List.mem_append, List.mem_singleton, h.map e k, List.getElem?_append]
    by_cases hk : k < c.faces.length
    · rw [if_pos hk]
      constructor
      · rintro (hx | hx)
        · exact hx
        · cases hx; omega
      · exact Or.inl
    · rw [if_neg hk, List.getElem?_singleton]
      constructor
      · rintro (⟨f, hf, _⟩ | hx)
        · rw [List.getElem?_eq_none (by omega)] at hf; cases hf
        · cases hx
          refine ⟨_, by simp, hnew.1, ?_⟩
          rw [hnew.2.1]; decide
      · rintro ⟨f, hf, hf2, _⟩
        split at hf
        · cases hf
          rename_i hx
          right
          rw [← hf2, hnew.1]
          congr 1
          omega
        · cases hf
  · show ((c.map.filter (fun x => x.1 != ep) ++ [(ep, c.faces.length)]).map Prod.fst).Nodup
    rw [hfil, List.map_append, List.nodup_append]
    refine ⟨h.keys, by simp, ?_⟩
    intro a ha b hb
    simp at hb
    obtain ⟨x, hx, rfl⟩ := List.mem_map.1 ha
    intro hxe
    exact not_mem_of_lookup (k := x.2) hl ((hb ▸ hxe) ▸ hx)
  · intro k
    show dispatchedTo k c.out = match (c.faces ++ [newFace T c.now ep p])[k]? with | some f => viaChannel f.out | none => []
    rw [h.disp k, List.getElem?_append]
    by_cases hk : k < c.faces.length
    · rw [if_pos hk]
    · rw [if_neg hk, List.getElem?_eq_none (by omega), List.getElem?_singleton]
      by_cases hk2 : k - c.faces.length = 0
      · rw [if_pos hk2]; exact hnew.2.2.symm
      · rw [if_neg hk2]
  · intro e b k hm
    obtain ⟨g, hg1, hg2⟩ := h.peers e b k hm
    refine ⟨g, ?_, hg2⟩
    show (c.faces ++ [newFace T c.now ep p])[k]? = some g
    have hk : k < c.faces.length := by
      rcases Nat.lt_or_ge k c.faces.length with h | h
      · exact h
      · rw [List.getElem?_eq_none h] at hg1; cases hg1
    rw [List.getElem?_append_left hk]; exact hg1

/-- `createFace`, in terms of the faces there are. -/
theorem createFace_spec {T : Nat} {c : Chan} (h : CInv T c) (ep : Nat) (p : Persist) (ok : Bool) :
    (∃ (k : Nat) (f : Face), createFace T c ep p ok = some (false, k, c) ∧ c.faces[k]? = some f ∧ f.ep = ep ∧ f.state ≠ .closed) ∨
    ((∀ (k : Nat) (f : Face), c.faces[k]? = some f → f.ep = ep → f.state = .closed) ∧ ok = false ∧ createFace T c ep p ok = none) ∨
    ((∀ (k : Nat) (f : Face), c.faces[k]? = some f → f.ep = ep → f.state = .closed) ∧ ok = true ∧ ∃ c', createFace T c ep p ok = some (true, c.faces.length, c') ∧
      CInv T c' ∧ c'.faces = c.faces ++ [newFace T c.now ep p] ∧ c'.now = c.now ∧ c'.out = c.out ∧ c'.isOpen = c.isOpen ∧ c'.waiting = c.waiting ∧
      c'.pending = c.pending) := by
  unfold createFace
  cases hl : c.map.lookup ep with
  | some k =>
    obtain ⟨f, hf, h1, h2⟩ := (h.map ep k).1 (mem_of_lookup hl)
    exact Or.inl ⟨k, f, rfl, hf, h1, h2⟩
  | none =>
    have hno : ∀ (k : Nat) (f : Face), c.faces[k]? = some f → f.ep = ep → f.state = .closed := by
      intro k f hf he
      apply Decidable.byContradiction
      intro hs
      exact not_mem_of_lookup hl ((h.map ep k).2 ⟨f, hf, he, hs⟩)
    cases ok with
    | false => exact Or.inr (Or.inl ⟨hno, rfl, rfl⟩)
    | true => exact Or.inr (Or.inr ⟨hno, rfl, _, rfl, cinv_add h p hl, rfl, rfl, rfl, rfl, rfl, rfl⟩)

theorem handleNewPeer_ok {T : Nat} {c : Chan} (h : CInv T c) (x : Option (Nat × Bytes × Bool)) :
    ∃ c', handleNewPeer T c x = .ok c' ∧ CInv T c' := by
  cases x with
  | none => exact ⟨_, rfl, h.emit (by intro _ _ _ e; cases e)⟩
  | some y =>
    obtain ⟨ep, b, ok⟩ := y
    simp only [handleNewPeer]
    rcases createFace_spec h ep .onDemand ok with ⟨k, f, h1, h2, h3, h4⟩ | ⟨_, _, h1⟩ | ⟨_, _, c', h1, h2, h3, h4, h5, _⟩
    · rw [h1]
      obtain ⟨f', hf'⟩ := dispatch_ok (now := c.now) b (h.good k f h2).phase h4
      refine ⟨_, by simp [h2, hf', bind, Except.bind]; rfl, ?_⟩
      exact (cinv_dispatch h h2 h3 h4 hf').same rfl rfl rfl rfl
    · rw [h1]
      exact ⟨_, rfl, h.emit (by intro _ _ _ e; cases e)⟩
    · rw [h1]
      have h2' : CInv T (cemit c' (.newPeer c.faces.length)) := h2.emit (by intro _ _ _ e; cases e)
      have hf : (cemit c' (.newPeer c.faces.length)).faces[c.faces.length]? = some (newFace T c.now ep .onDemand) := by
        show c'.faces[_]? = _
        rw [h3]; simp
      have hnew : (newFace T c.now ep .onDemand).ep = ep ∧ (newFace T c.now ep .onDemand).state ≠ .closed := by
        unfold newFace scheduleIdle
        dsimp only
        split <;> refine ⟨rfl, ?_⟩ <;> simp
      obtain ⟨f', hf'⟩ := dispatch_ok (now := (cemit c' (.newPeer c.faces.length)).now) b (h2'.good _ _ hf).phase hnew.2
      refine ⟨_, by simp [hf, hf', bind, Except.bind]; rfl, ?_⟩
      exact (cinv_dispatch h2' hf hnew.1 hnew.2 hf').same rfl rfl rfl rfl

theorem step_ok {T : Nat} {c : Chan} (h : CInv T c) (e : Event) : ∃ c', step T c e = .ok c' ∧ CInv T c' := by
  cases e with
  | tick d =>
    refine ⟨_, rfl, ?_, h.map, h.keys, h.disp, h.peers⟩
    intro k f hf
    exact (h.good k f hf).mono (Nat.le_add_right _ _)
  | face k ev =>
    simp only [step]
    cases hf : c.faces[k]? with
    | none => exact ⟨c, rfl, h⟩
    | some f =>
      obtain ⟨f', hf'⟩ := faceStep_ok (T := T) (now := c.now) ev (h.good k f hf).phase
      exact ⟨_, by simp [hf', bind, Except.bind], cinv_face h hf hf'⟩
  | connect req ep p ok =>
    refine ⟨_, rfl, ?_⟩
    unfold connect
    rcases createFace_spec h ep p ok with ⟨k, f, h1, _⟩ | ⟨_, _, h1⟩ | ⟨_, _, c', h1, h2, _⟩
    · rw [h1]; exact h.emit (by intro _ _ _ e; cases e)
    · rw [h1]; exact h.emit (by intro _ _ _ e; cases e)
    · rw [h1]; exact h2.emit (by intro _ _ _ e; cases e)
  | listen =>
    simp only [step]
    split
    · exact ⟨_, rfl, h⟩
    · exact ⟨_, rfl, h.same rfl rfl rfl rfl⟩
  | peer ep b ok o =>
    simp only [step]
    split
    · exact ⟨_, rfl, h⟩
    · split
      · exact handleNewPeer_ok (h.same (c' := { c with waiting := false }) rfl rfl rfl rfl) _
      · exact ⟨_, rfl, h.same rfl rfl rfl rfl⟩
  | peerFail o =>
    simp only [step]
    split
    · exact ⟨_, rfl, h⟩
    · split
      · exact handleNewPeer_ok (h.same (c' := { c with waiting := false }) rfl rfl rfl rfl) _
      · exact ⟨_, rfl, h.same rfl rfl rfl rfl⟩
  | next =>
    simp only [step]
    split
    · exact ⟨_, rfl, h⟩
    · exact handleNewPeer_ok (h.same (c' := { c with pending := none }) rfl rfl rfl rfl) _

theorem run_ok {T : Nat} {c : Chan} (h : CInv T c) (es : List Event) : ∃ c', run T c es = .ok c' ∧ CInv T c' := by
  induction es generalizing c with
  | nil => exact ⟨c, rfl, h⟩
  | cons e es ih =>
    obtain ⟨c1, h1, h2⟩ := step_ok h e
    obtain ⟨c2, h3, h4⟩ := ih h2
    exact ⟨c2, by simp [run, h1, bind, Except.bind, h3], h4⟩

theorem run_cinv {T : Nat} {es : List Event} {c : Chan} (e : run T Chan.init es = .ok c) : CInv T c := by
  obtain ⟨c', h1, h2⟩ := run_ok (cinv_init T) es
  rw [h1] at e; cases e; exact h2

end Verif.Dg
