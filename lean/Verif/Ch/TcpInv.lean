/-
Invariants of a TCP channel with its faces and requests.
-/
import Verif.Ch.Tcp
import Verif.Tp.Step
import Verif.Dg.Chan

namespace Verif.Ch
open Verif.Tp (TState Persist bind_ok)
open Verif.Dg (map_filter_nodup unique_of_keys mem_of_lookup not_mem_of_lookup)

/-! ### A transport that is CLOSED stays so -/

theorem closed_setState {s s' : Tp.St} {n : TState} (h : Tp.setState s n = .ok s') (hs : s.state = .closed) : s'.state = .closed := by
  rcases Tp.setState_ok h with ⟨_, rfl⟩ | ⟨hv, _⟩
  · exact hs
  · rw [hs] at hv; simp [Tp.validTransition] at hv

theorem closed_processError {s s' : Tp.St} {e : Tp.Err} (h : Tp.processError s e = .ok s') (hs : s.state = .closed) : s'.state = .closed := by
  unfold Tp.processError at h
  rw [if_pos (by rw [hs]; exact Or.inl rfl)] at h
  cases h; exact hs

theorem closed_handle {s s' : Tp.St} {x : Tp.Handler} (hq : x.quiet = true) (h : Tp.handle s x = .ok s') (hs : s.state = .closed) : s'.state = .closed := by
  cases x with
  | readOk c => cases hq
  | writeOk n => cases hq
  | readErr e => exact closed_processError h hs
  | writeErr e => exact closed_processError h hs
  | connectAborted => cases h; exact hs
  | deferredClose =>
    refine closed_setState h ?_
    rw [Tp.cancel_eq]; exact hs
  | reconnect =>
    simp only [Tp.handle, Tp.reconnect] at h
    rw [if_pos (by rw [hs]; rfl)] at h
    cases h; exact hs
  | dealloc => cases h; exact hs

theorem closed_step {s s' : Tp.St} {e : Tp.Event} (hi : Tp.Inv s) (h : Tp.step s e = .ok s') (hs : s.state = .closed) : s'.state = .closed := by
  have hl := hi.life
  simp only [Tp.Life, hs] at hl
  obtain ⟨h1, h2, h3, h4, h5, h6⟩ := hl
  cases e with
  | send p =>
    simp only [Tp.step] at h
    cases h
    split
    · exact hs
    · simp [Tp.send, hs]
  | close =>
    simp only [Tp.step] at h
    split at h
    · cases h; exact hs
    · rw [Tp.close, if_pos (by simp [hs])] at h
      cases h; exact hs
  | setPersist p =>
    simp only [Tp.step] at h
    split at h
    · cases h; exact hs
    · unfold Tp.setPersist at h
      split at h
      · cases h; exact hs
      · simp only [hs] at h
        rw [if_neg (by rintro ⟨_, h⟩; cases h)] at h
        cases h; rfl
  | io w r rf =>
    simp only [Tp.step, h1, h2] at h
    have hw : Tp.doWrite s w = (s, none) := by unfold Tp.doWrite; rw [h2]
    have hr : Tp.doRead s r = (s, none) := by unfold Tp.doRead; rw [h1]; rfl
    rw [hw, hr] at h
    simp only [Tp.complete] at h
    split at h
    · cases h
    · split at h <;> (cases h; exact hs)
  | connect ok =>
    simp only [Tp.step, h3] at h
    rw [if_pos (by intro h; cases h)] at h
    cases h; exact hs
  | timer =>
    simp only [Tp.step, h4] at h
    cases h; exact hs
  | next =>
    simp only [Tp.step] at h
    split at h
    · cases h; exact hs
    · rename_i x rest hr
      split at h
      · cases h
      · rename_i hd
        obtain ⟨A, hA, hq⟩ := h6 (by simpa using hd)
        refine closed_handle ?_ h hs
        have hm : x ∈ A ++ [.dealloc] := by rw [← hA, hr]; exact List.mem_cons_self
        rcases List.mem_append.1 hm with hm | hm
        · exact (hq x hm).2
        · rw [List.mem_singleton.1 hm]; rfl

/-! ### The faces -/

/-- The transport of a face is in a state that `Verif.Tp` speaks about. -/
def Reach (t : Tp.St) : Prop := ∃ p es, Tp.run (Tp.init true p) es = .ok t

theorem Reach.init (p : Persist) : Reach (Tp.init true p) := ⟨p, [], rfl⟩

theorem Reach.inv {t : Tp.St} (h : Reach t) : Tp.Inv t := by
  obtain ⟨p, es, h⟩ := h
  exact Tp.run_inv (Tp.Inv.init true p) h

theorem Reach.step {t t' : Tp.St} {e : Tp.Event} (h : Reach t) (hs : Tp.step t e = .ok t') : Reach t' := by
  obtain ⟨p, es, h⟩ := h
  refine ⟨p, es ++ [e], ?_⟩
  rw [Tp.run_append, h]
  show Tp.run t [e] = _
  simp [Tp.run, hs, bind, Except.bind]

structure FInv (cfg : Cfg) (c : Chan) : Prop where
  reach : ∀ (k : Nat) (f : Face), c.faces[k]? = some f → Reach f.tp
  map : ∀ (ep k : Nat), (ep, k) ∈ c.map ↔ ∃ f, c.faces[k]? = some f ∧ f.ep = ep ∧ f.tp.state ≠ .closed
  keys : (c.map.map Prod.fst).Nodup
  created : ∀ (i k t : Nat), .answer i (.created k) t ∈ c.out → ∃ a f, c.reqs[i]? = some a ∧ c.faces[k]? = some f ∧ (f.ep = a.ep ∨ f.ep = cfg.peer a.ep)
  accepted : ∀ (ep k : Nat), .accepted ep k ∈ c.out → ∃ f, c.faces[k]? = some f ∧ f.ep = ep

theorem finv_init (cfg : Cfg) : FInv cfg Chan.init where
  reach := by intro k f h; simp [Chan.init] at h
  map := by intro ep k; simp [Chan.init]
  keys := by simp [Chan.init]
  created := by intro i k t h; simp [Chan.init] at h
  accepted := by intro ep k h; simp [Chan.init] at h

theorem FInv.same {cfg : Cfg} {c c' : Chan} (h : FInv cfg c) (h1 : c'.faces = c.faces) (h2 : c'.map = c.map) (h3 : c'.reqs = c.reqs) (h4 : c'.out = c.out) :
    FInv cfg c' where
  reach := by rw [h1]; exact h.reach
  map := by rw [h1, h2]; exact h.map
  keys := by rw [h2]; exact h.keys
  created := by rw [h1, h3, h4]; exact h.created
  accepted := by rw [h1, h4]; exact h.accepted

/-- The requests may change, but not what they ask for. -/
theorem FInv.reqs {cfg : Cfg} {c : Chan} (h : FInv cfg c) (r : List Attempt)
    (hr : ∀ (i : Nat) (a : Attempt), c.reqs[i]? = some a → ∃ b, r[i]? = some b ∧ b.ep = a.ep) : FInv cfg { c with reqs := r } where
  reach := h.reach
  map := h.map
  keys := h.keys
  created := by
    intro i k t hm
    obtain ⟨a, f, h1, h2, h3⟩ := h.created i k t hm
    obtain ⟨b, hb1, hb2⟩ := hr i a h1
    exact ⟨b, f, hb1, h2, by rw [hb2]; exact h3⟩
  accepted := h.accepted

theorem FInv.emit {cfg : Cfg} {c : Chan} (h : FInv cfg c) (o : Out)
    (h1 : ∀ (i k t : Nat), o = .answer i (.created k) t → ∃ a f, c.reqs[i]? = some a ∧ c.faces[k]? = some f ∧ (f.ep = a.ep ∨ f.ep = cfg.peer a.ep))
    (h2 : ∀ (ep k : Nat), o = .accepted ep k → ∃ f, c.faces[k]? = some f ∧ f.ep = ep) : FInv cfg (emit c o) where
  reach := h.reach
  map := h.map
  keys := h.keys
  created := by
    intro i k t hm
    rcases List.mem_append.1 hm with hm | hm
    · exact h.created i k t hm
    · exact h1 i k t (List.mem_singleton.1 hm).symm
  accepted := by
    intro ep k hm
    rcases List.mem_append.1 hm with hm | hm
    · exact h.accepted ep k hm
    · exact h2 ep k (List.mem_singleton.1 hm).symm

theorem finv_face {cfg : Cfg} {c : Chan} (h : FInv cfg c) {k : Nat} {f : Face} {t : Tp.St} {ev : Tp.Event} (hf : c.faces[k]? = some f)
    (e : Tp.step f.tp ev = .ok t) : FInv cfg (putFace c k f { f with tp := t }) := by
  have hk : k < c.faces.length := by
    rcases Nat.lt_or_ge k c.faces.length with h | h
    · exact h
    · rw [List.getElem?_eq_none h] at hf; cases hf
  have hget : ∀ (j : Nat) (g : Face), c.faces[j]? = some g → ∃ g', (putFace c k f { f with tp := t }).faces[j]? = some g' ∧ g'.ep = g.ep := by
    intro j g hg
    show ∃ g', (c.faces.set k { f with tp := t })[j]? = some g' ∧ _
    rw [List.getElem?_set]
    by_cases hj : k = j
    · subst hj
      rw [hf] at hg; cases hg
      exact ⟨{ f with tp := t }, by rw [if_pos rfl, if_pos hk], rfl⟩
    · exact ⟨g, by rw [if_neg hj]; exact hg, rfl⟩
  refine ⟨?_, ?_, ?_, ?_, ?_⟩
  · intro j g hg
    have hg : (c.faces.set k { f with tp := t })[j]? = some g := hg
    rw [List.getElem?_set] at hg
    by_cases hj : k = j
    · rw [if_pos hj, if_pos hk] at hg
      cases hg; exact (h.reach k f hf).step e
    · rw [if_neg hj] at hg; exact h.reach j g hg
  · intro ep j
    have hcl : f.tp.state = .closed → t.state = .closed := closed_step (h.reach k f hf).inv e
    show (ep, j) ∈ (if t.state = .closed ∧ f.tp.state ≠ .closed then c.map.filter (fun x => x.1 != f.ep) else c.map) ↔
      ∃ g, (c.faces.set k { f with tp := t })[j]? = some g ∧ g.ep = ep ∧ g.tp.state ≠ .closed
    rw [List.getElem?_set]
    by_cases hj : k = j
    · subst hj
      rw [if_pos rfl, if_pos hk]
      by_cases hc : t.state = .closed
      · constructor
        · intro hm
          exfalso
          by_cases hfc : f.tp.state = .closed
          · rw [if_neg (fun x => x.2 hfc)] at hm
            obtain ⟨g, hg, _, hg3⟩ := (h.map ep k).1 hm
            rw [hf] at hg; cases hg
            exact hg3 hfc
          · rw [if_pos ⟨hc, hfc⟩] at hm
            have hm' := List.mem_filter.1 hm
            obtain ⟨g, hg, hg2, _⟩ := (h.map ep k).1 hm'.1
            rw [hf] at hg; cases hg
            simp [hg2] at hm'
        · rintro ⟨g, hg, _, hg3⟩
          cases hg
          exact absurd hc hg3
      · rw [if_neg (fun x => hc x.1), h.map ep k]
        have hfc : f.tp.state ≠ .closed := fun x => hc (hcl x)
        constructor
        · rintro ⟨g, hg, hg2, _⟩
          rw [hf] at hg; cases hg
          exact ⟨_, rfl, hg2, hc⟩
        · rintro ⟨g, hg, hg2, _⟩
          cases hg
          exact ⟨f, hf, hg2, hfc⟩
    · rw [if_neg hj]
      by_cases hc : t.state = .closed ∧ f.tp.state ≠ .closed
      · rw [if_pos hc, List.mem_filter, h.map ep j]
        constructor
        · rintro ⟨hx, _⟩; exact hx
        · rintro ⟨g, hg, hg2, hg3⟩
          refine ⟨⟨g, hg, hg2, hg3⟩, ?_⟩
          simp only [bne_iff_ne, ne_eq]
          intro hep
          have h1 : (ep, j) ∈ c.map := (h.map ep j).2 ⟨g, hg, hg2, hg3⟩
          have h2 : (ep, k) ∈ c.map := (h.map ep k).2 ⟨f, hf, hep.symm, hc.2⟩
          exact hj (unique_of_keys h.keys h2 h1)
      · rw [if_neg hc, h.map ep j]
  · show ((if t.state = .closed ∧ f.tp.state ≠ .closed then c.map.filter (fun x => x.1 != f.ep) else c.map).map Prod.fst).Nodup
    split
    · exact map_filter_nodup _ _ h.keys
    · exact h.keys
  · intro i j tm hm
    obtain ⟨a, g, h1, h2, h3⟩ := h.created i j tm hm
    obtain ⟨g', hg1, hg2⟩ := hget j g h2
    exact ⟨a, g', h1, hg1, by rw [hg2]; exact h3⟩
  · intro ep j hm
    obtain ⟨g, h1, h2⟩ := h.accepted ep j hm
    obtain ⟨g', hg1, hg2⟩ := hget j g h1
    exact ⟨g', hg1, hg2.trans h2⟩

/-- The channel with a new face. -/
def addFace (c : Chan) (ep : Nat) (p : Persist) : Chan :=
  { c with faces := c.faces ++ [⟨ep, Tp.init true p⟩], map := c.map.filter (fun x => x.1 != ep) ++ [(ep, c.faces.length)] }

theorem finv_add {cfg : Cfg} {c : Chan} (h : FInv cfg c) {ep : Nat} (p : Persist) (hl : c.map.lookup ep = none) : FInv cfg (addFace c ep p) := by
  have hfil : c.map.filter (fun x => x.1 != ep) = c.map := by
    rw [List.filter_eq_self]
    intro x hx
    simp only [bne_iff_ne, ne_eq]
    intro hxe
    exact not_mem_of_lookup (k := x.2) hl (hxe ▸ hx)
  have hget : ∀ (j : Nat) (g : Face), c.faces[j]? = some g → (addFace c ep p).faces[j]? = some g := by
    intro j g hg
    show (c.faces ++ [_])[j]? = some g
    rw [List.getElem?_append_left (List.getElem?_eq_some_iff.1 hg).1]
    exact hg
  refine ⟨?_, ?_, ?_, ?_, ?_⟩
  · intro k f hf
    have hf : (c.faces ++ [⟨ep, Tp.init true p⟩])[k]? = some f := hf
    rw [List.getElem?_append] at hf
    split at hf
    · exact h.reach k f hf
    · rw [List.getElem?_singleton] at hf
      split at hf
      · cases hf; exact Reach.init p
      · cases hf
  · intro e k
    show (e, k) ∈ c.map.filter (fun x => x.1 != ep) ++ [(ep, c.faces.length)] ↔
      ∃ f, (c.faces ++ [⟨ep, Tp.init true p⟩])[k]? = some f ∧ f.ep = e ∧ f.tp.state ≠ .closed
    rw [hfil, List.mem_append, List.mem_singleton, h.map e k, List.getElem?_append]
    by_cases hk : k < c.faces.length
    · rw [if_pos hk]
      constructor
      · rintro (hx | hx)
        · exact hx
        · cases hx; omega
      · exact Or.inl
    · rw [if_neg hk, List.getElem?_singleton]
      constructor
      · rintro (⟨f, hf, _⟩ | hx)
        · rw [List.getElem?_eq_none (by omega)] at hf; cases hf
        · cases hx
          exact ⟨⟨ep, Tp.init true p⟩, by simp, rfl, by simp [Tp.init]⟩
      · rintro ⟨f, hf, hf2, _⟩
        split at hf
        · cases hf
          rename_i hx
          right
          rw [← hf2]
          congr 1
          omega
        · cases hf
  · show ((c.map.filter (fun x => x.1 != ep) ++ [(ep, c.faces.length)]).map Prod.fst).Nodup
    rw [hfil, List.map_append, List.nodup_append]
    refine ⟨h.keys, by simp, ?_⟩
    intro a ha b hb
    simp at hb
    obtain ⟨x, hx, rfl⟩ := List.mem_map.1 ha
    intro hxe
    exact not_mem_of_lookup (k := x.2) hl ((hb ▸ hxe) ▸ hx)
  · intro i k t hm
    obtain ⟨a, f, h1, h2, h3⟩ := h.created i k t hm
    exact ⟨a, f, h1, hget k f h2, h3⟩
  · intro e k hm
    obtain ⟨f, h1, h2⟩ := h.accepted e k hm
    exact ⟨f, hget k f h1, h2⟩

/-- What `createFace` does. -/
theorem createFace_cases {c c' : Chan} {ep q : Nat} {p : Persist} {sink : Sink} (h : createFace c ep q p sink = .ok c') :
    (q = 0 ∧ c' = report c ep sink none) ∨ (q ≠ 0 ∧ ∃ k, c.map.lookup ep = some k ∧ c' = report c ep sink (some k)) ∨
    (4 ≤ q ∧ c.map.lookup ep = none ∧ c' = report (addFace c ep p) ep sink (some c.faces.length)) := by
  unfold createFace at h
  split at h
  · cases h; exact Or.inl ⟨rfl, rfl⟩
  · rename_i q
    split at h
    · rename_i k hk
      cases h
      exact Or.inr (Or.inl ⟨by omega, k, hk, rfl⟩)
    · rename_i hk
      rcases q with _ | _ | _ | q
      · cases h
      · cases h
      · cases h
      · simp only [ask, bind, Except.bind] at h
        cases h
        refine Or.inr (Or.inr ⟨by omega, hk, ?_⟩)
        have : ∀ k, k = c.faces.length → report (addFace c ep p) ep sink (some k) = report (addFace c ep p) ep sink (some c.faces.length) := by
          intro k hk; rw [hk]
        exact this _ (by simp)

theorem createFace_err {c : Chan} {ep q : Nat} {p : Persist} {sink : Sink} {f : Fault} (h : createFace c ep q p sink = .error f) :
    f = .exception ∧ 0 < q ∧ q < 4 ∧ c.map.lookup ep = none := by
  unfold createFace at h
  split at h
  · cases h
  · rename_i q
    split at h
    · cases h
    · rename_i hk
      rcases q with _ | _ | _ | q <;> simp only [ask, bind, Except.bind] at h <;> cases h <;> exact ⟨rfl, by omega, by omega, hk⟩

theorem report_frame (c : Chan) (ep : Nat) (s : Sink) (r : Option Nat) :
    (report c ep s r).now = c.now ∧ (report c ep s r).faces = c.faces ∧ (report c ep s r).map = c.map ∧ (report c ep s r).reqs = c.reqs ∧
    (report c ep s r).isOpen = c.isOpen ∧ (report c ep s r).accepting = c.accepting ∧ (report c ep s r).pending = c.pending := by
  cases s <;> cases r <;> exact ⟨rfl, rfl, rfl, rfl, rfl, rfl, rfl⟩

/-- The endpoint fits the sink: the request asked for it. -/
def SinkOk (cfg : Cfg) (c : Chan) (ep : Nat) : Sink → Prop
  | .req i => ∃ a, c.reqs[i]? = some a ∧ cfg.peer a.ep = ep
  | .acceptor => True

theorem finv_report {cfg : Cfg} {c : Chan} (h : FInv cfg c) {ep : Nat} {s : Sink} (hs : SinkOk cfg c ep s) (r : Option Nat)
    (hr : ∀ k, r = some k → ∃ f, c.faces[k]? = some f ∧ f.ep = ep) : FInv cfg (report c ep s r) := by
  cases s with
  | req i =>
    obtain ⟨a, ha, hp⟩ := hs
    cases r with
    | none => exact h.emit _ (by intro _ _ _ e; cases e) (by intro _ _ e; cases e)
    | some k =>
      refine h.emit _ ?_ (by intro _ _ e; cases e)
      intro i' k' t' e
      cases e
      obtain ⟨f, hf1, hf2⟩ := hr k rfl
      exact ⟨a, f, ha, hf1, Or.inr (hf2.trans hp.symm)⟩
  | acceptor =>
    cases r with
    | none => exact h.emit _ (by intro _ _ _ e; cases e) (by intro _ _ e; cases e)
    | some k =>
      refine h.emit _ (by intro _ _ _ e; cases e) ?_
      intro ep' k' e
      cases e
      exact hr k rfl

theorem finv_createFace {cfg : Cfg} {c c' : Chan} {ep q : Nat} {p : Persist} {s : Sink} (h : FInv cfg c) (hs : SinkOk cfg c ep s)
    (e : createFace c ep q p s = .ok c') : FInv cfg c' := by
  rcases createFace_cases e with ⟨_, rfl⟩ | ⟨_, k, hk, rfl⟩ | ⟨_, hk, rfl⟩
  · exact finv_report h hs none (by intro k hk; cases hk)
  · refine finv_report h hs _ ?_
    intro k' hk'
    cases hk'
    obtain ⟨f, hf, h1, _⟩ := (h.map ep k).1 (mem_of_lookup hk)
    exact ⟨f, hf, h1⟩
  · refine finv_report (finv_add h p hk) hs _ ?_
    intro k' hk'
    cases hk'
    exact ⟨⟨ep, Tp.init true p⟩, by simp [addFace], rfl⟩

theorem ep_set {l : List Attempt} {i : Nat} {a b : Attempt} (ha : l[i]? = some a) (hb : b.ep = a.ep) (j : Nat) (x : Attempt) (hx : l[j]? = some x) :
    ∃ y, (l.set i b)[j]? = some y ∧ y.ep = x.ep := by
  rw [List.getElem?_set]
  by_cases hj : i = j
  · subst hj
    rw [ha] at hx; cases hx
    exact ⟨b, by rw [if_pos rfl, if_pos (List.getElem?_eq_some_iff.1 ha).1], hb⟩
  · exact ⟨x, by rw [if_neg hj]; exact hx, rfl⟩

theorem get_set {l : List Attempt} {i : Nat} {a b : Attempt} (ha : l[i]? = some a) : (l.set i b)[i]? = some b := by
  rw [List.getElem?_set, if_pos rfl, if_pos (List.getElem?_eq_some_iff.1 ha).1]

/-- What `handleConnect` does. -/
theorem handleConnect_cases {cfg : Cfg} {c c' : Chan} {i : Nat} {a : Attempt} {r : Res} (h : handleConnect cfg c i a r = .ok c') :
    let c1 := { c with reqs := c.reqs.set i { a with conn := .finished, timer := none } }
    (r = .err ∧ c' = emit c1 (.answer i .refused c.now)) ∨ (r = .aborted ∧ c' = c1) ∨
    (∃ q q', r = .ok q ∧ q' + (if cfg.trace then 1 else 0) = (if a.shut then 0 else q) ∧ createFace c1 (cfg.peer a.ep) q' a.persist (.req i) = .ok c') := by
  unfold handleConnect at h
  dsimp only at h
  cases r with
  | err => cases h; exact Or.inl ⟨rfl, rfl⟩
  | aborted => cases h; exact Or.inr (Or.inl ⟨rfl, rfl⟩)
  | ok q =>
    refine Or.inr (Or.inr ⟨q, ?_⟩)
    dsimp only at h
    generalize (if a.shut = true then 0 else q) = n at h ⊢
    cases ht : cfg.trace with
    | false =>
      rw [ht] at h
      simp only [Bool.false_eq_true, if_false, bind, Except.bind] at h
      exact ⟨n, rfl, by simp, h⟩
    | true =>
      rw [ht] at h
      simp only [if_true] at h
      cases n with
      | zero => cases h
      | succ n =>
        simp only [ask, bind, Except.bind] at h
        exact ⟨n, rfl, by simp, h⟩

theorem finv_handleConnect {cfg : Cfg} {c c' : Chan} {i : Nat} {a : Attempt} {r : Res} (h : FInv cfg c) (ha : c.reqs[i]? = some a)
    (e : handleConnect cfg c i a r = .ok c') : FInv cfg c' := by
  have h1 : FInv cfg { c with reqs := c.reqs.set i { a with conn := .finished, timer := none } } := h.reqs _ (ep_set ha rfl)
  rcases handleConnect_cases e with ⟨_, rfl⟩ | ⟨_, rfl⟩ | ⟨q, q', _, _, hc⟩
  · exact h1.emit _ (by intro _ _ _ e; cases e) (by intro _ _ e; cases e)
  · exact h1
  · exact finv_createFace (s := .req i) (ep := cfg.peer a.ep) h1 ⟨_, get_set ha, rfl⟩ hc

theorem finv_handleTimeout {cfg : Cfg} {c : Chan} {i : Nat} {a : Attempt} (h : FInv cfg c) (ha : c.reqs[i]? = some a) : FInv cfg (handleTimeout c i a) := by
  unfold handleTimeout
  refine FInv.emit (h.reqs (c.reqs.set i { a with conn := if a.conn = .outstanding then .queued .aborted else a.conn, timer := none, shut := true })
    (ep_set ha rfl)) (.answer i .timedOut c.now) (by intro _ _ _ e; cases e) (by intro _ _ e; cases e)

theorem handleAccept_cases {cfg : Cfg} {c c' : Chan} {x : Option (Nat × Nat)} (h : handleAccept cfg c x = .ok c') :
    (x = none ∧ c' = emit c .acceptFailed) ∨
    (∃ ep q q' c1, x = some (ep, q) ∧ q' + (if cfg.trace then 1 else 0) = q ∧ createFace c ep q' .onDemand .acceptor = .ok c1 ∧
      c' = { c1 with accepting := true }) := by
  unfold handleAccept at h
  cases x with
  | none => cases h; exact Or.inl ⟨rfl, rfl⟩
  | some y =>
    obtain ⟨ep, q⟩ := y
    refine Or.inr ⟨ep, q, ?_⟩
    dsimp only at h
    cases ht : cfg.trace with
    | false =>
      rw [ht] at h
      simp only [Bool.false_eq_true, if_false, bind, Except.bind] at h
      cases hc : createFace c ep q .onDemand .acceptor with
      | error f => rw [hc] at h; cases h
      | ok c1 => rw [hc] at h; cases h; exact ⟨q, c1, rfl, by simp, hc, rfl⟩
    | true =>
      rw [ht] at h
      simp only [if_true] at h
      cases q with
      | zero => cases h
      | succ q =>
        simp only [ask, bind, Except.bind] at h
        cases hc : createFace c ep q .onDemand .acceptor with
        | error f => rw [hc] at h; cases h
        | ok c1 => rw [hc] at h; cases h; exact ⟨q, c1, rfl, by simp, hc, rfl⟩

theorem finv_handleAccept {cfg : Cfg} {c c' : Chan} {x : Option (Nat × Nat)} (h : FInv cfg c) (e : handleAccept cfg c x = .ok c') : FInv cfg c' := by
  rcases handleAccept_cases e with ⟨_, rfl⟩ | ⟨ep, q, q', c1, _, _, hc, rfl⟩
  · exact h.emit _ (by intro _ _ _ e; cases e) (by intro _ _ e; cases e)
  · exact (finv_createFace (s := .acceptor) (ep := ep) h trivial hc).same rfl rfl rfl rfl

theorem liftT_ok {α : Type} {x : Except Tp.Fault α} {a : α} (h : liftT x = .ok a) : x = .ok a := by
  cases x with
  | ok b => cases h; rfl
  | error f => cases h

theorem finv_step {cfg : Cfg} {c c' : Chan} {e : Event} (h : FInv cfg c) (hs : step cfg c e = .ok c') : FInv cfg c' := by
  cases e with
  | tick d => cases hs; exact h.same rfl rfl rfl rfl
  | face k ev =>
    simp only [step] at hs
    split at hs
    · cases hs; exact h
    · rename_i f hf
      obtain ⟨t, ht, h2⟩ := bind_ok.1 hs
      cases h2
      exact finv_face h hf (liftT_ok ht)
  | connect ep p =>
    simp only [step] at hs
    cases hs
    have happ : ∀ b : Attempt, FInv cfg { c with reqs := c.reqs ++ [b] } := by
      intro b
      refine h.reqs _ ?_
      intro i a ha
      exact ⟨a, by rw [List.getElem?_append_left (List.getElem?_eq_some_iff.1 ha).1]; exact ha, rfl⟩
    unfold connect
    split
    · rename_i k hk
      refine (happ _).emit _ ?_ (by intro _ _ e; cases e)
      intro i' k' t' e
      cases e
      obtain ⟨f, hf, h1, _⟩ := (h.map ep k).1 (mem_of_lookup hk)
      exact ⟨_, f, by simp; rfl, hf, Or.inl h1⟩
    · exact happ _
  | connected i q o =>
    simp only [step] at hs
    split at hs
    · cases hs; exact h
    · rename_i a ha
      split at hs
      · cases hs; exact h
      · split at hs
        · exact finv_handleConnect h ha hs
        · cases hs
          exact h.reqs _ (ep_set ha rfl)
  | connNext i =>
    simp only [step] at hs
    split at hs
    · cases hs; exact h
    · rename_i a ha
      split at hs
      · exact finv_handleConnect h ha hs
      · cases hs; exact h
  | timeout i =>
    simp only [step] at hs
    split at hs
    · cases hs; exact h
    · rename_i a ha
      split at hs
      · cases hs; exact h
      · split at hs
        · cases hs; exact h
        · cases hs; exact finv_handleTimeout h ha
  | listen =>
    simp only [step] at hs
    split at hs <;> cases hs
    · exact h
    · exact h.same rfl rfl rfl rfl
  | accept ep q o =>
    simp only [step] at hs
    split at hs
    · cases hs; exact h
    · split at hs
      · exact finv_handleAccept (h.same (c' := { c with accepting := false }) rfl rfl rfl rfl) hs
      · cases hs; exact h.same rfl rfl rfl rfl
  | acceptFail o =>
    simp only [step] at hs
    split at hs
    · cases hs; exact h
    · split at hs
      · exact finv_handleAccept (h.same (c' := { c with accepting := false }) rfl rfl rfl rfl) hs
      · cases hs; exact h.same rfl rfl rfl rfl
  | acceptNext =>
    simp only [step] at hs
    split at hs
    · cases hs; exact h
    · exact finv_handleAccept (h.same (c' := { c with pending := none }) rfl rfl rfl rfl) hs

/-- Invariants of runs. -/
theorem run_induct {cfg : Cfg} {P : Chan → Prop} (hstep : ∀ (c c' : Chan) (e : Event), P c → step cfg c e = .ok c' → P c') {c c' : Chan} {es : List Event}
    (h : P c) (hr : run cfg c es = .ok c') : P c' := by
  induction es generalizing c with
  | nil => cases hr; exact h
  | cons e es ih =>
    obtain ⟨c1, h1, h2⟩ := bind_ok.1 hr
    exact ih (hstep _ _ _ h h1) h2

theorem finv_run {cfg : Cfg} {es : List Event} {c : Chan} (h : run cfg Chan.init es = .ok c) : FInv cfg c :=
  run_induct (fun _ _ _ => finv_step) (finv_init cfg) h

end Verif.Ch
