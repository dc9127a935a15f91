import Verif.Fc.Lemmas

namespace Verif.Fc
open Verif.FaceCmd (Persistency Opts)

/-- A command is put on record. -/
def record (s : St) (r : Req) : St := { s with reqs := s.reqs ++ [⟨r, none⟩] }

theorem Inv.of_eq {s s' : St} (hi : Inv s) (h1 : s'.faces = s.faces) (h2 : s'.map = s.map) (h3 : s'.last = s.last) : Inv s' := by
  obtain ⟨a, b, c, d, f, g⟩ := hi
  exact ⟨by rw [h1, h2]; exact a, by rw [h1, h2]; exact b, by rw [h2]; exact c, by rw [h1, h3]; exact d, by rw [h1]; exact f, by rw [h3]; exact g⟩

/-- What `faces/create` does. -/
inductive Created (e : Env) (s : St) (r : Req) (sys : Sys) : St → Prop
  | bad : (¬ ∃ sch ep, WellFormed r sch ep) → Created e s r sys (answer (record s r) s.reqs.length ⟨400, none, none⟩)
  | unsupported (sch : String) (ep : Ep) : WellFormed r sch ep → (∀ f, s.schemes.lookup sch = some f → ¬ Suits e r ep f) →
      Created e s r sys (answer (record s r) s.reqs.length ⟨406, none, none⟩)
  | noChannel (sch : String) (ep : Ep) (f : Factory) : WellFormed r sch ep → s.schemes.lookup sch = some f → Suits e r ep f →
      (∀ c ∈ s.channels, ¬ Serves r ep f c) → Created e s r sys (answer (record s r) s.reqs.length ⟨504, none, none⟩)
  | goes (sch : String) (ep : Ep) (f : Factory) (c : Chan) (s' : St) : WellFormed r sch ep → s.schemes.lookup sch = some f → Suits e r ep f →
      FirstServing s r ep f c → Does e (record s r) s.reqs.length r ep c (sys != .filterError) s' → Created e s r sys s'

theorem create_spec {e : Env} {s s' : St} {r : Req} {sys : Sys} (hi : Inv s) (h : create e s r sys = some s') : Created e s r sys s' := by
  unfold create at h
  cases hu : r.uri with
  | malformed =>
    simp only [hu] at h
    cases h
    exact .bad (fun ⟨a, b, w, _⟩ => by rw [hu] at w; cases w)
  | nonCanonical =>
    simp only [hu] at h
    cases h
    exact .bad (fun ⟨a, b, w, _⟩ => by rw [hu] at w; cases w)
  | canonical sch ep =>
    simp only [hu] at h
    split at h
    · rename_i hb
      cases h
      refine .bad (fun ⟨a, b, w, w2⟩ => ?_)
      rcases hb with hb | hb
      · obtain ⟨x, y, hxy⟩ := w2 _ hb; cases hxy
      · obtain ⟨x, y, hxy⟩ := w2 _ hb; cases hxy
    · rename_i hb
      have hw : WellFormed r sch ep := by
        refine ⟨hu, fun u hlu => ?_⟩
        cases u with
        | malformed => exact absurd (Or.inl hlu) hb
        | nonCanonical => exact absurd (Or.inr hlu) hb
        | canonical a b => exact ⟨a, b, rfl⟩
      cases hf : s.schemes.lookup sch with
      | none =>
        simp only [hf] at h
        cases h
        exact .unsupported sch ep hw (fun f hh => by rw [hf] at hh; cases hh)
      | some f =>
        simp only [hf] at h
        have hc := choose_ok e { s with reqs := s.reqs ++ [⟨r, none⟩] } f r ep
        split at h
        · cases h
        · rename_i code hcode
          rw [hcode] at hc
          cases h
          rcases hc with ⟨h1, h2⟩ | ⟨h1, h2, h3⟩
          · subst h1
            exact .unsupported sch ep hw (fun f' hh => by rw [hf] at hh; cases hh; exact h2)
          · subst h1
            exact .noChannel sch ep f hw hf h2 h3
        · rename_i c hcc
          rw [hcc] at hc
          obtain ⟨h1, h2⟩ := hc
          have hi0 : Inv { s with reqs := s.reqs ++ [⟨r, none⟩] } := hi.of_eq rfl rfl rfl
          exact .goes sch ep f c s' hw hf h1 h2 (connect_does hi0 h)

/-- What the end of a connection attempt does. -/
inductive Ended (e : Env) (s : St) (i : Nat) (x : Conn) : St → Prop
  | nothing : ¬ Waits s i → Ended e s i x s
  | failed (p : Pending) (c : Chan) (code : Nat) : s.reqs[i]? = some p → p.waiting = some c → code = 504 ∨ code = 500 →
      Ended e s i x (answer { s with reqs := s.reqs.set i ⟨p.req, none⟩ } i ⟨code, none, none⟩)
  | ok (p : Pending) (c : Chan) (ep : Ep) (isLocal : Bool) (s' : St) : s.reqs[i]? = some p → p.waiting = some c → x = .ok ep isLocal →
      Does e { s with reqs := s.reqs.set i ⟨p.req, none⟩ } i p.req ep c true s' → s'.reqs = s.reqs.set i ⟨p.req, none⟩ → Ended e s i x s'

theorem Does.reqs {e : Env} {s s' : St} {i : Nat} {r : Req} {ep : Ep} {c : Chan} {b : Bool} (h : Does e s i r ep c b s') :
    (s'.reqs = s.reqs ∧ ∃ a, s'.out = s.out ++ [(i, a)]) ∨ (s'.reqs = s.reqs.set i ⟨r, some c⟩ ∧ s'.out = s.out ∧ c.proto = .tcp) := by
  cases h with
  | old k n f h1 h2 h3 => exact Or.inl ⟨rfl, _, rfl⟩
  | ghost k f h1 h2 h3 h4 => exact Or.inl ⟨rfl, _, rfl⟩
  | new b f h1 h2 h3 => exact Or.inl ⟨rfl, _, rfl⟩
  | half h1 h2 h3 => exact Or.inl ⟨rfl, _, rfl⟩
  | fail code h1 h2 h3 => exact Or.inl ⟨rfl, _, rfl⟩
  | wait h1 h2 => exact Or.inr ⟨rfl, rfl, h2⟩

theorem succeed_reqs {s s' : St} {i k : Nat} {r : Req} (h : succeed s i r k = some s') : s'.reqs = s.reqs := by
  unfold succeed at h
  split at h
  · cases h; rfl
  split at h
  · cases h; rfl
  split at h
  · cases h
  · cases h
    unfold answer add
    dsimp only
    split
    · rfl
    · split <;> rfl

theorem connected_spec {e : Env} {s s' : St} {i : Nat} {x : Conn} (hi : Inv s) (h : connected e s i x = some s') : Ended e s i x s' := by
  unfold connected at h
  cases hp : s.reqs[i]? with
  | none =>
    simp only [hp] at h
    cases h
    exact .nothing (fun ⟨p, c, w, _⟩ => by rw [hp] at w; cases w)
  | some p =>
    simp only [hp] at h
    cases hc : p.waiting with
    | none =>
      simp only [hc] at h
      cases h
      exact .nothing (fun ⟨p', c, w, w2⟩ => by rw [hp] at w; cases w; rw [hc] at w2; cases w2)
    | some c =>
      simp only [hc] at h
      cases x with
      | refused =>
        cases h
        exact .failed p c 504 hp hc (Or.inl rfl)
      | lost =>
        cases h
        exact .failed p c 500 hp hc (Or.inr rfl)
      | ok ep isLocal =>
        simp only at h
        have hi0 : Inv { s with reqs := s.reqs.set i ⟨p.req, none⟩ } := hi.of_eq rfl rfl rfl
        have hr := succeed_reqs h
        cases hl : s.map.lookup (c, ep) with
        | some k =>
          have h0 : findOrMake e { s with reqs := s.reqs.set i ⟨p.req, none⟩ } c ep p.req.persistency p.req.params isLocal =
              ({ s with reqs := s.reqs.set i ⟨p.req, none⟩ }, k) := by simp [findOrMake, hl]
          rw [h0] at h hr
          exact .ok p c ep isLocal s' hp hc rfl (succeed_old e true hi0 hl h) hr
        | none =>
          have h0 : findOrMake e { s with reqs := s.reqs.set i ⟨p.req, none⟩ } c ep p.req.persistency p.req.params isLocal =
              mkFace e { s with reqs := s.reqs.set i ⟨p.req, none⟩ } c ep p.req.persistency p.req.params isLocal := by simp [findOrMake, hl]
          rw [h0] at h hr
          refine .ok p c ep isLocal s' hp hc rfl (succeed_new e true isLocal hl h) ?_
          rw [hr]
          rfl

/-! ### The invariant -/

theorem inv_init : Inv init := by
  constructor <;> intros <;> simp_all [init]

theorem getElem?_append_new {l : List Face} {x f : Face} {k : Nat} (h : (l ++ [x])[k]? = some f) : l[k]? = some f ∨ (k = l.length ∧ f = x) := by
  by_cases hk : k < l.length
  · rw [List.getElem?_append_left hk] at h
    exact Or.inl h
  · have : k < (l ++ [x]).length := (List.getElem?_eq_some_iff.mp h).1
    simp at this
    have hkl : k = l.length := by omega
    subst hkl
    simp at h
    exact Or.inr ⟨rfl, h.symm⟩

theorem getElem?_old {l : List Face} {x f : Face} {k : Nat} (h : l[k]? = some f) : (l ++ [x])[k]? = some f := by
  rw [List.getElem?_append_left (List.getElem?_eq_some_iff.mp h).1]
  exact h

/-- A new face, in the table or not. -/
theorem Inv.push {s : St} (hi : Inv s) {c : Chan} {ep : Ep} {f : Face} {last : Nat} (hl : s.map.lookup (c, ep) = none)
    (hc : f.chan = c) (he : f.ep = ep) (hu : f.st = .up) (hid : (f.id = none ∧ last = s.last) ∨ (f.id = some (s.last + 1) ∧ last = s.last + 1)) :
    Inv { s with faces := s.faces ++ [f], map := s.map ++ [((c, ep), s.faces.length)], last := last } := by
  have hlast : s.last ≤ last := by rcases hid with ⟨-, h⟩ | ⟨-, h⟩ <;> omega
  refine ⟨?_, ?_, ?_, ?_, ?_, ?_⟩
  · intro c' ep' k hm
    rcases List.mem_append.mp hm with hm | hm
    · obtain ⟨g, h1, h2⟩ := hi.m1 _ _ _ hm
      exact ⟨g, getElem?_old h1, h2⟩
    · simp only [List.mem_singleton, Prod.mk.injEq] at hm
      obtain ⟨⟨h1, h2⟩, h3⟩ := hm
      subst h1 h2 h3
      exact ⟨f, by simp, hc, he, by rw [hu]; decide⟩
  · intro k g hg hgs
    rcases getElem?_append_new hg with hg | ⟨h1, h2⟩
    · exact List.mem_append_left _ (hi.m2 k g hg hgs)
    · subst h1 h2
      rw [hc, he]
      exact List.mem_append_right _ (by simp)
  · rw [List.pairwise_append]
    refine ⟨hi.m3, by simp, ?_⟩
    intro a ha b hb
    simp only [List.mem_singleton] at hb
    subst hb
    intro heq
    obtain ⟨x, k⟩ := a
    dsimp only at heq
    subst heq
    exact lookup_none hl ha
  · intro k g n hg hn
    rcases getElem?_append_new hg with hg | ⟨h1, h2⟩
    · obtain ⟨a, b, d⟩ := hi.i1 k g n hg hn
      exact ⟨a, by show n ≤ last; omega, d⟩
    · subst h2
      rcases hid with ⟨h, -⟩ | ⟨h, h'⟩
      · rw [h] at hn; cases hn
      · rw [h] at hn
        cases hn
        exact ⟨by have := hi.l; omega, by show _ ≤ last; omega, by rw [hu]; decide⟩
  · intro k k' g g' n hg hg' hn hn'
    rcases getElem?_append_new hg with hg1 | ⟨h1, h2⟩ <;> rcases getElem?_append_new hg' with hg2 | ⟨h1', h2'⟩
    · exact hi.i2 k k' g g' n hg1 hg2 hn hn'
    · subst h2'
      have := (hi.i1 k g n hg1 hn).2.1
      rcases hid with ⟨h, -⟩ | ⟨h, h'⟩
      · rw [h] at hn'; cases hn'
      · rw [h] at hn'; cases hn'; omega
    · subst h2
      have := (hi.i1 k' g' n hg2 hn').2.1
      rcases hid with ⟨h, -⟩ | ⟨h, h'⟩
      · rw [h] at hn; cases hn
      · rw [h] at hn; cases hn; omega
    · omega
  · have := hi.l
    show 255 ≤ last
    omega

theorem set_get {l : List Face} {k k' : Nat} {x f : Face} (h : (l.set k x)[k']? = some f) : (k' = k ∧ f = x ∧ k < l.length) ∨ (k' ≠ k ∧ l[k']? = some f) := by
  by_cases hk : k' = k
  · subst hk
    have hlt : k' < l.length := by
      have := (List.getElem?_eq_some_iff.mp h).1
      simpa using this
    rw [List.getElem?_set_self hlt] at h
    cases h
    exact Or.inl ⟨rfl, rfl, hlt⟩
  · rw [List.getElem?_set_ne (Ne.symm hk)] at h
    exact Or.inr ⟨hk, h⟩

/-- A face is changed, but not what identifies it. -/
theorem Inv.alter {s : St} (hi : Inv s) {k : Nat} {f g : Face} {last : Nat} (hf : s.faces[k]? = some f) (hc : g.chan = f.chan) (he : g.ep = f.ep)
    (hs : g.st = .closed ↔ f.st = .closed)
    (hid : (g.id = f.id ∧ last = s.last) ∨ (g.st ≠ .closed ∧ g.id = some (s.last + 1) ∧ last = s.last + 1)) :
    Inv { s with faces := s.faces.set k g, last := last } := by
  have hk : k < s.faces.length := (List.getElem?_eq_some_iff.mp hf).1
  have hlast : s.last ≤ last := by rcases hid with ⟨-, h⟩ | ⟨-, -, h⟩ <;> omega
  refine ⟨?_, ?_, hi.m3, ?_, ?_, ?_⟩
  · intro c ep k' hm
    obtain ⟨x, h1, h2, h3, h4⟩ := hi.m1 c ep k' hm
    by_cases hkk : k' = k
    · subst hkk
      rw [hf] at h1
      cases h1
      exact ⟨g, List.getElem?_set_self hk, by rw [hc, h2], by rw [he, h3], fun h => h4 (hs.mp h)⟩
    · exact ⟨x, by show (s.faces.set k g)[k']? = _; rw [List.getElem?_set_ne (Ne.symm hkk)]; exact h1, h2, h3, h4⟩
  · intro k' x hx hxs
    rcases set_get hx with ⟨h1, h2, -⟩ | ⟨-, h2⟩
    · subst h1 h2
      rw [hc, he]
      exact hi.m2 _ _ hf (fun h => hxs (hs.mpr h))
    · exact hi.m2 _ _ h2 hxs
  · intro k' x n hx hn
    rcases set_get hx with ⟨h1, h2, -⟩ | ⟨-, h2⟩
    · subst h1 h2
      rcases hid with ⟨h, h'⟩ | ⟨h, h', h''⟩
      · obtain ⟨a, b, d⟩ := hi.i1 _ _ n hf (by rw [← h]; exact hn)
        exact ⟨a, by show n ≤ last; omega, fun h => d (hs.mp h)⟩
      · rw [h'] at hn
        cases hn
        have := hi.l
        exact ⟨by omega, by show _ ≤ last; omega, h⟩
    · obtain ⟨a, b, d⟩ := hi.i1 _ _ n h2 hn
      exact ⟨a, by show n ≤ last; omega, d⟩
  · have key : ∀ k' x n, k' ≠ k → s.faces[k']? = some x → x.id = some n → g.id = some n → False := by
      intro k' x n hne hx hn hg
      rcases hid with ⟨h, -⟩ | ⟨-, h, -⟩
      · exact hne (hi.i2 _ _ _ _ n hx hf hn (by rw [← h]; exact hg))
      · have := (hi.i1 _ _ n hx hn).2.1
        rw [h] at hg
        cases hg
        omega
    intro k1 k2 x y n hx hy hn hn'
    rcases set_get hx with ⟨h1, h2, -⟩ | ⟨h1, h2⟩ <;> rcases set_get hy with ⟨h1', h2', -⟩ | ⟨h1', h2'⟩
    · omega
    · rw [h2] at hn
      exact (key k2 y n h1' h2' hn' hn).elim
    · rw [h2'] at hn'
      exact (key k1 x n h1 h2 hn hn').elim
    · exact hi.i2 _ _ _ _ n h2 h2' hn hn'
  · have := hi.l
    show 255 ≤ last
    omega

theorem Does.inv {e : Env} {s s' : St} {i : Nat} {r : Req} {ep : Ep} {c : Chan} {b : Bool} (hi : Inv s) (h : Does e s i r ep c b s') : Inv s' := by
  cases h with
  | old k n f h1 h2 h3 => exact hi.of_eq rfl rfl rfl
  | ghost k f h1 h2 h3 h4 =>
    obtain ⟨f', hf', -, -, hst⟩ := hi.m1 _ _ _ (lookup_mem h1)
    rw [h2] at hf'
    cases hf'
    exact (hi.alter (g := { f with id := some (s.last + 1) }) (last := s.last + 1) h2 rfl rfl Iff.rfl (Or.inr ⟨hst, rfl, rfl⟩)).of_eq rfl rfl rfl
  | new b f h1 h2 h3 =>
    exact (hi.push (f := newFace e c ep r.persistency r.params b (some (s.last + 1))) (last := s.last + 1) h1 rfl rfl rfl (Or.inr ⟨rfl, rfl⟩)).of_eq rfl rfl rfl
  | half h1 h2 h3 =>
    exact (hi.push (f := newFace e c ep r.persistency r.params false none) (last := s.last) h1 rfl rfl rfl (Or.inl ⟨rfl, rfl⟩)).of_eq rfl rfl rfl
  | fail code h1 h2 h3 => exact hi.of_eq rfl rfl rfl
  | wait h1 h2 => exact hi.of_eq rfl rfl rfl

theorem Inv.add {s : St} (hi : Inv s) {k : Nat} {f : Face} (hf : s.faces[k]? = some f) (hs : f.st ≠ .closed) : Inv (add s k) := by
  unfold Fc.add
  rw [hf]
  dsimp only
  split
  · exact hi
  · exact hi.alter (g := { f with id := some (s.last + 1) }) (last := s.last + 1) hf rfl rfl Iff.rfl (Or.inr ⟨hs, rfl, rfl⟩)

theorem Inv.setFace {s : St} (hi : Inv s) {k : Nat} {g : Face → Face} (h1 : ∀ f, (g f).chan = f.chan) (h2 : ∀ f, (g f).ep = f.ep)
    (h3 : ∀ f, (g f).st = .closed ↔ f.st = .closed) (h4 : ∀ f, (g f).id = f.id) : Inv (setFace s k g) := by
  unfold Fc.setFace
  cases hf : s.faces[k]? with
  | none => exact hi
  | some f => exact hi.alter (g := g f) (last := s.last) hf (h1 f) (h2 f) (h3 f) (Or.inl ⟨h4 f, rfl⟩)

theorem map_key_unique {s : St} (hi : Inv s) {x : Chan × Ep} {k k' : Nat} (h : (x, k) ∈ s.map) (h' : (x, k') ∈ s.map) : k = k' := by
  have := hi.m3
  generalize s.map = l at h h' this
  induction l with
  | nil => cases h
  | cons a l ih =>
    rw [List.pairwise_cons] at this
    rcases List.mem_cons.mp h with h | h <;> rcases List.mem_cons.mp h' with h' | h'
    · rw [← h'] at h; cases h; rfl
    · have := this.1 _ h'; rw [← h] at this; exact absurd rfl this
    · have := this.1 _ h; rw [← h'] at this; exact absurd rfl this
    · exact ih h h' this.2

theorem Inv.settle {s : St} (hi : Inv s) (k : Nat) : Inv (settle s k) := by
  unfold Fc.settle
  cases hf : s.faces[k]? with
  | none => exact hi
  | some f =>
    dsimp only
    split
    · rename_i hs
      have hk : k < s.faces.length := (List.getElem?_eq_some_iff.mp hf).1
      have hmem := hi.m2 k f hf (by rw [hs]; decide)
      refine ⟨?_, ?_, ?_, ?_, ?_, hi.l⟩
      · intro c ep k' hm
        simp only [List.mem_filter, bne_iff_ne, ne_eq] at hm
        obtain ⟨hm, hne⟩ := hm
        obtain ⟨x, h1, h2, h3, h4⟩ := hi.m1 c ep k' hm
        have : k' ≠ k := by
          intro h
          subst h
          rw [hf] at h1
          cases h1
          exact hne (by rw [h2, h3])
        exact ⟨x, by show (s.faces.set k _)[k']? = _; rw [List.getElem?_set_ne (Ne.symm this)]; exact h1, h2, h3, h4⟩
      · intro k' x hx hxs
        rcases set_get hx with ⟨h1, h2, -⟩ | ⟨h1, h2⟩
        · subst h2
          exact absurd rfl hxs
        · have hm := hi.m2 _ _ h2 hxs
          simp only [List.mem_filter, bne_iff_ne, ne_eq]
          refine ⟨hm, fun heq => ?_⟩
          rw [heq] at hm
          exact h1 (map_key_unique hi hm hmem)
      · exact hi.m3.filter _
      · intro k' x n hx hn
        rcases set_get hx with ⟨h1, h2, -⟩ | ⟨h1, h2⟩
        · subst h2
          cases hn
        · exact hi.i1 _ _ n h2 hn
      · intro k1 k2 x y n hx hy hn hn'
        rcases set_get hx with ⟨h1, h2, -⟩ | ⟨h1, h2⟩ <;> rcases set_get hy with ⟨h1', h2', -⟩ | ⟨h1', h2'⟩
        · omega
        · subst h2; cases hn
        · subst h2'; cases hn'
        · exact hi.i2 _ _ _ _ n h2 h2' hn hn'
    · exact hi

theorem inv_step {e : Env} {s s' : St} {ev : Ev} (hi : Inv s) (h : step e s ev = some s') : Inv s' := by
  cases ev with
  | create r sys =>
    have hi0 : Inv (record s r) := hi.of_eq rfl rfl rfl
    cases create_spec hi h with
    | bad _ => exact hi0.of_eq rfl rfl rfl
    | unsupported _ _ _ _ => exact hi0.of_eq rfl rfl rfl
    | noChannel _ _ _ _ _ _ _ => exact hi0.of_eq rfl rfl rfl
    | goes sch ep f c _ h1 h2 h3 h4 h5 => exact h5.inv hi0
  | connected i x =>
    cases connected_spec hi h with
    | nothing _ => exact hi
    | failed _ _ _ _ _ _ => exact hi.of_eq rfl rfl rfl
    | ok p c ep isLocal _ h1 h2 h3 h4 =>
      have hi0 : Inv { s with reqs := s.reqs.set i ⟨p.req, none⟩ } := hi.of_eq rfl rfl rfl
      exact h4.inv hi0
  | incoming c ep isLocal =>
    cases h
    unfold incoming
    cases hl : s.map.lookup (c, ep) with
    | some k =>
      dsimp only
      split
      · obtain ⟨f, h1, -, -, h2⟩ := hi.m1 _ _ _ (lookup_mem hl)
        exact hi.add h1 h2
      · exact hi
    | none =>
      dsimp only
      rw [add_mkFace]
      exact hi.push (f := newFace e c ep .onDemand { faceId := 0 } isLocal (some (s.last + 1))) (last := s.last + 1) hl rfl rfl rfl (Or.inr ⟨rfl, rfl⟩)
  | config a b => cases h; exact hi.of_eq rfl rfl rfl
  | update k g => cases h; exact hi.setFace (fun _ => rfl) (fun _ => rfl) (fun _ => Iff.rfl) (fun _ => rfl)
  | close k =>
    cases h
    refine hi.setFace ?_ ?_ ?_ ?_ <;> intro f <;> split <;> simp_all
  | settle k => cases h; exact hi.settle k

theorem inv_run {e : Env} : ∀ {evs : List Ev} {s s' : St}, Inv s → run e s evs = some s' → Inv s'
  | [], s, s', hi, h => by cases h; exact hi
  | ev :: l, s, s', hi, h => by
    unfold run at h
    cases hs : step e s ev with
    | none => rw [hs] at h; cases h
    | some s1 =>
      rw [hs] at h
      exact inv_run (inv_step hi hs) h

end Verif.Fc
