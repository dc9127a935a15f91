import Verif.Fc.Spec

namespace Verif.Fc
open Verif.FaceCmd (Persistency Opts)

theorem wantLocal_iff {r : Req} : wantLocal r = true ↔ r.params.localFields = some true := by
  unfold wantLocal; simp

/-- The face table, the maps of the channels and the faces agree. -/
structure Inv (s : St) : Prop where
  m1 : ∀ (c : Chan) (ep : Ep) (k : Nat), ((c, ep), k) ∈ s.map → ∃ f, s.faces[k]? = some f ∧ f.chan = c ∧ f.ep = ep ∧ f.st ≠ .closed
  m2 : ∀ (k : Nat) (f : Face), s.faces[k]? = some f → f.st ≠ .closed → ((f.chan, f.ep), k) ∈ s.map
  m3 : s.map.Pairwise (fun a b => a.1 ≠ b.1)
  i1 : ∀ (k : Nat) (f : Face) (n : Nat), s.faces[k]? = some f → f.id = some n → 255 < n ∧ n ≤ s.last ∧ f.st ≠ .closed
  i2 : ∀ (k k' : Nat) (f f' : Face) (n : Nat), s.faces[k]? = some f → s.faces[k']? = some f' → f.id = some n → f'.id = some n → k = k'
  l : 255 ≤ s.last

/-- The commands that wait. -/
def Queue (e : Env) (s : St) : Prop :=
  ∀ (i : Nat) (p : Pending) (c : Chan), s.reqs[i]? = some p → p.waiting = some c →
    c.proto = .tcp ∧ ∃ sch ep, WellFormed p.req sch ep ∧ Suits e p.req ep .tcp ∧ c.v6 = ep.v6

/-- The faces that are alive and not in the face table are Ethernet faces. -/
def Ghosts (s : St) : Prop :=
  ∀ (k : Nat) (f : Face), s.faces[k]? = some f → f.st ≠ .closed → f.id = none → f.chan.proto = .ether

/-- Every face that is alive is in the face table. -/
def Registered (s : St) : Prop :=
  ∀ (k : Nat) (f : Face), s.faces[k]? = some f → f.st ≠ .closed → ∃ n, f.id = some n

/-- Every command has been answered once, or waits. -/
def Answered (s : St) : Prop :=
  ∀ i, answers s i = match s.reqs[i]? with
    | some ⟨_, none⟩ => 1
    | _ => 0

theorem lookup_mem {α β : Type} [BEq α] [LawfulBEq α] {k : α} {v : β} : ∀ {l : List (α × β)}, l.lookup k = some v → (k, v) ∈ l
  | [], h => by cases h
  | (a, b) :: l, h => by
    rw [List.lookup_cons] at h
    by_cases hk : k == a
    · rw [hk] at h
      cases h
      rw [eq_of_beq hk]
      exact List.mem_cons_self
    · have hk' : (k == a) = false := by simpa using hk
      rw [hk'] at h
      exact List.mem_cons_of_mem _ (lookup_mem h)

theorem lookup_none {α β : Type} [BEq α] [LawfulBEq α] {k : α} {v : β} : ∀ {l : List (α × β)}, l.lookup k = none → (k, v) ∉ l
  | [], _ => by simp
  | (a, b) :: l, h => by
    rw [List.lookup_cons] at h
    by_cases hk : k == a
    · rw [hk] at h
      cases h
    · have hk' : (k == a) = false := by simpa using hk
      rw [hk'] at h
      intro hm
      rcases List.mem_cons.mp hm with hm | hm
      · cases hm
        simp at hk
      · exact lookup_none h hm

/-- The face of `mkFace`. -/
def newFace (e : Env) (c : Chan) (ep : Ep) (pers : Persistency) (p : FaceCmd.Params) (isLocal : Bool) (id : Option Nat) : Face :=
  ⟨c, ep, .up, id,
    { isLocal := if c.proto = .tcp then isLocal else false
      persistency := pers
      flexible := true
      transportMtu := if c.proto = .tcp then FaceCmd.mtuUnlimited else e.mtu c ep
      link := some (options e c p) }⟩

/-- A face is made and put into the face table. -/
def grow (e : Env) (s : St) (c : Chan) (ep : Ep) (pers : Persistency) (p : FaceCmd.Params) (isLocal : Bool) : St :=
  { s with faces := s.faces ++ [newFace e c ep pers p isLocal (some (s.last + 1))]
           map := s.map ++ [((c, ep), s.faces.length)]
           last := s.last + 1 }

theorem add_mkFace (e : Env) (s : St) (c : Chan) (ep : Ep) (pers : Persistency) (p : FaceCmd.Params) (isLocal : Bool) :
    add (mkFace e s c ep pers p isLocal).1 (mkFace e s c ep pers p isLocal).2 = grow e s c ep pers p isLocal := by
  simp [add, mkFace, grow, newFace]

/-- What a command does, given the state in which it has been put on record. -/
inductive Does (e : Env) (s : St) (i : Nat) (r : Req) (ep : Ep) (c : Chan) (filterOk : Bool) : St → Prop
  | old (k n : Nat) (f : Face) : s.map.lookup (c, ep) = some k → s.faces[k]? = some f → f.id = some n →
      Does e s i r ep c filterOk (answer s i ⟨409, some (FaceCmd.makeUpdateFaceResponse n f.f), some k⟩)
  | ghost (k : Nat) (f : Face) : s.map.lookup (c, ep) = some k → s.faces[k]? = some f → f.id = none → (f.f.isLocal = true ∨ wantLocal r = false) →
      Does e s i r ep c filterOk (answer { s with last := s.last + 1, faces := s.faces.set k { f with id := some (s.last + 1) } } i
        ⟨200, some (FaceCmd.makeUpdateFaceResponse (s.last + 1) f.f), some k⟩)
  | new (isLocal : Bool) (f : Face) : s.map.lookup (c, ep) = none → f = newFace e c ep r.persistency r.params isLocal (some (s.last + 1)) →
      (f.f.isLocal = true ∨ wantLocal r = false) →
      Does e s i r ep c filterOk (answer (grow e s c ep r.persistency r.params isLocal) i
        ⟨200, some (FaceCmd.makeUpdateFaceResponse (s.last + 1) f.f), some s.faces.length⟩)
  | half : s.map.lookup (c, ep) = none → filterOk = false → c.proto = .ether →
      Does e s i r ep c filterOk (answer (mkFace e s c ep r.persistency r.params false).1 i ⟨500, none, none⟩)
  | fail (code : Nat) : s.map.lookup (c, ep) = none → code = 504 ∨ code = 500 → c.proto ≠ .tcp → Does e s i r ep c filterOk (answer s i ⟨code, none, none⟩)
  | wait : s.map.lookup (c, ep) = none → c.proto = .tcp → Does e s i r ep c filterOk { s with reqs := s.reqs.set i ⟨r, some c⟩ }

theorem succeed_old {s s' : St} {i k : Nat} {r : Req} {c : Chan} {ep : Ep} (e : Env) (b : Bool) (hi : Inv s) (hl : s.map.lookup (c, ep) = some k)
    (h : succeed s i r k = some s') : Does e s i r ep c b s' := by
  obtain ⟨f, hf, -⟩ := hi.m1 _ _ _ (lookup_mem hl)
  unfold succeed at h
  rw [hf] at h
  cases hid : f.id with
  | some n =>
    simp only [hid] at h
    cases h
    have : body f = some (FaceCmd.makeUpdateFaceResponse n f.f) := by simp [body, hid]
    rw [this]
    exact .old k n f hl hf hid
  | none =>
    simp only [hid] at h
    split at h
    · cases h
    · rename_i hc
      cases h
      have hk : k < s.faces.length := (List.getElem?_eq_some_iff.mp hf).1
      have h1 : add s k = { s with last := s.last + 1, faces := s.faces.set k { f with id := some (s.last + 1) } } := by
        simp [add, hf, hid]
      rw [h1]
      have h2 : (s.faces.set k { f with id := some (s.last + 1) })[k]? = some { f with id := some (s.last + 1) } :=
        List.getElem?_set_self hk
      simp only [h2, Option.bind_some, body, Option.map_some]
      refine .ghost k f hl hf hid ?_
      cases h3 : f.f.isLocal <;> cases h4 : wantLocal r <;> simp_all

theorem succeed_new {s s' : St} {i : Nat} {r : Req} {c : Chan} {ep : Ep} (e : Env) (b isLocal : Bool) (hl : s.map.lookup (c, ep) = none)
    (h : succeed (mkFace e s c ep r.persistency r.params isLocal).1 i r (mkFace e s c ep r.persistency r.params isLocal).2 = some s') :
    Does e s i r ep c b s' := by
  unfold succeed at h
  have h0 : (mkFace e s c ep r.persistency r.params isLocal).1.faces[(mkFace e s c ep r.persistency r.params isLocal).2]? =
      some (newFace e c ep r.persistency r.params isLocal none) := by simp [mkFace, newFace]
  rw [h0] at h
  have h00 : (newFace e c ep r.persistency r.params isLocal none).id = none := rfl
  simp only [h00] at h
  split at h
  · cases h
  · rename_i hc
    rw [add_mkFace] at h
    cases h
    have h2 : (grow e s c ep r.persistency r.params isLocal).faces[(mkFace e s c ep r.persistency r.params isLocal).2]? =
        some (newFace e c ep r.persistency r.params isLocal (some (s.last + 1))) := by simp [mkFace, grow]
    rw [h2]
    simp only [Option.bind_some, body]
    have := Does.new (e := e) (s := s) (i := i) (r := r) (ep := ep) (c := c) (filterOk := b) isLocal _ hl rfl
      (by
        have : (newFace e c ep r.persistency r.params isLocal (some (s.last + 1))).f.isLocal = (newFace e c ep r.persistency r.params isLocal none).f.isLocal := rfl
        rw [this]
        cases h3 : (newFace e c ep r.persistency r.params isLocal none).f.isLocal <;> cases h4 : wantLocal r <;> simp_all)
    exact this

theorem connect_does {e : Env} {s s' : St} {i : Nat} {r : Req} {c : Chan} {ep : Ep} {sys : Sys} (hi : Inv s)
    (h : connect e s i r c ep sys = some s') : Does e s i r ep c (sys != .filterError) s' := by
  unfold connect at h
  cases hl : s.map.lookup (c, ep) with
  | some k =>
    simp only [hl] at h
    exact succeed_old e _ hi hl h
  | none =>
    simp only [hl] at h
    split at h
    · rename_i ht
      cases h
      exact .wait hl ht
    · rename_i ht
      cases sys with
      | ok => exact succeed_new e _ false hl h
      | systemError => cases h; exact .fail 504 hl (Or.inl rfl) ht
      | error => cases h; exact .fail 500 hl (Or.inr rfl) ht
      | filterError =>
        simp only at h
        split at h
        · rename_i he
          cases h
          exact .half hl (by decide) he
        · exact succeed_new e _ false hl h

/-! ### The choice of a channel -/

theorem find_first {p : Chan → Bool} {l : List Chan} {c : Chan} (h : l.find? p = some c) :
    ∃ a b, l = a ++ c :: b ∧ p c = true ∧ ∀ x ∈ a, p x = false := by
  obtain ⟨h1, a, b, h2, h3⟩ := List.find?_eq_some_iff_append.mp h
  exact ⟨a, b, h2, h1, fun x hx => by simpa using h3 x hx⟩

theorem actual_small {m : Nat} : ¬ (FaceCmd.actualMtu m < FaceCmd.minMtu) ↔ 64 ≤ m := by
  unfold FaceCmd.actualMtu FaceCmd.minMtu FaceCmd.ssizeMax
  omega

theorem serves_ip {r : Req} {ep : Ep} {p : Factory} (hp : p ≠ .ether) (c : Chan) :
    (c.proto == p && c.v6 == ep.v6) = true ↔ Serves r ep p c := by
  unfold Serves
  simp [hp]

theorem serves_ether {r : Req} {ep dev : Ep} (hl : r.localUri = some (.canonical "dev" dev)) (c : Chan) :
    (c.proto == .ether && c.ident == dev.host) = true ↔ Serves r ep .ether c := by
  unfold Serves
  rw [hl]
  simp only [Bool.and_eq_true, beq_iff_eq, Option.some.injEq, Uri.canonical.injEq, forall_const, ne_eq, not_true_eq_false, false_implies, and_true]
  constructor
  · rintro ⟨h1, h2⟩
    exact ⟨h1, "dev", dev, ⟨rfl, rfl⟩, h2⟩
  · rintro ⟨h1, a, b, ⟨-, h2⟩, h3⟩
    exact ⟨h1, by rw [h3, h2]⟩

/-- The outcome of `choose` in terms of the specification. -/
def ChoiceOk (e : Env) (s : St) (r : Req) (ep : Ep) (f : Factory) : Option (Except Nat Chan) → Prop
  | some (.ok c) => Suits e r ep f ∧ FirstServing s r ep f c
  | some (.error code) => (code = 406 ∧ ¬ Suits e r ep f) ∨ (code = 504 ∧ Suits e r ep f ∧ ∀ c ∈ s.channels, ¬ Serves r ep f c)
  | none => f = .tcp ∧ e.mcast ep = true

theorem choice_of_find {e : Env} {s : St} {r : Req} {ep : Ep} {f : Factory} {p : Chan → Bool} (hs : Suits e r ep f)
    (hp : ∀ c, p c = true ↔ Serves r ep f c) :
    ChoiceOk e s r ep f (match s.channels.find? p with
      | some c => some (.ok c)
      | none => some (.error 504)) := by
  cases h : s.channels.find? p with
  | none =>
    refine Or.inr ⟨rfl, hs, ?_⟩
    intro c hc hcs
    have := List.find?_eq_none.mp h c hc
    exact this ((hp c).mpr hcs)
  | some c =>
    obtain ⟨a, b, h1, h2, h3⟩ := find_first h
    refine ⟨hs, a, b, h1, (hp c).mp h2, ?_⟩
    intro x hx hxs
    have := h3 x hx
    rw [(hp x).mpr hxs] at this
    cases this

theorem any_iff {m : Option Nat} : (m.any (fun m => FaceCmd.actualMtu m < FaceCmd.minMtu) = true) ↔ ¬ ∀ x, m = some x → 64 ≤ x := by
  cases m with
  | none => simp
  | some m =>
    simp only [Option.any_some, decide_eq_true_eq, Option.some.injEq, forall_eq']
    have := actual_small (m := m)
    omega

theorem choose_ok (e : Env) (s : St) (f : Factory) (r : Req) (ep : Ep) : ChoiceOk e s r ep f (choose e s f r ep) := by
  unfold choose
  cases f with
  | other => exact Or.inl ⟨rfl, fun h => by cases h⟩
  | tcp =>
    dsimp only
    split
    · rename_i h; exact Or.inl ⟨rfl, fun hs => by cases hs; simp_all⟩
    split
    · rename_i h; exact Or.inl ⟨rfl, fun hs => by cases hs; simp_all⟩
    split
    · rename_i h; exact ⟨rfl, h⟩
    split
    · rename_i h; exact Or.inl ⟨rfl, fun hs => by cases hs with | tcp h1 h2 h3 h4 => have := h3 (wantLocal_iff.mp h.1); rw [h.2] at this; cases this⟩
    split
    · rename_i h; exact Or.inl ⟨rfl, fun hs => by cases hs; simp_all⟩
    rename_i h1 h2 h3 h4 h5
    refine choice_of_find (Suits.tcp (by simpa using h1) h2 (fun h => ?_) (by simpa using h5)) (serves_ip (by decide))
    cases hb : e.loopback ep with
    | true => rfl
    | false => exact absurd ⟨wantLocal_iff.mpr h, hb⟩ h4
  | udp =>
    dsimp only
    split
    · rename_i h; exact Or.inl ⟨rfl, fun hs => by cases hs; simp_all⟩
    split
    · rename_i h; exact Or.inl ⟨rfl, fun hs => by cases hs; simp_all⟩
    split
    · rename_i h; exact Or.inl ⟨rfl, fun hs => by cases hs; simp_all⟩
    split
    · rename_i h; exact Or.inl ⟨rfl, fun hs => by cases hs; rw [wantLocal_iff] at h; contradiction⟩
    split
    · rename_i h; exact Or.inl ⟨rfl, fun hs => by cases hs with | udp _ _ _ _ h5 => exact any_iff.mp h h5⟩
    rename_i h1 h2 h3 h4 h5
    refine choice_of_find (Suits.udp (by simpa using h1) h2 (fun h => h4 (wantLocal_iff.mpr h)) (by simpa using h3) ?_) (serves_ip (by decide))
    exact Classical.not_not.mp (fun h => h5 (any_iff.mpr h))
  | ether =>
    dsimp only
    split
    · rename_i dev hdev
      split
      · rename_i h; exact Or.inl ⟨rfl, fun hs => by cases hs; simp_all⟩
      split
      · rename_i h; exact Or.inl ⟨rfl, fun hs => by cases hs; simp_all⟩
      split
      · rename_i h; exact Or.inl ⟨rfl, fun hs => by cases hs; rw [wantLocal_iff] at h; contradiction⟩
      split
      · rename_i h; exact Or.inl ⟨rfl, fun hs => by cases hs with | ether _ _ _ _ _ h5 => exact any_iff.mp h h5⟩
      rename_i h2 h3 h4 h5
      refine choice_of_find (Suits.ether dev hdev h2 (fun h => h4 (wantLocal_iff.mpr h)) (by simpa using h3) ?_) (serves_ether hdev)
      exact Classical.not_not.mp (fun h => h5 (any_iff.mpr h))
    · rename_i hne
      refine Or.inl ⟨rfl, fun hs => ?_⟩
      cases hs with
      | ether dev hdev => exact hne dev hdev

end Verif.Fc
