import Verif.Mc.Lemmas

/-! C98: UDP multicast faces follow the configuration and the network interfaces. -/
namespace Verif.Mc

/-! ### One face per local endpoint -/

/-- Whatever happens, at any time there is at most one face (not yet CLOSED) per local endpoint, and every face ever made is in the face table
or has been there. -/
theorem C98_one_face (es : List Ev) (j k : Nat) (f g : Face) (hj : (run init es).faces[j]? = some f) (hk : (run init es).faces[k]? = some g) :
    f.table = true ∧ (f.st ≠ .closed → g.st ≠ .closed → f.loc = g.loc → j = k) := by
  have hi := run_inv es Inv.init
  refine ⟨hi.table j f hj, ?_⟩
  intro h1 h2 h3
  have e1 := hi.lookup hj h1
  have e2 := hi.lookup hk h2
  rw [h3, e2] at e1
  cases e1
  rfl

/-! ### Reading the configuration -/

theorem createChannels_ok : ∀ (l : List Ep) {s : St}, Inv s → (∀ ep ∈ l, ∀ (k : Nat) (f : Face), s.faces[k]? = some f → f.st ≠ .closed → f.loc ≠ ep) →
    (createChannels s l).2 = true := by
  intro l
  induction l with
  | nil => intro s _ _; rfl
  | cons ep l ih =>
    intro s hi h
    rw [createChannels]
    unfold createChannel
    by_cases h1 : ep ∈ s.channels
    · rw [if_pos h1]; exact ih hi (fun x hx => h x (by simp [hx]))
    · rw [if_neg h1]
      have h2 : ¬ (s.map.lookup ep).isSome = true := by
        intro h2
        rw [Option.isSome_iff_exists] at h2
        obtain ⟨k, hk⟩ := h2
        obtain ⟨f, x1, x2, x3⟩ := hi.sound ep k (lookup_mem hk)
        exact h ep (by simp) k f x1 x3 x2
      rw [if_neg h2]
      exact ih (s := { s with channels := ep :: s.channels }) (hi.of_faces rfl rfl) (fun x hx => h x (by simp [hx]))

/-- The configuration asks for no channel on the local endpoint of a multicast face. -/
def NoConflict (s : St) (chans : List Ep) : Prop :=
  ∀ ep ∈ chans, ∀ (k : Nat) (f : Face), s.faces[k]? = some f → f.st ≠ .closed → f.loc ≠ ep

theorem config_eq {s : St} (hi : Inv s) (c : Config) {chans : List Ep} (opens : Ep → Bool) (hn : NoConflict s chans) :
    step s (.config c chans opens) = applyConfig opens { (createChannels s chans).1 with cfg := c } := by
  simp only [step]
  rw [if_pos (createChannels_ok chans hi hn)]

/-- The facts about `applyConfig` from which everything follows. -/
theorem applyConfig_spec (opens : Ep → Bool) {s : St} (hi : Inv s) :
    (∀ (k : Nat) (f : Face), (applyConfig opens s).faces[k]? = some f → f.st = .up → Wanted s.cfg s.netifs f.loc f.remote) ∧
    (∀ (k : Nat) (f : Face), s.faces[k]? = some f → (f.st = .up → Wanted s.cfg s.netifs f.loc f.remote) → (applyConfig opens s).faces[k]? = some f) ∧
    (Functional (Wanted s.cfg s.netifs) → Free opens (Wanted s.cfg s.netifs) s → ∀ loc r, Wanted s.cfg s.netifs loc r → HasFace (applyConfig opens s) loc r .up) ∧
    (applyConfig opens s).cfg = s.cfg ∧ (applyConfig opens s).netifs = s.netifs := by
  have R := forNetifs_res opens s.netifs hi
  unfold applyConfig
  dsimp only
  generalize forNetifs opens s.netifs s = r at *
  obtain ⟨b0, b1, b2, b3, b4, b5, b6, b7⟩ := foldl_close_spec ((s.map.map (·.2)).filter (fun k => k ∉ r.2)) R.inv
  have hW : ∀ n a, n ∈ s.netifs ∧ Eligible s.cfg n ∧ FirstUsable n a → Wanted s.cfg s.netifs (locFor s.cfg n a) (remoteFor s.cfg n a) :=
    fun n a h => (wanted_iff ..).2 ⟨n, a, h.1, h.2.1, h.2.2, rfl, rfl⟩
  refine ⟨?_, ?_, ?_, b1.trans R.grow.cfg, b2.trans R.grow.netifs⟩
  · intro k f hf hu
    obtain ⟨g, c1, c2, c3, c4, c5⟩ := b6 k f hf
    have hgu : g.st = .up := by
      rcases c4 with c4 | c4
      · exact c4 ▸ hu
      · exact c4.1
    have hK : k ∈ r.2 := by
      rcases R.fresh k g c1 with h | h
      · have hm := hi.complete k g h (by rw [hgu]; simp)
        cases Decidable.em (k ∈ r.2) with
        | inl h => exact h
        | inr hn =>
          refine absurd hu (c5 ?_)
          simp only [List.mem_filter, List.mem_map, decide_eq_true_eq]
          exact ⟨⟨_, hm, rfl⟩, hn⟩
      · exact h.1
    obtain ⟨g', n, a, d1, d2, d3, d4⟩ := R.kept k hK
    rw [c1] at d1; cases d1
    rw [c2, c3, d3, d4]
    exact hW n a d2
  · intro k f hf hw
    have h1 := R.grow.faces k f hf
    by_cases hk : k ∈ (s.map.map (·.2)).filter (fun k => k ∉ r.2)
    · simp only [List.mem_filter, List.mem_map, decide_eq_true_eq] at hk
      obtain ⟨⟨⟨loc, k'⟩, hm, rfl⟩, hk⟩ := hk
      obtain ⟨f', x1, x2, x3⟩ := hi.sound _ _ hm
      rw [hf] at x1; cases x1
      by_cases hu : f.st = .up
      · obtain ⟨n, a, y1, y2, y3, y4, y5⟩ := (wanted_iff ..).1 (hw hu)
        exact absurd (R.stays k' f n a ⟨y1, y2, y3⟩ hf x3 y4 y5) hk
      · obtain ⟨f2, z⟩ := b7 _ _ h1
        obtain ⟨g, c1, c2, c3, c4, c5⟩ := b6 _ _ z
        rw [h1] at c1; cases c1
        have hs : f2.st = f.st := by
          rcases c4 with c4 | c4
          · exact c4
          · exact absurd c4.1 hu
        have htab1 := b0.table _ _ z
        have htab2 := hi.table _ _ hf
        rw [z]
        cases f; cases f2
        simp only at c2 c3 hs htab1 htab2
        subst c2; subst c3; subst hs; subst htab1; subst htab2
        rfl
    · rw [b5 k hk]; exact h1
  · intro hF hfr loc rm hw
    obtain ⟨n, a, y1, y2, y3, rfl, rfl⟩ := (wanted_iff ..).1 hw
    obtain ⟨-, p⟩ := R.done _ hF hW hfr
    obtain ⟨k, f, x1, x2, x3, x4⟩ := p n a ⟨y1, y2, y3⟩
    have hk : k ∈ r.2 ∨ k ∉ r.2 := Decidable.em _
    have hkeep : k ∉ (s.map.map (·.2)).filter (fun k => k ∉ r.2) := by
      rcases hk with hk | hk
      · simp [hk]
      · rcases R.fresh k f x1 with h | h
        · exact absurd (R.stays k f n a ⟨y1, y2, y3⟩ h (by rw [x4]; simp) x2 x3) hk
        · exact absurd h.1 hk
    exact ⟨k, f, by rw [b5 k hkeep]; exact x1, x2, x3, x4⟩

theorem setup_spec {s : St} (hi : Inv s) (c : Config) (chans : List Ep) :
    Inv { (createChannels s chans).1 with cfg := c } ∧ (createChannels s chans).1.faces = s.faces ∧ (createChannels s chans).1.netifs = s.netifs ∧
    (∀ ep ∈ (createChannels s chans).1.channels, ep ∈ s.channels ∨ ep ∈ chans) := by
  obtain ⟨a1, a2, a3, a4, a5, a6, a7⟩ := createChannels_spec chans hi
  exact ⟨a1.of_faces rfl rfl, a2, a4, a7⟩

/-- After the configuration has been read, every face that is UP is called for by the configuration and the interfaces. -/
theorem C98_needed (es : List Ev) (c : Config) (chans : List Ep) (opens : Ep → Bool) (hn : NoConflict (run init es) chans) (k : Nat) (f : Face)
    (hf : (step (run init es) (.config c chans opens)).faces[k]? = some f) (hu : f.st = .up) :
    Wanted c (run init es).netifs f.loc f.remote := by
  have hi := run_inv es Inv.init
  obtain ⟨h1, h2, h3, h4⟩ := setup_spec hi c chans
  rw [config_eq hi c opens hn] at hf
  have := (applyConfig_spec opens h1).1 k f hf hu
  dsimp only at this
  rw [h3] at this
  exact this

/-- In particular, when multicast is turned off, no multicast face is UP. -/
theorem C98_off (es : List Ev) (c : Config) (chans : List Ep) (opens : Ep → Bool) (hn : NoConflict (run init es) chans) (hoff : c.enabled = false)
    (k : Nat) (f : Face) (hf : (step (run init es) (.config c chans opens)).faces[k]? = some f) : f.st ≠ .up := by
  intro hu
  obtain ⟨n, _, he, _⟩ := C98_needed es c chans opens hn k f hf hu
  rw [he.1] at hoff
  cases hoff

/-- A face that is UP and still called for survives: it is the same face afterwards. Faces that are not UP are left alone, too. -/
theorem C98_stable (es : List Ev) (c : Config) (chans : List Ep) (opens : Ep → Bool) (hn : NoConflict (run init es) chans) (k : Nat) (f : Face)
    (hf : (run init es).faces[k]? = some f) (hw : f.st = .up → Wanted c (run init es).netifs f.loc f.remote) :
    (step (run init es) (.config c chans opens)).faces[k]? = some f := by
  have hi := run_inv es Inv.init
  obtain ⟨h1, h2, h3, h4⟩ := setup_spec hi c chans
  rw [config_eq hi c opens hn]
  refine (applyConfig_spec opens h1).2.1 k f (by dsimp only; rw [h2]; exact hf) ?_
  intro hu
  dsimp only
  rw [h3]
  exact hw hu

/-- Nothing stands in the way of a face with these endpoints: the socket can be opened, no channel uses the endpoint, and a face at this local
endpoint, if there is one, is already the right one. -/
def Unobstructed (s : St) (chans : List Ep) (opens : Ep → Bool) (loc : Ep) (r : Remote) : Prop :=
  opens loc = true ∧ loc ∉ s.channels ∧ loc ∉ chans ∧
  ∀ (k : Nat) (f : Face), s.faces[k]? = some f → f.loc = loc → f.st ≠ .closed → f.remote = r ∧ f.st = .up

/-- After the configuration has been read, every face that is called for exists and is UP, provided that nothing stands in the way and no two of
them need the same local endpoint. Not so in general, see `C98_group_change` and `C98_dying`. -/
theorem C98_complete_partial (es : List Ev) (c : Config) (chans : List Ep) (opens : Ep → Bool) (hn : NoConflict (run init es) chans)
    (hfun : ∀ loc r r', Wanted c (run init es).netifs loc r → Wanted c (run init es).netifs loc r' → r = r')
    (hfree : ∀ loc r, Wanted c (run init es).netifs loc r → Unobstructed (run init es) chans opens loc r) (loc : Ep) (r : Remote)
    (hw : Wanted c (run init es).netifs loc r) : HasFace (step (run init es) (.config c chans opens)) loc r .up := by
  have hi := run_inv es Inv.init
  obtain ⟨h1, h2, h3, h4⟩ := setup_spec hi c chans
  rw [config_eq hi c opens hn]
  refine (applyConfig_spec opens h1).2.2.1 ?_ ?_ loc r ?_
  · intro loc r r' a b
    dsimp only at a b
    rw [h3] at a b
    exact hfun loc r r' a b
  · intro loc r a
    dsimp only at a ⊢
    rw [h3] at a
    obtain ⟨x1, x2, x3, x4⟩ := hfree loc r a
    refine ⟨x1, ?_, by rw [h2]; exact x4⟩
    intro hm
    rcases h4 loc hm with h | h
    · exact x2 h
    · exact x3 h
  · dsimp only
    rw [h3]; exact hw

/-- The configuration that was read is in force afterwards. -/
theorem C98_in_force (es : List Ev) (c : Config) (chans : List Ep) (opens : Ep → Bool) (hn : NoConflict (run init es) chans) :
    (step (run init es) (.config c chans opens)).cfg = c ∧ (step (run init es) (.config c chans opens)).netifs = (run init es).netifs := by
  have hi := run_inv es Inv.init
  obtain ⟨h1, h2, h3, h4⟩ := setup_spec hi c chans
  rw [config_eq hi c opens hn]
  obtain ⟨_, _, _, h5, h6⟩ := applyConfig_spec opens h1
  exact ⟨h5, by rw [h6]; exact h3⟩

/-- If a channel is requested on the local endpoint of a multicast face, the configuration is refused: no face is made or closed, and the
configuration in force remains. -/
theorem C98_conflict (es : List Ev) (c : Config) (ep : Ep) (chans : List Ep) (opens : Ep → Bool) (k : Nat) (f : Face)
    (hf : (run init es).faces[k]? = some f) (hc : f.st ≠ .closed) (hl : f.loc = ep) (hch : ep ∉ (run init es).channels) :
    step (run init es) (.config c (ep :: chans) opens) = run init es := by
  have hi := run_inv es Inv.init
  have h1 := hi.lookup hf hc
  rw [hl] at h1
  have h2 : createChannels (run init es) (ep :: chans) = (run init es, false) := by
    rw [createChannels]
    unfold createChannel
    rw [if_neg hch, if_pos (by rw [h1]; rfl)]
  simp only [step]
  rw [h2]
  rfl

/-! ### Interfaces come and get addresses -/

theorem applyNetif_face (opens : Ep → Bool) {s : St} (hi : Inv s) (n : Netif) (he : Eligible s.cfg n) (a : Addr) (hu : FirstUsable n a) (r : Remote)
    (hr : GroupFor s.cfg n a r)
    (hfree : ∀ a' r', FirstUsable n a' → GroupFor s.cfg n a' r' → Unobstructed s [] opens ⟨a', r'.ep.port⟩ r') :
    HasFace (applyNetif opens s n).1 ⟨a, r.ep.port⟩ r .up := by
  have R := applyNetif_res opens n hi
  rw [groupFor_iff] at hr
  subst hr
  have W := R.done (fun loc r => ∃ a', FirstUsable n a' ∧ loc = locFor s.cfg n a' ∧ r = remoteFor s.cfg n a') ?_ ?_ ?_
  · exact W.2 n a ⟨rfl, he, hu⟩
  · rintro loc r r' ⟨a1, _, x1, x2⟩ ⟨a2, _, y1, y2⟩
    have : a1 = a2 := by
      rw [x1] at y1
      unfold locFor at y1
      exact (Ep.mk.inj y1).1
    subst this
    rw [x2, y2]
  · rintro n' a' ⟨rfl, _, h⟩
    exact ⟨a', h, rfl, rfl⟩
  · rintro loc r ⟨a', h, rfl, rfl⟩
    obtain ⟨x1, x2, _, x4⟩ := hfree a' _ h ((groupFor_iff ..).2 rfl)
    exact ⟨x1, x2, x4⟩

/-- When an interface appears on which multicast faces are to be made, they are made at once, and all other faces are left alone. -/
theorem C98_added (es : List Ev) (n : Netif) (opens : Ep → Bool) :
    (∀ (k : Nat) (f : Face), (run init es).faces[k]? = some f → (step (run init es) (.added n opens)).faces[k]? = some f) ∧
    (∀ (k : Nat) (f : Face), (step (run init es) (.added n opens)).faces[k]? = some f → (run init es).faces[k]? = some f ∨
      Wanted (run init es).cfg [n] f.loc f.remote) ∧
    (Eligible (run init es).cfg n →
      (∀ a r, FirstUsable n a → GroupFor (run init es).cfg n a r → Unobstructed (run init es) [] opens ⟨a, r.ep.port⟩ r) →
      ∀ a r, FirstUsable n a → GroupFor (run init es).cfg n a r → HasFace (step (run init es) (.added n opens)) ⟨a, r.ep.port⟩ r .up) := by
  have hi := run_inv es Inv.init
  have h2 : Inv { run init es with netifs := (run init es).netifs ++ [n] } := hi.of_faces rfl rfl
  have R := applyNetif_res opens n h2
  refine ⟨fun k f h => R.grow.faces k f h, ?_, ?_⟩
  · intro k f h
    rcases R.fresh k f h with h | ⟨_, _, n', a, ⟨rfl, x1, x2⟩, x3, x4⟩
    · exact Or.inl h
    · exact Or.inr ((wanted_iff ..).2 ⟨n', a, by simp, x1, x2, x3, x4⟩)
  · intro he hfree a r hu hr
    exact applyNetif_face opens h2 n he a hu r hr hfree

theorem applyNetif_watch (opens : Ep → Bool) {s : St} (hi : Inv s) (n : Netif) {i : Nat} (h : i ∈ s.watch) : i ∈ (applyNetif opens s n).1.watch :=
  (applyNetif_res opens n hi).grow.watch i h

theorem step_watch {s : St} (hi : Inv s) (ev : Ev) {i : Nat} (h : i ∈ s.watch) : i ∈ (step s ev).watch := by
  cases ev with
  | config c chans opens =>
    obtain ⟨a1, a2, a3, a4, a5, a6, a7⟩ := createChannels_spec chans hi
    simp only [step]
    split
    · have h2 : Inv { (createChannels s chans).1 with cfg := c } := a1.of_faces rfl rfl
      have R := forNetifs_res opens (createChannels s chans).1.netifs h2
      unfold applyConfig
      dsimp only
      obtain ⟨_, _, _, _, b4, _⟩ := foldl_close_spec
        (((createChannels s chans).1.map.map (·.2)).filter (fun k => k ∉ (forNetifs opens (createChannels s chans).1.netifs { (createChannels s chans).1 with cfg := c }).2)) R.inv
      rw [b4]
      exact R.grow.watch i (by dsimp only; rw [a5]; exact h)
    · rw [a5]; exact h
  | added n opens =>
    have h2 : Inv { s with netifs := s.netifs ++ [n] } := hi.of_faces rfl rfl
    exact applyNetif_watch opens h2 n h
  | addr j a opens =>
    simp only [step]
    split
    · split
      · exact h
      · exact applyNetif_watch opens (Inv.of_faces (s' := { s with netifs := s.netifs.map (addAddr j a) }) hi rfl rfl) _ h
    · exact h
  | change f => exact h
  | close k =>
    obtain ⟨_, _, _, _, a4, _⟩ := close_spec hi k
    simp only [step]; rw [a4]; exact h
  | settle k =>
    simp only [step]
    unfold settle
    split
    · exact h
    · split <;> exact h

theorem run_watch (es : List Ev) : ∀ {s : St} {i : Nat}, Inv s → i ∈ s.watch → i ∈ (run s es).watch := by
  induction es with
  | nil => intro s i _ h; exact h
  | cons e es ih => intro s i hi h; exact ih (step_inv hi e) (step_watch hi e h)

/-- An interface without a usable address gets its multicast face as soon as a usable address arrives, whatever happened in between (`es'`), if it
is the interface the system knows by this index and faces are to be made on it then. -/
theorem C98_first_address (es es' : List Ev) (n : Netif) (x : Addr × Scope) (opens0 opens : Ep → Bool) (he : Eligible (run init es).cfg n) (hno : ∀ a, ¬ FirstUsable n a)
    (s : St) (hs : s = run (step (run init es) (.added n opens0)) es') (n' : Netif) (before after : List Netif) (hl : s.netifs = before ++ n' :: after)
    (hix : n'.index = n.index) (hb : ∀ m ∈ before, m.index ≠ n.index) (he' : Eligible s.cfg { n' with addrs := n'.addrs ++ [x] })
    (hno' : ∀ y ∈ n'.addrs, ¬ Usable y) (hx : Usable x)
    (r : Remote) (hr : GroupFor s.cfg n' x.1 r) (hfree : Unobstructed s [] opens ⟨x.1, r.ep.port⟩ r) :
    HasFace (step s (.addr n.index x opens)) ⟨x.1, r.ep.port⟩ r .up := by
  have hi := run_inv es Inv.init
  have hi1 : Inv (step (run init es) (.added n opens0)) := step_inv hi _
  have hi2 : Inv s := by rw [hs]; exact run_inv es' hi1
  have hw1 : n.index ∈ (step (run init es) (.added n opens0)).watch := by
    simp only [step]
    unfold applyNetif
    rw [if_neg (by rw [he.1]; simp), if_neg (by rw [he.2.1]; simp), if_neg (by rw [he.2.2.1]; simp), if_neg (by rw [he.2.2.2.1]; simp),
      if_neg (by rw [he.2.2.2.2]; simp)]
    dsimp only
    have : (pick n false).toList ++ (pick n true).toList = [] := by
      rw [List.eq_nil_iff_forall_not_mem]
      intro a ha
      exact hno a ((mem_picks n a).1 ha)
    rw [if_pos this]
    dsimp only
    split <;> simp_all
  have hw : n.index ∈ s.watch := by rw [hs]; exact run_watch es' hi1 hw1
  have hn'' : addAddr n.index x n' = { n' with addrs := n'.addrs ++ [x] } := by unfold addAddr; rw [if_pos hix]
  have hfind : (s.netifs.map (addAddr n.index x)).find? (fun m => m.index == n.index) = some (addAddr n.index x n') := by
    rw [List.find?_eq_some_iff_append]
    refine ⟨by rw [hn'']; simp [hix], before.map (addAddr n.index x), after.map (addAddr n.index x), by rw [hl]; simp, ?_⟩
    intro m hm
    obtain ⟨m', h1, rfl⟩ := List.mem_map.1 hm
    have := hb m' h1
    unfold addAddr
    rw [if_neg this]
    simp [this]
  have hstep : step s (.addr n.index x opens) = (applyNetif opens { s with netifs := s.netifs.map (addAddr n.index x) } (addAddr n.index x n')).1 := by
    simp only [step]
    rw [if_pos hw, hfind]
  rw [hstep, hn'']
  have hfu : ∀ a', FirstUsable { n' with addrs := n'.addrs ++ [x] } a' ↔ a' = x.1 := by
    intro a'
    constructor
    · rintro ⟨b, sc, af, h1, h2, h3⟩
      have hm : (a', sc) ∈ n'.addrs ++ [x] := by
        have : n'.addrs ++ [x] = b ++ (a', sc) :: af := h1
        rw [this]; simp
      rcases List.mem_append.1 hm with h | h
      · exact absurd h2 (hno' _ h)
      · rw [← List.mem_singleton.1 h]
    · rintro rfl
      exact ⟨n'.addrs, x.2, [], rfl, hx, fun y hy _ => hno' y hy⟩
  have hr' : GroupFor s.cfg { n' with addrs := n'.addrs ++ [x] } x.1 r := hr
  refine applyNetif_face opens (s := { s with netifs := s.netifs.map (addAddr n.index x) }) (hi2.of_faces rfl rfl) _ he' x.1 ((hfu _).2 rfl) r hr' ?_
  intro a' r' h1 h2
  rw [(hfu a').1 h1] at h2 ⊢
  rw [groupFor_iff] at h2 hr'
  dsimp only at h2
  rw [h2, ← hr']
  exact hfree

/-! ### Examples, and what goes wrong -/

private def yes : Ep → Bool := fun _ => true
private def eth0 : Netif := ⟨2, true, false, true, [(⟨false, 10⟩, .global), (⟨true, 20⟩, .link)], 0⟩
private def eth1 : Netif := ⟨3, true, false, true, [], 1⟩
private def lo : Netif := ⟨1, true, true, true, [(⟨false, 127⟩, .host)], 2⟩
private def grp : Config := ⟨true, (224, 56363), (65282, 56363), fun _ => true⟩
private def start : List Ev := [.added lo yes, .added eth0 yes, .added eth1 yes, .config grp [⟨⟨false, 0⟩, 6363⟩, ⟨⟨true, 0⟩, 6363⟩] yes]
private def f4 : Face := ⟨⟨⟨false, 10⟩, 56363⟩, ⟨⟨⟨false, 224⟩, 56363⟩, 0⟩, .up, true⟩
private def f6 : Face := ⟨⟨⟨true, 20⟩, 56363⟩, ⟨⟨⟨true, 65282⟩, 56363⟩, 2⟩, .up, true⟩

-- One IPv4 and one IPv6 face on eth0, none on the loopback interface; eth1 is watched.
example : (run init start).faces = [f4, f6] ∧ (run init start).watch = [3] := by decide +kernel

-- eth1 gets an address, hence a face.
example : (run init (start ++ [.addr 3 (⟨false, 30⟩, .global) yes])).faces.length = 3 := by decide +kernel

-- Multicast is turned off: both faces are closed. Turned on again once they are CLOSED: two new ones.
example : (run init (start ++ [.config { grp with enabled := false } [] yes])).faces = [{ f4 with st := .closing }, { f6 with st := .closing }] := by decide +kernel
example : (run init (start ++ [.config { grp with enabled := false } [] yes, .settle 0, .settle 1, .config grp [] yes])).faces =
    [{ f4 with st := .closed }, { f6 with st := .closed }, f4, f6] := by decide +kernel

-- Hypotheses of `C98_needed`, `C98_stable`: a reload that keeps the faces.
example : NoConflict (run init start) [⟨⟨false, 0⟩, 6363⟩] ∧ Wanted grp (run init start).netifs f4.loc f4.remote := by
  have hf : (run init start).faces = [f4, f6] := by decide +kernel
  have hn : (run init start).netifs = [lo, eth0, eth1] := by decide +kernel
  refine ⟨?_, ?_⟩
  · intro ep hep k f hk _ hl
    rw [List.mem_singleton.1 hep] at hl
    rw [hf] at hk
    match k, hk with
    | 0, hk => cases hk; simp [f4] at hl
    | 1, hk => cases hk; simp [f6] at hl
  · rw [hn]
    exact ⟨eth0, by simp, ⟨rfl, rfl, rfl, rfl, rfl⟩, ⟨false, 10⟩, ⟨[], .global, _, rfl, Or.inr rfl, by simp⟩, ⟨fun _ => rfl, fun h => by simp at h⟩, rfl⟩

-- Hypotheses of `C98_added`: eth0 appears when multicast is on and no face exists.
private def ready : List Ev := [.config grp [⟨⟨false, 0⟩, 6363⟩] yes]
example : Eligible (run init ready).cfg eth0 ∧ ∀ a r, FirstUsable eth0 a → GroupFor (run init ready).cfg eth0 a r → Unobstructed (run init ready) [] yes ⟨a, r.ep.port⟩ r := by
  refine ⟨⟨rfl, rfl, rfl, rfl, rfl⟩, ?_⟩
  intro a r _ hr
  refine ⟨rfl, ?_, by simp, ?_⟩
  · have hch : (run init ready).channels = [⟨⟨false, 0⟩, 6363⟩] := by decide +kernel
    rw [hch]
    intro hm
    have h1 := (Ep.mk.inj (List.mem_singleton.1 hm))
    rw [groupFor_iff] at hr
    rw [hr, h1.1] at h1
    have := h1.2
    simp [remoteFor, run, ready, step, createChannels, createChannel, applyConfig, forNetifs, init, grp] at this
  · intro k f hk
    have hf : (run init ready).faces = [] := by decide +kernel
    rw [hf] at hk
    simp at hk

-- Hypotheses of `C98_complete_partial`: the first configuration, when the interfaces are already there.
private def netsUp : List Ev := [.added lo yes, .added eth0 yes, .added eth1 yes]
private theorem wanted_first (loc : Ep) (r : Remote) (h : Wanted grp (run init netsUp).netifs loc r) :
    (loc = f4.loc ∧ r = f4.remote) ∨ (loc = f6.loc ∧ r = f6.remote) := by
  have hn : (run init netsUp).netifs = [lo, eth0, eth1] := by decide +kernel
  rw [hn, wanted_iff] at h
  obtain ⟨n, a, h1, h2, h3, rfl, rfl⟩ := h
  rw [← mem_picks] at h3
  simp only [List.mem_cons, List.not_mem_nil, or_false] at h1
  rcases h1 with rfl | rfl | rfl
  · exact absurd h2.2.2.1 (by simp [lo])
  · have : (pick eth0 false).toList ++ (pick eth0 true).toList = [⟨false, 10⟩, ⟨true, 20⟩] := by decide +kernel
    rw [this] at h3
    simp only [List.mem_cons, List.not_mem_nil, or_false] at h3
    rcases h3 with rfl | rfl
    · exact Or.inl ⟨rfl, rfl⟩
    · exact Or.inr ⟨rfl, rfl⟩
  · have : (pick eth1 false).toList ++ (pick eth1 true).toList = [] := by decide +kernel
    rw [this] at h3
    cases h3
example : NoConflict (run init netsUp) [⟨⟨false, 0⟩, 6363⟩] ∧
    (∀ loc r r', Wanted grp (run init netsUp).netifs loc r → Wanted grp (run init netsUp).netifs loc r' → r = r') ∧
    (∀ loc r, Wanted grp (run init netsUp).netifs loc r → Unobstructed (run init netsUp) [⟨⟨false, 0⟩, 6363⟩] yes loc r) := by
  have hf : (run init netsUp).faces = [] := by decide +kernel
  have hc : (run init netsUp).channels = [] := by decide +kernel
  refine ⟨?_, ?_, ?_⟩
  · intro ep _ k f h
    rw [hf] at h; simp at h
  · intro loc r r' h h'
    have h1 := wanted_first _ _ h
    have h2 := wanted_first _ _ h'
    simp only [f4, f6] at h1 h2
    grind
  · intro loc r h
    refine ⟨rfl, by rw [hc]; simp, ?_, ?_⟩
    · rcases wanted_first _ _ h with ⟨rfl, rfl⟩ | ⟨rfl, rfl⟩ <;> decide
    · intro k f h
      rw [hf] at h; simp at h

-- Hypotheses of `C98_first_address`: eth1, configuration read again in between.
example : Eligible (run init ready).cfg eth1 ∧ (∀ a, ¬ FirstUsable eth1 a) ∧
    (run (step (run init ready) (.added eth1 yes)) [.config grp [] yes]).netifs = [] ++ eth1 :: [] ∧
    Unobstructed (run (step (run init ready) (.added eth1 yes)) [.config grp [] yes]) [] yes ⟨⟨false, 30⟩, 56363⟩ ⟨⟨⟨false, 224⟩, 56363⟩, 0⟩ := by
  refine ⟨⟨rfl, rfl, rfl, rfl, rfl⟩, ?_, by decide +kernel, rfl, by decide +kernel, by simp, ?_⟩
  · intro a h
    have : (pick eth1 false).toList ++ (pick eth1 true).toList = [] := by decide +kernel
    rw [← mem_picks, this] at h
    cases h
  · have hf : (run (step (run init ready) (.added eth1 yes)) [.config grp [] yes]).faces = [] := by decide +kernel
    intro k f h
    rw [hf] at h; simp at h

-- Hypotheses of `C98_conflict`: a channel on the endpoint of the IPv4 face.
example : (run init start).faces[0]? = some f4 ∧ f4.st ≠ .closed ∧ f4.loc ∉ (run init start).channels := by decide +kernel

/-- When only the address of the group changes, not the port, the old face is closed, and no face for the new group is made: `Wanted`, but there is
no such face, not even after the old face is gone, until the configuration is read again. -/
theorem C98_group_change :
    ∃ (es : List Ev) (c : Config) (loc : Ep) (r : Remote), NoConflict (run init es) [] ∧ Wanted c (run init es).netifs loc r ∧
      (∀ st, ¬ HasFace (step (run init es) (.config c [] yes)) loc r st) ∧
      (∀ st, ¬ HasFace (run init (es ++ [.config c [] yes, .settle 0, .settle 1])) loc r st) ∧
      HasFace (run init (es ++ [.config c [] yes, .settle 0, .settle 1, .config c [] yes])) loc r .up := by
  refine ⟨start, { grp with group := (225, 56363) }, ⟨⟨false, 10⟩, 56363⟩, ⟨⟨⟨false, 225⟩, 56363⟩, 0⟩, by simp [NoConflict], ?_, ?_, ?_, ?_⟩
  · have hn : (run init start).netifs = [lo, eth0, eth1] := by decide +kernel
    rw [hn]
    exact ⟨eth0, by simp, ⟨rfl, rfl, rfl, rfl, rfl⟩, ⟨false, 10⟩, ⟨[], .global, _, rfl, Or.inr rfl, by simp⟩, ⟨fun _ => rfl, fun h => by simp at h⟩, rfl⟩
  · rintro st ⟨k, f, h1, h2, h3, _⟩
    have hf : (step (run init start) (.config { grp with group := (225, 56363) } [] yes)).faces = [{ f4 with st := .closing }, f6] := by decide +kernel
    rw [hf] at h1
    match k, h1 with
    | 0, h1 => cases h1; simp [f4] at h3
    | 1, h1 => cases h1; simp [f6] at h2
  · rintro st ⟨k, f, h1, h2, h3, _⟩
    have hf : (run init (start ++ [.config { grp with group := (225, 56363) } [] yes, .settle 0, .settle 1])).faces = [{ f4 with st := .closed }, f6] := by decide +kernel
    rw [hf] at h1
    match k, h1 with
    | 0, h1 => cases h1; simp [f4] at h3
    | 1, h1 => cases h1; simp [f6] at h2
  · exact ⟨2, ⟨⟨⟨false, 10⟩, 56363⟩, ⟨⟨⟨false, 225⟩, 56363⟩, 0⟩, .up, true⟩, by decide +kernel, rfl, rfl, rfl⟩

/-- When multicast is turned off and on again before the old faces have become CLOSED, the dying faces count as the faces called for: once they are
gone there are none. -/
theorem C98_dying :
    ∃ es : List Ev, (run init es).cfg.enabled = true ∧ (∃ loc r, Wanted (run init es).cfg (run init es).netifs loc r) ∧
      ∀ (k : Nat) (f : Face), (run init es).faces[k]? = some f → f.st = .closed := by
  refine ⟨start ++ [.config { grp with enabled := false } [] yes, .config grp [] yes, .settle 0, .settle 1], rfl, ?_, ?_⟩
  · have hn : (run init (start ++ [.config { grp with enabled := false } [] yes, .config grp [] yes, .settle 0, .settle 1])).netifs = [lo, eth0, eth1] := by decide +kernel
    refine ⟨f4.loc, f4.remote, ?_⟩
    rw [hn]
    exact ⟨eth0, by simp, ⟨rfl, rfl, rfl, rfl, rfl⟩, ⟨false, 10⟩, ⟨[], .global, _, rfl, Or.inr rfl, by simp⟩, ⟨fun _ => rfl, fun h => by simp [f4] at h⟩, rfl⟩
  · have hf : (run init (start ++ [.config { grp with enabled := false } [] yes, .config grp [] yes, .settle 0, .settle 1])).faces =
        [{ f4 with st := .closed }, { f6 with st := .closed }] := by decide +kernel
    intro k f h
    rw [hf] at h
    match k, h with
    | 0, h => cases h; rfl
    | 1, h => cases h; rfl

/-- An interface that had an IPv4 address when it appeared, and gets an IPv6 address later, gets no IPv6 face. -/
theorem C98_second_family :
    ∃ (es : List Ev) (loc : Ep) (r : Remote), (run init es).cfg.enabled = true ∧ Wanted (run init es).cfg (run init es).netifs loc r ∧
      ∀ st, ¬ HasFace (run init es) loc r st := by
  let eth : Netif := { eth0 with addrs := [(⟨false, 10⟩, .global)] }
  refine ⟨[.config grp [] yes, .added eth yes, .addr 2 (⟨true, 20⟩, .link) yes], f6.loc, f6.remote, rfl, ?_, ?_⟩
  · have hn : (run init [.config grp [] yes, .added eth yes, .addr 2 (⟨true, 20⟩, .link) yes]).netifs = [eth0] := by decide +kernel
    rw [hn]
    exact ⟨eth0, by simp, ⟨rfl, rfl, rfl, rfl, rfl⟩, ⟨true, 20⟩, ⟨[(⟨false, 10⟩, .global)], .link, [], rfl, Or.inl rfl, by simp⟩,
      ⟨fun h => by simp at h, fun _ => rfl⟩, rfl⟩
  · rintro st ⟨k, f, h1, h2, h3, _⟩
    have hf : (run init [.config grp [] yes, .added eth yes, .addr 2 (⟨true, 20⟩, .link) yes]).faces = [f4] := by decide +kernel
    rw [hf] at h1
    match k, h1 with
    | 0, h1 => cases h1; simp [f4, f6] at h2

end Verif.Mc
