import Verif.Eth.Lemmas

/-! C103: Ethernet channels and multicast faces follow the configuration and the network interfaces. -/
namespace Verif.Eth

/-! ### An example -/

def exNetif (x : String) (i : Nat) : Netif := { name := x, up := true, ether := true, address := true, multicast := true, index := i }
def exUni : Unicast := ⟨true, true, 600⟩
def exMc : Multicast := ⟨true, 7, false, fun n => n.index != 9⟩
/-- Three interfaces appear; a configuration with `ether`, where the third is blacklisted. -/
def exEvs : List Ev :=
  [.added (exNetif "eth0" 1) (fun _ => true) (fun _ => true), .added (exNetif "eth1" 2) (fun _ => true) (fun _ => true),
   .added (exNetif "eth9" 9) (fun _ => true) (fun _ => true), .config exUni exMc (fun x => x != "eth1") (fun _ => true)]

/-! ### Multicast faces -/

/-- C103. Whatever happens, at any time there is at most one multicast face (not yet CLOSED) per interface and group, and every face ever made is
in the face table or has been there. -/
theorem C103_one_face (es : List Ev) (j k : Nat) (f g : Face) (hj : (run init es).faces[j]? = some f) (hk : (run init es).faces[k]? = some g) :
    f.table = true ∧ (f.st ≠ .closed → g.st ≠ .closed → f.netif = g.netif → f.group = g.group → j = k) := by
  have hi := run_inv es Inv.init
  refine ⟨hi.table j f hj, ?_⟩
  intro h1 h2 h3 h4
  have e1 := hi.lookup hj h1
  have e2 := hi.lookup hk h2
  rw [h3, h4, e2] at e1
  cases e1
  rfl

example : ((run init exEvs).faces.map (fun f => (f.netif, f.group, f.table))) = [("eth0", 7, true), ("eth1", 7, true)] := by decide +kernel

/-- C103. When the configuration has been applied, in any state: every live multicast face is on an interface that calls for one, and in the group
configured; the live faces that are called for, and those that were being closed, are left alone; every interface that calls for a face has one, if the
device can be opened and no face for it is just being closed; new faces are ad hoc exactly if this is configured; and the scheme `ether` is accepted
exactly if the section is there. -/
theorem C103_config_partial (es : List Ev) (u : Unicast) (m : Multicast) (works opens : String → Bool) :
    let s := run init es
    let s' := step s (.config u m works opens)
    (∀ (k : Nat) (f : Face), s'.faces[k]? = some f → f.st = .live → f.group = m.group ∧ WantsFace m s.netifs f.netif) ∧
    (∀ (k : Nat) (f : Face), s.faces[k]? = some f → (f.st = .live → f.group = m.group ∧ WantsFace m s.netifs f.netif) → s'.faces[k]? = some f) ∧
    (∀ x, WantsFace m s.netifs x → opens x = true → (∀ (k : Nat) (f : Face), s.faces[k]? = some f → f.netif = x → f.group = m.group → f.st ≠ .closing) →
      HasFace s' x m.group) ∧
    (∀ (k : Nat) (f : Face), s'.faces[k]? = some f → s.faces[k]? = none → f.adHoc = m.adHoc) ∧
    s'.scheme = u.enabled ∧ s'.netifs = s.netifs := by
  intro s s'
  have hi0 : Inv s := run_inv es Inv.init
  have hi : Inv { s with uni := u, mc := m, scheme := u.enabled } := ⟨hi0.keys, hi0.sound, hi0.complete, hi0.table, hi0.chans⟩
  have R := forNetifs_res works opens s.netifs hi
  have C := foldl_close ((s.map.map (·.2)).filter (fun k => k ∉ (forNetifs works opens s.netifs { s with uni := u, mc := m, scheme := u.enabled }).2)) R.inv
  have hs' : s' = ((s.map.map (·.2)).filter (fun k => k ∉ (forNetifs works opens s.netifs { s with uni := u, mc := m, scheme := u.enabled }).2)).foldl close
      (forNetifs works opens s.netifs { s with uni := u, mc := m, scheme := u.enabled }).1 := rfl
  rw [← hs'] at C
  generalize forNetifs works opens s.netifs { s with uni := u, mc := m, scheme := u.enabled } = r at *
  have keep : ∀ (k : Nat) (f : Face), s.faces[k]? = some f → (f.st = .live → f.group = m.group ∧ WantsFace m s.netifs f.netif) → s'.faces[k]? = some f := by
    intro k f hf hw
    refine C.same k f (R.grow.faces k f hf) ?_
    by_cases hl : f.st = .live
    · left
      intro hm
      rw [List.mem_filter] at hm
      have := R.stays k f hf (by rw [hl]; simp) (hw hl).1 (hw hl).2
      simp [this] at hm
    · exact Or.inr hl
  refine ⟨?_, keep, ?_, ?_, ?_, ?_⟩
  · intro k f hf hl
    obtain ⟨g, g1, g2, g3, g4, g5⟩ := C.back k f hf
    obtain ⟨rfl, hk⟩ := g5 hl
    have hkr : k ∈ r.2 := by
      rcases R.fresh k f g1 with h | h
      · have hm := hi0.complete k f h (by rw [hl]; simp)
        cases Decidable.em (k ∈ r.2) with
        | inl h => exact h
        | inr hn =>
          refine absurd ?_ hk
          simp only [List.mem_filter, List.mem_map, decide_eq_true_eq]
          exact ⟨⟨_, hm, rfl⟩, hn⟩
      · exact h.1
    obtain ⟨g, e1, e2, e3⟩ := R.kept k hkr
    rw [g1] at e1; cases e1
    exact ⟨e2, e3⟩
  · intro x hw ho hc
    cases hl : s.map.lookup (x, m.group) with
    | some k =>
      obtain ⟨f, f1, f2, f3, f4⟩ := hi0.sound _ _ _ (Mc.lookup_mem hl)
      have hst : f.st = .live := by
        have := hc k f f1 f2 f3
        cases h : f.st <;> simp_all
      exact ⟨k, f, keep k f f1 (fun _ => ⟨f3, f2 ▸ hw⟩), f2, f3, hst⟩
    | none =>
      obtain ⟨k, f, f1, f2, f3, f4⟩ := R.made x hw ho hl
      refine ⟨k, f, C.same k f f1 (Or.inl ?_), f2, f3, f4⟩
      intro hm
      rw [List.mem_filter] at hm
      obtain ⟨hm, hn⟩ := hm
      obtain ⟨⟨⟨y, g⟩, k'⟩, hm2, rfl⟩ := List.mem_map.1 hm
      obtain ⟨f', e1, e2, e3, e4⟩ := hi0.sound y g k' hm2
      have := R.grow.faces k' f' e1
      rw [f1] at this; cases this
      have := hi0.lookup e1 e4
      rw [f2, f3] at this
      have h2 := hl.symm.trans this; cases h2
  · intro k f hf hn
    obtain ⟨g, g1, g2, g3, g4, g5⟩ := C.back k f hf
    rcases R.fresh k g g1 with h | h
    · have h2 : s.faces[k]? = some g := h
      rw [hn] at h2; cases h2
    · rw [g4]; exact h.2.2.1
  · rw [C.frame.2.2.2.1, R.grow.scheme]
  · rw [C.frame.2.2.1, R.grow.netifs]

example : (run init exEvs).netifs.map (·.name) = ["eth0", "eth1", "eth9"] ∧ ¬ WantsFace exMc (run init exEvs).netifs "eth9" ∧
    WantsFace exMc (run init exEvs).netifs "eth0" := by
  refine ⟨by decide +kernel, ?_, ?_⟩
  · rintro ⟨-, n, hn, h1, h2, h3, h4⟩
    have hn : n ∈ [exNetif "eth0" 1, exNetif "eth1" 2, exNetif "eth9" 9] := hn
    simp only [List.mem_cons, List.not_mem_nil, or_false] at hn
    rcases hn with rfl | rfl | rfl
    · exact absurd h1 (by decide +kernel)
    · exact absurd h1 (by decide +kernel)
    · exact absurd h4 (by decide +kernel)
  · refine ⟨rfl, exNetif "eth0" 1, ?_, rfl, ⟨rfl, rfl, rfl⟩, rfl, rfl⟩
    exact List.mem_cons_self

/-- What is missing in `C103_config_partial`: an interface that calls for a multicast face may be left without one, because the face it had is just being
closed when the configuration is applied. -/
theorem C103_closing : ∃ es u m works opens x, WantsFace m (run init es).netifs x ∧ (∀ y, opens y = true) ∧
    ¬ HasFace (run (step (run init es) (.config u m works opens)) [.settle 0]) x m.group := by
  refine ⟨[.added (exNetif "eth0" 1) (fun _ => true) (fun _ => true), .config exUni exMc (fun _ => true) (fun _ => true), .close 0], exUni, exMc,
    fun _ => true, fun _ => true, "eth0", ⟨rfl, exNetif "eth0" 1, List.mem_cons_self, rfl, ⟨rfl, rfl, rfl⟩, rfl, rfl⟩, fun _ => rfl, ?_⟩
  rintro ⟨k, f, h1, -, -, h4⟩
  have e : (run (step (run init [.added (exNetif "eth0" 1) (fun _ => true) (fun _ => true), .config exUni exMc (fun _ => true) (fun _ => true), .close 0])
    (.config exUni exMc (fun _ => true) (fun _ => true))) [.settle 0]).faces = [⟨"eth0", 7, false, .closed, true⟩] := by decide +kernel
  rw [e] at h1
  cases k with
  | zero => cases h1; cases h4
  | succ k => simp at h1

/-- C103. An interface that appears while the configuration calls for a multicast face on it gets one, if the device can be opened and no face for it is just
being closed; nothing happens to other faces. -/
theorem C103_added (es : List Ev) (n : Netif) (works opens : String → Bool) :
    let s := run init es
    let s' := step s (.added n works opens)
    (WantsFace s.mc [n] n.name → opens n.name = true → (∀ (k : Nat) (f : Face), s.faces[k]? = some f → f.netif = n.name → f.group = s.mc.group → f.st ≠ .closing) →
      HasFace s' n.name s.mc.group) ∧
    (∀ (k : Nat) (f : Face), s.faces[k]? = some f → s'.faces[k]? = some f) ∧
    (∀ (k : Nat) (f : Face), s'.faces[k]? = some f → s.faces[k]? = none → f.netif = n.name ∧ f.group = s.mc.group ∧ WantsFace s.mc [n] n.name) := by
  intro s s'
  have hi0 : Inv s := run_inv es Inv.init
  have hs' : s' = (applyMc opens { s with netifs := s.netifs ++ [n], chans := chanStep works s.uni s.chans n } n).1 := by
    show (applyMc opens (applyUni works { s with netifs := s.netifs ++ [n] } n) n).1 = _
    rw [applyUni_eq]
  have hi : Inv { s with netifs := s.netifs ++ [n], chans := chanStep works s.uni s.chans n } :=
    ⟨hi0.keys, hi0.sound, hi0.complete, hi0.table, chanStep_pairwise works s.uni n hi0.chans⟩
  by_cases he : Elig s.mc n
  · obtain ⟨a1, a2, -, a3⟩ := applyMc_placed opens n hi he
    rw [← hs'] at a1 a2
    generalize hp : applyMc opens { s with netifs := s.netifs ++ [n], chans := chanStep works s.uni s.chans n } n = p at *
    have hw : WantsFace s.mc [n] n.name := (wants_iff ..).2 ⟨n, List.mem_cons_self, rfl, he⟩
    refine ⟨fun _ ho hc => ?_, a2.faces, ?_⟩
    · cases a3 with
      | found k f b1 b2 b3 b4 =>
        refine ⟨k, f, a2.faces k f b1, b2, b3, ?_⟩
        have := hc k f b1 b2 b3
        cases h : f.st <;> simp_all
      | new t ht hl => exact ⟨s.faces.length, _, by rw [hs', ht]; simp; rfl, rfl, rfl, rfl⟩
      | failed hl h => rw [ho] at h; cases h
    · intro k f hf hn
      cases a3 with
      | found j g b1 b2 b3 b4 =>
        rw [hs'] at hf
        have hf : s.faces[k]? = some f := hf
        rw [hn] at hf; cases hf
      | new t ht hl =>
        rw [hs', ht] at hf
        rcases getElem?_append_one hf with hf | ⟨rfl, rfl⟩
        · have hf : s.faces[k]? = some f := hf
          rw [hn] at hf; cases hf
        · exact ⟨rfl, rfl, hw⟩
      | failed hl h =>
        rw [hs'] at hf
        have hf : s.faces[k]? = some f := hf
        rw [hn] at hf; cases hf
  · have hp := applyMc_not opens { s with netifs := s.netifs ++ [n], chans := chanStep works s.uni s.chans n } n he
    rw [hp] at hs'
    refine ⟨?_, ?_, ?_⟩
    · intro hw
      obtain ⟨m, hm, -, h⟩ := (wants_iff ..).1 hw
      rw [List.mem_singleton] at hm; subst hm
      exact absurd h he
    · intro k f hf; rw [hs']; exact hf
    · intro k f hf hn
      rw [hs'] at hf
      have hf : s.faces[k]? = some f := hf
      rw [hn] at hf; cases hf

example : HasFace (step (run init exEvs) (.added (exNetif "eth2" 3) (fun _ => true) (fun _ => true))) "eth2" 7 :=
  ⟨2, ⟨"eth2", 7, false, .live, true⟩, by decide +kernel, rfl, rfl, rfl⟩

/-! ### Channels -/

theorem step_chans (s : St) (hi : Inv s) (e : Ev) : ∃ works u l, (step s e).chans = l.foldl (chanStep works u) s.chans ∧
    ((∀ u' m w o, e = .config u' m w o → works = w ∧ u = u' ∧ l = s.netifs) ∧ (∀ n w o, e = .added n w o → works = w ∧ u = s.uni ∧ l = [n]) ∧
      ((∀ u' m w o, e ≠ .config u' m w o) → (∀ n w o, e ≠ .added n w o) → l = [])) := by
  cases e with
  | config u m works opens =>
    have hi1 : Inv { s with uni := u, mc := m, scheme := u.enabled } := ⟨hi.keys, hi.sound, hi.complete, hi.table, hi.chans⟩
    have R := forNetifs_res works opens s.netifs hi1
    refine ⟨works, u, s.netifs, ?_, ?_, ?_, ?_⟩
    · rw [← R.chans]
      exact (foldl_close _ R.inv).frame.2.2.2.2
    · rintro u' m' w o h; cases h; exact ⟨rfl, rfl, rfl⟩
    · intro n w o h; cases h
    · intro h; exact absurd rfl (h u m works opens)
  | added n works opens =>
    refine ⟨works, s.uni, [n], ?_, ?_, ?_, ?_⟩
    · have hi1 : Inv { s with netifs := s.netifs ++ [n], chans := chanStep works s.uni s.chans n } :=
        ⟨hi.keys, hi.sound, hi.complete, hi.table, chanStep_pairwise works s.uni n hi.chans⟩
      show (applyMc opens (applyUni works { s with netifs := s.netifs ++ [n] } n) n).1.chans = _
      rw [applyUni_eq]
      by_cases he : Elig s.mc n
      · exact (applyMc_placed opens n hi1 he).2.2.1
      · exact congrArg (fun x : St × Option Nat => x.1.chans) (applyMc_not opens { s with netifs := s.netifs ++ [n], chans := chanStep works s.uni s.chans n } n he)
    · rintro u' m' w o h; cases h
    · rintro m w o h; cases h; exact ⟨rfl, rfl, rfl⟩
    · intro _ h; exact absurd rfl (h n works opens)
  | change f => exact ⟨fun _ => true, s.uni, [], rfl, by intros; contradiction, by intros; contradiction, fun _ _ => rfl⟩
  | close k =>
    refine ⟨fun _ => true, s.uni, [], ?_, by intros; contradiction, by intros; contradiction, fun _ _ => rfl⟩
    rcases close_cases s k with h | ⟨f, -, -, h⟩ <;> simp only [step, h, List.foldl_nil]
  | settle k =>
    refine ⟨fun _ => true, s.uni, [], ?_, by intros; contradiction, by intros; contradiction, fun _ _ => rfl⟩
    simp only [step, settle, List.foldl_nil]
    split
    · rfl
    · split <;> rfl

theorem run_keeps (es : List Ev) : ∀ {s : St}, Inv s → Keeps s.chans (run s es).chans := by
  induction es with
  | nil => intro s _; exact Keeps.refl _
  | cons e es ih =>
    intro s hi
    obtain ⟨w, u, l, h, -⟩ := step_chans s hi e
    refine Keeps.trans ?_ (ih (step_inv hi e))
    rw [h]
    exact foldl_keeps w u l s.chans

theorem chan_unique {l : List Chan} (hp : l.Pairwise (fun a b => a.name ≠ b.name)) {d c : Chan} (hb : d ∈ l) (hc : c ∈ l) (hx : d.name = c.name) : d = c := by
  induction l with
  | nil => cases hb
  | cons a l ih =>
    rw [List.pairwise_cons] at hp
    rcases List.mem_cons.1 hb with hd1 | hd1
    · rcases List.mem_cons.1 hc with he1 | he1
      · rw [hd1, he1]
      · subst hd1; exact absurd hx (hp.1 c he1)
    · rcases List.mem_cons.1 hc with he1 | he1
      · subst he1; exact absurd hx.symm (hp.1 d hd1)
      · exact ih hp.2 hd1 he1

/-- C103. An interface that appears while the configuration calls for a channel on it has one then, with the idle timeout configured if it is new; it
receives if this is configured, the device can be opened and no earlier attempt has failed. Channels of other interfaces are not touched. -/
theorem C103_added_channel (es : List Ev) (n : Netif) (works opens : String → Bool) :
    let s := run init es
    let s' := step s (.added n works opens)
    (WantsChannel s.uni [n] n.name → HasChannel s' n.name) ∧
    (WantsChannel s.uni [n] n.name → s.uni.listen = true → works n.name = true → (∀ c ∈ s.chans, c.name = n.name → c.flag = true → c.receiving = true) →
      Receives s' n.name) ∧
    (∀ d ∈ s'.chans, ¬ HasChannel s d.name → d.name = n.name ∧ WantsChannel s.uni [n] n.name ∧ d.idle = s.uni.idle) ∧
    (∀ c, c.name ≠ n.name → (c ∈ s'.chans ↔ c ∈ s.chans)) := by
  intro s s'
  have hi : Inv s := run_inv es Inv.init
  obtain ⟨w, v, l, h, -, h2, -⟩ := step_chans s hi (.added n works opens)
  obtain ⟨rfl, rfl, rfl⟩ := h2 n works opens rfl
  have h : s'.chans = [n].foldl (chanStep w s.uni) s.chans := h
  have hname : ∀ x, WantsChannel s.uni [n] x → x = n.name := by
    rintro x ⟨-, m, hm, rfl, -⟩
    rw [List.mem_singleton] at hm; rw [hm]
  refine ⟨?_, ?_, ?_, ?_⟩
  · intro hx
    obtain ⟨c, hc, c1, -⟩ := foldl_has w s.uni [n] s.chans _ hx
    exact ⟨c, by rw [h]; exact hc, c1⟩
  · intro hx hl hw ho
    obtain ⟨c, hc, c1, c2⟩ := foldl_has w s.uni [n] s.chans _ hx
    refine ⟨c, by rw [h]; exact hc, c1, ?_⟩
    rcases foldl_from w s.uni _ s.chans c hc with ⟨b, hb, b1, -, rfl | ⟨-, -, -, rfl⟩⟩ | ⟨-, -, h3⟩
    · exact ho c hb c1 (c2 hl)
    · exact (congrArg w c1).trans hw
    · rw [h3]; simp [hl]; exact (congrArg w c1).trans hw
  · intro d hd hn
    rw [h] at hd
    rcases foldl_from w s.uni _ s.chans d hd with ⟨c, hc, c1, -⟩ | ⟨-, h2, h3⟩
    · exact absurd ⟨c, hc, c1.symm⟩ hn
    · have := hname _ h2
      exact ⟨this, this ▸ h2, by rw [h3]⟩
  · intro c hne
    rw [h]
    constructor
    · intro hc
      rcases foldl_from w s.uni _ s.chans c hc with ⟨b, hb, b1, -, rfl | ⟨-, -, e2, rfl⟩⟩ | ⟨-, h2, -⟩
      · exact hb
      · exact absurd (hname _ e2) (b1 ▸ hne)
      · exact absurd (hname _ h2) hne
    · intro hc
      obtain ⟨d, hd, d1, d2, d3⟩ := foldl_keeps w s.uni [n] s.chans c hc
      rcases foldl_from w s.uni _ s.chans d hd with ⟨b, hb, b1, -, rfl | ⟨-, -, e2, rfl⟩⟩ | ⟨-, h2, -⟩
      · have : d = c := chan_unique hi.chans hb hc d1
        exact this ▸ hd
      · exact absurd (hname _ e2) (d1 ▸ hne)
      · exact absurd (hname _ h2) (d1 ▸ hne)

example : Receives (step (run init exEvs) (.added (exNetif "eth2" 3) (fun _ => true) (fun _ => true))) "eth2" ∧
    ¬ Receives (run init exEvs) "eth2" := by
  refine ⟨⟨⟨"eth2", 600, true, true⟩, by decide +kernel, rfl, rfl⟩, ?_⟩
  rintro ⟨c, hc, h, -⟩
  have : c ∈ [(⟨"eth0", 600, true, true⟩ : Chan), ⟨"eth1", 600, true, false⟩, ⟨"eth9", 600, true, true⟩] := hc
  simp only [List.mem_cons, List.not_mem_nil, or_false] at this
  rcases this with rfl | rfl | rfl <;> exact absurd h (by decide)

/-- C103. Channels: at most one per interface. A channel never disappears, its idle timeout never changes, and one that receives goes on receiving,
whatever configurations follow. -/
theorem C103_channels (es es' : List Ev) :
    (run init es).chans.Pairwise (fun a b => a.name ≠ b.name) ∧
    ∀ c ∈ (run init es).chans, ∃ d ∈ (run (run init es) es').chans, d.name = c.name ∧ d.idle = c.idle ∧ (c.receiving = true → d.receiving = true) := by
  have hi := run_inv es Inv.init
  refine ⟨hi.chans, ?_⟩
  intro c hc
  obtain ⟨d, hd, d1, d2, d3⟩ := run_keeps es' hi c hc
  refine ⟨d, hd, d1, d2, fun hr => ?_⟩
  have hf : c.flag = true := by
    have : ∀ (es : List Ev) (s : St), Inv s → (∀ c ∈ s.chans, c.receiving = true → c.flag = true) → ∀ c ∈ (run s es).chans, c.receiving = true → c.flag = true := by
      intro es
      induction es with
      | nil => intro s _ h; exact h
      | cons e es ih =>
        intro s hi h
        refine ih _ (step_inv hi e) ?_
        obtain ⟨w, u, l, hl, -⟩ := step_chans s hi e
        rw [hl]
        intro c hc hr
        rcases foldl_from w u l s.chans c hc with ⟨b, hb, -, -, rfl | ⟨-, -, -, rfl⟩⟩ | ⟨-, -, h3⟩
        · exact h c hb hr
        · rfl
        · rw [h3] at hr ⊢
          dsimp only at hr ⊢
          cases h : u.listen
          · rw [h] at hr; simp at hr
          · rfl
    exact this es init Inv.init (by simp [init]) c hc hr
  rw [d3 hf]; exact hr

example : ((run init exEvs).chans.map (fun c => (c.name, c.idle, c.receiving))) = [("eth0", 600, true), ("eth1", 600, false), ("eth9", 600, true)] := by decide +kernel

/-- C103. When the configuration has been applied, in any state: every interface that calls for a channel has one; a channel that is new is called for and has
the idle timeout configured; a channel that did not receive before and does now is called for, and `listen yes` is configured; and with `listen yes`,
every interface that calls for a channel has one that receives, if the device can be opened and no earlier attempt has failed. -/
theorem C103_listen_partial (es : List Ev) (u : Unicast) (m : Multicast) (works opens : String → Bool) :
    let s := run init es
    let s' := step s (.config u m works opens)
    (∀ x, WantsChannel u s.netifs x → HasChannel s' x) ∧
    (∀ d ∈ s'.chans, ¬ HasChannel s d.name → WantsChannel u s.netifs d.name ∧ d.idle = u.idle) ∧
    (∀ x, Receives s' x → ¬ Receives s x → WantsChannel u s.netifs x ∧ u.listen = true) ∧
    (∀ x, WantsChannel u s.netifs x → u.listen = true → works x = true → (∀ c ∈ s.chans, c.name = x → c.flag = true → c.receiving = true) → Receives s' x) := by
  intro s s'
  have hi : Inv s := run_inv es Inv.init
  obtain ⟨w, v, l, h, h2, -⟩ := step_chans s hi (.config u m works opens)
  obtain ⟨rfl, rfl, rfl⟩ := h2 u m works opens rfl
  have h : s'.chans = s.netifs.foldl (chanStep w v) s.chans := h
  refine ⟨?_, ?_, ?_, ?_⟩
  · intro x hx
    obtain ⟨c, hc, c1, -⟩ := foldl_has w v s.netifs s.chans x hx
    exact ⟨c, by rw [h]; exact hc, c1⟩
  · intro d hd hn
    rw [h] at hd
    rcases foldl_from w v _ s.chans d hd with ⟨c, hc, c1, -⟩ | ⟨-, h2, h3⟩
    · exact absurd ⟨c, hc, c1.symm⟩ hn
    · exact ⟨h2, by rw [h3]⟩
  · rintro x ⟨d, hd, rfl, hr⟩ hn
    rw [h] at hd
    rcases foldl_from w v _ s.chans d hd with ⟨c, hc, c1, -, rfl | ⟨-, e1, e2, rfl⟩⟩ | ⟨-, h2, h3⟩
    · exact absurd ⟨d, hc, rfl, hr⟩ hn
    · exact ⟨e2, e1⟩
    · refine ⟨h2, ?_⟩
      rw [h3] at hr
      cases hl : v.listen
      · rw [hl] at hr; simp at hr
      · rfl
  · intro x hx hl hw ho
    obtain ⟨c, hc, rfl, c2⟩ := foldl_has w v s.netifs s.chans x hx
    refine ⟨c, by rw [h]; exact hc, rfl, ?_⟩
    rcases foldl_from w v _ s.chans c hc with ⟨b, hb, b1, -, rfl | ⟨-, -, -, rfl⟩⟩ | ⟨-, -, h3⟩
    · exact ho c hb rfl (c2 hl)
    · exact hw
    · rw [h3]; simp [hl, hw]

/-- What is missing in `C103_listen_partial`: if listening on an interface has failed once, it is never tried again. For any later history, with any
configurations and even if the device can be opened, the channel does not receive. -/
theorem C103_never_retried (es es' : List Ev) (c : Chan) (hc : c ∈ (run init es).chans) (hf : c.flag = true) (hr : c.receiving = false) :
    ¬ Receives (run (run init es) es') c.name := by
  have hi := run_inv es Inv.init
  rintro ⟨d, hd, hx, h⟩
  obtain ⟨e, he, e1, -, e3⟩ := run_keeps es' hi c hc
  have := e3 hf; subst this
  have hp := (run_inv es' hi).chans
  have : d = e := by
    generalize (run (run init es) es').chans = l at *
    induction l with
    | nil => cases hd
    | cons a l ih =>
      rw [List.pairwise_cons] at hp
      rcases List.mem_cons.1 hd with hd1 | hd1
      · rcases List.mem_cons.1 he with he1 | he1
        · rw [hd1, he1]
        · subst hd1; exact absurd hx (hp.1 e he1)
      · rcases List.mem_cons.1 he with he1 | he1
        · subst he1; exact absurd hx.symm (hp.1 d hd1)
        · exact ih hd1 he1 hp.2
  rw [this, hr] at h; cases h

example : ∃ c ∈ (run init exEvs).chans, c.name = "eth1" ∧ c.flag = true ∧ c.receiving = false :=
  ⟨⟨"eth1", 600, true, false⟩, by decide +kernel, rfl, rfl, rfl⟩

end Verif.Eth
