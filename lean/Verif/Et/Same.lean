/-
Ethernet faces that stay UP or DOWN: what sending and receiving leave as it is.
-/
import Verif.Et.Props

namespace Verif.Et
open Verif.Lp (Bytes parseBlock)
open Verif.Tp (TState Persist validTransition leaving maxPacket)

variable {c : Cfg}

/-- A face that is still UP or DOWN has the same state, queue and outstanding wait. -/
def SameL (f g : Face) : Prop := Live g → g.state = f.state ∧ g.reading = f.reading ∧ g.q = f.q

theorem SameL.refl (f : Face) : SameL f f := fun _ => ⟨rfl, rfl, rfl⟩

theorem Leaving.notLive {f : Face} (h : Leaving f) : ¬ Live f := not_live_state h.states

theorem SameL.ofLeaving {f g : Face} (h : Leaving g) : SameL f g := fun hl => absurd hl h.notLive

theorem close_same {f g : Face} (hp : Phase f) (h : close f = .ok g) : SameL f g := by
  by_cases hs : f.state ≠ .up ∧ f.state ≠ .down
  · rw [close_other hs] at h; cases h; exact .refl _
  · have := close_live (hp.live (upDown hs))
    rw [h] at this
    exact .ofLeaving this

theorem handleError_same {f g : Face} (hl : Live f) (h : handleError f = .ok g) : SameL f g := by
  have := handleError_live hl
  rw [h] at this
  rcases this with ⟨_, rfl⟩ | ⟨_, hg⟩
  · exact .refl _
  · exact .ofLeaving hg

theorem send_same {f g : Face} {p : Bytes} {ok : Bool} (hp : Phase f) (h : send c f p ok = .ok g) : SameL f g := by
  unfold send at h
  split at h
  · cases h
  · split at h
    · cases h; exact .refl _
    · rename_i hs
      have hl := hp.live (upDown hs)
      dsimp only at h
      generalize hf : (if f.state = .up then emit f (.counted p) else f) = f1 at h
      have l1 : Live f1 := by rw [← hf]; split; exact hl.emit _; exact hl
      have e1 : f1.state = f.state ∧ f1.reading = f.reading ∧ f1.q = f.q := by rw [← hf]; split <;> exact ⟨rfl, rfl, rfl⟩
      split at h
      · cases h
      · split at h
        · cases h; exact fun _ => e1
        · intro hg
          obtain ⟨h1, h2, h3⟩ := handleError_same (l1.emit _) h hg
          exact ⟨h1.trans e1.1, h2.trans e1.2.1, h3.trans e1.2.2⟩

theorem act_same {f g : Face} {a : Act} (hp : Phase f) (h : act c f a = .ok g) : SameL f g := by
  cases a with
  | send p ok => exact send_same hp h
  | close => exact close_same hp h

theorem acts_same : ∀ {l : List Act} {f g : Face}, (Live f ∨ Leaving f) → acts c f l = .ok g → SameL f g
  | [], f, g, _, h => by cases h; exact .refl _
  | a :: l, f, g, hp, h => by
    obtain ⟨x, h1, h2⟩ := bind_ok h
    have hx := act_live (c := c) hp a
    rw [h1] at hx
    intro hg
    have s2 := acts_same hx h2 hg
    rcases hx with hx | hx
    · obtain ⟨a1, a2, a3⟩ := act_same (liveOrLeaving hp) h1 hx
      exact ⟨s2.1.trans a1, s2.2.1.trans a2, s2.2.2.trans a3⟩
    · exfalso
      have hl := s2.1
      rcases hg.state with e | e <;> rw [e] at hl <;> rcases hx.state with e' | e' <;> rw [e'] at hl <;> cases hl

theorem receive_same {now : Nat} {f g : Face} {b s : Bytes} {l : List Act} (hp : Live f ∨ Leaving f)
    (h : receivePayload c now f b s l = .ok g) : SameL f g := by
  unfold receivePayload at h
  split at h
  · cases h; exact .refl _
  · split at h
    · cases h
    · refine acts_same (f := emit { f with recent := true } _) ?_ h
      rcases hp with h | h
      · exact Or.inl ⟨h.state, h.isOpen, h.pcap, h.dead, h.q⟩
      · exact Or.inr ⟨h.state, h.isOpen, h.pcap, h.reading, h.dead, h.q⟩

theorem finishRead_same {f g : Face} (hp : Live f ∨ Leaving f) (h : finishRead c f = .ok g) (hg : Live g) :
    Live f ∧ g.state = f.state ∧ g.reading = true ∧ g.q = f.q := by
  unfold finishRead at h
  split at h
  · cases h
  · cases h
    unfold asyncRead at hg ⊢
    rcases hp with hl | hl
    · rw [if_pos hl.isOpen]; exact ⟨hl, rfl, rfl, rfl⟩
    · rw [if_neg (by rw [hl.isOpen]; decide)] at hg
      have := hg.isOpen
      have : f.isOpen = true := this
      rw [hl.isOpen] at this; cases this

/-- After a frame or nothing has been read, a face that is still UP or DOWN waits again. -/
theorem handleRead_same {now : Nat} {f g : Face} {pkt : Option Bytes} {l : List Act} (hl : Live f) (h : handleRead c now f pkt l = .ok g)
    (hg : Live g) : g.state = f.state ∧ g.reading = true ∧ g.q = f.q := by
  unfold handleRead at h
  rw [if_neg (by rw [hl.pcap]; decide)] at h
  cases pkt with
  | none => exact (finishRead_same (Or.inl hl) h hg).2
  | some p =>
    dsimp only at h
    generalize (if isMulticast c.rem = true then c.rem else c.loc) = d at h
    split at h
    · obtain ⟨a, h1, h2⟩ := bind_ok h
      have ha := receive_live (c := c) (Or.inl (hl.emit (.got p))) now (p.drop hdrLen) (srcOf p) l
      rw [h1] at ha
      obtain ⟨b0, b1, b2, b3⟩ := finishRead_same ha h2 hg
      obtain ⟨c1, c2, c3⟩ := receive_same (Or.inl (hl.emit (.got p))) h1 b0
      exact ⟨b1.trans c1, b2, b3.trans c3⟩
    · exact (finishRead_same (Or.inl (hl.emit _)) h hg).2

theorem handle_same {now : Nat} {f g : Face} {x : Handler} (hl : Live f) (hx : isIo x = true) (h : handle c now f x = .ok g) (hg : Live g) :
    g.state = f.state ∧ g.q = f.q ∧ (g.reading = true ∨ ((∃ e, x = .readErr e) ∧ g.reading = f.reading)) := by
  cases x with
  | readOk pkt d =>
    obtain ⟨h1, h2, h3⟩ := handleRead_same hl h hg
    exact ⟨h1, h3, Or.inl h2⟩
  | readErr e =>
    have h : (if _ then _ else _) = _ := h
    split at h
    · obtain ⟨h1, h2, h3⟩ := handleError_same hl h hg
      exact ⟨h1, h3, Or.inr ⟨⟨e, rfl⟩, h2⟩⟩
    · cases h; exact ⟨rfl, rfl, Or.inr ⟨⟨e, rfl⟩, rfl⟩⟩
  | close => cases hx
  | dealloc => cases hx

theorem Leaving.phase {f : Face} (h : Leaving f) : Phase f := Or.inr (Or.inl h)

/-- What a step does to a face that is UP or DOWN afterwards. `State`: only the network interface changes it between UP and DOWN. -/
structure StepLive (e : Event) (f g : Face) : Prop where
  live : Live f
  state : g.state = (match e with | .netif b => (if b then .up else .down) | _ => f.state)
  waits : (∀ b, e ≠ .fail b) → (∀ h ∈ f.q, ∃ p d, h = Handler.readOk p d) → (f.reading = true ∨ HasOk f) →
    (∀ h ∈ g.q, ∃ p d, h = Handler.readOk p d) ∧ (g.reading = true ∨ HasOk g)

theorem complete_same {now : Nat} {f g : Face} {x : Handler} {b : Bool} (hl : Live f) (hx : isIo x = true)
    (h : complete c now { f with reading := false } x b = .ok g) (hg : Live g) :
    g.state = f.state ∧ ((∃ p d, x = .readOk p d) → (∀ h ∈ f.q, ∃ p d, h = Handler.readOk p d) →
      (∀ h ∈ g.q, ∃ p d, h = Handler.readOk p d) ∧ (g.reading = true ∨ HasOk g)) := by
  unfold complete at h
  have hl' : Live { f with reading := false } := ⟨hl.state, hl.isOpen, hl.pcap, hl.dead, hl.q⟩
  split at h
  · obtain ⟨h1, h2, h3⟩ := handle_same hl' hx h hg
    refine ⟨h1, ?_⟩
    rintro ⟨p, d, rfl⟩ hq
    refine ⟨by rw [h2]; exact hq, ?_⟩
    rcases h3 with h3 | ⟨⟨e, he⟩, _⟩
    · exact Or.inl h3
    · cases he
  · cases h
    refine ⟨rfl, ?_⟩
    rintro ⟨p, d, rfl⟩ hq
    refine ⟨?_, Or.inr ⟨p, d, by simp [post]⟩⟩
    intro y hy
    simp only [post, List.mem_append, List.mem_singleton] at hy
    rcases hy with hy | rfl
    · exact hq y hy
    · exact ⟨p, d, rfl⟩

theorem step_live {now : Nat} {f g : Face} {e : Event} (hp : Phase f) (h : faceStep c now f e = .ok g) (hg : Live g)
    (hb : (g.state = .up ∨ g.state = .down) → f.state = .up ∨ f.state = .down) : StepLive e f g := by
  have hl : Live f := hp.live (hb hg.state)
  have hnc : f.state ≠ .closed := by rcases hl.state with e | e <;> rw [e] <;> decide
  have of : ∀ {e : Event}, (∀ b, e ≠ .netif b) → SameL f g → StepLive e f g := by
    intro e he hs
    obtain ⟨h1, h2, h3⟩ := hs hg
    refine ⟨hl, ?_, ?_⟩
    · cases e with
      | netif b => exact absurd rfl (he b)
      | _ => exact h1
    · intro _ hq hr
      refine ⟨by rw [h3]; exact hq, ?_⟩
      rcases hr with hr | ⟨p, d, hm⟩
      · exact Or.inl (h2.trans hr)
      · exact Or.inr ⟨p, d, by rw [h3]; exact hm⟩
  cases e with
  | act a =>
    simp only [faceStep] at h
    rw [if_neg hnc] at h
    exact of (by intros; simp) (act_same hp h)
  | setPersist x =>
    simp only [faceStep] at h
    rw [if_neg hnc] at h
    cases h
    refine of (by intros; simp) fun _ => ?_
    unfold setPersist
    split
    · exact ⟨rfl, rfl, rfl⟩
    · dsimp only; split <;> split <;> exact ⟨rfl, rfl, rfl⟩
  | netif b =>
    simp only [faceStep] at h
    rw [if_neg (by rw [hl.dead]; decide)] at h
    unfold netif at h
    have set : ∀ {n : TState}, f.state ≠ n → n ≠ .closed → setState f n = .ok g → g.state = n ∧ g.reading = f.reading ∧ g.q = f.q := by
      intro n hne hn hs
      unfold setState at hs
      rw [if_neg hne] at hs
      split at hs
      · cases hs; exact ⟨rfl, rfl, rfl⟩
      · cases hs
    have key : g.state = (if b then .up else .down) ∧ g.reading = f.reading ∧ g.q = f.q := by
      cases b with
      | true =>
        rw [if_pos rfl] at h
        split at h
        · rename_i hs; exact set (by rw [hs]; decide) (by decide) h
        · cases h
          rename_i hs
          exact ⟨hl.state.resolve_right hs, rfl, rfl⟩
      | false =>
        rw [if_neg (by decide)] at h
        split at h
        · rename_i hs; exact set (by rw [hs]; decide) (by decide) h
        · cases h
          rename_i hs
          exact ⟨hl.state.resolve_left hs, rfl, rfl⟩
    refine ⟨hl, key.1, ?_⟩
    intro _ hq hr
    refine ⟨by rw [key.2.2]; exact hq, ?_⟩
    rcases hr with hr | ⟨p, d, hm⟩
    · exact Or.inl (key.2.1.trans hr)
    · exact Or.inr ⟨p, d, by rw [key.2.2]; exact hm⟩
  | mtu n =>
    simp only [faceStep] at h
    cases h
    refine of (by intros; simp) fun _ => ?_
    split <;> exact ⟨rfl, rfl, rfl⟩
  | wire w d b =>
    simp only [faceStep] at h
    split at h
    · obtain ⟨h1, h2⟩ := complete_same hl rfl h hg
      exact ⟨hl, h1, fun _ hq _ => h2 ⟨_, _, rfl⟩ hq⟩
    · cases h; exact of (by intros; simp) (.refl _)
  | nothing b =>
    simp only [faceStep] at h
    split at h
    · obtain ⟨h1, h2⟩ := complete_same hl rfl h hg
      exact ⟨hl, h1, fun _ hq _ => h2 ⟨_, _, rfl⟩ hq⟩
    · cases h; exact of (by intros; simp) (.refl _)
  | fail b =>
    simp only [faceStep] at h
    split at h
    · obtain ⟨h1, h2⟩ := complete_same hl rfl h hg
      exact ⟨hl, h1, fun hh => absurd rfl (hh b)⟩
    · cases h; exact of (by intros; simp) (.refl _)
  | dispatch pl s l =>
    simp only [faceStep] at h
    split at h
    · cases h; exact of (by intros; simp) (.refl _)
    · exact of (by intros; simp) (receive_same (f := emit f _) (Or.inl (hl.emit _)) h)
  | timer =>
    simp only [faceStep] at h
    cases ht : f.timer with
    | none => rw [ht] at h; cases h; exact of (by intros; simp) (.refl _)
    | some due =>
      rw [ht] at h
      dsimp only at h
      split at h
      · cases h; exact of (by intros; simp) (.refl _)
      · unfold idleCheck at h
        dsimp only at h
        split at h
        · refine of (by intros; simp) (close_same (f := emit { f with timer := none } (.idle now)) ?_ h)
          exact Or.inl ⟨hl.state, hl.isOpen, hl.pcap, hl.dead, hl.q⟩
        · cases h; exact of (by intros; simp) fun _ => ⟨rfl, rfl, rfl⟩
  | next =>
    simp only [faceStep] at h
    cases hq : f.q with
    | nil => rw [hq] at h; cases h; exact of (by intros; simp) (.refl _)
    | cons x r =>
      rw [hq] at h
      dsimp only at h
      rw [if_neg (by rw [hl.dead]; decide)] at h
      have hio : IoOnly (x :: r) := hq ▸ hl.q
      have hl' : Live { f with q := r } := ⟨hl.state, hl.isOpen, hl.pcap, hl.dead, hio.tail⟩
      obtain ⟨h1, h2, h3⟩ := handle_same hl' (hio x List.mem_cons_self) h hg
      refine ⟨hl, h1, ?_⟩
      intro _ hqq _
      rw [hq] at hqq
      have h2 : g.q = r := h2
      refine ⟨by rw [h2]; exact fun y hy => hqq y (List.mem_cons_of_mem _ hy), ?_⟩
      rcases h3 with h3 | ⟨⟨e, rfl⟩, _⟩
      · exact Or.inl h3
      · obtain ⟨p, d, hh⟩ := hqq _ List.mem_cons_self
        cases hh
  | tick d => simp only [faceStep] at h; cases h; exact of (by intros; simp) (.refl _)

end Verif.Et
