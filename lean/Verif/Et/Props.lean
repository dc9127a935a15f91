/-
C119: Ethernet faces.
-/
import Verif.Et.Idle

namespace Verif.Et
open Verif.Lp (Bytes parseBlock)
open Verif.Tp (TState Persist validTransition leaving maxPacket)

variable {c : Cfg}

/-! Frames and the link -/

/-- Frames that a filter of a face lets pass, in words: NDN frames, not tagged, from the peer to this host, or to the group and not from this
host. -/
structure Meant (loc rem : Addr) (w : Wire) : Prop where
  type : (w.octets.drop 12).take 2 = [0x86, 0x24]
  untagged : w.vlan = false
  unicast : isMulticast rem = false → (w.octets.drop 6).take 6 = rem.1 ∧ w.octets.take 6 = loc.1
  multicast : isMulticast rem = true → (w.octets.drop 6).take 6 ≠ loc.1 ∧ w.octets.take 6 = rem.1

theorem passes_iff {loc rem : Addr} {w : Wire} : passes loc rem w = true ↔ Meant loc rem w := by
  unfold passes typeOf srcOf dstOf
  constructor
  · intro h
    split at h
    · rename_i hm
      simp only [Bool.and_eq_true, beq_iff_eq, Bool.not_eq_true', beq_eq_false_iff_ne] at h
      obtain ⟨⟨⟨h1, h2⟩, h3⟩, h4⟩ := h
      exact ⟨h1, h4, (fun hh => by rw [hm] at hh; cases hh), fun _ => ⟨h3, h2⟩⟩
    · rename_i hm
      simp only [Bool.and_eq_true, beq_iff_eq, Bool.not_eq_true'] at h
      obtain ⟨⟨⟨h1, h2⟩, h3⟩, h4⟩ := h
      exact ⟨h1, h4, fun _ => ⟨h2, h3⟩, fun hh => absurd hh hm⟩
  · intro h
    split
    · rename_i hm
      obtain ⟨h1, h2⟩ := h.multicast hm
      simp only [Bool.and_eq_true, beq_iff_eq, Bool.not_eq_true', beq_eq_false_iff_ne]
      exact ⟨⟨⟨h.type, h2⟩, h1⟩, h.untagged⟩
    · rename_i hm
      obtain ⟨h1, h2⟩ := h.unicast (by simpa using hm)
      simp only [Bool.and_eq_true, beq_iff_eq, Bool.not_eq_true']
      exact ⟨⟨⟨h.type, h1⟩, h2⟩, h.untagged⟩

/-- C119: a frame from `src` to `dst` reaches exactly these faces: the unicast faces of the host `dst` whose peer is `src`, and the faces of the
group `dst` on every host other than `src`. -/
theorem C119_who (src dst : Addr) (p b : Bytes) (hb : IsFrame src dst p b) (loc rem : Addr) :
    passes loc rem ⟨false, b⟩ = true ↔
      (isMulticast rem = false ∧ loc = dst ∧ rem = src) ∨ (isMulticast rem = true ∧ rem = dst ∧ loc ≠ src) := by
  rw [passes_iff]
  constructor
  · intro h
    cases hm : isMulticast rem with
    | false =>
      obtain ⟨h1, h2⟩ := h.unicast hm
      exact Or.inl ⟨rfl, Subtype.ext (h2.symm.trans hb.dest), Subtype.ext (h1.symm.trans hb.source)⟩
    | true =>
      obtain ⟨h1, h2⟩ := h.multicast hm
      refine Or.inr ⟨rfl, Subtype.ext (h2.symm.trans hb.dest), ?_⟩
      rintro rfl
      exact h1 hb.source
  · rintro (⟨hm, rfl, rfl⟩ | ⟨hm, rfl, hl⟩)
    · exact ⟨hb.type, rfl, fun _ => ⟨hb.source, hb.dest⟩, fun hh => by rw [hm] at hh; cases hh⟩
    · refine ⟨hb.type, rfl, (fun hh => by rw [hm] at hh; cases hh), fun _ => ⟨?_, hb.dest⟩⟩
      intro hh
      exact hl (Subtype.ext (hh.symm.trans hb.source))

theorem captured_whole {src dst : Addr} {p b : Bytes} (hb : IsFrame src dst p b) (hp : p.length ≤ maxPacket) : captured b = b := by
  unfold captured
  refine List.take_of_length_le ?_
  have := hb.size
  have hp : p.length ≤ 8800 := hp
  show b.length ≤ 14 + 8800
  omega

theorem carries_frame {src dst : Addr} {p b : Bytes} (hb : IsFrame src dst p b) (ho : (parseBlock p).isSome = true) : Carries (b.drop 14) p := by
  refine ⟨⟨(b.drop 14).drop p.length, ?_⟩, ho⟩
  have := List.take_append_drop p.length (b.drop 14)
  rw [hb.packet] at this
  exact this

/-- C119: a packet that one face sends is delivered unchanged, without padding, by every face that its frame reaches: with the address of the
sender if the face is multicast. In a debug build the packet must fit into the MTU, and a host must not be its own peer. -/
theorem C119_link (src dst : Addr) (p b : Bytes) (hb : IsFrame src dst p b) (ho : (parseBlock p).isSome = true) (hp : p.length ≤ 8800)
    (c : Cfg) (hw : passes c.loc c.rem ⟨false, b⟩ = true) (now : Nat) (f : Face)
    (hr : c.debug = false ∨ (p.length ≤ f.mtu ∧ c.loc ≠ c.rem)) (hl : f.pcap = true) (ho' : f.isOpen = true)
    (hf : f.reading = true) :
    ∃ g, faceStep c now f (.wire ⟨false, b⟩ [] true) = .ok g ∧ g.state = f.state ∧ g.reading = true ∧
      g.out = f.out ++ [.got b, .deliver p (if isMulticast c.rem then some src.1 else none) now] := by
  simp only [faceStep]
  rw [if_pos ⟨hf, hw⟩, captured_whole hb hp]
  unfold complete handle handleRead
  rw [if_pos rfl]
  dsimp only
  rw [if_neg (by rw [hl]; decide)]
  have hh : headerOk c.debug b c.loc (if isMulticast c.rem then c.rem else c.loc) = true := by
    unfold headerOk
    rw [if_neg (by have := hb.size; simp only [hdrLen, minData]; omega), if_neg (fun h => h hb.type)]
    rcases hr with hr | ⟨-, hr⟩
    · rw [if_neg (by rw [hr]; simp), if_neg (by rw [hr]; simp)]
    · have hq := passes_iff.1 hw
      cases hm : isMulticast c.rem with
      | false =>
        obtain ⟨h1, h2⟩ := hq.unicast hm
        rw [if_neg (fun h => hr (Subtype.ext (h.2.symm.trans h1))), if_neg (fun h => h.2 h2)]
      | true =>
        obtain ⟨h1, h2⟩ := hq.multicast hm
        rw [if_neg (fun h => h1 h.2), if_neg (fun h => h.2 h2)]
  rw [if_pos hh]
  unfold receivePayload
  rw [show hdrLen = 14 from rfl, firstBlock_iff.2 (carries_frame hb ho)]
  dsimp only
  rw [if_neg (by rcases hr with hr | ⟨hr, -⟩
                 · rw [hr]; simp
                 · rintro ⟨-, h⟩; exact Nat.not_lt.2 hr h), show srcOf b = src.1 from hb.source]
  refine ⟨{ f with
    reading := true, recent := true
    out := f.out ++ [.got b, .deliver p (if isMulticast c.rem then some src.1 else none) now] }, ?_, rfl, rfl, rfl⟩
  show finishRead c (emit { emit { f with reading := false } (.got b) with recent := true } _) = _
  unfold finishRead asyncRead emit
  rw [if_neg (by rintro ⟨-, h⟩; rw [show f.pcap = false from h] at hl; cases hl), if_pos ho']
  simp

/-! Runs -/

/-- Every run preserves a property that every step preserves. -/
theorem run_ind {P : Sys → Prop} (hs : ∀ s e s', P s → step c s e = .ok s' → P s') :
    ∀ {es : List Event} {s s' : Sys}, P s → run c s es = .ok s' → P s'
  | [], s, s', h, hr => by cases hr; exact h
  | e :: es, s, s', h, hr => by
    obtain ⟨a, h1, h2⟩ := bind_ok hr
    exact run_ind hs (hs s e a h h1) h2

theorem step_ok {s s' : Sys} {e : Event} (h : step c s e = .ok s') :
    faceStep c s.now s.f e = .ok s'.f ∧ (s'.now = s.now ∨ ∃ d, e = .tick d ∧ s'.now = s.now + d ∧ s'.f = s.f) := by
  obtain ⟨f, h1, h2⟩ := bind_ok h
  cases h2
  refine ⟨h1, ?_⟩
  cases e with
  | tick d => simp only [faceStep] at h1; cases h1; exact Or.inr ⟨d, rfl, rfl, rfl⟩
  | _ => exact Or.inl rfl

/-- What every run preserves. `t` is the first state. -/
structure Inv (c : Cfg) (t : TState) (s : Sys) : Prop where
  phase : Phase s.f
  filtered : Filtered c s.f
  path : Path t s.f.out s.f.state
  delivers : c.debug = false → DeliversOut c s.f.out
  got : ∀ p, Out.got p ∈ s.f.out → FromWire c p
  sent : ∀ p b, Out.sent p (some b) ∈ s.f.out → b = frame c.loc c.rem p
  idle : IdleInv c.T s.now (view s.f)
  hasTimer : HasTimer c.T (view s.f)

/-- The first state of a face. -/
def first (running : Bool) : TState := if running then .up else .down

theorem inv_init (c : Cfg) (now : Nat) (p : Persist) (mtu : Nat) (running : Bool) :
    Inv c (first running) ⟨now, newFace c now p mtu running⟩ := by
  have hq : (newFace c now p mtu running).q = [] := by
    unfold newFace scheduleIdle; dsimp only; split <;> rfl
  have ho : (newFace c now p mtu running).out = if p = .onDemand then [.onDemand now] else [] := by
    unfold newFace scheduleIdle; dsimp only; split <;> rfl
  have hs : (newFace c now p mtu running).state = first running := by
    unfold newFace scheduleIdle; dsimp only; split <;> rfl
  have hnd : ∀ q e t, Out.deliver q e t ∉ (newFace c now p mtu running).out := by
    intro q e t; rw [ho]; split <;> simp
  refine ⟨phase_new _ _ _ _ _, ?_, ?_, ?_, ?_, ?_, ?_, ?_⟩
  · intro q d hm; rw [hq] at hm; cases hm
  · show Path _ (newFace c now p mtu running).out (newFace c now p mtu running).state
    rw [ho, hs]
    split
    · exact .snoc .nil .onDemand
    · exact .nil
  · intro _
    show DeliversOut c (newFace c now p mtu running).out
    rw [ho]
    split <;> exact .nil
  · intro q hm
    have hm : Out.got q ∈ (newFace c now p mtu running).out := hm
    rw [ho] at hm
    split at hm <;> simp at hm
  · intro q b hm
    have hm : Out.sent q (some b) ∈ (newFace c now p mtu running).out := hm
    rw [ho] at hm
    split at hm <;> simp at hm
  · refine ⟨fun q e t hm => absurd hm (hnd q e t), fun due _ _ q e t hm => absurd hm (hnd q e t), ?_⟩
    intro before t after he
    have he : (newFace c now p mtu running).out = _ := he
    rw [ho] at he
    have hm : Out.idle t ∈ (if p = .onDemand then [Out.onDemand now] else []) := by
      rw [he]; exact List.mem_append_right _ List.mem_cons_self
    split at hm <;> simp at hm
  · intro _ hp hT
    unfold newFace scheduleIdle at hp ⊢
    dsimp only [view] at hp ⊢
    split at hp
    · rename_i h; rw [if_pos h]; simp
    · rename_i h; exact absurd ⟨hp, hT⟩ h

theorem inv_back {t : TState} {f g : Face} {P : Bytes → Prop} {nf : Bool} {now : Nat} (hf : Path t f.out f.state) (hg : Path t g.out g.state)
    (ht : Trans c nf P now (view f) (view g)) (hl : g.state = .up ∨ g.state = .down) : f.state = .up ∨ f.state = .down := by
  have hx : ∃ o, g.out = f.out ++ o := by
    have keep : ∀ {u : View} (o : List Out), u.out = f.out ++ o → KeepsV c u (view g) → ∃ o, g.out = f.out ++ o := by
      intro u o hu k
      obtain ⟨o', h1, _⟩ := k.out
      have h1 : g.out = u.out ++ o' := h1
      exact ⟨o ++ o', by rw [h1, hu, List.append_assoc]⟩
    cases ht with
    | keep k => exact keep [] (List.append_nil _).symm k
    | refused p _ _ k => exact keep [_] rfl k
    | unparsed p _ _ _ k => exact keep [_] rfl k
    | delivered p b _ _ _ k => exact keep [_, _] (List.append_assoc _ _ _) k
    | dUnparsed pl s _ k => exact keep [_] rfl k
    | dDelivered pl s b _ k => exact keep [_, _] (List.append_assoc _ _ _) k
    | onDemand hw => exact ⟨[_], congrArg View.out hw⟩
    | other p _ hw => exact ⟨[], (congrArg View.out hw).trans (List.append_nil _).symm⟩
    | idle due _ _ _ _ k => exact keep [_] rfl k
    | renew due _ _ _ hw => exact ⟨[], (congrArg View.out hw).trans (List.append_nil _).symm⟩
    | netif n _ _ hw => exact ⟨[_], congrArg View.out hw⟩
    | dealloc _ hw => exact ⟨[], (congrArg View.out hw).trans (List.append_nil _).symm⟩
  obtain ⟨o, ho⟩ := hx
  rw [ho] at hg
  obtain ⟨u, h1, h2⟩ := hg.split
  cases hf.det h1
  refine upDown fun hh => ?_
  have := h2.gone hh
  rcases hl with hl | hl
  · exact this.1 hl
  · exact this.2 hl

theorem sent_trans {nf : Bool} {P : Bytes → Prop} {now : Nat} {v w : View} (hd : ∀ p b, Out.sent p (some b) ∈ v.out → b = frame c.loc c.rem p)
    (h : Trans c nf P now v w) : ∀ p b, Out.sent p (some b) ∈ w.out → b = frame c.loc c.rem p := by
  have keep : ∀ {u : View} (o : List Out), u.out = v.out ++ o → (∀ p b, Out.sent p (some b) ∉ o) → KeepsV c u w →
      ∀ p b, Out.sent p (some b) ∈ w.out → b = frame c.loc c.rem p := by
    intro u o hu hn k p b hm
    obtain ⟨o', h1, h2⟩ := k.out
    rw [h1, hu, List.mem_append, List.mem_append] at hm
    rcases hm with (hm | hm) | hm
    · exact hd p b hm
    · exact absurd hm (hn p b)
    · rcases h2 _ hm with hh | hh
      · cases hh
      · cases hh; rfl
  cases h with
  | keep k => exact keep [] (List.append_nil _).symm (by simp) k
  | refused p _ _ k => exact keep [_] rfl (by simp) k
  | unparsed p _ _ _ k => exact keep [_] rfl (by simp) k
  | delivered p b _ _ _ k => exact keep [_, _] (List.append_assoc _ _ _) (by simp) k
  | dUnparsed pl s _ k => exact keep [_] rfl (by simp) k
  | dDelivered pl s b _ k => exact keep [_, _] (List.append_assoc _ _ _) (by simp) k
  | onDemand hw =>
    rw [hw]
    intro p b hm
    have hm : Out.sent p (some b) ∈ v.out ++ [.onDemand now] := hm
    rw [List.mem_append, List.mem_singleton] at hm
    exact hm.elim (hd p b) (fun hh => by cases hh)
  | other p _ hw => rw [hw]; exact hd
  | idle due _ _ _ _ k => exact keep [_] rfl (by simp) k
  | renew due _ _ _ hw => rw [hw]; exact hd
  | netif n _ _ hw =>
    rw [hw]
    intro p b hm
    have hm : Out.sent p (some b) ∈ v.out ++ [.state v.state n] := hm
    rw [List.mem_append, List.mem_singleton] at hm
    exact hm.elim (hd p b) (fun hh => by cases hh)
  | dealloc _ hw => rw [hw]; exact hd

theorem inv_step {t : TState} {s s' : Sys} {e : Event} (h : Inv c t s) (hs : step c s e = .ok s') : Inv c t s' := by
  obtain ⟨h1, h2⟩ := step_ok hs
  have tr := step_trans h.phase h.filtered h1
  have hp : Phase s'.f := by
    have := step_phase (c := c) (now := s.now) h.phase e
    rw [h1] at this
    exact this
  have hpath := step_path h.phase h1 t h.path
  refine ⟨hp, filtered_step h.filtered h1, hpath, fun hr => delivers_trans hr (h.delivers hr) tr, got_trans h.got tr,
    sent_trans h.sent tr, ?_,
    h.hasTimer.trans (fun hl => inv_back h.path hpath tr hl) tr⟩
  have hi := h.idle.trans tr
  rcases h2 with h2 | ⟨d, _, h2, _⟩
  · rw [h2]; exact hi
  · rw [h2]; exact hi.tick d

theorem inv_run {t : TState} {s s' : Sys} {es : List Event} (h : Inv c t s) (hr : run c s es = .ok s') : Inv c t s' :=
  run_ind (P := Inv c t) (fun _ _ _ h hs => inv_step h hs) h hr

/-- A new face, as it is at the time `now`. -/
def start (c : Cfg) (now : Nat) (p : Persist) (mtu : Nat) (running : Bool) : Sys := ⟨now, newFace c now p mtu running⟩

/-- C119: the packets that a face delivers are those that the frames and payloads reaching it carry, each one once and in order, with the sender
if it is a multicast face. -/
theorem C119_delivery (c : Cfg) (hr : c.debug = false) (now : Nat) (p : Persist) (mtu : Nat) (running : Bool) (es : List Event) (s : Sys)
    (h : run c (start c now p mtu running) es = .ok s) :
    Delivers (fun a => if isMulticast c.rem then some a else none) (arrived s.f.out) (delivered s.f.out) :=
  (inv_run (inv_init c now p mtu running) h).delivers hr

/-- C119: the frames that reach a face come from its peer and are addressed to this host, or to the group and do not come from this host; they
are NDN frames. -/
theorem C119_source (c : Cfg) (now : Nat) (p : Persist) (mtu : Nat) (running : Bool) (es : List Event) (s : Sys)
    (h : run c (start c now p mtu running) es = .ok s) (b : Bytes) (hb : .got b ∈ s.f.out) :
    (b.drop 12).take 2 = [0x86, 0x24] ∧
      (isMulticast c.rem = false → (b.drop 6).take 6 = c.rem.1 ∧ b.take 6 = c.loc.1) ∧
      (isMulticast c.rem = true → (b.drop 6).take 6 ≠ c.loc.1 ∧ b.take 6 = c.rem.1) := by
  obtain ⟨w, hw, rfl⟩ := (inv_run (inv_init c now p mtu running) h).got b hb
  have hm := passes_iff.1 hw
  have hn : hdrLen + maxPacket = 8814 := rfl
  have h1 : ((captured w.octets).drop 12).take 2 = (w.octets.drop 12).take 2 := by
    unfold captured; rw [hn, List.drop_take, List.take_take]; rfl
  have h2 : ((captured w.octets).drop 6).take 6 = (w.octets.drop 6).take 6 := by
    unfold captured; rw [hn, List.drop_take, List.take_take]; rfl
  have h3 : (captured w.octets).take 6 = w.octets.take 6 := by
    unfold captured; rw [hn, List.take_take]; rfl
  rw [h1, h2, h3]
  exact ⟨hm.type, hm.unicast, hm.multicast⟩

/-- C119: a face goes between UP and DOWN, from there to CLOSING or FAILED, and from there to CLOSED. Packets are counted only in UP, frames are
sent and captured only in UP and DOWN, and nothing is delivered in CLOSED. -/
theorem C119_path (c : Cfg) (now : Nat) (p : Persist) (mtu : Nat) (running : Bool) (es : List Event) (s : Sys)
    (h : run c (start c now p mtu running) es = .ok s) : Path (if running then .up else .down) s.f.out s.f.state :=
  (inv_run (inv_init c now p mtu running) h).path

/-- C119: a face is closed for inactivity only when no packet was delivered during the last `T`. -/
theorem C119_idle (c : Cfg) (now : Nat) (p : Persist) (mtu : Nat) (running : Bool) (es : List Event) (s : Sys)
    (h : run c (start c now p mtu running) es = .ok s) (before after : List Out) (t : Nat) (ho : s.f.out = before ++ .idle t :: after)
    (b : Bytes) (e : Option Bytes) (u : Nat) (hb : .deliver b e u ∈ before) : u + c.T ≤ t :=
  (inv_run (inv_init c now p mtu running) h).idle.idle before t after ho b e u hb

/-- C119: what a face sends are the frames of the packets that it is given, from this host to its peer or group. -/
theorem C119_frame (c : Cfg) (now : Nat) (p : Persist) (mtu : Nat) (running : Bool) (es : List Event) (s : Sys)
    (h : run c (start c now p mtu running) es = .ok s) (q b : Bytes) (hb : .sent q (some b) ∈ s.f.out) : IsFrame c.loc c.rem q b := by
  rw [(inv_run (inv_init c now p mtu running) h).sent q b hb]
  exact isFrame_frame _ _ _

/-- C119: a packet that is given to a face in UP or DOWN goes out at once, if libpcap can send it. -/
theorem C119_send (c : Cfg) (hr : c.debug = false) (now : Nat) (p : Persist) (mtu : Nat) (running : Bool) (es : List Event) (s : Sys)
    (h : run c (start c now p mtu running) es = .ok s) (hs : s.f.state = .up ∨ s.f.state = .down) (q : Bytes) :
    ∃ s' b, step c s (.act (.send q true)) = .ok s' ∧ IsFrame c.loc c.rem q b ∧ s'.f.state = s.f.state ∧
      s'.f.out = s.f.out ++ (if s.f.state = .up then [.counted q] else []) ++ [.sent q (some b)] := by
  have hl := (inv_run (inv_init c now p mtu running) h).phase.live hs
  have hne : ¬ (s.f.state ≠ .up ∧ s.f.state ≠ .down) := fun hh => not_live_state hh hl
  refine ⟨⟨s.now, { s.f with out := s.f.out ++ (if s.f.state = .up then [.counted q] else []) ++ [.sent q (some (frame c.loc c.rem q))] }⟩,
    frame c.loc c.rem q, ?_, isFrame_frame _ _ _, rfl, rfl⟩
  have : send c s.f q true =
      .ok { s.f with out := s.f.out ++ (if s.f.state = .up then [.counted q] else []) ++ [.sent q (some (frame c.loc c.rem q))] } := by
    unfold send
    rw [if_neg (by rw [hr]; simp), if_neg hne]
    dsimp only
    rcases hs with hs | hs
    · simp [hs, emit, hl.pcap]
    · simp [hs, emit, hl.pcap]
  unfold step
  simp only [faceStep]
  rw [if_neg (by rcases hs with hs | hs <;> rw [hs] <;> decide)]
  show (act c s.f (.send q true) >>= _) = _
  rw [show act c s.f (.send q true) = _ from this]
  rfl

/-! Faults -/

theorem run_error {s : Sys} {e : Fault} : ∀ {es : List Event}, run c s es = .error e →
    ∃ pre x post s', es = pre ++ x :: post ∧ run c s pre = .ok s' ∧ faceStep c s'.now s'.f x = .error e := by
  intro es
  induction es generalizing s with
  | nil => intro h; cases h
  | cons x es ih =>
    intro h
    have h : (step c s x >>= fun s => run c s es) = .error e := h
    cases hs : step c s x with
    | ok a =>
      rw [hs] at h
      obtain ⟨pre, y, post, s', h1, h2, h3⟩ := ih h
      refine ⟨x :: pre, y, post, s', by rw [h1]; rfl, ?_, h3⟩
      show (step c s x >>= fun s => run c s pre) = _
      rw [hs]; exact h2
    | error a =>
      rw [hs] at h
      cases h
      refine ⟨[], x, es, s, rfl, rfl, ?_⟩
      unfold step at hs
      cases hf : faceStep c s.now s.f x with
      | ok f => rw [hf] at hs; cases hs
      | error y => rw [hf] at hs; cases hs; rfl

/-- C119: in a release build the only thing that can go wrong is that libpcap is used after it is closed. No transition is invalid, and nothing uses
a deallocated face. -/
theorem C119_faults (c : Cfg) (hr : c.debug = false) (now : Nat) (p : Persist) (mtu : Nat) (running : Bool) (es : List Event) (e : Fault)
    (h : run c (start c now p mtu running) es = .error e) : e = .nullPcap := by
  obtain ⟨pre, x, _, s, _, h2, h3⟩ := run_error h
  have := step_phase (c := c) (now := s.now) (inv_run (inv_init c now p mtu running) h2).phase x
  rw [h3] at this
  rcases this with ⟨h, _⟩ | ⟨h, _⟩
  · rw [hr] at h; cases h
  · exact h

theorem noOk_run {es : List Event} (ha : ∀ e ∈ es, AtOnce e) : ∀ {s s' : Sys}, ¬ HasOk s.f → run c s es = .ok s' → ¬ HasOk s'.f := by
  induction es with
  | nil => intro s s' h hr; cases hr; exact h
  | cons e es ih =>
    intro s s' h hr
    obtain ⟨a, h1, h2⟩ := bind_ok hr
    refine ih (fun x hx => ha x (List.mem_cons_of_mem _ hx)) ?_ h2
    rintro ⟨p, d, hm⟩
    have he := ha e List.mem_cons_self
    rcases step_q (step_ok h1).1 p d hm with hh | ⟨w, rfl, _⟩ | ⟨rfl, _⟩
    · exact h ⟨p, d, hh⟩
    · cases he
    · cases he

/-- C119 (proved part): in a release build, if the event loop handles the completion of a wait at once, nothing goes wrong, whatever happens. -/
theorem C119_safe_partial (c : Cfg) (hr : c.debug = false) (now : Nat) (p : Persist) (mtu : Nat) (running : Bool) (es : List Event)
    (ha : ∀ e ∈ es, AtOnce e) : ∃ s, run c (start c now p mtu running) es = .ok s := by
  cases h : run c (start c now p mtu running) es with
  | ok s => exact ⟨s, rfl⟩
  | error e =>
    exfalso
    obtain ⟨pre, x, post, s, h1, h2, h3⟩ := run_error h
    have := step_phase (c := c) (now := s.now) (inv_run (inv_init c now p mtu running) h2).phase x
    rw [h3] at this
    have hno : ¬ HasOk s.f := by
      refine noOk_run (es := pre) (fun y hy => ha y (by rw [h1]; exact List.mem_append_left _ hy)) ?_ h2
      rintro ⟨q, d, hm⟩
      have hq : (newFace c now p mtu running).q = [] := by
        unfold newFace scheduleIdle; dsimp only; split <;> rfl
      have hm : Handler.readOk q d ∈ (newFace c now p mtu running).q := hm
      rw [hq] at hm; cases hm
    rcases this with ⟨h, _⟩ | ⟨_, h | h⟩
    · rw [hr] at h; cases h
    · rw [hr] at h; cases h
    · exact hno h

/-! Example data -/

namespace Ex

/-- 02:00:00:00:00:01, 02:00:00:00:00:02 and the group 01:00:5e:00:17:aa -/
def a : Addr := ⟨[2, 0, 0, 0, 0, 1], rfl⟩
def b : Addr := ⟨[2, 0, 0, 0, 0, 2], rfl⟩
def g : Addr := ⟨[1, 0, 0x5e, 0, 0x17, 0xaa], rfl⟩

/-- An Interest for /A. -/
def pkt : Bytes := [5, 11, 7, 3, 8, 1, 65, 10, 4, 0, 0, 0, 1]

def cfgA : Cfg := ⟨false, a, b, 10⟩
def cfgB : Cfg := ⟨false, b, a, 10⟩
def cfgG : Cfg := ⟨false, b, g, 0⟩

def fromA : Wire := ⟨false, frame a b pkt⟩
def toGroup : Wire := ⟨false, frame a g pkt⟩

/-- The result of a run satisfies a test. -/
def ok (r : Except Fault Sys) (t : Sys → Bool) : Bool :=
  match r with
  | .ok s => t s
  | .error _ => false

def faultOf (r : Except Fault Sys) : Option Fault :=
  match r with
  | .ok _ => none
  | .error e => some e

end Ex

open Ex in
/-- C119: libpcap is used after it is closed: a frame has arrived, and before its handler runs, the face is closed. -/
theorem C119_null_pcap : run cfgB (start cfgB 0 .persistent 1500 true) [.wire fromA [] false, .act .close, .next] = .error .nullPcap := by
  have h : faultOf (run cfgB (start cfgB 0 .persistent 1500 true) [.wire fromA [] false, .act .close, .next]) = some .nullPcap := by decide +kernel
  cases hr : run cfgB (start cfgB 0 .persistent 1500 true) [.wire fromA [] false, .act .close, .next] with
  | ok s => rw [hr] at h; cases h
  | error e => rw [hr] at h; cases h; rfl

open Ex in
/-- C119: in a debug build libpcap is used after it is closed when the answer to a packet cannot be sent. -/
theorem C119_debug_crash :
    run { cfgB with debug := true } (start cfgB 0 .persistent 1500 true) [.wire fromA [.send pkt false] true] = .error .nullPcap := by
  have h : faultOf (run { cfgB with debug := true } (start cfgB 0 .persistent 1500 true) [.wire fromA [.send pkt false] true]) = some .nullPcap := by
    decide +kernel
  cases hr : run { cfgB with debug := true } (start cfgB 0 .persistent 1500 true) [.wire fromA [.send pkt false] true] with
  | ok s => rw [hr] at h; cases h
  | error e => rw [hr] at h; cases h; rfl

/-! The hypotheses of the theorems above are met -/

open Ex in
/-- C119_who, C119_link: a frame from a to b reaches the face of b with peer a, not the one of a, and not the group. -/
example : IsFrame a b pkt fromA.octets ∧ passes b a fromA = true ∧ passes a b fromA = false ∧ passes b g fromA = false :=
  ⟨isFrame_frame _ _ _, by decide +kernel, by decide +kernel, by decide +kernel⟩

open Ex in
/-- C119_link: the packet is an element and is short. A frame to the group is delivered with the sender. -/
example : (parseBlock pkt).isSome = true ∧ pkt.length ≤ 8800 ∧ passes b g toGroup = true ∧
    ok (run cfgG (start cfgG 7 .permanent 1500 true) [.wire toGroup [] true])
      (fun s => decide (s.f.out = [.got toGroup.octets, .deliver pkt (some a.1) 7])) = true :=
  ⟨by decide +kernel, by decide +kernel, by decide +kernel, by decide +kernel⟩

open Ex in
/-- C119_delivery, C119_source, C119_path, C119_frame: a run with two frames, of which one is for another host, a dispatched payload, an answer, a
change of the interface, and the end of the face. -/
example : ok (run cfgB (start cfgB 0 .persistent 1500 true)
      [.wire fromA [.send pkt true] false, .next, .wire toGroup [] true, .dispatch (pkt ++ [0]) a.1 [], .netif false, .act (.send pkt false), .next, .next])
    (fun s => decide (s.f.state = .closed ∧ s.f.out =
      [.got fromA.octets, .deliver pkt none 0, .counted pkt, .sent pkt (some (frame b a pkt)), .dispatched (pkt ++ [0]) a.1, .deliver pkt none 0,
        .state .up .down, .sent pkt none, .state .down .failed, .state .failed .closed])) = true := by decide +kernel

open Ex in
/-- C119_idle: a packet arrives at 5, and the face is closed for inactivity at 20. -/
example : ok (run cfgB (start cfgB 0 .onDemand 1500 true) [.tick 5, .wire fromA [] true, .tick 5, .timer, .tick 10, .timer])
    (fun s => decide (s.f.state = .closing ∧ s.f.out =
      [.onDemand 0, .got fromA.octets, .deliver pkt none 5, .idle 20, .state .up .closing])) = true := by decide +kernel

open Ex in
/-- C119_send: a face whose interface is not running sends, but does not count. -/
example : ok (run cfgB (start cfgB 0 .persistent 1500 false) [.act (.send pkt true)])
    (fun s => decide (s.f.state = .down ∧ s.f.out = [.sent pkt (some (frame b a pkt))])) = true := by decide +kernel

open Ex in
/-- C119_safe_partial: a face that is closed while it processes a packet. -/
example : (∀ e ∈ [Event.wire fromA [.close, .send pkt true] true, .next, .next, .next], AtOnce e) ∧
    ok (run cfgB (start cfgB 0 .persistent 1500 true) [.wire fromA [.close, .send pkt true] true, .next, .next, .next])
      (fun s => decide (s.f.state = .closed ∧ s.f.dead = true)) = true := by
  refine ⟨?_, by decide +kernel⟩
  intro e he
  simp only [List.mem_cons, List.not_mem_nil, or_false] at he
  rcases he with rfl | rfl | rfl | rfl <;> simp [AtOnce]

end Verif.Et
