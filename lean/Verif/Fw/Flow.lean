import Verif.Fw.Inv
import Verif.Fw.Spec

/-
Flow balance: a potential that bounds the packets returned to a face by the Interests received from it.
-/
namespace Verif.Fw

open Tb (FaceId Time FwInterest InRec OutRec PitEntry NextHop)

variable {env : Env}

/-! ### Sums -/

theorem sum_map_le {α : Type} {f g : α → Nat} {l : List α} (h : ∀ a ∈ l, f a ≤ g a) : (l.map f).sum ≤ (l.map g).sum := by
  induction l with
  | nil => simp
  | cons a l ih =>
    simp only [List.map_cons, List.sum_cons]
    have := h a (List.mem_cons_self ..)
    have := ih (fun b hb => h b (List.mem_cons_of_mem _ hb))
    omega

theorem sum_map_lt {α : Type} {f g : α → Nat} {l : List α} (h : ∀ a ∈ l, f a ≤ g a) {a : α} (ha : a ∈ l) (hlt : f a < g a) :
    (l.map f).sum + 1 ≤ (l.map g).sum := by
  induction l with
  | nil => simp at ha
  | cons b l ih =>
    simp only [List.map_cons, List.sum_cons]
    have h1 := h b (List.mem_cons_self ..)
    have h2 := sum_map_le (l := l) (f := f) (g := g) (fun b hb => h b (List.mem_cons_of_mem _ hb))
    rcases List.mem_cons.1 ha with rfl | ha
    · omega
    · have := ih (fun b hb => h b (List.mem_cons_of_mem _ hb)) ha
      omega

theorem le_sum_map {α : Type} {f : α → Nat} {l : List α} {a : α} (ha : a ∈ l) : f a ≤ (l.map f).sum := by
  induction l with
  | nil => simp at ha
  | cons b l ih =>
    simp only [List.map_cons, List.sum_cons]
    rcases List.mem_cons.1 ha with rfl | ha
    · omega
    · have := ih ha; omega

theorem sum_split {α : Type} (f : α → Nat) (p : α → Bool) (l : List α) :
    (l.map f).sum = ((l.filter p).map f).sum + ((l.filter (fun a => !p a)).map f).sum := by
  induction l with
  | nil => rfl
  | cons a l ih =>
    cases hp : p a <;> simp [hp, ih] <;> omega

/-! ### Pending Interests of one face -/

/-- In-records of face `g` in one entry. -/
def cntIn (g : FaceId) (e : Ent) : Nat := e.ins.countP (fun r => r.face == g)

/-- In-records of face `g` in the PIT. -/
def total (g : FaceId) (s : St) : Nat := (s.pit.map (cntIn g)).sum

/-- `b`'s PIT arises from `a`'s by editing entries in place, never adding an in-record of `g`. -/
def Shrinks (g : FaceId) (a b : St) : Prop :=
  ∃ f : Ent → Ent, b.pit = a.pit.map f ∧ (∀ e, (f e).uid = e.uid) ∧ ∀ e, cntIn g (f e) ≤ cntIn g e

theorem Shrinks.refl (g : FaceId) (a : St) : Shrinks g a a := ⟨id, by simp, fun _ => rfl, fun _ => Nat.le_refl _⟩

theorem Shrinks.of_pit {g : FaceId} {a b : St} (h : b.pit = a.pit) : Shrinks g a b := ⟨id, by simp [h], fun _ => rfl, fun _ => Nat.le_refl _⟩

theorem Shrinks.trans {g : FaceId} {a b c : St} (h : Shrinks g a b) (h' : Shrinks g b c) : Shrinks g a c := by
  obtain ⟨f, h1, h2, h3⟩ := h
  obtain ⟨f', h1', h2', h3'⟩ := h'
  refine ⟨f' ∘ f, by rw [h1', h1, List.map_map], fun e => ?_, fun e => ?_⟩
  · simp only [Function.comp]; rw [h2', h2]
  · simp only [Function.comp]; exact Nat.le_trans (h3' _) (h3 _)

theorem Shrinks.total_le {g : FaceId} {a b : St} (h : Shrinks g a b) : total g b ≤ total g a := by
  obtain ⟨f, h1, -, h3⟩ := h
  unfold total
  rw [h1, List.map_map]
  exact sum_map_le (fun e _ => h3 e)

theorem shrinks_mod {g : FaceId} {s s' : St} {u : Nat} {f : Ent → Ent} (hp : s'.pit = (s.mod u f).pit)
    (hu : ∀ e, (f e).uid = e.uid) (hc : ∀ e, cntIn g (f e) ≤ cntIn g e) : Shrinks g s s' := by
  refine ⟨fun e => if e.uid = u then f e else e, by rw [hp]; rfl, fun e => ?_, fun e => ?_⟩
  · show (if e.uid = u then f e else e).uid = e.uid
    split
    · exact hu e
    · rfl
  · show cntIn g (if e.uid = u then f e else e) ≤ cntIn g e
    split
    · exact hc e
    · exact Nat.le_refl _

theorem cntIn_deleteIn (g h : FaceId) (e : Ent) : cntIn g { e with toPitEntry := Tb.deleteIn e.toPitEntry h } ≤ cntIn g e :=
  List.Sublist.countP_le List.eraseP_sublist

theorem shrinks_timer (g : FaceId) (s : St) (u ms : Nat) : Shrinks g s (setExpiryTimer s u ms) := by
  unfold setExpiryTimer
  split
  · exact .refl ..
  · exact shrinks_mod (u := u) (f := fun e => { e with timer := some s.nextTimer }) rfl (fun _ => rfl) (fun _ => Nat.le_refl _)

theorem shrinks_interest (g : FaceId) (s : St) (u : Nat) (i : FwInterest) (h : FaceId) : Shrinks g s (onOutgoingInterest s u i h) := by
  unfold onOutgoingInterest
  split
  · split
    · exact .refl ..
    · exact shrinks_mod (u := u) (f := fun e => { e with toPitEntry := Tb.insertOrUpdateOut e.toPitEntry h i s.now }) rfl
        (fun _ => rfl) (fun _ => Nat.le_refl _)
  · exact .refl ..

theorem shrinks_nack (g : FaceId) (s : St) (u r : Nat) (h : FaceId) : Shrinks g s (onOutgoingNack s u r h) := by
  unfold onOutgoingNack
  split
  · exact .refl ..
  · split
    · exact .refl ..
    · split
      · exact .refl ..
      · exact shrinks_mod (u := u) (f := fun e => { e with toPitEntry := Tb.deleteIn e.toPitEntry h }) rfl
          (fun _ => rfl) (fun e => cntIn_deleteIn g h e)

theorem pit_outgoingData (s : St) (d : Data) (h : FaceId) : (onOutgoingData s d h).pit = s.pit := by
  unfold onOutgoingData
  split
  · rfl
  · split <;> rfl

theorem shrinks_dnl (g : FaceId) (s : St) (u : Nat) (f : Option FaceId) : Shrinks g s (insertDeadNonceList env s u f) := by
  obtain ⟨d, h⟩ := dnl_eq (env := env) s u f
  rw [h]
  exact .of_pit rfl

/-! ### Packets returned to one face -/

def cnt (nk : Bool) (g : FaceId) (s : St) : Nat := s.sent.countP (returned nk g)

theorem cnt_congr {nk : Bool} {g : FaceId} {a b : St} (h : b.sent = a.sent) : cnt nk g b = cnt nk g a := by unfold cnt; rw [h]

theorem cnt_timer (nk : Bool) (g : FaceId) (s : St) (u ms : Nat) : cnt nk g (setExpiryTimer s u ms) = cnt nk g s := by
  apply cnt_congr; unfold setExpiryTimer; split <;> rfl

theorem cnt_interest (nk : Bool) (g : FaceId) (s : St) (u : Nat) (i : FwInterest) (h : FaceId) :
    cnt nk g (onOutgoingInterest s u i h) = cnt nk g s := by
  unfold onOutgoingInterest
  split
  · split
    · rfl
    · simp [cnt, returned]
  · rfl

theorem cnt_nackPkt (nk : Bool) (g : FaceId) (s : St) (i : FwInterest) (r : Nat) (h : FaceId) :
    cnt nk g (sendNackPacket s i r h) ≤ cnt nk g s + (if nk = true ∧ h = g then 1 else 0) := by
  unfold sendNackPacket
  split
  · exact Nat.le_add_right _ _
  · simp [cnt, returned, List.countP_append, List.countP_cons]

theorem cnt_data (nk : Bool) (g : FaceId) (s : St) (d : Data) (h : FaceId) :
    cnt nk g (onOutgoingData s d h) ≤ cnt nk g s + (if h = g then 1 else 0) := by
  unfold onOutgoingData
  split
  · exact Nat.le_add_right _ _
  · split
    · exact Nat.le_add_right _ _
    · simp [cnt, returned, List.countP_append, List.countP_cons]

theorem cnt_dnl (nk : Bool) (g : FaceId) (s : St) (u : Nat) (f : Option FaceId) :
    cnt nk g (insertDeadNonceList env s u f) = cnt nk g s := by
  obtain ⟨d, h⟩ := dnl_eq (env := env) s u f
  rw [h]
  exact cnt_congr rfl

/-- Removing `g`'s in-record from an entry that has one. -/
theorem total_deleteIn {g : FaceId} {s s' : St} {u : Nat} (hp : s'.pit = (s.mod u (fun e => { e with toPitEntry := Tb.deleteIn e.toPitEntry g })).pit)
    {e : Ent} (hf : s.find u = some e) {r : InRec} (hr : r ∈ e.ins) (hg : r.face = g) : total g s' + 1 ≤ total g s := by
  obtain ⟨he, hu⟩ := find_some hf
  unfold total
  rw [hp]
  show ((s.pit.map _).map (cntIn g)).sum + 1 ≤ _
  rw [List.map_map]
  refine sum_map_lt (a := e) ?_ he ?_
  · intro a _
    simp only [Function.comp]
    split
    · exact cntIn_deleteIn g g a
    · exact Nat.le_refl _
  · simp only [Function.comp, if_pos hu]
    have hlen : ((e.ins.eraseP (fun r => r.face == g)).countP (fun r => r.face == g)) + 1 = e.ins.countP (fun r => r.face == g) := by
      obtain ⟨a, l1, l2, h1, h2, h3, h4⟩ := List.exists_of_eraseP (p := fun r : InRec => r.face == g) hr (by simpa using hg)
      rw [h4, h3, List.countP_append, List.countP_append, List.countP_cons_of_pos (p := fun r : InRec => r.face == g) h2]
      omega
    show ((e.ins.eraseP (fun r => r.face == g)).countP (fun r => r.face == g)) < _
    unfold cntIn
    omega

/-- Either nothing happens, or the in-record of a point-to-point face is turned into a Nack. -/
theorem outgoingNack_cases (s : St) (u r : Nat) (h : FaceId) :
    onOutgoingNack s u r h = s ∨ ∃ fi e rec, s.faces h = some fi ∧ fi.link = .p2p ∧ s.find u = some e ∧ rec ∈ e.ins ∧ rec.face = h ∧
      (onOutgoingNack s u r h).pit = (s.mod u (fun e => { e with toPitEntry := Tb.deleteIn e.toPitEntry h })).pit ∧
      (onOutgoingNack s u r h).sent = s.sent ++ [.nack h rec.interest r] := by
  unfold onOutgoingNack
  split
  · exact Or.inl rfl
  · rename_i fi hfi
    split
    · exact Or.inl rfl
    · rename_i rec hrec
      split
      · exact Or.inl rfl
      · rename_i hl
        rw [Option.bind_eq_some_iff] at hrec
        obtain ⟨e, he, hr⟩ := hrec
        exact Or.inr ⟨fi, e, rec, hfi, Decidable.of_not_not hl, he, List.mem_of_find?_eq_some hr, by simpa using List.find?_some hr, rfl, rfl⟩

theorem flow_nack (nk : Bool) (g : FaceId) (s : St) (u r : Nat) (h : FaceId) :
    cnt nk g (onOutgoingNack s u r h) + total g (onOutgoingNack s u r h) ≤ cnt nk g s + total g s := by
  have hsh := (shrinks_nack g s u r h).total_le
  rcases outgoingNack_cases s u r h with he | ⟨fi, e, rec, -, -, he, hr, hf, hp, hs⟩
  · rw [he]; exact Nat.le_refl _
  · have hc : cnt nk g (onOutgoingNack s u r h) ≤ cnt nk g s + (if h = g then 1 else 0) := by
      unfold cnt
      rw [hs]
      simp only [List.countP_append, List.countP_cons, List.countP_nil, returned, Bool.and_eq_true, beq_iff_eq]
      split <;> split <;> simp_all
    by_cases hg : h = g
    · subst hg
      have := total_deleteIn hp he hr hf
      simp only [if_true] at hc
      omega
    · simp only [if_neg hg] at hc
      omega

/-! ### Strategies that leave Data to the default handling -/

theorem flow_act {nk : Bool} {g : FaceId} {s s' : St} {a : Action} (hq : Quiet a = true) (h : act s a = some s') :
    cnt nk g s' + total g s' ≤ cnt nk g s + total g s := by
  cases a with
  | sendInterest u i f =>
    cases h
    rw [cnt_interest]
    exact Nat.add_le_add_left (shrinks_interest ..).total_le _
  | sendNack u r f => cases h; exact flow_nack ..
  | setExpiryTimer u ms =>
    cases h
    rw [cnt_timer]
    exact Nat.add_le_add_left (shrinks_timer ..).total_le _
  | _ => simp [Quiet] at hq

theorem flow_acts {nk : Bool} {g : FaceId} : ∀ {l : List Action} {s s' : St}, (∀ a ∈ l, Quiet a = true) → acts s l = some s' →
    cnt nk g s' + total g s' ≤ cnt nk g s + total g s
  | [], s, s', _, h => by cases h; exact Nat.le_refl _
  | a :: l, s, s', hq, h => by
    simp only [acts, Option.bind_eq_some_iff] at h
    obtain ⟨s1, h1, h2⟩ := h
    exact Nat.le_trans (flow_acts (fun b hb => hq b (List.mem_cons_of_mem _ hb)) h2) (flow_act (hq a (List.mem_cons_self ..)) h1)

theorem silent_act {nk : Bool} {g : FaceId} {s s' : St} {a : Action} (hq : Silent nk a = true) (h : act s a = some s') :
    cnt nk g s' = cnt nk g s ∧ Shrinks g s s' := by
  cases a with
  | sendInterest u i f => cases h; exact ⟨cnt_interest .., shrinks_interest ..⟩
  | sendNack u r f =>
    cases h
    refine ⟨?_, shrinks_nack ..⟩
    have hk : nk = false := by simpa [Silent] using hq
    subst hk
    unfold onOutgoingNack
    split
    · rfl
    · split
      · rfl
      · split
        · rfl
        · simp [cnt, returned]
  | setExpiryTimer u ms => cases h; exact ⟨cnt_timer .., shrinks_timer ..⟩
  | _ => simp [Silent] at hq

theorem silent_acts {nk : Bool} {g : FaceId} : ∀ {l : List Action} {s s' : St}, (∀ a ∈ l, Silent nk a = true) → acts s l = some s' →
    cnt nk g s' = cnt nk g s ∧ Shrinks g s s'
  | [], s, s', _, h => by cases h; exact ⟨rfl, .refl ..⟩
  | a :: l, s, s', hq, h => by
    simp only [acts, Option.bind_eq_some_iff] at h
    obtain ⟨s1, h1, h2⟩ := h
    have i1 := silent_act (g := g) (hq a (List.mem_cons_self ..)) h1
    have i2 := silent_acts (g := g) (fun b hb => hq b (List.mem_cons_of_mem _ hb)) h2
    exact ⟨i2.1.trans i1.1, i1.2.trans i2.2⟩

theorem call_flow {nk : Bool} {g : FaceId} {st : Strategy} {s s' : St} {t : Trigger} (hq : ∀ a ∈ st s t, Quiet a = true)
    (h : call st s t = some s') : cnt nk g s' + total g s' ≤ cnt nk g s + total g s :=
  flow_acts (s := { s with calls := s.calls ++ [t] }) hq h

/-! ### Data pipelines -/

theorem flow_sendData {nk : Bool} {g : FaceId} {s s' : St} {u : Nat} {d : Data} {h : FaceId} (hs : sendData s u d h = some s') :
    cnt nk g s' ≤ cnt nk g s + (if h = g then 1 else 0) ∧ Shrinks g s s' := by
  unfold sendData at hs
  split at hs
  · cases hs; exact ⟨Nat.le_add_right _ _, .refl ..⟩
  · split at hs
    · cases hs
      refine ⟨?_, ?_⟩
      · refine Nat.le_trans (cnt_data ..) ?_
        exact Nat.le_refl _
      · refine shrinks_mod (u := u) (f := fun e => { e with toPitEntry := Tb.deleteIn e.toPitEntry h }) (pit_outgoingData ..)
          (fun _ => rfl) (fun e => cntIn_deleteIn g h e)
    · cases hs

theorem find_sendData {s s' : St} {u : Nat} {d : Data} {h : FaceId} (hs : sendData s u d h = some s') :
    s'.find u = (s.find u).map (fun e => { e with toPitEntry := Tb.deleteIn e.toPitEntry h }) := by
  unfold sendData at hs
  split at hs
  · rename_i hn
    cases hs; rw [hn]; rfl
  · split at hs
    · cases hs
      unfold St.find
      rw [pit_outgoingData]
      exact mod_find_self (by exact fun _ => rfl)
    · cases hs

theorem flow_sendDataList {nk : Bool} {g : FaceId} {u : Nat} {d : Data} : ∀ {l : List FaceId} {s s' : St}, l.Nodup →
    (∀ h ∈ l, ∃ e, s.find u = some e ∧ ∃ r ∈ e.ins, r.face = h) → sendDataList u d s l = some s' →
    cnt nk g s' + total g s' ≤ cnt nk g s + total g s
  | [], s, s', _, _, h => by cases h; exact Nat.le_refl _
  | f :: l, s, s', hn, hm, h => by
    simp only [sendDataList, Option.bind_eq_some_iff] at h
    obtain ⟨s1, h1, h2⟩ := h
    rw [List.nodup_cons] at hn
    have hrest := flow_sendDataList (nk := nk) (g := g) hn.2 (s := s1) (s' := s') (by
      intro h' hh'
      obtain ⟨e, he, r, hr, hf⟩ := hm h' (List.mem_cons_of_mem _ hh')
      refine ⟨_, by rw [find_sendData h1, he]; rfl, r, mem_deleteIn_of hr ?_, hf⟩
      rintro rfl
      exact hn.1 (hf ▸ hh')) h2
    refine Nat.le_trans hrest ?_
    obtain ⟨hc, hsh⟩ := flow_sendData (nk := nk) (g := g) h1
    by_cases hfg : f = g
    · subst hfg
      obtain ⟨e, he, r, hr, hf⟩ := hm f (List.mem_cons_self ..)
      have : total f s1 + 1 ≤ total f s := by
        unfold sendData at h1
        rw [he] at h1
        simp only at h1
        split at h1
        · cases h1
          exact total_deleteIn (pit_outgoingData ..) he hr hf
        · cases h1
      simp only [if_true] at hc
      omega
    · have := hsh.total_le
      simp only [if_neg hfg] at hc
      omega

theorem nodup_eraseDups (l : List FaceId) : l.eraseDups.Nodup := by
  induction h : l.length using Nat.strongRecOn generalizing l with
  | _ n ih =>
    cases l with
    | nil => simp
    | cons a l =>
      rw [List.eraseDups_cons, List.nodup_cons]
      refine ⟨?_, ih _ ?_ _ rfl⟩
      · rw [List.mem_eraseDups, List.mem_filter]
        simp
      · rw [← h]
        exact Nat.lt_succ_of_le (List.length_filter_le ..)

theorem mem_eraseDups {l : List FaceId} {a : FaceId} : a ∈ l.eraseDups ↔ a ∈ l := List.mem_eraseDups

theorem flow_sendDataToAll {nk : Bool} {g : FaceId} {s s' : St} {u : Nat} {d : Data} {f : FaceId}
    (h : sendDataToAll s u d f = some s') : cnt nk g s' + total g s' ≤ cnt nk g s + total g s := by
  unfold sendDataToAll at h
  split at h
  · cases h; exact Nat.le_refl _
  · rename_i e he
    refine flow_sendDataList (nodup_eraseDups _) ?_ h
    intro x hx
    unfold pendingDownstreams at hx
    rw [mem_eraseDups, List.mem_map] at hx
    obtain ⟨r, hr, hf⟩ := hx
    exact ⟨e, he, r, (List.mem_filter.1 hr).1, hf⟩

theorem acts_append {s : St} : ∀ {l l' : List Action}, acts s (l ++ l') = (acts s l).bind (fun s => acts s l') := by
  intro l
  induction l generalizing s with
  | nil => intro l'; rfl
  | cons a l ih =>
    intro l'
    simp only [List.cons_append, acts]
    cases act s a with
    | none => rfl
    | some s1 => simp only [Option.bind_some]; exact ih

theorem flow_one {nk : Bool} {g : FaceId} {st : Strategy} (hd : DefaultData nk st) {s s' : St} {d : Data} {f : FaceId} {u : Nat}
    (h : satisfyOne env st s d f u = some s') : cnt nk g s' + total g s' ≤ cnt nk g s + total g s := by
  unfold satisfyOne at h
  rw [Option.map_eq_some_iff] at h
  obtain ⟨s1, h1, rfl⟩ := h
  have ht : cnt nk g (setExpiryTimer s u 0) + total g (setExpiryTimer s u 0) ≤ cnt nk g s + total g s := by
    rw [cnt_timer]; exact Nat.add_le_add_left (shrinks_timer ..).total_le _
  have h2 : cnt nk g s1 + total g s1 ≤ cnt nk g (setExpiryTimer s u 0) + total g (setExpiryTimer s u 0) := by
    obtain ⟨pre, hpre, hq⟩ := hd (setExpiryTimer s u 0) (.afterReceiveData d f u)
    unfold call at h1
    rw [hpre, acts_append, Option.bind_eq_some_iff] at h1
    obtain ⟨s2, h2, h3⟩ := h1
    have i1 := flow_acts (nk := nk) (g := g) hq h2
    simp only [acts, act, Option.bind_fun_some] at h3
    have i2 := flow_sendDataToAll (nk := nk) (g := g) h3
    exact Nat.le_trans i2 i1
  have h3 : cnt nk g (satisfyEntry env s1 d f u) + total g (satisfyEntry env s1 d f u) ≤ cnt nk g s1 + total g s1 := by
    unfold satisfyEntry
    have a1 : Shrinks g s1 (s1.mod u (fun e => { e with satisfied := true, freshness := d.freshness })) :=
      shrinks_mod (u := u) rfl (by exact fun _ => rfl) (by exact fun _ => Nat.le_refl _)
    have a2 := shrinks_dnl (env := env) g (s1.mod u (fun e => { e with satisfied := true, freshness := d.freshness })) u (some f)
    have a3 : Shrinks g _ ((insertDeadNonceList env (s1.mod u (fun e => { e with satisfied := true, freshness := d.freshness })) u
        (some f)).mod u (fun e => { e with toPitEntry := Tb.deleteOut e.toPitEntry f })) :=
      shrinks_mod (u := u) rfl (by exact fun _ => rfl) (by exact fun _ => Nat.le_refl _)
    refine Nat.add_le_add (Nat.le_of_eq ?_) ((a1.trans a2).trans a3).total_le
    exact (cnt_congr rfl).trans ((cnt_dnl ..).trans (cnt_congr rfl))
  omega

/-- Potential of the loop over several entries: the face will get at most one Data. -/
theorem flow_step {nk : Bool} {g : FaceId} {st : Strategy} (hd : DefaultData nk st) {s : St} {d : Data} {f : FaceId} {u : Nat}
    {acc : List FaceId} {r : St × List FaceId} (h : satisfyStep env st s d f u acc = some r) :
    cnt nk g r.1 + total g r.1 + (if g ∈ r.2 then 1 else 0) ≤ cnt nk g s + total g s + (if g ∈ acc then 1 else 0) := by
  unfold satisfyStep at h
  rw [Option.map_eq_some_iff] at h
  obtain ⟨s1, h1, rfl⟩ := h
  simp only
  have hq := hd (setExpiryTimer s u 0) (.beforeSatisfyInterest d f u)
  simp only at hq
  obtain ⟨hc, hsh⟩ := silent_acts (g := g) hq h1
  have hc : cnt nk g s1 = cnt nk g s := hc.trans ((cnt_congr rfl).trans (cnt_timer ..))
  have hsh : Shrinks g s s1 := (shrinks_timer g s u 0).trans (Shrinks.trans (b := { setExpiryTimer s u 0 with calls := _ }) (.of_pit rfl) hsh)
  obtain ⟨φ, hφ, hφu, hφc⟩ := hsh
  -- the final state
  obtain ⟨dd, hdd⟩ := dnl_eq (env := env) (s1.mod u (fun e => { e with satisfied := true, freshness := d.freshness })) u (some f)
  rw [hdd]
  generalize hs2 : St.mod { s1.mod u (fun e => { e with satisfied := true, freshness := d.freshness }) with dnl := dd } u
    (fun e => { e with toPitEntry := Tb.deleteOut (Tb.clearIns e.toPitEntry) f }) = s2
  have hcnt : cnt nk g s2 = cnt nk g s := by rw [← hc, ← hs2]; rfl
  have hpit : s2.pit = s.pit.map (fun e => if e.uid = u then
      { φ e with toPitEntry := Tb.deleteOut (Tb.clearIns (φ e).toPitEntry) f, satisfied := true, freshness := d.freshness } else φ e) := by
    rw [← hs2]
    simp only [St.mod, hφ, List.map_map]
    apply List.map_congr_left
    intro e _
    simp only [Function.comp, hφu]
    by_cases hu : e.uid = u
    · simp only [if_pos hu, hφu]
    · simp only [if_neg hu, hφu]
  have htot : total g s2 ≤ ((s.pit.filter (fun e => !(e.uid == u))).map (cntIn g)).sum := by
    unfold total
    rw [hpit, List.map_map]
    rw [sum_split _ (fun e : Ent => e.uid == u)]
    have z : (List.map (cntIn g ∘ fun e : Ent => if e.uid = u then ({ φ e with toPitEntry := Tb.deleteOut (Tb.clearIns (φ e).toPitEntry) f, satisfied := true, freshness := d.freshness } : Ent) else φ e) (s.pit.filter (fun e => e.uid == u))).sum ≤ 0 := by
      refine Nat.le_trans (sum_map_le (g := fun _ => 0) ?_) ?_
      · intro a ha
        have : a.uid = u := by simpa using (List.mem_filter.1 ha).2
        simp only [Function.comp, if_pos this]
        exact Nat.le_refl _
      · generalize s.pit.filter (fun e => e.uid == u) = l
        induction l with
        | nil => simp
        | cons a l ih => simpa using ih
    have y := sum_map_le (l := s.pit.filter (fun e => !(e.uid == u))) (f := (cntIn g ∘ fun e : Ent => if e.uid = u then ({ φ e with toPitEntry := Tb.deleteOut (Tb.clearIns (φ e).toPitEntry) f, satisfied := true, freshness := d.freshness } : Ent) else φ e)) (g := cntIn g) (by
      intro a ha
      have : a.uid ≠ u := by simpa using (List.mem_filter.1 ha).2
      simp only [Function.comp, if_neg this]
      exact hφc a)
    omega
  have hsplit : total g s = _ := sum_split (cntIn g) (fun e : Ent => e.uid == u) s.pit
  rw [hcnt]
  by_cases hg : g ∈ acc
  · have : g ∈ acc ++ (((s.find u).map (fun e => (e.ins.filter (fun r => decide (s.now < r.expiry))).map (·.face))).getD []) :=
      List.mem_append_left _ hg
    rw [if_pos hg, if_pos this]
    omega
  · rw [if_neg hg]
    split
    · rename_i hin
      rcases List.mem_append.1 hin with hin | hin
      · exact absurd hin hg
      · cases hfu : s.find u with
        | none => rw [hfu] at hin; simp at hin
        | some e =>
          rw [hfu] at hin
          simp only [Option.map_some, Option.getD_some, List.mem_map] at hin
          obtain ⟨rec, hrec, hface⟩ := hin
          obtain ⟨he, hu⟩ := find_some hfu
          have h1 : 1 ≤ cntIn g e := by
            unfold cntIn
            exact List.countP_pos_iff.2 ⟨rec, (List.mem_filter.1 hrec).1, by simpa using hface⟩
          have h2 : cntIn g e ≤ ((s.pit.filter (fun e => e.uid == u)).map (cntIn g)).sum :=
            le_sum_map (List.mem_filter.2 ⟨he, by simpa using hu⟩)
          omega
    · omega

theorem flow_all {nk : Bool} {g : FaceId} {st : Strategy} (hd : DefaultData nk st) {d : Data} {f : FaceId} :
    ∀ {us : List Nat} {s : St} {acc : List FaceId} {r : St × List FaceId}, satisfyAll env st d f s us acc = some r →
    cnt nk g r.1 + total g r.1 + (if g ∈ r.2 then 1 else 0) ≤ cnt nk g s + total g s + (if g ∈ acc then 1 else 0)
  | [], s, acc, r, h => by cases h; exact Nat.le_refl _
  | u :: us, s, acc, r, h => by
    simp only [satisfyAll, Option.bind_eq_some_iff] at h
    obtain ⟨r1, h1, h2⟩ := h
    exact Nat.le_trans (flow_all hd h2) (flow_step hd h1)

theorem flow_dataList {nk : Bool} {g : FaceId} {d : Data} : ∀ {l : List FaceId} {s : St}, l.Nodup →
    cnt nk g (l.foldl (fun s g => onOutgoingData s d g) s) + total g (l.foldl (fun s g => onOutgoingData s d g) s) ≤
      cnt nk g s + total g s + (if g ∈ l then 1 else 0)
  | [], s, _ => by simp
  | h :: l, s, hn => by
    rw [List.nodup_cons] at hn
    simp only [List.foldl_cons]
    refine Nat.le_trans (flow_dataList hn.2) ?_
    have h1 := cnt_data nk g s d h
    have h2 : total g (onOutgoingData s d h) = total g s := by unfold total; rw [pit_outgoingData]
    rw [h2]
    by_cases hg : h = g
    · subst hg
      rw [if_neg hn.1, if_pos (List.mem_cons_self ..)]
      simp only [if_true] at h1
      omega
    · simp only [if_neg hg] at h1
      have : g ∈ h :: l ↔ g ∈ l := by
        rw [List.mem_cons]
        exact ⟨fun h => h.resolve_left (fun h => hg h.symm), Or.inr⟩
      simp only [this]
      omega

theorem flow_many {nk : Bool} {g : FaceId} {st : Strategy} (hd : DefaultData nk st) {s s' : St} {d : Data} {f : FaceId}
    {us : List Nat} (h : satisfyMany env st s d f us = some s') : cnt nk g s' + total g s' ≤ cnt nk g s + total g s := by
  unfold satisfyMany at h
  rw [Option.map_eq_some_iff] at h
  obtain ⟨r, h1, rfl⟩ := h
  have h2 := flow_all (g := g) hd h1
  have h3 := flow_dataList (nk := nk) (g := g) (d := d) (s := r.1) (l := r.2.eraseDups.filter (sendsBack r.1 f))
    (List.Nodup.sublist List.filter_sublist (nodup_eraseDups _))
  have h4 : (if g ∈ r.2.eraseDups.filter (sendsBack r.1 f) then 1 else 0) ≤ (if g ∈ r.2 then 1 else 0) := by
    split
    · rename_i hm
      rw [if_pos (mem_eraseDups.1 (List.mem_filter.1 hm).1)]
      exact Nat.le_refl _
    · exact Nat.zero_le _
  simp only [List.not_mem_nil, if_false] at h2
  omega

/-! ### Interest pipelines -/

theorem insert_total (g : FaceId) (s : St) (i : FwInterest) : total g (pitInsert s i).1 = total g s := by
  unfold pitInsert
  split
  · rfl
  · simp [total, cntIn]

theorem insert_cnt (nk : Bool) (g : FaceId) (s : St) (i : FwInterest) : cnt nk g (pitInsert s i).1 = cnt nk g s := by
  unfold pitInsert; split <;> rfl

theorem cntIn_insertIn (g f : FaceId) (p : PitEntry) (i : FwInterest) (now : Time) :
    (Tb.insertOrUpdateIn p f i now).ins.countP (fun r => r.face == g) ≤
      p.ins.countP (fun r => r.face == g) + (if f = g then 1 else 0) := by
  have h : ∀ l : List InRec, l.countP (fun r => r.face == g) = (l.map (·.face)).countP (fun x => x == g) := by
    intro l; rw [List.countP_map]; rfl
  rw [h, h, Tb.ins_faces]
  split
  · exact Nat.le_add_right _ _
  · rw [List.countP_cons]
    simp only [beq_iff_eq]
    exact Nat.le_refl _

theorem total_mod_le {g : FaceId} {s s' : St} (hn : (s.pit.map (·.uid)).Nodup) {u : Nat} {f : Ent → Ent} {k : Nat}
    (hp : s'.pit = (s.mod u f).pit) (hc : ∀ e, cntIn g (f e) ≤ cntIn g e + k) : total g s' ≤ total g s + k := by
  unfold total
  rw [hp]
  show ((s.pit.map _).map (cntIn g)).sum ≤ _
  rw [List.map_map]
  revert hn
  generalize s.pit = l
  intro hn
  induction l with
  | nil => simp
  | cons a l ih =>
    rw [List.map_cons, List.nodup_cons] at hn
    simp only [List.map_cons, List.sum_cons, Function.comp]
    by_cases ha : a.uid = u
    · rw [if_pos ha]
      have hrest : (l.map (cntIn g ∘ fun e => if e.uid = u then f e else e)).sum ≤ (l.map (cntIn g)).sum := by
        refine sum_map_le (fun e he => ?_)
        have : e.uid ≠ u := fun hc => hn.1 (by rw [ha, ← hc]; exact List.mem_map.2 ⟨e, he, rfl⟩)
        simp only [Function.comp, if_neg this]
        exact Nat.le_refl _
      have := hc a
      have hr : (l.map (cntIn g ∘ fun e => if e.uid = u then f e else e)).sum = (l.map (fun e => cntIn g (if e.uid = u then f e else e))).sum := rfl
      omega
    · rw [if_neg ha]
      have := ih hn.2
      have hr : (l.map (cntIn g ∘ fun e => if e.uid = u then f e else e)).sum = (l.map (fun e => cntIn g (if e.uid = u then f e else e))).sum := rfl
      omega

theorem flow_record {nk : Bool} {g : FaceId} {s : St} (hi : Inv s) (i : FwInterest) (f : FaceId) (c : Cs.Cs) (k : Counters) :
    cnt nk g (recordInterest { (pitInsert s i).1 with cs := c, ctr := k } i f (pitInsert s i).2.1.uid (pitInsert s i).2.2) +
      total g (recordInterest { (pitInsert s i).1 with cs := c, ctr := k } i f (pitInsert s i).2.1.uid (pitInsert s i).2.2) ≤
      cnt nk g s + total g s + (if f = g then 1 else 0) := by
  unfold recordInterest
  simp only
  rw [cnt_timer]
  have h1 := (shrinks_timer g (St.mod { (pitInsert s i).1 with cs := c, ctr := k } (pitInsert s i).2.1.uid (fun e => { e with
    toPitEntry := Tb.insertOrUpdateIn { e.toPitEntry with interest := if (pitInsert s i).2.2 then addHop (pitInsert s i).1.cfg i else e.interest } f
      (addHop (pitInsert s i).1.cfg i) (pitInsert s i).1.now })) (pitInsert s i).2.1.uid
    (((St.find (St.mod { (pitInsert s i).1 with cs := c, ctr := k } (pitInsert s i).2.1.uid (fun e => { e with
    toPitEntry := Tb.insertOrUpdateIn { e.toPitEntry with interest := if (pitInsert s i).2.2 then addHop (pitInsert s i).1.cfg i else e.interest } f
      (addHop (pitInsert s i).1.cfg i) (pitInsert s i).1.now })) (pitInsert s i).2.1.uid).map (fun e => lastExpiry e.toPitEntry)).getD 0 -
      (pitInsert s i).1.now |> (· / 1000000))).total_le
  have h2 := total_mod_le (g := g) (s := { (pitInsert s i).1 with cs := c, ctr := k }) (insert_spec hi i).2.2.2.2.2.uids
    (u := (pitInsert s i).2.1.uid) (k := if f = g then 1 else 0)
    (f := (fun e => { e with
    toPitEntry := Tb.insertOrUpdateIn { e.toPitEntry with interest := if (pitInsert s i).2.2 then addHop (pitInsert s i).1.cfg i else e.interest } f
      (addHop (pitInsert s i).1.cfg i) (pitInsert s i).1.now })) rfl
    (fun e => cntIn_insertIn g f _ _ _)
  have h3 : total g { (pitInsert s i).1 with cs := c, ctr := k } = total g s := insert_total g s i
  refine Nat.le_trans (Nat.add_le_add_left (Nat.le_trans h1 h2) _) ?_
  rw [h3]
  have h4 : cnt nk g (pitInsert s i).1 = cnt nk g s := insert_cnt ..
  show cnt nk g (pitInsert s i).1 + _ ≤ _
  omega

theorem flow_miss {nk : Bool} {g : FaceId} {st : Strategy} (hd : DefaultData nk st) {s s' : St} (hi : Inv s) {i : FwInterest}
    {f : FaceId} {c : Cs.Cs}
    (h : onContentStoreMiss st { (pitInsert s i).1 with cs := c } i f (pitInsert s i).2.1.uid (pitInsert s i).2.2 = some s') :
    cnt nk g s' + total g s' ≤ cnt nk g s + total g s + (if f = g then 1 else 0) := by
  unfold onContentStoreMiss at h
  simp only at h
  refine Nat.le_trans ?_ (flow_record (nk := nk) (g := g) hi i f c { (pitInsert s i).1.ctr with nCsMisses := (pitInsert s i).1.ctr.nCsMisses + 1 })
  split at h
  · split at h
    · cases h
      rw [cnt_interest]
      exact Nat.add_le_add_left (shrinks_interest ..).total_le _
    · cases h; exact Nat.le_refl _
  · exact call_flow (hd _ (.afterReceiveInterest _ _ _)) h

theorem flow_hit {nk : Bool} {g : FaceId} {st : Strategy} (hd : DefaultData nk st) {s s' : St} {i : FwInterest} {d : Data}
    {f : FaceId} {c : Cs.Cs} (h : onContentStoreHit st { (pitInsert s i).1 with cs := c } d f (pitInsert s i).2.1.uid = some s') :
    cnt nk g s' + total g s' ≤ cnt nk g s + total g s + (if f = g then 1 else 0) := by
  unfold onContentStoreHit call at h
  simp only at h
  have := hd
  rw [show ∀ s u, st s (.afterContentStoreHit d f u) = [.sendData u d f] from fun s u => hd s (.afterContentStoreHit d f u)] at h
  simp only [acts, act, Option.bind_fun_some] at h
  obtain ⟨h1, h2⟩ := flow_sendData (nk := nk) (g := g) h
  have h3 := h2.total_le
  refine Nat.le_trans (Nat.add_le_add h1 h3) ?_
  clear h1 h2 h3 h
  have h4 : ∀ (s : St) (x : List Trigger), total g { s with calls := x } = total g s := fun _ _ => rfl
  have h5 : ∀ (s : St) (x : List Trigger), cnt nk g { s with calls := x } = cnt nk g s := fun _ _ => rfl
  rw [h4, h5, cnt_timer]
  have h6 := fun x => (shrinks_timer g x (pitInsert s i).2.1.uid 0).total_le
  have h7 := h6 (St.mod { (pitInsert s i).1 with cs := c, ctr := { (pitInsert s i).1.ctr with nCsHits := (pitInsert s i).1.ctr.nCsHits + 1 } }
    (pitInsert s i).2.1.uid (fun e => { e with satisfied := true, freshness := d.freshness }))
  have h8 : total g (St.mod { (pitInsert s i).1 with cs := c, ctr := { (pitInsert s i).1.ctr with nCsHits := (pitInsert s i).1.ctr.nCsHits + 1 } }
    (pitInsert s i).2.1.uid (fun e => { e with satisfied := true, freshness := d.freshness })) ≤ total g (pitInsert s i).1 :=
    (shrinks_mod (g := g) (s := (pitInsert s i).1) (u := (pitInsert s i).2.1.uid)
      (f := (fun e => { e with satisfied := true, freshness := d.freshness })) rfl (fun _ => rfl) (fun _ => Nat.le_refl _)).total_le
  rw [insert_total] at h8
  have h9 : cnt nk g (St.mod { (pitInsert s i).1 with cs := c, ctr := { (pitInsert s i).1.ctr with nCsHits := (pitInsert s i).1.ctr.nCsHits + 1 } }
    (pitInsert s i).2.1.uid (fun e => { e with satisfied := true, freshness := d.freshness })) = cnt nk g s := insert_cnt nk g s i
  rw [h9]
  refine Nat.le_trans (Nat.add_le_add_left (Nat.le_trans h7 h8) _) ?_
  omega

theorem flow_loop {nk : Bool} {g : FaceId} {st : Strategy} (hd : DefaultData nk st) {s s' : St} {i : FwInterest} {f : FaceId}
    {fi : FaceInfo} (h : onInterestLoop st s i f fi = some s') :
    cnt nk g s' + total g s' ≤ cnt nk g s + total g s + (if f = g then 1 else 0) := by
  unfold onInterestLoop at h
  split at h
  · cases h; exact Nat.le_add_right _ _
  · unfold call at h
    rcases hd s (.onInterestLoop i f) with hl | hl
    rotate_left
    · rw [hl] at h
      cases h
      exact Nat.le_add_right _ _
    rw [hl] at h
    simp only [acts, act, Option.bind_some, Option.some.injEq] at h
    subst h
    have h1 := cnt_nackPkt nk g { s with calls := s.calls ++ [.onInterestLoop i f] } i nackDuplicate f
    have h2 : total g (sendNackPacket { s with calls := s.calls ++ [.onInterestLoop i f] } i nackDuplicate f) = total g s := by
      unfold sendNackPacket
      split <;> rfl
    have h3 : cnt nk g { s with calls := s.calls ++ [.onInterestLoop i f] } = cnt nk g s := rfl
    rw [h2]
    have h4 : (if nk = true ∧ f = g then 1 else 0) ≤ (if f = g then 1 else 0) := by
      split
      · rename_i hh; rw [if_pos hh.2]; exact Nat.le_refl _
      · exact Nat.zero_le _
    omega

theorem flow_interest {nk : Bool} {g : FaceId} {st : Strategy} (hd : DefaultData nk st) {s s' : St} (hi : Inv s)
    {i : FwInterest} {f : FaceId} (h : onIncomingInterest env st s i f = some s') :
    cnt nk g s' + total g s' ≤ cnt nk g s + total g s + (if f = g then 1 else 0) := by
  unfold onIncomingInterest at h
  split at h
  · cases h; exact Nat.le_add_right _ _
  · simp only at h
    have hi' : Inv { s with ctr := { s.ctr with nInInterests := s.ctr.nInInterests + 1 } } := InvX.congr hi rfl rfl rfl rfl rfl
    refine Nat.le_trans ?_ (Nat.le_refl (cnt nk g { s with ctr := { s.ctr with nInInterests := s.ctr.nInInterests + 1 } } +
      total g { s with ctr := { s.ctr with nInInterests := s.ctr.nInInterests + 1 } } + (if f = g then 1 else 0)))
    generalize { s with ctr := { s.ctr with nInInterests := s.ctr.nInInterests + 1 } } = s at h hi'
    split at h
    · cases h; exact Nat.le_add_right _ _
    · split at h
      · cases h; exact Nat.le_add_right _ _
      · split at h
        · exact flow_loop hd h
        · unfold lookupInterest at h
          simp only at h
          split at h
          · rename_i hdup
            rw [insert_of_dup hdup] at h
            exact flow_loop hd h
          · split at h
            · rw [Option.bind_eq_some_iff] at h
              obtain ⟨c, _, h⟩ := h
              split at h
              · exact flow_hit hd h
              · exact flow_miss hd hi' h
            · exact flow_miss (c := (pitInsert s _).1.cs) hd hi' h

theorem flow_data {nk : Bool} {g : FaceId} {st : Strategy} (hd : DefaultData nk st) {s s' : St} {d : Data} {f : FaceId}
    (h : onIncomingData env st s d f = some s') : cnt nk g s' + total g s' ≤ cnt nk g s + total g s := by
  unfold onIncomingData at h
  split at h
  · cases h; exact Nat.le_refl _
  · simp only at h
    split at h
    · cases h; exact Nat.le_refl _
    · split at h
      · unfold onDataUnsolicited at h
        simp only at h
        split at h
        · rw [Option.map_eq_some_iff] at h
          obtain ⟨c, _, rfl⟩ := h
          exact Nat.le_refl _
        · cases h; exact Nat.le_refl _
      · rw [Option.bind_eq_some_iff] at h
        obtain ⟨c, _, h⟩ := h
        exact Nat.le_trans (flow_one hd h) (Nat.le_refl _)
      · rw [Option.bind_eq_some_iff] at h
        obtain ⟨c, _, h⟩ := h
        exact Nat.le_trans (flow_many hd h) (Nat.le_refl _)

theorem flow_incomingNack {nk : Bool} {g : FaceId} {st : Strategy} (hd : DefaultData nk st) {s s' : St} {i : FwInterest} {k : Nat}
    {f : FaceId} (h : onIncomingNack st s i k f = some s') : cnt nk g s' + total g s' ≤ cnt nk g s + total g s := by
  unfold onIncomingNack at h
  split at h
  · cases h; exact Nat.le_refl _
  · simp only at h
    split at h
    · cases h; exact Nat.le_refl _
    · split at h
      · cases h; exact Nat.le_refl _
      · rename_i e _
        split at h
        · cases h; exact Nat.le_refl _
        · split at h
          · cases h; exact Nat.le_refl _
          · unfold acceptNack at h
            simp only at h
            refine Nat.le_trans (call_flow (hd _ (.afterReceiveNack _ _ _ _)) h) ?_
            have h1 : Shrinks g s (St.mod { s with ctr := { s.ctr with nInNacks := s.ctr.nInNacks + 1 } } e.uid
                (fun e => { e with toPitEntry := Tb.setNack e.toPitEntry f i.nonce k })) :=
              shrinks_mod (u := e.uid) (f := (fun e => { e with toPitEntry := Tb.setNack e.toPitEntry f i.nonce k })) rfl
                (fun _ => rfl) (fun _ => Nat.le_refl _)
            split
            · exact Nat.add_le_add (Nat.le_of_eq (cnt_congr rfl)) h1.total_le
            · rw [cnt_timer]
              exact Nat.add_le_add (Nat.le_of_eq (cnt_congr rfl)) (h1.trans (shrinks_timer ..)).total_le

theorem flow_newNextHop {nk : Bool} {g : FaceId} {st : Strategy} (hd : DefaultData nk st) {nh : NextHop} :
    ∀ {us : List Nat} {s s' : St}, onNewNextHop st nh s us = some s' → cnt nk g s' + total g s' ≤ cnt nk g s + total g s
  | [], s, s', h => by cases h; exact Nat.le_refl _
  | u :: us, s, s', h => by
    simp only [onNewNextHop, Option.bind_eq_some_iff] at h
    obtain ⟨s1, h1, h2⟩ := h
    exact Nat.le_trans (flow_newNextHop hd h2) (call_flow (hd _ (.afterNewNextHop _ _)) h1)

theorem flow_event {nk : Bool} {g : FaceId} {st : Strategy} (hd : DefaultData nk st) {s s' : St} (hi : Inv s) {ev : Event}
    (h : step env st s ev = some s') :
    cnt nk g s' + total g s' ≤ cnt nk g s + total g s + (if ev.fromFace g then 1 else 0) := by
  cases ev with
  | interest i f =>
    have := flow_interest (nk := nk) (g := g) hd hi h
    simpa [Event.fromFace] using this
  | data d f => exact Nat.le_trans (flow_data hd h) (Nat.le_add_right _ _)
  | nack i k f => exact Nat.le_trans (flow_incomingNack hd h) (Nat.le_add_right _ _)
  | dropped i f =>
    refine Nat.le_trans ?_ (Nat.le_add_right _ _)
    simp only [step] at h
    split at h
    · exact call_flow (hd _ (.onDroppedInterest _ _)) h
    · cases h; exact Nat.le_refl _
  | newNextHop nh us => exact Nat.le_trans (flow_newNextHop hd h) (Nat.le_add_right _ _)
  | async => exact Nat.le_trans (call_flow (hd _ .async) h) (Nat.le_add_right _ _)
  | fire id =>
    refine Nat.le_trans ?_ (Nat.le_add_right _ _)
    simp only [step, fire] at h
    split at h
    · cases h; exact Nat.le_refl _
    · rename_i t ht
      split at h
      · have hid : t.id = id := by simpa using List.find?_some ht
        subst hid
        obtain ⟨e, s2, -, -, hfin, hpit, -, -, -, hsent, -⟩ := finalize_spec (env := env) hi (List.mem_of_find?_eq_some ht)
        rw [hfin] at h
        cases h
        rw [cnt_congr hsent]
        refine Nat.add_le_add_left ?_ _
        unfold total
        rw [hpit, sum_split (cntIn g) (fun x : Ent => decide (x.uid ≠ t.uid)) s.pit]
        exact Nat.le_add_right _ _
      · cases h; exact Nat.le_refl _
  | tick dt => cases h; exact Nat.le_add_right _ _
  | addFace f fi =>
    refine Nat.le_trans ?_ (Nat.le_add_right _ _)
    simp only [step] at h
    cases h
    split <;> exact Nat.le_refl _
  | removeFace f =>
    refine Nat.le_trans ?_ (Nat.le_add_right _ _)
    simp only [step] at h
    cases h
    refine Nat.add_le_add (Nat.le_of_eq (cnt_congr rfl)) (Shrinks.total_le ?_)
    exact ⟨fun e => { e with toPitEntry := Tb.deleteInOut e.toPitEntry f }, rfl, fun _ => rfl,
      fun e => List.Sublist.countP_le List.eraseP_sublist⟩
  | config c => cases h; exact Nat.le_add_right _ _
  | cs op =>
    simp only [step, Option.map_eq_some_iff] at h
    obtain ⟨r, _, rfl⟩ := h
    exact Nat.le_add_right _ _
  | dnl op => cases h; exact Nat.le_add_right _ _

theorem flow_run {nk : Bool} {g : FaceId} : ∀ {l : List (Strategy × Event)} {s s' : St}, Inv s → (∀ x ∈ l, DefaultData nk x.1) →
    run env s l = some s' → cnt nk g s' + total g s' ≤ cnt nk g s + total g s + l.countP (fun x => x.2.fromFace g)
  | [], s, s', _, _, h => by cases h; exact Nat.le_refl _
  | x :: l, s, s', hi, hd, h => by
    simp only [run, Option.bind_eq_some_iff] at h
    obtain ⟨s1, h1, h2⟩ := h
    have i1 := flow_event (nk := nk) (g := g) (hd x (List.mem_cons_self ..)) hi h1
    have i2 := flow_run (nk := nk) (g := g) (step_inv hi h1) (fun y hy => hd y (List.mem_cons_of_mem _ hy)) h2
    rw [List.countP_cons]
    omega

end Verif.Fw
