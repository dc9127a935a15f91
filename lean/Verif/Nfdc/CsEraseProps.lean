import Verif.Nfdc.CsErase
import Verif.Cs.Props

/-! C112: `nfdc cs erase` erases what the user asked for. -/
namespace Verif.Nfdc.CsErase
open Verif Verif.Cs

/-! ### Vocabulary -/

/-- The number of packets stored under a prefix. -/
def stored (p : Name) (s : Cs) : Nat := s.table.countP (fun e => decide (p <+: e.data.fullName))

/-- A store that a history of public operations leads to. -/
def Reach (s : Cs) : Prop := ∃ n ops, (∀ op ∈ ops, OpWF op) ∧ (∀ op ∈ ops, OpNoDigest op) ∧ (init n).run ops = some s

/-- Nothing else happens to the store, and every command is answered. -/
def quiet : World := fun _ => ([], .answered)

/-- Whatever else happens to the store are public operations. -/
def Sane (x : World) : Prop := ∀ j, (∀ op ∈ (x j).1, OpWF op) ∧ (∀ op ∈ (x j).1, OpNoDigest op)

/-! ### One command -/

theorem Reach.run {s : Cs} (h : Reach s) {ops : List Op} (hw : ∀ op ∈ ops, OpWF op) (hn : ∀ op ∈ ops, OpNoDigest op) :
    ∃ s', s.run ops = some s' ∧ Reach s' := by
  obtain ⟨n, o, h1, h2, h3⟩ := h
  have hw' : ∀ op ∈ o ++ ops, OpWF op := fun op ho => (List.mem_append.1 ho).elim (h1 op) (hw op)
  have hn' : ∀ op ∈ o ++ ops, OpNoDigest op := fun op ho => (List.mem_append.1 ho).elim (h2 op) (hn op)
  obtain ⟨s', -, e, -⟩ := run_inv (n := n) hw'
  have e' := e
  rw [run_append, h3] at e
  exact ⟨s', e, n, o ++ ops, hw', hn', e'⟩

theorem Reach.inv {s : Cs} (h : Reach s) : ∃ log, Inv s log := by
  obtain ⟨n, o, h1, -, h3⟩ := h
  obtain ⟨s', log, e, -, hi⟩ := run_inv (n := n) h1
  rw [h3] at e; cases e
  exact ⟨log, hi⟩

theorem mgmtErase_run {s s' : Cs} {p : Name} {c : Option Nat} {k : Nat} {cap : Bool} (h : mgmtErase 256 s p c = some (s', k, cap)) :
    ∃ ops, s.run ops = some s' ∧ ∃ m, ops = [.erase p m] ∨ ops = [.erase p m, .find ⟨p, true, false⟩] := by
  unfold mgmtErase at h
  dsimp only at h
  generalize (c.map (min · 256)).getD 256 = m at h
  cases he : s.erase p m with
  | none => rw [he] at h; cases h
  | some r =>
    obtain ⟨s1, k1⟩ := r
    rw [he] at h; dsimp only at h
    split at h
    · cases hf : s1.find ⟨p, true, false⟩ with
      | none => rw [hf] at h; cases h
      | some r =>
        obtain ⟨s2, o⟩ := r
        rw [hf] at h
        refine ⟨[.erase p m, .find ⟨p, true, false⟩], ?_, m, Or.inr rfl⟩
        cases o <;> (cases h; simp [Cs.run, Cs.step, he, hf])
    · cases h
      exact ⟨[.erase p m], by simp [Cs.run, Cs.step, he], m, Or.inl rfl⟩

theorem keeps {s s' : Cs} (hr : Reach s) {p : Name} (hp : Name.WF p) {c : Option Nat} {k : Nat} {cap : Bool}
    (h : mgmtErase 256 s p c = some (s', k, cap)) : Reach s' ∧ s'.serve = s.serve ∧ s'.limit = s.limit := by
  obtain ⟨ops, h1, m, h2⟩ := mgmtErase_run h
  obtain ⟨log, hi⟩ := hr.inv
  refine ⟨?_, ?_⟩
  · have hw : ∀ op ∈ ops, OpWF op := by
      intro op ho
      rcases h2 with rfl | rfl
      · simp at ho; subst ho; exact hp
      · simp at ho; rcases ho with rfl | rfl <;> exact hp
    have hn : ∀ op ∈ ops, OpNoDigest op := by
      intro op ho
      rcases h2 with rfl | rfl
      · simp at ho; subst ho; trivial
      · simp at ho; rcases ho with rfl | rfl <;> trivial
    obtain ⟨s2, e1, e2⟩ := hr.run hw hn
    rw [h1] at e1; cases e1; exact e2
  · obtain ⟨s1, e1, e2, -, -, e3, -, -, e4, -⟩ := erase_spec hi hp m
    rcases h2 with rfl | rfl
    · simp [Cs.run, Cs.step, e1] at h1; subst h1; exact ⟨e4, e3⟩
    · obtain ⟨s2, r, f1, -, -, f2, -, -, f3, -⟩ := find_spec (i := ⟨p, true, false⟩) e2 hp
      simp [Cs.run, Cs.step, e1, f1] at h1; subst h1
      exact ⟨f3.trans e4, f2.trans e3⟩

theorem nodup {s : Cs} (h : Reach s) : s.table.Nodup := by
  obtain ⟨log, hi⟩ := h.inv
  exact table_nodup hi.sorted

theorem countP_split (q : Entry → Bool) (l : List Entry) : l.length = l.countP q + (l.filter (fun e => !q e)).length := by
  rw [List.countP_eq_length_filter]
  induction l with
  | nil => rfl
  | cons a l ih => cases hq : q a <;> simp [hq] <;> omega

theorem command {s : Cs} (hr : Reach s) {p : Name} (hp : Name.WF p) (c : Option Nat) :
    ∃ s' k cap, mgmtErase 256 s p c = some (s', k, cap) ∧ Reach s' ∧ s'.serve = s.serve ∧ k = min (min (c.getD 256) 256) (stored p s) ∧
      stored p s' + k = stored p s ∧ s'.table.length + k = s.table.length ∧ (∀ e ∈ s'.table, e ∈ s.table) ∧
      (∀ e ∈ s.table, e ∉ s'.table → p <+: e.data.fullName) ∧
      (cap = true → k = 256 ∧ ∀ d, c = some d → 256 < d) ∧
      (s.serve = false → cap = false) ∧
      (s.serve = true → cap = false → k < 256 ∨ stored p s' = 0 ∨ ∃ d, c = some d ∧ d ≤ 256) := by
  have hr' := hr
  obtain ⟨n, ops, h1, h2, h3⟩ := hr
  obtain ⟨s', k, cap, e1, e2, e3, e4, e5, e6⟩ := C66_mgmt_erase n ops h1 h2 s h3 p hp c
  obtain ⟨k1, k2, k3⟩ := keeps hr' hp e1
  refine ⟨s', k, cap, e1, k1, k2, e2, ?_, e3, e4, e5, fun h => ⟨(e6.1 h).1, (e6.1 h).2.1⟩, ?_, ?_⟩
  · have a := countP_split (fun e => decide (p <+: e.data.fullName)) s.table
    have b := countP_split (fun e => decide (p <+: e.data.fullName)) s'.table
    have : (s'.table.filter (fun e => !decide (p <+: e.data.fullName))).length = (s.table.filter (fun e => !decide (p <+: e.data.fullName))).length := by
      apply List.Perm.length_eq
      rw [List.perm_ext_iff_of_nodup ((nodup k1).sublist List.filter_sublist) ((nodup hr').sublist List.filter_sublist)]
      intro e
      simp only [List.mem_filter, Bool.not_eq_true', decide_eq_false_iff_not]
      constructor
      · rintro ⟨g1, g2⟩; exact ⟨e4 e g1, g2⟩
      · rintro ⟨g1, g2⟩
        refine ⟨Classical.not_not.1 (fun g3 => g2 (e5 e g1 g3)), g2⟩
    simp only [stored]
    omega
  · intro hs
    cases cap with
    | false => rfl
    | true => rw [(e6.1 rfl).2.2.1] at hs; cases hs
  · intro hs hc
    by_cases g1 : k < 256
    · exact Or.inl g1
    · have g1 : k = 256 := by omega
      by_cases g2 : stored p s' = 0
      · exact Or.inr (Or.inl g2)
      · refine Or.inr (Or.inr ?_)
        obtain ⟨e, he, hpe⟩ := List.countP_pos_iff.1 (Nat.pos_of_ne_zero g2)
        have hl : s.limit ≠ 0 := by
          obtain ⟨log, hi⟩ := hr'.inv
          have := hi.cap
          have : 0 < s.table.length := List.length_pos_of_mem (e4 e he)
          omega
        apply Classical.byContradiction
        intro g3
        have : cap = true := e6.2 ⟨g1, fun d hd => by
          apply Classical.byContradiction; intro g4; exact g3 ⟨d, hd, by omega⟩, hs, hl, e, he, by simpa using hpe⟩
        rw [this] at hc; cases hc

theorem wrapSub_eq {c N w : Nat} (h1 : N ≤ c) (h2 : c < w) : wrapSub w c N = c - N := by
  unfold wrapSub
  rw [Nat.mod_eq_of_lt (Nat.lt_of_le_of_lt h1 h2), show c + w - N = (c - N) + w by omega, Nat.add_mod_right]
  exact Nat.mod_eq_of_lt (by omega)

theorem toAsk_eq {count : Option Nat} {N : Nat} (hc : ∀ c, count = some c → N ≤ c ∧ c < 2 ^ 64) : toAsk count N = count.map (· - N) := by
  cases count with
  | none => simp only [toAsk, Option.map_none]
  | some c =>
    have h := hc c rfl
    simp only [toAsk, Option.map_some, wrapSub_eq h.1 h.2]

/-! ### The loop -/

theorem loop_quiet {p : Name} (hp : Name.WF p) {count : Option Nat} (fuel : Nat) :
    ∀ (j : Nat) (s : Cs) (N : Nat) (asked : List (Option Nat)) (counts : List Nat), Reach s → s.serve = true → stored p s < fuel →
      (∀ c, count = some c → N < c ∧ c < 2 ^ 64) →
      ∃ r k, loop quiet p count fuel j s N asked counts = some r ∧ r.exitCode = 0 ∧ r.printed = some (N + k) ∧
        (∀ c, count = some c → k = min (c - N) (stored p s)) ∧ (count = none → k = stored p s) ∧
        stored p r.cs + k = stored p s ∧ r.cs.table.length + k = s.table.length ∧ (∀ e ∈ r.cs.table, e ∈ s.table) ∧
        (∀ e ∈ s.table, e ∉ r.cs.table → p <+: e.data.fullName) := by
  induction fuel with
  | zero => intro j s N asked counts _ _ h; omega
  | succ fuel ih =>
    intro j s N asked counts hr hs hf hc
    obtain ⟨s', k, cap, e1, e2, e3, e4, e5, e6, e7, e8, e9, -, e10⟩ := command hr hp (count.map (· - N))
    simp only [loop, quiet, Cs.run, Option.bind_some]
    rw [toAsk_eq (fun c h => ⟨Nat.le_of_lt (hc c h).1, (hc c h).2⟩), e1]
    simp only [Option.bind_some]
    cases cap with
    | true =>
      obtain ⟨hk, hk'⟩ := e9 rfl
      simp only [if_true]
      obtain ⟨r, k2, f1, f2, f3, f4, f5, f6, f7, f8, f9⟩ := ih (j + 1) s' (N + k) (asked ++ [count.map (· - N)]) (counts ++ [k]) e2
        (e3.trans hs) (by omega) (fun c h => ⟨by have := hk' (c - N) (by rw [h]; rfl); omega, (hc c h).2⟩)
      refine ⟨r, k + k2, f1, f2, by rw [f3, Nat.add_assoc], ?_, ?_, by omega, by omega, fun e h => e7 e (f8 e h), ?_⟩
      · intro c h
        have a := f4 c h
        have b := hk' (c - N) (by rw [h]; rfl)
        omega
      · intro h; have := f5 h; omega
      · intro e h h'
        by_cases g : e ∈ s'.table
        · exact f9 e g h'
        · exact e8 e h g
    | false =>
      simp only [Bool.false_eq_true, if_false]
      refine ⟨_, k, rfl, rfl, rfl, ?_, ?_, e5, e6, e7, e8⟩
      · intro c h
        rw [h] at e4 e10
        simp only [Option.map_some, Option.getD_some, Option.some.injEq] at e4 e10
        rcases e10 hs trivial with g | g | ⟨d, g, g'⟩ <;> omega
      · intro h
        rw [h] at e4 e10
        simp only [Option.map_none, Option.getD_none] at e4 e10
        rcases e10 hs trivial with g | g | ⟨d, g, g'⟩
        · omega
        · omega
        · cases g

/-- C112 (what the user asked for; holds while the store serves Data, see `C112_serve_off`). If nothing interferes, `nfdc cs erase` ends with exit code 0, has
erased the packets under the prefix, at most as many as asked for, and no others, and prints their number. -/
theorem C112_complete_partial (n : Nat) (ops : List Op) (hw : ∀ op ∈ ops, OpWF op) (hnd : ∀ op ∈ ops, OpNoDigest op)
    (s : Cs) (hr : (init n).run ops = some s) (hs : s.serve = true) (p : Name) (hp : Name.WF p) (count : Option Nat)
    (hc : ∀ c, count = some c → 0 < c ∧ c < 2 ^ 64) :
    ∃ fuel r k, csErase quiet p count fuel s = some r ∧ r.exitCode = 0 ∧ r.printed = some k ∧
      (∀ c, count = some c → k = min c (stored p s)) ∧ (count = none → k = stored p s) ∧
      r.cs.table.length + k = s.table.length ∧ (∀ e ∈ r.cs.table, e ∈ s.table) ∧
      (∀ e ∈ s.table, e ∉ r.cs.table → p <+: e.data.fullName) ∧
      ((∀ c, count = some c → stored p s ≤ c) → ∀ e ∈ r.cs.table, ¬ p <+: e.data.fullName) := by
  obtain ⟨r, k, e1, e2, e3, e4, e5, e6, e7, e8, e9⟩ := loop_quiet hp (stored p s + 1) 0 s 0 [] [] ⟨n, ops, hw, hnd, hr⟩ hs (by omega) hc
  refine ⟨_, r, k, e1, e2, by rw [e3, Nat.zero_add], ?_, e5, e7, e8, e9, ?_⟩
  · intro c h; rw [e4 c h, Nat.sub_zero]
  · intro h e he hpe
    have : 0 < stored p r.cs := List.countP_pos_iff.2 ⟨e, he, by simpa using hpe⟩
    cases count with
    | none => have := e5 rfl; omega
    | some c => have := e4 c rfl; have := h c rfl; omega

theorem loop_bounded {x : World} (hx : Sane x) {p : Name} (hp : Name.WF p) {c : Nat} (hc : c < 2 ^ 64) (fuel : Nat) :
    ∀ (s : Cs) (N : Nat) (asked : List (Option Nat)) (counts : List Nat), Reach s → N < c → (c - N - 1) / 256 < fuel →
      N = counts.sum → asked.length = counts.length → (∀ k ∈ counts, k ≤ 256) →
      (∀ a ∈ asked, ∃ b, a = some b ∧ 0 < b ∧ b ≤ c) → (∀ i < asked.length, (x i).2 = .answered) →
      ∃ r, loop x p (some c) fuel asked.length s N asked counts = some r ∧ (∀ a ∈ r.asked, ∃ b, a = some b ∧ 0 < b ∧ b ≤ c) ∧
        r.asked.length ≤ asked.length + (c - N - 1) / 256 + 1 ∧ r.counts.sum ≤ c ∧ (∀ k ∈ r.counts, k ≤ 256) ∧
        (r.exitCode = 0 ↔ ∀ i < r.asked.length, (x i).2 = .answered) ∧ (r.exitCode ≠ 0 → r.printed = none) ∧
        (r.exitCode = 0 → r.printed = some r.counts.sum ∧ r.counts.length = r.asked.length) := by
  induction fuel with
  | zero => intro s N asked counts _ _ h; omega
  | succ fuel ih =>
    intro s N asked counts hr hN hf hs hl hk ha hx'
    obtain ⟨s1, g1, g2⟩ := hr.run (hx asked.length).1 (hx asked.length).2
    obtain ⟨s', k, cap, e1, e2, -, e4, -, -, -, -, e9, -, -⟩ := command g2 hp (some (c - N))
    simp only [loop, g1, Option.bind_some]
    rw [toAsk_eq (count := some c) (N := N) (fun d h => by cases h; omega)]
    simp only [Option.map_some]
    have ha' : ∀ a ∈ asked ++ [some (c - N)], ∃ b, a = some b ∧ 0 < b ∧ b ≤ c := by
      intro a h
      rcases List.mem_append.1 h with h | h
      · exact ha a h
      · simp at h; exact ⟨c - N, h, by omega, by omega⟩
    simp only [Option.getD_some] at e4
    have hbad : (x asked.length).2 ≠ .answered → ((1 : Nat) = 0 ↔ ∀ i < (asked ++ [some (c - N)]).length, (x i).2 = .answered) := by
      intro h
      constructor
      · intro h'; omega
      · intro h'; exact absurd (h' asked.length (by simp)) h
    have hsum : counts.sum ≤ c := by omega
    have hlen : (asked ++ [some (c - N)]).length ≤ asked.length + (c - N - 1) / 256 + 1 := by simp
    cases hfate : (x asked.length).2 with
    | refused =>
      exact ⟨_, rfl, ha', hlen, hsum, hk, hbad (by rw [hfate]; simp), fun _ => rfl, fun h => by cases h⟩
    | lost =>
      simp only [e1, Option.map_some]
      exact ⟨_, rfl, ha', hlen, hsum, hk, hbad (by rw [hfate]; simp), fun _ => rfl, fun h => by cases h⟩
    | answered =>
      simp only [e1, Option.bind_some]
      have hx2 : ∀ i < (asked ++ [some (c - N)]).length, (x i).2 = .answered := by
        intro i hi
        simp at hi
        by_cases g : i = asked.length
        · rw [g, hfate]
        · exact hx' i (by omega)
      have hk2 : ∀ d ∈ counts ++ [k], d ≤ 256 := by
        intro d h
        rcases List.mem_append.1 h with h | h
        · exact hk d h
        · simp at h; omega
      cases cap with
      | true =>
        obtain ⟨h1, h2⟩ := e9 rfl
        have h2 := h2 _ rfl
        simp only [if_true]
        obtain ⟨r, f1, f2, f3, f4, f5, f6, f7, f8⟩ := ih s' (N + k) (asked ++ [some (c - N)]) (counts ++ [k]) e2 (by omega) (by omega)
          (by simp [hs]) (by simp [hl]) hk2 ha' hx2
        simp only [List.length_append, List.length_singleton] at f1 f3
        exact ⟨r, f1, f2, by omega, f4, f5, f6, f7, f8⟩
      | false =>
        simp only [Bool.false_eq_true, if_false]
        refine ⟨_, rfl, ha', hlen, ?_, hk2, ⟨fun _ => hx2, fun _ => rfl⟩, fun h => absurd rfl h, fun _ => ⟨?_, ?_⟩⟩
        · simp; omega
        · simp [hs]
        · simp [hl]

/-- C112 (whatever happens in the meantime). With `count`, `nfdc cs erase` ends after at most ⌈count / 256⌉ commands, each of which asks for a positive number of
packets not above `count`; the answers never add up to more than `count`. The exit code is 0 exactly if every command was answered; then the number printed is
the sum of the answers, and otherwise none is printed. -/
theorem C112_bounded (n : Nat) (ops : List Op) (hw : ∀ op ∈ ops, OpWF op) (hnd : ∀ op ∈ ops, OpNoDigest op)
    (s : Cs) (hr : (init n).run ops = some s) (p : Name) (hp : Name.WF p) (x : World) (hx : Sane x) (c : Nat) (h0 : 0 < c) (hc : c < 2 ^ 64) :
    ∃ fuel r, csErase x p (some c) fuel s = some r ∧ r.asked.length ≤ (c + 255) / 256 ∧
      (∀ a ∈ r.asked, ∃ b, a = some b ∧ 0 < b ∧ b ≤ c) ∧ r.counts.sum ≤ c ∧
      (r.exitCode = 0 ↔ ∀ i < r.asked.length, (x i).2 = .answered) ∧ (r.exitCode ≠ 0 → r.printed = none) ∧
      (r.exitCode = 0 → r.printed = some r.counts.sum ∧ r.counts.length = r.asked.length) := by
  obtain ⟨r, e1, e2, e3, e4, -, e5, e6, e7⟩ := loop_bounded hx hp hc ((c - 1) / 256 + 1) s 0 [] [] ⟨n, ops, hw, hnd, hr⟩ h0 (by omega) rfl rfl
    (by simp) (by simp) (by simp)
  refine ⟨_, r, e1, ?_, e2, e4, e5, e6, e7⟩
  simp at e3; omega

/-- C112 (violation). While the store does not serve Data (`nfdc cs config serve off`), `nfdc cs erase` sends one command only and ends with exit code 0: if more
than 256 packets under the prefix are stored and no number or a greater one was asked for, it reports success although packets it was to erase are still there. -/
theorem C112_serve_off (n : Nat) (ops : List Op) (hw : ∀ op ∈ ops, OpWF op) (hnd : ∀ op ∈ ops, OpNoDigest op)
    (s : Cs) (hr : (init n).run ops = some s) (hs : s.serve = false) (p : Name) (hp : Name.WF p) (count : Option Nat)
    (hc : ∀ c, count = some c → 256 < c ∧ c < 2 ^ 64) (hm : 256 < stored p s) :
    ∃ r, csErase quiet p count 1 s = some r ∧ r.exitCode = 0 ∧ r.printed = some 256 ∧ ∃ e ∈ r.cs.table, p <+: e.data.fullName := by
  obtain ⟨s', k, cap, e1, -, -, e4, e5, -, -, -, -, e9, -⟩ := command ⟨n, ops, hw, hnd, hr⟩ hp count
  simp only [csErase, loop, quiet, Cs.run, Option.bind_some]
  rw [toAsk_eq (fun c h => ⟨Nat.zero_le _, (hc c h).2⟩)]
  have : count.map (· - 0) = count := by cases count <;> rfl
  rw [this, e1]
  have hk : k = 256 := by
    cases count with
    | none => simp only [Option.getD_none] at e4; omega
    | some c => have := (hc c rfl).1; simp only [Option.getD_some] at e4; omega
  simp only [Option.bind_some, e9 hs, Bool.false_eq_true, if_false]
  refine ⟨_, rfl, rfl, by simp [hk], ?_⟩
  obtain ⟨e, he, hpe⟩ := List.countP_pos_iff.1 (show 0 < stored p s' by omega)
  exact ⟨e, he, by simpa using hpe⟩

/-! ### Stores with any number of packets under a prefix -/

/-- The packet `/A/A/…/A` with `i + 1` components. -/
def packet (i : Nat) : Data := ⟨List.replicate (i + 1) ⟨8, [65]⟩, dig 1, 10, false⟩

def fill (m : Nat) : List Op := (List.range m).map (fun i => .insert (packet i) false)

theorem packet_prefix (i : Nat) : nA <+: (packet i).fullName := by
  refine ⟨List.replicate i ⟨8, [65]⟩ ++ [(packet i).digestComp], ?_⟩
  simp [nA, Data.fullName, packet, List.replicate_succ]

theorem fill_wf (m : Nat) : (∀ op ∈ fill m, OpWF op) ∧ (∀ op ∈ fill m, OpNoDigest op) := by
  constructor <;>
  · intro op h
    obtain ⟨i, -, rfl⟩ := List.mem_map.1 h
    first
    | (refine ⟨?_, rfl⟩
       intro c hc
       rw [(List.mem_replicate.1 hc).2]
       decide)
    | (intro c hc
       rw [(List.mem_replicate.1 hc).2]
       decide)

theorem fill_run (n m : Nat) (h : m ≤ n) :
    ∃ s, (init n).run (fill m) = some s ∧ s.table.length = m ∧ s.limit = n ∧ s.admit = true ∧ s.serve = true ∧
      ∀ e ∈ s.table, ∃ i, i < m ∧ e.data = packet i := by
  induction m with
  | zero => exact ⟨init n, rfl, rfl, rfl, rfl, rfl, by simp [init]⟩
  | succ m ih =>
    obtain ⟨s, e1, e2, e3, e4, e5, e6⟩ := ih (by omega)
    have ha : Admitted s (packet m) := ⟨e4, by omega, rfl⟩
    have hnew : ∀ e ∈ s.table, (e.data.name, e.data.digest) ≠ ((packet m).name, (packet m).digest) := by
      intro e he hc
      obtain ⟨i, hi, hd⟩ := e6 e he
      rw [hd] at hc
      have := congrArg (fun x => x.1.length) hc
      simp only [packet, List.length_replicate] at this
      omega
    obtain ⟨s', f1, f2⟩ := C04_insert_new n (fill m) (fill_wf m).1 s e1 (packet m) false ha hnew (by omega)
    have hf : fill (m + 1) = fill m ++ [.insert (packet m) false] := by simp [fill, List.range_succ]
    have hrun : (init n).run (fill (m + 1)) = some s' := by rw [hf, run_append, e1]; simp [Cs.run, f1]
    obtain ⟨log, hi⟩ := Reach.inv ⟨n, fill m, (fill_wf m).1, (fill_wf m).2, e1⟩
    obtain ⟨s2, ev, g1, -, g2, -, g3, g4, -⟩ := insert_spec hi (packet m) false ha
    have : s2 = s' := by simp [Cs.step, g1] at f1; exact f1
    subst this
    refine ⟨s2, hrun, ?_, g2.trans e3, g3.trans e4, g4.trans e5, ?_⟩
    · have hp : s2.table.Perm (⟨packet m, false, s.now + (packet m).freshness⟩ :: s.table) := by
        rw [List.perm_ext_iff_of_nodup (nodup ⟨n, fill (m + 1), (fill_wf _).1, (fill_wf _).2, hrun⟩)]
        · intro e; rw [f2, List.mem_cons]; exact Or.comm
        · rw [List.nodup_cons]
          refine ⟨fun hc => hnew _ hc rfl, nodup ⟨n, fill m, (fill_wf m).1, (fill_wf m).2, e1⟩⟩
      rw [hp.length_eq, List.length_cons, e2]
    · intro e he
      rcases (f2 e).1 he with he | rfl
      · obtain ⟨i, hi, hd⟩ := e6 e he; exact ⟨i, by omega, hd⟩
      · exact ⟨m, by omega, rfl⟩

theorem fill_stored {n m : Nat} {s : Cs} (h : (init n).run (fill m) = some s) (hm : m ≤ n) : stored nA s = m := by
  obtain ⟨s', e1, e2, -, -, -, e3⟩ := fill_run n m hm
  rw [h] at e1; cases e1
  rw [← e2]
  unfold stored
  rw [List.countP_eq_length]
  intro e he
  obtain ⟨i, -, hd⟩ := e3 e he
  rw [hd]; simpa using packet_prefix i

theorem nA_wf : Name.WF nA := by
  intro c hc; simp [nA] at hc; subst hc; decide

/-- C112_complete_partial: 700 packets, of which 600 are to be erased: three commands. -/
example : ∃ s, (init 1000).run (fill 700) = some s ∧ s.serve = true ∧ stored nA s = 700 ∧
    ∃ fuel r, csErase quiet nA (some 600) fuel s = some r ∧ r.exitCode = 0 ∧ r.printed = some 600 ∧ r.cs.table.length = 100 := by
  obtain ⟨s, e1, e2, -, -, e3, -⟩ := fill_run 1000 700 (by omega)
  have hst := fill_stored e1 (by omega)
  refine ⟨s, e1, e3, hst, ?_⟩
  obtain ⟨fuel, r, k, f1, f2, f3, f4, -, f5, -⟩ := C112_complete_partial 1000 _ (fill_wf _).1 (fill_wf _).2 s e1 e3 nA nA_wf (some 600)
    (fun c h => by cases h; omega)
  have hk := f4 600 rfl
  exact ⟨fuel, r, f1, f2, by rw [f3, hk, hst]; rfl, by omega⟩

/-- C112_serve_off: such a store, with 300 packets. -/
example : ∃ s, (init 1000).run (fill 300 ++ [.enableServe false]) = some s ∧ s.serve = false ∧ 256 < stored nA s := by
  obtain ⟨s, e1, -⟩ := fill_run 1000 300 (by omega)
  have hst := fill_stored e1 (by omega)
  refine ⟨{ s with serve := false }, ?_, rfl, ?_⟩
  · rw [run_append, e1]; rfl
  · have : stored nA ({ s with serve := false } : Cs) = stored nA s := rfl
    omega

/-- C112_bounded: packets arrive between the commands, and the answer to the second one is lost. -/
example : Sane (fun j => ([.insert dA false, .insert dAB true], if j = 1 then .lost else .answered)) := by
  intro j
  refine ⟨?_, ?_⟩
  · intro op h
    simp at h
    rcases h with rfl | rfl <;> exact dataWF_of (by decide) (by decide)
  · intro op h
    simp at h
    rcases h with rfl | rfl <;> (intro c hc; revert c; decide)

end Verif.Nfdc.CsErase
