import Verif.Fs.Read

/-! Which sections can be read. -/
namespace Verif.Fs
open Verif.Cf (Node)

theorem lacks_cons {y : String × Node} {l : List (String × Node)} {key : String} : Lacks (y :: l) key ↔ y.1 ≠ key ∧ Lacks l key := by simp [Lacks]

theorem lacks_nil (key : String) : Lacks [] key := fun y hy => by cases hy

theorem twice_cons {y : String × Node} {l : List (String × Node)} {key : String} :
    Twice (y :: l) key ↔ (y.1 = key ∧ ¬ Lacks l key) ∨ Twice l key := by
  constructor
  · rintro ⟨a, x, b, z, c, h⟩
    cases a with
    | nil =>
      simp only [List.nil_append, List.cons_append, List.cons.injEq] at h
      left
      refine ⟨by rw [h.1], fun hl => ?_⟩
      exact hl (key, z) (by rw [h.2]; simp) rfl
    | cons w a =>
      simp only [List.cons_append, List.cons.injEq] at h
      exact Or.inr ⟨a, x, b, z, c, h.2⟩
  · rintro (⟨rfl, h⟩ | ⟨a, x, b, z, c, rfl⟩)
    · have : ∃ z ∈ l, z.1 = y.1 := Classical.not_forall_not.1 (fun hn => h (fun z hz hk => hn z ⟨hz, hk⟩))
      obtain ⟨z, hz, hk⟩ := this
      obtain ⟨b, c, rfl⟩ := List.append_of_mem hz
      refine ⟨[], y.2, b, z.2, c, ?_⟩
      obtain ⟨z1, z2⟩ := z
      dsimp only at hk
      subst hk
      rfl
    · exact ⟨y :: a, x, b, z, c, by simp⟩

theorem not_twice_nil (key : String) : ¬ Twice [] key := by
  rintro ⟨a, x, b, z, c, h⟩
  cases a <;> simp at h

/-! ### Rules -/

theorem setRule_remote {e : Env} {x : Node} {r r' : RuleSt} : setRule e "remote" x r = some r' ↔
    ∃ s, e.uri x.value = some (s, true) ∧ r' = { r with rule := { r.rule with remotes := r.rule.remotes ++ [s] } } := by
  unfold setRule
  rw [if_pos rfl]
  cases e.uri x.value with
  | none => simp
  | some p =>
    obtain ⟨s, b⟩ := p
    cases b
    · simp
    · simp [eq_comm]

theorem setRule_white {e : Env} {x : Node} {r r' : RuleSt} : setRule e "whitelist" x r = some r' ↔
    r.white = false ∧ ∃ l, ListOf e .interface x l ∧ r' = { r with white := true, rule := { r.rule with lists := { r.rule.lists with white := l } } } := by
  unfold setRule
  rw [if_neg (by decide), if_pos rfl]
  by_cases hw : r.white = true
  · rw [if_pos hw]; simp [hw]
  · rw [if_neg hw, Option.map_eq_some_iff]
    simp only [rules_iff]
    constructor
    · rintro ⟨l, h, rfl⟩; exact ⟨by simpa using hw, l, h, rfl⟩
    · rintro ⟨-, l, h, rfl⟩; exact ⟨l, h, rfl⟩

theorem setRule_black {e : Env} {x : Node} {r r' : RuleSt} : setRule e "blacklist" x r = some r' ↔
    r.black = false ∧ ∃ l, ListOf e .interface x l ∧ r' = { r with black := true, rule := { r.rule with lists := { r.rule.lists with black := l } } } := by
  unfold setRule
  rw [if_neg (by decide), if_neg (by decide), if_pos rfl]
  by_cases hw : r.black = true
  · rw [if_pos hw]; simp [hw]
  · rw [if_neg hw, Option.map_eq_some_iff]
    simp only [rules_iff]
    constructor
    · rintro ⟨l, h, rfl⟩; exact ⟨by simpa using hw, l, h, rfl⟩
    · rintro ⟨-, l, h, rfl⟩; exact ⟨l, h, rfl⟩

theorem setRule_other {e : Env} {k : String} {x : Node} {r : RuleSt} (h1 : k ≠ "remote") (h2 : k ≠ "whitelist") (h3 : k ≠ "blacklist") :
    setRule e k x r = none := by
  unfold setRule
  rw [if_neg h1, if_neg h2, if_neg h3]

/-- A line of a rule. -/
def RuleLine (e : Env) (y : String × Node) : Prop :=
  (y.1 = "remote" ∧ ∃ s, e.uri y.2.value = some (s, true)) ∨ (y.1 ∈ ["whitelist", "blacklist"] ∧ ∃ r, ListOf e .interface y.2 r)

theorem ruleOpts_iff (e : Env) : ∀ (l : List (String × Node)) (r : RuleSt), (∃ r', readOpts (setRule e) l r = some r' ∧ (r'.rule.remotes = [] ↔ r.rule.remotes = [] ∧ Lacks l "remote")) ↔
    (∀ y ∈ l, RuleLine e y) ∧ (¬ Twice l "whitelist" ∧ ¬ Twice l "blacklist") ∧ (r.white = true → Lacks l "whitelist") ∧ (r.black = true → Lacks l "blacklist")
  | [], r => by simp [readOpts, lacks_nil, not_twice_nil]
  | y :: l, r => by
    obtain ⟨k, x⟩ := y
    have hhead : ∀ r1, setRule e k x r = some r1 → ((∃ r', readOpts (setRule e) ((k, x) :: l) r = some r' ∧ (r'.rule.remotes = [] ↔ r.rule.remotes = [] ∧ Lacks ((k, x) :: l) "remote")) ↔
        ∃ r', readOpts (setRule e) l r1 = some r' ∧ (r'.rule.remotes = [] ↔ r.rule.remotes = [] ∧ Lacks ((k, x) :: l) "remote")) := by
      intro r1 h1
      simp only [readOpts, h1]
    have hno : setRule e k x r = none → ¬ ∃ r', readOpts (setRule e) ((k, x) :: l) r = some r' ∧ (r'.rule.remotes = [] ↔ r.rule.remotes = [] ∧ Lacks ((k, x) :: l) "remote") := by
      rintro h1 ⟨r', h2, -⟩
      simp only [readOpts, h1] at h2; cases h2
    simp only [List.mem_cons, forall_eq_or_imp, twice_cons, lacks_cons]
    by_cases h1 : k = "remote"
    · subst h1
      cases hs : setRule e "remote" x r with
      | none =>
        refine ⟨fun h => absurd (by simpa only [lacks_cons] using h) (hno hs), fun h => ?_⟩
        rcases h.1.1 with ⟨-, s, hs'⟩ | ⟨h, -⟩
        · rw [setRule_remote.2 ⟨s, hs', rfl⟩] at hs; cases hs
        · simp at h
      | some r1 =>
        have hh := hhead r1 hs
        simp only [lacks_cons] at hh
        rw [hh]
        obtain ⟨s, hs', rfl⟩ := setRule_remote.1 hs
        have ih := ruleOpts_iff e l { r with rule := { r.rule with remotes := r.rule.remotes ++ [s] } }
        simp only [List.append_eq_nil_iff, List.cons_ne_nil, and_false, false_and, iff_false] at ih
        simp only [ne_eq, not_true_eq_false, false_and, and_false, iff_false]
        rw [ih]
        have hl : RuleLine e ("remote", x) := Or.inl ⟨rfl, s, hs'⟩
        simp [hl]
    · by_cases h2 : k = "whitelist"
      · subst h2
        cases hs : setRule e "whitelist" x r with
        | none =>
          refine ⟨fun h => absurd (by simpa only [lacks_cons] using h) (hno hs), fun h => ?_⟩
          rcases h.1.1 with ⟨h, -⟩ | ⟨-, v, hv⟩
          · simp at h
          · have hw : r.white = false := by
              cases hw : r.white with
              | false => rfl
              | true => exact absurd rfl (h.2.2.1 hw).1
            rw [setRule_white.2 ⟨hw, v, hv, rfl⟩] at hs; cases hs
        | some r1 =>
          have hh := hhead r1 hs
          simp only [lacks_cons] at hh
          rw [hh]
          obtain ⟨hw, v, hv, rfl⟩ := setRule_white.1 hs
          have ih := ruleOpts_iff e l { r with white := true, rule := { r.rule with lists := { r.rule.lists with white := v } } }
          dsimp only at ih
          have hl : RuleLine e ("whitelist", x) := Or.inr ⟨by simp, v, hv⟩
          simp only [ne_eq, String.reduceEq, not_false_eq_true, true_and]
          rw [ih]
          simp [hl, hw]
          intro _
          constructor
          · rintro ⟨⟨a, b⟩, c, d⟩; exact ⟨⟨⟨c, a⟩, b⟩, d⟩
          · rintro ⟨⟨⟨c, a⟩, b⟩, d⟩; exact ⟨⟨a, b⟩, c, d⟩
      · by_cases h3 : k = "blacklist"
        · subst h3
          cases hs : setRule e "blacklist" x r with
          | none =>
            refine ⟨fun h => absurd (by simpa only [lacks_cons] using h) (hno hs), fun h => ?_⟩
            rcases h.1.1 with ⟨h, -⟩ | ⟨-, v, hv⟩
            · simp at h
            · have hw : r.black = false := by
                cases hw : r.black with
                | false => rfl
                | true => exact absurd rfl (h.2.2.2 hw).1
              rw [setRule_black.2 ⟨hw, v, hv, rfl⟩] at hs; cases hs
          | some r1 =>
            have hh := hhead r1 hs
            simp only [lacks_cons] at hh
            rw [hh]
            obtain ⟨hw, v, hv, rfl⟩ := setRule_black.1 hs
            have ih := ruleOpts_iff e l { r with black := true, rule := { r.rule with lists := { r.rule.lists with black := v } } }
            dsimp only at ih
            have hl : RuleLine e ("blacklist", x) := Or.inr ⟨by simp, v, hv⟩
            simp only [ne_eq, String.reduceEq, not_false_eq_true, true_and]
            rw [ih]
            simp [hl, hw]
            intro _
            constructor
            · rintro ⟨⟨a, b⟩, d, c⟩; exact ⟨⟨a, c, b⟩, d⟩
            · rintro ⟨⟨a, c, b⟩, d⟩; exact ⟨⟨a, b⟩, d, c⟩
        · have := hno (setRule_other h1 h2 h3)
          refine ⟨fun h => absurd (by simpa only [lacks_cons] using h) this, fun h => ?_⟩
          rcases h.1.1 with ⟨h, -⟩ | ⟨h, -⟩
          · exact absurd h h1
          · simp [h2, h3] at h

theorem ruleRemotes (e : Env) : ∀ (l : List (String × Node)) (r r' : RuleSt), readOpts (setRule e) l r = some r' →
    (r'.rule.remotes = [] ↔ r.rule.remotes = [] ∧ Lacks l "remote")
  | [], r, r', h => by cases h; simp [lacks_nil]
  | y :: l, r, r', h => by
    obtain ⟨k, x⟩ := y
    simp only [readOpts] at h
    cases hs : setRule e k x r with
    | none => rw [hs] at h; cases h
    | some r1 =>
      rw [hs] at h
      have ih := ruleRemotes e l r1 r' h
      rw [ih, lacks_cons]
      by_cases h1 : k = "remote"
      · subst h1
        obtain ⟨s, -, rfl⟩ := setRule_remote.1 hs
        simp
      · by_cases h2 : k = "whitelist"
        · subst h2
          obtain ⟨-, v, -, rfl⟩ := setRule_white.1 hs
          simp
        · by_cases h3 : k = "blacklist"
          · subst h3
            obtain ⟨-, v, -, rfl⟩ := setRule_black.1 hs
            simp
          · rw [setRule_other h1 h2 h3] at hs; cases hs

theorem parseRule_iff (e : Env) (x : Node) : (∃ r, parseRule e x = some r) ↔ RuleWellFormed e x.kids := by
  have h := ruleOpts_iff e x.kids ⟨⟨[], Net.Lists.init⟩, false, false⟩
  simp only [Bool.false_eq_true, false_imp_iff, and_true, true_and] at h
  unfold parseRule
  constructor
  · rintro ⟨r, hr⟩
    cases hs : readOpts (setRule e) x.kids ⟨⟨[], Net.Lists.init⟩, false, false⟩ with
    | none => rw [hs] at hr; cases hr
    | some r' =>
      rw [hs] at hr
      dsimp only at hr
      have hrem : r'.rule.remotes ≠ [] := by
        intro hn; rw [hn] at hr; simp at hr
      have hiff := ruleRemotes e x.kids ⟨⟨[], Net.Lists.init⟩, false, false⟩ r' hs
      have hh := h.1 ⟨r', hs, by simpa using hiff⟩
      refine ⟨hh.1, fun hl => hrem (hiff.2 ⟨rfl, hl⟩), hh.2⟩
  · rintro ⟨h1, h2, h3⟩
    obtain ⟨r', hs, hr⟩ := h.2 ⟨h1, h3⟩
    rw [hs]
    dsimp only
    refine ⟨r'.rule, if_neg ?_⟩
    rw [List.isEmpty_iff, hr]
    exact h2

theorem parseRules_iff (e : Env) (x : Node) : (∃ l, parseRules e (some x) = some l) ↔ ∀ y ∈ x.kids, y.1 = "rule" ∧ RuleWellFormed e y.2.kids := by
  unfold parseRules
  dsimp only
  refine readOpts_isSome (fun y o => ?_) x.kids []
  constructor
  · rintro ⟨o', h⟩
    rcases ite_eq_some.1 h with ⟨hk, h⟩ | ⟨-, h⟩
    · obtain ⟨r, hr, -⟩ := Option.map_eq_some_iff.1 h
      exact ⟨hk, (parseRule_iff ..).1 ⟨r, hr⟩⟩
    · cases h
  · rintro ⟨hk, hr⟩
    obtain ⟨r, hr⟩ := (parseRule_iff ..).2 hr
    exact ⟨o ++ [r], by rw [if_pos hk, hr]; rfl⟩

/-! ### Sections -/

theorem readTcp_iff (e : Env) (x : Node) : (∃ o, readTcp e x = some o) ↔ (∀ y ∈ x.kids, TcpLine e y) ∧
    ¬ (Says x.kids "enable_v4" true YesNo false ∧ Says x.kids "enable_v6" true YesNo false) := by
  have hs := readOpts_isSome (tcp_line e) x.kids ⟨true, 6363, true, true, Net.Lists.init, false⟩
  rw [← hs]
  simp only [tcpRead_iff]
  constructor
  · rintro ⟨o, o1, h1, h2, -⟩
    refine ⟨⟨o1, h1⟩, ?_⟩
    rintro ⟨h3, h4⟩
    have hp := tcp_says h1
    rcases h2 with h2 | h2
    · have := says_yesNo hp.v4 h3; rw [h2] at this; cases this
    · have := says_yesNo hp.v6 h4; rw [h2] at this; cases this
  · rintro ⟨⟨o1, h1⟩, h2⟩
    have hp := tcp_says h1
    refine ⟨_, o1, h1, ?_, rfl⟩
    cases h4 : o1.v4 with
    | true => exact Or.inl rfl
    | false =>
      cases h6 : o1.v6 with
      | true => exact Or.inr rfl
      | false => exact absurd ⟨h4 ▸ hp.v4, h6 ▸ hp.v6⟩ h2

theorem udpRead_iff (e : Env) (x : Node) (o : UdpOpts) : readUdp e (some x) = some o ↔
    readOpts (setUdp e) x.kids { noUdp with v4 := true, v6 := true, mcast := true } = some o ∧ (o.v4 = true ∨ o.v6 = true ∨ o.mcast = true) := by
  unfold readUdp
  dsimp only
  cases readOpts (setUdp e) x.kids { noUdp with v4 := true, v6 := true, mcast := true } with
  | none => simp
  | some o1 =>
    dsimp only
    by_cases h : o1.v4 = false ∧ o1.v6 = false ∧ o1.mcast = false
    · rw [if_pos h]
      simp only [reduceCtorEq, Option.some.injEq, false_iff]
      rintro ⟨rfl, h'⟩
      rw [h.1, h.2.1, h.2.2] at h'
      simp at h'
    · rw [if_neg h]
      simp only [Option.some.injEq]
      constructor
      · rintro rfl
        refine ⟨rfl, ?_⟩
        cases h1 : o1.v4 <;> cases h2 : o1.v6 <;> cases h3 : o1.mcast <;> simp_all
      · exact fun h => h.1

theorem readUdp_iff (e : Env) (x : Node) : (∃ o, readUdp e (some x) = some o) ↔ (∀ y ∈ x.kids, UdpLine e y) ∧
    ¬ (Says x.kids "enable_v4" true YesNo false ∧ Says x.kids "enable_v6" true YesNo false ∧ Says x.kids "mcast" true YesNo false) := by
  rw [← readOpts_isSome (udp_line e) x.kids { noUdp with v4 := true, v6 := true, mcast := true }]
  simp only [udpRead_iff]
  constructor
  · rintro ⟨o1, h1, h2⟩
    refine ⟨⟨o1, h1⟩, ?_⟩
    rintro ⟨h3, h4, h5⟩
    have hp := udp_says h1
    rcases h2 with h2 | h2 | h2
    · have := says_yesNo hp.v4 h3; rw [h2] at this; cases this
    · have := says_yesNo hp.v6 h4; rw [h2] at this; cases this
    · have := says_yesNo hp.mcast h5; rw [h2] at this; cases this
  · rintro ⟨⟨o1, h1⟩, h2⟩
    have hp := udp_says h1
    refine ⟨o1, h1, ?_⟩
    cases h4 : o1.v4 with
    | true => exact Or.inl rfl
    | false =>
      cases h6 : o1.v6 with
      | true => exact Or.inr (Or.inl rfl)
      | false =>
        cases hm : o1.mcast with
        | true => exact Or.inr (Or.inr rfl)
        | false => exact absurd ⟨h4 ▸ hp.v4, h6 ▸ hp.v6, hm ▸ hp.mcast⟩ h2

theorem wsRead_iff (e : Env) (x : Node) (o : WsOpts) : readWs e (some x) = some o ↔
    readOpts (setWs e) x.kids ⟨true, 9696, true, true⟩ = some o ∧ (o.v4 = true ∨ o.v6 = true) := by
  unfold readWs
  dsimp only
  cases readOpts (setWs e) x.kids ⟨true, 9696, true, true⟩ with
  | none => simp
  | some o1 =>
    dsimp only
    by_cases h : o1.v4 = false ∧ o1.v6 = false
    · rw [if_pos h]
      simp only [reduceCtorEq, Option.some.injEq, false_iff]
      rintro ⟨rfl, h'⟩
      rw [h.1, h.2] at h'
      simp at h'
    · rw [if_neg h]
      simp only [Option.some.injEq]
      constructor
      · rintro rfl
        refine ⟨rfl, ?_⟩
        cases h1 : o1.v4 <;> cases h2 : o1.v6 <;> simp_all
      · exact fun h => h.1

theorem readWs_iff (e : Env) (x : Node) : (∃ o, readWs e (some x) = some o) ↔ (∀ y ∈ x.kids, WsLine e y) ∧
    ¬ (Says x.kids "enable_v4" true YesNo false ∧ Says x.kids "enable_v6" true YesNo false) := by
  rw [← readOpts_isSome (ws_line e) x.kids ⟨true, 9696, true, true⟩]
  simp only [wsRead_iff]
  constructor
  · rintro ⟨o1, h1, h2⟩
    refine ⟨⟨o1, h1⟩, ?_⟩
    rintro ⟨h3, h4⟩
    have hp := ws_says h1
    rcases h2 with h2 | h2
    · have := says_yesNo hp.v4 h3; rw [h2] at this; cases this
    · have := says_yesNo hp.v6 h4; rw [h2] at this; cases this
  · rintro ⟨⟨o1, h1⟩, h2⟩
    have hp := ws_says h1
    refine ⟨o1, h1, ?_⟩
    cases h4 : o1.v4 with
    | true => exact Or.inl rfl
    | false =>
      cases h6 : o1.v6 with
      | true => exact Or.inr rfl
      | false => exact absurd ⟨h4 ▸ hp.v4, h6 ▸ hp.v6⟩ h2

theorem readEth_iff (e : Env) (x : Node) : (∃ o, readEth e (some x) = some o) ↔ ∀ y ∈ x.kids, EthLine e y :=
  readOpts_isSome (eth_line e) x.kids _

theorem readUnix_iff (x : Node) : (∃ p, readUnix x = some p) ↔ ∀ y ∈ x.kids, y.1 = "path" := by
  refine readOpts_isSome (fun y o => ?_) x.kids _
  by_cases h : y.1 = "path" <;> simp [h]

theorem readUnix_says {x : Node} {p : String} (h : readUnix x = some p) : Says x.kids "path" "/run/nfd/nfd.sock" (fun y v => y.value = v) p := by
  refine readOpts_says (fun p : String => p) "path" (fun k x o o' h hk => ?_) (fun x o o' h => ?_) h rfl
  · rw [if_neg hk] at h; cases h
  · simpa using h

theorem readGeneral_iff (x : Node) : (∃ m, readGeneral (some x) = some m) ↔ ∀ y ∈ x.kids, y.1 = "enable_congestion_marking" ∧ ∃ b, YesNo y.2 b := by
  refine readOpts_isSome (fun y o => ?_) x.kids _
  by_cases h : y.1 = "enable_congestion_marking"
  · simp only [h, if_true, true_and, yesNo_iff]
  · simp [h]

theorem readGeneral_says {n : Node} {m : Bool} (h : readGeneral (n.child "general") = some m) : MarkingSays n m := by
  cases hc : n.child "general" with
  | none => rw [hc] at h; cases h; exact Or.inl ⟨child_lacks.1 hc, rfl⟩
  | some x =>
    rw [hc] at h
    refine Or.inr ⟨x, child_first.1 hc, ?_⟩
    refine readOpts_says (fun p : Bool => p) "enable_congestion_marking" (fun k x o o' h hk => ?_) (fun x o o' h => ?_) h rfl
    · rw [if_neg hk] at h; cases h
    · rw [if_pos rfl] at h; exact (yesNo_iff ..).1 h

/-! ### Names of subsections -/

theorem checkNames_iff : ∀ (l : List (String × Node)) (seen : List String), checkNames seen l = true ↔
    (∀ y ∈ l, y.1 ∈ ["general", "netdev_bound", "ether", "tcp", "udp", "unix", "websocket"]) ∧ l.Pairwise (fun a b => a.1 ≠ b.1) ∧ ∀ y ∈ l, y.1 ∉ seen
  | [], seen => by simp [checkNames]
  | y :: l, seen => by
    unfold checkNames
    have hn : (y.1 = "general" ∨ y.1 = "netdev_bound" ∨ order.any (fun f => f.name == y.1) = true) ↔
        y.1 ∈ ["general", "netdev_bound", "ether", "tcp", "udp", "unix", "websocket"] := by
      simp only [order, Fac.name, List.any_cons, List.any_nil, Bool.or_false, Bool.or_eq_true, beq_iff_eq, List.mem_cons, List.not_mem_nil, or_false]
      constructor
      · rintro (h | h | h | h | h | h | h) <;> first | (rw [h]; decide) | (rw [← h]; decide)
      · rintro (h | h | h | h | h | h | h) <;> rw [h] <;> decide
    simp only [List.mem_cons, forall_eq_or_imp, List.pairwise_cons]
    by_cases hs : y.1 ∈ seen
    · simp [hs]
    · rw [if_neg hs]
      by_cases hk : y.1 ∈ ["general", "netdev_bound", "ether", "tcp", "udp", "unix", "websocket"]
      · rw [if_pos (hn.2 hk), checkNames_iff l (y.1 :: seen)]
        have hk' := hk
        simp only [List.mem_cons] at hk'
        simp only [hk', hs, true_and, not_false_eq_true, List.mem_cons, not_or]
        constructor
        · rintro ⟨a, b, c⟩
          exact ⟨a, ⟨fun z hz h => (c z hz).1 h.symm, b⟩, fun z hz => (c z hz).2⟩
        · rintro ⟨a, ⟨b, c⟩, d⟩
          exact ⟨a, c, fun z hz => ⟨fun h => b z hz h.symm, d z hz⟩⟩
      · rw [if_neg (fun h => hk (hn.1 h))]
        refine ⟨fun h => (by cases h), fun h => absurd ?_ hk⟩
        simp only [List.mem_cons]
        exact h.1.1

end Verif.Fs
