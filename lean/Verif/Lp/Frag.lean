/-
What the fragmenter produces (C44 and the sending half of C43).
-/
import Verif.Lp.Sizes

namespace Verif.Lp

/-- The fragments the fragmenter may return for a packet: the packet itself if there is room for a Sequence, or else at least two
fragments, each with its place and their number, whose payloads make up the network packet; only the first one keeps the other fields. -/
structure Split (nMax : Nat) (p : Pkt) (net : Bytes) (mtu : Nat) (frags : List Pkt) : Prop where
  fits : ∀ f ∈ frags, ∀ q, wireSize { f with seq := some q } ≤ mtu
  room : ∀ f ∈ frags, ∀ q, othersSize { f with seq := some q } + optSize List.length f.frag + 20 ≤ mtu
  two : 2 ≤ frags.length
  most : frags.length ≤ nMax
  big : maxSingleFragOverhead + wireSize p > mtu
  place : ∀ j f, frags[j]? = some f → f.fragIndex = some j ∧ f.fragCount = some frags.length ∧ f.frag.isSome ∧
    (j = 0 → f = { p with fragIndex := some 0, fragCount := some frags.length, frag := f.frag }) ∧
    (j ≠ 0 → f = { fragIndex := some j, fragCount := some frags.length, frag := f.frag })
  whole : (frags.map (fun f => f.frag.getD [])).flatten = net

theorem wire_seq_le (p : Pkt) (q : Nat) : wireSize { p with seq := some q } ≤ maxSingleFragOverhead + wireSize p := by
  have h1 : isBare { p with seq := some q } = false := by simp [isBare]
  have h2 : othersSize { p with seq := some q } ≤ othersSize p + 10 := by
    have := size_seq
    simp only [othersSize, optSize]
    omega
  have hw := wireSize_le { p with seq := some q }
  simp only [maxSingleFragOverhead]
  have hlow : othersSize p + optSize List.length p.frag ≤ wireSize p := by
    unfold wireSize
    split
    · rename_i hb
      simp only [isBare, Bool.and_eq_true, decide_eq_true_eq] at hb
      have : othersSize p = othersSize { p with frag := none } := rfl
      rw [this, hb.2, othersSize_empty]
      omega
    · cases h : p.frag with
      | none => simp only [optSize, tlvSize]; omega
      | some b => simp only [optSize, tlvSize]; omega
  simp only at hw
  omega

theorem othersSize_add_le (p : Pkt) : othersSize p + optSize List.length p.frag ≤ wireSize p := by
  unfold wireSize
  split
  · rename_i hb
    simp only [isBare, Bool.and_eq_true, decide_eq_true_eq] at hb
    have : othersSize p = othersSize { p with frag := none } := rfl
    rw [this, hb.2, othersSize_empty]
    omega
  · cases h : p.frag with
    | none => simp only [optSize, tlvSize]; omega
    | some b => simp only [optSize, tlvSize]; omega

theorem numbered_map (count : Nat) : ∀ (cs : List Bytes) (first : Pkt) (i : Nat),
    (numbered count first i cs).map (fun f => f.frag.getD []) = cs := by
  intro cs
  induction cs with
  | nil => intro _ _; rfl
  | cons c cs ih => intro first i; simp only [numbered, List.map_cons, ih, Option.getD_some]

/-- The fragmenter, case by case, on a packet with a non-empty Fragment. -/
theorem fragment_cases {nMax : Nat} {p : Pkt} {mtu : Nat} {net : Bytes} (hp : p.frag = some net) (hn : net ≠ [])
    (hi : p.fragIndex = none) (hc : p.fragCount = none) :
    (maxSingleFragOverhead + wireSize p ≤ mtu ∧ fragmentPacket nMax p mtu = .ok (some [p])) ∨
    (maxSingleFragOverhead + wireSize p > mtu ∧ (maxFragOverhead + othersSize p + 1 > mtu ∨
        net.length > (mtu - maxFragOverhead - othersSize p) + (nMax - 1) * (mtu - maxFragOverhead)) ∧
      fragmentPacket nMax p mtu = .ok none) ∨
    (maxFragOverhead + othersSize p + 1 ≤ mtu ∧ ∃ frags, fragmentPacket nMax p mtu = .ok (some frags) ∧ Split nMax p net mtu frags) := by
  by_cases h1 : maxSingleFragOverhead + wireSize p ≤ mtu
  · left
    refine ⟨h1, ?_⟩
    simp [fragmentPacket, hp, hi, hc, h1]
  · right
    by_cases h2 : maxFragOverhead + othersSize p + 1 > mtu
    · left
      refine ⟨by omega, .inl h2, ?_⟩
      simp only [fragmentPacket, hp, hi, hc, Option.isSome_none, Bool.or_self, Bool.false_eq_true, if_false]
      rw [if_neg h1, if_pos h2]
    · have hwl := wireSize_le p
      rw [hp] at hwl
      simp only [optSize, maxSingleFragOverhead, maxFragOverhead] at hwl h1 h2
      -- the first payload
      obtain ⟨a, ha⟩ : ∃ a, a = min net.length (mtu - othersSize p - 50) := ⟨_, rfl⟩
      have hlt : a < net.length := by omega
      have ha' : a = mtu - othersSize p - 50 := by omega
      have hsz : 0 < mtu - 50 := by omega
      obtain ⟨cs, hcs⟩ : ∃ cs, cs = net.take a :: chunks (mtu - 50) net.length (net.drop a) := ⟨_, rfl⟩
      obtain ⟨count, hcount⟩ : ∃ count, count = 1 + (net.length - a) / (mtu - 50) +
        (if (net.length - a) % (mtu - 50) ≠ 0 then 1 else 0) := ⟨_, rfl⟩
      have hlen : cs.length = count := by
        rw [hcs, List.length_cons, chunks_length hsz _ _ (by rw [List.length_drop]; omega), List.length_drop, hcount]
        omega
      have htwo : 2 ≤ count := by
        have hpos : 0 < net.length - a := by omega
        have hd := Nat.div_add_mod (net.length - a) (mtu - 50)
        obtain ⟨d, hdd⟩ : ∃ d, d = (net.length - a) / (mtu - 50) := ⟨_, rfl⟩
        obtain ⟨r, hrr⟩ : ∃ r, r = (net.length - a) % (mtu - 50) := ⟨_, rfl⟩
        rw [← hdd, ← hrr] at hd hcount
        by_cases hz : r = 0
        · have hd0 : d ≠ 0 := by
            intro h0
            rw [h0, hz] at hd
            omega
          rw [hcount]; omega
        · rw [hcount, if_pos hz]; omega
      have hfl : cs.flatten = net := by
        rw [hcs, List.flatten_cons, chunks_flatten hsz _ _ (by rw [List.length_drop]; omega), List.take_append_drop]
      have h0 : ∀ c, cs[0]? = some c → c.length ≤ a := by
        intro c hc
        rw [hcs] at hc
        simp only [List.getElem?_cons_zero, Option.some.injEq] at hc
        rw [← hc, List.length_take]; omega
      have hj : ∀ j c, j ≠ 0 → cs[j]? = some c → c.length ≤ mtu - 50 := by
        intro j c hj hc
        rw [hcs] at hc
        cases j with
        | zero => exact absurd rfl hj
        | succ j =>
          rw [List.getElem?_cons_succ] at hc
          exact chunks_le _ _ _ (List.mem_of_getElem? hc)
      obtain ⟨frags, hfr⟩ : ∃ frags, frags = numbered count p 0 cs := ⟨_, rfl⟩
      have hfl' : frags.length = count := by rw [hfr, numbered_length, hlen]
      have hroom : ∀ (j : Nat) (f : Pkt), frags[j]? = some f → ∀ q,
          othersSize { f with seq := some q } + optSize List.length f.frag + 20 ≤ mtu := by
        intro j f hf q
        rw [hfr] at hf
        exact frag_room hf h0 hj (by simp only [maxFragOverhead]; omega) (by simp only [maxFragOverhead]; omega) q
      have hget : ∀ (j : Nat) (f : Pkt), frags[j]? = some f → ∀ q, wireSize { f with seq := some q } ≤ mtu := by
        intro j f hf q
        exact Nat.le_trans (wireSize_le _) (hroom j f hf q)
      have hplace : ∀ (j : Nat) (f : Pkt), frags[j]? = some f → f.fragIndex = some j ∧ f.fragCount = some frags.length ∧ f.frag.isSome ∧
          (j = 0 → f = { p with fragIndex := some 0, fragCount := some frags.length, frag := f.frag }) ∧
          (j ≠ 0 → f = { fragIndex := some j, fragCount := some frags.length, frag := f.frag }) := by
        intro j f hf
        rw [hfr] at hf
        obtain ⟨g1, g2, g3, g4, g5, g6⟩ := numbered_get _ _ _ _ _ _ hf
        rw [Nat.zero_add] at g1
        rw [hfl']
        refine ⟨g1, g2, g4, g5, fun hj => ?_⟩
        have := g6 hj
        rw [g1] at this
        exact this
      have hdef : fragmentPacket nMax p mtu =
          if count > nMax then .ok none
          else if frags.any (fun f => decide (wireSize f > mtu)) then .error .assert
          else if frags.length ≠ count then .error .assert
          else .ok (some frags) := by
        rw [hfr, hcs, hcount, ha]
        simp only [fragmentPacket, hp, hi, hc, Option.isSome_none, Bool.or_self, Bool.false_eq_true, if_false]
        rw [if_neg (by simp only [maxSingleFragOverhead]; omega), if_neg (by simp only [maxFragOverhead]; omega), if_neg hn]
      by_cases hmax : count > nMax
      · left
        refine ⟨by simp only [maxSingleFragOverhead]; omega, .inr ?_, by rw [hdef, if_pos hmax]⟩
        simp only [maxFragOverhead]
        have hd := Nat.div_add_mod (net.length - a) (mtu - 50)
        have hm := Nat.mod_lt (net.length - a) hsz
        obtain ⟨d, hdd⟩ : ∃ d, d = (net.length - a) / (mtu - 50) := ⟨_, rfl⟩
        obtain ⟨r, hrr⟩ : ∃ r, r = (net.length - a) % (mtu - 50) := ⟨_, rfl⟩
        rw [← hdd, ← hrr] at hd hcount
        rw [← hrr] at hm
        obtain ⟨z, hzz⟩ : ∃ z, z = mtu - 50 := ⟨_, rfl⟩
        rw [← hzz] at hd hm ⊢
        by_cases hz : r = 0
        · have : nMax - 1 < d := by rw [if_neg (by simpa using hz)] at hcount; omega
          have : (nMax - 1 + 1) * z ≤ d * z := Nat.mul_le_mul_right _ this
          rw [Nat.add_mul, Nat.mul_comm d] at this
          generalize (nMax - 1) * z = y at this ⊢
          generalize z * d = x at this hd
          omega
        · have : nMax - 1 ≤ d := by rw [if_pos hz] at hcount; omega
          have : (nMax - 1) * z ≤ d * z := Nat.mul_le_mul_right _ this
          rw [Nat.mul_comm d] at this
          generalize (nMax - 1) * z = y at this ⊢
          generalize z * d = x at this hd
          omega
      · right
        refine ⟨by simp only [maxFragOverhead]; omega, frags, ?_, ?_⟩
        · rw [hdef, if_neg hmax, if_neg, if_neg (by simp [hfl'])]
          simp only [List.any_eq_true, decide_eq_true_eq, not_exists, not_and]
          intro f hf
          obtain ⟨j, hj⟩ := List.mem_iff_getElem?.1 hf
          have hb : isBare f = false := by
            have := (hplace j f hj).1
            simp only [isBare, Bool.and_eq_false_iff, decide_eq_false_iff_not]
            right
            intro he
            have hfi : f.fragIndex = none := congrArg Pkt.fragIndex he
            rw [hfi] at this
            cases this
          have h3 := hget j f hj 0
          have h4 := wireSize_seq hb 0
          omega
        · refine ⟨?_, ?_, by omega, by omega, by simp only [maxSingleFragOverhead]; omega, hplace, ?_⟩
          · intro f hf q
            obtain ⟨j, hj⟩ := List.mem_iff_getElem?.1 hf
            exact hget j f hj q
          · intro f hf q
            obtain ⟨j, hj⟩ := List.mem_iff_getElem?.1 hf
            exact hroom j f hj q
          · rw [hfr, numbered_map, hfl]

end Verif.Lp
