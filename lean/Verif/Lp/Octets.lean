import Verif.Lp.ReasmProps

/-
The octets of an LpPacket, after NDNLPv2 and the NDN packet format; C44 in terms of them.

`lp::Packet::wireEncode` is ndn-cxx, which is not part of /repo: this is a specification of it. The size arithmetic of the link service is shown to be that of the octets.
-/
namespace Verif.Lp

/-- `k` octets of a number, most significant first. -/
def octets : Nat → Nat → Bytes
  | 0, _ => []
  | k + 1, n => octets k (n / 256) ++ [UInt8.ofNat n]

/-- VAR-NUMBER: one octet up to 252; else 253, 254 or 255 and then 2, 4 or 8 octets. -/
def varOctets (n : Nat) : Bytes :=
  if n ≤ 252 then octets 1 n
  else if n < 65536 then 253 :: octets 2 n
  else if n < 4294967296 then 254 :: octets 4 n
  else 255 :: octets 8 n

/-- NonNegativeInteger: the least of 1, 2, 4 and 8 octets. -/
def nniOctets (n : Nat) : Bytes :=
  if n < 256 then octets 1 n
  else if n < 65536 then octets 2 n
  else if n < 4294967296 then octets 4 n
  else octets 8 n

/-- An element. -/
def elem (type : Nat) (value : Bytes) : Bytes := varOctets type ++ varOctets value.length ++ value

def optElem {α : Type} (f : α → Bytes) : Option α → Bytes
  | none => []
  | some a => f a

/-- The fields of an LpPacket but for the fragment. -/
def fields (p : Pkt) : Bytes :=
  optElem (fun n => elem 81 (octets 8 n)) p.seq ++
  optElem (fun n => elem 82 (nniOctets n)) p.fragIndex ++
  optElem (fun n => elem 83 (nniOctets n)) p.fragCount ++
  optElem (elem 98) p.hdr.pitToken ++
  optElem (fun r => elem 800 (if r = 0 then [] else elem 801 (nniOctets r))) p.hdr.nack ++
  optElem (fun n => elem 816 (nniOctets n)) p.hdr.nextHop ++
  optElem (fun n => elem 817 (nniOctets n)) p.hdr.incoming ++
  optElem (fun n => elem 820 (elem 821 (nniOctets n))) p.hdr.cachePolicy ++
  optElem (fun n => elem 832 (nniOctets n)) p.hdr.mark ++
  p.acks.flatMap (fun n => elem 836 (octets 8 n)) ++
  optElem (fun n => elem 840 (octets 8 n)) p.txSeq ++
  (if p.hdr.nonDiscovery then elem 844 [] else []) ++
  optElem (elem 848) p.hdr.prefixAnn

/-- An LpPacket on the wire; a packet with nothing but a fragment is that fragment. -/
def encode (p : Pkt) : Bytes :=
  if fields p = [] ∧ p.frag.isSome then p.frag.getD [] else elem 100 (fields p ++ optElem (elem 80) p.frag)

/-! ### Sizes -/

theorem octets_length : ∀ (k n : Nat), (octets k n).length = k
  | 0, _ => rfl
  | k + 1, n => by rw [octets, List.length_append, octets_length k]; rfl

theorem varOctets_length (n : Nat) : (varOctets n).length = varSize n := by
  unfold varOctets varSize
  have e1 : n ≤ 252 ↔ n < 253 := by omega
  have e2 : n < 65536 ↔ n ≤ 0xFFFF := by omega
  have e3 : n < 4294967296 ↔ n ≤ 0xFFFFFFFF := by omega
  simp only [e1, e2, e3]
  split
  · exact octets_length 1 n
  · split
    · rw [List.length_cons, octets_length]
    · split
      · rw [List.length_cons, octets_length]
      · rw [List.length_cons, octets_length]

theorem nniOctets_length (n : Nat) : (nniOctets n).length = nniSize n := by
  unfold nniOctets nniSize
  have e1 : n < 256 ↔ n ≤ 0xFF := by omega
  have e2 : n < 65536 ↔ n ≤ 0xFFFF := by omega
  have e3 : n < 4294967296 ↔ n ≤ 0xFFFFFFFF := by omega
  simp only [e1, e2, e3]
  split
  · exact octets_length 1 n
  · split
    · exact octets_length 2 n
    · split
      · exact octets_length 4 n
      · exact octets_length 8 n

theorem elem_length (t : Nat) (v : Bytes) : (elem t v).length = tlvSize t v.length := by
  unfold elem tlvSize
  rw [List.length_append, List.length_append, varOctets_length, varOctets_length]

theorem elem_ne (t : Nat) (v : Bytes) : elem t v ≠ [] := by
  intro h
  have h1 := congrArg List.length h
  rw [elem_length] at h1
  have := varSize_pos t
  unfold tlvSize at h1
  simp only [List.length_nil] at h1
  omega

theorem optElem_length {α : Type} {f : α → Bytes} {g : α → Nat} (h : ∀ a, (f a).length = g a) : ∀ o : Option α, (optElem f o).length = optSize g o
  | none => rfl
  | some a => h a

theorem acks_length : ∀ l : List Nat, (l.flatMap (fun n => elem 836 (octets 8 n))).length = l.length * tlvSize 836 8
  | [] => (Nat.zero_mul _).symm
  | n :: l => by
    rw [List.flatMap_cons, List.length_append, acks_length l, elem_length, octets_length, List.length_cons, Nat.succ_mul, Nat.add_comm]

theorem fields_length (p : Pkt) : (fields p).length = othersSize p := by
  have hn : ∀ (t : Nat) (o : Option Nat), (optElem (fun n => elem t (nniOctets n)) o).length = optSize (fun n => tlvSize t (nniSize n)) o :=
    fun t => optElem_length (fun n => by rw [elem_length, nniOctets_length])
  have h8 : ∀ (t : Nat) (o : Option Nat), (optElem (fun n => elem t (octets 8 n)) o).length = optSize (fun _ => tlvSize t 8) o :=
    fun t => optElem_length (fun n => by rw [elem_length, octets_length])
  have hb : ∀ (t : Nat) (o : Option Bytes), (optElem (elem t) o).length = optSize (fun b => tlvSize t b.length) o :=
    fun t => optElem_length (elem_length t)
  have hk : (optElem (fun r => elem 800 (if r = 0 then [] else elem 801 (nniOctets r))) p.hdr.nack).length =
      optSize (fun r => tlvSize 800 (if r = 0 then 0 else tlvSize 801 (nniSize r))) p.hdr.nack :=
    optElem_length (fun r => by
      rw [elem_length]
      by_cases hr : r = 0
      · rw [if_pos hr, if_pos hr]; rfl
      · rw [if_neg hr, if_neg hr, elem_length, nniOctets_length]) _
  have hc : (optElem (fun n => elem 820 (elem 821 (nniOctets n))) p.hdr.cachePolicy).length =
      optSize (fun n => tlvSize 820 (tlvSize 821 (nniSize n))) p.hdr.cachePolicy :=
    optElem_length (fun n => by rw [elem_length, elem_length, nniOctets_length]) _
  have hd : (if p.hdr.nonDiscovery then elem 844 [] else []).length = if p.hdr.nonDiscovery then tlvSize 844 0 else 0 := by
    cases p.hdr.nonDiscovery
    · rfl
    · exact elem_length 844 []
  unfold fields othersSize hdrSize
  simp only [List.length_append, hn, h8, hb, hk, hc, hd, acks_length]
  omega

theorem optElem_nil {α : Type} {f : α → Bytes} (h : ∀ a, f a ≠ []) {o : Option α} : optElem f o = [] ↔ o = none := by
  cases o with
  | none => exact ⟨fun _ => rfl, fun _ => rfl⟩
  | some a => exact ⟨fun he => absurd he (h a), fun he => nomatch he⟩

theorem fields_nil (p : Pkt) : fields p = [] ↔ { p with frag := none } = ({} : Pkt) := by
  have hack : p.acks.flatMap (fun n => elem 836 (octets 8 n)) = [] ↔ p.acks = [] := by
    cases p.acks with
    | nil => exact ⟨fun _ => rfl, fun _ => rfl⟩
    | cons n l => exact ⟨fun he => absurd (List.append_eq_nil_iff.1 he).1 (elem_ne _ _), fun he => nomatch he⟩
  have hd : (if p.hdr.nonDiscovery = true then elem 844 [] else []) = [] ↔ p.hdr.nonDiscovery = false := by
    cases p.hdr.nonDiscovery
    · exact ⟨fun _ => rfl, fun _ => rfl⟩
    · exact ⟨fun he => absurd he (elem_ne _ _), fun he => nomatch he⟩
  obtain ⟨seq, fi, fc, tx, acks, ⟨nack, nh, inc, cp, mark, nd, pa, pt⟩, frag⟩ := p
  simp only [fields, List.append_eq_nil_iff, optElem_nil (fun a => elem_ne _ _)] at hack hd ⊢
  rw [hack, hd]
  simp only [Pkt.mk.injEq, Hdr.mk.injEq, and_true]
  constructor
  · rintro ⟨⟨⟨⟨⟨⟨⟨⟨⟨⟨⟨⟨h1, h2⟩, h3⟩, h4⟩, h5⟩, h6⟩, h7⟩, h8⟩, h9⟩, h10⟩, h11⟩, h12⟩, h13⟩
    exact ⟨h1, h2, h3, h11, h10, h5, h6, h7, h8, h9, h12, h13, h4⟩
  · rintro ⟨h1, h2, h3, h11, h10, h5, h6, h7, h8, h9, h12, h13, h4⟩
    exact ⟨⟨⟨⟨⟨⟨⟨⟨⟨⟨⟨⟨h1, h2⟩, h3⟩, h4⟩, h5⟩, h6⟩, h7⟩, h8⟩, h9⟩, h10⟩, h11⟩, h12⟩, h13⟩

/-- The size that the link service reckons with is the number of octets on the wire. -/
theorem encode_length (p : Pkt) : (encode p).length = wireSize p := by
  unfold encode wireSize isBare
  by_cases h : fields p = [] ∧ p.frag.isSome = true
  · have hb : (p.frag.isSome && decide ({ p with frag := none } = ({} : Pkt))) = true := by
      rw [h.2, Bool.true_and, decide_eq_true_eq]; exact (fields_nil p).1 h.1
    rw [if_pos h, if_pos hb]
    obtain ⟨b, hb⟩ := Option.isSome_iff_exists.1 h.2
    rw [hb]; rfl
  · have hb : ¬(p.frag.isSome && decide ({ p with frag := none } = ({} : Pkt))) = true := by
      rw [Bool.and_eq_true, decide_eq_true_eq]
      rintro ⟨h1, h2⟩
      exact h ⟨(fields_nil p).2 h2, h1⟩
    rw [if_neg h, if_neg hb, elem_length, List.length_append, fields_length, optElem_length (elem_length 80)]

/-! ### Reading -/

theorem bigEndian_append (a : Bytes) (x : UInt8) : bigEndian (a ++ [x]) = bigEndian a * 256 + x.toNat := by
  unfold bigEndian
  rw [List.foldl_append]; rfl

theorem octets_value : ∀ (k n : Nat), n < 256 ^ k → bigEndian (octets k n) = n
  | 0, n, h => by
    have : n = 0 := by rw [Nat.pow_zero] at h; omega
    rw [this]; rfl
  | k + 1, n, h => by
    rw [octets, bigEndian_append, octets_value k (n / 256) (by rw [Nat.pow_succ] at h; exact Nat.div_lt_of_lt_mul (by rwa [Nat.mul_comm])), UInt8.toNat_ofNat']
    omega

theorem readVar_octets {n : Nat} (h : n < 18446744073709551616) (r : Bytes) : readVar (varOctets n ++ r) = some (n, r) := by
  have long : ∀ (k : Nat) (b : UInt8), ¬b.toNat < 253 → (if b.toNat = 253 then 2 else if b.toNat = 254 then 4 else 8) = k → n < 256 ^ k →
      readVar (b :: octets k n ++ r) = some (n, r) := by
    intro k b h1 h2 h3
    have hl : ¬(octets k n ++ r).length < k := by rw [List.length_append, octets_length]; omega
    simp only [List.cons_append, readVar, if_neg h1, h2, if_neg hl]
    rw [List.take_left' (octets_length k n), List.drop_left' (octets_length k n), octets_value k n h3]
  unfold varOctets
  by_cases h1 : n ≤ 252
  · rw [if_pos h1]
    have hb : (UInt8.ofNat n).toNat = n := by rw [UInt8.toNat_ofNat']; omega
    have hb' : n < 253 := by omega
    simp only [octets, List.nil_append, List.cons_append, readVar, hb, if_pos hb']
  · rw [if_neg h1]
    by_cases h2 : n < 65536
    · rw [if_pos h2]; exact long 2 253 (by decide) (by decide) h2
    · rw [if_neg h2]
      by_cases h3 : n < 4294967296
      · rw [if_pos h3]; exact long 4 254 (by decide) (by decide) h3
      · rw [if_neg h3]; exact long 8 255 (by decide) (by decide) h

/-- The reader that the transports and the link service use reads an element back. -/
theorem readElem_elem {t : Nat} (ht : 0 < t ∧ t ≤ 0xFFFFFFFF) {v : Bytes} (hv : v.length < 18446744073709551616) (r : Bytes) :
    readElem (elem t v ++ r) = some (⟨t, v⟩, r) := by
  unfold readElem elem
  rw [List.append_assoc, List.append_assoc, readVar_octets (by omega)]
  have h1 : ¬(t = 0 ∨ t > 0xFFFFFFFF) := by omega
  have h2 : ¬(v ++ r).length < v.length := by rw [List.length_append]; omega
  simp only [if_neg h1, readVar_octets hv, if_neg h2]
  rw [List.take_left' rfl, List.drop_left' rfl]

/-! ### C44 -/

/-- C44, in octets: every fragment, once it has its sequence number, takes no more octets on the wire than the MTU. -/
theorem C44_octets {nMax mtu : Nat} {p : Pkt} {net : Bytes} {frags : List Pkt} (hp : p.frag = some net) (hn : net ≠ [])
    (h : fragmentPacket nMax p mtu = .ok (some frags)) : ∀ f ∈ frags, ∀ q, (encode { f with seq := some q }).length ≤ mtu := by
  intro f hf q
  rw [encode_length]
  exact (C44_fit hp hn h).1 f hf q

/-- C44: the octets of the fragments of a packet of 1000 octets for an MTU of 500. -/
example : (match fragmentPacket 400 { frag := some (elem 6 (List.replicate 996 1)), hdr := { mark := some 1 } } 500 with
    | .ok (some fs) => fs.all (fun f => decide ((encode { f with seq := some 5 }).length ≤ 500)) && fs.length == 3 && fs.all (fun f => (readElem (encode { f with seq := some 5 })).isSome)
    | _ => false) = true := by decide +kernel

end Verif.Lp
