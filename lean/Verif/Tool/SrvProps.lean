import Verif.Tool.Srv
import Verif.Tool.SrvSpec

/-! Property C121: what ndn-autoconfig makes of the answer to its DNS query. -/
namespace Verif.Srv

variable {m rest : List Nat}

/-! ### Lemmas -/

theorem get_left {m rest : List Nat} {i v : Nat} (h : m[i]? = some v) : (m ++ rest)[i]? = some v := by
  have : i < m.length := (List.getElem?_eq_some_iff.1 h).1
  rw [List.getElem?_append_left this]
  exact h

theorem get_lt {m : List Nat} {i v : Nat} (h : m[i]? = some v) : i < m.length := (List.getElem?_eq_some_iff.1 h).1

theorem NameFrom.bound {start off len : Nat} {ls : List (List Nat)} (h : NameFrom m start off ls len) : off + len ≤ m.length ∧ 1 ≤ len := by
  induction h with
  | root h => exact ⟨get_lt h, Nat.le_refl 1⟩
  | label _ _ _ _ _ ih => omega
  | pointer _ _ h _ _ _ _ => exact ⟨get_lt h, by omega⟩

theorem skip_spec {start off len : Nat} {ls : List (List Nat)} (h : NameFrom m start off ls len) :
    ∀ fuel, len ≤ fuel → skipName (m ++ rest) m.length fuel off = some (some (off + len)) := by
  induction h with
  | root h =>
    intro fuel hf
    obtain ⟨f, rfl⟩ : ∃ f, fuel = f + 1 := ⟨fuel - 1, by omega⟩
    rw [skipName, if_pos (by have := get_lt h; omega), get_left h]
    rfl
  | @label start off len l ls h1 h2 h3 h4 h5 ih =>
    intro fuel hf
    obtain ⟨f, rfl⟩ : ∃ f, fuel = f + 1 := ⟨fuel - 1, by omega⟩
    have hb := h5.bound
    rw [skipName, if_pos (by omega), get_left h3]
    dsimp only
    rw [if_neg (by omega), if_pos h2, if_neg (by omega), ih f (by omega)]
    simp only [Option.some.injEq]
    omega
  | pointer h1 h2 h3 h4 h5 h6 ih =>
    intro fuel hf
    obtain ⟨f, rfl⟩ : ∃ f, fuel = f + 1 := ⟨fuel - 1, by omega⟩
    have hb := get_lt h3
    rw [skipName, if_pos (by omega), get_left h1]
    dsimp only
    rw [if_neg (by omega), if_neg (by omega), if_pos (by omega), if_neg (by omega)]

theorem unpackLoop_spec {start off len : Nat} {ls : List (List Nat)} (h : NameFrom m start off ls len) (src : Nat) :
    ∀ fuel checked used lo acc, 12 ≤ start → (255 - used) + (m.length - checked) < fuel → used + (ls.map (fun l => l.length + 1)).sum + 1 ≤ 255 →
      checked + (start + len) < m.length + 12 →
      unpackLoop (m ++ rest) m.length src fuel off checked used lo acc = some (some (acc ++ ls, lo.getD (off + len - src))) := by
  induction h with
  | root h =>
    intro fuel checked used lo acc _ hf _ _
    obtain ⟨f, rfl⟩ : ∃ f, fuel = f + 1 := ⟨fuel - 1, by omega⟩
    rw [unpackLoop, get_left h, List.append_nil]
    rfl
  | @label start off len l ls h1 h2 h3 h4 h5 ih =>
    intro fuel checked used lo acc h0 hf hu hc
    obtain ⟨f, rfl⟩ : ∃ f, fuel = f + 1 := ⟨fuel - 1, by omega⟩
    have hb := h5.bound
    simp only [List.map_cons, List.sum_cons] at hu
    rw [unpackLoop, get_left h3]
    dsimp only
    rw [if_neg (by omega), if_pos h2, if_neg (by omega), if_neg (by omega), ih f _ _ _ _ h0 (by omega) (by omega) (by omega),
      List.drop_append_of_le_length (by omega), List.take_append_of_le_length (by rw [List.length_drop]; omega), h4, List.append_assoc]
    have : off + 1 + l.length + len = off + (1 + l.length + len) := by omega
    rw [this]
    rfl
  | @pointer start off a b len ls h1 h2 h3 h4 h5 h6 ih =>
    intro fuel checked used lo acc h0 hf hu hc
    obtain ⟨f, rfl⟩ : ∃ f, fuel = f + 1 := ⟨fuel - 1, by omega⟩
    have hb := get_lt h3
    have hb' := h5.bound
    have e : 192 + a - 192 = a := by omega
    rw [unpackLoop, get_left h1]
    dsimp only
    rw [if_neg (by omega), if_neg (by omega), if_pos (by omega), if_neg (by omega), get_left h3]
    dsimp only
    rw [e, if_neg (by omega), if_neg (by omega), ih f _ _ _ _ h4 (by omega) hu (by omega)]
    rfl

theorem unpack_spec {off len : Nat} {ls : List (List Nat)} (h : NameAt m off ls len) (h12 : 12 ≤ off) :
    unpack (m ++ rest) m.length off = some (some (ls, len)) := by
  have hb := h.1.bound
  unfold unpack
  rw [if_neg (by omega), unpackLoop_spec h.1 off _ _ _ _ _ h12 (by omega) (by have := h.2; omega) (by omega)]
  simp

theorem octetText_host {c : Nat} (h : HostOctet c) : octetText c = [Char.ofNat c] := by
  unfold HostOctet at h
  unfold octetText
  rw [if_neg (by simp only [List.mem_cons, List.not_mem_nil, or_false]; omega), if_pos (by omega)]

theorem label_host (l : List Nat) (h : ∀ c ∈ l, HostOctet c) : l.flatMap octetText = l.map Char.ofNat := by
  induction l with
  | nil => rfl
  | cons c l ih => rw [List.flatMap_cons, octetText_host (h c (by simp)), ih (fun x hx => h x (by simp [hx]))]; rfl

theorem nameText_host (ls : List (List Nat)) (h : ∀ l ∈ ls, ∀ c ∈ l, HostOctet c) :
    nameText ls = List.intercalate ['.'] (ls.map (fun l => l.map Char.ofNat)) := by
  induction ls with
  | nil => rfl
  | cons l ls ih =>
    cases ls with
    | nil => rw [nameText, label_host l (h l (by simp))]; simp [List.intercalate]
    | cons l' ls =>
      rw [nameText, label_host l (h l (by simp)), ih (fun x hx => h x (by simp [hx]))]
      · simp [List.intercalate]
      · simp

theorem skip_safe {buf : List Nat} {eom : Int} (he : eom ≤ buf.length) : ∀ fuel p : Nat, (eom - p).toNat < fuel →
    ∃ r, skipName buf eom fuel p = some r ∧ ∀ q, r = some q → (q : Int) ≤ eom := by
  intro fuel
  induction fuel with
  | zero => intro p h; omega
  | succ f ih =>
    intro p hf
    rw [skipName]
    by_cases hp : (p : Int) < eom
    · rw [if_pos hp]
      have hl : p < buf.length := by omega
      rw [List.getElem?_eq_getElem hl]
      dsimp only
      split
      · exact ⟨_, rfl, fun q hq => by cases hq; omega⟩
      · split
        · split
          · exact ⟨_, rfl, fun q hq => by cases hq⟩
          · exact ih _ (by omega)
        · split
          · split
            · exact ⟨_, rfl, fun q hq => by cases hq⟩
            · exact ⟨_, rfl, fun q hq => by cases hq; omega⟩
          · exact ⟨_, rfl, fun q hq => by cases hq⟩
    · rw [if_neg hp]
      split
      · exact ⟨_, rfl, fun q hq => by cases hq; omega⟩
      · exact ⟨_, rfl, fun q hq => by cases hq⟩

theorem unpackLoop_safe {buf : List Nat} {eom : Int} (he : eom ≤ buf.length) (src : Nat) : ∀ (fuel p checked used : Nat) (lo : Option Nat) (acc : List (List Nat)),
    (p : Int) < eom → (255 - used) + (eom.toNat - checked) < fuel → unpackLoop buf eom src fuel p checked used lo acc ≠ none := by
  intro fuel
  induction fuel with
  | zero => intro p c u lo acc _ h; omega
  | succ f ih =>
    intro p c u lo acc hp hf
    rw [unpackLoop]
    have hl : p < buf.length := by omega
    rw [List.getElem?_eq_getElem hl]
    dsimp only
    split
    · exact fun h => (by cases h)
    · split
      · split
        · exact fun h => (by cases h)
        · split
          · exact fun h => (by cases h)
          · exact ih _ _ _ _ _ (by omega) (by omega)
      · split
        · split
          · exact fun h => (by cases h)
          · have hl : p + 1 < buf.length := by omega
            rw [List.getElem?_eq_getElem hl]
            dsimp only
            split
            · exact fun h => (by cases h)
            · split
              · exact fun h => (by cases h)
              · exact ih _ _ _ _ _ (by omega) (by omega)
        · exact fun h => (by cases h)

theorem unpack_safe {buf : List Nat} {eom : Int} (he : eom ≤ buf.length) (src : Nat) : unpack buf eom src ≠ none := by
  unfold unpack
  split
  · exact fun h => (by cases h)
  · exact unpackLoop_safe he src _ _ _ _ _ _ (by omega) (by omega)

/-! ### C121 -/

/-- The name of the host is always read correctly: from any answer that fits into the buffer and begins with an SRV record, whatever is after it in the buffer.
As port the two octets 16 octets after the start of the record are taken. -/
theorem C121_host {at_ k port : Nat} {target : List (List Nat)} (h : SrvAnswer m at_ k port target) (hh : ∀ l ∈ target, ∀ c ∈ l, HostOctet c) :
    ∃ v, Two m (at_ + 16) v ∧ query (m ++ rest) m.length = .uri (hubUri target v) := by
  obtain ⟨n, ⟨a, b, h6, h7, hn⟩, hn1⟩ := h.answers
  obtain ⟨q, ql, hq, rfl⟩ := h.question
  obtain ⟨o, ho⟩ := h.owner
  obtain ⟨tl, ht, -⟩ := h.target
  have hb := hq.1.bound
  have hb2 := ho.1.bound
  have hb3 := ht.1.bound
  have i1 : 12 + ql + 4 + 16 < m.length := by omega
  have i2 : 12 + ql + 4 + 16 + 1 < m.length := by
    obtain ⟨c, d, -, h3, -⟩ := h.port
    have := get_lt h3
    omega
  refine ⟨_, ⟨m[12 + ql + 4 + 16], m[12 + ql + 4 + 16 + 1], List.getElem?_eq_getElem i1, List.getElem?_eq_getElem i2, rfl⟩, ?_⟩
  unfold query
  rw [if_neg (by omega)]
  unfold parseSrvRr
  rw [get_left h6, get_left h7]
  dsimp only
  rw [if_neg (by omega), skip_spec hq.1 _ (by omega)]
  dsimp only [Option.getD_some]
  rw [unpack_spec ho (by omega)]
  dsimp only
  rw [get_left (List.getElem?_eq_getElem i1), get_left (List.getElem?_eq_getElem i2)]
  dsimp only
  have e : 12 + ql + 4 + (k + 12 + 4) = 12 + ql + 4 + k + 16 := by omega
  rw [e, unpack_spec ht (by omega)]
  dsimp only
  rw [nameText_host target hh]
  rfl

/-- If the name of the owner of the record takes two octets, that is, if it is a pointer to the name in the question, the result is the hub that the record
gives. Missing: other forms of the same name (see `C121_wrong_port`). -/
theorem C121_found_partial {at_ port : Nat} {target : List (List Nat)} (h : SrvAnswer m at_ 2 port target) (hh : ∀ l ∈ target, ∀ c ∈ l, HostOctet c) :
    query (m ++ rest) m.length = .uri (hubUri target port) := by
  obtain ⟨v, ⟨a, b, h1, h2, rfl⟩, h3⟩ := C121_host (rest := rest) h hh
  obtain ⟨a', b', h4, h5, rfl⟩ := h.port
  rw [h1] at h4; cases h4
  rw [h2] at h5; cases h5
  exact h3

/-- An answer without records and a failed query (the resolver returns -1 or 0) never give a hub, whatever the buffer contains. -/
theorem C121_no_answer (buf : List Nat) (hb : buf.length = bufSize) (size : Int) (h : size ≤ 0 ∨ Two buf 6 0) :
    query buf size = .error := by
  unfold query
  split
  · rfl
  · rename_i h0
    unfold bufSize at hb
    unfold parseSrvRr
    have h6 : 6 < buf.length := by omega
    have h7 : 7 < buf.length := by omega
    rw [List.getElem?_eq_getElem h6, List.getElem?_eq_getElem h7]
    dsimp only
    split
    · rfl
    · rename_i hc
      rcases h with h | ⟨a, b, ha, hb', hz⟩
      · obtain ⟨r, hr, hq⟩ := skip_safe (eom := size) (buf := buf) (by omega) (size.toNat + 1) 12 (by omega)
        rw [hr]
        dsimp only
        unfold unpack
        rw [if_pos (by omega)]
      · rw [List.getElem?_eq_getElem h6] at ha
        rw [List.getElem?_eq_getElem h7] at hb'
        cases ha; cases hb'
        exact absurd hz.symm hc

/-- Whatever the octets are: if the answer has at most 495 octets nothing outside the buffer is read, and reading ends. Missing: longer answers
(see `C121_over_read` and `C121_truncated`). -/
theorem C121_safe_partial (buf : List Nat) (hb : buf.length = bufSize) (size : Int) (hs : size ≤ 495) : query buf size ≠ .fault := by
  unfold bufSize at hb
  unfold query
  split
  · exact fun h => (by cases h)
  · unfold parseSrvRr
    have h6 : 6 < buf.length := by omega
    have h7 : 7 < buf.length := by omega
    rw [List.getElem?_eq_getElem h6, List.getElem?_eq_getElem h7]
    dsimp only
    split
    · exact fun h => (by cases h)
    · obtain ⟨r, hr, hq⟩ := skip_safe (eom := size) (buf := buf) (by omega) (size.toNat + 1) 12 (by omega)
      rw [hr]
      dsimp only
      generalize hB : r.getD 11 + 4 = blob
      cases hu : unpack buf size blob with
      | none => exact absurd hu (unpack_safe (by omega) _)
      | some u =>
        cases u with
        | none => exact fun h => (by cases h)
        | some u =>
          dsimp only
          have hlt : (blob : Int) < size := by
            unfold unpack at hu
            split at hu
            · cases hu
            · omega
          have i1 : blob + 16 < buf.length := by omega
          have i2 : blob + 17 < buf.length := by omega
          rw [List.getElem?_eq_getElem i1, List.getElem?_eq_getElem i2]
          dsimp only
          cases hv : unpack buf size (blob + (u.2 + 12 + 4)) with
          | none => exact absurd hv (unpack_safe (by omega) _)
          | some v =>
            cases v with
            | none => exact fun h => (by cases h)
            | some v => exact fun h => (by cases h)

/-! ### Examples and violations -/

/-- Header and question of an answer for the name `_` (one label), type SRV, class IN, with `n` answer records. -/
def exHead (n : Nat) : List Nat := [0, 1, 0x81, 0x80, 0, 1, 0, n, 0, 0, 0, 0, 1, 95, 0, 0, 33, 0, 1]

/-- Type, class, TTL, length, priority 0, weight 5, port 6363, target `a.b`. -/
def exSrv : List Nat := [0, 33, 0, 1, 0, 0, 0, 9, 0, 11, 0, 0, 0, 5, 0x18, 0xDB, 1, 97, 1, 98, 0]

/-- The buffer: an answer and whatever was there before. -/
def buffer (m : List Nat) : List Nat := m ++ List.replicate (bufSize - m.length) 0

theorem exAnswer (owner : List Nat) (k : Nat) (h : owner = [0xC0, 12] ∧ k = 2 ∨ owner = [1, 95, 0] ∧ k = 3) :
    SrvAnswer (exHead 1 ++ owner ++ exSrv) 19 k 6363 [[97], [98]] := by
  rcases h with ⟨rfl, rfl⟩ | ⟨rfl, rfl⟩
  · exact {
      questions := ⟨0, 1, rfl, rfl, rfl⟩
      answers := ⟨1, ⟨0, 1, rfl, rfl, rfl⟩, Nat.le_refl 1⟩
      question := ⟨[[95]], 3, ⟨.label (by decide) (by decide) rfl rfl (.root rfl), by decide⟩, rfl⟩
      owner := ⟨[[95]], .pointer (a := 0) (b := 12) rfl (by decide) rfl (by decide) (.label (by decide) (by decide) rfl rfl (.root rfl)) (by decide), by decide⟩
      type := ⟨0, 33, rfl, rfl, rfl⟩
      cls := ⟨0, 1, rfl, rfl, rfl⟩
      port := ⟨0x18, 0xDB, rfl, rfl, rfl⟩
      target := ⟨5, ⟨.label (by decide) (by decide) rfl rfl (.label (by decide) (by decide) rfl rfl (.root rfl)), by decide⟩, ⟨0, 11, rfl, rfl, rfl⟩⟩ }
  · exact {
      questions := ⟨0, 1, rfl, rfl, rfl⟩
      answers := ⟨1, ⟨0, 1, rfl, rfl, rfl⟩, Nat.le_refl 1⟩
      question := ⟨[[95]], 3, ⟨.label (by decide) (by decide) rfl rfl (.root rfl), by decide⟩, rfl⟩
      owner := ⟨[[95]], .label (by decide) (by decide) rfl rfl (.root rfl), by decide⟩
      type := ⟨0, 33, rfl, rfl, rfl⟩
      cls := ⟨0, 1, rfl, rfl, rfl⟩
      port := ⟨0x18, 0xDB, rfl, rfl, rfl⟩
      target := ⟨5, ⟨.label (by decide) (by decide) rfl rfl (.label (by decide) (by decide) rfl rfl (.root rfl)), by decide⟩, ⟨0, 11, rfl, rfl, rfl⟩⟩ }

/-- The hypotheses of `C121_found_partial` and `C121_host` are met. -/
example : SrvAnswer (exHead 1 ++ [0xC0, 12] ++ exSrv) 19 2 6363 [[97], [98]] ∧ ∀ l ∈ [[97], [98]], ∀ c ∈ l, HostOctet c :=
  ⟨exAnswer _ _ (.inl ⟨rfl, rfl⟩), by simp [HostOctet]⟩
example : query (buffer (exHead 1 ++ [0xC0, 12] ++ exSrv)) 42 = .uri "udp://a.b:6363" := by decide +kernel

/-- The port is wrong if the name server writes the name of the owner in full: 1304 (of the weight and the port) instead of 6363. -/
theorem C121_wrong_port : SrvAnswer (exHead 1 ++ [1, 95, 0] ++ exSrv) 19 3 6363 [[97], [98]] ∧
    query (buffer (exHead 1 ++ [1, 95, 0] ++ exSrv)) (exHead 1 ++ [1, 95, 0] ++ exSrv).length = .uri "udp://a.b:1304" :=
  ⟨exAnswer _ _ (.inr ⟨rfl, rfl⟩), by decide +kernel⟩

/-- The type of the record is not looked at: if an alias comes before the SRV record, the octets of the alias are taken for a host, here the last two labels
of its target, and for a port. -/
theorem C121_alias : query (buffer (exHead 2 ++ [0xC0, 12] ++ [0, 5, 0, 1, 0, 0, 0, 9, 0, 10, 5, 120, 121, 122, 49, 50, 1, 99, 1, 100, 0] ++ [0xC0, 31] ++ exSrv)) 65 =
    .uri "udp://c.d:12594" := by decide +kernel

/-- An answer of more than 495 octets can make the program read outside the buffer, ... -/
theorem C121_over_read : ∃ buf : List Nat, buf.length = bufSize ∧ query buf 512 = .fault :=
  ⟨exHead 1 ++ List.replicate 493 0 |>.set 12 63 |>.set 76 63 |>.set 140 63 |>.set 204 63 |>.set 268 63 |>.set 332 63 |>.set 396 63 |>.set 460 35,
    by decide +kernel, by decide +kernel⟩

/-- ... and so can an answer that did not fit into it, of which the resolver returns the full length. -/
theorem C121_truncated : ∃ buf : List Nat, buf.length = bufSize ∧ query buf 600 = .fault :=
  ⟨exHead 1 ++ List.replicate 493 0 |>.set 12 63 |>.set 76 63 |>.set 140 63 |>.set 204 63 |>.set 268 63 |>.set 332 63 |>.set 396 63 |>.set 460 60,
    by decide +kernel, by decide +kernel⟩

end Verif.Srv
