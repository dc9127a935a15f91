import Verif.Nfdc.TextListLemmas
/-! The line of a face is made of words. -/
namespace Verif.Nfdc.TextList
open Report
/-- The words on the line of a face, without the last bracket. -/
def expW (f : FaceStatus) : List Str := (f.expires.map (fun d => lit "expires=" ++ seconds d)).toList
def conW (f : FaceStatus) : List Str :=
  match f.interval, f.threshold with
  | none, none => []
  | some d, none => [lit "congestion={base-marking-interval=" ++ millis d ++ ['}']]
  | none, some n => [lit "congestion={default-threshold=" ++ dec n ++ lit "B}"]
  | some d, some n => [lit "congestion={base-marking-interval=" ++ millis d, lit "default-threshold=" ++ dec n ++ lit "B}"]
def mtuW (f : FaceStatus) : List Str := (f.mtu.map (fun n => lit "mtu=" ++ dec n)).toList
def cntW (f : FaceStatus) : List Str :=
  [lit "counters={in={" ++ dec f.nInInterests ++ ['i'], dec f.nInData ++ ['d'], dec f.nInNacks ++ ['n'], dec f.nInBytes ++ lit "B}",
   lit "out={" ++ dec f.nOutInterests ++ ['i'], dec f.nOutData ++ ['d'], dec f.nOutNacks ++ ['n'], dec f.nOutBytes ++ lit "B}}"]
def flgW (f : FaceStatus) : List Str :=
  [lit "flags={" ++ f.scope, f.persistency, f.linkType] ++ ((if bit f.flags 0 then [lit "local-fields"] else []) ++ ((if bit f.flags 1 then [lit "lp-reliability"] else []) ++
  (if bit f.flags 2 then [lit "congestion-marking"] else [])))
def words (f : FaceStatus) : List Str :=
  [lit "faceid=" ++ dec f.id, lit "remote=" ++ f.remote, lit "local=" ++ f.local] ++ (expW f ++ (conW f ++ (mtuW f ++ (cntW f ++ flgW f))))

theorem attrs_false : ∀ l : List (Str × Str), attrs false l = sepBy [' '] false (l.map (fun p => p.1 ++ '=' :: p.2))
  | [] => rfl
  | (a, v) :: l => by simp [attrs, sepBy, attrs_false l]

theorem attrs_true (p : Str × Str) (l : List (Str × Str)) : ' ' :: attrs true (p :: l) = sepBy [' '] false ((p :: l).map (fun p => p.1 ++ '=' :: p.2)) := by
  rw [← attrs_false]; obtain ⟨a, v⟩ := p; simp [attrs]

theorem sep_append (sep : Str) : ∀ a b : List Str, sepBy sep false (a ++ b) = sepBy sep false a ++ sepBy sep false b
  | [], b => rfl
  | x :: a, b => by simp [sepBy, sep_append sep a b]

theorem con_eq (f : FaceStatus) : sepBy [' '] false (((congestion f).map (fun s => (lit "congestion", s))).toList.map (fun p => p.1 ++ '=' :: p.2)) = sepBy [' '] false (conW f) := by
  unfold congestion conW
  rcases f.interval with _ | d <;> rcases f.threshold with _ | n
  · rfl
  · simp [sepBy, lit]
  · generalize hx : millis d = x
    simp only [hx, Option.map_some, Option.map_none, Option.isSome_some, Option.isSome_none, Bool.or_false, if_true, Option.toList_some, Option.toList_none, List.map_cons, List.map_nil,
      List.append_nil, List.cons_append, List.nil_append, sepBy, Bool.false_eq_true, if_false, List.append_assoc]
    rfl
  · generalize hx : millis d = x
    simp only [hx, Option.map_some, Option.isSome_some, Bool.or_true, if_true, Option.toList_some, List.map_cons, List.map_nil,
      List.append_nil, List.cons_append, List.nil_append, sepBy, Bool.false_eq_true, if_false, List.append_assoc]
    rfl

theorem cnt_eq (f : FaceStatus) : sepBy [' '] false [lit "counters" ++ '=' :: counters f] = sepBy [' '] false (cntW f) := by
  unfold counters cntW
  generalize dec f.nInInterests = a; generalize dec f.nInData = b; generalize dec f.nInNacks = c; generalize dec f.nInBytes = d
  generalize dec f.nOutInterests = a'; generalize dec f.nOutData = b'; generalize dec f.nOutNacks = c'; generalize dec f.nOutBytes = d'
  simp only [sepBy, Bool.false_eq_true, if_false, List.append_assoc, List.append_nil, List.cons_append, List.nil_append]
  rfl

theorem flg_eq (f : FaceStatus) : sepBy [' '] false [lit "flags" ++ '=' :: ('{' :: sepBy [' '] true (flagWords f) ++ ['}'])] = sepBy [' '] false (flgW f) ++ ['}'] := by
  unfold flagWords flgW
  rcases bit f.flags 0 <;> rcases bit f.flags 1 <;> rcases bit f.flags 2 <;> simp [sepBy, lit]

theorem face_words (f : FaceStatus) : ' ' :: faceText f = sepBy [' '] false (words f) ++ ['}'] := by
  unfold faceText faceAttrs
  simp only [List.cons_append, List.nil_append]
  rw [attrs_true]
  unfold words
  simp only [List.map_cons, List.map_append, List.map_nil]
  rw [show ∀ a b c : Str, ∀ l, a :: b :: c :: l = [a, b, c] ++ l from fun _ _ _ _ => rfl]
  simp only [sep_append, con_eq]
  have h2 : ∀ x y : Str, sepBy [' '] false [x, y] = sepBy [' '] false [x] ++ sepBy [' '] false [y] := fun x y => sep_append _ [x] [y]
  have hfl := flg_eq f
  simp only [List.cons_append] at hfl
  rw [h2, cnt_eq, hfl]
  have he : List.map (fun p : Str × Str => p.1 ++ '=' :: p.2) (Option.map (fun d => (lit "expires", seconds d)) f.expires).toList = expW f := by
    unfold expW; rcases f.expires with _ | d <;> simp [lit]
  have hm : List.map (fun p : Str × Str => p.1 ++ '=' :: p.2) (Option.map (fun d => (lit "mtu", dec d)) f.mtu).toList = mtuW f := by
    unfold mtuW; rcases f.mtu with _ | d <;> simp [lit]
  rw [he, hm]
  simp [sepBy, lit]

theorem words_word {f : FaceStatus} (h : WordsFace f) : ∀ w ∈ words f, Word w := by
  obtain ⟨h1, h2, h3, h4, h5⟩ := h
  intro w hw
  simp only [words, List.mem_append, List.mem_cons, List.not_mem_nil, or_false] at hw
  rcases hw with (rfl | rfl | rfl) | hw | hw | hw | hw | hw
  · exact .append (by decide) (word_dec _)
  · exact .append (by decide) h1
  · exact .append (by decide) h2
  · unfold expW at hw
    rcases he : f.expires with _ | d <;> simp only [he, Option.map_none, Option.map_some, Option.toList_none, Option.toList_some, List.mem_cons, List.not_mem_nil, or_false] at hw
    rw [hw]; exact .append (by decide) (.append (word_decI _) (by decide))
  · unfold conW at hw
    rcases he : f.interval with _ | d <;> rcases hf : f.threshold with _ | n <;> simp only [he, hf, List.mem_cons, List.not_mem_nil, or_false] at hw
    · rw [hw]; exact .append (.append (by decide) (word_dec _)) (by decide)
    · rw [hw]; exact .append (.append (by decide) (.append (word_decI _) (by decide))) (by decide)
    · rcases hw with rfl | rfl
      · exact (.append (by decide) (.append (word_decI _) (by decide)))
      · exact .append (.append (by decide) (word_dec _)) (by decide)
  · unfold mtuW at hw
    rcases he : f.mtu with _ | d <;> simp only [he, Option.map_none, Option.map_some, Option.toList_none, Option.toList_some, List.mem_cons, List.not_mem_nil, or_false] at hw
    rw [hw]; exact .append (by decide) (word_dec _)
  · simp only [cntW, List.mem_cons, List.not_mem_nil, or_false] at hw
    rcases hw with rfl | rfl | rfl | rfl | rfl | rfl | rfl | rfl
    · exact .append (.append (by decide) (word_dec _)) (by decide)
    · exact .append (word_dec _) (by decide)
    · exact .append (word_dec _) (by decide)
    · exact .append (word_dec _) (by decide)
    · exact .append (.append (by decide) (word_dec _)) (by decide)
    · exact .append (word_dec _) (by decide)
    · exact .append (word_dec _) (by decide)
    · exact .append (word_dec _) (by decide)
  · simp only [flgW, List.mem_append, List.mem_cons, List.not_mem_nil, or_false] at hw
    rcases hw with (rfl | rfl | rfl) | hw | hw | hw
    · exact .append (by decide) h3
    · exact h4
    · exact h5
    all_goals (split at hw <;> simp only [List.mem_cons, List.not_mem_nil, or_false] at hw; subst hw; decide)

theorem face_line {f : FaceStatus} (h : WordsFace f) : '\n' ∉ faceText f := by
  have h2 := sep_mem (c := '\n') (sep := [' ']) (by decide) (b := false) (fun w hw => (words_word h w hw).2)
  intro hm
  have : '\n' ∈ ' ' :: faceText f := List.mem_cons_of_mem _ hm
  rw [face_words] at this
  rcases List.mem_append.mp this with h | h
  · exact h2 h
  · revert h; decide

theorem expW_kind (f : FaceStatus) : ∀ w ∈ expW f, (w.head? == some 'e') = true := by
  unfold expW; rcases f.expires with _ | d
  · intro w hw; cases hw
  · intro w hw; rw [List.mem_singleton.mp hw]; rfl

theorem mtuW_kind (f : FaceStatus) : ∀ w ∈ mtuW f, (w.head? == some 'm') = true := by
  unfold mtuW; rcases f.mtu with _ | d
  · intro w hw; cases hw
  · intro w hw; rw [List.mem_singleton.mp hw]; rfl

def conKind (w : Str) : Bool := w.head? == some 'd' || w.take 3 == ['c', 'o', 'n']

theorem conW_kind (f : FaceStatus) : ∀ w ∈ conW f, conKind w = true := by
  unfold conW
  rcases f.interval with _ | d <;> rcases f.threshold with _ | n
  · intro w hw; cases hw
  · intro w hw; rw [List.mem_singleton.mp hw]; rfl
  · intro w hw; rw [List.mem_singleton.mp hw]; rfl
  · intro w hw
    rcases List.mem_cons.mp hw with rfl | hw
    · rfl
    · rw [List.mem_singleton.mp hw]; rfl

theorem rest3 (f : FaceStatus) : ∀ w, (cntW f ++ flgW f).head? = some w → (w.head? == some 'm') = false := by
  intro w hw
  rw [← Option.some.inj (show some _ = some w from hw)]; rfl

theorem rest2 (f : FaceStatus) : ∀ w, (mtuW f ++ (cntW f ++ flgW f)).head? = some w → conKind w = false := by
  unfold mtuW
  rcases f.mtu with _ | d <;> intro w hw
  · rw [← Option.some.inj (show some _ = some w from hw)]; rfl
  · rw [← Option.some.inj (show some _ = some w from hw)]; rfl

theorem rest1 (f : FaceStatus) : ∀ w, (conW f ++ (mtuW f ++ (cntW f ++ flgW f))).head? = some w → (w.head? == some 'e') = false := by
  unfold conW mtuW
  rcases f.interval with _ | d <;> rcases f.threshold with _ | n <;> rcases f.mtu with _ | m <;> intro w hw <;>
    (rw [← Option.some.inj (show some _ = some w from hw)]; rfl)

theorem expW_inj {f g : FaceStatus} (h : expW f = expW g) : f.expires.map (·.tdiv 1000000000) = g.expires.map (·.tdiv 1000000000) := by
  unfold expW at h
  revert h
  rcases f.expires with _ | d <;> rcases g.expires with _ | e <;> intro h
  · rfl
  · cases h
  · cases h
  · simp only [Option.map_some, Option.toList_some, List.cons.injEq, and_true] at h
    have h := List.append_cancel_left h
    unfold seconds at h
    rw [Option.map_some, Option.map_some, decI_inj (List.append_cancel_right h)]

theorem mtuW_inj {f g : FaceStatus} (h : mtuW f = mtuW g) : f.mtu = g.mtu := by
  unfold mtuW at h
  revert h
  rcases f.mtu with _ | d <;> rcases g.mtu with _ | e <;> intro h
  · rfl
  · cases h
  · cases h
  · simp only [Option.map_some, Option.toList_some, List.cons.injEq, and_true] at h
    rw [dec_inj (List.append_cancel_left h)]

theorem millis_inj {d e : Int} (h : millis d = millis e) : d.tdiv 1000000 = e.tdiv 1000000 := by
  unfold millis at h
  exact decI_inj (List.append_cancel_right h)

theorem conW_inj {f g : FaceStatus} (h : conW f = conW g) : f.interval.map (·.tdiv 1000000) = g.interval.map (·.tdiv 1000000) ∧ f.threshold = g.threshold := by
  unfold conW at h
  revert h
  rcases f.interval with _ | d <;> rcases f.threshold with _ | n <;> rcases g.interval with _ | e <;> rcases g.threshold with _ | m <;> intro h <;> dsimp only at h
  · exact ⟨rfl, rfl⟩
  all_goals first
    | (exact absurd (congrArg List.length h) (by simp only [List.length_cons, List.length_nil]; decide))
    | skip
  · have h := (List.cons.inj h).1
    rw [dec_inj (List.append_cancel_left (List.append_cancel_right h))]; exact ⟨rfl, rfl⟩
  · have h := congrArg (List.drop 12) (List.cons.inj h).1
    exact absurd (congrArg List.head? h) (by intro h; cases h)
  · have h := congrArg (List.drop 12) (List.cons.inj h).1
    exact absurd (congrArg List.head? h) (by intro h; cases h)
  · have h := (List.cons.inj h).1
    have h := List.append_cancel_left (List.append_cancel_right h)
    rw [Option.map_some, Option.map_some, millis_inj h]; exact ⟨rfl, rfl⟩
  · have h1 := (List.cons.inj h).1
    have h2 := (List.cons.inj (List.cons.inj h).2).1
    rw [Option.map_some, Option.map_some, millis_inj (List.append_cancel_left h1), dec_inj (List.append_cancel_left (List.append_cancel_right h2))]; exact ⟨rfl, rfl⟩

theorem face_same {f g : FaceStatus} (hf : WordsFace f) (hg : WordsFace g) (h : faceText f = faceText g) : SameFace f g := by
  have hw : words f = words g := by
    apply sep_inj (d := ' ') (s := []) (fun w hw => (words_word hf w hw).1) (fun w hw => (words_word hg w hw).1)
    apply List.append_cancel_right (bs := ['}'])
    rw [← face_words, ← face_words, h]
  unfold words at hw
  simp only [List.cons_append, List.nil_append, List.cons.injEq] at hw
  obtain ⟨a1, a2, a3, hw⟩ := hw
  have hE := kind_cut (fun w => w.head? == some 'e') (expW_kind f) (expW_kind g) (rest1 f) (rest1 g) hw
  have hC := kind_cut conKind (conW_kind f) (conW_kind g) (rest2 f) (rest2 g) hE.2
  have hM := kind_cut (fun w => w.head? == some 'm') (mtuW_kind f) (mtuW_kind g) (rest3 f) (rest3 g) hC.2
  have hK := hM.2
  simp only [cntW, flgW, List.cons_append, List.nil_append, List.cons.injEq, List.append_assoc] at hK
  obtain ⟨k1, k2, k3, k4, k5, k6, k7, k8, g1, g2, g3, hF⟩ := hK
  have hc := conW_inj hC.1
  refine ⟨dec_inj (List.append_cancel_left a1), List.append_cancel_left a2, List.append_cancel_left a3, expW_inj hE.1, hc.1, hc.2, mtuW_inj hM.1,
    dec_inj (List.append_cancel_right (List.append_cancel_left k1)), dec_inj (List.append_cancel_right k2), dec_inj (List.append_cancel_right k3),
    dec_inj (List.append_cancel_right k4), dec_inj (List.append_cancel_right (List.append_cancel_left k5)), dec_inj (List.append_cancel_right k6),
    dec_inj (List.append_cancel_right k7), dec_inj (List.append_cancel_right k8), List.append_cancel_left g1, g2, g3, ?_⟩
  have key : bit f.flags 0 = bit g.flags 0 ∧ bit f.flags 1 = bit g.flags 1 ∧ bit f.flags 2 = bit g.flags 2 := by
    revert hF
    generalize bit f.flags 0 = a; generalize bit f.flags 1 = b; generalize bit f.flags 2 = c
    generalize bit g.flags 0 = a'; generalize bit g.flags 1 = b'; generalize bit g.flags 2 = c'
    revert a b c a' b' c'
    decide +kernel
  intro i hi
  match i, hi with
  | 0, _ => exact key.1
  | 1, _ => exact key.2.1
  | 2, _ => exact key.2.2

end Verif.Nfdc.TextList
