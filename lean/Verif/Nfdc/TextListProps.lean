import Verif.Nfdc.TextListFace
/-! # C131: what the text lists of nfdc tell

Whoever reads `nfdc face list`, `fib list`, `route list`, `strategy list` or `channel list` can tell what the forwarder reported: two datasets that print the same are the same,
item by item and in the order of the dataset, up to the precision of the times and the flags that are not known. So no item is left out, shown twice or shown with
what belongs to another one. -/
namespace Verif.Nfdc.TextList

open Report

/-- Faces. The URIs must be words: see `C131_blanks` for those that are not. -/
theorem C131_faces_partial {l m : List FaceStatus} (hl : ∀ f ∈ l, WordsFace f) (hm : ∀ f ∈ m, WordsFace f) (h : facesText l = facesText m) : Alike SameFace l m :=
  (lines_inj (fun f hf => face_line (hl f hf)) (fun f hf => face_line (hm f hf)) (List.append_cancel_left h)).mono
    (fun f g e => face_same (hl f e.1) (hm g e.2.1) e.2.2)

theorem hop_inj {a b : Nat × Nat} (h : hopText a = hopText b) : a = b := by
  unfold hopText at h
  simp only [List.append_assoc] at h
  have h := List.append_cancel_left h
  have e := cut (d := ' ') (word_dec a.1).1 (word_dec b.1).1 h
  have e2 := List.append_cancel_right (List.append_cancel_left (as := lit "(cost=") e.2)
  exact Prod.ext (dec_inj e.1) (dec_inj e2)

theorem dec_no {c : Char} (hc : ¬ (48 ≤ c.toNat ∧ c.toNat ≤ 57)) (n : Nat) : c ∉ dec n := fun h => hc (dec_digit h)
theorem decI_no {c : Char} (hc : ¬ (c = '-' ∨ (48 ≤ c.toNat ∧ c.toNat ≤ 57))) (n : Int) : c ∉ decI n := fun h => hc (decI_mem h)

theorem no_append {c : Char} {a b : Str} (ha : c ∉ a) (hb : c ∉ b) : c ∉ a ++ b := fun h => (List.mem_append.mp h).elim ha hb

theorem hop_no {c : Char} (hc : ¬ (48 ≤ c.toNat ∧ c.toNat ≤ 57)) (h : c ∉ lit "faceid= (cost=)") (a : Nat × Nat) : c ∉ hopText a := by
  have hd : ∀ n, c ∉ dec n := dec_no hc
  have e : lit "faceid= (cost=)" = lit "faceid=" ++ (lit " (cost=" ++ lit ")") := rfl
  rw [e] at h
  simp only [List.mem_append, not_or] at h
  exact no_append (no_append (no_append (no_append h.1 (hd _)) h.2.1) (hd _)) h.2.2

/-- FIB entries with their nexthops. -/
theorem C131_fib {l m : List FibItem} (hl : ∀ i ∈ l, Word i.prefix_) (hm : ∀ i ∈ m, Word i.prefix_) (h : fibText l = fibText m) : l = m := by
  have line : ∀ i : FibItem, Word i.prefix_ → '\n' ∉ fibItemText i := by
    intro i hi
    refine no_append (no_append (no_append hi.2 (by decide)) (sep_mem (by decide) ?_)) (by decide)
    intro x hx
    obtain ⟨a, _, rfl⟩ := List.mem_map.mp hx
    exact hop_no (by decide) (by decide) a
  refine ((lines_inj (fun i hi => line i (hl i hi)) (fun i hi => line i (hm i hi)) (List.append_cancel_left h)).mono ?_).eq
  rintro ⟨p, hp⟩ ⟨q, hq⟩ ⟨h1, h2, e⟩
  simp only [fibItemText, List.append_assoc] at e
  have c := cut (d := ' ') (hl _ h1).1 (hm _ h2).1 e
  have c2 := List.append_cancel_right (List.append_cancel_left (as := lit "nexthops={") c.2)
  have hh : ∀ l : List (Nat × Nat), ∀ x ∈ l.map hopText, ',' ∉ x ∧ x ≠ [] := by
    intro l x hx
    obtain ⟨a, _, rfl⟩ := List.mem_map.mp hx
    exact ⟨hop_no (by decide) (by decide) a, fun h => by cases h⟩
  have c3 := ((Alike.map (sep_inj_first (hh hp) (hh hq) c2)).mono (fun a b h => hop_inj h.2.2)).eq
  rw [FibItem.mk.injEq]
  exact ⟨c.1, c3⟩

def expiresText : Option Int → Str
  | some d => decI d ++ lit "s"
  | none => lit "never"

theorem expiresText_inj {a b : Option Int} (h : expiresText a = expiresText b) : a = b := by
  rcases a with _ | a <;> rcases b with _ | b
  · rfl
  · have hm : 'n' ∈ decI b ++ lit "s" := by rw [← show expiresText (some b) = decI b ++ lit "s" from rfl, ← h]; decide
    exact absurd hm (no_append (decI_no (by decide) b) (by decide))
  · have hm : 'n' ∈ decI a ++ lit "s" := by rw [← show expiresText (some a) = decI a ++ lit "s" from rfl, h]; decide
    exact absurd hm (no_append (decI_no (by decide) a) (by decide))
  · rw [decI_inj (List.append_cancel_right h)]

theorem expiresText_no {c : Char} (h : ¬ (c = '-' ∨ (48 ≤ c.toNat ∧ c.toNat ≤ 57))) (h2 : c ∉ lit "snever") : ∀ o, c ∉ expiresText o
  | some d => no_append (decI_no h d) (fun hm => h2 (by revert hm; show c ∈ ['s'] → c ∈ 's' :: lit "never"; simp; exact fun h => .inl h))
  | none => fun hm => h2 (List.mem_cons_of_mem _ hm)

def routeWords (fl : Nat → Str) (r : RouteItem) : List Str :=
  [lit "nexthop=" ++ dec r.face, lit "origin=" ++ r.origin, lit "cost=" ++ dec r.cost, lit "flags=" ++ fl r.flags, lit "expires=" ++ expiresText r.expires]

theorem route_words (fl : Nat → Str) (r : RouteItem) : ' ' :: routeText fl r = sepBy [' '] false (routeWords fl r) := by
  unfold routeText routeWords
  rw [attrs_true]
  rcases hr : r.expires with _ | d <;> rfl

theorem route_no {c : Char} {fl : Nat → Str} {r : RouteItem} (h1 : ¬ (c = '-' ∨ (48 ≤ c.toNat ∧ c.toNat ≤ 57))) (h2 : c ∉ lit "snever")
    (h3 : c ∉ lit "nexthop=" ∧ c ∉ lit "origin=" ∧ c ∉ lit "cost=" ∧ c ∉ lit "flags=" ∧ c ∉ lit "expires=") (ho : c ∉ r.origin) (hf : c ∉ fl r.flags) :
    ∀ w ∈ routeWords fl r, c ∉ w := by
  have hd : ∀ n, c ∉ dec n := dec_no (fun h => h1 (.inr h))
  intro w hw
  simp only [routeWords, List.mem_cons, List.not_mem_nil, or_false] at hw
  rcases hw with rfl | rfl | rfl | rfl | rfl
  · exact no_append h3.1 (hd _)
  · exact no_append h3.2.1 ho
  · exact no_append h3.2.2.1 (hd _)
  · exact no_append h3.2.2.2.1 hf
  · exact no_append h3.2.2.2.2 (expiresText_no h1 h2 _)

theorem route_same {fl : Nat → Str} {r s : RouteItem} (hr : Word r.origin ∧ Word (fl r.flags)) (hs : Word s.origin ∧ Word (fl s.flags))
    (h : routeText fl r = routeText fl s) : SameRoute fl r s := by
  have hw : routeWords fl r = routeWords fl s := by
    refine sep_inj (d := ' ') (s := []) (route_no (by decide) (by decide) (by decide) hr.1.1 hr.2.1) (route_no (by decide) (by decide) (by decide) hs.1.1 hs.2.1) ?_
    rw [← route_words, ← route_words, h]
  simp only [routeWords, List.cons.injEq, and_true] at hw
  obtain ⟨a, b, c, d, e⟩ := hw
  exact ⟨dec_inj (List.append_cancel_left a), List.append_cancel_left b, dec_inj (List.append_cancel_left c), List.append_cancel_left d, expiresText_inj (List.append_cancel_left e)⟩

theorem route_free {c : Char} {fl : Nat → Str} {r : RouteItem} (hc : c ≠ ' ') (h : ∀ w ∈ routeWords fl r, c ∉ w) : c ∉ routeText fl r := by
  intro hm
  have : c ∈ ' ' :: routeText fl r := List.mem_cons_of_mem _ hm
  rw [route_words] at this
  exact sep_mem (by simpa using hc) h this

/-- RIB entries with their routes. -/
theorem C131_rib {fl : Nat → Str} {l m : List RibItem} (hl : ∀ i ∈ l, WordsRib fl i) (hm : ∀ i ∈ m, WordsRib fl i) (h : ribText fl l = ribText fl m) :
    Alike (fun i j => i.prefix_ = j.prefix_ ∧ Alike (SameRoute fl) i.routes j.routes) l m := by
  have line : ∀ i : RibItem, WordsRib fl i → '\n' ∉ ribItemText fl i := by
    intro i hi
    refine no_append (no_append (no_append hi.1.2 (by decide)) (sep_mem (by decide) ?_)) (by decide)
    intro x hx
    obtain ⟨r, hr, rfl⟩ := List.mem_map.mp hx
    have := hi.2 r hr
    exact route_free (by decide) (route_no (by decide) (by decide) (by decide) this.1.2 this.2.2.1.2)
  refine (lines_inj (fun i hi => line i (hl i hi)) (fun i hi => line i (hm i hi)) (List.append_cancel_left h)).mono ?_
  rintro i j ⟨h1, h2, e⟩
  simp only [ribItemText, List.append_assoc] at e
  have c := cut (d := ' ') (hl _ h1).1.1 (hm _ h2).1.1 e
  have c2 := List.append_cancel_right (List.append_cancel_left (as := lit "routes={") c.2)
  have hh : ∀ i, WordsRib fl i → ∀ x ∈ i.routes.map (routeText fl), ',' ∉ x ∧ x ≠ [] := by
    intro i hi x hx
    obtain ⟨r, hr, rfl⟩ := List.mem_map.mp hx
    have := hi.2 r hr
    exact ⟨route_free (by decide) (route_no (by decide) (by decide) (by decide) this.2.1 this.2.2.2), fun h => by cases h⟩
  refine ⟨c.1, (Alike.map (sep_inj_first (hh i (hl i h1)) (hh j (hm j h2)) c2)).mono ?_⟩
  rintro r s ⟨hr, hs, e⟩
  have a := (hl i h1).2 r hr
  have b := (hm j h2).2 s hs
  exact route_same ⟨a.1, a.2.2.1⟩ ⟨b.1, b.2.2.1⟩ e

/-- Strategy choices. -/
theorem C131_strategies {l m : List (Str × Str)} (hl : ∀ i ∈ l, Word i.1 ∧ Word i.2) (hm : ∀ i ∈ m, Word i.1 ∧ Word i.2) (h : strategiesText l = strategiesText m) : l = m := by
  have e : ∀ i : Str × Str, strategyText i = lit "prefix=" ++ i.1 ++ ' ' :: (lit "strategy=" ++ i.2) := by
    intro i; simp [strategyText, attrs, lit]
  refine ((lines_inj (fun i hi => ?_) (fun i hi => ?_) (List.append_cancel_left h)).mono ?_).eq
  · rw [e]; exact no_append (no_append (by decide) (hl i hi).1.2) (no_append (a := lit " strategy=") (by decide) (hl i hi).2.2)
  · rw [e]; exact no_append (no_append (by decide) (hm i hi).1.2) (no_append (a := lit " strategy=") (by decide) (hm i hi).2.2)
  · rintro i j ⟨h1, h2, h⟩
    rw [e, e] at h
    have c := cut (d := ' ') (Word.append (by decide) (hl i h1).1).1 (Word.append (by decide) (hm j h2).1).1 h
    exact Prod.ext (List.append_cancel_left c.1) (List.append_cancel_left c.2)

/-- Channels: only ends of lines must not occur. -/
theorem C131_channels {l m : List Str} (hl : ∀ u ∈ l, '\n' ∉ u) (hm : ∀ u ∈ m, '\n' ∉ u) (h : channelsText l = channelsText m) : l = m :=
  ((lines_inj (t := fun u => u) hl hm (List.append_cancel_left h)).mono (fun _ _ h => h.2.2)).eq

/-- The violation: a URI is printed as it is, and one with blanks, such as the path of a Unix socket, can be taken for something else. Here are two faces with different URIs and
a list of two channels that looks like one of three. -/
theorem C131_blanks :
    (∃ f g : FaceStatus, f.remote ≠ g.remote ∧ f.local ≠ g.local ∧ facesText [f] = facesText [g]) ∧
    (∃ l m : List Str, l.length ≠ m.length ∧ channelsText l = channelsText m) := by
  refine ⟨⟨{ id := 1, remote := lit "fd://30", «local» := lit "unix:///a local=unix:///b", scope := lit "local", persistency := lit "on-demand", linkType := lit "point-to-point" },
    { id := 1, remote := lit "fd://30 local=unix:///a", «local» := lit "unix:///b", scope := lit "local", persistency := lit "on-demand", linkType := lit "point-to-point" },
    by decide, by decide, rfl⟩, ⟨[lit "udp4://10.0.0.1:6363", lit "unix:///a\n  unix:///b"], [lit "udp4://10.0.0.1:6363", lit "unix:///a", lit "unix:///b"], by decide, rfl⟩⟩

/-! Concrete lists. -/

theorem dec_small (n : Nat) (h : n < 10) : dec n = [digitChar n] := by rw [dec, if_pos h]
theorem dec_big (n : Nat) (h : ¬ n < 10) : dec n = dec (n / 10) ++ [digitChar (n % 10)] := by rw [dec, if_neg h]
theorem decI_nat (n : Nat) : decI n = dec n := by
  unfold decI; rw [if_neg (by omega)]; rfl

def exFib : List FibItem := [⟨lit "/a", [(1, 0), (262, 10)]⟩, ⟨lit "/b", []⟩]
theorem hop1 : hopText (1, 0) = lit "faceid=1 (cost=0)" := by
  unfold hopText; dsimp only
  rw [dec_small 0 (by decide), dec_small 1 (by decide)]; rfl
theorem d262 : dec 262 = lit "262" := by
  rw [dec_big 262 (by decide), dec_big (262 / 10) (by decide), dec_small (262 / 10 / 10) (by decide)]; rfl
theorem d10 : dec 10 = lit "10" := by
  rw [dec_big 10 (by decide), dec_small (10 / 10) (by decide)]; rfl
theorem hop2 : hopText (262, 10) = lit "faceid=262 (cost=10)" := by
  unfold hopText; dsimp only
  rw [d262, d10]; rfl
def exFibText : Str := lit "FIB:\n  /a nexthops={faceid=1 (cost=0), faceid=262 (cost=10)}\n  /b nexthops={}\n"
theorem fibEx : fibText exFib = exFibText := by
  have : exFib.flatMap (fun i => lit "  " ++ fibItemText i ++ ['\n']) = 
     (lit "  " ++ fibItemText ⟨lit "/a", [(1, 0), (262, 10)]⟩ ++ ['\n']) ++ (lit "  " ++ fibItemText ⟨lit "/b", []⟩ ++ ['\n'])  := rfl
  unfold fibText
  rw [this]
  unfold fibItemText
  dsimp only [List.map]
  rw [hop1, hop2]
  decide +kernel

def exFace : FaceStatus :=
  { id := 5, remote := lit "udp4://10.0.0.2:6363", «local» := lit "udp4://10.0.0.1:6363", expires := some 4500000000, threshold := some 7, scope := lit "non-local",
    persistency := lit "on-demand", linkType := lit "point-to-point", flags := 2 }

def exFaceText : Str :=
  lit "Faces:\n  faceid=5 remote=udp4://10.0.0.2:6363 local=udp4://10.0.0.1:6363 expires=4s congestion={default-threshold=7B} counters={in={0i 0d 0n 0B} out={0i 0d 0n 0B}} flags={non-local on-demand point-to-point lp-reliability}\n"

theorem exSeconds : seconds 4500000000 = lit "4s" := by
  unfold seconds
  rw [show (4500000000 : Int).tdiv 1000000000 = ((4 : Nat) : Int) from by decide, decI_nat, dec_small 4 (by decide)]; rfl

theorem exCounters : counters exFace = lit "{in={0i 0d 0n 0B} out={0i 0d 0n 0B}}" := by
  unfold counters exFace; dsimp only
  rw [dec_small 0 (by decide)]
  decide +kernel

theorem exCongestion : congestion exFace = some (lit "{default-threshold=7B}") := by
  unfold congestion exFace; dsimp only [Option.map_some, Option.map_none]
  rw [dec_small 7 (by decide)]
  decide +kernel

theorem exFaces : facesText [exFace] = exFaceText := by
  have e : [exFace].flatMap (fun i => lit "  " ++ faceText i ++ ['\n']) = lit "  " ++ faceText exFace ++ ['\n'] := by
    rw [List.flatMap_cons, List.flatMap_nil, List.append_nil]
  unfold facesText
  rw [e]
  unfold faceText faceAttrs
  rw [exCounters, exCongestion]
  unfold exFace
  dsimp only [Option.map]
  rw [exSeconds, dec_small 5 (by decide)]
  decide +kernel

example : WordsFace exFace := by unfold WordsFace; decide
example : ∃ l m : List FibItem, (∀ i ∈ l, Word i.prefix_) ∧ (∀ i ∈ m, Word i.prefix_) ∧ fibText l ≠ fibText m :=
  ⟨[⟨lit "/a", []⟩], [], by decide, by decide, by decide⟩

def exFl (n : Nat) : Str := if n = 1 then lit "child-inherit" else lit "none"
example : ribText exFl [⟨lit "/a", [⟨7, lit "static", 3, 1, some 20⟩, ⟨8, lit "app", 0, 0, none⟩]⟩] =
    lit "RIB:\n  /a routes={nexthop=7 origin=static cost=3 flags=child-inherit expires=20s, nexthop=8 origin=app cost=0 flags=none expires=never}\n" := by
  have h : decI 20 = lit "20" := by
    rw [show (20 : Int) = ((20 : Nat) : Int) from rfl, decI_nat, dec_big 20 (by decide), dec_small (20 / 10) (by decide)]; rfl
  simp only [ribText, ribItemText, routeText, List.map_cons, List.map_nil, List.flatMap_cons, List.flatMap_nil]
  rw [h, dec_small 7 (by decide), dec_small 3 (by decide), dec_small 8 (by decide), dec_small 0 (by decide)]
  decide +kernel
example : WordsRib exFl ⟨lit "/a", [⟨7, lit "static", 3, 1, some 20⟩, ⟨8, lit "app", 0, 0, none⟩]⟩ := by unfold WordsRib; decide

example : strategiesText [(lit "/", lit "/localhost/nfd/strategy/best-route/v=5")] = lit "Strategy choices:\n  prefix=/ strategy=/localhost/nfd/strategy/best-route/v=5\n" := rfl

end Verif.Nfdc.TextList
