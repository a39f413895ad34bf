import Mathlib.Data.Finset.Card
import Mathlib.Data.Finset.SymmDiff
import Mathlib.Tactic.Linarith
import Verif.Lsd.Draw

/-!
# Drawing and comparing segments

Specification of property C118.
-/

namespace Verif.Lsd.Draw

open Verif (Outcome)

/-- The pixels of an image on which a list of segments is drawn. -/
def pixels (raster : Raster) (w h : Nat) (l : List Seg) : Finset Nat :=
  (Finset.range (w * h)).filter fun k => ∃ s ∈ l, raster w h s k = true

private theorem any_iff (raster : Raster) (w h : Nat) (l : List Seg) (k : Nat) :
    (l.any fun s => raster w h s k) = true ↔ ∃ s ∈ l, raster w h s k = true := by
  rw [List.any_eq_true]

private theorem drawn_ofVector (l : List Seg) : (ofVector l).drawn = l := List.take_length

private theorem drawn_ofMat (l : List Seg) : (ofMat l).drawn = l.take 1 := by
  unfold ofMat LineMat.drawn
  by_cases h : l = []
  · simp [h]
  · simp [h]

private theorem lit_ne (raster : Raster) (w h : Nat) (m : LineMat) (k : Nat) :
    lit raster w h m k ≠ 0 ↔ ∃ s ∈ m.drawn, raster w h s k = true := by
  unfold lit
  rw [← any_iff]
  by_cases hk : (m.drawn.any fun s => raster w h s k) = true
  · rw [if_pos hk]
    simp [hk]
  · rw [if_neg hk]
    simp [hk]

private theorem disagree_card (raster : Raster) (w h : Nat) (m m' : LineMat) :
    disagree w h (lit raster w h m) (lit raster w h m') =
      (symmDiff (pixels raster w h m.drawn) (pixels raster w h m'.drawn)).card := by
  unfold disagree
  rw [List.countP_eq_length_filter]
  have hnd : ((List.range (w * h)).filter fun k =>
      decide ((lit raster w h m k ^^^ lit raster w h m' k) ≠ 0)).Nodup := List.nodup_range.filter _
  rw [← List.toFinset_card_of_nodup hnd]
  congr 1
  ext k
  rw [List.mem_toFinset, List.mem_filter, List.mem_range, Finset.mem_symmDiff, decide_eq_true_iff]
  simp only [pixels, Finset.mem_filter, Finset.mem_range, ← lit_ne]
  have hv : ∀ m : LineMat, lit raster w h m k = 0 ∨ lit raster w h m k = 255 := by
    intro m
    unfold lit
    by_cases hk : (m.drawn.any fun s => raster w h s k) = true
    · rw [if_pos hk]
      exact Or.inr rfl
    · rw [if_neg hk]
      exact Or.inl rfl
  rcases hv m with a | a <;> rcases hv m' with b | b <;> rw [a, b] <;> simp

/-! ### Comparing -/

/-- The count is the number of pixels on which segments of one of the lists are drawn but none of the other. -/
theorem compare_count (raster : Raster) (w h : Nat) (hs : w * h ≠ 0) (l l' : List Seg) :
    compareSegments raster w h (ofVector l) (ofVector l') none =
      .ok ((symmDiff (pixels raster w h l) (pixels raster w h l')).card, none) := by
  simp only [compareSegments]
  rw [if_neg hs, disagree_card, drawn_ofVector, drawn_ofVector]

/-- Segments of one pixel. -/
example : compareSegments (fun w _ s k => s.1 = s.2 ∧ (k : Int) = s.1.2 * w + s.1.1) 3 2
    (ofVector [((0, 0), (0, 0)), ((1, 1), (1, 1))]) (ofVector [((1, 1), (1, 1)), ((2, 1), (2, 1))]) none =
      .ok (2, none) := by
  rw [compare_count _ _ _ (by decide)]
  exact congrArg (fun n => Outcome.ok (n, none)) (by decide)

/-- Lists with the same segments, in any order and however often, are equal. -/
theorem compare_same (raster : Raster) (w h : Nat) (hs : w * h ≠ 0) (l l' : List Seg) (hl : ∀ s, s ∈ l ↔ s ∈ l') :
    compareSegments raster w h (ofVector l) (ofVector l') none = .ok (0, none) := by
  rw [compare_count raster w h hs]
  have : pixels raster w h l = pixels raster w h l' := by
    unfold pixels
    simp only [hl]
  rw [this, symmDiff_self]
  rfl

example : (3 * 2 ≠ 0) ∧ ∀ s : Seg, s ∈ [((0, 0), (1, 1)), ((2, 2), (3, 3))] ↔
    s ∈ [((2, 2), (3, 3)), ((0, 0), (1, 1)), ((2, 2), (3, 3))] := by
  refine ⟨by decide, fun s => ?_⟩
  simp only [List.mem_cons, List.not_mem_nil, or_false]
  tauto

/-- The order of the two lists does not matter. -/
theorem compare_symm (raster : Raster) (w h : Nat) (m m' : LineMat) :
    compareSegments raster w h m m' none = compareSegments raster w h m' m none := by
  simp only [compareSegments]
  by_cases hs : w * h = 0
  · rw [if_pos hs, if_pos hs]
  · rw [if_neg hs, if_neg hs, disagree_card, disagree_card, symmDiff_comm]

/-- The counts satisfy the triangle inequality and are at most the number of pixels. -/
theorem compare_triangle (raster : Raster) (w h : Nat) (m1 m2 m3 : LineMat) (a b c : Nat)
    (h12 : compareSegments raster w h m1 m2 none = .ok (a, none))
    (h23 : compareSegments raster w h m2 m3 none = .ok (b, none))
    (h13 : compareSegments raster w h m1 m3 none = .ok (c, none)) : c ≤ a + b ∧ a ≤ w * h := by
  have key : ∀ (m m' : LineMat) (n : Nat), compareSegments raster w h m m' none = .ok (n, none) →
      n = (symmDiff (pixels raster w h m.drawn) (pixels raster w h m'.drawn)).card := by
    intro m m' n hn
    simp only [compareSegments] at hn
    by_cases hs : w * h = 0
    · rw [if_pos hs] at hn
      cases hn
    · rw [if_neg hs, disagree_card] at hn
      injection hn with hn
      injection hn with hn
      exact hn.symm
  rw [key _ _ _ h12, key _ _ _ h23, key _ _ _ h13]
  refine ⟨le_trans (Finset.card_le_card (symmDiff_triangle _ (pixels raster w h m2.drawn) _)) (Finset.card_union_le _ _), ?_⟩
  refine le_trans (Finset.card_le_card (t := Finset.range (w * h)) ?_) (le_of_eq (Finset.card_range _))
  intro k hk
  rw [Finset.mem_symmDiff] at hk
  simp only [pixels, Finset.mem_filter] at hk
  rcases hk with hk | hk
  · exact hk.1.1
  · exact hk.1.1

example : ∃ a, compareSegments (fun _ _ _ _ => true) 2 2 (ofVector []) (ofVector [((0, 0), (1, 1))]) none =
    .ok (a, none) := ⟨_, compare_count _ 2 2 (by decide) _ _⟩

/-- With an image its size counts and not the size given. Pixels without segments are left as they are; the others are blue
for the first list, red for the second and purple for both. -/
theorem compare_overlay (raster : Raster) (w h : Nat) (l l' : List Seg) (im : Image) (hc : im.channels = 3)
    (hcont : im.continuous = true) (hs : im.width * im.height ≠ 0) :
    ∃ im', compareSegments raster w h (ofVector l) (ofVector l') (some im) =
        .ok ((symmDiff (pixels raster im.width im.height l) (pixels raster im.width im.height l')).card, some im') ∧
      im'.channels = 3 ∧ im'.width = im.width ∧ im'.height = im.height ∧
      ∀ k < im.width * im.height,
        (k ∉ pixels raster im.width im.height l → k ∉ pixels raster im.width im.height l' → im'.px k = im.px k) ∧
        (k ∈ pixels raster im.width im.height l → k ∉ pixels raster im.width im.height l' → im'.px k = (255, 0, 0)) ∧
        (k ∉ pixels raster im.width im.height l → k ∈ pixels raster im.width im.height l' → im'.px k = (0, 0, 255)) ∧
        (k ∈ pixels raster im.width im.height l → k ∈ pixels raster im.width im.height l' → im'.px k = (255, 0, 255)) := by
  refine ⟨{ im with px := overlay (lit raster im.width im.height (ofVector l))
                                (lit raster im.width im.height (ofVector l')) im.px }, ?_, hc, rfl, rfl, ?_⟩
  · simp only [compareSegments]
    rw [if_neg hs, if_neg (not_not.2 hc), if_neg (by simp [hcont]), disagree_card, drawn_ofVector, drawn_ofVector]
  · intro k hk
    have hm : ∀ l, k ∈ pixels raster im.width im.height l ↔ lit raster im.width im.height (ofVector l) k ≠ 0 := by
      intro l
      rw [lit_ne, drawn_ofVector]
      simp [pixels, hk]
    simp only [hm, overlay]
    refine ⟨?_, ?_, ?_, ?_⟩
    · intro a b
      rw [if_neg (by simp only [not_or]; exact ⟨a, b⟩)]
    · intro a b
      rw [if_pos (Or.inl a), if_pos a, if_neg b]
    · intro a b
      rw [if_pos (Or.inr b), if_neg a, if_pos b]
    · intro a b
      rw [if_pos (Or.inl a), if_pos a, if_pos b]

example : ((⟨3, 2, 2, true, fun _ => (0, 0, 0)⟩ : Image).width * 2 ≠ 0) := by decide

/-- Segments in a matrix as `detect` makes it: only the first of each is compared. Two lists that differ in everything but
the first segment are found to be equal. -/
theorem compare_mat_refuted (raster : Raster) (w h : Nat) (hs : w * h ≠ 0) (s : Seg) (l l' : List Seg) :
    compareSegments raster w h (ofMat (s :: l)) (ofMat (s :: l')) none = .ok (0, none) := by
  simp only [compareSegments]
  rw [if_neg hs, disagree_card, drawn_ofMat, drawn_ofMat]
  simp

/-- While a count of segments in vectors is positive. -/
example : compareSegments (fun w _ s k => s.1 = s.2 ∧ (k : Int) = s.1.2 * w + s.1.1) 3 2
    (ofVector [((0, 0), (0, 0)), ((1, 1), (1, 1))]) (ofVector [((0, 0), (0, 0))]) none = .ok (1, none) := by
  rw [compare_count _ _ _ (by decide)]
  exact congrArg (fun n => Outcome.ok (n, none)) (by decide)

/-- Without an image, `showSegments` throws for every two lists of segments: the image made has one channel. -/
theorem show_both_refuted (raster : Raster) (w h : Nat) (l l' : List Seg) : showBoth raster w h l l' none = .exc := by
  simp only [showBoth, compareSegments]
  by_cases hs : w * h = 0
  · rw [if_pos hs]
  · rw [if_neg hs, if_pos (by decide)]

/-- With an image of three channels it shows what `compareSegments` makes of a copy. -/
theorem show_both (raster : Raster) (w h : Nat) (l l' : List Seg) (im : Image) :
    showBoth raster w h l l' (some im) =
      compareSegments raster w h (ofVector l) (ofVector l') (some { im with continuous := true }) := rfl

/-- Images of one channel and empty images throw. -/
theorem compare_throws (raster : Raster) (w h : Nat) (m m' : LineMat) (im : Image)
    (hi : im.channels ≠ 3 ∨ im.continuous = false ∨ im.width * im.height = 0) :
    compareSegments raster w h m m' (some im) = .exc := by
  simp only [compareSegments]
  by_cases hs : im.width * im.height = 0
  · rw [if_pos hs]
  · rw [if_neg hs]
    by_cases hc : im.channels = 3
    · rw [if_neg (not_not.2 hc)]
      rcases hi with hi | hi | hi
      · exact absurd hc hi
      · rw [if_pos hi]
      · exact absurd hi hs
    · rw [if_pos hc]

example : (⟨1, 2, 2, true, fun _ => (0, 0, 0)⟩ : Image).channels ≠ 3 := by decide

/-! ### Drawing -/

/-- The image becomes one of three channels with the same size: red where a segment is drawn, grey elsewhere. -/
theorem draw_spec (raster : Raster) (gray : Nat × Nat × Nat → Nat) (im : Image) (l : List Seg)
    (hs : im.width * im.height ≠ 0) (hc : im.channels = 1 ∨ im.channels = 3) :
    ∃ im', drawSegments raster gray im (ofVector l) = .ok im' ∧ im'.channels = 3 ∧ im'.width = im.width ∧
      im'.height = im.height ∧
      ∀ k < im.width * im.height,
        (k ∈ pixels raster im.width im.height l → im'.px k = (0, 0, 255)) ∧
        (k ∉ pixels raster im.width im.height l → ∃ g, im'.px k = (g, g, g) ∧
          (im.channels = 1 → g = (im.px k).1) ∧ (im.channels = 3 → g = gray (im.px k))) := by
  unfold drawSegments
  rw [if_neg (by
    rintro (h | h)
    · exact hs h
    · rcases hc with hc | hc
      · exact h.1 hc
      · exact h.2 hc)]
  refine ⟨_, rfl, rfl, rfl, rfl, ?_⟩
  intro k hk
  have hm : k ∈ pixels raster im.width im.height l ↔
      ((ofVector l).drawn.any fun s => raster im.width im.height s k) = true := by
    rw [any_iff, drawn_ofVector]
    simp [pixels, hk]
  rw [hm]
  constructor
  · intro h
    simp only [if_pos h]
  · intro h
    simp only [if_neg h]
    refine ⟨_, rfl, fun h1 => by rw [if_pos h1], fun h3 => by rw [if_neg (by omega)]⟩

example : ((⟨1, 2, 2, true, fun _ => (7, 0, 0)⟩ : Image).channels = 1) := rfl

/-- Of the segments in a matrix as `detect` makes it, only the first is drawn. -/
theorem draw_mat_refuted (raster : Raster) (gray : Nat × Nat × Nat → Nat) (im : Image) (s : Seg) (l : List Seg) :
    drawSegments raster gray im (ofMat (s :: l)) = drawSegments raster gray im (ofVector [s]) := by
  unfold drawSegments
  rw [drawn_ofMat, drawn_ofVector]
  rfl

/-- Drawing on a picture in colour turns it grey, even without any segments. -/
theorem draw_colour_refuted : ∃ (im im' : Image), drawSegments (fun _ _ _ _ => false) (fun c => c.1) im (ofVector []) =
    .ok im' ∧ im.channels = 3 ∧ im.px 0 ≠ im'.px 0 :=
  ⟨⟨3, 1, 1, true, fun _ => (1, 2, 3)⟩, _, rfl, rfl, by decide⟩

/-- What is shown of one list of segments, for a part of a larger image as well: the segments in red, the rest in grey. -/
theorem show_spec (raster : Raster) (gray : Nat × Nat × Nat → Nat) (im : Image) (l : List Seg)
    (hs : im.width * im.height ≠ 0) (hc : im.channels = 1 ∨ im.channels = 3) :
    ∃ im', showSegments raster gray im l = .ok im' ∧ im'.channels = 3 ∧ im'.width = im.width ∧
      im'.height = im.height ∧
      ∀ k < im.width * im.height,
        (k ∈ pixels raster im.width im.height l → im'.px k = (0, 0, 255)) ∧
        (k ∉ pixels raster im.width im.height l → ∃ g, im'.px k = (g, g, g) ∧
          (im.channels = 1 → g = (im.px k).1) ∧ (im.channels = 3 → g = gray (im.px k))) :=
  draw_spec raster gray { im with continuous := true } l hs hc

/-- What is shown of two lists of segments: the count, and the image with both, for a part of a larger image as well,
for which `compareSegments` throws. -/
theorem show_both_spec (raster : Raster) (w h : Nat) (l l' : List Seg) (im : Image) (hc : im.channels = 3)
    (hs : im.width * im.height ≠ 0) :
    ∃ im', showBoth raster w h l l' (some im) =
        .ok ((symmDiff (pixels raster im.width im.height l) (pixels raster im.width im.height l')).card, some im') ∧
      im'.channels = 3 ∧ im'.width = im.width ∧ im'.height = im.height ∧
      ∀ k < im.width * im.height,
        (k ∉ pixels raster im.width im.height l → k ∉ pixels raster im.width im.height l' → im'.px k = im.px k) ∧
        (k ∈ pixels raster im.width im.height l → k ∉ pixels raster im.width im.height l' → im'.px k = (255, 0, 0)) ∧
        (k ∉ pixels raster im.width im.height l → k ∈ pixels raster im.width im.height l' → im'.px k = (0, 0, 255)) ∧
        (k ∈ pixels raster im.width im.height l → k ∈ pixels raster im.width im.height l' → im'.px k = (255, 0, 255)) :=
  compare_overlay raster w h l l' { im with continuous := true } hc rfl hs

example : (⟨3, 2, 2, false, fun _ => (0, 0, 0)⟩ : Image).channels = 3 ∧
    (⟨3, 2, 2, false, fun _ => (0, 0, 0)⟩ : Image).width * 2 ≠ 0 := by decide

/-! ### The outputs of the detection -/

/-- Every output that is asked for has an entry for each segment, in the same order. -/
theorem detect_outputs (empty : Bool) (channels doRefine : Nat) (wn pn nn : Bool) (found : List Found)
    (segs : List Seg) (ws ps ns : Option (List Rat))
    (h : detect empty channels doRefine wn pn nn found = .ok (segs, ws, ps, ns)) :
    segs = found.map Found.seg ∧
      (wn = true → ws = some (found.map Found.width)) ∧ (wn = false → ws = none) ∧
      (pn = true → ps = some (found.map Found.prec)) ∧ (pn = false → ps = none) ∧
      (nn = true → ns = some (found.map Found.nfa) ∧ 2 ≤ doRefine) ∧ (nn = false → ns = none) := by
  unfold detect at h
  by_cases h1 : empty = true ∨ channels ≠ 1
  · rw [if_pos h1] at h
    cases h
  · rw [if_neg h1] at h
    by_cases h2 : nn = true ∧ doRefine < 2
    · rw [if_pos h2] at h
      cases h
    · rw [if_neg h2] at h
      injection h with h
      injection h with a h
      injection h with b h
      injection h with c d
      refine ⟨a.symm, ?_, ?_, ?_, ?_, ?_, ?_⟩
      · rintro rfl
        rw [← b]
        rfl
      · rintro rfl
        rw [← b]
        rfl
      · rintro rfl
        rw [← c]
        rfl
      · rintro rfl
        rw [← c]
        rfl
      · rintro rfl
        refine ⟨by rw [← d]; rfl, ?_⟩
        by_contra hlt
        exact h2 ⟨rfl, by omega⟩
      · rintro rfl
        rw [← d]
        rfl

example : detect false 1 2 true false true [⟨((0, 0), (1, 1)), 2, 1, 3⟩] =
    .ok ([((0, 0), (1, 1))], some [2], none, some [3]) := rfl

/-- The detection throws exactly for empty images, images of several channels, and if the numbers of false alarms are asked
for without the advanced refinement. -/
theorem detect_throws (empty : Bool) (channels doRefine : Nat) (wn pn nn : Bool) (found : List Found) :
    detect empty channels doRefine wn pn nn found = .exc ↔
      empty = true ∨ channels ≠ 1 ∨ (nn = true ∧ doRefine < 2) := by
  unfold detect
  by_cases h1 : empty = true ∨ channels ≠ 1
  · rw [if_pos h1]
    simp only [true_iff]
    rcases h1 with h1 | h1
    · exact Or.inl h1
    · exact Or.inr (Or.inl h1)
  · rw [if_neg h1]
    by_cases h2 : nn = true ∧ doRefine < 2
    · rw [if_pos h2]
      simp only [true_iff]
      exact Or.inr (Or.inr h2)
    · rw [if_neg h2]
      constructor
      · intro h
        cases h
      · rintro (h | h | h)
        · exact absurd (Or.inl h) h1
        · exact absurd (Or.inr h) h1
        · exact absurd h h2

end Verif.Lsd.Draw
