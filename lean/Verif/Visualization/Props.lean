import Verif.Visualization.Model
import Verif.VisualFrame.Props

/-!
# Drawing keypoints and matches

Specification of property C119.
-/

namespace Verif.Visualization

open Verif (Outcome)
open Verif.VisualFrame

private theorem bind_okay {α β : Type _} (x : α) (f : α → Outcome β) : (Outcome.ok x).bind f = f x := rfl

private theorem bind_eq {α β : Type _} {x : Outcome α} {f : α → Outcome β} {b : β} (h : x.bind f = .ok b) :
    ∃ a, x = .ok a ∧ f a = .ok b := by
  cases x with
  | ok a => exact ⟨a, rfl, h⟩
  | abort => cases h
  | ub => cases h
  | exc => cases h

/-- A frame of which the first block of a type is the block `b` with keypoints `ks`, in the channel `d` of all keypoints. -/
structure Has (f : Frame) (t : Int) (ks : List Int) : Prop where
  found : ∃ (blocks : List (List Desc)) (ts d : List Int) (b : Nat) (blk : List Desc),
    f.descriptors = some blocks ∧ f.types = some ts ∧ f.chan .measurements = some d ∧
      blocks.length = ts.length ∧ (blocks.map List.length).sum ≤ d.length ∧
      ts[b]? = some t ∧ (∀ k, k < b → ts[k]? ≠ some t) ∧ blocks[b]? = some blk ∧
      ks = (d.drop ((blocks.take b).map List.length).sum).take blk.length

private theorem ofType_ok {f : Frame} {t : Int} {ks : List Int} (h : Has f t ks) :
    numOfType f t = .ok ks.length ∧ chanOfType f .measurements t = .ok ks := by
  obtain ⟨blocks, ts, d, b, blk, hd, ht, hc, hlen, htot, htb, hfirst, hblk, hks⟩ := h.found
  have hm : TypesMatch f := by
    refine ⟨by rw [hd, ht]; rfl, ?_⟩
    intro bs ts' h1 h2
    rw [hd] at h1
    rw [ht] at h2
    injection h1 with h1
    injection h2 with h2
    rw [← h1, ← h2]
    exact hlen
  have hbk : typeBlock f t = .ok b := by
    rcases typeBlock_first ht t with ⟨hn, -⟩ | ⟨b', e, hb', hno⟩
    · exact absurd (List.mem_of_getElem? htb) hn
    · rw [e]
      rcases Nat.lt_trichotomy b b' with hlt | heq | hgt
      · exact absurd htb (hno b hlt)
      · rw [heq]
      · exact absurd hb' (hfirst b' hgt)
  have hseg := chanOfType_segment hm hd ht hc htot t
  have hstart : VisualFrame.start blocks b = ((blocks.take b).map List.length).sum := rfl
  rcases hseg with ⟨hn, -⟩ | ⟨b', blk', seg, h1, h2, h3, h4, h5, h6, -⟩
  · exact absurd (List.mem_of_getElem? htb) hn
  · have hbb : b' = b := by
      rcases Nat.lt_trichotomy b b' with hlt | heq | hgt
      · exact absurd htb (h3 b hlt)
      · exact heq.symm
      · exact absurd h2 (hfirst b' hgt)
    rw [hbb, hblk] at h1
    injection h1 with h1
    subst h1
    subst hbb
    have hsum : VisualFrame.start blocks b' + blk.length ≤ d.length := by
      have hmono : VisualFrame.start blocks b' + blk.length ≤ (blocks.map List.length).sum := by
        have hlt : b' < blocks.length := (List.getElem?_eq_some_iff.1 hblk).1
        have hge : blocks[b'] = blk := (List.getElem?_eq_some_iff.1 hblk).2
        conv_rhs => rw [← List.take_append_drop b' blocks, List.map_append, List.sum_append]
        rw [hstart, List.drop_eq_getElem_cons hlt, hge]
        simp only [List.map_cons, List.sum_cons]
        omega
      omega
    have hklen : ks.length = blk.length := by
      rw [hks, List.length_take, List.length_drop, ← hstart]
      omega
    have hsk : seg = ks := by
      apply List.ext_getElem?
      intro j
      by_cases hj : j < blk.length
      · rw [h6 j hj, hks, List.getElem?_take_of_lt hj, List.getElem?_drop, hstart]
      · rw [List.getElem?_eq_none (by omega), List.getElem?_eq_none (by omega)]
    refine ⟨?_, by rw [h4, hsk]⟩
    unfold numOfType hasDescriptorType
    rw [hc, hd, ht]
    have hany : (ts.any fun x => decide (x = t)) = true := by
      rw [List.any_eq_true]
      exact ⟨t, List.mem_of_getElem? htb, by simp⟩
    simp only [VisualFrame.get, Outcome.bind_ok, hany, if_true, hbk, hblk, hklen]

/-! ### Keypoints -/

/-- The image becomes the raw image of the frame, with a circle at each keypoint of the type and nothing else. -/
theorem keypoints_spec (pos : Int → Int × Int) (v : View) (image : Canvas) (t : Int) (ks : List Int) (b : Nat)
    (h : Has v.frame t ks) (hks : ks ≠ []) (hraw : v.raw = some (b, true)) :
    drawKeypoints pos v image t = .ok ⟨b, ks.map fun k => .circle (pos k) 1 (0, 255, 255)⟩ := by
  obtain ⟨h1, h2⟩ := ofType_ok h
  rw [drawKeypoints, h1, bind_okay, if_neg (by simpa using hks), background, hraw]
  simp only [bind_okay]
  rw [h2, bind_okay]
  rfl

/-- A frame with two keypoints of type 0 and one of type 1. -/
def twoTypes : Frame where
  chan := fun c => if c = .measurements then some [10, 11, 12] else none
  descriptors := some [[[1], [2]], [[3]]]
  types := some [0, 1]

/-- The keypoints of the two types of the example. -/
theorem twoTypes_has : Has twoTypes 0 [10, 11] ∧ Has twoTypes 1 [12] :=
  ⟨⟨[[[1], [2]], [[3]]], [0, 1], [10, 11, 12], 0, [[1], [2]], rfl, rfl, rfl, rfl, by decide, rfl,
      by omega, rfl, rfl⟩,
    ⟨[[[1], [2]], [[3]]], [0, 1], [10, 11, 12], 1, [[3]], rfl, rfl, rfl, rfl, by decide, rfl, by
      intro k hk
      obtain rfl : k = 0 := by omega
      decide, rfl, rfl⟩⟩

example : drawKeypoints (fun k => (k, 0)) ⟨twoTypes, some (7, true)⟩ ⟨0, []⟩ 1 =
    .ok ⟨7, [.circle (12, 0) 1 (0, 255, 255)]⟩ :=
  keypoints_spec _ ⟨twoTypes, some (7, true)⟩ _ 1 [12] 7 twoTypes_has.2 (by decide) rfl

/-- Without keypoints of the type the image is left as it is: it does not show the frame but whatever it showed before. -/
theorem keypoints_stale_refuted (pos : Int → Int × Int) (v : View) (image : Canvas) (t : Int)
    (h : numOfType v.frame t = .ok 0) : drawKeypoints pos v image t = .ok image := by
  rw [drawKeypoints, h, bind_okay, if_pos rfl]

example : numOfType twoTypes 5 = .ok 0 := by decide

/-- A frame with keypoints but without descriptors aborts. -/
theorem keypoints_undescribed_refuted (pos : Int → Int × Int) (v : View) (image : Canvas) (t : Int)
    (hm : v.frame.chan .measurements ≠ none) (hd : v.frame.descriptors = none) :
    drawKeypoints pos v image t = .abort := by
  have : numOfType v.frame t = .abort := by
    unfold numOfType
    cases hc : v.frame.chan .measurements with
    | none => exact absurd hc hm
    | some d =>
      rw [hd]
      rfl
  rw [drawKeypoints, this]
  rfl

example : (⟨fun _ => some [1], none, none⟩ : Frame).chan .measurements ≠ none := by decide

/-- Without a raw image the process aborts if there is something to draw. -/
theorem keypoints_raw (pos : Int → Int × Int) (v : View) (image : Canvas) (t : Int) (ks : List Int)
    (h : Has v.frame t ks) (hks : ks ≠ []) (hraw : v.raw = none) : drawKeypoints pos v image t = .abort := by
  obtain ⟨h1, -⟩ := ofType_ok h
  rw [drawKeypoints, h1, bind_okay, if_neg (by simpa using hks), background, hraw]
  rfl

/-! ### Matches -/

private theorem column_ok (ks : List Int) (i : Int) (k : Int) :
    column ks i = .ok k ↔ 0 ≤ i ∧ ks[i.toNat]? = some k := by
  unfold column
  by_cases h : i < ks.length
  · rw [if_pos h]
    by_cases h0 : 0 ≤ i
    · rw [if_pos h0]
      cases ks[i.toNat]? with
      | none => simp
      | some x => simp [h0]
    · rw [if_neg h0]
      simp [h0]
  · rw [if_neg h]
    constructor
    · intro h
      cases h
    · rintro ⟨h0, hk⟩
      have := (List.getElem?_eq_some_iff.1 hk).1
      omega

private theorem column_nonabort (ks : List Int) (i : Int) (h : i < ks.length) :
    (∃ k, column ks i = .ok k) ∨ (i < 0 ∧ column ks i = .ub) := by
  by_cases h0 : 0 ≤ i
  · have hlt : i.toNat < ks.length := by omega
    exact Or.inl ⟨ks[i.toNat], (column_ok ks i _).2 ⟨h0, List.getElem?_eq_getElem hlt⟩⟩
  · refine Or.inr ⟨by omega, ?_⟩
    rw [column, if_pos h, if_neg h0]

/-- The shapes of a match between two keypoints: a circle at the newer keypoint and a line from the older to it. -/
def matchShapes (pos : Int → Int × Int) (newer older : Int) : List Shape :=
  [.circle (pos newer) 4 (255, 255, 0), .line (pos older) (pos newer) (255, 0, 255)]

private theorem loop_ok (pos : Int → Int × Int) (kp1 k : List Int) (ms : List (Int × Int)) (ends : List (Int × Int))
    (hl : ends.length = ms.length)
    (h : ∀ (i : Nat) (m e : Int × Int), ms[i]? = some m → ends[i]? = some e →
      0 ≤ m.1 ∧ kp1[m.1.toNat]? = some e.1 ∧ 0 ≤ m.2 ∧ k[m.2.toNat]? = some e.2) :
    drawLoop pos kp1 k ms = .ok (ends.flatMap fun e => matchShapes pos e.1 e.2) := by
  induction ms generalizing ends with
  | nil =>
    cases ends with
    | nil => rfl
    | cons e es => simp at hl
  | cons m ms ih =>
    cases ends with
    | nil => simp at hl
    | cons e es =>
      obtain ⟨h1, h2, h3, h4⟩ := h 0 m e rfl rfl
      have l1 := (List.getElem?_eq_some_iff.1 h2).1
      have l2 := (List.getElem?_eq_some_iff.1 h4).1
      rw [drawLoop, if_pos (by omega), (column_ok _ _ _).2 ⟨h1, h2⟩, bind_okay, (column_ok _ _ _).2 ⟨h3, h4⟩, bind_okay,
        ih es (by simpa using hl) fun i m e hm he => h (i + 1) m e (by simpa using hm) (by simpa using he), bind_okay]
      rfl

/-- For indices in range the image becomes the raw image of the newer frame, with a circle and a line for each match in
their order. Indices are meant among the keypoints of the type. -/
theorem matches_spec (pos : Int → Int × Int) (vkp1 vk : View) (ms : List (Int × Int)) (t : Int) (kp1 k : List Int)
    (b : Nat) (h1 : Has vkp1.frame t kp1) (h2 : Has vk.frame t k) (hraw : vkp1.raw = some (b, true))
    (ends : List (Int × Int)) (hl : ends.length = ms.length)
    (h : ∀ (i : Nat) (m e : Int × Int), ms[i]? = some m → ends[i]? = some e →
      0 ≤ m.1 ∧ kp1[m.1.toNat]? = some e.1 ∧ 0 ≤ m.2 ∧ k[m.2.toNat]? = some e.2) :
    drawMatches pos vkp1 vk ms t = .ok ⟨b, ends.flatMap fun e => matchShapes pos e.1 e.2⟩ := by
  rw [drawMatches, background, hraw]
  simp only [bind_okay]
  rw [(ofType_ok h2).2, bind_okay, (ofType_ok h1).2, bind_okay, loop_ok pos kp1 k ms ends hl h, bind_okay]
  rfl

/-- The second keypoint of type 0 matched with the first. -/
example : drawMatches (fun k => (k, 0)) ⟨twoTypes, some (7, true)⟩ ⟨twoTypes, none⟩ [(1, 0)] 0 =
    .ok ⟨7, [.circle (11, 0) 4 (255, 255, 0), .line (10, 0) (11, 0) (255, 0, 255)]⟩ := by
  refine matches_spec _ ⟨twoTypes, some (7, true)⟩ ⟨twoTypes, none⟩ [(1, 0)] 0 [10, 11] [10, 11] 7 twoTypes_has.1
    twoTypes_has.1 rfl [(11, 10)] rfl ?_
  intro i m e hm he
  cases i with
  | zero =>
    simp only [List.getElem?_cons_zero, Option.some.injEq] at hm he
    subst hm he
    decide
  | succ i => simp at hm

/-- An index that is too large aborts, if all matches before it are in range. -/
theorem matches_large (pos : Int → Int × Int) (kp1 k : List Int) (ms ms' : List (Int × Int)) (m : Int × Int)
    (hb : ∀ x ∈ ms, 0 ≤ x.1 ∧ x.1 < kp1.length ∧ 0 ≤ x.2 ∧ x.2 < k.length)
    (h : (kp1.length : Int) ≤ m.1 ∨ (k.length : Int) ≤ m.2) : drawLoop pos kp1 k (ms ++ m :: ms') = .abort := by
  induction ms with
  | nil => rw [List.nil_append, drawLoop, if_neg (by omega)]
  | cons x xs ih =>
    obtain ⟨a0, a1, b0, b1⟩ := hb x (List.mem_cons_self ..)
    rw [List.cons_append, drawLoop, if_pos ⟨a1, b1⟩]
    rcases column_nonabort kp1 x.1 a1 with ⟨a, ha⟩ | ⟨ha, -⟩
    · rcases column_nonabort k x.2 b1 with ⟨c, hc⟩ | ⟨hc, -⟩
      · rw [ha, bind_okay, hc, bind_okay, ih fun y hy => hb y (List.mem_cons_of_mem _ hy)]
        rfl
      · omega
    · omega

example : drawLoop (fun k => (k, 0)) [1] [2] ([(0, 0)] ++ (1, 0) :: []) = .abort :=
  matches_large _ _ _ _ _ _ (by simp) (by simp)

/-- Negative indices pass the checks and are read outside of the bounds. -/
theorem matches_negative_refuted (pos : Int → Int × Int) (kp1 k : List Int) (ms : List (Int × Int)) (m : Int × Int)
    (h1 : m.1 < kp1.length) (h2 : m.2 < k.length) (hn : m.1 < 0 ∨ m.2 < 0) : drawLoop pos kp1 k (m :: ms) = .ub := by
  rw [drawLoop, if_pos ⟨h1, h2⟩]
  rcases column_nonabort kp1 m.1 h1 with ⟨a, ha⟩ | ⟨-, ha⟩
  · rw [ha, bind_okay]
    rcases column_nonabort k m.2 h2 with ⟨c, hc⟩ | ⟨-, hc⟩
    · have g1 := ((column_ok _ _ _).1 ha).1
      have g2 := ((column_ok _ _ _).1 hc).1
      omega
    · rw [hc]
      rfl
  · rw [ha]
    rfl

example : drawLoop (fun k => (k, 0)) [1] [2] [(-1, 0)] = .ub := by decide

/-- If one of the frames has no keypoints of the type, the process aborts even without any matches. -/
theorem matches_none_refuted (pos : Int → Int × Int) (vkp1 vk : View) (t : Int) (ts : List Int) (b : Nat)
    (hraw : vkp1.raw = some (b, true)) (hd : vk.frame.descriptors ≠ none) (ht : vk.frame.types = some ts) (hn : t ∉ ts) :
    drawMatches pos vkp1 vk [] t = .abort := by
  have hc : chanOfType vk.frame .measurements t = .abort := by
    unfold chanOfType startAndSize
    cases hdd : vk.frame.descriptors with
    | none => exact absurd hdd hd
    | some blocks =>
      rcases typeBlock_first ht t with ⟨-, e⟩ | ⟨b', -, hb', -⟩
      · simp only [VisualFrame.get, Outcome.bind_ok, e, Outcome.bind_abort]
      · exact absurd (List.mem_of_getElem? hb') hn
  rw [drawMatches, background, hraw]
  simp only [bind_okay]
  rw [hc]
  rfl

example : drawMatches (fun k => (k, 0)) ⟨twoTypes, some (7, true)⟩ ⟨twoTypes, none⟩ [] 5 = .abort := by decide

end Verif.Visualization
