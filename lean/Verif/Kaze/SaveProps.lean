import Mathlib.Tactic.Linarith
import Mathlib.Tactic.NormNum
import Mathlib.Tactic.Positivity
import Verif.Kaze.ContrastProps
import Verif.Kaze.Save

/-!
C154: the pictures of the scale space.
-/

namespace Verif.Kaze.Save

open Verif.Decimal Verif.Kaze.Contrast

/-! ### Names -/

theorem pad2_inj {a b : Nat} (h : pad2 a = pad2 b) : a = b := by
  have key : ∀ {m n : Nat}, '0' :: natString m = natString n → m = n := by
    intro m n h
    have h' : (0 :: digits m).map digitChar = (digits n).map digitChar := h
    have := map_digitChar_inj (fun d hd => by
      rcases List.mem_cons.1 hd with rfl | hd
      · omega
      · exact digits_lt hd) (fun d => digits_lt) h'
    have e := congrArg ofDigits this
    have z := ofDigits_replicate_zero 1 (digits m)
    rw [ofDigits_digits] at e
    rw [show List.replicate 1 0 ++ digits m = 0 :: digits m from rfl, ofDigits_digits] at z
    rw [← e, z]
  unfold pad2 at h
  split at h <;> split at h
  · exact natString_inj (List.cons.inj h).2
  · exact key h
  · exact (key h.symm).symm
  · exact natString_inj h

/-- C154: no two levels are written to the same file. -/
theorem evolutionName_inj {a b : Nat} (h : evolutionName a = evolutionName b) : a = b := by
  unfold evolutionName at h
  exact pad2_inj (List.append_cancel_right (List.append_cancel_left (List.append_cancel_left h)))

/-- C154: no two responses are written to the same file. -/
theorem detectorName_inj {a b : Nat} (h : detectorName a = detectorName b) : a = b := by
  unfold detectorName at h
  exact pad2_inj (List.append_cancel_right (List.append_cancel_left (List.append_cancel_left h)))

/-- C154: no response is written to the file of a level. -/
theorem names_differ (a b : Nat) : evolutionName a ≠ detectorName b := by
  intro h
  have := (List.cons.inj (List.append_cancel_left h)).1
  exact absurd this (by decide)

/-- C154: two digits up to a hundred levels. -/
theorem pad2_value {a b : Nat} (ha : a < 10) (hb : b < 10) : pad2 (10 * a + b) = [digitChar a, digitChar b] := by
  unfold pad2 natString
  by_cases h0 : a = 0
  · subst h0
    rw [if_pos (by omega), digits, if_pos (by omega), Nat.mul_zero, Nat.zero_add]
    rfl
  · rw [if_neg (by omega), digits, if_neg (by omega), digits, if_pos (by omega),
      show (10 * a + b) / 10 = a by omega, show (10 * a + b) % 10 = b by omega]
    rfl

theorem evolutionName_seven : String.ofList (evolutionName 7) = "../output/images/nl_evolution_07.jpg" := by
  unfold evolutionName
  rw [pad2_value (a := 0) (b := 7) (by omega) (by omega)]
  rfl

theorem detectorName_twelve : String.ofList (detectorName 12) = "../output/images/nl_detector_12.jpg" := by
  unfold detectorName
  rw [pad2_value (a := 1) (b := 2) (by omega) (by omega)]
  rfl

/-! ### Grey values -/

theorem roundEven_near (x : ℝ) : |(roundEven x : ℝ) - x| ≤ 1 / 2 := by
  have h0 := Int.floor_le x
  have h1 := Int.lt_floor_add_one x
  unfold roundEven
  rw [abs_le]
  split_ifs <;> push_cast <;> constructor <;> linarith

theorem roundEven_mono {x y : ℝ} (h : x ≤ y) : roundEven x ≤ roundEven y := by
  have hf : ⌊x⌋ ≤ ⌊y⌋ := Int.floor_mono h
  rcases hf.lt_or_eq with hlt | heq
  · have a : roundEven x ≤ ⌊x⌋ + 1 := by unfold roundEven; split_ifs <;> omega
    have b : ⌊y⌋ ≤ roundEven y := by unfold roundEven; split_ifs <;> omega
    omega
  · unfold roundEven
    rw [← heq]
    split_ifs <;> first | omega | (exfalso; linarith)

theorem roundEven_int (n : ℤ) : roundEven (n : ℝ) = n := by
  unfold roundEven
  rw [Int.floor_intCast, sub_self, if_pos (by norm_num)]

/-- C154: a value between 0 and 1 is written as the grey value nearest to 255 times it, ... -/
theorem grey_near {v : ℝ} (h0 : 0 ≤ v) (h1 : v ≤ 1) : |(grey v : ℝ) - 255 * v| ≤ 1 / 2 ∧ 0 ≤ grey v ∧ grey v ≤ 255 := by
  have a : 0 ≤ roundEven (255 * v) := by
    have := roundEven_mono (x := ((0 : ℤ) : ℝ)) (y := 255 * v) (by push_cast; linarith)
    rwa [roundEven_int] at this
  have b : roundEven (255 * v) ≤ 255 := by
    have := roundEven_mono (x := 255 * v) (y := ((255 : ℤ) : ℝ)) (by push_cast; linarith)
    rwa [roundEven_int] at this
  have e : grey v = roundEven (255 * v) := by unfold grey; omega
  rw [e]
  exact ⟨roundEven_near _, a, b⟩

/-- C154: ... and in the middle between two grey values the even one. -/
theorem grey_middle {v : ℝ} {n : ℤ} (h0 : 0 ≤ n) (h1 : n < 127) (h : 255 * v = 2 * n + 1 / 2) : grey v = 2 * n := by
  have hf : ⌊255 * v⌋ = 2 * n := by
    rw [Int.floor_eq_iff]
    push_cast
    constructor <;> linarith
  have : roundEven (255 * v) = 2 * n := by
    unfold roundEven
    rw [hf]
    push_cast
    rw [if_neg (by linarith), if_neg (by linarith), if_pos (by omega)]
  unfold grey
  omega

/-- C154: larger values are not darker. -/
theorem grey_mono {v w : ℝ} (h : v ≤ w) : grey v ≤ grey w := by
  have := roundEven_mono (x := 255 * v) (y := 255 * w) (by linarith)
  unfold grey
  omega

theorem grey_zero : grey 0 = 0 := by
  have : roundEven (255 * 0) = 0 := by
    have := roundEven_int 0
    simpa using this
  unfold grey
  omega

theorem grey_one : grey 1 = 255 := by
  have : roundEven (255 * 1) = 255 := by
    have := roundEven_int 255
    simpa using this
  unfold grey
  omega

/-! ### One image -/

/-- The least and the largest value of an image. -/
def IsMin (l : List ℝ) (m : ℝ) : Prop := m ∈ l ∧ ∀ v ∈ l, m ≤ v

/-- The largest value of an image. -/
def IsMax (l : List ℝ) (m : ℝ) : Prop := m ∈ l ∧ ∀ v ∈ l, v ≤ m

/-- Scaling is onto the range from 0 to 1, with the least and largest value as ends. -/
theorem rescale_value {l : List ℝ} {lo hi : ℝ} (hlo : IsMin l lo) (hhi : IsMax l hi) (hd : lo < hi) (hk : lo ≤ 1000) :
    rescale (some l) = some (l.map fun v => (v - lo) / (hi - lo)) := by
  obtain ⟨a, b, ha, e, hr, ⟨u, hu, hu0⟩, w, hw, hw1⟩ :=
    convertScale_partial ⟨lo, hlo.1, hk⟩ ⟨lo, hlo.1, hi, hhi.1, hd⟩
  have h1 : a * lo + b = 0 := by
    have := (hr lo hlo.1).1
    have := mul_le_mul_of_nonneg_left (hlo.2 u hu) ha.le
    linarith
  have h2 : a * hi + b = 1 := by
    have := (hr hi hhi.1).2
    have := mul_le_mul_of_nonneg_left (hhi.2 w hw) ha.le
    linarith
  have hd' : hi - lo ≠ 0 := by linarith
  show convertScale l = _
  rw [e]
  congr 1
  refine List.map_congr_left fun v _ => ?_
  rw [eq_div_iff hd']
  have hA : a * (hi - lo) = 1 := by linarith
  have hB : b = -(a * lo) := by linarith
  rw [hB]
  calc (a * v + -(a * lo)) * (hi - lo) = (v - lo) * (a * (hi - lo)) := by ring
    _ = v - lo := by rw [hA, mul_one]

/-- C154: scaling what was scaled changes nothing. -/
theorem rescale_again {l : List ℝ} {lo hi : ℝ} (hlo : IsMin l lo) (hhi : IsMax l hi) (hd : lo < hi) (hk : lo ≤ 1000) :
    rescale (rescale (some l)) = rescale (some l) := by
  have hp : 0 < hi - lo := by linarith
  rw [rescale_value hlo hhi hd hk, rescale_value (lo := 0) (hi := 1) _ _ (by norm_num) (by norm_num)]
  · congr 1
    rw [List.map_map]
    refine List.map_congr_left fun v _ => ?_
    simp
  · refine ⟨List.mem_map.2 ⟨lo, hlo.1, by simp⟩, ?_⟩
    intro v hv
    obtain ⟨u, hu, rfl⟩ := List.mem_map.1 hv
    exact div_nonneg (by linarith [hlo.2 u hu]) hp.le
  · refine ⟨List.mem_map.2 ⟨hi, hhi.1, div_self hp.ne'⟩, ?_⟩
    intro v hv
    obtain ⟨u, hu, rfl⟩ := List.mem_map.1 hv
    exact (div_le_one hp).2 (by linarith [hhi.2 u hu])

/-! ### All levels -/

theorem saveScaleFrom_fst : ∀ (ls : List Level) (i : Nat) (d : Disk),
    (saveScaleFrom i ls d).1 = ls.map fun L => { L with Lt := rescale L.Lt }
  | [], _, _ => rfl
  | L :: r, i, d => by
    simp only [saveScaleFrom, List.map_cons]
    rw [saveScaleFrom_fst r]

theorem saveDetectorFrom_fst : ∀ (ls : List Level) (i : Nat) (d : Disk),
    (saveDetectorFrom i ls d).1 = ls.map fun L => { L with Ldet := rescale L.Ldet }
  | [], _, _ => rfl
  | L :: r, i, d => by
    simp only [saveDetectorFrom, List.map_cons]
    rw [saveDetectorFrom_fst r]

theorem saveScaleFrom_snd : ∀ (ls : List Level) (i : Nat) (d : Disk),
    (∀ k (L : Level), ls[k]? = some L → (saveScaleFrom i ls d).2 (evolutionName (i + k)) = some (picture (rescale L.Lt))) ∧
      ∀ n, (∀ k, k < ls.length → n ≠ evolutionName (i + k)) → (saveScaleFrom i ls d).2 n = d n
  | [], _, _ => ⟨by simp, fun _ _ => rfl⟩
  | L :: r, i, d => by
    obtain ⟨h1, h2⟩ := saveScaleFrom_snd r (i + 1) (imwrite d (evolutionName i) (picture (rescale L.Lt)))
    constructor
    · intro k M hM
      cases k with
      | zero =>
        cases hM
        show (saveScaleFrom (i + 1) r (imwrite d (evolutionName i) (picture (rescale L.Lt)))).2 _ = _
        rw [h2 _ fun k _ h => by have := evolutionName_inj h; omega]
        exact if_pos rfl
      | succ k =>
        have := h1 k M hM
        rw [show i + 1 + k = i + (k + 1) by omega] at this
        exact this
    · intro n hn
      show (saveScaleFrom (i + 1) r (imwrite d (evolutionName i) (picture (rescale L.Lt)))).2 n = _
      rw [h2 n fun k hk => by
        have := hn (k + 1) (Nat.succ_lt_succ hk)
        rwa [show i + (k + 1) = i + 1 + k by omega] at this]
      exact if_neg (hn 0 (Nat.succ_pos _))

theorem saveDetectorFrom_snd : ∀ (ls : List Level) (i : Nat) (d : Disk),
    (∀ k (L : Level), ls[k]? = some L → (saveDetectorFrom i ls d).2 (detectorName (i + k)) = some (picture (rescale L.Ldet))) ∧
      ∀ n, (∀ k, k < ls.length → n ≠ detectorName (i + k)) → (saveDetectorFrom i ls d).2 n = d n
  | [], _, _ => ⟨by simp, fun _ _ => rfl⟩
  | L :: r, i, d => by
    obtain ⟨h1, h2⟩ := saveDetectorFrom_snd r (i + 1) (imwrite d (detectorName i) (picture (rescale L.Ldet)))
    constructor
    · intro k M hM
      cases k with
      | zero =>
        cases hM
        show (saveDetectorFrom (i + 1) r (imwrite d (detectorName i) (picture (rescale L.Ldet)))).2 _ = _
        rw [h2 _ fun k _ h => by have := detectorName_inj h; omega]
        exact if_pos rfl
      | succ k =>
        have := h1 k M hM
        rw [show i + 1 + k = i + (k + 1) by omega] at this
        exact this
    · intro n hn
      show (saveDetectorFrom (i + 1) r (imwrite d (detectorName i) (picture (rescale L.Ldet)))).2 n = _
      rw [h2 n fun k hk => by
        have := hn (k + 1) (Nat.succ_lt_succ hk)
        rwa [show i + (k + 1) = i + 1 + k by omega] at this]
      exact if_neg (hn 0 (Nat.succ_pos _))

/-- An image that can be shown: at least two values, one of them at most 1000. -/
def Shown (l : List ℝ) (lo hi : ℝ) : Prop := IsMin l lo ∧ IsMax l hi ∧ lo < hi ∧ lo ≤ 1000

/-- The picture of an image: as many pixels, each within half a grey value of its place between the least value, which is
black, and the largest, which is white. -/
def IsPicture (l : List ℝ) (lo hi : ℝ) (p : List ℤ) : Prop :=
  p.length = l.length ∧ ∀ (i : Nat) v g, l[i]? = some v → p[i]? = some g →
    |(g : ℝ) - 255 * ((v - lo) / (hi - lo))| ≤ 1 / 2 ∧ 0 ≤ g ∧ g ≤ 255 ∧ (v = lo → g = 0) ∧ (v = hi → g = 255) ∧
      ∀ (j : Nat) w h, l[j]? = some w → p[j]? = some h → v ≤ w → g ≤ h

theorem picture_spec {l : List ℝ} {lo hi : ℝ} (h : Shown l lo hi) :
    ∃ p, picture (rescale (some l)) = some p ∧ IsPicture l lo hi p := by
  obtain ⟨hlo, hhi, hd, hk⟩ := h
  have hp : 0 < hi - lo := by linarith
  rw [rescale_value hlo hhi hd hk]
  refine ⟨_, rfl, by simp, ?_⟩
  intro i v g hv hg
  rw [List.getElem?_map, List.getElem?_map, hv] at hg
  cases hg
  have hm := List.mem_of_getElem? hv
  have n0 : 0 ≤ (v - lo) / (hi - lo) := div_nonneg (by linarith [hlo.2 v hm]) hp.le
  have n1 : (v - lo) / (hi - lo) ≤ 1 := (div_le_one hp).2 (by linarith [hhi.2 v hm])
  obtain ⟨g1, g2, g3⟩ := grey_near n0 n1
  refine ⟨g1, g2, g3, ?_, ?_, ?_⟩
  · rintro rfl
    show grey ((v - v) / (hi - v)) = 0
    rw [sub_self, zero_div]
    exact grey_zero
  · rintro rfl
    show grey ((v - lo) / (v - lo)) = 255
    rw [div_self hp.ne']
    exact grey_one
  · intro j w h hw hh hvw
    rw [List.getElem?_map, List.getElem?_map, hw] at hh
    cases hh
    exact grey_mono (div_le_div_of_nonneg_right (by linarith) hp.le)

/-- C154: afterwards the file of every level is its picture, whatever was written before. -/
theorem scale_space_pictures {ls : List Level} {d : Disk} {k : Nat} {L : Level} {l : List ℝ} {lo hi : ℝ}
    (hk : ls[k]? = some L) (hl : L.Lt = some l) (hs : Shown l lo hi) :
    ∃ p, (saveScaleSpace ls d).2 (evolutionName k) = some (some p) ∧ IsPicture l lo hi p := by
  obtain ⟨p, hp, h⟩ := picture_spec hs
  have := (saveScaleFrom_snd ls 0 d).1 k L hk
  rw [Nat.zero_add, hl, hp] at this
  exact ⟨p, this, h⟩

/-- C154: afterwards the file of every response is its picture, whatever was written before. -/
theorem detector_pictures {ls : List Level} {d : Disk} {k : Nat} {L : Level} {l : List ℝ} {lo hi : ℝ}
    (hk : ls[k]? = some L) (hl : L.Ldet = some l) (hs : Shown l lo hi) :
    ∃ p, (saveDetectorResponses ls d).2 (detectorName k) = some (some p) ∧ IsPicture l lo hi p := by
  obtain ⟨p, hp, h⟩ := picture_spec hs
  have := (saveDetectorFrom_snd ls 0 d).1 k L hk
  rw [Nat.zero_add, hl, hp] at this
  exact ⟨p, this, h⟩

/-- C154: other files stay as they are. -/
theorem scale_space_elsewhere {ls : List Level} {d : Disk} {n : Name} (h : ∀ k, k < ls.length → n ≠ evolutionName k) :
    (saveScaleSpace ls d).2 n = d n :=
  (saveScaleFrom_snd ls 0 d).2 n (by simpa using h)

/-- C154: other files stay as they are. -/
theorem detector_elsewhere {ls : List Level} {d : Disk} {n : Name} (h : ∀ k, k < ls.length → n ≠ detectorName k) :
    (saveDetectorResponses ls d).2 n = d n :=
  (saveDetectorFrom_snd ls 0 d).2 n (by simpa using h)

/-- C154: writing the scale space leaves the responses, and writing the responses leaves the scale space. -/
theorem saving_leaves (ls : List Level) (d : Disk) :
    (saveScaleSpace ls d).1.map Level.Ldet = ls.map Level.Ldet ∧
      (saveDetectorResponses ls d).1.map Level.Lt = ls.map Level.Lt := by
  unfold saveScaleSpace saveDetectorResponses
  rw [saveScaleFrom_fst, saveDetectorFrom_fst, List.map_map, List.map_map]
  exact ⟨rfl, rfl⟩

/-- C154: the order of the two calls does not matter. -/
theorem saving_commutes (ls : List Level) (d : Disk) :
    saveDetectorResponses (saveScaleSpace ls d).1 (saveScaleSpace ls d).2 =
      saveScaleSpace (saveDetectorResponses ls d).1 (saveDetectorResponses ls d).2 := by
  unfold saveScaleSpace saveDetectorResponses
  refine Prod.ext ?_ ?_
  · rw [saveScaleFrom_fst, saveDetectorFrom_fst, saveDetectorFrom_fst, saveScaleFrom_fst, List.map_map, List.map_map]
    rfl
  · funext n
    by_cases h1 : ∃ k, k < ls.length ∧ n = evolutionName k
    · obtain ⟨k, hk, rfl⟩ := h1
      have g := List.getElem?_eq_getElem hk
      have e1 := (saveScaleFrom_snd ls 0 d).1 k _ g
      have e2 := (saveScaleFrom_snd (saveDetectorFrom 0 ls d).1 0 (saveDetectorFrom 0 ls d).2).1 k
        { ls[k] with Ldet := rescale ls[k].Ldet } (by rw [saveDetectorFrom_fst, List.getElem?_map, g]; rfl)
      rw [Nat.zero_add] at e1 e2
      rw [(saveDetectorFrom_snd _ 0 _).2 _ fun j _ => names_differ k (0 + j), e1, e2]
    · have e : ∀ (l' : List Level) (d' : Disk), l'.length = ls.length → (saveScaleFrom 0 l' d').2 n = d' n :=
        fun l' d' hl => (saveScaleFrom_snd l' 0 d').2 n fun k hk hn =>
          h1 ⟨k, hl ▸ hk, by rw [hn, Nat.zero_add]⟩
      rw [e _ _ (by rw [saveDetectorFrom_fst, List.length_map])]
      by_cases h2 : ∃ k, k < ls.length ∧ n = detectorName k
      · obtain ⟨k, hk, rfl⟩ := h2
        have g := List.getElem?_eq_getElem hk
        have e1 := (saveDetectorFrom_snd ls 0 d).1 k _ g
        have e2 := (saveDetectorFrom_snd (saveScaleFrom 0 ls d).1 0 (saveScaleFrom 0 ls d).2).1 k
          { ls[k] with Lt := rescale ls[k].Lt } (by rw [saveScaleFrom_fst, List.getElem?_map, g]; rfl)
        rw [Nat.zero_add] at e1 e2
        rw [e1, e2]
      · have e' : ∀ (l' : List Level) (d' : Disk), l'.length = ls.length → (saveDetectorFrom 0 l' d').2 n = d' n :=
          fun l' d' hl => (saveDetectorFrom_snd l' 0 d').2 n fun k hk hn =>
            h2 ⟨k, hl ▸ hk, by rw [hn, Nat.zero_add]⟩
        rw [e' _ _ (by rw [saveScaleFrom_fst, List.length_map]), e' _ _ rfl, e _ _ rfl]

/-- C154: writing levels that can be shown once more writes the same files. -/
theorem scale_space_again {ls : List Level} {d : Disk} (h : ∀ L ∈ ls, ∃ l lo hi, L.Lt = some l ∧ Shown l lo hi) :
    saveScaleSpace (saveScaleSpace ls d).1 (saveScaleSpace ls d).2 = saveScaleSpace ls d := by
  have hr : ∀ L ∈ ls, rescale (rescale L.Lt) = rescale L.Lt := by
    intro L hL
    obtain ⟨l, lo, hi, e, h1, h2, h3, h4⟩ := h L hL
    rw [e]
    exact rescale_again h1 h2 h3 h4
  unfold saveScaleSpace
  refine Prod.ext ?_ ?_
  · rw [saveScaleFrom_fst, saveScaleFrom_fst, List.map_map]
    refine List.map_congr_left fun L hL => ?_
    show ({ L with Lt := rescale (rescale L.Lt) } : Level) = _
    rw [hr L hL]
  · funext n
    by_cases h1 : ∃ k, k < ls.length ∧ n = evolutionName k
    · obtain ⟨k, hk, rfl⟩ := h1
      have g := List.getElem?_eq_getElem hk
      have e1 := (saveScaleFrom_snd ls 0 d).1 k _ g
      have e2 := (saveScaleFrom_snd (saveScaleFrom 0 ls d).1 0 (saveScaleFrom 0 ls d).2).1 k
        { ls[k] with Lt := rescale ls[k].Lt } (by rw [saveScaleFrom_fst, List.getElem?_map, g]; rfl)
      rw [Nat.zero_add] at e1 e2
      rw [e1, e2, hr _ (List.getElem_mem hk)]
    · exact (saveScaleFrom_snd _ 0 _).2 n fun k hk hn =>
        h1 ⟨k, by rwa [saveScaleFrom_fst, List.length_map] at hk, by rw [hn, Nat.zero_add]⟩

/-- C154: what is written again does not stay the same if all values are above 1000: the least value is half-way to white at
first, and black the second time. -/
theorem scale_space_again_refuted :
    let ls : List Level := [⟨some [2000, 3000], none⟩]
    (saveScaleSpace ls fun _ => none).2 (evolutionName 0) = some (some [128, 255]) ∧
      (saveScaleSpace (saveScaleSpace ls fun _ => none).1 fun _ => none).2 (evolutionName 0) = some (some [0, 255]) := by
  have r1 : rescale (some [2000, 3000]) = some [1 / 2, 1] := convertScale_refuted
  have r2 : rescale (some [1 / 2, 1]) = some [0, 1] := by
    rw [rescale_value (lo := 1 / 2) (hi := 1) ⟨by simp, by simp; norm_num⟩ ⟨by simp, by simp; norm_num⟩ (by norm_num) (by norm_num)]
    norm_num
  have g : grey (1 / 2) = 128 := by
    have hf : ⌊(255 : ℝ) * (1 / 2)⌋ = 127 := by
      rw [Int.floor_eq_iff]
      norm_num
    have : roundEven (255 * (1 / 2)) = 128 := by
      unfold roundEven
      rw [hf]
      norm_num
    unfold grey
    omega
  intro ls
  have a := (saveScaleFrom_snd ls 0 fun _ => none).1 0 _ rfl
  have b := (saveScaleFrom_snd (saveScaleFrom 0 ls fun _ => none).1 0 fun _ => none).1 0
    { (⟨some [2000, 3000], none⟩ : Level) with Lt := rescale (some [2000, 3000]) } rfl
  simp only [ls, Nat.zero_add, r1, r2] at a b
  constructor
  · rw [saveScaleSpace, a]
    show some (some [grey (1 / 2), grey 1]) = _
    rw [g, grey_one]
  · rw [saveScaleSpace, saveScaleSpace, b]
    simp [picture, grey_zero, grey_one]

/-- C154: a level of one value only is not a picture: its values are not numbers afterwards, in the detector neither. -/
theorem flat_level_refuted :
    (saveScaleSpace [⟨some [5, 5, 5], none⟩] fun _ => none).2 (evolutionName 0) = some none ∧
      (saveScaleSpace [⟨some [5, 5, 5], none⟩] fun _ => none).1 = [⟨none, none⟩] := by
  have r : rescale (some [5, 5, 5]) = none := convertScale_flat_refuted
  have a := (saveScaleFrom_snd [⟨some [5, 5, 5], none⟩] 0 fun _ => none).1 0 _ rfl
  rw [Nat.zero_add, r] at a
  refine ⟨a, ?_⟩
  unfold saveScaleSpace
  rw [saveScaleFrom_fst, List.map_cons, r]
  rfl

/-- C154: writing the responses is not only looking at them: responses below a threshold of a thousandth, none of which would
be a keypoint, are above it afterwards. -/
theorem saving_changes_refuted : (saveDetectorResponses [⟨none, some [0, 1 / 10000]⟩] fun _ => none).1 = [⟨none, some [0, 1]⟩] := by
  unfold saveDetectorResponses
  rw [saveDetectorFrom_fst, List.map_cons,
    rescale_value (lo := 0) (hi := 1 / 10000) ⟨by simp, by simp⟩ ⟨by simp, by simp⟩ (by norm_num) (by norm_num)]
  norm_num

example : Shown [1, 3, 2] 1 3 :=
  ⟨⟨by simp, by norm_num⟩, ⟨by simp, by norm_num⟩, by norm_num, by norm_num⟩

example : ∃ p, (saveScaleSpace [⟨some [1, 3, 2], none⟩] fun _ => none).2 (evolutionName 0) = some (some p) ∧
    IsPicture [1, 3, 2] 1 3 p :=
  scale_space_pictures (k := 0) rfl rfl
    ⟨⟨by simp, by norm_num⟩, ⟨by simp, by norm_num⟩, by norm_num, by norm_num⟩

end Verif.Kaze.Save
