import Verif.ImageEqual.Model
import Mathlib.Tactic.Linarith
import Mathlib.Tactic.NormNum
import Mathlib.Tactic.Ring
import Mathlib.Tactic.Positivity

/-!
# Comparing images in tests: properties

Specification: `value` is a scalar of a channel of a pixel, `Valid` says that the rows are as long as the sizes say.
-/

namespace Verif.ImageEqual

open Verif (Outcome)

/-- The image has the data its sizes promise. -/
def Valid (A : Mat) : Prop :=
  1 ≤ A.channels ∧ A.data.length = A.rows ∧ ∀ row ∈ A.data, row.length = A.cols * A.channels

/-- The value of channel `ch` of the pixel at row `r` and column `c`. -/
def value (A : Mat) (r c ch : Nat) : Scal := (A.data.getD r []).getD (c * A.channels + ch) .notFinite

/-- The scalar `k` of row `r`. -/
def scalar (A : Mat) (r k : Nat) : Scal := (A.data.getD r []).getD k .notFinite

/-- The depth is floating point. -/
def isFloat (A : Mat) : Prop := A.depth = .f32 ∨ A.depth = .f64

/-- The tolerance that is used: a negative one stands for that of the type. -/
def used (A : Mat) (tolerance : ℚ) : ℚ :=
  if tolerance < 0 then (if A.depth = .f32 then 1 / 10 ^ 8 else if A.depth = .f64 then 1 / 10 ^ 15 else 0) else tolerance

/-- Two scalars count as equal: they are numbers, and equal for integers, and for floating point numbers differ by at most
the tolerance times the smaller one. -/
def Near (float : Prop) (t : ℚ) (a b : Scal) : Prop :=
  ∃ p q, a = .num p ∧ b = .num q ∧ (float → |p - q| ≤ min |p| |q| * t) ∧ (¬ float → p = q)

/-- The images have the same type and size, and the type can be compared. -/
def Comparable (A B : Mat) : Prop :=
  A.depth = B.depth ∧ A.channels = B.channels ∧ A.rows = B.rows ∧ A.cols = B.cols ∧ A.depth ≠ .other

theorem mapM_loop_ok {α β : Type} (f : α → Outcome β) (g : α → β) : ∀ (l : List α) (acc : List β),
    (∀ x ∈ l, f x = .ok (g x)) → List.mapM.loop f l acc = .ok (acc.reverse ++ l.map g)
  | [], acc, _ => by simp [List.mapM.loop]
  | x :: l, acc, h => by
    rw [List.mapM.loop, h x (by simp), Outcome.bind_ok, mapM_loop_ok f g l _ fun y hy => h y (by simp [hy])]
    simp

theorem mapM_ok {α β : Type} {f : α → Outcome β} {g : α → β} {l : List α} (h : ∀ x ∈ l, f x = .ok (g x)) :
    l.mapM f = .ok (l.map g) := by
  unfold List.mapM; rw [mapM_loop_ok f g l [] h]; rfl

theorem read_ok {A : Mat} (hA : Valid A) {r c ch : Nat} (hr : r < A.rows) (hc : c < A.cols) (hch : ch < A.channels) :
    A.read r c ch = .ok (scalar A r (c + ch)) := by
  obtain ⟨_, h2, h3⟩ := hA
  have hl : r < A.data.length := h2 ▸ hr
  have hrow : (A.data[r]).length = A.cols * A.channels := h3 _ (List.getElem_mem hl)
  have hk : c + ch < (A.data[r]).length := by
    rw [hrow]; nlinarith [Nat.mul_le_mul (Nat.succ_le_of_lt hc) (Nat.le_refl A.channels), Nat.le_mul_of_pos_right c (Nat.lt_of_le_of_lt (Nat.zero_le ch) hch)]
  simp [Mat.read, scalar, List.getElem?_eq_getElem hl, List.getElem?_eq_getElem hk, List.getD_eq_getElem?_getD]

theorem differ_iff (float : Bool) (a b : Scal) (t : ℚ) : differ float a b t = false ↔ Near (float = true) t a b := by
  cases a with
  | notFinite => simp [differ, Near]
  | num p =>
    cases b with
    | notFinite => simp [differ, Near]
    | num q =>
      cases float <;> simp [differ, Near, isApprox]

/-- The places of a row with what is found there. -/
def looked (A : Mat) : List (Nat × Nat) := (List.range A.cols).flatMap fun c => (List.range A.channels).map fun ch => (c, ch)

theorem mem_looked {A : Mat} {x : Nat × Nat} : x ∈ looked A ↔ x.1 < A.cols ∧ x.2 < A.channels := by
  obtain ⟨c, ch⟩ := x
  simp only [looked, List.mem_flatMap, List.mem_map, List.mem_range, Prod.mk.injEq]
  constructor
  · rintro ⟨c', hc, ch', hch, rfl, rfl⟩; exact ⟨hc, hch⟩
  · rintro ⟨hc, hch⟩; exact ⟨c, hc, ch, hch, rfl, rfl⟩

/-- What is found at a place. -/
def found (A B : Mat) (float : Bool) (t : ℚ) (r : Nat) (x : Nat × Nat) : Place × Bool :=
  (place A r x.1, differ float (scalar A r (x.1 + x.2)) (scalar B r (x.1 + x.2)) t)

theorem compareRow_ok {A B : Mat} (hA : Valid A) (hB : Valid B) (h1 : A.rows = B.rows) (h2 : A.cols = B.cols)
    (h3 : A.channels = B.channels) (float : Bool) (t : ℚ) {r : Nat} (hr : r < A.rows) :
    compareRow A B float t r = .ok ((looked A).map (found A B float t r)) := by
  refine mapM_ok fun x hx => ?_
  obtain ⟨hc, hch⟩ := mem_looked.1 hx
  rw [read_ok hA hr hc hch, Outcome.bind_ok, read_ok hB (h1 ▸ hr) (h2 ▸ hc) (h3 ▸ hch), Outcome.bind_ok]
  rfl

/-- All that is found. -/
def allFound (A B : Mat) (float : Bool) (t : ℚ) : List (List (Place × Bool)) :=
  (List.range A.rows).map fun r => (looked A).map (found A B float t r)

/-- The result, in terms of what is found. -/
def verdict (A : Mat) (rows : List (List (Place × Bool))) : Result :=
  if rows.flatten.any (·.2) then
    .failure ((rows.flatten.filter (·.2)).map (·.1))
      (if A.rows > 1 ∧ A.cols > 1 ∧ A.rows * A.cols > 12 then some (rows.map fun l => l.map (·.2)) else none)
  else .success

theorem typed_ok {A B : Mat} (hA : Valid A) (hB : Valid B) (h1 : A.rows = B.rows) (h2 : A.cols = B.cols)
    (h3 : A.channels = B.channels) (float : Bool) (d t : ℚ) :
    imagesEqualTyped float d A B t = .ok (verdict A (allFound A B float (if t < 0 then d else t))) := by
  unfold imagesEqualTyped
  rw [if_neg (by simp [h1, h2, h3])]
  simp only
  rw [mapM_ok (g := fun r => (looked A).map (found A B float (if t < 0 then d else t) r))
    fun r hr => compareRow_ok hA hB h1 h2 h3 float _ (List.mem_range.1 hr), Outcome.bind_ok]
  rfl

/-- C109: whatever the sizes, the types and the number of channels are, nothing outside of the images is read. -/
theorem no_access_outside {A B : Mat} (hA : Valid A) (hB : Valid B) (t : ℚ) : ∃ r, imagesEqual A B t = .ok r := by
  unfold imagesEqual
  by_cases hT : (A.depth, A.channels) ≠ (B.depth, B.channels)
  · exact ⟨_, if_pos hT⟩
  · rw [if_neg hT]
    have key : ∀ (f : Bool) (d : ℚ), ∃ r, imagesEqualTyped f d A B t = .ok r := by
      intro f d
      by_cases h : A.rows ≠ B.rows ∨ A.cols ≠ B.cols ∨ A.channels ≠ B.channels
      · exact ⟨_, if_pos h⟩
      · simp only [not_or, not_not] at h
        exact ⟨_, typed_ok hA hB h.1 h.2.1 h.2.2 f d t⟩
    cases A.depth <;> first | exact key _ _ | exact ⟨_, rfl⟩

/-- The comparison of images that can be compared. -/
theorem comparable_ok {A B : Mat} (hA : Valid A) (hB : Valid B) (hc : Comparable A B) (t : ℚ) :
    imagesEqual A B t = .ok (verdict A (allFound A B (decide (A.depth = .f32 ∨ A.depth = .f64)) (used A t))) := by
  obtain ⟨h1, h2, h3, h4, h5⟩ := hc
  unfold imagesEqual
  rw [if_neg (by simp [h1, h2])]
  cases hd : A.depth
  all_goals first | exact absurd hd h5 | skip
  all_goals
    simp only [typed_ok hA hB h3 h4 h2]
    congr 3
    simp [used, hd]

theorem verdict_success {A B : Mat} {f : Bool} {t : ℚ} : verdict A (allFound A B f t) = .success ↔
    ∀ r < A.rows, ∀ c < A.cols, ∀ ch < A.channels,
      Near (f = true) t (scalar A r (c + ch)) (scalar B r (c + ch)) := by
  have : verdict A (allFound A B f t) = .success ↔ (allFound A B f t).flatten.any (·.2) = false := by
    unfold verdict
    cases h : (allFound A B f t).flatten.any (·.2) <;> simp
  rw [this, List.any_eq_false]
  simp only [allFound, List.mem_flatten, List.mem_map, List.mem_range]
  constructor
  · intro h r hr c hc ch hch
    refine (differ_iff _ _ _ _).1 ?_
    have := h (found A B f t r (c, ch)) ⟨_, ⟨r, hr, rfl⟩, List.mem_map.2 ⟨(c, ch), mem_looked.2 ⟨hc, hch⟩, rfl⟩⟩
    simpa [found] using this
  · rintro h p ⟨l, ⟨r, hr, rfl⟩, hp⟩
    obtain ⟨x, hx, rfl⟩ := List.mem_map.1 hp
    obtain ⟨hc, hch⟩ := mem_looked.1 hx
    simpa [found] using (differ_iff _ _ _ _).2 (h r hr _ hc _ hch)

theorem success_comparable {A B : Mat} {t : ℚ} (h : imagesEqual A B t = .ok .success) : Comparable A B := by
  unfold imagesEqual at h
  by_cases hT : (A.depth, A.channels) ≠ (B.depth, B.channels)
  · rw [if_pos hT] at h; cases h
  · rw [if_neg hT] at h
    simp only [ne_eq, Prod.mk.injEq, not_not] at hT
    have key : ∀ (f : Bool) (d : ℚ), imagesEqualTyped f d A B t = .ok .success → A.rows = B.rows ∧ A.cols = B.cols := by
      intro f d h
      by_cases h' : A.rows ≠ B.rows ∨ A.cols ≠ B.cols ∨ A.channels ≠ B.channels
      · unfold imagesEqualTyped at h; rw [if_pos h'] at h; cases h
      · simp only [not_or, not_not] at h'
        exact ⟨h'.1, h'.2.1⟩
    cases hd : A.depth <;> rw [hd] at h <;> simp only at h
    all_goals first
      | exact ⟨hT.1, hT.2, (key _ _ h).1, (key _ _ h).2, by simp [hd]⟩
      | exact absurd h (by simp)

/-- C109: what is compared, for any number of channels: in every row of the image the first scalars, one fewer than
columns and channels together. -/
theorem equal_iff {A B : Mat} (hA : Valid A) (hB : Valid B) (t : ℚ) : imagesEqual A B t = .ok .success ↔
    Comparable A B ∧ ∀ r < A.rows, ∀ k, 1 ≤ A.cols → k < A.cols + A.channels - 1 →
      Near (isFloat A) (used A t) (scalar A r k) (scalar B r k) := by
  constructor
  · intro h
    have hc := success_comparable h
    rw [comparable_ok hA hB hc, Outcome.ok.injEq, verdict_success] at h
    refine ⟨hc, fun r hr k h1 hk => ?_⟩
    have := hA.1
    by_cases hkc : k < A.cols
    · simpa [isFloat] using h r hr k hkc 0 (by omega)
    · have := h r hr (A.cols - 1) (by omega) (k - (A.cols - 1)) (by omega)
      rw [show A.cols - 1 + (k - (A.cols - 1)) = k by omega] at this
      simpa [isFloat] using this
  · rintro ⟨hc, h⟩
    rw [comparable_ok hA hB hc, Outcome.ok.injEq, verdict_success]
    intro r hr c hc' ch hch
    simpa [isFloat] using h r hr (c + ch) (by omega) (by omega)

/-- C109: images with one channel are equal exactly if they have the same type and size, the type is one of the seven, and
all pixels are numbers and near each other. -/
theorem single_channel_iff {A B : Mat} (hA : Valid A) (hB : Valid B) (h1 : A.channels = 1) (t : ℚ) :
    imagesEqual A B t = .ok .success ↔
      Comparable A B ∧ ∀ r < A.rows, ∀ c < A.cols, Near (isFloat A) (used A t) (value A r c 0) (value B r c 0) := by
  rw [equal_iff hA hB]
  constructor
  · rintro ⟨hc, h⟩
    refine ⟨hc, fun r hr c hc' => ?_⟩
    have := h r hr c (by omega) (by omega)
    have h2 : B.channels = 1 := hc.2.1 ▸ h1
    simpa [value, scalar, h1, h2] using this
  · rintro ⟨hc, h⟩
    refine ⟨hc, fun r hr k _ hk => ?_⟩
    have := h r hr k (by omega)
    have h2 : B.channels = 1 := hc.2.1 ▸ h1
    simpa [value, scalar, h1, h2] using this

theorem Near.symm {f : Prop} {t : ℚ} {a b : Scal} (h : Near f t a b) : Near f t b a := by
  obtain ⟨p, q, rfl, rfl, h1, h2⟩ := h
  exact ⟨q, p, rfl, rfl, fun hf => by rw [abs_sub_comm, min_comm]; exact h1 hf, fun hf => (h2 hf).symm⟩

theorem used_congr {A B : Mat} (h : A.depth = B.depth) (t : ℚ) : used A t = used B t := by simp [used, h]

/-- C109: the order of the images does not matter. -/
theorem equal_symm {A B : Mat} (hA : Valid A) (hB : Valid B) (t : ℚ) :
    imagesEqual A B t = .ok .success ↔ imagesEqual B A t = .ok .success := by
  have key : ∀ {A B : Mat}, Valid A → Valid B → imagesEqual A B t = .ok .success → imagesEqual B A t = .ok .success := by
    intro A B hA hB h
    rw [equal_iff hA hB] at h
    rw [equal_iff hB hA]
    obtain ⟨⟨h1, h2, h3, h4, h5⟩, h⟩ := h
    refine ⟨⟨h1.symm, h2.symm, h3.symm, h4.symm, h1 ▸ h5⟩, fun r hr k hk1 hk => ?_⟩
    have := (h r (h3 ▸ hr) k (h4 ▸ hk1) (by omega)).symm
    rw [used_congr h1] at this
    simpa [isFloat, h1] using this
  exact ⟨key hA hB, key hB hA⟩

/-- C109: an image whose scalars are all numbers is equal to itself. -/
theorem equal_refl {A : Mat} (hA : Valid A) (hd : A.depth ≠ .other) (hf : ∀ row ∈ A.data, ∀ s ∈ row, s ≠ .notFinite) (t : ℚ) :
    imagesEqual A A t = .ok .success := by
  rw [equal_iff hA hA]
  refine ⟨⟨rfl, rfl, rfl, rfl, hd⟩, fun r hr k h1 hk => ?_⟩
  obtain ⟨hch, hlen, hrow⟩ := hA
  have hl : r < A.data.length := hlen ▸ hr
  have hkl : k < (A.data[r]).length := by
    rw [hrow _ (List.getElem_mem hl)]
    have : A.cols + A.channels - 1 ≤ A.cols * A.channels := by
      obtain ⟨a, ha⟩ := Nat.exists_eq_add_of_le h1
      obtain ⟨b, hb⟩ := Nat.exists_eq_add_of_le hch
      rw [ha, hb]; have : (1 + a) * (1 + b) = 1 + a + b + a * b := by ring
      omega
    omega
  have hs : scalar A r k = (A.data[r])[k] := by
    simp [scalar, List.getD_eq_getElem?_getD, List.getElem?_eq_getElem hl, List.getElem?_eq_getElem hkl]
  have hne := hf _ (List.getElem_mem hl) _ (List.getElem_mem hkl)
  rw [hs]
  cases hq : (A.data[r])[k] with
  | notFinite => exact absurd hq hne
  | num q =>
    refine ⟨q, q, rfl, rfl, fun _ => ?_, fun _ => rfl⟩
    rw [sub_self, abs_zero, min_self]
    refine mul_nonneg (abs_nonneg q) ?_
    unfold used
    by_cases ht : t < 0
    · rw [if_pos ht]
      by_cases h32 : A.depth = .f32
      · rw [if_pos h32]; norm_num
      · rw [if_neg h32]
        by_cases h64 : A.depth = .f64
        · rw [if_pos h64]; norm_num
        · rw [if_neg h64]
    · rw [if_neg ht]; exact not_lt.1 ht

/-- C109: a larger tolerance never makes equal images different. -/
theorem tolerance_mono {A B : Mat} (hA : Valid A) (hB : Valid B) {t t' : ℚ} (h0 : 0 ≤ t) (ht : t ≤ t')
    (h : imagesEqual A B t = .ok .success) : imagesEqual A B t' = .ok .success := by
  rw [equal_iff hA hB] at h ⊢
  refine ⟨h.1, fun r hr k h1 hk => ?_⟩
  obtain ⟨p, q, hp, hq, hf, hn⟩ := h.2 r hr k h1 hk
  refine ⟨p, q, hp, hq, fun hF => (hf hF).trans ?_, hn⟩
  refine mul_le_mul_of_nonneg_left ?_ (le_min (abs_nonneg p) (abs_nonneg q))
  unfold used
  rw [if_neg (not_lt.2 h0), if_neg (not_lt.2 (h0.trans ht))]; exact ht

/-- C109: integer images with one channel are equal only if every pixel is the same. -/
theorem integers_exact {A B : Mat} (hA : Valid A) (hB : Valid B) (h1 : A.channels = 1) (hI : ¬ isFloat A) {t : ℚ}
    (h : imagesEqual A B t = .ok .success) {r c : Nat} (hr : r < A.rows) (hc : c < A.cols) : value A r c 0 = value B r c 0 := by
  obtain ⟨p, q, hp, hq, _, hn⟩ := ((single_channel_iff hA hB h1 t).1 h).2 r hr c hc
  rw [hp, hq, hn hI]

/-- C109: without a tolerance, two images of `double` with one channel count as equal if and only if they have the same size
and all values are numbers that differ by at most `1e-15` times the smaller one; of `float`, `1e-8` times. -/
theorem default_iff {A B : Mat} (hA : Valid A) (hB : Valid B) (h1 : A.channels = 1) (hf : isFloat A) :
    imagesEqualDefault A B = .ok .success ↔
      Comparable A B ∧ ∀ r < A.rows, ∀ c < A.cols, ∃ p q, value A r c 0 = .num p ∧ value B r c 0 = .num q ∧
        |p - q| ≤ min |p| |q| * (if A.depth = .f32 then 1 / 10 ^ 8 else 1 / 10 ^ 15) := by
  unfold imagesEqualDefault
  rw [single_channel_iff hA hB h1]
  have hu : used A (-1) = if A.depth = .f32 then 1 / 10 ^ 8 else 1 / 10 ^ 15 := by
    unfold used
    rw [if_pos (by norm_num)]
    rcases hf with h | h <;> simp [h]
  rw [hu]
  refine and_congr_right fun _ => forall₄_congr fun r _ c _ => ?_
  constructor
  · rintro ⟨p, q, hp, hq, h, -⟩
    exact ⟨p, q, hp, hq, h hf⟩
  · rintro ⟨p, q, hp, hq, h⟩
    exact ⟨p, q, hp, hq, fun _ => h, fun hn => absurd hf hn⟩

/-- C109: the places a failure names, in the order of the rows and columns: exactly the pixels at which images of one
channel with more than one row and column differ. -/
theorem places_named {A B : Mat} (hA : Valid A) (hB : Valid B) (hc : Comparable A B) (h1 : A.channels = 1) (hr : A.rows ≠ 1)
    (hco : A.cols ≠ 1) {t : ℚ} {places : List Place} {pattern : Option (List (List Bool))}
    (h : imagesEqual A B t = .ok (.failure places pattern)) (r c : Nat) :
    Place.at r c ∈ places ↔ r < A.rows ∧ c < A.cols ∧ ¬ Near (isFloat A) (used A t) (value A r c 0) (value B r c 0) := by
  rw [comparable_ok hA hB hc, Outcome.ok.injEq] at h
  unfold verdict at h
  have h2 : B.channels = 1 := hc.2.1 ▸ h1
  split at h
  · injection h with h3 h4
    subst h3
    simp only [List.mem_map, List.mem_filter, List.mem_flatten, allFound, List.mem_range]
    constructor
    · rintro ⟨x, ⟨⟨l, ⟨r', hr', rfl⟩, hx⟩, hb⟩, hp⟩
      obtain ⟨y, hy, rfl⟩ := List.mem_map.1 hx
      obtain ⟨hy1, hy2⟩ := mem_looked.1 hy
      simp only [found, place, if_neg hr, if_neg hco, Place.at.injEq] at hp
      obtain ⟨rfl, rfl⟩ := hp
      refine ⟨hr', hy1, fun hN => ?_⟩
      have : y.2 = 0 := by omega
      have h0 := (differ_iff (decide (A.depth = .f32 ∨ A.depth = .f64)) _ _ _).2
        (show Near _ (used A t) (scalar A r' (y.1 + y.2)) (scalar B r' (y.1 + y.2)) by
          simpa [value, scalar, h1, h2, this, isFloat] using hN)
      simp only [found] at hb
      rw [h0] at hb; cases hb
    · rintro ⟨hr', hc', hN⟩
      refine ⟨found A B _ _ r (c, 0), ⟨⟨_, ⟨r, hr', rfl⟩, List.mem_map.2 ⟨(c, 0), mem_looked.2 ⟨hc', by omega⟩, rfl⟩⟩, ?_⟩, ?_⟩
      · simp only [found, add_zero]
        by_contra hd
        refine hN ?_
        have := (differ_iff (decide (A.depth = .f32 ∨ A.depth = .f64)) _ _ _).1 (Bool.not_eq_true _ ▸ hd)
        simpa [value, scalar, h1, h2, isFloat] using this
      · simp [found, place, hr, hco]
  · cases h

/-! ### Concrete images -/

/-- One row of 8 bit pixels. -/
def grey (l : List ℚ) : Mat := ⟨1, l.length, 1, .u8, [l.map .num]⟩
/-- One row of `double`. -/
def doubles (l : List ℚ) : Mat := ⟨1, l.length, 1, .f64, [l.map .num]⟩

example : Valid (grey [1, 2, 3]) ∧ imagesEqual (grey [1, 2, 3]) (grey [1, 2, 3]) (-1) = .ok .success ∧
    imagesEqual (grey [1, 2, 3]) (grey [1, 2, 4]) (-1) = .ok (.failure [.position 2] none) ∧
    imagesEqual (grey [1, 2, 3]) (doubles [1, 2, 3]) (-1) = .ok .typeMismatch ∧
    imagesEqual (grey [1, 2, 3]) (grey [1, 2]) (-1) = .ok .sizeMismatch := by
  refine ⟨⟨by decide, by decide, by decide⟩, ?_, ?_, ?_, ?_⟩ <;> decide +kernel

example : imagesEqual ⟨2, 2, 1, .u8, [[.num 1, .num 2], [.num 3, .num 4]]⟩ ⟨2, 2, 1, .u8, [[.num 1, .num 2], [.num 7, .num 4]]⟩ 0 =
    .ok (.failure [.at 1 0] none) := by decide +kernel

example : Valid (doubles [1]) ∧ isFloat (doubles [1]) ∧
    imagesEqualDefault (doubles [1]) (doubles [1 + 1 / 10 ^ 16]) = .ok .success ∧
    imagesEqualDefault (doubles [1]) (doubles [1 + 1 / 10 ^ 14]) = .ok (.failure [.position 0] none) := by
  refine ⟨⟨by decide, by decide, by decide⟩, Or.inr rfl, ?_, ?_⟩ <;> decide +kernel

/-- Two pixels with three channels. -/
def colour (l : List ℚ) : Mat := ⟨1, 2, 3, .u8, [l.map .num]⟩

/-- C109, refuted: images with several channels that differ count as equal: only the first scalars of a row are looked
at. -/
theorem channels_refuted : Valid (colour [1, 2, 3, 4, 5, 6]) ∧ Valid (colour [1, 2, 3, 4, 9, 9]) ∧
    imagesEqual (colour [1, 2, 3, 4, 5, 6]) (colour [1, 2, 3, 4, 9, 9]) 0 = .ok .success ∧
    value (colour [1, 2, 3, 4, 5, 6]) 0 1 1 ≠ value (colour [1, 2, 3, 4, 9, 9]) 0 1 1 := by
  refine ⟨⟨by decide, by decide, by decide⟩, ⟨by decide, by decide, by decide⟩, ?_, ?_⟩ <;> decide +kernel

/-- C109, refuted: "whether the absolute difference between any two elements exceeds a threshold": for integers the tolerance
does not count at all, for floating point numbers it is relative, so that numbers within it are different and numbers
beyond it are equal. -/
theorem tolerance_refuted :
    imagesEqual (grey [10]) (grey [11]) 5 = .ok (.failure [.position 0] none) ∧
    imagesEqual (doubles [0]) (doubles [1 / 10 ^ 20]) (1 / 10) = .ok (.failure [.position 0] none) ∧
    imagesEqual (doubles [1000]) (doubles [1001]) (1 / 100) = .ok .success := by
  refine ⟨?_, ?_, ?_⟩ <;> decide +kernel

/-- C109, refuted: an image is not equal to itself if it contains an infinite number. -/
theorem refl_refuted :
    imagesEqual ⟨1, 1, 1, .f64, [[.notFinite]]⟩ ⟨1, 1, 1, .f64, [[.notFinite]]⟩ 1 = .ok (.failure [.position 0] none) := by
  decide +kernel

/-- C109, refuted: for an image with one column the position named is always 0. -/
theorem position_refuted :
    imagesEqual ⟨3, 1, 1, .u8, [[.num 1], [.num 2], [.num 3]]⟩ ⟨3, 1, 1, .u8, [[.num 1], [.num 2], [.num 4]]⟩ 0 =
      .ok (.failure [.position 0] none) := by
  decide +kernel

end Verif.ImageEqual
