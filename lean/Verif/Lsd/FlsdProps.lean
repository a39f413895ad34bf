import Verif.Lsd.Flsd
import Verif.Lsd.RefineProps
import Verif.Lsd.LlAngleProps
import Verif.Lsd.NfaProps
import Verif.Lsd.ImproveProps

/-!
# Properties of the detector (C107)
-/

open scoped Classical

namespace Verif.Lsd

/-! ### Specification -/

/-- What a segment that was found has to satisfy. -/
structure GoodFound (m : Img) (a : Params) (logGamma : ℝ → ℝ) (f : Found) : Prop where
  /-- its region consists of different pixels of the image with a direction, at least two -/
  nodup : f.reg.Nodup
  free : ∀ p ∈ f.reg, m.In p ∧ m.ang p.1 p.2 ≠ none
  two : 2 ≤ f.reg.length
  /-- without refinement: the rectangle of a region of the minimal size -/
  plain : a.refine = 0 → minReg m.w m.h a.p ≤ f.reg.length ∧
    ∃ b, region2rect m f.reg b a.prec a.p = .ok f.rect
  /-- with refinement: a narrower version of a rectangle in which the region is dense -/
  dense : 0 < a.refine → ∃ r, Dense f.reg.length r a.densityTh ∧
    (∃ b, region2rect m f.reg b a.prec a.p = .ok r) ∧ Narrower r f.rect ∧
    (a.refine < 2 → f.rect = r)
  /-- with the test of false alarms: a value above the threshold -/
  nfa : 2 ≤ a.refine → a.logEps < f.nfa ∧ f.nfa = rectNfa m logGamma (logNT m.w m.h) f.rect

/-- No pixel belongs to two of the regions. -/
def Apart (l : List Found) : Prop := l.Pairwise fun f g => ∀ p ∈ f.reg, p ∉ g.reg

/-! ### The loop -/

structure LoopInv (m : Img) (a : Params) (logGamma : ℝ → ℝ) (st : (Px → Bool) × List Found) : Prop where
  good : ∀ f ∈ st.2, GoodFound m a logGamma f
  apart : Apart st.2
  marked : ∀ f ∈ st.2, ∀ p ∈ f.reg, st.1 p = true

theorem narrower_refl (r : Rect) : Narrower r r := (narrower_iff r r).2 (NarrowerN.refl 10 r)

theorem LoopInv.push {m : Img} {a : Params} {logGamma : ℝ → ℝ} {st : (Px → Bool) × List Found}
    (h : LoopInv m a logGamma st) {s : Px} {used : Px → Bool} {f : Found}
    (ho : Owns m st.1 s f.reg used) (hf : GoodFound m a logGamma f) :
    LoopInv m a logGamma (used, st.2 ++ [f]) where
  good := by
    intro g hg
    rcases List.mem_append.1 hg with h1 | h1
    · exact h.good g h1
    · rw [List.mem_singleton.1 h1]; exact hf
  apart := by
    unfold Apart
    rw [List.pairwise_append]
    refine ⟨h.apart, List.pairwise_singleton _ _, ?_⟩
    intro g hg f' hf' p hp hp'
    rw [List.mem_singleton.1 hf'] at hp'
    have := h.marked g hg p hp
    rw [(ho.free p hp').2.1] at this
    cases this
  marked := by
    intro g hg p hp
    rcases List.mem_append.1 hg with h1 | h1
    · exact (ho.marks p).2 (Or.inl (h.marked g h1 p hp))
    · rw [List.mem_singleton.1 h1] at hp
      exact (ho.marks p).2 (Or.inr hp)

theorem LoopInv.keep {m : Img} {a : Params} {logGamma : ℝ → ℝ} {st : (Px → Bool) × List Found}
    (h : LoopInv m a logGamma st) {s : Px} {reg : List Px} {used : Px → Bool}
    (ho : Owns m st.1 s reg used) : LoopInv m a logGamma (used, st.2) where
  good := h.good
  apart := h.apart
  marked := fun g hg p hp => (ho.marks p).2 (Or.inl (h.marked g hg p hp))

theorem length_of_rect {m : Img} {reg : List Px} {b prec p : ℝ} {r : Rect} (hm : Steep m)
    (hd : ∀ q ∈ reg, m.ang q.1 q.2 ≠ none) (hne : reg ≠ [])
    (h : region2rect m reg b prec p = .ok r) : 2 ≤ reg.length := by
  match reg, hne with
  | [q], _ =>
    have := hm q.1 q.2 (hd q (by simp))
    rw [region2rect_single (by linarith)] at h
    cases h
  | _ :: _ :: _, _ => simp

/-- C107: each visit of a pixel succeeds and keeps the invariant of the detector. -/
theorem visit_inv {m : Img} {a : Params} {logGamma : ℝ → ℝ} (hm : Steep m)
    (hmin : 2 ≤ minReg m.w m.h a.p) {st : (Px → Bool) × List Found}
    (h : LoopInv m a logGamma st) {q : Px} (hq : m.In q) :
    ∃ st', visit m a logGamma st q = .ok st' ∧ LoopInv m a logGamma st' := by
  unfold visit
  by_cases hc : st.1 q = false ∧ m.ang q.1 q.2 ≠ none
  · rw [if_pos hc]
    obtain ⟨g, hg, hgr⟩ := regionGrow_spec (m := m) (used := st.1) (s := q) a.prec hq hc.1 hc.2
    rw [hg, Outcome.bind_ok]
    have hog := hgr.owns
    by_cases hl : g.reg.length < minReg m.w m.h a.p
    · rw [if_pos hl]
      exact ⟨_, rfl, h.keep hog⟩
    · rw [if_neg hl]
      obtain ⟨rec, hrec⟩ := owns_rect hog hm (by omega) g.angle a.prec a.p
      rw [hrec, Outcome.bind_ok]
      by_cases hr : 0 < a.refine
      · rw [if_pos hr]
        obtain ⟨R, hR, hgood⟩ := refine_spec (th := a.densityTh) hm hog ⟨g.angle, hrec⟩
        rw [hR, Outcome.bind_ok]
        obtain ⟨ho, ht, -⟩ := hgood
        by_cases hres : R.result = false
        · rw [if_pos hres]
          exact ⟨_, rfl, h.keep ho⟩
        · rw [if_neg hres]
          have hres' : R.result = true := by
            cases hb : R.result
            · exact absurd hb hres
            · rfl
          obtain ⟨hd, b, hb⟩ := ht hres'
          have hne : R.reg ≠ [] := by
            intro h'
            have := ho.head
            rw [h'] at this
            cases this
          have htwo := length_of_rect hm (fun q hq => (ho.free q hq).2.2) hne hb
          by_cases ha : 2 ≤ a.refine
          · rw [if_pos ha]
            simp only
            obtain ⟨v1, -⟩ := improve_value (rectNfa m logGamma (logNT m.w m.h)) a.logEps R.rect
            by_cases hv : (improve (rectNfa m logGamma (logNT m.w m.h)) a.logEps R.rect).2 ≤ a.logEps
            · rw [if_pos hv]
              exact ⟨_, rfl, h.keep ho⟩
            · rw [if_neg hv]
              refine ⟨_, rfl, h.push ho ?_⟩
              exact {
                nodup := ho.nodup
                free := fun p hp => ⟨(ho.free p hp).1, (ho.free p hp).2.2⟩
                two := htwo
                plain := fun h0 => absurd h0 (by omega)
                dense := fun _ => ⟨R.rect, hd, ⟨b, hb⟩,
                  improve_narrower (rectNfa m logGamma (logNT m.w m.h)) a.logEps R.rect,
                  fun h0 => absurd h0 (by omega)⟩
                nfa := fun _ => ⟨not_le.1 hv, v1⟩ }
          · rw [if_neg ha]
            refine ⟨_, rfl, h.push ho ?_⟩
            exact {
              nodup := ho.nodup
              free := fun p hp => ⟨(ho.free p hp).1, (ho.free p hp).2.2⟩
              two := htwo
              plain := fun h0 => absurd h0 (by omega)
              dense := fun _ => ⟨R.rect, hd, ⟨b, hb⟩, narrower_refl _, fun _ => rfl⟩
              nfa := fun h0 => absurd h0 ha }
      · rw [if_neg hr]
        refine ⟨_, rfl, h.push hog ?_⟩
        exact {
          nodup := hog.nodup
          free := fun p hp => ⟨(hog.free p hp).1, (hog.free p hp).2.2⟩
          two := by simp only; omega
          plain := fun _ => ⟨by simp only; omega, g.angle, hrec⟩
          dense := fun h0 => absurd h0 hr
          nfa := fun h0 => absurd h0 (by omega) }
  · rw [if_neg hc]
    exact ⟨st, rfl, h⟩

theorem visits_inv {m : Img} {a : Params} {logGamma : ℝ → ℝ} (hm : Steep m)
    (hmin : 2 ≤ minReg m.w m.h a.p) (qs : List Px) : ∀ (st : (Px → Bool) × List Found),
    LoopInv m a logGamma st → (∀ q ∈ qs, m.In q) →
    ∃ st', visits m a logGamma qs st = .ok st' ∧ LoopInv m a logGamma st' := by
  induction qs with
  | nil => intro st h _; exact ⟨st, rfl, h⟩
  | cons q qs ih =>
    intro st h hq
    obtain ⟨st', h1, h2⟩ := visit_inv hm hmin h (hq q (by simp))
    rw [visits, h1, Outcome.bind_ok]
    exact ih st' h2 (fun r hr => hq r (by simp [hr]))

/-! ### The parameters -/

theorem Params.Accepted.sin {a : Params} (h : a.Accepted) : 0 < Real.sin a.prec ∧ Real.sin a.prec ≤ 1 := by
  obtain ⟨-, -, -, h1, h2, -⟩ := h
  have := Real.pi_pos
  refine ⟨Real.sin_pos_of_pos_of_lt_pi ?_ ?_, Real.sin_le_one _⟩
  · unfold Params.prec; positivity
  · unfold Params.prec
    rw [div_lt_iff₀ (by norm_num)]
    nlinarith

/-- C107: with a quantization of at least one only gradients above one count. -/
theorem quant_steep {i : Gray} {a : Params} (ha : a.Accepted) (hq : 1 ≤ a.quant)
    (atan2 : ℝ → ℝ → ℝ) (rest : Nat → Nat → ℝ) : Steep (llImg i a.rho atan2 rest) := by
  intro x y h
  have h1 := (ll_mod h).2
  obtain ⟨s1, s2⟩ := ha.sin
  have : 1 ≤ a.rho := by
    unfold Params.rho
    rw [le_div_iff₀ s1]
    linarith
  linarith

theorem log10_nonneg_nat {n : Nat} (h : 2 ≤ n) : log10 2 ≤ log10 n :=
  log10_mono (by norm_num) (by exact_mod_cast h)

/-- C107: with a tolerance of at least ten degrees regions need at least two pixels, in every image that
has gradients. -/
theorem minReg_two {w h : Nat} {a : Params} (ha : a.Accepted) (hth : 10 ≤ a.angTh) (hw : 2 ≤ w)
    (hh : 2 ≤ h) : 2 ≤ minReg w h a.p := by
  obtain ⟨-, -, -, -, h2, -⟩ := ha
  have hp0 : 1 / 18 ≤ a.p := by unfold Params.p; linarith
  have hp1 : a.p < 1 := by unfold Params.p; linarith
  have hneg := log10_neg (by linarith : 0 < a.p) hp1
  unfold minReg
  apply Nat.le_floor
  push_cast
  have e : -logNT w h / log10 a.p = logNT w h / -log10 a.p := by rw [div_neg, neg_div]
  rw [e, le_div_iff₀ (by linarith)]
  have h18 : log10 (1 / 18) ≤ log10 a.p := log10_mono (by norm_num) hp0
  have h18' : log10 (1 / 18) = -log10 18 := by rw [one_div, log10_inv]
  have hnt : 5 * log10 2 + log10 11 ≤ logNT w h := by
    unfold logNT
    have := log10_nonneg_nat hw
    have := log10_nonneg_nat hh
    linarith
  have h5 : 5 * log10 2 = log10 32 := by
    unfold log10
    rw [show (32 : ℝ) = 2 ^ 5 by norm_num, Real.log_pow]
    push_cast
    ring
  have h352 : log10 32 + log10 11 = log10 352 := by
    rw [← log10_mul (by norm_num) (by norm_num)]
    norm_num
  have h324 : 2 * log10 18 = log10 324 := by
    unfold log10
    rw [show (324 : ℝ) = 18 ^ 2 by norm_num, Real.log_pow]
    push_cast
    ring
  have : log10 324 ≤ log10 352 := log10_mono (by norm_num) (by norm_num)
  linarith

/-! ### C107 -/

/-- Without gradients nothing is found. -/
theorem visits_flat {m : Img} {a : Params} {logGamma : ℝ → ℝ} (h : ∀ x y, m.ang x y = none)
    (qs : List Px) (st : (Px → Bool) × List Found) : visits m a logGamma qs st = .ok st := by
  induction qs with
  | nil => rfl
  | cons q qs ih =>
    rw [visits, visit, if_neg (fun hc => hc.2 (h _ _)), Outcome.bind_ok, ih]

/-- C107: with accepted parameters, a quantization of at least one and a tolerance of at least ten
degrees detection never fails, whatever the image. Every segment stands for a region of its own, and
with refinement that region is dense in the rectangle; with the test of false alarms the value is above
the threshold. -/
theorem flsd_spec (i : Gray) {a : Params} (ha : a.Accepted) (hq : 1 ≤ a.quant) (hth : 10 ≤ a.angTh)
    (hw : 0 < i.w) (hh : 0 < i.h) (atan2 : ℝ → ℝ → ℝ) (rest : Nat → Nat → ℝ) (logGamma : ℝ → ℝ) :
    ∃ l, flsd i a atan2 rest logGamma = .ok l ∧ Apart l ∧
      ∀ f ∈ l, GoodFound (llImg i a.rho atan2 rest) a logGamma f := by
  have hn : 0 < a.nBins := ha.2.2.2.2.2.2.2
  obtain ⟨b, start, hb, -⟩ := llList_spec i a.rho hn
  obtain ⟨hpts, -, hmem⟩ := llList_points hn hw hh hb
  unfold flsd
  rw [hb, Outcome.bind_ok]
  simp only
  by_cases hin : 2 ≤ i.w ∧ 2 ≤ i.h
  · have hall : ∀ q ∈ b.points (i.w * i.h), (llImg i a.rho atan2 rest).In q := by
      intro q hq
      rw [hpts] at hq
      rcases List.mem_append.1 hq with h1 | h1
      · have := (hmem q).1 h1
        exact ⟨by simp only [llImg]; exact lt_trans (Nat.lt_succ_self _) this.1,
          by simp only [llImg]; exact lt_trans (Nat.lt_succ_self _) this.2⟩
      · rw [List.eq_of_mem_replicate h1]
        exact ⟨hw, hh⟩
    obtain ⟨st, h1, h2⟩ := visits_inv (logGamma := logGamma) (quant_steep ha hq atan2 rest)
      (minReg_two ha hth hin.1 hin.2 : 2 ≤ minReg (llImg i a.rho atan2 rest).w
        (llImg i a.rho atan2 rest).h a.p) (b.points (i.w * i.h)) (fun _ => false, [])
      ⟨by simp, List.Pairwise.nil, by simp⟩ hall
    rw [h1, Outcome.bind_ok]
    exact ⟨_, rfl, h2.apart, h2.good⟩
  · have hnone : ∀ x y, (llImg i a.rho atan2 rest).ang x y = none := by
      intro x y
      by_contra hc
      have := ((ll_defined i a.rho atan2 rest x y).1 hc).1
      unfold Gray.Inner at this
      omega
    rw [visits_flat hnone, Outcome.bind_ok]
    exact ⟨_, rfl, List.Pairwise.nil, by simp⟩

/-- The parameters of `aslam::LineSegmentDetector` (line-segment-detector.cc:14-15). -/
noncomputable def aslamParams : Params where
  refine := 1
  scale := 4 / 5
  sigmaScale := 3 / 5
  quant := 2
  angTh := 33 / 2
  logEps := 0
  densityTh := 13 / 20
  nBins := 1024

theorem aslamParams_accepted : aslamParams.Accepted := by
  norm_num [Params.Accepted, aslamParams]

/-- C107: the detector of aslam never fails, and in the rectangle of each of its segments at least 65
percent of the area is covered by pixels of the region of the segment. -/
theorem aslam_flsd (i : Gray) (hw : 0 < i.w) (hh : 0 < i.h) (atan2 : ℝ → ℝ → ℝ)
    (rest : Nat → Nat → ℝ) (logGamma : ℝ → ℝ) :
    ∃ l, flsd i aslamParams atan2 rest logGamma = .ok l ∧ Apart l ∧
      ∀ f ∈ l, Dense f.reg.length f.rect (13 / 20) ∧
        ∃ b, region2rect (llImg i aslamParams.rho atan2 rest) f.reg b aslamParams.prec
          aslamParams.p = .ok f.rect := by
  obtain ⟨l, h1, h2, h3⟩ := flsd_spec i aslamParams_accepted (by norm_num [aslamParams])
    (by norm_num [aslamParams]) hw hh atan2 rest logGamma
  refine ⟨l, h1, h2, fun f hf => ?_⟩
  obtain ⟨r, d1, d2, -, d4⟩ := (h3 f hf).dense (by norm_num [aslamParams])
  have := d4 (by norm_num [aslamParams])
  rw [this]
  exact ⟨d1, d2⟩

/-- The regions are counted: there are at most half as many segments as pixels. -/
theorem apart_count {m : Img} {a : Params} {logGamma : ℝ → ℝ} {l : List Found} (h : Apart l)
    (hg : ∀ f ∈ l, GoodFound m a logGamma f) : 2 * l.length ≤ m.w * m.h := by
  have hnd : (l.flatMap Found.reg).Nodup := by
    rw [List.nodup_flatMap]
    refine ⟨fun f hf => (hg f hf).nodup, ?_⟩
    exact h.imp fun {f g} hfg p hp hp' => hfg p hp hp'
  have hlen : 2 * l.length ≤ (l.flatMap Found.reg).length := by
    clear hnd h
    induction l with
    | nil => simp
    | cons f t ih =>
      rw [List.flatMap_cons, List.length_append, List.length_cons]
      have h1 := (hg f (by simp)).two
      have h2 := ih (fun g hg' => hg g (by simp [hg']))
      omega
  refine le_trans hlen (length_le_of_nodup hnd ?_)
  intro p hp
  obtain ⟨f, hf, hp⟩ := List.mem_flatMap.1 hp
  exact ((hg f hf).free p hp).1

/-- C107: an end of the segment that is returned is the pixel in which the end of the rectangle lies. -/
theorem segment_pixel {v s : ℝ} (hs : 0 < s) (hv : 0 ≤ v + 1 / 2) :
    (toInt (if s = 1 then v + 1 / 2 else (v + 1 / 2) / s) : ℝ) ≤ (v + 1 / 2) / s ∧
      (v + 1 / 2) / s < toInt (if s = 1 then v + 1 / 2 else (v + 1 / 2) / s) + 1 := by
  have e : (if s = 1 then v + 1 / 2 else (v + 1 / 2) / s) = (v + 1 / 2) / s := by
    split_ifs with h
    · rw [h, div_one]
    · rfl
  rw [e]
  have h0 : 0 ≤ (v + 1 / 2) / s := div_nonneg hv hs.le
  unfold toInt
  rw [if_pos h0]
  exact ⟨Int.floor_le _, Int.lt_floor_add_one _⟩

/-- C107: the ends that are returned for a rectangle are the pixels of the image that was given in which the
middles of the pixels of the scaled image lie, whatever the scale. -/
theorem segment_ends {a : Params} (hs : 0 < a.scale) (r : Rect) (h1 : 0 ≤ r.x1 + 1 / 2)
    (h2 : 0 ≤ r.y1 + 1 / 2) (h3 : 0 ≤ r.x2 + 1 / 2) (h4 : 0 ≤ r.y2 + 1 / 2) :
    List.Forall₂ (fun (n : Int) (v : ℝ) => n * a.scale ≤ v + 1 / 2 ∧ v + 1 / 2 < (n + 1) * a.scale)
      [(segment a r).1, (segment a r).2.1, (segment a r).2.2.1, (segment a r).2.2.2]
      [r.x1, r.y1, r.x2, r.y2] := by
  have key : ∀ v : ℝ, 0 ≤ v + 1 / 2 →
      (toInt (if a.scale = 1 then v + 1 / 2 else (v + 1 / 2) / a.scale) : ℝ) * a.scale ≤ v + 1 / 2 ∧
      v + 1 / 2 < (toInt (if a.scale = 1 then v + 1 / 2 else (v + 1 / 2) / a.scale) + 1) * a.scale := by
    intro v hv
    obtain ⟨k1, k2⟩ := segment_pixel hs hv
    exact ⟨(le_div_iff₀ hs).1 k1, (div_lt_iff₀ hs).1 k2⟩
  exact .cons (key _ h1) (.cons (key _ h2) (.cons (key _ h3) (.cons (key _ h4) .nil)))

/-! ### Small tolerances -/

/-- An image of two by two pixels. -/
noncomputable def tinyImage : Gray where
  w := 2
  h := 2
  px := fun x _ => 10 * (x : ℝ)

/-- No quantization, and a tolerance of a tenth of a degree. -/
noncomputable def tinyParams : Params where
  refine := 1
  scale := 1
  sigmaScale := 3 / 5
  quant := 0
  angTh := 1 / 10
  logEps := 0
  densityTh := 7 / 10
  nBins := 1024

theorem tinyParams_accepted : tinyParams.Accepted := by
  norm_num [Params.Accepted, tinyParams]

/-- An image of two by two pixels accepts regions of any size. -/
theorem tiny_minReg : minReg 2 2 tinyParams.p = 0 := by
  have hp : tinyParams.p = 1 / 1800 := by norm_num [Params.p, tinyParams]
  unfold minReg
  rw [hp, one_div, log10_inv, div_neg, neg_div, neg_neg, Nat.floor_eq_zero]
  have h1800 := log10_pos (a := 1800) (by norm_num)
  rw [div_lt_one h1800]
  unfold logNT
  have h4 : 5 * (log10 (2 : ℕ) + log10 (2 : ℕ)) / 2 = log10 32 := by
    unfold log10
    rw [show (32 : ℝ) = 2 ^ 5 by norm_num, Real.log_pow]
    push_cast
    ring
  rw [h4, ← log10_mul (by norm_num) (by norm_num)]
  unfold log10
  exact div_lt_div_of_pos_right (Real.log_lt_log (by norm_num) (by norm_num))
    (Real.log_pos (by norm_num))

/-- C107, refuted for all accepted parameters: detection may fail. The least size of a region is rounded
down, to zero for `tinyParams`; then the region of a single pixel has no axis, which is an exception. -/
theorem flsd_fails_refuted : ¬ ∀ (i : Gray) (a : Params) (atan2 : ℝ → ℝ → ℝ) (rest : Nat → Nat → ℝ)
    (logGamma : ℝ → ℝ), a.Accepted → 0 < i.w → 0 < i.h →
    ∃ l, flsd i a atan2 rest logGamma = .ok l := by
  intro h
  obtain ⟨l, hl⟩ := h tinyImage tinyParams exactAngle (fun _ _ => 0) exactGamma tinyParams_accepted
    (by simp [tinyImage]) (by simp [tinyImage])
  obtain ⟨b, start, hb, -⟩ := llList_spec tinyImage tinyParams.rho (nBins := tinyParams.nBins)
    (by norm_num [tinyParams])
  obtain ⟨hpts, -, -⟩ := llList_points (by norm_num [tinyParams]) (by norm_num [tinyImage])
    (by norm_num [tinyImage]) hb
  have hraster : raster tinyImage.w tinyImage.h = [(0, 0)] := by
    simp only [tinyImage]
    decide
  have hrho : tinyParams.rho = 0 := by simp [Params.rho, tinyParams]
  have hnorm : ∀ x y, tinyImage.norm x y = 10 := by
    intro x y
    obtain ⟨h1, h2⟩ := ramp_slopes (i := tinyImage) (a := 10) (b := 0) (c := 0)
      (by intro x y; simp [tinyImage]) x y
    rw [norm_eq, h1, h2]
    rw [show (10 : ℝ) ^ 2 + 0 ^ 2 = 10 ^ 2 by norm_num, Real.sqrt_sq (by norm_num)]
  set m := llImg tinyImage tinyParams.rho exactAngle (fun _ _ => 0) with hmdef
  have hdef : m.ang 0 0 ≠ none := by
    rw [hmdef, ll_defined, ← norm_eq, hnorm, hrho]
    exact ⟨⟨by simp [tinyImage], by simp [tinyImage]⟩, by norm_num⟩
  have hmod : 0 < m.mod 0 0 := lt_of_le_of_lt (by rw [hrho]) (ll_mod hdef).2
  have honly : ∀ p : Px, m.ang p.1 p.2 ≠ none → p = (0, 0) := by
    intro p hp
    have := ((ll_defined _ _ _ _ _ _).1 hp).1
    unfold Gray.Inner at this
    simp only [tinyImage] at this
    exact Prod.ext (by simp only; omega) (by simp only; omega)
  obtain ⟨g, hg, hgr⟩ := regionGrow_spec (m := m) (used := fun _ => false) (s := (0, 0))
    tinyParams.prec ⟨by simp [hmdef, llImg, tinyImage], by simp [hmdef, llImg, tinyImage]⟩ rfl hdef
  have hreg : g.reg = [(0, 0)] := by
    have hall : ∀ p ∈ g.reg, p = (0, 0) := fun p hp => honly p (hgr.free p hp).2.2
    have hhead := hgr.head
    have hnd := hgr.nodup
    match hr : g.reg with
    | [] => rw [hr] at hhead; cases hhead
    | [q] => rw [hr] at hhead; cases hhead; rfl
    | q :: q' :: t =>
      rw [hr] at hall hnd
      have e1 := hall q (by simp)
      have e2 := hall q' (by simp)
      rw [e1, e2] at hnd
      simp at hnd
  have hvisit : visit m tinyParams exactGamma (fun _ => false, []) (0, 0) = .exc := by
    have hmin : minReg m.w m.h tinyParams.p = 0 := by
      have : m.w = 2 ∧ m.h = 2 := ⟨rfl, rfl⟩
      rw [this.1, this.2]
      exact tiny_minReg
    unfold visit
    rw [if_pos ⟨rfl, hdef⟩]
    simp only
    rw [hg, Outcome.bind_ok, hmin, if_neg (by omega), hreg, region2rect_single hmod]
    rfl
  unfold flsd at hl
  rw [hb, Outcome.bind_ok] at hl
  simp only at hl
  rw [hpts, hraster, ← hmdef, List.singleton_append, visits, hvisit] at hl
  cases hl

end Verif.Lsd
