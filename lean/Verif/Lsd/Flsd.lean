import Verif.Lsd.LlAngle
import Verif.Lsd.Refine
import Verif.Lsd.Nfa

/-!
# Detecting line segments

Models the constructor of `LineSegmentDetectorImpl` and `flsd` of
`aslam_cv_detector/src/lsd/lsd-opencv.cc`. Simplifications: floating point numbers are exact reals, and
`int` does not overflow. The scaled image is given: `GaussianBlur` and `resize` are not modelled.
-/

open scoped Classical

namespace Verif.Lsd

/-- lsd-opencv.cc:342-349: the parameters of the detector; `refine` is 0 for `LSD_REFINE_NONE`, 1 for
`LSD_REFINE_STD` and 2 for `LSD_REFINE_ADV`. -/
structure Params where
  refine : Nat
  scale : ℝ
  sigmaScale : ℝ
  quant : ℝ
  angTh : ℝ
  logEps : ℝ
  densityTh : ℝ
  nBins : Nat

/-- lsd-opencv.cc:516-518: what the constructor asserts. -/
def Params.Accepted (a : Params) : Prop :=
  0 < a.scale ∧ 0 < a.sigmaScale ∧ 0 ≤ a.quant ∧ 0 < a.angTh ∧ a.angTh < 180 ∧ 0 ≤ a.densityTh ∧
    a.densityTh < 1 ∧ 0 < a.nBins

/-- lsd-opencv.cc:552: `prec`. -/
noncomputable def Params.prec (a : Params) : ℝ := Real.pi * a.angTh / 180

/-- lsd-opencv.cc:553: `p`. -/
noncomputable def Params.p (a : Params) : ℝ := a.angTh / 180

/-- lsd-opencv.cc:554: `rho`. -/
noncomputable def Params.rho (a : Params) : ℝ := a.quant / Real.sin a.prec

/-- lsd-opencv.cc:575: `LOG_NT`. -/
noncomputable def logNT (w h : Nat) : ℝ := 5 * (log10 w + log10 h) / 2 + log10 11

/-- lsd-opencv.cc:576: `min_reg_size`. The quotient is positive, so the fraction is dropped. -/
noncomputable def minReg (w h : Nat) (p : ℝ) : Nat := ⌊-logNT w h / log10 p⌋₊

/-- lsd-opencv.cc:615-634: what is stored for a segment. The region, which is not stored, is kept along. -/
structure Found where
  reg : List Px
  rect : Rect
  nfa : ℝ

/-- lsd-opencv.cc:587-642: one round of the loop over the list, with the map `used`. -/
noncomputable def visit (m : Img) (a : Params) (logGamma : ℝ → ℝ) (st : (Px → Bool) × List Found)
    (q : Px) : Outcome ((Px → Bool) × List Found) :=
  if st.1 q = false ∧ m.ang q.1 q.2 ≠ none then
    regionGrow m st.1 q a.prec >>= fun g =>
      if g.reg.length < minReg m.w m.h a.p then .ok (g.used, st.2)
      else
        region2rect m g.reg g.angle a.prec a.p >>= fun rec =>
          if 0 < a.refine then
            refine m a.prec a.p a.densityTh g.used g.reg rec >>= fun r =>
              if r.result = false then .ok (r.used, st.2)
              else if 2 ≤ a.refine then
                let b := improve (rectNfa m logGamma (logNT m.w m.h)) a.logEps r.rect
                if b.2 ≤ a.logEps then .ok (r.used, st.2)
                else .ok (r.used, st.2 ++ [⟨r.reg, b.1, b.2⟩])
              else .ok (r.used, st.2 ++ [⟨r.reg, r.rect, -1⟩])
          else .ok (g.used, st.2 ++ [⟨g.reg, rec, -1⟩])
  else .ok st

/-- lsd-opencv.cc:586-643: the loop. -/
noncomputable def visits (m : Img) (a : Params) (logGamma : ℝ → ℝ) :
    List Px → (Px → Bool) × List Found → Outcome ((Px → Bool) × List Found)
  | [], st => .ok st
  | q :: qs, st => visit m a logGamma st q >>= visits m a logGamma qs

/-- lsd-opencv.cc:547-643: `flsd` on the scaled image `i`. -/
noncomputable def flsd (i : Gray) (a : Params) (atan2 : ℝ → ℝ → ℝ) (rest : Nat → Nat → ℝ)
    (logGamma : ℝ → ℝ) : Outcome (List Found) :=
  llList i a.rho a.nBins >>= fun b =>
    visits (llImg i a.rho atan2 rest) a logGamma (b.1.points (i.w * i.h)) (fun _ => false, []) >>=
      fun st => .ok st.2

/-- lsd-opencv.cc:618-631: the segment that is returned for a rectangle. -/
noncomputable def segment (a : Params) (r : Rect) : Int × Int × Int × Int :=
  let s := fun v : ℝ => toInt (if a.scale = 1 then v + 1 / 2 else (v + 1 / 2) / a.scale)
  (s r.x1, s r.y1, s r.x2, s r.y2)

end Verif.Lsd
