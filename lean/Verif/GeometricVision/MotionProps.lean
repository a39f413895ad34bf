import Verif.GeometricVision.MatchesProps

/-!
# C152: where points reappear
-/

namespace Verif.GeometricVision

open Verif.Camera

variable (b : Box) (I : Fin 4 → ℝ)

/-! ## Specification -/

/-- The keypoint at which a camera without distortion sees a point. -/
noncomputable def seenAt (p : V3) : V2 := (I 0 * (p.1 / p.2.2) + I 2, I 1 * (p.2.1 / p.2.2) + I 3)

/-- A map that turns directions, whatever their length. -/
def Turns (r : V3 → V3) : Prop := ∀ (s : ℝ) (p : V3), r (scale s p) = scale s (r p)

/-- The point is in front of the camera and in the image. -/
def Seen (p : V3) : Prop := 1e-10 < p.2.2 ∧ InImage b (seenAt I p)

/-- After the turn the point is in front of the camera, by more than 1e-10 of its former depth, and in the image. -/
def SeenTurned (r : V3 → V3) (p : V3) : Prop := 1e-10 * p.2.2 < (r p).2.2 ∧ InImage b (seenAt I (r p))

/-- A point moved by `t`. -/
def shift (t p : V3) : V3 := (p.1 + t.1, p.2.1 + t.2.1, p.2.2 + t.2.2)

/-! ## Proofs -/

theorem project_seenAt {p : V3} (hz : p.2.2 ≠ 0) : ((pinhole b I).project p).1 = seenAt I p := by
  have h := pinhole_project_some b I hz
  rw [pinhole_keypoint Verif.Distortion.null b I Fin.elim0 hz] at h
  exact (Option.some.inj h).symm

theorem seen_iff (p : V3) : ((pinhole b I).project p).2 = true ↔ Seen b I p := by
  rw [pinhole_visible_iff]
  unfold Seen
  refine and_congr_right fun h => ?_
  rw [project_seenAt b I (ne_of_gt (lt_trans (by norm_num) h))]

open Classical in
theorem predictOne_turned (hI : PinholeValid I) {r : V3 → V3} (hr : Turns r) {p : V3} (hp : Seen b I p) :
    predictOne (pinhole b I) r (seenAt I p) =
      (if SeenTurned b I r p then seenAt I (r p) else seenAt I p, decide (SeenTurned b I r p)) := by
  have hz : 0 < p.2.2 := lt_trans (by norm_num) hp.1
  have hb := pinhole_back b I hI hz.ne'
  rw [project_seenAt b I hz.ne'] at hb
  have hs := one_div_pos.2 hz
  have hv : ((pinhole b I).project (r (scale (1 / p.2.2) p))).2 = true ↔ SeenTurned b I r p := by
    rw [hr, pinhole_visible_iff, pinhole_project_scale b I hs.ne']
    unfold SeenTurned
    have e : 1e-10 < (scale (1 / p.2.2) (r p)).2.2 ↔ 1e-10 * p.2.2 < (r p).2.2 := by
      simp only [scale]
      rw [one_div, inv_mul_eq_div, lt_div_iff₀ hz]
    rw [e]
    refine and_congr_right fun h => ?_
    rw [project_seenAt b I (ne_of_gt (lt_trans (by positivity) h))]
  unfold predictOne
  rw [hb]
  simp only [true_and]
  by_cases h : SeenTurned b I r p
  · have hz' : 0 < (r p).2.2 := lt_trans (by positivity) h.1
    rw [if_pos (hv.2 h), if_pos h, decide_eq_true h, hr, pinhole_project_scale b I hs.ne', project_seenAt b I hz'.ne']
  · rw [if_neg (fun h' => h (hv.1 h')), if_neg h, decide_eq_false h]

open Classical in
/-- **C152.** A camera that turns: the points are predicted exactly where they are seen afterwards, and the prediction is
reported to fail exactly for those that are not seen any more. -/
theorem turned_exact (hI : PinholeValid I) {r : V3 → V3} (hr : Turns r) (w : ℚ) (point : V3) (keypoint : V2)
    (ps : List V3) (old : List V2) (hn : ps ≠ []) (hp : ∀ p ∈ ps, Seen b I p) :
    predictKeypoints (pinhole b I) r w point keypoint (ps.map (seenAt I)) old =
      (ps.map fun p => if SeenTurned b I r p then seenAt I (r p) else seenAt I p,
        ps.map fun p => decide (SeenTurned b I r p)) := by
  rw [predict_spec _ _ _ _ _ _ _ (by simpa using hn), List.map_map, List.map_map]
  refine Prod.ext ?_ ?_
  · exact List.map_congr_left fun p h => congrArg Prod.fst (predictOne_turned b I hI hr (hp p h))
  · exact List.map_congr_left fun p h => congrArg Prod.snd (predictOne_turned b I hI hr (hp p h))

/-- If the camera moves as well, such that points are shifted by `t` after the turn: by how much the prediction is off. -/
theorem moved_exact {q t : V3} (hq : q.2.2 ≠ 0) (hqt : q.2.2 + t.2.2 ≠ 0) :
    (seenAt I (shift t q)).1 - (seenAt I q).1 = (I 0 * t.1 - ((seenAt I q).1 - I 2) * t.2.2) / (q.2.2 + t.2.2) ∧
    (seenAt I (shift t q)).2 - (seenAt I q).2 = (I 1 * t.2.1 - ((seenAt I q).2 - I 3) * t.2.2) / (q.2.2 + t.2.2) := by
  unfold seenAt shift
  simp only
  constructor <;> field_simp <;> ring

/-- The error is no more than the movement explains: if the point is at least `D` deep and no coordinate changes by more
than `e`, the prediction is off by at most the focal length plus the distance from the centre, times `e / (D - e)`. -/
theorem moved_bound (hI : PinholeValid I) {q t : V3} {D e : ℝ} (he : e < D) (hD : D ≤ q.2.2) (h1 : |t.1| ≤ e)
    (h2 : |t.2.1| ≤ e) (h3 : |t.2.2| ≤ e) :
    |(seenAt I (shift t q)).1 - (seenAt I q).1| ≤ (I 0 + |(seenAt I q).1 - I 2|) * (e / (D - e)) ∧
    |(seenAt I (shift t q)).2 - (seenAt I q).2| ≤ (I 1 + |(seenAt I q).2 - I 3|) * (e / (D - e)) := by
  have e0 : 0 ≤ e := le_trans (abs_nonneg _) h1
  have hz : 0 < q.2.2 := by linarith
  have ht : -e ≤ t.2.2 := (abs_le.1 h3).1
  have hden : D - e ≤ q.2.2 + t.2.2 := by linarith
  have hden0 : 0 < D - e := by linarith
  obtain ⟨m1, m2⟩ := moved_exact I hz.ne' (t := t) (by linarith)
  have bound : ∀ f c x : ℝ, 0 < f → |x| ≤ e → |(f * x - c * t.2.2) / (q.2.2 + t.2.2)| ≤ (f + |c|) * (e / (D - e)) := by
    intro f c x hf hx
    rw [abs_div, abs_of_pos (show 0 < q.2.2 + t.2.2 by linarith), mul_div_assoc']
    refine div_le_div₀ (by positivity) ?_ hden0 hden
    calc |f * x - c * t.2.2| ≤ |f * x| + |c * t.2.2| := abs_sub _ _
      _ = f * |x| + |c| * |t.2.2| := by rw [abs_mul, abs_mul, abs_of_pos hf]
      _ ≤ f * e + |c| * e := by gcongr
      _ = (f + |c|) * e := by ring
  rw [m1, m2]
  exact ⟨bound _ _ _ hI.1 h1, bound _ _ _ hI.2.1 h2⟩

open Classical in
/-- A prediction that is reported to succeed does not mean that the point is still seen, or in front of the camera: a
camera that only moves forward past a point. -/
theorem moved_away : ∃ (b : Box) (I : Fin 4 → ℝ) (p t : V3), PinholeValid I ∧ Seen b I p ∧
    predictOne (pinhole b I) id (seenAt I p) = (seenAt I p, true) ∧ ¬ Seen b I (shift t p) := by
  have hI : PinholeValid (fun _ => 10) := by
    refine ⟨?_, ?_, ?_, ?_⟩ <;> norm_num
  have hp : Seen ⟨20, 20⟩ (fun _ => 10) (0, 0, 1) := by
    unfold Seen InImage seenAt
    norm_num
  refine ⟨⟨20, 20⟩, (fun _ => 10), (0, 0, 1), (0, 0, -2), hI, hp, ?_, ?_⟩
  · have h : SeenTurned ⟨20, 20⟩ (fun _ => 10) id (0, 0, 1) := ⟨by norm_num, hp.2⟩
    have := predictOne_turned ⟨20, 20⟩ (fun _ => 10) hI (r := id) (fun _ _ => rfl) hp
    rw [if_pos h, decide_eq_true h] at this
    exact this
  · unfold Seen shift
    norm_num

/-- A quarter turn about the optical axis turns, and a point 2 m deep is seen before and after. -/
example : ∃ r : V3 → V3, Turns r ∧ Seen ⟨20, 20⟩ (fun _ => 10) (1, 0, 2) ∧
    SeenTurned ⟨20, 20⟩ (fun _ => 10) r (1, 0, 2) ∧ seenAt (fun _ => 10) (r (1, 0, 2)) = (10, 15) := by
  refine ⟨fun p => (-p.2.1, p.1, p.2.2), fun s p => by simp [scale], ?_, ?_, ?_⟩
  · unfold Seen InImage seenAt
    norm_num
  · unfold SeenTurned InImage seenAt
    norm_num
  · unfold seenAt
    norm_num

/-- Moving by 10 cm at a depth of at least 10.1 m: at most a hundredth of focal length and distance from the centre. -/
example : |(seenAt ![400, 400, 320, 240] (shift (0.1, 0, 0.1) (1, 1, 11))).1 - (seenAt ![400, 400, 320, 240] (1, 1, 11)).1| ≤
    (400 + |(seenAt ![400, 400, 320, 240] (1, 1, 11)).1 - 320|) * (0.1 / (10.1 - 0.1)) :=
  (moved_bound ![400, 400, 320, 240] (by
    refine ⟨?_, ?_, ?_, ?_⟩ <;> norm_num [Matrix.cons_val_two, Matrix.cons_val_three])
    (q := (1, 1, 11)) (t := (0.1, 0, 0.1)) (D := 10.1) (e := 0.1) (by norm_num) (by norm_num) (by norm_num [abs_le])
    (by norm_num) (by norm_num [abs_le])).1

end Verif.GeometricVision
