import Verif.VisualPipeline.Model
import Verif.VisualFrame.InsertProps

/-!
# Properties C80 and C81

What a visual pipeline puts into a frame, and who owns its detector.
-/

namespace Verif.VisualPipeline

open Verif (Outcome)
open Verif.VisualFrame (Frame Chan CvKeypoint CvMat setDescriptors Aligned detectorChans contribution columns_length
  setDescriptors_first insertAdditional insertAdditional_rejects)

/-! ## C80 -/

/-- Writing pixels into a buffer. -/
def write (h : Heap) (buffer : Nat) (p : Pixels) : Heap := h.set buffer p

/-- Specification: any writes to buffers that existed before the call. -/
def writes (h : Heap) : List (Nat × Pixels) → Heap
  | [] => h
  | w :: ws => writes (write h w.1 w.2) ws

theorem processImage_eq {impl : Pixels → Frame → Outcome Frame} {p : Pipeline} {h : Heap} {raw : Image} {t : Int} {id : Nat}
    {h' : Heap} {out : Output} (hp : processImage impl p h raw t id = .ok (h', out)) :
    ∃ cam px kp, p.input = some cam ∧ cam.width = raw.width ∧ cam.height = raw.height ∧ h[raw.buffer]? = some px ∧
      impl (match p.preprocessing with | some f => f px | none => px) Frame.empty = .ok kp ∧
      h' = (if p.copyImages then h ++ [px] else h) ∧
      out = ⟨t, p.input, p.output, id, if p.copyImages then { raw with buffer := h.length } else raw, kp⟩ := by
  unfold processImage at hp
  cases hi : p.input with
  | none => rw [hi] at hp; simp at hp
  | some cam =>
    rw [hi] at hp
    simp only at hp
    obtain ⟨_, h1, hp⟩ := Outcome.bind_eq_ok.1 hp
    obtain ⟨_, h2, hp⟩ := Outcome.bind_eq_ok.1 hp
    obtain ⟨px, h3, hp⟩ := Outcome.bind_eq_ok.1 hp
    obtain ⟨kp, h4, hp⟩ := Outcome.bind_eq_ok.1 hp
    simp only [Outcome.ok.injEq, Prod.mk.injEq] at hp
    have h3' : h[raw.buffer]? = some px := by
      unfold pixels at h3
      split at h3
      · simp only [Outcome.ok.injEq] at h3
        subst h3
        assumption
      · simp at h3
    exact ⟨cam, px, kp, rfl, by simpa using Outcome.check_eq_ok.1 h1, by simpa using Outcome.check_eq_ok.1 h2, h3', h4,
      hp.1.symm, hp.2.symm⟩

/-- **C80**: the frame has the given timestamp and id, the raw camera is the input camera, the camera is the one of the
keypoints, and the raw image has the pixels and the size of the image passed in. -/
theorem process_spec {impl : Pixels → Frame → Outcome Frame} {p : Pipeline} {h : Heap} {raw : Image} {t : Int} {id : Nat}
    {h' : Heap} {out : Output} (hp : processImage impl p h raw t id = .ok (h', out)) :
    out.timestamp = t ∧ out.id = id ∧ out.rawCamera = p.input ∧ out.camera = p.output ∧
      out.rawImage.width = raw.width ∧ out.rawImage.height = raw.height ∧
      pixels h' out.rawImage = pixels h raw ∧ ∃ px, h[raw.buffer]? = some px ∧ h'[raw.buffer]? = some px := by
  obtain ⟨cam, px, kp, hi, hw, hh, hpx, -, rfl, rfl⟩ := processImage_eq hp
  have hlt := (List.getElem?_eq_some_iff.1 hpx).1
  refine ⟨rfl, rfl, rfl, rfl, ?_, ?_, ?_, px, hpx, ?_⟩
  · simp only; split <;> rfl
  · simp only; split <;> rfl
  · unfold pixels
    cases p.copyImages with
    | true => simp [hpx]
    | false => simp
  · cases p.copyImages with
    | true => simp [List.getElem?_append_left hlt, hpx]
    | false => simpa using hpx

/-- **C80**: an image that does not have the size of the input camera is rejected. -/
theorem process_size {impl : Pixels → Frame → Outcome Frame} {p : Pipeline} {h : Heap} {raw : Image} {t : Int} {id : Nat}
    {cam : Cam} (hi : p.input = some cam) (hs : cam.width ≠ raw.width ∨ cam.height ≠ raw.height) :
    processImage impl p h raw t id = .abort := by
  unfold processImage
  rw [hi]
  simp only
  by_cases hw : cam.width = raw.width
  · rcases hs with hs | hs
    · exact absurd hw hs
    · simp [Outcome.check, hw, hs]
  · simp [Outcome.check, hw]

theorem writes_length (ws : List (Nat × Pixels)) : ∀ h : Heap, (writes h ws).length = h.length := by
  induction ws with
  | nil => intro h; rfl
  | cons w ws ih => intro h; rw [writes, ih, write, List.length_set]

theorem writes_other (ws : List (Nat × Pixels)) : ∀ (h : Heap) (b : Nat), (∀ w ∈ ws, w.1 ≠ b) →
    (writes h ws)[b]? = h[b]? := by
  induction ws with
  | nil => intro h b _; rfl
  | cons w ws ih =>
    intro h b hb
    rw [writes, ih _ b (fun w' hw' => hb w' (List.mem_cons_of_mem _ hw')), write,
      List.getElem?_set_ne (hb w (by simp))]

/-- **C80**: a pipeline that copies images protects the frame: whatever is written later to buffers that existed before
the call, the raw image of the frame keeps the pixels the image had when it was processed. -/
theorem process_copy {impl : Pixels → Frame → Outcome Frame} {p : Pipeline} {h : Heap} {raw : Image} {t : Int} {id : Nat}
    {h' : Heap} {out : Output} (hc : p.copyImages = true) (hp : processImage impl p h raw t id = .ok (h', out))
    (ws : List (Nat × Pixels)) (hw : ∀ w ∈ ws, w.1 < h.length) :
    pixels (writes h' ws) out.rawImage = pixels h raw := by
  obtain ⟨cam, px, kp, hi, -, -, hpx, -, rfl, rfl⟩ := processImage_eq hp
  unfold pixels
  simp only [hc, if_true]
  rw [writes_other ws _ _ (fun w hw' => by have := hw w hw'; omega), hpx]
  simp

/-- **C80**: without copying, the frame shares the image with the caller: what is written to the image later is what
the frame shows. -/
theorem process_shared {impl : Pixels → Frame → Outcome Frame} {p : Pipeline} {h : Heap} {raw : Image} {t : Int} {id : Nat}
    {h' : Heap} {out : Output} (hc : p.copyImages = false) (hp : processImage impl p h raw t id = .ok (h', out))
    (px : Pixels) : pixels (write h' raw.buffer px) out.rawImage = .ok px := by
  obtain ⟨cam, px', kp, hi, -, -, hpx, -, rfl, rfl⟩ := processImage_eq hp
  have hlt := (List.getElem?_eq_some_iff.1 hpx).1
  simp [pixels, write, hc, hlt]

/-- **C80**: the keypoints are computed from the undistorted image if the pipeline has an undistorter, otherwise from the
image itself. -/
theorem process_keypoints {impl : Pixels → Frame → Outcome Frame} {p : Pipeline} {h : Heap} {raw : Image} {t : Int}
    {id : Nat} {h' : Heap} {out : Output} (hp : processImage impl p h raw t id = .ok (h', out)) :
    ∃ px, pixels h raw = .ok px ∧
      (∀ f, p.preprocessing = some f → impl (f px) Frame.empty = .ok out.keypoints) ∧
      (p.preprocessing = none → impl px Frame.empty = .ok out.keypoints) := by
  obtain ⟨cam, px, kp, hi, -, -, hpx, hk, rfl, rfl⟩ := processImage_eq hp
  refine ⟨px, by simp [pixels, hpx], ?_, ?_⟩
  · intro f hf
    rw [hf] at hk
    exact hk
  · intro hf
    rw [hf] at hk
    exact hk

/-- An image of two pixels. -/
example : ∃ h' out, processImage nullImpl ⟨some ⟨7, 2, 1⟩, some ⟨7, 2, 1⟩, true, none⟩ [[1, 2]] ⟨2, 1, 0⟩ 5 9 =
    .ok (h', out) ∧ h' = [[1, 2], [1, 2]] ∧ out.rawImage = ⟨2, 1, 1⟩ :=
  ⟨_, _, rfl, rfl, rfl⟩

/-- **C80**: pipelines need their cameras: constructing one from a null camera or a null undistorter aborts; a
pipeline from cameras has them as input and output. -/
theorem construct_spec (input output : Option Cam) (copyImages : Bool) :
    (∀ p, Pipeline.fromCameras input output copyImages = .ok p →
      p.input = input ∧ p.output = output ∧ p.copyImages = copyImages ∧ p.input.isSome ∧ p.output.isSome) ∧
    (input = none ∨ output = none → Pipeline.fromCameras input output copyImages = .abort) ∧
    Pipeline.fromUndistorter none copyImages = .abort := by
  refine ⟨?_, ?_, rfl⟩
  · intro p hp
    cases input <;> cases output <;> simp [Pipeline.fromCameras] at hp
    subst hp
    simp
  · rintro (rfl | rfl)
    · rfl
    · cases input <;> rfl

/-- **C80** refuted for undistorters without cameras (their default constructor leaves them null): the constructor checks the
undistorter but not its cameras, and processing an image is undefined. -/
theorem construct_undistorter_refuted (f : Pixels → Pixels) (c : Bool) : ∃ p,
    Pipeline.fromUndistorter (some (none, none, f)) c = .ok p ∧
      ∀ impl h raw t id, processImage impl p h raw t id = .ub :=
  ⟨_, rfl, fun _ _ _ _ _ => rfl⟩

theorem detectImpl_eq {sigma : Int} {detect : Pixels → List CvKeypoint}
    {extract : Pixels → List CvKeypoint → List CvKeypoint × CvMat} {image : Pixels} {f : Frame}
    (h : detectImpl sigma detect extract image Frame.empty = .ok f) :
    let r := if detect image = [] then ([], ⟨0, 0, [], true, true⟩) else extract image (detect image)
    r.2.isBytes = true ∧ r.2.continuous = true ∧ f.descriptors = some [r.2.columns] ∧ f.types = some [0] ∧
      (∀ c ∈ detectorChans, c ≠ .trackIds → f.chan c = some (r.1.map (contribution sigma · c))) ∧
      ∀ c, c ∉ detectorChans ∨ c = .trackIds → f.chan c = none := by
  intro r
  unfold detectImpl at h
  simp only at h
  obtain ⟨_, h1, h⟩ := Outcome.bind_eq_ok.1 h
  obtain ⟨_, h2, h⟩ := Outcome.bind_eq_ok.1 h
  obtain ⟨f1, h3, h⟩ := Outcome.bind_eq_ok.1 h
  obtain ⟨hc, hd, ht⟩ := setDescriptors_first h3
  simp only [Outcome.ok.injEq] at h
  subst h
  refine ⟨Outcome.check_eq_ok.1 h1, Outcome.check_eq_ok.1 h2, hd, ht, ?_, ?_⟩
  · intro c hm hn
    simp only [detectorChans, List.mem_cons, List.not_mem_nil, or_false] at hm
    rcases hm with rfl | rfl | rfl | rfl | rfl | rfl
    · simp [Frame.setChan, contribution, r]
    · simp [Frame.setChan, contribution, r, List.map_const']
    · simp [Frame.setChan, contribution, r]
    · simp [Frame.setChan, contribution, r]
    · simp [Frame.setChan, contribution, r]
    · exact absurd rfl hn
  · intro c hm
    cases c <;> simp [detectorChans] at hm <;> simp [Frame.setChan, hc, Frame.empty]

/-- **C80** (partial): if the extractor gives a descriptor for each keypoint it keeps, the frame that a detecting pipeline
returns is aligned, with an entry for each keypoint that is left after extraction.  (That the extractor does so is not
checked.) -/
theorem detect_aligned_partial {sigma : Int} {detect : Pixels → List CvKeypoint}
    {extract : Pixels → List CvKeypoint → List CvKeypoint × CvMat} {image : Pixels} {f : Frame}
    (h : detectImpl sigma detect extract image Frame.empty = .ok f)
    (he : ∀ ks, (extract image ks).2.rows = (extract image ks).1.length) :
    ∃ kps : List CvKeypoint, Aligned f kps.length ∧
      (detect image = [] → kps = []) ∧ (detect image ≠ [] → kps = (extract image (detect image)).1) ∧
      ∀ c ∈ detectorChans, c ≠ .trackIds → f.chan c = some (kps.map (contribution sigma · c)) := by
  obtain ⟨h1, h2, hd, ht, hc, hn⟩ := detectImpl_eq h
  by_cases h0 : detect image = []
  · rw [if_pos h0] at h1 h2 hd hc
    refine ⟨[], ⟨?_, ?_⟩, fun _ => rfl, fun hh => absurd h0 hh, hc⟩
    · intro c d hcd
      by_cases hm : c ∈ detectorChans ∧ c ≠ .trackIds
      · rw [hc c hm.1 hm.2] at hcd
        obtain rfl := Option.some.inj hcd
        simp
      · rw [hn c (by
          by_cases hh : c ∈ detectorChans
          · right; by_contra h'; exact hm ⟨hh, h'⟩
          · left; exact hh)] at hcd
        simp at hcd
    · intro bs hb
      rw [hd] at hb
      obtain rfl := Option.some.inj hb
      simp [CvMat.columns]
  · rw [if_neg h0] at h1 h2 hd hc
    refine ⟨(extract image (detect image)).1, ⟨?_, ?_⟩, fun hh => absurd hh h0, fun _ => rfl, hc⟩
    · intro c d hcd
      by_cases hm : c ∈ detectorChans ∧ c ≠ .trackIds
      · rw [hc c hm.1 hm.2] at hcd
        obtain rfl := Option.some.inj hcd
        simp
      · rw [hn c (by
          by_cases hh : c ∈ detectorChans
          · right; by_contra h'; exact hm ⟨hh, h'⟩
          · left; exact hh)] at hcd
        simp at hcd
    · intro bs hb
      rw [hd] at hb
      obtain rfl := Option.some.inj hb
      simpa [columns_length] using he (detect image)

/-- An extractor that removes the last keypoint. -/
example : ∃ f, detectImpl 8 (fun _ => [⟨10, 1, 2, 3⟩, ⟨20, 4, 5, 6⟩]) (fun _ ks => (ks.dropLast, ⟨1, 1, [7], true, true⟩)) []
    Frame.empty = .ok f ∧ f.chan .measurements = some [10] ∧ f.chan .uncertainties = some [8] ∧
    f.descriptors = some [[[7]]] :=
  ⟨_, rfl, by decide, by decide, by decide⟩

/-- **C80**: an image without keypoints gives a frame with empty channels, not a frame without channels. -/
theorem detect_none {sigma : Int} {detect : Pixels → List CvKeypoint}
    {extract : Pixels → List CvKeypoint → List CvKeypoint × CvMat} {image : Pixels} (h0 : detect image = []) :
    ∃ f, detectImpl sigma detect extract image Frame.empty = .ok f ∧ f.descriptors = some [[]] ∧
      ∀ c ∈ detectorChans, c ≠ .trackIds → f.chan c = some [] := by
  have he : ∃ f, detectImpl sigma detect extract image Frame.empty = .ok f := by
    unfold detectImpl
    simp only [h0, if_true]
    exact ⟨_, rfl⟩
  obtain ⟨f, hf⟩ := he
  obtain ⟨-, -, hd, -, hc, -⟩ := detectImpl_eq hf
  rw [if_pos h0] at hd hc
  exact ⟨f, hf, by simpa [CvMat.columns] using hd, fun c h1 h2 => by simpa using hc c h1 h2⟩

/-- **C80**: the frame of a detecting pipeline has no track ids, so inserting additional keypoints into it aborts until they
are set. -/
theorem detect_then_insert (junk : Int) (junkB : UInt8) (rows0 : Nat) {sigma : Int} {detect : Pixels → List CvKeypoint}
    {extract : Pixels → List CvKeypoint → List CvKeypoint × CvMat} {image : Pixels} {f : Frame}
    (h : detectImpl sigma detect extract image Frame.empty = .ok f) (kps : List CvKeypoint) (m : CvMat) (u : Int) :
    insertAdditional junk junkB rows0 f kps m u = .abort := by
  obtain ⟨-, -, -, -, -, hn⟩ := detectImpl_eq h
  exact insertAdditional_rejects junk junkB rows0 (Or.inl ⟨.trackIds, by decide, hn _ (Or.inr rfl)⟩)

/-! ## C81 -/

/-- Memory in which new objects are new. -/
def Mem.Wf (m : Mem) : Prop := (∀ o ∈ m.live, o < m.next) ∧ m.live.Nodup

/-- The BRISK pipeline's objects. -/
theorem brisk_eq (m : Mem) : initializeBrisk m =
    (⟨(m.next + 1) :: m.next :: m.live, m.blocks ++ [(m.next, 1)] ++ [(m.next + 1, 1)], m.next + 2⟩,
      m.blocks.length, m.blocks.length + 1) := by
  simp [initializeBrisk, resetNew, Mem.new, Mem.adopt]

/-- **C81**: the BRISK pipeline keeps its detector and extractor alive, and destroying it deletes exactly them. -/
theorem brisk_owns (m : Mem) (hm : m.Wf) :
    let (m1, d, e) := initializeBrisk m
    m1.use d = .ok m.next ∧ m1.use e = .ok (m.next + 1) ∧
      ∃ m2 m3, m1.drop d = .ok m2 ∧ m2.drop e = .ok m3 ∧ m3.live = m.live := by
  rw [brisk_eq]
  have h1 : (m.blocks ++ [(m.next, 1)] ++ [(m.next + 1, 1)])[m.blocks.length]? = some (m.next, 1) := by simp
  have h2 : (m.blocks ++ [(m.next, 1)] ++ [(m.next + 1, 1)])[m.blocks.length + 1]? = some (m.next + 1, 1) := by
    rw [List.getElem?_append_right (by simp)]
    simp
  have hn : m.next ∉ m.live := fun h => by have := hm.1 _ h; omega
  refine ⟨?_, ?_, ⟨(m.next + 1) :: m.live, (m.blocks ++ [(m.next, 1)] ++ [(m.next + 1, 1)]).set m.blocks.length (m.next, 0),
    m.next + 2⟩, ⟨m.live, ((m.blocks ++ [(m.next, 1)] ++ [(m.next + 1, 1)]).set m.blocks.length (m.next, 0)).set
    (m.blocks.length + 1) (m.next + 1, 0), m.next + 2⟩, ?_, ?_, rfl⟩
  · unfold Mem.use
    rw [h1]
    simp
  · unfold Mem.use
    rw [h2]
    simp
  · unfold Mem.drop
    rw [h1]
    simp
  · unfold Mem.drop
    simp only
    rw [List.getElem?_set_ne (by omega), h2]
    simp

example : (⟨[], [], 0⟩ : Mem).Wf := ⟨by simp, by simp⟩

theorem resetGet_eq (m : Mem) : resetGet m =
    .ok (⟨m.live, (m.blocks ++ [(m.next, 1)] ++ [(m.next, 1)]).set m.blocks.length (m.next, 0), m.next + 1⟩,
      m.blocks.length + 1) := by
  unfold resetGet
  simp only [Mem.new, Mem.adopt]
  have h1 : (m.blocks ++ [(m.next, 1)] ++ [(m.next, 1)])[m.blocks.length]? = some (m.next, 1) := by simp
  unfold Mem.drop
  simp only
  rw [h1]
  simp

/-- **C81** refuted for the FREAK pipeline: the temporary smart pointer deletes the detector at the end of the statement
that stores its address, so using the detector is undefined, and destroying the pipeline deletes it a second time. -/
theorem freak_refuted (m : Mem) (hm : m.Wf) :
    ∃ m1 d e, initializeFreak m = .ok (m1, d, e) ∧ m1.use d = .ub ∧ m1.use e = .ub ∧ m1.drop d = .ub ∧
      m1.drop e = .ub := by
  have hn : m.next ∉ m.live := fun h => by have := hm.1 _ h; omega
  have hn' : m.next + 1 ∉ m.live := fun h => by have := hm.1 _ h; omega
  unfold initializeFreak
  rw [resetGet_eq]
  simp only [Outcome.bind_ok]
  rw [resetGet_eq]
  simp only [Outcome.bind_ok]
  refine ⟨_, _, _, rfl, ?_, ?_, ?_, ?_⟩
  · have : ((((m.blocks ++ [(m.next, 1)] ++ [(m.next, 1)]).set m.blocks.length (m.next, 0)) ++ [(m.next + 1, 1)] ++
        [(m.next + 1, 1)]).set ((m.blocks ++ [(m.next, 1)] ++ [(m.next, 1)]).set m.blocks.length (m.next, 0)).length
        (m.next + 1, 0))[m.blocks.length + 1]? = some (m.next, 1) := by
      rw [List.getElem?_set_ne (by simp), List.append_assoc, List.getElem?_append_left (by simp),
        List.getElem?_set_ne (by omega), List.getElem?_append_right (by simp)]
      simp
    unfold Mem.use
    simp only
    rw [this]
    simp [hn]
  · have : ((((m.blocks ++ [(m.next, 1)] ++ [(m.next, 1)]).set m.blocks.length (m.next, 0)) ++ [(m.next + 1, 1)] ++
        [(m.next + 1, 1)]).set ((m.blocks ++ [(m.next, 1)] ++ [(m.next, 1)]).set m.blocks.length (m.next, 0)).length
        (m.next + 1, 0))[((m.blocks ++ [(m.next, 1)] ++ [(m.next, 1)]).set m.blocks.length (m.next, 0)).length + 1]? =
        some (m.next + 1, 1) := by
      rw [List.getElem?_set_ne (by omega), List.getElem?_append_right (by simp)]
      simp
    unfold Mem.use
    simp only
    rw [this]
    simp [hn']
  · have : ((((m.blocks ++ [(m.next, 1)] ++ [(m.next, 1)]).set m.blocks.length (m.next, 0)) ++ [(m.next + 1, 1)] ++
        [(m.next + 1, 1)]).set ((m.blocks ++ [(m.next, 1)] ++ [(m.next, 1)]).set m.blocks.length (m.next, 0)).length
        (m.next + 1, 0))[m.blocks.length + 1]? = some (m.next, 1) := by
      rw [List.getElem?_set_ne (by simp), List.append_assoc, List.getElem?_append_left (by simp),
        List.getElem?_set_ne (by omega), List.getElem?_append_right (by simp)]
      simp
    unfold Mem.drop
    simp only
    rw [this]
    simp [hn]
  · have : ((((m.blocks ++ [(m.next, 1)] ++ [(m.next, 1)]).set m.blocks.length (m.next, 0)) ++ [(m.next + 1, 1)] ++
        [(m.next + 1, 1)]).set ((m.blocks ++ [(m.next, 1)] ++ [(m.next, 1)]).set m.blocks.length (m.next, 0)).length
        (m.next + 1, 0))[((m.blocks ++ [(m.next, 1)] ++ [(m.next, 1)]).set m.blocks.length (m.next, 0)).length + 1]? =
        some (m.next + 1, 1) := by
      rw [List.getElem?_set_ne (by omega), List.getElem?_append_right (by simp)]
      simp
    unfold Mem.drop
    simp only
    rw [this]
    simp [hn']

end Verif.VisualPipeline
