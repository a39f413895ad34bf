import Verif.VisualFrame.Insert

/-!
# Property C77

Inserting detected keypoints and their descriptors into a frame.
-/

namespace Verif.VisualFrame

open Verif (Outcome)

/-! ## Specification -/

/-- Specification: every per-keypoint channel of the frame has `n` entries, and there are `n` descriptors in
all. -/
structure Aligned (f : Frame) (n : Nat) : Prop where
  chan : ∀ c d, f.chan c = some d → d.length = n
  descriptors : ∀ blocks, f.descriptors = some blocks → blocks.flatten.length = n

/-- The channels a detector fills. -/
def detectorChans : List Chan := [.measurements, .uncertainties, .orientations, .scales, .scores, .trackIds]

/-- Specification: what a keypoint contributes to a channel. -/
def contribution (u : Int) (k : CvKeypoint) : Chan → Int
  | .measurements => k.pt
  | .uncertainties => u
  | .orientations => k.angle
  | .scales => k.size
  | .scores => k.response
  | .trackIds => -1
  | _ => 0

/-- The matrix has the data its size promises. -/
def CvMat.Valid (m : CvMat) : Prop := m.data.length = m.rows * m.cols

theorem columns_length (m : CvMat) : m.columns.length = m.rows := by simp [CvMat.columns]

/-- **C77**: descriptor `i` is row `i` of the matrix of the detector: byte `j` is the element `(i, j)`. -/
theorem columns_spec {m : CvMat} (hm : m.Valid) {i : Nat} (hi : i < m.rows) :
    ∃ d, m.columns[i]? = some d ∧ d.length = m.cols ∧
      ∀ j, j < m.cols → d[j]? = m.data[i * m.cols + j]? := by
  refine ⟨(m.data.drop (i * m.cols)).take m.cols, ?_, ?_, ?_⟩
  · simp [CvMat.columns, hi]
  · have h1 : (i + 1) * m.cols ≤ m.rows * m.cols := Nat.mul_le_mul_right _ (by omega)
    have h2 : (i + 1) * m.cols = i * m.cols + m.cols := by rw [Nat.add_mul, Nat.one_mul]
    have hm' : m.data.length = m.rows * m.cols := hm
    rw [List.length_take, List.length_drop]
    omega
  · intro j hj
    rw [List.getElem?_take, if_pos hj, List.getElem?_drop]

/-- Two descriptors of two bytes. -/
example : (⟨2, 2, [1, 2, 3, 4], true, true⟩ : CvMat).Valid ∧
    (⟨2, 2, [1, 2, 3, 4], true, true⟩ : CvMat).columns = [[1, 2], [3, 4]] :=
  ⟨rfl, by decide⟩

/-! ## Inserting into an empty frame -/

theorem absentOrEmpty_iff {o : Option (List Int)} : absentOrEmpty o = true ↔ o = none ∨ o = some [] := by
  cases o with
  | none => simp [absentOrEmpty]
  | some d => simp [absentOrEmpty]

theorem noDescriptors_iff {f : Frame} :
    noDescriptors f = .ok true ↔ f.descriptors = none ∨ ∃ bs, f.descriptors = some ([] :: bs) := by
  unfold noDescriptors
  cases hd : f.descriptors with
  | none => simp
  | some blocks =>
    cases blocks with
    | nil => simp
    | cons b bs => simp

theorem setDescriptors_first {f : Frame} {block : List Desc} {f' : Frame} (h : setDescriptors f block 0 0 = .ok f') :
    f'.chan = f.chan ∧ f'.descriptors = some (block :: (f.descriptors.getD []).tail) ∧
      f'.types = some (0 :: (f.types.getD []).tail) := by
  cases f with
  | mk ch ds ts =>
  cases ds with
  | none =>
    cases ts with
    | none =>
      simp only [setDescriptors, withDescriptors, Outcome.bind_ok] at h
      simp [Outcome.check] at h
      subst h
      simp
    | some ts => simp [setDescriptors, withDescriptors] at h
  | some bs =>
    cases ts with
    | none => simp [setDescriptors, withDescriptors] at h
    | some ts =>
      simp only [setDescriptors, withDescriptors, Outcome.bind_ok] at h
      cases bs with
      | nil =>
        cases ts with
        | nil =>
          simp [Outcome.check] at h
          subst h
          simp
        | cons t ts => simp [Outcome.check] at h
      | cons b bs =>
        cases ts with
        | nil => simp [Outcome.check] at h
        | cons t ts =>
          by_cases hl : bs.length = ts.length
          · simp [Outcome.check, hl] at h
            subst h
            simp
          · simp [Outcome.check, hl] at h

theorem setDescriptors_ok {f : Frame} {block : List Desc}
    (h : (f.descriptors = none ∧ f.types = none) ∨
      ∃ bs ts, f.descriptors = some bs ∧ f.types = some ts ∧ bs.length = ts.length) :
    ∃ f', setDescriptors f block 0 0 = .ok f' := by
  cases f with
  | mk ch ds ts =>
  rcases h with ⟨h1, h2⟩ | ⟨bs, ts', h1, h2, h3⟩
  · simp only at h1 h2
    subst h1; subst h2
    exact ⟨_, rfl⟩
  · simp only at h1 h2
    subst h1; subst h2
    simp only [setDescriptors, withDescriptors, Outcome.bind_ok]
    cases bs with
    | nil =>
      have : ts' = [] := List.length_eq_zero_iff.mp h3.symm
      subst this
      exact ⟨_, rfl⟩
    | cons b bs =>
      cases ts' with
      | nil => simp at h3
      | cons t ts' =>
        have : bs.length = ts'.length := by simpa using h3
        simp [Outcome.check, this]

/-- The frame `insertEmpty` hands to `setDescriptors`. -/
theorem insertEmpty_eq {f f' : Frame} {kps : List CvKeypoint} {m : CvMat} {u : Int}
    (h : insertEmpty f kps m u = .ok f') :
    (∀ c ∈ detectorChans, f.chan c = none ∨ f.chan c = some []) ∧
      (f.descriptors = none ∨ ∃ bs, f.descriptors = some ([] :: bs)) ∧
      argumentsOk kps m u = true ∧
      (∀ c ∈ detectorChans, f'.chan c = some (kps.map (contribution u · c))) ∧
      (∀ c, c ∉ detectorChans → f'.chan c = f.chan c) ∧
      f'.descriptors = some (m.columns :: (f.descriptors.getD []).tail) ∧
      f'.types = some (0 :: (f.types.getD []).tail) := by
  unfold insertEmpty at h
  obtain ⟨_, h1, h⟩ := Outcome.bind_eq_ok.1 h
  obtain ⟨nd, hn, h⟩ := Outcome.bind_eq_ok.1 h
  obtain ⟨_, h2, h⟩ := Outcome.bind_eq_ok.1 h
  obtain ⟨_, h3, h⟩ := Outcome.bind_eq_ok.1 h
  obtain ⟨_, h4, h⟩ := Outcome.bind_eq_ok.1 h
  obtain ⟨_, h5, h⟩ := Outcome.bind_eq_ok.1 h
  obtain ⟨_, h6, h⟩ := Outcome.bind_eq_ok.1 h
  obtain ⟨_, h7, h⟩ := Outcome.bind_eq_ok.1 h
  obtain ⟨_, h8, hs⟩ := Outcome.bind_eq_ok.1 h
  have h2 := Outcome.check_eq_ok.1 h2
  subst h2
  obtain ⟨hc, hd, ht⟩ := setDescriptors_first hs
  refine ⟨?_, noDescriptors_iff.1 hn, Outcome.check_eq_ok.1 h8, ?_, ?_, hd, ht⟩
  · intro c hc
    simp only [detectorChans, List.mem_cons, List.not_mem_nil, or_false] at hc
    rcases hc with rfl | rfl | rfl | rfl | rfl | rfl
    · exact absentOrEmpty_iff.1 (Outcome.check_eq_ok.1 h1)
    · exact absentOrEmpty_iff.1 (Outcome.check_eq_ok.1 h3)
    · exact absentOrEmpty_iff.1 (Outcome.check_eq_ok.1 h4)
    · exact absentOrEmpty_iff.1 (Outcome.check_eq_ok.1 h5)
    · exact absentOrEmpty_iff.1 (Outcome.check_eq_ok.1 h6)
    · exact absentOrEmpty_iff.1 (Outcome.check_eq_ok.1 h7)
  · intro c hc'
    rw [hc]
    simp only [detectorChans, List.mem_cons, List.not_mem_nil, or_false] at hc'
    rcases hc' with rfl | rfl | rfl | rfl | rfl | rfl <;>
      simp [Frame.setChan, contribution, Function.comp_def, List.map_const']
  · intro c hc'
    rw [hc]
    cases c <;> simp [detectorChans] at hc' <;> simp [Frame.setChan]

/-- **C77**: after inserting into an empty frame, entry `i` of each channel the detector fills comes from
keypoint `i`, and the first descriptor block holds the descriptors; the other channels and blocks are
untouched. -/
theorem insertEmpty_spec {f f' : Frame} {kps : List CvKeypoint} {m : CvMat} {u : Int}
    (h : insertEmpty f kps m u = .ok f') :
    (∀ c ∈ detectorChans, f'.chan c = some (kps.map (contribution u · c))) ∧
      (∀ c, c ∉ detectorChans → f'.chan c = f.chan c) ∧
      f'.descriptors = some (m.columns :: (f.descriptors.getD []).tail) ∧ m.columns.length = kps.length := by
  obtain ⟨_, _, ha, h1, h2, h3, _⟩ := insertEmpty_eq h
  refine ⟨h1, h2, h3, ?_⟩
  rw [columns_length]
  simp only [argumentsOk, Bool.and_eq_true, decide_eq_true_eq] at ha
  exact ha.1.1.2.symm

/-- **C77**: the insertion goes through exactly if the channels and the first descriptor block are absent or
empty, the uncertainty is positive, and the descriptors are a continuous matrix of bytes with a row per
keypoint (for a frame whose descriptor types match its blocks). -/
theorem insertEmpty_accepts {f : Frame} {kps : List CvKeypoint} {m : CvMat} {u : Int}
    (ht : (f.descriptors = none ∧ f.types = none) ∨
      ∃ bs ts, f.descriptors = some bs ∧ f.types = some ts ∧ bs.length = ts.length) :
    (∃ f', insertEmpty f kps m u = .ok f') ↔
      (∀ c ∈ detectorChans, f.chan c = none ∨ f.chan c = some []) ∧
      (f.descriptors = none ∨ ∃ bs, f.descriptors = some ([] :: bs)) ∧
      0 < u ∧ m.rows = kps.length ∧ m.isBytes = true ∧ m.continuous = true := by
  constructor
  · rintro ⟨f', h⟩
    obtain ⟨h1, h2, ha, _⟩ := insertEmpty_eq h
    simp only [argumentsOk, Bool.and_eq_true, decide_eq_true_eq] at ha
    exact ⟨h1, h2, ha.1.1.1, ha.1.1.2.symm, ha.1.2, ha.2⟩
  · rintro ⟨h1, h2, hu, hr, hb, hc⟩
    unfold insertEmpty
    rw [Outcome.check_eq_ok.2 (absentOrEmpty_iff.2 (h1 .measurements (by decide))),
      noDescriptors_iff.2 h2,
      Outcome.check_eq_ok.2 (absentOrEmpty_iff.2 (h1 .uncertainties (by decide))),
      Outcome.check_eq_ok.2 (absentOrEmpty_iff.2 (h1 .orientations (by decide))),
      Outcome.check_eq_ok.2 (absentOrEmpty_iff.2 (h1 .scales (by decide))),
      Outcome.check_eq_ok.2 (absentOrEmpty_iff.2 (h1 .scores (by decide))),
      Outcome.check_eq_ok.2 (absentOrEmpty_iff.2 (h1 .trackIds (by decide))),
      Outcome.check_eq_ok.2 (show argumentsOk kps m u = true by simp [argumentsOk, hu, hr, hb, hc])]
    simp only [Outcome.bind_ok, Outcome.check_true]
    apply setDescriptors_ok
    exact ht

/-- **C77** (partial): the filled frame has every channel and the descriptors aligned, provided it has no 3D
positions, no time offsets and at most one descriptor block. -/
theorem insertEmpty_aligned_partial {f f' : Frame} {kps : List CvKeypoint} {m : CvMat} {u : Int}
    (h : insertEmpty f kps m u = .ok f') (h3 : f.chan .positions3d = none) (h4 : f.chan .timeOffsets = none)
    (hb : (f.descriptors.getD []).length ≤ 1) : Aligned f' kps.length := by
  obtain ⟨h1, h2, hd, hl⟩ := insertEmpty_spec h
  constructor
  · intro c d hc
    by_cases hm : c ∈ detectorChans
    · rw [h1 c hm] at hc
      simp only [Option.some.injEq] at hc
      subst hc
      simp
    · rw [h2 c hm] at hc
      cases c <;> first | (exact absurd (by decide) hm) | skip
      · rw [h3] at hc; simp at hc
      · rw [h4] at hc; simp at hc
  · intro blocks hbl
    rw [hd] at hbl
    simp only [Option.some.injEq] at hbl
    subst hbl
    have : (f.descriptors.getD []).tail = [] := by
      apply List.length_eq_zero_iff.mp
      rw [List.length_tail]
      omega
    rw [this]
    simpa using hl

/-- Two keypoints into a frame without channels. -/
example : ∃ f', insertEmpty Frame.empty [⟨10, 1, 2, 3⟩, ⟨20, 4, 5, 6⟩] ⟨2, 1, [7, 8], true, true⟩ 9 = .ok f' ∧
    f'.chan .scores = some [1, 4] ∧ f'.chan .trackIds = some [-1, -1] ∧ f'.descriptors = some [[[7], [8]]] :=
  ⟨_, rfl, by decide, by decide, by decide⟩

/-- **C77** refuted for frames with an (empty) channel of 3D positions: it is neither checked nor filled, so
the frame has a keypoint without a 3D position. -/
theorem insertEmpty_aligned_refuted : ∃ f kps m u f', Aligned f 0 ∧ insertEmpty f kps m u = .ok f' ∧
    ∀ n, ¬ Aligned f' n := by
  refine ⟨Frame.empty.setChan .positions3d [], [⟨10, 1, 2, 3⟩], ⟨1, 1, [7], true, true⟩, 9, _, ⟨?_, ?_⟩, rfl, ?_⟩
  · intro c d hd
    cases c <;> simp [Frame.setChan, Frame.empty] at hd
    subst hd
    rfl
  · intro blocks hb
    simp [Frame.setChan, Frame.empty] at hb
  · intro n h
    have h1 := h.chan .measurements [10] (by decide)
    have h2 := h.chan .positions3d [] (by decide)
    simp at h1 h2
    omega

/-! ## Inserting additional keypoints -/

theorem extendAt_exact {α : Type} (junk : α) (new d : List α) : extendAt junk d.length new d = d ++ new := by
  unfold extendAt conservativeResize
  rw [List.take_of_length_le (by omega : d.length ≤ d.length + new.length),
    List.take_append_of_le_length (le_refl _), List.take_length]

theorem extendAt_length {α : Type} (junk : α) (start : Nat) (new d : List α) :
    (extendAt junk start new d).length = start + new.length := by
  simp only [extendAt, conservativeResize, List.length_append, List.length_take, List.length_replicate]
  omega

theorem zipWith_drop_eq (c : Nat) : ∀ (rs ms : List Desc), rs.length = ms.length →
    (∀ r ∈ rs, r.length ≤ c) → List.zipWith (fun old new => new ++ old.drop c) rs ms = ms := by
  intro rs
  induction rs with
  | nil =>
    intro ms hl _
    have : ms = [] := List.length_eq_zero_iff.mp hl.symm
    subst this; rfl
  | cons r rs ih =>
    intro ms hl hr
    cases ms with
    | nil => simp at hl
    | cons x xs =>
      rw [List.zipWith_cons_cons, ih xs (by simpa using hl) (fun r' h' => hr r' (List.mem_cons_of_mem _ h')),
        List.drop_eq_nil_of_le (hr r (by simp)), List.append_nil]

theorem extendBlock_exact (junk : UInt8) (m : CvMat) (b : List Desc) :
    extendBlock junk b.length m.cols m b = .ok (b ++ m.columns) := by
  unfold extendBlock
  rw [if_neg (by omega)]
  simp only [Outcome.ok.injEq]
  have hr : conservativeResize (List.replicate m.cols junk) (b.length + m.rows) b =
      b ++ List.replicate m.rows (List.replicate m.cols junk) := by
    unfold conservativeResize
    rw [List.take_of_length_le (by omega : b.length ≤ b.length + m.rows), Nat.add_sub_cancel_left]
  rw [hr, List.take_append_of_le_length (le_refl _), List.take_length, List.drop_append_of_le_length (le_refl _),
    List.drop_length, List.nil_append, zipWith_drop_eq]
  · rw [List.length_replicate, columns_length]
  · intro r h'
    rw [List.mem_replicate] at h'
    rw [h'.2, List.length_replicate]

/-- **C77** (partial): into an aligned frame with all the channels a detector fills and a single descriptor
block whose descriptors have the size of the new ones, inserting more keypoints appends: the earlier keypoints
keep all their data, and the new ones follow in order. -/
theorem insertAdditional_partial (junk : Int) (junkB : UInt8) {f : Frame} {kps : List CvKeypoint} {m : CvMat}
    {u : Int} {n : Nat} {b : List Desc} (hf : Aligned f n) (hc : ∀ c ∈ detectorChans, (f.chan c).isSome)
    (hb : f.descriptors = some [b]) (hu : 0 < u) (hr : m.rows = kps.length) (hby : m.isBytes = true)
    (hco : m.continuous = true) :
    ∃ f', insertAdditional junk junkB m.cols f kps m u = .ok f' ∧
      (∀ c ∈ detectorChans, ∀ d, f.chan c = some d → f'.chan c = some (d ++ kps.map (contribution u · c))) ∧
      (∀ c, c ∉ detectorChans → f'.chan c = f.chan c) ∧
      f'.descriptors = some [b ++ m.columns] ∧ f'.types = f.types := by
  have ex : ∀ c ∈ detectorChans, ∃ d, f.chan c = some d := fun c h => Option.isSome_iff_exists.1 (hc c h)
  obtain ⟨pts, e1⟩ := ex .measurements (by decide)
  obtain ⟨us, e2⟩ := ex .uncertainties (by decide)
  obtain ⟨os, e3⟩ := ex .orientations (by decide)
  obtain ⟨ss, e4⟩ := ex .scales (by decide)
  obtain ⟨rs, e5⟩ := ex .scores (by decide)
  obtain ⟨ids, e6⟩ := ex .trackIds (by decide)
  have l1 := hf.chan _ _ e1
  have l2 := hf.chan _ _ e2
  have l3 := hf.chan _ _ e3
  have l4 := hf.chan _ _ e4
  have l5 := hf.chan _ _ e5
  have l6 := hf.chan _ _ e6
  have l7 : b.length = n := by simpa using hf.descriptors _ hb
  have ha : argumentsOk kps m u = true := by simp [argumentsOk, hu, hr, hby, hco]
  unfold insertAdditional
  rw [e1, e2, e3, e4, e5, e6, hb, ha]
  simp only [get, Outcome.bind_ok, Outcome.check_true, List.getElem?_cons_zero]
  rw [show ids.length = b.length by omega, extendBlock_exact]
  simp only [Outcome.bind_ok]
  refine ⟨_, rfl, ?_, ?_, by simp, by simp [Frame.setChan]⟩
  · intro c hm d hd
    simp only [detectorChans, List.mem_cons, List.not_mem_nil, or_false] at hm
    rcases hm with rfl | rfl | rfl | rfl | rfl | rfl
    · rw [e1] at hd
      obtain rfl := Option.some.inj hd
      simp only [Frame.setChan]
      simp [contribution, show b.length = pts.length by omega, extendAt_exact]
    · rw [e2] at hd
      obtain rfl := Option.some.inj hd
      simp only [Frame.setChan]
      simp [contribution, show b.length = us.length by omega, extendAt_exact, List.map_const']
    · rw [e3] at hd
      obtain rfl := Option.some.inj hd
      simp only [Frame.setChan]
      simp [contribution, show b.length = os.length by omega, extendAt_exact]
    · rw [e4] at hd
      obtain rfl := Option.some.inj hd
      simp only [Frame.setChan]
      simp [contribution, show b.length = ss.length by omega, extendAt_exact]
    · rw [e5] at hd
      obtain rfl := Option.some.inj hd
      simp only [Frame.setChan]
      simp [contribution, show b.length = rs.length by omega, extendAt_exact]
    · rw [e6] at hd
      obtain rfl := Option.some.inj hd
      simp only [Frame.setChan]
      simp [contribution, show b.length = ids.length by omega, extendAt_exact, List.map_const']
  · intro c hm
    cases c <;> simp [detectorChans] at hm <;> simp [Frame.setChan]

/-- A frame with two keypoints. -/
def sampleFrame : Frame :=
  ⟨fun c => if c ∈ detectorChans then some [1, 2] else none, some [[[3], [4]]], some [0]⟩

theorem sampleFrame_aligned : Aligned sampleFrame 2 := by
  constructor
  · intro c d h
    cases c <;> simp [sampleFrame, detectorChans] at h <;> subst h <;> rfl
  · intro bs h
    simp [sampleFrame] at h
    subst h
    rfl

example : Aligned sampleFrame 2 ∧ (∀ c ∈ detectorChans, (sampleFrame.chan c).isSome) ∧
    sampleFrame.descriptors = some [[[3], [4]]] ∧ (∃ f', insertAdditional 0 0 1 sampleFrame [⟨10, 1, 2, 3⟩]
      ⟨1, 1, [7], true, true⟩ 9 = .ok f' ∧ f'.chan .scores = some [1, 2, 1] ∧
      f'.descriptors = some [[[3], [4], [7]]]) :=
  ⟨sampleFrame_aligned, by decide, rfl, _, rfl, by decide, by decide⟩

/-- **C77**: after inserting additional keypoints the frame is aligned again, if it has no 3D positions and no
time offsets. -/
theorem insertAdditional_aligned (junk : Int) (junkB : UInt8) {f : Frame} {kps : List CvKeypoint} {m : CvMat}
    {u : Int} {n : Nat} {b : List Desc} (hf : Aligned f n) (hc : ∀ c ∈ detectorChans, (f.chan c).isSome)
    (hb : f.descriptors = some [b]) (hu : 0 < u) (hr : m.rows = kps.length) (hby : m.isBytes = true)
    (hco : m.continuous = true) (h3 : f.chan .positions3d = none) (h4 : f.chan .timeOffsets = none) :
    ∃ f', insertAdditional junk junkB m.cols f kps m u = .ok f' ∧ Aligned f' (n + kps.length) := by
  obtain ⟨f', h, h1, h2, hd, _⟩ := insertAdditional_partial junk junkB hf hc hb hu hr hby hco
  refine ⟨f', h, ?_, ?_⟩
  · intro c d hcd
    by_cases hm : c ∈ detectorChans
    · obtain ⟨d', hd'⟩ := Option.isSome_iff_exists.1 (hc c hm)
      rw [h1 c hm d' hd'] at hcd
      obtain rfl := Option.some.inj hcd
      simp [hf.chan c d' hd']
    · rw [h2 c hm] at hcd
      cases c <;> first | (exact absurd (by decide) hm) | skip
      · rw [h3] at hcd; simp at hcd
      · rw [h4] at hcd; simp at hcd
  · intro blocks hbl
    rw [hd] at hbl
    obtain rfl := Option.some.inj hbl
    have : b.length = n := by simpa using hf.descriptors _ hb
    simp [columns_length, hr, this]

/-- **C77**: inserting keypoints into an empty frame and then more of them gives the same channels and
descriptors as inserting all at once. -/
theorem insert_insert (junk : Int) (junkB : UInt8) {kps kps' : List CvKeypoint} {m m' : CvMat} {u : Int}
    {f1 f2 f3 : Frame} (hm : m.Valid) (hm' : m'.Valid) (hc : m.cols = m'.cols)
    (h1 : insertEmpty Frame.empty kps m u = .ok f1)
    (h2 : insertAdditional junk junkB m.cols f1 kps' m' u = .ok f2)
    (h3 : insertEmpty Frame.empty (kps ++ kps') ⟨m.rows + m'.rows, m.cols, m.data ++ m'.data, true, true⟩ u =
      .ok f3) :
    f2.chan = f3.chan ∧ f2.descriptors = f3.descriptors ∧ f2.types = f3.types := by
  have hal : Aligned f1 kps.length := insertEmpty_aligned_partial h1 rfl rfl (by simp [Frame.empty])
  obtain ⟨_, _, ha, a1, a2, a3, a4⟩ := insertEmpty_eq h1
  obtain ⟨_, _, hb, b1, b2, b3, b4⟩ := insertEmpty_eq h3
  have hargs : argumentsOk kps' m' u = true := by
    unfold insertAdditional at h2
    obtain ⟨_, _, h2⟩ := Outcome.bind_eq_ok.1 h2
    obtain ⟨_, _, h2⟩ := Outcome.bind_eq_ok.1 h2
    obtain ⟨_, _, h2⟩ := Outcome.bind_eq_ok.1 h2
    obtain ⟨_, _, h2⟩ := Outcome.bind_eq_ok.1 h2
    obtain ⟨_, _, h2⟩ := Outcome.bind_eq_ok.1 h2
    obtain ⟨_, _, h2⟩ := Outcome.bind_eq_ok.1 h2
    obtain ⟨_, _, h2⟩ := Outcome.bind_eq_ok.1 h2
    obtain ⟨_, hh, h2⟩ := Outcome.bind_eq_ok.1 h2
    exact Outcome.check_eq_ok.1 hh
  simp only [argumentsOk, Bool.and_eq_true, decide_eq_true_eq] at hargs
  obtain ⟨f', h, c1, c2, c3, c4⟩ := insertAdditional_partial junk junkB (u := u) (m := m') (kps := kps') hal
    (fun c hc => by rw [a1 c hc]; rfl) (by simpa [Frame.empty] using a3) hargs.1.1.1 hargs.1.1.2.symm hargs.1.2
    hargs.2
  rw [← hc, h2] at h
  obtain rfl := Outcome.ok.inj h
  refine ⟨?_, ?_, ?_⟩
  · funext c
    by_cases hm : c ∈ detectorChans
    · rw [c1 c hm _ (a1 c hm), b1 c hm, List.map_append]
    · rw [c2 c hm, a2 c hm, b2 c hm]
  · rw [c3, b3]
    simp only [Frame.empty, Option.getD_none, List.tail_nil, Option.some.injEq, List.cons.injEq, and_true]
    unfold CvMat.Valid at hm hm'
    unfold CvMat.columns
    simp only
    rw [List.range_add, List.map_append, List.map_map]
    congr 1
    · apply List.map_congr_left
      intro i hi
      rw [List.mem_range] at hi
      have e1 : (i + 1) * m.cols ≤ m.rows * m.cols := Nat.mul_le_mul_right _ (by omega)
      have e2 : (i + 1) * m.cols = i * m.cols + m.cols := by rw [Nat.add_mul, Nat.one_mul]
      rw [List.drop_append_of_le_length (by omega), List.take_append_of_le_length]
      rw [List.length_drop]
      omega
    · apply List.map_congr_left
      intro i _
      simp only [Function.comp_apply]
      rw [Nat.add_mul, ← hm, ← hc, ← List.drop_drop]
      simp
  · rw [c4, a4, b4]

example : ∃ f1 f2 f3, insertEmpty Frame.empty [⟨10, 1, 2, 3⟩] ⟨1, 1, [7], true, true⟩ 9 = .ok f1 ∧
    insertAdditional 0 0 1 f1 [⟨20, 4, 5, 6⟩] ⟨1, 1, [8], true, true⟩ 9 = .ok f2 ∧
    insertEmpty Frame.empty [⟨10, 1, 2, 3⟩, ⟨20, 4, 5, 6⟩] ⟨2, 1, [7, 8], true, true⟩ 9 = .ok f3 :=
  ⟨_, _, _, rfl, rfl, rfl⟩

/-- A frame with two keypoints in two descriptor blocks. -/
def twoBlocks : Frame :=
  ⟨fun c => if c ∈ detectorChans then some [1, 2] else none, some [[[3]], [[4]]], some [0, 1]⟩

/-- **C77** refuted for frames with two descriptor blocks: the first block is resized to the number of all
keypoints, so the frame ends up with four descriptors for three keypoints, one of them uninitialised. -/
theorem insertAdditional_blocks_refuted : Aligned twoBlocks 2 ∧
    (insertAdditional 0 99 1 twoBlocks [⟨10, 1, 2, 3⟩] ⟨1, 1, [7], true, true⟩ 9 >>= fun f =>
      .ok (f.chan .measurements, f.descriptors)) =
      .ok (some [1, 2, 10], some [[[3], [99], [7]], [[4]]]) := by
  refine ⟨⟨?_, ?_⟩, by decide⟩
  · intro c d h
    cases c <;> simp [twoBlocks, detectorChans] at h <;> subst h <;> rfl
  · intro bs h
    simp [twoBlocks] at h
    subst h
    rfl

/-- **C77** refuted after `clearKeypointChannels`, which leaves a descriptor matrix without rows
(visual-frame.cc:441-454): inserting additional keypoints into the cleared frame writes outside of it. -/
theorem insertAdditional_cleared_refuted {f f' : Frame} (hf : clearKeypointChannels f = .ok f')
    (junk : Int) (junkB : UInt8) {kps : List CvKeypoint} {m : CvMat} {u : Int} (hm : 0 < m.rows) (hc : 0 < m.cols)
    (ha : argumentsOk kps m u = true) : insertAdditional junk junkB 0 f' kps m u = .ub := by
  unfold clearKeypointChannels at hf
  obtain ⟨h1, h2, _⟩ := setDescriptors_first hf
  unfold insertAdditional
  rw [h1, h2, ha]
  simp [get, Frame.setChan, extendBlock, hm, hc]

example : ∃ f', clearKeypointChannels sampleFrame = .ok f' := ⟨_, rfl⟩

/-- **C77** refuted for descriptors shorter than those of the frame: the rest of the new descriptor is
uninitialised, nothing is reported. -/
theorem insertAdditional_short_refuted :
    (insertAdditional 0 99 2 ⟨fun c => if c ∈ detectorChans then some [1] else none, some [[[3, 4]]], some [0]⟩
      [⟨10, 1, 2, 3⟩] ⟨1, 1, [7], true, true⟩ 9 >>= fun f => .ok f.descriptors) =
      .ok (some [[[3, 4], [7, 99]]]) := by
  decide

/-- **C77**: without one of the channels, or with wrong arguments, the call aborts. -/
theorem insertAdditional_rejects (junk : Int) (junkB : UInt8) (rows0 : Nat) {f : Frame} {kps : List CvKeypoint}
    {m : CvMat} {u : Int}
    (h : (∃ c ∈ detectorChans, f.chan c = none) ∨ f.descriptors = none ∨ argumentsOk kps m u = false) :
    insertAdditional junk junkB rows0 f kps m u = .abort := by
  unfold insertAdditional
  cases e1 : f.chan .measurements with
  | none => rfl
  | some d1 =>
  cases e2 : f.descriptors with
  | none => rfl
  | some bs =>
  cases e3 : f.chan .uncertainties with
  | none => rfl
  | some d3 =>
  cases e4 : f.chan .orientations with
  | none => rfl
  | some d4 =>
  cases e5 : f.chan .scales with
  | none => rfl
  | some d5 =>
  cases e6 : f.chan .scores with
  | none => rfl
  | some d6 =>
  cases e7 : f.chan .trackIds with
  | none => rfl
  | some d7 =>
  rcases h with ⟨c, hc, hn⟩ | hn | hn
  · simp only [detectorChans, List.mem_cons, List.not_mem_nil, or_false] at hc
    rcases hc with rfl | rfl | rfl | rfl | rfl | rfl <;> simp_all
  · rw [e2] at hn; simp at hn
  · rw [hn]; rfl

example : argumentsOk [⟨10, 1, 2, 3⟩] ⟨2, 1, [7, 8], true, true⟩ 9 = false := by decide

end Verif.VisualFrame
