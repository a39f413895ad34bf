import Verif.NPipeline.Make
import Verif.VisualFrame.NFrameProps

/-!
# Property C137: pipelines that are made fit together
-/

namespace Verif.NPipeline.Make

open Verif (Outcome)
open Verif.VisualFrame.Copy (World NF VF nstep fstep)

/-! ## Specification -/

/-- The pipelines go from the cameras of the rig `i` to those of the rig `o`, one for each camera and in their order. -/
def Fit (cams : Nat → List Nat) (pipes : List Pipe) (i o : Nat) : Prop :=
  pipes.map Pipe.input = (cams i).map some ∧ pipes.map Pipe.output = (cams o).map some

theorem checkPipes_ok_iff {cams : Nat → List Nat} {i o : Nat} : ∀ {ps : List (Option Pipe)} {k : Nat} {qs : List Pipe},
    checkPipes cams i o k ps = .ok qs ↔
      ps = qs.map some ∧ (∀ (j : Nat) q, qs[j]? = some q → ∃ a b, (cams i)[k + j]? = some a ∧ (cams o)[k + j]? = some b ∧
        q.input = some a ∧ q.output = some b)
  | [], k, qs => by
    unfold checkPipes
    constructor
    · intro h
      cases h
      simp
    · rintro ⟨h, -⟩
      have : qs = [] := by simpa using h.symm
      rw [this]
  | none :: ps, k, qs => by
    unfold checkPipes
    constructor
    · intro h; cases h
    · rintro ⟨h, -⟩
      cases qs <;> simp at h
  | some p :: ps, k, qs => by
    unfold checkPipes
    constructor
    · intro h
      split at h
      · next a b ha hb =>
        split at h
        · next hp =>
          obtain ⟨rs, hr, h⟩ := Outcome.bind_eq_ok.1 h
          cases h
          obtain ⟨e, hj⟩ := checkPipes_ok_iff.1 hr
          refine ⟨by simp [e], ?_⟩
          rintro (_ | j) q hq
          · simp only [List.getElem?_cons_zero, Option.some.injEq] at hq
            subst hq
            exact ⟨a, b, ha, hb, hp⟩
          · have := hj j q (by simpa using hq)
            rwa [show k + 1 + j = k + (j + 1) by omega] at this
        · cases h
      · cases h
    · rintro ⟨h, hj⟩
      cases qs with
      | nil => simp at h
      | cons q rs =>
        simp only [List.map_cons, List.cons.injEq, Option.some.injEq] at h
        obtain ⟨rfl, h⟩ := h
        obtain ⟨a, b, ha, hb, hp⟩ := hj 0 p (by simp)
        simp only [Nat.add_zero] at ha hb
        simp only [ha, hb]
        rw [if_pos hp, (checkPipes_ok_iff (qs := rs)).2 ⟨h, fun j q hq => by
          have := hj (j + 1) q (by simpa using hq)
          rwa [show k + (j + 1) = k + 1 + j by omega] at this⟩]
        rfl

/-- C137: a pipeline for several cameras is made exactly if there is at least one camera and one thread, the tolerance is
not negative, and there is one pipeline for each camera, in their order, that takes images of the camera of the first rig
and makes frames of the camera of the second: the camera objects themselves, not equal ones. -/
theorem make_ok_iff {cams : Nat → List Nat} {threads : Nat} {pipes : List (Option Pipe)} {input output : Option Nat}
    {tolerance : Int} {P : NPipe} :
    make cams threads pipes input output tolerance = .ok P ↔
      0 < P.pipes.length ∧ 0 < threads ∧ 0 ≤ tolerance ∧ pipes = P.pipes.map some ∧ Fit cams P.pipes P.input P.output ∧
        input = some P.input ∧ output = some P.output ∧ P.tolerance = tolerance ∧ P.threads = threads := by
  have key : ∀ (i o : Nat) (qs : List Pipe), (cams i).length = (cams o).length → (cams i).length = qs.length →
      ((∀ (j : Nat) q, qs[j]? = some q → ∃ a b, (cams i)[0 + j]? = some a ∧ (cams o)[0 + j]? = some b ∧
        q.input = some a ∧ q.output = some b) ↔ Fit cams qs i o) := by
    intro i o qs h1 h2
    constructor
    · intro h
      constructor
      · refine List.ext_getElem? fun j => ?_
        cases hq : qs[j]? with
        | none =>
          have := List.getElem?_eq_none_iff.1 hq
          simp [hq, List.getElem?_eq_none_iff.2 (show (cams i).length ≤ j by omega)]
        | some q =>
          obtain ⟨a, b, ha, hb, hi, ho⟩ := h j q hq
          rw [Nat.zero_add] at ha
          simp [hq, ha, hi]
      · refine List.ext_getElem? fun j => ?_
        cases hq : qs[j]? with
        | none =>
          have := List.getElem?_eq_none_iff.1 hq
          simp [hq, List.getElem?_eq_none_iff.2 (show (cams o).length ≤ j by omega)]
        | some q =>
          obtain ⟨a, b, ha, hb, hi, ho⟩ := h j q hq
          rw [Nat.zero_add] at hb
          simp [hq, hb, ho]
    · rintro ⟨h3, h4⟩ j q hq
      have e3 := congrArg (·[j]?) h3
      have e4 := congrArg (·[j]?) h4
      simp only [List.getElem?_map, hq, Option.map_some] at e3 e4
      cases ha : (cams i)[j]? with
      | none => simp [ha] at e3
      | some a =>
        cases hb : (cams o)[j]? with
        | none => simp [hb] at e4
        | some b =>
          rw [ha] at e3
          rw [hb] at e4
          rw [Nat.zero_add]
          exact ⟨a, b, ha, hb, by simpa using e3, by simpa using e4⟩
  unfold make
  constructor
  · intro h
    cases input with
    | none => cases h
    | some i =>
      cases output with
      | none => cases h
      | some o =>
        simp only at h
        split at h
        · next hc =>
          obtain ⟨h0, h1, h2, h3⟩ := hc
          obtain ⟨ps, hp, h⟩ := Outcome.bind_eq_ok.1 h
          split at h
          · next ht =>
            cases h
            obtain ⟨e, hj⟩ := checkPipes_ok_iff.1 hp
            have hl : (cams i).length = ps.length := by rw [h2, e]; simp
            exact ⟨by simp only; omega, ht, h3, e, (key i o ps h1 hl).1 hj, rfl, rfl, rfl, rfl⟩
          · cases h
        · cases h
  · rintro ⟨h0, h1, h2, rfl, hf, rfl, rfl, rfl, rfl⟩
    have l1 : (cams P.input).length = P.pipes.length := by simpa using (congrArg List.length hf.1).symm
    have l2 : (cams P.output).length = P.pipes.length := by simpa using (congrArg List.length hf.2).symm
    simp only
    rw [if_pos ⟨by omega, by omega, by simpa using l1, h2⟩,
      checkPipes_ok_iff.2 ⟨rfl, (key _ _ _ (by omega) l1).2 hf⟩, Outcome.bind_ok, if_pos h1]

theorem checkPipes_stops {cams : Nat → List Nat} {i o : Nat} : ∀ (ps : List (Option Pipe)) (k : Nat),
    (∃ qs, checkPipes cams i o k ps = .ok qs) ∨ checkPipes cams i o k ps = .abort
  | [], _ => Or.inl ⟨_, rfl⟩
  | none :: _, _ => Or.inr rfl
  | some p :: ps, k => by
    unfold checkPipes
    split
    · split
      · rcases checkPipes_stops (cams := cams) (i := i) (o := o) ps (k + 1) with ⟨qs, h⟩ | h
        · rw [h]
          exact Or.inl ⟨_, rfl⟩
        · rw [h]
          exact Or.inr rfl
      · exact Or.inr rfl
    · exact Or.inr rfl

/-- Whatever does not fit, null pointers among it, ends the process: making a pipeline is never undefined. -/
theorem make_stops (cams : Nat → List Nat) (threads : Nat) (pipes : List (Option Pipe)) (input output : Option Nat)
    (tolerance : Int) :
    (∃ P, make cams threads pipes input output tolerance = .ok P) ∨
      make cams threads pipes input output tolerance = .abort := by
  unfold make
  split
  · next i o =>
    split
    · rcases checkPipes_stops (cams := cams) (i := i) (o := o) pipes 0 with ⟨qs, h⟩ | h
      · rw [h, Outcome.bind_ok]
        split
        · exact Or.inl ⟨_, rfl⟩
        · exact Or.inr rfl
      · rw [h]
        exact Or.inr rfl
    · exact Or.inr rfl
  · exact Or.inr rfl

example : make (fun _ => [3]) 1 [none] (some 0) (some 0) 100 = .abort := rfl

/-- Two cameras, images of which are undistorted: the second rig has the cameras of the undistorted images. -/
example : make (fun r => if r = 0 then [3, 4] else [5, 6]) 2 [some ⟨some 3, some 5⟩, some ⟨some 4, some 6⟩] (some 0) (some 1)
    100 = .ok ⟨[⟨some 3, some 5⟩, ⟨some 4, some 6⟩], 0, 1, 100, 2⟩ := rfl

/-- C137: the checks tell apart the order of the pipelines, and an equal camera that is another object. -/
example : make (fun r => if r = 0 then [3, 4] else [5, 6]) 2 [some ⟨some 4, some 6⟩, some ⟨some 3, some 5⟩] (some 0) (some 1)
    100 = .abort ∧
    make (fun _ => [3]) 2 [some ⟨some 3, some 7⟩] (some 0) (some 0) 100 = .abort := ⟨rfl, rfl⟩

/-! ## Frames find their places -/

/-- The n-frames of a pipeline: they have its rig, a place for each camera, and a frame in a place is of the camera of the
place. -/
def Own (cams : Nat → List Nat) (o : Nat) (w : World) : Prop :=
  ∀ n ∈ w.nframes, n.rig = some o ∧ n.frames.length = (cams o).length ∧
    ∀ (i f : Nat), n.frames[i]? = some (some f) → ∃ v, w.frames[f]? = some v ∧ v.cam = (cams o)[i]? ∧ v.cam.isSome

/-- The n-frames that are found exist. -/
def Sensible (P : NPipe) : List Job → Nat → Prop
  | [], _ => True
  | j :: js, n => j.index < P.pipes.length ∧
    match j.found with
    | some k => k < n ∧ Sensible P js n
    | none => Sensible P js (n + 1)

theorem call_modify (cams : Nat → List Nat) (w : World) (v : VF) (fs : List VF) (hf : w.frames = fs ++ [v]) (h : VF → VF)
    {op : VisualFrame.Copy.FOp} (ho : fstep w op = VisualFrame.Copy.modify w fs.length h) :
    call cams w (.frame op) = .ok { w with frames := fs ++ [h v] } := by
  unfold call nstep
  simp only [ho]
  unfold VisualFrame.Copy.modify
  rw [hf]
  simp only [List.getElem?_concat_length, List.set_append_right _ _ (Nat.le_refl _), Nat.sub_self, List.set_cons_zero,
    Option.map_some]
  rfl

/-- The frame of a pipeline: of the camera of the output, its raw camera is that of the input. -/
theorem frameOf_spec (cams : Nat → List Nat) (p : Pipe) (t : Int) (id : Nat) (w : World) :
    ∃ w' v, frameOf cams p t id w = .ok (w', w.frames.length) ∧ w'.frames = w.frames ++ [v] ∧ w'.nframes = w.nframes ∧
      v.ts = t ∧ v.id = id ∧ v.raw = p.input ∧ v.cam = p.output ∧ v.valid = true := by
  have e1 : call cams w (.frame .new) = .ok { w with
      store := { w.store with groups := w.store.groups ++ [[]] }
      frames := w.frames ++ [⟨VisualFrame.Copy.invalidTime, 0, none, none, w.store.groups.length, true⟩] } := rfl
  unfold frameOf
  rw [e1, Outcome.bind_ok]
  rw [call_modify cams _ _ w.frames rfl (fun v => { v with ts := t }) (op := .setTs w.frames.length t) rfl, Outcome.bind_ok]
  rw [call_modify cams _ _ w.frames rfl (fun v => { v with raw := p.input }) (op := .setRaw w.frames.length p.input) rfl,
    Outcome.bind_ok]
  rw [call_modify cams _ _ w.frames rfl (fun v => { v with cam := p.output }) (op := .setCam w.frames.length p.output) rfl,
    Outcome.bind_ok]
  rw [call_modify cams _ _ w.frames rfl (fun v => { v with id := id }) (op := .setId w.frames.length id) rfl,
    Outcome.bind_ok]
  exact ⟨_, _, rfl, rfl, rfl, rfl, rfl, rfl, rfl, rfl⟩

theorem call_setFrame (cams : Nat → List Nat) {w : World} {k i f o : Nat} {n : NF} {v : VF} (hn : w.nframes[k]? = some n)
    (hv : w.frames[f]? = some v) (hr : n.rig = some o) (hi : i < n.frames.length) (hc : (cams o)[i]? = v.cam)
    (hs : v.cam.isSome) :
    call cams w (.setFrame k i f) = .ok { w with nframes := w.nframes.set k { n with frames := n.frames.set i (some f) } } := by
  unfold call nstep
  simp only [hn, hv, if_pos hi, hr, hc, hs, and_self, if_true]

/-- What a worker leaves: the frame is where it belongs, all else is as it was. -/
theorem work_spec {cams : Nat → List Nat} {P : NPipe} (hf : Fit cams P.pipes P.input P.output) {w : World}
    (ho : Own cams P.output w) {index : Nat} (hi : index < P.pipes.length) (t : Int) (id : Nat) {found : Option Nat}
    (hk : ∀ k, found = some k → k < w.nframes.length) :
    ∃ w' v n, work cams P index t id found w = .ok w' ∧ Own cams P.output w' ∧ w'.frames = w.frames ++ [v] ∧ v.ts = t ∧
      v.id = id ∧ v.cam = (cams P.output)[index]? ∧ v.raw = (cams P.input)[index]? ∧
      w'.nframes[found.getD w.nframes.length]? = some n ∧ n.frames[index]? = some (some w.frames.length) ∧
      w'.nframes.length = (if found.isSome then w.nframes.length else w.nframes.length + 1) ∧
      ∀ k, k ≠ found.getD w.nframes.length → k < w.nframes.length → w'.nframes[k]? = w.nframes[k]? := by
  have l2 : (cams P.output).length = P.pipes.length := by simpa using (congrArg List.length hf.2).symm
  have hp : P.pipes[index]? = some P.pipes[index] := List.getElem?_eq_getElem hi
  have hout : P.pipes[index].output = (cams P.output)[index]? := by
    have e := congrArg (·[index]?) hf.2
    simp only [List.getElem?_map, hp, Option.map_some] at e
    rw [List.getElem?_eq_getElem (show index < (cams P.output).length by omega)] at e ⊢
    simpa using e
  have l1 : (cams P.input).length = P.pipes.length := by simpa using (congrArg List.length hf.1).symm
  have hin : P.pipes[index].input = (cams P.input)[index]? := by
    have e := congrArg (·[index]?) hf.1
    simp only [List.getElem?_map, hp, Option.map_some] at e
    rw [List.getElem?_eq_getElem (show index < (cams P.input).length by omega)] at e ⊢
    simpa using e
  have hsome : ((cams P.output)[index]?).isSome := by
    rw [List.getElem?_eq_getElem (show index < (cams P.output).length by omega)]; rfl
  obtain ⟨w1, v, h1, hfr, hnf, ht, hid, hraw, hcam, -⟩ := frameOf_spec cams P.pipes[index] t id w
  have hv : w1.frames[w.frames.length]? = some v := by rw [hfr]; simp
  have hold : ∀ (f : Nat) u, w.frames[f]? = some u → w1.frames[f]? = some u := by
    intro f u hu
    rw [hfr, List.getElem?_append_left (List.getElem?_eq_some_iff.1 hu).1, hu]
  -- the n-frame with the frame in its place
  have placed : ∀ n : NF, (n.rig = some P.output ∧ n.frames.length = (cams P.output).length ∧
      ∀ (i f : Nat), n.frames[i]? = some (some f) → ∃ v, w.frames[f]? = some v ∧ v.cam = (cams P.output)[i]? ∧ v.cam.isSome) →
      (n.rig = some P.output ∧ (n.frames.set index (some w.frames.length)).length = (cams P.output).length ∧
      ∀ (i f : Nat), (n.frames.set index (some w.frames.length))[i]? = some (some f) → ∃ v, w1.frames[f]? = some v ∧
        v.cam = (cams P.output)[i]? ∧ v.cam.isSome) := by
    rintro n ⟨a, b, c⟩
    refine ⟨a, by simpa using b, ?_⟩
    intro i f hif
    by_cases e : i = index
    · subst e
      rw [List.getElem?_set_self (by omega)] at hif
      simp only [Option.some.injEq] at hif
      subst hif
      exact ⟨v, hv, by rw [hcam, hout], by rw [hcam, hout]; exact hsome⟩
    · rw [List.getElem?_set_ne (Ne.symm e)] at hif
      obtain ⟨u, hu, h2, h3⟩ := c i f hif
      exact ⟨u, hold f u hu, h2, h3⟩
  have keep : ∀ n ∈ w.nframes, n.rig = some P.output ∧ n.frames.length = (cams P.output).length ∧
      ∀ (i f : Nat), n.frames[i]? = some (some f) → ∃ v, w1.frames[f]? = some v ∧ v.cam = (cams P.output)[i]? ∧
        v.cam.isSome := by
    intro n hn
    obtain ⟨a, b, c⟩ := ho n hn
    refine ⟨a, b, fun i f hif => ?_⟩
    obtain ⟨u, hu, h2, h3⟩ := c i f hif
    exact ⟨u, hold f u hu, h2, h3⟩
  have hcv : (cams P.output)[index]? = v.cam := by rw [hcam, hout]
  have hvs : v.cam.isSome := by rw [← hcv]; exact hsome
  unfold work
  simp only [hp, h1, Outcome.bind_ok]
  cases found with
  | some k =>
    have hkl := hk k rfl
    have hn : w1.nframes[k]? = some w.nframes[k] := by rw [hnf, List.getElem?_eq_getElem hkl]
    have hown := ho _ (List.getElem_mem hkl)
    refine ⟨_, v, { w.nframes[k] with frames := w.nframes[k].frames.set index (some w.frames.length) },
      call_setFrame cams hn hv hown.1 (by rw [hown.2.1]; omega) hcv hvs, ?_, hfr, ht, hid, hcv.symm, by rw [hraw, hin], ?_, ?_, ?_,
      ?_⟩
    · intro m hm
      simp only [hnf] at hm
      rcases List.mem_or_eq_of_mem_set hm with hm | rfl
      · exact keep m hm
      · exact placed _ hown
    · simp only [Option.getD_some, hnf]
      rw [List.getElem?_set_self hkl]
    · simp only
      rw [List.getElem?_set_self (by rw [hown.2.1]; omega)]
    · simp [hnf]
    · intro j hj _
      simp only [hnf]
      rw [List.getElem?_set_ne (by simpa using Ne.symm hj)]
  | none =>
    have e2 : call cams w1 (.newN 0 (some P.output) 0) = .ok { w1 with
        nframes := w1.nframes ++ [⟨0, some P.output, List.replicate (cams P.output).length none⟩] } := rfl
    simp only [e2, Outcome.bind_ok]
    have hn : (w1.nframes ++ [(⟨0, some P.output, List.replicate (cams P.output).length none⟩ : NF)])[w1.nframes.length]? =
        some ⟨0, some P.output, List.replicate (cams P.output).length none⟩ := by simp
    refine ⟨_, v, ⟨0, some P.output, (List.replicate (cams P.output).length none).set index (some w.frames.length)⟩,
      call_setFrame cams (n := ⟨0, some P.output, List.replicate (cams P.output).length none⟩) hn hv rfl
      (by simp only [List.length_replicate]; omega) hcv hvs, ?_, hfr, ht, hid, hcv.symm, by rw [hraw, hin], ?_, ?_, ?_, ?_⟩
    rotate_left
    · simp only [Option.getD_none, hnf]
      rw [List.getElem?_set_self (by simp)]
    · simp only
      rw [List.getElem?_set_self (by simp only [List.length_replicate]; omega)]
    · simp [hnf]
    · intro j hj hj2
      simp only [hnf]
      rw [List.getElem?_set_ne (by simpa using Ne.symm hj), List.getElem?_append_left hj2]
    · intro m hm
      simp only [hnf] at hm
      rcases List.mem_or_eq_of_mem_set hm with hm | rfl
      · rcases List.mem_append.1 hm with hm | hm
        · exact keep m hm
        · rw [List.mem_singleton] at hm
          subst hm
          refine ⟨rfl, by simp, fun i f hif => ?_⟩
          simp only [List.getElem?_replicate] at hif
          split at hif <;> simp at hif
      · refine placed ⟨0, some P.output, List.replicate (cams P.output).length none⟩ ⟨rfl, by simp, fun i f hif => ?_⟩
        simp only [List.getElem?_replicate] at hif
        split at hif <;> simp at hif

/-- C137: whatever images come in whatever order, and whichever n-frames they are put into, a pipeline that was made never
fails because a frame does not fit its n-frame: frames are only put into places for their own cameras. -/
theorem made_never_misfits {cams : Nat → List Nat} {threads : Nat} {pipes : List (Option Pipe)} {input output : Option Nat}
    {tolerance : Int} {P : NPipe} (hm : make cams threads pipes input output tolerance = .ok P) :
    ∀ (jobs : List Job) (w : World), Own cams P.output w → Sensible P jobs w.nframes.length →
      ∃ w', workAll cams P jobs w = .ok w' ∧ Own cams P.output w'
  | [], w, ho, _ => ⟨w, rfl, ho⟩
  | j :: js, w, ho, hs => by
    obtain ⟨-, -, -, -, hf, -⟩ := make_ok_iff.1 hm
    unfold Sensible at hs
    have hk : ∀ k, j.found = some k → k < w.nframes.length := by
      intro k e
      rw [e] at hs
      exact hs.2.1
    obtain ⟨w1, v, n, h1, ho1, -, -, -, -, -, -, -, hl, -⟩ := work_spec hf ho hs.1 j.timestamp j.id hk
    have hs1 : Sensible P js w1.nframes.length := by
      rw [hl]
      cases e : j.found with
      | none => rw [e] at hs; exact hs.2
      | some k => rw [e] at hs; exact hs.2.2
    obtain ⟨w2, h2, ho2⟩ := made_never_misfits hm js w1 ho1 hs1
    refine ⟨w2, ?_, ho2⟩
    unfold workAll
    rw [h1, Outcome.bind_ok, h2]

/-- Two cameras and three images. -/
example : ∃ P w, make (fun r => if r = 0 then [3, 4] else [5, 6]) 2 [some ⟨some 3, some 5⟩, some ⟨some 4, some 6⟩] (some 0)
      (some 1) 100 = .ok P ∧
    Sensible P [⟨0, 10, 1, none⟩, ⟨1, 11, 2, some 0⟩, ⟨0, 500, 3, none⟩] 0 ∧
    workAll (fun r => if r = 0 then [3, 4] else [5, 6]) P [⟨0, 10, 1, none⟩, ⟨1, 11, 2, some 0⟩, ⟨0, 500, 3, none⟩]
      World.empty = .ok w ∧ w.nframes.map NF.frames = [[some 0, some 1], [some 2, none]] ∧
    w.frames.map VF.cam = [some 5, some 6, some 5] ∧ w.frames.map VF.raw = [some 3, some 4, some 3] :=
  ⟨_, _, rfl, by simp [Sensible], rfl, rfl, rfl, rfl⟩

/-- C137 refuted: the rigs are shared and may change.  If a camera of the second rig is replaced after the pipeline is made
(`NCamera::setCamera`), the next image ends the program. -/
theorem changed_rig_refuted :
    ∃ P, make (fun _ => [3]) 1 [some ⟨some 3, some 3⟩] (some 0) (some 0) 0 = .ok P ∧
      workAll (fun _ => [4]) P [⟨0, 10, 1, none⟩] World.empty = .abort :=
  ⟨_, rfl, rfl⟩

/-- C137: the test pipeline is made for any number of cameras but zero, any number of threads but zero, and any tolerance
that is not negative, and for nothing else; it keeps images of cameras as they are. -/
theorem testPipeline_ok_iff {cams : Nat → List Nat} {r n threads : Nat} {tolerance : Int} (hr : (cams r).length = n) :
    ((∃ P, testPipeline cams r n threads tolerance = .ok P) ↔ 0 < n ∧ 0 < threads ∧ 0 ≤ tolerance) ∧
      ∀ P, testPipeline cams r n threads tolerance = .ok P → P.pipes = (cams r).map (fun c => ⟨some c, some c⟩) := by
  unfold testPipeline
  rw [if_pos hr]
  have e : ((cams r).map fun c => some (⟨some c, some c⟩ : Pipe)) = ((cams r).map fun c => (⟨some c, some c⟩ : Pipe)).map some := by
    simp
  constructor
  · constructor
    · rintro ⟨P, h⟩
      obtain ⟨h0, h1, h2, h3, -⟩ := make_ok_iff.1 h
      have := congrArg List.length h3
      simp only [List.length_map] at this
      exact ⟨by omega, h1, h2⟩
    · rintro ⟨h0, h1, h2⟩
      refine ⟨⟨(cams r).map fun c => ⟨some c, some c⟩, r, r, tolerance, threads⟩, make_ok_iff.2 ⟨?_, h1, h2, e, ?_, rfl, rfl, rfl,
        rfl⟩⟩
      · simp only [List.length_map]; omega
      · constructor <;> simp
  · intro P h
    obtain ⟨-, -, -, h3, -⟩ := make_ok_iff.1 h
    rw [e] at h3
    exact (List.map_injective_iff.2 (fun a b h => by simpa using h) h3).symm

example : ∃ P, testPipeline (fun _ => [3, 4]) 7 2 1 0 = .ok P := ⟨_, rfl⟩

end Verif.NPipeline.Make
