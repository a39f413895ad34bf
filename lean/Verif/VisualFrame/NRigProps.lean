import Verif.VisualFrame.NFrameProps
import Verif.VisualFrame.NQuery

/-!
# Property C63: frames of an n-frame belong to the cameras of its rig
-/

namespace Verif.VisualFrame.Copy

open Verif (Outcome)

/-- Every n-frame with a rig has a place for each camera, and the frames that are set have the camera of their place. -/
def Consistent (cams : Nat → List Nat) (w : World) : Prop :=
  ∀ (k : Nat) n r, w.nframes[k]? = some n → n.rig = some r →
    n.frames.length = (cams r).length ∧
      ∀ (i p : Nat), n.frames[i]? = some (some p) → ∃ c, (cams r)[i]? = some c ∧ w.frames[p]?.map VF.cam = some (some c)

/-- The calls on frames that can change the camera of a frame. -/
def Recasts : FOp → Nat → Prop
  | .setCam f _, p => f = p
  | .assign d _, p => d = p
  | _, _ => False

/-- What is left to the user: not to change the camera of a frame that is in an n-frame with a rig; to set a rig only
if the frames are different ones and not in other n-frames with a rig; no self-assignment. -/
def Careful (w : World) : NOp → Prop
  | .frame op => ∀ p, Recasts op p → ∀ n ∈ w.nframes, some p ∈ n.frames → n.rig = none
  | .setRig k _ => ∀ n, w.nframes[k]? = some n →
      (∀ (i j p : Nat), n.frames[i]? = some (some p) → n.frames[j]? = some (some p) → i = j) ∧
      ∀ (l : Nat) m, l ≠ k → w.nframes[l]? = some m → m.rig ≠ none → ∀ p, some p ∈ n.frames → some p ∉ m.frames
  | .assignN d s => d ≠ s
  | _ => True

theorem specStep_cam {a a' : List SFrame} {op : FOp} {o : Out} (h : specStep a op = some (.ok (a', o))) {p : Nat}
    (hp : p < a.length) (hn : ¬ Recasts op p) : a'[p]?.map SFrame.cam = a[p]?.map SFrame.cam := by
  by_cases ht : op.target = some p
  · cases op with
    | new => simp [FOp.target] at ht
    | copy => simp [FOp.target] at ht
    | assign d s =>
      simp only [FOp.target, Option.some.injEq] at ht
      exact absurd ht hn
    | setCam f c =>
      simp only [FOp.target, Option.some.injEq] at ht
      exact absurd ht hn
    | chan f c =>
      simp only [specStep, Option.map_eq_some_iff] at h
      obtain ⟨v, hv, h⟩ := h
      split at h <;> simp at h
      obtain ⟨rfl, -⟩ := h
      rw [List.getElem?_set]
      split
      · rename_i e
        subst e
        obtain ⟨_, rfl⟩ := List.getElem?_eq_some_iff.1 hv
        simp [hp]
      · rfl
    | _ =>
      simp only [FOp.target, Option.some.injEq] at ht
      subst ht
      simp only [specStep, specModify, Option.map_eq_some_iff] at h
      obtain ⟨v, hv, h⟩ := h
      simp only [Outcome.ok.injEq, Prod.mk.injEq] at h
      obtain ⟨rfl, -⟩ := h
      obtain ⟨_, rfl⟩ := List.getElem?_eq_some_iff.1 hv
      simp [hp]
  · rw [(specStep_other h hp ht).1]

theorem cam_values (w : World) (p : Nat) : w.frames[p]?.map VF.cam = (values w)[p]?.map SFrame.cam := by
  rw [values_getElem?, Option.map_map]
  rfl

theorem fstep_nframes {w w' : World} (hi : Inv w) {op : FOp} {o : Out} (hr : fstep w op = some (.ok (w', o))) :
    w'.nframes = w.nframes := by
  cases op with
  | new => simp only [fstep, Option.some.injEq, Outcome.ok.injEq, Prod.mk.injEq] at hr; rw [← hr.1]
  | copy p =>
    have hp : p < w.frames.length := by
      simp only [fstep] at hr
      split at hr
      · simp at hr
      · next v hv => exact (List.getElem?_eq_some_iff.mp hv).1
    obtain ⟨w2, e, _, _, hn, _⟩ := fstep_copy hi hp
    rw [e] at hr
    simp only [Option.some.injEq, Outcome.ok.injEq, Prod.mk.injEq] at hr
    rw [← hr.1, hn]
  | assign d s =>
    simp only [fstep] at hr
    split at hr
    · next v hv hd =>
      obtain ⟨s', e, _, _⟩ := cloneFrame_spec hi hd
      simp only [e, Outcome.bind, Option.some.injEq, Outcome.ok.injEq, Prod.mk.injEq] at hr
      rw [← hr.1]
    · simp at hr
  | chan f c =>
    simp only [fstep] at hr
    split at hr
    · simp at hr
    · rcases hc : Channels.step w.store (c.toOp _) with _ | (⟨s', o⟩ | _ | _ | _) <;> rw [hc] at hr <;>
        simp [Outcome.bind] at hr
      rw [← hr.1]
  | _ =>
    simp only [fstep, modify] at hr
    split at hr
    · simp at hr
    · simp only [Option.some.injEq, Outcome.ok.injEq, Prod.mk.injEq] at hr
      rw [← hr.1]

theorem specStep_grows {a a' : List SFrame} {op : FOp} {o : Out} (h : specStep a op = some (.ok (a', o))) :
    a.length ≤ a'.length := by
  cases op with
  | new =>
    simp only [specStep, Option.some.injEq, Outcome.ok.injEq, Prod.mk.injEq] at h
    rw [← h.1]; simp
  | copy s =>
    simp only [specStep, Option.map_eq_some_iff] at h
    obtain ⟨v, hv, h⟩ := h
    simp only [Outcome.ok.injEq, Prod.mk.injEq] at h
    rw [← h.1]; simp
  | assign d s =>
    simp only [specStep] at h
    split at h
    · simp only [Option.some.injEq, Outcome.ok.injEq, Prod.mk.injEq] at h
      rw [← h.1]; simp
    · simp at h
  | chan f c =>
    simp only [specStep, Option.map_eq_some_iff] at h
    obtain ⟨v, hv, h⟩ := h
    split at h <;> simp at h
    rw [← h.1]; simp
  | _ =>
    simp only [specStep, specModify, Option.map_eq_some_iff] at h
    obtain ⟨v, hv, h⟩ := h
    simp only [Outcome.ok.injEq, Prod.mk.injEq] at h
    rw [← h.1]; simp

theorem assignCams_cam (cams : List Nat) : ∀ (ps : List (Option Nat)) (i : Nat) (fs : List VF) (j p : Nat),
    (∀ (a b q : Nat), ps[a]? = some (some q) → ps[b]? = some (some q) → a = b) →
    ps[j]? = some (some p) → p < fs.length →
    (assignCams cams i ps fs)[p]?.map VF.cam = some cams[i + j]?
  | [], _, _, _, _, _, h, _ => by simp at h
  | none :: ps, i, fs, j, p, hd, h, hp => by
    cases j with
    | zero => simp at h
    | succ j =>
      have := assignCams_cam cams ps (i + 1) fs j p
        (fun a b q ha hb => by simpa using hd (a + 1) (b + 1) q (by simpa using ha) (by simpa using hb))
        (by simpa using h) hp
      rw [assignCams, this, show i + 1 + j = i + (j + 1) by omega]
  | some q :: ps, i, fs, j, p, hd, h, hp => by
    have hd' : ∀ (a b q : Nat), ps[a]? = some (some q) → ps[b]? = some (some q) → a = b := fun a b q ha hb => by
      simpa using hd (a + 1) (b + 1) q (by simpa using ha) (by simpa using hb)
    rw [assignCams]
    cases j with
    | zero =>
      simp only [List.getElem?_cons_zero, Option.some.injEq] at h
      subst h
      rw [List.getElem?_eq_getElem hp]
      simp only
      have hnot : some q ∉ ps := by
        intro hm
        obtain ⟨b, hb⟩ := List.getElem?_of_mem hm
        have := hd 0 (b + 1) q rfl (by simpa using hb)
        omega
      rw [assignCams_other cams q ps _ _ hnot]
      simp [hp]
    | succ j =>
      have hj : ps[j]? = some (some p) := by simpa using h
      cases hq : fs[q]? with
      | none =>
        simp only
        rw [assignCams_cam cams ps (i + 1) fs j p hd' hj hp, show i + 1 + j = i + (j + 1) by omega]
      | some v =>
        simp only
        rw [assignCams_cam cams ps (i + 1) _ j p hd' hj (by simpa using hp), show i + 1 + j = i + (j + 1) by omega]

/-- Replacing one n-frame by a consistent one. -/
theorem set_consistent {cams : Nat → List Nat} {w : World} (hc : Consistent cams w) {k : Nat} {m : NF}
    (hm : ∀ r, m.rig = some r → m.frames.length = (cams r).length ∧
      ∀ (i p : Nat), m.frames[i]? = some (some p) → ∃ c, (cams r)[i]? = some c ∧ w.frames[p]?.map VF.cam = some (some c)) :
    Consistent cams { w with nframes := w.nframes.set k m } := by
  intro l n r hl hr
  simp only at hl ⊢
  rw [List.getElem?_set] at hl
  split at hl
  · split at hl
    · simp only [Option.some.injEq] at hl
      subst hl
      exact hm r hr
    · simp at hl
  · exact hc l n r hl hr

theorem set_ninv {w : World} (hi : NInv w) {k : Nat} {m : NF} (hm : ∀ p, some p ∈ m.frames → p < w.frames.length) :
    NInv { w with nframes := w.nframes.set k m } := by
  refine ⟨⟨hi.base.store, hi.base.valid, hi.base.own⟩, fun j n p hj hp => ?_⟩
  simp only at hj ⊢
  rw [List.getElem?_set] at hj
  split at hj
  · split at hj
    · simp only [Option.some.injEq] at hj; subst hj; exact hm p hp
    · simp at hj
  · exact hi.ptr j n p hj hp

theorem mem_set_frames {l : List (Option Nat)} {i : Nat} {x : Option Nat} {p : Nat} (h : some p ∈ l.set i x) :
    some p ∈ l ∨ x = some p := by
  rcases List.mem_or_eq_of_mem_set h with h | h
  · exact Or.inl h
  · exact Or.inr h.symm

/-- What copying frames does to consistency. -/
theorem copied_consistent {cams : Nat → List Nat} {w w1 : World} (hi : NInv w) (hc : Consistent cams w) {k : Nat} {n : NF}
    (hk : w.nframes[k]? = some n) {ps' : List (Option Nat)} (c : Copied w n.frames w1 ps') :
    Consistent cams w1 ∧ NInv w1 ∧ (∀ p, some p ∈ ps' → p < w1.frames.length) ∧
      ∀ r, n.rig = some r → ps'.length = (cams r).length ∧
        ∀ (i p : Nat), ps'[i]? = some (some p) → ∃ c, (cams r)[i]? = some c ∧ w1.frames[p]?.map VF.cam = some (some c) := by
  have hold : ∀ p, p < w.frames.length → w1.frames[p]?.map VF.cam = w.frames[p]?.map VF.cam := fun p hp => by
    rw [cam_values, cam_values, c.old p hp]
  refine ⟨fun l m r hl hr => ?_, ⟨c.inv, fun l m p hl hp => ?_⟩, fun p hp => (c.fresh p hp).2, fun r hr => ?_⟩
  · rw [c.nframes] at hl
    obtain ⟨h1, h2⟩ := hc l m r hl hr
    refine ⟨h1, fun i p hip => ?_⟩
    rw [hold p (hi.ptr l m p hl (List.mem_of_getElem? hip))]
    exact h2 i p hip
  · rw [c.nframes] at hl
    have := hi.ptr l m p hl hp
    have := c.grow
    omega
  · obtain ⟨h1, h2⟩ := hc k n r hk hr
    refine ⟨by rw [c.length, h1], fun i p hip => ?_⟩
    have hi' : i < n.frames.length := by
      have := (List.getElem?_eq_some_iff.mp hip).1
      rw [c.length] at this
      exact this
    cases hx : n.frames[i]? with
    | none =>
      rw [List.getElem?_eq_none_iff] at hx
      omega
    | some x =>
      cases x with
      | none =>
        rw [c.unset i hx] at hip
        simp at hip
      | some q =>
        obtain ⟨q', e1, e2⟩ := c.same i q hx
        rw [hip] at e1
        simp only [Option.some.injEq] at e1
        subst e1
        rw [cam_values, e2, ← cam_values]
        exact h2 i q hx

/-- C63 in part (for careful calls): each call keeps the frames of n-frames and the cameras of their rigs together. -/
theorem step_consistent_partial {cams : Nat → List Nat} {w w' : World} (hi : NInv w) (hc : Consistent cams w) {op : NOp}
    (ho : Careful w op) (h : nstep cams w op = some (.ok w')) : NInv w' ∧ Consistent cams w' := by
  cases op with
  | frame op =>
    simp only [nstep, Option.map_eq_some_iff] at h
    obtain ⟨r, hr, h⟩ := h
    rcases r with ⟨w1, o⟩ | _ | _ | _ <;> simp only [Outcome.bind] at h <;> try (simp at h)
    subst h
    obtain ⟨h1, h2⟩ := fstep_values hi.base hr
    have hn := fstep_nframes hi.base hr
    have hg := specStep_grows h1
    rw [values_length, values_length] at hg
    refine ⟨⟨h2, fun l m p hl hp => ?_⟩, fun l m r hl hrig => ?_⟩
    · rw [hn] at hl
      have := hi.ptr l m p hl hp
      omega
    · rw [hn] at hl
      obtain ⟨e1, e2⟩ := hc l m r hl hrig
      refine ⟨e1, fun i p hip => ?_⟩
      have hmem := List.mem_of_getElem? hip
      have hnr : ¬ Recasts op p := fun hrec => by
        have := ho p hrec m (List.mem_of_getElem? hl) hmem
        rw [hrig] at this
        cases this
      rw [cam_values, specStep_cam h1 (by rw [values_length]; exact hi.ptr l m p hl hmem) hnr, ← cam_values]
      exact e2 i p hip
  | newN id rig n =>
    simp only [nstep, Option.some.injEq, Outcome.ok.injEq] at h
    subst h
    refine ⟨⟨⟨hi.base.store, hi.base.valid, hi.base.own⟩, fun l m p hl hp => ?_⟩, fun l m r hl hrig => ?_⟩
    · simp only at hl ⊢
      rw [List.getElem?_append] at hl
      split at hl
      · exact hi.ptr l m p hl hp
      · rw [List.getElem?_singleton] at hl
        split at hl
        · simp only [Option.some.injEq] at hl
          subst hl
          simp [List.mem_replicate] at hp
        · simp at hl
    · simp only at hl ⊢
      rw [List.getElem?_append] at hl
      split at hl
      · exact hc l m r hl hrig
      · rw [List.getElem?_singleton] at hl
        split at hl
        · simp only [Option.some.injEq] at hl
          subst hl
          simp only at hrig
          subst hrig
          refine ⟨by simp [newCount], fun i p hip => ?_⟩
          simp only [List.getElem?_replicate] at hip
          split at hip <;> simp at hip
        · simp at hl
  | copyN src =>
    simp only [nstep] at h
    split at h
    · simp at h
    next n hk =>
      obtain ⟨w1, ps', e, c⟩ := copyFrames_spec n.frames w hi.base (fun p hp => hi.ptr src n p hk hp)
      rw [e] at h
      simp only [Outcome.bind, Option.some.injEq, Outcome.ok.injEq] at h
      subst h
      obtain ⟨c1, c2, c3, c4⟩ := copied_consistent hi hc hk c
      refine ⟨⟨⟨c2.base.store, c2.base.valid, c2.base.own⟩, fun l m p hl hp => ?_⟩, fun l m r hl hrig => ?_⟩
      · simp only at hl ⊢
        rw [List.getElem?_append] at hl
        split at hl
        · exact c2.ptr l m p hl hp
        · rw [List.getElem?_singleton] at hl
          split at hl
          · simp only [Option.some.injEq] at hl
            subst hl
            exact c3 p hp
          · simp at hl
      · simp only at hl ⊢
        rw [List.getElem?_append] at hl
        split at hl
        · exact c1 l m r hl hrig
        · rw [List.getElem?_singleton] at hl
          split at hl
          · simp only [Option.some.injEq] at hl
            subst hl
            exact c4 r hrig
          · simp at hl
  | assignN d s =>
    simp only [nstep] at h
    split at h
    · next nd n hd hk =>
      rw [if_neg ho] at h
      obtain ⟨w1, ps', e, c⟩ := copyFrames_spec n.frames w hi.base (fun p hp => hi.ptr s n p hk hp)
      rw [e] at h
      simp only [Outcome.bind, Option.some.injEq, Outcome.ok.injEq] at h
      subst h
      obtain ⟨c1, c2, c3, c4⟩ := copied_consistent hi hc hk c
      exact ⟨set_ninv c2 c3, set_consistent c1 c4⟩
    · simp at h
  | setIdN k id =>
    simp only [nstep] at h
    split at h
    · simp at h
    next n hk =>
      simp only [Option.some.injEq, Outcome.ok.injEq] at h
      subst h
      exact ⟨set_ninv hi (fun p hp => hi.ptr k n p hk hp), set_consistent hc (fun r hr => hc k n r hk hr)⟩
  | setFrame k i f =>
    simp only [nstep] at h
    split at h
    · next n v hk hf =>
      have hfl : f < w.frames.length := (List.getElem?_eq_some_iff.mp hf).1
      have hptr : ∀ p, some p ∈ n.frames.set i (some f) → p < w.frames.length := fun p hp => by
        rcases mem_set_frames hp with hp | hp
        · exact hi.ptr k n p hk hp
        · simp only [Option.some.injEq] at hp
          omega
      split at h
      · next hlt =>
        split at h
        · next hrig =>
          simp only [Option.some.injEq, Outcome.ok.injEq] at h
          subst h
          refine ⟨set_ninv hi hptr, set_consistent hc (fun r hr => ?_)⟩
          simp only at hr
          rw [hrig] at hr
          cases hr
        · next r0 hrig =>
          split at h
          · next hcam =>
            simp only [Option.some.injEq, Outcome.ok.injEq] at h
            subst h
            refine ⟨set_ninv hi hptr, set_consistent hc (fun r hr => ?_)⟩
            simp only at hr ⊢
            obtain ⟨e1, e2⟩ := hc k n r hk hr
            rw [hrig] at hr
            injection hr with hr
            subst hr
            refine ⟨by simpa using e1, fun j p hjp => ?_⟩
            rw [List.getElem?_set] at hjp
            split at hjp
            · next eij =>
              subst eij
              simp only [hlt, if_true, Option.some.injEq] at hjp
              subst hjp
              obtain ⟨c, hcs⟩ := Option.isSome_iff_exists.1 hcam.2
              exact ⟨c, by rw [hcam.1, hcs], by rw [hf, Option.map_some, hcs]⟩
            · exact e2 j p hjp
          · simp at h
      · simp at h
    · simp at h
  | unSetFrame k i =>
    simp only [nstep] at h
    split at h
    · simp at h
    next n hk =>
      split at h
      · simp only [Option.some.injEq, Outcome.ok.injEq] at h
        subst h
        refine ⟨set_ninv hi (fun p hp => ?_), set_consistent hc (fun r hr => ?_)⟩
        · rcases mem_set_frames hp with hp | hp
          · exact hi.ptr k n p hk hp
          · cases hp
        · obtain ⟨e1, e2⟩ := hc k n r hk hr
          refine ⟨by simpa using e1, fun j p hjp => ?_⟩
          simp only [List.getElem?_set] at hjp
          split at hjp
          · simp_all
          · exact e2 j p hjp
      · simp at h
  | setRig k r =>
    simp only [nstep] at h
    split at h
    · simp at h
    next n hk =>
      split at h
      · next hlen =>
        simp only [Option.some.injEq, Outcome.ok.injEq] at h
        subst h
        obtain ⟨d1, d2⟩ := ho n hk
        refine ⟨⟨assignCams_inv hi.base _ _ _ _, fun l m p hl hp => ?_⟩, fun l m r' hl hrig => ?_⟩
        · simp only [assignCams_length] at hl ⊢
          rw [List.getElem?_set] at hl
          split at hl
          · split at hl
            · simp only [Option.some.injEq] at hl
              subst hl
              exact hi.ptr k n p hk hp
            · simp at hl
          · exact hi.ptr l m p hl hp
        · simp only at hl ⊢
          rw [List.getElem?_set] at hl
          split at hl
          · split at hl
            · simp only [Option.some.injEq] at hl
              subst hl
              simp only [Option.some.injEq] at hrig
              subst hrig
              refine ⟨hlen, fun i p hip => ?_⟩
              simp only at hip
              have hil : i < (cams r).length := by
                rw [← hlen]
                exact (List.getElem?_eq_some_iff.mp hip).1
              refine ⟨(cams r)[i], List.getElem?_eq_getElem hil, ?_⟩
              rw [assignCams_cam (cams r) n.frames 0 w.frames i p d1 hip
                (hi.ptr k n p hk (List.mem_of_getElem? hip)), Nat.zero_add, List.getElem?_eq_getElem hil]
            · simp at hl
          · next hne =>
            obtain ⟨e1, e2⟩ := hc l m r' hl hrig
            refine ⟨e1, fun i p hip => ?_⟩
            have hnot : some p ∉ n.frames := fun hm =>
              d2 l m (fun e => hne e.symm) hl (by rw [hrig]; simp) p hm (List.mem_of_getElem? hip)
            rw [assignCams_other (cams r) p n.frames 0 w.frames hnot]
            exact e2 i p hip
      · simp at h

/-- A history of careful calls that succeed. -/
inductive CarefulRun (cams : Nat → List Nat) : World → List NOp → World → Prop where
  | nil (w : World) : CarefulRun cams w [] w
  | cons {w w1 w2 : World} {op : NOp} {ops : List NOp} (ho : Careful w op)
      (h : nstep cams w op = some (.ok w1)) (t : CarefulRun cams w1 ops w2) : CarefulRun cams w (op :: ops) w2

/-- C63 in part: after any number of careful calls from the start, every n-frame with a rig has one place for each camera,
and its frames have the cameras of their places. -/
theorem run_consistent_partial {cams : Nat → List Nat} {ops : List NOp} {w : World}
    (h : CarefulRun cams World.empty ops w) : NInv w ∧ Consistent cams w := by
  have gen : ∀ {w0 w : World} {ops}, CarefulRun cams w0 ops w → NInv w0 → Consistent cams w0 → NInv w ∧ Consistent cams w := by
    intro w0 w ops h
    induction h with
    | nil w => exact fun h1 h2 => ⟨h1, h2⟩
    | cons ho hs _ ih =>
      intro h1 h2
      obtain ⟨h3, h4⟩ := step_consistent_partial h1 h2 ho hs
      exact ih h3 h4
  exact gen h ⟨inv_empty, fun k n p hk => by simp [World.empty] at hk⟩ (fun k n r hk => by simp [World.empty] at hk)

example : ∃ w, CarefulRun (fun _ => [5, 6]) World.empty
    [.newN 1 none 2, .frame .new, .setFrame 0 1 0, .setRig 0 3, .copyN 0] w ∧ w.frames.map VF.cam = [some 6, some 6] := by
  refine ⟨_, .cons trivial rfl (.cons ?_ rfl (.cons trivial rfl (.cons ?_ rfl (.cons trivial rfl (.nil _))))), rfl⟩
  · intro p hp
    exact hp.elim
  · intro n hn
    have e : n = ⟨1, none, [none, some 0]⟩ := by
      have : some (⟨1, none, [none, some 0]⟩ : NF) = some n := hn
      injection this with this
      exact this.symm
    subst e
    refine ⟨fun i j p h1 h2 => ?_, fun l m hl hm => ?_⟩
    · have hi : i < 2 := (List.getElem?_eq_some_iff.mp h1).1
      have hj : j < 2 := (List.getElem?_eq_some_iff.mp h2).1
      match i, j with
      | 0, _ => simp at h1
      | 1, 0 => simp at h2
      | 1, 1 => rfl
      | i + 2, _ => omega
      | 1, j + 2 => omega
    · match l with
      | 0 => exact absurd rfl hl
      | l + 1 =>
        have : (none : Option NF) = some m := hm
        cases this

/-- A frame that got its camera through an n-frame can be given another one: then the n-frame is inconsistent. -/
theorem camera_changed_refuted : ∃ w, nrun (fun _ => [5]) [.newN 1 none 1, .frame .new, .setFrame 0 0 0, .setRig 0 3,
    .frame (.setCam 0 (some 9))] World.empty = some (.ok w) ∧ ¬ Consistent (fun _ => [5]) w := by
  refine ⟨_, rfl, fun h => ?_⟩
  obtain ⟨-, h2⟩ := h 0 _ 3 rfl rfl
  obtain ⟨c, h3, h4⟩ := h2 0 0 rfl
  have h5 : some 5 = some c := h3
  injection h5 with h5
  subst h5
  have h6 : some (some 9) = some (some 5) := h4
  cases h6

/-- A frame that is in two n-frames: setting the rig of one of them breaks the other. -/
theorem shared_frame_refuted : ∃ w, nrun (fun r => if r = 3 then [5] else [6]) [.newN 1 none 1, .newN 2 none 1, .frame .new,
    .setFrame 0 0 0, .setFrame 1 0 0, .setRig 0 3, .setRig 1 4] World.empty = some (.ok w) ∧
      ¬ Consistent (fun r => if r = 3 then [5] else [6]) w := by
  refine ⟨_, rfl, fun h => ?_⟩
  obtain ⟨-, h2⟩ := h 0 _ 3 rfl rfl
  obtain ⟨c, h3, h4⟩ := h2 0 0 rfl
  have h5 : some 5 = some c := h3
  injection h5 with h5
  subst h5
  have h6 : some (some 6) = some (some 5) := h4
  cases h6

/-- A frame that is twice in an n-frame is accepted by `setNCameras` and has the camera of its last place. -/
theorem frame_twice_refuted : ∃ w, nrun (fun _ => [5, 6]) [.newN 1 none 2, .frame .new, .setFrame 0 0 0, .setFrame 0 1 0,
    .setRig 0 3] World.empty = some (.ok w) ∧ ¬ Consistent (fun _ => [5, 6]) w := by
  refine ⟨_, rfl, fun h => ?_⟩
  obtain ⟨-, h2⟩ := h 0 _ 3 rfl rfl
  obtain ⟨c, h3, h4⟩ := h2 0 0 rfl
  have h5 : some 5 = some c := h3
  injection h5 with h5
  subst h5
  have h6 : some (some 6) = some (some 5) := h4
  cases h6

/-- Self-assignment leaves a rig without places for frames. -/
theorem self_assign_rig_refuted : ∃ w, nrun (fun _ => [5]) [.newN 1 (some 3) 0, .assignN 0 0] World.empty = some (.ok w) ∧
    ¬ Consistent (fun _ => [5]) w := by
  refine ⟨_, rfl, fun h => ?_⟩
  obtain ⟨h1, -⟩ := h 0 _ 3 rfl rfl
  simp [World.empty] at h1

/-- C63: `setNCameras` refuses rigs with another number of cameras than there are frames, `setFrame` refuses frames with
another camera than that of the place and indices that do not exist. -/
theorem refused (cams : Nat → List Nat) {w : World} {k : Nat} {n : NF} (hk : w.nframes[k]? = some n) :
    (∀ r, n.frames.length ≠ (cams r).length → nstep cams w (.setRig k r) = some .abort) ∧
    (∀ i f v, w.frames[f]? = some v → n.frames.length ≤ i → nstep cams w (.setFrame k i f) = some .abort) ∧
    (∀ i f v r, w.frames[f]? = some v → n.rig = some r → (cams r)[i]? ≠ v.cam → nstep cams w (.setFrame k i f) = some .abort) ∧
    (∀ i, n.frames.length ≤ i → nstep cams w (.unSetFrame k i) = some .abort) := by
  refine ⟨fun r h => ?_, fun i f v hf h => ?_, fun i f v r hf hr h => ?_, fun i h => ?_⟩
  · simp only [nstep, hk, if_neg h]
  · simp only [nstep, hk, hf, if_neg (by omega : ¬ i < n.frames.length)]
  · simp only [nstep, hk, hf, hr]
    split
    · rw [if_neg (fun e => h e.1)]
    · rfl
  · simp only [nstep, hk, if_neg (by omega : ¬ i < n.frames.length)]

example : nstep (fun _ => [5, 6]) ⟨Channels.Store.empty, [], [⟨1, none, [none]⟩]⟩ (.setRig 0 3) = some .abort :=
  (refused (fun _ => [5, 6]) rfl).1 3 (by simp)

/-! ## All frames -/

/-- C63: `areAllFramesSet` is true exactly if no frame is missing. -/
theorem areAllFramesSet_iff : ∀ (ps : List (Option Nat)), areAllFramesSet ps = true ↔ none ∉ ps
  | [] => by simp [areAllFramesSet]
  | none :: ps => by simp [areAllFramesSet]
  | some p :: ps => by simp [areAllFramesSet, areAllFramesSet_iff ps]

/-- C63: after `setFrame` the frame is set, after `unSetFrame` it is not; the others stay. -/
theorem isFrameSet_spec (cams : Nat → List Nat) {w w' : World} {k i : Nat} :
    (∀ f, nstep cams w (.setFrame k i f) = some (.ok w') → ∃ n n', w.nframes[k]? = some n ∧ w'.nframes[k]? = some n' ∧
      n'.frames[i]? = some (some f) ∧ ∀ j, j ≠ i → isFrameSet n' j = isFrameSet n j) ∧
    (nstep cams w (.unSetFrame k i) = some (.ok w') → ∃ n n', w.nframes[k]? = some n ∧ w'.nframes[k]? = some n' ∧
      isFrameSet n' i = .ok false ∧ ∀ j, j ≠ i → isFrameSet n' j = isFrameSet n j) := by
  have other : ∀ (n : NF) (x : Option Nat) (j : Nat), j ≠ i →
      isFrameSet { n with frames := n.frames.set i x } j = isFrameSet n j := fun n x j hj => by
    unfold isFrameSet
    simp only
    rw [getElem?_set_ne' (fun e => hj e.symm)]
  constructor
  · intro f h
    simp only [nstep] at h
    split at h
    · next n v hk hf =>
      have hkl : k < w.nframes.length := (List.getElem?_eq_some_iff.mp hk).1
      split at h
      · next hlt =>
        have res : ∀ x : World, x = { w with nframes := w.nframes.set k { n with frames := n.frames.set i (some f) } } →
            ∃ m n', w.nframes[k]? = some m ∧ x.nframes[k]? = some n' ∧
              n'.frames[i]? = some (some f) ∧ ∀ j, j ≠ i → isFrameSet n' j = isFrameSet m j := by
          rintro x rfl
          exact ⟨n, { n with frames := n.frames.set i (some f) }, hk, by simp [hkl], by simp [hlt], fun j hj => other n _ j hj⟩
        split at h
        · simp only [Option.some.injEq, Outcome.ok.injEq] at h
          exact res _ h.symm
        · split at h
          · simp only [Option.some.injEq, Outcome.ok.injEq] at h
            exact res _ h.symm
          · simp at h
      · simp at h
    · simp at h
  · intro h
    simp only [nstep] at h
    split at h
    · simp at h
    · next n hk =>
      have hkl : k < w.nframes.length := (List.getElem?_eq_some_iff.mp hk).1
      split at h
      · next hlt =>
        simp only [Option.some.injEq, Outcome.ok.injEq] at h
        subst h
        exact ⟨n, { n with frames := n.frames.set i none }, hk, by simp [hkl], by simp [isFrameSet, hlt], fun j hj => other n _ j hj⟩
      · simp at h

/-- C63: asking whether a frame is set aborts exactly for indices that the n-frame does not have. -/
theorem isFrameSet_checked (n : NF) (i : Nat) :
    (isFrameSet n i = .abort ↔ n.frames.length ≤ i) ∧
      ∀ b, isFrameSet n i = .ok b ↔ i < n.frames.length ∧ (b = true ↔ ∃ f, n.frames[i]? = some (some f)) := by
  unfold isFrameSet
  by_cases h : i < n.frames.length
  · rw [List.getElem?_eq_getElem h]
    refine ⟨by simp; omega, fun b => ?_⟩
    rcases n.frames[i] with _ | f <;> simp [h]
  · rw [List.getElem?_eq_none (by omega)]
    exact ⟨by simp; omega, fun b => by simp [h]⟩

example : isFrameSet { id := 0, rig := none, frames := [none, some 3] } 2 = .abort :=
  ((isFrameSet_checked _ _).1).2 (by simp)

/-- Whether a frame has a raw image. -/
def hasRaw (w : World) (p : Nat) : Prop := ∃ v, (values w)[p]? = some v ∧ (v.chans "RAW_IMAGE").isSome

theorem fstep_has {w : World} (hi : Inv w) {p : Nat} (hp : p < w.frames.length) :
    ∃ b w', fstep w (.chan p (.has rawImage)) = some (.ok (w', .chan (.bool b))) ∧ (b = true ↔ hasRaw w p) := by
  have hr := fstep_refines hi (.chan p (.has rawImage))
  have hp' : p < (values w).length := by rw [values_length]; exact hp
  have hv : (values w)[p]? = some (values w)[p] := List.getElem?_eq_getElem hp'
  rw [show specStep (values w) (.chan p (.has rawImage)) = some (.ok ((values w).set p { (values w)[p] with
    chans := ((values w)[p]).chans }, .chan (.bool (((values w)[p]).chans rawImage).isSome))) by
    simp [specStep, hv, chanSpec]] at hr
  rcases h : fstep w (.chan p (.has rawImage)) with _ | (⟨w1, o⟩ | _ | _ | _) <;> rw [h] at hr <;>
    first | exact hr.elim | skip
  obtain ⟨h1, -, -⟩ := hr
  refine ⟨_, w1, by rw [h1], ?_⟩
  constructor
  · exact fun e => ⟨_, hv, e⟩
  · rintro ⟨v, e1, e2⟩
    rw [hv] at e1
    injection e1 with e1
    rw [e1]
    exact e2

/-- C63: if all frames are set, `hasRawImagesInAllFrames` tells whether all of them have a raw image. -/
theorem hasRawImages_spec {w : World} (hi : Inv w) : ∀ {ps : List (Option Nat)}, none ∉ ps →
    (∀ p, some p ∈ ps → p < w.frames.length) →
    ∃ b, hasRawImages w ps = .ok b ∧ (b = true ↔ ∀ p, some p ∈ ps → hasRaw w p)
  | [], _, _ => ⟨true, rfl, by simp⟩
  | none :: ps, h, _ => by simp at h
  | some p :: ps, h, hp => by
    obtain ⟨b, w', e1, e2⟩ := fstep_has hi (hp p (by simp))
    simp only [hasRawImages, e1]
    cases b with
    | true =>
      obtain ⟨b, e3, e4⟩ := hasRawImages_spec hi (ps := ps) (fun hh => h (List.mem_cons_of_mem _ hh))
        (fun q hq => hp q (List.mem_cons_of_mem _ hq))
      refine ⟨b, by simpa using e3, e4.trans ⟨fun hall q hq => ?_, fun hall q hq => hall q (List.mem_cons_of_mem _ hq)⟩⟩
      rcases List.mem_cons.1 hq with hq | hq
      · injection hq with hq
        rw [hq]
        exact e2.1 rfl
      · exact hall q hq
    | false =>
      refine ⟨false, by simp, ⟨(fun e => nomatch e), fun hall => ?_⟩⟩
      have := e2.2 (hall p (by simp))
      cases this

/-- With a missing frame before the first frame without raw image the program ends instead of answering. -/
theorem hasRawImages_unset_refuted (w : World) (ps : List (Option Nat)) : hasRawImages w (none :: ps) = .abort := rfl

theorem fstep_remove {w : World} (hi : Inv w) {p : Nat} (hp : p < w.frames.length) :
    (hasRaw w p → ∃ w', fstep w (.chan p (.remove rawImage)) = some (.ok (w', .chan .unit)) ∧ Inv w' ∧
      w'.frames.length = w.frames.length ∧ ¬ hasRaw w' p ∧
      (∀ q, q ≠ p → (values w')[q]? = (values w)[q]?) ∧
      ∀ v v', (values w)[p]? = some v → (values w')[p]? = some v' → ∀ c, c ≠ rawImage → v'.chans c = v.chans c) ∧
    (¬ hasRaw w p → fstep w (.chan p (.remove rawImage)) = some .abort) := by
  have hr := fstep_refines hi (.chan p (.remove rawImage))
  have hp' : p < (values w).length := by rw [values_length]; exact hp
  have hv : (values w)[p]? = some (values w)[p] := List.getElem?_eq_getElem hp'
  by_cases hs : (((values w)[p]).chans rawImage).isSome = true
  · refine ⟨fun _ => ?_, fun hn => absurd ⟨_, hv, hs⟩ hn⟩
    rw [show specStep (values w) (.chan p (.remove rawImage)) = some (.ok ((values w).set p { (values w)[p] with
      chans := ((values w)[p]).chans.update rawImage none }, .chan .unit)) by
      simp [specStep, hv, chanSpec, hs]] at hr
    rcases h : fstep w (.chan p (.remove rawImage)) with _ | (⟨w1, o⟩ | _ | _ | _) <;> rw [h] at hr <;>
      first | exact hr.elim | skip
    obtain ⟨h1, h2, h3⟩ := hr
    have hval : (values w1)[p]? = some { (values w)[p] with chans := ((values w)[p]).chans.update rawImage none } := by
      rw [h2]
      simp [hp']
    refine ⟨w1, by rw [h1], h3, ?_, ?_, ?_, ?_⟩
    · have := congrArg List.length h2
      simpa [values_length] using this
    · rintro ⟨v, e1, e2⟩
      rw [hval] at e1
      injection e1 with e1
      rw [← e1] at e2
      simp [Channels.SGroup.update, rawImage] at e2
    · intro q hq
      rw [h2, getElem?_set_ne' (fun e => hq e.symm)]
    · intro v v' e1 e2 c hc
      rw [hv] at e1
      rw [hval] at e2
      injection e1 with e1
      injection e2 with e2
      rw [← e1, ← e2]
      simp [Channels.SGroup.update, hc]
  · refine ⟨fun hn => ?_, fun _ => ?_⟩
    · obtain ⟨v, e1, e2⟩ := hn
      rw [hv] at e1
      injection e1 with e1
      rw [e1] at hs
      exact absurd e2 hs
    · rw [show specStep (values w) (.chan p (.remove rawImage)) = some .abort by
        simp [specStep, hv, chanSpec, hs]] at hr
      rcases h : fstep w (.chan p (.remove rawImage)) with _ | (⟨w1, o⟩ | _ | _ | _) <;> rw [h] at hr <;>
        first | exact hr.elim | rfl

/-- C63 in part: if all frames are set, different, and have raw images, `releaseRawImagesOfAllFrames` removes exactly the raw
images of these frames. -/
theorem releaseRawImages_partial : ∀ {ps : List (Option Nat)} {w : World}, Inv w → none ∉ ps → ps.Nodup →
    (∀ p, some p ∈ ps → p < w.frames.length ∧ hasRaw w p) →
    ∃ w', releaseRawImages ps w = .ok w' ∧ Inv w' ∧ (∀ p, some p ∈ ps → ¬ hasRaw w' p) ∧
      (∀ q : Nat, some q ∉ ps → (values w')[q]? = (values w)[q]?) ∧
      ∀ (q : Nat) v v', (values w)[q]? = some v → (values w')[q]? = some v' → ∀ c, c ≠ rawImage → v'.chans c = v.chans c
  | [], w, hi, _, _, _ => ⟨w, rfl, hi, by simp, fun _ _ => rfl, fun q v v' e1 e2 c _ => by
      rw [e1] at e2
      injection e2 with e2
      rw [e2]⟩
  | none :: ps, _, _, h, _, _ => by simp at h
  | some p :: ps, w, hi, h, hnd, hp => by
    obtain ⟨hp1, hp2⟩ := hp p (by simp)
    obtain ⟨w1, e1, i1, l1, n1, o1, c1⟩ := (fstep_remove hi hp1).1 hp2
    have hnot : some p ∉ ps := (List.nodup_cons.1 hnd).1
    obtain ⟨w2, e2, i2, n2, o2, c2⟩ := releaseRawImages_partial (ps := ps) i1 (fun hh => h (List.mem_cons_of_mem _ hh))
      (List.nodup_cons.1 hnd).2 (fun q hq => by
        obtain ⟨a, b⟩ := hp q (List.mem_cons_of_mem _ hq)
        have hqp : q ≠ p := fun e => hnot (e ▸ hq)
        refine ⟨by omega, ?_⟩
        obtain ⟨v, b1, b2⟩ := b
        exact ⟨v, by rw [o1 q hqp]; exact b1, b2⟩)
    refine ⟨w2, by simp only [releaseRawImages, e1]; exact e2, i2, ?_, ?_, ?_⟩
    · intro q hq
      rcases List.mem_cons.1 hq with hq | hq
      · injection hq with hq
        subst hq
        rintro ⟨v, b1, b2⟩
        rw [o2 q hnot] at b1
        exact n1 ⟨v, b1, b2⟩
      · exact n2 q hq
    · intro q hq
      rw [o2 q (fun hh => hq (List.mem_cons_of_mem _ hh)), o1 q (fun e => hq (by simp [e]))]
    · intro q v v' b1 b2 c hc
      by_cases hqp : q = p
      · subst hqp
        have : (values w1)[q]? = some v' := by rw [← o2 q hnot]; exact b2
        exact c1 v v' b1 this c hc
      · exact c2 q v v' (by rw [o1 q hqp]; exact b1) b2 c hc

/-- A frame without raw image ends the program, after raw images of earlier frames have been released. -/
theorem releaseRawImages_refuted {w : World} (hi : Inv w) {p : Nat} (hp : p < w.frames.length) (hn : ¬ hasRaw w p)
    (ps : List (Option Nat)) : releaseRawImages (some p :: ps) w = .abort ∧ releaseRawImages (none :: ps) w = .abort := by
  refine ⟨?_, rfl⟩
  simp only [releaseRawImages, (fstep_remove hi hp).2 hn]

example : ∃ w, nrun (fun _ => [5]) [.frame .new] World.empty = some (.ok w) ∧ releaseRawImages [some 0] w = .abort :=
  ⟨_, rfl, rfl⟩

example : ∃ w w', nrun (fun _ => [5]) [.frame .new, .frame (.chan 0 (.add rawImage 3))] World.empty = some (.ok w) ∧
    hasRawImages w [some 0] = .ok true ∧ releaseRawImages [some 0] w = .ok w' ∧ hasRawImages w' [some 0] = .ok false :=
  ⟨_, _, rfl, rfl, rfl, rfl⟩

end Verif.VisualFrame.Copy
