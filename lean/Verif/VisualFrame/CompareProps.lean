import Verif.VisualFrame.Compare
import Verif.VisualFrame.NFrameProps
import Verif.VisualFrame.Props

/-!
# Comparison without cameras (C35), and types of descriptors set by hand (C33)
-/

namespace Verif.VisualFrame.Copy

open Verif (Outcome)

/-- **C35.** Frames compare equal exactly if they do so without their cameras, and their cameras are equal, or neither
has one. -/
theorem frameEq_split {camEq : Nat → Nat → Bool} {w : World} {f g : Nat} {v u : VF} (hf : w.frames[f]? = some v)
    (hg : w.frames[g]? = some u) :
    frameEq camEq w f g = .ok true ↔ frameEqNoCam w f g = .ok true ∧
      ((v.cam = none ∧ u.cam = none) ∨ ∃ c d, v.cam = some c ∧ u.cam = some d ∧ camEq c d = true) := by
  have hc : camSame camEq v.cam u.cam = true ↔
      ((v.cam = none ∧ u.cam = none) ∨ ∃ c d, v.cam = some c ∧ u.cam = some d ∧ camEq c d = true) := by
    cases v.cam <;> cases u.cam <;> simp [camSame]
  rw [← hc]
  unfold frameEq frameEqNoCam
  rw [hf, hg]
  simp only
  cases ea : w.store.groups[v.group]? with
  | none => simp
  | some a =>
    cases eb : w.store.groups[u.group]? with
    | none => simp
    | some b =>
      simp only
      constructor
      · intro h
        obtain ⟨same, hs, h⟩ := Outcome.bind_eq_ok.1 h
        simp only [Outcome.ok.injEq, Bool.and_eq_true] at h
        refine ⟨Outcome.bind_eq_ok.2 ⟨same, hs, ?_⟩, h.1.2⟩
        simp only [Outcome.ok.injEq, Bool.and_eq_true]
        exact ⟨h.1.1, h.2⟩
      · rintro ⟨h, h'⟩
        obtain ⟨same, hs, h⟩ := Outcome.bind_eq_ok.1 h
        simp only [Outcome.ok.injEq, Bool.and_eq_true] at h
        refine Outcome.bind_eq_ok.2 ⟨same, hs, ?_⟩
        simp only [Outcome.ok.injEq, Bool.and_eq_true]
        exact ⟨⟨h.1, h'⟩, h.2⟩

/-- **C35.** Without cameras, frames are equal exactly if time, validity and channels are. -/
theorem frameEqNoCam_iff {w : World} {f g : Nat} {v u : VF} (hf : w.frames[f]? = some v) (hg : w.frames[g]? = some u)
    {a b : List (String × Nat)} (ha : w.store.groups[v.group]? = some a) (hb : w.store.groups[u.group]? = some b) :
    frameEqNoCam w f g = .ok true ↔ v.ts = u.ts ∧ v.valid = u.valid ∧
      Channels.isChannelGroupEqual w.store (decide (v.group = u.group)) a b = .ok true := by
  unfold frameEqNoCam
  rw [hf, hg]
  simp only
  rw [ha, hb]
  simp only
  constructor
  · intro h
    obtain ⟨same, hs, h⟩ := Outcome.bind_eq_ok.1 h
    simp only [Outcome.ok.injEq, Bool.and_eq_true, decide_eq_true_eq] at h
    rw [hs, h.1.2]
    exact ⟨h.1.1, h.2, rfl⟩
  · rintro ⟨h1, h2, h3⟩
    refine Outcome.bind_eq_ok.2 ⟨true, h3, ?_⟩
    simp [h1, h2]

theorem framesEqNoCam_true {w : World} : ∀ {ps qs : List (Option Nat)}, framesEqNoCam w ps qs = .ok true ↔
    List.Forall₂ (fun p q => ∃ f g, p = some f ∧ q = some g ∧ frameEqNoCam w f g = .ok true) ps qs := by
  intro ps
  induction ps with
  | nil =>
    intro qs
    cases qs with
    | nil => simp [framesEqNoCam]
    | cons q qs => cases q <;> simp [framesEqNoCam]
  | cons p ps ih =>
    intro qs
    cases qs with
    | nil => cases p <;> simp [framesEqNoCam]
    | cons q qs =>
      rw [List.forall₂_cons]
      cases p with
      | none => simp [framesEqNoCam]
      | some a =>
        cases q with
        | none => simp [framesEqNoCam]
        | some b =>
          rw [framesEqNoCam, ← ih]
          constructor
          · intro h
            obtain ⟨x, hx, h⟩ := Outcome.bind_eq_ok.1 h
            obtain ⟨y, hy, h⟩ := Outcome.bind_eq_ok.1 h
            simp only [Outcome.ok.injEq, Bool.and_eq_true] at h
            rw [h.1] at hx
            rw [h.2] at hy
            exact ⟨⟨a, b, rfl, rfl, hx⟩, hy⟩
          · rintro ⟨⟨x, y, hx, hy, h⟩, h'⟩
            injection hx with hx
            injection hy with hy
            subst hx
            subst hy
            exact Outcome.bind_eq_ok.2 ⟨true, h, Outcome.bind_eq_ok.2 ⟨true, h', rfl⟩⟩

/-- **C35.** N-frames are equal without their rigs exactly if they have the same identifier and frames in the same order,
all of them set, that are equal without their cameras. -/
theorem nframeEqNoRig_iff {w : World} {k l : Nat} {a b : NF} (hk : w.nframes[k]? = some a) (hl : w.nframes[l]? = some b) :
    nframeEqNoRig w k l = .ok true ↔ a.id = b.id ∧
      List.Forall₂ (fun p q => ∃ f g, p = some f ∧ q = some g ∧ frameEqNoCam w f g = .ok true) a.frames b.frames := by
  unfold nframeEqNoRig
  rw [hk, hl]
  simp only
  by_cases h : a.id = b.id ∧ a.frames.length = b.frames.length
  · rw [if_pos h, framesEqNoCam_true]
    exact ⟨fun hh => ⟨h.1, hh⟩, fun hh => hh.2⟩
  · rw [if_neg h]
    constructor
    · intro hh; cases hh
    · intro hh
      exact absurd ⟨hh.1, hh.2.length_eq⟩ h

/-- **C35.** Equal n-frames are equal without their rigs. -/
theorem nframeEq_noRig {camEq rigEq : Nat → Nat → Bool} {w : World} {k l : Nat} (h : nframeEq camEq rigEq w k l = .ok true) :
    nframeEqNoRig w k l = .ok true := by
  cases hk : w.nframes[k]? with
  | none => simp [nframeEq, hk] at h
  | some a =>
    cases hl : w.nframes[l]? with
    | none => simp [nframeEq, hk, hl] at h
    | some b =>
      obtain ⟨h1, -, h2⟩ := (nframeEq_iff hk hl).1 h
      refine (nframeEqNoRig_iff hk hl).2 ⟨h1, h2.imp ?_⟩
      rintro p q ⟨f, g, hp, hq, e⟩
      refine ⟨f, g, hp, hq, ?_⟩
      cases hf : w.frames[f]? with
      | none => simp [frameEq, hf] at e
      | some v =>
        cases hg : w.frames[g]? with
        | none => simp [frameEq, hf, hg] at e
        | some u => exact ((frameEq_split hf hg).1 e).1

/-- The frames are the same but for their cameras. -/
def OnlyCams (w w' : World) : Prop :=
  w'.store = w.store ∧ ∀ f : Nat, (w'.frames[f]?).map (fun v => (v.ts, v.group, v.valid)) =
    (w.frames[f]?).map (fun v => (v.ts, v.group, v.valid))

theorem OnlyCams.eq {w w' : World} (h : OnlyCams w w') (f g : Nat) : frameEqNoCam w' f g = frameEqNoCam w f g := by
  have hf := h.2 f
  have hg := h.2 g
  unfold frameEqNoCam
  rw [h.1]
  cases e1 : w.frames[f]? with
  | none =>
    rw [e1, Option.map_none, Option.map_eq_none_iff] at hf
    rw [hf]
  | some v =>
    rw [e1, Option.map_some, Option.map_eq_some_iff] at hf
    obtain ⟨v', e1', hv⟩ := hf
    cases e2 : w.frames[g]? with
    | none =>
      rw [e2, Option.map_none, Option.map_eq_none_iff] at hg
      rw [hg, e1']
    | some u =>
      rw [e2, Option.map_some, Option.map_eq_some_iff] at hg
      obtain ⟨u', e2', hu⟩ := hg
      rw [e1', e2']
      simp only [Prod.mk.injEq] at hv hu
      simp only [hv.1, hv.2.1, hv.2.2, hu.1, hu.2.1, hu.2.2]

/-- **C35.** Giving a frame another camera does not change what frames are equal without their cameras. -/
theorem setCam_unseen {w w' : World} {o : Out} {h : Nat} {c : Option Nat}
    (e : fstep w (.setCam h c) = some (.ok (w', o))) (f g : Nat) : frameEqNoCam w' f g = frameEqNoCam w f g := by
  refine OnlyCams.eq ?_ f g
  simp only [fstep, modify] at e
  cases hv : w.frames[h]? with
  | none => rw [hv] at e; simp at e
  | some v =>
    rw [hv] at e
    simp only [Option.some.injEq, Outcome.ok.injEq, Prod.mk.injEq] at e
    obtain ⟨rfl, -⟩ := e
    refine ⟨rfl, fun i => ?_⟩
    simp only
    rw [List.getElem?_set]
    split
    · rename_i hi
      subst hi
      rw [hv]
      split <;> simp_all
    · rfl

theorem assignCams_same (cams : List Nat) : ∀ (i : Nat) (ps : List (Option Nat)) (fs : List VF) (f : Nat),
    ((assignCams cams i ps fs)[f]?).map (fun v => (v.ts, v.group, v.valid)) =
      (fs[f]?).map (fun v => (v.ts, v.group, v.valid))
  | _, [], fs, f => rfl
  | i, none :: ps, fs, f => by
    rw [assignCams]
    exact assignCams_same cams (i + 1) ps fs f
  | i, some p :: ps, fs, f => by
    rw [assignCams]
    split
    · rename_i v hv
      rw [assignCams_same cams (i + 1) ps, List.getElem?_set]
      split
      · rename_i hi
        subst hi
        rw [hv]
        split <;> simp_all
      · rfl
    · exact assignCams_same cams (i + 1) ps fs f

/-- **C35.** Giving an n-frame another rig, which gives its frames the cameras of the rig, does not change what n-frames
are equal without their rigs. -/
theorem setRig_unseen {cams : Nat → List Nat} {w w' : World} {n r : Nat} (e : nstep cams w (.setRig n r) = some (.ok w'))
    (k l : Nat) : nframeEqNoRig w' k l = nframeEqNoRig w k l := by
  simp only [nstep] at e
  cases hn : w.nframes[n]? with
  | none => rw [hn] at e; simp at e
  | some x =>
    rw [hn] at e
    simp only at e
    split at e
    · simp only [Option.some.injEq, Outcome.ok.injEq] at e
      have ho : OnlyCams w w' := by
        subst e
        exact ⟨rfl, fun f => assignCams_same _ _ _ _ f⟩
      have hfr : ∀ ps qs, framesEqNoCam w' ps qs = framesEqNoCam w ps qs := by
        intro ps
        induction ps with
        | nil => intro qs; cases qs <;> rfl
        | cons p ps ih =>
          intro qs
          cases qs with
          | nil => cases p <;> rfl
          | cons q qs =>
            cases p with
            | none => rfl
            | some p =>
              cases q with
              | none => rfl
              | some q => rw [framesEqNoCam, framesEqNoCam, ho.eq, ih]
      have hnf : ∀ j : Nat, (w'.nframes[j]?).map (fun z => (z.id, z.frames)) =
          (w.nframes[j]?).map (fun z => (z.id, z.frames)) := by
        intro j
        subst e
        simp only
        rw [List.getElem?_set]
        split
        · rename_i hi
          subst hi
          rw [hn]
          split <;> simp_all
        · rfl
      have h1 := hnf k
      have h2 := hnf l
      unfold nframeEqNoRig
      cases e1 : w.nframes[k]? with
      | none =>
        rw [e1, Option.map_none, Option.map_eq_none_iff] at h1
        rw [h1]
      | some a =>
        rw [e1, Option.map_some, Option.map_eq_some_iff] at h1
        obtain ⟨a', e1', ha⟩ := h1
        cases e2 : w.nframes[l]? with
        | none =>
          rw [e2, Option.map_none, Option.map_eq_none_iff] at h2
          rw [h2, e1']
        | some b =>
          rw [e2, Option.map_some, Option.map_eq_some_iff] at h2
          obtain ⟨b', e2', hb⟩ := h2
          rw [e1', e2']
          simp only [Prod.mk.injEq] at ha hb
          simp only [ha.1, ha.2, hb.1, hb.2, hfr]
    · simp at e

/-- Two new frames with different cameras are equal only without them. -/
example : ∃ w, nrun (fun _ => []) [.frame .new, .frame .new, .frame (.setCam 0 (some 7))] World.empty = some (.ok w) ∧
    frameEqNoCam w 0 1 = .ok true ∧ frameEq (fun a b => a == b) w 0 1 = .ok false := ⟨_, rfl, rfl, rfl⟩

/-- Two n-frames with different rigs. -/
example : ∃ w, nrun (fun r => [r]) [.frame .new, .frame .new, .newN 1 none 1, .newN 1 none 1, .setFrame 0 0 0,
      .setFrame 1 0 1, .setRig 0 5] World.empty = some (.ok w) ∧
    nframeEqNoRig w 0 1 = .ok true ∧ nframeEq (fun a b => a == b) (fun a b => a == b) w 0 1 = .ok false :=
  ⟨_, rfl, rfl, rfl⟩

/-- **C35.** N-frames with the same identifier and number of frames are not compared if a frame is not set: the program
ends at the first one, given that the frames before it can be compared. -/
theorem nframeEqNoRig_unset {w : World} {k l i : Nat} {a b : NF} (hk : w.nframes[k]? = some a) (hl : w.nframes[l]? = some b)
    (hid : a.id = b.id) (hn : a.frames.length = b.frames.length) (hi : i < a.frames.length)
    (hu : a.frames[i]? = some none ∨ b.frames[i]? = some none)
    (hb : ∀ j, j < i → ∃ f g r, a.frames[j]? = some (some f) ∧ b.frames[j]? = some (some g) ∧ frameEqNoCam w f g = .ok r) :
    nframeEqNoRig w k l = .abort := by
  unfold nframeEqNoRig
  rw [hk, hl]
  simp only
  rw [if_pos ⟨hid, hn⟩]
  generalize a.frames = ps at *
  generalize b.frames = qs at *
  clear hk hl hid
  induction i generalizing ps qs with
  | zero =>
    cases ps with
    | nil => simp at hi
    | cons p ps =>
      cases qs with
      | nil => simp at hn
      | cons q qs =>
        simp only [List.getElem?_cons_zero, Option.some.injEq] at hu
        rcases hu with rfl | rfl
        · simp [framesEqNoCam]
        · cases p <;> simp [framesEqNoCam]
  | succ i ih =>
    cases ps with
    | nil => simp at hi
    | cons p ps =>
      cases qs with
      | nil => simp at hn
      | cons q qs =>
        obtain ⟨f, g, r, h1, h2, h3⟩ := hb 0 (Nat.succ_pos i)
        simp only [List.getElem?_cons_zero, Option.some.injEq] at h1 h2
        subst h1
        subst h2
        have := ih (ps := ps) (qs := qs) (by simpa using hi) (by simpa using hn) (by simpa using hu)
          (fun j hj => by simpa using hb (j + 1) (Nat.succ_lt_succ hj))
        rw [framesEqNoCam, h3, this]
        rfl

/-- Two n-frames whose only frame is not set. -/
example : nframeEqNoRig { store := Channels.Store.empty, frames := [], nframes := [⟨7, none, [none]⟩, ⟨7, none, [none]⟩] } 0 1 = .abort :=
  nframeEqNoRig_unset (i := 0) rfl rfl rfl rfl (by decide) (.inl rfl) (fun j hj => absurd hj (Nat.not_lt_zero j))

end Verif.VisualFrame.Copy

namespace Verif.VisualFrame

open Verif (Outcome)

/-- **C33.** The types can be set exactly if there are as many as blocks; the descriptors and other channels stay. -/
theorem setDescriptorTypes_iff (f f' : Frame) (types : List Int) :
    setDescriptorTypes f types = .ok f' ↔
      ∃ blocks, f.descriptors = some blocks ∧ blocks.length = types.length ∧ f' = { f with types := some types } := by
  unfold setDescriptorTypes
  cases f.descriptors with
  | none => simp [get]
  | some blocks =>
    simp only [get, Outcome.bind_ok, Option.some.injEq, exists_eq_left']
    by_cases h : blocks.length = types.length
    · simp [h, eq_comm]
    · simp [h, Outcome.check]

/-- **C33.** Everything else ends the program: it is never undefined. -/
theorem setDescriptorTypes_else (f : Frame) (types : List Int) :
    (∃ f', setDescriptorTypes f types = .ok f') ∨ setDescriptorTypes f types = .abort := by
  unfold setDescriptorTypes
  cases f.descriptors with
  | none => simp [get]
  | some blocks =>
    by_cases h : blocks.length = types.length
    · simp [get, h]
    · simp [get, h, Outcome.check]

/-- **C33.** Descriptors that were read from a string have no types of their own; after their types have been set, blocks
and types match again, whatever was there before. -/
theorem deserialize_then_types {f f' : Frame} {blocks : List (List Desc)} {types : List Int}
    (h : setDescriptorTypes (deserializeDescriptors f blocks) types = .ok f') :
    TypesMatch f' ∧ f'.descriptors = some blocks ∧ f'.types = some types := by
  obtain ⟨bs, h1, h2, rfl⟩ := (setDescriptorTypes_iff _ _ _).1 h
  simp only [deserializeDescriptors, Option.some.injEq] at h1
  subst h1
  refine ⟨⟨rfl, ?_⟩, rfl, rfl⟩
  intro bs ts e1 e2
  simp only [deserializeDescriptors, Option.some.injEq] at e1 e2
  rw [← e1, ← e2, h2]

example : ∃ f', setDescriptorTypes (deserializeDescriptors Frame.empty [[[1], [2]], [[3]]]) [0, 1] = .ok f' ∧
    getDescriptorType f' 2 = .ok 1 := ⟨_, rfl, rfl⟩

end Verif.VisualFrame
