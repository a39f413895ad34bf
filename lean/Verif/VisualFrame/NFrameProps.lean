import Mathlib.Data.List.Forall2
import Verif.VisualFrame.CopyProps

/-!
# Properties C35 (n-frames) and C36
-/

namespace Verif.VisualFrame.Copy

open Verif (Outcome)

/-! ## C35 for n-frames -/

/-- Frames of n-frames exist. -/
structure NInv (w : World) : Prop where
  base : Inv w
  ptr : ∀ (k : Nat) n p, w.nframes[k]? = some n → some p ∈ n.frames → p < w.frames.length

/-- The value of an n-frame: id, rig, and the values of its frames. -/
def nvalue (w : World) (k : Nat) : Option (Nat × Option Nat × List (Option SFrame)) :=
  w.nframes[k]?.map fun n => (n.id, n.rig, n.frames.map fun p => p.bind fun i => (values w)[i]?)

/-- What copying the frames of an n-frame does. -/
structure Copied (w : World) (ps : List (Option Nat)) (w' : World) (ps' : List (Option Nat)) : Prop where
  inv : Inv w'
  nframes : w'.nframes = w.nframes
  pixels : w'.store.pixels = w.store.pixels
  old : ∀ f, f < w.frames.length → (values w')[f]? = (values w)[f]?
  grow : w.frames.length ≤ w'.frames.length
  length : ps'.length = ps.length
  unset : ∀ i : Nat, ps[i]? = some none → ps'[i]? = some none
  same : ∀ (i : Nat) p, ps[i]? = some (some p) → ∃ q, ps'[i]? = some (some q) ∧ (values w')[q]? = (values w)[p]?
  fresh : ∀ q, some q ∈ ps' → w.frames.length ≤ q ∧ q < w'.frames.length
  distinct : ∀ (i j : Nat) q, ps'[i]? = some (some q) → ps'[j]? = some (some q) → i = j

theorem values_length (w : World) : (values w).length = w.frames.length := by simp [values]

theorem fstep_copy {w : World} (hi : Inv w) {p : Nat} (hp : p < w.frames.length) :
    ∃ w1, fstep w (.copy p) = some (.ok (w1, .frame w.frames.length)) ∧ Inv w1 ∧
      (∃ v, (values w)[p]? = some v ∧ values w1 = values w ++ [v]) ∧
      w1.nframes = w.nframes ∧ w1.store.pixels = w.store.pixels := by
  have hr := fstep_refines hi (.copy p)
  have hp' : p < (values w).length := by rw [values_length]; exact hp
  have hv : (values w)[p]? = some (values w)[p] := List.getElem?_eq_getElem hp'
  rw [show specStep (values w) (.copy p) = some (.ok (values w ++ [(values w)[p]], .frame (values w).length)) by
    simp [specStep, hv]] at hr
  rcases h : fstep w (.copy p) with _ | (⟨w1, o⟩ | _ | _ | _) <;> rw [h] at hr <;>
    first | exact hr.elim | skip
  obtain ⟨h1, h2, h3⟩ := hr
  refine ⟨w1, by rw [h1, values_length], h3, ⟨_, hv, h2⟩, ?_, fstep_pixels h⟩
  have hf : w.frames[p]? = some w.frames[p] := List.getElem?_eq_getElem hp
  obtain ⟨s', e, _, _⟩ := cloneFrame_spec hi hf
  simp only [fstep, hf, e, Outcome.bind, Option.some.injEq, Outcome.ok.injEq, Prod.mk.injEq] at h
  rw [← h.1]

theorem copyFrames_spec : ∀ (ps : List (Option Nat)) (w : World), Inv w →
    (∀ p, some p ∈ ps → p < w.frames.length) →
    ∃ w' ps', copyFrames ps w = some (.ok (w', ps')) ∧ Copied w ps w' ps'
  | [], w, hi, _ => ⟨w, [], rfl, hi, rfl, rfl, fun _ _ => rfl, Nat.le_refl _, rfl, by simp, by simp, by simp, by simp⟩
  | none :: ps, w, hi, hp => by
    obtain ⟨w', ps', e, c⟩ := copyFrames_spec ps w hi (fun p h => hp p (List.mem_cons_of_mem _ h))
    refine ⟨w', none :: ps', by rw [copyFrames, e]; rfl, c.inv, c.nframes, c.pixels, c.old, c.grow,
      by simp [c.length], ?_, ?_, ?_, ?_⟩
    · intro i hi
      cases i with
      | zero => rfl
      | succ i => exact c.unset i (by simpa using hi)
    · intro i p hi
      cases i with
      | zero => simp at hi
      | succ i => exact c.same i p (by simpa using hi)
    · intro q hq
      exact c.fresh q (by simpa using hq)
    · intro i j q h1 h2
      cases i with
      | zero => simp at h1
      | succ i =>
        cases j with
        | zero => simp at h2
        | succ j => rw [c.distinct i j q (by simpa using h1) (by simpa using h2)]
  | some p :: ps, w, hi, hp => by
    obtain ⟨w1, e1, hi1, ⟨v, hv, hvals⟩, hn1, hpx1⟩ := fstep_copy hi (hp p List.mem_cons_self)
    have hlen1 : w1.frames.length = w.frames.length + 1 := by
      rw [← values_length, hvals]; simp [values_length]
    have hold1 : ∀ f, f < w.frames.length → (values w1)[f]? = (values w)[f]? := by
      intro f hf
      rw [hvals, List.getElem?_append_left (by rw [values_length]; exact hf)]
    have hnew1 : (values w1)[w.frames.length]? = some v := by
      rw [hvals, List.getElem?_append_right (by rw [values_length]; exact Nat.le_refl _), values_length]
      simp
    obtain ⟨w', ps', e, c⟩ := copyFrames_spec ps w1 hi1
      (fun p h => by have := hp p (List.mem_cons_of_mem _ h); omega)
    have hgrow := c.grow
    refine ⟨w', some w.frames.length :: ps', by rw [copyFrames, e1]; simp only [e]; rfl, c.inv,
      by rw [c.nframes, hn1], by rw [c.pixels, hpx1], ?_, by omega, by simp [c.length], ?_, ?_, ?_, ?_⟩
    · intro f hf
      rw [c.old f (by omega), hold1 f hf]
    · intro i hi
      cases i with
      | zero => simp at hi
      | succ i => exact c.unset i (by simpa using hi)
    · intro i x hi
      cases i with
      | zero =>
        simp only [List.getElem?_cons_zero, Option.some.injEq] at hi
        subst hi
        exact ⟨w.frames.length, rfl, by rw [c.old _ (by omega), hnew1, hv]⟩
      | succ i =>
        obtain ⟨q, h1, h2⟩ := c.same i x (by simpa using hi)
        refine ⟨q, by simpa using h1, ?_⟩
        rw [h2, hold1]
        exact hp x (List.mem_cons_of_mem _ (List.mem_iff_getElem?.mpr ⟨i, by simpa using hi⟩))
    · intro q hq
      rcases List.mem_cons.mp hq with h | h
      · simp only [Option.some.injEq] at h; omega
      · have := c.fresh q h; omega
    · intro i j q h1 h2
      cases i with
      | zero =>
        simp only [List.getElem?_cons_zero, Option.some.injEq] at h1
        cases j with
        | zero => rfl
        | succ j =>
          have := (c.fresh q (List.mem_iff_getElem?.mpr ⟨j, by simpa using h2⟩)).1
          omega
      | succ i =>
        cases j with
        | zero =>
          simp only [List.getElem?_cons_zero, Option.some.injEq] at h2
          have := (c.fresh q (List.mem_iff_getElem?.mpr ⟨i, by simpa using h1⟩)).1
          omega
        | succ j => rw [c.distinct i j q (by simpa using h1) (by simpa using h2)]

theorem bind_values_old {w w' : World} (h : ∀ f, f < w.frames.length → (values w')[f]? = (values w)[f]?)
    {ps : List (Option Nat)} (hp : ∀ p, some p ∈ ps → p < w.frames.length) :
    (ps.map fun p => p.bind fun i => (values w')[i]?) = ps.map fun p => p.bind fun i => (values w)[i]? := by
  apply List.map_congr_left
  intro p hm
  cases p with
  | none => rfl
  | some i => exact h i (hp i hm)

theorem Copied.values_eq {w w' : World} {ps ps' : List (Option Nat)} (c : Copied w ps w' ps') :
    (ps'.map fun p => p.bind fun i => (values w')[i]?) = ps.map fun p => p.bind fun i => (values w)[i]? := by
  apply List.ext_getElem?
  intro i
  rw [List.getElem?_map, List.getElem?_map]
  cases h : ps[i]? with
  | none =>
    have : ps'[i]? = none := by
      rw [List.getElem?_eq_none_iff] at h ⊢
      rw [c.length]; exact h
    rw [this]; rfl
  | some x =>
    cases x with
    | none => rw [c.unset i h]; rfl
    | some p =>
      obtain ⟨q, h1, h2⟩ := c.same i p h
      rw [h1]
      simp only [Option.map_some, Option.bind_some, h2]

/-- **C35 (copies of an n-frame).** Copying succeeds; the copy has the value of the original (same id, same rig,
frames with the same values, unset frames unset); its frames are new objects, pairwise different; the original
and all other n-frames keep their value. -/
theorem copyN_exact (cams : Nat → List Nat) {w : World} (hi : NInv w) {k : Nat} {n : NF}
    (hk : w.nframes[k]? = some n) :
    ∃ w' ps', nstep cams w (.copyN k) = some (.ok w') ∧ NInv w' ∧
      w'.nframes = w.nframes ++ [{ n with frames := ps' }] ∧ nvalue w' w.nframes.length = nvalue w k ∧
      (∀ l, l < w.nframes.length → nvalue w' l = nvalue w l) ∧ Copied w n.frames { w' with nframes := w.nframes } ps' := by
  obtain ⟨w1, ps', e, c⟩ := copyFrames_spec n.frames w hi.base (fun p h => hi.ptr k n p hk h)
  have hval : ∀ ns, values { w1 with nframes := ns } = values w1 := fun _ => rfl
  refine ⟨{ w1 with nframes := w1.nframes ++ [{ n with frames := ps' }] }, ps', ?_, ⟨?_, ?_⟩, ?_, ?_, ?_, ?_⟩
  · simp only [nstep, hk, e]; rfl
  · exact ⟨c.inv.store, c.inv.valid, c.inv.own⟩
  · intro l m p hl hm
    simp only at hl ⊢
    rw [c.nframes, List.getElem?_append] at hl
    split at hl
    · have := hi.ptr l m p hl hm
      have := c.grow
      omega
    · rw [List.getElem?_singleton] at hl
      split at hl
      · simp only [Option.some.injEq] at hl
        subst hl
        exact (c.fresh p hm).2
      · simp at hl
  · simp only [c.nframes]
  · unfold nvalue
    simp only [c.nframes, hval]
    rw [List.getElem?_append_right (Nat.le_refl _), hk]
    simp only [Nat.sub_self, List.getElem?_cons_zero, Option.map_some, c.values_eq]
  · intro l hl
    unfold nvalue
    simp only [c.nframes, hval]
    rw [List.getElem?_append_left hl]
    cases hm : w.nframes[l]? with
    | none => rfl
    | some m =>
      simp only [Option.map_some]
      rw [bind_values_old c.old (fun p h => hi.ptr l m p hm h)]
  · exact ⟨⟨c.inv.store, c.inv.valid, c.inv.own⟩, rfl, c.pixels, c.old, c.grow, c.length, c.unset, c.same, c.fresh,
      c.distinct⟩

/-- Calls through the n-frame `l`, for someone who holds neither `k` nor its frames: calls on `l`, on the frames
of `l`, new frames and n-frames, copies of anything.  The frames put into `l` are not frames of `k`. -/
def Through (l k : Nat) (w : World) : NOp → Prop
  | .frame op => op.target = none ∨ ∃ f n, op.target = some f ∧ w.nframes[l]? = some n ∧ some f ∈ n.frames
  | .newN _ _ _ | .copyN _ => True
  | .assignN d _ | .setIdN d _ | .unSetFrame d _ | .setRig d _ => d = l
  | .setFrame d _ f => d = l ∧ ∀ n, w.nframes[k]? = some n → some f ∉ n.frames

/-- A history of such calls that succeeds. -/
inductive ThroughRun (cams : Nat → List Nat) (l k : Nat) : World → List NOp → World → Prop where
  | nil (w : World) : ThroughRun cams l k w [] w
  | cons {w w1 w2 : World} {op : NOp} {ops : List NOp} (ho : Through l k w op)
      (h : nstep cams w op = some (.ok w1)) (t : ThroughRun cams l k w1 ops w2) : ThroughRun cams l k w (op :: ops) w2

/-- The frames of two n-frames are different objects. -/
def Apart (w : World) (l k : Nat) : Prop :=
  ∀ a b p, w.nframes[l]? = some a → w.nframes[k]? = some b → some p ∈ a.frames → some p ∉ b.frames

theorem assignCams_length (cams : List Nat) : ∀ (ps : List (Option Nat)) (i : Nat) (fs : List VF),
    (assignCams cams i ps fs).length = fs.length
  | [], _, _ => rfl
  | none :: ps, i, fs => assignCams_length cams ps (i + 1) fs
  | some p :: ps, i, fs => by
    rw [assignCams]
    split
    · rw [assignCams_length cams ps]; simp
    · exact assignCams_length cams ps (i + 1) fs

theorem assignCams_other (cams : List Nat) (f : Nat) : ∀ (ps : List (Option Nat)) (i : Nat) (fs : List VF),
    some f ∉ ps → (assignCams cams i ps fs)[f]? = fs[f]?
  | [], _, _, _ => rfl
  | none :: ps, i, fs, h => assignCams_other cams f ps (i + 1) fs (fun hh => h (List.mem_cons_of_mem _ hh))
  | some p :: ps, i, fs, h => by
    have hne : p ≠ f := fun e => h (e ▸ List.mem_cons_self)
    have h' : some f ∉ ps := fun hh => h (List.mem_cons_of_mem _ hh)
    rw [assignCams]
    split
    · rw [assignCams_other cams f ps _ _ h', getElem?_set_ne' hne]
    · exact assignCams_other cams f ps (i + 1) fs h'

theorem assignCams_group (cams : List Nat) : ∀ (ps : List (Option Nat)) (i : Nat) (fs : List VF) (f : Nat) (v : VF),
    (assignCams cams i ps fs)[f]? = some v → ∃ u, fs[f]? = some u ∧ u.group = v.group
  | [], _, fs, f, v, h => ⟨v, h, rfl⟩
  | none :: ps, i, fs, f, v, h => assignCams_group cams ps (i + 1) fs f v h
  | some p :: ps, i, fs, f, v, h => by
    rw [assignCams] at h
    cases hp : fs[p]? with
    | none => rw [hp] at h; exact assignCams_group cams ps (i + 1) fs f v h
    | some x =>
      rw [hp] at h
      obtain ⟨u, hu, hg⟩ := assignCams_group cams ps (i + 1) _ f v h
      rw [List.getElem?_set] at hu
      split at hu
      · next e =>
        split at hu
        · simp only [Option.some.injEq] at hu
          subst hu
          exact ⟨x, e ▸ hp, hg⟩
        · simp at hu
      · exact ⟨u, hu, hg⟩

theorem assignCams_inv {w : World} (hi : Inv w) (cams : List Nat) (i : Nat) (ps : List (Option Nat)) (ns : List NF) :
    Inv { w with frames := assignCams cams i ps w.frames, nframes := ns } := by
  refine ⟨hi.store, ?_, ?_⟩
  · intro f v h
    obtain ⟨u, hu, hg⟩ := assignCams_group cams ps i w.frames f v h
    rw [← hg]
    exact hi.valid f u hu
  · intro f g v u hf hg he
    obtain ⟨a, ha, ea⟩ := assignCams_group cams ps i w.frames f v hf
    obtain ⟨b, hb, eb⟩ := assignCams_group cams ps i w.frames g u hg
    exact hi.own f g a b ha hb (by rw [ea, eb, he])

/-- Changing the members of one n-frame. -/
theorem set_nframe {w : World} (hi : NInv w) {l k : Nat} (hlk : l ≠ k) {m : NF}
    (hm : ∀ p, some p ∈ m.frames → p < w.frames.length)
    (hmk : ∀ b p, w.nframes[k]? = some b → some p ∈ m.frames → some p ∉ b.frames) :
    NInv { w with nframes := w.nframes.set l m } ∧ Apart { w with nframes := w.nframes.set l m } l k ∧
      nvalue { w with nframes := w.nframes.set l m } k = nvalue w k := by
  refine ⟨⟨⟨hi.base.store, hi.base.valid, hi.base.own⟩, ?_⟩, ?_, ?_⟩
  · intro j n p hj hp
    simp only at hj ⊢
    rw [List.getElem?_set] at hj
    split at hj
    · split at hj
      · simp only [Option.some.injEq] at hj; subst hj; exact hm p hp
      · simp at hj
    · exact hi.ptr j n p hj hp
  · intro a b p ha hb hpa
    simp only at ha hb
    rw [getElem?_set_ne' hlk] at hb
    rw [List.getElem?_set, if_pos rfl] at ha
    split at ha
    · simp only [Option.some.injEq] at ha; subst ha; exact hmk b p hb hpa
    · simp at ha
  · unfold nvalue
    simp only
    rw [getElem?_set_ne' hlk]
    rfl

/-- One call through `l`. -/
theorem through_step (cams : Nat → List Nat) {w w' : World} (hi : NInv w) {l k : Nat} (hlk : l ≠ k)
    (hk : k < w.nframes.length) (hap : Apart w l k) {op : NOp} (ho : Through l k w op)
    (h : nstep cams w op = some (.ok w')) :
    NInv w' ∧ Apart w' l k ∧ k < w'.nframes.length ∧ nvalue w' k = nvalue w k := by
  obtain ⟨nk, hnk⟩ : ∃ n, w.nframes[k]? = some n := ⟨_, List.getElem?_eq_getElem hk⟩
  cases op with
  | frame op =>
    simp only [nstep, Option.map_eq_some_iff] at h
    obtain ⟨r, hr, h⟩ := h
    rcases r with ⟨w1, o⟩ | _ | _ | _ <;> simp only [Outcome.bind] at h <;> try (simp at h)
    subst h
    obtain ⟨h1, h2⟩ := fstep_values hi.base hr
    have hns : w1.nframes = w.nframes := by
      cases op with
      | new => simp only [fstep, Option.some.injEq, Outcome.ok.injEq, Prod.mk.injEq] at hr; rw [← hr.1]
      | copy p =>
        have hp : p < w.frames.length := by
          simp only [fstep] at hr
          split at hr
          · simp at hr
          · next v hv => exact (List.getElem?_eq_some_iff.mp hv).1
        obtain ⟨w2, e, _, _, hn, _⟩ := fstep_copy hi.base hp
        rw [e] at hr
        simp only [Option.some.injEq, Outcome.ok.injEq, Prod.mk.injEq] at hr
        rw [← hr.1, hn]
      | assign d s =>
        simp only [fstep] at hr
        split at hr
        · next v hv hd =>
          obtain ⟨s', e, _, _⟩ := cloneFrame_spec hi.base hd
          simp only [e, Outcome.bind, Option.some.injEq, Outcome.ok.injEq, Prod.mk.injEq] at hr
          rw [← hr.1]
        · simp at hr
      | chan f c =>
        simp only [fstep] at hr
        split at hr
        · simp at hr
        · rcases hc : Channels.step w.store (c.toOp _) with _ | (⟨s', o⟩ | _ | _ | _) <;> rw [hc] at hr <;>
            simp [Outcome.bind] at hr
          rw [← hr.1]
      | _ =>
        simp only [fstep, modify] at hr
        split at hr
        · simp at hr
        · simp only [Option.some.injEq, Outcome.ok.injEq, Prod.mk.injEq] at hr; rw [← hr.1]
    have hold : ∀ f, f < w.frames.length → op.target ≠ some f →
        (values w1)[f]? = (values w)[f]? := fun f hf ht =>
      (specStep_other h1 (by rw [values_length]; exact hf) ht).1
    have hgrow : w.frames.length ≤ w1.frames.length := by
      rw [← values_length w, ← values_length w1]
      by_cases h0 : w.frames.length = 0
      · rw [values_length w]; omega
      · have hx : ∃ f, f < (values w).length ∧ op.target ≠ some f ∨ (values w).length ≤ (values w1).length := by
          by_cases hh : op.target = some 0
          · refine ⟨0, Or.inr ?_⟩
            have hlen : ∀ k g, specModify (values w) k g = some (.ok (values w1, o)) →
                (values w).length ≤ (values w1).length := by
              intro k g hm
              unfold specModify at hm
              rw [Option.map_eq_some_iff] at hm
              obtain ⟨v, _, hv⟩ := hm
              simp only [Outcome.ok.injEq, Prod.mk.injEq] at hv
              rw [← hv.1]; simp
            cases op with
            | new => simp [FOp.target] at hh
            | copy => simp [FOp.target] at hh
            | assign d s =>
              simp only [specStep] at h1
              split at h1
              · simp only [Option.some.injEq, Outcome.ok.injEq, Prod.mk.injEq] at h1; rw [← h1.1]; simp
              · simp at h1
            | chan f c =>
              simp only [specStep, Option.map_eq_some_iff] at h1
              obtain ⟨v, hv, h1⟩ := h1
              rcases hc : chanSpec v.chans c with ⟨m, o'⟩ | _ | _ | _ <;> rw [hc] at h1 <;>
                simp at h1
              rw [← h1.1]; simp
            | setTs k t => exact hlen k _ h1
            | setId k t => exact hlen k _ h1
            | setCam k t => exact hlen k _ h1
            | setRaw k t => exact hlen k _ h1
            | invalidate k => exact hlen k _ h1
          · exact ⟨0, Or.inl ⟨by rw [values_length]; omega, hh⟩⟩
        obtain ⟨f, hx | hx⟩ := hx
        · exact (specStep_other h1 hx.1 hx.2).2
        · exact hx
    refine ⟨⟨h2, ?_⟩, ?_, by rw [hns]; exact hk, ?_⟩
    · intro j n p hj hp
      rw [hns] at hj
      have := hi.ptr j n p hj hp
      omega
    · intro a b p ha hb
      rw [hns] at ha hb
      exact hap a b p ha hb
    · unfold nvalue
      rw [hns, hnk]
      simp only [Option.map_some, Option.some.injEq, Prod.mk.injEq, true_and]
      apply List.map_congr_left
      intro p hp
      cases p with
      | none => rfl
      | some f =>
        simp only [Option.bind_some]
        apply hold f (hi.ptr k nk f hnk hp)
        intro ht
        rcases ho with h0 | ⟨g, n, hg, hn, hgn⟩
        · rw [h0] at ht; simp at ht
        · rw [hg] at ht
          simp only [Option.some.injEq] at ht
          subst ht
          exact hap n nk g hn hnk hgn hp
  | newN id rig n =>
    simp only [nstep, Option.some.injEq, Outcome.ok.injEq] at h
    subst h
    generalize newCount cams rig n = n
    have hnone : ∀ (m p : Nat), some p ∉ List.replicate m (none : Option Nat) := by
      intro m p hm
      have := (List.mem_replicate.mp hm).2
      simp at this
    have hcase : ∀ (j : Nat) x, (w.nframes ++ [(⟨id, rig, List.replicate n none⟩ : NF)])[j]? = some x →
        w.nframes[j]? = some x ∨ x.frames = List.replicate n none := by
      intro j x hx
      rw [List.getElem?_append] at hx
      split at hx
      · exact Or.inl hx
      · rw [List.getElem?_singleton] at hx
        split at hx
        · simp only [Option.some.injEq] at hx; subst hx; exact Or.inr rfl
        · simp at hx
    refine ⟨⟨⟨hi.base.store, hi.base.valid, hi.base.own⟩, ?_⟩, ?_, by simp; omega, ?_⟩
    · intro j x p hj hp
      rcases hcase j x hj with h | h
      · exact hi.ptr j x p h hp
      · rw [h] at hp; exact absurd hp (hnone n p)
    · intro a b p ha hb hpa
      rcases hcase l a ha with h1 | h1
      · rcases hcase k b hb with h2 | h2
        · exact hap a b p h1 h2 hpa
        · rw [h2]; exact hnone n p
      · rw [h1] at hpa; exact absurd hpa (hnone n p)
    · unfold nvalue
      simp only
      rw [List.getElem?_append_left hk]
      rfl
  | copyN src =>
    cases hs : w.nframes[src]? with
    | none => simp [nstep, hs] at h
    | some n =>
      obtain ⟨w1, ps', e, hinv, hns, _, hold, c⟩ := copyN_exact cams hi hs
      rw [e] at h
      simp only [Option.some.injEq, Outcome.ok.injEq] at h
      subst h
      refine ⟨hinv, ?_, by rw [hns]; simp; omega, hold k hk⟩
      intro a b p ha hb hpa hpb
      rw [hns, List.getElem?_append_left hk] at hb
      rw [hns, List.getElem?_append] at ha
      split at ha
      · exact hap a b p ha hb hpa hpb
      · rw [List.getElem?_singleton] at ha
        split at ha
        · simp only [Option.some.injEq] at ha; subst ha
          have h1 := (c.fresh p hpa).1
          have h2 := hi.ptr k b p hb hpb
          omega
        · simp at ha
  | assignN d src =>
    have hd : d = l := ho
    subst hd
    simp only [nstep] at h
    split at h
    · next x n hx hn =>
      by_cases hds : d = src
      · rw [if_pos hds] at h
        simp only [Option.some.injEq, Outcome.ok.injEq] at h
        subst h
        obtain ⟨h1, h2, h3⟩ := set_nframe hi hlk (m := { n with frames := [] }) (by simp) (by simp)
        exact ⟨h1, h2, by simpa using hk, h3⟩
      · rw [if_neg hds] at h
        obtain ⟨w1, ps', e, c⟩ := copyFrames_spec n.frames w hi.base (fun p hp => hi.ptr src n p hn hp)
        rw [e] at h
        simp only [Outcome.bind, Option.some.injEq, Outcome.ok.injEq] at h
        subst h
        have hi1 : NInv w1 := ⟨c.inv, fun j m p hj hp => by
          rw [c.nframes] at hj
          have := hi.ptr j m p hj hp
          have := c.grow
          omega⟩
        have hap1 : Apart w1 d k := fun a b p ha hb => by
          rw [c.nframes] at ha hb
          exact hap a b p ha hb
        obtain ⟨h1, h2, h3⟩ := set_nframe hi1 hlk (m := { n with frames := ps' })
          (fun p hp => (c.fresh p hp).2)
          (fun b p hb hp hpb => by
            rw [c.nframes] at hb
            have h1 := (c.fresh p hp).1
            have h2 := hi.ptr k b p hb hpb
            omega)
        refine ⟨h1, h2, by simp only [List.length_set]; rw [c.nframes]; exact hk, ?_⟩
        rw [h3]
        unfold nvalue
        rw [c.nframes, hnk]
        simp only [Option.map_some]
        rw [bind_values_old c.old (fun p hp => hi.ptr k nk p hnk hp)]
    · simp at h
  | setIdN d id =>
    have hd : d = l := ho
    subst hd
    simp only [nstep] at h
    split at h
    · simp at h
    · next n hn =>
      simp only [Option.some.injEq, Outcome.ok.injEq] at h
      subst h
      obtain ⟨h1, h2, h3⟩ := set_nframe hi hlk (m := { n with id := id })
        (fun p hp => hi.ptr d n p hn hp) (fun b p hb hp => hap n b p hn hb hp)
      exact ⟨h1, h2, by simpa using hk, h3⟩
  | unSetFrame d i =>
    have hd : d = l := ho
    subst hd
    simp only [nstep] at h
    split at h
    · simp at h
    · next n hn =>
      split at h
      · simp only [Option.some.injEq, Outcome.ok.injEq] at h
        subst h
        have hsub : ∀ p, some p ∈ n.frames.set i none → some p ∈ n.frames := by
          intro p hp
          rcases List.mem_or_eq_of_mem_set hp with h | h
          · exact h
          · simp at h
        obtain ⟨h1, h2, h3⟩ := set_nframe hi hlk (m := { n with frames := n.frames.set i none })
          (fun p hp => hi.ptr d n p hn (hsub p hp)) (fun b p hb hp => hap n b p hn hb (hsub p hp))
        exact ⟨h1, h2, by simpa using hk, h3⟩
      · simp at h
  | setFrame d i f =>
    obtain ⟨hd, hfk⟩ := ho
    subst hd
    simp only [nstep] at h
    split at h
    · next n v hn hv =>
      have hsub : ∀ p, some p ∈ n.frames.set i (some f) → some p ∈ n.frames ∨ p = f := by
        intro p hp
        rcases List.mem_or_eq_of_mem_set hp with h | h
        · exact Or.inl h
        · simp only [Option.some.injEq] at h; exact Or.inr h
      have hfl := (List.getElem?_eq_some_iff.mp hv).1
      obtain ⟨h1, h2, h3⟩ := set_nframe hi hlk (m := { n with frames := n.frames.set i (some f) })
        (fun p hp => by
          rcases hsub p hp with h | h
          · exact hi.ptr d n p hn h
          · rw [h]; exact hfl)
        (fun b p hb hp => by
          rcases hsub p hp with h | h
          · exact hap n b p hn hb h
          · rw [h]; exact hfk b hb)
      have hw : w' = { w with nframes := w.nframes.set d { n with frames := n.frames.set i (some f) } } := by
        split at h
        · split at h
          · simp only [Option.some.injEq, Outcome.ok.injEq] at h; exact h.symm
          · split at h
            · simp only [Option.some.injEq, Outcome.ok.injEq] at h; exact h.symm
            · simp at h
        · simp at h
      rw [hw]
      exact ⟨h1, h2, by simpa using hk, h3⟩
    · simp at h
  | setRig d r =>
    have hd : d = l := ho
    subst hd
    simp only [nstep] at h
    split at h
    · simp at h
    · next n hn =>
      split at h
      · simp only [Option.some.injEq, Outcome.ok.injEq] at h
        subst h
        have hlenA := assignCams_length (cams r) n.frames 0 w.frames
        refine ⟨⟨assignCams_inv hi.base _ _ _ _, ?_⟩, ?_, by simpa using hk, ?_⟩
        · intro j m p hj hp
          simp only at hj ⊢
          rw [hlenA]
          rw [List.getElem?_set] at hj
          split at hj
          · next e =>
            split at hj
            · simp only [Option.some.injEq] at hj; subst hj; exact hi.ptr d n p hn hp
            · simp at hj
          · exact hi.ptr j m p hj hp
        · intro a b p ha hb hpa
          simp only at ha hb
          rw [getElem?_set_ne' hlk] at hb
          rw [List.getElem?_set, if_pos rfl] at ha
          split at ha
          · simp only [Option.some.injEq] at ha; subst ha; exact hap n b p hn hb hpa
          · simp at ha
        · unfold nvalue
          simp only
          rw [getElem?_set_ne' hlk, hnk]
          simp only [Option.map_some, Option.some.injEq, Prod.mk.injEq, true_and]
          apply List.map_congr_left
          intro p hp
          cases p with
          | none => rfl
          | some f =>
            simp only [Option.bind_some]
            rw [values_getElem?, values_getElem?]
            simp only
            rw [assignCams_other (cams r) f n.frames 0 w.frames (fun hh => hap n nk f hn hnk hh hp)]
      · simp at h

/-- **C35 (independence of n-frame copies).** After copying the n-frame `k` into `l`, no history of calls through
`l` — on the copy itself or on its frames — changes the value of `k`. -/
theorem copyN_independent (cams : Nat → List Nat) {w w1 w2 : World} (hi : NInv w) {k : Nat}
    (hk : k < w.nframes.length) (h : nstep cams w (.copyN k) = some (.ok w1)) {ops : List NOp}
    (hr : ThroughRun cams w.nframes.length k w1 ops w2) :
    nvalue w1 w.nframes.length = nvalue w k ∧ nvalue w2 k = nvalue w k := by
  obtain ⟨n, hn⟩ : ∃ n, w.nframes[k]? = some n := ⟨_, List.getElem?_eq_getElem hk⟩
  obtain ⟨w1', ps', e, hinv, hns, hval, hold, c⟩ := copyN_exact cams hi hn
  rw [e] at h
  simp only [Option.some.injEq, Outcome.ok.injEq] at h
  subst h
  have hap : Apart w1' w.nframes.length k := by
    intro a b p ha hb hpa hpb
    rw [hns, List.getElem?_append_left hk] at hb
    rw [hns, List.getElem?_append_right (Nat.le_refl _)] at ha
    simp only [Nat.sub_self, List.getElem?_cons_zero, Option.some.injEq] at ha
    subst ha
    have h1 := (c.fresh p hpa).1
    have h2 := hi.ptr k b p hb hpb
    omega
  have hk1 : k < w1'.nframes.length := by rw [hns]; simp; omega
  refine ⟨hval, ?_⟩
  rw [← hold k hk]
  have hne : w.nframes.length ≠ k := by omega
  clear hold hval hns c e hi hn hk
  generalize w.nframes.length = l at *
  induction hr with
  | nil w => rfl
  | cons ho h t ih =>
    obtain ⟨h1, h2, h3, h4⟩ := through_step cams hinv hne hk1 hap ho h
    rw [ih h1 h3 h2, h4]

/-- **C35 (a copy of an n-frame compares equal), partial.** If all frames are set.  What is missing: with a frame
that is not set `operator==` aborts (`nframe_compare_refuted`). -/
theorem copyN_equal_partial (cams : Nat → List Nat) {w w1 : World} (hi : NInv w) {k : Nat} {n : NF}
    (hk : w.nframes[k]? = some n) (h : nstep cams w (.copyN k) = some (.ok w1))
    (hset : ∀ p ∈ n.frames, p.isSome = true)
    (himg : ∀ p v, some p ∈ n.frames → (values w)[p]? = some v → ImagesOk w.store.pixels v.chans)
    {camEq rigEq : Nat → Nat → Bool} (hcam : ∀ c, camEq c c = true) (hrig : ∀ r, rigEq r r = true) :
    nframeEq camEq rigEq w1 k w.nframes.length = .ok true ∧
      nframeEq camEq rigEq w1 w.nframes.length k = .ok true := by
  obtain ⟨w1', ps', e, hinv, hns, hval, hold, c⟩ := copyN_exact cams hi hk
  rw [e] at h
  simp only [Option.some.injEq, Outcome.ok.injEq] at h
  subst h
  have hkl := (List.getElem?_eq_some_iff.mp hk).1
  have h1 : w1'.nframes[k]? = some n := by rw [hns, List.getElem?_append_left hkl, hk]
  have h2 : w1'.nframes[w.nframes.length]? = some { n with frames := ps' } := by
    rw [hns, List.getElem?_append_right (Nat.le_refl _)]; simp
  have hrs : camSame rigEq n.rig n.rig = true := by
    cases n.rig with
    | none => rfl
    | some r => exact hrig r
  have hvals : values w1' = values { w1' with nframes := w.nframes } := rfl
  have key : ∀ (ps qs : List (Option Nat)), ps.length = qs.length →
      (∀ (i : Nat) p, ps[i]? = some p → ∃ a b v, p = some a ∧ qs[i]? = some (some b) ∧ a ≠ b ∧
        (values w1')[a]? = some v ∧ (values w1')[b]? = some v ∧ ImagesOk w1'.store.pixels v.chans) →
      framesEq camEq w1' ps qs = .ok true ∧ framesEq camEq w1' qs ps = .ok true := by
    intro ps
    induction ps with
    | nil =>
      intro qs hl _
      have : qs = [] := List.length_eq_zero_iff.mp hl.symm
      subst this
      exact ⟨rfl, rfl⟩
    | cons p ps ih =>
      intro qs hl hh
      cases qs with
      | nil => simp at hl
      | cons q qs =>
        obtain ⟨a, b, v, ha, hb, hab, hva, hvb, him⟩ := hh 0 p rfl
        simp only [List.getElem?_cons_zero, Option.some.injEq] at hb
        subst ha
        subst hb
        obtain ⟨i1, i2⟩ := ih qs (by simpa using hl) (fun i p hp => by
          obtain ⟨a, b, v, h⟩ := hh (i + 1) p (by simpa using hp)
          exact ⟨a, b, v, by simpa using h⟩)
        constructor
        · rw [framesEq, same_value_equal hinv.base hab hva hvb him hcam, Outcome.bind_ok, i1]; rfl
        · rw [framesEq, same_value_equal hinv.base (Ne.symm hab) hvb hva him hcam, Outcome.bind_ok, i2]; rfl
  have hk' := key n.frames ps' c.length.symm (by
    intro i p hp
    have hmem : p ∈ n.frames := List.mem_iff_getElem?.mpr ⟨i, hp⟩
    have hs := hset p hmem
    cases p with
    | none => simp at hs
    | some a =>
      obtain ⟨b, hb, hbv⟩ := c.same i a hp
      have ha := hi.ptr k n a hk hmem
      have ha' : a < (values w).length := by rw [values_length]; exact ha
      have hva : (values w)[a]? = some (values w)[a] := List.getElem?_eq_getElem ha'
      have hfr := (c.fresh b (List.mem_iff_getElem?.mpr ⟨i, hb⟩)).1
      refine ⟨a, b, (values w)[a], rfl, hb, by omega, ?_, ?_, ?_⟩
      · rw [hvals, c.old a ha]; exact hva
      · rw [hvals, hbv]; exact hva
      · have := himg a _ hmem hva
        have hpx : w1'.store.pixels = w.store.pixels := c.pixels
        rw [hpx]; exact this)
  unfold nframeEq
  rw [h1, h2]
  simp only
  rw [if_pos ⟨trivial, hrs, c.length.symm⟩, if_pos ⟨trivial, hrs, c.length⟩]
  exact hk'

theorem framesEq_true {camEq : Nat → Nat → Bool} {w : World} : ∀ {ps qs : List (Option Nat)},
    framesEq camEq w ps qs = .ok true ↔
      List.Forall₂ (fun p q => ∃ a b, p = some a ∧ q = some b ∧ frameEq camEq w a b = .ok true) ps qs := by
  intro ps
  induction ps with
  | nil =>
    intro qs
    cases qs with
    | nil => simp [framesEq]
    | cons q qs => simp [framesEq]
  | cons p ps ih =>
    intro qs
    cases qs with
    | nil => cases p <;> simp [framesEq]
    | cons q qs =>
      rw [List.forall₂_cons]
      cases p with
      | none => simp [framesEq]
      | some a =>
        cases q with
        | none => simp [framesEq]
        | some b =>
          rw [framesEq, ← ih]
          constructor
          · intro h
            obtain ⟨x, hx, h⟩ := Outcome.bind_eq_ok.1 h
            obtain ⟨y, hy, h⟩ := Outcome.bind_eq_ok.1 h
            simp only [Outcome.ok.injEq, Bool.and_eq_true] at h
            rw [h.1] at hx
            rw [h.2] at hy
            exact ⟨⟨a, b, rfl, rfl, hx⟩, hy⟩
          · rintro ⟨⟨x, y, hx, hy, h⟩, h'⟩
            injection hx with hx
            injection hy with hy
            subst hx
            subst hy
            refine Outcome.bind_eq_ok.2 ⟨true, h, Outcome.bind_eq_ok.2 ⟨true, h', rfl⟩⟩

/-- C35: n-frames compare equal exactly if they have the same identifier, the same rig, and equal frames in the same
order, all of them set. -/
theorem nframeEq_iff {camEq rigEq : Nat → Nat → Bool} {w : World} {k l : Nat} {a b : NF}
    (hk : w.nframes[k]? = some a) (hl : w.nframes[l]? = some b) :
    nframeEq camEq rigEq w k l = .ok true ↔ a.id = b.id ∧ camSame rigEq a.rig b.rig = true ∧
      List.Forall₂ (fun p q => ∃ f g, p = some f ∧ q = some g ∧ frameEq camEq w f g = .ok true) a.frames b.frames := by
  unfold nframeEq
  rw [hk, hl]
  simp only []
  by_cases h : a.id = b.id ∧ camSame rigEq a.rig b.rig = true ∧ a.frames.length = b.frames.length
  · rw [if_pos h, framesEq_true]
    exact ⟨fun hh => ⟨h.1, h.2.1, hh⟩, fun hh => hh.2.2⟩
  · rw [if_neg h]
    constructor
    · intro hh; cases hh
    · intro hh
      exact absurd ⟨hh.1, hh.2.1, hh.2.2.length_eq⟩ h

/-- Runs of n-frame calls, for the examples. -/
def nrun (cams : Nat → List Nat) : List NOp → World → Option (Outcome World)
  | [], w => some (.ok w)
  | op :: ops, w =>
    match nstep cams w op with
    | some (.ok w') => nrun cams ops w'
    | r => r

/-- **C35 refuted (comparison).** Two n-frames copied from one another compare with an abort if a frame is not
set. -/
theorem nframe_compare_refuted :
    ∃ w, nrun (fun _ => [5, 6]) [.newN 1 (some 0) 2, .copyN 0] World.empty = some (.ok w) ∧
      nvalue w 0 = nvalue w 1 ∧ nframeEq (fun a b => a == b) (fun a b => a == b) w 0 1 = .abort :=
  ⟨_, rfl, rfl, rfl⟩

/-- **C35 refuted (self-assignment).** Assigning an n-frame to itself loses its frames. -/
theorem self_assign_refuted :
    ∃ w, nrun (fun _ => [5]) [.newN 1 none 1, .frame .new, .setFrame 0 0 0, .assignN 0 0] World.empty =
        some (.ok w) ∧ w.nframes = [⟨1, none, []⟩] :=
  ⟨_, rfl, rfl⟩

/-- Non-vacuity: an n-frame with one of two frames set, copied; the frame of the copy is changed and the frame
of the original is not. -/
example : ∃ w w1 w2, nrun (fun _ => [5, 6]) [.newN 1 none 2, .frame .new, .setFrame 0 1 0] World.empty =
      some (.ok w) ∧
    nstep (fun _ => [5, 6]) w (.copyN 0) = some (.ok w1) ∧
    ThroughRun (fun _ => [5, 6]) 1 0 w1 [.frame (.setTs 1 77), .setRig 1 3] w2 ∧
    w2.frames.map VF.ts = [invalidTime, 77] ∧ w2.frames.map VF.cam = [none, some 6] ∧
    w2.nframes = [⟨1, none, [none, some 0]⟩, ⟨1, some 3, [none, some 1]⟩] :=
  ⟨_, _, _, rfl, rfl, .cons (Or.inr ⟨1, ⟨1, none, [none, some 1]⟩, rfl, rfl, by simp⟩) rfl
    (.cons rfl rfl (.nil _)), rfl, rfl, rfl⟩

/-! ## C36 -/

/-- The timestamps of the frames that are set. -/
def setTimes (ts : List (Option Int)) : List Int := ts.filterMap id

theorem minLoop_spec (ts : List (Option Int)) : ∀ (is : List Nat) (acc : Int), (∀ i ∈ is, i < ts.length) →
    ∃ m, minLoop ts is acc = .ok m ∧ m ≤ acc ∧ (∀ i ∈ is, ∀ t, ts[i]? = some (some t) → m ≤ t) ∧
      (m = acc ∨ ∃ i ∈ is, ts[i]? = some (some m))
  | [], acc, _ => ⟨acc, rfl, Int.le_refl _, by simp, Or.inl rfl⟩
  | i :: is, acc, h => by
    have hi := h i List.mem_cons_self
    have h' : ∀ j ∈ is, j < ts.length := fun j hj => h j (List.mem_cons_of_mem _ hj)
    rw [minLoop, List.getElem?_eq_getElem hi]
    cases ht : ts[i] with
    | none =>
      simp only
      obtain ⟨m, e, h1, h2, h3⟩ := minLoop_spec ts is acc h'
      refine ⟨m, e, h1, ?_, ?_⟩
      · intro j hj t hjt
        rcases List.mem_cons.mp hj with rfl | hj
        · rw [List.getElem?_eq_getElem hi, ht] at hjt; simp at hjt
        · exact h2 j hj t hjt
      · rcases h3 with h3 | ⟨j, hj, hjm⟩
        · exact Or.inl h3
        · exact Or.inr ⟨j, List.mem_cons_of_mem _ hj, hjm⟩
    | some t =>
      simp only
      obtain ⟨m, e, h1, h2, h3⟩ := minLoop_spec ts is (if t < acc then t else acc) h'
      have hit : ts[i]? = some (some t) := by rw [List.getElem?_eq_getElem hi, ht]
      refine ⟨m, e, by split at h1 <;> omega, ?_, ?_⟩
      · intro j hj t' hjt
        rcases List.mem_cons.mp hj with rfl | hj
        · rw [hit] at hjt
          simp only [Option.some.injEq] at hjt
          split at h1 <;> omega
        · exact h2 j hj t' hjt
      · rcases h3 with h3 | ⟨j, hj, hjm⟩
        · by_cases hlt : t < acc
          · rw [if_pos hlt] at h3
            exact Or.inr ⟨i, List.mem_cons_self, by rw [h3]; exact hit⟩
          · rw [if_neg hlt] at h3
            exact Or.inl h3
        · exact Or.inr ⟨j, List.mem_cons_of_mem _ hj, hjm⟩

theorem maxLoop_spec (ts : List (Option Int)) : ∀ (is : List Nat) (acc : Int), (∀ i ∈ is, i < ts.length) →
    ∃ m, maxLoop ts is acc = .ok m ∧ acc ≤ m ∧ (∀ i ∈ is, ∀ t, ts[i]? = some (some t) → t ≤ m) ∧
      (m = acc ∨ ∃ i ∈ is, ts[i]? = some (some m))
  | [], acc, _ => ⟨acc, rfl, Int.le_refl _, by simp, Or.inl rfl⟩
  | i :: is, acc, h => by
    have hi := h i List.mem_cons_self
    have h' : ∀ j ∈ is, j < ts.length := fun j hj => h j (List.mem_cons_of_mem _ hj)
    rw [maxLoop, List.getElem?_eq_getElem hi]
    cases ht : ts[i] with
    | none =>
      simp only
      obtain ⟨m, e, h1, h2, h3⟩ := maxLoop_spec ts is acc h'
      refine ⟨m, e, h1, ?_, ?_⟩
      · intro j hj t hjt
        rcases List.mem_cons.mp hj with rfl | hj
        · rw [List.getElem?_eq_getElem hi, ht] at hjt; simp at hjt
        · exact h2 j hj t hjt
      · rcases h3 with h3 | ⟨j, hj, hjm⟩
        · exact Or.inl h3
        · exact Or.inr ⟨j, List.mem_cons_of_mem _ hj, hjm⟩
    | some t =>
      simp only
      obtain ⟨m, e, h1, h2, h3⟩ := maxLoop_spec ts is (if acc < t then t else acc) h'
      have hit : ts[i]? = some (some t) := by rw [List.getElem?_eq_getElem hi, ht]
      refine ⟨m, e, by split at h1 <;> omega, ?_, ?_⟩
      · intro j hj t' hjt
        rcases List.mem_cons.mp hj with rfl | hj
        · rw [hit] at hjt
          simp only [Option.some.injEq] at hjt
          split at h1 <;> omega
        · exact h2 j hj t' hjt
      · rcases h3 with h3 | ⟨j, hj, hjm⟩
        · by_cases hlt : acc < t
          · rw [if_pos hlt] at h3
            exact Or.inr ⟨i, List.mem_cons_self, by rw [h3]; exact hit⟩
          · rw [if_neg hlt] at h3
            exact Or.inl h3
        · exact Or.inr ⟨j, List.mem_cons_of_mem _ hj, hjm⟩

theorem mem_setTimes {ts : List (Option Int)} {t : Int} : t ∈ setTimes ts ↔ ∃ i : Nat, ts[i]? = some (some t) := by
  unfold setTimes
  rw [List.mem_filterMap]
  constructor
  · rintro ⟨a, ha, h⟩
    simp only [id] at h
    subst h
    exact List.mem_iff_getElem?.mp ha
  · rintro ⟨i, hi⟩
    exact ⟨some t, List.mem_iff_getElem?.mpr ⟨i, hi⟩, rfl⟩

/-- Timestamps are 64-bit numbers. -/
def Int64 (t : Int) : Prop := -(2 ^ 63) ≤ t ∧ t < 2 ^ 63

/-- **C36 (minimum), partial.** With one frame per camera and a frame set: the result is the smallest timestamp of
the frames that are set, provided it is valid; otherwise the call aborts.

What is missing: with no frame set it does not abort (`min_unset_refuted`). -/
theorem min_timestamp_partial {ts : List (Option Int)} (hne : setTimes ts ≠ [])
    (h64 : ∀ t ∈ setTimes ts, Int64 t) :
    ∃ m, m ∈ setTimes ts ∧ (∀ t ∈ setTimes ts, m ≤ t) ∧
      getMin (some ts.length) ts = if m = invalidTime then .abort else .ok m := by
  obtain ⟨m, e, h1, h2, h3⟩ := minLoop_spec ts (List.range ts.length) (2 ^ 63 - 1)
    (fun i hi => List.mem_range.mp hi)
  have hall : ∀ t ∈ setTimes ts, m ≤ t := by
    intro t ht
    obtain ⟨i, hi⟩ := mem_setTimes.mp ht
    exact h2 i (List.mem_range.mpr (List.getElem?_eq_some_iff.mp hi).1) t hi
  refine ⟨m, ?_, hall, ?_⟩
  · rcases h3 with h3 | ⟨i, _, hi⟩
    · obtain ⟨t, ht⟩ := List.exists_mem_of_ne_nil _ hne
      have := hall t ht
      have := (h64 t ht).2
      have : t = m := by omega
      rw [← this]; exact ht
    · exact mem_setTimes.mpr ⟨i, hi⟩
  · unfold getMin
    simp only [e, Outcome.bind_ok]
    by_cases hm : m = invalidTime
    · rw [if_pos hm, decide_eq_false (by simpa using hm), Outcome.check_false, Outcome.bind_abort]
    · rw [if_neg hm, decide_eq_true hm, Outcome.check_true, Outcome.bind_ok]

/-- **C36 (maximum).** With one frame per camera: the result is the largest timestamp of the frames that are set;
if none is set, or none has a valid time, the call aborts. -/
theorem max_timestamp {ts : List (Option Int)} (h64 : ∀ t ∈ setTimes ts, Int64 t) :
    (setTimes ts = [] → getMax (some ts.length) ts = .abort) ∧
    (setTimes ts ≠ [] → ∃ m, m ∈ setTimes ts ∧ (∀ t ∈ setTimes ts, t ≤ m) ∧
      getMax (some ts.length) ts = if m = invalidTime then .abort else .ok m) := by
  obtain ⟨m, e, h1, h2, h3⟩ := maxLoop_spec ts (List.range ts.length) invalidTime
    (fun i hi => List.mem_range.mp hi)
  have hall : ∀ t ∈ setTimes ts, t ≤ m := by
    intro t ht
    obtain ⟨i, hi⟩ := mem_setTimes.mp ht
    exact h2 i (List.mem_range.mpr (List.getElem?_eq_some_iff.mp hi).1) t hi
  have hres : getMax (some ts.length) ts = if m = invalidTime then .abort else .ok m := by
    unfold getMax
    simp only [e, Outcome.bind_ok]
    by_cases hm : m = invalidTime
    · rw [if_pos hm, decide_eq_false (by simpa using hm), Outcome.check_false, Outcome.bind_abort]
    · rw [if_neg hm, decide_eq_true hm, Outcome.check_true, Outcome.bind_ok]
  constructor
  · intro hn
    rw [hres]
    rcases h3 with h3 | ⟨i, _, hi⟩
    · rw [if_pos h3]
    · have := mem_setTimes.mpr ⟨i, hi⟩
      rw [hn] at this; simp at this
  · intro hne
    refine ⟨m, ?_, hall, hres⟩
    rcases h3 with h3 | ⟨i, _, hi⟩
    · obtain ⟨t, ht⟩ := List.exists_mem_of_ne_nil _ hne
      have h4 := hall t ht
      have h5 := (h64 t ht).1
      have : t = m := by rw [h3] at h4 ⊢; unfold invalidTime at h4 ⊢; omega
      rw [← this]; exact ht
    · exact mem_setTimes.mpr ⟨i, hi⟩

/-- **C36 refuted (minimum).** With no frame set the minimum is the largest 64-bit number instead of an abort. -/
theorem min_unset_refuted : getMin (some 2) [none, none] = .ok (2 ^ 63 - 1) := rfl

/-- Non-vacuity. -/
example : getMin (some 3) [some 7, none, some 4] = .ok 4 ∧ getMax (some 3) [some 7, none, some 4] = .ok 7 :=
  ⟨rfl, rfl⟩

end Verif.VisualFrame.Copy
