import Verif.VisualFrame.Test
import Verif.VisualFrame.NRigProps
import Verif.VisualFrame.Props
import Verif.NPipeline.MakeProps

/-!
# Property C138: frames and n-frames for tests
-/

namespace Verif.VisualFrame.Test

open Verif (Outcome)
open Verif.VisualFrame.Copy (World NF VF getMin getMax invalidTime Int64 setTimes)
open Verif.NPipeline.Make (call call_modify call_setFrame)

/-- C138: a test frame has no keypoints and no descriptors, but the channels for them, and one block of descriptors of
type 0; whatever was in the memory of the type. -/
theorem testChannels_spec (junk : Int) :
    ∃ f, testChannels junk = .ok f ∧ f.chan .measurements = some [] ∧ f.chan .uncertainties = some [] ∧
      (∀ c, c ≠ .measurements → c ≠ .uncertainties → f.chan c = none) ∧ f.descriptors = some [[]] ∧ f.types = some [0] ∧
      numMeasurements f = 0 ∧ numDescriptors f = 0 ∧ TypesMatch f := by
  refine ⟨_, rfl, rfl, rfl, ?_, rfl, rfl, rfl, rfl, ⟨rfl, ?_⟩⟩
  · intro c h1 h2
    simp [Frame.setChan, Frame.empty, h1, h2]
  · intro bs ts hb ht
    cases hb
    cases ht
    rfl

theorem testFrame_spec (cams : Nat → List Nat) (camera : Option Nat) (t : Int) (id : Nat) (w : World) :
    ∃ w' v, testFrame cams camera t id w = .ok (w', w.frames.length) ∧ w'.frames = w.frames ++ [v] ∧ w'.nframes = w.nframes ∧
      v.ts = t ∧ v.id = id ∧ v.cam = camera ∧ v.raw = none ∧ v.valid = true := by
  have e1 : call cams w (.frame .new) = .ok { w with
      store := { w.store with groups := w.store.groups ++ [[]] }
      frames := w.frames ++ [⟨invalidTime, 0, none, none, w.store.groups.length, true⟩] } := rfl
  unfold testFrame
  rw [e1, Outcome.bind_ok]
  rw [call_modify cams _ _ w.frames rfl (fun v => { v with cam := camera }) (op := .setCam w.frames.length camera) rfl,
    Outcome.bind_ok]
  rw [call_modify cams _ _ w.frames rfl (fun v => { v with ts := t }) (op := .setTs w.frames.length t) rfl, Outcome.bind_ok]
  rw [call_modify cams _ _ w.frames rfl (fun v => { v with id := id }) (op := .setId w.frames.length id) rfl,
    Outcome.bind_ok]
  exact ⟨_, _, rfl, rfl, rfl, rfl, rfl, rfl, rfl, rfl⟩

theorem testLoop_spec (cams : Nat → List Nat) {r k : Nat} (t : Int) (gen : Nat → Nat) : ∀ (n i : Nat) (w : World) (m : NF),
    i + n = (cams r).length → w.nframes[k]? = some m → m.rig = some r → m.frames.length = (cams r).length →
    ∃ w' m', testLoop cams r k t gen n i w = .ok w' ∧ w'.nframes = w.nframes.set k m' ∧ m'.id = m.id ∧ m'.rig = some r ∧
      m'.frames.length = (cams r).length ∧ w'.frames.take w.frames.length = w.frames ∧
      w'.frames.length = w.frames.length + n ∧ (∀ j < i, m'.frames[j]? = m.frames[j]?) ∧
      ∀ j < n, m'.frames[i + j]? = some (some (w.frames.length + j)) ∧
        ∃ v, w'.frames[w.frames.length + j]? = some v ∧ v.ts = t ∧ v.id = gen (i + j) ∧ v.cam = (cams r)[i + j]? ∧ v.raw = none ∧
          v.valid = true
  | 0, i, w, m, _, hk, hr, hl => by
    refine ⟨w, m, rfl, ?_, rfl, hr, hl, by simp, rfl, fun _ _ => rfl, fun j hj => absurd hj (Nat.not_lt_zero _)⟩
    exact (Copy.set_self hk).symm
  | n + 1, i, w, m, hin, hk, hr, hl => by
    obtain ⟨w1, v, h1, hfr, hnf, ht, hid, hc, hraw, hval⟩ := testFrame_spec cams ((cams r)[i]?) t (gen i) w
    have hil : i < (cams r).length := by omega
    have hcs : v.cam.isSome := by rw [hc, List.getElem?_eq_getElem hil]; rfl
    have hset := call_setFrame cams (w := w1) (k := k) (i := i) (f := w.frames.length) (n := m) (v := v) (by rw [hnf, hk])
      (by rw [hfr]; simp) hr (by omega) hc.symm hcs
    have hkl : k < w.nframes.length := (List.getElem?_eq_some_iff.1 hk).1
    obtain ⟨w2, m2, h2, hn2, hid2, hr2, hl2, htk, hln, hlow, hhigh⟩ := testLoop_spec cams t gen n (i + 1)
      { w1 with nframes := w1.nframes.set k { m with frames := m.frames.set i (some w.frames.length) } }
      { m with frames := m.frames.set i (some w.frames.length) } (by omega)
      (by simp only [hnf]; rw [List.getElem?_set_self hkl]) hr (by simp [hl])
    simp only [hfr, List.length_append, List.length_cons, List.length_nil, Nat.zero_add] at htk hln hhigh
    refine ⟨w2, m2, ?_, ?_, hid2, hr2, hl2, ?_, by omega, ?_, ?_⟩
    · unfold testLoop
      rw [h1, Outcome.bind_ok]
      simp only
      rw [hset, Outcome.bind_ok, h2]
    · rw [hn2]
      simp only [hnf, List.set_set]
    · have := congrArg (List.take w.frames.length) htk
      rw [List.take_take, Nat.min_eq_left (by omega)] at this
      rw [this]
      simp
    · intro j hj
      rw [hlow j (by omega)]
      simp only
      rw [List.getElem?_set_ne (by omega)]
    · rintro (_ | j) hj
      · refine ⟨?_, v, ?_, ht, hid, hc, hraw, hval⟩
        · rw [Nat.add_zero, Nat.add_zero, hlow i (by omega)]
          simp only
          rw [List.getElem?_set_self (by omega)]
        · have : (w2.frames.take (w.frames.length + 1))[w.frames.length]? = some v := by rw [htk]; simp
          rwa [List.getElem?_take_of_lt (by omega)] at this
      · obtain ⟨a, u, b, c⟩ := hhigh j (by omega)
        rw [show i + (j + 1) = i + 1 + j by omega, show w.frames.length + (j + 1) = w.frames.length + 1 + j by omega]
        exact ⟨a, u, b, c⟩

/-- C138: the test n-frame of a rig has a frame for each camera, of that camera, all at the given time; all that there was
before is as it was. -/
theorem testNFrame_made (cams : Nat → List Nat) (r : Nat) (t : Int) (id : Nat) (gen : Nat → Nat) (w : World) :
    ∃ w' n, testNFrame cams (some r) t id gen w = .ok w' ∧ w'.nframes = w.nframes ++ [n] ∧ n.id = id ∧ n.rig = some r ∧
      w'.frames.take w.frames.length = w.frames ∧ w'.frames.length = w.frames.length + (cams r).length ∧
      n.frames.length = (cams r).length ∧ ∀ i < (cams r).length, n.frames[i]? = some (some (w.frames.length + i)) ∧
        ∃ v, w'.frames[w.frames.length + i]? = some v ∧ v.ts = t ∧ v.id = gen i ∧ v.cam = (cams r)[i]? ∧ v.raw = none ∧
          v.valid = true := by
  obtain ⟨w1, m, h, hn, hid, hr, hl, htk, hln, -, hall⟩ := testLoop_spec cams (r := r) (k := w.nframes.length) t gen
    (cams r).length 0 { w with nframes := w.nframes ++ [⟨id, some r, List.replicate (cams r).length none⟩] }
    ⟨id, some r, List.replicate (cams r).length none⟩ (by omega) (by simp) rfl (by simp)
  refine ⟨w1, m, ?_, ?_, hid, hr, htk, hln, hl, ?_⟩
  · have e : call cams w (.newN id (some r) 0) =
        .ok { w with nframes := w.nframes ++ [⟨id, some r, List.replicate (cams r).length none⟩] } := rfl
    unfold testNFrame
    simp only
    rw [e, Outcome.bind_ok, h]
  · rw [hn]
    simp
  · intro i hi
    have := hall i hi
    simpa using this

/-- The times of the frames of an n-frame. -/
def times (w : World) (n : NF) : List (Option Int) := n.frames.map fun p => p.bind fun f => w.frames[f]?.map VF.ts

/-- C138: the earliest and the latest time of a test n-frame of a rig with cameras are the given time, if it is valid. -/
theorem testNFrame_times (cams : Nat → List Nat) {r : Nat} (hc : 0 < (cams r).length) {t : Int} (h64 : Int64 t)
    (hv : t ≠ invalidTime) (id : Nat) (gen : Nat → Nat) (w : World) :
    ∃ w' n, testNFrame cams (some r) t id gen w = .ok w' ∧ w'.nframes[w.nframes.length]? = some n ∧
      getMin (some (cams r).length) (times w' n) = .ok t ∧ getMax (some (cams r).length) (times w' n) = .ok t := by
  obtain ⟨w', n, h, hn, -, -, -, -, hl, hall⟩ := testNFrame_made cams r t id gen w
  have ht : times w' n = List.replicate (cams r).length (some t) := by
    refine List.ext_getElem? fun i => ?_
    unfold times
    by_cases hi : i < (cams r).length
    · obtain ⟨a, v, b, c, -⟩ := hall i hi
      simp [a, b, c, hi]
    · simp [List.getElem?_eq_none_iff.2 (show n.frames.length ≤ i by omega), hi]
  have hs : setTimes (times w' n) = List.replicate (cams r).length t := by
    rw [ht]
    unfold setTimes
    generalize (cams r).length = n
    induction n with
    | zero => rfl
    | succ n ih => rw [List.replicate_succ, List.replicate_succ, List.filterMap_cons]; simp
  have hne : setTimes (times w' n) ≠ [] := by
    rw [hs]
    intro e
    have := congrArg List.length e
    rw [List.length_replicate, List.length_nil] at this
    omega
  have hall64 : ∀ u ∈ setTimes (times w' n), Int64 u := by
    intro u hu
    rw [hs] at hu
    rw [(List.mem_replicate.1 hu).2]
    exact h64
  have hlen : (times w' n).length = (cams r).length := by rw [ht]; simp
  refine ⟨w', n, h, by rw [hn]; simp, ?_, ?_⟩
  · obtain ⟨m, hm, -, e⟩ := Copy.min_timestamp_partial hne hall64
    rw [hs] at hm
    rw [(List.mem_replicate.1 hm).2, if_neg hv, hlen] at e
    exact e
  · obtain ⟨m, hm, -, e⟩ := (Copy.max_timestamp hall64).2 hne
    rw [hs] at hm
    rw [(List.mem_replicate.1 hm).2, if_neg hv, hlen] at e
    exact e

/-- Two cameras, with a frame there before. -/
example : ∃ w w' n, Copy.nrun (fun _ => [5, 6]) [.frame .new] World.empty = some (.ok w) ∧
    testNFrame (fun _ => [5, 6]) (some 0) 77 1 (· + 10) w = .ok w' ∧ w'.nframes = [n] ∧
    n.frames = [some 1, some 2] ∧ w'.frames.map VF.cam = [none, some 5, some 6] ∧ w'.frames.map VF.id = [0, 10, 11] ∧
    w'.frames.map VF.ts = [invalidTime, 77, 77] :=
  ⟨_, _, _, rfl, rfl, rfl, rfl, rfl, rfl, rfl⟩

/-- C138 refuted: a test n-frame of a rig without cameras has the time 9223372036854775807 instead. -/
theorem testNFrame_empty_refuted (t : Int) (id : Nat) (gen : Nat → Nat) :
    ∃ w n, testNFrame (fun _ => []) (some 0) t id gen World.empty = .ok w ∧ w.nframes = [n] ∧
      getMin (some 0) (times w n) = .ok (2 ^ 63 - 1) :=
  ⟨_, _, rfl, rfl, rfl⟩

end Verif.VisualFrame.Test
