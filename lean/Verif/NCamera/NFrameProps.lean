import Verif.NCamera.NFrame
import Verif.NCamera.Props

/-!
# C63: questions about the cameras asked to an n-frame
-/

namespace Verif.NCamera.NFrame

open Verif (Outcome)

/-- Without a rig every question ends the program. -/
theorem no_rig (cams : List Cam) (i : Nat) : getNumCameras none = .abort ∧ getT none i = .abort ∧
    getCamera cams none i = .abort ∧ getCameraId cams none i = .abort ∧ hasCameraWithId none i = .abort ∧
    getCameraIndex none i = .abort := ⟨rfl, rfl, rfl, rfl, rfl, rfl⟩

/-- With a rig whose ids and indices agree: the camera at an index has the id at this index, the id leads back to the
index and is known, and the mounting is that of the rig. -/
theorem queries_agree {cams : List Cam} {r : Rig} (A : Agree cams r) (hn : r.cameras.length ≤ 2 ^ 31) {i : Nat} {m : Nat}
    (hm : getNumCameras (some r) = .ok m) (hi : i < m) :
    ∃ c t, getCamera cams (some r) i = .ok c ∧ getCameraId cams (some r) i = .ok c.id ∧
      getCameraIndex (some r) c.id = .ok i ∧ hasCameraWithId (some r) c.id = .ok true ∧
      getT (some r) i = .ok t ∧ r.T[i]? = some t := by
  have hi' : i < r.cameras.length := by
    unfold getNumCameras rigOf at hm
    rw [Outcome.bind_ok] at hm
    cases hm
    exact hi
  obtain ⟨p, c, h1, h2, h3, -⟩ := A.pointer hi'
  obtain ⟨id, e1, e2, e3, -, t, e4, e5⟩ := index_of_id A hi' hn
  have hid : c.id = id := by
    unfold NCamera.getCameraId at e1
    rw [h1] at e1
    simp only [deref, h2, Outcome.bind_ok, getId, if_pos h3] at e1
    cases e1
    rfl
  subst hid
  refine ⟨c, t, ?_, ?_, ?_, ?_, ?_, e5⟩
  · unfold getCamera rigOf
    rw [Outcome.bind_ok, h1]
    simp only [deref, h2]
  · unfold getCameraId rigOf
    rw [Outcome.bind_ok, e1]
  · unfold getCameraIndex rigOf
    rw [Outcome.bind_ok, e2, Outcome.bind_ok]
    congr 1
    omega
  · unfold hasCameraWithId rigOf
    rw [Outcome.bind_ok, e3]
  · unfold getT rigOf
    rw [Outcome.bind_ok, e4]

/-- Indices past the end end the program. -/
theorem past_the_end (cams : List Cam) (r : Rig) {i m : Nat} (hm : getNumCameras (some r) = .ok m) (hi : m ≤ i) :
    getCamera cams (some r) i = .abort ∧ getCameraId cams (some r) i = .abort ∧ getT (some r) i = .abort := by
  have hi' : r.cameras.length ≤ i := by
    unfold getNumCameras rigOf at hm
    rw [Outcome.bind_ok] at hm
    cases hm
    exact hi
  refine ⟨?_, ?_, ?_⟩
  · unfold getCamera rigOf
    rw [Outcome.bind_ok, List.getElem?_eq_none hi']
  · unfold getCameraId rigOf NCamera.getCameraId
    rw [Outcome.bind_ok, List.getElem?_eq_none hi']
  · unfold getT rigOf NCamera.getT
    rw [Outcome.bind_ok, if_neg (by omega)]

/-- The index of a camera that the rig does not have is not -1 and not refused: it is 2^64 - 1. -/
theorem unknown_index_refuted {cams : List Cam} {r : Rig} (A : Agree cams r) {id : Nat} (hid : id ≠ 0)
    (hn : r.cameras.length ≤ 2 ^ 31) (h : ∀ i, getCameraId cams (some r) i ≠ .ok id) :
    hasCameraWithId (some r) id = .ok false ∧ getCameraIndex (some r) id = .ok (2 ^ 64 - 1) := by
  obtain ⟨h1, h2⟩ := absent_iff A hid hn
  have h' : ∀ i, NCamera.getCameraId cams r i ≠ .ok id := h
  refine ⟨?_, ?_⟩
  · unfold hasCameraWithId rigOf
    rw [Outcome.bind_ok]
    exact h2.2 h'
  · unfold getCameraIndex rigOf
    rw [Outcome.bind_ok, h1.2 h', Outcome.bind_ok]
    rfl

/-- Two cameras with the ids 5 and 7; there is none with id 6. -/
example : ∃ (cams : List Cam) (r : Rig), construct cams 9 [1, 2] [some 0, some 1] = .ok r ∧
    getNumCameras (some r) = .ok 2 ∧ getCameraIndex (some r) 7 = .ok 1 ∧ getCameraIndex (some r) 6 = .ok (2 ^ 64 - 1) :=
  ⟨[⟨5, 0, 0, true⟩, ⟨7, 0, 0, true⟩], _, rfl, rfl, rfl, rfl⟩

end Verif.NCamera.NFrame
