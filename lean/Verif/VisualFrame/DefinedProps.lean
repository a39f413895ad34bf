import Verif.VisualFrame.Props

/-!
# Descriptors of frames whose types do not fit (C33)

For frames in any state, also those whose descriptor types are missing, too few or too many: what ends the program in a
controlled way and what is undefined.
-/

namespace Verif.VisualFrame

open Verif (Outcome)

/-- The frame has descriptors of this type, but no block for it. -/
def NoBlock (f : Frame) (t : Int) : Prop :=
  ∃ blocks ts, f.descriptors = some blocks ∧ f.types = some ts ∧ t ∈ ts ∧ t ∉ ts.take blocks.length

theorem blockForIndex_ok : ∀ {blocks : List (List Desc)} {i : Nat} {r : Nat × Nat}, blockForIndex blocks i = .ok r →
    ∃ b d, blocks[r.1]? = some b ∧ b[r.2]? = some d
  | [], _, _, h => by simp [blockForIndex] at h
  | b :: bs, i, r, h => by
    unfold blockForIndex at h
    split at h
    · rename_i hi
      cases h
      exact ⟨b, b[i], rfl, List.getElem?_eq_getElem hi⟩
    · obtain ⟨q, hq, e⟩ := Outcome.bind_eq_ok.1 h
      cases e
      obtain ⟨b', d, h1, h2⟩ := blockForIndex_ok hq
      exact ⟨b', d, by simpa using h1, h2⟩

theorem blockForIndex_not_ub : ∀ (blocks : List (List Desc)) (i : Nat), blockForIndex blocks i ≠ .ub
  | [], _ => by simp [blockForIndex]
  | b :: bs, i => by
    unfold blockForIndex
    split
    · simp
    · cases h : blockForIndex bs (i - b.length) with
      | ub => exact absurd h (blockForIndex_not_ub bs _)
      | _ => simp [Outcome.bind]

/-- Reading descriptors and their types one by one, and writing, swapping and adding blocks is never undefined,
whatever the frame is like. -/
theorem descriptor_calls_defined (f : Frame) (i : Nat) (block : List Desc) (t junk : Int) :
    getDescriptor f i ≠ .ub ∧ getDescriptorType f i ≠ .ub ∧ blockType f i ≠ .ub ∧ numOfType f t ≠ .ub ∧
      setDescriptors f block i t ≠ .ub ∧ swapDescriptors f block i t junk ≠ .ub ∧
      extendDescriptors f block t ≠ .ub := by
  have hbt : ∀ b, blockType f b ≠ .ub := by
    intro b
    unfold blockType
    cases f.types with
    | none => simp [get]
    | some ts =>
      simp only [get, Outcome.bind_ok]
      split <;> simp
  have hw : withDescriptors f ≠ .ub := by
    unfold withDescriptors
    split <;> simp
  have hc : ∀ b : Bool, Outcome.check b ≠ .ub := by intro b; cases b <;> simp [Outcome.check]
  refine ⟨?_, ?_, hbt i, ?_, ?_, ?_, ?_⟩
  · unfold getDescriptor
    cases f.descriptors with
    | none => simp [get]
    | some blocks =>
      simp only [get, Outcome.bind_ok]
      cases h : blockForIndex blocks i with
      | ub => exact absurd h (blockForIndex_not_ub _ _)
      | ok r =>
        obtain ⟨b, d, h1, h2⟩ := blockForIndex_ok h
        simp [h1, h2]
      | _ => simp
  · unfold getDescriptorType
    cases f.descriptors with
    | none => simp [get]
    | some blocks =>
      simp only [get, Outcome.bind_ok]
      cases h : blockForIndex blocks i with
      | ub => exact absurd h (blockForIndex_not_ub _ _)
      | ok r => simpa using hbt r.1
      | _ => simp
  · unfold numOfType hasDescriptorType typeBlock
    cases f.chan .measurements with
    | none => simp
    | some m =>
      cases f.descriptors with
      | none => simp [get]
      | some blocks =>
        cases f.types with
        | none => simp [get]
        | some ts =>
          simp only [get, Outcome.bind_ok]
          split
          · split
            · simp
            · simp only [Outcome.bind_ok]
              split <;> simp
          · simp
  · unfold setDescriptors
    cases h : withDescriptors f with
    | ub => exact absurd h hw
    | ok r =>
      simp only [Outcome.bind_ok]
      cases hk : decide (r.1.length = r.2.length) with
      | false => simp [Outcome.check]
      | true =>
        simp only [Outcome.check_true, Outcome.bind_ok]
        split
        · simp
        · split <;> simp
    | _ => simp
  · unfold swapDescriptors
    cases h : withDescriptors f with
    | ub => exact absurd h hw
    | ok r =>
      simp only [Outcome.bind_ok]
      cases hk : decide (r.1.length = r.2.length) with
      | false => simp [Outcome.check]
      | true =>
        simp only [Outcome.check_true, Outcome.bind_ok]
        split <;> simp
    | _ => simp
  · unfold extendDescriptors
    cases h : withDescriptors f with
    | ub => exact absurd h hw
    | ok r =>
      simp only [Outcome.bind_ok]
      cases hk : decide (r.1.length = r.2.length) with
      | false => simp [Outcome.check]
      | true => simp
    | _ => simp

/-- Where the descriptors of a type are is undefined exactly if the type is listed, but only beyond the number of the
blocks. -/
theorem startAndSize_ub (f : Frame) (t : Int) : startAndSize f t = .ub ↔ NoBlock f t := by
  unfold startAndSize typeBlock NoBlock
  cases hd : f.descriptors with
  | none => simp [get]
  | some blocks =>
    cases ht : f.types with
    | none => simp [get]
    | some ts =>
      simp only [get, Outcome.bind_ok, Option.some.injEq, exists_eq_left', exists_and_left]
      cases hf : ts.findIdx? (fun x => decide (x = t)) with
      | none =>
        rw [List.findIdx?_eq_none_iff] at hf
        simp only [Outcome.bind_abort, reduceCtorEq, false_iff, not_and]
        intro hm
        simpa using hf t hm
      | some b =>
        simp only [Outcome.bind_ok]
        obtain ⟨hb, hbt, hlt⟩ := List.findIdx?_eq_some_iff_getElem.1 hf
        have hmem : t ∈ ts := by
          have : ts[b] = t := by simpa using hbt
          exact this ▸ List.getElem_mem hb
        cases hblk : blocks[b]? with
        | none =>
          have hle : blocks.length ≤ b := List.getElem?_eq_none_iff.1 hblk
          simp only [true_iff]
          refine ⟨hmem, fun hin => ?_⟩
          obtain ⟨j, hj, e⟩ := List.mem_iff_getElem.1 hin
          rw [List.getElem_take] at e
          have hjb : j < b := by
            rw [List.length_take] at hj
            omega
          have := hlt j hjb
          simp [e] at this
        | some blk =>
          have hlt' : b < blocks.length := by
            rcases Nat.lt_or_ge b blocks.length with h | h
            · exact h
            · rw [List.getElem?_eq_none_iff.2 h] at hblk; simp at hblk
          simp only [reduceCtorEq, false_iff, not_and, not_not]
          intro _
          rw [List.mem_iff_getElem]
          refine ⟨b, by rw [List.length_take]; omega, ?_⟩
          rw [List.getElem_take]
          simpa using hbt

/-- Two types for one block. -/
example : NoBlock { Frame.empty with descriptors := some [[[1], [2]]], types := some [0, 1] } 1 :=
  ⟨[[[1], [2]]], [0, 1], rfl, rfl, by simp, by simp⟩

/-- C33: a frame has a type of descriptors if it has descriptors and the type is in its list; without descriptors it has
none, and with descriptors but without types the question ends the program. -/
theorem hasDescriptorType_spec (f : Frame) (t : Int) :
    (hasDescriptorType f t = .ok true ↔ f.descriptors.isSome ∧ ∃ ts, f.types = some ts ∧ t ∈ ts) ∧
    (f.descriptors = none → hasDescriptorType f t = .ok false) ∧
    (hasDescriptorType f t = .abort ↔ f.descriptors.isSome ∧ f.types = none) := by
  unfold hasDescriptorType
  cases hd : f.descriptors with
  | none => simp
  | some blocks =>
    cases ht : f.types with
    | none => simp [get]
    | some ts => simp [get]

/-- A frame with two blocks of types 4 and 9, and one without descriptors. -/
example : hasDescriptorType { Frame.empty with descriptors := some [[], []], types := some [4, 9] } 9 = .ok true ∧
    hasDescriptorType Frame.empty 9 = .ok false := ⟨rfl, rfl⟩

end Verif.VisualFrame
