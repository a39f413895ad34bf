import Mathlib.Tactic.Linarith
import Verif.GeometricVision.Matches
import Verif.Camera.Props

/-! C60 (outlier rejection), C75 (bearing vectors and prediction of keypoints by rotation). -/

namespace Verif.GeometricVision

open Verif

variable {K V : Type}

/-! ## The loops -/

theorem setLoop_length {α β : Type} (f : α → β) (i : Nat) (xs : List α) (out : List β) :
    (setLoop f i xs out).length = out.length := by
  induction xs generalizing i out with
  | nil => rfl
  | cons x xs ih => simp [setLoop, ih]

theorem setLoop_eq {α β : Type} (f : α → β) (xs : List α) (pre out : List β) (h : out.length = xs.length) :
    setLoop f pre.length xs (pre ++ out) = pre ++ xs.map f := by
  induction xs generalizing pre out with
  | nil => simp [setLoop, List.length_eq_zero_iff.1 (by simpa using h)]
  | cons x xs ih =>
    obtain ⟨y, ys, rfl⟩ : ∃ y ys, out = y :: ys := by
      cases out with
      | nil => simp at h
      | cons y ys => exact ⟨y, ys, rfl⟩
    have e := ih (pre ++ [f x]) ys (by simpa using h)
    simp only [List.length_append, List.length_singleton] at e
    simp only [setLoop, List.map_cons]
    rw [List.set_append_right _ _ (Nat.le_refl _), Nat.sub_self, List.set_cons_zero]
    simpa using e

theorem setLoop_map {α β : Type} (f : α → β) (xs : List α) (out : List β) (h : out.length = xs.length) :
    setLoop f 0 xs out = xs.map f := by
  simpa using setLoop_eq f xs [] out h

theorem resize_length {α : Type} (n : Nat) (x : α) (l : List α) : (resize n x l).length = n := by
  simp only [resize, List.length_append, List.length_take, List.length_replicate]
  omega

/-- The vectorised functions do what the single ones do, whatever the caller's vectors contained. -/
theorem backProject3Vectorized_eq (c : Cam K V) (point : V) (ks : List K) (success : List Bool) :
    backProject3Vectorized c point ks success =
      (ks.map fun k => (c.backProject k).1, ks.map fun k => (c.backProject k).2) := by
  unfold backProject3Vectorized
  rw [setLoop_map _ _ _ (by simp), setLoop_map _ _ _ (resize_length _ _ _)]

theorem project3Vectorized_eq (c : Cam K V) (keypoint : K) (ps : List V) :
    project3Vectorized c keypoint ps = (ps.map fun p => (c.project p).1, ps.map fun p => (c.project p).2) := by
  unfold project3Vectorized
  rw [setLoop_map _ _ _ (by simp), setLoop_map _ _ _ (by simp)]

/-! ## C75: bearing vectors -/

theorem gather_ok {keypoints : List K} {is : List Nat} (h : ∀ i ∈ is, i < keypoints.length) :
    ∃ ks, gather keypoints is = .ok ks ∧ ks.length = is.length ∧
      ∀ j i : Nat, is[j]? = some i → ks[j]? = keypoints[i]? := by
  induction is with
  | nil => exact ⟨[], rfl, rfl, by simp⟩
  | cons i is ih =>
    obtain ⟨ks, e, hl, hs⟩ := ih fun j hj => h j (List.mem_cons_of_mem _ hj)
    have hi := h i List.mem_cons_self
    have hk := List.getElem?_eq_getElem hi
    refine ⟨keypoints[i] :: ks, ?_, by simp [hl], ?_⟩
    · simp only [gather]
      rw [if_pos hi.le, hk, e]
      rfl
    · intro j i' hj
      cases j with
      | zero =>
        simp only [List.getElem?_cons_zero, Option.some.injEq] at hj ⊢
        rw [← hj, hk]
      | succ j =>
        simp only [List.getElem?_cons_succ] at hj ⊢
        exact hs j i' hj

/-- C75: with valid indices, entry `j` is the normalised back-projection of the keypoint with the `j`-th index, and its flag
is the success of that back-projection. -/
theorem bearing_spec (c : Cam K V) (normalize : V → V) (point : V) (keypoints : List K) (is : List Nat)
    (h : ∀ i ∈ is, i < keypoints.length) :
    ∃ r, getNormalizedBearingVectors c normalize point keypoints is = .ok r ∧ r.1.length = is.length ∧
      r.2.length = is.length ∧ ∀ (j i : Nat) (k : K), is[j]? = some i → keypoints[i]? = some k →
        r.1[j]? = some (normalize (c.backProject k).1) ∧ r.2[j]? = some (c.backProject k).2 := by
  obtain ⟨ks, e, hl, hs⟩ := gather_ok h
  unfold getNormalizedBearingVectors
  cases is with
  | nil => exact ⟨([], []), rfl, rfl, rfl, by simp⟩
  | cons i0 is =>
    rw [if_neg (by simp), e]
    refine ⟨_, rfl, ?_, ?_, ?_⟩
    · simp [backProject3Vectorized_eq, hl]
    · simp [backProject3Vectorized_eq, hl]
    · intro j i k hj hk
      have := hs j i hj
      simp [backProject3Vectorized_eq, this, hk]

/-- C75: the two lists for a set of matches are in the order of the matches. -/
theorem bearing_matches_partial (c1 c0 : Cam K V) (normalize : V → V) (point : V) (kp1 kp0 : List K)
    (ms : List (Nat × Nat)) (h : ∀ m ∈ ms, m.1 < kp1.length ∧ m.2 < kp0.length) :
    ∃ b, getBearingVectorsFromMatches c1 c0 normalize point kp1 kp0 ms = .ok b ∧ b.1.length = ms.length ∧
      b.2.length = ms.length ∧ ∀ (j : Nat) (m : Nat × Nat) (k1 k0 : K), ms[j]? = some m → kp1[m.1]? = some k1 →
        kp0[m.2]? = some k0 →
          b.1[j]? = some (normalize (c1.backProject k1).1) ∧ b.2[j]? = some (normalize (c0.backProject k0).1) := by
  obtain ⟨r1, e1, l1, -, s1⟩ := bearing_spec c1 normalize point kp1 (ms.map Prod.fst) (by
    intro i hi
    obtain ⟨m, hm, rfl⟩ := List.mem_map.1 hi
    exact (h m hm).1)
  obtain ⟨r0, e0, l0, -, s0⟩ := bearing_spec c0 normalize point kp0 (ms.map Prod.snd) (by
    intro i hi
    obtain ⟨m, hm, rfl⟩ := List.mem_map.1 hi
    exact (h m hm).2)
  refine ⟨(r1.1, r0.1), ?_, by simpa using l1, by simpa using l0, ?_⟩
  · unfold getBearingVectorsFromMatches
    rw [e1, e0]
    rfl
  · intro j m k1 k0 hj h1 h0
    exact ⟨(s1 j m.1 k1 (by simp [hj]) h1).1, (s0 j m.2 k0 (by simp [hj]) h0).1⟩

/-- C75 fails at the boundary: the index one past the last keypoint passes the check and is read. -/
theorem bearing_index_refuted (c : Cam K V) (normalize : V → V) (point : V) (keypoints : List K) (is : List Nat) :
    getNormalizedBearingVectors c normalize point keypoints (keypoints.length :: is) = .ub := by
  simp [getNormalizedBearingVectors, gather]

/-- Indices beyond that are caught. -/
theorem bearing_index_far (c : Cam K V) (normalize : V → V) (point : V) (keypoints : List K) (is : List Nat) (i : Nat)
    (h : keypoints.length < i) : getNormalizedBearingVectors c normalize point keypoints (i :: is) = .abort := by
  unfold getNormalizedBearingVectors gather
  rw [if_neg (by simp), if_neg (by omega)]
  rfl

/-- C75 fails for keypoints that cannot be back-projected: the flags are dropped, so a match of such a keypoint is handed on
like any other. -/
theorem bearing_failure_refuted : ∃ (c : Cam Nat Int) (kp : List Nat) (ms : List (Nat × Nat)),
    (∀ k, (c.backProject k).2 = decide (k ≠ 3)) ∧ (kp[1]?.map fun k => (c.backProject k).2) = some false ∧
      getBearingVectorsFromMatches c c id 0 kp kp ms = .ok ([5, -7], [-7, 5]) :=
  ⟨⟨fun k => if k = 3 then (-7, false) else (k, true), fun v => (v.toNat, true)⟩, [5, 3], [(0, 1), (1, 0)],
    fun k => by by_cases h : k = 3 <;> simp [h], by decide, by decide⟩

/-- The hypotheses of `bearing_matches_partial` are met by matches in both directions. -/
example : getBearingVectorsFromMatches (K := Nat) (V := Int) ⟨fun k => (k, true), fun v => (v.toNat, true)⟩
    ⟨fun k => (-k, true), fun v => (v.toNat, true)⟩ (· * 2) 0 [10, 11, 12] [20, 21] [(2, 0), (0, 1)] =
      .ok ([24, 20], [-40, -42]) := by decide

/-! ## C60: outlier rejection -/

theorem insertAll_mem (s xs : List Nat) (x : Nat) : x ∈ insertAll s xs ↔ x ∈ s ∨ x ∈ xs := by
  induction xs generalizing s with
  | nil => simp [insertAll]
  | cons y ys ih =>
    simp only [insertAll, ih, List.mem_cons]
    by_cases h : s.contains y = true
    · rw [if_pos h]
      have : y ∈ s := by simpa using h
      constructor
      · rintro (h | h) <;> tauto
      · rintro (h | rfl | h) <;> tauto
    · rw [if_neg h]
      simp only [List.mem_append, List.mem_singleton]
      tauto

theorem insertAll_nodup {s : List Nat} (xs : List Nat) (h : s.Nodup) : (insertAll s xs).Nodup := by
  induction xs generalizing s with
  | nil => exact h
  | cons y ys ih =>
    simp only [insertAll]
    apply ih
    by_cases hy : s.contains y = true
    · rw [if_pos hy]
      exact h
    · rw [if_neg hy]
      have hy' : y ∉ s := by simpa using hy
      rw [List.nodup_append]
      exact ⟨h, by simp, by
        intro a ha b hb
        rw [List.mem_singleton.1 hb]
        rintro rfl
        exact hy' ha⟩

/-- The index sets: which indices are kept, when the function succeeds, and what is left if it does not. -/
theorem rejectIndices_spec {threshold : ℚ} {it n : Nat} {rot tra : List Nat} {r : Bool × List Nat}
    (h : rejectIndices threshold it n rot tra = .ok r) :
    0 < threshold ∧ 0 < it ∧
      (r.1 = true → 6 ≤ n ∧ r.2.Nodup ∧ 6 ≤ r.2.length ∧ ∀ i, i ∈ r.2 ↔ i ∈ rot ∨ i ∈ tra) ∧
      (r.1 = false → r.2 = [] ∧ (n < 6 ∨ ∀ s : List Nat, s.Nodup → (∀ i ∈ s, i ∈ rot ∨ i ∈ tra) → s.length < 6)) := by
  unfold rejectIndices at h
  by_cases h1 : threshold > 0
  · rw [if_neg (not_not.2 h1)] at h
    by_cases h2 : it > 0
    · rw [if_neg (not_not.2 h2)] at h
      refine ⟨h1, h2, ?_⟩
      have hmem : ∀ i, i ∈ insertAll (insertAll [] rot) tra ↔ i ∈ rot ∨ i ∈ tra := by
        intro i
        simp [insertAll_mem]
      have hnd : (insertAll (insertAll [] rot) tra).Nodup := insertAll_nodup _ (insertAll_nodup _ List.nodup_nil)
      by_cases h3 : n < 6
      · rw [if_pos h3] at h
        injection h with h
        subst h
        exact ⟨(by intro h; cases h), fun _ => ⟨rfl, .inl h3⟩⟩
      · rw [if_neg h3] at h
        simp only at h
        by_cases h4 : (insertAll (insertAll [] rot) tra).length < 6
        · rw [if_pos h4] at h
          injection h with h
          subst h
          refine ⟨(by intro h; cases h), fun _ => ⟨rfl, .inr fun s hs hsub => ?_⟩⟩
          have : s.Subperm (insertAll (insertAll [] rot) tra) :=
            List.subperm_of_subset hs fun i hi => (hmem i).2 (hsub i hi)
          exact lt_of_le_of_lt this.length_le h4
        · rw [if_neg h4] at h
          injection h with h
          subst h
          exact ⟨fun _ => ⟨by omega, hnd, by simpa using h4, hmem⟩, (by intro h; cases h)⟩
    · rw [if_pos h2] at h
      cases h
  · rw [if_pos h1] at h
    cases h

/-- The elements of a list whose positions satisfy `p`, in order (positions counted from `i`). -/
def atPositions {M : Type} (p : Nat → Bool) : Nat → List M → List M
  | _, [] => []
  | i, m :: ms => if p i then m :: atPositions p (i + 1) ms else atPositions p (i + 1) ms

theorem splitLoop_eq {M : Type} (s : List Nat) (i : Nat) (ms : List M) (r : List M × List M) :
    splitLoop s i ms r =
      (r.1 ++ atPositions (fun j => s.contains j) i ms, r.2 ++ atPositions (fun j => !s.contains j) i ms) := by
  induction ms generalizing i r with
  | nil => simp [splitLoop, atPositions]
  | cons m ms ih =>
    simp only [splitLoop, atPositions, ih]
    by_cases h : s.contains i = true
    · rw [if_pos h, if_pos h, if_neg (by simpa using h)]
      simp
    · rw [if_neg h, if_neg h, if_pos (by simpa using h)]
      simp

theorem atPositions_perm {M : Type} (p : Nat → Bool) (i : Nat) (ms : List M) :
    (atPositions p i ms ++ atPositions (fun j => !p j) i ms).Perm ms := by
  induction ms generalizing i with
  | nil => exact .nil
  | cons m ms ih =>
    simp only [atPositions]
    by_cases h : p i = true
    · simp only [h, if_true, Bool.not_true, Bool.false_eq_true, if_false, List.cons_append]
      exact (ih _).cons _
    · simp only [h, Bool.false_eq_true, if_false, Bool.not_false, if_true]
      exact List.perm_middle.trans ((ih _).cons _)

theorem atPositions_sublist {M : Type} (p : Nat → Bool) (i : Nat) (ms : List M) : (atPositions p i ms).Sublist ms := by
  induction ms generalizing i with
  | nil => exact .slnil
  | cons m ms ih =>
    simp only [atPositions]
    split
    · exact (ih _).cons_cons _
    · exact (ih _).cons _

theorem atPositions_false {M : Type} (i : Nat) (ms : List M) : atPositions (fun _ => false) i ms = [] := by
  induction ms generalizing i with
  | nil => rfl
  | cons m ms ih => simp [atPositions, ih]

theorem atPositions_true {M : Type} (i : Nat) (ms : List M) : atPositions (fun _ => true) i ms = ms := by
  induction ms generalizing i with
  | nil => rfl
  | cons m ms ih => simp [atPositions, ih]

/-- Which matches are at the chosen positions. -/
theorem atPositions_zipIdx {M : Type} (p : Nat → Bool) (i : Nat) (ms : List M) :
    atPositions p i ms = ((ms.zipIdx i).filter fun e => p e.2).map Prod.fst := by
  induction ms generalizing i with
  | nil => rfl
  | cons m ms ih =>
    simp only [atPositions, List.zipIdx_cons, List.filter_cons]
    by_cases h : p i = true
    · simp [h, ih]
    · simp [h, ih]

section Reject

variable {c1 c0 : Cam K V} {normalize : V → V} {point : V} {kp1 kp0 : List K} {rot tra : List V → List V → List Nat}
  {threshold : ℚ} {it : Nat} {ms : List (Nat × Nat)}

/-- C60 for output lists that are empty on entry (see `reject_outputs_refuted`): with valid matches and parameters the
function returns; the two lists keep the order of the matches and together contain each match once; on success there are at
least six inliers, namely the matches at the positions that either RANSAC run called inliers; on failure all matches are
outliers. -/
theorem reject_partition_partial (ht : 0 < threshold) (hit : 0 < it)
    (hm : ∀ m ∈ ms, m.1 < kp1.length ∧ m.2 < kp0.length)
    (hr : ∀ b1 b0, ∀ i ∈ rot b1 b0 ++ tra b1 b0, i < b1.length) :
    ∃ b success inl out, getBearingVectorsFromMatches c1 c0 normalize point kp1 kp0 ms = .ok b ∧
      rejectMatches c1 c0 normalize point kp1 kp0 rot tra threshold it ms ([], []) = .ok (success, inl, out) ∧
      (inl ++ out).Perm ms ∧ inl.Sublist ms ∧ out.Sublist ms ∧
      (success = true → 6 ≤ inl.length ∧
        inl = (ms.zipIdx.filter fun e => decide (e.2 ∈ rot b.1 b.2 ∨ e.2 ∈ tra b.1 b.2)).map Prod.fst ∧
        out = (ms.zipIdx.filter fun e => decide ¬ (e.2 ∈ rot b.1 b.2 ∨ e.2 ∈ tra b.1 b.2)).map Prod.fst) ∧
      (success = false → inl = [] ∧ out = ms ∧ (ms.length < 6 ∨
        ((List.range ms.length).filter fun i => decide (i ∈ rot b.1 b.2 ∨ i ∈ tra b.1 b.2)).length < 6)) := by
  obtain ⟨b, e, l1, l0, -⟩ := bearing_matches_partial c1 c0 normalize point kp1 kp0 ms hm
  obtain ⟨r, er⟩ : ∃ r, rejectIndices threshold it b.1.length (rot b.1 b.2) (tra b.1 b.2) = .ok r := by
    unfold rejectIndices
    rw [if_neg (not_not.2 ht), if_neg (not_not.2 hit)]
    split
    · exact ⟨_, rfl⟩
    · simp only
      split
      · exact ⟨_, rfl⟩
      · exact ⟨_, rfl⟩
  have hp := atPositions_perm (fun j => r.2.contains j) 0 ms
  have hs := splitLoop_eq r.2 0 ms ([], [])
  simp only [List.nil_append] at hs
  obtain ⟨-, -, hT, hF⟩ := rejectIndices_spec er
  have hlen : (splitLoop r.2 0 ms ([], [])).1.length + (splitLoop r.2 0 ms ([], [])).2.length = ms.length := by
    rw [hs, ← hp.length_eq, List.length_append]
  refine ⟨b, r.1, atPositions (fun j => r.2.contains j) 0 ms, atPositions (fun j => !r.2.contains j) 0 ms, e, ?_, ?_, ?_, ?_, ?_, ?_⟩
  · unfold rejectMatches
    rw [e, Outcome.bind_ok, er, Outcome.bind_ok]
    simp only
    rw [if_pos hlen, hs]
  · exact hp
  · exact atPositions_sublist _ _ _
  · exact atPositions_sublist _ _ _
  · intro h
    obtain ⟨h6, hnd, hl, hmem⟩ := hT h
    have ep : (fun j => r.2.contains j) = fun j => decide (j ∈ rot b.1 b.2 ∨ j ∈ tra b.1 b.2) := by
      funext j
      rw [Bool.eq_iff_iff, decide_eq_true_iff, ← hmem j]
      simp
    have en : (fun j => !r.2.contains j) = fun j => decide ¬ (j ∈ rot b.1 b.2 ∨ j ∈ tra b.1 b.2) := by
      funext j
      rw [congrFun ep j, decide_not]
    refine ⟨?_, ?_, ?_⟩
    · -- the chosen positions are at least six
      rw [atPositions_zipIdx, List.length_map]
      have hsub : r.2 ⊆ ((ms.zipIdx 0).filter fun e => r.2.contains e.2).map Prod.snd := by
        intro i hi
        have hi' : i < ms.length := by
          rw [← l1]
          exact hr _ _ i (List.mem_append.2 ((hmem i).1 hi))
        refine List.mem_map.2 ⟨(ms[i], i), List.mem_filter.2 ⟨?_, by simpa using hi⟩, rfl⟩
        rw [List.mem_zipIdx_iff_getElem?]
        simp [hi']
      have := (List.subperm_of_subset hnd hsub).length_le
      rw [List.length_map] at this
      omega
    · rw [ep, atPositions_zipIdx]
    · rw [en, atPositions_zipIdx]
  · intro h
    obtain ⟨h0, h1⟩ := hF h
    refine ⟨?_, ?_, ?_⟩
    · rw [h0]
      simp only [List.contains_nil]
      exact atPositions_false 0 ms
    · rw [h0]
      simp only [List.contains_nil, Bool.not_false]
      exact atPositions_true 0 ms
    · rcases h1 with h1 | h1
      · exact .inl (by omega)
      · refine .inr (h1 _ (List.nodup_range.filter _) fun i hi => ?_)
        simpa using (List.mem_filter.1 hi).2

/-- C60 fails if an output list is not empty on entry: the matches are appended to it, and then the final check ends the
program. -/
theorem reject_outputs_refuted (ht : 0 < threshold) (hit : 0 < it)
    (hm : ∀ m ∈ ms, m.1 < kp1.length ∧ m.2 < kp0.length) (outputs : List (Nat × Nat) × List (Nat × Nat))
    (ho : outputs.1 ≠ [] ∨ outputs.2 ≠ []) :
    rejectMatches c1 c0 normalize point kp1 kp0 rot tra threshold it ms outputs = .abort := by
  obtain ⟨b, e, l1, l0, -⟩ := bearing_matches_partial c1 c0 normalize point kp1 kp0 ms hm
  obtain ⟨r, er⟩ : ∃ r, rejectIndices threshold it b.1.length (rot b.1 b.2) (tra b.1 b.2) = .ok r := by
    unfold rejectIndices
    rw [if_neg (not_not.2 ht), if_neg (not_not.2 hit)]
    split
    · exact ⟨_, rfl⟩
    · simp only
      split
      · exact ⟨_, rfl⟩
      · exact ⟨_, rfl⟩
  have hp := (atPositions_perm (fun j => r.2.contains j) 0 ms).length_eq
  rw [List.length_append] at hp
  unfold rejectMatches
  rw [e, Outcome.bind_ok, er, Outcome.bind_ok]
  simp only
  rw [splitLoop_eq, if_neg]
  simp only [List.length_append]
  rcases ho with ho | ho
  · have := List.length_pos_iff.2 ho
    omega
  · have := List.length_pos_iff.2 ho
    omega

end Reject

/-- Seven matches; both runs find five inliers, together seven minus one: success, one outlier. -/
example : rejectMatches (K := Nat) (V := Int) ⟨fun k => (k, true), fun v => (v.toNat, true)⟩
    ⟨fun k => (k, true), fun v => (v.toNat, true)⟩ id 0 (List.range 7) (List.range 7) (fun _ _ => [0, 1, 2, 3, 4])
    (fun _ _ => [6, 4, 3, 2, 1]) 1 1 [(0, 0), (1, 1), (2, 2), (3, 3), (4, 4), (5, 5), (6, 6)] ([], []) =
      .ok (true, [(0, 0), (1, 1), (2, 2), (3, 3), (4, 4), (6, 6)], [(5, 5)]) := by decide

/-- The same matches and two runs that agree on five: failure, everything is an outlier. -/
example : rejectMatches (K := Nat) (V := Int) ⟨fun k => (k, true), fun v => (v.toNat, true)⟩
    ⟨fun k => (k, true), fun v => (v.toNat, true)⟩ id 0 (List.range 7) (List.range 7) (fun _ _ => [0, 1, 2, 3, 4])
    (fun _ _ => [4, 3, 2, 1]) 1 1 [(0, 0), (1, 1), (2, 2), (3, 3), (4, 4), (5, 5), (6, 6)] ([], []) =
      .ok (false, [], [(0, 0), (1, 1), (2, 2), (3, 3), (4, 4), (5, 5), (6, 6)]) := by decide

/-! ## C75: prediction by rotation -/

theorem resolve_spec {ks ps : List K} {ss vs : List Bool} (h1 : ps.length = ks.length) (h2 : ss.length = ks.length)
    (h3 : vs.length = ks.length) :
    (resolve ks ps ss vs).1.length = ks.length ∧ (resolve ks ps ss vs).2.length = ks.length ∧
      ∀ (i : Nat) (k p : K) (s v : Bool), ks[i]? = some k → ps[i]? = some p → ss[i]? = some s → vs[i]? = some v →
        (resolve ks ps ss vs).1[i]? = some (if s && v then p else k) ∧
          (resolve ks ps ss vs).2[i]? = some (s && v) := by
  induction ks generalizing ps ss vs with
  | nil =>
    rw [List.length_eq_zero_iff.1 h1, List.length_eq_zero_iff.1 h2]
    refine ⟨rfl, rfl, by simp⟩
  | cons k ks ih =>
    cases ps with
    | nil => simp at h1
    | cons p ps =>
      cases ss with
      | nil => simp at h2
      | cons s ss =>
        cases vs with
        | nil => simp at h3
        | cons v vs =>
          obtain ⟨l1, l2, hs⟩ := ih (ps := ps) (ss := ss) (vs := vs) (by simpa using h1) (by simpa using h2)
            (by simpa using h3)
          simp only [resolve]
          by_cases h : (s && v) = true
          · rw [if_pos h]
            refine ⟨by simp [l1], by simp [l2], ?_⟩
            intro i k' p' s' v' a b c d
            cases i with
            | zero =>
              simp only [List.getElem?_cons_zero, Option.some.injEq] at a b c d ⊢
              subst a b c d
              simp [h]
            | succ i =>
              simp only [List.getElem?_cons_succ] at a b c d ⊢
              exact hs i k' p' s' v' a b c d
          · rw [if_neg h]
            refine ⟨by simp [l1], by simp [l2], ?_⟩
            intro i k' p' s' v' a b c d
            cases i with
            | zero =>
              simp only [List.getElem?_cons_zero, Option.some.injEq] at a b c d ⊢
              subst a b c d
              rw [if_neg h]
              exact ⟨rfl, by simpa using h⟩
            | succ i =>
              simp only [List.getElem?_cons_succ] at a b c d ⊢
              exact hs i k' p' s' v' a b c d

/-- What one keypoint is predicted to: where the rotated bearing vector projects, if it could be back-projected and is
visible afterwards; otherwise the keypoint itself, marked as failed. -/
def predictOne (c : Cam K V) (rotate : V → V) (k : K) : K × Bool :=
  if (c.backProject k).2 = true ∧ (c.project (rotate (c.backProject k).1)).2 = true then
    ((c.project (rotate (c.backProject k).1)).1, true)
  else (k, false)

/-- C75: each keypoint is predicted on its own, whatever the outputs contained and however small the rotation. -/
theorem predict_spec (c : Cam K V) (rotate : V → V) (w : ℚ) (point : V) (keypoint : K) (ks old : List K) (h : ks ≠ []) :
    predictKeypoints c rotate w point keypoint ks old =
      (ks.map fun k => (predictOne c rotate k).1, ks.map fun k => (predictOne c rotate k).2) := by
  unfold predictKeypoints
  rw [if_neg (by simpa using h)]
  simp only
  rw [backProject3Vectorized_eq, project3Vectorized_eq]
  simp only [List.map_map]
  obtain ⟨l1, l2, hs⟩ := resolve_spec (ks := ks)
    (ps := ks.map ((fun p => (c.project p).1) ∘ rotate ∘ fun k => (c.backProject k).1))
    (ss := ks.map fun k => (c.backProject k).2)
    (vs := ks.map ((fun p => (c.project p).2) ∘ rotate ∘ fun k => (c.backProject k).1)) (by simp) (by simp) (by simp)
  have key : ∀ i : Nat, ∀ k : K, ks[i]? = some k → _ := fun i k hk => hs i k _ _ _ hk
    (by rw [List.getElem?_map, hk]; rfl) (by rw [List.getElem?_map, hk]; rfl) (by rw [List.getElem?_map, hk]; rfl)
  refine Prod.ext ?_ ?_
  · apply List.ext_getElem?
    intro i
    by_cases hi : i < ks.length
    · have hk := List.getElem?_eq_getElem hi
      rw [(key i _ hk).1, List.getElem?_map, hk]
      simp only [Option.map_some, predictOne, Function.comp_apply, Bool.and_eq_true]
      split <;> rfl
    · rw [List.getElem?_eq_none (by rw [l1]; omega), List.getElem?_eq_none (by simp; omega)]
  · apply List.ext_getElem?
    intro i
    by_cases hi : i < ks.length
    · have hk := List.getElem?_eq_getElem hi
      rw [(key i _ hk).2, List.getElem?_map, hk]
      simp only [Option.map_some, predictOne, Function.comp_apply]
      split
      · next h => simp [h.1, h.2]
      · next h =>
        simp only [Option.some.injEq]
        rw [← Bool.not_eq_true, Bool.and_eq_true]
        exact h
    · rw [List.getElem?_eq_none (by rw [l2]; omega), List.getElem?_eq_none (by simp; omega)]

/-- C75 fails for a frame without keypoints: the matrix of predictions keeps the columns it had. -/
theorem predict_empty_refuted (c : Cam K V) (rotate : V → V) (w : ℚ) (point : V) (keypoint : K) (old : List K) :
    predictKeypoints c rotate w point keypoint [] old = (old, []) := rfl

/-! The pinhole camera -/

section Pinhole

open Verif.Camera

variable (b : Box) (I : Fin 4 → ℝ)

theorem pinhole_backProject_z (k : V2) : ((pinhole b I).backProject k).1.2.2 = 1 := rfl

theorem pinhole_visible {p : V3} (h : ((pinhole b I).project p).2 = true) : 0 < p.2.2 := by
  have hs : (pinholeProject Verif.Distortion.null b I Fin.elim0 p).status = .visible := of_decide_eq_true h
  have := ((Verif.Camera.pinhole_status Verif.Distortion.null b I Fin.elim0 p).1.1 hs).1
  linarith [show (0 : ℝ) < 1e-10 by norm_num]

theorem pinhole_project_some {p : V3} (hz : p.2.2 ≠ 0) :
    (pinholeProject Verif.Distortion.null b I Fin.elim0 p).keypoint = some ((pinhole b I).project p).1 := by
  rw [Verif.Camera.pinhole_keypoint Verif.Distortion.null b I Fin.elim0 hz]
  simp only [pinhole]
  rw [Verif.Camera.pinhole_keypoint Verif.Distortion.null b I Fin.elim0 hz]
  rfl

/-- Back-projecting a projection gives the point divided by its depth. -/
theorem pinhole_back (hI : PinholeValid I) {p : V3} (hz : p.2.2 ≠ 0) :
    (pinhole b I).backProject ((pinhole b I).project p).1 = (scale (1 / p.2.2) p, true) := by
  have := (Verif.Camera.pinhole_null_inverse b I Fin.elim0 hI).2 p _ hz (pinhole_project_some b I hz)
  simp only [pinhole] at this ⊢
  rw [this]
  rfl

/-- Projecting a back-projection gives the keypoint. -/
theorem pinhole_forth (hI : PinholeValid I) (k : V2) {s : ℝ} (hs : 0 < s) :
    ((pinhole b I).project (scale s ((pinhole b I).backProject k).1)).1 = k := by
  obtain ⟨r, e, h⟩ := (Verif.Camera.pinhole_null_inverse b I Fin.elim0 hI).1 k
  have hb : ((pinhole b I).backProject k).1 = r := by
    simp only [pinhole]
    rw [e]
    rfl
  rw [hb]
  simp only [pinhole]
  rw [h s hs]
  rfl

/-- C75, identity: keypoints inside the image are predicted to be where they are. -/
theorem predict_identity (hI : PinholeValid I) (w : ℚ) (ks old : List V2) (h : ks ≠ []) (hk : ∀ k ∈ ks, InImage b k) :
    predictKeypoints (pinhole b I) id w (0, 0, 0) (0, 0) ks old = (ks, ks.map fun _ => true) := by
  have e : ∀ k ∈ ks, predictOne (pinhole b I) id k = (k, true) := by
    intro k hkm
    have hp : ((pinhole b I).project ((pinhole b I).backProject k).1).1 = k := by
      have := pinhole_forth b I hI k one_pos
      rwa [show scale 1 ((pinhole b I).backProject k).1 = ((pinhole b I).backProject k).1 by
        simp [scale]] at this
    have hz : ((pinhole b I).backProject k).1.2.2 = 1 := pinhole_backProject_z b I k
    have hv : ((pinhole b I).project ((pinhole b I).backProject k).1).2 = true := by
      refine decide_eq_true ?_
      refine (Verif.Camera.pinhole_status Verif.Distortion.null b I Fin.elim0 _).1.2 ⟨?_, k, ?_, hk k hkm⟩
      · rw [hz]
        norm_num
      · rw [pinhole_project_some b I (by rw [hz]; exact one_ne_zero), hp]
    unfold predictOne
    simp only [id]
    rw [if_pos ⟨rfl, hv⟩, hp]
  rw [predict_spec _ _ _ _ _ _ _ h]
  refine Prod.ext ?_ ?_
  · simp only
    rw [List.map_congr_left fun k hk => congrArg Prod.fst (e k hk)]
    simp
  · exact List.map_congr_left fun k hk => congrArg Prod.snd (e k hk)

/-- Bearing vectors that differ by a positive factor project to the same keypoint. -/
theorem pinhole_project_scale {s : ℝ} (hs : s ≠ 0) (q : V3) :
    ((pinhole b I).project (scale s q)).1 = ((pinhole b I).project q).1 := by
  have := Verif.Camera.pinhole_scale Verif.Distortion.null b I Fin.elim0 s hs q
  simp only [pinhole]
  rw [this]

/-- Visible means: deeper than the least depth, and the keypoint is in the image. -/
theorem pinhole_visible_iff (p : V3) :
    ((pinhole b I).project p).2 = true ↔ 1e-10 < p.2.2 ∧ InImage b ((pinhole b I).project p).1 := by
  have h := (Verif.Camera.pinhole_status Verif.Distortion.null b I Fin.elim0 p).1
  have e : ((pinhole b I).project p).2 = true ↔
      (pinholeProject Verif.Distortion.null b I Fin.elim0 p).status = .visible := decide_eq_true_iff
  rw [e, h]
  refine and_congr_right fun hz => ?_
  have hz' : p.2.2 ≠ 0 := ne_of_gt (lt_trans (by norm_num) hz)
  rw [pinhole_project_some b I hz']
  simp

theorem predictOne_iff (c : Cam K V) (rotate : V → V) (k k' : K) :
    predictOne c rotate k = (k', true) ↔ (c.backProject k).2 = true ∧
      (c.project (rotate (c.backProject k).1)).2 = true ∧ (c.project (rotate (c.backProject k).1)).1 = k' := by
  unfold predictOne
  split
  · next h => simp [h.1, h.2]
  · next h =>
    constructor
    · intro e
      simp at e
    · rintro ⟨a, b, -⟩
      exact absurd ⟨a, b⟩ h

/-- C75, composition: a keypoint predicted by one rotation and then, successfully, by another is predicted by the rotation
made of both, with the same result, unless the ray is so close to the camera plane that it counts as invisible. -/
theorem predict_compose (hI : PinholeValid I) (r1 r2 : V3 → V3)
    (h2 : ∀ (s : ℝ) (p : V3), r2 (scale s p) = scale s (r2 p)) (k k1 k2 : V2)
    (e1 : predictOne (pinhole b I) r1 k = (k1, true)) (e2 : predictOne (pinhole b I) r2 k1 = (k2, true))
    (hd : 1e-10 < (r2 (r1 ((pinhole b I).backProject k).1)).2.2) :
    predictOne (pinhole b I) (fun p => r2 (r1 p)) k = (k2, true) := by
  rw [predictOne_iff] at e1 e2 ⊢
  obtain ⟨a1, v1, p1⟩ := e1
  obtain ⟨a2, v2, p2⟩ := e2
  have hz := pinhole_visible b I v1
  have hb := pinhole_back b I hI hz.ne'
  rw [p1] at hb
  rw [hb] at v2 p2
  simp only [h2] at v2 p2
  have hs := (one_div_pos.2 hz).ne'
  rw [pinhole_visible_iff, pinhole_project_scale b I hs] at v2
  rw [pinhole_project_scale b I hs] at p2
  exact ⟨a1, (pinhole_visible_iff b I _).2 ⟨hd, v2.2⟩, p2⟩

/-- C75, inverse: predicting by a rotation and then by its inverse gives the keypoint back (for rays not closer than
1e-10 to the camera plane). -/
theorem predict_inverse (hI : PinholeValid I) (r1 r2 : V3 → V3)
    (h2 : ∀ (s : ℝ) (p : V3), r2 (scale s p) = scale s (r2 p)) (hr : ∀ p, r2 (r1 p) = p) (k k1 : V2) (hk : InImage b k)
    (e1 : predictOne (pinhole b I) r1 k = (k1, true)) (hd : (r1 ((pinhole b I).backProject k).1).2.2 < 1e10) :
    predictOne (pinhole b I) r2 k1 = (k, true) := by
  rw [predictOne_iff] at e1 ⊢
  obtain ⟨a1, v1, p1⟩ := e1
  have hz := pinhole_visible b I v1
  have hb := pinhole_back b I hI hz.ne'
  rw [p1] at hb
  rw [hb]
  simp only [h2, hr]
  have hs := one_div_pos.2 hz
  have hf := pinhole_forth b I hI k hs
  refine ⟨trivial, (pinhole_visible_iff b I _).2 ⟨?_, ?_⟩, hf⟩
  · have e : (scale (1 / (r1 ((pinhole b I).backProject k).1).2.2) ((pinhole b I).backProject k).1).2.2 =
        1 / (r1 ((pinhole b I).backProject k).1).2.2 := by
      simp only [scale]
      rw [pinhole_backProject_z, mul_one]
    rw [e, lt_one_div (by norm_num) hz]
    exact lt_of_lt_of_le hd (by norm_num)
  · rw [hf]
    exact hk

open Classical in
/-- A quarter turn about the optical axis: the keypoint right of the centre moves below it, and the opposite turn brings it
back; the hypotheses of `predict_compose` and `predict_inverse` are met. -/
example : predictOne (pinhole ⟨20, 20⟩ ![10, 10, 10, 10]) (fun p => (-p.2.1, p.1, p.2.2)) (15, 10) = ((10, 15), true) ∧
    predictOne (pinhole ⟨20, 20⟩ ![10, 10, 10, 10]) (fun p => (p.2.1, -p.1, p.2.2)) (10, 15) = ((15, 10), true) := by
  have e : ∀ (x y : ℝ), (pinhole ⟨20, 20⟩ ![10, 10, 10, 10]).project (x, y, 1) =
      ((10 * x + 10, 10 * y + 10), decide (InImage ⟨20, 20⟩ (10 * x + 10, 10 * y + 10))) := by
    intro x y
    have h1 : ((pinhole ⟨20, 20⟩ ![10, 10, 10, 10]).project (x, y, 1)).1 = (10 * x + 10, 10 * y + 10) := by
      have := pinhole_project_some ⟨20, 20⟩ ![10, 10, 10, 10] (p := (x, y, 1)) one_ne_zero
      rw [Verif.Camera.pinhole_keypoint Verif.Distortion.null _ _ Fin.elim0 one_ne_zero] at this
      rw [← Option.some.inj this]
      simp [Verif.Distortion.null]
    refine Prod.ext h1 ?_
    rw [Bool.eq_iff_iff, pinhole_visible_iff, h1, decide_eq_true_iff]
    exact and_iff_right (by norm_num)
  have f : ∀ u v : ℝ, ((pinhole ⟨20, 20⟩ ![10, 10, 10, 10]).backProject (u, v)) =
      (((u - 10) / 10, (v - 10) / 10, 1), true) := fun u v => by
    simp [pinhole, pinholeBackProject, Verif.Distortion.null]
  constructor
  · rw [predictOne_iff, f]
    simp only
    rw [e]
    norm_num [InImage]
  · rw [predictOne_iff, f]
    simp only
    rw [e]
    norm_num [InImage]

end Pinhole

end Verif.GeometricVision
