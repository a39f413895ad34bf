import Verif.GyroTracker.Model
import Verif.GyroMatcher.Props
import Verif.TrackManager.Props
import Mathlib.Data.List.Nodup
import Mathlib.Data.List.Dedup
import Mathlib.Data.List.Sort
import Mathlib.Data.Rat.Floor
import Mathlib.Tactic.Linarith
import Mathlib.Tactic.NormNum

/-!
# Properties of the gyro tracker (C42)
-/

namespace Verif.GyroTracker

open Verif (Outcome)

/-! ## Specification -/

/-- Matches (index k+1, index k) between frames of `n1` and `nK` keypoints that use every keypoint at most once. -/
def OneToOne (n1 nK : Nat) (ms : List (Nat × Nat)) : Prop :=
  (∀ m ∈ ms, m.1 < n1 ∧ m.2 < nK) ∧ (ms.map Prod.fst).Nodup ∧ (ms.map Prod.snd).Nodup

/-- Keypoint `i` of frame k is in none of the matches. -/
def Free (nK : Nat) (ms : List (Nat × Nat)) (i : Nat) : Prop := i < nK ∧ ∀ m ∈ ms, m.2 ≠ i

/-- Keypoint `i` was detected and has been matched at least `threshold` times. -/
def WorthyDetected (S : Settings) (status : List Status) (lens : List Nat) (i n : Nat) : Prop :=
  lens[i]? = some n ∧ status[i]? = some .detected ∧ S.threshold ≤ n

/-- Keypoint `i` was LK-tracked, for less than the maximum number of frames. -/
def YoungLk (S : Settings) (status : List Status) (lens : List Nat) (i n : Nat) : Prop :=
  lens[i]? = some n ∧ status[i]? = some .lkTracked ∧ n < S.maxLen

/-- Point well inside the image. -/
def InRoi (S : Settings) (x y : Rat) : Prop :=
  S.border ≤ x ∧ x < S.width - S.border ∧ S.border ≤ y ∧ y < S.height - S.border

/-- What is assumed of the inputs of a call: the descriptor matches are one-to-one (C39), the sorts sort, the optical
flow answers for every point, the extractor returns a subset of the keypoints. -/
structure Valid (P : Call) : Prop where
  ms : OneToOne P.n1 P.idsK.length P.ms
  desc : ∀ l, (P.sortDesc l).Perm l ∧ (P.sortDesc l).Pairwise (fun a b => b.2 ≤ a.2)
  asc : ∀ l, (P.sortAsc l).Perm l ∧ (P.sortAsc l).Pairwise (fun a b => a.2 ≤ b.2)
  flow : ∀ l, (P.flow l).length = l.length
  extract : ∀ n, (P.extract n).Nodup ∧ ∀ c ∈ P.extract n, c < n

/-! ## Unmatched keypoints -/

theorem markLoop_spec : ∀ (ms : List (Nat × Nat)) (u : List Bool), (∀ m ∈ ms, m.2 < u.length) →
    ∃ u', markLoop ms u = .ok u' ∧ u'.length = u.length ∧
      ∀ i, u'[i]? = some true ↔ u[i]? = some true ∧ ∀ m ∈ ms, m.2 ≠ i
  | [], u, _ => ⟨u, rfl, rfl, by simp⟩
  | m :: ms, u, h => by
    have hm := h m (by simp)
    obtain ⟨u', e, hl, hu⟩ := markLoop_spec ms (u.set m.2 false) (by
      intro m' hm'
      rw [List.length_set]
      exact h m' (by simp [hm']))
    refine ⟨u', ?_, by rw [hl, List.length_set], ?_⟩
    · unfold markLoop
      rw [if_pos hm, e]
    · intro i
      rw [hu i]
      by_cases hi : m.2 = i
      · subst hi
        simp [hm]
      · rw [List.getElem?_set_ne hi]
        simp [hi]

theorem collect_mem : ∀ (u : List Bool) (s i : Nat), i ∈ collect u s ↔ s ≤ i ∧ u[i - s]? = some true
  | [], s, i => by simp [collect]
  | b :: rest, s, i => by
    unfold collect
    have ih := collect_mem rest (s + 1) i
    rcases Nat.lt_trichotomy i s with h | h | h
    · have : ¬ s ≤ i := by omega
      have h2 : ¬ s + 1 ≤ i := by omega
      cases b <;> simp [ih, this, h2]; omega
    · subst h
      have h2 : ¬ i + 1 ≤ i := by omega
      cases b <;> simp [ih, h2]
    · have e : i - s = (i - (s + 1)) + 1 := by omega
      have h1 : s ≤ i := by omega
      have h2 : s + 1 ≤ i := by omega
      have h3 : i ≠ s := by omega
      rw [e, List.getElem?_cons_succ]
      cases b <;> simp [ih, h1, h2, h3]

theorem collect_nodup : ∀ (u : List Bool) (s : Nat), (collect u s).Nodup
  | [], s => by simp [collect]
  | b :: rest, s => by
    unfold collect
    have ih := collect_nodup rest (s + 1)
    cases b
    · simpa using ih
    · simp only [if_true, List.nodup_cons]
      refine ⟨?_, ih⟩
      rw [collect_mem]
      omega

/-- Two duplicate free lists that split the numbers below `n`. -/
theorem split_length {n : Nat} {a b : List Nat} (ha : a.Nodup) (hb : b.Nodup)
    (h : ∀ i, i ∈ a ↔ i < n ∧ i ∉ b) (hbn : ∀ i ∈ b, i < n) : a.length + b.length = n := by
  have hp : (a ++ b).Perm (List.range n) := by
    rw [List.perm_ext_iff_of_nodup]
    · intro i
      rw [List.mem_append, h, List.mem_range]
      by_cases hi : i ∈ b
      · simp [hi, hbn i hi]
      · simp [hi]
    · rw [List.nodup_append]
      refine ⟨ha, hb, ?_⟩
      intro i hi j hj hij
      exact ((h i).1 hi).2 (hij ▸ hj)
    · exact List.nodup_range
  have := hp.length_eq
  simpa using this

/-- The set of unmatched keypoints is exact, and its checks hold, for one-to-one matches. -/
theorem unmatched_exact {n1 nK : Nat} {ms : List (Nat × Nat)} (h : OneToOne n1 nK ms) :
    ∃ u, unmatched nK ms = .ok u ∧ u.Nodup ∧ ∀ i, i ∈ u ↔ Free nK ms i := by
  obtain ⟨u, e, hl, hu⟩ := markLoop_spec ms (List.replicate nK true) (by
    intro m hm
    rw [List.length_replicate]
    exact (h.1 m hm).2)
  have hmem : ∀ i, i ∈ collect u 0 ↔ Free nK ms i := by
    intro i
    rw [collect_mem, Nat.sub_zero, hu i, List.getElem?_replicate]
    unfold Free
    by_cases hi : i < nK <;> simp [hi]
  have hlen : (collect u 0).length + (ms.map Prod.snd).length = nK := by
    refine split_length (collect_nodup u 0) h.2.2 ?_ ?_
    · intro i
      rw [hmem]
      unfold Free
      simp only [List.mem_map, Prod.exists, exists_eq_right, not_exists]
      constructor
      · rintro ⟨h1, h2⟩
        exact ⟨h1, fun a ha => h2 (a, i) ha rfl⟩
      · rintro ⟨h1, h2⟩
        refine ⟨h1, ?_⟩
        rintro ⟨a, b⟩ hm hb
        simp only at hb
        subst hb
        exact h2 a hm
    · intro i hi
      obtain ⟨m, hm, rfl⟩ := List.mem_map.1 hi
      exact (h.1 m hm).2
  rw [List.length_map] at hlen
  refine ⟨collect u 0, ?_, collect_nodup u 0, hmem⟩
  unfold unmatched
  have h1 : ms.length ≤ nK := by omega
  rw [if_pos h1, e, Outcome.bind_ok, if_pos (by omega)]

example : unmatched 4 [(0, 2), (1, 0)] = .ok [1, 3] := rfl

/-- The checks abort when two matches use the same keypoint of frame k, so they do detect it. -/
theorem unmatched_aborts {nK : Nat} {ms : List (Nat × Nat)} (hr : ∀ m ∈ ms, m.2 < nK)
    (hd : ¬ (ms.map Prod.snd).Nodup) : unmatched nK ms = .abort := by
  obtain ⟨u, e, hl, hu⟩ := markLoop_spec ms (List.replicate nK true) (by
    intro m hm
    rw [List.length_replicate]
    exact hr m hm)
  unfold unmatched
  split
  · rw [e, Outcome.bind_ok]
    rw [if_neg]
    rintro ⟨h1, h2⟩
    apply hd
    have hmem : ∀ i, i ∈ collect u 0 ↔ i < nK ∧ i ∉ (ms.map Prod.snd).dedup := by
      intro i
      rw [collect_mem, Nat.sub_zero, hu i, List.getElem?_replicate, List.mem_dedup]
      simp only [List.mem_map, Prod.exists, exists_eq_right, not_exists]
      by_cases hi : i < nK
      · simp only [hi, if_true, true_and, Nat.zero_le]
        constructor
        · intro h a ha
          exact h (a, i) ha rfl
        · rintro h ⟨a, b⟩ hm hb
          simp only at hb
          subst hb
          exact h a hm
      · simp [hi]
    have hs := split_length (collect_nodup u 0) (List.nodup_dedup _) hmem (by
      intro i hi
      obtain ⟨m, hm, rfl⟩ := List.mem_map.1 (List.mem_dedup.1 hi)
      exact hr m hm)
    have hle : (ms.map Prod.snd).dedup.length = (ms.map Prod.snd).length := by
      rw [List.length_map]
      omega
    have := (List.dedup_sublist (ms.map Prod.snd)).eq_of_length hle
    rw [← this]
    exact List.nodup_dedup _
  · rfl

example : unmatched 4 [(0, 2), (1, 2)] = .abort := rfl

/-! ## Candidates -/

/-- Test of `WorthyDetected` for the proofs. -/
def isWorthy (S : Settings) (status : List Status) (lens : List Nat) (i : Nat) : Bool :=
  decide (status[i]? = some .detected) && decide (S.threshold ≤ lens.getD i 0)

/-- Test of `YoungLk` for the proofs. -/
def isYoung (S : Settings) (status : List Status) (lens : List Nat) (i : Nat) : Bool :=
  decide (status[i]? = some .lkTracked) && decide (lens.getD i 0 < S.maxLen)

theorem classify_spec {S : Settings} {status : List Status} {lens : List Nat} :
    ∀ (u : List Nat) (d l : List (Nat × Nat)), (∀ i ∈ u, i < lens.length ∧ i < status.length) →
    classify S status lens u d l = .ok (d ++ (u.filter (isWorthy S status lens)).map (fun i => (i, lens.getD i 0)),
      l ++ (u.filter (isYoung S status lens)).map (fun i => (i, lens.getD i 0)))
  | [], d, l, _ => by simp [classify]
  | i :: rest, d, l, h => by
    have hi := h i (by simp)
    have ih := fun d l => classify_spec (S := S) (status := status) (lens := lens) rest d l
      (fun j hj => h j (by simp [hj]))
    have e1 : lens[i]? = some lens[i] := List.getElem?_eq_getElem hi.1
    have e3 : lens.getD i 0 = lens[i] := by simp [List.getD, e1]
    cases hs : status[i]? with
    | none =>
      rw [List.getElem?_eq_none_iff] at hs
      omega
    | some s =>
      cases s with
      | detected =>
        have hy : isYoung S status lens i = false := by simp [isYoung, hs]
        unfold classify
        rw [e1, hs]
        simp only
        by_cases ht : S.threshold ≤ lens[i]
        · have hw : isWorthy S status lens i = true := by simp [isWorthy, hs, e1, ht]
          rw [if_pos ht, ih, List.filter_cons_of_pos hw, List.filter_cons_of_neg (by simp [hy])]
          simp [e1]
        · have hw : isWorthy S status lens i = false := by simp [isWorthy, hs, e1]; omega
          rw [if_neg ht, ih, List.filter_cons_of_neg (by simp [hw]), List.filter_cons_of_neg (by simp [hy])]
      | lkTracked =>
        have hw : isWorthy S status lens i = false := by simp [isWorthy, hs]
        unfold classify
        rw [e1, hs]
        simp only
        by_cases ht : lens[i] < S.maxLen
        · have hy : isYoung S status lens i = true := by simp [isYoung, hs, e1, ht]
          rw [if_pos ht, ih, List.filter_cons_of_pos hy, List.filter_cons_of_neg (by simp [hw])]
          simp [e1]
        · have hy : isYoung S status lens i = false := by simp [isYoung, hs, e1]; omega
          rw [if_neg ht, ih, List.filter_cons_of_neg (by simp [hw]), List.filter_cons_of_neg (by simp [hy])]

theorem pushUntil_spec (max : Nat) : ∀ (l : List (Nat × Nat)) (acc : List Nat), acc.length ≤ max →
    pushUntil max l acc = acc ++ (l.map Prod.fst).take (max - acc.length)
  | [], acc, _ => by simp [pushUntil]
  | p :: rest, acc, h => by
    unfold pushUntil
    split
    · rename_i he
      simp [he]
    · rename_i hne
      rw [pushUntil_spec max rest (acc ++ [p.1]) (by simp; omega)]
      have e : max - acc.length = (max - (acc ++ [p.1]).length) + 1 := by simp; omega
      rw [e, List.map_cons, List.take_succ_cons]
      simp

theorem take_prefers {α : Type} {R : α → α → Prop} {l : List α} (h : l.Pairwise R) {n : Nat} {x y : α}
    (hx : x ∈ l.take n) (hy : y ∈ l) (hn : y ∉ l.take n) : R x y := by
  rw [← List.take_append_drop n l, List.pairwise_append] at h
  rw [← List.take_append_drop n l, List.mem_append] at hy
  exact h.2.2 x hx y (hy.resolve_left hn)

theorem isWorthy_iff {S : Settings} {status : List Status} {lens : List Nat} {i n : Nat} :
    WorthyDetected S status lens i n ↔ isWorthy S status lens i = true ∧ lens[i]? = some n := by
  unfold WorthyDetected isWorthy
  constructor
  · rintro ⟨h1, h2, h3⟩
    simp [h1, h2, h3]
  · rintro ⟨h1, h2⟩
    simp only [Bool.and_eq_true, decide_eq_true_eq, List.getD, h2, Option.getD_some] at h1
    exact ⟨h2, h1.1, h1.2⟩

theorem isYoung_iff {S : Settings} {status : List Status} {lens : List Nat} {i n : Nat} :
    YoungLk S status lens i n ↔ isYoung S status lens i = true ∧ lens[i]? = some n := by
  unfold YoungLk isYoung
  constructor
  · rintro ⟨h1, h2, h3⟩
    simp [h1, h2, h3]
  · rintro ⟨h1, h2⟩
    simp only [Bool.and_eq_true, decide_eq_true_eq, List.getD, h2, Option.getD_some] at h1
    exact ⟨h2, h1.1, h1.2⟩

/-- What is promised of the candidates `c`. -/
structure GoodCandidates (S : Settings) (P : Call) (status : List Status) (lens : List Nat) (c : List Nat) : Prop where
  nodup : c.Nodup
  free : ∀ i ∈ c, Free P.idsK.length P.ms i
  eligible : ∀ i ∈ c, ∃ n, WorthyDetected S status lens i n ∨ YoungLk S status lens i n
  bound : 0 ≤ S.ratio → (c.length : Rat) ≤ P.n1 * S.ratio
  /-- Nothing is left out while there is room. -/
  full : (c.length : Rat) + 1 ≤ P.n1 * S.ratio →
    ∀ i n, Free P.idsK.length P.ms i → WorthyDetected S status lens i n ∨ YoungLk S status lens i n → i ∈ c
  /-- Among the detected keypoints the longest tracks are chosen. -/
  longest : ∀ i j n m, i ∈ c → j ∉ c → Free P.idsK.length P.ms j → WorthyDetected S status lens i n →
    WorthyDetected S status lens j m → m ≤ n
  /-- Detected keypoints go first. -/
  first : ∀ i j n m, i ∈ c → Free P.idsK.length P.ms j → YoungLk S status lens i n →
    WorthyDetected S status lens j m → j ∈ c
  /-- Among the LK-tracked keypoints the shortest tracks are chosen. -/
  shortest : ∀ i j n m, i ∈ c → j ∉ c → Free P.idsK.length P.ms j → YoungLk S status lens i n →
    YoungLk S status lens j m → n ≤ m

theorem maxCandidates_le {S : Settings} {n1 n : Nat} (h0 : 0 ≤ S.ratio) :
    n ≤ maxCandidates S n1 ↔ (n : Rat) ≤ n1 * S.ratio := by
  have hp : (0 : Rat) ≤ (n1 : Rat) * S.ratio := mul_nonneg (by exact_mod_cast Nat.zero_le n1) h0
  unfold maxCandidates
  have h1 : (0 : Int) ≤ ((n1 : Rat) * S.ratio).floor := Rat.le_floor_iff.2 (by exact_mod_cast hp)
  have h2 : (n : Int) ≤ ((n1 : Rat) * S.ratio).floor ↔ ((n : Int) : Rat) ≤ n1 * S.ratio := Rat.le_floor_iff
  rw [Int.cast_natCast] at h2
  rw [← h2]
  omega

/-- C42, candidates: for one-to-one matches and vectors that fit the frame, the candidates are distinct unmatched
keypoints of frame k, no more than the configured fraction, chosen by the stated preferences. -/
theorem lk_candidates {S : Settings} {P : Call} {status : List Status} {lens : List Nat} (V : Valid P)
    (hl : lens.length = P.idsK.length) (hs : status.length = P.idsK.length) :
    ∃ c, candidates S P status lens = .ok c ∧ GoodCandidates S P status lens c := by
  obtain ⟨u, eu, hun, hu⟩ := unmatched_exact V.ms
  have hu2 : ∀ i ∈ u, i < lens.length ∧ i < status.length := by
    intro i hi
    have := ((hu i).1 hi).1
    omega
  have ec := classify_spec (S := S) u [] [] hu2
  rw [List.nil_append, List.nil_append] at ec
  generalize hdd : (u.filter (isWorthy S status lens)).map (fun i => (i, lens.getD i 0)) = d at ec
  generalize hll : (u.filter (isYoung S status lens)).map (fun i => (i, lens.getD i 0)) = l at ec
  generalize hM : maxCandidates S P.n1 = M
  have hdm : ∀ i n, (i, n) ∈ d ↔ Free P.idsK.length P.ms i ∧ WorthyDetected S status lens i n := by
    intro i n
    rw [isWorthy_iff, ← hu i, ← hdd]
    simp only [List.mem_map, List.mem_filter, Prod.mk.injEq]
    constructor
    · rintro ⟨j, ⟨h1, h2⟩, rfl, rfl⟩
      refine ⟨h1, h2, ?_⟩
      rw [List.getD, List.getElem?_eq_getElem (hu2 j h1).1]
      rfl
    · rintro ⟨h1, h2, h3⟩
      exact ⟨i, ⟨h1, h2⟩, rfl, by rw [List.getD, h3]; rfl⟩
  have hlm : ∀ i n, (i, n) ∈ l ↔ Free P.idsK.length P.ms i ∧ YoungLk S status lens i n := by
    intro i n
    rw [isYoung_iff, ← hu i, ← hll]
    simp only [List.mem_map, List.mem_filter, Prod.mk.injEq]
    constructor
    · rintro ⟨j, ⟨h1, h2⟩, rfl, rfl⟩
      refine ⟨h1, h2, ?_⟩
      rw [List.getD, List.getElem?_eq_getElem (hu2 j h1).1]
      rfl
    · rintro ⟨h1, h2, h3⟩
      exact ⟨i, ⟨h1, h2⟩, rfl, by rw [List.getD, h3]; rfl⟩
  have hdn : (d.map Prod.fst).Nodup := by
    rw [← hdd, List.map_map]
    simpa [Function.comp_def] using hun.filter _
  have hln : (l.map Prod.fst).Nodup := by
    rw [← hll, List.map_map]
    simpa [Function.comp_def] using hun.filter _
  have hdl : ∀ i ∈ d.map Prod.fst, i ∉ l.map Prod.fst := by
    intro i hi hi2
    obtain ⟨⟨i1, n1⟩, h1, e1⟩ := List.mem_map.1 hi
    obtain ⟨⟨i2, n2⟩, h2, e2⟩ := List.mem_map.1 hi2
    simp only at e1 e2
    subst e1 e2
    have a := ((hdm _ _).1 h1).2.2.1
    have b := ((hlm _ _).1 h2).2.2.1
    rw [a] at b
    cases b
  have hod : (orderDetected P M d l).Perm d := by
    unfold orderDetected
    split
    · exact (V.desc d).1
    · exact List.Perm.refl d
  have hol : (orderLk P M d l).Perm l := by
    unfold orderLk
    split
    · exact (V.asc l).1
    · exact List.Perm.refl l
  have hods : M < d.length + l.length → (orderDetected P M d l).Pairwise (fun a b => b.2 ≤ a.2) := by
    intro h
    unfold orderDetected
    rw [if_pos h]
    exact (V.desc d).2
  have hols : M < d.length + l.length → d.length < M → (orderLk P M d l).Pairwise (fun a b => a.2 ≤ b.2) := by
    intro h1 h2
    unfold orderLk
    rw [if_pos ⟨h1, h2⟩]
    exact (V.asc l).2
  generalize hode : orderDetected P M d l = od at hod hods
  generalize hole : orderLk P M d l = ol at hol hols
  have hodl := hod.length_eq
  have holl := hol.length_eq
  let cd := od.take M
  let cl := ol.take (M - (od.take M).length)
  have hc : pushUntil M ol (pushUntil M od []) = cd.map Prod.fst ++ cl.map Prod.fst := by
    rw [pushUntil_spec M od [] (by simp), List.nil_append, List.length_nil, Nat.sub_zero,
      pushUntil_spec M ol _ (by simp), ← List.map_take, ← List.map_take, List.length_map]
  have hcd : ∀ p ∈ cd, p ∈ d := fun p hp => hod.mem_iff.1 (List.mem_of_mem_take hp)
  have hcl : ∀ p ∈ cl, p ∈ l := fun p hp => hol.mem_iff.1 (List.mem_of_mem_take hp)
  have hcdl : cd.length = min M d.length := by simp only [cd, List.length_take]; omega
  have hcll : cl.length = min (M - min M d.length) l.length := by simp only [cl, List.length_take]; omega
  -- members of the result
  have hW : ∀ i n, i ∈ cd.map Prod.fst ++ cl.map Prod.fst → WorthyDetected S status lens i n → (i, n) ∈ cd := by
    intro i n hi hw
    rcases List.mem_append.1 hi with hi | hi
    · obtain ⟨⟨i', n'⟩, h1, e1⟩ := List.mem_map.1 hi
      simp only at e1
      subst e1
      have h2 := ((hdm _ _).1 (hcd _ h1)).2.1
      rw [hw.1] at h2
      cases h2
      exact h1
    · obtain ⟨⟨i', n'⟩, h1, e1⟩ := List.mem_map.1 hi
      simp only at e1
      subst e1
      have h2 := ((hlm _ _).1 (hcl _ h1)).2.2.1
      rw [hw.2.1] at h2
      cases h2
  have hY : ∀ i n, i ∈ cd.map Prod.fst ++ cl.map Prod.fst → YoungLk S status lens i n → (i, n) ∈ cl := by
    intro i n hi hw
    rcases List.mem_append.1 hi with hi | hi
    · obtain ⟨⟨i', n'⟩, h1, e1⟩ := List.mem_map.1 hi
      simp only at e1
      subst e1
      have h2 := ((hdm _ _).1 (hcd _ h1)).2.2.1
      rw [hw.2.1] at h2
      cases h2
    · obtain ⟨⟨i', n'⟩, h1, e1⟩ := List.mem_map.1 hi
      simp only at e1
      subst e1
      have h2 := ((hlm _ _).1 (hcl _ h1)).2.1
      rw [hw.1] at h2
      cases h2
      exact h1
  -- all detected ones are taken when there is room
  have hall : d.length ≤ M → ∀ p ∈ d, p ∈ cd := by
    intro h p hp
    have : cd = od := List.take_of_length_le (by omega)
    rw [this]
    exact hod.mem_iff.2 hp
  have hall2 : d.length + l.length ≤ M → ∀ p ∈ l, p ∈ cl := by
    intro h p hp
    have : cl = ol := List.take_of_length_le (by rw [List.length_take]; omega)
    rw [this]
    exact hol.mem_iff.2 hp
  refine ⟨cd.map Prod.fst ++ cl.map Prod.fst, ?_, ?_⟩
  · unfold candidates
    rw [if_pos hl, eu, Outcome.bind_ok, ec, Outcome.bind_ok, hM]
    simp only
    rw [hode, hole, hc]
  · have hlen : (cd.map Prod.fst ++ cl.map Prod.fst).length = min M (d.length + l.length) := by
      rw [List.length_append, List.length_map, List.length_map]
      omega
    refine ⟨?_, ?_, ?_, ?_, ?_, ?_, ?_, ?_⟩
    · rw [List.nodup_append]
      refine ⟨?_, ?_, ?_⟩
      · exact ((hod.map Prod.fst).nodup_iff.2 hdn).sublist ((List.take_sublist _ _).map _)
      · exact ((hol.map Prod.fst).nodup_iff.2 hln).sublist ((List.take_sublist _ _).map _)
      · intro a ha b hb hab
        subst hab
        obtain ⟨p, hp, rfl⟩ := List.mem_map.1 ha
        obtain ⟨q, hq, e⟩ := List.mem_map.1 hb
        exact hdl p.1 (List.mem_map.2 ⟨p, hcd p hp, rfl⟩) (List.mem_map.2 ⟨q, hcl q hq, e⟩)
    · intro i hi
      rcases List.mem_append.1 hi with hi | hi
      · obtain ⟨⟨i', n'⟩, h1, rfl⟩ := List.mem_map.1 hi
        exact ((hdm _ _).1 (hcd _ h1)).1
      · obtain ⟨⟨i', n'⟩, h1, rfl⟩ := List.mem_map.1 hi
        exact ((hlm _ _).1 (hcl _ h1)).1
    · intro i hi
      rcases List.mem_append.1 hi with hi | hi
      · obtain ⟨⟨i', n'⟩, h1, rfl⟩ := List.mem_map.1 hi
        exact ⟨n', Or.inl ((hdm _ _).1 (hcd _ h1)).2⟩
      · obtain ⟨⟨i', n'⟩, h1, rfl⟩ := List.mem_map.1 hi
        exact ⟨n', Or.inr ((hlm _ _).1 (hcl _ h1)).2⟩
    · intro h0
      rw [← maxCandidates_le h0, hM]
      omega
    · intro hroom i n hf hwy
      have h0 : 0 ≤ S.ratio := by
        by_contra hneg
        have h1 : (0 : Rat) ≤ P.n1 := by exact_mod_cast Nat.zero_le _
        have h2 : (P.n1 : Rat) * S.ratio ≤ 0 := mul_nonpos_of_nonneg_of_nonpos h1 (by linarith)
        have h3 : (0 : Rat) ≤ ((cd.map Prod.fst ++ cl.map Prod.fst).length : Rat) := by
          exact_mod_cast Nat.zero_le _
        linarith
      have hm : (cd.map Prod.fst ++ cl.map Prod.fst).length + 1 ≤ M := by
        rw [← hM, maxCandidates_le h0]
        push_cast at hroom ⊢
        exact hroom
      rcases hwy with h | h
      · exact List.mem_append_left _ (List.mem_map.2 ⟨(i, n), hall (by omega) _ ((hdm i n).2 ⟨hf, h⟩), rfl⟩)
      · exact List.mem_append_right _ (List.mem_map.2 ⟨(i, n), hall2 (by omega) _ ((hlm i n).2 ⟨hf, h⟩), rfl⟩)
    · intro i j n m hi hj hf hwi hwj
      have h1 := hW i n hi hwi
      have h2 : (j, m) ∈ d := (hdm j m).2 ⟨hf, hwj⟩
      have h3 : (j, m) ∉ cd := fun h => hj (List.mem_append_left _ (List.mem_map.2 ⟨(j, m), h, rfl⟩))
      have h4 : M < d.length + l.length := by
        by_contra hle
        exact h3 (hall (by omega) _ h2)
      exact take_prefers (hods h4) h1 (hod.mem_iff.2 h2) h3
    · intro i j n m hi hf hyi hwj
      have h1 := hY i n hi hyi
      have h2 : (j, m) ∈ d := (hdm j m).2 ⟨hf, hwj⟩
      have h3 : 0 < cl.length := List.length_pos_of_mem h1
      exact List.mem_append_left _ (List.mem_map.2 ⟨(j, m), hall (by omega) _ h2, rfl⟩)
    · intro i j n m hi hj hf hyi hyj
      have h1 := hY i n hi hyi
      have h2 : (j, m) ∈ l := (hlm j m).2 ⟨hf, hyj⟩
      have h3 : (j, m) ∉ cl := fun h => hj (List.mem_append_right _ (List.mem_map.2 ⟨(j, m), h, rfl⟩))
      have h4 : M < d.length + l.length := by
        by_contra hle
        exact h3 (hall2 (by omega) _ h2)
      have h5 : 0 < cl.length := List.length_pos_of_mem h1
      exact take_prefers (hols h4 (by omega)) h1 (hol.mem_iff.2 h2) h3

/-! ## LK tracking -/

theorem erase_mem {α β : Type} {f : β → Bool} {x : α} : ∀ (xs : List α) (ys : List β),
    x ∈ eraseByFlags xs (ys.map f) → ∃ (j : Nat) (y : β), xs[j]? = some x ∧ ys[j]? = some y ∧ f y = false
  | [], _, h => by simp [eraseByFlags] at h
  | a :: xs, [], h => by simp [eraseByFlags] at h
  | a :: xs, b :: ys, h => by
    simp only [List.map_cons, eraseByFlags] at h
    cases hb : f b with
    | true =>
      rw [hb, if_pos rfl] at h
      obtain ⟨j, y, h1, h2, h3⟩ := erase_mem xs ys h
      exact ⟨j + 1, y, by simpa using h1, by simpa using h2, h3⟩
    | false =>
      rw [hb, if_neg (by simp)] at h
      rcases List.mem_cons.1 h with h | h
      · subst h
        exact ⟨0, b, rfl, rfl, hb⟩
      · obtain ⟨j, y, h1, h2, h3⟩ := erase_mem xs ys h
        exact ⟨j + 1, y, by simpa using h1, by simpa using h2, h3⟩

theorem erase_sublist {α : Type} : ∀ (xs : List α) (fs : List Bool), (eraseByFlags xs fs).Sublist xs
  | [], _ => by simp [eraseByFlags]
  | a :: xs, [] => by simp [eraseByFlags]
  | a :: xs, f :: fs => by
    unfold eraseByFlags
    cases f
    · simpa using erase_sublist xs fs
    · exact (erase_sublist xs fs).cons a

/-- `eraseVectorElementsByIndex` removes exactly the marked elements and keeps the order: element `x` at position `j`
survives iff `j` is not marked. -/
theorem erase_exact {α : Type} : ∀ (xs : List α) (fs : List Bool), fs.length = xs.length →
    eraseByFlags xs fs = ((xs.zip fs).filter (fun p => !p.2)).map Prod.fst
  | [], _, _ => by simp [eraseByFlags]
  | a :: xs, [], h => by simp at h
  | a :: xs, f :: fs, h => by
    have ih := erase_exact xs fs (by simpa using h)
    unfold eraseByFlags
    cases f <;> simp [ih]

example : eraseByFlags [10, 11, 12, 13] [false, true, false, true] = [10, 12] := rfl

/-- Both vectors that are erased with the same indices stay aligned. -/
theorem erase_aligned {α β : Type} : ∀ (xs : List α) (ys : List β) (fs : List Bool), xs.length = ys.length →
    eraseByFlags (xs.zip ys) fs = (eraseByFlags xs fs).zip (eraseByFlags ys fs)
  | [], ys, fs, _ => by simp [eraseByFlags]
  | a :: xs, [], fs, h => by simp at h
  | a :: xs, b :: ys, [], _ => by simp [eraseByFlags]
  | a :: xs, b :: ys, f :: fs, h => by
    have ih := erase_aligned xs ys fs (by simpa using h)
    cases f <;> simp [eraseByFlags, ih]

theorem newMatches_spec {n1 : Nat} {definite : List Nat} : ∀ (cs : List Nat) (i : Nat),
    (∀ c ∈ cs, c < definite.length) →
    ∃ r, newMatches n1 definite cs i = .ok r ∧ r.map Prod.fst = List.range' (n1 + i) cs.length ∧
      r.map Prod.snd = cs.map (fun c => definite.getD c 0)
  | [], i, _ => ⟨[], rfl, rfl, rfl⟩
  | c :: cs, i, h => by
    obtain ⟨r, e, h1, h2⟩ := newMatches_spec cs (i + 1) (fun c' hc' => h c' (by simp [hc']))
    have hc := h c (by simp)
    refine ⟨(n1 + i, definite[c]) :: r, ?_, ?_, ?_⟩
    · unfold newMatches
      rw [List.getElem?_eq_getElem hc]
      simp only
      rw [e, Outcome.bind_ok]
    · rw [List.map_cons, h1, List.length_cons, List.range'_succ]
      rfl
    · rw [List.map_cons, h2, List.map_cons]
      simp [List.getElem?_eq_getElem hc]

theorem outsideRoi_iff {S : Settings} {x y : Rat} (hw : S.border ≤ S.width) (hh : S.border ≤ S.height)
    (hw2 : S.width < 2 ^ 64) (hh2 : S.height < 2 ^ 64) : outsideRoi S x y = false ↔ InRoi S x y := by
  have e1 : inner S.width S.border = S.width - S.border := by unfold inner; omega
  have e2 : inner S.height S.border = S.height - S.border := by unfold inner; omega
  unfold outsideRoi InRoi
  rw [e1, e2, Nat.cast_sub hw, Nat.cast_sub hh]
  simp only [Bool.or_eq_false_iff, decide_eq_false_iff_not, not_lt, not_le]
  constructor
  · rintro ⟨⟨⟨h1, h2⟩, h3⟩, h4⟩
    exact ⟨h1, h2, h3, h4⟩
  · rintro ⟨h1, h2, h3, h4⟩
    exact ⟨⟨⟨h1, h2⟩, h3⟩, h4⟩

theorem filterMap_getElem {α : Type} {xs : List α} : ∀ (cs : List Nat), (∀ c ∈ cs, c < xs.length) → ∀ i : Nat,
    (cs.filterMap (fun c => xs[c]?))[i]? = (cs[i]?).bind (fun c => xs[c]?)
  | [], _, i => by simp
  | c :: cs, h, i => by
    have hc := h c (by simp)
    have ih := filterMap_getElem cs (fun c' hc' => h c' (by simp [hc']))
    rw [List.filterMap_cons, List.getElem?_eq_getElem hc]
    cases i with
    | zero => simp [List.getElem?_eq_getElem hc]
    | succ i => simpa using ih i

/-- What is promised of the matches `r` that LK tracking appends to a frame of `n1` keypoints, and of the positions
`pts` of the keypoints it adds. -/
structure GoodLk (S : Settings) (P : Call) (cand : List Nat) (r : List (Nat × Nat)) (pts : List (Bool × Rat × Rat)) :
    Prop where
  /-- The new keypoints of frame k+1 are numbered from `n1`. -/
  fst : r.map Prod.fst = List.range' P.n1 r.length
  snd : (r.map Prod.snd).Nodup
  /-- Each comes from a candidate with a prediction, that the optical flow found in the region of interest, at the
  position of the new keypoint. -/
  from_cand : ∀ (i : Nat) (m : Nat × Nat), r[i]? = some m → m.2 ∈ cand ∧ P.success m.2 = true ∧
    ∃ (j : Nat) (x y : Rat), (cand.filter P.success)[j]? = some m.2 ∧
      (P.flow (cand.filter P.success))[j]? = some (true, x, y) ∧ outsideRoi S x y = false ∧
      pts[i]? = some (true, x, y)

theorem lkTracking_ok {S : Settings} {P : Call} {cand : List Nat} (V : Valid P) (hn : cand.Nodup)
    (hc : ∀ i ∈ cand, i < P.idsK.length) :
    ∃ r, lkTracking S P P.idsK.length cand = .ok r ∧ GoodLk S P cand r.1 r.2.1 ∧
      r.2.2 = List.replicate P.n1 .detected ++ List.replicate r.1.length .lkTracked := by
  have hlen : cand.length ≤ P.idsK.length := by
    have h1 : (cand.Subperm (List.range P.idsK.length)) :=
      List.subperm_of_subset hn (fun i hi => List.mem_range.2 (hc i hi))
    simpa using h1.length_le
  unfold lkTracking
  rw [if_pos hlen]
  by_cases he : (cand.filter P.success).isEmpty = true
  · rw [if_pos he]
    exact ⟨_, rfl, ⟨rfl, by simp, by simp⟩, by simp⟩
  · rw [if_neg he, if_pos (V.flow _)]
    simp only
    have hfl := V.flow (cand.filter P.success)
    generalize hF : P.flow (cand.filter P.success) = F at hfl
    generalize hA : cand.filter P.success = A at hfl
    have hz := erase_aligned A F (F.map (eraseFlag S)) hfl.symm
    have hzl : (eraseByFlags A (F.map (eraseFlag S))).length = (eraseByFlags F (F.map (eraseFlag S))).length := by
      rw [erase_exact A _ (by simp [hfl]), erase_exact F _ (by simp), List.length_map, List.length_map]
      have e1 : ∀ (B : List Nat), B.length = F.length →
          ((B.zip (F.map (eraseFlag S))).filter (fun p => !p.2)).length
            = ((F.map (eraseFlag S)).filter (fun f => !f)).length := by
        intro B hB
        have : (B.zip (F.map (eraseFlag S))).map Prod.snd = F.map (eraseFlag S) :=
          List.map_snd_zip (by simp [hB])
        conv_rhs => rw [← this, List.filter_map, List.length_map]
        rfl
      have e2 : ((F.zip (F.map (eraseFlag S))).filter (fun p => !p.2)).length
            = ((F.map (eraseFlag S)).filter (fun f => !f)).length := by
        have : (F.zip (F.map (eraseFlag S))).map Prod.snd = F.map (eraseFlag S) :=
          List.map_snd_zip (by simp)
        conv_rhs => rw [← this, List.filter_map, List.length_map]
        rfl
      rw [e1 A hfl.symm, e2]
    generalize hdef : eraseByFlags A (F.map (eraseFlag S)) = df at hz hzl
    generalize hpts : eraseByFlags F (F.map (eraseFlag S)) = pf at hz hzl
    obtain ⟨r, e, h1, h2⟩ := newMatches_spec (n1 := P.n1) (definite := df) (P.extract df.length) 0
      (V.extract df.length).2
    have hrl : r.length = (P.extract df.length).length := by
      have := congrArg List.length h1
      simpa using this
    rw [e, Outcome.bind_ok]
    refine ⟨_, rfl, ⟨?_, ?_, ?_⟩, ?_⟩
    · simp only
      rw [h1, hrl]
      rfl
    · simp only
      rw [h2]
      have hdn : df.Nodup := by
        rw [← hdef]
        exact (hA ▸ (hn.filter _)).sublist (erase_sublist _ _)
      refine List.Nodup.map_on ?_ (V.extract df.length).1
      intro a ha b hb hab
      have ha2 := (V.extract df.length).2 a ha
      have hb2 := (V.extract df.length).2 b hb
      simp only [List.getD, List.getElem?_eq_getElem ha2, List.getElem?_eq_getElem hb2, Option.getD_some] at hab
      exact (List.Nodup.getElem_inj_iff hdn).1 hab
    · intro i m hm
      simp only at hm ⊢
      have e1 : (r.map Prod.snd)[i]? = some m.2 := by rw [List.getElem?_map, hm]; rfl
      rw [h2, List.getElem?_map] at e1
      cases hci : (P.extract df.length)[i]? with
      | none => rw [hci] at e1; cases e1
      | some c =>
        rw [hci] at e1
        have hc3 := (V.extract df.length).2 c (List.mem_of_getElem? hci)
        have hc4 : c < pf.length := hzl ▸ hc3
        simp only [Option.map_some, List.getD, List.getElem?_eq_getElem hc3, Option.getD_some, Option.some.injEq] at e1
        have hmem : (m.2, pf[c]) ∈ eraseByFlags (A.zip F) (F.map (eraseFlag S)) := by
          rw [hz]
          refine List.mem_of_getElem? (i := c) ?_
          rw [List.getElem?_zip_eq_some]
          exact ⟨by rw [List.getElem?_eq_getElem hc3, e1], List.getElem?_eq_getElem hc4⟩
        have hmd : m.2 ∈ df := by rw [← e1]; exact List.getElem_mem hc3
        rw [← hdef] at hmd
        have hmc := List.mem_filter.1 (hA ▸ (erase_sublist _ _).subset hmd)
        obtain ⟨j, y', k1, k2, k3⟩ := erase_mem (A.zip F) F hmem
        rw [List.getElem?_zip_eq_some] at k1
        have hy : y' = pf[c] := by
          have := k1.2
          rw [k2] at this
          exact Option.some.inj this
        subst hy
        have hpc : ((P.extract df.length).filterMap (fun c => pf[c]?))[i]? = some pf[c] := by
          rw [filterMap_getElem _ (by rw [← hzl]; exact (V.extract df.length).2), hci, Option.bind_some,
            List.getElem?_eq_getElem hc4]
        generalize pf[c] = q at hpc k1 k2 k3
        obtain ⟨s, x, y⟩ := q
        unfold eraseFlag at k3
        simp only [Bool.or_eq_false_iff, Bool.not_eq_false'] at k3
        obtain ⟨rfl, k4⟩ := k3
        exact ⟨hmc.1, hmc.2, j, x, y, by rw [hA]; exact k1.1, by rw [hF]; exact k1.2, k4, hpc⟩
    · simp only
      rw [hrl]

/-! ## Status track lengths -/

/-- One frame of the history: its track ids and the status of its keypoints. -/
abbrev Frame := List Int × List Status

/-- The status of the keypoint with track id `v`. -/
def statusOf (f : Frame) (v : Int) : Option Status := f.2[f.1.idxOf v]?

/-- How many of the latest frames of `hist` (latest first) have a keypoint with id `v`. -/
def trackLength (v : Int) (hist : List Frame) : Nat := (hist.takeWhile (fun f => decide (v ∈ f.1))).length

/-- How many of the latest frames of `hist` have a keypoint with id `v` and status `s`. -/
def sameLength (v : Int) (s : Status) (hist : List Frame) : Nat :=
  (hist.takeWhile (fun f => decide (v ∈ f.1) && decide (statusOf f v = some s))).length

/-- The status track length of a keypoint with id `v` and status `s` after the frames `hist`: the number of frames since
the status changed, counting the frame before the change; the whole track if it never changed. -/
def statusLength (v : Int) (s : Status) (hist : List Frame) : Nat :=
  if v = -1 then 0 else min (trackLength v hist) (sameLength v s hist + 1)

theorem statusLength_cons {v : Int} {s : Status} {f : Frame} {hist : List Frame} (hv : v ≠ -1) :
    statusLength v s (f :: hist) =
      if v ∈ f.1 then (if statusOf f v = some s then statusLength v s hist + 1 else 1) else 0 := by
  unfold statusLength trackLength sameLength
  rw [if_neg hv, if_neg hv, List.takeWhile_cons, List.takeWhile_cons]
  by_cases h1 : v ∈ f.1
  · by_cases h2 : statusOf f v = some s
    · simp [h1, h2]
    · simp [h1, h2]
  · simp [h1]

/-- One entry of the result of `computeStatusTrackLengthOfFrameK`. -/
def stepLen (km1 : List Int) (sKm1 : List Status) (lensKm1 : List Nat) (v : Int) (s : Status) : Nat :=
  if v = -1 then 0 else
    if v ∈ km1 then (if sKm1[km1.idxOf v]? = some s then lensKm1.getD (km1.idxOf v) 0 + 1 else 1) else 0

theorem lengthLoop_spec {km1 : List Int} {sK sKm1 : List Status} {L : List Nat} (h1 : sKm1.length = km1.length)
    (h2 : L.length = km1.length) : ∀ (rest : List Int) (i : Nat) (lens : List Nat),
    lens.length = i + rest.length → sK.length = i + rest.length → (∀ k, i ≤ k → k < lens.length → lens[k]? = some 0) →
    ∃ fin, lengthLoop sK sKm1 L (trackedLoop km1 rest i) lens = .ok fin ∧ fin.length = lens.length ∧
      (∀ k, k < i → fin[k]? = lens[k]?) ∧
      ∀ k v s, rest[k]? = some v → sK[i + k]? = some s → fin[i + k]? = some (stepLen km1 sKm1 L v s)
  | [], i, lens, _, _, _ => ⟨lens, rfl, rfl, fun _ _ => rfl, by simp⟩
  | v :: rest, i, lens, hl, hs, h0 => by
    rw [List.length_cons] at hl hs
    have hi : i < lens.length := by omega
    have his : i < sK.length := by omega
    have hskip : stepLen km1 sKm1 L v sK[i] = 0 → trackedLoop km1 (v :: rest) i = trackedLoop km1 rest (i + 1) →
        ∃ fin, lengthLoop sK sKm1 L (trackedLoop km1 (v :: rest) i) lens = .ok fin ∧ fin.length = lens.length ∧
        (∀ k, k < i → fin[k]? = lens[k]?) ∧
        ∀ k w s, (v :: rest)[k]? = some w → sK[i + k]? = some s → fin[i + k]? = some (stepLen km1 sKm1 L w s) := by
      intro hz ht
      obtain ⟨fin, e, k1, k2, k3⟩ := lengthLoop_spec (sK := sK) h1 h2 rest (i + 1) lens (by omega) (by omega)
        (fun k hk => h0 k (by omega))
      refine ⟨fin, by rw [ht]; exact e, k1, fun k hk => k2 k (by omega), ?_⟩
      intro k w s hw hs'
      cases k with
      | zero =>
        simp only [List.getElem?_cons_zero, Option.some.injEq] at hw
        subst hw
        rw [Nat.add_zero, List.getElem?_eq_getElem his] at hs'
        cases hs'
        rw [Nat.add_zero, k2 i (by omega), h0 i (Nat.le_refl i) hi, hz]
      | succ k =>
        rw [List.getElem?_cons_succ] at hw
        have e : i + (k + 1) = i + 1 + k := by omega
        rw [e] at hs' ⊢
        exact k3 k w s hw hs'
    have hset : ∀ n : Nat, stepLen km1 sKm1 L v sK[i] = n →
        lengthLoop sK sKm1 L (trackedLoop km1 (v :: rest) i) lens =
          lengthLoop sK sKm1 L (trackedLoop km1 rest (i + 1)) (lens.set i n) →
        ∃ fin, lengthLoop sK sKm1 L (trackedLoop km1 (v :: rest) i) lens = .ok fin ∧ fin.length = lens.length ∧
        (∀ k, k < i → fin[k]? = lens[k]?) ∧
        ∀ k w s, (v :: rest)[k]? = some w → sK[i + k]? = some s → fin[i + k]? = some (stepLen km1 sKm1 L w s) := by
      intro n hz ht
      obtain ⟨fin, e, k1, k2, k3⟩ := lengthLoop_spec (sK := sK) h1 h2 rest (i + 1) (lens.set i n)
        (by rw [List.length_set]; omega) (by omega) (by
          intro k hk hk2
          rw [List.getElem?_set_ne (by omega)]
          rw [List.length_set] at hk2
          exact h0 k (by omega) hk2)
      refine ⟨fin, by rw [ht]; exact e, by rw [k1, List.length_set], ?_, ?_⟩
      · intro k hk
        rw [k2 k (by omega), List.getElem?_set_ne (by omega)]
      intro k w s hw hs'
      cases k with
      | zero =>
        simp only [List.getElem?_cons_zero, Option.some.injEq] at hw
        subst hw
        rw [Nat.add_zero, List.getElem?_eq_getElem his] at hs'
        cases hs'
        rw [Nat.add_zero, k2 i (by omega), List.getElem?_set_self hi, hz]
      | succ k =>
        rw [List.getElem?_cons_succ] at hw
        have e : i + (k + 1) = i + 1 + k := by omega
        rw [e] at hs' ⊢
        exact k3 k w s hw hs'
    by_cases hv : v = -1
    · refine hskip ?_ ?_
      · unfold stepLen
        rw [if_pos hv]
      · conv_lhs => unfold trackedLoop
        rw [if_pos hv]
    by_cases hm : v ∈ km1
    · have hidx : km1.idxOf v < km1.length := List.idxOf_lt_length_iff.2 hm
      have hs1 : km1.idxOf v < sKm1.length := by omega
      have hL1 : km1.idxOf v < L.length := by omega
      have ht : trackedLoop km1 (v :: rest) i = (i, km1.idxOf v) :: trackedLoop km1 rest (i + 1) := by
        conv_lhs => unfold trackedLoop
        rw [if_neg hv, if_pos hm]
      by_cases hst : sKm1[km1.idxOf v] = sK[i]
      · refine hset (L.getD (km1.idxOf v) 0 + 1) ?_ ?_
        · unfold stepLen
          rw [if_neg hv, if_pos hm, List.getElem?_eq_getElem hs1, if_pos (by rw [hst])]
        · rw [ht]
          conv_lhs => unfold lengthLoop
          have : lengthOne sK sKm1 L (i, km1.idxOf v) lens = .ok (lens.set i (L.getD (km1.idxOf v) 0 + 1)) := by
            unfold lengthOne
            simp only [List.getElem?_eq_getElem hs1, List.getElem?_eq_getElem his, List.getElem?_eq_getElem hL1,
              List.getD, Option.getD_some]
            rw [if_neg (by simp [hst]), if_pos hi]
          rw [this, Outcome.bind_ok]
      · refine hset 1 ?_ ?_
        · unfold stepLen
          rw [if_neg hv, if_pos hm, List.getElem?_eq_getElem hs1, if_neg (by simpa using hst)]
        · rw [ht]
          conv_lhs => unfold lengthLoop
          have : lengthOne sK sKm1 L (i, km1.idxOf v) lens = .ok (lens.set i 1) := by
            unfold lengthOne
            simp only [List.getElem?_eq_getElem hs1, List.getElem?_eq_getElem his]
            rw [if_pos hst, if_pos hi]
          rw [this, Outcome.bind_ok]
    · refine hskip ?_ ?_
      · unfold stepLen
        rw [if_neg hv, if_neg hm]
      · conv_lhs => unfold trackedLoop
        rw [if_neg hv, if_neg hm]

/-! ## Sequences of calls -/

/-- The status of a frame of `size` keypoints, the first `n1` of which were detected. -/
def frameStatus (n1 size : Nat) : List Status :=
  List.replicate n1 .detected ++ List.replicate (size - n1) .lkTracked

/-- Tracker states that are reached by calls on successive frames, with the frames so far (latest first) and, for the
latest frame k+1, how many keypoints were detected and how many it has now.  In the next call frame k must be that
frame, its keypoints untouched apart from their track ids. -/
inductive Runs (S : Settings) : St → List Frame → Nat → Nat → Prop
  | first {P : Call} {st : St} {r : Result} : Valid P → track S P St.new = .ok (st, r) →
      Runs S st [(P.idsK, frameStatus P.idsK.length P.idsK.length)] P.n1 r.size
  | next {P : Call} {st st' : St} {hist : List Frame} {n size : Nat} {r : Result} : Runs S st hist n size →
      Valid P → P.idsK.length = size → track S P st = .ok (st', r) →
      Runs S st' ((P.idsK, frameStatus n size) :: hist) P.n1 r.size

/-- What is promised of a call on frame k with status `sK` after the frames `hist`. -/
structure GoodCall (S : Settings) (P : Call) (sK : List Status) (hist : List Frame) (r : Result) : Prop where
  /-- The combined match list is one-to-one between frame k and the extended frame k+1. -/
  oneToOne : OneToOne r.size P.idsK.length r.matchList
  /-- The status track lengths are those of the specification. -/
  lens : r.lens.length = P.idsK.length ∧ ∀ (i : Nat) (v : Int) (s : Status), P.idsK[i]? = some v → sK[i]? = some s →
    r.lens[i]? = some (statusLength v s hist)
  cand : GoodCandidates S P sK r.lens r.cand
  lk : ∃ added, r.matchList = P.ms ++ added ∧ r.size = P.n1 + added.length ∧ GoodLk S P r.cand added r.points

theorem range'_lt {a n i : Nat} (h : i ∈ List.range' a n) : a ≤ i ∧ i < a + n := by
  rw [List.mem_range'_1] at h
  exact h

theorem combined {S : Settings} {P : Call} {sK : List Status} {lens cand : List Nat} {added : List (Nat × Nat)}
    {pts : List (Bool × Rat × Rat)}
    (V : Valid P) (C : GoodCandidates S P sK lens cand) (G : GoodLk S P cand added pts) :
    OneToOne (P.n1 + added.length) P.idsK.length (P.ms ++ added) := by
  have hmem : ∀ m ∈ added, m.2 ∈ cand := by
    intro m hm
    obtain ⟨i, hi⟩ := List.mem_iff_getElem?.1 hm
    exact (G.from_cand i m hi).1
  have hfst : ∀ m ∈ added, P.n1 ≤ m.1 ∧ m.1 < P.n1 + added.length := by
    intro m hm
    have : m.1 ∈ added.map Prod.fst := List.mem_map.2 ⟨m, hm, rfl⟩
    rw [G.fst] at this
    exact range'_lt this
  refine ⟨?_, ?_, ?_⟩
  · intro m hm
    rcases List.mem_append.1 hm with hm | hm
    · have := V.ms.1 m hm
      exact ⟨by omega, this.2⟩
    · exact ⟨(hfst m hm).2, (C.free _ (hmem m hm)).1⟩
  · rw [List.map_append, List.nodup_append]
    refine ⟨V.ms.2.1, ?_, ?_⟩
    · rw [G.fst]
      exact List.nodup_range'
    · intro a ha b hb hab
      obtain ⟨m, hm, rfl⟩ := List.mem_map.1 ha
      obtain ⟨m', hm', rfl⟩ := List.mem_map.1 hb
      have h1 := (V.ms.1 m hm).1
      have h2 := (hfst m' hm').1
      omega
  · rw [List.map_append, List.nodup_append]
    refine ⟨V.ms.2.2, G.snd, ?_⟩
    intro a ha b hb hab
    obtain ⟨m, hm, rfl⟩ := List.mem_map.1 ha
    obtain ⟨m', hm', rfl⟩ := List.mem_map.1 hb
    exact (C.free _ (hmem m' hm')).2 m hm hab

theorem finish_ok {S : Settings} {P : Call} {st : St} {tm : List (Nat × Nat)} {lens : List Nat} {sK : List Status}
    {hist : List Frame} (V : Valid P) (e1 : trackedMatches st = .ok tm) (e2 : statusLengths st tm = .ok lens)
    (hl : lens.length = P.idsK.length) (hs : st.status.headD [] = sK) (hsl : sK.length = P.idsK.length)
    (hspec : ∀ (i : Nat) (v : Int) (s : Status), P.idsK[i]? = some v → sK[i]? = some s →
      lens[i]? = some (statusLength v s hist)) :
    ∃ r, finish S P st =
      .ok (⟨true, st.ids, pushDeque (frameStatus P.n1 r.size) st.status, lens⟩, r) ∧ GoodCall S P sK hist r ∧
      P.n1 ≤ r.size := by
  obtain ⟨c, ec, C⟩ := lk_candidates (S := S) V hl hsl
  obtain ⟨r, er, G, hst⟩ := lkTracking_ok (S := S) V C.nodup (fun i hi => (C.free i hi).1)
  refine ⟨⟨P.ms ++ r.1, P.n1 + r.1.length, c, lens, r.2.1⟩, ?_, ⟨combined V C G, ⟨hl, hspec⟩, C, r.1, rfl, rfl, G⟩,
    Nat.le_add_right _ _⟩
  unfold finish
  rw [e1, Outcome.bind_ok, e2, Outcome.bind_ok, hs, ec, Outcome.bind_ok, er, Outcome.bind_ok, hst]
  simp only [frameStatus, Nat.add_sub_cancel_left]

/-- What holds between two calls. -/
structure Inv (st : St) (hist : List Frame) (n size : Nat) : Prop where
  init : st.initialized = true
  le : n ≤ size
  shape : ∃ (f : Frame) (tl : List Frame) (rest : List (List Int)), hist = f :: tl ∧ st.ids = f.1 :: rest ∧
    rest.length ≤ 1 ∧
    st.status = [frameStatus n size, f.2] ∧ f.2.length = f.1.length ∧ st.lens.length = f.1.length ∧
    ∀ (i : Nat) (v : Int) (s : Status), f.1[i]? = some v → f.2[i]? = some s → st.lens[i]? = some (statusLength v s tl)

theorem first_ok {S : Settings} {P : Call} (hr : 0 < S.ratio) (V : Valid P) :
    ∃ st r, track S P St.new = .ok (st, r) ∧
      GoodCall S P (frameStatus P.idsK.length P.idsK.length) [] r ∧
      Inv st [(P.idsK, frameStatus P.idsK.length P.idsK.length)] P.n1 r.size := by
  have hfs : frameStatus P.idsK.length P.idsK.length = List.replicate P.idsK.length .detected := by
    simp [frameStatus]
  have hspec : ∀ (i : Nat) (v : Int) (s : Status), P.idsK[i]? = some v →
      (frameStatus P.idsK.length P.idsK.length)[i]? = some s →
      (List.replicate P.idsK.length 0)[i]? = some (statusLength v s []) := by
    intro i v s hv _
    have hi : i < P.idsK.length := (List.getElem?_eq_some_iff.1 hv).1
    rw [List.getElem?_replicate, if_pos hi]
    simp [statusLength, trackLength]
  obtain ⟨r, e, G, hle⟩ := finish_ok (S := S) (P := P)
    (st := ⟨false, [P.idsK], [frameStatus P.idsK.length P.idsK.length], []⟩) (tm := [])
    (lens := List.replicate P.idsK.length 0) (sK := frameStatus P.idsK.length P.idsK.length) (hist := []) V rfl rfl
    (by simp) rfl (by simp [hfs]) hspec
  have et : track S P St.new = .ok (⟨true, [P.idsK], [frameStatus P.n1 r.size,
      frameStatus P.idsK.length P.idsK.length], List.replicate P.idsK.length 0⟩, r) := by
    unfold track
    rw [if_pos hr]
    have : begin P St.new = .ok ⟨false, [P.idsK], [frameStatus P.idsK.length P.idsK.length], []⟩ := by
      rw [hfs]
      rfl
    rw [this, Outcome.bind_ok, e]
    rfl
  exact ⟨_, r, et, G, ⟨rfl, hle, (P.idsK, frameStatus P.idsK.length P.idsK.length), [], [], rfl, rfl, by simp, rfl,
    by simp [hfs], by simp, hspec⟩⟩

theorem next_ok {S : Settings} {P : Call} {st : St} {hist : List Frame} {n size : Nat} (hr : 0 < S.ratio) (V : Valid P)
    (I : Inv st hist n size) (hsz : P.idsK.length = size) :
    ∃ st' r, track S P st = .ok (st', r) ∧ GoodCall S P (frameStatus n size) hist r ∧
      Inv st' ((P.idsK, frameStatus n size) :: hist) P.n1 r.size := by
  obtain ⟨f, tl, rest, rfl, hids, hrest, hstat, hf, hlen, hlens⟩ := I.shape
  have hfl : (frameStatus n size).length = size := by
    have := I.le
    simp [frameStatus]
    omega
  have hpush : pushDeque P.idsK st.ids = [P.idsK, f.1] := by
    rw [hids]
    match rest, hrest with
    | [], _ => rfl
    | [a], _ => rfl
  obtain ⟨lens, e, hl1, _, hl2⟩ := lengthLoop_spec (sK := frameStatus n size) hf hlen P.idsK 0
    (List.replicate P.idsK.length 0) (by simp) (by omega) (by
      intro k _ hk
      rw [List.length_replicate] at hk
      rw [List.getElem?_replicate, if_pos hk])
  rw [List.length_replicate] at hl1
  have hspec : ∀ (i : Nat) (v : Int) (s : Status), P.idsK[i]? = some v → (frameStatus n size)[i]? = some s →
      lens[i]? = some (statusLength v s (f :: tl)) := by
    intro i v s hv hs
    have := hl2 i v s hv (by rw [Nat.zero_add]; exact hs)
    rw [Nat.zero_add] at this
    rw [this]
    by_cases hv1 : v = -1
    · subst hv1
      simp [stepLen, statusLength]
    · rw [statusLength_cons hv1]
      unfold stepLen
      rw [if_neg hv1]
      by_cases hm : v ∈ f.1
      · rw [if_pos hm, if_pos hm]
        have hidx : f.1.idxOf v < f.1.length := List.idxOf_lt_length_iff.2 hm
        have hget : f.1[f.1.idxOf v]? = some v := by
          rw [List.getElem?_eq_getElem hidx, List.getElem_idxOf hidx]
        by_cases hst : f.2[f.1.idxOf v]? = some s
        · have hL := hlens _ v s hget hst
          rw [if_pos hst, if_pos (show statusOf f v = some s from hst), List.getD, hL]
          rfl
        · rw [if_neg hst, if_neg (show ¬ statusOf f v = some s from hst)]
      · rw [if_neg hm, if_neg hm]
  have e1 : trackedMatches ⟨true, [P.idsK, f.1], st.status, st.lens⟩ = .ok (trackedLoop f.1 P.idsK 0) := rfl
  have e2 : statusLengths ⟨true, [P.idsK, f.1], st.status, st.lens⟩ (trackedLoop f.1 P.idsK 0) = .ok lens := by
    unfold statusLengths
    simp only [hstat, if_true]
    exact e
  obtain ⟨r, e3, G, hle⟩ := finish_ok (S := S) (P := P) (sK := frameStatus n size) (hist := f :: tl) V e1 e2 hl1
    (by simp [hstat]) (by omega) hspec
  have et : track S P st = .ok (⟨true, [P.idsK, f.1], [frameStatus P.n1 r.size, frameStatus n size], lens⟩, r) := by
    unfold track
    rw [if_pos hr]
    have : begin P st = .ok ⟨true, [P.idsK, f.1], st.status, st.lens⟩ := by
      unfold begin
      rw [if_pos I.init, hpush, I.init]
    rw [this, Outcome.bind_ok, e3, hstat]
    rfl
  exact ⟨_, r, et, G, ⟨rfl, hle, (P.idsK, frameStatus n size), f :: tl, [f.1], rfl, rfl, by simp, rfl,
    by simp; omega, hl1, hspec⟩⟩

theorem Runs.inv {S : Settings} (hr : 0 < S.ratio) {st : St} {hist : List Frame} {n size : Nat}
    (R : Runs S st hist n size) : Inv st hist n size := by
  induction R with
  | first V e =>
    obtain ⟨st', r', e', _, I⟩ := first_ok (S := S) hr V
    rw [e] at e'
    cases e'
    exact I
  | next _ V hsz e ih =>
    obtain ⟨st', r', e', _, I⟩ := next_ok (S := S) hr V ih hsz
    rw [e] at e'
    cases e'
    exact I

/-! ## C42 -/

/-- The first call of a tracker never aborts and keeps what is promised. -/
theorem first_call {S : Settings} {P : Call} (hr : 0 < S.ratio) (V : Valid P) :
    ∃ st r, track S P St.new = .ok (st, r) ∧
      GoodCall S P (frameStatus P.idsK.length P.idsK.length) [] r := by
  obtain ⟨st, r, e, G, _⟩ := first_ok hr V
  exact ⟨st, r, e, G⟩

/-- In any sequence of calls on successive frames, no call aborts or reads out of range, and each keeps what is
promised: combined matches one-to-one, candidates as specified, status track lengths as specified. -/
theorem every_call {S : Settings} {P : Call} {st : St} {hist : List Frame} {n size : Nat} (hr : 0 < S.ratio)
    (R : Runs S st hist n size) (V : Valid P) (hsz : P.idsK.length = size) :
    ∃ st' r, track S P st = .ok (st', r) ∧ GoodCall S P (frameStatus n size) hist r := by
  obtain ⟨st', r, e, G, _⟩ := next_ok hr V (R.inv hr) hsz
  exact ⟨st', r, e, G⟩

/-- With the ratio 0 the matches are those of the descriptor matcher. -/
theorem ratio_zero {S : Settings} {P : Call} {st : St} (h : S.ratio ≤ 0) :
    ∃ r, track S P st = .ok (st, r) ∧ r.matchList = P.ms ∧ r.size = P.n1 := by
  unfold track
  rw [if_neg (by linarith)]
  exact ⟨_, rfl, rfl, rfl⟩

/-- LK-tracked keypoints lie in the region of interest when the border is not larger than the image. -/
theorem lk_points_in_roi_partial {S : Settings} {P : Call} {cand : List Nat} {r : List (Nat × Nat)}
    {pts : List (Bool × Rat × Rat)} (G : GoodLk S P cand r pts) (hw : S.border ≤ S.width) (hh : S.border ≤ S.height)
    (hw2 : S.width < 2 ^ 64) (hh2 : S.height < 2 ^ 64) {i : Nat} {m : Nat × Nat} (hm : r[i]? = some m) :
    ∃ x y, pts[i]? = some (true, x, y) ∧ InRoi S x y := by
  obtain ⟨_, _, j, x, y, _, _, ho, hp⟩ := G.from_cand i m hm
  exact ⟨x, y, hp, (outsideRoi_iff hw hh hw2 hh2).1 ho⟩

/-- With a border larger than the image the unsigned subtraction wraps and points far outside of the image pass. -/
theorem roi_wraps_refuted : ∃ (S : Settings) (x y : Rat), S.width < S.border ∧ outsideRoi S x y = false ∧
    (S.width : Rat) + 1000 < x :=
  ⟨⟨1, 10, 1, 200, 100, 100⟩, 5000, 5000, by decide, by decide +kernel, by norm_num⟩

/-- The track manager accepts the matches of a call (its range and exclusiveness checks never abort): frames `a` (k+1)
and `b` (k), no keypoint of frame k+1 on a track as yet (its track ids are -1, tracking-helpers.cc:57-60). -/
theorem track_manager_accepts {n1 nK : Nat} {ms : List (Nat × Nat)} (h : OneToOne n1 nK ms) {a b : Nat} (hab : a ≠ b)
    {w : TrackManager.World} (ha : TrackManager.size w a = n1) (hb : TrackManager.size w b = nK)
    (ha2 : n1 < 2 ^ 31) (hb2 : nK < 2 ^ 31) (hn : w.next + ms.length ≤ 2 ^ 31)
    (hnew : ∀ i, TrackManager.trackOf w a i = none) :
    ∃ w', TrackManager.applyMatches a b (ms.map (fun m => ((m.1 : Int), (m.2 : Int)))) w = .ok w' := by
  rw [TrackManager.apply_succeeds_iff hab (by simpa using hn) (by omega) (by omega)]
  refine ⟨⟨?_, ?_, ?_⟩, ?_⟩
  · intro m hm
    obtain ⟨m', hm', rfl⟩ := List.mem_map.1 hm
    have := h.1 m' hm'
    simp only
    omega
  · rw [List.map_map]
    have : (ms.map (Prod.fst ∘ fun m : Nat × Nat => ((m.1 : Int), (m.2 : Int)))) = (ms.map Prod.fst).map Int.ofNat := by
      rw [List.map_map]
      rfl
    rw [this]
    exact h.2.1.map Int.ofNat_injective
  · rw [List.map_map]
    have : (ms.map (Prod.snd ∘ fun m : Nat × Nat => ((m.1 : Int), (m.2 : Int)))) = (ms.map Prod.snd).map Int.ofNat := by
      rw [List.map_map]
      rfl
    rw [this]
    exact h.2.2.map Int.ofNat_injective
  · intro i j _ x y hx
    rw [hnew] at hx
    cases hx

/-- With the descriptor matcher of `Verif.GyroMatcher` the assumption on the matches holds. -/
theorem matcher_matches_valid {Q : GyroMatcher.Input} (V : GyroMatcher.Valid Q) :
    ∃ ms, GyroMatcher.runMatch Q = .ok ms ∧ OneToOne Q.n1 Q.nK ms := by
  obtain ⟨ms, e, h1, h2, h3⟩ := GyroMatcher.matching_one_to_one_partial V
  refine ⟨ms, e, ?_, h1, h2⟩
  intro m hm
  have := h3 m.1 m.2 hm
  exact ⟨this.hi, this.hk⟩

/-! ## A run -/

/-- Settings of the demonstration: half of the keypoints. -/
def demoSettings : Settings := ⟨1 / 2, 10, 1, 10, 100, 100⟩

/-- Four keypoints in frame k, two matched; the optical flow finds every point at (50, 50) and the extractor loses the
first key point. -/
def demoCall (ids : List Int) (n1 : Nat) (ms : List (Nat × Nat)) : Call :=
  { idsK := ids, n1 := n1, ms := ms, success := fun _ => true,
    sortDesc := fun l => l.insertionSort (fun a b => b.2 ≤ a.2),
    sortAsc := fun l => l.insertionSort (fun a b => a.2 ≤ b.2),
    flow := fun l => l.map (fun _ => (true, 50, 50)),
    extract := fun n => (List.range n).drop 1 }

theorem demo_valid {ids : List Int} {n1 : Nat} {ms : List (Nat × Nat)} (h : OneToOne n1 ids.length ms) :
    Valid (demoCall ids n1 ms) := by
  refine ⟨h, ?_, ?_, fun l => by simp [demoCall], ?_⟩
  · intro l
    haveI : Std.Total (fun a b : Nat × Nat => b.2 ≤ a.2) := ⟨fun a b => Nat.le_total b.2 a.2⟩
    haveI : IsTrans (Nat × Nat) (fun a b => b.2 ≤ a.2) := ⟨fun a b c h1 h2 => Nat.le_trans h2 h1⟩
    exact ⟨List.perm_insertionSort _ _, List.pairwise_insertionSort _ l⟩
  · intro l
    haveI : Std.Total (fun a b : Nat × Nat => a.2 ≤ b.2) := ⟨fun a b => Nat.le_total a.2 b.2⟩
    haveI : IsTrans (Nat × Nat) (fun a b => a.2 ≤ b.2) := ⟨fun a b c h1 h2 => Nat.le_trans h1 h2⟩
    exact ⟨List.perm_insertionSort _ _, List.pairwise_insertionSort _ l⟩
  · intro n
    refine ⟨(List.nodup_range (n := n)).sublist (List.drop_sublist _ _), ?_⟩
    intro c hc
    exact List.mem_range.1 (List.mem_of_mem_drop hc)

/-- Three calls.  In the second call keypoints 0 to 4 of frame k carry ids 5 to 8 and -1 after the first call (length 1
for those seen in the frame before); two of them are unmatched and become candidates, one survives extraction. -/
example : (track demoSettings (demoCall [5, 6, 7, 8] 5 [(0, 0), (1, 1), (2, 2), (3, 3)]) St.new >>= fun a =>
    track demoSettings (demoCall [5, 6, 7, 8, -1] 4 [(0, 0), (1, 4)]) a.1 >>= fun b =>
    track demoSettings (demoCall [5, -1, -1, -1, 7] 4 []) b.1 >>= fun c =>
      .ok (b.2.cand, b.2.matchList, b.2.size, c.2.lens, c.2.cand)) =
    .ok ([1, 2], [(0, 0), (1, 4), (4, 2)], 5, [2, 0, 0, 0, 1], [0, 4]) := by decide +kernel
