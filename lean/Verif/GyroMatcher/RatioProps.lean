import Verif.GyroMatcher.Model
import Mathlib.Tactic.Common
import Mathlib.Data.List.Perm.Basic
import Mathlib.Tactic.Linarith
import Mathlib.Tactic.NormNum
import Mathlib.Tactic.FieldSimp
import Mathlib.Algebra.Order.Floor.Ring

/-!
# Gyro matcher, ratio test: C41
-/

namespace Verif.GyroMatcher

open Verif (Outcome)

/-! ## Specification

The distances of the candidates in the order in which they are visited; a candidate qualifies if its score exceeds the
relaxed threshold. -/

/-- The candidate is good enough to be a match. -/
def qualifies (bits d : Nat) : Bool := decide ((bits : ℤ) - d > (bits * 4 / 5 : Nat))

/-- The smallest distance of a list. -/
def least : List Nat → Option Nat
  | [] => none
  | d :: ds => some ((least ds).elim d (min d))

/-- The verdict of the ratio test given the distances of all candidates: with the least distance `d` and the least of
the others `e`, `d < 0.8 e`; always passed without another candidate or if it is at distance 0. -/
def ratioSpec (ds : List Nat) (d : Nat) : Bool :=
  match least (ds.erase d) with
  | none => true
  | some e => decide (e = 0) || decide (5 * d < 4 * e)

/-! ## The search over a list of candidates -/

/-- The fold over the candidates, as far as the distances are concerned. -/
def scan (bits : Nat) (ds : List Nat) (s : Search) : Search :=
  ds.foldl (fun s d => update s 0 d ((bits : ℤ) - d)) s

/-- Distances seen so far: the state of the scan once a qualifying candidate has been found. -/
structure ScanInv (bits : Nat) (seen : List Nat) (s : Search) : Prop where
  it : s.it ≠ none
  best : s.best = (bits : ℤ) - s.dBest
  mem : s.dBest ∈ seen
  le : ∀ d ∈ seen, s.dBest ≤ d
  second : s.second = (least (seen.erase s.dBest)).getD (bits + 1)

theorem least_spec : ∀ {l : List Nat} {m : Nat}, least l = some m ↔ m ∈ l ∧ ∀ d ∈ l, m ≤ d
  | [], m => by simp [least]
  | d :: ds, m => by
    unfold least
    cases h : least ds with
    | none =>
      have : ds = [] := by cases ds with | nil => rfl | cons => simp [least] at h
      subst this
      simp
      constructor
      · rintro rfl; simp
      · rintro ⟨h1, _⟩; exact h1.symm
    | some e =>
      obtain ⟨e1, e2⟩ := least_spec.1 h
      simp only [Option.elim_some, Option.some.injEq, List.mem_cons, forall_eq_or_imp]
      constructor
      · intro hm
        subst hm
        refine ⟨?_, by omega, fun x hx => (Nat.min_le_right _ _).trans (e2 x hx)⟩
        rcases Nat.le_total d e with h | h
        · left; omega
        · right; rw [Nat.min_eq_right h]; exact e1
      · rintro ⟨rfl | h1, h2, h3⟩
        · exact Nat.min_eq_left (h3 e e1)
        · have := h3 e e1
          have := e2 m h1
          omega

theorem least_none {l : List Nat} : least l = none ↔ l = [] := by
  cases l <;> simp [least]

theorem least_perm {l m : List Nat} (h : l.Perm m) : least l = least m := by
  cases hl : least l with
  | none =>
    rw [least_none] at hl
    subst hl
    rw [List.nil_perm] at h
    rw [h]; rfl
  | some a =>
    rw [least_spec] at hl
    symm
    rw [least_spec]
    exact ⟨h.mem_iff.1 hl.1, fun d hd => hl.2 d (h.mem_iff.2 hd)⟩

theorem least_append (l : List Nat) (d : Nat) : least (l ++ [d]) = some ((least l).elim d (min d)) := by
  have : least (l ++ [d]) = least (d :: l) := least_perm (List.perm_append_comm)
  rw [this]; rfl

theorem ScanInv.step {bits : Nat} {seen : List Nat} {s : Search} (h : ScanInv bits seen s) (i d : Nat)
    (hd : d ≤ bits) : ScanInv bits (seen ++ [d]) (update s i d ((bits : ℤ) - d)) := by
  unfold update
  by_cases h1 : (bits : ℤ) - d > s.best
  · rw [if_pos h1]
    have hb := h.best
    have hlt : d < s.dBest := by omega
    have hnot : d ∉ seen := fun hm => by have := h.le d hm; omega
    refine ⟨by simp, rfl, by simp, ?_, ?_⟩
    · intro x hx
      rcases List.mem_append.1 hx with hx | hx
      · have := h.le x hx; show d ≤ x; omega
      · simp at hx; show d ≤ x; omega
    · show s.dBest = _
      rw [List.erase_append_right _ hnot]
      simp only [List.erase_cons_head, List.append_nil]
      rw [least_spec.2 ⟨h.mem, h.le⟩]
      rfl
  · rw [if_neg h1]
    have hb := h.best
    have hle : s.dBest ≤ d := by omega
    have hle' : ∀ x ∈ seen ++ [d], s.dBest ≤ x := by
      intro x hx
      rcases List.mem_append.1 hx with hx | hx
      · exact h.le x hx
      · simp at hx; omega
    have he : (seen ++ [d]).erase s.dBest = seen.erase s.dBest ++ [d] := List.erase_append_left _ h.mem
    have hsec := h.second
    by_cases h2 : d < s.second
    · rw [if_pos h2]
      refine ⟨h.it, h.best, by simp [h.mem], hle', ?_⟩
      show d = _
      rw [he, least_append]
      cases hl : least (seen.erase s.dBest) with
      | none => rfl
      | some e =>
        rw [hl] at hsec
        simp at hsec ⊢
        omega
    · rw [if_neg h2]
      refine ⟨h.it, h.best, by simp [h.mem], hle', ?_⟩
      show s.second = _
      rw [he, least_append]
      cases hl : least (seen.erase s.dBest) with
      | none =>
        rw [hl] at hsec
        simp at hsec
        omega
      | some e =>
        rw [hl] at hsec
        simp at hsec ⊢
        omega

theorem scan_found {bits : Nat} : ∀ (ds : List Nat) (seen : List Nat) (s : Search), (∀ d ∈ ds, d ≤ bits) →
    ScanInv bits seen s → ScanInv bits (seen ++ ds) (scan bits ds s)
  | [], seen, s, _, h => by simpa [scan] using h
  | d :: ds, seen, s, hd, h => by
    have := scan_found ds (seen ++ [d]) _ (fun x hx => hd x (List.mem_cons_of_mem _ hx))
      (h.step 0 d (hd d List.mem_cons_self))
    simpa [scan] using this

/-- Before a qualifying candidate is found the best values keep their initial values. -/
structure ScanStart (bits : Nat) (s : Search) : Prop where
  it : s.it = none
  best : s.best = (bits * 4 / 5 : Nat)
  dBest : s.dBest = bits + 1

theorem ScanStart.skip {bits : Nat} {s : Search} (h : ScanStart bits s) {d : Nat} (hq : qualifies bits d = false)
    (i : Nat) : ScanStart bits (update s i d ((bits : ℤ) - d)) := by
  unfold qualifies at hq
  rw [decide_eq_false_iff_not] at hq
  unfold update
  rw [if_neg (by rw [h.best]; exact hq)]
  split
  · exact ⟨h.it, h.best, h.dBest⟩
  · exact h

theorem ScanStart.first {bits : Nat} {s : Search} (h : ScanStart bits s) {d : Nat} (hq : qualifies bits d = true)
    (i : Nat) : ScanInv bits [d] (update s i d ((bits : ℤ) - d)) := by
  unfold qualifies at hq
  rw [decide_eq_true_eq] at hq
  unfold update
  rw [h.best, if_pos hq]
  refine ⟨by simp, rfl, by simp, by simp, ?_⟩
  show s.dBest = _
  rw [h.dBest]
  simp [least]

/-- What the scan computes: the candidates before the first qualifying one are forgotten. -/
theorem scan_spec {bits : Nat} : ∀ (ds : List Nat) (s : Search), (∀ d ∈ ds, d ≤ bits) → ScanStart bits s →
    (ds.any (qualifies bits) = false ∧ (scan bits ds s).it = none) ∨
    (ds.any (qualifies bits) = true ∧
      ScanInv bits (ds.dropWhile (fun d => !qualifies bits d)) (scan bits ds s))
  | [], s, _, h => by left; exact ⟨rfl, h.it⟩
  | d :: ds, s, hd, h => by
    have hd' : ∀ x ∈ ds, x ≤ bits := fun x hx => hd x (List.mem_cons_of_mem _ hx)
    cases hq : qualifies bits d with
    | true =>
      right
      refine ⟨by simp [hq], ?_⟩
      rw [List.dropWhile_cons_of_neg (by simp [hq])]
      have := scan_found ds [d] _ hd' (h.first hq 0)
      simpa [scan] using this
    | false =>
      rw [List.dropWhile_cons_of_pos (by simp [hq]), List.any_cons, hq, Bool.false_or]
      have := scan_spec ds _ hd' (h.skip hq 0)
      simpa [scan] using this

/-! ## C41 -/

/-- The verdict of the search over candidates with the given distances, in the order in which they are visited: `none`
if there is no candidate, otherwise the outcome of the ratio test. -/
def verdict (bits : Nat) (ds : List Nat) : Option (Outcome Bool) :=
  if (scan bits ds (Search.init bits)).it = none then none
  else some (ratioTest bits (scan bits ds (Search.init bits)).dBest (scan bits ds (Search.init bits)).second)

theorem init_start (bits : Nat) : ScanStart bits (Search.init bits) := ⟨rfl, rfl, rfl⟩

theorem verdict_inv {bits : Nat} {seen : List Nat} {s : Search} (h : ScanInv bits seen s) (hd : ∀ d ∈ seen, d ≤ bits) :
    ratioTest bits s.dBest s.second = .ok (ratioSpec seen s.dBest) := by
  have h1 : s.dBest ≤ s.second := by
    rw [h.second]
    cases hl : least (seen.erase s.dBest) with
    | none =>
      have := hd _ h.mem
      simp only [Option.getD_none]
      omega
    | some e =>
      simp only [Option.getD_some]
      exact h.le e (List.mem_of_mem_erase (least_spec.1 hl).1)
  unfold ratioTest ratioSpec
  rw [if_pos h1]
  congr 1
  rw [h.second]
  cases hl : least (seen.erase s.dBest) with
  | none => simp
  | some e =>
    have : e ≤ bits := hd e (List.mem_of_mem_erase (least_spec.1 hl).1)
    simp only [Option.getD_some]
    rw [if_neg (by omega)]
    by_cases he : e = 0
    · simp [he]
    · simp [he]

theorem mem_tw {f : Nat → Bool} : ∀ {l : List Nat} {x : Nat}, x ∈ l.takeWhile f → f x = true
  | [], _, h => by simp at h
  | a :: l, x, h => by
    by_cases ha : f a
    · rw [List.takeWhile_cons_of_pos ha] at h
      rcases List.mem_cons.1 h with rfl | h
      · exact ha
      · exact mem_tw h
    · rw [List.takeWhile_cons_of_neg ha] at h
      simp at h

/-- Exactly what the verdict is: that of the ratio test on the best and second best distances among the candidates
from the first qualifying one on. -/
theorem verdict_exact {bits : Nat} {ds : List Nat} (hd : ∀ d ∈ ds, d ≤ bits) :
    verdict bits ds = (least (ds.filter (qualifies bits))).map
      (fun d => .ok (ratioSpec (ds.dropWhile (fun d => !qualifies bits d)) d)) := by
  unfold verdict
  rcases scan_spec ds _ hd (init_start bits) with ⟨h1, h2⟩ | ⟨h1, h2⟩
  · rw [if_pos h2]
    have : ds.filter (qualifies bits) = [] := by
      rw [List.filter_eq_nil_iff]
      rw [List.any_eq_false] at h1
      exact h1
    rw [this]; rfl
  · rw [if_neg h2.it, verdict_inv h2 (fun d hd' => hd d ((List.dropWhile_sublist _).subset hd'))]
    have : least (ds.filter (qualifies bits)) = some (scan bits ds (Search.init bits)).dBest := by
      rw [least_spec]
      obtain ⟨q, hq, hqq⟩ := List.any_eq_true.1 h1
      have hmono : ∀ x y, x ≤ y → qualifies bits y = true → qualifies bits x = true := by
        intro x y hxy h
        unfold qualifies at h ⊢
        rw [decide_eq_true_eq] at h ⊢
        omega
      have hin : ∀ x ∈ ds, qualifies bits x = true → x ∈ ds.dropWhile (fun d => !qualifies bits d) := by
        intro x hx hxq
        have hx' := hx
        rw [← List.takeWhile_append_dropWhile (p := fun d => !qualifies bits d) (l := ds)] at hx'
        rcases List.mem_append.1 hx' with h | h
        · exact absurd hxq (by simpa using mem_tw h)
        · exact h
      refine ⟨?_, ?_⟩
      · rw [List.mem_filter]
        exact ⟨(List.dropWhile_sublist _).subset h2.mem, hmono _ q (h2.le q (hin q hq hqq)) hqq⟩
      · intro d hd'
        rw [List.mem_filter] at hd'
        exact h2.le d (hin d hd'.1 hd'.2)
    rw [this]; rfl

theorem qualifies_mono {bits x y : Nat} (hxy : x ≤ y) (h : qualifies bits y = true) : qualifies bits x = true := by
  unfold qualifies at h ⊢
  rw [decide_eq_true_eq] at h ⊢
  omega

theorem least_filter {bits : Nat} {l : List Nat} (h : l.filter (qualifies bits) ≠ []) :
    least l = least (l.filter (qualifies bits)) := by
  cases hm : least (l.filter (qualifies bits)) with
  | none => exact absurd (least_none.1 hm) h
  | some m =>
    rw [least_spec] at hm ⊢
    obtain ⟨h1, h2⟩ := hm
    rw [List.mem_filter] at h1
    refine ⟨h1.1, fun d hd => ?_⟩
    by_contra hlt
    have := h2 d (List.mem_filter.2 ⟨hd, qualifies_mono (by omega) h1.2⟩)
    omega

theorem erase_filter' (f : Nat → Bool) (x : Nat) (hx : f x = true) : ∀ l : List Nat,
    (l.erase x).filter f = (l.filter f).erase x
  | [] => rfl
  | a :: l => by
    by_cases hax : a = x
    · subst hax
      rw [List.erase_cons_head, List.filter_cons_of_pos hx, List.erase_cons_head]
    · rw [List.erase_cons_tail (by simpa using hax)]
      by_cases ha : f a
      · rw [List.filter_cons_of_pos ha, List.filter_cons_of_pos ha, List.erase_cons_tail (by simpa using hax),
          erase_filter' f x hx l]
      · rw [List.filter_cons_of_neg ha, List.filter_cons_of_neg ha, erase_filter' f x hx l]

theorem filter_dropWhile (f : Nat → Bool) : ∀ l : List Nat, (l.dropWhile (fun d => !f d)).filter f = l.filter f
  | [] => rfl
  | a :: l => by
    cases ha : f a with
    | true => rw [List.dropWhile_cons_of_neg (by simp [ha])]
    | false =>
      rw [List.dropWhile_cons_of_pos (by simp [ha]), List.filter_cons_of_neg (by simp [ha]), filter_dropWhile f l]

/-- With at least two qualifying candidates the verdict is the ratio test on the best and second best distances of
all candidates. -/
theorem verdict_two {bits : Nat} {ds : List Nat} (hd : ∀ d ∈ ds, d ≤ bits)
    (h2 : 2 ≤ (ds.filter (qualifies bits)).length) : ∃ m, least ds = some m ∧
      verdict bits ds = some (.ok (ratioSpec ds m)) := by
  have hne : ds.filter (qualifies bits) ≠ [] := by
    intro h
    rw [h] at h2
    simp at h2
  rw [least_filter hne, verdict_exact hd]
  cases hm : least (ds.filter (qualifies bits)) with
  | none => exact absurd (least_none.1 hm) hne
  | some m =>
    refine ⟨m, rfl, ?_⟩
    have hmem := (least_spec.1 hm).1
    have hq := (List.mem_filter.1 hmem).2
    have hne' : (ds.filter (qualifies bits)).erase m ≠ [] := by
      intro h
      have := List.length_erase_of_mem hmem
      rw [h] at this
      simp at this
      omega
    have e1 : least ((ds.dropWhile (fun d => !qualifies bits d)).erase m) =
        least ((ds.filter (qualifies bits)).erase m) := by
      have e := erase_filter' (qualifies bits) m hq (ds.dropWhile (fun d => !qualifies bits d))
      rw [filter_dropWhile] at e
      rw [least_filter (bits := bits) (by rw [e]; exact hne'), e]
    have e2 : least (ds.erase m) = least ((ds.filter (qualifies bits)).erase m) := by
      have e := erase_filter' (qualifies bits) m hq ds
      rw [least_filter (bits := bits) (by rw [e]; exact hne'), e]
    simp only [Option.map_some, ratioSpec, e1, e2]

/-- The verdict does not depend on the order, unless exactly one candidate qualifies (see `ratio_order_refuted`). -/
theorem ratio_order_independent_partial {bits : Nat} {ds es : List Nat} (hd : ∀ d ∈ ds, d ≤ bits)
    (hp : ds.Perm es) (h1 : (ds.filter (qualifies bits)).length ≠ 1) : verdict bits ds = verdict bits es := by
  have he : ∀ d ∈ es, d ≤ bits := fun d h => hd d (hp.mem_iff.2 h)
  have hl := (hp.filter (qualifies bits)).length_eq
  by_cases h0 : (ds.filter (qualifies bits)).length = 0
  · have z1 := List.length_eq_zero_iff.1 h0
    have z2 : es.filter (qualifies bits) = [] := List.length_eq_zero_iff.1 (by omega)
    rw [verdict_exact hd, verdict_exact he, z1, z2]
    rfl
  · obtain ⟨m, m1, m2⟩ := verdict_two hd (by omega)
    obtain ⟨n, n1, n2⟩ := verdict_two he (by omega)
    rw [least_perm hp, n1] at m1
    have e : n = m := Option.some.inj m1
    subst e
    rw [m2, n2]
    unfold ratioSpec
    rw [least_perm (hp.erase n)]

example : verdict 128 [40, 20, 25] = some (.ok false) ∧
    (([40, 20, 25] : List Nat).filter (qualifies 128)).length ≠ 1 := by decide

/-- Distances 25 and 26 of 128 bits: visited in this order the ratio test fails, in the other order it passes,
because the 26 is forgotten when the 25 is found. -/
theorem ratio_order_refuted : verdict 128 [25, 26] = some (.ok false) ∧ verdict 128 [26, 25] = some (.ok true) := by
  decide

/-! ### The matcher's search computes the verdict -/

theorem update_index (s t : Search) (i d : Nat) (sc : ℤ)
    (h : s.best = t.best ∧ s.dBest = t.dBest ∧ s.second = t.second ∧ (s.it = none ↔ t.it = none)) :
    (update s i d sc).best = (update t 0 d sc).best ∧ (update s i d sc).dBest = (update t 0 d sc).dBest ∧
    (update s i d sc).second = (update t 0 d sc).second ∧
    ((update s i d sc).it = none ↔ (update t 0 d sc).it = none) := by
  obtain ⟨h1, h2, h3, h4⟩ := h
  unfold update
  rw [h1, h3]
  split
  · simp [h2]
  · split <;> exact ⟨by first | exact h1 | rfl, by first | exact h2 | rfl, by first | exact h3 | rfl, h4⟩

theorem visitAll_scan {P : Input} {k : Nat} : ∀ (is : List Nat) (s s' t : Search), visitAll P k is s = .ok s' →
    (s.best = t.best ∧ s.dBest = t.dBest ∧ s.second = t.second ∧ (s.it = none ↔ t.it = none)) →
    (s'.dBest = (scan P.bits (is.map (P.dist k)) t).dBest ∧ s'.second = (scan P.bits (is.map (P.dist k)) t).second ∧
      (s'.it = none ↔ (scan P.bits (is.map (P.dist k)) t).it = none)) ∧ ∀ i ∈ is, P.dist k i < P.bits
  | [], s, s', t, h, hr => by
    unfold visitAll at h
    cases h
    exact ⟨hr.2, by simp⟩
  | i :: is, s, s', t, h, hr => by
    unfold visitAll at h
    obtain ⟨s1, h1, h2⟩ := Outcome.bind_eq_ok.1 h
    unfold visit at h1
    split at h1
    · split at h1
      · next hpos =>
        cases h1
        have := visitAll_scan is _ s' (update t 0 (P.dist k i) ((P.bits : ℤ) - P.dist k i)) h2
          (update_index s t i (P.dist k i) _ hr)
        refine ⟨by simpa [scan] using this.1, ?_⟩
        intro j hj
        rcases List.mem_cons.1 hj with rfl | hj
        · omega
        · exact this.2 j hj
      · cases h1
    · cases h1

/-- The matcher reaches its verdict from the distances of the candidates visited. -/
theorem search_verdict {P : Input} {lut : List Nat} {k : Nat} {s : Search} (h : search P lut k = .ok s) :
    ∃ visited : List Nat, (∀ i ∈ visited, P.dist k i < P.bits) ∧
      verdict P.bits (visited.map (P.dist k)) =
        if s.it = none then none else some (ratioTest P.bits s.dBest s.second) := by
  unfold search at h
  obtain ⟨c, _, h⟩ := Outcome.bind_eq_ok.1 h
  obtain ⟨s1, h1, h⟩ := Outcome.bind_eq_ok.1 h
  have key : ∀ (is : List Nat) (s' : Search), visitAll P k is (Search.init P.bits) = .ok s' →
      (∀ i ∈ is, P.dist k i < P.bits) ∧ verdict P.bits (is.map (P.dist k)) =
        if s'.it = none then none else some (ratioTest P.bits s'.dBest s'.second) := by
    intro is s' hv
    obtain ⟨⟨e1, e2, e3⟩, hd⟩ := visitAll_scan is _ s' (Search.init P.bits) hv ⟨rfl, rfl, rfl, Iff.rfl⟩
    refine ⟨hd, ?_⟩
    unfold verdict
    rw [e1, e2]
    by_cases hn : s'.it = none
    · rw [if_pos hn, if_pos (e3.1 hn)]
    · rw [if_neg hn, if_neg (fun h => hn (e3.2 h))]
  unfold searchLarge at h
  split at h
  · obtain ⟨c2, _, h⟩ := Outcome.bind_eq_ok.1 h
    refine ⟨c ++ c2, key _ s ?_⟩
    have app : ∀ (a b : List Nat) (s0 s1 s2 : Search), visitAll P k a s0 = .ok s1 → visitAll P k b s1 = .ok s2 →
        visitAll P k (a ++ b) s0 = .ok s2 := by
      intro a
      induction a with
      | nil =>
        intro b s0 s1 s2 g1 g2
        unfold visitAll at g1
        cases g1
        exact g2
      | cons x a ih =>
        intro b s0 s1 s2 g1 g2
        unfold visitAll at g1
        obtain ⟨s3, g3, g4⟩ := Outcome.bind_eq_ok.1 g1
        rw [List.cons_append]
        unfold visitAll
        rw [g3, Outcome.bind_ok]
        exact ih b s3 s1 s2 g4 g2
    exact app _ _ _ _ _ h1 h
  · cases h
    exact ⟨c, key c s h1⟩

/-! ### Floating point in the thresholds -/

/-- `0.8f`, the `float` nearest to 0.8. -/
def f08 : ℚ := 13421773 / 2 ^ 24

/-- `bits * 0.8f`, rounded to a `float` and truncated, is `bits * 4 / 5`, for every descriptor size the constructor
allows (gyro-two-frame-matcher.cc:47).  `r` is the rounded product: products below 512 move by at most `2^-15`, and rounding does not cross
the integers, which are `float`s. -/
theorem relaxed_threshold (bits : Nat) (hb : bits ≤ 512) (h8 : bits % 8 = 0) (r : ℚ)
    (h1 : |r - bits * f08| ≤ 1 / 2 ^ 15) (h2 : ∀ n : ℤ, (n : ℚ) ≤ bits * f08 → (n : ℚ) ≤ r) :
    ⌊r⌋ = ((bits * 4 / 5 : Nat) : ℤ) := by
  obtain ⟨m, rfl⟩ : ∃ m, bits = 8 * m := ⟨bits / 8, by omega⟩
  have hm : m ≤ 64 := by omega
  rw [abs_le] at h1
  obtain ⟨_, h1⟩ := h1
  unfold f08 at *
  rw [Int.floor_eq_iff]
  have hdiv : (8 * m * 4 / 5 : Nat) * 5 ≤ 32 * m ∧ 32 * m ≤ (8 * m * 4 / 5 : Nat) * 5 + 4 := by omega
  obtain ⟨d1, d2⟩ := hdiv
  generalize (8 * m * 4 / 5 : Nat) = t at d1 d2
  have d1' : (t : ℚ) * 5 ≤ 32 * m := by exact_mod_cast d1
  have d2' : (32 : ℚ) * m ≤ t * 5 + 4 := by exact_mod_cast d2
  have hm' : (m : ℚ) ≤ 64 := by exact_mod_cast hm
  push_cast at *
  constructor
  · have := h2 t (by push_cast; norm_num; linarith)
    push_cast at this
    exact this
  · norm_num at h1 ⊢
    linarith

/-- `d1 / (float) d2 < 0.8f` is `5 * d1 < 4 * d2` for distances of at most 512 bits.  `r` is the quotient rounded to the
nearest `float`, which moves a quotient below 1 by at most `2^-25` and 4/5 to `0.8f`. -/
theorem float_ratio (d1 d2 : Nat) (h0 : 0 < d2) (hb : d2 ≤ 512) (r : ℚ)
    (h1 : |r - (d1 : ℚ) / d2| ≤ 1 / 2 ^ 25) (h2 : (d1 : ℚ) / d2 = 4 / 5 → r = f08) :
    r < f08 ↔ 5 * d1 < 4 * d2 := by
  have p : (0 : ℚ) < d2 := by exact_mod_cast h0
  have hb' : (d2 : ℚ) ≤ 512 := by exact_mod_cast hb
  rw [abs_le] at h1
  obtain ⟨l1, l2⟩ := h1
  rcases Nat.lt_trichotomy (5 * d1) (4 * d2) with h | h | h
  · refine ⟨fun _ => h, fun _ => ?_⟩
    have h' : (5 : ℚ) * d1 + 1 ≤ 4 * d2 := by exact_mod_cast h
    have : (d1 : ℚ) / d2 ≤ 4 / 5 - 1 / 2560 := by
      rw [div_le_iff₀ p]
      nlinarith
    unfold f08
    norm_num at *
    linarith
  · have h' : (5 : ℚ) * d1 = 4 * d2 := by exact_mod_cast h
    have : (d1 : ℚ) / d2 = 4 / 5 := by
      rw [div_eq_iff (ne_of_gt p)]
      linarith
    rw [h2 this]
    exact ⟨fun hh => absurd hh (lt_irrefl _), fun hh => absurd hh (by omega)⟩
  · refine ⟨fun hh => ?_, fun hh => absurd hh (by omega)⟩
    have h' : (4 : ℚ) * d2 + 1 ≤ 5 * d1 := by exact_mod_cast h
    have : 4 / 5 + 1 / 2560 ≤ (d1 : ℚ) / d2 := by
      rw [le_div_iff₀ p]
      nlinarith
    unfold f08 at hh
    norm_num at *
    linarith

/-- Comparing two scores of one descriptor size after the division, or a score with `0.85f` (as a double), gives the
same result as comparing cross-multiplied, if the division moves its result by at most `2^-53`. -/
theorem score_compare (bits : Nat) (h0 : 0 < bits) (hb : bits ≤ 512) (a b : ℤ) (ra rb : ℚ)
    (h1 : |ra - (a : ℚ) / bits| ≤ 1 / 2 ^ 53) (h2 : |rb - (b : ℚ) / bits| ≤ 1 / 2 ^ 53) (he : a = b → ra = rb) :
    (rb < ra ↔ b < a) ∧
      ((14260634 / 2 ^ 24 : ℚ) < ra ↔ strict bits a = true) := by
  have p : (0 : ℚ) < bits := by exact_mod_cast h0
  have hb' : (bits : ℚ) ≤ 512 := by exact_mod_cast hb
  rw [abs_le] at h1 h2
  obtain ⟨l1, l2⟩ := h1
  obtain ⟨m1, m2⟩ := h2
  have ea : (a : ℚ) / bits * bits = a := by field_simp
  have eb : (b : ℚ) / bits * bits = b := by field_simp
  generalize (a : ℚ) / bits = x at *
  generalize (b : ℚ) / bits = y at *
  have small : (bits : ℚ) * (1 / 2 ^ 53) ≤ 1 / 2 ^ 44 := by
    norm_num
    linarith
  constructor
  · rcases lt_trichotomy b a with h | h | h
    · refine ⟨fun _ => h, fun _ => ?_⟩
      have h' : (b : ℚ) + 1 ≤ a := by exact_mod_cast h
      by_contra hn
      have : ra * bits ≤ rb * bits := mul_le_mul_of_nonneg_right (not_lt.1 hn) p.le
      norm_num at *
      nlinarith
    · rw [he h.symm]
      simp [h]
    · refine ⟨fun hh => ?_, fun hh => absurd hh (by omega)⟩
      have h' : (a : ℚ) + 1 ≤ b := by exact_mod_cast h
      have : rb * bits ≤ ra * bits := mul_le_mul_of_nonneg_right hh.le p.le
      norm_num at *
      nlinarith
  · have hne : 14260634 * (bits : ℤ) ≠ 2 ^ 24 * a := by omega
    unfold strict
    rw [decide_eq_true_eq]
    rcases lt_trichotomy (14260634 * (bits : ℤ)) (2 ^ 24 * a) with h | h | h
    · refine ⟨fun _ => h, fun _ => ?_⟩
      have h' : (14260634 : ℚ) * bits + 1 ≤ 2 ^ 24 * a := by exact_mod_cast h
      by_contra hn
      have : ra * bits ≤ 14260634 / 2 ^ 24 * bits := mul_le_mul_of_nonneg_right (not_lt.1 hn) p.le
      norm_num at *
      nlinarith
    · exact absurd h hne
    · refine ⟨fun hh => ?_, fun hh => absurd hh (by omega)⟩
      have h' : (2 : ℚ) ^ 24 * a + 1 ≤ 14260634 * bits := by exact_mod_cast h
      have : 14260634 / 2 ^ 24 * bits ≤ ra * bits := mul_le_mul_of_nonneg_right hh.le p.le
      norm_num at *
      nlinarith

end Verif.GyroMatcher
