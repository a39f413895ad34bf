import Verif.Statistics.Queries
import Verif.Statistics.Props

/-!
# C141: what the queries of `Statistics` and `Timing` report
-/

namespace Verif.Statistics

open Verif (Outcome)
open Verif.Accumulator (Acc addAll maxDouble average sampleVariance lastW)

/-- Nanoseconds as seconds, exactly. -/
def seconds (n : Int) : ℚ := n / 10 ^ 9

/-- The differences of successive times add up to the time between the first and the last. -/
theorem gaps_sum : ∀ (a : Int) (ts : List Int), (gaps (a :: ts)).sum = ts.getLastD a - a
  | a, [] => by simp [gaps]
  | a, b :: r => by
    rw [gaps, List.sum_cons, gaps_sum b r]
    cases r with
    | nil => simp
    | cons c r =>
      have : (b :: c :: r).getLastD a = (c :: r).getLastD b := by
        rw [List.getLastD_eq_getLast?, List.getLastD_eq_getLast?, List.getLast?_cons_cons, List.getLast?_cons]
        rfl
      rw [this]; ring

theorem gaps_length : ∀ (ts : List Int), (gaps ts).length = ts.length - 1
  | [] => rfl
  | [_] => rfl
  | a :: b :: r => by
    rw [gaps, List.length_cons, gaps_length (b :: r)]
    simp

theorem seconds_sum : ∀ ds : List Int, (ds.map seconds).sum = seconds ds.sum
  | [] => by simp [seconds]
  | d :: ds => by
    rw [List.map_cons, List.sum_cons, seconds_sum ds, List.sum_cons]
    unfold seconds
    push_cast
    ring

/-- **C141 (counts).** Whatever the rounding: the number of samples, the latest one, the smallest and the largest. -/
theorem figures_of_samples {rnd : Rat → Rat} {sec : Int → Rat} {ops : List Op} {s : Stats} {h : Nat} {c : Collector}
    (hr : run rnd sec ops Stats.new = .ok s) (hc : s.collectors[h]? = some c)
    (hd : ∀ p ∈ samplesFor h ops, |p.1| ≤ maxDouble) :
    figure rnd c .num = some ((samplesFor h ops).length : ℚ) ∧
      figure rnd c .last = some (((samplesFor h ops).map Prod.fst).getLastD 0) ∧
      (samplesFor h ops ≠ [] → ∃ lo hi, figure rnd c .min = some lo ∧ figure rnd c .max = some hi ∧
        (∃ p ∈ samplesFor h ops, p.1 = lo) ∧ (∃ p ∈ samplesFor h ops, p.1 = hi) ∧
        ∀ p ∈ samplesFor h ops, lo ≤ p.1 ∧ p.1 ≤ hi) := by
  have ha := samples_attributed hr hc
  obtain ⟨h1, _, h3⟩ := Accumulator.counts_exact (by norm_num) ha (by
    intro x hx
    obtain ⟨p, hp, rfl⟩ := List.mem_map.mp hx
    exact hd p hp)
  rw [List.length_map] at h1
  refine ⟨by simp only [figure, h1], ?_, ?_⟩
  · simp only [figure, lastValue, h1]
    by_cases hn : samplesFor h ops = []
    · simp [hn]
    · rw [if_pos (by simpa using hn), (h3 (by simpa using hn)).1]
  · intro hn
    obtain ⟨_, ⟨a, b⟩, d, e⟩ := h3 (by simpa using hn)
    refine ⟨_, _, rfl, rfl, by simpa using a, by simpa using d, fun p hp => ⟨b _ ?_, e _ ?_⟩⟩ <;>
      exact List.mem_map.mpr ⟨p, hp, rfl⟩

/-- **C141 (means).** In exact arithmetic: the sum and the mean of all samples, and the sample variance of the latest
hundred. -/
theorem means_of_samples_partial {sec : Int → Rat} {ops : List Op} {s : Stats} {h : Nat} {c : Collector}
    (hr : run id sec ops Stats.new = .ok s) (hc : s.collectors[h]? = some c) :
    figure id c .total = some ((samplesFor h ops).map Prod.fst).sum ∧
      figure id c .mean = some (average ((samplesFor h ops).map Prod.fst)) ∧
      figure id c .variance = some (sampleVariance (lastW 100 ((samplesFor h ops).map Prod.fst))) := by
  have ha := samples_attributed hr hc
  obtain ⟨h1, h2, _, h4⟩ := Accumulator.window_statistics_partial (by norm_num)
    (by norm_num [Accumulator.infinite]) ha
  exact ⟨by simp only [figure, h1], by simp only [figure, h2], h4⟩

/-- **C141 (rate).** In exact arithmetic the rate is the number of times between samples divided by the time from the
first sample to the last; it is -1 if there are fewer than two samples or no time has passed. -/
theorem hz_spec {ops : List Op} {s : Stats} {h : Nat} {c : Collector}
    (hr : run id seconds ops Stats.new = .ok s) (hc : s.collectors[h]? = some c)
    (hn : ∀ p ∈ samplesFor h ops, p.2 ≠ 0) {first last : Int}
    (hf : ((samplesFor h ops).map Prod.snd).head? = some first)
    (hl : ((samplesFor h ops).map Prod.snd).getLast? = some last) :
    figure id c .hz = some (if first = last then -1 else (((samplesFor h ops).length - 1 : ℕ) : ℚ) / seconds (last - first)) ∧
      figure id c .meanDelta = some (seconds (last - first) / (((samplesFor h ops).length - 1 : ℕ) : ℚ)) := by
  have ha := deltas_attributed hr hc hn
  obtain ⟨h1, h2, _, _⟩ := Accumulator.window_statistics_partial (by norm_num)
    (by norm_num [Accumulator.infinite]) ha
  have hlen : (samplesFor h ops).length = ((samplesFor h ops).map Prod.snd).length := by rw [List.length_map]
  rw [hlen]
  revert hf hl h2
  generalize (samplesFor h ops).map Prod.snd = ts
  intro hf hl h2
  cases ts with
  | nil => simp at hf
  | cons a r =>
    simp only [List.head?_cons, Option.some.injEq] at hf
    subst hf
    have hsum : ((gaps (a :: r)).map seconds).sum = seconds (last - a) := by
      rw [seconds_sum, gaps_sum]
      congr 2
      rw [List.getLast?_cons] at hl
      simpa [List.getLastD_eq_getLast?] using hl
    have hm : Accumulator.mean id c.deltas = seconds (last - a) / (((a :: r).length - 1 : ℕ) : ℚ) := by
      rw [h2, average, hsum, List.length_map, gaps_length]
    refine ⟨?_, by simp only [figure, hm]⟩
    simp only [figure, callsPerSec, hm]
    congr 1
    by_cases he : a = last
    · rw [if_pos he, if_neg]
      rw [he, sub_self]
      simp [seconds]
    · rw [if_neg he]
      have hr0 : r ≠ [] := by
        rintro rfl
        simp at hl
        exact he hl
      have hs : seconds (last - a) ≠ 0 := by
        unfold seconds
        have : ((last - a : Int) : ℚ) ≠ 0 := by
          exact_mod_cast sub_ne_zero.mpr (Ne.symm he)
        positivity
      have hp : (((a :: r).length - 1 : ℕ) : ℚ) ≠ 0 := by
        simpa using hr0
      rw [if_pos (div_ne_zero hs hp), id_eq, one_div_div]

/-- **C141 (times).** Whatever the rounding: the latest, smallest and largest time between two samples. -/
theorem deltas_of_samples {rnd : Rat → Rat} {sec : Int → Rat} {ops : List Op} {s : Stats} {h : Nat} {c : Collector}
    (hr : run rnd sec ops Stats.new = .ok s) (hc : s.collectors[h]? = some c) (hn : ∀ p ∈ samplesFor h ops, p.2 ≠ 0)
    (hd : ∀ d ∈ gaps ((samplesFor h ops).map Prod.snd), |sec d| ≤ maxDouble) :
    figure rnd c .lastDelta = some (((gaps ((samplesFor h ops).map Prod.snd)).map sec).getLastD 0) ∧
      (2 ≤ (samplesFor h ops).length → ∃ lo hi, figure rnd c .minDelta = some lo ∧ figure rnd c .maxDelta = some hi ∧
        (∃ d ∈ gaps ((samplesFor h ops).map Prod.snd), sec d = lo) ∧
        (∃ d ∈ gaps ((samplesFor h ops).map Prod.snd), sec d = hi) ∧
        ∀ d ∈ gaps ((samplesFor h ops).map Prod.snd), lo ≤ sec d ∧ sec d ≤ hi) := by
  have ha := deltas_attributed hr hc hn
  obtain ⟨h1, _, h3⟩ := Accumulator.counts_exact (by norm_num) ha (by
    intro x hx
    obtain ⟨p, hp, rfl⟩ := List.mem_map.mp hx
    exact hd p hp)
  rw [List.length_map] at h1
  refine ⟨?_, fun h2 => ?_⟩
  · simp only [figure, lastDelta, h1]
    by_cases hg : gaps ((samplesFor h ops).map Prod.snd) = []
    · simp [hg]
    · rw [if_pos (by simpa using hg), (h3 (by simpa using hg)).1]
  · have hg : gaps ((samplesFor h ops).map Prod.snd) ≠ [] := by
      intro he
      have := gaps_length ((samplesFor h ops).map Prod.snd)
      rw [he, List.length_map, List.length_nil] at this
      omega
    obtain ⟨_, ⟨a, b⟩, d, e⟩ := h3 (by simpa using hg)
    refine ⟨_, _, rfl, rfl, by simpa using a, by simpa using d, fun p hp => ⟨b _ ?_, e _ ?_⟩⟩ <;>
      exact List.mem_map.mpr ⟨p, hp, rfl⟩

/-- **C141 (times).** In exact arithmetic: the mean of all times between samples and the variance of the latest hundred. -/
theorem means_of_deltas_partial {sec : Int → Rat} {ops : List Op} {s : Stats} {h : Nat} {c : Collector}
    (hr : run id sec ops Stats.new = .ok s) (hc : s.collectors[h]? = some c) (hn : ∀ p ∈ samplesFor h ops, p.2 ≠ 0) :
    figure id c .meanDelta = some (average ((gaps ((samplesFor h ops).map Prod.snd)).map sec)) ∧
      figure id c .varianceDelta = some (sampleVariance (lastW 100 ((gaps ((samplesFor h ops).map Prod.snd)).map sec))) := by
  have ha := deltas_attributed hr hc hn
  obtain ⟨_, h2, _, h4⟩ := Accumulator.window_statistics_partial (by norm_num)
    (by norm_num [Accumulator.infinite]) ha
  exact ⟨by simp only [figure, h2], h4⟩

/-- `Timing::GetHz` in exact arithmetic: one over the mean duration of the latest hundred runs, not a number without
samples, infinite if they took no time. -/
theorem timingHz_spec {sec : Int → Rat} {ops : List Op} {s : Stats} {h : Nat} {c : Collector}
    (hr : run id sec ops Stats.new = .ok s) (hc : s.collectors[h]? = some c) :
    timingHz id c = (if average (lastW 100 ((samplesFor h ops).map Prod.fst)) = 0 then none
      else some (1 / average (lastW 100 ((samplesFor h ops).map Prod.fst)))) := by
  have ha := samples_attributed hr hc
  obtain ⟨_, _, h3, _⟩ := Accumulator.window_statistics_partial (by norm_num)
    (by norm_num [Accumulator.infinite]) ha
  unfold timingHz
  by_cases hn : (samplesFor h ops).map Prod.fst = []
  · rw [hn] at ha ⊢
    have e : c.values = Acc.new := by
      injection ha with ha
      exact ha.symm
    rw [e, show Accumulator.rollingMean id window Acc.new = none from Accumulator.rolling_mean_empty (by norm_num [window, Accumulator.infinite])]
    simp [lastW, average]
  · rw [show Accumulator.rollingMean id window c.values = _ from h3 hn]
    simp

/-- Two runs of one second each, the second ending ten seconds after the first. -/
def twoRuns : List Op := [.lookup "a", .add 0 1 (10 ^ 9), .add 0 1 (11 * 10 ^ 9)]

theorem twoRuns_samples : samplesFor 0 twoRuns = [(1, 10 ^ 9), (1, 11 * 10 ^ 9)] := rfl

theorem one_le_maxDouble : (1 : ℚ) ≤ maxDouble := by
  unfold maxDouble
  have h : (1 : ℚ) ≤ 2 ^ 971 := one_le_pow₀ (by norm_num)
  have h2 : (1 : ℚ) ≤ 2 ^ 53 - 1 := by norm_num
  calc (1 : ℚ) = 1 * 1 := by norm_num
    _ ≤ (2 ^ 53 - 1) * 2 ^ 971 := mul_le_mul h2 h (by norm_num) (by norm_num)

/-- Non-vacuity of the theorems above: what is reported of the two runs. -/
theorem twoRuns_figures : ∃ s c, run id seconds twoRuns Stats.new = .ok s ∧ s.collectors[0]? = some c ∧
    figure id c .num = some 2 ∧ figure id c .mean = some 1 ∧ figure id c .hz = some (1 / 10) ∧ timingHz id c = some 1 := by
  have hs : ∃ s c, run id seconds twoRuns Stats.new = .ok s ∧ s.collectors[0]? = some c := by
    simp [run, twoRuns, step, getHandle, Stats.new, addSample, addValue, addDelta, Collector.new, Accumulator.add, window,
      Accumulator.store, Acc.new, Accumulator.tally]
  obtain ⟨s, c, hr, hc⟩ := hs
  have h1 := (figures_of_samples hr hc (by
    have hm := one_le_maxDouble
    rw [twoRuns_samples]
    simpa using hm)).1
  have h2 := (means_of_samples_partial hr hc).2.1
  have h3 := (hz_spec hr hc (by rw [twoRuns_samples]; simp) (first := 10 ^ 9) (last := 11 * 10 ^ 9) rfl rfl).1
  have h4 := timingHz_spec hr hc
  refine ⟨s, c, hr, hc, ?_, ?_, ?_, ?_⟩
  · rw [h1, twoRuns_samples]; norm_num
  · rw [h2, twoRuns_samples]; norm_num [average]
  · rw [h3, twoRuns_samples]; norm_num [seconds]
  · rw [h4, twoRuns_samples]; norm_num [average, lastW]

/-- `Timing::GetHz` is not the number of runs per second: with the two runs it is 1, although they are ten seconds apart,
and `Statistics::GetHz` is a tenth. -/
theorem timing_hz_refuted : ∃ s c, run id seconds twoRuns Stats.new = .ok s ∧ s.collectors[0]? = some c ∧
    timingHz id c = some 1 ∧ figure id c .hz = some (1 / 10) := by
  obtain ⟨s, c, h1, h2, _, _, h3, h4⟩ := twoRuns_figures
  exact ⟨s, c, h1, h2, h4, h3⟩

/-- The variance is not that of the samples whose number and mean are reported: after one sample 1 and a hundred samples
0 it is 0, although the mean is not. -/
theorem variance_window_refuted {sec : Int → Rat} {ops : List Op} {s : Stats} {c : Collector}
    (hr : run id sec ops Stats.new = .ok s) (hc : s.collectors[0]? = some c)
    (ho : (samplesFor 0 ops).map Prod.fst = 1 :: List.replicate 100 0) :
    figure id c .num = some 101 ∧ figure id c .mean = some (1 / 101) ∧ figure id c .variance = some 0 ∧
      sampleVariance ((samplesFor 0 ops).map Prod.fst) = 1 / 101 := by
  obtain ⟨_, h2, h3⟩ := means_of_samples_partial hr hc
  have hlen : (samplesFor 0 ops).length = 101 := by
    have := congrArg List.length ho
    rw [List.length_map] at this
    rw [this]; rfl
  have h1 := (figures_of_samples hr hc (by
    intro p hp
    have : p.1 ∈ (samplesFor 0 ops).map Prod.fst := List.mem_map.mpr ⟨p, hp, rfl⟩
    rw [ho, List.mem_cons, List.mem_replicate] at this
    have hm := one_le_maxDouble
    rcases this with h | ⟨_, h⟩ <;> rw [h]
    · simpa using hm
    · rw [abs_zero]; linarith)).1
  rw [hlen] at h1
  rw [ho] at h2 h3 ⊢
  have hav : average (1 :: List.replicate 100 0) = 1 / 101 := by
    simp [average]
  refine ⟨by rw [h1]; norm_num, by rw [h2, hav], ?_, ?_⟩
  · rw [h3]
    have : lastW 100 (1 :: List.replicate 100 0) = List.replicate 100 0 := by simp [lastW]
    rw [this]
    simp [sampleVariance, average]
  · unfold sampleVariance
    rw [hav]
    simp
    norm_num

theorem run_snoc {rnd : Rat → Rat} {sec : Int → Rat} : ∀ (ops : List Op) (o : Op) (s : Stats),
    run rnd sec (ops ++ [o]) s = run rnd sec ops s >>= fun s' => step rnd sec s' o
  | [], o, s => by
    show (step rnd sec s o >>= run rnd sec []) = step rnd sec s o
    cases step rnd sec s o <;> rfl
  | p :: ops, o, s => by
    show (step rnd sec s p >>= run rnd sec (ops ++ [o])) = (step rnd sec s p >>= run rnd sec ops) >>= _
    cases step rnd sec s p with
    | ok b => exact run_snoc ops o b
    | abort => rfl
    | ub => rfl
    | exc => rfl

/-- **C141 (adding).** A sample can be added through every handle there is, up to `2^31 - 1` of them. -/
theorem add_succeeds {rnd : Rat → Rat} {sec : Int → Rat} {ops : List Op} {s : Stats} {h : Nat} {c : Collector}
    (hr : run rnd sec ops Stats.new = .ok s) (hc : s.collectors[h]? = some c) (hn : ∀ p ∈ samplesFor h ops, p.2 ≠ 0)
    (hlen : (samplesFor h ops).length < 2 ^ 31 - 1) (x : Rat) (now : Int) :
    ∃ s' c', run rnd sec (ops ++ [.add h x now]) Stats.new = .ok s' ∧ s'.collectors[h]? = some c' := by
  have hv := samples_attributed hr hc
  have hd := deltas_attributed hr hc hn
  have h1 : ∃ v, Accumulator.add rnd window x c.values = .ok v := by
    obtain ⟨a, ha⟩ := Accumulator.adds_succeed (rnd := rnd) (W := 100) (by norm_num)
      (xs := (samplesFor h ops).map Prod.fst ++ [x]) (by simp; omega)
    rw [addAll_snoc, hv] at ha
    exact ⟨a, ha⟩
  have h2 : ∃ d, addDelta rnd sec now c = .ok d := by
    unfold addDelta
    split
    · obtain ⟨a, ha⟩ := Accumulator.adds_succeed (rnd := rnd) (W := 100) (by norm_num)
        (xs := (gaps ((samplesFor h ops).map Prod.snd)).map sec ++ [sec (now - c.last)])
        (by simp [gaps_length]; omega)
      rw [addAll_snoc, hd] at ha
      exact ⟨a, ha⟩
    · exact ⟨_, rfl⟩
  obtain ⟨v, hv'⟩ := h1
  obtain ⟨d, hd'⟩ := h2
  refine ⟨{ s with collectors := s.collectors.set h ⟨v, d, now⟩ }, ⟨v, d, now⟩, ?_, ?_⟩
  · rw [run_snoc, hr]
    show addSample rnd sec h x now s = _
    unfold addSample addValue
    rw [hc]
    simp only
    rw [hd', Outcome.bind_ok, hv', Outcome.bind_ok, Outcome.bind_ok]
  · simp [(List.getElem?_eq_some_iff.1 hc).1]

/-- Handles that have not been given out are not refused: adding a sample or asking with one is undefined behaviour. -/
theorem unknown_handle_refuted {rnd : Rat → Rat} {sec : Int → Rat} {s : Stats} {h : Nat} (hh : s.collectors.length ≤ h)
    (x : Rat) (now : Int) (f : Figure) :
    step rnd sec s (.add h x now) = .ub ∧ query (fun c => figure rnd c f) h s = .ub := by
  have : s.collectors[h]? = none := List.getElem?_eq_none hh
  unfold step addSample query
  simp only [this, and_self]

theorem samplesFor_replicate (x : Rat) (t : Int) : ∀ n : ℕ,
    samplesFor 0 (List.replicate n (.add 0 x t)) = List.replicate n (x, t)
  | 0 => rfl
  | n + 1 => by
    have := samplesFor_replicate x t n
    simp only [samplesFor, List.replicate_succ, List.filterMap_cons] at this ⊢
    simp [this]

theorem samplesFor_example (n : ℕ) :
    samplesFor 0 (.lookup "a" :: .add 0 1 1 :: List.replicate n (.add 0 0 1)) = (1, 1) :: List.replicate n (0, 1) := by
  have := samplesFor_replicate 0 1 n
  simp only [samplesFor, List.filterMap_cons] at this ⊢
  simp [this]

/-- Such samples can be added. -/
example : ∃ s c, run id seconds (.lookup "a" :: .add 0 1 1 :: List.replicate 100 (.add 0 0 1)) Stats.new = .ok s ∧
    s.collectors[0]? = some c ∧
    (samplesFor 0 (.lookup "a" :: .add 0 1 1 :: List.replicate 100 (.add 0 0 1))).map Prod.fst = 1 :: List.replicate 100 0 := by
  have key : ∀ n : ℕ, n ≤ 100 → ∃ s c,
      run id seconds (.lookup "a" :: .add 0 1 1 :: List.replicate n (.add 0 0 1)) Stats.new = .ok s ∧
      s.collectors[0]? = some c := by
    intro n
    induction n with
    | zero =>
      intro _
      simp [run, step, getHandle, Stats.new, addSample, addValue, addDelta, Collector.new, Accumulator.add, window,
        Accumulator.store, Acc.new, Accumulator.tally]
    | succ n ih =>
      intro hn
      obtain ⟨s, c, h1, h2⟩ := ih (by omega)
      have e := samplesFor_example n
      obtain ⟨s', c', h3, h4⟩ := add_succeeds h1 h2 (by
        rw [e]
        intro p hp
        rw [List.mem_cons, List.mem_replicate] at hp
        rcases hp with rfl | ⟨_, rfl⟩ <;> norm_num) (by rw [e]; simp; omega) 0 1
      refine ⟨s', c', ?_, h4⟩
      rw [← h3, List.replicate_succ']
      rfl
  obtain ⟨s, c, h1, h2⟩ := key 100 le_rfl
  refine ⟨s, c, h1, h2, ?_⟩
  rw [samplesFor_example]
  simp

end Verif.Statistics
