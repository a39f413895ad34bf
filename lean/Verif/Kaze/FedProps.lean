import Mathlib.NumberTheory.Bertrand
import Mathlib.Data.List.NodupEquivFin
import Mathlib.Tactic.IntervalCases
import Verif.Kaze.Fed
import Verif.Kaze.FedSum

/-!
# Property C90: time steps of the fast explicit diffusion
-/

namespace Verif.Kaze.Fed

open Verif (Outcome)

/-! ## Primes -/

theorem trial_true {number upper : Nat} : ∀ (fuel divisor : Nat), upper < divisor + 2 * fuel →
    (trial number upper fuel divisor = true ↔ ∀ j, divisor + 2 * j ≤ upper → number % (divisor + 2 * j) ≠ 0)
  | 0, divisor, h => by
    simp only [trial, true_iff]
    intro j hj
    omega
  | fuel + 1, divisor, h => by
    unfold trial
    split
    · split
      · rename_i h1 h2
        simp only [Bool.false_eq_true, ne_eq, false_iff, not_forall, not_not]
        exact ⟨0, h1, h2⟩
      · rename_i h1 h2
        rw [trial_true fuel (divisor + 2) (by omega)]
        constructor
        · intro hh j hj
          rcases j with _ | j
          · exact h2
          · have := hh j (by omega)
            rwa [show divisor + 2 * (j + 1) = divisor + 2 + 2 * j by ring]
        · intro hh j hj
          have := hh (j + 1) (by omega)
          rwa [show divisor + 2 * (j + 1) = divisor + 2 + 2 * j by ring] at this
    · simp only [true_iff]
      intro j hj
      omega

/-- C90: the numbers that count as primes are the primes. -/
theorem isPrime_iff (n : Nat) : isPrime n = true ↔ Nat.Prime n := by
  unfold isPrime
  split
  · rename_i h
    simp only [Bool.false_eq_true, false_iff]
    intro hp
    have := hp.two_le
    omega
  split
  · rename_i h1 h
    simp only [true_iff]
    rcases h with rfl | rfl | rfl | rfl <;> norm_num
  split
  · rename_i h1 h2 h
    simp only [Bool.false_eq_true, false_iff]
    intro hp
    have two (p : Nat) (hp2 : p ≠ 1) (hm : n % p = 0) : n = p :=
      (((Nat.dvd_prime hp).1 (Nat.dvd_of_mod_eq_zero hm)).resolve_left hp2).symm
    rcases h with h | h | h | h
    · exact h2 (.inl (two 2 (by norm_num) h))
    · exact h2 (.inr (.inl (two 3 (by norm_num) h)))
    · exact h2 (.inr (.inr (.inl (two 5 (by norm_num) h))))
    · exact h2 (.inr (.inr (.inr (two 7 (by norm_num) h))))
  · rename_i h1 h2 h3
    simp only [not_or] at h2 h3
    have hs : Nat.sqrt (n + 1) < 11 + 2 * n := by
      have := Nat.sqrt_le_self (n + 1)
      omega
    rw [trial_true n 11 hs]
    constructor
    · intro h
      by_contra hn
      have hm := Nat.minFac_prime (n := n) (by omega)
      have hd := Nat.minFac_dvd n
      have hsq := Nat.minFac_sq_le_self (n := n) (by omega) hn
      set q := Nat.minFac n
      have nd (p : Nat) (hp : n % p ≠ 0) : q ≠ p := by
        rintro rfl
        exact hp (Nat.mod_eq_zero_of_dvd hd)
      have q2 := nd 2 h3.1
      have q3 := nd 3 h3.2.1
      have q5 := nd 5 h3.2.2.1
      have q7 := nd 7 h3.2.2.2
      have hodd : q % 2 = 1 := by
        rcases hm.eq_two_or_odd with e | e
        · exact absurd e q2
        · exact e
      have h9 : q ≠ 9 := by
        intro e
        rw [e] at hm
        norm_num at hm
      have hge : 11 ≤ q := by
        have := hm.two_le
        by_contra hl
        omega
      have hle : q ≤ Nat.sqrt (n + 1) := by
        rw [Nat.le_sqrt]
        nlinarith
      have := h ((q - 11) / 2) (by omega)
      rw [show 11 + 2 * ((q - 11) / 2) = q by omega] at this
      exact this (Nat.mod_eq_zero_of_dvd hd)
    · intro hp j hj hm
      have hd := (Nat.dvd_prime hp).1 (Nat.dvd_of_mod_eq_zero hm)
      rcases hd with e | e
      · omega
      · rw [e, Nat.le_sqrt] at hj
        nlinarith

example : isPrime 143 = false ∧ isPrime 149 = true := by
  refine ⟨?_, ?_⟩
  · rw [← Bool.not_eq_true, isPrime_iff]; norm_num
  · rw [isPrime_iff]; norm_num

theorem nextPrime_spec : ∀ (fuel p q : Nat), Nat.Prime q → p ≤ q → q < p + fuel →
    ∃ r, nextPrime fuel p = some r ∧ Nat.Prime r ∧ p ≤ r ∧ ∀ s, p ≤ s → s < r → ¬ Nat.Prime s
  | 0, p, q, _, h1, h2 => by omega
  | fuel + 1, p, q, hq, h1, h2 => by
    unfold nextPrime
    split
    · rename_i h
      exact ⟨p, rfl, (isPrime_iff p).1 h, le_rfl, fun s a b => by omega⟩
    · rename_i h
      have hne : p ≠ q := by
        rintro rfl
        exact h ((isPrime_iff p).2 hq)
      obtain ⟨r, e, hr, hl, hmin⟩ := nextPrime_spec fuel (p + 1) q hq (by omega) (by omega)
      refine ⟨r, e, hr, by omega, fun s a b => ?_⟩
      by_cases hsp : s = p
      · subst hsp
        rwa [isPrime_iff] at h
      · exact hmin s (by omega) b

/-- The search for a prime above the number of steps ends, with the smallest one. -/
theorem nextPrime_some {n : Nat} (hn : n ≠ 0) : ∃ r, nextPrime (n + 1) (n + 1) = some r ∧ Nat.Prime r ∧ n < r ∧
    ∀ s, n < s → s < r → ¬ Nat.Prime s := by
  obtain ⟨q, hq, h1, h2⟩ := Nat.exists_prime_lt_and_le_two_mul n hn
  exact nextPrime_spec (n + 1) (n + 1) q hq h1 (by omega)

/-! ## The permutation -/

/-- The rounds from `k` on whose index is below `n`. -/
def hits (kappa prime n k : Nat) : List Nat :=
  ((List.range' k (prime - 1 - k)).filter fun j => decide ((j + 1) * kappa % prime - 1 < n))

theorem index_pos {kappa prime k : Nat} (hp : Nat.Prime prime) (h1 : 0 < kappa) (h2 : kappa < prime)
    (hk : k + 1 < prime) : 0 < (k + 1) * kappa % prime := by
  rcases Nat.eq_zero_or_pos ((k + 1) * kappa % prime) with e | e
  · have := (hp.dvd_mul).1 (Nat.dvd_of_mod_eq_zero e)
    rcases this with h | h
    · exact absurd (Nat.le_of_dvd (by omega) h) (by omega)
    · exact absurd (Nat.le_of_dvd h1 h) (by omega)
  · exact e

theorem index_nat {kappa prime k : Nat} (hp : Nat.Prime prime) (h1 : 0 < kappa) (h2 : kappa < prime)
    (hk : k + 1 < prime) : index kappa prime k = .ofNat ((k + 1) * kappa % prime - 1) := by
  have := index_pos hp h1 h2 hk
  unfold index
  show _ = ((_ : Nat) : Int)
  omega

theorem hits_unfold {kappa prime n k : Nat} (hk : k + 1 < prime) : hits kappa prime n k =
    if (k + 1) * kappa % prime - 1 < n then k :: hits kappa prime n (k + 1) else hits kappa prime n (k + 1) := by
  unfold hits
  rw [show prime - 1 - k = (prime - 1 - (k + 1)) + 1 by omega, List.range'_succ, List.filter_cons]
  simp only [decide_eq_true_eq]

/-- The inner loop finds the next hit. -/
theorem seek_hits {kappa prime n : Nat} (hp : Nat.Prime prime) (h1 : 0 < kappa) (h2 : kappa < prime) :
    ∀ (fuel k j : Nat) (js : List Nat), hits kappa prime n k = j :: js → prime ≤ k + fuel →
      seek kappa prime n fuel k = some j ∧ hits kappa prime n (j + 1) = js ∧ j + 1 < prime
  | 0, k, j, js, h, hf => by
    unfold hits at h
    rw [show prime - 1 - k = 0 by omega] at h
    simp at h
  | fuel + 1, k, j, js, h, hf => by
    have hk : k + 1 < prime := by
      by_contra hc
      unfold hits at h
      rw [show prime - 1 - k = 0 by omega] at h
      simp at h
    rw [hits_unfold hk] at h
    unfold seek
    rw [index_nat hp h1 h2 hk]
    by_cases hi : (k + 1) * kappa % prime - 1 < n
    · rw [if_pos hi] at h
      obtain ⟨rfl, rfl⟩ := List.cons.inj h
      rw [if_neg]
      · exact ⟨rfl, rfl, hk⟩
      · show ¬ ((n : Int) ≤ ((_ : Nat) : Int))
        omega
    · rw [if_neg hi] at h
      rw [if_pos]
      · exact seek_hits hp h1 h2 fuel (k + 1) j js h (by omega)
      · show ((n : Int) ≤ ((_ : Nat) : Int))
        omega

theorem permute_hits {α : Type} {kappa prime : Nat} (tauh : List α) (hp : Nat.Prime prime) (h1 : 0 < kappa)
    (h2 : kappa < prime) : ∀ (left k : Nat), left = (hits kappa prime tauh.length k).length → 
      ∃ r, permute kappa prime tauh left k = .ok r ∧
        r.map some = (hits kappa prime tauh.length k).map fun j => tauh[(j + 1) * kappa % prime - 1]?
  | 0, k, h => ⟨[], rfl, by rw [List.length_eq_zero_iff.1 h.symm]; rfl⟩
  | left + 1, k, h => by
    rcases e : hits kappa prime tauh.length k with _ | ⟨j, js⟩
    · rw [e] at h; simp at h
    obtain ⟨hs, hj, hjp⟩ := seek_hits hp h1 h2 (prime + 1) k j js e (by omega)
    have hlt : (j + 1) * kappa % prime - 1 < tauh.length := by
      have : j ∈ hits kappa prime tauh.length k := by rw [e]; simp
      unfold hits at this
      simpa using (List.mem_filter.1 this).2
    obtain ⟨r, hr, hm⟩ := permute_hits tauh hp h1 h2 left (j + 1) (by rw [hj]; rw [e] at h; simpa using h)
    refine ⟨tauh[(j + 1) * kappa % prime - 1] :: r, ?_, ?_⟩
    · unfold permute
      rw [hs]
      simp only [index_nat hp h1 h2 hjp, List.getElem?_eq_getElem hlt, hr, Outcome.bind]
    · rw [List.map_cons, hm, hj, List.map_cons, List.getElem?_eq_getElem hlt]

/-- Multiplication by `kappa` permutes the residues. -/
theorem hits_perm {kappa prime n : Nat} (hp : Nat.Prime prime) (h1 : 0 < kappa) (h2 : kappa < prime) (hn : n < prime) :
    ((hits kappa prime n 0).map fun j => (j + 1) * kappa % prime - 1).Perm (List.range n) := by
  have hc : Nat.Coprime kappa prime := (Nat.coprime_of_lt_prime h1.ne' h2 hp).symm
  have inj : ∀ a b, a + 1 < prime → b + 1 < prime → (a + 1) * kappa % prime - 1 = (b + 1) * kappa % prime - 1 → a = b := by
    intro a b ha hb e
    have pa := index_pos hp h1 h2 ha
    have pb := index_pos hp h1 h2 hb
    have e' : (a + 1) * kappa ≡ (b + 1) * kappa [MOD prime] := by
      unfold Nat.ModEq
      omega
    have := Nat.ModEq.cancel_right_of_coprime (Nat.coprime_comm.1 hc) e'
    unfold Nat.ModEq at this
    rw [Nat.mod_eq_of_lt ha, Nat.mod_eq_of_lt hb] at this
    omega
  -- all residues are reached
  have full : ((List.range (prime - 1)).map fun j => (j + 1) * kappa % prime - 1).Perm (List.range (prime - 1)) := by
    refine (List.subperm_of_subset ?_ ?_).perm_of_length_le (by simp)
    · rw [List.nodup_map_iff_inj_on List.nodup_range]
      intro a ha b hb
      exact inj a b (by simp at ha; omega) (by simp at hb; omega)
    · intro x hx
      simp only [List.mem_map, List.mem_range] at hx ⊢
      obtain ⟨j, hj, rfl⟩ := hx
      have := Nat.mod_lt ((j + 1) * kappa) (show 0 < prime by omega)
      have := index_pos hp h1 h2 (show j + 1 < prime by omega)
      omega
  have hf := full.filter fun x => decide (x < n)
  have e1 : (hits kappa prime n 0).map (fun j => (j + 1) * kappa % prime - 1) =
      ((List.range (prime - 1)).map fun j => (j + 1) * kappa % prime - 1).filter fun x => decide (x < n) := by
    rw [List.filter_map]
    unfold hits
    rw [List.range_eq_range']
    rfl
  have e2 : ((List.range (prime - 1)).filter fun x => decide (x < n)).Perm (List.range n) := by
    refine (List.perm_ext_iff_of_nodup (List.nodup_range.filter _) List.nodup_range).2 fun x => ?_
    simp only [List.mem_filter, List.mem_range, decide_eq_true_eq]
    omega
  rw [e1]
  exact hf.trans e2

/-- C90: with two steps or more, the reordering is a permutation of the steps. -/
theorem reorder_perm {α : Type} (tauh : List α) (h : 2 ≤ tauh.length) : ∃ r, reorder tauh = .ok r ∧ r.Perm tauh := by
  obtain ⟨p, e, hp, hl, -⟩ := nextPrime_some (n := tauh.length) (by omega)
  have h1 : 0 < tauh.length / 2 := by omega
  have h2 : tauh.length / 2 < p := by omega
  have hpm := hits_perm hp h1 h2 hl
  have hlen : tauh.length = (hits (tauh.length / 2) p tauh.length 0).length := by
    have := hpm.length_eq
    simpa using this.symm
  obtain ⟨r, hr, hm⟩ := permute_hits tauh hp h1 h2 tauh.length 0 hlen
  refine ⟨r, ?_, ?_⟩
  · unfold reorder
    rw [e]
    exact hr
  · have : (r.map some).Perm (tauh.map some) := by
      rw [hm]
      have h3 := hpm.map fun i => tauh[i]?
      rw [List.map_map] at h3
      refine h3.trans (List.Perm.of_eq ?_)
      apply List.ext_getElem?
      intro i
      rw [List.getElem?_map, List.getElem?_map]
      by_cases hi : i < tauh.length
      · simp [hi]
      · rw [List.getElem?_eq_none (by simpa using hi), List.getElem?_eq_none (by simpa using hi)]
        rfl
    have h4 := this.filterMap id
    simpa [List.filterMap_map] using h4

/-- C90: a single step cannot be reordered: the element before the first one is read. -/
theorem reorder_single {α : Type} (x : α) : reorder [x] = .ub := by
  have h : isPrime 2 = true := by rw [isPrime_iff]; norm_num
  simp [reorder, nextPrime, h, permute, seek, index]
  rfl

example : reorder [10, 20, 30, 40, 50, 60, 70, 80] = .ok [40, 80, 10, 50, 20, 60, 30, 70] := by
  have h9 : isPrime 9 = false := by rw [← Bool.not_eq_true, isPrime_iff]; norm_num
  have h10 : isPrime 10 = false := by rw [← Bool.not_eq_true, isPrime_iff]; norm_num
  have h11 : isPrime 11 = true := by rw [isPrime_iff]; norm_num
  simp [reorder, nextPrime, h9, h10, h11, permute, seek, index, Outcome.bind]

/-! ## The steps -/

theorem tauAt_eq (n : Nat) (scale tauMax : ℝ) (k : Nat) :
    tauAt n scale tauMax k = scale * tauMax / 2 * (1 / root n k ^ 2) := by
  unfold tauAt root
  have : Real.pi * (2 * (k : ℝ) + 1) * (1 / (4 * (n : ℝ) + 2)) =
      (2 * (k : ℝ) + 1) * Real.pi / (2 * ((2 * n + 1 : Nat) : ℝ)) := by
    push_cast
    field_simp
    ring
  simp only [this]
  rw [← sq]
  ring

/-- What a user sees of the steps: they are `n`, positive, add up to `t`, and a cycle of them does not enlarge any mode
of the diffusion with an eigenvalue up to `2 / tauMax`. -/
def Good (t tauMax : ℝ) (n : Nat) (tau : List ℝ) : Prop :=
  tau.length = n ∧ (∀ x ∈ tau, 0 < x) ∧ tau.sum = t ∧
    ∀ lam : ℝ, 0 ≤ lam → lam ≤ 2 / tauMax → |(tau.map fun x => 1 - x * lam).prod| ≤ 1

theorem good_perm {t tauMax : ℝ} {n : Nat} {a b : List ℝ} (h : Good t tauMax n a) (p : b.Perm a) :
    Good t tauMax n b := by
  obtain ⟨h1, h2, h3, h4⟩ := h
  refine ⟨p.length_eq.trans h1, fun x hx => h2 x (p.mem_iff.1 hx), p.sum_eq.trans h3, fun lam a b => ?_⟩
  rw [(p.map _).prod_eq]
  exact h4 lam a b

theorem le_steps (t tauMax : ℝ) : √(3 * t / tauMax + 1 / 4) - 1 / 2 - 1 / 100000000 ≤ (steps t tauMax : ℝ) :=
  Nat.le_ceil _

/-- C90: the number of steps suffices for the time, up to a relative error of 3e-8 ... -/
theorem steps_enough {t tauMax : ℝ} (ht : 0 ≤ t) (hm : 0 < tauMax) (hn : steps t tauMax ≠ 0) :
    t * (1 - 3 / 100000000) ≤ tauMax * (steps t tauMax * (steps t tauMax + 1)) / 3 := by
  have h := le_steps t tauMax
  have hn1 : (1 : ℝ) ≤ steps t tauMax := by exact_mod_cast Nat.one_le_iff_ne_zero.2 hn
  set n : ℝ := (steps t tauMax : ℝ)
  have ha : 0 ≤ 3 * t / tauMax := by positivity
  set a := 3 * t / tauMax with hadef
  have ht' : t = a * tauMax / 3 := by rw [hadef]; field_simp
  have key : a * (1 - 3 / 100000000) ≤ n * (n + 1) := by
    have hs0 : 0 ≤ √(a + 1 / 4) := Real.sqrt_nonneg _
    have hs : √(a + 1 / 4) ^ 2 = a + 1 / 4 := Real.sq_sqrt (by linarith)
    set s := √(a + 1 / 4)
    by_cases hs1 : s ≤ 3 / 2
    · nlinarith
    · push Not at hs1
      nlinarith
  rw [ht']
  have := mul_le_mul_of_nonneg_left key hm.le
  linarith

theorem scale_le {t tauMax : ℝ} (ht : 0 ≤ t) (hm : 0 < tauMax) (hn : steps t tauMax ≠ 0) :
    3 * t ≤ tauMax * ((steps t tauMax + 1 / 100000000) * (steps t tauMax + 1 + 1 / 100000000)) := by
  have h := le_steps t tauMax
  set n : ℝ := (steps t tauMax : ℝ)
  have ha : 0 ≤ 3 * t / tauMax := by positivity
  set a := 3 * t / tauMax with hadef
  have ht' : 3 * t = tauMax * a := by rw [hadef]; field_simp
  have hs : √(a + 1 / 4) ^ 2 = a + 1 / 4 := Real.sq_sqrt (by linarith)
  have hs0 : 0 ≤ √(a + 1 / 4) := Real.sqrt_nonneg _
  rw [ht']
  refine mul_le_mul_of_nonneg_left ?_ hm.le
  nlinarith

/-- C90: the number of steps fits into an `int` for all reasonable times. -/
theorem steps_le {t tauMax : ℝ} (ht : 0 ≤ t) (hm : 0 < tauMax) (hb : t ≤ tauMax * 10 ^ 13) :
    (steps t tauMax : ℝ) ≤ 10 ^ 7 := by
  have h3 : 3 * t / tauMax ≤ 3 * 10 ^ 13 := by
    rw [div_le_iff₀ hm]
    linarith
  have h4 : √(3 * t / tauMax + 1 / 4) ≤ 10 ^ 7 := by
    rw [Real.sqrt_le_left (by norm_num)]
    norm_num at h3 ⊢
    linarith
  have : steps t tauMax ≤ 10 ^ 7 := by
    unfold steps
    rw [Nat.ceil_le]
    push_cast
    linarith
  exact_mod_cast this

/-- ... and one step less would not. -/
theorem steps_least {t tauMax : ℝ} (ht : 0 ≤ t) (hm : 0 < tauMax) (hn : steps t tauMax ≠ 0) :
    tauMax * ((steps t tauMax - 1) * steps t tauMax) / 3 < t := by
  have h : ((steps t tauMax - 1 : Nat) : ℝ) < √(3 * t / tauMax + 1 / 4) - 1 / 2 - 1 / 100000000 :=
    Nat.lt_ceil.1 (by show _ < steps t tauMax; omega)
  have hn1 : (1 : ℝ) ≤ steps t tauMax := by exact_mod_cast Nat.one_le_iff_ne_zero.2 hn
  rw [Nat.cast_sub (Nat.one_le_iff_ne_zero.2 hn), Nat.cast_one] at h
  set n : ℝ := (steps t tauMax : ℝ)
  have ha : 0 ≤ 3 * t / tauMax := by positivity
  set a := 3 * t / tauMax with hadef
  have ht' : t = a * tauMax / 3 := by rw [hadef]; field_simp
  have hs : √(a + 1 / 4) ^ 2 = a + 1 / 4 := Real.sq_sqrt (by linarith)
  set s := √(a + 1 / 4)
  have key : (n - 1) * n < a := by nlinarith
  rw [ht']
  have := mul_lt_mul_of_pos_left key hm
  linarith

/-- The steps in the original order. -/
theorem good_original {t tauMax : ℝ} (ht : 0 < t) (hm : 0 < tauMax) (hn : steps t tauMax ≠ 0)
    (hb : t ≤ tauMax * 10 ^ 13) :
    Good t tauMax (steps t tauMax) ((List.range (steps t tauMax)).map
      (tauAt (steps t tauMax) (3 * t / (tauMax * ((steps t tauMax * (steps t tauMax + 1) : Nat) : ℝ))) tauMax)) := by
  have he := scale_le ht.le hm hn
  have hbig := steps_le ht.le hm hb
  have hn1 : (1 : ℝ) ≤ steps t tauMax := by exact_mod_cast Nat.one_le_iff_ne_zero.2 hn
  generalize steps t tauMax = n at *
  have hd : 3 * t / (tauMax * ((n * (n + 1) : Nat) : ℝ)) * tauMax / 2 = 3 * t / (2 * (n * (n + 1))) := by
    push_cast
    field_simp
  refine ⟨by simp, ?_, ?_, ?_⟩
  · intro x hx
    simp only [List.mem_map, List.mem_range] at hx
    obtain ⟨k, hk, rfl⟩ := hx
    rw [tauAt_eq, hd]
    have := root_pos hk
    positivity
  · have : (List.range n).map (tauAt n (3 * t / (tauMax * ((n * (n + 1) : Nat) : ℝ))) tauMax) =
        (List.range n).map fun k => 3 * t / (2 * (n * (n + 1))) * (1 / root n k ^ 2) :=
      List.map_congr_left fun k _ => by rw [tauAt_eq, hd]
    rw [this, List.sum_map_mul_left, sum_root]
    field_simp
  · intro lam h0 h1
    rw [List.map_map]
    have : (List.range n).map ((fun x => 1 - x * lam) ∘ tauAt n (3 * t / (tauMax * ((n * (n + 1) : Nat) : ℝ))) tauMax) =
        (List.range n).map fun k => 1 - 3 * t / (2 * (n * (n + 1))) * lam / root n k ^ 2 :=
      List.map_congr_left fun k _ => by
        simp only [Function.comp_apply, tauAt_eq, hd]
        ring
    rw [this]
    have h2 : lam * tauMax ≤ 2 := by rwa [le_div_iff₀ hm] at h1
    have hy : 3 * t / (2 * (n * (n + 1))) * lam ≤ (n + 1 / 100000000) * (n + 1 + 1 / 100000000) / (n * (n + 1)) := by
      rw [div_mul_eq_mul_div, div_le_div_iff₀ (by positivity) (by positivity)]
      have h3 : 3 * t * lam ≤ tauMax * ((n + 1 / 100000000) * (n + 1 + 1 / 100000000)) * lam :=
        mul_le_mul_of_nonneg_right he h0
      have h4 : lam * tauMax * (((n : ℝ) + 1 / 100000000) * (n + 1 + 1 / 100000000)) ≤
          2 * ((n + 1 / 100000000) * (n + 1 + 1 / 100000000)) := mul_le_mul_of_nonneg_right h2 (by positivity)
      have h5 : 3 * t * lam ≤ 2 * ((n + 1 / 100000000) * (n + 1 + 1 / 100000000)) := by linarith
      have := mul_le_mul_of_nonneg_right h5 (show (0 : ℝ) ≤ n * (n + 1) by positivity)
      linarith
    refine abs_prod_root hn (by positivity) ?_
    have h6 : (n + 1 / 100000000) * (n + 1 + 1 / 100000000) / ((n : ℝ) * (n + 1)) - 1 =
        1 / 100000000 * (2 * n + 1 + 1 / 100000000) / (n * (n + 1)) := by
      field_simp
      ring
    have h7 : (2 * (n : ℝ) + 1) ^ 2 * (1 / 100000000 * (2 * n + 1 + 1 / 100000000) / (n * (n + 1))) ≤ 2 := by
      rw [mul_div_assoc', div_le_iff₀ (by positivity)]
      have h8 : (2 * (n : ℝ) + 1) ^ 2 ≤ 9 / 2 * (n * (n + 1)) := by nlinarith
      have h9 : 1 / 100000000 * (2 * (n : ℝ) + 1 + 1 / 100000000) ≤ 1 / 3 := by linarith
      have h10 := mul_le_mul h8 h9 (by positivity) (by positivity)
      nlinarith
    have h11 : (2 * (n : ℝ) + 1) ^ 2 * (3 * t / (2 * (n * (n + 1))) * lam - 1) ≤
        (2 * (n : ℝ) + 1) ^ 2 * (1 / 100000000 * (2 * n + 1 + 1 / 100000000) / (n * (n + 1))) :=
      mul_le_mul_of_nonneg_left (by linarith) (by positivity)
    linarith

theorem steps_pos {t tauMax : ℝ} (hm : 0 < tauMax) (h : tauMax / 10000000 ≤ t) : steps t tauMax ≠ 0 := by
  have : 0 < steps t tauMax := by
    unfold steps
    rw [Nat.ceil_pos]
    have h1 : (3 : ℝ) / 10000000 ≤ 3 * t / tauMax := by
      rw [le_div_iff₀ hm]
      linarith
    have : (1 / 2 + 1 / 50000000 : ℝ) ≤ √(3 * t / tauMax + 1 / 4) := Real.le_sqrt_of_sq_le (by norm_num at h1 ⊢; linarith)
    linarith
  omega

theorem two_le_steps {t tauMax : ℝ} (hm : 0 < tauMax) (h : 7 / 10 * tauMax ≤ t) : 2 ≤ steps t tauMax := by
  have : 1 < steps t tauMax := by
    unfold steps
    rw [Nat.lt_ceil]
    have h1 : (21 : ℝ) / 10 ≤ 3 * t / tauMax := by
      rw [le_div_iff₀ hm]
      linarith
    have : (3 / 2 + 1 / 50000000 : ℝ) ≤ √(3 * t / tauMax + 1 / 4) := Real.le_sqrt_of_sq_le (by norm_num at h1 ⊢; linarith)
    push_cast
    linarith
  omega

/-- C90: the steps in the original order are good for every time from 1e-7 times the largest stable step on. -/
theorem byProcessTime_plain_partial (T : ℝ) (M : Nat) (tauMax : ℝ) (old : List ℝ) (hM : M ≠ 0) (hm : 0 < tauMax)
    (hT : tauMax / 10000000 ≤ T / M) (hb : T / M ≤ tauMax * 10 ^ 13) :
    ∃ n tau, byProcessTime T M tauMax false old = .ok (n, tau) ∧ 0 < n ∧ Good (T / M) tauMax n tau ∧
      (M : ℝ) * tau.sum = T := by
  have hn := steps_pos hm hT
  have ht : 0 < T / M := lt_of_lt_of_le (by positivity) hT
  have hg := good_original ht hm hn hb
  refine ⟨_, _, ?_, Nat.pos_of_ne_zero hn, hg, ?_⟩
  · unfold byProcessTime byCycleTime internal
    simp only [hn, if_false, Bool.false_eq_true]
  · rw [hg.2.2.1]
    have : (M : ℝ) ≠ 0 := by exact_mod_cast hM
    field_simp

/-- C90: with reordering, times below 0.7 times the largest stable step are excluded. -/
theorem byProcessTime_reordered_partial (T : ℝ) (M : Nat) (tauMax : ℝ) (old : List ℝ) (hM : M ≠ 0) (hm : 0 < tauMax)
    (hT : 7 / 10 * tauMax ≤ T / M) (hb : T / M ≤ tauMax * 10 ^ 13) :
    ∃ n tau plain, byProcessTime T M tauMax true old = .ok (n, tau) ∧ 0 < n ∧ Good (T / M) tauMax n tau ∧
      (M : ℝ) * tau.sum = T ∧ byProcessTime T M tauMax false old = .ok (n, plain) ∧ tau.Perm plain := by
  have hn2 := two_le_steps hm hT
  have hn : steps (T / M) tauMax ≠ 0 := by omega
  have ht : 0 < T / M := lt_of_lt_of_le (by positivity) hT
  have hg := good_original ht hm hn hb
  obtain ⟨r, hr, hp⟩ := reorder_perm ((List.range (steps (T / M) tauMax)).map
      (tauAt (steps (T / M) tauMax)
        (3 * (T / M) / (tauMax * ((steps (T / M) tauMax * (steps (T / M) tauMax + 1) : Nat) : ℝ))) tauMax)) (by simpa using hn2)
  have hg' := good_perm hg hp
  refine ⟨_, r, _, ?_, Nat.pos_of_ne_zero hn, hg', ?_, ?_, hp⟩
  · unfold byProcessTime byCycleTime internal
    simp only [hn, if_false, if_true, hr, Outcome.bind]
  · rw [hg'.2.2.1]
    have : (M : ℝ) ≠ 0 := by exact_mod_cast hM
    field_simp
  · unfold byProcessTime byCycleTime internal
    simp only [hn, if_false, Bool.false_eq_true]

example : ∃ n tau, byProcessTime 10 2 (1 / 4) true [] = .ok (n, tau) ∧ 0 < n ∧ Good 5 (1 / 4) n tau := by
  obtain ⟨n, tau, -, h, h0, hg, -⟩ := byProcessTime_reordered_partial 10 2 (1 / 4) [] (by norm_num) (by norm_num) (by norm_num)
    (by norm_num)
  exact ⟨n, tau, h, h0, by rwa [show (10 : ℝ) / (2 : Nat) = 5 by norm_num] at hg⟩

/-- C90: short cycles with reordering have undefined behaviour. -/
theorem byCycleTime_short_ub {t tauMax : ℝ} (old : List ℝ) (hm : 0 < tauMax) (h1 : tauMax / 10000000 ≤ t)
    (h2 : t ≤ 2 / 3 * tauMax) : byCycleTime t tauMax true old = .ub := by
  have hn : steps t tauMax = 1 := by
    have h0 := steps_pos hm h1
    have : steps t tauMax ≤ 1 := by
      unfold steps
      rw [Nat.ceil_le]
      have h3 : 3 * t / tauMax ≤ 2 := by
        rw [div_le_iff₀ hm]
        linarith
      have : √(3 * t / tauMax + 1 / 4) ≤ 3 / 2 := by
        rw [show (3 / 2 : ℝ) = √(9 / 4) by rw [show (9 / 4 : ℝ) = (3 / 2) ^ 2 by norm_num, Real.sqrt_sq (by norm_num)]]
        exact Real.sqrt_le_sqrt (by linarith)
      push_cast
      linarith
    omega
  unfold byCycleTime internal
  simp only [hn, List.range_one, List.map_cons, List.map_nil, reorder_single]
  rfl

/-- C90: the reordering of the steps may have undefined behaviour: a time of 0.1 with steps up to 0.25. -/
theorem byProcessTime_reordered_refuted : byProcessTime (1 / 10) 1 (1 / 4) true [] = .ub := by
  unfold byProcessTime
  exact byCycleTime_short_ub [] (by norm_num) (by norm_num) (by norm_num)

/-- C90: a very short time gives no steps at all, and the vector keeps what was there before. -/
theorem byCycleTime_tiny {t tauMax : ℝ} (reordering : Bool) (old : List ℝ) (hm : 0 < tauMax) (h0 : 0 ≤ t)
    (h : t ≤ tauMax / 1000000000) : byCycleTime t tauMax reordering old = .ok (0, old) := by
  have hn : steps t tauMax = 0 := by
    unfold steps
    rw [Nat.ceil_eq_zero]
    have h3 : 3 * t / tauMax ≤ 3 / 1000000000 := by
      rw [div_le_iff₀ hm]
      linarith
    have : √(3 * t / tauMax + 1 / 4) ≤ 1 / 2 + 1 / 100000000 := by
      rw [Real.sqrt_le_left (by norm_num)]
      norm_num at h3 ⊢
      linarith
    linarith
  unfold byCycleTime internal
  simp [hn]

/-- C90, refuted: for a tiny positive time there is no step at all, and the steps that were in the vector stay there. -/
theorem byProcessTime_tiny_refuted : ∃ T : ℝ, 0 < T ∧ byProcessTime T 1 (1 / 4) false [7] = .ok (0, [7]) := by
  refine ⟨1 / 10000000000, by norm_num, ?_⟩
  unfold byProcessTime
  exact byCycleTime_tiny false [7] (by norm_num) (by norm_num) (by norm_num)

end Verif.Kaze.Fed
