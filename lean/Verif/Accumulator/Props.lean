import Verif.Accumulator.Model
import Verif.Base.Double
import Mathlib.Algebra.BigOperators.Group.List.Basic
import Mathlib.Algebra.Order.BigOperators.Group.List
import Mathlib.Data.List.Infix
import Mathlib.Tactic.Linarith
import Mathlib.Tactic.NormNum
import Mathlib.Tactic.FieldSimp
import Mathlib.Tactic.Ring

/-!
# Properties of the accumulator (C43)
-/

namespace Verif.Accumulator

open Verif (Outcome)
open Verif.Double

/-! ## Specification -/

/-- The last `W` of the samples. -/
def lastW (W : Nat) (xs : List ℚ) : List ℚ := xs.drop (xs.length - W)

/-- The average. -/
def average (xs : List ℚ) : ℚ := xs.sum / xs.length

/-- The sample variance, 0 for fewer than two samples. -/
def sampleVariance (xs : List ℚ) : ℚ :=
  if xs.length < 2 then 0 else (xs.map (fun x => (x - average xs) ^ 2)).sum / (xs.length - 1 : ℚ)

/-- The sums of runs of the samples and the differences of two samples are not changed by rounding. -/
def Exact (rnd : ℚ → ℚ) (xs : List ℚ) : Prop :=
  (∀ ys, ys <:+: xs → rnd ys.sum = ys.sum) ∧ ∀ x ∈ xs, ∀ y ∈ xs, rnd (x - y) = x - y

/-! ## The invariant -/

/-- What holds after the samples `xs`. -/
structure Inv (W : Nat) (xs : List ℚ) (a : Acc) : Prop where
  index : a.index = xs.length
  total : a.total = xs.length
  recent : a.recent = xs.getLastD 0
  short : xs.length ≤ W → a.samples = xs
  ring : W ≤ xs.length →
    a.samples.length = W ∧ lastW W xs = a.samples.drop (xs.length % W) ++ a.samples.take (xs.length % W)
  lo : ∀ x ∈ xs, a.min ≤ x
  lo_mem : a.min ∈ xs ∨ (a.min = maxDouble ∧ ∀ x ∈ xs, maxDouble ≤ x)
  hi : ∀ x ∈ xs, x ≤ a.max
  hi_mem : a.max ∈ xs ∨ (a.max = -maxDouble ∧ ∀ x ∈ xs, x ≤ -maxDouble)

theorem Inv.new (W : Nat) : Inv W [] Acc.new := by
  refine ⟨rfl, rfl, rfl, fun _ => rfl, ?_, by simp, Or.inr ⟨rfl, by simp⟩, by simp, Or.inr ⟨rfl, by simp⟩⟩
  intro h
  have : W = 0 := by simpa using h
  subst this
  simp [Acc.new, lastW]

theorem lastW_append {W : Nat} {xs : List ℚ} {x : ℚ} (hW : 0 < W) (h : W ≤ xs.length) :
    lastW W (xs ++ [x]) = (lastW W xs).tail ++ [x] := by
  unfold lastW
  have e : (xs ++ [x]).length - W = (xs.length - W) + 1 := by simp; omega
  rw [e, List.drop_append_of_le_length (by omega), List.tail_drop]

theorem ring_step {W r : Nat} {s w : List ℚ} {x : ℚ} (hs : s.length = W) (hr : r < W)
    (hw : w = s.drop r ++ s.take r) :
    w.tail ++ [x] = (s.set r x).drop ((r + 1) % W) ++ (s.set r x).take ((r + 1) % W) := by
  have hrs : r < s.length := by omega
  have hd : s.drop r = s[r] :: s.drop (r + 1) := List.drop_eq_getElem_cons hrs
  rw [hw, hd, List.cons_append, List.tail_cons]
  by_cases h : r + 1 = W
  · have e1 : (r + 1) % W = 0 := by rw [h, Nat.mod_self]
    have e2 : s.drop (r + 1) = [] := List.drop_eq_nil_of_le (by omega)
    have e3 : s.set r x = s.take r ++ [x] := by
      rw [List.set_eq_take_append_cons_drop, if_pos hrs, e2]
    rw [e1, e2, e3]
    simp
  · have e1 : (r + 1) % W = r + 1 := Nat.mod_eq_of_lt (by omega)
    rw [e1, List.set_eq_take_append_cons_drop, if_pos hrs]
    have hl : (s.take r).length = r := by rw [List.length_take]; omega
    rw [List.drop_append, List.take_append, hl]
    simp only [Nat.add_sub_cancel_left, List.take_succ_cons, List.take_zero, List.drop_succ_cons, List.drop_zero]
    have e2 : (s.take r).drop (r + 1) = [] := List.drop_eq_nil_of_le (by omega)
    have e3 : (s.take r).take (r + 1) = s.take r := List.take_of_length_le (by omega)
    rw [e2, e3, List.nil_append, List.append_assoc]

theorem Inv.ub {rnd : ℚ → ℚ} {W : Nat} {xs : List ℚ} {a : Acc} (I : Inv W xs a) (x : ℚ)
    (h : 2 ^ 31 - 1 ≤ xs.length) : add rnd W x a = .ub := by
  unfold add
  rw [if_neg]
  have := I.index
  omega

theorem store_ok {rnd : ℚ → ℚ} {W : Nat} (hW : 0 < W) {xs : List ℚ} {a : Acc} (I : Inv W xs a) (x : ℚ) :
    ∃ b, store rnd W x a = .ok b ∧ b.index = xs.length + 1 ∧ b.total = a.total ∧ b.recent = x ∧ b.min = a.min ∧
      b.max = a.max ∧ b.sum = a.sum ∧ (xs.length + 1 ≤ W → b.samples = xs ++ [x]) ∧
      (W ≤ xs.length + 1 → b.samples.length = W ∧
        lastW W (xs ++ [x]) = b.samples.drop ((xs.length + 1) % W) ++ b.samples.take ((xs.length + 1) % W)) := by
  unfold store
  by_cases h : a.index < W
  · rw [if_pos h]
    have hl : xs.length < W := by rw [← I.index]; exact h
    refine ⟨_, rfl, by simp [I.index], rfl, rfl, rfl, rfl, rfl, ?_, ?_⟩
    · intro _
      simp [I.short (by omega)]
    · intro hge
      have e : xs.length + 1 = W := by omega
      simp only [I.short (by omega)]
      rw [e, Nat.mod_self]
      refine ⟨by simp [e], ?_⟩
      unfold lastW
      have : (xs ++ [x]).length - W = 0 := by simp; omega
      rw [this]
      simp
  · rw [if_neg h]
    have hge : W ≤ xs.length := by rw [← I.index]; omega
    obtain ⟨hs, hw⟩ := I.ring hge
    rw [I.index]
    have hr : xs.length % W < W := Nat.mod_lt _ hW
    have hrs : xs.length % W < a.samples.length := by omega
    rw [List.getElem?_eq_getElem hrs]
    simp only
    refine ⟨_, rfl, rfl, rfl, rfl, rfl, rfl, rfl, fun hle => absurd hle (by omega), fun _ => ⟨by simp [hs], ?_⟩⟩
    rw [lastW_append hW hge, ring_step hs hr hw, Nat.mod_add_mod]

theorem Inv.step {rnd : ℚ → ℚ} {W : Nat} (hW : 0 < W) {xs : List ℚ} {a : Acc} (I : Inv W xs a) (x : ℚ)
    (h : xs.length < 2 ^ 31 - 1) : ∃ b, add rnd W x a = .ok b ∧ Inv W (xs ++ [x]) b := by
  obtain ⟨b, e, h1, h2, h3, h4, h5, _, h7, h8⟩ := store_ok (rnd := rnd) hW I x
  have hi := I.index
  have ht := I.total
  refine ⟨tally rnd x b, ?_, ?_⟩
  · unfold add
    rw [if_pos (by omega), e, Outcome.bind_ok]
  · have hl : (xs ++ [x]).length = xs.length + 1 := by simp
    refine ⟨by rw [hl]; exact h1, by rw [hl]; show b.total + 1 = _; omega, ?_, ?_, ?_, ?_, ?_, ?_, ?_⟩
    · show b.recent = _
      rw [h3]
      simp [List.getLastD_concat]
    · intro hle
      rw [hl] at hle
      exact h7 hle
    · intro hle
      rw [hl] at hle ⊢
      exact h8 hle
    · intro y hy
      show (if x < b.min then x else b.min) ≤ y
      rw [h4]
      rcases List.mem_append.1 hy with hy | hy
      · have := I.lo y hy
        split <;> linarith
      · have : y = x := by simpa using hy
        subst this
        split <;> linarith
    · show (if x < b.min then x else b.min) ∈ _ ∨ _
      rw [h4]
      show _ ∨ (if x < b.min then x else b.min) = _ ∧ _
      rw [h4]
      by_cases hx : x < a.min
      · rw [if_pos hx]
        left
        simp
      · rw [if_neg hx]
        rcases I.lo_mem with hm | ⟨hm, hm2⟩
        · left
          exact List.mem_append_left _ hm
        · right
          refine ⟨hm, ?_⟩
          intro y hy
          rcases List.mem_append.1 hy with hy | hy
          · exact hm2 y hy
          · have : y = x := by simpa using hy
            subst this
            linarith
    · intro y hy
      show y ≤ (if b.max < x then x else b.max)
      rw [h5]
      rcases List.mem_append.1 hy with hy | hy
      · have := I.hi y hy
        split <;> linarith
      · have : y = x := by simpa using hy
        subst this
        split <;> linarith
    · show (if b.max < x then x else b.max) ∈ _ ∨ (if b.max < x then x else b.max) = _ ∧ _
      rw [h5]
      by_cases hx : a.max < x
      · rw [if_pos hx]
        left
        simp
      · rw [if_neg hx]
        rcases I.hi_mem with hm | ⟨hm, hm2⟩
        · left
          exact List.mem_append_left _ hm
        · right
          refine ⟨hm, ?_⟩
          intro y hy
          rcases List.mem_append.1 hy with hy | hy
          · exact hm2 y hy
          · have : y = x := by simpa using hy
            subst this
            linarith

/-- The sums, when rounding does not matter. -/
structure Sums (W : Nat) (xs : List ℚ) (a : Acc) : Prop where
  sum : a.sum = xs.sum
  window : a.windowSum = (lastW W xs).sum

theorem lastW_short {W : Nat} {xs : List ℚ} (h : xs.length ≤ W) : lastW W xs = xs := by
  unfold lastW
  rw [Nat.sub_eq_zero_of_le h, List.drop_zero]

theorem lastW_infix {W : Nat} (xs zs : List ℚ) : lastW W xs <:+: xs ++ zs :=
  (List.drop_suffix _ _).isInfix.trans (List.prefix_append _ _).isInfix

theorem Sums.step {rnd : ℚ → ℚ} {W : Nat} (hW : 0 < W) {xs zs : List ℚ} {x : ℚ} {a b : Acc} (I : Inv W xs a)
    (U : Sums W xs a) (E : Exact rnd (xs ++ x :: zs)) (h : add rnd W x a = .ok b) : Sums W (xs ++ [x]) b := by
  unfold add at h
  split at h
  case isFalse => cases h
  case isTrue hlt =>
    obtain ⟨c, hc, h⟩ := Outcome.bind_eq_ok.1 h
    cases h
    have hpre : xs ++ [x] <:+: xs ++ x :: zs := by
      have : xs ++ x :: zs = (xs ++ [x]) ++ zs := by simp
      rw [this]
      exact (List.prefix_append _ _).isInfix
    have hxm : x ∈ xs ++ x :: zs := by simp
    have hcs : c.sum = a.sum := by
      unfold store at hc
      split at hc
      · cases hc; rfl
      · split at hc
        · cases hc; rfl
        · cases hc
    refine ⟨?_, ?_⟩
    · show rnd (c.sum + x) = _
      rw [hcs, U.sum]
      have := E.1 _ hpre
      rw [List.sum_append, List.sum_singleton] at this ⊢
      exact this
    · show c.windowSum = _
      unfold store at hc
      split at hc
      case isTrue hi =>
        cases hc
        have hl : xs.length < W := by rw [← I.index]; exact hi
        show rnd (a.windowSum + x) = _
        rw [U.window, lastW_short (by omega), lastW_short (by simp; omega)]
        have := E.1 _ hpre
        rw [List.sum_append, List.sum_singleton] at this ⊢
        exact this
      case isFalse hi =>
        have hge : W ≤ xs.length := by rw [← I.index]; omega
        obtain ⟨hs, hw⟩ := I.ring hge
        rw [I.index] at hc
        have hr : xs.length % W < W := Nat.mod_lt _ hW
        have hrs : xs.length % W < a.samples.length := by omega
        rw [List.getElem?_eq_getElem hrs] at hc
        cases hc
        show rnd (a.windowSum + rnd (x - a.samples[xs.length % W])) = _
        have hd : a.samples.drop (xs.length % W) = a.samples[xs.length % W] :: a.samples.drop (xs.length % W + 1) :=
          List.drop_eq_getElem_cons hrs
        generalize a.samples[xs.length % W] = o at hd ⊢
        have hcons : ∃ t, lastW W xs = o :: t := ⟨_, by rw [hw, hd]; rfl⟩
        obtain ⟨t, ht⟩ := hcons
        have ho : o ∈ xs := by
          have : o ∈ lastW W xs := by rw [ht]; simp
          exact List.mem_of_mem_drop this
        have e1 : lastW W (xs ++ [x]) = t ++ [x] := by rw [lastW_append hW hge, ht, List.tail_cons]
        rw [E.2 x hxm o (List.mem_append_left _ ho), U.window, ht, e1]
        have e2 : (o :: t).sum + (x - o) = (t ++ [x]).sum := by
          rw [List.sum_cons, List.sum_append, List.sum_singleton]
          ring
        rw [e2, ← e1]
        refine E.1 _ ?_
        have := lastW_infix (W := W) (xs ++ [x]) zs
        simpa using this

theorem addAll_inv {rnd : ℚ → ℚ} {W : Nat} (hW : 0 < W) : ∀ (ys xs : List ℚ) (a : Acc), Inv W xs a →
    (xs ++ ys).length ≤ 2 ^ 31 - 1 → ∃ b, addAll rnd W ys a = .ok b ∧ Inv W (xs ++ ys) b ∧
      (Exact rnd (xs ++ ys) → Sums W xs a → Sums W (xs ++ ys) b)
  | [], xs, a, I, _ => ⟨a, rfl, by simpa using I, by simp⟩
  | y :: ys, xs, a, I, hl => by
    have e0 : xs ++ y :: ys = (xs ++ [y]) ++ ys := by simp
    have hl1 : xs.length < 2 ^ 31 - 1 := by
      rw [List.length_append, List.length_cons] at hl
      omega
    obtain ⟨b, e, J⟩ := I.step (rnd := rnd) hW y hl1
    obtain ⟨c, e2, K, L⟩ := addAll_inv hW ys (xs ++ [y]) b J (by rw [← e0]; exact hl)
    refine ⟨c, ?_, by rw [e0]; exact K, ?_⟩
    · unfold addAll
      rw [e, Outcome.bind_ok, e2]
    · intro E U
      have := U.step hW I E e
      rw [e0] at E ⊢
      exact L E this

/-- Only results of adding samples count. -/
theorem run_inv {rnd : ℚ → ℚ} {W : Nat} (hW : 0 < W) {xs : List ℚ} {a : Acc}
    (h : addAll rnd W xs Acc.new = .ok a) : xs.length ≤ 2 ^ 31 - 1 ∧ Inv W xs a ∧ (Exact rnd xs → Sums W xs a) := by
  by_cases hl : xs.length ≤ 2 ^ 31 - 1
  · obtain ⟨b, e, I, U⟩ := addAll_inv (rnd := rnd) hW xs [] Acc.new (Inv.new W) (by simpa using hl)
    rw [h] at e
    cases e
    refine ⟨hl, by simpa using I, fun E => ?_⟩
    have := U (by simpa using E) ⟨by simp [Acc.new], by simp [Acc.new, lastW]⟩
    simpa using this
  · exfalso
    have hsplit : xs = xs.take (2 ^ 31 - 1) ++ xs.drop (2 ^ 31 - 1) := (List.take_append_drop _ _).symm
    generalize hp : xs.take (2 ^ 31 - 1) = p at hsplit
    generalize hq : xs.drop (2 ^ 31 - 1) = q at hsplit
    have hpl : p.length = 2 ^ 31 - 1 := by rw [← hp, List.length_take]; omega
    obtain ⟨b, e, I, _⟩ := addAll_inv (rnd := rnd) hW p [] Acc.new (Inv.new W) (by rw [List.nil_append, hpl])
    rw [List.nil_append] at I
    have happ : ∀ (p q : List ℚ) (a b : Acc), addAll rnd W p a = .ok b → addAll rnd W (p ++ q) a = addAll rnd W q b := by
      intro p q
      induction p with
      | nil => intro a b h; cases h; rfl
      | cons x p ih =>
        intro a b h
        unfold addAll at h
        obtain ⟨c, hc, h⟩ := Outcome.bind_eq_ok.1 h
        rw [List.cons_append, addAll, hc, Outcome.bind_ok]
        exact ih c b h
    rw [hsplit, happ p q _ b e] at h
    cases q with
    | nil =>
      rw [List.append_nil] at hsplit
      rw [hsplit] at hl
      omega
    | cons x q =>
      rw [addAll, I.ub x (by omega)] at h
      cases h

/-! ## C43 -/

/-- Up to 2^31 - 1 samples can be added. -/
theorem adds_succeed {rnd : ℚ → ℚ} {W : Nat} (hW : 0 < W) {xs : List ℚ} (h : xs.length ≤ 2 ^ 31 - 1) :
    ∃ a, addAll rnd W xs Acc.new = .ok a := by
  obtain ⟨b, e, _⟩ := addAll_inv (rnd := rnd) hW xs [] Acc.new (Inv.new W) (by simpa using h)
  exact ⟨b, e⟩

/-- The next one overflows a counter: undefined behaviour. -/
theorem too_many_refuted {rnd : ℚ → ℚ} {W : Nat} (hW : 0 < W) {xs : List ℚ} (h : 2 ^ 31 ≤ xs.length) :
    ¬ ∃ a, addAll rnd W xs Acc.new = .ok a := by
  rintro ⟨a, e⟩
  have := (run_inv hW e).1
  omega

/-- Number of samples, last sample, minimum and maximum, and the kept samples, whatever the rounding. -/
theorem counts_exact {rnd : ℚ → ℚ} {W : Nat} (hW : 0 < W) {xs : List ℚ} {a : Acc}
    (h : addAll rnd W xs Acc.new = .ok a) (hd : ∀ x ∈ xs, |x| ≤ maxDouble) :
    a.total = xs.length ∧ a.samples.Perm (lastW W xs) ∧
      (xs ≠ [] → a.recent = xs.getLastD 0 ∧ (a.min ∈ xs ∧ ∀ x ∈ xs, a.min ≤ x) ∧
        (a.max ∈ xs ∧ ∀ x ∈ xs, x ≤ a.max)) := by
  obtain ⟨_, I, _⟩ := run_inv hW h
  refine ⟨I.total, ?_, ?_⟩
  · rcases Nat.le_total xs.length W with hl | hl
    · rw [I.short hl, lastW_short hl]
    · rw [(I.ring hl).2]
      refine List.Perm.trans ?_ List.perm_append_comm
      rw [List.take_append_drop]
  · intro hne
    obtain ⟨x, hx⟩ := List.exists_mem_of_ne_nil xs hne
    refine ⟨I.recent, ⟨?_, I.lo⟩, ?_, I.hi⟩
    · rcases I.lo_mem with hm | ⟨hm, hm2⟩
      · exact hm
      · have h1 := hm2 x hx
        have h2 := (abs_le.1 (hd x hx)).2
        have : x = a.min := by rw [hm]; linarith
        rw [← this]
        exact hx
    · rcases I.hi_mem with hm | ⟨hm, hm2⟩
      · exact hm
      · have h1 := hm2 x hx
        have h2 := (abs_le.1 (hd x hx)).1
        have : x = a.max := by rw [hm]; linarith
        rw [← this]
        exact hx

theorem lastW_length (W : Nat) (xs : List ℚ) : (lastW W xs).length = min xs.length W := by
  unfold lastW
  rw [List.length_drop]
  omega

/-- Sum, mean and rolling mean, when rounding does not matter for the sums: the sum is exact and the means are the
rounded quotients. -/
theorem means_exact_partial {rnd : ℚ → ℚ} {W : Nat} (hW : 0 < W) {xs : List ℚ} {a : Acc}
    (h : addAll rnd W xs Acc.new = .ok a) (E : Exact rnd xs) :
    a.sum = xs.sum ∧ (xs ≠ [] → mean rnd a = rnd (average xs)) ∧
      (xs ≠ [] → W < infinite → rollingMean rnd W a = some (rnd (average (lastW W xs)))) := by
  obtain ⟨_, I, U⟩ := run_inv hW h
  have U := U E
  refine ⟨U.sum, ?_, ?_⟩
  · intro hne
    have : 0 < xs.length := List.length_pos_iff.2 hne
    unfold mean
    rw [if_neg (by rw [I.total]; omega), U.sum, I.total]
    rfl
  · intro hne hinf
    have : 0 < xs.length := List.length_pos_iff.2 hne
    unfold rollingMean
    have e : Nat.min a.index W = (lastW W xs).length := by rw [lastW_length, I.index]
    rw [if_pos hinf, if_neg (by rw [e, lastW_length]; omega), e, U.window]
    rfl

/-- Without rounding, adding is exact for every list. -/
theorem exact_id (xs : List ℚ) : Exact id xs := ⟨fun _ _ => rfl, fun _ _ _ _ => rfl⟩

theorem varianceLoop_id (m : ℚ) : ∀ (xs : List ℚ) (v : ℚ),
    varianceLoop id m xs v = v + (xs.map (fun x => (x - m) ^ 2)).sum
  | [], v => by simp [varianceLoop]
  | x :: xs, v => by
    unfold varianceLoop
    rw [varianceLoop_id m xs, List.map_cons, List.sum_cons]
    simp only [id_eq]
    ring

/-- In exact arithmetic the rolling mean and the variance are those of the last `W` samples, for every window size and
every sequence. -/
theorem window_statistics_partial {W : Nat} (hW : 0 < W) (hW2 : W ≤ infinite) {xs : List ℚ} {a : Acc}
    (h : addAll id W xs Acc.new = .ok a) :
    a.sum = xs.sum ∧ mean id a = average xs ∧
      (xs ≠ [] → rollingMean id W a = some (average (lastW W xs))) ∧
      variance id W a = some (sampleVariance (lastW W xs)) := by
  obtain ⟨hlen, I, U⟩ := run_inv hW h
  obtain ⟨h1, h2, h3⟩ := means_exact_partial hW h (exact_id xs)
  have hp := (counts_exact hW h)
  have hperm : a.samples.Perm (lastW W xs) := by
    rcases Nat.le_total xs.length W with hl | hl
    · rw [I.short hl, lastW_short hl]
    · rw [(I.ring hl).2]
      refine List.Perm.trans ?_ List.perm_append_comm
      rw [List.take_append_drop]
  have hmean : mean id a = average xs := by
    by_cases hne : xs = []
    · subst hne
      unfold mean
      rw [if_pos (by rw [I.total]; simp)]
      simp [average]
    · exact h2 hne
  have hroll : xs ≠ [] → rollingMean id W a = some (average (lastW W xs)) := by
    intro hne
    by_cases hinf : W < infinite
    · exact h3 hne hinf
    · unfold rollingMean
      rw [if_neg hinf, hmean, lastW_short (by have : W = infinite := by omega
                                              rw [this]; exact hlen)]
  refine ⟨h1, hmean, hroll, ?_⟩
  unfold variance sampleVariance
  rw [hperm.length_eq]
  by_cases h2 : (lastW W xs).length < 2
  · rw [if_pos h2, if_pos h2]
  · have hne : xs ≠ [] := by
      rintro rfl
      simp [lastW] at h2
    rw [if_neg h2, if_neg h2, hroll hne, Option.map_some, varianceLoop_id, zero_add]
    congr 1
    show _ / _ = _
    rw [(hperm.map _).sum_eq]
    congr 1
    rw [Nat.cast_sub (by omega)]
    norm_num

example : (addAll id 3 [5, 1, 4, 10] Acc.new >>= fun a => .ok (a.total, a.sum, a.min, a.max, mean id a)) =
    .ok (4, 20, 1, 10, 5) := by decide +kernel

example : (addAll id 3 [5, 1, 4, 10] Acc.new >>= fun a => .ok (rollingMean id 3 a, variance id 3 a, a.samples)) =
    .ok (some 5, some 21, [10, 1, 4]) := by decide +kernel

/-- In floating point the sums are exact for samples that are multiples of a power of two, as long as the sum of their
absolute values is at most 2^53 units. -/
theorem exact_of_integers {rnd : ℚ → ℚ} (hr : IsNearest rnd) (e : ℤ) {ks : List ℤ}
    (h : (ks.map (fun k : ℤ => |k|)).sum ≤ 2 ^ 53) : Exact rnd (ks.map (fun k : ℤ => (k : ℚ) * (2 : ℚ) ^ e)) := by
  have habs : ∀ ls : List ℤ, |ls.sum| ≤ (ls.map (fun k : ℤ => |k|)).sum := by
    intro ls
    induction ls with
    | nil => simp
    | cons l ls ih =>
      rw [List.sum_cons, List.map_cons, List.sum_cons]
      exact (abs_add_le _ _).trans (by linarith)
  have hsub : ∀ ls : List ℤ, ls.Sublist ks → (ls.map (fun k : ℤ => |k|)).sum ≤ (ks.map (fun k : ℤ => |k|)).sum := by
    intro ls hls
    refine (hls.map _).sum_le_sum ?_
    intro x hx
    obtain ⟨k, _, rfl⟩ := List.mem_map.1 hx
    exact abs_nonneg k
  have hsum : ∀ ls : List ℤ, (ls.map (fun k : ℤ => (k : ℚ) * (2 : ℚ) ^ e)).sum = (ls.sum : ℚ) * (2 : ℚ) ^ e := by
    intro ls
    induction ls with
    | nil => simp
    | cons l ls ih =>
      rw [List.map_cons, List.sum_cons, ih, List.sum_cons]
      push_cast
      ring
  refine ⟨?_, ?_⟩
  · intro ys hys
    obtain ⟨s, t, hst⟩ := hys
    rw [List.append_assoc, List.append_eq_map_iff] at hst
    obtain ⟨l1, l2, hk, h1, h2⟩ := hst
    rw [List.map_eq_append_iff] at h2
    obtain ⟨l3, l4, hl, h3, h4⟩ := h2
    subst h3
    rw [hsum]
    refine hr.exact (isDouble_mul ?_)
    refine (habs l3).trans ((hsub l3 ?_).trans h)
    rw [hk, hl]
    exact (List.sublist_append_left l3 l4).trans (List.sublist_append_right l1 _)
  · intro x hx y hy
    obtain ⟨k, hk, rfl⟩ := List.mem_map.1 hx
    obtain ⟨l, hl, rfl⟩ := List.mem_map.1 hy
    have e1 : (k : ℚ) * (2 : ℚ) ^ e - (l : ℚ) * (2 : ℚ) ^ e = ((k - l : ℤ) : ℚ) * (2 : ℚ) ^ e := by
      push_cast
      ring
    rw [e1]
    refine hr.exact (isDouble_mul ?_)
    by_cases hkl : k = l
    · subst hkl
      simp
    · have hle : |k| + |l| ≤ (ks.map (fun k : ℤ => |k|)).sum := by
        have hs : [k, l].Sublist ks ∨ [l, k].Sublist ks := by
          obtain ⟨p, q, rfl⟩ := List.append_of_mem hk
          rcases List.mem_append.1 hl with hl | hl
          · right
            have h1 : [l].Sublist p := List.singleton_sublist.2 hl
            exact h1.append ((List.nil_sublist q).cons_cons k)
          · left
            have hl : l ∈ q := by
              rcases List.mem_cons.1 hl with h | h
              · exact absurd h.symm hkl
              · exact h
            have h1 : [l].Sublist q := List.singleton_sublist.2 hl
            exact (h1.cons_cons k).trans (List.sublist_append_right p _)
        rcases hs with hs | hs
        · have := hsub _ hs
          simpa using this
        · have := hsub _ hs
          simp only [List.map_cons, List.map_nil, List.sum_cons, List.sum_nil, add_zero] at this
          linarith
      exact (abs_sub _ _).trans (by linarith)

example : ∃ rnd, IsNearest rnd ∧ Exact rnd ([3, -1, 4].map (fun k : ℤ => (k : ℚ) * (2 : ℚ) ^ (-2 : ℤ))) := by
  obtain ⟨rnd, h⟩ := exists_isNearest
  exact ⟨rnd, h, exact_of_integers h _ (by decide)⟩

/-- In floating point a large sample that has left the window still spoils the rolling mean: after -2^60, 1 the
rolling mean over one sample is 0. -/
theorem rolling_mean_refuted {rnd : ℚ → ℚ} (hr : IsNearest rnd) :
    ∃ a, addAll rnd 1 [-2 ^ 60, 1] Acc.new = .ok a ∧ rollingMean rnd 1 a = some 0 ∧
      average (lastW 1 [-2 ^ 60, 1]) = 1 := by
  have r0 : rnd 0 = 0 := hr.exact ⟨0, 0, by norm_num, by norm_num⟩
  have r1 : rnd (-2 ^ 60) = -2 ^ 60 := hr.exact ⟨-1, 60, by norm_num, by norm_num⟩
  have r2 : rnd (1 + 2 ^ 60) = 2 ^ 60 := by
    have := hr.eq_of_close (x := 1 + 2 ^ 60) (e := 8) (n := 2 ^ 52) (by norm_num) (by norm_num) (by norm_num)
    rw [this]
    norm_num
  obtain ⟨a, e⟩ := adds_succeed (rnd := rnd) (W := 1) (by decide) (xs := [-2 ^ 60, 1]) (by simp)
  have hw : a.windowSum = 0 ∧ a.index = 2 := by
    have h1 : add rnd 1 (-2 ^ 60) Acc.new = .ok (tally rnd (-2 ^ 60)
        { Acc.new with samples := [-2 ^ 60], windowSum := rnd (0 + -2 ^ 60), index := 1, recent := -2 ^ 60 }) := rfl
    rw [addAll, h1, Outcome.bind_ok, addAll, zero_add, r1] at e
    obtain ⟨b, hb, e⟩ := Outcome.bind_eq_ok.1 e
    cases e
    generalize ht : tally rnd (-2 ^ 60) _ = t at hb
    have t1 : t.index = 1 := by rw [← ht]; rfl
    have t2 : t.total = 1 := by rw [← ht]; rfl
    have t3 : t.samples = [-2 ^ 60] := by rw [← ht]; rfl
    have t4 : t.windowSum = -2 ^ 60 := by rw [← ht]; rfl
    unfold add store at hb
    rw [t1, t2, t3, t4, if_pos (by decide), if_neg (by decide)] at hb
    simp only [Nat.mod_one, List.getElem?_cons_zero, Outcome.bind_ok, sub_neg_eq_add] at hb
    rw [r2, neg_add_cancel, r0] at hb
    cases hb
    exact ⟨rfl, rfl⟩
  refine ⟨a, e, ?_, by norm_num [average, lastW]⟩
  unfold rollingMean
  rw [if_pos (by decide), hw.1, hw.2, if_neg (by decide), zero_div, r0]

/-- Before the first sample the rolling mean is 0/0. -/
theorem rolling_mean_empty {rnd : ℚ → ℚ} {W : Nat} (hW2 : W < infinite) : rollingMean rnd W Acc.new = none := by
  unfold rollingMean
  rw [if_pos hW2, if_pos]
  simp [Acc.new]

end Verif.Accumulator
