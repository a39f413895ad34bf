import Verif.NPipeline.Int64
import Verif.NPipeline.Props

/-!
# Time differences of the n-camera pipeline in 64 bits: C28
-/

namespace Verif.NPipeline.Int64

open Verif (Outcome)
open Verif.NPipeline

theorem absDiff_eq {a b : Int} (h : -2 ^ 63 < a - b ∧ a - b < 2 ^ 63) : absDiff a b = .ok |a - b| := by
  unfold absDiff
  simp only
  rw [if_pos h]
  congr 1
  split
  · next hd => rw [abs_of_neg hd]
  · next hd => rw [abs_of_nonneg (by omega)]

theorem nearest64_eq {p : List Entry} {t : Int} (h : ∀ e ∈ p, -2 ^ 63 < e.1 - t ∧ e.1 - t < 2 ^ 63) :
    nearest64 p t = .ok (nearest p t) := by
  unfold nearest64 nearest
  simp only
  cases h1 : p[lowerBound p t - 1]? with
  | none => rfl
  | some e =>
    have he := h e (List.mem_of_getElem? h1)
    simp only [absDiff_eq he, Outcome.bind_ok]
    cases h2 : p[lowerBound p t - 1 + 1]? with
    | none => rfl
    | some e' =>
      have he' := h e' (List.mem_of_getElem? h2)
      simp only [absDiff_eq he', Outcome.bind_ok]

theorem work64_eq {cfg : Config} {s : State} {cam : Nat} {f : Frame}
    (h : ∀ e ∈ s.processing, -2 ^ 63 < e.1 - f.ts ∧ e.1 - f.ts < 2 ^ 63) :
    work64 cfg s cam f = work cfg s cam f := by
  unfold work64 work place
  split
  · rfl
  · split
    · rfl
    · have : findOrCreate64 cfg s f.ts = findOrCreate cfg s f.ts := by
        unfold findOrCreate64 findOrCreate
        rw [nearest64_eq h, Outcome.bind_ok]
        cases nearest s.processing f.ts <;> rfl
      rw [this]
      cases findOrCreate cfg s f.ts with
      | ok r =>
        simp only [Outcome.bind_ok]
        cases setFrameAt r.1.processing r.2 cam f <;> rfl
      | abort => rfl
      | ub => rfl
      | exc => rfl

theorem moved_sub : ∀ (p c : List Entry), ∀ e ∈ (moveCompleted p c).1, e ∈ p
  | [], c, e, h => h
  | x :: xs, c, e, h => by
    unfold moveCompleted at h
    split at h
    · exact List.mem_cons_of_mem _ (moved_sub xs _ e h)
    · exact h

/-- N-frames in progress bear the time of an image. -/
theorem keys_are_times {cfg : Config} (htol : 0 ≤ cfg.tol) {r : Run} (h : Reachable cfg r) :
    ∀ e ∈ r.s.processing, ∃ x ∈ r.images, x.2.ts = e.1 := by
  induction h with
  | init => intro e he; cases he
  | @step r r' op hr hs ih =>
    cases op with
    | work cam f =>
      unfold step at hs
      obtain ⟨s', h1, h2⟩ := Outcome.bind_eq_ok.1 hs
      cases h2
      unfold work at h1
      split at h1
      · cases h1
      · split at h1
        · cases h1
        · obtain ⟨s1, h3, h4⟩ := Outcome.bind_eq_ok.1 h1
          cases h4
          intro e he
          have he' : e ∈ s1.processing := List.mem_of_mem_drop (moved_sub _ _ e he)
          have : (∃ x ∈ r.s.processing, x.1 = e.1) ∨ e.1 = f.ts := by
            rcases grouping htol hr (cam := cam) (f := f) (by omega) with
              ⟨pre, x, post, e1, _, _, e2⟩ | ⟨_, L, R, e1, _, _, e2⟩
            · rw [h3] at e2
              cases e2
              rw [e1]
              rcases List.mem_append.1 he' with m | m
              · exact Or.inl ⟨e, List.mem_append_left _ m, rfl⟩
              · rcases List.mem_cons.1 m with rfl | m
                · exact Or.inl ⟨x, List.mem_append_right _ List.mem_cons_self, rfl⟩
                · exact Or.inl ⟨e, List.mem_append_right _ (List.mem_cons_of_mem _ m), rfl⟩
            · rw [h3] at e2
              cases e2
              rw [e1]
              rcases List.mem_append.1 he' with m | m
              · exact Or.inl ⟨e, List.mem_append_left _ m, rfl⟩
              · rcases List.mem_cons.1 m with rfl | m
                · exact Or.inr rfl
                · exact Or.inl ⟨e, List.mem_append_right _ m, rfl⟩
          rcases this with ⟨x, hx, e1⟩ | e1
          · obtain ⟨y, hy, e2⟩ := ih x hx
            exact ⟨y, List.mem_append_left _ hy, e2.trans e1⟩
          · exact ⟨(cam, f), by simp, e1.symm⟩
    | getNext =>
      unfold step at hs
      cases hs
      intro e he
      refine ih e ?_
      unfold getNext at he
      revert he
      split <;> exact id
    | getLatest =>
      unfold step at hs
      cases hs
      intro e he
      refine ih e ?_
      unfold getLatestAndClear at he
      revert he
      split
      · exact id
      · intro he
        simp only at he
        first
          | exact (List.dropWhile_sublist _).subset he
          | exact List.mem_of_mem_drop he
          | exact List.mem_of_mem_filter he
    | dropOldest n =>
      unfold step at hs
      obtain ⟨s', h1, h2⟩ := Outcome.bind_eq_ok.1 hs
      cases h2
      intro e he
      refine ih e ?_
      unfold dropOldest at h1
      split at h1
      · split at h1 <;> (cases h1; exact he)
      · cases h1

/-- The arithmetic of the code is that of integers as long as all images are from within 292 years: in every reachable
state, if the times of the next image and of all images before lie in one interval shorter than 2⁶³ ns. -/
theorem within_292_years {cfg : Config} (htol : 0 ≤ cfg.tol) {r : Run} (h : Reachable cfg r) {cam : Nat} {f : Frame}
    (lo : Int) (hf : lo ≤ f.ts ∧ f.ts < lo + 2 ^ 63)
    (hi : ∀ x ∈ r.images, lo ≤ x.2.ts ∧ x.2.ts < lo + 2 ^ 63) :
    work64 cfg r.s cam f = work cfg r.s cam f := by
  refine work64_eq ?_
  intro e he
  obtain ⟨x, hx, e1⟩ := keys_are_times htol h e he
  have := hi x hx
  omega

/-- An image of 2020 after an image of camera 0 at time 5: the differences are those of integers. -/
example : ∃ s, work64 ⟨2, 10⟩ ⟨[(5, ⟨0, [some ⟨5, 0⟩, none]⟩)], [], 1⟩ 1 ⟨1577836800000000000, 1⟩ = .ok s ∧
    s.processing.map Prod.fst = [5, 1577836800000000000] := ⟨_, rfl, by decide⟩

/-- An image without a valid time (the smallest number) after any image from 1970 or later: the difference overflows,
which is undefined. -/
theorem invalid_time_refuted : ∃ r, Reachable ⟨2, 10⟩ r ∧ work64 ⟨2, 10⟩ r.s 1 ⟨-2 ^ 63, 1⟩ = .ub := by
  refine ⟨_, .step (op := .work 0 ⟨5, 0⟩) .init rfl, ?_⟩
  decide

/-- For all such pairs: whenever the n-frame in progress is from time 0 or later. -/
theorem invalid_time_always {cfg : Config} {t : Int} {n : NFrame} {c : List Entry} {k cam : Nat} {l : Nat}
    (ht : 0 ≤ t) (hc : cam < cfg.cams) : work64 cfg ⟨[(t, n)], c, k⟩ cam ⟨-2 ^ 63, l⟩ = .ub := by
  unfold work64
  rw [if_neg (by omega), if_neg (by omega)]
  have : findOrCreate64 cfg ⟨[(t, n)], c, k⟩ (-2 ^ 63) = .ub := by
    unfold findOrCreate64 nearest64
    have h0 : lowerBound [(t, n)] (-2 ^ 63) = 0 := by
      unfold lowerBound
      rw [List.takeWhile_cons, if_neg (by simp; omega)]
      rfl
    simp only [h0]
    have : absDiff t (-2 ^ 63) = .ub := by
      unfold absDiff
      simp only
      rw [if_neg (by omega)]
    simp only [Nat.zero_sub, List.getElem?_cons_zero, this]
    rfl
  simp only [this]
  rfl

end Verif.NPipeline.Int64
