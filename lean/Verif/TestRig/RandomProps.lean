import Verif.TestRig.Random
import Verif.TestRig.Props

/-!
# Property C138: random rigs
-/

namespace Verif.TestRig

open Verif (Outcome)
open Verif.NCamera (Cam Rig initInternal initLoop idAt Agree isValid init_agree)

/-- What is used of single precision: sums and products are rounded in order, and small integers stay. -/
structure Rounding (rd : ℚ → ℚ) : Prop where
  mono : ∀ {a b}, a ≤ b → rd a ≤ rd b
  small : ∀ k : Nat, k ≤ 16 → rd k = k

/-- Exact numbers are one such. -/
theorem Rounding.exact : Rounding id := ⟨fun h => h, fun _ _ => rfl⟩

/-- C138: for random numbers from -1 to 1 there are 1 to 15 cameras, however sums and products are rounded. -/
theorem randomCount_range {rd : ℚ → ℚ} (h : Rounding rd) {r : ℚ} (h0 : -1 ≤ r) (h1 : r ≤ 1) :
    1 ≤ randomCount rd r ∧ randomCount rd r ≤ 15 := by
  have z := h.small 0 (by norm_num)
  have t := h.small 2 (by norm_num)
  have f := h.small 14 (by norm_num)
  have o := h.small 1 (by norm_num)
  have g := h.small 15 (by norm_num)
  push_cast at z t f o g
  have a0 : 0 ≤ rd (r + 1) := by rw [← z]; exact h.mono (by linarith)
  have a1 : rd (r + 1) ≤ 2 := by rw [← t]; exact h.mono (by linarith)
  have b0 : 0 ≤ rd (rd (r + 1) * 7) := by
    have := h.mono (show (0 : ℚ) ≤ rd (r + 1) * 7 by linarith)
    rwa [z] at this
  have b1 : rd (rd (r + 1) * 7) ≤ 14 := by
    have := h.mono (show rd (r + 1) * 7 ≤ (14 : ℚ) by linarith)
    rwa [f] at this
  unfold randomCount
  constructor
  · refine Int.le_floor.2 ?_
    have := h.mono (show (1 : ℚ) ≤ rd (rd (r + 1) * 7) + 1 by linarith)
    rw [o] at this
    exact_mod_cast this
  · have := h.mono (show rd (rd (r + 1) * 7) + 1 ≤ (15 : ℚ) by linarith)
    rw [g] at this
    have hf := Int.floor_le (rd (rd (rd (r + 1) * 7) + 1))
    have : ((⌊rd (rd (rd (r + 1) * 7) + 1)⌋ : Int) : ℚ) ≤ ((15 : Int) : ℚ) := by push_cast; linarith
    exact_mod_cast this

/-- C138: which number of cameras belongs to which random numbers, in exact arithmetic: fourteen of the fifteen have an
interval of the same length, but fifteen cameras there are only for the number 1. -/
theorem randomCount_iff (r : ℚ) (k : Int) : randomCount id r = k ↔ (k - 1) / 7 - 1 ≤ r ∧ r < k / 7 - 1 := by
  unfold randomCount
  simp only [id]
  rw [Int.floor_eq_iff]
  constructor
  · rintro ⟨a, b⟩; constructor <;> linarith
  · rintro ⟨a, b⟩; constructor <;> linarith

/-- C138, refuted: the number of cameras is not uniform over 1 to 15; fifteen is drawn only when the random number is the
single end point 1 of its range. -/
theorem fifteen_refuted {r : ℚ} (h1 : r ≤ 1) : randomCount id r = 15 ↔ r = 1 := by
  rw [randomCount_iff]
  constructor
  · rintro ⟨a, -⟩; push_cast at a; linarith
  · rintro rfl; norm_num

/-- C138: a random rig is made without failing, whatever the rig was before: it has a new id and is valid, it has 1 to 15 new
cameras with different ids, all of the same class, ids and indices agree, camera `k` has pose `k` of the test rig, and the
cameras that there were are as before. -/
theorem setRandom_made {rd : ℚ → ℚ} (hrd : Rounding rd) {gen : Nat → Nat} (hg : ∀ k, gen k ≠ 0)
    (hinj : ∀ a b, gen a = gen b → a = b) {r0 : ℚ} (h0 : -1 ≤ r0) (h1 : r0 ≤ 1) (r1 : ℚ) (cams : List Cam) (r : Rig) :
    ∃ (n : Nat) (new : List Cam) (r' : Rig), setRandom rd gen r0 r1 cams r = .ok (cams ++ new, r') ∧ 1 ≤ n ∧ n ≤ 15 ∧
      (n : Int) = randomCount rd r0 ∧ r'.id = gen 0 ∧ Agree (cams ++ new) r' ∧ isValid (cams ++ new) r' = .ok true ∧
      r'.T = List.range n ∧ r'.cameras = (List.range n).map (fun k => some (cams.length + k)) ∧ new.length = n ∧
      (∀ k < n, new[k]? = some ⟨gen (k + 1), 0, if 0 < r1 then 0 else 1, true⟩) := by
  obtain ⟨c1, c2⟩ := randomCount_range hrd h0 h1
  generalize hn : (randomCount rd r0).toNat = n
  have hni : (n : Int) = randomCount rd r0 := by omega
  have hlen : (randomCameras gen r1 n).length = n := by simp [randomCameras]
  have hget : ∀ k < n, (randomCameras gen r1 n)[k]? = some ⟨gen (k + 1), 0, if 0 < r1 then 0 else 1, true⟩ := by
    intro k hk
    simp [randomCameras, hk]
  have hat : ∀ k < n, (cams ++ randomCameras gen r1 n)[cams.length + k]? =
      some ⟨gen (k + 1), 0, if 0 < r1 then 0 else 1, true⟩ := by
    intro k hk
    rw [List.getElem?_append_right (by omega), Nat.add_sub_cancel_left, hget k hk]
  have hps : ∀ p ∈ (List.range n).map (fun k => some (cams.length + k)), ∃ q c, p = some q ∧
      (cams ++ randomCameras gen r1 n)[q]? = some c ∧ c.id ≠ 0 ∧ c.sound = true := by
    intro p hp
    obtain ⟨k, hk, rfl⟩ := List.mem_map.1 hp
    exact ⟨_, _, rfl, hat k (List.mem_range.1 hk), hg _, rfl⟩
  obtain ⟨m, hm⟩ := initLoop_ok _ 0 [] (fun p hp => by
    obtain ⟨q, c, a, b, d, _⟩ := hps p hp; exact ⟨q, c, a, b, d⟩)
  have hinit : initInternal (cams ++ randomCameras gen r1 n)
      ⟨gen 0, (List.range n).map (fun k => some (cams.length + k)), List.range n, []⟩ =
      .ok ⟨gen 0, (List.range n).map (fun k => some (cams.length + k)), List.range n, m⟩ := by
    unfold initInternal
    rw [if_pos (by simp)]
    simp only [hm, Outcome.bind_ok]
  have hid : ∀ i id, idAt (cams ++ randomCameras gen r1 n) ((List.range n).map (fun k => some (cams.length + k))) i = some id →
      i < n ∧ gen (i + 1) = id := by
    intro i id h
    unfold idAt at h
    by_cases hi : i < n
    · have e : ((List.range n).map (fun k => some (cams.length + k)))[i]? = some (some (cams.length + i)) := by simp [hi]
      simp only [e, hat i hi, Option.map_some, Option.some.injEq] at h
      exact ⟨hi, h⟩
    · simp [hi] at h
  obtain ⟨A, -, -, -⟩ := init_agree hinit (fun i j id ha hb => by
    have := hinj _ _ ((hid i id ha).2.trans (hid j id hb).2.symm)
    omega)
  refine ⟨n, randomCameras gen r1 n, ⟨gen 0, (List.range n).map (fun k => some (cams.length + k)), List.range n, m⟩, ?_, by omega,
    by omega, hni, rfl, A, isValid_ok (hg 0) hps, rfl, rfl, hlen, hget⟩
  unfold setRandom
  simp only [hn]
  rw [if_pos ⟨c2, c1⟩, hm, Outcome.bind_ok]

example : ∃ (n : Nat) (new : List Cam) (r' : Rig), setRandom id (· + 1) (1 / 2) (-1) [⟨9, 0, 0, true⟩] ⟨7, [], [], []⟩ =
    .ok ([⟨9, 0, 0, true⟩] ++ new, r') ∧ n = 11 ∧ new.length = n := by
  obtain ⟨n, new, r', h, -, -, hn, -, -, -, -, -, hl, -⟩ := setRandom_made Rounding.exact (gen := (· + 1)) (by simp)
    (by intro a b h; simpa using h) (r0 := 1 / 2) (by norm_num) (by norm_num) (-1) [⟨9, 0, 0, true⟩] ⟨7, [], [], []⟩
  refine ⟨n, new, r', h, ?_, hl⟩
  rw [(randomCount_iff (1 / 2) 11).2 (by norm_num)] at hn
  omega

/-- C138 refuted: there is nothing random about a random rig but its number of cameras, their class and the ids: two rigs of
as many cameras, of numbers of the same sign, have the same transformations and cameras that differ by their ids only. -/
theorem not_random_refuted {rd : ℚ → ℚ} (hrd : Rounding rd) {gen gen' : Nat → Nat} (hg : ∀ k, gen k ≠ 0) (hg' : ∀ k, gen' k ≠ 0)
    (hinj : ∀ a b, gen a = gen b → a = b) (hinj' : ∀ a b, gen' a = gen' b → a = b)
    {r0 s0 : ℚ} (h0 : -1 ≤ r0) (h1 : r0 ≤ 1) (k0 : -1 ≤ s0) (k1 : s0 ≤ 1) (he : randomCount rd r0 = randomCount rd s0)
    {r1 s1 : ℚ} (hs : 0 < r1 ↔ 0 < s1) (cams : List Cam) (r s : Rig) :
    ∃ new new' r' s', setRandom rd gen r0 r1 cams r = .ok (cams ++ new, r') ∧
      setRandom rd gen' s0 s1 cams s = .ok (cams ++ new', s') ∧ r'.T = s'.T ∧ r'.cameras = s'.cameras ∧
      new.map (fun c => { c with id := 0 }) = new'.map (fun c => { c with id := 0 }) := by
  obtain ⟨n, new, r', a, -, -, an, -, -, -, aT, ac, al, ag⟩ := setRandom_made hrd hg hinj h0 h1 r1 cams r
  obtain ⟨m, new', s', b, -, -, bn, -, -, -, bT, bc, bl, bg⟩ := setRandom_made hrd hg' hinj' k0 k1 s1 cams s
  have hnm : n = m := by omega
  subst hnm
  refine ⟨new, new', r', s', a, b, by rw [aT, bT], by rw [ac, bc], ?_⟩
  refine List.ext_getElem? fun k => ?_
  by_cases hk : k < n
  · simp [ag k hk, bg k hk, hs]
  · simp [List.getElem?_eq_none_iff.2 (show new.length ≤ k by omega), List.getElem?_eq_none_iff.2 (show new'.length ≤ k by omega)]

end Verif.TestRig
