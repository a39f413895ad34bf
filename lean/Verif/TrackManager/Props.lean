import Verif.TrackManager.Model
import Mathlib.Tactic.Common

/-!
# Track manager: C37, C38
-/

namespace Verif.TrackManager

open Verif (Outcome)
open Verif.StlHelpers (toInt32)

/-! ## Specification -/

/-- The track id of a keypoint, if it has one: a non-negative entry of the track id channel. -/
def trackOf (w : World) (f i : Nat) : Option Int :=
  match w.ids f with
  | none => none
  | some l =>
    match l[i]? with
    | some v => if 0 ≤ v then some v else none
    | none => none

/-- Different keypoints of a frame have different track ids. -/
def Unique (w : World) (f : Nat) : Prop :=
  ∀ i k v, trackOf w f i = some v → trackOf w f k = some v → i = k

/-- Every assigned id was handed out by the provider. -/
def Issued (w : World) : Prop := ∀ f i v, trackOf w f i = some v → v < w.next

/-! ## Small facts -/

theorem toInt32_small {n : Nat} (h : n < 2 ^ 31) : toInt32 n = (n : Int) := by
  unfold toInt32
  have h2 : n % 2 ^ 32 = n := Nat.mod_eq_of_lt (by omega)
  simp only [h2]
  rw [if_pos h]

theorem trackOf_create (w : World) (g f i : Nat) : trackOf (createChannel w g) f i = trackOf w f i := by
  unfold createChannel
  cases hg : w.ids g with
  | some l => rfl
  | none =>
    unfold trackOf
    by_cases hf : f = g
    · subst hf
      simp only [if_true, hg]
      cases h : (List.replicate (w.kps f) (-1 : Int))[i]? with
      | none => rfl
      | some v =>
        have := List.eq_of_mem_replicate (List.mem_of_getElem? h)
        subst this
        rfl
    · simp only [if_neg hf]

theorem next_create (w : World) (g : Nat) : (createChannel w g).next = w.next := by
  unfold createChannel
  split <;> rfl

theorem trackOf_vec {w : World} {f i : Nat} {v : Int} (h : (vec w f)[i]? = some v) :
    trackOf w f i = if 0 ≤ v then some v else none := by
  unfold vec at h
  unfold trackOf
  cases hg : w.ids f with
  | none => rw [hg] at h; simp at h
  | some l =>
    rw [hg] at h
    simp only [Option.getD_some] at h
    simp only [h]

theorem vec_put (w : World) (f i : Nat) (v : Int) (g : Nat) :
    vec (put w f i v) g = if g = f then (vec w f).set i v else vec w g := by
  unfold put vec
  by_cases h : g = f
  · simp only [if_pos h, Option.getD_some]
  · simp only [if_neg h]

theorem trackOf_put {w : World} {f i : Nat} {v x : Int} (h : (vec w f)[i]? = some x) (g k : Nat) :
    trackOf (put w f i v) g k = if g = f ∧ k = i then (if 0 ≤ v then some v else none) else trackOf w g k := by
  by_cases hg : g = f
  · subst hg
    by_cases hk : k = i
    · subst hk
      have hlt : k < (vec w g).length := by
        rcases List.getElem?_eq_some_iff.1 h with ⟨hl, _⟩
        exact hl
      have : (vec (put w g k v) g)[k]? = some v := by
        rw [vec_put, if_pos rfl, List.getElem?_set_self hlt]
      rw [trackOf_vec this]
      simp
    · simp only [hk, and_false, if_false]
      have e : (put w g i v).ids g = some ((vec w g).set i v) := by simp [put]
      unfold trackOf
      rw [e]
      simp only
      rw [List.getElem?_set_ne (fun e => hk e.symm)]
      unfold vec
      cases hw : w.ids g with
      | none => simp
      | some l => simp
  · simp only [hg, false_and, if_false]
    unfold trackOf put
    simp only [if_neg hg]

/-! ## One match -/

/-- The effect of linking keypoint `i` of frame `a` with keypoint `j` of frame `b`. -/
structure Linked (a b i j : Nat) (w w' : World) (v : Int) : Prop where
  pos : 0 ≤ v
  left : trackOf w' a i = some v
  right : trackOf w' b j = some v
  others : ∀ f k, ¬(f = a ∧ k = i) → ¬(f = b ∧ k = j) → trackOf w' f k = trackOf w f k
  keepL : ∀ x, trackOf w a i = some x → x = v
  keepR : ∀ x, trackOf w b j = some x → x = v
  source : (trackOf w a i = none ∧ trackOf w b j = none ∧ v = w.next ∧ w'.next = w.next + 1) ∨
    ((trackOf w a i = some v ∨ trackOf w b j = some v) ∧ w'.next = w.next)

theorem next_put (w : World) (f i : Nat) (v : Int) : (put w f i v).next = w.next := rfl

theorem len_put (w : World) (f i : Nat) (v : Int) (g : Nat) : (vec (put w f i v) g).length = (vec w g).length := by
  rw [vec_put]
  split
  · next h => rw [List.length_set, h]
  · rfl

theorem link_effect {a b i j : Nat} {w w' : World} (h : link a b i j w = .ok w') (hn : w.next < 2 ^ 31) :
    ∃ v, Linked a b i j w w' v := by
  unfold link at h
  cases ha : (vec w a)[i]? with
  | none => rw [ha] at h; simp at h
  | some ta =>
    cases hb : (vec w b)[j]? with
    | none => rw [ha, hb] at h; simp at h
    | some tb =>
      rw [ha, hb] at h
      simp only at h
      have tA := trackOf_vec ha
      have tB := trackOf_vec hb
      by_cases h1 : ta < 0 ∧ tb < 0
      · rw [if_pos h1] at h
        rw [if_neg (by omega)] at tA tB
        have hid : (newId w).1 = (w.next : Int) := toInt32_small hn
        have hnx : (newId w).2.next = w.next + 1 := by
          show (w.next + 1) % 2 ^ 64 = w.next + 1
          exact Nat.mod_eq_of_lt (by omega)
        rw [hid] at h
        have ha' : (vec (newId w).2 a)[i]? = some ta := ha
        have hb' : ∃ y, (vec (put (newId w).2 a i w.next) b)[j]? = some y := by
          have hlt : j < (vec w b).length := (List.getElem?_eq_some_iff.1 hb).1
          have : j < (vec (put (newId w).2 a i w.next) b).length := by rw [len_put]; exact hlt
          exact ⟨_, List.getElem?_eq_getElem this⟩
        obtain ⟨y, hb'⟩ := hb'
        have hpos : (0 : Int) ≤ w.next := Int.natCast_nonneg _
        cases h
        refine ⟨w.next, hpos, ?_, ?_, ?_, ?_, ?_, Or.inl ⟨tA, tB, rfl, ?_⟩⟩
        · rw [trackOf_put hb', trackOf_put ha']
          simp [hpos]
        · rw [trackOf_put hb']
          simp [hpos]
        · intro f k h1 h2
          rw [trackOf_put hb', if_neg h2, trackOf_put ha', if_neg h1]
          rfl
        · intro x hx
          rw [tA] at hx
          cases hx
        · intro x hx
          rw [tB] at hx
          cases hx
        · rw [next_put, next_put, hnx]
      · rw [if_neg h1] at h
        by_cases h2 : ta = tb
        · rw [if_pos h2] at h
          cases h
          subst h2
          have hp : 0 ≤ ta := by omega
          rw [if_pos hp] at tA tB
          exact ⟨ta, hp, tA, tB, fun _ _ _ _ => rfl, fun x hx => by rw [tA] at hx; cases hx; rfl,
            fun x hx => by rw [tB] at hx; cases hx; rfl, Or.inr ⟨Or.inl tA, rfl⟩⟩
        · rw [if_neg h2] at h
          by_cases h3 : 0 ≤ tb
          · rw [if_pos h3] at h
            by_cases h4 : ta < 0
            · rw [if_pos h4] at h
              cases h
              rw [if_neg (by omega)] at tA
              rw [if_pos h3] at tB
              refine ⟨tb, h3, ?_, ?_, ?_, ?_, ?_, Or.inr ⟨Or.inr tB, rfl⟩⟩
              · rw [trackOf_put ha]; simp [h3]
              · rw [trackOf_put ha]
                split
                · simp [h3]
                · exact tB
              · intro f k h1 _
                rw [trackOf_put ha, if_neg h1]
              · intro x hx
                rw [tA] at hx
                cases hx
              · intro x hx
                rw [tB] at hx
                cases hx
                rfl
            · rw [if_neg h4] at h
              cases h
          · rw [if_neg h3] at h
            cases h
            have h4 : 0 ≤ ta := by omega
            rw [if_pos h4] at tA
            rw [if_neg h3] at tB
            refine ⟨ta, h4, ?_, ?_, ?_, ?_, ?_, Or.inr ⟨Or.inl tA, rfl⟩⟩
            · rw [trackOf_put hb]
              split
              · simp [h4]
              · exact tA
            · rw [trackOf_put hb]; simp [h4]
            · intro f k _ h1
              rw [trackOf_put hb, if_neg h1]
            · intro x hx
              rw [tA] at hx
              cases hx
              rfl
            · intro x hx
              rw [tB] at hx
              cases hx

/-- An assigned id survives a match. -/
theorem Linked.keep {a b i j : Nat} {w w' : World} {v : Int} (L : Linked a b i j w w' v) {f k : Nat} {x : Int}
    (h : trackOf w f k = some x) : trackOf w' f k = some x := by
  by_cases h1 : f = a ∧ k = i
  · rcases h1 with ⟨rfl, rfl⟩
    rw [L.keepL x h]
    exact L.left
  · by_cases h2 : f = b ∧ k = j
    · rcases h2 with ⟨rfl, rfl⟩
      rw [L.keepR x h]
      exact L.right
    · rw [L.others f k h1 h2, h]

theorem Linked.next_le {a b i j : Nat} {w w' : World} {v : Int} (L : Linked a b i j w w' v) :
    w.next ≤ w'.next ∧ w'.next ≤ w.next + 1 := by
  rcases L.source with ⟨_, _, _, h⟩ | ⟨_, h⟩ <;> omega

theorem Linked.issued {a b i j : Nat} {w w' : World} {v : Int} (L : Linked a b i j w w' v) (hI : Issued w) :
    Issued w' ∧ v < w'.next := by
  have hv : v < w'.next := by
    rcases L.source with ⟨_, _, h1, h2⟩ | ⟨h1 | h1, h2⟩
    · omega
    · have := hI _ _ _ h1; omega
    · have := hI _ _ _ h1; omega
  refine ⟨?_, hv⟩
  intro f k x hx
  by_cases h1 : f = a ∧ k = i
  · rcases h1 with ⟨rfl, rfl⟩
    rw [L.left] at hx
    cases hx
    exact hv
  · by_cases h2 : f = b ∧ k = j
    · rcases h2 with ⟨rfl, rfl⟩
      rw [L.right] at hx
      cases hx
      exact hv
    · rw [L.others f k h1 h2] at hx
      have := hI _ _ _ hx
      have := L.next_le
      omega

theorem applyOne_ok {a b : Nat} {m : Int × Int} {cA cB : List Int} {w w' : World}
    (h : applyOne a b m cA cB w = .ok w') :
    0 ≤ m.1 ∧ 0 ≤ m.2 ∧ m.1 ∉ cA ∧ m.2 ∉ cB ∧ link a b m.1.toNat m.2.toNat w = .ok w' := by
  unfold applyOne at h
  split at h
  · next hc => exact ⟨hc.2.1, hc.2.2.2.1, hc.2.2.2.2.1, hc.2.2.2.2.2, h⟩
  · cases h

theorem applyLoop_cons {a b : Nat} {m : Int × Int} {ms : List (Int × Int)} {cA cB : List Int} {w w' : World}
    (h : applyLoop a b (m :: ms) cA cB w = .ok w') :
    ∃ w1, applyOne a b m cA cB w = .ok w1 ∧ applyLoop a b ms (m.1 :: cA) (m.2 :: cB) w1 = .ok w' := by
  unfold applyLoop at h
  exact (Outcome.bind_eq_ok).1 h

/-! ## The loop -/

/-- Keypoint `k` of frame `f` is an end of one of the matches from frame `a` to frame `b`. -/
def Matched (a b : Nat) (ms : List (Int × Int)) (f k : Nat) : Prop :=
  ∃ m ∈ ms, (f = a ∧ m.1 = k) ∨ (f = b ∧ m.2 = k)

theorem loop_effect {a b : Nat} : ∀ (ms : List (Int × Int)) (cA cB : List Int) (w w' : World),
    applyLoop a b ms cA cB w = .ok w' → w.next + ms.length ≤ 2 ^ 31 →
    (∀ m ∈ ms, 0 ≤ m.1 ∧ 0 ≤ m.2 ∧ ∃ v, 0 ≤ v ∧ trackOf w' a m.1.toNat = some v ∧ trackOf w' b m.2.toNat = some v) ∧
    (∀ f k, ¬ Matched a b ms f k → trackOf w' f k = trackOf w f k) ∧
    (∀ f k x, trackOf w f k = some x → trackOf w' f k = some x) ∧
    (Issued w → Issued w') ∧ w.next ≤ w'.next ∧ w'.next ≤ w.next + ms.length
  | [], cA, cB, w, w', h, _ => by
    unfold applyLoop at h
    cases h
    simp
  | m :: ms, cA, cB, w, w', h, hn => by
    obtain ⟨w1, h1, h2⟩ := applyLoop_cons h
    obtain ⟨p1, p2, _, _, hl⟩ := applyOne_ok h1
    simp only [List.length_cons] at hn
    obtain ⟨v, L⟩ := link_effect hl (by omega)
    have hle := L.next_le
    obtain ⟨i1, i2, i3, i4, i5, i6⟩ := loop_effect ms _ _ w1 w' h2 (by omega)
    refine ⟨?_, ?_, fun f k x hx => i3 f k x (L.keep hx), fun hI => i4 (L.issued hI).1, by omega,
      by simp only [List.length_cons]; omega⟩
    · intro q hq
      rcases List.mem_cons.1 hq with rfl | hq
      · exact ⟨p1, p2, v, L.pos, i3 _ _ _ L.left, i3 _ _ _ L.right⟩
      · exact i1 q hq
    · intro f k hk
      rw [i2 f k (fun ⟨q, hq, hh⟩ => hk ⟨q, List.mem_cons_of_mem _ hq, hh⟩)]
      apply L.others
      · rintro ⟨rfl, rfl⟩
        exact hk ⟨m, List.mem_cons_self, Or.inl ⟨rfl, by omega⟩⟩
      · rintro ⟨rfl, rfl⟩
        exact hk ⟨m, List.mem_cons_self, Or.inr ⟨rfl, by omega⟩⟩

/-! ## C37 -/

/-- Proved for all frames (also for one frame matched with itself), matches and previous ids, as long as the provider
has not handed out `2^31` ids (see `id_overflow_refuted`): if the call succeeds then the two keypoints of every match
carry one non-negative id, keypoints in no match have the id they had, and assigned ids stay. -/
theorem apply_effect_partial {a b : Nat} {ms : List (Int × Int)} {w w' : World}
    (h : applyMatches a b ms w = .ok w') (hn : w.next + ms.length ≤ 2 ^ 31) :
    (∀ i j : Int, (i, j) ∈ ms → 0 ≤ i ∧ 0 ≤ j ∧
      ∃ v, 0 ≤ v ∧ trackOf w' a i.toNat = some v ∧ trackOf w' b j.toNat = some v) ∧
    (∀ f k, ¬ Matched a b ms f k → trackOf w' f k = trackOf w f k) ∧
    (∀ f k x, trackOf w f k = some x → trackOf w' f k = some x) := by
  obtain ⟨h1, h2, h3, _⟩ := loop_effect ms _ _ _ w' h (by rw [next_create, next_create]; exact hn)
  refine ⟨fun i j hm => h1 _ hm, ?_, ?_⟩
  · intro f k hk
    rw [h2 f k hk, trackOf_create, trackOf_create]
  · intro f k x hx
    exact h3 f k x (by rw [trackOf_create, trackOf_create]; exact hx)

/-- Two frames with three keypoints each and no ids. -/
def demo : World := ⟨fun _ => none, fun _ => 3, 0⟩

theorem demo_run : ∃ w', applyMatches 0 1 [(0, 2), (1, 0)] demo = .ok w' ∧ w'.ids 0 = some [0, 1, -1] ∧
    w'.ids 1 = some [1, -1, 0] ∧ w'.next = 2 := ⟨_, rfl, by decide, by decide, rfl⟩

example : ∃ w', applyMatches 0 1 [(0, 2), (1, 0)] demo = .ok w' ∧ demo.next + 2 ≤ 2 ^ 31 := by
  obtain ⟨w', h, _⟩ := demo_run
  exact ⟨w', h, by decide⟩

/-- Once `2^31` ids have been handed out, a match of two new keypoints writes a negative id: both stay untracked. -/
theorem id_overflow_refuted : ∃ w w', w.next = 2 ^ 31 ∧ applyMatches 0 1 [(0, 0)] w = .ok w' ∧
    w'.ids 0 = some [-(2 ^ 31), -1, -1] ∧ w'.ids 1 = some [-(2 ^ 31), -1, -1] :=
  ⟨⟨fun _ => none, fun _ => 3, 2 ^ 31⟩, _, rfl, rfl, by decide, by decide⟩

/-! ### When the call succeeds -/

/-- The length of the track id vector after the channels were created. -/
def size (w : World) (f : Nat) : Nat :=
  match w.ids f with
  | some l => l.length
  | none => w.kps f

theorem len_newId (w : World) (g : Nat) : vec (newId w).2 g = vec w g := rfl

theorem link_len {a b i j : Nat} {w w' : World} (h : link a b i j w = .ok w') (g : Nat) :
    (vec w' g).length = (vec w g).length := by
  unfold link at h
  split at h
  · split at h
    · cases h
      rw [len_put, len_put, len_newId]
    · split at h
      · cases h; rfl
      · split at h
        · split at h
          · cases h; rw [len_put]
          · cases h
        · cases h; rw [len_put]
  · cases h

theorem link_total {a b i j : Nat} {w : World} (ha : i < (vec w a).length) (hb : j < (vec w b).length) :
    (∃ w', link a b i j w = .ok w') ↔
      ∀ x y, trackOf w a i = some x → trackOf w b j = some y → x = y := by
  have ea := List.getElem?_eq_getElem ha
  have eb := List.getElem?_eq_getElem hb
  generalize (vec w a)[i] = ta at ea
  generalize (vec w b)[j] = tb at eb
  have tA := trackOf_vec ea
  have tB := trackOf_vec eb
  unfold link
  rw [ea, eb]
  simp only
  by_cases h1 : ta < 0 ∧ tb < 0
  · rw [if_pos h1]
    rw [if_neg (by omega)] at tA
    exact ⟨fun _ x y hx => (by rw [tA] at hx; cases hx), fun _ => ⟨_, rfl⟩⟩
  · rw [if_neg h1]
    by_cases h2 : ta = tb
    · rw [if_pos h2]
      refine ⟨fun _ x y hx hy => ?_, fun _ => ⟨_, rfl⟩⟩
      rw [tA] at hx
      rw [tB] at hy
      rw [if_pos (by omega)] at hx hy
      cases hx
      cases hy
      exact h2
    · rw [if_neg h2]
      by_cases h3 : 0 ≤ tb
      · rw [if_pos h3]
        by_cases h4 : ta < 0
        · rw [if_pos h4]
          rw [if_neg (by omega)] at tA
          exact ⟨fun _ x y hx => (by rw [tA] at hx; cases hx), fun _ => ⟨_, rfl⟩⟩
        · rw [if_neg h4]
          rw [if_pos (by omega)] at tA tB
          refine ⟨fun ⟨_, hh⟩ => (by cases hh), fun hh => absurd (hh _ _ tA tB) h2⟩
      · rw [if_neg h3]
        rw [if_neg h3] at tB
        exact ⟨fun _ x y _ hy => (by rw [tB] at hy; cases hy), fun _ => ⟨_, rfl⟩⟩

/-- Valid matches between two vectors of given lengths: indices in range, each used at most once. -/
def ValidMatches (na nb : Nat) (ms : List (Int × Int)) : Prop :=
  (∀ m ∈ ms, 0 ≤ m.1 ∧ m.1 < na ∧ 0 ≤ m.2 ∧ m.2 < nb) ∧ (ms.map Prod.fst).Nodup ∧ (ms.map Prod.snd).Nodup

theorem loop_total {a b : Nat} (hab : a ≠ b) : ∀ (ms : List (Int × Int)) (cA cB : List Int) (w : World),
    w.next + ms.length ≤ 2 ^ 31 → (vec w a).length < 2 ^ 31 → (vec w b).length < 2 ^ 31 →
    ((∃ w', applyLoop a b ms cA cB w = .ok w') ↔
      ValidMatches (vec w a).length (vec w b).length ms ∧ (∀ m ∈ ms, m.1 ∉ cA ∧ m.2 ∉ cB) ∧
      ∀ m ∈ ms, ∀ x y, trackOf w a m.1.toNat = some x → trackOf w b m.2.toNat = some y → x = y)
  | [], cA, cB, w, _, _, _ => by simp [applyLoop, ValidMatches]
  | m :: ms, cA, cB, w, hn, la, lb => by
    simp only [List.length_cons] at hn
    have ta := toInt32_small la
    have tb := toInt32_small lb
    constructor
    · rintro ⟨w', h⟩
      obtain ⟨w1, h1, h2⟩ := applyLoop_cons h
      have h1' := h1
      unfold applyOne at h1'
      rw [ta, tb] at h1'
      split at h1'
      · next hc =>
        obtain ⟨v, L⟩ := link_effect h1' (by omega)
        have hle := L.next_le
        have e1 := link_len h1' a
        have e2 := link_len h1' b
        obtain ⟨⟨v1, v2, v3⟩, i2, i3⟩ := (loop_total hab ms (m.1 :: cA) (m.2 :: cB) w1 (by omega) (by omega)
          (by omega)).1 ⟨w', h2⟩
        rw [e1, e2] at v1
        have nA : ∀ q ∈ ms, q.1 ≠ m.1 ∧ q.2 ≠ m.2 := fun q hq =>
          ⟨fun e => (i2 q hq).1 (by rw [e]; exact List.mem_cons_self),
           fun e => (i2 q hq).2 (by rw [e]; exact List.mem_cons_self)⟩
        refine ⟨⟨?_, ?_, ?_⟩, ?_, ?_⟩
        · intro q hq
          rcases List.mem_cons.1 hq with rfl | hq
          · omega
          · exact v1 q hq
        · simp only [List.map_cons, List.nodup_cons]
          refine ⟨fun hm => ?_, v2⟩
          obtain ⟨q, hq, e⟩ := List.mem_map.1 hm
          exact (nA q hq).1 e
        · simp only [List.map_cons, List.nodup_cons]
          refine ⟨fun hm => ?_, v3⟩
          obtain ⟨q, hq, e⟩ := List.mem_map.1 hm
          exact (nA q hq).2 e
        · intro q hq
          rcases List.mem_cons.1 hq with rfl | hq
          · exact hc.2.2.2.2
          · exact ⟨fun hm => (i2 q hq).1 (List.mem_cons_of_mem _ hm),
              fun hm => (i2 q hq).2 (List.mem_cons_of_mem _ hm)⟩
        · intro q hq x y hx hy
          rcases List.mem_cons.1 hq with rfl | hq
          · rw [L.keepL x hx, L.keepR y hy]
          · exact i3 q hq x y (L.keep hx) (L.keep hy)
      · cases h1'
    · rintro ⟨⟨v1, v2, v3⟩, hc, hx⟩
      simp only [List.map_cons, List.nodup_cons] at v2 v3
      have hm := v1 m List.mem_cons_self
      have hcm := hc m List.mem_cons_self
      obtain ⟨w1, hl⟩ := (link_total (a := a) (b := b) (i := m.1.toNat) (j := m.2.toNat) (w := w) (by omega)
        (by omega)).2 (hx m List.mem_cons_self)
      have h1 : applyOne a b m cA cB w = .ok w1 := by
        unfold applyOne
        rw [ta, tb, if_pos ⟨hm.2.1, hm.1, hm.2.2.2, hm.2.2.1, hcm.1, hcm.2⟩]
        exact hl
      obtain ⟨v, L⟩ := link_effect hl (by omega)
      have hle := L.next_le
      have e1 := link_len hl a
      have e2 := link_len hl b
      have nA : ∀ q ∈ ms, q.1 ≠ m.1 ∧ q.2 ≠ m.2 := fun q hq =>
        ⟨fun e => v2.1 (e ▸ List.mem_map_of_mem hq), fun e => v3.1 (e ▸ List.mem_map_of_mem hq)⟩
      have hx' : ∀ q ∈ ms, ∀ x y, trackOf w1 a q.1.toNat = some x → trackOf w1 b q.2.toNat = some y → x = y := by
        intro q hq x y hqx hqy
        have hv := v1 q (List.mem_cons_of_mem _ hq)
        have hne := nA q hq
        rw [L.others _ _ (by rintro ⟨_, e⟩; omega) (by rintro ⟨e, _⟩; exact hab e)] at hqx
        rw [L.others _ _ (by rintro ⟨e, _⟩; exact hab e.symm) (by rintro ⟨_, e⟩; omega)] at hqy
        exact hx q (List.mem_cons_of_mem _ hq) x y hqx hqy
      obtain ⟨w', h2⟩ := (loop_total hab ms (m.1 :: cA) (m.2 :: cB) w1 (by omega) (by omega) (by omega)).2
        ⟨⟨fun q hq => by rw [e1, e2]; exact v1 q (List.mem_cons_of_mem _ hq), v2.2, v3.2⟩,
          fun q hq => ⟨fun hm => (List.mem_cons.1 hm).elim (nA q hq).1 (hc q (List.mem_cons_of_mem _ hq)).1,
            fun hm => (List.mem_cons.1 hm).elim (nA q hq).2 (hc q (List.mem_cons_of_mem _ hq)).2⟩, hx'⟩
      refine ⟨w', ?_⟩
      unfold applyLoop
      rw [h1, Outcome.bind_ok]
      exact h2

theorem vec_create (w : World) (g f : Nat) :
    (vec (createChannel w g) f).length = if f = g then size w f else (vec w f).length := by
  unfold createChannel size vec
  cases hg : w.ids g with
  | some l =>
    by_cases hf : f = g
    · subst hf; simp [hg]
    · simp [hf]
  | none =>
    by_cases hf : f = g
    · subst hf; simp [hg]
    · simp [hf]

theorem size_create (w : World) (g f : Nat) : size (createChannel w g) f = size w f := by
  unfold createChannel size
  cases hg : w.ids g with
  | some l => rfl
  | none =>
    by_cases hf : f = g
    · subst hf; simp [hg]
    · simp [hf]

/-- For two different frames the call succeeds exactly when every match is in range, no keypoint is in two matches and
no match joins two keypoints with different ids. -/
theorem apply_succeeds_iff {a b : Nat} (hab : a ≠ b) {ms : List (Int × Int)} {w : World}
    (hn : w.next + ms.length ≤ 2 ^ 31) (ha : size w a < 2 ^ 31) (hb : size w b < 2 ^ 31) :
    (∃ w', applyMatches a b ms w = .ok w') ↔
      ValidMatches (size w a) (size w b) ms ∧
      ∀ i j : Int, (i, j) ∈ ms → ∀ x y, trackOf w a i.toNat = some x → trackOf w b j.toNat = some y → x = y := by
  have e1 : (vec (createChannel (createChannel w a) b) a).length = size w a := by
    rw [vec_create, if_neg hab, vec_create, if_pos rfl]
  have e2 : (vec (createChannel (createChannel w a) b) b).length = size w b := by
    rw [vec_create, if_pos rfl, size_create]
  have := loop_total hab ms [] [] (createChannel (createChannel w a) b)
    (by rw [next_create, next_create]; exact hn) (by omega) (by omega)
  rw [e1, e2] at this
  unfold applyMatches
  rw [this]
  simp only [trackOf_create, List.not_mem_nil, not_false_eq_true, and_self, implies_true, true_and, Prod.forall]

example : size demo 0 < 2 ^ 31 ∧ (∃ w', applyMatches 0 1 [(0, 2), (1, 0)] demo = .ok w') ∧
    applyMatches 0 1 [(0, 2), (0, 0)] demo = .abort := ⟨by decide, ⟨_, rfl⟩, rfl⟩

/-! ## C38 -/

/-- A match that copies an id copies it into a frame that does not carry it yet. -/
def NoClash (w : World) (a b : Nat) (ms : List (Int × Int)) : Prop :=
  ∀ m ∈ ms, ∀ v,
    (trackOf w a m.1.toNat = some v → trackOf w b m.2.toNat = none → ∀ k, trackOf w b k ≠ some v) ∧
    (trackOf w b m.2.toNat = some v → trackOf w a m.1.toNat = none → ∀ k, trackOf w a k ≠ some v)

theorem Linked.unique_left {a b i j : Nat} {w w' : World} {v : Int} (L : Linked a b i j w w' v) (hab : a ≠ b)
    (hI : Issued w) (hU : Unique w a)
    (hc : trackOf w b j = some v → trackOf w a i = none → ∀ k, trackOf w a k ≠ some v) : Unique w' a := by
  have key : ∀ k, k ≠ i → trackOf w' a k = some v → False := by
    intro k hk h
    rw [L.others a k (fun e => hk e.2) (fun e => hab e.1)] at h
    rcases L.source with ⟨_, _, h1, _⟩ | ⟨h1 | h1, _⟩
    · have := hI _ _ _ h; omega
    · exact hk (hU _ _ _ h h1)
    · cases ha : trackOf w a i with
      | none => exact hc h1 ha k h
      | some y =>
        have := L.keepL y ha
        subst this
        exact hk (hU _ _ _ h ha)
  intro p q x hp hq
  by_cases h1 : p = i
  · subst h1
    rw [L.left] at hp
    cases hp
    by_contra h2
    exact key q (fun e => h2 e.symm) hq
  · by_cases h2 : q = i
    · subst h2
      rw [L.left] at hq
      cases hq
      exact absurd hp (fun e => key p h1 e)
    · rw [L.others a p (fun e => h1 e.2) (fun e => hab e.1)] at hp
      rw [L.others a q (fun e => h2 e.2) (fun e => hab e.1)] at hq
      exact hU _ _ _ hp hq

theorem Linked.symm {a b i j : Nat} {w w' : World} {v : Int} (L : Linked a b i j w w' v) : Linked b a j i w w' v :=
  ⟨L.pos, L.right, L.left, fun f k h1 h2 => L.others f k h2 h1, L.keepR, L.keepL, by
    rcases L.source with ⟨h1, h2, h3⟩ | ⟨h1, h2⟩
    · exact Or.inl ⟨h2, h1, h3⟩
    · exact Or.inr ⟨h1.symm, h2⟩⟩

theorem clash_step {a b i j : Nat} {w w' : World} {v : Int} (L : Linked a b i j w w' v) (hab : a ≠ b)
    (hI : Issued w) (hU : Unique w a) {p q : Nat} (hp : p ≠ i) (hq : q ≠ j) {x : Int}
    (hc : trackOf w a p = some x → trackOf w b q = none → ∀ k, trackOf w b k ≠ some x)
    (h1 : trackOf w' a p = some x) (h2 : trackOf w' b q = none) (k : Nat) : trackOf w' b k ≠ some x := by
  intro hk
  rw [L.others a p (fun e => hp e.2) (fun e => hab e.1)] at h1
  rw [L.others b q (fun e => hab e.1.symm) (fun e => hq e.2)] at h2
  by_cases e : k = j
  · subst e
    rw [L.right] at hk
    cases hk
    rcases L.source with ⟨_, _, e1, _⟩ | ⟨e1 | e1, _⟩
    · have := hI _ _ _ h1; omega
    · exact hp (hU _ _ _ h1 e1)
    · exact hc h1 h2 _ e1
  · rw [L.others b k (fun e => hab e.1.symm) (fun e' => e e'.2)] at hk
    exact hc h1 h2 k hk

theorem loop_unique {a b : Nat} (hab : a ≠ b) : ∀ (ms : List (Int × Int)) (cA cB : List Int) (w w' : World),
    applyLoop a b ms cA cB w = .ok w' → w.next + ms.length ≤ 2 ^ 31 → Issued w → Unique w a → Unique w b →
    NoClash w a b ms → Unique w' a ∧ Unique w' b
  | [], cA, cB, w, w', h, _, _, ua, ub, _ => by
    unfold applyLoop at h
    cases h
    exact ⟨ua, ub⟩
  | m :: ms, cA, cB, w, w', h, hn, hI, ua, ub, hc => by
    obtain ⟨w1, h1, h2⟩ := applyLoop_cons h
    obtain ⟨p1, p2, _, _, hl⟩ := applyOne_ok h1
    simp only [List.length_cons] at hn
    obtain ⟨v, L⟩ := link_effect hl (by omega)
    have hle := L.next_le
    have hm := hc m List.mem_cons_self
    refine loop_unique hab ms _ _ w1 w' h2 (by omega) (L.issued hI).1
      (L.unique_left hab hI ua (hm v).2) (L.symm.unique_left (Ne.symm hab) hI ub (hm v).1) ?_
    have hcon := loop_consumed ms (m.1 :: cA) (m.2 :: cB) w1 w' h2
    intro q hq x
    have hqc := hcon q hq
    have n1 : q.1.toNat ≠ m.1.toNat := fun e => hqc.2.2.1 (by
      have : q.1 = m.1 := by omega
      rw [this]; exact List.mem_cons_self)
    have n2 : q.2.toNat ≠ m.2.toNat := fun e => hqc.2.2.2 (by
      have : q.2 = m.2 := by omega
      rw [this]; exact List.mem_cons_self)
    have hcq := hc q (List.mem_cons_of_mem _ hq) x
    exact ⟨fun g1 g2 k => clash_step L hab hI ua n1 n2 hcq.1 g1 g2 k,
      fun g1 g2 k => clash_step L.symm (Ne.symm hab) hI ub n2 n1 hcq.2 g1 g2 k⟩
where
  loop_consumed {a b : Nat} : ∀ (ms : List (Int × Int)) (cA cB : List Int) (w w' : World),
      applyLoop a b ms cA cB w = .ok w' → ∀ m ∈ ms, 0 ≤ m.1 ∧ 0 ≤ m.2 ∧ m.1 ∉ cA ∧ m.2 ∉ cB
    | [], _, _, _, _, _ => by simp
    | m :: ms, cA, cB, w, w', h => by
      obtain ⟨w1, h1, h2⟩ := applyLoop_cons h
      obtain ⟨p1, p2, p3, p4, _⟩ := applyOne_ok h1
      intro q hq
      rcases List.mem_cons.1 hq with rfl | hq
      · exact ⟨p1, p2, p3, p4⟩
      · obtain ⟨g1, g2, g3, g4⟩ := loop_consumed ms _ _ _ _ h2 q hq
        exact ⟨g1, g2, fun e => g3 (List.mem_cons_of_mem _ e), fun e => g4 (List.mem_cons_of_mem _ e)⟩

/-- Exactly when a call keeps the ids within the two frames distinct: no id is copied into a frame that already
carries it. -/
theorem unique_kept_iff {a b : Nat} (hab : a ≠ b) {ms : List (Int × Int)} {w w' : World}
    (h : applyMatches a b ms w = .ok w') (hn : w.next + ms.length ≤ 2 ^ 31) (hI : Issued w)
    (ua : Unique w a) (ub : Unique w b) : (Unique w' a ∧ Unique w' b) ↔ NoClash w a b ms := by
  constructor
  · rintro ⟨ua', ub'⟩ m hm v
    obtain ⟨e1, _, e3⟩ := apply_effect_partial h hn
    obtain ⟨_, _, x, _, x1, x2⟩ := e1 m.1 m.2 hm
    constructor
    · intro h1 h2 k hk
      have := e3 _ _ _ h1
      rw [x1] at this
      cases this
      have := ub' _ _ _ x2 (e3 _ _ _ hk)
      rw [this] at h2
      rw [h2] at hk
      cases hk
    · intro h1 h2 k hk
      have := e3 _ _ _ h1
      rw [x2] at this
      cases this
      have := ua' _ _ _ x1 (e3 _ _ _ hk)
      rw [this] at h2
      rw [h2] at hk
      cases hk
  · intro hc
    refine loop_unique hab ms [] [] _ w' h (by rw [next_create, next_create]; exact hn) ?_ ?_ ?_ ?_
    · intro f i v
      rw [trackOf_create, trackOf_create, next_create, next_create]
      exact hI f i v
    · intro i k v
      rw [trackOf_create, trackOf_create, trackOf_create, trackOf_create]
      exact ua i k v
    · intro i k v
      rw [trackOf_create, trackOf_create, trackOf_create, trackOf_create]
      exact ub i k v
    · intro m hm v
      simp only [trackOf_create]
      exact hc m hm v

/-- A call of `applyMatchesToFrames`. -/
structure Call where
  a : Nat
  b : Nat
  ms : List (Int × Int)

/-- Executions from frames without ids and a fresh provider: `Run cs w` says that the calls `cs` (last first) all
succeeded and led to `w`. -/
inductive Run : List Call → World → Prop where
  | start {w : World} (hi : ∀ f i, trackOf w f i = none) (hn : w.next = 0) : Run [] w
  | call {cs : List Call} {w w' : World} (c : Call) (r : Run cs w) (h : applyMatches c.a c.b c.ms w = .ok w') :
      Run (c :: cs) w'

/-- The number of matches handed over. -/
def matchCount : List Call → Nat
  | [] => 0
  | c :: cs => c.ms.length + matchCount cs

theorem Run.issued {cs : List Call} {w : World} (r : Run cs w) (hn : matchCount cs ≤ 2 ^ 31) :
    Issued w ∧ w.next ≤ matchCount cs := by
  induction r with
  | start hi h0 =>
    refine ⟨fun f i v h => ?_, by rw [h0]; exact Nat.zero_le _⟩
    rw [hi] at h
    cases h
  | @call cs w w' c r h ih =>
    unfold matchCount at hn ⊢
    obtain ⟨hI, hle⟩ := ih (by omega)
    obtain ⟨_, _, _, i4, _, i6⟩ := loop_effect c.ms _ _ _ w' h (by rw [next_create, next_create]; omega)
    rw [next_create, next_create] at i6
    refine ⟨i4 ?_, by omega⟩
    intro f i v
    rw [trackOf_create, trackOf_create, next_create, next_create]
    exact hI f i v

/-- Tracking from frame to frame: every call joins two different frames and the second one has no ids yet. -/
inductive FreshRun : List Call → World → Prop where
  | start {w : World} (hi : ∀ f i, trackOf w f i = none) (hn : w.next = 0) : FreshRun [] w
  | call {cs : List Call} {w w' : World} (c : Call) (r : FreshRun cs w) (hab : c.a ≠ c.b)
      (hf : ∀ i, trackOf w c.b i = none) (h : applyMatches c.a c.b c.ms w = .ok w') : FreshRun (c :: cs) w'

theorem FreshRun.run {cs : List Call} {w : World} (r : FreshRun cs w) : Run cs w := by
  induction r with
  | start hi hn => exact .start hi hn
  | call c _ _ _ h ih => exact .call c ih h

/-- Within every frame track ids are distinct, after any number of calls that each go to a frame without ids (as the
trackers of this package do).  Not true for all sequences, see `crossing_duplicates_refuted`. -/
theorem ids_unique_partial {cs : List Call} {w : World} (r : FreshRun cs w) (hn : matchCount cs ≤ 2 ^ 31) :
    ∀ f, Unique w f := by
  induction r with
  | start hi h0 =>
    intro f i k v h
    rw [hi] at h
    cases h
  | @call cs w w' c r hab hf h ih =>
    unfold matchCount at hn
    have hU := ih (by omega)
    obtain ⟨hI, hle⟩ := r.run.issued (by omega)
    have hb : w.next + c.ms.length ≤ 2 ^ 31 := by omega
    have := (unique_kept_iff hab h hb hI (hU _) (hU _)).2 (fun m _ v =>
      ⟨fun _ _ k => by rw [hf]; simp, fun h1 => absurd h1 (by rw [hf]; simp)⟩)
    intro f
    by_cases h1 : f = c.a
    · rw [h1]; exact this.1
    · by_cases h2 : f = c.b
      · rw [h2]; exact this.2
      · intro i k v hi hk
        have e := (apply_effect_partial h hb).2.1
        have nm : ∀ q, ¬ Matched c.a c.b c.ms f q := by
          rintro q ⟨m, _, ⟨e, _⟩ | ⟨e, _⟩⟩
          · exact h1 e
          · exact h2 e
        rw [e f i (nm i)] at hi
        rw [e f k (nm k)] at hk
        exact hU f i k v hi hk

example : ∃ w, FreshRun [⟨0, 1, [(0, 2), (1, 0)]⟩] w ∧ matchCount [⟨0, 1, [(0, 2), (1, 0)]⟩] ≤ 2 ^ 31 := by
  obtain ⟨w', h, _⟩ := demo_run
  exact ⟨w', .call ⟨0, 1, _⟩ (.start (w := demo) (fun _ _ => rfl) rfl) (by decide) (fun _ => rfl) h, by decide⟩

/-- Successful calls leading from one state to another (last call first). -/
inductive Steps : List Call → World → World → Prop where
  | refl {w : World} : Steps [] w w
  | call {cs : List Call} {w w1 w2 : World} (c : Call) (r : Steps cs w w1)
      (h : applyMatches c.a c.b c.ms w1 = .ok w2) : Steps (c :: cs) w w2

theorem Steps.next_le {cs : List Call} {w w' : World} (r : Steps cs w w') (hn : w.next + matchCount cs ≤ 2 ^ 31) :
    w'.next ≤ w.next + matchCount cs ∧ ∀ f k x, trackOf w f k = some x → trackOf w' f k = some x := by
  induction r with
  | refl => exact ⟨Nat.le_refl _, fun _ _ _ h => h⟩
  | @call cs w w1 w2 c r h ih =>
    unfold matchCount at hn ⊢
    obtain ⟨i1, i2⟩ := ih (by omega)
    obtain ⟨_, _, j3, _, _, j6⟩ := loop_effect c.ms _ _ _ w2 h (by rw [next_create, next_create]; omega)
    rw [next_create, next_create] at j6
    refine ⟨by omega, fun f k x hx => j3 f k x ?_⟩
    rw [trackOf_create, trackOf_create]
    exact i2 f k x hx

theorem loop_new {a b : Nat} (hab : a ≠ b) : ∀ (ms : List (Int × Int)) (cA cB : List Int) (w w' : World),
    applyLoop a b ms cA cB w = .ok w' → w.next + ms.length ≤ 2 ^ 31 →
    (∀ m ∈ ms, trackOf w a m.1.toNat = none → trackOf w b m.2.toNat = none →
      ∃ v, trackOf w' a m.1.toNat = some v ∧ trackOf w' b m.2.toNat = some v ∧ (w.next : Int) ≤ v) ∧
    (∀ m ∈ ms, ∀ q ∈ ms, m ≠ q → trackOf w a m.1.toNat = none → trackOf w b m.2.toNat = none →
      trackOf w a q.1.toNat = none → trackOf w b q.2.toNat = none →
      trackOf w' a m.1.toNat ≠ trackOf w' a q.1.toNat)
  | [], cA, cB, w, w', h, _ => by simp
  | m :: ms, cA, cB, w, w', h, hn => by
    obtain ⟨w1, h1, h2⟩ := applyLoop_cons h
    obtain ⟨p1, p2, _, _, hl⟩ := applyOne_ok h1
    simp only [List.length_cons] at hn
    obtain ⟨v, L⟩ := link_effect hl (by omega)
    have hle := L.next_le
    have hcon := loop_unique.loop_consumed ms (m.1 :: cA) (m.2 :: cB) w1 w' h2
    obtain ⟨i1, i2⟩ := loop_new hab ms _ _ w1 w' h2 (by omega)
    have keep := (loop_effect ms _ _ w1 w' h2 (by omega)).2.2.1
    have same : ∀ q ∈ ms, trackOf w1 a q.1.toNat = trackOf w a q.1.toNat ∧
        trackOf w1 b q.2.toNat = trackOf w b q.2.toNat := by
      intro q hq
      have hqc := hcon q hq
      have n1 : q.1.toNat ≠ m.1.toNat := fun e => hqc.2.2.1 (by
        have : q.1 = m.1 := by omega
        rw [this]; exact List.mem_cons_self)
      have n2 : q.2.toNat ≠ m.2.toNat := fun e => hqc.2.2.2 (by
        have : q.2 = m.2 := by omega
        rw [this]; exact List.mem_cons_self)
      exact ⟨L.others _ _ (fun e => n1 e.2) (fun e => hab e.1), L.others _ _ (fun e => hab e.1.symm) (fun e => n2 e.2)⟩
    have hd : trackOf w a m.1.toNat = none → trackOf w b m.2.toNat = none →
        v = w.next ∧ w1.next = w.next + 1 := by
      intro g1 g2
      rcases L.source with ⟨_, _, h3, h4⟩ | ⟨h3 | h3, _⟩
      · exact ⟨h3, h4⟩
      · rw [g1] at h3; cases h3
      · rw [g2] at h3; cases h3
    have cross : ∀ q ∈ ms, trackOf w a m.1.toNat = none → trackOf w b m.2.toNat = none →
        trackOf w a q.1.toNat = none → trackOf w b q.2.toNat = none →
        trackOf w' a m.1.toNat ≠ trackOf w' a q.1.toNat := by
      intro q hq g1 g2 g3 g4
      obtain ⟨x, x1, _, x3⟩ := i1 q hq ((same q hq).1.trans g3) ((same q hq).2.trans g4)
      obtain ⟨e1, e2⟩ := hd g1 g2
      rw [keep _ _ _ L.left, x1]
      intro e
      cases e
      omega
    refine ⟨?_, ?_⟩
    · intro q hq g1 g2
      rcases List.mem_cons.1 hq with rfl | hq
      · exact ⟨v, keep _ _ _ L.left, keep _ _ _ L.right, by rw [(hd g1 g2).1]⟩
      · obtain ⟨x, x1, x2, x3⟩ := i1 q hq ((same q hq).1.trans g1) ((same q hq).2.trans g2)
        exact ⟨x, x1, x2, by omega⟩
    · intro p hp q hq hne g1 g2 g3 g4
      rcases List.mem_cons.1 hp with e1 | hp
      · rcases List.mem_cons.1 hq with e2 | hq
        · exact absurd (e1.trans e2.symm) hne
        · rw [e1] at g1 g2 ⊢
          exact cross q hq g1 g2 g3 g4
      · rcases List.mem_cons.1 hq with e2 | hq
        · rw [e2] at g3 g4 ⊢
          exact (cross p hp g3 g4 g1 g2).symm
        · exact i2 p hp q hq hne ((same p hp).1.trans g1) ((same p hp).2.trans g2) ((same q hq).1.trans g3)
            ((same q hq).2.trans g4)

/-- A newly assigned id was never assigned before.  `w0` is any state of an execution, `w1` any later state, and the
call leads from `w1` to `w2`: when the keypoints of a match had no ids, the id they get exceeds every id assigned in
`w0` and in `w1`, and different such matches get different ids. -/
theorem new_id_never_used_partial {cs ds : List Call} {w0 w1 w2 : World} {c : Call}
    (r0 : Run cs w0) (hd : Steps ds w0 w1) (h : applyMatches c.a c.b c.ms w1 = .ok w2) (hab : c.a ≠ c.b)
    (hn : matchCount cs + matchCount ds + c.ms.length ≤ 2 ^ 31) :
    (∀ i j : Int, (i, j) ∈ c.ms → trackOf w1 c.a i.toNat = none → trackOf w1 c.b j.toNat = none →
      ∃ v, trackOf w2 c.a i.toNat = some v ∧ trackOf w2 c.b j.toNat = some v ∧
        (∀ f k x, trackOf w0 f k = some x → x < v) ∧ (∀ f k x, trackOf w1 f k = some x → x < v)) ∧
    (∀ i j k l : Int, (i, j) ∈ c.ms → (k, l) ∈ c.ms → (i, j) ≠ (k, l) →
      trackOf w1 c.a i.toNat = none → trackOf w1 c.b j.toNat = none →
      trackOf w1 c.a k.toNat = none → trackOf w1 c.b l.toNat = none →
      trackOf w2 c.a i.toNat ≠ trackOf w2 c.a k.toNat) := by
  obtain ⟨hI, hle⟩ := r0.issued (by omega)
  obtain ⟨hle1, keep⟩ := hd.next_le (by omega)
  have r1 : ∃ es, Run es w1 ∧ matchCount es = matchCount cs + matchCount ds := by
    clear h hn hle1 keep
    induction hd with
    | refl => exact ⟨cs, r0, rfl⟩
    | call c' _ h' ih =>
      obtain ⟨es, r, e⟩ := ih r0 hI hle
      exact ⟨c' :: es, .call c' r h', by simp only [matchCount]; omega⟩
  obtain ⟨es, r1, e⟩ := r1
  obtain ⟨hI1, _⟩ := r1.issued (by omega)
  obtain ⟨n1, n2⟩ := loop_new hab c.ms _ _ _ w2 h (by rw [next_create, next_create]; omega)
  simp only [trackOf_create, next_create] at n1 n2
  refine ⟨?_, ?_⟩
  · intro i j hm ha hb
    obtain ⟨v, v1, v2, v3⟩ := n1 (i, j) hm ha hb
    refine ⟨v, v1, v2, ?_, ?_⟩
    · intro f k x hx
      have := hI1 _ _ _ (keep _ _ _ hx)
      omega
    · intro f k x hx
      have := hI1 _ _ _ hx
      omega
  · intro i j k l h1 h2 hne g1 g2 g3 g4
    exact n2 (i, j) h1 (k, l) h2 hne g1 g2 g3 g4

example : ∃ w, Run [] demo ∧ Steps [] demo demo ∧ applyMatches 0 1 [(0, 2), (1, 0)] demo = .ok w := by
  obtain ⟨w', h, _⟩ := demo_run
  exact ⟨w', .start (fun _ _ => rfl) rfl, .refl, h⟩

/-- Three frames and three calls: keypoint 0 of frame 0 is matched to keypoint 0 of frame 1 and of frame 2, then
keypoint 1 of frame 1 to keypoint 0 of frame 2.  All calls succeed and frame 1 carries id 0 twice. -/
theorem crossing_duplicates_refuted :
    ∃ w, Run [⟨1, 2, [(1, 0)]⟩, ⟨0, 2, [(0, 0)]⟩, ⟨0, 1, [(0, 0)]⟩] w ∧ w.ids 1 = some [0, 0, -1] ∧ ¬ Unique w 1 := by
  refine ⟨_, .call ⟨1, 2, _⟩ (.call ⟨0, 2, _⟩ (.call ⟨0, 1, _⟩ (.start (w := demo) (fun _ _ => rfl) rfl) rfl) rfl) rfl,
    by decide, ?_⟩
  intro h
  have := h 0 1 0 (by decide) (by decide)
  exact absurd this (by decide)

/-- A frame matched with itself carries the new id twice. -/
theorem self_match_refuted : ∃ w, Run [⟨0, 0, [(0, 1)]⟩] w ∧ w.ids 0 = some [0, 0, -1] :=
  ⟨_, .call ⟨0, 0, _⟩ (.start (w := demo) (fun _ _ => rfl) rfl) rfl, by decide⟩

/-- After `resetIdProvider` ids are handed out again while frames still carry them. -/
theorem reset_reuses_refuted : ∃ w1 w2, applyMatches 0 1 [(0, 0)] demo = .ok w1 ∧
    applyMatches 0 1 [(1, 1)] (resetIds w1) = .ok w2 ∧ w2.ids 0 = some [0, 0, -1] :=
  ⟨_, _, rfl, rfl, by decide⟩

end Verif.TrackManager
