import Verif.TrackManager.Props
import Mathlib.Logic.Relation

/-!
# Track manager: C146, track ids and chains of matches

Frames and keypoints are numbered.  A keypoint is a pair of a frame and an index.  The calls made so far match
keypoints with each other; keypoints that are linked by chains of such matches show the same point of the scene.
-/

namespace Verif.TrackManager.Chain

open Verif (Outcome)
open Verif.TrackManager

/-! ## Specification -/

/-- A keypoint: the number of its frame and its index in it. -/
abbrev Keypoint := Nat × Nat

/-- One of the calls matched keypoint `p` with keypoint `q`. -/
def MatchedBy (cs : List Call) (p q : Keypoint) : Prop :=
  ∃ c ∈ cs, ∃ i j : Int, (i, j) ∈ c.ms ∧ p = (c.a, i.toNat) ∧ q = (c.b, j.toNat)

/-- Two keypoints are linked by a chain of matches, in any direction. -/
def Linkable (cs : List Call) : Keypoint → Keypoint → Prop := Relation.EqvGen (MatchedBy cs)

/-! ## Proof -/

/-- The invariant, for the matches `R` applied so far. -/
structure Inv (R : Keypoint → Keypoint → Prop) (w : World) : Prop where
  edge : ∀ p q, R p q → ∃ v, trackOf w p.1 p.2 = some v ∧ trackOf w q.1 q.2 = some v
  used : ∀ p v, trackOf w p.1 p.2 = some v → ∃ q, R p q ∨ R q p
  conn : ∀ p q v, trackOf w p.1 p.2 = some v → trackOf w q.1 q.2 = some v → Relation.EqvGen R p q

theorem eqv_mono {R S : Keypoint → Keypoint → Prop} (h : ∀ p q, R p q → S p q) {p q : Keypoint}
    (e : Relation.EqvGen R p q) : Relation.EqvGen S p q := by
  induction e with
  | rel x y r => exact .rel _ _ (h _ _ r)
  | refl x => exact .refl _
  | symm x y _ ih => exact .symm _ _ ih
  | trans x y z _ _ i1 i2 => exact .trans _ _ _ i1 i2

theorem Inv.step {R S : Keypoint → Keypoint → Prop} {a b i j : Nat} {w w' : World} {v : Int} (I : Inv R w)
    (hI : Issued w) (L : Linked a b i j w w' v)
    (hS : ∀ p q, S p q ↔ R p q ∨ (p = (a, i) ∧ q = (b, j))) : Inv S w' := by
  have new : S (a, i) (b, j) := (hS _ _).2 (Or.inr ⟨rfl, rfl⟩)
  have mono : ∀ p q, R p q → S p q := fun p q h => (hS p q).2 (Or.inl h)
  have cases3 : ∀ p : Keypoint, p = (a, i) ∨ p = (b, j) ∨ trackOf w' p.1 p.2 = trackOf w p.1 p.2 := by
    rintro ⟨f, k⟩
    by_cases h1 : f = a ∧ k = i
    · exact Or.inl (by rw [h1.1, h1.2])
    · by_cases h2 : f = b ∧ k = j
      · exact Or.inr (Or.inl (by rw [h2.1, h2.2]))
      · exact Or.inr (Or.inr (L.others f k h1 h2))
  refine ⟨?_, ?_, ?_⟩
  · intro p q h
    rcases (hS p q).1 h with h | ⟨rfl, rfl⟩
    · obtain ⟨x, h1, h2⟩ := I.edge p q h
      exact ⟨x, L.keep h1, L.keep h2⟩
    · exact ⟨v, L.left, L.right⟩
  · intro p x hx
    rcases cases3 p with rfl | rfl | e
    · exact ⟨_, Or.inl new⟩
    · exact ⟨_, Or.inr new⟩
    · rw [e] at hx
      obtain ⟨q, h | h⟩ := I.used p x hx
      · exact ⟨q, Or.inl (mono _ _ h)⟩
      · exact ⟨q, Or.inr (mono _ _ h)⟩
  · -- every keypoint that now has the id `v` is linked with the left one
    have toLeft : ∀ p : Keypoint, trackOf w' p.1 p.2 = some v → Relation.EqvGen S p (a, i) := by
      intro p hp
      rcases cases3 p with rfl | rfl | e
      · exact .refl _
      · exact .symm _ _ (.rel _ _ new)
      · rw [e] at hp
        rcases L.source with ⟨_, _, e1, _⟩ | ⟨e1 | e1, _⟩
        · have := hI _ _ _ hp
          omega
        · exact eqv_mono mono (I.conn p (a, i) v hp e1)
        · exact .trans _ _ _ (eqv_mono mono (I.conn p (b, j) v hp e1)) (.symm _ _ (.rel _ _ new))
    intro p q x hp hq
    by_cases hx : x = v
    · subst hx
      exact .trans _ _ _ (toLeft p hp) (.symm _ _ (toLeft q hq))
    · have old : ∀ p : Keypoint, trackOf w' p.1 p.2 = some x → trackOf w p.1 p.2 = some x := by
        intro p hp
        rcases cases3 p with rfl | rfl | e
        · rw [L.left] at hp; cases hp; exact absurd rfl hx
        · rw [L.right] at hp; cases hp; exact absurd rfl hx
        · rw [← e]; exact hp
      exact eqv_mono mono (I.conn p q x (old p hp) (old q hq))

theorem loop_inv {a b : Nat} : ∀ (ms : List (Int × Int)) (cA cB : List Int) (w w' : World)
    (R S : Keypoint → Keypoint → Prop), applyLoop a b ms cA cB w = .ok w' → w.next + ms.length ≤ 2 ^ 31 →
    Issued w → Inv R w →
    (∀ p q, S p q ↔ R p q ∨ ∃ i j : Int, (i, j) ∈ ms ∧ p = (a, i.toNat) ∧ q = (b, j.toNat)) → Inv S w'
  | [], cA, cB, w, w', R, S, h, _, _, I, hS => by
    unfold applyLoop at h
    cases h
    have : S = R := by
      funext p q
      exact propext ((hS p q).trans (by simp))
    rw [this]
    exact I
  | m :: ms, cA, cB, w, w', R, S, h, hn, hI, I, hS => by
    obtain ⟨w1, h1, h2⟩ := applyLoop_cons h
    obtain ⟨_, _, _, _, hl⟩ := applyOne_ok h1
    simp only [List.length_cons] at hn
    obtain ⟨v, L⟩ := link_effect hl (by omega)
    have hle := L.next_le
    refine loop_inv ms _ _ w1 w' (fun p q => R p q ∨ (p = (a, m.1.toNat) ∧ q = (b, m.2.toNat))) S h2 (by omega)
      (L.issued hI).1 (I.step hI L (fun _ _ => Iff.rfl)) ?_
    intro p q
    rw [hS]
    constructor
    · rintro (h | ⟨i, j, hm, e1, e2⟩)
      · exact Or.inl (Or.inl h)
      · rcases List.mem_cons.1 hm with e | hm
        · subst e
          exact Or.inl (Or.inr ⟨e1, e2⟩)
        · exact Or.inr ⟨i, j, hm, e1, e2⟩
    · rintro ((h | ⟨e1, e2⟩) | ⟨i, j, hm, e1, e2⟩)
      · exact Or.inl h
      · exact Or.inr ⟨m.1, m.2, List.mem_cons_self, e1, e2⟩
      · exact Or.inr ⟨i, j, List.mem_cons_of_mem _ hm, e1, e2⟩

theorem run_inv {cs : List Call} {w : World} (r : Run cs w) (hn : matchCount cs ≤ 2 ^ 31) :
    Inv (MatchedBy cs) w := by
  induction r with
  | start hi h0 =>
    refine ⟨?_, ?_, ?_⟩
    · rintro p q ⟨c, hc, _⟩
      cases hc
    · intro p v h
      rw [hi] at h
      cases h
    · intro p q v h
      rw [hi] at h
      cases h
  | @call cs w w' c r h ih =>
    unfold matchCount at hn
    obtain ⟨hI, hle⟩ := r.issued (by omega)
    have I := ih (by omega)
    refine loop_inv c.ms _ _ _ w' (MatchedBy cs) _ h (by rw [next_create, next_create]; omega) ?_ ?_ ?_
    · intro f i v
      rw [trackOf_create, trackOf_create, next_create, next_create]
      exact hI f i v
    · refine ⟨?_, ?_, ?_⟩
      · intro p q
        simp only [trackOf_create]
        exact I.edge p q
      · intro p v
        simp only [trackOf_create]
        exact I.used p v
      · intro p q v
        simp only [trackOf_create]
        exact I.conn p q v
    · intro p q
      constructor
      · rintro ⟨d, hd, i, j, hm, e1, e2⟩
        rcases List.mem_cons.1 hd with rfl | hd
        · exact Or.inr ⟨i, j, hm, e1, e2⟩
        · exact Or.inl ⟨d, hd, i, j, hm, e1, e2⟩
      · rintro (⟨d, hd, i, j, hm, e1, e2⟩ | ⟨i, j, hm, e1, e2⟩)
        · exact ⟨d, List.mem_cons_of_mem _ hd, i, j, hm, e1, e2⟩
        · exact ⟨c, List.mem_cons_self, i, j, hm, e1, e2⟩

theorem eqv_same {R : Keypoint → Keypoint → Prop} {w : World} (I : Inv R w) {p q : Keypoint}
    (e : Relation.EqvGen R p q) : trackOf w p.1 p.2 = trackOf w q.1 q.2 := by
  induction e with
  | rel x y r =>
    obtain ⟨v, h1, h2⟩ := I.edge x y r
    rw [h1, h2]
  | refl x => rfl
  | symm x y _ ih => exact ih.symm
  | trans x y z _ _ i1 i2 => exact i1.trans i2

/-! ## Theorems -/

/-- A keypoint has a track id exactly if one of the calls matched it with another one.  For all sequences of
successful calls, between any frames in any order. -/
theorem tracked_iff {cs : List Call} {w : World} (r : Run cs w) (hn : matchCount cs ≤ 2 ^ 31) (p : Keypoint) :
    (∃ v, trackOf w p.1 p.2 = some v) ↔ ∃ q, MatchedBy cs p q ∨ MatchedBy cs q p := by
  have I := run_inv r hn
  constructor
  · rintro ⟨v, h⟩
    exact I.used p v h
  · rintro ⟨q, h | h⟩
    · obtain ⟨v, h1, _⟩ := I.edge p q h
      exact ⟨v, h1⟩
    · obtain ⟨v, _, h2⟩ := I.edge q p h
      exact ⟨v, h2⟩

/-- Two tracked keypoints carry the same track id exactly if they are linked by a chain of matches. -/
theorem same_id_iff {cs : List Call} {w : World} (r : Run cs w) (hn : matchCount cs ≤ 2 ^ 31) (p q : Keypoint) (v : Int)
    (hp : trackOf w p.1 p.2 = some v) : trackOf w q.1 q.2 = some v ↔ Linkable cs p q := by
  have I := run_inv r hn
  constructor
  · exact I.conn p q v hp
  · intro e
    rw [← eqv_same I e]
    exact hp

/-- The tracks of two histories of calls with the same matches are the same, whatever the order of the calls and of
the matches in them, as long as both histories succeed: the numbers may differ, but not which keypoints share one. -/
theorem order_irrelevant {cs ds : List Call} {w u : World} (r : Run cs w) (s : Run ds u)
    (hn : matchCount cs ≤ 2 ^ 31) (hm : matchCount ds ≤ 2 ^ 31)
    (same : ∀ p q, MatchedBy cs p q ↔ MatchedBy ds p q) (p q : Keypoint) :
    (trackOf w p.1 p.2 = none ↔ trackOf u p.1 p.2 = none) ∧
    (trackOf w p.1 p.2 = trackOf w q.1 q.2 ↔ trackOf u p.1 p.2 = trackOf u q.1 q.2) := by
  have e : MatchedBy cs = MatchedBy ds := by
    funext p q
    exact propext (same p q)
  have none_iff : ∀ p : Keypoint, trackOf w p.1 p.2 = none ↔ trackOf u p.1 p.2 = none := by
    intro p
    have h1 := tracked_iff r hn p
    have h2 := tracked_iff s hm p
    rw [e] at h1
    have h3 := h1.trans h2.symm
    rw [← Option.isSome_iff_exists, ← Option.isSome_iff_exists] at h3
    rw [← Option.not_isSome_iff_eq_none, ← Option.not_isSome_iff_eq_none, h3]
  refine ⟨none_iff p, ?_⟩
  cases hp : trackOf w p.1 p.2 with
  | none =>
    rw [(none_iff p).1 hp]
    constructor
    · intro h; exact ((none_iff q).1 h.symm).symm
    · intro h; exact ((none_iff q).2 h.symm).symm
  | some v =>
    cases hu : trackOf u p.1 p.2 with
    | none => rw [(none_iff p).2 hu] at hp; cases hp
    | some x =>
      have h1 := same_id_iff r hn p q v hp
      have h2 := same_id_iff s hm p q x hu
      unfold Linkable at h1 h2
      rw [e] at h1
      exact ⟨fun h => (h2.2 (h1.1 h.symm)).symm, fun h => (h1.2 (h2.1 h.symm)).symm⟩

/-- When the next call succeeds, for valid matches between two different frames: exactly if no match joins keypoints
that are both tracked but not linked by a chain of matches. -/
theorem next_call_iff {cs : List Call} {w : World} (r : Run cs w) (c : Call) (hab : c.a ≠ c.b)
    (hn : matchCount (c :: cs) ≤ 2 ^ 31) (la : size w c.a < 2 ^ 31) (lb : size w c.b < 2 ^ 31)
    (hv : ValidMatches (size w c.a) (size w c.b) c.ms) :
    (∃ w', applyMatches c.a c.b c.ms w = .ok w') ↔
      ∀ i j : Int, (i, j) ∈ c.ms → (∃ q, MatchedBy cs (c.a, i.toNat) q ∨ MatchedBy cs q (c.a, i.toNat)) →
        (∃ q, MatchedBy cs (c.b, j.toNat) q ∨ MatchedBy cs q (c.b, j.toNat)) →
        Linkable cs (c.a, i.toNat) (c.b, j.toNat) := by
  unfold matchCount at hn
  have hm : matchCount cs ≤ 2 ^ 31 := by omega
  obtain ⟨_, hle⟩ := r.issued hm
  rw [apply_succeeds_iff hab (by omega) la lb]
  constructor
  · rintro ⟨_, h⟩ i j hij h1 h2
    obtain ⟨x, hx⟩ := (tracked_iff r hm (c.a, i.toNat)).2 h1
    obtain ⟨y, hy⟩ := (tracked_iff r hm (c.b, j.toNat)).2 h2
    have := h i j hij x y hx hy
    subst this
    exact (same_id_iff r hm _ _ _ hx).1 hy
  · intro h
    refine ⟨hv, ?_⟩
    intro i j hij x y hx hy
    have l := h i j hij ((tracked_iff r hm (c.a, i.toNat)).1 ⟨x, hx⟩) ((tracked_iff r hm (c.b, j.toNat)).1 ⟨y, hy⟩)
    have := (same_id_iff r hm _ _ _ hx).2 l
    simp only at hy this
    rw [hy] at this
    exact (Option.some.inj this).symm

/-- Tracking from frame to frame never fails: if no call so far involved the second frame, valid matches are applied. -/
theorem frame_to_frame_succeeds {cs : List Call} {w : World} (r : Run cs w) (c : Call) (hab : c.a ≠ c.b)
    (hn : matchCount (c :: cs) ≤ 2 ^ 31) (la : size w c.a < 2 ^ 31) (lb : size w c.b < 2 ^ 31)
    (hv : ValidMatches (size w c.a) (size w c.b) c.ms) (fresh : ∀ d ∈ cs, d.a ≠ c.b ∧ d.b ≠ c.b) :
    ∃ w', applyMatches c.a c.b c.ms w = .ok w' := by
  refine (next_call_iff r c hab hn la lb hv).2 ?_
  intro i j _ _ h
  obtain ⟨q, ⟨d, hd, _, _, _, e, _⟩ | ⟨d, hd, _, _, _, _, e⟩⟩ := h
  · exact absurd (congrArg Prod.fst e).symm (fresh d hd).1
  · exact absurd (congrArg Prod.fst e).symm (fresh d hd).2

/-- Two tracks that turn out to show the same point cannot be joined: the call aborts.  Keypoint 0 of frame 0 was
matched with keypoint 0 of frame 1 and keypoint 0 of frame 2 with keypoint 0 of frame 3; a match of the keypoints 0 of
the frames 1 and 2, valid and between frames never matched before, ends the program. -/
theorem joining_tracks_refuted :
    ∃ w, Run [⟨2, 3, [(0, 0)]⟩, ⟨0, 1, [(0, 0)]⟩] w ∧ ValidMatches (size w 1) (size w 2) [(0, 0)] ∧
      applyMatches 1 2 [(0, 0)] w = .abort := by
  refine ⟨_, .call ⟨2, 3, _⟩ (.call ⟨0, 1, _⟩ (.start (w := demo) (fun _ _ => rfl) rfl) rfl) rfl, ?_, rfl⟩
  refine ⟨?_, by decide, by decide⟩
  intro m hm
  rw [List.mem_singleton.1 hm]
  decide

/-- So whether a history succeeds depends on the order of the calls: in the order of the frames the same three calls
succeed and all four keypoints share one track. -/
theorem call_order_refuted :
    (∃ w, Run [⟨2, 3, [(0, 0)]⟩, ⟨1, 2, [(0, 0)]⟩, ⟨0, 1, [(0, 0)]⟩] w ∧
      ∀ f, f < 4 → trackOf w f 0 = some 0) ∧
    ∃ w, Run [⟨2, 3, [(0, 0)]⟩, ⟨0, 1, [(0, 0)]⟩] w ∧ applyMatches 1 2 [(0, 0)] w = .abort := by
  refine ⟨⟨_, .call ⟨2, 3, _⟩ (.call ⟨1, 2, _⟩ (.call ⟨0, 1, _⟩ (.start (w := demo) (fun _ _ => rfl) rfl) rfl) rfl) rfl,
    by decide⟩, ?_⟩
  obtain ⟨w, r, _, h⟩ := joining_tracks_refuted
  exact ⟨w, r, h⟩

/-- Three frames in a row: the keypoint followed over all of them has one id, another match got another id. -/
example : ∃ w, Run [⟨1, 2, [(2, 1)]⟩, ⟨0, 1, [(0, 2), (1, 0)]⟩] w ∧
    matchCount [⟨1, 2, [(2, 1)]⟩, ⟨0, 1, [(0, 2), (1, 0)]⟩] ≤ 2 ^ 31 ∧
    trackOf w 0 0 = some 0 ∧ trackOf w 1 2 = some 0 ∧ trackOf w 2 1 = some 0 ∧ trackOf w 1 0 = some 1 ∧
    trackOf w 2 0 = none :=
  ⟨_, .call ⟨1, 2, _⟩ (.call ⟨0, 1, _⟩ (.start (w := demo) (fun _ _ => rfl) rfl) rfl) rfl, by decide, by decide,
    by decide, by decide, by decide, by decide⟩

example : Linkable [⟨1, 2, [(2, 1)]⟩, ⟨0, 1, [(0, 2), (1, 0)]⟩] (0, 0) (2, 1) :=
  .trans _ (1, 2) _ (.rel _ _ ⟨⟨0, 1, [(0, 2), (1, 0)]⟩, by simp, 0, 2, by simp, rfl, rfl⟩)
    (.rel _ _ ⟨⟨1, 2, [(2, 1)]⟩, by simp, 2, 1, by simp, rfl, rfl⟩)

/-- The same matches in another order. -/
example : (∃ w, Run [⟨0, 1, [(0, 2), (1, 0)]⟩] w) ∧ (∃ u, Run [⟨0, 1, [(1, 0), (0, 2)]⟩] u) :=
  ⟨⟨_, .call ⟨0, 1, _⟩ (.start (w := demo) (fun _ _ => rfl) rfl) rfl⟩,
    ⟨_, .call ⟨0, 1, _⟩ (.start (w := demo) (fun _ _ => rfl) rfl) rfl⟩⟩

end Verif.TrackManager.Chain
