import Verif.OccupancyGrid.Lemmas

/-!
# Occupancy grid: insertion with a minimum distance
-/

namespace Verif.OccupancyGrid

open Verif (Outcome)
open Verif.StlHelpers

/-! ### `without` -/

theorem getElem_split {α : Type} {l : List α} {i : Nat} {x : α} (h : l[i]? = some x) :
    l = l.take i ++ x :: l.drop (i + 1) ∧ (l.take i).length = i := by
  obtain ⟨hi, he⟩ := List.getElem?_eq_some_iff.mp h
  refine ⟨?_, by simp only [List.length_take]; omega⟩
  rw [← he, List.cons_getElem_drop_succ, List.take_append_drop]

theorem mem_eraseIdx_iff {is : List Nat} {j i n : Nat} (hn : is.Nodup) (hj : is[j]? = some i) :
    n ∈ is.eraseIdx j ↔ n ∈ is ∧ n ≠ i := by
  obtain ⟨e, hl⟩ := getElem_split hj
  have hd := hn
  rw [e, List.nodup_append] at hd
  obtain ⟨h1, h2, h3⟩ := hd
  obtain ⟨h4, h5⟩ := List.nodup_cons.mp h2
  rw [List.eraseIdx_eq_take_drop_succ]
  constructor
  · intro h
    rcases List.mem_append.mp h with h | h
    · exact ⟨List.mem_of_mem_take h, h3 n h i List.mem_cons_self⟩
    · refine ⟨List.mem_of_mem_drop h, ?_⟩
      rintro rfl; exact h4 h
  · rintro ⟨h, hne⟩
    rw [e] at h
    rcases List.mem_append.mp h with h | h
    · exact List.mem_append_left _ h
    · rcases List.mem_cons.mp h with h | h
      · exact absurd h hne
      · exact List.mem_append_right _ h

theorem without_eraseIdx {l : List Pt} {is : List Nat} {j i : Nat} {x : Pt} (hn : is.Nodup)
    (hj : is[j]? = some i) (hi : l[i]? = some x) :
    (without l (is.eraseIdx j)).Perm (x :: without l is) := by
  obtain ⟨e, hl⟩ := getElem_split hi
  have him : i ∈ is := List.mem_of_getElem? hj
  have hz : l.zipIdx = (l.take i).zipIdx 0 ++ (x, i) :: (l.drop (i + 1)).zipIdx (i + 1) := by
    conv_lhs => rw [e]
    rw [List.zipIdx_append, List.zipIdx_cons, hl]; simp
  unfold without
  rw [hz, List.filter_append, List.filter_append, List.filter_cons_of_pos
    (by rw [decide_eq_true_eq, mem_eraseIdx_iff hn hj]; simp),
    List.filter_cons_of_neg (a := (x, i)) (p := fun p => decide (p.2 ∉ is)) (by simp [him])]
  have h1 : ((l.take i).zipIdx 0).filter (fun p => decide (p.2 ∉ is.eraseIdx j)) =
      ((l.take i).zipIdx 0).filter (fun p => decide (p.2 ∉ is)) := by
    apply List.filter_congr
    rintro ⟨y, n⟩ hm
    have := List.snd_lt_add_of_mem_zipIdx hm
    rw [decide_eq_decide, mem_eraseIdx_iff hn hj]
    have : n ≠ i := by simp only [hl] at this; omega
    tauto
  have h2 : ((l.drop (i + 1)).zipIdx (i + 1)).filter (fun p => decide (p.2 ∉ is.eraseIdx j)) =
      ((l.drop (i + 1)).zipIdx (i + 1)).filter (fun p => decide (p.2 ∉ is)) := by
    apply List.filter_congr
    rintro ⟨y, n⟩ hm
    have := List.le_snd_of_mem_zipIdx hm
    rw [decide_eq_decide, mem_eraseIdx_iff hn hj]
    have : n ≠ i := by simp only at this; omega
    tauto
  rw [h1, h2, List.map_append, List.map_append, List.map_cons]
  exact List.perm_middle

theorem without_length_add {l : List Pt} : ∀ {is : List Nat}, is.Nodup → (∀ i ∈ is, i < l.length) →
    (without l is).length + is.length = l.length
  | [], _, _ => by simp [without, List.filter_eq_self.mpr]
  | i :: is, hn, hr => by
    obtain ⟨h1, h2⟩ := List.nodup_cons.mp hn
    have ih := without_length_add h2 (fun j hj => hr j (List.mem_cons_of_mem _ hj))
    have hi := hr i List.mem_cons_self
    have := (without_eraseIdx (l := l) (is := i :: is) (j := 0) (i := i) (x := l[i]) hn (by simp)
      (List.getElem?_eq_getElem hi)).length_eq
    simp only [List.eraseIdx_zero, List.tail_cons, List.length_cons] at this
    simp only [List.length_cons]
    omega

theorem without_mem {l : List Pt} {is : List Nat} {p : Pt} (h : p ∈ without l is) : p ∈ l := by
  unfold without at h
  simp only [List.mem_map, List.mem_filter] at h
  obtain ⟨⟨q, n⟩, ⟨h1, _⟩, rfl⟩ := h
  exact List.mem_of_getElem? (List.mem_zipIdx_iff_getElem?.mp h1)

/-! ### Violating points -/

theorem mem_violators {p : Pt} {d : ℚ} {l : List Pt} {i : Nat} :
    i ∈ violators p d l ↔ ∃ q, l[i]? = some q ∧ tooClose p q d = true := by
  unfold violators
  simp only [List.mem_map, List.mem_filter]
  constructor
  · rintro ⟨⟨q, n⟩, ⟨h1, h2⟩, rfl⟩
    exact ⟨q, List.mem_zipIdx_iff_getElem?.mp h1, h2⟩
  · rintro ⟨q, h1, h2⟩
    exact ⟨(q, i), ⟨List.mem_zipIdx_iff_getElem?.mpr h1, h2⟩, rfl⟩

theorem violators_nodup (p : Pt) (d : ℚ) (l : List Pt) : (violators p d l).Nodup := by
  unfold violators
  have h : (l.zipIdx.map (fun x => x.2)).Nodup := by
    have : (fun x : Pt × Nat => x.2) = Prod.snd := rfl
    rw [this, List.zipIdx_map_snd]
    exact List.nodup_range'
  exact h.sublist (List.Sublist.map _ List.filter_sublist)

theorem violators_lt {p : Pt} {d : ℚ} {l : List Pt} {i : Nat} (h : i ∈ violators p d l) :
    i < l.length := by
  obtain ⟨q, h1, _⟩ := mem_violators.mp h
  exact (List.getElem?_eq_some_iff.mp h1).1

theorem tooClose_self (p : Pt) {d : ℚ} (hd : 0 < d) : tooClose p p d = true := by
  unfold tooClose
  rw [decide_eq_true_eq]
  have := mul_pos hd hd
  simpa using this

theorem violators_append (p : Pt) {d : ℚ} (hd : 0 < d) (l : List Pt) :
    violators p d (l ++ [p]) = violators p d l ++ [l.length] := by
  unfold violators
  rw [List.zipIdx_append, List.filter_append, List.map_append]
  congr 1
  simp [tooClose_self p hd]

theorem violators_nil_iff {p : Pt} {d : ℚ} {l : List Pt} :
    violators p d l = [] ↔ ∀ q ∈ l, tooClose p q d = false := by
  constructor
  · intro h q hq
    obtain ⟨i, hi, rfl⟩ := List.mem_iff_getElem.mp hq
    by_contra hc
    have : i ∈ violators p d l :=
      mem_violators.mpr ⟨l[i], List.getElem?_eq_getElem hi, by simpa using hc⟩
    rw [h] at this; simp at this
  · intro h
    rw [List.eq_nil_iff_forall_not_mem]
    intro i hi
    obtain ⟨q, h1, h2⟩ := mem_violators.mp hi
    rw [h q (List.mem_of_getElem? h1)] at h2
    simp at h2

theorem without_violators (p : Pt) (d : ℚ) (l : List Pt) :
    without l (violators p d l) = l.filter (fun q => !tooClose p q d) := by
  unfold without
  have h : l.zipIdx.filter (fun x => decide (x.2 ∉ violators p d l)) =
      l.zipIdx.filter (fun x => !tooClose p x.1 d) := by
    apply List.filter_congr
    rintro ⟨q, i⟩ hm
    have hq := List.mem_zipIdx_iff_getElem?.mp hm
    simp only at hq
    rw [Bool.eq_iff_iff, decide_eq_true_eq, mem_violators]
    constructor
    · intro h
      by_contra hc
      exact h ⟨q, hq, by simpa using hc⟩
    · rintro h ⟨q', h1, h2⟩
      rw [hq, Option.some.injEq] at h1
      subst h1
      simp [h2] at h
  rw [h]
  have : (fun x : Pt × Nat => !tooClose p x.1 d) = (fun q => !tooClose p q d) ∘ Prod.fst := rfl
  rw [this, ← List.filter_map, List.zipIdx_map_fst]

/-! ### The neighbourhood -/

theorem mem_window {g : Grid} {k k' : Cell} : k' ∈ g.window k ↔
    (k'.1 ≤ min (k.1 + 1) (g.nR - 1) ∧ k.1 - 1 ≤ k'.1) ∧
    (k'.2 ≤ min (k.2 + 1) (g.nC - 1) ∧ k.2 - 1 ≤ k'.2) := by
  obtain ⟨r, c⟩ := k'
  unfold Grid.window
  simp only [List.mem_flatMap, List.mem_filter, List.mem_range, List.mem_map, decide_eq_true_eq,
    Prod.mk.injEq]
  constructor
  · rintro ⟨a, ⟨h1, h2⟩, b, ⟨h3, h4⟩, rfl, rfl⟩; omega
  · rintro ⟨⟨h1, h2⟩, h3, h4⟩
    exact ⟨r, ⟨by omega, h2⟩, c, ⟨by omega, h4⟩, rfl, rfl⟩

theorem window_nodup (g : Grid) (k : Cell) : (g.window k).Nodup := by
  unfold Grid.window
  simp only
  rw [List.nodup_flatMap]
  refine ⟨fun r _ => ?_, ?_⟩
  · exact List.Nodup.map (fun a b h => by simpa using h) (List.nodup_range.filter _)
  · refine List.Pairwise.imp ?_ ((List.nodup_range (n := _)).filter _)
    intro a b hab x hx hy
    simp only [List.mem_map] at hx hy
    obtain ⟨_, _, rfl⟩ := hx
    obtain ⟨_, _, h⟩ := hy
    exact hab (by simpa using (congrArg Prod.fst h).symm)

theorem window_sub {g : Grid} {k k' : Cell} (hk : k ∈ g.coords) (h : k' ∈ g.window k) :
    k' ∈ g.coords := by
  rw [mem_window] at h
  rw [mem_coords] at hk ⊢
  omega

theorem self_mem_window {g : Grid} {k : Cell} (hk : k ∈ g.coords) : k ∈ g.window k := by
  rw [mem_coords] at hk
  rw [mem_window]
  omega

theorem sq_ge_of_gap {a b : ℚ} {i j : Nat} {cl d : ℚ} (hd : 0 < d) (hcl : d ≤ cl)
    (ha1 : i * cl ≤ a) (ha2 : a < (i + 1) * cl) (hb1 : j * cl ≤ b) (hb2 : b < (j + 1) * cl)
    (h : i + 2 ≤ j ∨ j + 2 ≤ i) : d * d ≤ (a - b) * (a - b) := by
  have hc : 0 < cl := lt_of_lt_of_le hd hcl
  rcases h with h | h
  · have hq : ((i : ℚ) + 2) ≤ j := by exact_mod_cast h
    have h1 : ((i : ℚ) + 2) * cl ≤ j * cl := mul_le_mul_of_nonneg_right hq hc.le
    have h2 : d ≤ b - a := by linarith
    have := mul_self_le_mul_self hd.le h2
    linarith [show (b - a) * (b - a) = (a - b) * (a - b) by ring]
  · have hq : ((j : ℚ) + 2) ≤ i := by exact_mod_cast h
    have h1 : ((j : ℚ) + 2) * cl ≤ i * cl := mul_le_mul_of_nonneg_right hq hc.le
    have h2 : d ≤ a - b := by linarith
    exact mul_self_le_mul_self hd.le h2

/-- Points outside of the neighbourhood are far enough. -/
theorem far_outside {g : Grid} {k k' : Cell} {p q : Pt} {d : ℚ} (hd : 0 < d) (hR : d ≤ g.cellR)
    (hC : d ≤ g.cellC) (hk' : k' ∈ g.coords) (hw : k' ∉ g.window k) (hp : InCell g k p.u p.v)
    (hq : InCell g k' q.u q.v) : tooClose p q d = false := by
  rw [mem_coords] at hk'
  rw [mem_window] at hw
  unfold tooClose
  rw [decide_eq_false_iff_not, not_lt]
  have hgap : (k.1 + 2 ≤ k'.1 ∨ k'.1 + 2 ≤ k.1) ∨ (k.2 + 2 ≤ k'.2 ∨ k'.2 + 2 ≤ k.2) := by omega
  rcases hgap with h | h
  · have := sq_ge_of_gap hd hR hp.1 hp.2.1 hq.1 hq.2.1 h
    have := mul_self_nonneg (p.v - q.v)
    linarith
  · have := sq_ge_of_gap hd hC hp.2.2.1 hp.2.2.2 hq.2.2.1 hq.2.2.2 h
    have := mul_self_nonneg (p.u - q.u)
    linarith

/-! ### The map of violating points -/

/-- The map describes exactly the violating points of a grid. -/
structure Describes (g : Grid) (p : Pt) (d : ℚ) (m : List (Cell × List Nat)) : Prop where
  keys : (m.map Prod.fst).Nodup
  entry : ∀ e ∈ m, e.1 ∈ g.coords ∧ e.2 = violators p d (g.cells e.1)
  rest : ∀ k ∈ g.coords, k ∉ m.map Prod.fst → violators p d (g.cells k) = []

theorem Describes.perm {g : Grid} {p : Pt} {d : ℚ} {m m' : List (Cell × List Nat)}
    (h : Describes g p d m) (hp : m'.Perm m) : Describes g p d m' := by
  have hk := hp.map Prod.fst
  refine ⟨hk.nodup_iff.mpr h.keys, fun e he => h.entry e (hp.mem_iff.mp he), fun k hk1 hk2 => ?_⟩
  exact h.rest k hk1 (fun hm => hk2 (hk.mem_iff.mpr hm))

theorem describes_violating {g : Grid} (hinv : Inv g) {k : Cell} (hk : k ∈ g.coords) {p : Pt}
    (hp : InCell g k p.u p.v) {d : ℚ} (hd : 0 < d) (hR : d ≤ g.cellR) (hC : d ≤ g.cellC) :
    Describes g p d (g.violating k p d) := by
  have hmem : ∀ e : Cell × List Nat, e ∈ g.violating k p d ↔
      e.1 ∈ g.window k ∧ e.2 = violators p d (g.cells e.1) ∧ e.2 ≠ [] := by
    rintro ⟨a, is⟩
    unfold Grid.violating
    simp only [List.mem_filterMap]
    constructor
    · rintro ⟨k', h1, h2⟩
      split at h2
      · simp at h2
      · rename_i hne
        simp only [Option.some.injEq, Prod.mk.injEq] at h2
        obtain ⟨rfl, rfl⟩ := h2
        exact ⟨h1, rfl, hne⟩
    · rintro ⟨h1, h2, h3⟩
      refine ⟨a, h1, ?_⟩
      rw [if_neg (by rw [← h2]; exact h3), ← h2]
  refine ⟨?_, fun e he => ⟨window_sub hk ((hmem e).mp he).1, ((hmem e).mp he).2.1⟩, ?_⟩
  · have : (g.violating k p d).map Prod.fst =
        (g.window k).filter (fun k' => decide (violators p d (g.cells k') ≠ [])) := by
      unfold Grid.violating
      induction g.window k with
      | nil => rfl
      | cons a l ih =>
        by_cases hv : violators p d (g.cells a) = []
        · rw [List.filterMap_cons_none (by simp [hv]), List.filter_cons_of_neg (by simp [hv]), ih]
        · rw [List.filterMap_cons_some (b := (a, violators p d (g.cells a))) (by simp [hv]),
            List.filter_cons_of_pos (by simp [hv]), List.map_cons, ih]
    rw [this]
    exact (window_nodup g k).filter _
  · intro k' hk' hnot
    by_cases hw : k' ∈ g.window k
    · by_contra hne
      apply hnot
      rw [List.mem_map]
      exact ⟨(k', violators p d (g.cells k')), (hmem _).mpr ⟨hw, rfl, hne⟩, rfl⟩
    · rw [violators_nil_iff]
      intro q hq
      exact far_outside hd hR hC hk' hw hp (hinv.placed k' hk' q hq).2

theorem describes_emplaceBack {g : Grid} {k : Cell} (hk : k ∈ g.coords) {p : Pt} {d : ℚ} (hd : 0 < d)
    {m : List (Cell × List Nat)} (h : Describes g p d m) (n : Int) :
    Describes { g.setCell k (g.cells k ++ [p]) with num := n } p d
      (emplaceBack m k (g.cells k).length) ∧
    k ∈ (emplaceBack m k (g.cells k).length).map Prod.fst := by
  have hself : violators p d ((g.setCell k (g.cells k ++ [p])).cells k) =
      violators p d (g.cells k) ++ [(g.cells k).length] := by
    rw [setCell_same, violators_append p hd]
  unfold emplaceBack
  by_cases ha : m.any (fun e => decide (e.1 = k)) = true
  · rw [if_pos ha]
    have hkeys : (m.map (fun e => if e.1 = k then (e.1, e.2 ++ [(g.cells k).length]) else e)).map
        Prod.fst = m.map Prod.fst := by
      rw [List.map_map]
      apply List.map_congr_left
      intro e _
      simp only [Function.comp]
      split <;> rfl
    have hkm : k ∈ m.map Prod.fst := by
      rw [List.any_eq_true] at ha
      obtain ⟨e, h1, h2⟩ := ha
      rw [List.mem_map]
      exact ⟨e, h1, by simpa using h2⟩
    refine ⟨⟨by rw [hkeys]; exact h.keys, ?_, ?_⟩, by rw [hkeys]; exact hkm⟩
    · intro e he
      rw [List.mem_map] at he
      obtain ⟨e0, h1, rfl⟩ := he
      obtain ⟨h2, h3⟩ := h.entry e0 h1
      by_cases e1 : e0.1 = k
      · rw [if_pos e1]
        refine ⟨h2, ?_⟩
        show e0.2 ++ _ = violators p d ((g.setCell k (g.cells k ++ [p])).cells e0.1)
        rw [e1, hself, h3, e1]
      · rw [if_neg e1]
        refine ⟨h2, ?_⟩
        show e0.2 = violators p d ((g.setCell k (g.cells k ++ [p])).cells e0.1)
        rw [setCell_other g _ e1, h3]
    · intro k' hk' hnot
      rw [hkeys] at hnot
      have hne : k' ≠ k := by rintro rfl; exact hnot hkm
      show violators p d ((g.setCell k (g.cells k ++ [p])).cells k') = []
      rw [setCell_other g _ hne]
      exact h.rest k' hk' hnot
  · rw [if_neg ha]
    have hkm : k ∉ m.map Prod.fst := by
      intro hm
      rw [List.mem_map] at hm
      obtain ⟨e, h1, h2⟩ := hm
      apply ha
      rw [List.any_eq_true]
      exact ⟨e, h1, by simpa using h2⟩
    have h0 := h.rest k hk hkm
    refine ⟨⟨?_, ?_, ?_⟩, by simp⟩
    · rw [List.map_append, List.nodup_append]
      refine ⟨h.keys, by simp, ?_⟩
      intro a ha' b hb
      simp only [List.map_cons, List.map_nil, List.mem_singleton] at hb
      subst hb
      rintro rfl
      exact hkm ha'
    · intro e he
      rcases List.mem_append.mp he with he | he
      · obtain ⟨h2, h3⟩ := h.entry e he
        have e1 : e.1 ≠ k := by
          intro heq
          exact hkm (by rw [← heq]; exact List.mem_map_of_mem he)
        refine ⟨h2, ?_⟩
        show e.2 = violators p d ((g.setCell k (g.cells k ++ [p])).cells e.1)
        rw [setCell_other g _ e1, h3]
      · simp only [List.mem_singleton] at he
        subst he
        refine ⟨hk, ?_⟩
        show [(g.cells k).length] = violators p d ((g.setCell k (g.cells k ++ [p])).cells k)
        rw [hself, h0]; rfl
    · intro k' hk' hnot
      rw [List.map_append, List.mem_append, not_or] at hnot
      have hne : k' ≠ k := by
        rintro rfl
        exact hnot.2 (by simp)
      show violators p d ((g.setCell k (g.cells k ++ [p])).cells k') = []
      rw [setCell_other g _ hne]
      exact h.rest k' hk' hnot.1

/-! ### Search for the heaviest point -/

theorem search_spec {g : Grid} : ∀ {ts : List (Cell × Nat × Nat)} {hi : ℚ} {sel : Option (Cell × Nat)},
    (∀ t ∈ ts, ∃ q, (g.cells t.1)[t.2.2]? = some q) →
    ∃ hi' sel', ts.foldlM (searchStep g) (hi, sel) = .ok (hi', sel') ∧ hi ≤ hi' ∧
      (∀ t ∈ ts, ∀ q, (g.cells t.1)[t.2.2]? = some q → q.w ≤ hi') ∧
      ((hi' = hi ∧ sel' = sel) ∨
        (hi < hi' ∧ ∃ t ∈ ts, ∃ q, (g.cells t.1)[t.2.2]? = some q ∧ q.w = hi' ∧
          sel' = some (t.1, t.2.1)))
  | [], hi, sel, _ => ⟨hi, sel, rfl, le_refl _, by simp, Or.inl ⟨rfl, rfl⟩⟩
  | t :: ts, hi, sel, h => by
    obtain ⟨q, hq⟩ := h t List.mem_cons_self
    have hts : ∀ t ∈ ts, ∃ q, (g.cells t.1)[t.2.2]? = some q :=
      fun t ht => h t (List.mem_cons_of_mem _ ht)
    by_cases hgt : q.w > hi
    · obtain ⟨hi', sel', e, h1, h2, h3⟩ := search_spec (hi := q.w) (sel := some (t.1, t.2.1)) hts
      refine ⟨hi', sel', ?_, by linarith, ?_, Or.inr ⟨by linarith, ?_⟩⟩
      · rw [List.foldlM_cons]
        have : searchStep g (hi, sel) t = .ok (q.w, some (t.1, t.2.1)) := by
          unfold searchStep; simp only [hq]; rw [if_pos hgt]
        rw [this, Outcome.bind_ok, e]
      · intro t' ht' q' hq'
        rcases List.mem_cons.mp ht' with rfl | ht'
        · rw [hq, Option.some.injEq] at hq'; subst hq'; exact h1
        · exact h2 t' ht' q' hq'
      · rcases h3 with ⟨a, b⟩ | ⟨_, t', ht', q', a, b, c⟩
        · exact ⟨t, List.mem_cons_self, q, hq, a.symm, b⟩
        · exact ⟨t', List.mem_cons_of_mem _ ht', q', a, b, c⟩
    · obtain ⟨hi', sel', e, h1, h2, h3⟩ := search_spec (hi := hi) (sel := sel) hts
      refine ⟨hi', sel', ?_, h1, ?_, ?_⟩
      · rw [List.foldlM_cons]
        have : searchStep g (hi, sel) t = .ok (hi, sel) := by
          unfold searchStep; simp only [hq]; rw [if_neg hgt]
        rw [this, Outcome.bind_ok, e]
      · intro t' ht' q' hq'
        rcases List.mem_cons.mp ht' with rfl | ht'
        · rw [hq, Option.some.injEq] at hq'; subst hq'
          exact le_trans (not_lt.mp hgt) h1
        · exact h2 t' ht' q' hq'
      · rcases h3 with h3 | ⟨a, t', ht', b⟩
        · exact Or.inl h3
        · exact Or.inr ⟨a, t', List.mem_cons_of_mem _ ht', b⟩

theorem mem_triples {m : List (Cell × List Nat)} {t : Cell × Nat × Nat} :
    t ∈ triples m ↔ ∃ e ∈ m, e.1 = t.1 ∧ e.2[t.2.1]? = some t.2.2 := by
  obtain ⟨k, j, i⟩ := t
  unfold triples
  simp only [List.mem_flatMap, List.mem_map, Prod.mk.injEq]
  constructor
  · rintro ⟨e, he, ⟨i', j'⟩, h1, h2, h3, h4⟩
    simp only at h3 h4
    subst h3 h4
    exact ⟨e, he, h2, List.mem_zipIdx_iff_getElem?.mp h1⟩
  · rintro ⟨e, he, h1, h2⟩
    exact ⟨e, he, (i, j), List.mem_zipIdx_iff_getElem?.mpr h2, h1, rfl, rfl⟩

/-! ### Removal -/

theorem erase_fold {es : List (Cell × List Nat)} : ∀ {g : Grid}, Inv g → (es.map Prod.fst).Nodup →
    (∀ e ∈ es, e.1 ∈ g.coords ∧ e.2.Nodup ∧ ∀ i ∈ e.2, i < (g.cells e.1).length) →
    ∃ g', es.foldlM eraseStep g = .ok g' ∧ Inv g' ∧
      (∃ n, g' = { g with num := n, cells := g'.cells }) ∧
      (∀ e ∈ es, g'.cells e.1 = without (g.cells e.1) e.2) ∧
      (∀ k, k ∉ es.map Prod.fst → g'.cells k = g.cells k) := by
  induction es with
  | nil => intro g h _ _; exact ⟨g, rfl, h, ⟨g.num, rfl⟩, by simp, by simp⟩
  | cons e es ih =>
    intro g hinv hn hr
    rw [List.map_cons, List.nodup_cons] at hn
    obtain ⟨hk, hnd, hlt⟩ := hr e List.mem_cons_self
    have herase := erase_vector_exact (g.cells e.1) e.2 hnd hlt
    have hlen := without_length_add hnd hlt
    have hstep : eraseStep g e =
        .ok { g.setCell e.1 (without (g.cells e.1) e.2) with num := g.num - e.2.length } := by
      unfold eraseStep
      rw [herase, Outcome.bind_ok]
    have hinv2 : Inv { g.setCell e.1 (without (g.cells e.1) e.2) with num := g.num - e.2.length } := by
      apply hinv.setCell hk
      · intro p hp
        exact hinv.placed e.1 hk p (without_mem hp)
      · omega
    have hne : ∀ e' ∈ es, e'.1 ≠ e.1 := by
      intro e' he' heq
      exact hn.1 (by rw [← heq]; exact List.mem_map_of_mem he')
    obtain ⟨g', h1, h2, ⟨n, h3⟩, h4, h5⟩ := ih hinv2 hn.2 (by
      intro e' he'
      obtain ⟨a, b, c⟩ := hr e' (List.mem_cons_of_mem _ he')
      refine ⟨a, b, ?_⟩
      show ∀ i ∈ e'.2, i < ((g.setCell e.1 (without (g.cells e.1) e.2)).cells e'.1).length
      rw [setCell_other g _ (hne e' he')]
      exact c)
    refine ⟨g', ?_, h2, ⟨n, h3⟩, ?_, ?_⟩
    · rw [List.foldlM_cons, hstep, Outcome.bind_ok, h1]
    · intro e' he'
      rcases List.mem_cons.mp he' with rfl | he'
      · rw [h5 _ hn.1]
        exact setCell_same g _ _
      · rw [h4 e' he']
        show without ((g.setCell e.1 (without (g.cells e.1) e.2)).cells e'.1) e'.2 = _
        rw [setCell_other g _ (hne e' he')]
    · intro k hk'
      rw [List.map_cons, List.mem_cons, not_or] at hk'
      rw [h5 k hk'.2]
      exact setCell_other g _ hk'.1

/-! ### The whole function -/

/-- Specification of inserting `p` with minimum distance `d` into the points `old`: the heaviest of `p`
and the points too close to `p` stays, the other too close ones go. -/
def Inserted (p : Pt) (d : ℚ) (old new : List Pt) : Prop :=
  ∃ best, new.Perm (best :: old.filter (fun q => !tooClose p q d)) ∧
    (best = p ∨ (best ∈ old ∧ tooClose p best d = true)) ∧
    p.w ≤ best.w ∧ ∀ q ∈ old, tooClose p q d = true → q.w ≤ best.w

theorem addMinDist_cases {lib : Lib} (hv : lib.Valid) {g : Grid} (hinv : Inv g) {p : Pt} {d : ℚ}
    (hd : 0 < d) (hR : d ≤ g.cellR) (hC : d ≤ g.cellC) (hin : InRange g p.u p.v) :
    (∃ g', g.addMinDist lib p d = .ok g' ∧ Inv g' ∧ Inserted p d g.all g'.all ∧
      ∃ n, g' = { g with num := n, cells := g'.cells }) ∨
    (g.addMinDist lib p d = .abort ∧ p.w ≤ lib.lowest) := by
  obtain ⟨k, htc, hk, hpk⟩ := toCell_of_inRange hinv.shape hin
  have hdes := describes_violating hinv hk hpk hd hR hC
  have hinv1 : Inv { g.setCell k (g.cells k ++ [p]) with num := g.num + 1 } := by
    apply hinv.setCell hk
    · intro q hq
      rcases List.mem_append.mp hq with hq | hq
      · exact hinv.placed k hk q hq
      · simp only [List.mem_singleton] at hq
        subst hq; exact ⟨hin, hpk⟩
    · simp; omega
  have heq : g.addMinDist lib p d =
      if g.violating k p d = [] then .ok { g.setCell k (g.cells k ++ [p]) with num := g.num + 1 }
      else Grid.keepHeaviest lib { g.setCell k (g.cells k ++ [p]) with num := g.num + 1 }
        (lib.order (emplaceBack (g.violating k p d) k (g.cells k).length)) := by
    unfold Grid.addMinDist
    rw [show decide (d > 0) = true from decide_eq_true hd, Outcome.check_true, Outcome.bind_ok,
      show decide (d ≤ min g.cellC g.cellR) = true from decide_eq_true (le_min hC hR),
      Outcome.check_true, Outcome.bind_ok, htc, Outcome.bind_ok, getCell_eq hk, Outcome.bind_ok]
  rw [heq]
  by_cases hempty : g.violating k p d = []
  · left
    rw [if_pos hempty]
    refine ⟨_, rfl, hinv1, ⟨p, ?_, Or.inl rfl, le_refl _, ?_⟩, g.num + 1, rfl⟩
    · have hnone : ∀ q ∈ g.all, tooClose p q d = false := by
        intro q hq
        obtain ⟨k', hk', hqk⟩ := mem_all.mp hq
        have := hdes.rest k' hk' (by rw [hempty]; simp)
        exact violators_nil_iff.mp this q hqk
      rw [List.filter_eq_self.mpr (by intro q hq; simp [hnone q hq])]
      show ((g.setCell k (g.cells k ++ [p])).all).Perm _
      refine (all_setCell g hk _).trans ?_
      rw [List.append_assoc]
      refine (List.perm_middle (l₁ := g.cells k)).trans ?_
      exact (all_split g hk).symm.cons p
    · intro q hq hc
      obtain ⟨k', hk', hqk⟩ := mem_all.mp hq
      have := violators_nil_iff.mp (hdes.rest k' hk' (by rw [hempty]; simp)) q hqk
      rw [this] at hc; simp at hc
  · rw [if_neg hempty]
    obtain ⟨hdes0, hkm0⟩ := describes_emplaceBack hk hd hdes (g.num + 1)
    have hord := hv.order (emplaceBack (g.violating k p d) k (g.cells k).length)
    have hdes1 := hdes0.perm hord
    have hkm := ((hord.map Prod.fst).mem_iff).mpr hkm0
    generalize lib.order (emplaceBack (g.violating k p d) k (g.cells k).length) = m at hdes1 hkm
    generalize hg1 : ({ g.setCell k (g.cells k ++ [p]) with num := g.num + 1 } : Grid) = g1 at *
    have hcells1 : ∀ k', g1.cells k' = if k' = k then g.cells k ++ [p] else g.cells k' := by
      intro k'; rw [← hg1]; rfl
    have hco : g1.coords = g.coords := by rw [← hg1]; rfl
    have hfilter : ∀ k', (g1.cells k').filter (fun q => !tooClose p q d) =
        (g.cells k').filter (fun q => !tooClose p q d) := by
      intro k'
      rw [hcells1]
      split
      · rename_i e; subst e
        rw [List.filter_append, List.filter_cons_of_neg (by simp [tooClose_self p hd])]
        simp
      · rfl
    have hvalid : ∀ t ∈ triples m, ∃ q, (g1.cells t.1)[t.2.2]? = some q := by
      intro t ht
      obtain ⟨e, he, h1, h2⟩ := mem_triples.mp ht
      have hm : t.2.2 ∈ violators p d (g1.cells e.1) := by
        rw [← (hdes1.entry e he).2]; exact List.mem_of_getElem? h2
      obtain ⟨q, hq, _⟩ := mem_violators.mp hm
      exact ⟨q, by rw [← h1]; exact hq⟩
    obtain ⟨hi', sel', hfold, _, hmax, hcase⟩ :=
      search_spec (g := g1) (hi := lib.lowest) (sel := none) hvalid
    unfold Grid.keepHeaviest
    rw [hfold, Outcome.bind_ok]
    -- every violating point is looked at
    have hlook : ∀ k' ∈ g.coords, ∀ q ∈ g1.cells k', tooClose p q d = true → q.w ≤ hi' := by
      intro k' hk' q hq hc
      obtain ⟨i, hi, rfl⟩ := List.mem_iff_getElem.mp hq
      have hm : i ∈ violators p d (g1.cells k') :=
        mem_violators.mpr ⟨_, List.getElem?_eq_getElem hi, hc⟩
      have hkey : k' ∈ m.map Prod.fst := by
        by_contra hnk
        rw [hdes1.rest k' (by rw [hco]; exact hk') hnk] at hm
        simp at hm
      obtain ⟨e, he, rfl⟩ := List.mem_map.mp hkey
      rw [← (hdes1.entry e he).2] at hm
      obtain ⟨j, hj, hje⟩ := List.mem_iff_getElem.mp hm
      exact hmax (e.1, j, i) (mem_triples.mpr ⟨e, he, rfl, by rw [← hje]; exact List.getElem?_eq_getElem hj⟩)
        _ (List.getElem?_eq_getElem hi)
    have hpin : p ∈ g1.cells k := by rw [hcells1, if_pos rfl]; simp
    have hpw : p.w ≤ hi' := hlook k hk p hpin (tooClose_self p hd)
    rcases hcase with ⟨h1, h2⟩ | ⟨hgt, t, ht, best, hbest, hbw, hsel⟩
    · right
      subst h1
      refine ⟨?_, hpw⟩
      simp only [gt_iff_lt, lt_self_iff_false, decide_false, Outcome.check_false, Outcome.bind_abort]
    · left
      subst hsel
      simp only
      rw [show decide (hi' > lib.lowest) = true from decide_eq_true hgt, Outcome.check_true,
        Outcome.bind_ok]
      obtain ⟨eb, heb, hebk, hebi⟩ := mem_triples.mp ht
      have hkeys : (dropViolator m t.1 t.2.1).map Prod.fst = m.map Prod.fst := by
        unfold dropViolator
        rw [List.map_map]
        apply List.map_congr_left
        intro e _
        simp only [Function.comp]
        split <;> rfl
      have hent : ∀ e ∈ dropViolator m t.1 t.2.1, ∃ e0 ∈ m, e.1 = e0.1 ∧
          e.2 = if e0.1 = t.1 then (violators p d (g1.cells e0.1)).eraseIdx t.2.1
            else violators p d (g1.cells e0.1) := by
        intro e he
        unfold dropViolator at he
        rw [List.mem_map] at he
        obtain ⟨e0, h0, rfl⟩ := he
        refine ⟨e0, h0, ?_⟩
        rw [← (hdes1.entry e0 h0).2]
        split <;> simp
      obtain ⟨g', hf, hinv', ⟨n, hsame⟩, hin', hout'⟩ := erase_fold (es := dropViolator m t.1 t.2.1)
        hinv1 (by rw [hkeys]; exact hdes1.keys) (by
          intro e he
          obtain ⟨e0, h0, h1, h2⟩ := hent e he
          have hn := violators_nodup p d (g1.cells e0.1)
          refine ⟨by rw [h1]; exact (hdes1.entry e0 h0).1, ?_, ?_⟩
          · rw [h2]
            split
            · exact hn.sublist (List.eraseIdx_sublist _ _)
            · exact hn
          · intro i hi
            rw [h2] at hi
            rw [h1]
            apply violators_lt (p := p) (d := d)
            split at hi
            · exact List.mem_of_mem_eraseIdx hi
            · exact hi)
      have hbestc : tooClose p best d = true := by
        have hm : t.2.2 ∈ violators p d (g1.cells eb.1) := by
          rw [← (hdes1.entry eb heb).2]; exact List.mem_of_getElem? hebi
        obtain ⟨q, h1, h2⟩ := mem_violators.mp hm
        rw [hebk, hbest, Option.some.injEq] at h1
        subst h1; exact h2
      have htk : t.1 ∈ g.coords := by
        rw [← hebk, ← hco]; exact (hdes1.entry eb heb).1
      have hco' : g'.coords = g.coords := by rw [hsame, ← hco]; rfl
      -- content of the cells afterwards
      have hcell : ∀ k' ∈ g.coords, k' ≠ t.1 →
          g'.cells k' = (g.cells k').filter (fun q => !tooClose p q d) := by
        intro k' hk' hne
        rw [← hfilter]
        by_cases hkey : k' ∈ m.map Prod.fst
        · rw [← hkeys] at hkey
          obtain ⟨e, he, rfl⟩ := List.mem_map.mp hkey
          obtain ⟨e0, h0, h1, h2⟩ := hent e he
          rw [hin' e he, h2, if_neg (by rw [← h1]; exact hne), h1, without_violators]
        · rw [hout' k' (by rw [hkeys]; exact hkey)]
          have := hdes1.rest k' (by rw [hco]; exact hk') hkey
          rw [violators_nil_iff] at this
          rw [List.filter_eq_self.mpr]
          intro q hq
          simp [this q hq]
      have hcellb : (g'.cells t.1).Perm
          (best :: (g.cells t.1).filter (fun q => !tooClose p q d)) := by
        have hkey : t.1 ∈ (dropViolator m t.1 t.2.1).map Prod.fst := by
          rw [hkeys, ← hebk]; exact List.mem_map_of_mem heb
        obtain ⟨e, he, hek⟩ := List.mem_map.mp hkey
        obtain ⟨e0, h0, h1, h2⟩ := hent e he
        have h01 : e0.1 = t.1 := by rw [← h1, hek]
        rw [if_pos h01] at h2
        have := hin' e he
        rw [hek, h2, h01] at this
        rw [this, ← hfilter, ← without_violators]
        refine without_eraseIdx (violators_nodup _ _ _) (i := t.2.2) ?_ hbest
        rw [← hebk, ← (hdes1.entry eb heb).2]
        exact hebi
      have hsame2 : g' = { g with num := n, cells := g'.cells } := by
        rw [hsame, ← hg1]; rfl
      refine ⟨g', hf, hinv', ⟨best, ?_, ?_, ?_, ?_⟩, n, hsame2⟩
      · unfold Grid.all
        rw [hco', List.filter_flatMap]
        have p1 := (List.perm_cons_erase htk).flatMap_right g'.cells
        have p2 := (List.perm_cons_erase htk).flatMap_right
          (fun k' => (g.cells k').filter (fun q => !tooClose p q d))
        rw [List.flatMap_cons] at p1 p2
        refine p1.trans (List.Perm.trans ?_ (p2.symm.cons best))
        rw [← List.cons_append]
        refine hcellb.append ?_
        rw [flatMap_congr' (f := g'.cells)
          (g := fun k' => (g.cells k').filter (fun q => !tooClose p q d))]
        intro a ha
        apply hcell a (List.mem_of_mem_erase ha)
        rintro rfl
        exact (List.Nodup.not_mem_erase (coords_nodup g)) ha
      · have := List.mem_of_getElem? hbest
        rw [hcells1] at this
        split at this
        · rename_i e
          rcases List.mem_append.mp this with h | h
          · exact Or.inr ⟨mem_all.mpr ⟨k, hk, h⟩, hbestc⟩
          · simp only [List.mem_singleton] at h
            exact Or.inl h
        · exact Or.inr ⟨mem_all.mpr ⟨t.1, htk, this⟩, hbestc⟩
      · rw [hbw]; exact hpw
      · intro q hq hc
        obtain ⟨k', hk', hqk⟩ := mem_all.mp hq
        rw [hbw]
        refine hlook k' hk' q ?_ hc
        rw [hcells1]
        split
        · rename_i e; subst e; exact List.mem_append_left _ hqk
        · exact hqk

end Verif.OccupancyGrid
