import Mathlib.Data.List.Nodup
import Mathlib.Tactic.Linarith
import Mathlib.Tactic.NormNum
import Verif.Kaze.Extrema

/-!
# Property C94: detection of extrema in the scale space
-/

namespace Verif.Kaze.Extrema

open Verif (Outcome)

/-- The pixel is a maximum of the response among its neighbours in its own level and in the levels below and above,
and passes the threshold. -/
def Maximum (rows cols : Nat) (Ldet : Nat → Level) (dthreshold : ℚ) (level ix jx : Nat) : Prop :=
  0 < ix ∧ ix + 1 < rows ∧ 0 < jx ∧ jx + 1 < cols ∧ dthreshold < Ldet level ix jx ∧ 1 / 100000 ≤ Ldet level ix jx ∧
    ∀ l i j : Nat, l + 1 = level ∨ l = level ∨ l = level + 1 → i ≤ ix + 1 → ix ≤ i + 1 → j ≤ jx + 1 → jx ≤ j + 1 →
      Ldet l i j ≤ Ldet level ix jx

theorem checkMaximum_iff {rows cols : Nat} {img : Level} {value : ℚ} {row col : Nat} {same : Bool}
    (hr : 0 < row) (hr1 : row + 1 < rows) (hc : 0 < col) (hc1 : col + 1 < cols)
    (hs : same = true → img row col ≤ value) :
    checkMaximum rows cols img 1 value row col same = true ↔
      ∀ i j : Nat, i ≤ row + 1 → row ≤ i + 1 → j ≤ col + 1 → col ≤ j + 1 → img i j ≤ value := by
  unfold checkMaximum
  simp only [List.all_eq_true, List.mem_range]
  constructor
  · intro h i j h1 h2 h3 h4
    have := h (i + 1 - row) (by omega) (j + 1 - col) (by omega)
    have e1 : ((row : Int) - (1 : Nat) + ((i + 1 - row : Nat) : Int)) = i := by omega
    have e2 : ((col : Int) - (1 : Nat) + ((j + 1 - col : Nat) : Int)) = j := by omega
    rw [e1, e2, if_pos (by omega)] at this
    simp only [Int.toNat_natCast] at this
    by_cases hsame : same = true
    · rw [if_pos hsame] at this
      by_cases hd : (i : Int) ≠ row ∨ (j : Int) ≠ col
      · rw [if_pos hd] at this
        simpa using this
      · have ei : i = row := by omega
        have ej : j = col := by omega
        rw [ei, ej]
        exact hs hsame
    · rw [if_neg hsame] at this
      simpa using this
  · intro h a ha b hb
    split
    · rename_i hin
      have hi := h ((row : Int) - (1 : Nat) + a).toNat ((col : Int) - (1 : Nat) + b).toNat (by omega) (by omega) (by omega)
        (by omega)
      split
      · split
        · simpa using hi
        · rfl
      · simpa using hi
    · rfl

/-- C94: a pixel is found exactly if it is a maximum. -/
theorem isExtremum_iff {rows cols : Nat} {Ldet : Nat → Level} {dthreshold : ℚ} {level ix jx : Nat} (hl : 0 < level)
    (h1 : 0 < ix) (h2 : ix + 1 < rows) (h3 : 0 < jx) (h4 : jx + 1 < cols) :
    isExtremum rows cols Ldet dthreshold level ix jx = true ↔ Maximum rows cols Ldet dthreshold level ix jx := by
  unfold isExtremum Maximum
  simp only [Bool.and_eq_true, decide_eq_true_eq]
  rw [checkMaximum_iff h1 h2 h3 h4 (fun _ => le_rfl), checkMaximum_iff h1 h2 h3 h4 (fun h => by simp at h),
    checkMaximum_iff h1 h2 h3 h4 (fun h => by simp at h)]
  constructor
  · rintro ⟨⟨a, b⟩, -, c, d, e⟩
    refine ⟨h1, h2, h3, h4, a, b, ?_⟩
    intro l i j hll hi hi' hj hj'
    rcases hll with hll | rfl | rfl
    · have : l = level - 1 := by omega
      subst this
      exact d i j hi hi' hj hj'
    · exact c i j hi hi' hj hj'
    · exact e i j hi hi' hj hj'
  · rintro ⟨-, -, -, -, a, b, h⟩
    refine ⟨⟨a, b⟩, h level ix (jx - 1) (.inr (.inl rfl)) (by omega) (by omega) (by omega) (by omega), ?_, ?_, ?_⟩
    · intro i j
      exact h level i j (.inr (.inl rfl))
    · intro i j
      exact h (level - 1) i j (.inl (by omega))
    · intro i j
      exact h (level + 1) i j (.inr (.inr rfl))

/-- C94: the candidates of a level are its maxima, with position and response. -/
theorem findLevel_iff {rows cols : Nat} {Ldet : Nat → Level} {dthreshold : ℚ} {level : Nat} (hl : 0 < level) (k : Kp) :
    k ∈ findLevel rows cols Ldet dthreshold level ↔
      k.level = level ∧ k.response = Ldet level k.y k.x ∧ Maximum rows cols Ldet dthreshold level k.y k.x := by
  unfold findLevel
  simp only [List.mem_flatMap, List.mem_map, List.mem_filter, List.mem_range'_1]
  constructor
  · rintro ⟨ix, hi, jx, ⟨hj, he⟩, rfl⟩
    have hm := (isExtremum_iff hl (by omega) (by omega) (by omega) (by omega)).1 he
    refine ⟨rfl, ?_, hm⟩
    exact abs_of_nonneg (le_trans (by norm_num) hm.2.2.2.2.2.1)
  · rintro ⟨rfl, hr, hm⟩
    refine ⟨k.y, ⟨hm.1, by have := hm.2.1; omega⟩, k.x, ⟨⟨hm.2.2.1, by have := hm.2.2.2.1; omega⟩,
      (isExtremum_iff hl hm.1 hm.2.1 hm.2.2.1 hm.2.2.2.1).2 hm⟩, ?_⟩
    rw [abs_of_nonneg (le_trans (by norm_num) hm.2.2.2.2.2.1), ← hr]

/-- C94: every maximum of a level is a candidate once. -/
theorem findLevel_nodup (rows cols : Nat) (Ldet : Nat → Level) (dthreshold : ℚ) (level : Nat) :
    (findLevel rows cols Ldet dthreshold level).Nodup := by
  unfold findLevel
  rw [List.nodup_flatMap]
  constructor
  · intro ix _
    refine List.Nodup.map ?_ (List.Nodup.filter _ List.nodup_range')
    intro a b h
    simpa using congrArg Kp.x h
  · refine List.Pairwise.imp ?_ (List.nodup_range' (s := 1) (n := rows - 2))
    intro a b hab
    rw [Function.onFun, List.disjoint_left]
    intro k h1 h2
    rw [List.mem_map] at h1 h2
    obtain ⟨x, _, rfl⟩ := h1
    obtain ⟨y, _, e⟩ := h2
    exact hab (congrArg Kp.y e).symm

/-! ## Suppression of repeated points -/

/-- The points are near in the image and in scale. -/
def Near (sigma : Nat → Nat) (c k : Kp) : Prop :=
  (k.level ≤ c.level + 1 ∧ c.level ≤ k.level + 1) ∧
    ((c.x : ℚ) - k.x) ^ 2 + ((c.y : ℚ) - k.y) ^ 2 < (sigma c.level : ℚ) ^ 2

theorem near_iff (sigma : Nat → Nat) (c k : Kp) : near sigma c k = true ↔ Near sigma c k := by
  unfold near Near
  simp only [Bool.and_eq_true, Bool.or_eq_true, decide_eq_true_eq]
  refine and_congr (by omega) ?_
  constructor
  · intro h
    have : ((((c.x : Int) - k.x) * ((c.x : Int) - k.x) + ((c.y : Int) - k.y) * ((c.y : Int) - k.y) : Int) : ℚ) <
        (((sigma c.level : Int) * sigma c.level : Int) : ℚ) := by exact_mod_cast h
    push_cast at this
    linarith
  · intro h
    have : ((((c.x : Int) - k.x) * ((c.x : Int) - k.x) + ((c.y : Int) - k.y) * ((c.y : Int) - k.y) : Int) : ℚ) <
        (((sigma c.level : Int) * sigma c.level : Int) : ℚ) := by
      push_cast
      linarith
    exact_mod_cast this

/-- What a round does: the candidate is added if no keypoint is near; it takes the place of the first near keypoint if it
is stronger than this one; otherwise it is dropped. -/
theorem mergeStep_cases (sigma : Nat → Nat) (kpts : List Kp) (c : Kp) :
    ((∀ k ∈ kpts, ¬ Near sigma c k) ∧ mergeStep sigma kpts c = kpts ++ [c]) ∨
    ∃ i k, kpts[i]? = some k ∧ Near sigma c k ∧ (∀ (j : Nat) k', j < i → kpts[j]? = some k' → ¬ Near sigma c k') ∧
      ((k.response < c.response ∧ mergeStep sigma kpts c = kpts.set i c) ∨
        (c.response ≤ k.response ∧ mergeStep sigma kpts c = kpts)) := by
  unfold mergeStep
  cases h : kpts.findIdx? (near sigma c) with
  | none =>
    left
    refine ⟨fun k hk hn => ?_, rfl⟩
    rw [List.findIdx?_eq_none_iff] at h
    have := h k hk
    rw [(near_iff sigma c k).2 hn] at this
    simp at this
  | some i =>
    right
    rw [List.findIdx?_eq_some_iff_getElem] at h
    obtain ⟨hi, hn, hf⟩ := h
    refine ⟨i, kpts[i], List.getElem?_eq_getElem hi, (near_iff sigma c _).1 hn, ?_, ?_⟩
    · intro j k' hj hk' hn'
      obtain ⟨hjl, rfl⟩ := List.getElem?_eq_some_iff.1 hk'
      exact hf j hj ((near_iff sigma c _).2 hn')
    · simp only [List.getElem?_eq_getElem hi]
      by_cases hr : kpts[i].response < c.response
      · exact .inl ⟨hr, by rw [if_pos hr]⟩
      · exact .inr ⟨by linarith, by rw [if_neg hr]⟩

theorem mem_mergeStep {sigma : Nat → Nat} {kpts : List Kp} {c k : Kp} (h : k ∈ mergeStep sigma kpts c) :
    k ∈ kpts ∨ k = c := by
  rcases mergeStep_cases sigma kpts c with ⟨-, e⟩ | ⟨i, k', -, -, -, ⟨-, e⟩ | ⟨-, e⟩⟩
  · rw [e] at h
    simpa using h
  · rw [e] at h
    exact List.mem_or_eq_of_mem_set h
  · rw [e] at h
    exact .inl h

/-- A keypoint is lost only to a stronger one. -/
theorem mergeStep_keeps {sigma : Nat → Nat} {kpts : List Kp} {c k : Kp} (h : k ∈ kpts) (hr : c.response ≤ k.response) :
    k ∈ mergeStep sigma kpts c := by
  rcases mergeStep_cases sigma kpts c with ⟨-, e⟩ | ⟨i, k', hk', -, -, ⟨hlt, e⟩ | ⟨-, e⟩⟩
  · rw [e]
    exact List.mem_append_left _ h
  · rw [e]
    obtain ⟨j, hj⟩ := List.mem_iff_getElem?.1 h
    have hij : i ≠ j := by
      rintro rfl
      rw [hk'] at hj
      injection hj with hj
      subst hj
      linarith
    exact List.mem_iff_getElem?.2 ⟨j, by rw [List.getElem?_set_ne hij]; exact hj⟩
  · rw [e]
    exact h

theorem mem_merge {sigma : Nat → Nat} : ∀ (cands kpts : List Kp) {k : Kp}, k ∈ cands.foldl (mergeStep sigma) kpts →
    k ∈ kpts ∨ k ∈ cands
  | [], kpts, k, h => .inl h
  | c :: cands, kpts, k, h => by
    rcases mem_merge cands _ h with h | h
    · rcases mem_mergeStep h with h | rfl
      · exact .inl h
      · exact .inr (by simp)
    · exact .inr (List.mem_cons_of_mem _ h)

theorem merge_keeps {sigma : Nat → Nat} : ∀ (cands kpts : List Kp) {k : Kp}, k ∈ kpts →
    (∀ c ∈ cands, c.response ≤ k.response) → k ∈ cands.foldl (mergeStep sigma) kpts
  | [], _, _, h, _ => h
  | c :: cands, kpts, k, h, hr => by
    rw [List.foldl_cons]
    exact merge_keeps cands _ (mergeStep_keeps h (hr c (by simp))) fun c' hc' => hr c' (List.mem_cons_of_mem _ hc')

theorem merge_strongest {sigma : Nat → Nat} : ∀ (cands kpts : List Kp) {c : Kp}, c ∈ cands →
    (∀ c' ∈ cands, c'.response ≤ c.response) → (∀ k ∈ kpts, k.response < c.response) →
    (∀ c' ∈ cands, c' ≠ c → c'.response < c.response) → c ∈ cands.foldl (mergeStep sigma) kpts
  | [], _, _, h, _, _, _ => by simp at h
  | d :: cands, kpts, c, h, hr, hk, hs => by
    rw [List.foldl_cons]
    by_cases e : d = c
    · subst e
      refine merge_keeps cands _ ?_ fun c' hc' => hr c' (List.mem_cons_of_mem _ hc')
      rcases mergeStep_cases sigma kpts d with ⟨-, e⟩ | ⟨i, k', hk', -, -, ⟨hlt, e⟩ | ⟨hle, e⟩⟩
      · rw [e]
        simp
      · rw [e]
        obtain ⟨hi, _⟩ := List.getElem?_eq_some_iff.1 hk'
        exact List.mem_iff_getElem?.2 ⟨i, by simp [hi]⟩
      · have := hk k' (List.mem_iff_getElem?.2 ⟨i, hk'⟩)
        linarith
    · refine merge_strongest cands _ ((List.mem_cons.1 h).resolve_left (Ne.symm e)) (fun c' hc' => hr c' (List.mem_cons_of_mem _ hc')) ?_
        fun c' hc' => hs c' (List.mem_cons_of_mem _ hc')
      intro k hk'
      rcases mem_mergeStep hk' with hk' | rfl
      · exact hk k hk'
      · exact hs _ (by simp) e

theorem merge_far {sigma : Nat → Nat} : ∀ (cands kpts : List Kp),
    (kpts ++ cands).Pairwise (fun k c => ¬ Near sigma c k) → cands.foldl (mergeStep sigma) kpts = kpts ++ cands
  | [], kpts, _ => by simp
  | c :: cands, kpts, h => by
    rw [List.foldl_cons]
    have e : mergeStep sigma kpts c = kpts ++ [c] := by
      rcases mergeStep_cases sigma kpts c with ⟨-, e⟩ | ⟨i, k', hk', hn, -⟩
      · exact e
      · exact absurd hn ((List.pairwise_append.1 h).2.2 k' (List.mem_iff_getElem?.2 ⟨i, hk'⟩) c (by simp))
    rw [e, merge_far cands (kpts ++ [c]) (by simpa using h)]
    simp

theorem mem_cands {rows cols : Nat} {Ldet : Nat → Level} {dthreshold : ℚ} {n : Nat} {k : Kp} :
    k ∈ ((List.range' 1 (n - 2)).flatMap fun level => findLevel rows cols Ldet dthreshold level) ↔
      0 < k.level ∧ k.level + 1 < n ∧ k.response = Ldet k.level k.y k.x ∧
        Maximum rows cols Ldet dthreshold k.level k.y k.x := by
  simp only [List.mem_flatMap, List.mem_range'_1]
  constructor
  · rintro ⟨l, hl, h⟩
    obtain ⟨rfl, h2, h3⟩ := (findLevel_iff (by omega) k).1 h
    exact ⟨by omega, by omega, h2, h3⟩
  · rintro ⟨h1, h2, h3, h4⟩
    exact ⟨k.level, ⟨by omega, by omega⟩, (findLevel_iff h1 k).2 ⟨rfl, h3, h4⟩⟩

/-- C94: the detector returns maxima only, besides what was in the vector before. -/
theorem detect_sound {rows cols : Nat} {Ldet : Nat → Level} {dthreshold : ℚ} {sigma : Nat → Nat} {n : Nat}
    {kpts out : List Kp} (h : detect rows cols Ldet dthreshold sigma n kpts = .ok out) {k : Kp} (hk : k ∈ out) :
    k ∈ kpts ∨ (0 < k.level ∧ k.level + 1 < n ∧ k.response = Ldet k.level k.y k.x ∧
      Maximum rows cols Ldet dthreshold k.level k.y k.x) := by
  unfold detect at h
  split at h
  · exact absurd h (by simp)
  injection h with h
  subst h
  rcases mem_merge _ _ hk with hk | hk
  · exact .inl hk
  · exact .inr (mem_cands.1 hk)

/-- C94: the strongest maximum of all is returned. -/
theorem detect_strongest {rows cols : Nat} {Ldet : Nat → Level} {dthreshold : ℚ} {sigma : Nat → Nat} {n : Nat}
    (hn : n ≠ 0) {l i j : Nat} (hl : 0 < l) (hln : l + 1 < n) (hm : Maximum rows cols Ldet dthreshold l i j)
    (hs : ∀ l' i' j', 0 < l' → l' + 1 < n → Maximum rows cols Ldet dthreshold l' i' j' → (l', i', j') ≠ (l, i, j) →
      Ldet l' i' j' < Ldet l i j) :
    ∃ out, detect rows cols Ldet dthreshold sigma n [] = .ok out ∧ ⟨j, i, Ldet l i j, l⟩ ∈ out := by
  unfold detect
  rw [if_neg hn]
  refine ⟨_, rfl, ?_⟩
  have key : ∀ c' : Kp, 0 < c'.level → c'.level + 1 < n → c'.response = Ldet c'.level c'.y c'.x →
      Maximum rows cols Ldet dthreshold c'.level c'.y c'.x → c' ≠ ⟨j, i, Ldet l i j, l⟩ → c'.response < Ldet l i j := by
    intro c' h1 h2 h3 h4 hne
    rw [h3]
    refine hs _ _ _ h1 h2 h4 fun e => hne ?_
    simp only [Prod.mk.injEq] at e
    obtain ⟨e1, e2, e3⟩ := e
    rw [e1, e2, e3] at h3
    cases c'
    simp_all
  refine merge_strongest _ _ (mem_cands.2 ⟨hl, hln, rfl, hm⟩) ?_ (by simp) ?_
  · intro c' hc'
    obtain ⟨h1, h2, h3, h4⟩ := mem_cands.1 hc'
    by_cases e : c' = ⟨j, i, Ldet l i j, l⟩
    · rw [e]
    · exact (key c' h1 h2 h3 h4 e).le
  · intro c' hc' hne
    obtain ⟨h1, h2, h3, h4⟩ := mem_cands.1 hc'
    exact key c' h1 h2 h3 h4 hne

/-- C94: if no two maxima are near, all of them are returned. -/
theorem detect_far {rows cols : Nat} {Ldet : Nat → Level} {dthreshold : ℚ} {sigma : Nat → Nat} {n : Nat} (hn : n ≠ 0)
    (hf : ∀ c k : Kp, Maximum rows cols Ldet dthreshold c.level c.y c.x → Maximum rows cols Ldet dthreshold k.level k.y k.x →
      (c.level, c.y, c.x) ≠ (k.level, k.y, k.x) → ¬ Near sigma c k) :
    ∃ out, detect rows cols Ldet dthreshold sigma n [] = .ok out ∧
      ∀ k, k ∈ out ↔ 0 < k.level ∧ k.level + 1 < n ∧ k.response = Ldet k.level k.y k.x ∧
        Maximum rows cols Ldet dthreshold k.level k.y k.x := by
  unfold detect
  rw [if_neg hn]
  refine ⟨_, rfl, fun k => ?_⟩
  rw [merge_far]
  · rw [List.nil_append]
    exact mem_cands
  · rw [List.nil_append]
    have hnd : ((List.range' 1 (n - 2)).flatMap fun level => findLevel rows cols Ldet dthreshold level).Nodup := by
      rw [List.nodup_flatMap]
      constructor
      · intro l _
        exact findLevel_nodup rows cols Ldet dthreshold l
      · have hp : (List.range' 1 (n - 2)).Pairwise fun a b => a ≠ b ∧ 0 < a ∧ 0 < b := by
          rw [List.pairwise_and_iff, List.pairwise_and_iff]
          refine ⟨List.nodup_range', ?_, ?_⟩
          · exact List.pairwise_of_forall_mem_list fun a ha b _ => by
              rw [List.mem_range'_1] at ha; omega
          · exact List.pairwise_of_forall_mem_list fun a _ b hb => by
              rw [List.mem_range'_1] at hb; omega
        refine hp.imp ?_
        rintro a b ⟨hab, ha, hb⟩
        rw [Function.onFun, List.disjoint_left]
        intro k h1 h2
        exact hab (((findLevel_iff ha k).1 h1).1.symm.trans ((findLevel_iff hb k).1 h2).1)
    refine List.Pairwise.imp_of_mem ?_ hnd
    intro a b ha hb hab
    obtain ⟨-, -, a3, a4⟩ := mem_cands.1 ha
    obtain ⟨-, -, b3, b4⟩ := mem_cands.1 hb
    refine hf b a b4 a4 fun e => hab ?_
    simp only [Prod.mk.injEq] at e
    obtain ⟨e1, e2, e3⟩ := e
    cases a
    cases b
    simp_all

/-- Three peaks in the second level of three: at (1,1), (1,5) and (3,3). -/
def peaks : Nat → Level := fun l i j =>
  if l = 1 then
    if i = 1 ∧ j = 1 then 1 else if i = 1 ∧ j = 5 then 5 else if i = 3 ∧ j = 3 then 3 else 0
  else 0

/-- C94: the keypoints may be near each other: the peak in the middle takes the place of the first one, though the second
one is near as well and stronger. -/
theorem detect_near_refuted :
    detect 5 7 peaks 0 (fun _ => 3) 3 [] = .ok [⟨3, 3, 3, 1⟩, ⟨5, 1, 5, 1⟩] ∧
      Near (fun _ => 3) ⟨3, 3, 3, 1⟩ ⟨5, 1, 5, 1⟩ := by
  refine ⟨by decide +kernel, ?_⟩
  unfold Near
  norm_num

/-- C94: keypoints at the border of the image are kept, whatever their size. -/
theorem detect_border_refuted :
    detect 3 3 (fun l i j => if l = 1 ∧ i = 1 ∧ j = 1 then 1 else 0) 0 (fun _ => 100) 3 [] = .ok [⟨1, 1, 1, 1⟩] := by
  decide +kernel

/-- C94: keypoints of an image before stay in the vector. -/
theorem detect_stale_refuted : detect 3 3 (fun _ _ _ => 0) 0 (fun _ => 3) 3 [⟨7, 7, 1, 1⟩] = .ok [⟨7, 7, 1, 1⟩] := by
  decide +kernel

/-- C94: without levels the detector fails. -/
theorem detect_empty (rows cols : Nat) (Ldet : Nat → Level) (dthreshold : ℚ) (sigma : Nat → Nat) (kpts : List Kp) :
    detect rows cols Ldet dthreshold sigma 0 kpts = .exc := rfl

example : Maximum 5 7 peaks 0 1 3 3 := by
  have : isExtremum 5 7 peaks 0 1 3 3 = true := by decide +kernel
  exact (isExtremum_iff (by norm_num) (by norm_num) (by norm_num) (by norm_num) (by norm_num)).1 this

end Verif.Kaze.Extrema
