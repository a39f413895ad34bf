import Verif.VisualFrame.Model
import Verif.StlHelpers.Props

/-!
# Properties C32, C33 and C34
-/

namespace Verif.VisualFrame

open Verif (Outcome)
open Verif.StlHelpers (eigenErase without erase_eigen_exact erase_eigen_only_exact)

/-! ## C32 -/

/-- Specification: the entries of `data` whose keypoint has a non-negative track id, in their order. -/
def keepTracked {α : Type} (ids : List Int) (data : List α) : List α :=
  ((ids.zip data).filter (fun p => decide (0 ≤ p.1))).map Prod.snd

theorem mem_positions (q : Int → Bool) {l : List Int} {k i : Nat} :
    i ∈ ((l.zipIdx k).filter (fun p => q p.1)).map Prod.snd ↔
      k ≤ i ∧ ∃ x, l[i - k]? = some x ∧ q x = true := by
  rw [List.mem_map]
  constructor
  · rintro ⟨⟨x, j⟩, hm, rfl⟩
    rw [List.mem_filter, List.mk_mem_zipIdx_iff_le_and_getElem?_sub] at hm
    exact ⟨hm.1.1, x, hm.1.2, hm.2⟩
  · rintro ⟨hk, x, hx, hq⟩
    refine ⟨(x, i), ?_, rfl⟩
    rw [List.mem_filter, List.mk_mem_zipIdx_iff_le_and_getElem?_sub]
    exact ⟨⟨hk, hx⟩, hq⟩

theorem positions_sorted (q : Int → Bool) (l : List Int) (k : Nat) :
    (((l.zipIdx k).filter (fun p => q p.1)).map Prod.snd).Pairwise (· < ·) := by
  induction l generalizing k with
  | nil => simp
  | cons x l ih =>
    rw [List.zipIdx_cons]
    by_cases hx : q x = true
    · rw [List.filter_cons_of_pos (by simpa using hx), List.map_cons, List.pairwise_cons]
      refine ⟨?_, ih (k + 1)⟩
      intro j hj
      have := ((mem_positions q).mp hj).1
      simp only
      omega
    · rw [List.filter_cons_of_neg (by simpa using hx)]
      exact ih (k + 1)

theorem mem_untracked {ids : List Int} {i : Nat} :
    i ∈ untracked ids ↔ ∃ x, ids[i]? = some x ∧ x < 0 := by
  unfold untracked
  rw [mem_positions (fun x => decide (x < 0))]
  simp

theorem untracked_sorted (ids : List Int) : (untracked ids).Pairwise (· < ·) :=
  positions_sorted (fun x => decide (x < 0)) ids 0

/-- Removing the untracked positions is the specification. -/
theorem without_untracked {α : Type} {ids : List Int} {data : List α} (h : data.length = ids.length) :
    without data (untracked ids) = keepTracked ids data := by
  have key : ∀ (l : List (α × Nat)) (js : List Int), l.length = js.length →
      (∀ (k : Nat) (p : α × Nat), l[k]? = some p → (p.2 ∈ untracked ids ↔ ∃ x, js[k]? = some x ∧ x < 0)) →
      (l.filter (fun p : α × Nat => decide (p.2 ∉ untracked ids))).map Prod.fst =
        ((js.zip (l.map Prod.fst)).filter (fun p => decide (0 ≤ p.1))).map Prod.snd := by
    intro l
    induction l with
    | nil =>
      intro js hl _
      have : js = [] := List.length_eq_zero_iff.mp hl.symm
      subst this; rfl
    | cons p l ih =>
      intro js hl hm
      cases js with
      | nil => simp at hl
      | cons j js =>
        have h0 := hm 0 p rfl
        have ih' := ih js (by simpa using hl) (fun k q hq => hm (k + 1) q hq)
        simp only [List.getElem?_cons_zero, Option.some.injEq, exists_eq_left'] at h0
        rw [List.map_cons, List.zip_cons_cons]
        by_cases hj : j < 0
        · rw [List.filter_cons_of_neg (by simpa using h0.mpr hj),
            List.filter_cons_of_neg (by simpa using hj)]
          exact ih'
        · have hn : p.2 ∉ untracked ids := fun hh => hj (h0.mp hh)
          rw [List.filter_cons_of_pos (by simpa using hn),
            List.filter_cons_of_pos (by simp; omega), List.map_cons, List.map_cons, ih']
  have hz : data = data.zipIdx.map Prod.fst := by simp
  unfold without keepTracked
  rw [key data.zipIdx ids (by simpa using h) ?_, ← hz]
  intro k p hp
  rw [List.getElem?_zipIdx] at hp
  cases hd : data[k]? with
  | none => rw [hd] at hp; simp at hp
  | some d =>
    rw [hd] at hp
    simp only [Option.map_some, Option.some.injEq] at hp
    subst hp
    simpa using mem_untracked (ids := ids) (i := k)

theorem keepTracked_of_none {α : Type} {ids : List Int} {data : List α} (h : data.length = ids.length)
    (hn : untracked ids = []) : keepTracked ids data = data := by
  rw [← without_untracked h, hn]
  simp [without, List.filter_eq_self.mpr]

theorem erase_untracked {α : Type} (junk : α) {ids : List Int} {data : List α}
    (hlen : ids.length < 2 ^ 31) (h : data.length = ids.length) (hn : untracked ids ≠ []) :
    eigenErase junk (untracked ids) ids.length data = .ok (keepTracked ids data) := by
  rw [← without_untracked h, ← h]
  apply erase_eigen_exact
  · omega
  · exact hn
  · exact untracked_sorted ids
  · intro i hi
    obtain ⟨x, hx, _⟩ := mem_untracked.mp hi
    have := (List.getElem?_eq_some_iff.mp hx).1
    omega

/-- Apply a function to some channels. -/
def mapChans (f : Frame) (cs : List Chan) (g : List Int → List Int) : Frame :=
  { f with chan := fun c => if c ∈ cs then (f.chan c).map g else f.chan c }

theorem eraseChan_exact (junk : Int) {ids : List Int} {f : Frame} {c : Chan}
    (hlen : ids.length < 2 ^ 31) (hn : untracked ids ≠ [])
    (h : ∀ d, f.chan c = some d → d.length = ids.length) :
    eraseChan junk (untracked ids) ids.length f c = .ok (mapChans f [c] (keepTracked ids)) := by
  unfold eraseChan
  cases hc : f.chan c with
  | none =>
    simp only
    congr 1
    cases f with
    | mk ch ds ts =>
      simp only [mapChans, Frame.mk.injEq, and_true]
      funext x
      by_cases hx : x = c
      · subst hx
        have hc : ch x = none := hc
        simp [hc]
      · simp [hx]
  | some d =>
    simp only
    rw [erase_untracked junk hlen (h d hc) hn, Outcome.bind_ok]
    congr 1
    simp only [mapChans, Frame.setChan, Frame.mk.injEq, and_true]
    funext x
    by_cases hx : x = c
    · subst hx; simp [hc]
    · simp [hx]

theorem eraseChans_exact (junk : Int) {ids : List Int} (hlen : ids.length < 2 ^ 31)
    (hn : untracked ids ≠ []) : ∀ (cs : List Chan) (f : Frame), cs.Nodup →
      (∀ c ∈ cs, ∀ d, f.chan c = some d → d.length = ids.length) →
      eraseChans junk (untracked ids) ids.length cs f = .ok (mapChans f cs (keepTracked ids))
  | [], f, _, _ => by
    simp [eraseChans, mapChans]
  | c :: cs, f, hnd, h => by
    rw [List.nodup_cons] at hnd
    rw [eraseChans, eraseChan_exact junk hlen hn (h c List.mem_cons_self), Outcome.bind_ok,
      eraseChans_exact junk hlen hn cs _ hnd.2]
    · congr 1
      simp only [mapChans, Frame.mk.injEq, and_true]
      funext x
      by_cases hx : x = c
      · subst hx; simp [hnd.1]
      · simp [hx]
    · intro c' hc' d hd
      have hne : c' ≠ c := fun hh => hnd.1 (hh ▸ hc')
      simp only [mapChans, List.mem_singleton, hne, if_false] at hd
      exact h c' (List.mem_cons_of_mem _ hc') d hd

/-- **C32 (effect).** For a frame with at most one descriptor block whose channels have one entry per track
id: the call removes exactly the entries of keypoints with a negative track id from every channel except the
3D positions and the time offsets, which it leaves alone. -/
theorem discard_effect (junk : Int) (junkD : Desc) {f : Frame} {ids : List Int}
    (hids : f.chan .trackIds = some ids) (hlen : ids.length < 2 ^ 31)
    (hsize : ∀ c d, f.chan c = some d → d.length = ids.length)
    (hdesc : f.descriptors = none ∨ ∃ b, f.descriptors = some [b] ∧ b.length = ids.length) :
    ∃ f', discardUntracked junk junkD f = .ok (f', untracked ids) ∧
      (∀ c, c ≠ .positions3d → c ≠ .timeOffsets → f'.chan c = (f.chan c).map (keepTracked ids)) ∧
      (∀ c, c = .positions3d ∨ c = .timeOffsets → f'.chan c = f.chan c) ∧
      f'.descriptors = f.descriptors.map (fun bs => bs.map (keepTracked ids)) ∧ f'.types = f.types := by
  unfold discardUntracked
  rw [hids]
  simp only [get, Outcome.bind_ok]
  by_cases hn : untracked ids = []
  · rw [if_pos hn, hn]
    refine ⟨f, rfl, ?_, fun _ _ => rfl, ?_, rfl⟩
    · intro c _ _
      cases hc : f.chan c with
      | none => rfl
      | some d => rw [Option.map_some, keepTracked_of_none (hsize c d hc) hn]
    · rcases hdesc with h | ⟨b, h, hb⟩
      · rw [h]; rfl
      · rw [h]; simp [keepTracked_of_none hb hn]
  · rw [if_neg hn, eraseChans_exact junk hlen hn _ f (by decide) (fun c _ => hsize c), Outcome.bind_ok]
    obtain ⟨f1, hf1, hch, hd1, ht1⟩ : ∃ f1, eraseDescriptors junkD (untracked ids) ids.length
        (mapChans f [.measurements, .uncertainties, .orientations, .scores, .scales] (keepTracked ids)) = .ok f1 ∧
        f1.chan = (mapChans f [.measurements, .uncertainties, .orientations, .scores, .scales]
          (keepTracked ids)).chan ∧
        f1.descriptors = f.descriptors.map (fun bs => bs.map (keepTracked ids)) ∧ f1.types = f.types := by
      unfold eraseDescriptors
      rcases hdesc with h | ⟨b, h, hb⟩
      · have : (mapChans f [.measurements, .uncertainties, .orientations, .scores, .scales]
          (keepTracked ids)).descriptors = none := h
        rw [this]
        exact ⟨_, rfl, rfl, by rw [h]; exact h, rfl⟩
      · have : (mapChans f [.measurements, .uncertainties, .orientations, .scores, .scales]
          (keepTracked ids)).descriptors = some [b] := h
        rw [this]
        simp only [List.getElem?_cons_zero]
        rw [erase_untracked junkD hlen hb hn, Outcome.bind_ok]
        exact ⟨_, rfl, rfl, by rw [h]; rfl, rfl⟩
    rw [hf1, Outcome.bind_ok, eraseChan_exact junk hlen hn, Outcome.bind_ok]
    · refine ⟨_, rfl, ?_, ?_, ?_, ?_⟩
      · intro c h1 h2
        simp only [mapChans, hch]
        cases c <;> simp_all
      · intro c hc
        simp only [mapChans, hch]
        rcases hc with rfl | rfl <;> simp
      · exact hd1
      · exact ht1
    · intro d hd
      rw [hch] at hd
      simp only [mapChans] at hd
      rw [if_neg (by decide)] at hd
      exact hsize _ d hd

/-- Positions of the tracked keypoints. -/
def keptFrom (k : Nat) (ids : List Int) : List Nat :=
  ((ids.zipIdx k).filter (fun p => decide (0 ≤ p.1))).map Prod.snd

theorem keepTracked_getElem? {α : Type} : ∀ (ids : List Int) (data : List α) (k : Nat) (pre : List α),
    pre.length = k → data.length = ids.length → ∀ i : Nat,
    (keepTracked ids data)[i]? = (keptFrom k ids)[i]?.bind (fun j : Nat => (pre ++ data)[j]?)
  | [], [], k, pre, _, _, i => by simp [keepTracked, keptFrom]
  | [], _ :: _, k, pre, _, h, i => by simp at h
  | _ :: _, [], k, pre, _, h, i => by simp at h
  | x :: ids, d :: data, k, pre, hk, h, i => by
    have ih := keepTracked_getElem? ids data (k + 1) (pre ++ [d]) (by simp [hk]) (by simpa using h)
    have happ : pre ++ [d] ++ data = pre ++ d :: data := by simp
    rw [happ] at ih
    unfold keepTracked keptFrom at ih ⊢
    rw [List.zip_cons_cons, List.zipIdx_cons]
    by_cases hx : 0 ≤ x
    · rw [List.filter_cons_of_pos (by simpa using hx), List.filter_cons_of_pos (by simpa using hx),
        List.map_cons, List.map_cons]
      cases i with
      | zero => simp [← hk]
      | succ i => simpa using ih i
    · rw [List.filter_cons_of_neg (by simpa using hx), List.filter_cons_of_neg (by simpa using hx)]
      exact ih i

/-- **C32 (alignment), partial.** If the frame has no 3D positions, no time offsets and at most one
descriptor block, there is one strictly increasing list of old positions — those of the tracked keypoints —
such that afterwards entry `i` of every channel and of the descriptors is the old entry at `kept[i]`.

What is missing: frames with 3D positions or time offsets (`discard_misaligns_refuted`) or with several
descriptor blocks (`discard_aborts_refuted`), for which the claim is false. -/
theorem discard_aligned_partial (junk : Int) (junkD : Desc) {f : Frame} {ids : List Int}
    (hids : f.chan .trackIds = some ids) (hlen : ids.length < 2 ^ 31)
    (hsize : ∀ c d, f.chan c = some d → d.length = ids.length)
    (h3 : f.chan .positions3d = none) (hto : f.chan .timeOffsets = none)
    (hdesc : f.descriptors = none ∨ ∃ b, f.descriptors = some [b] ∧ b.length = ids.length) :
    ∃ (f' : Frame) (kept : List Nat), discardUntracked junk junkD f = .ok (f', untracked ids) ∧
      kept.Pairwise (· < ·) ∧ (∀ i : Nat, i ∈ kept ↔ ∃ x, ids[i]? = some x ∧ 0 ≤ x) ∧
      (∀ c d, f.chan c = some d → ∃ d', f'.chan c = some d' ∧ ∀ i : Nat, d'[i]? = kept[i]?.bind (fun j : Nat => d[j]?)) ∧
      (∀ c, f.chan c = none → f'.chan c = none) ∧
      (∀ b, f.descriptors = some [b] →
        ∃ b', f'.descriptors = some [b'] ∧ ∀ i : Nat, b'[i]? = kept[i]?.bind (fun j : Nat => b[j]?)) := by
  obtain ⟨f', hf, h1, h2, hd, _⟩ := discard_effect junk junkD hids hlen hsize hdesc
  have hall : ∀ c, f'.chan c = (f.chan c).map (keepTracked ids) := by
    intro c
    by_cases hp : c = .positions3d
    · rw [h2 c (Or.inl hp), hp, h3]; rfl
    · by_cases ht : c = .timeOffsets
      · rw [h2 c (Or.inr ht), ht, hto]; rfl
      · exact h1 c hp ht
  refine ⟨f', keptFrom 0 ids, hf, positions_sorted (fun x => decide (0 ≤ x)) ids 0,
    fun i => by unfold keptFrom; rw [mem_positions (fun x => decide (0 ≤ x))]; simp, ?_, ?_, ?_⟩
  · intro c d hc
    refine ⟨keepTracked ids d, by rw [hall, hc]; rfl, ?_⟩
    intro i
    simpa using keepTracked_getElem? ids d 0 [] rfl (hsize c d hc) i
  · intro c hc
    rw [hall, hc]; rfl
  · intro b hb
    have hbl : b.length = ids.length := by
      rcases hdesc with h | ⟨b', h, hb'⟩
      · rw [hb] at h; simp at h
      · rw [hb] at h
        simp only [Option.some.injEq, List.cons.injEq, and_true] at h
        rw [h]; exact hb'
    refine ⟨keepTracked ids b, by rw [hd, hb]; rfl, ?_⟩
    intro i
    simpa using keepTracked_getElem? ids b 0 [] rfl hbl i

/-- **C32 refuted (3D positions).** Two keypoints, the first untracked, with 3D positions: afterwards there is
one keypoint but two 3D positions, and entry 0 is the position of the removed keypoint. -/
theorem discard_misaligns_refuted :
    ∃ f f' : Frame, f.chan .trackIds = some [-1, 5] ∧ f.chan .measurements = some [100, 200] ∧
      f.chan .positions3d = some [1000, 2000] ∧ discardUntracked 0 [] f = .ok (f', [0]) ∧
      f'.chan .measurements = some [200] ∧ f'.chan .positions3d = some [1000, 2000] :=
  ⟨((Frame.empty.setChan .trackIds [-1, 5]).setChan .measurements [100, 200]).setChan .positions3d
      [1000, 2000], _, rfl, rfl, rfl, rfl, rfl, rfl⟩

/-- **C32 refuted (several blocks).** A frame with two descriptor blocks and an untracked keypoint: abort. -/
theorem discard_aborts_refuted :
    ∃ f : Frame, f.chan .trackIds = some [-1, 5] ∧ f.chan .measurements = some [100, 200] ∧
      f.descriptors = some [[[1]], [[2]]] ∧ f.types = some [0, 1] ∧ discardUntracked 0 [] f = .abort :=
  ⟨{ (Frame.empty.setChan .trackIds [-1, 5]).setChan .measurements [100, 200] with
      descriptors := some [[[1]], [[2]]], types := some [0, 1] }, rfl, rfl, rfl, rfl, rfl⟩

/-- Non-vacuity: one block, three keypoints, the middle one untracked. -/
example : ∃ f', discardUntracked 0 [] { (Frame.empty.setChan .trackIds [7, -1, 0]).setChan .scores [10, 20, 30]
      with descriptors := some [[[1], [2], [3]]], types := some [0] } = .ok (f', [1]) ∧
    f'.chan .trackIds = some [7, 0] ∧ f'.chan .scores = some [10, 30] ∧
    f'.descriptors = some [[[1], [3]]] := ⟨_, rfl, rfl, rfl, rfl⟩

/-! ## C33 -/

/-- Specification: the first index of block `b`. -/
def start (blocks : List (List Desc)) (b : Nat) : Nat := ((blocks.take b).map List.length).sum

/-- Specification: the number of keypoints in all blocks. -/
def total (blocks : List (List Desc)) : Nat := (blocks.map List.length).sum

theorem foldl_len (bs : List (List Desc)) (n : Nat) :
    bs.foldl (fun n b => n + b.length) n = n + (bs.map List.length).sum := by
  induction bs generalizing n with
  | nil => simp
  | cons b bs ih => rw [List.foldl_cons, ih, List.map_cons, List.sum_cons]; omega

theorem startLoop_eq (blocks : List (List Desc)) (b : Nat) : startLoop blocks b = start blocks b := by
  unfold startLoop start
  rw [foldl_len]; omega

/-- A frame without descriptors has none. -/
theorem no_descriptors {f : Frame} (h : f.descriptors = none) : numDescriptors f = 0 := by
  unfold numDescriptors; rw [h]

example : numDescriptors Frame.empty = 0 := no_descriptors rfl

/-- **C33 (offsets).** The first block starts at 0, each block starts where the previous one ends, and the
last one ends at the total, which is what `getNumDescriptors` returns. -/
theorem blocks_tile (f : Frame) (blocks : List (List Desc)) (h : f.descriptors = some blocks) :
    start blocks 0 = 0 ∧ (∀ b blk, blocks[b]? = some blk → start blocks (b + 1) = start blocks b + blk.length) ∧
      start blocks blocks.length = total blocks ∧ numDescriptors f = total blocks := by
  refine ⟨by simp [start], ?_, by simp [start, total], ?_⟩
  · intro b blk hb
    unfold start
    rw [List.take_add_one, hb]
    simp
  · unfold numDescriptors total
    rw [h]
    simp only
    rw [foldl_len]; omega

theorem start_cons (b : List Desc) (bs : List (List Desc)) (k : Nat) :
    start (b :: bs) (k + 1) = b.length + start bs k := by
  simp [start]

/-- **C33 (partition, existence).** Every index below the total is found in a block, at its offset from the
start of the block. -/
theorem index_in_block : ∀ (blocks : List (List Desc)) (i : Nat), i < total blocks →
    ∃ b off blk, blockForIndex blocks i = .ok (b, off) ∧ blocks[b]? = some blk ∧ off < blk.length ∧
      i = start blocks b + off
  | [], i, h => by simp [total] at h
  | b :: bs, i, h => by
    unfold blockForIndex
    by_cases hi : i < b.length
    · rw [if_pos hi]
      exact ⟨0, i, b, rfl, rfl, hi, by simp [start]⟩
    · rw [if_neg hi]
      have h' : i - b.length < total bs := by
        simp only [total, List.map_cons, List.sum_cons] at h
        unfold total
        omega
      obtain ⟨k, off, blk, e, hk, hoff, he⟩ := index_in_block bs (i - b.length) h'
      refine ⟨k + 1, off, blk, ?_, by simpa using hk, hoff, ?_⟩
      · rw [e]; rfl
      · rw [start_cons]; omega

/-- **C33 (partition, uniqueness).** An index lies in only one block. -/
theorem index_unique : ∀ (blocks : List (List Desc)) {b b' off off' : Nat} {blk blk' : List Desc},
    blocks[b]? = some blk → blocks[b']? = some blk' → off < blk.length → off' < blk'.length →
    start blocks b + off = start blocks b' + off' → b = b' ∧ off = off'
  | [], b, b', off, off', blk, blk', h, _, _, _, _ => by simp at h
  | x :: xs, 0, 0, off, off', blk, blk', _, _, _, _, e => by
    simp [start] at e; exact ⟨rfl, e⟩
  | x :: xs, 0, k + 1, off, off', blk, blk', h, _, h1, _, e => by
    simp only [List.getElem?_cons_zero, Option.some.injEq] at h
    subst h
    rw [start_cons] at e
    simp [start] at e
    omega
  | x :: xs, k + 1, 0, off, off', blk, blk', _, h, _, h1, e => by
    simp only [List.getElem?_cons_zero, Option.some.injEq] at h
    subst h
    rw [start_cons] at e
    simp [start] at e
    omega
  | x :: xs, k + 1, k' + 1, off, off', blk, blk', h, h', h1, h1', e => by
    rw [start_cons, start_cons] at e
    obtain ⟨a, b⟩ := index_unique xs (b := k) (b' := k') (by simpa using h) (by simpa using h') h1 h1'
      (by omega)
    exact ⟨by omega, b⟩

/-- **C33 (out of range).** An index at or beyond the total aborts. -/
theorem index_out_of_range : ∀ (blocks : List (List Desc)) (i : Nat), total blocks ≤ i →
    blockForIndex blocks i = .abort
  | [], i, _ => rfl
  | b :: bs, i, h => by
    simp only [total, List.map_cons, List.sum_cons] at h
    unfold blockForIndex
    rw [if_neg (by omega), index_out_of_range bs (i - b.length) (by unfold total; omega)]
    rfl

/-- **C33 (descriptors).** Descriptor `i` is the `i`-th descriptor of the blocks one after the other. -/
theorem getDescriptor_flat {f : Frame} {blocks : List (List Desc)} (h : f.descriptors = some blocks) {i : Nat} :
    getDescriptor f i = match blocks.flatten[i]? with
      | some d => .ok d
      | none => .abort := by
  unfold getDescriptor
  rw [h]
  simp only [get, Outcome.bind_ok]
  have hflat : ∀ (bs : List (List Desc)) (b off : Nat) (blk : List Desc), bs[b]? = some blk →
      off < blk.length → bs.flatten[start bs b + off]? = blk[off]? := by
    intro bs
    induction bs with
    | nil => intro b off blk hb; simp at hb
    | cons x xs ih =>
      intro b off blk hb hoff
      cases b with
      | zero =>
        simp only [List.getElem?_cons_zero, Option.some.injEq] at hb
        subst hb
        simp only [start, List.take_zero, List.map_nil, List.sum_nil, Nat.zero_add, List.flatten_cons]
        rw [List.getElem?_append_left hoff]
      | succ k =>
        rw [start_cons, List.flatten_cons, List.getElem?_append_right (by omega),
          show x.length + start xs k + off - x.length = start xs k + off by omega]
        exact ih k off blk (by simpa using hb) hoff
  by_cases hi : i < total blocks
  · obtain ⟨b, off, blk, e, hb, hoff, he⟩ := index_in_block blocks i hi
    rw [e, Outcome.bind_ok]
    simp only [hb]
    rw [he, hflat blocks b off blk hb hoff, List.getElem?_eq_getElem hoff]
  · rw [index_out_of_range blocks i (by omega), Outcome.bind_abort]
    have : blocks.flatten[i]? = none := by
      rw [List.getElem?_eq_none_iff, List.length_flatten]
      unfold total at hi
      omega
    rw [this]

/-- The descriptor types match the blocks (established by every call that changes them). -/
structure TypesMatch (f : Frame) : Prop where
  present : f.descriptors.isSome = f.types.isSome
  length : ∀ bs ts, f.descriptors = some bs → f.types = some ts → bs.length = ts.length

/-- **C33 (types).** In a frame with matching types the type of index `i` is the type of its block. -/
theorem type_of_index {f : Frame} (hm : TypesMatch f) {blocks : List (List Desc)} {ts : List Int}
    (h : f.descriptors = some blocks) (ht : f.types = some ts) {i : Nat} (hi : i < total blocks) :
    ∃ b blk t, blocks[b]? = some blk ∧ start blocks b ≤ i ∧ i < start blocks b + blk.length ∧
      ts[b]? = some t ∧ getDescriptorType f i = .ok t := by
  obtain ⟨b, off, blk, e, hb, hoff, he⟩ := index_in_block blocks i hi
  have hlt : b < ts.length := by
    rw [← hm.length blocks ts h ht]
    exact (List.getElem?_eq_some_iff.mp hb).1
  refine ⟨b, blk, ts[b], hb, by omega, by omega, List.getElem?_eq_getElem hlt, ?_⟩
  unfold getDescriptorType blockType
  rw [h, ht]
  simp only [get, Outcome.bind_ok, e, List.getElem?_eq_getElem hlt]

theorem typeBlock_first {f : Frame} {ts : List Int} (ht : f.types = some ts) (t : Int) :
    (t ∉ ts ∧ typeBlock f t = .abort) ∨
      ∃ b, typeBlock f t = .ok b ∧ ts[b]? = some t ∧ ∀ k, k < b → ts[k]? ≠ some t := by
  unfold typeBlock
  rw [ht]
  simp only [get, Outcome.bind_ok]
  cases hf : ts.findIdx? (fun x => decide (x = t)) with
  | none =>
    left
    rw [List.findIdx?_eq_none_iff] at hf
    refine ⟨fun hmem => ?_, rfl⟩
    have := hf t hmem
    simp at this
  | some b =>
    right
    rw [List.findIdx?_eq_some_iff_getElem] at hf
    obtain ⟨hb, hp, hno⟩ := hf
    refine ⟨b, rfl, ?_, ?_⟩
    · rw [List.getElem?_eq_getElem hb]
      simpa using hp
    · intro k hk heq
      have hk' : k < ts.length := by omega
      have := hno k hk
      rw [List.getElem?_eq_getElem hk'] at heq
      simp at heq
      simp [heq] at this

/-- **C33 (by type).** For a type the frame has, `…OfType` is the part of the channel that belongs to the
first block of this type: it starts at the block's start, has the block's size, and entry `j` of it is entry
`start + j` of the channel.  For other types it aborts. -/
theorem chanOfType_segment {f : Frame} (hm : TypesMatch f) {blocks : List (List Desc)} {ts : List Int}
    (h : f.descriptors = some blocks) (ht : f.types = some ts) {c : Chan} {d : List Int}
    (hc : f.chan c = some d) (hlen : total blocks ≤ d.length) (t : Int) :
    (t ∉ ts ∧ chanOfType f c t = .abort) ∨
      ∃ b blk seg, blocks[b]? = some blk ∧ ts[b]? = some t ∧ (∀ k, k < b → ts[k]? ≠ some t) ∧
        chanOfType f c t = .ok seg ∧ seg.length = blk.length ∧
        (∀ j, j < blk.length → seg[j]? = d[start blocks b + j]?) ∧
        (∀ j, j < blk.length → ∃ x, d[start blocks b + j]? = some x ∧ entryOfType f c j t = .ok x) ∧
        (∀ j, blk.length ≤ j → entryOfType f c j t = .abort) := by
  unfold chanOfType entryOfType startAndSize
  rw [h, hc]
  simp only [get, Outcome.bind_ok]
  rcases typeBlock_first ht t with ⟨hn, e⟩ | ⟨b, e, hb, hno⟩
  · left
    exact ⟨hn, by rw [e]; simp [Outcome.bind_abort]⟩
  · right
    have hlt : b < blocks.length := by
      rw [hm.length blocks ts h ht]
      exact (List.getElem?_eq_some_iff.mp hb).1
    have hblk : blocks[b]? = some blocks[b] := List.getElem?_eq_getElem hlt
    have hle : start blocks b + blocks[b].length ≤ d.length := by
      have h1 := (blocks_tile f blocks h).2.1 b _ hblk
      have hmono : start blocks (b + 1) ≤ total blocks := by
        unfold start total
        conv_rhs => rw [← List.take_append_drop (b + 1) blocks, List.map_append, List.sum_append]
        omega
      omega
    have hck : decide (start blocks b + blocks[b].length ≤ d.length) = true := decide_eq_true hle
    refine ⟨b, blocks[b], (d.drop (start blocks b)).take blocks[b].length, hblk, hb, hno, ?_, ?_, ?_, ?_, ?_⟩
    · rw [e]
      simp only [Outcome.bind_ok, hblk, startLoop_eq]
      rw [hck, Outcome.check_true, Outcome.bind_ok]
    · rw [List.length_take, List.length_drop]; omega
    · intro j hj
      rw [List.getElem?_take_of_lt hj, List.getElem?_drop]
    · intro j hj
      have hlt' : start blocks b + j < d.length := by omega
      refine ⟨d[start blocks b + j], List.getElem?_eq_getElem hlt', ?_⟩
      rw [e]
      simp only [Outcome.bind_ok, hblk, startLoop_eq]
      rw [decide_eq_true hj, Outcome.check_true, Outcome.bind_ok, hck, Outcome.check_true, Outcome.bind_ok,
        List.getElem?_eq_getElem hlt']
    · intro j hj
      rw [e]
      simp only [Outcome.bind_ok, hblk, startLoop_eq]
      rw [decide_eq_false (by omega), Outcome.check_false, Outcome.bind_abort]

/-- Calls that change descriptors. -/
inductive DescOp where
  | set (block : List Desc) (index : Nat) (t : Int)
  | swap (block : List Desc) (index : Nat) (t junk : Int)
  | extend (block : List Desc) (t : Int)

/-- One such call. -/
def descStep (f : Frame) : DescOp → Outcome Frame
  | .set b i t => setDescriptors f b i t
  | .swap b i t j => (swapDescriptors f b i t j).bind fun r => .ok r.1
  | .extend b t => extendDescriptors f b t

theorem withDescriptors_ok {f : Frame} (hm : TypesMatch f) :
    ∃ bs ts, withDescriptors f = .ok (bs, ts) ∧ bs.length = ts.length ∧ bs = f.descriptors.getD [] ∧
      ts = f.types.getD [] := by
  unfold withDescriptors
  have hp := hm.present
  cases hd : f.descriptors with
  | none =>
    rw [hd] at hp
    cases ht : f.types with
    | none => exact ⟨[], [], rfl, rfl, rfl, rfl⟩
    | some ts => rw [ht] at hp; simp at hp
  | some bs =>
    rw [hd] at hp
    cases ht : f.types with
    | none => rw [ht] at hp; simp at hp
    | some ts => exact ⟨bs, ts, rfl, hm.length bs ts hd ht, rfl, rfl⟩

/-- **C33 (consistency).** Starting from a frame without descriptors, blocks and types match after any
sequence of set, swap and extend calls. -/
theorem types_match_kept {f f' : Frame} (hm : TypesMatch f) {op : DescOp} (h : descStep f op = .ok f') :
    TypesMatch f' := by
  obtain ⟨bs, ts, e, hl, _, _⟩ := withDescriptors_ok hm
  have hck : decide (bs.length = ts.length) = true := decide_eq_true hl
  cases op with
  | set b i t =>
    simp only [descStep, setDescriptors, e, Outcome.bind_ok] at h
    rw [hck, Outcome.check_true, Outcome.bind_ok] at h
    by_cases h0 : bs.length = 0
    · rw [if_pos h0, Outcome.ok.injEq] at h
      subst h
      exact ⟨rfl, by simp⟩
    · rw [if_neg h0] at h
      by_cases hi : i < bs.length
      · rw [if_pos hi, Outcome.ok.injEq] at h
        subst h
        refine ⟨rfl, ?_⟩
        intro bs' ts' h1 h2
        simp only [Option.some.injEq] at h1 h2
        rw [← h1, ← h2, List.length_set, List.length_set, hl]
      · rw [if_neg hi] at h; simp at h
  | swap b i t j =>
    simp only [descStep, swapDescriptors, e, Outcome.bind_ok] at h
    rw [hck, Outcome.check_true, Outcome.bind_ok] at h
    have hl' : (if bs.length = 0 then [[]] else bs).length = (if bs.length = 0 then [j] else ts).length := by
      by_cases h0 : bs.length = 0
      · simp [h0]
      · simp only [h0, if_false]; exact hl
    generalize (if bs.length = 0 then [[]] else bs) = bs1 at *
    generalize (if bs.length = 0 then [j] else ts) = ts1 at *
    cases hb : bs1[i]? with
    | none => rw [hb] at h; cases h
    | some x =>
      cases ht : ts1[i]? with
      | none => rw [hb, ht] at h; cases h
      | some y =>
        rw [hb, ht] at h
        cases h
        refine ⟨rfl, ?_⟩
        intro bs' ts' h1 h2
        simp only [Option.some.injEq] at h1 h2
        rw [← h1, ← h2, List.length_set, List.length_set, hl']
  | extend b t =>
    simp only [descStep, extendDescriptors, e, Outcome.bind_ok] at h
    rw [hck, Outcome.check_true, Outcome.bind_ok, Outcome.ok.injEq] at h
    subst h
    refine ⟨rfl, ?_⟩
    intro bs' ts' h1 h2
    simp only [Option.some.injEq] at h1 h2
    rw [← h1, ← h2]
    simp [hl]

/-- An empty frame has matching types. -/
theorem types_match_empty : TypesMatch Frame.empty := ⟨rfl, by simp [Frame.empty]⟩

/-- **C33 (extending).** Extending appends a block: it starts at the old total and has the given type, and all
earlier indices keep their block, their place in it and their descriptor. -/
theorem extend_appends {f : Frame} (hm : TypesMatch f) (block : List Desc) (t : Int) :
    ∃ f' ts', extendDescriptors f block t = .ok f' ∧
      f'.descriptors = some (f.descriptors.getD [] ++ [block]) ∧ f'.types = some ts' ∧
      ts'[(f.descriptors.getD []).length]? = some t ∧ f'.chan = f.chan ∧
      start (f.descriptors.getD [] ++ [block]) (f.descriptors.getD []).length = total (f.descriptors.getD []) ∧
      total (f.descriptors.getD [] ++ [block]) = total (f.descriptors.getD []) + block.length ∧
      (∀ i, i < total (f.descriptors.getD []) →
        blockForIndex (f.descriptors.getD [] ++ [block]) i = blockForIndex (f.descriptors.getD []) i) ∧
      (∀ j, j < block.length → blockForIndex (f.descriptors.getD [] ++ [block])
        (total (f.descriptors.getD []) + j) = .ok ((f.descriptors.getD []).length, j)) := by
  obtain ⟨bs, ts, e, hl, hbs, hts⟩ := withDescriptors_ok hm
  have hck : decide (bs.length = ts.length) = true := decide_eq_true hl
  refine ⟨{ f with descriptors := some (bs ++ [block]), types := some (ts ++ [t]) }, ts ++ [t], by
    unfold extendDescriptors
    rw [e]
    simp only [Outcome.bind_ok]
    rw [hck, Outcome.check_true, Outcome.bind_ok], ?_, rfl, ?_, rfl, ?_, ?_, ?_, ?_⟩
  · rw [hbs]
  · rw [← hbs, hl]; simp
  · rw [← hbs]; simp [start, total]
  · rw [← hbs]; simp [total]
  · rw [← hbs]
    clear e hl hck hbs hts hm
    induction bs with
    | nil => intro i hi; simp [total] at hi
    | cons b bs ih =>
      intro i hi
      rw [List.cons_append, blockForIndex, blockForIndex]
      by_cases h1 : i < b.length
      · rw [if_pos h1, if_pos h1]
      · rw [if_neg h1, if_neg h1, ih (i - b.length)]
        simp only [total, List.map_cons, List.sum_cons] at hi
        unfold total; omega
  · rw [← hbs]
    clear e hl hck hbs hts hm
    induction bs with
    | nil =>
      intro j hj
      simp only [total, List.map_nil, List.sum_nil, Nat.zero_add, List.nil_append, blockForIndex, List.length_nil]
      rw [if_pos hj]
    | cons b bs ih =>
      intro j hj
      rw [List.cons_append, blockForIndex]
      simp only [total, List.map_cons, List.sum_cons]
      rw [if_neg (by omega),
        show b.length + (bs.map List.length).sum + j - b.length = total bs + j by unfold total; omega, ih j hj]
      rfl

/-- Deviation: if two blocks have the same type, the `…OfType` accessors see only the first of them. -/
theorem duplicate_type_hidden_refuted :
    ∃ f : Frame, TypesMatch f ∧ f.descriptors = some [[[1]], [[2]]] ∧ f.types = some [3, 3] ∧
      f.chan .measurements = some [10, 20] ∧ getDescriptorType f 1 = .ok 3 ∧
      chanOfType f .measurements 3 = .ok [10] :=
  ⟨{ Frame.empty.setChan .measurements [10, 20] with
      descriptors := some [[[1]], [[2]]], types := some [3, 3] },
    ⟨rfl, by intro bs ts h1 h2; simp only [Option.some.injEq] at h1 h2; rw [← h1, ← h2]; rfl⟩,
    rfl, rfl, rfl, rfl, rfl⟩

/-- Deviation: after deserialising descriptors into a frame without descriptors there are no types, and
asking for the type of an existing descriptor (or setting descriptors) aborts. -/
theorem deserialize_without_types_refuted :
    getDescriptor (deserializeDescriptors Frame.empty [[[1]]]) 0 = .ok [1] ∧
      getDescriptorType (deserializeDescriptors Frame.empty [[[1]]]) 0 = .abort ∧
      setDescriptors (deserializeDescriptors Frame.empty [[[1]]]) [[2]] 0 0 = .abort := ⟨rfl, rfl, rfl⟩

/-- Non-vacuity: three blocks of sizes 2, 0 and 1. -/
example : blockForIndex [[[1], [2]], [], [[3]]] 2 = .ok (2, 0) ∧ total [[[1], [2]], [], [[3]]] = 3 ∧
    start [[[1], [2]], [], [[3]]] 2 = 2 := ⟨rfl, rfl, rfl⟩

/-! ## C34 -/

/-- One batch of new keypoints: their measurements, and for some channels their values. -/
structure Batch where
  kps : List Int
  vals : Chan → Option (List Int)

/-- Values given for a batch have one entry per keypoint; measurements are given separately. -/
structure Batch.Ok (b : Batch) : Prop where
  size : ∀ c v, b.vals c = some v → v.length = b.kps.length
  noMeas : b.vals .measurements = none

/-- The channels in the order in which they are extended. -/
def extendOrder : List Chan :=
  [.uncertainties, .orientations, .scores, .scales, .positions3d, .timeOffsets, .trackIds]

/-- Extend the given channels of a batch. -/
def extendVals (dflt : Chan → Int) (b : Batch) : List Chan → Frame → Outcome Frame
  | [], f => .ok f
  | c :: cs, f =>
    match b.vals c with
    | none => extendVals dflt b cs f
    | some v => extendChan f c v (dflt c) >>= extendVals dflt b cs

/-- What a user does with a batch: extend the measurements, then each channel they have values for. -/
def extendBatch (dflt : Chan → Int) (f : Frame) (b : Batch) : Outcome Frame :=
  extendVals dflt b extendOrder (extendMeasurements f b.kps)

/-- A history of batches. -/
def extendAll (dflt : Chan → Int) : List Batch → Frame → Outcome Frame
  | [], f => .ok f
  | b :: bs, f => extendBatch dflt f b >>= extendAll dflt bs

/-- Specification: the values of a batch for a channel, the default for keypoints without. -/
def batchVals (dflt : Chan → Int) (c : Chan) (b : Batch) : List Int :=
  match b.vals c with
  | some v => v
  | none => List.replicate b.kps.length (dflt c)

/-- Specification: the value of every keypoint so far. -/
def allVals (dflt : Chan → Int) (c : Chan) (bs : List Batch) : List Int := (bs.map (batchVals dflt c)).flatten

/-- Specification of a channel: absent if never given, otherwise the values of all keypoints up to the last
batch that had values. -/
def ChanOk (dflt : Chan → Int) (bs : List Batch) (c : Chan) : Option (List Int) → Prop
  | none => ∀ b ∈ bs, b.vals c = none
  | some d => ∃ pre b post, bs = pre ++ b :: post ∧ (b.vals c).isSome ∧ (∀ x ∈ post, x.vals c = none) ∧
      d = allVals dflt c (pre ++ [b])

/-- The frame after a history. -/
structure FrameOk (dflt : Chan → Int) (bs : List Batch) (f : Frame) : Prop where
  meas : f.chan .measurements = if bs = [] then none else some (bs.map Batch.kps).flatten
  chans : ∀ c, c ≠ .measurements → ChanOk dflt bs c (f.chan c)

theorem batchVals_length {dflt : Chan → Int} {c : Chan} {b : Batch} (h : b.Ok) :
    (batchVals dflt c b).length = b.kps.length := by
  unfold batchVals
  cases hv : b.vals c with
  | none => simp
  | some v => simpa using h.size c v hv

theorem allVals_length {dflt : Chan → Int} {c : Chan} {bs : List Batch} (h : ∀ b ∈ bs, b.Ok) :
    (allVals dflt c bs).length = ((bs.map Batch.kps).flatten).length := by
  induction bs with
  | nil => rfl
  | cons b bs ih =>
    unfold allVals at ih ⊢
    rw [List.map_cons, List.flatten_cons, List.length_append, List.map_cons, List.flatten_cons,
      List.length_append, ih (fun x hx => h x (List.mem_cons_of_mem _ hx)),
      batchVals_length (h b List.mem_cons_self)]

theorem allVals_default {dflt : Chan → Int} {c : Chan} {bs : List Batch} (h : ∀ b ∈ bs, b.vals c = none) :
    allVals dflt c bs = List.replicate ((bs.map Batch.kps).flatten).length (dflt c) := by
  induction bs with
  | nil => rfl
  | cons b bs ih =>
    have ih' := ih (fun x hx => h x (List.mem_cons_of_mem _ hx))
    unfold allVals at ih' ⊢
    rw [List.map_cons, List.flatten_cons, ih', List.map_cons, List.flatten_cons, List.length_append]
    simp [batchVals, h b List.mem_cons_self]

theorem allVals_append (dflt : Chan → Int) (c : Chan) (a b : List Batch) :
    allVals dflt c (a ++ b) = allVals dflt c a ++ allVals dflt c b := by
  simp [allVals]

/-- One channel of one batch. -/
theorem extendChan_batch {dflt : Chan → Int} {bs : List Batch} {b : Batch} {f : Frame} {c : Chan} {v : List Int}
    (hbs : ∀ x ∈ bs, x.Ok) (hb : b.Ok) (hv : b.vals c = some v)
    (hm : f.chan .measurements = some ((bs ++ [b]).map Batch.kps).flatten)
    (hc : ChanOk dflt bs c (f.chan c)) :
    extendChan f c v (dflt c) = .ok (f.setChan c (allVals dflt c (bs ++ [b]))) := by
  have hnum : numMeasurements f = (((bs ++ [b]).map Batch.kps).flatten).length := by
    unfold numMeasurements; rw [hm]
  have hlast : allVals dflt c [b] = v := by simp [allVals, batchVals, hv]
  have hvl := hb.size c v hv
  have htot : (((bs ++ [b]).map Batch.kps).flatten).length =
      ((bs.map Batch.kps).flatten).length + b.kps.length := by simp
  unfold extendChan extendData
  rw [hnum, htot]
  cases hd : f.chan c with
  | none =>
    rw [hd] at hc
    simp only [Option.getD_none, List.length_nil]
    rw [if_pos (by omega), Outcome.bind_ok, allVals_append, hlast, allVals_default hc, List.nil_append]
    congr 4
    omega
  | some d =>
    rw [hd] at hc
    obtain ⟨pre, x, post, rfl, _, hpost, rfl⟩ := hc
    have hok1 : ∀ y ∈ pre ++ [x], y.Ok := by
      intro y hy
      apply hbs
      rcases List.mem_append.mp hy with h | h
      · exact List.mem_append_left _ h
      · simp only [List.mem_singleton] at h; subst h; simp
    have hl1 := allVals_length (dflt := dflt) (c := c) hok1
    simp only [Option.getD_some, hl1]
    have hsplit : pre ++ x :: post = (pre ++ [x]) ++ post := by simp
    rw [hsplit, List.map_append, List.flatten_append, List.length_append]
    rw [if_pos (by omega), Outcome.bind_ok, allVals_append dflt c (pre ++ [x] ++ post) [b],
      allVals_append dflt c (pre ++ [x]) post, hlast, allVals_default hpost]
    congr 5
    omega

theorem extendVals_batch {dflt : Chan → Int} {bs : List Batch} {b : Batch} (hbs : ∀ x ∈ bs, x.Ok) (hb : b.Ok) :
    ∀ (cs : List Chan) (f : Frame), cs.Nodup → Chan.measurements ∉ cs →
      f.chan .measurements = some ((bs ++ [b]).map Batch.kps).flatten →
      (∀ c ∈ cs, ChanOk dflt bs c (f.chan c)) →
      ∃ f', extendVals dflt b cs f = .ok f' ∧ f'.chan .measurements = f.chan .measurements ∧
        (∀ c ∈ cs, ChanOk dflt (bs ++ [b]) c (f'.chan c)) ∧ (∀ c, c ∉ cs → f'.chan c = f.chan c) ∧
        f'.descriptors = f.descriptors ∧ f'.types = f.types
  | [], f, _, _, _, _ => ⟨f, rfl, rfl, by simp, fun _ _ => rfl, rfl, rfl⟩
  | c :: cs, f, hnd, hnm, hm, hok => by
    rw [List.nodup_cons] at hnd
    rw [List.mem_cons, not_or] at hnm
    unfold extendVals
    cases hv : b.vals c with
    | none =>
      simp only
      obtain ⟨f', e, h1, h2, h3, h4, h5⟩ := extendVals_batch hbs hb cs f hnd.2 hnm.2 hm
        (fun x hx => hok x (List.mem_cons_of_mem _ hx))
      refine ⟨f', e, h1, ?_, ?_, h4, h5⟩
      · intro x hx
        rcases List.mem_cons.mp hx with rfl | hx
        · rw [h3 x hnd.1]
          have hx := hok x List.mem_cons_self
          cases hf : f.chan x with
          | none =>
            rw [hf] at hx
            intro y hy
            rcases List.mem_append.mp hy with hy | hy
            · exact hx y hy
            · simp only [List.mem_singleton] at hy; subst hy; exact hv
          | some d =>
            rw [hf] at hx
            obtain ⟨pre, z, post, rfl, hz, hpost, hd⟩ := hx
            refine ⟨pre, z, post ++ [b], by simp, hz, ?_, hd⟩
            intro y hy
            rcases List.mem_append.mp hy with hy | hy
            · exact hpost y hy
            · simp only [List.mem_singleton] at hy; subst hy; exact hv
        · exact h2 x hx
      · intro x hx
        rw [List.mem_cons, not_or] at hx
        exact h3 x hx.2
    | some v =>
      simp only
      rw [extendChan_batch hbs hb hv hm (hok c List.mem_cons_self), Outcome.bind_ok]
      have hne : Chan.measurements ≠ c := hnm.1
      obtain ⟨f', e, h1, h2, h3, h4, h5⟩ := extendVals_batch hbs hb cs
        (f.setChan c (allVals dflt c (bs ++ [b]))) hnd.2 hnm.2
        (by simp only [Frame.setChan]; rw [if_neg hne]; exact hm)
        (by
          intro x hx
          have hxc : x ≠ c := fun hh => hnd.1 (hh ▸ hx)
          simp only [Frame.setChan]
          rw [if_neg hxc]
          exact hok x (List.mem_cons_of_mem _ hx))
      refine ⟨f', e, ?_, ?_, ?_, h4, h5⟩
      · rw [h1]; simp only [Frame.setChan]; rw [if_neg hne]
      · intro x hx
        rcases List.mem_cons.mp hx with rfl | hx
        · rw [h3 x hnd.1]
          simp only [Frame.setChan, if_true]
          exact ⟨bs, b, [], rfl, by rw [hv]; rfl, by simp, rfl⟩
        · exact h2 x hx
      · intro x hx
        rw [List.mem_cons, not_or] at hx
        rw [h3 x hx.2]
        simp only [Frame.setChan]
        rw [if_neg hx.1]

/-- **C34.** After any history of batches starting from a frame without keypoints — each batch extending the
measurements and then any set of the other channels with one value per new keypoint — every call succeeds,
and entry `i` of every channel is the value that was given for keypoint `i`, or the default if none was. -/
theorem extend_history (dflt : Chan → Int) (bs : List Batch) (hbs : ∀ b ∈ bs, b.Ok) :
    ∃ f, extendAll dflt bs Frame.empty = .ok f ∧ FrameOk dflt bs f := by
  have hstep : ∀ (done todo : List Batch) (f : Frame), (∀ b ∈ done, b.Ok) → (∀ b ∈ todo, b.Ok) →
      FrameOk dflt done f → ∃ f', extendAll dflt todo f = .ok f' ∧ FrameOk dflt (done ++ todo) f' := by
    intro done todo
    induction todo generalizing done with
    | nil => intro f _ _ h; exact ⟨f, rfl, by simpa using h⟩
    | cons b todo ih =>
      intro f hd ht h
      have hb := ht b List.mem_cons_self
      have hmeas : (extendMeasurements f b.kps).chan .measurements =
          some ((done ++ [b]).map Batch.kps).flatten := by
        simp only [extendMeasurements, Frame.setChan, if_true, h.meas]
        by_cases he : done = []
        · subst he; simp
        · rw [if_neg he]; simp
      obtain ⟨f1, e, h1, h2, _, _, _⟩ := extendVals_batch (dflt := dflt) hd hb extendOrder
        (extendMeasurements f b.kps) (by decide) (by decide) hmeas
        (by
          intro c hc
          have hcm : c ≠ .measurements := by
            intro hh; subst hh; revert hc; decide
          simp only [extendMeasurements, Frame.setChan]
          rw [if_neg hcm]
          exact h.chans c hcm)
      have hok1 : FrameOk dflt (done ++ [b]) f1 := by
        refine ⟨?_, ?_⟩
        · rw [h1, hmeas, if_neg (by simp)]
        · intro c hc
          apply h2
          cases c <;> first | exact absurd rfl hc | decide
      obtain ⟨f2, e2, h3⟩ := ih (done ++ [b]) f1
        (by
          intro x hx
          rcases List.mem_append.mp hx with hx | hx
          · exact hd x hx
          · simp only [List.mem_singleton] at hx; subst hx; exact hb)
        (fun x hx => ht x (List.mem_cons_of_mem _ hx)) hok1
      refine ⟨f2, ?_, by simpa using h3⟩
      simp only [extendAll, extendBatch, e, Outcome.bind_ok, e2]
  have := hstep [] bs Frame.empty (by simp) hbs ⟨rfl, by intro c _ b hb; simp at hb⟩
  simpa using this

/-- **C34 (one call).** Extending a channel keeps the existing values, appends the new ones at the end, pads
in between with the default so that there is one entry per keypoint, and aborts if there are too many. -/
theorem extend_one {f : Frame} {c : Chan} {new : List Int} {dflt : Int} :
    ((((f.chan c).getD []).length + new.length ≤ ((f.chan .measurements).getD []).length) →
      ∃ d, extendChan f c new dflt = .ok (f.setChan c d) ∧ d.length = ((f.chan .measurements).getD []).length ∧
        ∃ pad, d = (f.chan c).getD [] ++ pad ++ new ∧ ∀ x ∈ pad, x = dflt) ∧
    (((f.chan .measurements).getD []).length < ((f.chan c).getD []).length + new.length → extendChan f c new dflt = .abort) := by
  have e : numMeasurements f = ((f.chan .measurements).getD []).length := by
    unfold numMeasurements; split <;> simp_all
  unfold extendChan extendData
  rw [e]
  constructor
  · intro h
    rw [if_pos h, Outcome.bind_ok]
    refine ⟨_, rfl, ?_, _, rfl, ?_⟩
    · simp; omega
    · intro x hx; exact (List.mem_replicate.mp hx).2
  · intro h
    rw [if_neg (by omega), Outcome.bind_abort]

/-- Non-vacuity: scores only in the second batch of two. -/
example : (extendAll (fun _ => -1) [⟨[10, 20], fun _ => none⟩,
      ⟨[30], fun c => if c = .scores then some [7] else none⟩] Frame.empty).bind
    (fun f => .ok (f.chan .measurements, f.chan .scores, f.chan .trackIds)) =
    .ok (some [10, 20, 30], some [-1, -1, 7], none) := rfl

/-! ## C62 -/

/-- **C62, partial.** Clearing the keypoint channels of a frame without 3D positions, without time offsets and
with at most one descriptor block leaves a frame without keypoint data.

What is missing: the other frames, for which the claim is false (`clear_incomplete_refuted`). -/
theorem clear_empty_partial {f : Frame} (hm : TypesMatch f)
    (h3 : f.chan .positions3d = none) (hto : f.chan .timeOffsets = none)
    (hdesc : ∀ bs, f.descriptors = some bs → bs.length ≤ 1) :
    ∃ f', clearKeypointChannels f = .ok f' ∧ numMeasurements f' = 0 ∧ numDescriptors f' = 0 ∧
      (∀ c, (f'.chan c).getD [] = []) ∧ TypesMatch f' := by
  have hm' : TypesMatch ((((((f.setChan .measurements []).setChan .trackIds []).setChan .uncertainties []).setChan
    .orientations []).setChan .scores []).setChan .scales []) := ⟨hm.present, hm.length⟩
  obtain ⟨bs, ts, e, hl, hbs, hts⟩ := withDescriptors_ok hm'
  have hck : decide (bs.length = ts.length) = true := decide_eq_true hl
  have hlen : bs.length ≤ 1 := by
    rw [hbs]
    cases hd : f.descriptors with
    | none => simp [Frame.setChan, hd]
    | some x => simpa [Frame.setChan, hd] using hdesc x hd
  have hres : ∃ f', clearKeypointChannels f = .ok f' ∧ f'.descriptors = some [[]] ∧
      f'.chan = ((((((f.setChan .measurements []).setChan .trackIds []).setChan .uncertainties []).setChan
        .orientations []).setChan .scores []).setChan .scales []).chan := by
    unfold clearKeypointChannels setDescriptors
    simp only [e, Outcome.bind_ok]
    rw [hck, Outcome.check_true, Outcome.bind_ok]
    by_cases h0 : bs.length = 0
    · rw [if_pos h0]; exact ⟨_, rfl, rfl, rfl⟩
    · rw [if_neg h0, if_pos (by omega)]
      refine ⟨_, rfl, ?_, rfl⟩
      cases bs with
      | nil => simp at h0
      | cons b bs =>
        have : bs = [] := List.length_eq_zero_iff.mp (by simpa using hlen)
        subst this
        rfl
  obtain ⟨f', e', hd, hc⟩ := hres
  refine ⟨f', e', ?_, ?_, ?_, types_match_kept hm' (op := .set [] 0 0) e'⟩
  · unfold numMeasurements; rw [hc]; rfl
  · unfold numDescriptors; rw [hd]; rfl
  · intro c
    rw [hc]
    cases c <;> simp [Frame.setChan, h3, hto]

/-- **C62 refuted.** With two descriptor blocks the second one stays, and 3D positions stay. -/
theorem clear_incomplete_refuted :
    ∃ f f' : Frame, TypesMatch f ∧ f.descriptors = some [[[1]], [[2]]] ∧ f.chan .positions3d = some [10, 20] ∧
      clearKeypointChannels f = .ok f' ∧ numMeasurements f' = 0 ∧ f'.descriptors = some [[], [[2]]] ∧
      numDescriptors f' = 1 ∧ f'.chan .positions3d = some [10, 20] :=
  ⟨{ Frame.empty.setChan .positions3d [10, 20] with descriptors := some [[[1]], [[2]]], types := some [0, 1] }, _,
    ⟨rfl, by intro bs ts h1 h2; simp only [Option.some.injEq] at h1 h2; rw [← h1, ← h2]; rfl⟩,
    rfl, rfl, rfl, rfl, rfl, rfl, rfl⟩

/-- Non-vacuity. -/
example : ∃ f', clearKeypointChannels { Frame.empty.setChan .measurements [10, 20] with
    descriptors := some [[[1], [2]]], types := some [3] } = .ok f' ∧ f'.descriptors = some [[]] := ⟨_, rfl, rfl⟩

end Verif.VisualFrame
