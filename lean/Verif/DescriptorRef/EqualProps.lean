import Verif.DescriptorRef.Equal
import Verif.DescriptorRef.Props
import Verif.Descriptor.Props

/-!
# Comparison of descriptor references: C148
-/

namespace Verif.DescriptorRef

open Verif (Outcome)

/-! ## Specification -/

/-- A reference that exists and has memory. -/
def Holds (w : World) (i : Nat) (d : List UInt8) : Prop :=
  ∃ r p b, w.refs[i]? = some r ∧ r.alive = true ∧ r.data = some p ∧ w.heap[p]? = some b ∧ d = b.bytes.take r.size ∧
    d.length = r.size

/-! ## Proof -/

theorem memory {heap : List Block} {refs : List Ref} (S : Safe heap refs) {i : Nat} {r : Ref} (h : refs[i]? = some r)
    (ha : r.alive = true) {p : Nat} (hp : r.data = some p) :
    ∃ b, heap[p]? = some b ∧ b.live = true ∧ r.size ≤ b.bytes.length := by
  cases ho : r.owned with
  | true =>
    rcases S.own i r h ha ho with ⟨q, b, e1, e2, e3, _, e5⟩ | ⟨e1, _⟩
    · rw [hp] at e1
      cases e1
      exact ⟨b, e2, e3, by omega⟩
    · rw [hp] at e1
      cases e1
  | false =>
    obtain ⟨b, e1, e2, _, e4⟩ := S.borrow i r p h ha ho hp
    exact ⟨b, e1, e2, e4⟩

/-- What the comparison yields, for references that exist. -/
theorem equal_eq {w : World} (S : Safe w.heap w.refs) {i j : Nat} {r l : Ref} (hi : w.refs[i]? = some r)
    (hj : w.refs[j]? = some l) (ai : r.alive = true) (aj : l.alive = true) :
    equal i j w = .ok (decide (r.data.isSome = l.data.isSome ∧ r.size = l.size ∧ view w i = view w j)) ∨
    (r.data = none ∧ l.data = none ∧ equal i j w = .ok (decide (r.size = l.size))) := by
  have e : equal i j w = refEq r l w.heap := by
    unfold equal
    rw [get_ok hi ai, Outcome.bind_ok, get_ok hj aj, Outcome.bind_ok]
  rw [e]
  unfold refEq
  cases hp : r.data with
  | none =>
    cases hq : l.data with
    | none =>
      right
      refine ⟨rfl, rfl, ?_⟩
      by_cases h : r.size = l.size <;> simp [h]
    | some q => left; simp
  | some p =>
    cases hq : l.data with
    | none => left; simp
    | some q =>
      left
      obtain ⟨b, b1, b2, b3⟩ := memory S hi ai hp
      obtain ⟨c, c1, c2, c3⟩ := memory S hj aj hq
      by_cases hs : r.size = l.size
      · simp only [Option.isSome_some, beq_self_eq_true, hs, Bool.and_self, if_true, true_and]
        unfold memcmpEq
        rw [b1, c1]
        simp only
        rw [if_pos ⟨b2, c2, by omega, c3⟩]
        unfold view
        rw [hi, hj]
        simp only [hp, hq, b1, c1, hs, Option.map_some, Option.some.injEq]
      · have : (r.size == l.size) = false := by simpa using hs
        simp [this, hs]

/-! ## Theorems -/

/-- Comparing references that exist is always defined. -/
theorem equal_defined {w : World} (S : Safe w.heap w.refs) {i j : Nat} {r l : Ref} (hi : w.refs[i]? = some r)
    (hj : w.refs[j]? = some l) (ai : r.alive = true) (aj : l.alive = true) : ∃ b, equal i j w = .ok b := by
  rcases equal_eq S hi hj ai aj with h | ⟨_, _, h⟩
  · exact ⟨_, h⟩
  · exact ⟨_, h⟩

/-- References with memory are equal exactly if the same bytes are seen through them. -/
theorem equal_iff_bytes {w : World} (S : Safe w.heap w.refs) {i j : Nat} {d e : List UInt8} (hi : Holds w i d)
    (hj : Holds w j e) : equal i j w = .ok (decide (d = e)) := by
  obtain ⟨r, p, b, h1, h2, h3, h4, h5, h6⟩ := hi
  obtain ⟨l, q, c, g1, g2, g3, g4, g5, g6⟩ := hj
  rcases equal_eq S h1 g1 h2 g2 with h | ⟨h, _⟩
  · rw [h]
    have v1 : view w i = some d := by
      unfold view
      rw [h1]
      simp only [h3, h4, Option.map_some, h5]
    have v2 : view w j = some e := by
      unfold view
      rw [g1]
      simp only [g3, g4, Option.map_some, g5]
    rw [v1, v2, h3, g3]
    congr 1
    apply decide_eq_decide.2
    simp only [Option.isSome_some, true_and, Option.some.injEq]
    constructor
    · exact fun h => h.2
    · intro hde
      exact ⟨by rw [← h6, ← g6, hde], hde⟩
  · rw [h3] at h
    cases h

/-- The comparison is an equivalence relation on the references that exist. -/
theorem equal_refl {w : World} (S : Safe w.heap w.refs) {i : Nat} {r : Ref} (hi : w.refs[i]? = some r)
    (ai : r.alive = true) : equal i i w = .ok true := by
  rcases equal_eq S hi hi ai ai with h | ⟨_, _, h⟩
  · rw [h]; simp
  · rw [h]; simp

theorem equal_symm {w : World} (S : Safe w.heap w.refs) {i j : Nat} {r l : Ref} (hi : w.refs[i]? = some r)
    (hj : w.refs[j]? = some l) (ai : r.alive = true) (aj : l.alive = true) : equal i j w = equal j i w := by
  rcases equal_eq S hi hj ai aj with h | ⟨e1, e2, h⟩ <;> rcases equal_eq S hj hi aj ai with h' | ⟨e3, e4, h'⟩
  · rw [h, h']
    congr 1
    apply decide_eq_decide.2
    constructor <;> exact fun ⟨a, b, c⟩ => ⟨a.symm, b.symm, c.symm⟩
  · rw [h, h', e3, e4]
    congr 1
    apply decide_eq_decide.2
    have : view w i = view w j := by
      unfold view
      rw [hi, hj]
      simp [e3, e4]
    simp [this, eq_comm]
  · rw [h, h', e1, e2]
    congr 1
    apply decide_eq_decide.2
    have : view w i = view w j := by
      unfold view
      rw [hi, hj]
      simp [e1, e2]
    simp [this, eq_comm]
  · rw [h, h']
    congr 1
    apply decide_eq_decide.2
    exact eq_comm

theorem equal_true_iff {w : World} (S : Safe w.heap w.refs) {i j : Nat} {r l : Ref} (hi : w.refs[i]? = some r)
    (hj : w.refs[j]? = some l) (ai : r.alive = true) (aj : l.alive = true) :
    equal i j w = .ok true ↔ r.data.isSome = l.data.isSome ∧ r.size = l.size ∧ view w i = view w j := by
  rcases equal_eq S hi hj ai aj with h | ⟨e1, e2, h⟩
  · rw [h]; simp
  · rw [h, e1, e2]
    have : view w i = view w j := by
      unfold view
      rw [hi, hj]
      simp [e1, e2]
    simp [this]

theorem equal_trans {w : World} (S : Safe w.heap w.refs) {i j k : Nat} {r l m : Ref} (hi : w.refs[i]? = some r)
    (hj : w.refs[j]? = some l) (hk : w.refs[k]? = some m) (ai : r.alive = true) (aj : l.alive = true)
    (ak : m.alive = true) (h1 : equal i j w = .ok true) (h2 : equal j k w = .ok true) : equal i k w = .ok true := by
  rw [equal_true_iff S hi hj ai aj] at h1
  rw [equal_true_iff S hj hk aj ak] at h2
  rw [equal_true_iff S hi hk ai ak]
  exact ⟨h1.1.trans h2.1, h1.2.1.trans h2.2.1, h1.2.2.trans h2.2.2⟩

/-- A distance between descriptors of equal size is a metric: zero exactly for equal ones, symmetric, and the triangle
inequality holds.  For aligned memory and descriptors of 1 to 31 words of 16 bytes. -/
theorem distance_metric_partial {pa pb pc : Nat} {a b c : List UInt8} {n : Nat} (ha : a.length = n) (hb : b.length = n)
    (hc : c.length = n) (A : pa % 16 = 0) (B : pb % 16 = 0) (C : pc % 16 = 0) (h16 : n % 16 = 0) (h1 : 16 ≤ n)
    (h2 : n ≤ 496) : ∃ x y z, Descriptor.numBitsDifferent pa pb a b = .ok x ∧
      Descriptor.numBitsDifferent pb pa b a = .ok x ∧ Descriptor.numBitsDifferent pb pc b c = .ok y ∧
      Descriptor.numBitsDifferent pa pc a c = .ok z ∧ z ≤ x + y ∧ (x = 0 ↔ a = b) := by
  have key : ∀ {p q : Nat} {s t : List UInt8}, s.length = n → t.length = n → p % 16 = 0 → q % 16 = 0 →
      Descriptor.numBitsDifferent p q s t = .ok (Hamming.distance (8 * n) s t) := by
    intro p q s t hs ht hp hq
    unfold Descriptor.numBitsDifferent
    rw [if_pos (by omega), hs]
    exact Hamming.hamming_distance_partial hp hq h16 h1 h2 (by omega) (by omega)
  refine ⟨_, _, _, key ha hb A B, ?_, key hb hc B C, key ha hc A C, ?_, ?_⟩
  · rw [key hb ha B A, Descriptor.distance_comm]
  · unfold Hamming.distance
    refine le_trans (Finset.card_le_card ?_) (Finset.card_union_le _ _)
    intro k hk
    simp only [Finset.mem_union, Finset.mem_filter] at hk ⊢
    by_cases h : Hamming.bit a k = Hamming.bit b k
    · right
      refine ⟨hk.1, ?_⟩
      rw [← h]
      exact hk.2
    · exact Or.inl ⟨hk.1, h⟩
  · constructor
    · intro h
      unfold Hamming.distance at h
      rw [Finset.card_eq_zero, Finset.filter_eq_empty_iff] at h
      apply List.ext_getElem (by omega)
      intro m m1 m2
      have hbits : ∀ j < 8, a[m].toNat.testBit j = b[m].toNat.testBit j := by
        intro j hj
        have := h (Finset.mem_range.2 (show 8 * m + j < 8 * n by omega))
        simp only [not_not] at this
        unfold Hamming.bit at this
        rw [show (8 * m + j) / 8 = m by omega, show (8 * m + j) % 8 = j by omega] at this
        rw [List.getD_eq_getElem _ _ m1, List.getD_eq_getElem _ _ m2] at this
        exact this
      apply UInt8.toNat_inj.1
      apply Nat.eq_of_testBit_eq
      intro j
      by_cases hj : j < 8
      · exact hbits j hj
      · have l1 : a[m].toNat < 2 ^ j := lt_of_lt_of_le a[m].toNat_lt (Nat.pow_le_pow_right (by omega) (by omega))
        have l2 : b[m].toNat < 2 ^ j := lt_of_lt_of_le b[m].toNat_lt (Nat.pow_le_pow_right (by omega) (by omega))
        rw [Nat.testBit_lt_two_pow l1, Nat.testBit_lt_two_pow l2]
    · intro h
      rw [h, Descriptor.distance_self]

/-- So references to such descriptors are equal exactly if no bit differs. -/
theorem equal_iff_distance_partial {w : World} (S : Safe w.heap w.refs) {i j : Nat} {d e : List UInt8} (hi : Holds w i d)
    (hj : Holds w j e) (hde : d.length = e.length) {pa pb : Nat} (A : pa % 16 = 0) (B : pb % 16 = 0)
    (h16 : d.length % 16 = 0) (h1 : 16 ≤ d.length) (h2 : d.length ≤ 496) :
    ∃ x, Descriptor.numBitsDifferent pa pb d e = .ok x ∧ equal i j w = .ok (decide (x = 0)) := by
  obtain ⟨x, _, _, e1, _, _, _, _, e2⟩ := distance_metric_partial rfl hde.symm rfl A B A h16 h1 h2
  refine ⟨x, e1, ?_⟩
  rw [equal_iff_bytes S hi hj]
  congr 1
  apply decide_eq_decide.2
  exact e2.symm

theorem allocate_alive {n : Nat} {r : Ref} {heap : List Block} {x : Ref × List Block}
    (h : allocate n r heap = .ok x) : x.1.alive = r.alive := by
  unfold allocate at h
  split at h
  · cases h; rfl
  · obtain ⟨y, h1, h2⟩ := Outcome.bind_eq_ok.1 h
    cases h2
    unfold release at h1
    split at h1
    · obtain ⟨_, _, h3⟩ := Outcome.bind_eq_ok.1 h1
      cases h3; rfl
    · cases h1; rfl

/-- After an assignment in which either side owns memory the two references are equal, and that although they do not
share memory. -/
theorem equal_after_assign {w w' : World} {i j : Nat} {r l : Ref} (S : Safe w.heap w.refs) (hr : w.refs[i]? = some r)
    (hra : r.alive = true) (hl : w.refs[j]? = some l) (hla : l.alive = true) (hij : i ≠ j)
    (hc : r.owned = true ∨ l.owned = true) (ha : Allowed w (.assign i j)) (h0 : 0 < l.size)
    (hs : step w (.assign i j) = .ok w') : equal i j w' = .ok true := by
  obtain ⟨r', hr', ho', hs', hv⟩ := assign_is_deep S hr hra hl hla hij hc ha hs
  obtain ⟨v1, v2, _⟩ := hv h0
  obtain ⟨w2, e, S'⟩ : ∃ w2, step w (.assign i j) = .ok w2 ∧ Safe w2.heap w2.refs := by
    rcases step_safe S (o := .assign i j) ⟨⟨r, hr, hra⟩, l, hl, hla⟩ ha with h | ⟨_, _, _, h, _⟩
    · exact h
    · cases h
  rw [e] at hs
  cases hs
  have shape : ∃ x, w'.refs = w.refs.set i x ∧ x.alive = true := by
    unfold step at e
    simp only at e
    rw [if_neg hij, get_ok hr hra, Outcome.bind_ok, get_ok hl hla, Outcome.bind_ok] at e
    obtain ⟨x, h1, h2⟩ := Outcome.bind_eq_ok.1 e
    cases h2
    refine ⟨x.1, rfl, ?_⟩
    unfold assign at h1
    rw [if_pos hc] at h1
    obtain ⟨y, h3, h4⟩ := Outcome.bind_eq_ok.1 h1
    obtain ⟨z, _, h5⟩ := Outcome.bind_eq_ok.1 h4
    cases h5
    rw [allocate_alive h3]
    exact hra
  obtain ⟨x, ex, hx⟩ := shape
  have hj : w'.refs[j]? = some l := by
    rw [ex, List.getElem?_set_ne hij]
    exact hl
  have ar : r'.alive = true := by
    rw [ex, List.getElem?_set_self (List.getElem?_eq_some_iff.1 hr).1] at hr'
    cases hr'
    exact hx
  have d1 : r'.data.isSome = true := by
    rcases S'.own i r' hr' ar ho' with ⟨p, _, hp, _⟩ | ⟨_, hz⟩
    · rw [hp]; rfl
    · omega
  have d2 : l.data.isSome = true := by
    cases hd : l.data with
    | some p => rfl
    | none =>
      exfalso
      cases ho : l.owned with
      | true =>
        rcases S.own j l hl hla ho with ⟨p, _, hp, _⟩ | ⟨_, hz⟩
        · rw [hd] at hp; cases hp
        · omega
      | false =>
        rcases ha with h | h
        · exact hij h
        · have := h r l hr hl (by rcases hc with h1 | h1; exact h1; rw [ho] at h1; cases h1) ho hd
          omega
  exact (equal_true_iff S' hr' hj ar hla).2 ⟨by rw [d1, d2], hs', v1.trans v2.symm⟩

/-- Descriptors of 20 bytes that differ in the last byte: no bit is reported to differ, but they are not equal. -/
theorem trailing_bytes_refuted :
    Descriptor.numBitsDifferent 0 32 (List.replicate 20 0) (List.replicate 19 0 ++ [1]) = .ok 0 ∧
    ∃ w, Holds w 0 (List.replicate 20 0) ∧ Holds w 1 (List.replicate 19 0 ++ [1]) ∧ equal 0 1 w = .ok false := by
  refine ⟨by decide +kernel, ⟨[⟨true, true, List.replicate 20 0⟩, ⟨true, true, List.replicate 19 0 ++ [1]⟩],
    [⟨true, false, some 0, 20⟩, ⟨true, false, some 1, 20⟩]⟩, ?_, ?_, by decide +kernel⟩
  · exact ⟨_, _, _, rfl, rfl, rfl, rfl, by decide, by decide⟩
  · exact ⟨_, _, _, rfl, rfl, rfl, rfl, by decide, by decide⟩

/-- Nothing is seen through a new reference, a released one and one of size 0, but no two of them are equal: a released
reference keeps its size, and one of size 0 has memory. -/
theorem empty_references_refuted : ∃ w, run [.new, .newAlloc 4, .release 1, .newAlloc 0] ⟨[], []⟩ = .ok w ∧
    view w 0 = some [] ∧ view w 1 = some [] ∧ view w 2 = some [] ∧ equal 0 1 w = .ok false ∧ equal 0 2 w = .ok false ∧
    equal 1 2 w = .ok false :=
  ⟨_, rfl, by decide, by decide, by decide, by decide, by decide, by decide⟩

/-- Two references that own equal bytes. -/
example : ∃ w, run [.newAlloc 2, .write 0 1 7, .newAlloc 2, .assign 1 0] ⟨[], []⟩ = .ok w ∧ Holds w 0 [0, 7] ∧
    Holds w 1 [0, 7] ∧ equal 0 1 w = .ok true :=
  ⟨_, rfl, ⟨_, _, _, rfl, rfl, rfl, rfl, by decide, by decide⟩, ⟨_, _, _, rfl, rfl, rfl, rfl, by decide, by decide⟩,
    by decide⟩

end Verif.DescriptorRef
