import Verif.DescriptorRef.Model
import Mathlib.Tactic.ByContra

/-!
# Properties of the ownership of descriptor memory (C65)
-/

namespace Verif.DescriptorRef

open Verif (Outcome)

/-! ## Specification -/

/-- What is seen through a reference. -/
def view (w : World) (i : Nat) : Option (List UInt8) :=
  match w.refs[i]? with
  | some r => match r.data with
    | some p => (w.heap[p]?).map fun b => b.bytes.take r.size
    | none => some []
  | none => none

/-- The memory that the references manage is in order: every live block from `new[]` is owned by exactly one reference
that exists, references that own memory own a live block of their size, and those that do not refer to live memory of
somebody else. -/
structure Safe (heap : List Block) (refs : List Ref) : Prop where
  own : ∀ (i : Nat) (r : Ref), refs[i]? = some r → r.alive = true → r.owned = true →
    (∃ p b, r.data = some p ∧ heap[p]? = some b ∧ b.live = true ∧ b.ext = false ∧ b.bytes.length = r.size) ∨
      (r.data = none ∧ r.size = 0)
  borrow : ∀ (i : Nat) (r : Ref) (p : Nat), refs[i]? = some r → r.alive = true → r.owned = false → r.data = some p →
    ∃ b, heap[p]? = some b ∧ b.live = true ∧ b.ext = true ∧ r.size ≤ b.bytes.length
  uniq : ∀ (i j : Nat) (r s : Ref) (p : Nat), refs[i]? = some r → refs[j]? = some s → r.alive = true → s.alive = true →
    r.owned = true → s.owned = true → r.data = some p → s.data = some p → i = j
  noLeak : ∀ (p : Nat) (b : Block), heap[p]? = some b → b.live = true → b.ext = false →
    ∃ (i : Nat) (r : Ref), refs[i]? = some r ∧ r.alive = true ∧ r.owned = true ∧ r.data = some p

/-- The operations to which the claim applies: borrowed memory is large enough, and contents are not copied from a
reference that was released (it keeps its size but has no memory).  Uninitialised members have some value. -/
def Allowed (w : World) : Op → Prop
  | .newBorrow p n => ∃ b, w.heap[p]? = some b ∧ b.live = true ∧ b.ext = true ∧ n ≤ b.bytes.length
  | .copy _ g => g ≠ none
  | .assign i j => i = j ∨ ∀ r l, w.refs[i]? = some r → w.refs[j]? = some l → r.owned = true → l.owned = false →
      l.data = none → l.size = 0
  | .write i _ _ => ∀ r, w.refs[i]? = some r → r.data = none → r.size = 0
  | _ => True

/-- An operation uses only references that exist. -/
def Exists (w : World) : Op → Prop
  | .copy j _ => ∃ l, w.refs[j]? = some l ∧ l.alive = true
  | .assign i j => (∃ r, w.refs[i]? = some r ∧ r.alive = true) ∧ ∃ l, w.refs[j]? = some l ∧ l.alive = true
  | .allocate i _ => ∃ r, w.refs[i]? = some r ∧ r.alive = true
  | .release i => ∃ r, w.refs[i]? = some r ∧ r.alive = true
  | .destroy i => ∃ r, w.refs[i]? = some r ∧ r.alive = true
  | .write i _ _ => ∃ r, w.refs[i]? = some r ∧ r.alive = true
  | _ => True

/-! ## The steps -/

theorem get_ok {i : Nat} {w : World} {r : Ref} (h : w.refs[i]? = some r) (ha : r.alive = true) : get i w = .ok r := by
  unfold get
  rw [h]
  simp only
  rw [if_pos ha]

theorem set_cases {refs : List Ref} {i j : Nat} {r s : Ref} (h : (refs.set i r)[j]? = some s) :
    (j = i ∧ s = r ∧ i < refs.length) ∨ (j ≠ i ∧ refs[j]? = some s) := by
  by_cases hj : j = i
  · subst hj
    left
    have hl : j < (refs.set j r).length := (List.getElem?_eq_some_iff.1 h).1
    rw [List.length_set] at hl
    rw [List.getElem?_set_self hl] at h
    cases h
    exact ⟨rfl, rfl, hl⟩
  · right
    rw [List.getElem?_set_ne (Ne.symm hj)] at h
    exact ⟨hj, h⟩

theorem append_cases {α : Type} {l : List α} {a s : α} {j : Nat} (h : (l ++ [a])[j]? = some s) :
    (j = l.length ∧ s = a) ∨ (j < l.length ∧ l[j]? = some s) := by
  rcases Nat.lt_trichotomy j l.length with hj | hj | hj
  · rw [List.getElem?_append_left hj] at h
    exact Or.inr ⟨hj, h⟩
  · subst hj
    rw [List.getElem?_append_right (Nat.le_refl _)] at h
    simp at h
    exact Or.inl ⟨rfl, h.symm⟩
  · rw [List.getElem?_eq_none (by simp; omega)] at h
    cases h

theorem append_left {α : Type} {l : List α} {a s : α} {j : Nat} (h : l[j]? = some s) : (l ++ [a])[j]? = some s := by
  rw [List.getElem?_append_left (List.getElem?_eq_some_iff.1 h).1]
  exact h

/-- Releasing. -/
theorem release_safe {heap : List Block} {refs : List Ref} {i : Nat} {r : Ref} (S : Safe heap refs)
    (hr : refs[i]? = some r) (ha : r.alive = true) :
    ∃ r' h', release r heap = .ok (r', h') ∧ r'.alive = true ∧ r'.owned = false ∧ r'.size = r.size ∧
      (r.owned = true → r'.data = none) ∧ (r.owned = false → r' = r) ∧ Safe h' (refs.set i r') ∧
      h'.length = heap.length ∧
      ∀ p b, heap[p]? = some b → ¬ (r.owned = true ∧ r.data = some p) → h'[p]? = some b := by
  have hlt := (List.getElem?_eq_some_iff.1 hr).1
  unfold release
  by_cases ho : r.owned = true
  · rw [if_pos ho]
    rcases S.own i r hr ha ho with ⟨p, b, hd, hb, hl, he, hs⟩ | ⟨hd, hs⟩
    · have hpl := (List.getElem?_eq_some_iff.1 hb).1
      have hf : free p heap = .ok (heap.set p { b with live := false }) := by
        unfold free
        rw [hb]
        simp only
        rw [if_pos ⟨hl, he⟩]
      rw [hd]
      simp only
      rw [hf, Outcome.bind_ok]
      have other : ∀ q c, heap[q]? = some c → q ≠ p → (heap.set p { b with live := false })[q]? = some c := by
        intro q c hq hne
        rw [List.getElem?_set_ne (Ne.symm hne)]
        exact hq
      refine ⟨_, _, rfl, ha, rfl, rfl, fun _ => rfl, fun h => (by rw [ho] at h; cases h), ?_, by simp, ?_⟩
      · refine ⟨?_, ?_, ?_, ?_⟩
        · intro j s hj hsa hso
          rcases set_cases hj with ⟨_, rfl, _⟩ | ⟨hne, hj⟩
          · cases hso
          · rcases S.own j s hj hsa hso with ⟨q, c, h1, h2, h3⟩ | h
            · refine Or.inl ⟨q, c, h1, other q c h2 ?_, h3⟩
              rintro rfl
              exact hne (S.uniq j i s r q hj hr hsa ha hso ho h1 hd)
            · exact Or.inr h
        · intro j s q hj hsa hso hsd
          rcases set_cases hj with ⟨_, rfl, _⟩ | ⟨_, hj⟩
          · cases hsd
          · obtain ⟨c, h1, h2, h3, h4⟩ := S.borrow j s q hj hsa hso hsd
            refine ⟨c, other q c h1 ?_, h2, h3, h4⟩
            rintro rfl
            rw [hb] at h1
            cases h1
            rw [he] at h3
            cases h3
        · intro j k s t q hj hk hsa hta hso hto hsd htd
          rcases set_cases hj with ⟨_, rfl, _⟩ | ⟨_, hj⟩
          · cases hso
          · rcases set_cases hk with ⟨_, rfl, _⟩ | ⟨_, hk⟩
            · cases hto
            · exact S.uniq j k s t q hj hk hsa hta hso hto hsd htd
        · intro q c hq hcl hce
          have hqp : q ≠ p := by
            rintro rfl
            rw [List.getElem?_set_self hpl] at hq
            cases hq
            cases hcl
          rw [List.getElem?_set_ne (Ne.symm hqp)] at hq
          obtain ⟨j, s, h1, h2, h3, h4⟩ := S.noLeak q c hq hcl hce
          refine ⟨j, s, ?_, h2, h3, h4⟩
          rw [List.getElem?_set_ne]
          · exact h1
          · rintro rfl
            rw [hr] at h1
            cases h1
            rw [hd] at h4
            cases h4
            exact hqp rfl
      · intro q c hq hne
        apply other q c hq
        rintro rfl
        exact hne ⟨ho, rfl⟩
    · rw [hd]
      simp only [Outcome.bind_ok]
      refine ⟨_, _, rfl, ha, rfl, rfl, fun _ => rfl, fun h => (by rw [ho] at h; cases h), ?_, rfl, fun q c hq _ => hq⟩
      refine ⟨?_, ?_, ?_, ?_⟩
      · intro j s hj hsa hso
        rcases set_cases hj with ⟨_, rfl, _⟩ | ⟨hne, hj⟩
        · cases hso
        · exact S.own j s hj hsa hso
      · intro j s q hj hsa hso hsd
        rcases set_cases hj with ⟨_, rfl, _⟩ | ⟨_, hj⟩
        · cases hsd
        · exact S.borrow j s q hj hsa hso hsd
      · intro j k s t q hj hk hsa hta hso hto hsd htd
        rcases set_cases hj with ⟨_, rfl, _⟩ | ⟨_, hj⟩
        · cases hso
        · rcases set_cases hk with ⟨_, rfl, _⟩ | ⟨_, hk⟩
          · cases hto
          · exact S.uniq j k s t q hj hk hsa hta hso hto hsd htd
      · intro q c hq hcl hce
        obtain ⟨j, s, h1, h2, h3, h4⟩ := S.noLeak q c hq hcl hce
        refine ⟨j, s, ?_, h2, h3, h4⟩
        rw [List.getElem?_set_ne]
        · exact h1
        · rintro rfl
          rw [hr] at h1
          cases h1
          rw [hd] at h4
          cases h4
  · rw [if_neg ho]
    have ho' : r.owned = false := by simpa using ho
    refine ⟨r, heap, rfl, ha, ho', rfl, fun h => absurd h ho, fun _ => rfl, ?_, rfl, fun q c hq _ => hq⟩
    have : refs.set i r = refs := by
      apply List.ext_getElem?
      intro j
      by_cases hj : j = i
      · subst hj
        rw [List.getElem?_set_self hlt, hr]
      · rw [List.getElem?_set_ne (Ne.symm hj)]
    rw [this]
    exact S

/-- A reference without memory of its own is given a new block. -/
theorem push_safe {heap : List Block} {refs : List Ref} {i : Nat} {r : Ref} {n : Nat} {bytes : List UInt8}
    (S : Safe heap refs) (hr : refs[i]? = some r) (ho : r.owned = false) (hn : bytes.length = n) :
    Safe (heap ++ [⟨true, false, bytes⟩]) (refs.set i ⟨r.alive, r.alive, some heap.length, n⟩) ∨ r.alive = false := by
  cases hal : r.alive with
  | false => exact Or.inr rfl
  | true =>
    left
    have hlt := (List.getElem?_eq_some_iff.1 hr).1
    refine ⟨?_, ?_, ?_, ?_⟩
    · intro j s hj hsa hso
      rcases set_cases hj with ⟨_, rfl, _⟩ | ⟨hne, hj⟩
      · exact Or.inl ⟨heap.length, ⟨true, false, bytes⟩, rfl, by rw [List.getElem?_append_right (Nat.le_refl _)]; simp, rfl, rfl, hn⟩
      · rcases S.own j s hj hsa hso with ⟨q, c, h1, h2, h3⟩ | h
        · exact Or.inl ⟨q, c, h1, append_left h2, h3⟩
        · exact Or.inr h
    · intro j s q hj hsa hso hsd
      rcases set_cases hj with ⟨_, rfl, _⟩ | ⟨_, hj⟩
      · cases hso
      · obtain ⟨c, h1, h2⟩ := S.borrow j s q hj hsa hso hsd
        exact ⟨c, append_left h1, h2⟩
    · have fresh : ∀ (j : Nat) (s : Ref) (q : Nat), refs[j]? = some s → s.alive = true → s.owned = true → s.data = some q →
          q ≠ heap.length := by
        intro j s q hj hsa hso hsd
        rintro rfl
        rcases S.own j s hj hsa hso with ⟨q, c, h1, h2, _⟩ | ⟨h1, _⟩
        · rw [hsd] at h1
          cases h1
          have := (List.getElem?_eq_some_iff.1 h2).1
          omega
        · rw [hsd] at h1
          cases h1
      intro j k s t q hj hk hsa hta hso hto hsd htd
      rcases set_cases hj with ⟨e1, rfl, _⟩ | ⟨_, hj⟩
      · rcases set_cases hk with ⟨e2, rfl, _⟩ | ⟨_, hk⟩
        · rw [e1, e2]
        · cases hsd
          exact absurd rfl (fresh k t _ hk hta hto htd)
      · rcases set_cases hk with ⟨e2, rfl, _⟩ | ⟨_, hk⟩
        · cases htd
          exact absurd rfl (fresh j s _ hj hsa hso hsd)
        · exact S.uniq j k s t q hj hk hsa hta hso hto hsd htd
    · intro q c hq hcl hce
      rcases append_cases hq with ⟨rfl, rfl⟩ | ⟨_, hq⟩
      · exact ⟨i, _, List.getElem?_set_self hlt, rfl, rfl, rfl⟩
      · obtain ⟨j, s, h1, h2, h3, h4⟩ := S.noLeak q c hq hcl hce
        refine ⟨j, s, ?_, h2, h3, h4⟩
        rw [List.getElem?_set_ne]
        · exact h1
        · rintro rfl
          rw [hr] at h1
          cases h1
          rw [ho] at h3
          cases h3

/-- Allocating. -/
theorem allocate_safe {heap : List Block} {refs : List Ref} {i n : Nat} {r : Ref} (S : Safe heap refs)
    (hr : refs[i]? = some r) (ha : r.alive = true) :
    ∃ r' h', allocate n r heap = .ok (r', h') ∧ r'.alive = true ∧ r'.owned = true ∧ r'.size = n ∧
      Safe h' (refs.set i r') ∧
      (∀ p b, heap[p]? = some b → ¬ (r.owned = true ∧ r.data = some p) → h'[p]? = some b) := by
  have hlt := (List.getElem?_eq_some_iff.1 hr).1
  unfold allocate
  by_cases hc : n = r.size ∧ r.owned = true
  · rw [if_pos hc]
    refine ⟨r, heap, rfl, ha, hc.2, hc.1.symm, ?_, fun p b h _ => h⟩
    have : refs.set i r = refs := by
      apply List.ext_getElem?
      intro j
      by_cases hj : j = i
      · subst hj
        rw [List.getElem?_set_self hlt, hr]
      · rw [List.getElem?_set_ne (Ne.symm hj)]
    rw [this]
    exact S
  · rw [if_neg hc]
    obtain ⟨r', h', e, ra, ro, rs, _, _, S', hl, hk⟩ := release_safe S hr ha
    rw [e, Outcome.bind_ok]
    have hr' : (refs.set i r')[i]? = some r' := List.getElem?_set_self hlt
    rcases push_safe (n := n) (bytes := List.replicate n 0) S' hr' ro (by simp) with P | P
    · rw [List.set_set, ra] at P
      refine ⟨_, _, rfl, ra, rfl, rfl, ?_, ?_⟩
      · have : ({ r' with owned := true, size := n, data := some h'.length } : Ref) = ⟨true, true, some h'.length, n⟩ := by
          rw [← ra]
        rw [this]
        exact P
      · intro p b hp hne
        exact append_left (hk p b hp hne)
    · rw [ra] at P
      cases P

/-- Changing the bytes of a block. -/
theorem bytes_safe {heap : List Block} {refs : List Ref} {p : Nat} {b : Block} {bytes : List UInt8} (S : Safe heap refs)
    (hb : heap[p]? = some b) (hl : bytes.length = b.bytes.length) : Safe (heap.set p { b with bytes := bytes }) refs := by
  have hpl := (List.getElem?_eq_some_iff.1 hb).1
  have look : ∀ (q : Nat) (c : Block), heap[q]? = some c → ∃ c' : Block, (heap.set p { b with bytes := bytes })[q]? = some c' ∧
      c'.live = c.live ∧ c'.ext = c.ext ∧ c'.bytes.length = c.bytes.length := by
    intro q c hq
    by_cases h : q = p
    · subst h
      rw [hb] at hq
      cases hq
      exact ⟨_, List.getElem?_set_self hpl, rfl, rfl, hl⟩
    · exact ⟨c, by rw [List.getElem?_set_ne (Ne.symm h)]; exact hq, rfl, rfl, rfl⟩
  have back : ∀ (q : Nat) (c' : Block), (heap.set p { b with bytes := bytes })[q]? = some c' → ∃ c : Block, heap[q]? = some c ∧
      c.live = c'.live ∧ c.ext = c'.ext := by
    intro q c' hq
    by_cases h : q = p
    · subst h
      rw [List.getElem?_set_self hpl] at hq
      cases hq
      exact ⟨b, hb, rfl, rfl⟩
    · rw [List.getElem?_set_ne (Ne.symm h)] at hq
      exact ⟨c', hq, rfl, rfl⟩
  refine ⟨?_, ?_, S.uniq, ?_⟩
  · intro j s hj hsa hso
    rcases S.own j s hj hsa hso with ⟨q, c, h1, h2, h3, h4, h5⟩ | h
    · obtain ⟨c', e1, e2, e3, e4⟩ := look q c h2
      exact Or.inl ⟨q, c', h1, e1, by rw [e2, h3], by rw [e3, h4], by rw [e4, h5]⟩
    · exact Or.inr h
  · intro j s q hj hsa hso hsd
    obtain ⟨c, h1, h2, h3, h4⟩ := S.borrow j s q hj hsa hso hsd
    obtain ⟨c', e1, e2, e3, e4⟩ := look q c h1
    exact ⟨c', e1, by rw [e2, h2], by rw [e3, h3], by rw [e4]; exact h4⟩
  · intro q c' hq hcl hce
    obtain ⟨c, e1, e2, e3⟩ := back q c' hq
    exact S.noLeak q c e1 (by rw [e2, hcl]) (by rw [e3, hce])

/-- Adding a reference that owns no block. -/
theorem append_safe {heap : List Block} {refs : List Ref} {r : Ref} (S : Safe heap refs)
    (h1 : r.owned = true → r.data = none ∧ r.size = 0)
    (h2 : ∀ p, r.owned = false → r.data = some p →
      ∃ b, heap[p]? = some b ∧ b.live = true ∧ b.ext = true ∧ r.size ≤ b.bytes.length) : Safe heap (refs ++ [r]) := by
  refine ⟨?_, ?_, ?_, ?_⟩
  · intro j s hj hsa hso
    rcases append_cases hj with ⟨_, rfl⟩ | ⟨_, hj⟩
    · exact Or.inr (h1 hso)
    · exact S.own j s hj hsa hso
  · intro j s q hj hsa hso hsd
    rcases append_cases hj with ⟨_, rfl⟩ | ⟨_, hj⟩
    · exact h2 q hso hsd
    · exact S.borrow j s q hj hsa hso hsd
  · intro j k s t q hj hk hsa hta hso hto hsd htd
    rcases append_cases hj with ⟨_, rfl⟩ | ⟨_, hj⟩
    · rw [(h1 hso).1] at hsd
      cases hsd
    · rcases append_cases hk with ⟨_, rfl⟩ | ⟨_, hk⟩
      · rw [(h1 hto).1] at htd
        cases htd
      · exact S.uniq j k s t q hj hk hsa hta hso hto hsd htd
  · intro q c hq hcl hce
    obtain ⟨j, s, e1, e2⟩ := S.noLeak q c hq hcl hce
    exact ⟨j, s, append_left e1, e2⟩

/-- Replacing a reference that owns nothing by another one that owns nothing. -/
theorem replace_safe {heap : List Block} {refs : List Ref} {i : Nat} {r r' : Ref} (S : Safe heap refs)
    (hr : refs[i]? = some r) (ho : r.owned = false) (ho' : r'.owned = false)
    (h2 : ∀ p, r'.alive = true → r'.data = some p →
      ∃ b, heap[p]? = some b ∧ b.live = true ∧ b.ext = true ∧ r'.size ≤ b.bytes.length) : Safe heap (refs.set i r') := by
  refine ⟨?_, ?_, ?_, ?_⟩
  · intro j s hj hsa hso
    rcases set_cases hj with ⟨_, rfl, _⟩ | ⟨_, hj⟩
    · rw [ho'] at hso
      cases hso
    · exact S.own j s hj hsa hso
  · intro j s q hj hsa hso hsd
    rcases set_cases hj with ⟨_, rfl, _⟩ | ⟨_, hj⟩
    · exact h2 q hsa hsd
    · exact S.borrow j s q hj hsa hso hsd
  · intro j k s t q hj hk hsa hta hso hto hsd htd
    rcases set_cases hj with ⟨_, rfl, _⟩ | ⟨_, hj⟩
    · rw [ho'] at hso
      cases hso
    · rcases set_cases hk with ⟨_, rfl, _⟩ | ⟨_, hk⟩
      · rw [ho'] at hto
        cases hto
      · exact S.uniq j k s t q hj hk hsa hta hso hto hsd htd
  · intro q c hq hcl hce
    obtain ⟨j, s, e1, e2, e3, e4⟩ := S.noLeak q c hq hcl hce
    refine ⟨j, s, ?_, e2, e3, e4⟩
    rw [List.getElem?_set_ne]
    · exact e1
    · rintro rfl
      rw [hr] at e1
      cases e1
      rw [ho] at e3
      cases e3

/-- The memory of a source of a copy. -/
def Source (heap : List Block) (l : Ref) : Prop :=
  l.size = 0 ∨ ∃ p b, l.data = some p ∧ heap[p]? = some b ∧ b.live = true ∧ l.size ≤ b.bytes.length

/-- `Allocate` and `memcpy` from another reference. -/
theorem copyInto_safe {heap : List Block} {refs : List Ref} {i : Nat} {r l : Ref} (S : Safe heap refs)
    (hr : refs[i]? = some r) (ha : r.alive = true) (hsrc : Source heap l)
    (hd : ∀ p, l.data = some p → ¬ (r.owned = true ∧ r.data = some p)) :
    ∃ r' h', (allocate l.size r heap >>= fun x => memcpy l.size l.data x.1.data x.2 >>= fun h => .ok (x.1, h)) =
        .ok (r', h') ∧ r'.alive = true ∧ r'.owned = true ∧ r'.size = l.size ∧ Safe h' (refs.set i r') ∧
      (0 < l.size → ∃ p q b c, l.data = some p ∧ heap[p]? = some b ∧ r'.data = some q ∧ q ≠ p ∧ h'[q]? = some c ∧
        c.ext = false ∧ c.bytes = b.bytes.take l.size ∧ h'[p]? = some b) := by
  have hlt := (List.getElem?_eq_some_iff.1 hr).1
  obtain ⟨r', h', e, ra, ro, rs, S', hk⟩ := allocate_safe (n := l.size) S hr ha
  rw [e, Outcome.bind_ok]
  unfold memcpy
  by_cases h0 : l.size = 0
  · rw [if_pos h0, Outcome.bind_ok]
    exact ⟨r', h', rfl, ra, ro, rs, S', fun h => absurd h0 (by omega)⟩
  · rw [if_neg h0]
    rcases hsrc with h | ⟨p, b, h1, h2, h3, h4⟩
    · exact absurd h h0
    · have hb' := hk p b h2 (hd p h1)
      have hr' : (refs.set i r')[i]? = some r' := List.getElem?_set_self hlt
      rcases S'.own i r' hr' ra ro with ⟨q, c, g1, g2, g3, g4, g5⟩ | ⟨_, g⟩
      · have hqp : q ≠ p := by
          rintro rfl
          rw [hb'] at g2
          cases g2
          -- the new block is not the source: the source would be owned by `i` or not owned at all
          by_cases hro : r.owned = true
          · rcases S.own i r hr ha hro with ⟨q', c', f1, f2, f3, f4, f5⟩ | ⟨f1, f2⟩
            · by_cases hq : q' = q
              · subst hq
                exact hd q' h1 ⟨hro, f1⟩
              · -- `allocate` made a new block or kept that of `r`
                unfold allocate at e
                by_cases hcnd : l.size = r.size ∧ r.owned = true
                · rw [if_pos hcnd] at e
                  cases e
                  rw [f1] at g1
                  cases g1
                  exact hq rfl
                · rw [if_neg hcnd] at e
                  obtain ⟨x, ex, ey⟩ := Outcome.bind_eq_ok.1 e
                  obtain ⟨y1, y2, z1, z2, z3, z4, z5, z6, z7, z8, z9⟩ := release_safe S hr ha
                  rw [z1] at ex
                  cases ex
                  cases ey
                  cases g1
                  have hy : y2.length < heap.length := (List.getElem?_eq_some_iff.1 h2).1
                  omega
            · unfold allocate at e
              rw [if_neg (by omega)] at e
              obtain ⟨x, ex, ey⟩ := Outcome.bind_eq_ok.1 e
              obtain ⟨y1, y2, z1, z2, z3, z4, z5, z6, z7, z8, z9⟩ := release_safe S hr ha
              rw [z1] at ex
              cases ex
              cases ey
              cases g1
              have hy : y2.length < heap.length := (List.getElem?_eq_some_iff.1 h2).1
              omega
          · unfold allocate at e
            rw [if_neg (fun h => hro h.2)] at e
            obtain ⟨x, ex, ey⟩ := Outcome.bind_eq_ok.1 e
            obtain ⟨y1, y2, z1, z2, z3, z4, z5, z6, z7, z8, z9⟩ := release_safe S hr ha
            rw [z1] at ex
            cases ex
            cases ey
            cases g1
            have hy : y2.length < heap.length := (List.getElem?_eq_some_iff.1 h2).1
            omega
        have hql := (List.getElem?_eq_some_iff.1 g2).1
        rw [h1, g1]
        simp only
        rw [hb', g2]
        simp only
        rw [if_pos ⟨h3, g3, h4, by omega⟩, Outcome.bind_ok]
        refine ⟨r', _, rfl, ra, ro, rs, bytes_safe S' g2 ?_, ?_⟩
        · rw [List.length_append, List.length_take, List.length_drop]
          omega
        · intro _
          refine ⟨p, q, b, _, rfl, h2, g1, hqp, List.getElem?_set_self hql, g4, ?_, ?_⟩
          · simp only
            rw [List.drop_eq_nil_of_le (by omega), List.append_nil]
          · rw [List.getElem?_set_ne hqp]
            exact hb'
      · omega

theorem source_of {heap : List Block} {refs : List Ref} {j : Nat} {l : Ref} (S : Safe heap refs) (hl : refs[j]? = some l)
    (ha : l.alive = true) (h : l.owned = false → l.data = none → l.size = 0) : Source heap l := by
  cases ho : l.owned with
  | true =>
    rcases S.own j l hl ha ho with ⟨p, b, h1, h2, h3, _, h5⟩ | ⟨_, h⟩
    · exact Or.inr ⟨p, b, h1, h2, h3, by omega⟩
    · exact Or.inl h
  | false =>
    cases hd : l.data with
    | none => exact Or.inl (h ho hd)
    | some p =>
      obtain ⟨b, h1, h2, _, h4⟩ := S.borrow j l p hl ha ho hd
      exact Or.inr ⟨p, b, hd, h1, h2, h4⟩

/-! ## C65 -/

/-- From a state in order, every operation on existing references has defined behaviour (writing may abort if the index
is out of range), and leaves the memory in order. -/
theorem step_safe {w : World} {o : Op} (S : Safe w.heap w.refs) (hx : Exists w o) (ha : Allowed w o) :
    (∃ w', step w o = .ok w' ∧ Safe w'.heap w'.refs) ∨
      ∃ i k v, o = .write i k v ∧ step w o = .abort ∧ ∃ r, w.refs[i]? = some r ∧ r.size ≤ k := by
  cases o with
  | new =>
    left
    exact ⟨_, rfl, append_safe S (fun h => by cases h) (fun p _ h => by cases h)⟩
  | newAlloc n =>
    left
    refine ⟨_, rfl, ?_⟩
    have S1 : Safe w.heap (w.refs ++ [⟨true, false, none, 0⟩]) :=
      append_safe S (fun h => by cases h) (fun p _ h => by cases h)
    have hr : (w.refs ++ [(⟨true, false, none, 0⟩ : Ref)])[w.refs.length]? = some ⟨true, false, none, 0⟩ := by
      rw [List.getElem?_append_right (Nat.le_refl _)]
      simp
    rcases push_safe (n := n) (bytes := List.replicate n 0) S1 hr rfl (by simp) with P | P
    · rw [List.set_append_right _ _ (Nat.le_refl _)] at P
      simpa using P
    · cases P
  | newBorrow p n =>
    left
    refine ⟨_, rfl, append_safe S (fun h => by cases h) ?_⟩
    intro q _ hq
    cases hq
    exact ha
  | copy j g =>
    left
    obtain ⟨l, hl, hla⟩ := hx
    have hg : g ≠ none := ha
    unfold step
    simp only
    rw [get_ok hl hla, Outcome.bind_ok]
    unfold copy
    by_cases ho : l.owned = true
    · rw [if_pos ho]
      cases g with
      | none => exact absurd rfl hg
      | some g =>
        simp only
        have S1 : Safe w.heap (w.refs ++ [⟨true, g, none, 0⟩]) :=
          append_safe S (fun _ => ⟨rfl, rfl⟩) (fun p _ h => by cases h)
        have hr : (w.refs ++ [(⟨true, g, none, 0⟩ : Ref)])[w.refs.length]? = some ⟨true, g, none, 0⟩ := by
          rw [List.getElem?_append_right (Nat.le_refl _)]
          simp
        obtain ⟨r', h', e, _, _, _, S', _⟩ := copyInto_safe (l := l) S1 hr rfl
          (source_of S hl hla (fun h => by rw [ho] at h; cases h)) (fun p _ h => by cases h.2)
        rw [e, Outcome.bind_ok]
        refine ⟨_, rfl, ?_⟩
        rw [List.set_append_right _ _ (Nat.le_refl _)] at S'
        simpa using S'
    · rw [if_neg ho, Outcome.bind_ok]
      refine ⟨_, rfl, append_safe S (fun h => by cases h) ?_⟩
      intro p _ hp
      exact S.borrow j l p hl hla (by simpa using ho) hp
  | assign i j =>
    left
    obtain ⟨⟨r, hr, hra⟩, l, hl, hla⟩ := hx
    unfold step
    simp only
    by_cases hij : i = j
    · rw [if_pos hij, get_ok hr hra, Outcome.bind_ok]
      exact ⟨w, rfl, S⟩
    · rw [if_neg hij, get_ok hr hra, Outcome.bind_ok, get_ok hl hla, Outcome.bind_ok]
      unfold assign
      by_cases hc : r.owned = true ∨ l.owned = true
      · rw [if_pos hc]
        have hsrc : Source w.heap l := source_of S hl hla (fun h1 h2 => by
          rcases ha with h | h
          · exact absurd h hij
          · refine h r l hr hl ?_ h1 h2
            rcases hc with hc | hc
            · exact hc
            · rw [h1] at hc
              cases hc)
        have hd : ∀ p, l.data = some p → ¬ (r.owned = true ∧ r.data = some p) := by
          rintro p hp ⟨h1, h2⟩
          cases hlo : l.owned with
          | true => exact hij (S.uniq i j r l p hr hl hra hla h1 hlo h2 hp)
          | false =>
            obtain ⟨b, e1, e2, e3, _⟩ := S.borrow j l p hl hla hlo hp
            rcases S.own i r hr hra h1 with ⟨q, c, f1, f2, f3, f4, _⟩ | ⟨f1, _⟩
            · rw [h2] at f1
              cases f1
              rw [e1] at f2
              cases f2
              rw [e3] at f4
              cases f4
            · rw [h2] at f1
              cases f1
        obtain ⟨r', h', e, _, _, _, S', _⟩ := copyInto_safe (l := l) S hr hra hsrc hd
        rw [e, Outcome.bind_ok]
        exact ⟨_, rfl, S'⟩
      · rw [if_neg hc, Outcome.bind_ok]
        have h1 : r.owned = false := by
          cases h : r.owned
          · rfl
          · exact absurd (Or.inl h) hc
        have h2 : l.owned = false := by
          cases h : l.owned
          · rfl
          · exact absurd (Or.inr h) hc
        refine ⟨_, rfl, replace_safe S hr h1 h2 ?_⟩
        intro p _ hp
        exact S.borrow j l p hl hla h2 hp
  | allocate i n =>
    left
    obtain ⟨r, hr, hra⟩ := hx
    obtain ⟨r', h', e, _, _, _, S', _⟩ := allocate_safe (n := n) S hr hra
    unfold step
    simp only
    rw [get_ok hr hra, Outcome.bind_ok, e, Outcome.bind_ok]
    exact ⟨_, rfl, S'⟩
  | release i =>
    left
    obtain ⟨r, hr, hra⟩ := hx
    obtain ⟨r', h', e, _, _, _, _, _, S', _⟩ := release_safe S hr hra
    unfold step
    simp only
    rw [get_ok hr hra, Outcome.bind_ok, e, Outcome.bind_ok]
    exact ⟨_, rfl, S'⟩
  | destroy i =>
    left
    obtain ⟨r, hr, hra⟩ := hx
    obtain ⟨r', h', e, _, ro, _, _, _, S', _⟩ := release_safe S hr hra
    unfold step
    simp only
    rw [get_ok hr hra, Outcome.bind_ok, e, Outcome.bind_ok]
    refine ⟨_, rfl, ?_⟩
    have hlt := (List.getElem?_eq_some_iff.1 hr).1
    have := replace_safe (r' := { r' with alive := false }) S' (List.getElem?_set_self hlt) ro ro
      (fun p h _ => by cases h)
    rw [List.set_set] at this
    exact this
  | write i k v =>
    obtain ⟨r, hr, hra⟩ := hx
    unfold step
    simp only
    rw [get_ok hr hra, Outcome.bind_ok]
    unfold write
    by_cases hk : k < r.size
    · left
      rw [if_pos hk]
      have hsrc : Source w.heap r := source_of S hr hra (fun _ h => ha r hr h)
      rcases hsrc with h | ⟨p, b, h1, h2, h3, h4⟩
      · omega
      · rw [h1]
        simp only
        rw [h2]
        simp only
        rw [if_pos ⟨h3, by omega⟩, Outcome.bind_ok]
        exact ⟨_, rfl, bytes_safe S h2 (by simp)⟩
    · right
      rw [if_neg hk]
      exact ⟨i, k, v, rfl, rfl, r, hr, by omega⟩

/-- Runs in which every operation is allowed and uses existing references. -/
def Good : World → List Op → Prop
  | _, [] => True
  | w, o :: os => Exists w o ∧ Allowed w o ∧ ∀ w', step w o = .ok w' → Good w' os

/-- Whatever is done in an allowed order, the memory stays safe: each buffer is freed once, by its last owner, or
the program ends with a message. -/
theorem run_safe : ∀ (ops : List Op) (w : World), Safe w.heap w.refs → Good w ops →
    (∃ w', run ops w = .ok w' ∧ Safe w'.heap w'.refs) ∨ run ops w = .abort
  | [], w, S, _ => Or.inl ⟨w, rfl, S⟩
  | o :: os, w, S, h => by
    rcases step_safe S h.1 h.2.1 with ⟨w', e, S'⟩ | ⟨_, _, _, _, e, _⟩
    · have := run_safe os w' S' (h.2.2 w' e)
      unfold run
      rw [e, Outcome.bind_ok]
      exact this
    · right
      unfold run
      rw [e]
      rfl

/-- No sequence of operations frees memory twice, frees memory of somebody else or uses freed memory; and when all
references have been destroyed, no memory is left allocated. -/
theorem no_double_free_no_leak {ext : List Block} (he : ∀ b ∈ ext, b.ext = true) {ops : List Op}
    (hg : Good ⟨ext, []⟩ ops) :
    run ops ⟨ext, []⟩ ≠ .ub ∧ ∀ w, run ops ⟨ext, []⟩ = .ok w → (∀ r ∈ w.refs, r.alive = false) →
      ∀ b ∈ w.heap, b.ext = false → b.live = false := by
  have S0 : Safe ext [] := by
    refine ⟨by simp, by simp, by simp, ?_⟩
    intro p b hb _ h
    rw [he b (List.mem_of_getElem? hb)] at h
    cases h
  rcases run_safe ops ⟨ext, []⟩ S0 hg with ⟨w', e, S⟩ | e
  · rw [e]
    refine ⟨by simp, ?_⟩
    intro w hw hd b hb hext
    cases hw
    obtain ⟨p, hp⟩ := List.mem_iff_getElem?.1 hb
    cases hl : b.live with
    | false => rfl
    | true =>
      obtain ⟨i, r, h1, h2, _⟩ := S.noLeak p b hp hl hext
      rw [hd r (List.mem_of_getElem? h1)] at h2
      cases h2
  · rw [e]
    exact ⟨by simp, fun w hw => by cases hw⟩

/-- After an assignment in which either side owns memory, the two have the same contents in different memory. -/
theorem assign_is_deep {w w' : World} {i j : Nat} {r l : Ref} (S : Safe w.heap w.refs) (hr : w.refs[i]? = some r)
    (hra : r.alive = true) (hl : w.refs[j]? = some l) (hla : l.alive = true) (hij : i ≠ j)
    (hc : r.owned = true ∨ l.owned = true) (ha : Allowed w (.assign i j)) (hs : step w (.assign i j) = .ok w') :
    ∃ r', w'.refs[i]? = some r' ∧ r'.owned = true ∧ r'.size = l.size ∧
      (0 < l.size → view w' i = view w j ∧ view w' j = view w j ∧ r'.data ≠ l.data) := by
  have hlt := (List.getElem?_eq_some_iff.1 hr).1
  unfold step at hs
  simp only at hs
  rw [if_neg hij, get_ok hr hra, Outcome.bind_ok, get_ok hl hla, Outcome.bind_ok] at hs
  unfold assign at hs
  rw [if_pos hc] at hs
  have hsrc : Source w.heap l := source_of S hl hla (fun h1 h2 => by
    rcases ha with h | h
    · exact absurd h hij
    · refine h r l hr hl ?_ h1 h2
      rcases hc with hc | hc
      · exact hc
      · rw [h1] at hc
        cases hc)
  have hd : ∀ p, l.data = some p → ¬ (r.owned = true ∧ r.data = some p) := by
    rintro p hp ⟨h1, h2⟩
    cases hlo : l.owned with
    | true => exact hij (S.uniq i j r l p hr hl hra hla h1 hlo h2 hp)
    | false =>
      obtain ⟨b, e1, e2, e3, _⟩ := S.borrow j l p hl hla hlo hp
      rcases S.own i r hr hra h1 with ⟨q, c, f1, f2, f3, f4, _⟩ | ⟨f1, _⟩
      · rw [h2] at f1
        cases f1
        rw [e1] at f2
        cases f2
        rw [e3] at f4
        cases f4
      · rw [h2] at f1
        cases f1
  obtain ⟨r', h', e, ra, ro, rs, S', hk⟩ := copyInto_safe (l := l) S hr hra hsrc hd
  rw [e, Outcome.bind_ok] at hs
  cases hs
  refine ⟨r', List.getElem?_set_self hlt, ro, rs, ?_⟩
  intro h0
  obtain ⟨p, q, b, c, k1, k2, k3, k4, k5, _, k6, k7⟩ := hk h0
  have hvj : view w j = some (b.bytes.take l.size) := by
    unfold view
    rw [hl]
    simp only
    rw [k1]
    simp only
    rw [k2]
    rfl
  refine ⟨?_, ?_, ?_⟩
  · rw [hvj]
    unfold view
    simp only
    rw [List.getElem?_set_self hlt]
    simp only
    rw [k3]
    simp only
    rw [k5, rs]
    simp only [Option.map_some]
    rw [k6, List.take_take, Nat.min_self]
  · rw [hvj]
    unfold view
    simp only
    rw [List.getElem?_set_ne hij, hl]
    simp only
    rw [k1]
    simp only
    rw [k7]
    rfl
  · rw [k3, k1]
    intro h
    cases h
    exact k4 rfl

/-- The copy of a reference that owns memory has the same contents in memory of its own. -/
theorem copy_is_deep {w w' : World} {j : Nat} {g : Bool} {l : Ref} (S : Safe w.heap w.refs) (hl : w.refs[j]? = some l)
    (hla : l.alive = true) (ho : l.owned = true) (hs : step w (.copy j (some g)) = .ok w') :
    ∃ r', w'.refs[w.refs.length]? = some r' ∧ r'.owned = true ∧ r'.size = l.size ∧
      (0 < l.size → view w' w.refs.length = view w j ∧ view w' j = view w j ∧ r'.data ≠ l.data) := by
  have hjl := (List.getElem?_eq_some_iff.1 hl).1
  unfold step at hs
  simp only at hs
  rw [get_ok hl hla, Outcome.bind_ok] at hs
  unfold copy at hs
  rw [if_pos ho] at hs
  simp only at hs
  have S1 : Safe w.heap (w.refs ++ [⟨true, g, none, 0⟩]) :=
    append_safe S (fun _ => ⟨rfl, rfl⟩) (fun p _ h => by cases h)
  have hr : (w.refs ++ [(⟨true, g, none, 0⟩ : Ref)])[w.refs.length]? = some ⟨true, g, none, 0⟩ := by
    rw [List.getElem?_append_right (Nat.le_refl _)]
    simp
  obtain ⟨r', h', e, _, ro, rs, S', hk⟩ := copyInto_safe (l := l) S1 hr rfl
    (source_of S hl hla (fun h => by rw [ho] at h; cases h)) (fun p _ h => by cases h.2)
  rw [e, Outcome.bind_ok] at hs
  cases hs
  have hnew : (w.refs ++ [r'])[w.refs.length]? = some r' := by
    rw [List.getElem?_append_right (Nat.le_refl _)]
    simp
  refine ⟨r', hnew, ro, rs, ?_⟩
  intro h0
  obtain ⟨p, q, b, c, k1, k2, k3, k4, k5, _, k6, k7⟩ := hk h0
  have hvj : view w j = some (b.bytes.take l.size) := by
    unfold view
    rw [hl]
    simp only
    rw [k1]
    simp only
    rw [k2]
    rfl
  refine ⟨?_, ?_, ?_⟩
  · rw [hvj]
    unfold view
    simp only
    rw [hnew]
    simp only
    rw [k3]
    simp only
    rw [k5, rs]
    simp only [Option.map_some]
    rw [k6, List.take_take, Nat.min_self]
  · rw [hvj]
    unfold view
    simp only
    rw [append_left hl]
    simp only
    rw [k1]
    simp only
    rw [k7]
    rfl
  · rw [k3, k1]
    intro h
    cases h
    exact k4 rfl

/-- Writing through a reference that owns its memory is not seen through any other reference. -/
theorem write_is_private {w w' : World} {i j k : Nat} {v : UInt8} {r s : Ref} (S : Safe w.heap w.refs)
    (hr : w.refs[i]? = some r) (hra : r.alive = true) (ho : r.owned = true) (hj : w.refs[j]? = some s)
    (hsa : s.alive = true) (hij : i ≠ j) (hs : step w (.write i k v) = .ok w') : view w' j = view w j := by
  unfold step at hs
  simp only at hs
  rw [get_ok hr hra, Outcome.bind_ok] at hs
  obtain ⟨h', e, e2⟩ := Outcome.bind_eq_ok.1 hs
  cases e2
  unfold write at e
  split at e
  · cases hd : r.data with
    | none => rw [hd] at e; cases e
    | some p =>
      rw [hd] at e
      simp only at e
      cases hp : w.heap[p]? with
      | none => rw [hp] at e; cases e
      | some b =>
        rw [hp] at e
        simp only at e
        split at e
        · cases e
          unfold view
          simp only
          rw [hj]
          simp only
          cases hsd : s.data with
          | none => rfl
          | some q =>
            simp only
            rw [List.getElem?_set_ne]
            rintro rfl
            cases hso : s.owned with
            | true => exact hij (S.uniq i j r s p hr hj hra hsa ho hso hd hsd)
            | false =>
              obtain ⟨c, e1, e2, e3, _⟩ := S.borrow j s p hj hsa hso hsd
              rcases S.own i r hr hra ho with ⟨q, d, f1, f2, f3, f4, _⟩ | ⟨f1, _⟩
              · rw [hd] at f1
                cases f1
                rw [e1] at f2
                cases f2
                rw [e3] at f4
                cases f4
              · rw [hd] at f1
                cases f1
        · cases e
  · cases e

/-- A borrowed descriptor of two bytes, copied into an owned one, which is copied, written and destroyed. -/
example : (run [.newBorrow 0 2, .newAlloc 3, .assign 1 0, .copy 1 (some true), .write 2 0 9, .destroy 1, .destroy 2, .destroy 0]
    ⟨[⟨true, true, [7, 8, 1]⟩], []⟩ >>= fun w => .ok (w.heap.map Block.live)) = .ok [true, false, false, false] ∧
  (run [.newBorrow 0 2, .newAlloc 3, .assign 1 0, .copy 1 (some true), .write 2 0 9]
    ⟨[⟨true, true, [7, 8, 1]⟩], []⟩ >>= fun w => .ok (view w 1, view w 2)) = .ok (some [7, 8], some [9, 8]) := by
  decide +kernel

/-- Assigning a released reference to one that owns memory: the released one has kept its size, so that `memcpy` reads
from a null pointer. -/
theorem assign_released_refuted :
    run [.newAlloc 4, .newAlloc 8, .release 0, .assign 1 0] ⟨[], []⟩ = .ub := by decide +kernel

/-- As the C++ standard has it, copying a reference that owns memory is undefined: an uninitialised member is read. -/
theorem copy_uninitialised_refuted : run [.newAlloc 4, .copy 0 none] ⟨[], []⟩ = .ub := by decide +kernel

end Verif.DescriptorRef
