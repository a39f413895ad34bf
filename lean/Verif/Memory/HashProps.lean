import Verif.Memory.Hash

/-!
# C124: hashes of matrices

An unordered container needs one thing of a hash for its lookups to be right: equal keys have equal hashes.  The
specification of a container is the list of what was put in.
-/

namespace Verif.Memory

/-- Two matrices are equal as `operator==` says: same size and element by element. -/
def Same {α : Type} (eq : α → α → Bool) (a b : Matrix α) : Prop :=
  a.rows = b.rows ∧ a.cols = b.cols ∧ a.data.length = b.data.length ∧
    ∀ i (h : i < a.data.length) (h' : i < b.data.length), eq a.data[i] b.data[i] = true

/-- Matrices that compare equal have the same hash, provided that elements that compare equal have the same hash (as
`std::hash` promises, also for `0.0` and `-0.0`). -/
theorem equal_hash {α : Type} (elem : α → BitVec 64) (eq : α → α → Bool) (he : ∀ x y, eq x y = true → elem x = elem y)
    {a b : Matrix α} (h : Same eq a b) : hash elem a = hash elem b := by
  obtain ⟨_, _, hl, hd⟩ := h
  have key : ∀ (l l' : List α) (s : BitVec 64), l.length = l'.length →
      (∀ i (h : i < l.length) (h' : i < l'.length), eq l[i] l'[i] = true) →
      l.foldl (fun seed x => mix seed (elem x)) s = l'.foldl (fun seed x => mix seed (elem x)) s := by
    intro l
    induction l with
    | nil =>
      intro l' s h _
      have : l' = [] := List.length_eq_zero_iff.1 (by simpa using h.symm)
      subst this
      rfl
    | cons x l ih =>
      intro l' s h hd
      cases l' with
      | nil => simp at h
      | cons y l' =>
        have h0 := he x y (hd 0 (by simp) (by simp))
        simp only [List.foldl_cons, h0]
        apply ih
        · simpa using h
        · intro i hi hi'
          exact hd (i + 1) (by simpa using hi) (by simpa using hi')
  exact key _ _ _ hl hd

/-- Elements that are zero with a sign: comparing forgets the sign, and so does the hash. -/
example : Same (fun (x y : Bool × Nat) => x.2 == y.2 && (x.2 == 0 || x.1 == y.1)) ⟨2, 1, [(true, 0), (false, 5)]⟩
    ⟨2, 1, [(false, 0), (false, 5)]⟩ := by
  refine ⟨rfl, rfl, rfl, ?_⟩
  intro i h _
  have : i = 0 ∨ i = 1 := by simp at h; omega
  rcases this with rfl | rfl <;> rfl

/-- One turn keeps different elements apart, whatever came before. -/
theorem mix_injective (seed h h' : BitVec 64) (e : mix seed h = mix seed h') : h = h' := by
  unfold mix at e
  have e1 := congrArg (fun x => seed ^^^ x) e
  simp only [← BitVec.xor_assoc, BitVec.xor_self, BitVec.zero_xor] at e1
  simp only [BitVec.add_assoc] at e1
  have e2 := congrArg (fun x => x - (0x9e3779b9#64 + (seed <<< 6 + seed >>> 2))) e1
  simpa only [BitVec.add_sub_cancel] using e2

/-- Matrices that differ in their last element only have different hashes if that element has. -/
theorem last_element {α : Type} (elem : α → BitVec 64) (rows cols : Nat) (l : List α) (x y : α)
    (h : elem x ≠ elem y) : hash elem ⟨rows, cols, l ++ [x]⟩ ≠ hash elem ⟨rows, cols, l ++ [y]⟩ := by
  intro e
  simp only [hash, List.foldl_append, List.foldl_cons, List.foldl_nil] at e
  exact h (mix_injective _ _ _ e)

example : (fun x : BitVec 64 => x) 3#64 ≠ 4#64 := by decide

/-- In particular scalars (one by one matrices) collide only if their elements do. -/
theorem scalars {α : Type} (elem : α → BitVec 64) (x y : α) :
    hash elem ⟨1, 1, [x]⟩ = hash elem ⟨1, 1, [y]⟩ ↔ elem x = elem y := by
  constructor
  · intro e
    exact mix_injective _ _ _ e
  · intro e
    simp [hash, e]

/-- The order of the elements matters: a vector and its reverse are told apart. -/
theorem order_matters : hash (fun x : BitVec 64 => x) ⟨2, 1, [1#64, 2#64]⟩ ≠
    hash (fun x : BitVec 64 => x) ⟨2, 1, [2#64, 1#64]⟩ := by decide

/-- The size is not part of the hash: a row and a column with the same elements always collide. -/
theorem shape_ignored {α : Type} (elem : α → BitVec 64) (rows cols rows' cols' : Nat) (l : List α) :
    hash elem ⟨rows, cols, l⟩ = hash elem ⟨rows', cols', l⟩ := rfl

/-- Different matrices may have the same hash even if all elements have different hashes (so the comparison in the
container is needed): there are two vectors of two integers with the same hash. -/
theorem no_collisions_refuted : ¬ ∀ a b : Matrix (BitVec 64), a.rows = b.rows → a.cols = b.cols →
    a.data.length = b.data.length → hash (fun x => x) a = hash (fun x => x) b → a = b := by
  intro h
  have := h ⟨2, 1, [0#64, (mix (mix 0#64 1#64) 0#64 ^^^ mix 0#64 0#64) - 0x9e3779b9#64 - (mix 0#64 0#64 <<< 6) -
    (mix 0#64 0#64 >>> 2)]⟩ ⟨2, 1, [1#64, 0#64]⟩ rfl rfl rfl (by decide)
  exact absurd this (by decide)

/-! ## Containers -/

/-- What a map with the given contents should answer: the first entry put in under an equal key. -/
def lookup {α β : Type} (same : Matrix α → Matrix α → Bool) (es : List (Matrix α × β)) (k : Matrix α) : Option β :=
  (es.find? (fun e => same e.1 k)).map Prod.snd

private theorem find_emplace {α β : Type} (elem : α → BitVec 64) (same : Matrix α → Matrix α → Bool)
    (symm : ∀ a b, same a b = true → same b a = true)
    (trans : ∀ a b c, same a b = true → same b c = true → same a c = true)
    (hh : ∀ a b, same a b = true → hash elem a = hash elem b) (t : Table α β) (k k' : Matrix α) (v : β) :
    (t.emplace elem same k v).find elem same k' =
      if same k k' then some ((t.find elem same k').getD v) else t.find elem same k' := by
  have cong : ∀ a, same k k' = true → same a k = same a k' := by
    intro a h
    cases h1 : same a k <;> cases h2 : same a k' <;> try rfl
    · rw [trans a k' k h2 (symm _ _ h)] at h1; cases h1
    · rw [trans a k k' h1 h] at h2; cases h2
  unfold Table.emplace
  cases hf : t.find elem same k with
  | some w =>
    simp only []
    by_cases hk : same k k' = true
    · have : t.find elem same k' = some w := by
        rw [← hf]
        unfold Table.find
        rw [hh _ _ hk]
        congr 2
        funext e
        exact (cong e.1 hk).symm
      rw [if_pos hk, this]
      rfl
    · rw [if_neg hk]
  | none =>
    simp only []
    by_cases hk : same k k' = true
    · have h0 : t.find elem same k' = none := by
        rw [← hf]
        unfold Table.find
        rw [hh _ _ hk]
        congr 2
        funext e
        exact (cong e.1 hk).symm
      rw [if_pos hk, h0]
      unfold Table.find
      simp only [hh _ _ hk, if_true]
      simp [hk]
    · rw [if_neg hk]
      unfold Table.find
      simp only []
      by_cases hi : index t.count (hash elem k') = index t.count (hash elem k)
      · rw [if_pos hi]
        simp [hk]
      · rw [if_neg hi]

/-- Whatever is put into an unordered map of matrices, with any number of buckets: looking a matrix up gives the first
value put in under an equal matrix, and nothing if there is none.  Collisions do no harm. -/
theorem table_refines {α β : Type} (elem : α → BitVec 64) (same : Matrix α → Matrix α → Bool)
    (symm : ∀ a b, same a b = true → same b a = true)
    (trans : ∀ a b c, same a b = true → same b c = true → same a c = true)
    (hh : ∀ a b, same a b = true → hash elem a = hash elem b) (count : Nat) (es : List (Matrix α × β))
    (k : Matrix α) :
    ((Table.empty α β count).emplaceAll elem same es).find elem same k = lookup same es k := by
  have key : ∀ (es : List (Matrix α × β)) (t : Table α β), (t.emplaceAll elem same es).find elem same k =
      (t.find elem same k).or (lookup same es k) := by
    intro es
    induction es with
    | nil => intro t; simp [Table.emplaceAll, lookup]
    | cons e es ih =>
      intro t
      unfold Table.emplaceAll
      rw [ih, find_emplace elem same symm trans hh]
      by_cases hk : same e.1 k = true
      · rw [if_pos hk]
        have : lookup same (e :: es) k = some e.2 := by simp [lookup, hk]
        rw [this]
        cases t.find elem same k <;> rfl
      · rw [if_neg hk]
        have : lookup same (e :: es) k = lookup same es k := by simp [lookup, hk]
        rw [this]
  rw [key]
  rfl

/-- Exact equality of matrices of words meets the hypotheses. -/
example : ∀ a b : Matrix (BitVec 64), decide (a = b) = true → hash (fun x => x) a = hash (fun x => x) b := by
  intro a b h
  rw [of_decide_eq_true h]

/-- A key that is not equal to itself (a matrix with a NaN) is not found again. -/
theorem nan_key_refuted : ∃ (same : Matrix Bool → Matrix Bool → Bool) (k : Matrix Bool),
    (∀ a b, same a b = true → a = b) ∧
    ((Table.empty Bool Nat 4).emplaceAll (fun _ => 0#64) same [(k, 7)]).find (fun _ => 0#64) same k = none := by
  refine ⟨fun a b => decide (a = b) && a.data.all (fun x => !x), ⟨1, 1, [true]⟩, ?_, ?_⟩
  · intro a b h
    simp only [Bool.and_eq_true, decide_eq_true_eq] at h
    exact h.1
  · decide

end Verif.Memory
