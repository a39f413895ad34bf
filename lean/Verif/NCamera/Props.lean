import Verif.NCamera.Model
import Verif.StlHelpers.Props

/-!
# Properties of camera rigs (C48)
-/

namespace Verif.NCamera

open Verif (Outcome)

/-! ## Specification -/

/-- The id of the camera at a position of a list of pointers. -/
def idAt (cams : List Cam) (ps : List (Option Nat)) (i : Nat) : Option Nat :=
  match ps[i]? with
  | some (some p) => (cams[p]?).map Cam.id
  | _ => none

/-- Ids and indices of a rig agree: all cameras have valid ids, no two of them the same, and the map leads from an id
to an index exactly if the camera at this index has this id. -/
structure Agree (cams : List Cam) (r : Rig) : Prop where
  len : r.cameras.length = r.T.length
  ids : ∀ i, i < r.cameras.length → ∃ id, id ≠ 0 ∧ idAt cams r.cameras i = some id
  inj : ∀ i j id, idAt cams r.cameras i = some id → idAt cams r.cameras j = some id → i = j
  map : ∀ id i, find r.map id = some i ↔ idAt cams r.cameras i = some id

/-- Every rig agrees with the cameras. -/
def AllAgree (w : World) : Prop := ∀ r ∈ w.rigs, Agree w.cams r

/-- The histories to which the claim applies: the cameras given to a rig have different ids, generated ids are new, the
id of a camera is not changed while a rig uses it, and no rig is cloned without distortion. -/
def Allowed (w : World) : Op → Prop
  | .construct _ _ cameras => ∀ i j id, idAt w.cams cameras i = some id → idAt w.cams cameras j = some id → i = j
  | .cloneWithNewIds gen _ => ∀ a b, gen a = gen b → a = b
  | .cloneWithoutDistortion _ _ => False
  | .setCamera k i (some q) => ∀ r c, w.rigs[k]? = some r → w.cams[q]? = some c →
      ∀ j, idAt w.cams r.cameras j = some c.id → j = i
  | .setCameraId p _ => ∀ r ∈ w.rigs, some p ∉ r.cameras
  | _ => True

def Good : World → List Op → Prop
  | _, [] => True
  | w, o :: os => Allowed w o ∧ ∀ w', step w o = .ok w' → Good w' os

/-! ## The map -/

theorem find_erase (m : List (Nat × Nat)) (k x : Nat) : find (erase m k) x = if x = k then none else find m x := by
  unfold erase
  induction m with
  | nil => simp [find]
  | cons e m ih =>
    obtain ⟨a, v⟩ := e
    by_cases hak : a = k
    · rw [List.filter_cons_of_neg (by simpa using hak), ih]
      by_cases hx : x = k
      · rw [if_pos hx, if_pos hx]
      · rw [if_neg hx, if_neg hx, find, if_neg (by rw [hak]; exact Ne.symm hx)]
    · rw [List.filter_cons_of_pos (by simpa using hak), find, ih, find]
      by_cases hax : a = x
      · rw [if_pos hax, if_pos hax, if_neg (by rw [← hax]; exact hak)]
      · rw [if_neg hax, if_neg hax]

theorem find_put (m : List (Nat × Nat)) (k v x : Nat) : find (put m k v) x = if x = k then some v else find m x := by
  unfold put
  rw [find, find_erase]
  by_cases h : k = x
  · rw [if_pos h, if_pos h.symm]
  · rw [if_neg h, if_neg (Ne.symm h), if_neg (Ne.symm h)]

theorem idAt_zero (cams : List Cam) (p : Option Nat) (ps : List (Option Nat)) (i : Nat) :
    idAt cams (p :: ps) (i + 1) = idAt cams ps i := by
  unfold idAt
  rw [List.getElem?_cons_succ]

/-- What `initInternal` puts into the map: the last index of every id. -/
theorem initLoop_spec {cams : List Cam} : ∀ {ps : List (Option Nat)} {i : Nat} {m m' : List (Nat × Nat)},
    initLoop cams ps i m = .ok m' →
      (∀ k, k < ps.length → ∃ id, id ≠ 0 ∧ idAt cams ps k = some id) ∧
      (∀ id k, idAt cams ps k = some id → (∀ l, k < l → idAt cams ps l ≠ some id) → find m' id = some (i + k)) ∧
      (∀ id, (∀ k, idAt cams ps k ≠ some id) → find m' id = find m id)
  | [], i, m, m', h => by
    cases h
    refine ⟨fun k hk => by simp at hk, ?_, fun _ _ => rfl⟩
    intro id k hk
    simp [idAt] at hk
  | p :: ps, i, m, m', h => by
    unfold initLoop at h
    obtain ⟨c, hc, h⟩ := Outcome.bind_eq_ok.1 h
    obtain ⟨id0, hid, h⟩ := Outcome.bind_eq_ok.1 h
    have h0 : idAt cams (p :: ps) 0 = some id0 ∧ id0 ≠ 0 := by
      unfold getId at hid
      split at hid
      · cases hid
        cases p with
        | none => cases hc
        | some p =>
          unfold deref at hc
          simp only at hc
          cases hp : cams[p]? with
          | none => rw [hp] at hc; cases hc
          | some c' =>
            rw [hp] at hc
            cases hc
            refine ⟨?_, by assumption⟩
            unfold idAt
            simp [hp]
      · cases hid
    obtain ⟨h1, h2, h3⟩ := initLoop_spec h
    refine ⟨?_, ?_, ?_⟩
    · intro k hk
      cases k with
      | zero => exact ⟨id0, h0.2, h0.1⟩
      | succ k =>
        rw [idAt_zero]
        exact h1 k (by simpa using hk)
    · intro id k hk hl
      cases k with
      | zero =>
        rw [h0.1] at hk
        cases hk
        rw [h3 id0, find_put, if_pos rfl]
        · simp
        · intro k hk
          exact hl (k + 1) (by omega) (by rw [idAt_zero]; exact hk)
      | succ k =>
        rw [idAt_zero] at hk
        rw [h2 id k hk]
        · congr 1
          omega
        · intro l hkl
          have := hl (l + 1) (by omega)
          rw [idAt_zero] at this
          exact this
    · intro id hno
      rw [h3 id, find_put, if_neg]
      · rintro rfl
        exact hno 0 h0.1
      · intro k hk
        exact hno (k + 1) (by rw [idAt_zero]; exact hk)

/-- Whatever the ids, a constructed rig knows exactly the ids of its cameras. -/
theorem init_known {cams : List Cam} {r r' : Rig} (h : initInternal cams r = .ok r') (id : Nat) :
    (find r'.map id).isSome ↔ ∃ k, idAt cams r'.cameras k = some id := by
  unfold initInternal at h
  split at h
  · obtain ⟨m, hm, h⟩ := Outcome.bind_eq_ok.1 h
    cases h
    obtain ⟨h1, h2, h3⟩ := initLoop_spec hm
    simp only
    by_cases hex : ∃ k, idAt cams r.cameras k = some id
    · obtain ⟨k, hk⟩ := hex
      -- the last one
      have : ∀ n, ∀ k, r.cameras.length ≤ k + n → idAt cams r.cameras k = some id →
          ∃ k', idAt cams r.cameras k' = some id ∧ ∀ l, k' < l → idAt cams r.cameras l ≠ some id := by
        intro n
        induction n with
        | zero =>
          intro k hk hid
          exfalso
          unfold idAt at hid
          rw [List.getElem?_eq_none (by omega)] at hid
          cases hid
        | succ n ih =>
          intro k hk hid
          by_cases hl : ∀ l, k < l → idAt cams r.cameras l ≠ some id
          · exact ⟨k, hid, hl⟩
          · obtain ⟨l, hl⟩ := Classical.not_forall.1 hl
            obtain ⟨hkl, hl⟩ := Classical.not_imp.1 hl
            exact ih l (by omega) (Classical.not_not.1 hl)
      obtain ⟨k', e1, e2⟩ := this r.cameras.length k (by omega) hk
      rw [h2 id k' e1 e2]
      simp only [Option.isSome_some, true_iff]
      exact ⟨k, hk⟩
    · rw [h3 id (fun k hk => hex ⟨k, hk⟩)]
      simp only [find, Option.isSome_none, Bool.false_eq_true, false_iff]
      exact hex
  · cases h

theorem init_agree {cams : List Cam} {r r' : Rig} (h : initInternal cams r = .ok r')
    (hd : ∀ i j id, idAt cams r.cameras i = some id → idAt cams r.cameras j = some id → i = j) :
    Agree cams r' ∧ r'.cameras = r.cameras ∧ r'.T = r.T ∧ r'.id = r.id := by
  unfold initInternal at h
  split at h
  · rename_i hl
    obtain ⟨m, hm, h⟩ := Outcome.bind_eq_ok.1 h
    cases h
    obtain ⟨h1, h2, h3⟩ := initLoop_spec hm
    refine ⟨⟨hl, h1, hd, ?_⟩, rfl, rfl, rfl⟩
    intro id i
    simp only
    constructor
    · intro hf
      by_cases hex : ∃ k, idAt cams r.cameras k = some id
      · obtain ⟨k, hk⟩ := hex
        rw [h2 id k hk (fun l hkl hl => absurd (hd k l id hk hl) (by omega))] at hf
        cases hf
        rw [Nat.zero_add]
        exact hk
      · rw [h3 id (fun k hk => hex ⟨k, hk⟩)] at hf
        cases hf
    · intro hk
      rw [h2 id i hk (fun l hkl hl => absurd (hd i l id hk hl) (by omega)), Nat.zero_add]
  · cases h

/-- Agreement only depends on the ids of the cameras used. -/
theorem Agree.mono {cams cams' : List Cam} {r : Rig} (A : Agree cams r)
    (h : ∀ i, idAt cams' r.cameras i = idAt cams r.cameras i) : Agree cams' r :=
  ⟨A.len, fun i hi => by rw [h]; exact A.ids i hi, fun i j id => by rw [h, h]; exact A.inj i j id,
    fun id i => by rw [h]; exact A.map id i⟩

theorem Agree.pointer {cams : List Cam} {r : Rig} (A : Agree cams r) {i : Nat} (hi : i < r.cameras.length) :
    ∃ p c, r.cameras[i]? = some (some p) ∧ cams[p]? = some c ∧ c.id ≠ 0 ∧ idAt cams r.cameras i = some c.id := by
  obtain ⟨id, h0, h⟩ := A.ids i hi
  have h' := h
  unfold idAt at h
  split at h
  · rename_i p hp
    cases hc : cams[p]? with
    | none => rw [hc] at h; cases h
    | some c =>
      rw [hc] at h
      cases h
      exact ⟨p, c, hp, hc, h0, h'⟩
  · cases h

theorem idAt_append {cams cs : List Cam} {ps : List (Option Nat)} {i : Nat} {id : Nat} (h : idAt cams ps i = some id) :
    idAt (cams ++ cs) ps i = some id := by
  unfold idAt at h ⊢
  split at h
  · rename_i p hp
    cases hc : cams[p]? with
    | none => rw [hc] at h; cases h
    | some c =>
      rw [List.getElem?_append_left (List.getElem?_eq_some_iff.1 hc).1]
      exact h
  · cases h

theorem Agree.append {cams cs : List Cam} {r : Rig} (A : Agree cams r) : Agree (cams ++ cs) r := by
  apply A.mono
  intro i
  by_cases hi : i < r.cameras.length
  · obtain ⟨id, _, h⟩ := A.ids i hi
    rw [h, idAt_append h]
  · unfold idAt
    rw [List.getElem?_eq_none (by omega)]

/-! ## Clones -/

theorem cloned_spec {cams : List Cam} : ∀ {ps : List (Option Nat)} {cs : List Cam}, cloned cams ps = .ok cs →
    cs.length = ps.length ∧
      ∀ k, k < ps.length → ∃ p c, ps[k]? = some (some p) ∧ cams[p]? = some c ∧ cs[k]? = some c
  | [], cs, h => by
    cases h
    exact ⟨rfl, fun k hk => by simp at hk⟩
  | p :: ps, cs, h => by
    unfold cloned at h
    obtain ⟨c, hc, h⟩ := Outcome.bind_eq_ok.1 h
    obtain ⟨cs', hcs, h⟩ := Outcome.bind_eq_ok.1 h
    cases h
    obtain ⟨h1, h2⟩ := cloned_spec hcs
    refine ⟨by simp [h1], ?_⟩
    intro k hk
    cases k with
    | zero =>
      cases p with
      | none => cases hc
      | some p =>
        unfold deref at hc
        simp only at hc
        cases hp : cams[p]? with
        | none => rw [hp] at hc; cases hc
        | some c' =>
          rw [hp] at hc
          cases hc
          exact ⟨p, c, rfl, hp, rfl⟩
    | succ k =>
      simpa using h2 k (by simpa using hk)

/-- The pointers of a clone. -/
theorem pointers_get {n b k : Nat} (h : k < n) :
    ((List.range n).map fun k => (some (b + k) : Option Nat))[k]? = some (some (b + k)) := by
  rw [List.getElem?_map, List.getElem?_range h]
  rfl

theorem idAt_clone {cams cs : List Cam} {ps : List (Option Nat)} (hl : cs.length = ps.length)
    (h : ∀ k, k < ps.length → ∃ p c, ps[k]? = some (some p) ∧ cams[p]? = some c ∧ cs[k]? = some c) (i : Nat) :
    idAt (cams ++ cs) ((List.range cs.length).map fun k => some (cams.length + k)) i = idAt cams ps i := by
  by_cases hi : i < ps.length
  · obtain ⟨p, c, h1, h2, h3⟩ := h i hi
    unfold idAt
    rw [pointers_get (by omega), h1]
    simp only
    rw [List.getElem?_append_right (by omega), Nat.add_sub_cancel_left, h2, h3]
  · unfold idAt
    rw [List.getElem?_eq_none (by simp; omega), List.getElem?_eq_none (by omega)]

/-- A clone: new camera objects with the same contents and ids, the same transformations; the original is unchanged. -/
theorem clone_spec {cams cams' : List Cam} {r r' : Rig} (A : Agree cams r) (h : copy cams r = .ok (cams', r')) :
    Agree cams' r' ∧ Agree cams' r ∧ r'.T = r.T ∧ r'.id = r.id ∧ r'.cameras.length = r.cameras.length ∧
      ∃ cs, cams' = cams ++ cs ∧ cs.length = r.cameras.length ∧
        r'.cameras = (List.range r.cameras.length).map (fun k => some (cams.length + k)) ∧
        ∀ k, k < r.cameras.length → ∃ p c, r.cameras[k]? = some (some p) ∧ cams[p]? = some c ∧ cs[k]? = some c ∧
          c.sound = true := by
  unfold copy at h
  obtain ⟨cs, hcs, h⟩ := Outcome.bind_eq_ok.1 h
  obtain ⟨r1, hr1, h⟩ := Outcome.bind_eq_ok.1 h
  obtain ⟨v, hv, h⟩ := Outcome.bind_eq_ok.1 h
  obtain ⟨hl, hk⟩ := cloned_spec hcs
  split at h
  · rename_i hv1
    rw [hv1] at hv
    cases h
    obtain ⟨B, e1, e2, e3⟩ := init_agree hr1 (fun i j id hi hj => by
      rw [idAt_clone hl hk] at hi hj
      exact A.inj i j id hi hj)
    simp only at e1 e2 e3
    refine ⟨B, A.append, e2, e3, by rw [e1]; simp [hl], cs, rfl, hl, by rw [e1, hl], ?_⟩
    intro k hkl
    obtain ⟨p, c, h1, h2, h3⟩ := hk k hkl
    refine ⟨p, c, h1, h2, h3, ?_⟩
    -- all cameras are valid
    unfold isValid at hv
    split at hv
    · cases hv
    · rw [e1] at hv
      have all : ∀ (l : List (Option Nat)), l.foldr (fun p acc => deref (cams ++ cs) p >>= fun c =>
          if c.id ≠ 0 ∧ c.sound then acc else .ok false) (.ok true) = .ok true → ∀ q ∈ l, ∀ c,
            deref (cams ++ cs) q = .ok c → c.sound = true := by
        intro l
        induction l with
        | nil => intro _ q hq; cases hq
        | cons a l ih =>
          intro hf q hq c hc
          rw [List.foldr_cons] at hf
          obtain ⟨d, hd, hf⟩ := Outcome.bind_eq_ok.1 hf
          split at hf
          · rename_i hs
            rcases List.mem_cons.1 hq with rfl | hq
            · rw [hd] at hc
              cases hc
              exact hs.2
            · exact ih hf q hq c hc
          · cases hf
      refine all _ hv (some (cams.length + k)) ?_ c ?_
      · rw [List.mem_map]
        exact ⟨k, by simp; omega, rfl⟩
      · unfold deref
        simp only
        rw [List.getElem?_append_right (by omega), Nat.add_sub_cancel_left, h3]
  · cases h

/-- The loops over the cameras of a clone. -/
theorem setIds_spec (gen : Nat → Nat) : ∀ (n s k : Nat) {cams cams' : List Cam},
    setIds gen ((List.range' s n).map some) k cams = .ok cams' →
      ∀ q, cams'[q]? = if s ≤ q ∧ q < s + n then (cams[q]?).map fun c => { c with id := gen (k + (q - s)) } else cams[q]?
  | 0, s, k, cams, cams', h => by
    cases h
    intro q
    rw [if_neg (by omega)]
  | n + 1, s, k, cams, cams', h => by
    rw [List.range'_succ, List.map_cons, setIds] at h
    cases hc : cams[s]? with
    | none => rw [hc] at h; cases h
    | some c =>
      rw [hc] at h
      simp only at h
      split at h
      · have ih := setIds_spec gen n (s + 1) (k + 1) h
        have hsl := (List.getElem?_eq_some_iff.1 hc).1
        intro q
        rw [ih q]
        by_cases hq : q = s
        · subst hq
          rw [if_neg (by omega), if_pos (by omega), List.getElem?_set_self hsl, hc]
          simp
        · rw [List.getElem?_set_ne (Ne.symm hq)]
          by_cases hq2 : s + 1 ≤ q ∧ q < s + 1 + n
          · rw [if_pos hq2, if_pos (by omega)]
            have : k + 1 + (q - (s + 1)) = k + (q - s) := by omega
            rw [this]
          · rw [if_neg hq2, if_neg (by omega)]
      · cases h

theorem removeLoop_spec (gen : Nat → Nat) : ∀ (n s k : Nat) {cams cams' : List Cam},
    removeLoop gen ((List.range' s n).map some) k cams = .ok cams' →
      ∀ q, cams'[q]? = if s ≤ q ∧ q < s + n then
        (cams[q]?).map fun c => { c with distortion := 0, id := gen (k + (q - s)) } else cams[q]?
  | 0, s, k, cams, cams', h => by
    cases h
    intro q
    rw [if_neg (by omega)]
  | n + 1, s, k, cams, cams', h => by
    rw [List.range'_succ, List.map_cons, removeLoop] at h
    cases hc : cams[s]? with
    | none => rw [hc] at h; cases h
    | some c =>
      rw [hc] at h
      simp only at h
      split at h
      · have ih := removeLoop_spec gen n (s + 1) (k + 1) h
        have hsl := (List.getElem?_eq_some_iff.1 hc).1
        intro q
        rw [ih q]
        by_cases hq : q = s
        · subst hq
          rw [if_neg (by omega), if_pos (by omega), List.getElem?_set_self hsl, hc]
          simp
        · rw [List.getElem?_set_ne (Ne.symm hq)]
          by_cases hq2 : s + 1 ≤ q ∧ q < s + 1 + n
          · rw [if_pos hq2, if_pos (by omega)]
            have : k + 1 + (q - (s + 1)) = k + (q - s) := by omega
            rw [this]
          · rw [if_neg hq2, if_neg (by omega)]
      · cases h

theorem pointers_range' (n b : Nat) :
    (List.range n).map (fun k => (some (b + k) : Option Nat)) = (List.range' b n).map some := by
  rw [List.range'_eq_map_range, List.map_map]
  rfl

/-- A clone with new ids: the cameras have the same contents but the generated ids; the original is unchanged. -/
theorem cloneWithNewIds_spec {gen : Nat → Nat} {cams cams' : List Cam} {r r' : Rig} (A : Agree cams r)
    (hg : ∀ a b, gen a = gen b → a = b) (h : cloneWithNewIds gen cams r = .ok (cams', r')) :
    Agree cams' r' ∧ (∀ p, p < cams.length → cams'[p]? = cams[p]?) ∧ r'.T = r.T ∧ r'.id = gen 0 ∧
      r'.cameras.length = r.cameras.length ∧
      ∀ k, k < r.cameras.length → ∃ p q c, r.cameras[k]? = some (some p) ∧ cams[p]? = some c ∧
        r'.cameras[k]? = some (some q) ∧ cams.length ≤ q ∧ cams'[q]? = some { c with id := gen (k + 1) } := by
  unfold cloneWithNewIds at h
  obtain ⟨x, hx, h⟩ := Outcome.bind_eq_ok.1 h
  obtain ⟨cams1, r1⟩ := x
  obtain ⟨B, _, e1, e2, e3, cs, e4, e5, e6, e7⟩ := clone_spec A hx
  split at h
  · obtain ⟨cams2, hc2, h⟩ := Outcome.bind_eq_ok.1 h
    obtain ⟨r2, hr2, h⟩ := Outcome.bind_eq_ok.1 h
    obtain ⟨v, hv, h⟩ := Outcome.bind_eq_ok.1 h
    split at h
    · cases h
      simp only at hc2 hr2
      rw [e6, pointers_range'] at hc2
      have sp := setIds_spec gen _ _ _ hc2
      have look : ∀ k, k < r.cameras.length → ∃ p c, r.cameras[k]? = some (some p) ∧ cams[p]? = some c ∧
          cams'[cams.length + k]? = some { c with id := gen (k + 1) } := by
        intro k hk
        obtain ⟨p, c, h1, h2, h3, _⟩ := e7 k hk
        refine ⟨p, c, h1, h2, ?_⟩
        rw [sp, if_pos (by omega), e4, List.getElem?_append_right (by omega), Nat.add_sub_cancel_left, h3]
        simp only [Option.map_some, Nat.add_comm 1 k]
      have ids : ∀ i id, idAt cams' r1.cameras i = some id → i < r.cameras.length ∧ id = gen (i + 1) := by
        intro i id hi
        have hil : i < r.cameras.length := by
          apply Classical.byContradiction
          intro hn
          unfold idAt at hi
          rw [List.getElem?_eq_none (by rw [e3]; omega)] at hi
          cases hi
        obtain ⟨p, c, h1, h2, h3⟩ := look i hil
        unfold idAt at hi
        rw [e6, pointers_get hil] at hi
        simp only at hi
        rw [h3] at hi
        cases hi
        exact ⟨hil, rfl⟩
      obtain ⟨C, f1, f2, f3⟩ := init_agree hr2 (fun i j id hi hj => by
        have := (ids i id hi).2
        have h2 := (ids j id hj).2
        have := hg (i + 1) (j + 1) (by rw [← h2, ← this])
        omega)
      refine ⟨C, ?_, by rw [f2, e1], f3, by rw [f1, e3], ?_⟩
      · intro p hp
        rw [sp, if_neg (by omega), e4, List.getElem?_append_left hp]
      · intro k hk
        obtain ⟨p, c, h1, h2, h3⟩ := look k hk
        refine ⟨p, cams.length + k, c, h1, h2, ?_, by omega, h3⟩
        rw [f1, e6, pointers_get hk]
    · cases h
  · cases h

/-! ## C48 -/

/-- C48: every allowed operation keeps ids and indices of all rigs in agreement. -/
theorem step_agree {w w' : World} {o : Op} (A : AllAgree w) (ha : Allowed w o) (h : step w o = .ok w') : AllAgree w' := by
  cases o with
  | newCamera c =>
    cases h
    intro r hr
    exact (A r hr).append
  | construct id T cameras =>
    unfold step at h
    obtain ⟨r, hr, h⟩ := Outcome.bind_eq_ok.1 h
    cases h
    unfold construct at hr
    split at hr
    · obtain ⟨B, _⟩ := init_agree hr ha
      intro s hs
      rcases List.mem_append.1 hs with hs | hs
      · exact A s hs
      · rw [List.mem_singleton.1 hs]
        exact B
    · cases hr
  | clone k =>
    unfold step at h
    obtain ⟨r, hr, h⟩ := Outcome.bind_eq_ok.1 h
    obtain ⟨⟨cams', r'⟩, hx, h⟩ := Outcome.bind_eq_ok.1 h
    cases h
    have hm : r ∈ w.rigs := by
      unfold rig at hr
      split at hr
      · rename_i hk
        cases hr
        exact List.mem_of_getElem? hk
      · cases hr
    obtain ⟨B, _, _, _, _, cs, e, _⟩ := clone_spec (A r hm) hx
    intro s hs
    rcases List.mem_append.1 hs with hs | hs
    · simp only [e]
      exact (A s hs).append
    · rw [List.mem_singleton.1 hs]
      exact B
  | cloneWithNewIds gen k =>
    unfold step at h
    obtain ⟨r, hr, h⟩ := Outcome.bind_eq_ok.1 h
    obtain ⟨⟨cams', r'⟩, hx, h⟩ := Outcome.bind_eq_ok.1 h
    cases h
    have hm : r ∈ w.rigs := by
      unfold rig at hr
      split at hr
      · rename_i hk
        cases hr
        exact List.mem_of_getElem? hk
      · cases hr
    obtain ⟨B, e, _⟩ := cloneWithNewIds_spec (A r hm) ha hx
    intro s hs
    rcases List.mem_append.1 hs with hs | hs
    · refine (A s hs).mono ?_
      intro i
      by_cases hi : i < s.cameras.length
      · obtain ⟨p, c, h1, h2, _, h4⟩ := (A s hs).pointer hi
        rw [h4]
        unfold idAt
        rw [h1]
        simp only
        rw [e p (List.getElem?_eq_some_iff.1 h2).1, h2]
        rfl
      · unfold idAt
        rw [List.getElem?_eq_none (by omega)]
    · rw [List.mem_singleton.1 hs]
      exact B
  | cloneWithoutDistortion gen k => exact ha.elim
  | setCamera k i camera =>
    unfold step at h
    obtain ⟨r, hr, h⟩ := Outcome.bind_eq_ok.1 h
    obtain ⟨r', hr', h⟩ := Outcome.bind_eq_ok.1 h
    cases h
    have hk : w.rigs[k]? = some r := by
      unfold rig at hr
      split at hr
      · rename_i hk
        cases hr
        exact hk
      · cases hr
    have B := A r (List.mem_of_getElem? hk)
    have key : Agree w.cams r' := by
      cases camera with
      | none => cases hr'
      | some q =>
        unfold setCamera at hr'
        simp only at hr'
        by_cases hi : i < r.cameras.length
        · obtain ⟨p, c, h1, h2, h3, h4⟩ := B.pointer hi
          rw [h1] at hr'
          simp only at hr'
          obtain ⟨old, ho, hr'⟩ := Outcome.bind_eq_ok.1 hr'
          obtain ⟨new, hn, hr'⟩ := Outcome.bind_eq_ok.1 hr'
          cases hr'
          have hold : old = c.id := by
            obtain ⟨c', e1, e2⟩ := Outcome.bind_eq_ok.1 ho
            unfold deref at e1
            simp only at e1
            rw [h2] at e1
            cases e1
            unfold getId at e2
            rw [if_pos h3] at e2
            cases e2
            rfl
          obtain ⟨d, hd, hd2⟩ := Outcome.bind_eq_ok.1 hn
          have hdq : w.cams[q]? = some d := by
            unfold deref at hd
            simp only at hd
            split at hd
            · rename_i hq
              cases hd
              exact hq
            · cases hd
          have hnew : new = d.id ∧ d.id ≠ 0 := by
            unfold getId at hd2
            split at hd2
            · cases hd2
              exact ⟨rfl, by assumption⟩
            · cases hd2
          have hset : ∀ j, idAt w.cams (r.cameras.set i (some q)) j =
              if j = i then some d.id else idAt w.cams r.cameras j := by
            intro j
            by_cases hj : j = i
            · subst hj
              rw [if_pos rfl]
              unfold idAt
              rw [List.getElem?_set_self hi]
              simp only
              rw [hdq]
              rfl
            · rw [if_neg hj]
              unfold idAt
              rw [List.getElem?_set_ne (Ne.symm hj)]
          have hfree := ha r d hk hdq
          refine ⟨by simpa using B.len, ?_, ?_, ?_⟩
          · intro j hj
            simp only [List.length_set] at hj
            simp only
            rw [hset]
            by_cases hji : j = i
            · rw [if_pos hji]
              exact ⟨d.id, hnew.2, rfl⟩
            · rw [if_neg hji]
              exact B.ids j hj
          · intro j l id hj hl
            simp only at hj hl
            rw [hset] at hj hl
            by_cases hji : j = i
            · rw [if_pos hji] at hj
              cases hj
              by_cases hli : l = i
              · rw [hji, hli]
              · rw [if_neg hli] at hl
                exact absurd (hfree l hl) hli
            · rw [if_neg hji] at hj
              by_cases hli : l = i
              · rw [if_pos hli] at hl
                cases hl
                exact absurd (hfree j hj) hji
              · rw [if_neg hli] at hl
                exact B.inj j l id hj hl
          · intro id j
            simp only
            rw [find_put, find_erase, hset, hold, hnew.1]
            by_cases hid : id = d.id
            · rw [if_pos hid]
              constructor
              · intro e
                cases e
                rw [if_pos rfl, hid]
              · intro e
                by_cases hji : j = i
                · rw [hji]
                · rw [if_neg hji, hid] at e
                  exact absurd (hfree j e) hji
            · rw [if_neg hid]
              by_cases hid2 : id = c.id
              · rw [if_pos hid2]
                constructor
                · intro e
                  cases e
                · intro e
                  by_cases hji : j = i
                  · rw [if_pos hji] at e
                    cases e
                    exact absurd rfl hid
                  · rw [if_neg hji] at e
                    exact absurd (B.inj j i id e (by rw [hid2]; exact h4)) hji
              · rw [if_neg hid2, B.map]
                by_cases hji : j = i
                · rw [if_pos hji, hji, h4]
                  constructor
                  · intro e
                    cases e
                    exact absurd rfl hid2
                  · intro e
                    cases e
                    exact absurd rfl hid
                · rw [if_neg hji]
        · rw [List.getElem?_eq_none (by omega)] at hr'
          cases hr'
    intro s hs
    rcases List.mem_or_eq_of_mem_set hs with hs | rfl
    · exact A s hs
    · exact key
  | setT k i t =>
    unfold step at h
    obtain ⟨r, hr, h⟩ := Outcome.bind_eq_ok.1 h
    obtain ⟨r', hr', h⟩ := Outcome.bind_eq_ok.1 h
    cases h
    have hm : r ∈ w.rigs := by
      unfold rig at hr
      split at hr
      · rename_i hk
        cases hr
        exact List.mem_of_getElem? hk
      · cases hr
    have B := A r hm
    intro s hs
    rcases List.mem_or_eq_of_mem_set hs with hs | rfl
    · exact A s hs
    · unfold setT at hr'
      split at hr'
      · cases hr'
        exact ⟨by simpa using B.len, B.ids, B.inj, B.map⟩
      · cases hr'
  | setCameraId p id =>
    unfold step at h
    simp only at h
    cases hc : w.cams[p]? with
    | none => rw [hc] at h; cases h
    | some c =>
      rw [hc] at h
      simp only at h
      split at h
      · cases h
        intro r hr
        refine (A r hr).mono ?_
        intro i
        have := ha r hr
        unfold idAt
        simp only
        split
        · rename_i q hq
          rw [List.getElem?_set_ne]
          rintro rfl
          exact this (List.mem_of_getElem? hq)
        · rfl
      · cases h

/-- At any time: ids and indices of every rig agree. -/
theorem ids_agree_partial : ∀ (ops : List Op) {w w' : World}, AllAgree w → Good w ops → run ops w = .ok w' → AllAgree w'
  | [], w, w', A, _, h => by
    cases h
    exact A
  | o :: os, w, w', A, hg, h => by
    unfold run at h
    obtain ⟨w1, h1, h⟩ := Outcome.bind_eq_ok.1 h
    exact ids_agree_partial os (step_agree A hg.1 h1) (hg.2 w1 h1) h

/-- `set_T_C_B`: afterwards the transformation at this index is the given one and nothing else has changed; an index
outside the rig is refused. -/
theorem setT_spec {cams : List Cam} {r : Rig} (A : Agree cams r) (i t : Nat) :
    (i < r.cameras.length → ∃ r', setT i t r = .ok r' ∧ getT r' i = .ok t ∧ (∀ k, k ≠ i → getT r' k = getT r k) ∧
      r'.cameras = r.cameras ∧ r'.map = r.map ∧ r'.id = r.id) ∧
    (r.cameras.length ≤ i → setT i t r = .abort) := by
  have hl := A.len
  constructor
  · intro hi
    refine ⟨{ r with T := r.T.set i t }, ?_, ?_, ?_, rfl, rfl, rfl⟩
    · unfold setT
      rw [if_pos (by omega)]
    · unfold getT
      rw [if_pos hi]
      simp only
      rw [List.getElem?_set_self (by omega)]
    · intro k hk
      unfold getT
      simp only
      rw [List.getElem?_set_ne (Ne.symm hk)]
  · intro hi
    unfold setT
    rw [if_neg (by omega)]

/-- `get_T_C_B` by id refuses ids that are not in the rig. -/
theorem getTById_unknown {cams : List Cam} {r : Rig} (A : Agree cams r) {id : Nat}
    (h : ∀ i, idAt cams r.cameras i ≠ some id) : getTById r id = .abort := by
  unfold getTById getCameraIndex
  have hf : find r.map id = none := by
    cases e : find r.map id with
    | none => rfl
    | some i => exact absurd ((A.map id i).1 e) (h i)
  rw [hf]
  split <;> rfl

theorem initLoop_total {cams : List Cam} : ∀ (ps : List (Option Nat)) (i : Nat) (m : List (Nat × Nat)),
    (∀ p, some p ∈ ps → p < cams.length) →
    ((∀ q ∈ ps, ∃ p c, q = some p ∧ cams[p]? = some c ∧ c.id ≠ 0) ∧ ∃ m', initLoop cams ps i m = .ok m') ∨
    ((¬ ∀ q ∈ ps, ∃ p c, q = some p ∧ cams[p]? = some c ∧ c.id ≠ 0) ∧ initLoop cams ps i m = .abort)
  | [], i, m, _ => .inl ⟨fun q hq => (by simp at hq), m, rfl⟩
  | none :: ps, i, m, _ => .inr ⟨fun h => (by obtain ⟨p, c, e, _⟩ := h none (List.mem_cons_self ..); cases e), rfl⟩
  | some p :: ps, i, m, hp => by
    have hl := hp p (List.mem_cons_self ..)
    have hc : cams[p]? = some cams[p] := List.getElem?_eq_getElem hl
    have e : initLoop cams (some p :: ps) i m =
        (getId cams[p] >>= fun id => initLoop cams ps (i + 1) (put m id i)) := by
      show (deref cams (some p) >>= _) = _
      unfold deref
      simp only [hc]
      rfl
    rw [e]
    by_cases hz : cams[p].id = 0
    · refine .inr ⟨fun h => ?_, ?_⟩
      · obtain ⟨p', c, e1, e2, e3⟩ := h (some p) (List.mem_cons_self ..)
        cases e1
        rw [hc] at e2
        cases e2
        exact e3 hz
      · unfold getId
        rw [if_neg (by simpa using hz)]
        rfl
    · have eg : getId cams[p] = .ok cams[p].id := by
        unfold getId
        rw [if_pos hz]
      rw [eg, Outcome.bind_ok]
      rcases initLoop_total ps (i + 1) (put m cams[p].id i) (fun q hq => hp q (List.mem_cons_of_mem _ hq)) with
        ⟨h1, h2⟩ | ⟨h1, h2⟩
      · refine .inl ⟨fun q hq => ?_, h2⟩
        rcases List.mem_cons.1 hq with rfl | hq
        · exact ⟨p, _, rfl, hc, hz⟩
        · exact h1 q hq
      · exact .inr ⟨fun h => h1 fun q hq => h q (List.mem_cons_of_mem _ hq), h2⟩

/-- The constructor: a rig is made exactly if its id is valid, there are as many mounting transformations as cameras, and
every camera is there and has a valid id; in every other case the program ends with a message. -/
theorem construct_spec {cams : List Cam} (id : Nat) (T : List Nat) (cameras : List (Option Nat))
    (hp : ∀ p, some p ∈ cameras → p < cams.length) :
    ((id ≠ 0 ∧ cameras.length = T.length ∧ ∀ q ∈ cameras, ∃ p c, q = some p ∧ cams[p]? = some c ∧ c.id ≠ 0) →
      ∃ r, construct cams id T cameras = .ok r ∧ r.id = id ∧ r.cameras = cameras ∧ r.T = T) ∧
    (¬ (id ≠ 0 ∧ cameras.length = T.length ∧ ∀ q ∈ cameras, ∃ p c, q = some p ∧ cams[p]? = some c ∧ c.id ≠ 0) →
      construct cams id T cameras = .abort) := by
  unfold construct initInternal
  by_cases h0 : id = 0
  · exact ⟨fun h => absurd h0 h.1, fun _ => by rw [if_neg (by simpa using h0)]⟩
  rw [if_pos h0]
  by_cases hl : cameras.length = T.length
  · rw [if_pos (show (Rig.mk id cameras T []).cameras.length = (Rig.mk id cameras T []).T.length from hl)]
    rcases initLoop_total cameras 0 [] hp with ⟨h1, m, h2⟩ | ⟨h1, h2⟩
    · refine ⟨fun _ => ⟨⟨id, cameras, T, m⟩, ?_, rfl, rfl, rfl⟩, fun h => absurd ⟨h0, hl, h1⟩ h⟩
      show (initLoop cams cameras 0 [] >>= _) = _
      rw [h2]
      rfl
    · refine ⟨fun h => absurd h.2.2 h1, fun _ => ?_⟩
      show (initLoop cams cameras 0 [] >>= _) = _
      rw [h2]
      rfl
  · rw [if_neg (show ¬ (Rig.mk id cameras T []).cameras.length = (Rig.mk id cameras T []).T.length from hl)]
    exact ⟨fun h => absurd h.2.1 hl, fun _ => rfl⟩

example : (∃ r, construct [⟨5, 1, 0, true⟩, ⟨6, 0, 0, true⟩] 9 [1, 2] [some 1, some 0] = .ok r) ∧
    construct [⟨5, 1, 0, true⟩] 9 [1, 2] [some 0] = .abort ∧ construct [⟨5, 1, 0, true⟩] 0 [1] [some 0] = .abort ∧
    construct [⟨5, 1, 0, true⟩] 9 [1, 2] [some 0, none] = .abort ∧ construct [⟨0, 1, 0, true⟩] 9 [1] [some 0] = .abort :=
  ⟨⟨_, rfl⟩, rfl, rfl, rfl, rfl⟩

/-- An index that is not in the rig, a camera that is not there and the invalid id end the program with a message
wherever they are given. -/
theorem refusals (cams : List Cam) (r : Rig) :
    (∀ i, r.cameras.length ≤ i → getCameraId cams r i = .abort ∧ getT r i = .abort ∧
      ∀ c, setCamera cams i c r = .abort) ∧
    (∀ i, setCamera cams i none r = .abort) ∧
    hasCameraWithId r 0 = .abort ∧ getCameraIndex r 0 = .abort ∧ getTById r 0 = .abort := by
  refine ⟨fun i hi => ⟨?_, ?_, fun c => ?_⟩, fun i => rfl, rfl, rfl, rfl⟩
  · unfold getCameraId
    rw [List.getElem?_eq_none hi]
  · unfold getT
    rw [if_neg (by omega)]
  · unfold setCamera
    cases c with
    | none => rfl
    | some q => simp only; rw [List.getElem?_eq_none hi]

/-- What a caller sees: the index of the id of a camera is its index. -/
theorem index_of_id {cams : List Cam} {r : Rig} (A : Agree cams r) {i : Nat} (hi : i < r.cameras.length)
    (hn : r.cameras.length ≤ 2 ^ 31) :
    ∃ id, getCameraId cams r i = .ok id ∧ getCameraIndex r id = .ok (i : Int) ∧ hasCameraWithId r id = .ok true ∧
      getTById r id = getT r i ∧ ∃ t, getT r i = .ok t ∧ r.T[i]? = some t := by
  obtain ⟨p, c, h1, h2, h3, h4⟩ := A.pointer hi
  have hf : find r.map c.id = some i := (A.map c.id i).2 h4
  have hix : getCameraIndex r c.id = .ok (i : Int) := by
    unfold getCameraIndex
    rw [if_pos h3, hf]
    simp only
    rw [StlHelpers.toInt32_small (by omega)]
  refine ⟨c.id, ?_, hix, ?_, ?_, ?_⟩
  · unfold getCameraId
    rw [h1]
    simp only
    unfold deref
    simp only
    rw [h2, Outcome.bind_ok]
    unfold getId
    rw [if_pos h3]
  · unfold hasCameraWithId
    rw [if_pos h3, hf]
    rfl
  · unfold getTById
    rw [hix, Outcome.bind_ok, if_pos (by omega), Int.toNat_natCast]
  · have hT : i < r.T.length := by rw [← A.len]; exact hi
    refine ⟨r.T[i], ?_, List.getElem?_eq_getElem hT⟩
    unfold getT
    rw [if_pos hi, List.getElem?_eq_getElem hT]

/-- Absent is reported exactly for ids that no camera of the rig has. -/
theorem absent_iff {cams : List Cam} {r : Rig} (A : Agree cams r) {id : Nat} (hid : id ≠ 0)
    (hn : r.cameras.length ≤ 2 ^ 31) :
    (getCameraIndex r id = .ok (-1) ↔ ∀ i, getCameraId cams r i ≠ .ok id) ∧
    (hasCameraWithId r id = .ok false ↔ ∀ i, getCameraId cams r i ≠ .ok id) := by
  have known : find r.map id = none ↔ ∀ i, getCameraId cams r i ≠ .ok id := by
    constructor
    · intro hf i hi
      have hil : i < r.cameras.length := by
        apply Classical.byContradiction
        intro hn
        unfold getCameraId at hi
        rw [List.getElem?_eq_none (by omega)] at hi
        cases hi
      obtain ⟨id', e1, _⟩ := index_of_id A hil hn
      rw [hi] at e1
      cases e1
      obtain ⟨p, c, h1, h2, h3, h4⟩ := A.pointer hil
      have : c.id = id := by
        unfold getCameraId at hi
        rw [h1] at hi
        simp only at hi
        unfold deref at hi
        simp only at hi
        rw [h2, Outcome.bind_ok] at hi
        unfold getId at hi
        rw [if_pos h3] at hi
        cases hi
        rfl
      rw [this] at h4
      rw [(A.map id i).2 h4] at hf
      cases hf
    · intro h
      cases hf : find r.map id with
      | none => rfl
      | some i =>
        have h4 := (A.map id i).1 hf
        have hil : i < r.cameras.length := by
          apply Classical.byContradiction
          intro hn
          unfold idAt at h4
          rw [List.getElem?_eq_none (by omega)] at h4
          cases h4
        obtain ⟨p, c, g1, g2, g3, g4⟩ := A.pointer hil
        rw [h4] at g4
        cases g4
        refine absurd ?_ (h i)
        unfold getCameraId
        rw [g1]
        simp only
        unfold deref
        simp only
        rw [g2, Outcome.bind_ok]
        unfold getId
        rw [if_pos g3]
  constructor
  · rw [← known]
    unfold getCameraIndex
    rw [if_pos hid]
    cases hf : find r.map id with
    | none => simp
    | some i =>
      have h4 := (A.map id i).1 hf
      have hil : i < r.cameras.length := by
        apply Classical.byContradiction
        intro hn
        unfold idAt at h4
        rw [List.getElem?_eq_none (by omega)] at h4
        cases h4
      simp only
      rw [StlHelpers.toInt32_small (by omega)]
      constructor
      · intro e
        have := Outcome.ok.inj e
        omega
      · intro e
        cases e
  · rw [← known]
    unfold hasCameraWithId
    rw [if_pos hid]
    cases hf : find r.map id with
    | none => simp
    | some i => simp

/-- A rig of two cameras, one of which is replaced, and a clone with new ids. -/
def demo : List Op :=
  [.newCamera ⟨11, 1, 100, true⟩, .newCamera ⟨12, 1, 200, true⟩, .newCamera ⟨13, 0, 300, true⟩,
    .construct 5 [7, 8] [some 0, some 1], .setCamera 0 0 (some 2), .cloneWithNewIds (fun k => 20 + k) 0]

example : (run demo ⟨[], []⟩ >>= fun w => rig w 0 >>= fun r => .ok (w.rigs.length, r.cameras)) =
      .ok (2, [some 2, some 1]) ∧
    (run demo ⟨[], []⟩ >>= fun w => rig w 0 >>= fun r => getCameraIndex r 13) = .ok 0 ∧
    (run demo ⟨[], []⟩ >>= fun w => rig w 0 >>= fun r => getCameraIndex r 11) = .ok (-1) ∧
    (run demo ⟨[], []⟩ >>= fun w => rig w 1 >>= fun r => getCameraIndex r 22) = .ok 1 := by decide +kernel

example : Good ⟨[], []⟩ demo := by
  refine ⟨trivial, fun w h => ?_⟩
  cases h
  refine ⟨trivial, fun w h => ?_⟩
  cases h
  refine ⟨trivial, fun w h => ?_⟩
  cases h
  refine ⟨?_, fun w h => ?_⟩
  · intro i j id hi hj
    rcases i with _ | _ | i <;> rcases j with _ | _ | j <;> simp [idAt] at hi hj <;> omega
  cases h
  refine ⟨?_, fun w h => ?_⟩
  · intro r c hr hc j hj
    cases hr
    cases hc
    rcases j with _ | _ | j <;> simp [idAt] at hj
  cases h
  refine ⟨fun a b h => ?_, fun w h => trivial⟩
  simp only at h
  omega

/-! ## Where ids and indices do not agree -/

/-- After cloning a rig without distortion, no camera of the clone is found under its own id: the map of the clone
still has the ids of the original. -/
theorem without_distortion_stale_refuted {gen : Nat → Nat} {cams cams' : List Cam} {r r' : Rig} (A : Agree cams r)
    (hg : ∀ k i, idAt cams r.cameras i ≠ some (gen k))
    (h : cloneRigWithoutDistortion gen cams r = .ok (cams', r')) :
    r'.cameras.length = r.cameras.length ∧ ∀ i, i < r.cameras.length → ∃ id, getCameraId cams' r' i = .ok id ∧
      getCameraIndex r' id = .ok (-1) ∧ hasCameraWithId r' id = .ok false := by
  unfold cloneRigWithoutDistortion at h
  obtain ⟨⟨cams1, r1⟩, hx, h⟩ := Outcome.bind_eq_ok.1 h
  obtain ⟨cams2, hc2, h⟩ := Outcome.bind_eq_ok.1 h
  obtain ⟨B, _, e1, e2, e3, cs, e4, e5, e6, e7⟩ := clone_spec A hx
  simp only at hc2
  split at h
  · cases h
    refine ⟨e3, ?_⟩
    have hc2' := hc2
    rw [e6, pointers_range'] at hc2
    have sp := removeLoop_spec gen _ _ _ hc2
    -- generated ids are valid
    have gnz : ∀ (ps : List (Option Nat)) (k : Nat) (cs cs' : List Cam), removeLoop gen ps k cs = .ok cs' →
        ∀ j, j < ps.length → gen (k + j) ≠ 0 := by
      intro ps
      induction ps with
      | nil => intro k cs cs' _ j hj; simp at hj
      | cons p ps ih =>
        intro k cs cs' he j hj
        cases p with
        | none => cases he
        | some p =>
          unfold removeLoop at he
          split at he
          · split at he
            · rename_i hg0
              cases j with
              | zero => exact hg0
              | succ j =>
                have := ih (k + 1) _ _ he j (by simpa using hj)
                rw [show k + (j + 1) = k + 1 + j by omega]
                exact this
            · cases he
          · cases he
    intro i hi
    have hg0 : gen i ≠ 0 := by
      have := gnz _ _ _ _ hc2' i (by rw [e3]; exact hi)
      rw [Nat.zero_add] at this
      exact this
    obtain ⟨p, c, h1, h2, h3, _⟩ := e7 i hi
    have hfind : find r1.map (gen i) = none := by
      cases hf : find r1.map (gen i) with
      | none => rfl
      | some j =>
        have hj := (B.map (gen i) j).1 hf
        exfalso
        have hjl : j < r.cameras.length := by
          apply Classical.byContradiction
          intro hn
          unfold idAt at hj
          rw [List.getElem?_eq_none (by rw [e3]; omega)] at hj
          cases hj
        obtain ⟨p', c', g1, g2, g3, _⟩ := e7 j hjl
        apply hg i j
        unfold idAt at hj ⊢
        rw [e6, pointers_get hjl] at hj
        simp only at hj
        rw [e4, List.getElem?_append_right (by omega), Nat.add_sub_cancel_left, g3] at hj
        rw [g1]
        simp only
        rw [g2]
        exact hj
    refine ⟨gen i, ?_, ?_, ?_⟩
    · unfold getCameraId
      simp only
      rw [e6, pointers_get hi]
      simp only
      unfold deref
      simp only
      rw [sp, if_pos (by omega), e4, List.getElem?_append_right (by omega), Nat.add_sub_cancel_left, h3]
      simp only [Option.map_some, Outcome.bind_ok, Nat.zero_add]
      unfold getId
      rw [if_pos hg0]
    · unfold getCameraIndex
      rw [if_pos hg0, hfind]
    · unfold hasCameraWithId
      rw [if_pos hg0, hfind]
      rfl
  · cases h

/-- What does hold of it: the clone has the cameras of the original, without distortion, and the original is unchanged. -/
theorem without_distortion_spec {gen : Nat → Nat} {cams cams' : List Cam} {r r' : Rig} (A : Agree cams r)
    (h : cloneRigWithoutDistortion gen cams r = .ok (cams', r')) :
    r'.T = r.T ∧ (∀ p, p < cams.length → cams'[p]? = cams[p]?) ∧
      ∀ k, k < r.cameras.length → ∃ p q c, r.cameras[k]? = some (some p) ∧ cams[p]? = some c ∧
        r'.cameras[k]? = some (some q) ∧ cams.length ≤ q ∧
        cams'[q]? = some ⟨gen k, 0, c.geometry, c.sound⟩ := by
  unfold cloneRigWithoutDistortion at h
  obtain ⟨⟨cams1, r1⟩, hx, h⟩ := Outcome.bind_eq_ok.1 h
  obtain ⟨cams2, hc2, h⟩ := Outcome.bind_eq_ok.1 h
  obtain ⟨B, _, e1, e2, e3, cs, e4, e5, e6, e7⟩ := clone_spec A hx
  simp only at hc2
  split at h
  · cases h
    rw [e6, pointers_range'] at hc2
    have sp := removeLoop_spec gen _ _ _ hc2
    refine ⟨e1, ?_, ?_⟩
    · intro p hp
      rw [sp, if_neg (by omega), e4, List.getElem?_append_left hp]
    · intro k hk
      obtain ⟨p, c, h1, h2, h3, _⟩ := e7 k hk
      refine ⟨p, cams.length + k, c, h1, h2, ?_, by omega, ?_⟩
      · simp only
        rw [e6, pointers_get hk]
      · rw [sp, if_pos (by omega), e4, List.getElem?_append_right (by omega), Nat.add_sub_cancel_left, h3]
        simp
  · cases h

example : (run [.newCamera ⟨11, 1, 100, true⟩, .construct 5 [7] [some 0], .cloneWithoutDistortion (fun k => 20 + k) 0]
      ⟨[], []⟩ >>= fun w => rig w 1 >>= fun r => getCameraId w.cams r 0 >>= fun id => getCameraIndex r id) = .ok (-1) := by
  decide +kernel

/-- A rig can be built from two cameras with the same id; the index of the first is then that of the second. -/
theorem same_ids_refuted :
    (run [.newCamera ⟨11, 1, 100, true⟩, .newCamera ⟨11, 1, 200, true⟩, .construct 5 [7, 8] [some 0, some 1]] ⟨[], []⟩ >>=
      fun w => rig w 0 >>= fun r => getCameraId w.cams r 0 >>= fun id => getCameraIndex r id) = .ok 1 := by
  decide +kernel

/-- Changing the id of a camera that a rig uses makes it unknown to the rig. -/
theorem changed_id_refuted :
    (run [.newCamera ⟨11, 1, 100, true⟩, .construct 5 [7] [some 0], .setCameraId 0 12] ⟨[], []⟩ >>=
      fun w => rig w 0 >>= fun r => getCameraId w.cams r 0 >>= fun id => getCameraIndex r id) = .ok (-1) := by
  decide +kernel

end Verif.NCamera
