import Verif.VisualPipeline.Owners

/-!
# The detectors and extractors inside pipelines: properties

Property C132.
-/

namespace Verif.VisualPipeline.Owners

open Verif (Outcome)

/-! ## What a user expects -/

/-- What processing an image should use, by the settings of the pipeline: the detector, and the extractor if there are
keypoints. -/
def wanted (found : Bool) : Config → List Made
  | .brisk octaves radius threshold most rotation scale =>
    .harris octaves radius threshold most :: if found then [.brisk rotation scale] else []
  | .freak octaves hessian layers rotation scale pattern =>
    .surf hessian octaves layers :: if found then [.freak rotation scale pattern octaves] else []
  | .lines => [.lsd 1 (4 / 5) (3 / 5) 2 (33 / 2) 0 (13 / 20) 1024]
  | .april border => [.tags border]

/-- The settings of all pipelines after a call. -/
def after (l : List (Option Config)) : Op → List (Option Config)
  | .make c => l ++ [some c]
  | .noTarget => l
  | .copy i => l ++ [l[i]?.join]
  | .again i c => l.set i (some c)
  | .detect _ _ => l
  | .destroy i => l.set i none

/-- What a call should use. -/
def uses (l : List (Option Config)) : Op → List Made
  | .detect i found => match l[i]? with
    | some (some c) => wanted found c
    | _ => []
  | _ => []

/-- What the calls of a program should use. -/
def usesAll (l : List (Option Config)) : List Op → List (List Made)
  | [] => []
  | o :: os => uses l o :: usesAll (after l o) os

/-- The settings of all pipelines after a program. -/
def afterAll (l : List (Option Config)) : List Op → List (Option Config)
  | [] => l
  | o :: os => afterAll (after l o) os

/-- Every call of a program can be written. -/
def allowedAll (l : List (Option Config)) : List Op → Bool
  | [] => true
  | o :: os => allowed l o && allowedAll (after l o) os

/-- A call that works on a FREAK pipeline. -/
def touches (l : List (Option Config)) : Op → Bool
  | .make _ | .noTarget => false
  | .copy i | .again i _ | .detect i _ | .destroy i => match l[i]? with
    | some (some c) => c.isFreak
    | _ => false

/-! ## The heap -/

/-- The pointers `hs` are as they should be: their objects are alive, the counters count them, no object has two counters,
and every object that is alive has a pointer. -/
structure Good (h : Heap) (hs : List Nat) : Prop where
  valid : ∀ b ∈ hs, ∃ k o, h.blocks[b]? = some k ∧ k.count = hs.count b ∧ h.objs[k.obj]? = some o ∧ o.alive = true
  inj : ∀ b ∈ hs, ∀ b' ∈ hs, ∀ k k', h.blocks[b]? = some k → h.blocks[b']? = some k' → k.obj = k'.obj → b = b'
  leak : ∀ (p : Nat) (o : Obj), h.objs[p]? = some o → o.alive = true → ∃ b ∈ hs, ∃ k, h.blocks[b]? = some k ∧ k.obj = p

/-- The pointer leads to an object made with `m`. -/
def Is (h : Heap) (b : Nat) (m : Made) : Prop := ∃ k o, h.blocks[b]? = some k ∧ h.objs[k.obj]? = some o ∧ o.made = m

/-- The pointer leads to an object that is gone. -/
def Dead (h : Heap) (b : Nat) : Prop :=
  ∃ k o, h.blocks[b]? = some k ∧ k.count ≤ 1 ∧ h.objs[k.obj]? = some o ∧ o.alive = false

/-- What no call changes: what objects were made with, that they are gone, and what a counter counts. -/
structure Le (h h' : Heap) : Prop where
  objs : ∀ (p : Nat) (o : Obj), h.objs[p]? = some o →
    ∃ o', h'.objs[p]? = some o' ∧ o'.made = o.made ∧ (o.alive = false → o'.alive = false)
  blocks : ∀ (b : Nat) (k : Block), h.blocks[b]? = some k → ∃ k', h'.blocks[b]? = some k' ∧ k'.obj = k.obj
    ∧ (k'.count ≤ k.count ∨ ∀ o, h.objs[k.obj]? = some o → o.alive = true)

theorem Le.refl (h : Heap) : Le h h := ⟨fun _ o e => ⟨o, e, rfl, id⟩, fun _ k e => ⟨k, e, rfl, .inl (Nat.le_refl _)⟩⟩

theorem Le.trans {a b c : Heap} (h1 : Le a b) (h2 : Le b c) : Le a c := by
  constructor
  · intro p o e
    obtain ⟨o1, e1, m1, d1⟩ := h1.objs p o e
    obtain ⟨o2, e2, m2, d2⟩ := h2.objs p o1 e1
    exact ⟨o2, e2, m2.trans m1, fun d => d2 (d1 d)⟩
  · intro x k e
    obtain ⟨k1, e1, p1, c1⟩ := h1.blocks x k e
    obtain ⟨k2, e2, p2, c2⟩ := h2.blocks x k1 e1
    refine ⟨k2, e2, p2.trans p1, ?_⟩
    rcases c1 with c1 | c1
    · rcases c2 with c2 | c2
      · exact .inl (Nat.le_trans c2 c1)
      · refine .inr fun o0 h0 => ?_
        obtain ⟨o', e', _, d'⟩ := h1.objs _ _ h0
        rw [p1] at c2
        have := c2 o' e'
        cases hal : o0.alive with
        | true => rfl
        | false => rw [d' hal] at this; cases this
    · exact .inr c1

theorem Is.mono {h h' : Heap} {b : Nat} {m : Made} (hl : Le h h') (hi : Is h b m) : Is h' b m := by
  obtain ⟨k, o, e1, e2, e3⟩ := hi
  obtain ⟨k', f1, f2, _⟩ := hl.blocks _ _ e1
  obtain ⟨o', g1, g2, _⟩ := hl.objs _ _ e2
  exact ⟨k', o', f1, by rw [f2]; exact g1, g2.trans e3⟩

theorem Dead.mono {h h' : Heap} {b : Nat} (hl : Le h h') (hd : Dead h b) : Dead h' b := by
  obtain ⟨k, o, e1, e2, e3, e4⟩ := hd
  obtain ⟨k', f1, f2, f3⟩ := hl.blocks _ _ e1
  obtain ⟨o', g1, _, g3⟩ := hl.objs _ _ e3
  refine ⟨k', o', f1, ?_, by rw [f2]; exact g1, g3 e4⟩
  rcases f3 with f3 | f3
  · omega
  · rw [f3 o e3] at e4; cases e4

theorem Good.congr {h : Heap} {hs hs' : List Nat} (hg : Good h hs) (he : ∀ b, hs'.count b = hs.count b) : Good h hs' := by
  have hm : ∀ b, b ∈ hs' ↔ b ∈ hs := fun b => by rw [← List.count_pos_iff, ← List.count_pos_iff, he]
  refine ⟨fun b hb => ?_, fun b hb b' hb' => hg.inj b ((hm b).1 hb) b' ((hm b').1 hb'), fun p o e ha => ?_⟩
  · rw [he]; exact hg.valid b ((hm b).1 hb)
  · obtain ⟨b, hb, x⟩ := hg.leak p o e ha
    exact ⟨b, (hm b).2 hb, x⟩

theorem Good.lt {h : Heap} {hs : List Nat} (hg : Good h hs) {b : Nat} (hb : b ∈ hs) : b < h.blocks.length := by
  obtain ⟨k, _, e, _⟩ := hg.valid b hb
  exact (List.getElem?_eq_some_iff.1 e).1

theorem fresh_spec {h : Heap} {hs : List Nat} (hg : Good h hs) (m : Made) :
    Good (h.fresh m).1 ((h.fresh m).2 :: hs) ∧ Le h (h.fresh m).1 ∧ Is (h.fresh m).1 (h.fresh m).2 m := by
  have e : h.fresh m = (⟨h.objs ++ [⟨m, true⟩], h.blocks ++ [⟨h.objs.length, 1⟩]⟩, h.blocks.length) := rfl
  rw [e]
  have hn : h.blocks.length ∉ hs := fun hb => Nat.lt_irrefl _ (hg.lt hb)
  have ob : ∀ {p : Nat} {o : Obj}, h.objs[p]? = some o → (h.objs ++ [⟨m, true⟩])[p]? = some o := fun {p o} hp => by
    rw [List.getElem?_append_left (List.getElem?_eq_some_iff.1 hp).1]; exact hp
  have bl : ∀ {b : Nat} {k : Block}, h.blocks[b]? = some k → (h.blocks ++ [⟨h.objs.length, 1⟩])[b]? = some k := fun {b k} hp => by
    rw [List.getElem?_append_left (List.getElem?_eq_some_iff.1 hp).1]; exact hp
  have nb : (h.blocks ++ [⟨h.objs.length, 1⟩])[h.blocks.length]? = some ⟨h.objs.length, 1⟩ := by simp
  have no : (h.objs ++ [⟨m, true⟩])[h.objs.length]? = some ⟨m, true⟩ := by simp
  refine ⟨⟨?_, ?_, ?_⟩, ⟨?_, ?_⟩, ?_⟩
  · intro b hb
    rcases List.mem_cons.1 hb with rfl | hb
    · refine ⟨_, _, nb, ?_, no, rfl⟩
      rw [List.count_cons_self, List.count_eq_zero_of_not_mem hn]
    · obtain ⟨k, o, e1, e2, e3, e4⟩ := hg.valid b hb
      refine ⟨k, o, bl e1, ?_, ob e3, e4⟩
      rw [List.count_cons_of_ne (fun hh : h.blocks.length = b => hn (hh.symm ▸ hb))]
      exact e2
  · have key : ∀ b ∈ hs, ∀ k k', (h.blocks ++ [⟨h.objs.length, 1⟩])[b]? = some k →
        (h.blocks ++ [⟨h.objs.length, 1⟩])[h.blocks.length]? = some k' → k.obj ≠ k'.obj := by
      intro b hb k k' e1 e2
      obtain ⟨k0, o, f1, _, f3, _⟩ := hg.valid b hb
      rw [bl f1] at e1
      cases e1
      rw [nb] at e2
      cases e2
      have := (List.getElem?_eq_some_iff.1 f3).1
      exact Nat.ne_of_lt this
    intro b hb b' hb' k k' e1 e2 e3
    rcases List.mem_cons.1 hb with rfl | hb
    · rcases List.mem_cons.1 hb' with rfl | hb'
      · rfl
      · exact absurd e3.symm (key b' hb' k' k e2 e1)
    · rcases List.mem_cons.1 hb' with rfl | hb'
      · exact absurd e3 (key b hb k k' e1 e2)
      · obtain ⟨k0, _, f1, _⟩ := hg.valid b hb
        obtain ⟨k0', _, f1', _⟩ := hg.valid b' hb'
        rw [bl f1] at e1
        rw [bl f1'] at e2
        cases e1
        cases e2
        exact hg.inj b hb b' hb' _ _ f1 f1' e3
  · intro p o e1 ha
    by_cases hp : p < h.objs.length
    · rw [List.getElem?_append_left hp] at e1
      obtain ⟨b, hb, k, f1, f2⟩ := hg.leak p o e1 ha
      exact ⟨b, .tail _ hb, k, bl f1, f2⟩
    · have hl := (List.getElem?_eq_some_iff.1 e1).1
      simp at hl
      have : p = h.objs.length := by omega
      subst this
      exact ⟨_, .head _, _, nb, rfl⟩
  · intro p o e1
    exact ⟨o, ob e1, rfl, id⟩
  · intro b k e1
    exact ⟨k, bl e1, rfl, .inl (Nat.le_refl _)⟩
  · exact ⟨_, _, nb, no, rfl⟩

theorem borrowed_spec {h : Heap} {hs : List Nat} (hg : Good h hs) (m : Made) :
    ∃ h' b, h.borrowed m = .ok (h', b) ∧ Good h' hs ∧ Le h h' ∧ Dead h' b := by
  have e : h.borrowed m = .ok (⟨h.objs ++ [⟨m, false⟩],
      h.blocks ++ [⟨h.objs.length, 0⟩, ⟨h.objs.length, 1⟩]⟩, h.blocks.length + 1) := by
    unfold Heap.borrowed Heap.create Heap.own Heap.release Heap.delete
    simp [Outcome.bind_ok, List.getElem?_append, List.set_append]
  have ob : ∀ {p : Nat} {o : Obj}, h.objs[p]? = some o → (h.objs ++ [⟨m, false⟩])[p]? = some o := fun {p o} hp => by
    rw [List.getElem?_append_left (List.getElem?_eq_some_iff.1 hp).1]; exact hp
  have bl : ∀ {b : Nat} {k : Block}, h.blocks[b]? = some k →
      (h.blocks ++ [⟨h.objs.length, 0⟩, ⟨h.objs.length, 1⟩])[b]? = some k := fun {b k} hp => by
    rw [List.getElem?_append_left (List.getElem?_eq_some_iff.1 hp).1]; exact hp
  refine ⟨_, _, e, ⟨?_, ?_, ?_⟩, ⟨?_, ?_⟩, ?_⟩
  · intro b hb
    obtain ⟨k, o, e1, e2, e3, e4⟩ := hg.valid b hb
    exact ⟨k, o, bl e1, e2, ob e3, e4⟩
  · intro b hb b' hb' k k' e1 e2 e3
    obtain ⟨k0, _, f1, _⟩ := hg.valid b hb
    obtain ⟨k0', _, f1', _⟩ := hg.valid b' hb'
    rw [bl f1] at e1
    rw [bl f1'] at e2
    cases e1
    cases e2
    exact hg.inj b hb b' hb' _ _ f1 f1' e3
  · intro p o e1 ha
    by_cases hp : p < h.objs.length
    · rw [List.getElem?_append_left hp] at e1
      obtain ⟨b, hb, k, f1, f2⟩ := hg.leak p o e1 ha
      exact ⟨b, hb, k, bl f1, f2⟩
    · have hl := (List.getElem?_eq_some_iff.1 e1).1
      simp at hl
      have : p = h.objs.length := by omega
      subst this
      simp at e1
      subst e1
      cases ha
  · intro p o e1
    exact ⟨o, ob e1, rfl, id⟩
  · intro b k e1
    exact ⟨k, bl e1, rfl, .inl (Nat.le_refl _)⟩
  · refine ⟨⟨h.objs.length, 1⟩, ⟨m, false⟩, ?_, Nat.le_refl _, by simp, rfl⟩
    simp [List.getElem?_append]

theorem share_spec {h : Heap} {hs : List Nat} (hg : Good h hs) {b : Nat} (hb : b ∈ hs) :
    ∃ h', h.share b = .ok h' ∧ Good h' (b :: hs) ∧ Le h h' := by
  obtain ⟨k, o, e1, e2, e3, e4⟩ := hg.valid b hb
  have hlt := hg.lt hb
  have e : h.share b = .ok { h with blocks := h.blocks.set b { k with count := k.count + 1 } } := by
    unfold Heap.share
    rw [e1]
  have get : ∀ c, (h.blocks.set b { k with count := k.count + 1 })[c]?
      = if c = b then some { k with count := k.count + 1 } else h.blocks[c]? := by
    intro c
    by_cases hc : c = b
    · subst hc; simp [hlt]
    · rw [List.getElem?_set_ne (Ne.symm hc), if_neg hc]
  have getObj : ∀ {c : Nat} {k' : Block}, (h.blocks.set b { k with count := k.count + 1 })[c]? = some k' →
      ∃ k0, h.blocks[c]? = some k0 ∧ k0.obj = k'.obj := by
    intro c k' hc
    rw [get] at hc
    split at hc
    · rename_i hcb
      subst hcb
      cases hc
      exact ⟨k, e1, rfl⟩
    · exact ⟨k', hc, rfl⟩
  refine ⟨_, e, ⟨?_, ?_, ?_⟩, ⟨fun p o hp => ⟨o, hp, rfl, id⟩, ?_⟩⟩
  · intro c hc
    have hc : c ∈ hs := by rcases List.mem_cons.1 hc with rfl | hc <;> assumption
    by_cases hcb : c = b
    · subst hcb
      refine ⟨{ k with count := k.count + 1 }, o, by rw [get, if_pos rfl], ?_, e3, e4⟩
      rw [List.count_cons_self, ← e2]
    · obtain ⟨k', o', f1, f2, f3, f4⟩ := hg.valid c hc
      refine ⟨k', o', by rw [get, if_neg hcb]; exact f1, ?_, f3, f4⟩
      rw [List.count_cons_of_ne (Ne.symm hcb)]
      exact f2
  · intro c hc c' hc' k1 k2 f1 f2 f3
    have hc : c ∈ hs := by rcases List.mem_cons.1 hc with rfl | hc <;> assumption
    have hc' : c' ∈ hs := by rcases List.mem_cons.1 hc' with rfl | hc' <;> assumption
    obtain ⟨k3, g1, g2⟩ := getObj f1
    obtain ⟨k4, g3, g4⟩ := getObj f2
    exact hg.inj c hc c' hc' _ _ g1 g3 (by rw [g2, g4, f3])
  · intro p o' hp ha
    obtain ⟨c, hc, k', f1, f2⟩ := hg.leak p o' hp ha
    by_cases hcb : c = b
    · subst hcb
      rw [e1] at f1
      cases f1
      exact ⟨c, .tail _ hc, { k with count := k.count + 1 }, by rw [get, if_pos rfl], f2⟩
    · exact ⟨c, .tail _ hc, k', by rw [get, if_neg hcb]; exact f1, f2⟩
  · intro c k' hk
    by_cases hcb : c = b
    · subst hcb
      rw [e1] at hk
      cases hk
      refine ⟨{ k with count := k.count + 1 }, by rw [get, if_pos rfl], rfl, .inr fun o' ho => ?_⟩
      rw [e3] at ho
      cases ho
      exact e4
    · exact ⟨k', by rw [get, if_neg hcb]; exact hk, rfl, .inl (Nat.le_refl _)⟩

theorem release_spec {h : Heap} {hs : List Nat} {b : Nat} (hg : Good h (b :: hs)) :
    ∃ h', h.release b = .ok h' ∧ Good h' hs ∧ Le h h' := by
  obtain ⟨k, o, e1, e2, e3, e4⟩ := hg.valid b (.head _)
  have hlt := hg.lt (List.Mem.head hs : b ∈ b :: hs)
  rw [List.count_cons_self] at e2
  have get : ∀ (n c : Nat), (h.blocks.set b { k with count := n })[c]?
      = if c = b then some { k with count := n } else h.blocks[c]? := by
    intro n c
    by_cases hc : c = b
    · subst hc; simp [hlt]
    · rw [List.getElem?_set_ne (Ne.symm hc), if_neg hc]
  have getObj : ∀ {n c : Nat} {k' : Block}, (h.blocks.set b { k with count := n })[c]? = some k' →
      ∃ k0, h.blocks[c]? = some k0 ∧ k0.obj = k'.obj := by
    intro n c k' hc
    rw [get] at hc
    split at hc
    · rename_i hcb
      subst hcb
      cases hc
      exact ⟨k, e1, rfl⟩
    · exact ⟨k', hc, rfl⟩
  have leB : ∀ n, n ≤ k.count → ∀ (c : Nat) (k' : Block), h.blocks[c]? = some k' →
      ∃ k'', (h.blocks.set b { k with count := n })[c]? = some k'' ∧ k''.obj = k'.obj ∧ k''.count ≤ k'.count := by
    intro n hn c k' hk
    by_cases hcb : c = b
    · subst hcb
      rw [e1] at hk
      cases hk
      exact ⟨{ k with count := n }, by rw [get, if_pos rfl], rfl, hn⟩
    · exact ⟨k', by rw [get, if_neg hcb]; exact hk, rfl, Nat.le_refl _⟩
  by_cases h1 : k.count = 1
  · have hn : b ∉ hs := by
      rw [← List.count_pos_iff]; omega
    have e : h.release b = .ok ⟨h.objs.set k.obj { o with alive := false }, h.blocks.set b { k with count := 0 }⟩ := by
      unfold Heap.release Heap.delete
      rw [e1]
      simp only [if_pos h1]
      rw [e3]
      simp only [e4, if_true]
    have hol := (List.getElem?_eq_some_iff.1 e3).1
    have geto : ∀ p, (h.objs.set k.obj { o with alive := false })[p]?
        = if p = k.obj then some { o with alive := false } else h.objs[p]? := by
      intro p
      by_cases hp : p = k.obj
      · subst hp; simp [hol]
      · rw [List.getElem?_set_ne (Ne.symm hp), if_neg hp]
    refine ⟨_, e, ⟨?_, ?_, ?_⟩, ⟨?_, ?_⟩⟩
    · intro c hc
      have hcb : c ≠ b := fun hh => hn (hh ▸ hc)
      obtain ⟨k', o', f1, f2, f3, f4⟩ := hg.valid c (.tail _ hc)
      rw [List.count_cons_of_ne (Ne.symm hcb)] at f2
      have hne : k'.obj ≠ k.obj := fun hh => hcb (hg.inj c (.tail _ hc) b (.head _) _ _ f1 e1 hh)
      exact ⟨k', o', by rw [get, if_neg hcb]; exact f1, f2, by rw [geto, if_neg hne]; exact f3, f4⟩
    · intro c hc c' hc' k1 k2 f1 f2 f3
      obtain ⟨k3, g1, g2⟩ := getObj f1
      obtain ⟨k4, g3, g4⟩ := getObj f2
      exact hg.inj c (.tail _ hc) c' (.tail _ hc') _ _ g1 g3 (by rw [g2, g4, f3])
    · intro p o' hp ha
      rw [geto] at hp
      split at hp
      · cases hp; cases ha
      · rename_i hne
        obtain ⟨c, hc, k', f1, f2⟩ := hg.leak p o' hp ha
        have hcb : c ≠ b := by
          intro hh
          subst hh
          rw [e1] at f1
          cases f1
          exact hne f2.symm
        rcases List.mem_cons.1 hc with hh | hc
        · exact absurd hh hcb
        · exact ⟨c, hc, k', by rw [get, if_neg hcb]; exact f1, f2⟩
    · intro p o' hp
      by_cases hpk : p = k.obj
      · subst hpk
        rw [e3] at hp
        cases hp
        exact ⟨{ o with alive := false }, by rw [geto, if_pos rfl], rfl, fun _ => rfl⟩
      · exact ⟨o', by rw [geto, if_neg hpk]; exact hp, rfl, id⟩
    · intro c k' hk
      obtain ⟨k'', g1, g2, g3⟩ := leB 0 (Nat.zero_le _) c k' hk
      exact ⟨k'', g1, g2, .inl g3⟩
  · have e : h.release b = .ok { h with blocks := h.blocks.set b { k with count := k.count - 1 } } := by
      unfold Heap.release
      rw [e1]
      simp only [if_neg h1]
      rw [if_neg (by omega)]
    refine ⟨_, e, ⟨?_, ?_, ?_⟩, ⟨fun p o' hp => ⟨o', hp, rfl, id⟩, ?_⟩⟩
    · intro c hc
      by_cases hcb : c = b
      · subst hcb
        exact ⟨{ k with count := k.count - 1 }, o, by rw [get, if_pos rfl], by simp only []; omega, e3, e4⟩
      · obtain ⟨k', o', f1, f2, f3, f4⟩ := hg.valid c (.tail _ hc)
        rw [List.count_cons_of_ne (Ne.symm hcb)] at f2
        exact ⟨k', o', by rw [get, if_neg hcb]; exact f1, f2, f3, f4⟩
    · intro c hc c' hc' k1 k2 f1 f2 f3
      obtain ⟨k3, g1, g2⟩ := getObj f1
      obtain ⟨k4, g3, g4⟩ := getObj f2
      exact hg.inj c (.tail _ hc) c' (.tail _ hc') _ _ g1 g3 (by rw [g2, g4, f3])
    · intro p o' hp ha
      obtain ⟨c, hc, k', f1, f2⟩ := hg.leak p o' hp ha
      by_cases hcb : c = b
      · subst hcb
        rw [e1] at f1
        cases f1
        refine ⟨c, ?_, { k with count := k.count - 1 }, by rw [get, if_pos rfl], f2⟩
        rw [← List.count_pos_iff]; omega
      · rcases List.mem_cons.1 hc with hh | hc
        · exact absurd hh hcb
        · exact ⟨c, hc, k', by rw [get, if_neg hcb]; exact f1, f2⟩
    · intro c k' hk
      obtain ⟨k'', g1, g2, g3⟩ := leB (k.count - 1) (Nat.sub_le _ _) c k' hk
      exact ⟨k'', g1, g2, .inl g3⟩

theorem use_good {h : Heap} {hs : List Nat} (hg : Good h hs) {b : Nat} {m : Made} (hb : b ∈ hs) (hi : Is h b m) :
    h.use b = .ok m := by
  obtain ⟨k, o, e1, _, e3, e4⟩ := hg.valid b hb
  obtain ⟨k', o', f1, f2, f3⟩ := hi
  rw [e1] at f1
  cases f1
  rw [e3] at f2
  cases f2
  unfold Heap.use
  rw [e1]
  simp only [e3, e4, if_true, f3]

theorem use_dead {h : Heap} {b : Nat} (hd : Dead h b) : h.use b = .ub := by
  obtain ⟨k, o, e1, _, e3, e4⟩ := hd
  unfold Heap.use
  rw [e1]
  simp [e3, e4]

theorem release_dead {h : Heap} {b : Nat} (hd : Dead h b) : h.release b = .ub := by
  obtain ⟨k, o, e1, e2, e3, e4⟩ := hd
  unfold Heap.release Heap.delete
  rw [e1]
  simp only []
  split
  · rw [e3]; simp [e4]
  · rw [if_pos (by omega)]

/-! ## Pipelines -/

/-- The pointers of a pipeline that is not a FREAK pipeline. -/
def held : Option Pipe → List Nat
  | some p => if p.config.isFreak then [] else p.det :: p.ext.toList
  | none => []

/-- The members of a pipeline: for FREAK they lead to objects that are gone, otherwise to those of the settings. -/
def PipeOk (neon : Bool) (h : Heap) (p : Pipe) : Prop :=
  if p.config.isFreak then Dead h p.det ∧ ∃ b, p.ext = some b ∧ Dead h b
  else Is h p.det (p.config.detector neon) ∧ (∀ b, p.ext = some b → ∃ m, p.config.extractor = some m ∧ Is h b m)
    ∧ (p.ext = none → p.config.extractor = none)

/-- All is well but for FREAK. -/
structure Inv (neon : Bool) (s : State) : Prop where
  good : Good s.heap (s.pipes.flatMap held)
  pipes : ∀ (i : Nat) (p : Pipe), s.pipes[i]? = some (some p) → PipeOk neon s.heap p

theorem PipeOk.mono {neon : Bool} {h h' : Heap} {p : Pipe} (hl : Le h h') (hp : PipeOk neon h p) : PipeOk neon h' p := by
  unfold PipeOk at hp ⊢
  split
  · rename_i hf
    rw [if_pos hf] at hp
    obtain ⟨h1, b, h2, h3⟩ := hp
    exact ⟨h1.mono hl, b, h2, h3.mono hl⟩
  · rename_i hf
    rw [if_neg hf] at hp
    obtain ⟨h1, h2, h3⟩ := hp
    refine ⟨h1.mono hl, fun b hb => ?_, h3⟩
    obtain ⟨m, e, hm⟩ := h2 b hb
    exact ⟨m, e, hm.mono hl⟩

theorem count_set {l : List (Option Pipe)} {i : Nat} {q : Option Pipe} (hq : l[i]? = some q) (r : Option Pipe) (b : Nat) :
    (held q).count b + ((l.set i r).flatMap held).count b = (held r).count b + (l.flatMap held).count b := by
  induction l generalizing i with
  | nil => simp at hq
  | cons x xs ih =>
    cases i with
    | zero =>
      simp at hq
      subst hq
      simp only [List.set_cons_zero, List.flatMap_cons, List.count_append]
      omega
    | succ i =>
      have := ih (i := i) (by simpa using hq)
      simp only [List.set_cons_succ, List.flatMap_cons, List.count_append]
      omega

theorem member_spec {h : Heap} {hs : List Nat} (hg : Good h hs) (borrow : Bool) (m : Made) :
    ∃ h' b, h.member borrow m = .ok (h', b) ∧ Le h h' ∧
      if borrow then Good h' hs ∧ Dead h' b else Good h' (b :: hs) ∧ Is h' b m := by
  unfold Heap.member
  cases borrow with
  | true =>
    obtain ⟨h', b, e, h1, h2, h3⟩ := borrowed_spec hg m
    exact ⟨h', b, by simpa using e, h2, by simpa using ⟨h1, h3⟩⟩
  | false =>
    obtain ⟨h1, h2, h3⟩ := fresh_spec hg m
    exact ⟨_, _, rfl, h2, by simpa using ⟨h1, h3⟩⟩

theorem build_spec {neon : Bool} {c : Config} {h : Heap} {hs : List Nat} (hg : Good h hs) :
    ∃ h' p, build neon c h = .ok (h', p) ∧ p.config = c ∧ Le h h' ∧ PipeOk neon h' p ∧ Good h' (hs ++ held (some p)) := by
  obtain ⟨h1, det, e1, l1, g1⟩ := member_spec hg c.isFreak (c.detector neon)
  cases hf : c.isFreak with
  | true =>
    rw [hf] at e1 g1
    simp only [if_true] at g1
    cases c with
    | freak o hh ll r s pt =>
      obtain ⟨h2, ext, e2, l2, g2⟩ := member_spec g1.1 true (.freak r s pt (intOf o))
      simp only [if_true] at g2
      refine ⟨h2, ⟨.freak o hh ll r s pt, det, some ext⟩, ?_, rfl, l1.trans l2, ?_, ?_⟩
      · unfold build
        rw [hf, e1]
        simp only [Outcome.bind_ok, Config.extractor, Heap.member?, e2]
      · unfold PipeOk
        rw [if_pos hf]
        exact ⟨g1.2.mono l2, ext, rfl, g2.2⟩
      · simpa [held, Config.isFreak] using g2.1
    | brisk => cases hf
    | lines => cases hf
    | april => cases hf
  | false =>
    rw [hf] at e1 g1
    simp only [Bool.false_eq_true, if_false] at g1
    cases hx : c.extractor with
    | some m =>
      obtain ⟨h2, ext, e2, l2, g2⟩ := member_spec g1.1 false m
      simp only [Bool.false_eq_true, if_false] at g2
      refine ⟨h2, ⟨c, det, some ext⟩, ?_, rfl, l1.trans l2, ?_, ?_⟩
      · unfold build
        rw [hf, e1, hx]
        simp only [Outcome.bind_ok, Heap.member?, e2]
      · unfold PipeOk
        rw [if_neg (by simp [hf])]
        refine ⟨g1.2.mono l2, fun b hb => ?_, fun hb => by cases hb⟩
        cases hb
        exact ⟨m, hx, g2.2⟩
      · apply g2.1.congr
        intro b
        simp only [held, hf, Bool.false_eq_true, if_false, List.count_append, Option.toList_some, List.count_cons, List.count_nil]
        omega
    | none =>
      refine ⟨h1, ⟨c, det, none⟩, ?_, rfl, l1, ?_, ?_⟩
      · unfold build
        rw [hf, e1, hx]
        rfl
      · unfold PipeOk
        rw [if_neg (by simp [hf])]
        exact ⟨g1.2, fun b hb => by (cases hb), fun _ => hx⟩
      · apply g1.1.congr
        intro b
        simp only [held, hf, Bool.false_eq_true, if_false, List.count_append, Option.toList_none, List.count_cons, List.count_nil]
        omega

theorem destroy_spec {p : Pipe} {h : Heap} {hs : List Nat} (hf : p.config.isFreak = false)
    (hg : Good h (held (some p) ++ hs)) : ∃ h', destroy p h = .ok h' ∧ Le h h' ∧ Good h' hs := by
  unfold destroy
  cases he : p.ext with
  | none =>
    simp only [held, hf, he, Bool.false_eq_true, if_false, Option.toList_none] at hg
    obtain ⟨h', e, g, l⟩ := release_spec (b := p.det) (hs := hs) hg
    exact ⟨h', by simpa [Heap.release?, Outcome.bind_ok] using e, l, g⟩
  | some x =>
    simp only [held, hf, he, Bool.false_eq_true, if_false, Option.toList_some] at hg
    obtain ⟨h1, e1, g1, l1⟩ := release_spec (b := x) (hs := p.det :: hs) (hg.congr fun b => by
      simp only [List.count_append, List.count_cons, List.count_nil]; omega)
    obtain ⟨h2, e2, g2, l2⟩ := release_spec g1
    exact ⟨h2, by simp only [Heap.release?, e1, Outcome.bind_ok, e2], l1.trans l2, g2⟩

theorem destroy_freak {neon : Bool} {p : Pipe} {h : Heap} (hf : p.config.isFreak = true) (hp : PipeOk neon h p) :
    destroy p h = .ub := by
  unfold PipeOk at hp
  rw [if_pos hf] at hp
  obtain ⟨_, b, hb, hd⟩ := hp
  unfold destroy
  rw [hb]
  simp only [Heap.release?, release_dead hd]
  rfl

theorem rebuild_spec {neon : Bool} {c : Config} {p : Pipe} {h : Heap} {hs : List Nat} (hf : p.config.isFreak = false)
    (hc : c.isFreak = false) (hg : Good h (held (some p) ++ hs)) :
    ∃ h' p', rebuild neon c p h = .ok (h', p') ∧ p'.config = c ∧ Le h h' ∧ PipeOk neon h' p'
      ∧ Good h' (held (some p') ++ hs) := by
  obtain ⟨g1, l1, i1⟩ := fresh_spec hg (c.detector neon)
  simp only [held, hf, Bool.false_eq_true, if_false] at g1
  obtain ⟨h2, e2, g2, l2⟩ := release_spec (b := p.det) (hs := (h.fresh (c.detector neon)).2 :: (p.ext.toList ++ hs))
    (g1.congr fun b => by simp only [List.count_append, List.count_cons]; omega)
  have hrel : ∀ {h3 : Heap} {l : List Nat}, Good h3 (p.ext.toList ++ l) →
      ∃ h4, h3.release? p.ext = .ok h4 ∧ Good h4 l ∧ Le h3 h4 := by
    intro h3 l g3
    cases hx : p.ext with
    | none =>
      rw [hx] at g3
      exact ⟨h3, rfl, by simpa using g3, .refl _⟩
    | some x =>
      rw [hx] at g3
      obtain ⟨h4, e4, g4, l4⟩ := release_spec (b := x) (hs := l) g3
      exact ⟨h4, e4, g4, l4⟩
  cases hx : c.extractor with
  | some m =>
    obtain ⟨g3, l3, i3⟩ := fresh_spec g2 m
    obtain ⟨h4, e4, g4, l4⟩ := hrel (l := (h2.fresh m).2 :: (h.fresh (c.detector neon)).2 :: hs)
      (g3.congr fun b => by simp only [List.count_append, List.count_cons]; omega)
    refine ⟨h4, ⟨c, (h.fresh (c.detector neon)).2, some (h2.fresh m).2⟩, ?_, rfl, ((l1.trans l2).trans l3).trans l4, ?_, ?_⟩
    · unfold rebuild
      rw [hc]
      simp only [Bool.false_eq_true, if_false, e2, Outcome.bind_ok, hx, Heap.member?, Heap.member, e4]
    · unfold PipeOk
      rw [if_neg (by simp [hc])]
      refine ⟨i1.mono ((l2.trans l3).trans l4), fun b hb => ?_, fun hb => by cases hb⟩
      cases hb
      exact ⟨m, hx, i3.mono l4⟩
    · apply g4.congr
      intro b
      simp only [held, hc, Bool.false_eq_true, if_false, List.count_append, Option.toList_some, List.count_cons, List.count_nil]
      omega
  | none =>
    obtain ⟨h4, e4, g4, l4⟩ := hrel (l := (h.fresh (c.detector neon)).2 :: hs)
      (g2.congr fun b => by simp only [List.count_append, List.count_cons]; omega)
    refine ⟨h4, ⟨c, (h.fresh (c.detector neon)).2, none⟩, ?_, rfl, (l1.trans l2).trans l4, ?_, ?_⟩
    · unfold rebuild
      rw [hc]
      simp only [Bool.false_eq_true, if_false, e2, Outcome.bind_ok, hx, Heap.member?, e4]
    · unfold PipeOk
      rw [if_neg (by simp [hc])]
      exact ⟨i1.mono (l2.trans l4), fun b hb => by (cases hb), fun _ => hx⟩
    · apply g4.congr
      intro b
      simp only [held, hc, Bool.false_eq_true, if_false, List.count_append, Option.toList_none, List.count_cons, List.count_nil]
      omega

/-- The settings of the pipelines. -/
def configs (s : State) : List (Option Config) := s.pipes.map (Option.map Pipe.config)

theorem configs_some {s : State} {i : Nat} {c : Config} (h : (configs s)[i]? = some (some c)) :
    ∃ p, s.pipes[i]? = some (some p) ∧ p.config = c := by
  unfold configs at h
  rw [List.getElem?_map] at h
  cases hp : s.pipes[i]? with
  | none => rw [hp] at h; cases h
  | some q =>
    rw [hp] at h
    cases q with
    | none => simp at h
    | some p => exact ⟨p, rfl, by simpa using h⟩

theorem configs_of {s : State} {i : Nat} {p : Pipe} (h : s.pipes[i]? = some (some p)) :
    (configs s)[i]? = some (some p.config) := by
  unfold configs
  rw [List.getElem?_map, h]
  rfl

theorem Inv.new (neon : Bool) : Inv neon State.new := by
  refine ⟨⟨?_, ?_, ?_⟩, ?_⟩
  · intro b hb; cases hb
  · intro b hb; cases hb
  · intro p o h; simp [State.new] at h
  · intro i p h; simp [State.new] at h

theorem Inv.append {neon : Bool} {s : State} {h' : Heap} {p : Pipe} (hI : Inv neon s) (hl : Le s.heap h')
    (hp : PipeOk neon h' p) (hg : Good h' (s.pipes.flatMap held ++ held (some p))) : Inv neon ⟨h', s.pipes ++ [some p]⟩ := by
  refine ⟨by simpa using hg, ?_⟩
  intro i q hq
  by_cases hi : i < s.pipes.length
  · rw [List.getElem?_append_left hi] at hq
    exact (hI.pipes i q hq).mono hl
  · have hlt := (List.getElem?_eq_some_iff.1 hq).1
    simp at hlt
    have : i = s.pipes.length := by omega
    subst this
    simp at hq
    subst hq
    exact hp

theorem Inv.set {neon : Bool} {s : State} {h' : Heap} {i : Nat} {r : Option Pipe} (hI : Inv neon s) (hl : Le s.heap h')
    (hp : ∀ p, r = some p → PipeOk neon h' p) (hg : Good h' ((s.pipes.set i r).flatMap held)) :
    Inv neon ⟨h', s.pipes.set i r⟩ := by
  refine ⟨hg, ?_⟩
  intro j q hq
  by_cases hj : j = i
  · subst hj
    have hlt := (List.getElem?_eq_some_iff.1 hq).1
    rw [List.length_set] at hlt
    simp only [List.getElem?_set, hlt, if_true] at hq
    exact hp q (by simpa using hq)
  · rw [List.getElem?_set_ne (Ne.symm hj)] at hq
    exact (hI.pipes j q hq).mono hl

/-- The pointers of one pipeline and those of the others. -/
theorem Inv.split {neon : Bool} {s : State} {i : Nat} {p : Pipe} (hI : Inv neon s) (hp : s.pipes[i]? = some (some p)) :
    Good s.heap (held (some p) ++ (s.pipes.set i none).flatMap held) := by
  apply hI.good.congr
  intro b
  rw [List.count_append, count_set hp none b]
  simp [held]

theorem Good.join {h : Heap} {l : List (Option Pipe)} {i : Nat} {p p' : Pipe} (hp : l[i]? = some (some p))
    (hg : Good h (held (some p') ++ (l.set i none).flatMap held)) : Good h ((l.set i (some p')).flatMap held) := by
  apply hg.congr
  intro b
  have h1 := count_set hp none b
  have h2 := count_set hp (some p') b
  rw [List.count_append]
  simp only [held, List.count_nil] at h1 h2 ⊢
  omega

/-- One call on pipelines that are not FREAK pipelines: no undefined behaviour, and the detector and extractor of the
settings are used. -/
theorem step_spec {s : State} {o : Op} (hI : Inv false s) (ha : allowed (configs s) o = true) (hn : o ≠ .noTarget)
    (ht : touches (configs s) o = false) :
    ∃ s', step false s o = .ok (s', uses (configs s) o) ∧ Inv false s' ∧ configs s' = after (configs s) o := by
  cases o with
  | make c =>
    obtain ⟨h', p, e, hc, hl, hp, hg⟩ := build_spec (neon := false) (c := c) hI.good
    refine ⟨_, ?_, hI.append hl hp hg, ?_⟩
    · simp only [step, e, Outcome.bind_ok, uses]
    · simp [configs, after, hc]
  | noTarget => exact absurd rfl hn
  | copy i =>
    simp only [allowed] at ha
    split at ha
    · rename_i hc
      obtain ⟨p, hp, hpc⟩ := configs_some hc
      have hok := hI.pipes i p hp
      have hf : p.config.isFreak = false := by rw [hpc]; rfl
      have hpo := hok
      unfold PipeOk at hpo
      rw [if_neg (by simp [hf])] at hpo
      have hx : p.ext = none := by
        cases hx : p.ext with
        | none => rfl
        | some b =>
          obtain ⟨m, hm, _⟩ := hpo.2.1 b hx
          rw [hpc] at hm
          cases hm
      have hh : held (some p) = [p.det] := by simp [held, hf, hx]
      have hmem : p.det ∈ s.pipes.flatMap held :=
        List.mem_flatMap.2 ⟨some p, List.mem_of_getElem? hp, by rw [hh]; exact .head _⟩
      obtain ⟨h', e, hg, hl⟩ := share_spec hI.good hmem
      refine ⟨_, ?_, hI.append (p := p) hl (hok.mono hl) ?_, ?_⟩
      · simp only [step, hp, e, Outcome.bind_ok, uses]
      · apply hg.congr
        intro b
        rw [hh]
        simp only [List.count_append, List.count_cons, List.count_nil]
        omega
      · simp only [after, hc]
        simp [configs, hpc]
    · cases ha
  | again i c =>
    have key : ∃ p, s.pipes[i]? = some (some p) ∧ p.config.isFreak = false ∧ c.isFreak = false := by
      simp only [allowed] at ha
      split at ha
      · rename_i hc
        obtain ⟨p, hp, hpc⟩ := configs_some hc
        refine ⟨p, hp, by rw [hpc]; rfl, ?_⟩
        split at ha
        · rfl
        · cases ha
      · rename_i hc
        simp only [touches, hc] at ht
        cases ht
      · cases ha
    obtain ⟨p, hp, hf, hcf⟩ := key
    obtain ⟨h', p', e, hc, hl, hok, hg⟩ := rebuild_spec (neon := false) hf hcf (hI.split hp)
    refine ⟨_, ?_, hI.set hl (r := some p') (fun q hq => by cases hq; exact hok) (Good.join hp hg), ?_⟩
    · simp only [step, hp, e, Outcome.bind_ok, uses]
    · simp [configs, after, hc, List.map_set]
  | detect i found =>
    have key : ∃ p, s.pipes[i]? = some (some p) := by
      simp only [allowed] at ha
      split at ha
      · rename_i hc
        obtain ⟨p, hp, _⟩ := configs_some hc
        exact ⟨p, hp⟩
      · cases ha
    obtain ⟨p, hp⟩ := key
    have hcf := configs_of hp
    have hf : p.config.isFreak = false := by simpa [touches, hcf] using ht
    have hok := hI.pipes i p hp
    unfold PipeOk at hok
    rw [if_neg (by simp [hf])] at hok
    have hm : ∀ b ∈ p.det :: p.ext.toList, b ∈ s.pipes.flatMap held := fun b hb =>
      List.mem_flatMap.2 ⟨some p, List.mem_of_getElem? hp, by simpa [held, hf] using hb⟩
    have ed := use_good hI.good (hm _ (.head _)) hok.1
    refine ⟨s, ?_, hI, rfl⟩
    simp only [step, hp, ed, Outcome.bind_ok]
    have ee : useExt found p.ext s.heap = .ok (if found then p.config.extractor.toList else []) := by
      unfold useExt
      cases found with
      | false => rfl
      | true =>
        simp only [if_true]
        cases hx : p.ext with
        | none => rw [hok.2.2 hx]; rfl
        | some b =>
          obtain ⟨m, hm', hi⟩ := hok.2.1 b hx
          have := use_good hI.good (hm b (by rw [hx]; simp)) hi
          simp only [this, Outcome.bind_ok, hm', Option.toList_some]
    rw [ee]
    simp only [Outcome.bind_ok, uses, hcf]
    congr 2
    cases hcc : p.config with
    | brisk => cases found <;> rfl
    | freak => rw [hcc] at hf; cases hf
    | lines => cases found <;> rfl
    | april => cases found <;> rfl
  | destroy i =>
    have key : ∃ p, s.pipes[i]? = some (some p) := by
      simp only [allowed] at ha
      split at ha
      · rename_i hc
        obtain ⟨p, hp, _⟩ := configs_some hc
        exact ⟨p, hp⟩
      · cases ha
    obtain ⟨p, hp⟩ := key
    have hcf := configs_of hp
    have hf : p.config.isFreak = false := by simpa [touches, hcf] using ht
    obtain ⟨h', e, hl, hg⟩ := destroy_spec hf (hI.split hp)
    refine ⟨_, ?_, hI.set hl (r := none) (fun q hq => by cases hq) hg, ?_⟩
    · simp only [step, hp, e, Outcome.bind_ok, uses]
    · simp [configs, after, List.map_set]

/-- A call on a FREAK pipeline. -/
theorem step_freak {neon : Bool} {s : State} {o : Op} (hI : Inv neon s) (ha : allowed (configs s) o = true)
    (ht : touches (configs s) o = true) : step neon s o = .ub := by
  have key : ∀ i : Nat, (match (configs s)[i]? with
      | some (some c) => c.isFreak
      | _ => false) = true → ∃ p, s.pipes[i]? = some (some p) ∧ p.config.isFreak = true ∧ Dead s.heap p.det := by
    intro i h
    split at h
    · rename_i c hc
      obtain ⟨p, hp, rfl⟩ := configs_some hc
      have := hI.pipes i p hp
      unfold PipeOk at this
      rw [if_pos h] at this
      exact ⟨p, hp, h, this.1⟩
    · cases h
  cases o with
  | make c => cases ht
  | noTarget => cases ht
  | copy i =>
    obtain ⟨p, hp, hf, hd⟩ := key i ht
    simp only [allowed, configs_of hp] at ha
    split at ha
    · rename_i hc
      simp only [Option.some.injEq] at hc
      rw [hc] at hf; cases hf
    · cases ha
  | again i c =>
    obtain ⟨p, hp, hf, hd⟩ := key i ht
    simp only [allowed, configs_of hp] at ha
    have hcf : c.isFreak = true := by
      split at ha
      · rename_i hc
        simp only [Option.some.injEq] at hc
        rw [hc] at hf; cases hf
      · split at ha
        · rfl
        · cases ha
      · cases ha
    simp only [step, hp]
    have hl : Le s.heap (((s.heap.create (c.detector neon)).1.own (s.heap.create (c.detector neon)).2).1.own
        (s.heap.create (c.detector neon)).2).1 := by
      constructor
      · intro q o ho
        refine ⟨o, ?_, rfl, id⟩
        show (s.heap.objs ++ _)[q]? = _
        rw [List.getElem?_append_left (List.getElem?_eq_some_iff.1 ho).1]; exact ho
      · intro b k hk
        refine ⟨k, ?_, rfl, .inl (Nat.le_refl _)⟩
        show ((s.heap.blocks ++ _) ++ _)[b]? = _
        rw [List.append_assoc, List.getElem?_append_left (List.getElem?_eq_some_iff.1 hk).1]; exact hk
    have := release_dead (hd.mono hl)
    unfold rebuild
    rw [if_pos hcf]
    simp only [this]
    rfl
  | detect i found =>
    obtain ⟨p, hp, hf, hd⟩ := key i ht
    simp only [step, hp, use_dead hd]
    rfl
  | destroy i =>
    obtain ⟨p, hp, hf, hd⟩ := key i ht
    simp only [step, hp, destroy_freak hf (hI.pipes i p hp)]
    rfl

/-! ## Programs -/

/-- No call of the program works on a FREAK pipeline, and every April grid has a target. -/
def clean (l : List (Option Config)) : List Op → Bool
  | [] => true
  | .noTarget :: _ => false
  | o :: os => !touches l o && clean (after l o) os

theorem clean_cons {l : List (Option Config)} {o : Op} {os : List Op} (h : clean l (o :: os) = true) :
    o ≠ .noTarget ∧ touches l o = false ∧ clean (after l o) os = true := by
  cases o <;> simp_all [clean]

theorem run_spec {os : List Op} : ∀ {s : State}, Inv false s → allowedAll (configs s) os = true → clean (configs s) os = true →
    ∃ s', run false s os = .ok (s', usesAll (configs s) os) ∧ Inv false s' ∧ configs s' = afterAll (configs s) os := by
  induction os with
  | nil => intro s hI _ _; exact ⟨s, rfl, hI, rfl⟩
  | cons o os ih =>
    intro s hI ha hc
    simp only [allowedAll, Bool.and_eq_true] at ha
    obtain ⟨h1, h2, h3⟩ := clean_cons hc
    obtain ⟨s1, e1, I1, c1⟩ := step_spec hI ha.1 h1 h2
    obtain ⟨s2, e2, I2, c2⟩ := ih I1 (by rw [c1]; exact ha.2) (by rw [c1]; exact h3)
    refine ⟨s2, ?_, I2, by rw [c2, c1]; rfl⟩
    simp only [run, e1, Outcome.bind_ok, e2, c1, usesAll]

/-- **BRISK pipelines, line detectors and April grid detectors live as they should.**  In every program that makes,
initializes again, copies, uses and destroys them in any order, and that does not touch FREAK pipelines after making them, no
call has undefined behaviour, and every image is processed with a detector and an extractor made with the latest settings of
its own pipeline. -/
theorem lives_partial {os : List Op} (ha : allowedAll [] os = true) (hc : clean [] os = true) :
    ∃ s, run false State.new os = .ok (s, usesAll [] os) ∧ configs s = afterAll [] os := by
  obtain ⟨s, e, _, c⟩ := run_spec (os := os) (Inv.new false) ha hc
  exact ⟨s, e, c⟩

/-- **Nothing leaks.**  Once all pipelines are destroyed, all detectors and extractors are gone. -/
theorem no_leak {os : List Op} (ha : allowedAll [] os = true) (hc : clean [] os = true)
    (hd : ∀ c ∈ afterAll [] os, c = none) :
    ∃ s u, run false State.new os = .ok (s, u) ∧ ∀ o ∈ s.heap.objs, o.alive = false := by
  obtain ⟨s, e, I, c⟩ := run_spec (os := os) (Inv.new false) ha hc
  refine ⟨s, _, e, ?_⟩
  intro o ho
  cases hal : o.alive with
  | false => rfl
  | true =>
    exfalso
    obtain ⟨p, hp⟩ := List.mem_iff_getElem?.1 ho
    obtain ⟨b, hb, _⟩ := I.good.leak p o hp hal
    obtain ⟨q, hq, hbq⟩ := List.mem_flatMap.1 hb
    cases q with
    | none => cases hbq
    | some q =>
      have : some q.config ∈ configs s := by
        unfold configs
        exact List.mem_map.2 ⟨some q, hq, rfl⟩
      have := hd _ (c ▸ this)
      cases this

/-- **Refuted: that FREAK pipelines can be used.**  Whatever the program did before, the first call on a FREAK pipeline that
it made, to process an image, to initialize it again or to destroy it, is undefined: the detector and the extractor are
gone since the end of the constructor. -/
theorem freak_refuted {os : List Op} {o : Op} (ha : allowedAll [] os = true) (hc : clean [] os = true)
    (hao : allowed (afterAll [] os) o = true) (ht : touches (afterAll [] os) o = true) :
    ∃ s, run false State.new os = .ok (s, usesAll [] os) ∧ step false s o = .ub := by
  obtain ⟨s, e, I, c⟩ := run_spec (os := os) (Inv.new false) ha hc
  have hcc : configs s = afterAll [] os := c
  exact ⟨s, e, step_freak I (by rw [hcc]; exact hao) (by rw [hcc]; exact ht)⟩

/-- Making a FREAK pipeline and letting it go, without processing anything, is undefined. -/
example : run false State.new [.make (.freak 4 500 3 true true 22), .destroy 0] = .ub := by rfl

/-- A BRISK pipeline beside a line detector and its copy: the original is destroyed, the copy still works. -/
example : ∃ s, run false State.new [.make (.brisk 1 0 200 400 true false), .make .lines, .copy 1, .destroy 1, .detect 2 true,
      .again 0 (.brisk 2 5 100 300 false false), .detect 0 true, .destroy 0, .destroy 2]
    = .ok (s, [[], [], [], [], [.lsd 1 (4 / 5) (3 / 5) 2 (33 / 2) 0 (13 / 20) 1024], [],
        [.harris 2 5 100 300, .brisk false false], [], []]) := ⟨_, rfl⟩

/-- **Refuted: that the settings of BRISK matter on ARM.**  There the detector is made with a constant. -/
theorem neon_refuted (o o' : Nat) (r r' t t' : Rat) (m m' : Nat) (a a' b b' : Bool) :
    (Config.brisk o r t m a b).detector true = (Config.brisk o' r' t' m' a' b').detector true := rfl

/-- Numbers of octaves that fit `int` are given to SURF and FREAK as they are. -/
theorem octaves_spec {n : Nat} (h : n < 2 ^ 31) : intOf n = n := by
  unfold intOf
  rw [Nat.mod_eq_of_lt (by omega), if_pos h]

/-- **Refuted** for larger numbers of octaves: with `2 ^ 32 + 4` the detector gets 4. -/
theorem octaves_refuted : intOf (2 ^ 32 + 4) = 4 := by decide

/-- An April grid detector without a target is refused in every state. -/
theorem noTarget_spec (neon : Bool) (s : State) : step neon s .noTarget = .abort := rfl

end Verif.VisualPipeline.Owners
