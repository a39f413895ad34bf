import Verif.Statistics.Model
import Verif.Accumulator.Props

/-!
# Properties of the statistics collectors (C44)
-/

namespace Verif.Statistics

open Verif (Outcome)
open Verif.Accumulator (Acc addAll)

/-! ## Specification -/

/-- Who a handle was given to: the handles are numbered in order of the first lookup of a tag since the latest reset.
The number of resets so far, and for every handle the number of resets before it and its tag. -/
def tableStep (p : Nat × List (Nat × String)) : Op → Nat × List (Nat × String)
  | .lookup t => if (p.1, t) ∈ p.2 then p else (p.1, p.2 ++ [(p.1, t)])
  | .add _ _ _ => p
  | .reset => (p.1 + 1, p.2)

/-- The table after a sequence of operations. -/
def table (ops : List Op) : Nat × List (Nat × String) := ops.foldl tableStep (0, [])

/-- The samples added through a handle, with their times. -/
def samplesFor (h : Nat) (ops : List Op) : List (Rat × Int) :=
  ops.filterMap fun o => match o with
    | .add h' x now => if h' = h then some (x, now) else none
    | _ => none

/-- The differences of successive times. -/
def gaps : List Int → List Int
  | a :: b :: r => (b - a) :: gaps (b :: r)
  | _ => []

/-! ## The invariant -/

/-- What holds after `ops`. -/
structure Inv (rnd : Rat → Rat) (sec : Int → Rat) (ops : List Op) (s : Stats) : Prop where
  len : s.collectors.length = (table ops).2.length
  nodup : (table ops).2.Nodup
  epoch : ∀ p ∈ (table ops).2, p.1 ≤ (table ops).1
  tags : ∀ t h, s.tags.lookup t = some h ↔ (table ops).2[h]? = some ((table ops).1, t)
  pairs : ∀ p ∈ s.tags, (table ops).2[p.2]? = some ((table ops).1, p.1)
  values : ∀ h c, s.collectors[h]? = some c →
    addAll rnd window ((samplesFor h ops).map Prod.fst) Acc.new = .ok c.values
  last : ∀ h c, s.collectors[h]? = some c → c.last = ((samplesFor h ops).map Prod.snd).getLastD 0
  deltas : ∀ h c, s.collectors[h]? = some c → (∀ p ∈ samplesFor h ops, p.2 ≠ 0) →
    addAll rnd window ((gaps ((samplesFor h ops).map Prod.snd)).map sec) Acc.new = .ok c.deltas
  unused : ∀ h, (table ops).2.length ≤ h → samplesFor h ops = []

theorem table_append (a b : List Op) : table (a ++ b) = b.foldl tableStep (table a) := by
  unfold table
  rw [List.foldl_append]

theorem table_snoc (a : List Op) (o : Op) : table (a ++ [o]) = tableStep (table a) o := by
  rw [table_append]
  rfl

theorem samplesFor_snoc (h : Nat) (a : List Op) (o : Op) :
    samplesFor h (a ++ [o]) = samplesFor h a ++ (match o with
      | .add h' x now => if h' = h then [(x, now)] else []
      | _ => []) := by
  unfold samplesFor
  rw [List.filterMap_append]
  congr 1
  cases o with
  | lookup t => rfl
  | reset => rfl
  | add h' x now =>
    simp only [List.filterMap_cons, List.filterMap_nil]
    by_cases e : h' = h
    · simp [e]
    · simp [e]

theorem addAll_snoc {rnd : Rat → Rat} {W : Nat} (x : Rat) : ∀ (xs : List Rat) (a : Acc),
    addAll rnd W (xs ++ [x]) a = addAll rnd W xs a >>= Accumulator.add rnd W x
  | [], a => by
    show (Accumulator.add rnd W x a >>= addAll rnd W []) = Accumulator.add rnd W x a
    cases Accumulator.add rnd W x a <;> rfl
  | y :: ys, a => by
    show (Accumulator.add rnd W y a >>= addAll rnd W (ys ++ [x])) =
      (Accumulator.add rnd W y a >>= addAll rnd W ys) >>= Accumulator.add rnd W x
    cases Accumulator.add rnd W y a with
    | ok b => exact addAll_snoc x ys b
    | abort => rfl
    | ub => rfl
    | exc => rfl

theorem gaps_snoc (b : Int) : ∀ (ts : List Int), ts ≠ [] → gaps (ts ++ [b]) = gaps ts ++ [b - ts.getLastD 0]
  | [], h => absurd rfl h
  | [a], _ => rfl
  | a :: c :: r, _ => by
    have ih := gaps_snoc b (c :: r) (by simp)
    have e : (a :: c :: r) ++ [b] = a :: c :: (r ++ [b]) := rfl
    rw [e, gaps, gaps]
    have e2 : c :: (r ++ [b]) = (c :: r) ++ [b] := rfl
    rw [e2, ih]
    rfl

theorem Inv.new (rnd : Rat → Rat) (sec : Int → Rat) : Inv rnd sec [] Stats.new := by
  refine ⟨rfl, by simp [table], by simp [table], ?_, by simp [Stats.new], ?_, ?_, ?_, fun _ _ => rfl⟩
  · intro t h
    simp [Stats.new, table]
  · intro h c hc
    simp [Stats.new] at hc
  · intro h c hc
    simp [Stats.new] at hc
  · intro h c hc
    simp [Stats.new] at hc

theorem Inv.step {rnd : Rat → Rat} {sec : Int → Rat} {ops : List Op} {s s' : Stats} {o : Op} (I : Inv rnd sec ops s)
    (hst : step rnd sec s o = .ok s') : Inv rnd sec (ops ++ [o]) s' := by
  cases o with
  | lookup t =>
    cases hst
    have hs : ∀ h, samplesFor h (ops ++ [.lookup t]) = samplesFor h ops := by
      intro h
      rw [samplesFor_snoc]
      simp
    unfold getHandle
    cases hl : s.tags.lookup t with
    | some k =>
      simp only
      have hk := (I.tags t k).1 hl
      have ht : table (ops ++ [.lookup t]) = table ops := by
        rw [table_snoc]
        simp only [tableStep]
        rw [if_pos (List.mem_of_getElem? hk)]
      refine ⟨?_, ?_, ?_, ?_, ?_, ?_, ?_, ?_, ?_⟩
      · rw [ht]; exact I.len
      · rw [ht]; exact I.nodup
      · rw [ht]; exact I.epoch
      · rw [ht]; exact I.tags
      · rw [ht]; exact I.pairs
      · intro h c hc; rw [hs]; exact I.values h c hc
      · intro h c hc; rw [hs]; exact I.last h c hc
      · intro h c hc; rw [hs]; exact I.deltas h c hc
      · intro h hh; rw [hs]; rw [ht] at hh; exact I.unused h hh
    | none =>
      simp only
      have hnot : ((table ops).1, t) ∉ (table ops).2 := by
        intro hm
        obtain ⟨k, hk⟩ := List.mem_iff_getElem?.1 hm
        rw [(I.tags t k).2 hk] at hl
        cases hl
      have ht : table (ops ++ [.lookup t]) = ((table ops).1, (table ops).2 ++ [((table ops).1, t)]) := by
        rw [table_snoc]
        simp only [tableStep]
        rw [if_neg hnot]
      have hlen := I.len
      have hcol : ∀ h c, (s.collectors ++ [Collector.new])[h]? = some c →
          s.collectors[h]? = some c ∨ (h = s.collectors.length ∧ c = Collector.new) := by
        intro h c hc
        rcases Nat.lt_trichotomy h s.collectors.length with hh | hh | hh
        · rw [List.getElem?_append_left hh] at hc
          exact Or.inl hc
        · subst hh
          rw [List.getElem?_append_right (Nat.le_refl _)] at hc
          simp at hc
          exact Or.inr ⟨rfl, hc.symm⟩
        · rw [List.getElem?_append_right (by omega)] at hc
          have : h - s.collectors.length ≠ 0 := by omega
          obtain ⟨n, hn⟩ := Nat.exists_eq_succ_of_ne_zero this
          rw [hn] at hc
          simp at hc
      refine ⟨?_, ?_, ?_, ?_, ?_, ?_, ?_, ?_, ?_⟩
      · rw [ht]; simp [hlen]
      · rw [ht]
        simp only
        rw [List.nodup_append]
        refine ⟨I.nodup, by simp, ?_⟩
        intro a ha b hb hab
        rw [List.mem_singleton] at hb
        rw [hab, hb] at ha
        exact hnot ha
      · rw [ht]
        intro p hp
        rcases List.mem_append.1 hp with hp | hp
        · exact I.epoch p hp
        · rw [List.mem_singleton] at hp
          rw [hp]
      · rw [ht]
        intro t' h
        simp only [List.lookup_cons]
        by_cases he : t' = t
        · subst he
          rw [beq_self_eq_true]
          simp only [Option.some.injEq]
          constructor
          · rintro rfl
            rw [hlen, List.getElem?_append_right (Nat.le_refl _)]
            simp
          · intro hg
            by_contra hne
            rcases Nat.lt_or_ge h (table ops).2.length with hh | hh
            · rw [List.getElem?_append_left hh] at hg
              exact hnot (List.mem_of_getElem? hg)
            · rw [List.getElem?_append_right hh] at hg
              have : h - (table ops).2.length ≠ 0 := by omega
              obtain ⟨n, hn⟩ := Nat.exists_eq_succ_of_ne_zero this
              rw [hn] at hg
              simp at hg
        · rw [beq_false_of_ne he]
          simp only
          rw [I.tags t' h]
          constructor
          · intro hg
            rw [List.getElem?_append_left (List.getElem?_eq_some_iff.1 hg).1]
            exact hg
          · intro hg
            rcases Nat.lt_or_ge h (table ops).2.length with hh | hh
            · rw [List.getElem?_append_left hh] at hg
              exact hg
            · rw [List.getElem?_append_right hh] at hg
              exfalso
              cases hn : h - (table ops).2.length with
              | zero =>
                rw [hn] at hg
                simp at hg
                exact he hg.symm
              | succ n =>
                rw [hn] at hg
                simp at hg
      · rw [ht]
        intro p hp
        rcases List.mem_cons.1 hp with hp | hp
        · subst hp
          simp only
          rw [hlen, List.getElem?_append_right (Nat.le_refl _)]
          simp
        · have := I.pairs p hp
          simp only
          rw [List.getElem?_append_left (List.getElem?_eq_some_iff.1 this).1]
          exact this
      · intro h c hc
        rw [hs]
        rcases hcol h c hc with hc | ⟨rfl, rfl⟩
        · exact I.values h c hc
        · rw [I.unused _ (by omega)]
          rfl
      · intro h c hc
        rw [hs]
        rcases hcol h c hc with hc | ⟨rfl, rfl⟩
        · exact I.last h c hc
        · rw [I.unused _ (by omega)]
          rfl
      · intro h c hc hne
        rw [hs] at hne ⊢
        rcases hcol h c hc with hc | ⟨rfl, rfl⟩
        · exact I.deltas h c hc hne
        · rw [I.unused _ (by omega)]
          rfl
      · intro h hh
        rw [hs]
        rw [ht] at hh
        simp at hh
        exact I.unused h (by omega)
  | reset =>
    cases hst
    have hs : ∀ h, samplesFor h (ops ++ [.reset]) = samplesFor h ops := by
      intro h
      rw [samplesFor_snoc]
      simp
    have ht : table (ops ++ [.reset]) = ((table ops).1 + 1, (table ops).2) := by
      rw [table_snoc]
      rfl
    refine ⟨?_, ?_, ?_, ?_, ?_, ?_, ?_, ?_, ?_⟩
    · rw [ht]; exact I.len
    · rw [ht]; exact I.nodup
    · rw [ht]
      intro p hp
      have := I.epoch p hp
      simp only
      omega
    · rw [ht]
      intro t h
      simp only [reset, List.lookup_nil]
      constructor
      · intro hh; cases hh
      · intro hh
        have := I.epoch _ (List.mem_of_getElem? hh)
        simp only at this
        omega
    · simp [reset]
    · intro h c hc; rw [hs]; exact I.values h c hc
    · intro h c hc; rw [hs]; exact I.last h c hc
    · intro h c hc; rw [hs]; exact I.deltas h c hc
    · intro h hh; rw [hs]; rw [ht] at hh; exact I.unused h hh
  | add k x now =>
    have ht : table (ops ++ [.add k x now]) = table ops := by
      rw [table_snoc]
      rfl
    unfold Statistics.step addSample at hst
    simp only at hst
    cases hk : s.collectors[k]? with
    | none => rw [hk] at hst; cases hst
    | some c0 =>
      rw [hk] at hst
      obtain ⟨c1, h1, h2⟩ := Outcome.bind_eq_ok.1 hst
      cases h2
      unfold addValue at h1
      obtain ⟨d, hd, h1⟩ := Outcome.bind_eq_ok.1 h1
      obtain ⟨v, hv, h1⟩ := Outcome.bind_eq_ok.1 h1
      cases h1
      have hklt : k < s.collectors.length := (List.getElem?_eq_some_iff.1 hk).1
      have hs1 : samplesFor k (ops ++ [.add k x now]) = samplesFor k ops ++ [(x, now)] := by
        rw [samplesFor_snoc]
        simp
      have hs2 : ∀ h, h ≠ k → samplesFor h (ops ++ [.add k x now]) = samplesFor h ops := by
        intro h hne
        rw [samplesFor_snoc]
        simp [Ne.symm hne]
      have hcol : ∀ h c, (s.collectors.set k ⟨v, d, now⟩)[h]? = some c →
          (h = k ∧ c = ⟨v, d, now⟩) ∨ (h ≠ k ∧ s.collectors[h]? = some c) := by
        intro h c hc
        by_cases he : h = k
        · subst he
          rw [List.getElem?_set_self hklt] at hc
          cases hc
          exact Or.inl ⟨rfl, rfl⟩
        · rw [List.getElem?_set_ne (Ne.symm he)] at hc
          exact Or.inr ⟨he, hc⟩
      refine ⟨?_, ?_, ?_, ?_, ?_, ?_, ?_, ?_, ?_⟩
      · rw [ht]
        simp only [List.length_set]
        exact I.len
      · rw [ht]; exact I.nodup
      · rw [ht]; exact I.epoch
      · rw [ht]; exact I.tags
      · rw [ht]; exact I.pairs
      · intro h c hc
        rcases hcol h c hc with ⟨rfl, rfl⟩ | ⟨hne, hc⟩
        · rw [hs1, List.map_append, List.map_singleton, addAll_snoc, I.values _ _ hk, Outcome.bind_ok, hv]
        · rw [hs2 h hne]
          exact I.values h c hc
      · intro h c hc
        rcases hcol h c hc with ⟨rfl, rfl⟩ | ⟨hne, hc⟩
        · rw [hs1, List.map_append, List.map_singleton]
          simp
        · rw [hs2 h hne]
          exact I.last h c hc
      · intro h c hc hnz
        rcases hcol h c hc with ⟨rfl, rfl⟩ | ⟨hne, hc⟩
        · rw [hs1] at hnz ⊢
          have hnz' : ∀ p ∈ samplesFor h ops, p.2 ≠ 0 := fun p hp => hnz p (List.mem_append_left _ hp)
          have hdel := I.deltas _ _ hk hnz'
          have hlast := I.last _ _ hk
          rw [List.map_append, List.map_singleton]
          unfold addDelta at hd
          by_cases hemp : samplesFor h ops = []
          · rw [hemp] at hdel hlast ⊢
            rw [hlast, if_neg (by simp)] at hd
            cases hd
            exact hdel
          · have hne2 : (samplesFor h ops).map Prod.snd ≠ [] := by simpa using hemp
            have hl0 : c0.last ≠ 0 := by
              rw [hlast, List.getLastD_eq_getLast?, List.getLast?_map]
              obtain ⟨q, hq⟩ : ∃ q, (samplesFor h ops).getLast? = some q := by
                rw [List.getLast?_eq_some_getLast hemp]
                exact ⟨_, rfl⟩
              rw [hq]
              exact hnz' q (List.mem_of_getLast? hq)
            rw [if_pos hl0] at hd
            rw [gaps_snoc _ _ hne2, List.map_append, List.map_singleton, addAll_snoc, hdel, Outcome.bind_ok,
              ← hlast, hd]
        · rw [hs2 h hne] at hnz ⊢
          exact I.deltas h c hc hnz
      · intro h hh
        rw [ht] at hh
        have hne : h ≠ k := by
          have := I.len
          omega
        rw [hs2 h hne]
        exact I.unused h hh

theorem run_inv {rnd : Rat → Rat} {sec : Int → Rat} : ∀ (ops pre : List Op) (s s' : Stats), Inv rnd sec pre s →
    run rnd sec ops s = .ok s' → Inv rnd sec (pre ++ ops) s'
  | [], pre, s, s', I, h => by
    cases h
    simpa using I
  | o :: ops, pre, s, s', I, h => by
    unfold run at h
    obtain ⟨s1, h1, h2⟩ := Outcome.bind_eq_ok.1 h
    have := run_inv ops (pre ++ [o]) s1 s' (I.step h1) h2
    simpa using this

theorem reach {rnd : Rat → Rat} {sec : Int → Rat} {ops : List Op} {s : Stats} (h : run rnd sec ops Stats.new = .ok s) :
    Inv rnd sec ops s := by
  have := run_inv ops [] _ _ (Inv.new rnd sec) h
  simpa using this

theorem handle_of {rnd : Rat → Rat} {sec : Int → Rat} {ops : List Op} {s : Stats} (I : Inv rnd sec ops s) (t : String) :
    (table (ops ++ [.lookup t])).2[(getHandle t s).1]? = some ((table (ops ++ [.lookup t])).1, t) := by
  have J := I.step (o := .lookup t) rfl
  have hl : (getHandle t s).2.tags.lookup t = some (getHandle t s).1 := by
    unfold getHandle
    cases h : s.tags.lookup t with
    | some k => exact h
    | none => simp
  exact (J.tags t _).1 hl

theorem table_mono (mid : List Op) : ∀ p : Nat × List (Nat × String),
    p.2 <+: (mid.foldl tableStep p).2 ∧ p.1 ≤ (mid.foldl tableStep p).1 ∧
      ((mid.foldl tableStep p).1 = p.1 ↔ Op.reset ∉ mid) := by
  induction mid with
  | nil => intro p; simp
  | cons o mid ih =>
    intro p
    have h := ih (tableStep p o)
    rw [List.foldl_cons]
    cases o with
    | lookup t =>
      have e1 : (tableStep p (.lookup t)).1 = p.1 := by
        simp only [tableStep]
        split <;> rfl
      have e2 : p.2 <+: (tableStep p (.lookup t)).2 := by
        simp only [tableStep]
        split
        · exact List.prefix_refl _
        · exact List.prefix_append _ _
      rw [e1] at h
      refine ⟨e2.trans h.1, h.2.1, ?_⟩
      rw [h.2.2]
      simp
    | add k x now =>
      refine ⟨h.1, h.2.1, ?_⟩
      rw [show (tableStep p (.add k x now)) = p from rfl] at h ⊢
      rw [h.2.2]
      simp
    | reset =>
      have e1 : (tableStep p .reset).1 = p.1 + 1 := rfl
      refine ⟨h.1, ?_, ?_⟩
      · have := h.2.1
        omega
      · have := h.2.1
        constructor
        · intro he
          omega
        · intro hn
          simp at hn

/-! ## C44 -/

/-- Two lookups give the same handle iff they are of the same tag with no reset in between. -/
theorem handles_alias_iff {rnd : Rat → Rat} {sec : Int → Rat} {pre mid : List Op} {s1 s2 : Stats} {t1 t2 : String}
    (h1 : run rnd sec pre Stats.new = .ok s1) (h2 : run rnd sec mid (getHandle t1 s1).2 = .ok s2) :
    (getHandle t1 s1).1 = (getHandle t2 s2).1 ↔ t1 = t2 ∧ Op.reset ∉ mid := by
  have I1 := reach h1
  have J1 := I1.step (o := .lookup t1) rfl
  have I2 := run_inv mid _ _ _ J1 h2
  have J2 := I2.step (o := .lookup t2) rfl
  have a1 := handle_of I1 t1
  have a2 := handle_of I2 t2
  have m := table_mono (mid ++ [.lookup t2]) (table (pre ++ [.lookup t1]))
  rw [← table_append, ← List.append_assoc] at m
  have a3 : (table (pre ++ [.lookup t1] ++ mid ++ [.lookup t2])).2[(getHandle t1 s1).1]? =
      some ((table (pre ++ [.lookup t1])).1, t1) := by
    obtain ⟨r, hr⟩ := m.1
    rw [← hr, List.getElem?_append_left (List.getElem?_eq_some_iff.1 a1).1]
    exact a1
  have hm : Op.reset ∉ mid ++ [.lookup t2] ↔ Op.reset ∉ mid := by simp
  constructor
  · intro he
    rw [he, a2, Option.some.injEq, Prod.mk.injEq] at a3
    exact ⟨a3.2.symm, hm.1 (m.2.2.1 a3.1)⟩
  · rintro ⟨rfl, hn⟩
    have he := m.2.2.2 (hm.2 hn)
    rw [← he] at a3
    exact (List.getElem?_inj (List.getElem?_eq_some_iff.1 a3).1 J2.nodup).1 (a3.trans a2.symm)

theorem hasHandle_getHandle (t u : String) (s : Stats) :
    hasHandle t (getHandle u s).2 = true ↔ t = u ∨ hasHandle t s = true := by
  unfold hasHandle getHandle
  cases h : s.tags.lookup u with
  | some k =>
    constructor
    · exact Or.inr
    · rintro (rfl | e)
      · simp [h]
      · exact e
  | none =>
    by_cases e : t = u
    · simp [e]
    · have : (t == u) = false := by simpa using e
      simp [List.lookup_cons, this, e]

theorem hasHandle_run {rnd : Rat → Rat} {sec : Int → Rat} (t : String) : ∀ (ops : List Op) (s s' : Stats),
    run rnd sec ops s = .ok s' → (hasHandle t s' = true ↔
      (hasHandle t s = true ∧ Op.reset ∉ ops) ∨ ∃ a b, ops = a ++ .lookup t :: b ∧ Op.reset ∉ b)
  | [], s, s', h => by
    cases h
    simp
  | o :: ops, s, s', h => by
    unfold run at h
    obtain ⟨s1, h1, h2⟩ := Outcome.bind_eq_ok.1 h
    rw [hasHandle_run t ops s1 s' h2]
    have cons : (∃ a b, o :: ops = a ++ .lookup t :: b ∧ Op.reset ∉ b) ↔
        (o = .lookup t ∧ Op.reset ∉ ops) ∨ ∃ a b, ops = a ++ .lookup t :: b ∧ Op.reset ∉ b := by
      constructor
      · rintro ⟨a, b, e, hb⟩
        cases a with
        | nil =>
          simp only [List.nil_append, List.cons.injEq] at e
          exact Or.inl ⟨e.1, e.2 ▸ hb⟩
        | cons x a =>
          simp only [List.cons_append, List.cons.injEq] at e
          exact Or.inr ⟨a, b, e.2, hb⟩
      · rintro (⟨e, hb⟩ | ⟨a, b, e, hb⟩)
        · exact ⟨[], ops, by rw [e]; rfl, hb⟩
        · exact ⟨o :: a, b, by rw [e]; rfl, hb⟩
    rw [cons]
    cases o with
    | lookup u =>
      cases h1
      rw [hasHandle_getHandle]
      have e1 : Op.reset ∉ (Op.lookup u :: ops) ↔ Op.reset ∉ ops := by simp
      have e2 : (Op.lookup u = Op.lookup t) ↔ t = u := by
        rw [Op.lookup.injEq]
        exact eq_comm
      rw [e1, e2]
      clear cons e1 e2 h h2
      generalize (∃ a b, ops = a ++ Op.lookup t :: b ∧ Op.reset ∉ b) = Q
      generalize (Op.reset ∉ ops) = R
      generalize (hasHandle t s = true) = H
      generalize (t = u) = E
      constructor
      · rintro (⟨a | a, b⟩ | q)
        · exact Or.inr (Or.inl ⟨a, b⟩)
        · exact Or.inl ⟨a, b⟩
        · exact Or.inr (Or.inr q)
      · rintro (⟨a, b⟩ | ⟨a, b⟩ | q)
        · exact Or.inl ⟨Or.inr a, b⟩
        · exact Or.inl ⟨Or.inl a, b⟩
        · exact Or.inr q
    | add k x now =>
      have e0 : hasHandle t s1 = hasHandle t s := by
        change addSample rnd sec k x now s = _ at h1
        unfold addSample at h1
        cases hc : s.collectors[k]? with
        | none => rw [hc] at h1; cases h1
        | some c =>
          rw [hc] at h1
          obtain ⟨c', -, h3⟩ := Outcome.bind_eq_ok.1 h1
          cases h3
          rfl
      have e1 : Op.reset ∉ (Op.add k x now :: ops) ↔ Op.reset ∉ ops := by simp
      have e2 : ¬ (Op.add k x now = Op.lookup t) := by simp
      rw [e0, e1]
      simp only [e2, false_and, false_or]
    | reset =>
      cases h1
      have e0 : hasHandle t (reset s) = false := rfl
      have e1 : ¬ Op.reset ∉ (Op.reset :: ops) := by simp
      have e2 : ¬ (Op.reset = Op.lookup t) := by simp
      rw [e0]
      simp only [Bool.false_eq_true, false_and, false_or, e1, e2, and_false]

/-- `HasHandle` says whether the tag was looked up since the last reset. -/
theorem hasHandle_iff {rnd : Rat → Rat} {sec : Int → Rat} {ops : List Op} {s : Stats} (t : String)
    (h : run rnd sec ops Stats.new = .ok s) :
    hasHandle t s = true ↔ ∃ a b, ops = a ++ .lookup t :: b ∧ Op.reset ∉ b := by
  rw [hasHandle_run t ops _ s h]
  have : hasHandle t Stats.new = false := rfl
  rw [this]
  simp

/-- "a" was looked up after the reset, "b" before it. -/
example : ∃ s, run id (fun _ => 0) [.lookup "b", .reset, .lookup "a"] Stats.new = .ok s ∧ hasHandle "a" s = true ∧
    hasHandle "b" s = false := ⟨_, rfl, by decide, by decide⟩

/-- The figures of a handle are those of exactly the samples added through it, in order, through all resets. -/
theorem samples_attributed {rnd : Rat → Rat} {sec : Int → Rat} {ops : List Op} {s : Stats} {h : Nat} {c : Collector}
    (hr : run rnd sec ops Stats.new = .ok s) (hc : s.collectors[h]? = some c) :
    addAll rnd 100 ((samplesFor h ops).map Prod.fst) Acc.new = .ok c.values := (reach hr).values h c hc

/-- The delta times of a handle are the times between successive samples (no clock reading being the epoch itself). -/
theorem deltas_attributed {rnd : Rat → Rat} {sec : Int → Rat} {ops : List Op} {s : Stats} {h : Nat} {c : Collector}
    (hr : run rnd sec ops Stats.new = .ok s) (hc : s.collectors[h]? = some c)
    (hn : ∀ p ∈ samplesFor h ops, p.2 ≠ 0) :
    addAll rnd 100 ((gaps ((samplesFor h ops).map Prod.snd)).map sec) Acc.new = .ok c.deltas :=
  (reach hr).deltas h c hc hn

/-- An operation other than adding a sample through a handle leaves the figures of the handle as they are. -/
theorem other_unchanged {rnd : Rat → Rat} {sec : Int → Rat} {s s' : Stats} {o : Op} {h : Nat} {c : Collector}
    (hs : step rnd sec s o = .ok s') (ho : ∀ x now, o ≠ .add h x now) (hc : s.collectors[h]? = some c) :
    s'.collectors[h]? = some c := by
  cases o with
  | lookup t =>
    cases hs
    unfold getHandle
    cases s.tags.lookup t with
    | some k => exact hc
    | none =>
      simp only
      rw [List.getElem?_append_left (List.getElem?_eq_some_iff.1 hc).1]
      exact hc
  | reset =>
    cases hs
    exact hc
  | add k x now =>
    have hne : h ≠ k := by
      rintro rfl
      exact ho x now rfl
    unfold step addSample at hs
    simp only at hs
    cases hk : s.collectors[k]? with
    | none => rw [hk] at hs; cases hs
    | some c0 =>
      rw [hk] at hs
      obtain ⟨c1, _, h2⟩ := Outcome.bind_eq_ok.1 hs
      cases h2
      simp only
      rw [List.getElem?_set_ne (Ne.symm hne)]
      exact hc

/-- A query of a tag reports the samples added through the handle of the tag, and the handle of a tag that was looked
up stays its handle until the next reset (`handles_alias_iff`). -/
theorem query_by_tag {rnd : Rat → Rat} {sec : Int → Rat} {ops : List Op} {s : Stats} (t : String)
    (hr : run rnd sec ops Stats.new = .ok s) :
    ∃ c s', (∀ (α : Type) (f : Collector → α), queryTag f t s = .ok (f c, s')) ∧
      s'.collectors[(getHandle t s).1]? = some c ∧
      addAll rnd 100 ((samplesFor (getHandle t s).1 ops).map Prod.fst) Acc.new = .ok c.values := by
  have I := reach hr
  have J := I.step (o := .lookup t) rfl
  have a := handle_of I t
  have hlt : (getHandle t s).1 < (getHandle t s).2.collectors.length := by
    rw [J.len]
    exact (List.getElem?_eq_some_iff.1 a).1
  refine ⟨(getHandle t s).2.collectors[(getHandle t s).1], (getHandle t s).2, ?_, List.getElem?_eq_getElem hlt, ?_⟩
  · intro α f
    unfold queryTag query
    rw [List.getElem?_eq_getElem hlt]
    rfl
  · have := J.values _ _ (List.getElem?_eq_getElem hlt)
    rw [samplesFor_snoc] at this
    simpa [window] using this

/-- `GetTag` gives the tag of a handle that was looked up since the latest reset. -/
theorem tag_of_handle {rnd : Rat → Rat} {sec : Int → Rat} {pre mid : List Op} {s1 s2 : Stats} {t : String}
    (h1 : run rnd sec pre Stats.new = .ok s1) (h2 : run rnd sec mid (getHandle t s1).2 = .ok s2)
    (hn : Op.reset ∉ mid) : getTag (getHandle t s1).1 s2 = t := by
  have I1 := reach h1
  have J1 := I1.step (o := .lookup t) rfl
  have I2 := run_inv mid _ _ _ J1 h2
  have a1 := handle_of I1 t
  have m := table_mono mid (table (pre ++ [.lookup t]))
  rw [← table_append] at m
  have a3 : (table (pre ++ [.lookup t] ++ mid)).2[(getHandle t s1).1]? =
      some ((table (pre ++ [.lookup t] ++ mid)).1, t) := by
    obtain ⟨r, hr⟩ := m.1
    rw [← hr, List.getElem?_append_left (List.getElem?_eq_some_iff.1 a1).1, a1, m.2.2.2 hn]
  have a4 := (I2.tags t _).2 a3
  unfold getTag
  cases hf : s2.tags.find? (fun p => p.2 == (getHandle t s1).1) with
  | none =>
    rw [List.find?_eq_none] at hf
    exfalso
    have : ∃ p ∈ s2.tags, p.2 = (getHandle t s1).1 := by
      generalize (getHandle t s1).1 = k at a4
      clear hf I2 J1 h2 m a3 a1
      generalize s2.tags = l at a4
      induction l with
      | nil => simp at a4
      | cons q l ih =>
        rw [List.lookup_cons] at a4
        split at a4
        · exact ⟨q, by simp, by simpa using a4⟩
        · obtain ⟨p, hp, he⟩ := ih a4
          exact ⟨p, by simp [hp], he⟩
    obtain ⟨p, hp, he⟩ := this
    exact hf p hp (by simp [he])
  | some p =>
    simp only
    have hp := List.mem_of_find?_eq_some hf
    have he : p.2 = (getHandle t s1).1 := by
      have := List.find?_some hf
      simpa using this
    have := I2.pairs p hp
    rw [he, a3] at this
    cases this
    rfl

/-- Two tags, interleaved samples. -/
example : (run id (fun n => n) [.lookup "a", .lookup "b", .add 0 5 10, .add 1 7 20, .add 0 3 30, .lookup "a"]
    Stats.new >>= fun s => .ok ((getHandle "a" s).1, (getHandle "b" s).1, getTag 1 s)) = .ok (0, 1, "b") := by
  decide +kernel

example : (run id (fun n => n) [.lookup "a", .lookup "b", .add 0 5 10, .add 1 7 20, .add 0 3 30, .lookup "a"]
    Stats.new >>= fun s => query (fun c => (c.values.total, c.values.sum, c.deltas.sum)) 0 s) = .ok (2, 8, 20) := by
  decide +kernel

/-- After a reset the samples added through a handle obtained before are no longer reported for its tag: the handle of
a collector or timer that outlives a reset does not keep denoting its tag. -/
theorem reset_detaches_refuted :
    (run id (fun n => n) [.lookup "a", .add 0 5 10, .reset, .add 0 3 30] Stats.new >>= fun s =>
      queryTag (fun c => c.values.total) "a" s >>= fun r => .ok (r.1, getTag 0 s)) = .ok (0, "") := by
  decide +kernel

end Verif.Statistics
