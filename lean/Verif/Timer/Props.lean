import Verif.Timer.Model
import Verif.Statistics.Props

/-!
# Properties of the timers (C45)
-/

namespace Verif.Timer

open Verif (Outcome)
open Verif.Statistics (Stats getHandle addSample window samplesFor)
open Verif.Accumulator (Acc addAll)

/-! ## Specification -/

/-- What happens to one timer: it is started (also by its construction), stopped (also by its destruction), or its
measurement is discarded. -/
inductive Event where
  | start (s : Int)
  | stop (e : Int)
  | discard
  deriving DecidableEq, Repr

/-- The events of timer `i`, `n` timers having been created so far. -/
def events (i : Nat) : Nat → List Op → List Event
  | _, [] => []
  | n, .create _ stopped now :: r => (if n = i ∧ stopped = false then [.start now] else []) ++ events i (n + 1) r
  | n, .start j now :: r => (if j = i ∧ i < n then [.start now] else []) ++ events i n r
  | n, .stop j now :: r => (if j = i ∧ i < n then [.stop now] else []) ++ events i n r
  | n, .discard j :: r => (if j = i ∧ i < n then [.discard] else []) ++ events i n r
  | n, .destroy j now :: r => (if j = i ∧ i < n then [.stop now] else []) ++ events i n r
  | n, .copy _ :: r => events i (n + 1) r
  | n, .reset :: r => events i n r

/-- The intervals measured by a timer with these events: from a start to the next event, if that is a stop.  `c` is the
time of the start if the event before was one. -/
def intervals : Option Int → List Event → List (Int × Int)
  | _, [] => []
  | _, .start s :: r => intervals (some s) r
  | some s, .stop e :: r => (s, e) :: intervals none r
  | none, .stop _ :: r => intervals none r
  | _, .discard :: r => intervals none r

/-- The bookkeeping of all timers at once: since when each is running, and the intervals measured (with the timer). -/
def recordStep (p : List (Option Int) × List (Nat × Int × Int)) : Op → List (Option Int) × List (Nat × Int × Int)
  | .create _ stopped now => (p.1 ++ [if stopped then none else some now], p.2)
  | .start i now => (p.1.set i (some now), p.2)
  | .stop i now =>
    (p.1.set i none, p.2 ++ (match p.1[i]? with | some (some s) => [(i, s, now)] | _ => []))
  | .discard i => (p.1.set i none, p.2)
  | .destroy i now =>
    (p.1.set i none, p.2 ++ (match p.1[i]? with | some (some s) => [(i, s, now)] | _ => []))
  | .copy i => (p.1 ++ [(p.1[i]?).join], p.2)
  | .reset => p

/-- All intervals measured, in the order in which they end. -/
def records (ops : List Op) : List (Nat × Int × Int) := (ops.foldl recordStep ([], [])).2

/-- The handle of a timer. -/
def handleOf (w : World) (i : Nat) : Nat := ((w.timers[i]?).map Timer.handle).getD 0

/-! ## The bookkeeping is that of each timer -/

theorem getElem?_append_last {α : Type} (l : List α) (a : α) (i : Nat) :
    (l ++ [a])[i]? = if i = l.length then some a else l[i]? := by
  by_cases h : i = l.length
  · rw [if_pos h, h]
    simp
  · rw [if_neg h]
    rcases Nat.lt_or_gt_of_ne h with hh | hh
    · rw [List.getElem?_append_left hh]
    · rw [List.getElem?_eq_none (by simp; omega), List.getElem?_eq_none (by omega)]

theorem fold_filter (i : Nat) : ∀ (ops : List Op) (cl : List (Option Int)) (acc : List (Nat × Int × Int)),
    (∀ j, Op.copy j ∉ ops) →
    (((ops.foldl recordStep (cl, acc)).2.filter (fun r => r.1 = i)).map Prod.snd) =
      ((acc.filter (fun r => r.1 = i)).map Prod.snd) ++ intervals (cl[i]?).join (events i cl.length ops)
  | [], cl, acc, _ => by simp [events, intervals]
  | o :: ops, cl, acc, hn => by
    have hn' : ∀ j, Op.copy j ∉ ops := fun j hj => hn j (List.mem_cons_of_mem _ hj)
    rw [List.foldl_cons]
    have key : ∀ (j : Nat) (now : Int), (((ops.foldl recordStep (cl.set j none, acc ++ (match cl[j]? with
          | some (some s) => [(j, s, now)] | _ => []))).2.filter (fun r => r.1 = i)).map Prod.snd) =
        ((acc.filter (fun r => r.1 = i)).map Prod.snd) ++ intervals (cl[i]?).join
          ((if j = i ∧ i < cl.length then [.stop now] else []) ++ events i cl.length ops) := by
      intro j now
      rw [fold_filter i ops _ _ hn', List.length_set, List.filter_append, List.map_append, List.append_assoc]
      congr 1
      by_cases hj : j = i
      · subst hj
        rcases Nat.lt_or_ge j cl.length with hlt | hge
        · rw [if_pos ⟨rfl, hlt⟩, List.getElem?_set_self hlt, List.getElem?_eq_getElem hlt]
          cases hc : cl[j] with
          | none => simp [intervals]
          | some s => simp [intervals]
        · rw [if_neg (by omega), List.getElem?_eq_none hge, List.getElem?_eq_none (by simpa using hge)]
          simp
      · rw [if_neg (by omega), List.getElem?_set_ne hj]
        have : ((match cl[j]? with | some (some s) => [(j, s, now)] | _ => []).filter
            (fun r : Nat × Int × Int => r.1 = i)) = [] := by
          split
          · simp [hj]
          · rfl
        rw [this]
        simp
    cases o with
    | create tag stopped now =>
      simp only [recordStep, events]
      rw [fold_filter i ops _ _ hn', List.length_append, List.length_singleton]
      congr 1
      rw [getElem?_append_last]
      by_cases hi : i = cl.length
      · rw [if_pos hi, hi, List.getElem?_eq_none (Nat.le_refl _)]
        cases stopped
        · simp [intervals]
        · simp
      · rw [if_neg hi, if_neg (by omega)]
        rfl
    | start j now =>
      simp only [recordStep, events]
      rw [fold_filter i ops _ _ hn', List.length_set]
      congr 1
      by_cases hj : j = i
      · subst hj
        rcases Nat.lt_or_ge j cl.length with hlt | hge
        · rw [if_pos ⟨rfl, hlt⟩, List.getElem?_set_self hlt]
          simp [intervals]
        · rw [if_neg (by omega), List.getElem?_eq_none (by simp; omega), List.getElem?_eq_none hge]
          simp
      · rw [if_neg (by omega), List.getElem?_set_ne hj]
        rfl
    | stop j now =>
      simp only [recordStep, events]
      exact key j now
    | discard j =>
      simp only [recordStep, events]
      rw [fold_filter i ops _ _ hn', List.length_set]
      congr 1
      by_cases hj : j = i
      · subst hj
        rcases Nat.lt_or_ge j cl.length with hlt | hge
        · rw [if_pos ⟨rfl, hlt⟩, List.getElem?_set_self hlt]
          simp only [Option.join_some, List.singleton_append]
          cases (cl[j]?).join <;> simp [intervals]
        · rw [if_neg (by omega), List.getElem?_eq_none (by simp; omega), List.getElem?_eq_none hge]
          simp
      · rw [if_neg (by omega), List.getElem?_set_ne hj]
        rfl
    | destroy j now =>
      simp only [recordStep, events]
      exact key j now
    | copy j => exact absurd List.mem_cons_self (hn j)
    | reset =>
      simp only [recordStep, events]
      exact fold_filter i ops _ _ hn'

/-! ## The invariant -/

/-- What holds after `ops`. -/
structure Inv (rnd : Rat → Rat) (sec : Int → Rat) (ops : List Op) (w : World) : Prop where
  len : (ops.foldl recordStep ([], [])).1.length = w.timers.length
  clock : ∀ (i : Nat) (t : Timer), w.timers[i]? = some t →
    (ops.foldl recordStep ([], [])).1[i]? = some (if t.isTiming then some t.time else none)
  range : ∀ r ∈ records ops, r.1 < w.timers.length
  trace : ∃ tr : List Statistics.Op, Statistics.run rnd sec tr Stats.new = .ok w.stats ∧
    ∀ h, samplesFor h tr = ((records ops).filter (fun r => handleOf w r.1 = h)).map
      fun r => (sec (r.2.2 - r.2.1), r.2.2)

theorem stats_run_snoc {rnd : Rat → Rat} {sec : Int → Rat} (o : Statistics.Op) :
    ∀ (tr : List Statistics.Op) (s s' s'' : Stats), Statistics.run rnd sec tr s = .ok s' →
      Statistics.step rnd sec s' o = .ok s'' → Statistics.run rnd sec (tr ++ [o]) s = .ok s''
  | [], s, s', s'', h, h2 => by
    cases h
    show (Statistics.step rnd sec s o >>= Statistics.run rnd sec []) = _
    rw [h2]
    rfl
  | a :: tr, s, s', s'', h, h2 => by
    unfold Statistics.run at h
    obtain ⟨s1, e1, e2⟩ := Outcome.bind_eq_ok.1 h
    show (Statistics.step rnd sec s a >>= Statistics.run rnd sec (tr ++ [o])) = _
    rw [e1, Outcome.bind_ok]
    exact stats_run_snoc o tr s1 s' s'' e2 h2

theorem get_ok {i : Nat} {w : World} {t : Timer} (h : get i w = .ok t) : w.timers[i]? = some t ∧ t.alive = true := by
  unfold get at h
  cases e : w.timers[i]? with
  | none => rw [e] at h; cases h
  | some t' =>
    rw [e] at h
    simp only at h
    by_cases ha : t'.alive = true
    · rw [if_pos ha] at h
      cases h
      exact ⟨rfl, ha⟩
    · rw [if_neg ha] at h
      cases h

theorem handleOf_set {w : World} {i : Nat} {t t' : Timer} {s : Stats} (hi : w.timers[i]? = some t)
    (hh : t'.handle = t.handle) (j : Nat) : handleOf ⟨s, w.timers.set i t'⟩ j = handleOf w j := by
  unfold handleOf
  simp only
  by_cases hj : i = j
  · subst hj
    rw [List.getElem?_set_self (List.getElem?_eq_some_iff.1 hi).1, hi]
    simp [hh]
  · rw [List.getElem?_set_ne hj]

theorem handleOf_append {w : World} {t : Timer} {s : Stats} {j : Nat} (hj : j < w.timers.length) :
    handleOf ⟨s, w.timers ++ [t]⟩ j = handleOf w j := by
  unfold handleOf
  simp only
  rw [List.getElem?_append_left hj]

theorem records_snoc (ops : List Op) (o : Op) :
    (ops ++ [o]).foldl recordStep ([], []) = recordStep (ops.foldl recordStep ([], [])) o := by
  rw [List.foldl_append]
  rfl

theorem Inv.new (rnd : Rat → Rat) (sec : Int → Rat) : Inv rnd sec [] World.new := by
  refine ⟨rfl, ?_, by simp [records], [], rfl, by simp [records, samplesFor]⟩
  intro i t h
  simp [World.new] at h

/-- A step that replaces timer `i` by one with the same handle and records nothing. -/
theorem Inv.set {rnd : Rat → Rat} {sec : Int → Rat} {ops : List Op} {w : World} {o : Op} {i : Nat} {t t' : Timer}
    (I : Inv rnd sec ops w) (hi : w.timers[i]? = some t) (hh : t'.handle = t.handle)
    (ho : recordStep (ops.foldl recordStep ([], [])) o =
      ((ops.foldl recordStep ([], [])).1.set i (if t'.isTiming then some t'.time else none),
        (ops.foldl recordStep ([], [])).2)) :
    Inv rnd sec (ops ++ [o]) ⟨w.stats, w.timers.set i t'⟩ := by
  have hlt := (List.getElem?_eq_some_iff.1 hi).1
  have hrec : records (ops ++ [o]) = records ops := by
    unfold records
    rw [records_snoc, ho]
  refine ⟨?_, ?_, ?_, ?_⟩
  · rw [records_snoc, ho]
    simp [I.len]
  · intro j u hu
    rw [records_snoc, ho]
    simp only at hu ⊢
    by_cases hj : i = j
    · subst hj
      rw [List.getElem?_set_self hlt] at hu
      cases hu
      rw [List.getElem?_set_self (by rw [I.len]; exact hlt)]
    · rw [List.getElem?_set_ne hj] at hu ⊢
      exact I.clock j u hu
  · rw [hrec]
    simpa using I.range
  · obtain ⟨tr, h1, h2⟩ := I.trace
    refine ⟨tr, h1, ?_⟩
    intro h
    rw [h2, hrec]
    simp only [handleOf_set hi hh]

/-- A step that stops a running timer. -/
theorem Inv.record {rnd : Rat → Rat} {sec : Int → Rat} {ops : List Op} {w : World} {o : Op} {i : Nat} {t t' : Timer}
    {now : Int} {s' : Stats}
    (I : Inv rnd sec ops w) (hi : w.timers[i]? = some t) (hh : t'.handle = t.handle) (ht : t.isTiming = true)
    (ht' : t'.isTiming = false) (hs : addSample rnd sec t.handle (sec (now - t.time)) now w.stats = .ok s')
    (ho : recordStep (ops.foldl recordStep ([], [])) o =
      ((ops.foldl recordStep ([], [])).1.set i none,
        (ops.foldl recordStep ([], [])).2 ++ (match (ops.foldl recordStep ([], [])).1[i]? with
          | some (some s) => [(i, s, now)] | _ => []))) :
    Inv rnd sec (ops ++ [o]) ⟨s', w.timers.set i t'⟩ := by
  have hlt := (List.getElem?_eq_some_iff.1 hi).1
  have hc := I.clock i t hi
  rw [ht, if_pos rfl] at hc
  rw [hc] at ho
  simp only at ho
  have hrec : records (ops ++ [o]) = records ops ++ [(i, t.time, now)] := by
    unfold records
    rw [records_snoc, ho]
  refine ⟨?_, ?_, ?_, ?_⟩
  · rw [records_snoc, ho]
    simp [I.len]
  · intro j u hu
    rw [records_snoc, ho]
    simp only at hu ⊢
    by_cases hj : i = j
    · subst hj
      rw [List.getElem?_set_self hlt] at hu
      cases hu
      rw [List.getElem?_set_self (by rw [I.len]; exact hlt), ht']
      simp
    · rw [List.getElem?_set_ne hj] at hu ⊢
      exact I.clock j u hu
  · rw [hrec]
    intro r hr
    simp only [List.length_set]
    rcases List.mem_append.1 hr with hr | hr
    · exact I.range r hr
    · rw [List.mem_singleton] at hr
      rw [hr]
      exact hlt
  · obtain ⟨tr, h1, h2⟩ := I.trace
    refine ⟨tr ++ [.add t.handle (sec (now - t.time)) now], stats_run_snoc (.add t.handle (sec (now - t.time)) now) _ _ _ _ h1 hs, ?_⟩
    intro h
    rw [Statistics.samplesFor_snoc, h2, hrec, List.filter_append, List.map_append]
    simp only [handleOf_set hi hh]
    congr 1
    have : handleOf w i = t.handle := by
      unfold handleOf
      rw [hi]
      rfl
    by_cases he : t.handle = h
    · rw [if_pos he]
      simp [this, he]
    · rw [if_neg he]
      simp [this, he]

/-- A step that adds a timer. -/
theorem Inv.push {rnd : Rat → Rat} {sec : Int → Rat} {ops : List Op} {w : World} {o : Op} {t : Timer} {s' : Stats}
    (I : Inv rnd sec ops w)
    (hs : ∃ o' : Statistics.Op, (∀ h x now, o' ≠ .add h x now) ∧ Statistics.step rnd sec w.stats o' = .ok s' ∨ s' = w.stats)
    (ho : recordStep (ops.foldl recordStep ([], [])) o =
      ((ops.foldl recordStep ([], [])).1 ++ [if t.isTiming then some t.time else none],
        (ops.foldl recordStep ([], [])).2)) :
    Inv rnd sec (ops ++ [o]) ⟨s', w.timers ++ [t]⟩ := by
  have hrec : records (ops ++ [o]) = records ops := by
    unfold records
    rw [records_snoc, ho]
  refine ⟨?_, ?_, ?_, ?_⟩
  · rw [records_snoc, ho]
    simp [I.len]
  · intro j u hu
    rw [records_snoc, ho]
    simp only at hu ⊢
    rw [getElem?_append_last] at hu ⊢
    rw [I.len]
    by_cases hj : j = w.timers.length
    · rw [if_pos hj] at hu ⊢
      cases hu
      rfl
    · rw [if_neg hj] at hu ⊢
      exact I.clock j u hu
  · rw [hrec]
    intro r hr
    have := I.range r hr
    simp only [List.length_append, List.length_singleton]
    omega
  · obtain ⟨tr, h1, h2⟩ := I.trace
    have hfil : ∀ h, (records (ops ++ [o])).filter (fun r => handleOf ⟨s', w.timers ++ [t]⟩ r.1 = h) =
        (records ops).filter (fun r => handleOf w r.1 = h) := by
      intro h
      rw [hrec]
      apply List.filter_congr
      intro r hr
      rw [handleOf_append (I.range r hr)]
    obtain ⟨o', ⟨hno, hst⟩ | hst⟩ := hs
    · refine ⟨tr ++ [o'], stats_run_snoc _ _ _ _ _ h1 hst, ?_⟩
      intro h
      rw [hfil, Statistics.samplesFor_snoc, h2]
      cases o' with
      | lookup t => simp
      | reset => simp
      | add k x now => exact absurd rfl (hno k x now)
    · refine ⟨tr, by rw [hst]; exact h1, ?_⟩
      intro h
      rw [hfil, h2]

theorem Inv.step {rnd : Rat → Rat} {sec : Int → Rat} {ops : List Op} {w w' : World} {o : Op} (I : Inv rnd sec ops w)
    (hst : step rnd sec w o = .ok w') : Inv rnd sec (ops ++ [o]) w' := by
  cases o with
  | create tag stopped now =>
    cases hst
    refine I.push ⟨.lookup tag, Or.inl ⟨(by intro h x now e; cases e), rfl⟩⟩ ?_
    cases stopped <;> simp [recordStep, create, start]
  | start i now =>
    obtain ⟨t, ht, h2⟩ := Outcome.bind_eq_ok.1 hst
    cases h2
    refine I.set (get_ok ht).1 ?_ ?_
    · rfl
    · simp [recordStep, start]
  | discard i =>
    obtain ⟨t, ht, h2⟩ := Outcome.bind_eq_ok.1 hst
    cases h2
    refine I.set (get_ok ht).1 ?_ ?_
    · rfl
    · simp [recordStep, discard]
  | stop i now =>
    obtain ⟨t, ht, h2⟩ := Outcome.bind_eq_ok.1 hst
    obtain ⟨r, hr, h3⟩ := Outcome.bind_eq_ok.1 h2
    cases h3
    unfold stop at hr
    by_cases hti : t.isTiming = true
    · rw [if_pos hti] at hr
      obtain ⟨s', hs, h4⟩ := Outcome.bind_eq_ok.1 hr
      cases h4
      exact I.record (get_ok ht).1 rfl hti rfl hs rfl
    · rw [if_neg hti] at hr
      cases hr
      refine I.set (get_ok ht).1 rfl ?_
      have hc := I.clock i t (get_ok ht).1
      rw [if_neg hti] at hc
      simp only [recordStep, hc]
      rw [if_neg hti]
      simp
  | destroy i now =>
    obtain ⟨t, ht, h2⟩ := Outcome.bind_eq_ok.1 hst
    obtain ⟨r, hr, h3⟩ := Outcome.bind_eq_ok.1 h2
    cases h3
    unfold destroy at hr
    by_cases hti : t.isTiming = true
    · rw [if_pos hti] at hr
      obtain ⟨q, hq, h4⟩ := Outcome.bind_eq_ok.1 hr
      cases h4
      unfold stop at hq
      rw [if_pos hti] at hq
      obtain ⟨s', hs, h5⟩ := Outcome.bind_eq_ok.1 hq
      cases h5
      exact I.record (get_ok ht).1 rfl hti rfl hs rfl
    · rw [if_neg hti] at hr
      cases hr
      refine I.set (get_ok ht).1 rfl ?_
      have hc := I.clock i t (get_ok ht).1
      rw [if_neg hti] at hc
      simp only [recordStep, hc]
      rw [if_neg hti]
      simp
  | copy i =>
    obtain ⟨t, ht, h2⟩ := Outcome.bind_eq_ok.1 hst
    cases h2
    refine I.push ⟨.reset, Or.inr rfl⟩ ?_
    have hc := I.clock i t (get_ok ht).1
    simp only [recordStep, hc]
    rfl
  | reset =>
    cases hst
    obtain ⟨tr, h1, h2⟩ := I.trace
    have hrec : records (ops ++ [.reset]) = records ops := by
      unfold records
      rw [records_snoc]
      rfl
    refine ⟨?_, ?_, ?_, tr ++ [.reset], stats_run_snoc _ _ _ _ _ h1 rfl, ?_⟩
    · rw [records_snoc]
      exact I.len
    · rw [records_snoc]
      exact I.clock
    · rw [hrec]
      exact I.range
    · intro h
      rw [hrec, Statistics.samplesFor_snoc, h2]
      exact List.append_nil _

theorem run_inv {rnd : Rat → Rat} {sec : Int → Rat} : ∀ (ops pre : List Op) (w w' : World), Inv rnd sec pre w →
    run rnd sec ops w = .ok w' → Inv rnd sec (pre ++ ops) w'
  | [], pre, w, w', I, h => by
    cases h
    simpa using I
  | o :: ops, pre, w, w', I, h => by
    unfold run at h
    obtain ⟨w1, h1, h2⟩ := Outcome.bind_eq_ok.1 h
    have := run_inv ops (pre ++ [o]) w1 w' (I.step h1) h2
    simpa using this

/-! ## C45 -/

/-- The samples of every handle are exactly the elapsed times of the intervals measured by the timers with the handle,
in the order in which they end. -/
theorem samples_are_intervals {rnd : Rat → Rat} {sec : Int → Rat} {ops : List Op} {w : World} {h : Nat}
    {c : Statistics.Collector} (hr : run rnd sec ops World.new = .ok w) (hc : w.stats.collectors[h]? = some c) :
    addAll rnd window (((records ops).filter (fun r => handleOf w r.1 = h)).map fun r => sec (r.2.2 - r.2.1)) Acc.new =
      .ok c.values := by
  have I : Inv rnd sec ops w := by
    have := run_inv ops [] _ _ (Inv.new rnd sec) hr
    simpa using this
  obtain ⟨tr, h1, h2⟩ := I.trace
  have := Statistics.samples_attributed h1 hc
  rw [h2, List.map_map] at this
  exact this

/-- If no timer is copied, the intervals measured by a timer are one for each start that is followed by a stop, with
nothing in between: a start that is followed by a discard, or by another start, and a stop that does not follow a start
measure none. -/
theorem intervals_once {ops : List Op} (hn : ∀ j, Op.copy j ∉ ops) (i : Nat) :
    ((records ops).filter (fun r => r.1 = i)).map Prod.snd = intervals none (events i 0 ops) := by
  have := fold_filter i ops [] [] hn
  simpa [records] using this

/-- A timer has the handle that its tag had when it was created, for as long as it exists. -/
theorem handle_kept {rnd : Rat → Rat} {sec : Int → Rat} {w w' : World} {o : Op} {i : Nat} {t : Timer}
    (hs : step rnd sec w o = .ok w') (ht : w.timers[i]? = some t) : handleOf w' i = t.handle := by
  have h0 : handleOf w i = t.handle := by
    unfold handleOf
    rw [ht]
    rfl
  have hlt := (List.getElem?_eq_some_iff.1 ht).1
  cases o with
  | create tag stopped now => cases hs; rw [handleOf_append hlt, h0]
  | start j now =>
    obtain ⟨u, hu, h2⟩ := Outcome.bind_eq_ok.1 hs
    cases h2
    exact (handleOf_set (get_ok hu).1 (by rfl) i).trans h0
  | discard j =>
    obtain ⟨u, hu, h2⟩ := Outcome.bind_eq_ok.1 hs
    cases h2
    exact (handleOf_set (get_ok hu).1 (by rfl) i).trans h0
  | stop j now =>
    obtain ⟨u, hu, h2⟩ := Outcome.bind_eq_ok.1 hs
    obtain ⟨r, hr, h3⟩ := Outcome.bind_eq_ok.1 h2
    cases h3
    unfold stop at hr
    split at hr
    · obtain ⟨s', _, h4⟩ := Outcome.bind_eq_ok.1 hr
      cases h4
      exact (handleOf_set (get_ok hu).1 (by rfl) i).trans h0
    · cases hr
      exact (handleOf_set (get_ok hu).1 (by rfl) i).trans h0
  | destroy j now =>
    obtain ⟨u, hu, h2⟩ := Outcome.bind_eq_ok.1 hs
    obtain ⟨r, hr, h3⟩ := Outcome.bind_eq_ok.1 h2
    cases h3
    unfold destroy stop at hr
    split at hr
    · obtain ⟨q, hq, h4⟩ := Outcome.bind_eq_ok.1 hr
      obtain ⟨s', _, h5⟩ := Outcome.bind_eq_ok.1 hq
      cases h5
      cases h4
      exact (handleOf_set (get_ok hu).1 (by rfl) i).trans h0
    · cases hr
      exact (handleOf_set (get_ok hu).1 (by rfl) i).trans h0
  | copy j =>
    obtain ⟨u, _, h2⟩ := Outcome.bind_eq_ok.1 hs
    cases h2
    rw [handleOf_append hlt, h0]
  | reset => cases hs; exact h0

/-- A new timer has the handle of its tag. -/
theorem created_handle {rnd : Rat → Rat} {sec : Int → Rat} {w w' : World} {tag : String} {b : Bool} {now : Int}
    (hs : step rnd sec w (.create tag b now) = .ok w') :
    handleOf w' w.timers.length = (getHandle tag w.stats).1 := by
  cases hs
  unfold handleOf
  cases b <;> simp [create, start]

/-- Stopping a running timer returns the time since its latest start and leaves it stopped; stopping a stopped one
returns zero and changes nothing. -/
theorem stop_result {rnd : Rat → Rat} {sec : Int → Rat} {now : Int} {t : Timer} {s : Stats}
    {r : Rat × Timer × Stats} (h : stop rnd sec now t s = .ok r) :
    (t.isTiming = true → r.1 = sec (now - t.time) ∧ r.2.1.isTiming = false ∧
      addSample rnd sec t.handle r.1 now s = .ok r.2.2) ∧
    (t.isTiming = false → r = (0, t, s)) := by
  unfold stop at h
  cases ht : t.isTiming with
  | true =>
    rw [ht, if_pos rfl] at h
    obtain ⟨s', hs, h4⟩ := Outcome.bind_eq_ok.1 h
    cases h4
    exact ⟨fun _ => ⟨rfl, rfl, hs⟩, fun e => by cases e⟩
  | false =>
    rw [ht, if_neg (by simp)] at h
    cases h
    exact ⟨fun e => (by cases e), fun _ => rfl⟩

/-- A running timer, a restarted one, a discarded one, one stopped twice and one destroyed while running. -/
example :
    let ops : List Op := [.create "a" false 5, .create "b" true 6, .start 1 7, .start 1 8, .stop 0 10, .stop 0 11,
      .stop 1 12, .start 0 13, .discard 0, .stop 0 14, .create "a" false 20, .destroy 2 26]
    records ops = [(0, 5, 10), (1, 8, 12), (2, 20, 26)] ∧
      (run id (fun n => n) ops World.new >>= fun w => Statistics.query (fun c => (c.values.total, c.values.sum)) 0 w.stats)
        = .ok (2, 11) := by
  decide +kernel

/-- Copying a running timer: the one start is recorded twice. -/
theorem copy_records_twice_refuted :
    let ops : List Op := [.create "a" false 5, .copy 0, .stop 0 10, .destroy 1 12, .destroy 0 12]
    (run id (fun n => n) ops World.new >>= fun w => Statistics.query (fun c => (c.values.total, c.values.sum)) 0 w.stats)
      = .ok (2, 12) := by
  decide +kernel

end Verif.Timer
