import Verif.FeatureTrack.Life

/-!
# What an identifier of a keypoint refers to over time

`Inv` says that whatever a program can name is alive: every handle, the n-frame of every identifier, every frame in a slot
of a living n-frame.  It holds after every program, so that asking an identifier is never undefined.
-/

namespace Verif.FeatureTrack.Life

open Verif (Outcome)

variable {α : Type}

/-- An n-frame has an owner: a handle, or an identifier that was not destroyed. -/
def NOwned (s : State α) (n : Nat) : Prop := n ∈ s.nh ∨ ∃ (k : Nat) (id : Ident), s.ident k = some id ∧ id.owner = n

/-- A frame has an owner: a handle, or a slot of a living n-frame. -/
def FOwned (s : State α) (f : Nat) : Prop :=
  f ∈ s.fh ∨ ∃ (n : Nat) (m : NFrame), s.nframe n = some m ∧ some f ∈ m.slots

/-- Everything that has an owner is alive. -/
structure Inv (s : State α) : Prop where
  nalive : ∀ n, NOwned s n → (s.nframe n).isSome
  falive : ∀ f, FOwned s f → (s.frame f).isSome

/-- Nothing without an owner is alive. -/
structure Tidy (s : State α) : Prop where
  nowned : ∀ n, (s.nframe n).isSome → NOwned s n
  fowned : ∀ f, (s.frame f).isSome → FOwned s f

/-! ## Freeing -/

theorem ownedByIdent_iff (s : State α) (n : Nat) :
    ownedByIdent s.ids n = true ↔ ∃ (k : Nat) (id : Ident), s.ident k = some id ∧ id.owner = n := by
  unfold ownedByIdent State.ident
  rw [List.any_eq_true]
  constructor
  · rintro ⟨x, hx, h⟩
    obtain ⟨k, hk⟩ := List.mem_iff_getElem?.1 hx
    cases x with
    | none => simp at h
    | some id => exact ⟨k, id, by rw [hk]; rfl, by simpa using h⟩
  · rintro ⟨k, id, h, e⟩
    refine ⟨some id, ?_, by simpa using e⟩
    rw [Option.join_eq_some_iff] at h
    exact List.mem_iff_getElem?.2 ⟨k, h⟩

theorem ownedBySlot_iff (l : List (Option NFrame)) (f : Nat) :
    ownedBySlot l f = true ↔ ∃ (n : Nat) (m : NFrame), (l[n]?).join = some m ∧ some f ∈ m.slots := by
  unfold ownedBySlot
  rw [List.any_eq_true]
  constructor
  · rintro ⟨x, hx, h⟩
    obtain ⟨k, hk⟩ := List.mem_iff_getElem?.1 hx
    cases x with
    | none => simp at h
    | some m => exact ⟨k, m, by rw [hk]; rfl, by simpa using h⟩
  · rintro ⟨k, m, h, e⟩
    refine ⟨some m, ?_, by simpa using e⟩
    rw [Option.join_eq_some_iff] at h
    exact List.mem_iff_getElem?.2 ⟨k, h⟩

theorem join_mapIdx {β : Type} (l : List (Option β)) (p : Nat → Bool) (n : Nat) :
    ((l.mapIdx fun n x => if p n then x else none)[n]?).join = if p n then (l[n]?).join else none := by
  rw [List.getElem?_mapIdx]
  cases l[n]? with
  | none => simp
  | some x => by_cases h : p n <;> simp [h]

theorem collect_ident (s : State α) (k : Nat) : (collect s).ident k = s.ident k := rfl

theorem collect_nowned (s : State α) (n : Nat) : NOwned (collect s) n ↔ NOwned s n := Iff.rfl

open Classical in
theorem collect_nframe (s : State α) (n : Nat) :
    (collect s).nframe n = if NOwned s n then s.nframe n else none := by
  have h := join_mapIdx s.nframes (fun n => s.nh.contains n || ownedByIdent s.ids n) n
  have e : (s.nh.contains n || ownedByIdent s.ids n) = true ↔ NOwned s n := by
    rw [Bool.or_eq_true, ownedByIdent_iff, List.contains_iff_mem]; rfl
  unfold State.nframe collect
  simp only [] at h ⊢
  rw [h]
  by_cases c : NOwned s n
  · rw [if_pos (e.2 c), if_pos c]
  · rw [if_neg (fun x => c (e.1 x)), if_neg c]

open Classical in
theorem collect_frame (s : State α) (f : Nat) :
    (collect s).frame f = if FOwned (collect s) f then s.frame f else none := by
  have h := join_mapIdx s.frames (fun f => s.fh.contains f || ownedBySlot (collect s).nframes f) f
  have e : (s.fh.contains f || ownedBySlot (collect s).nframes f) = true ↔ FOwned (collect s) f := by
    rw [Bool.or_eq_true, ownedBySlot_iff, List.contains_iff_mem]; rfl
  have h' : (collect s).frame f
      = if (s.fh.contains f || ownedBySlot (collect s).nframes f) = true then (s.frames[f]?).join else none := h
  rw [h']
  by_cases c : FOwned (collect s) f
  · rw [if_pos (e.2 c), if_pos c]; rfl
  · rw [if_neg (fun x => c (e.1 x)), if_neg c]

theorem collect_fowned {s : State α} {f : Nat} (h : FOwned (collect s) f) : FOwned s f := by
  rcases h with h | ⟨n, m, h, e⟩
  · exact .inl h
  · rw [collect_nframe] at h
    split at h
    · exact .inr ⟨n, m, h, e⟩
    · exact absurd h (by simp)

theorem collect_inv {s : State α} (h : Inv s) : Inv (collect s) where
  nalive n hn := by
    rw [collect_nframe, if_pos ((collect_nowned s n).1 hn)]
    exact h.nalive n hn
  falive f hf := by
    rw [collect_frame, if_pos hf]
    exact h.falive f (collect_fowned hf)

theorem collect_tidy (s : State α) : Tidy (collect s) where
  nowned n hn := by
    rw [collect_nframe] at hn
    split at hn
    · assumption
    · simp at hn
  fowned f hf := by
    rw [collect_frame] at hf
    split at hf
    · assumption
    · simp at hf

/-! ## Calls -/

theorem join_set {β : Type} (l : List (Option β)) (i j : Nat) (x : Option β) :
    ((l.set i x)[j]?).join = if i = j ∧ i < l.length then x else (l[j]?).join := by
  rw [List.getElem?_set]
  by_cases h : i = j
  · subst h
    by_cases h2 : i < l.length
    · simp [h2]
    · simp [h2]
  · simp [h]

theorem join_append {β : Type} (l : List (Option β)) (j : Nat) (x : Option β) :
    ((l ++ [x])[j]?).join = if j = l.length then x else (l[j]?).join := by
  rcases Nat.lt_trichotomy j l.length with h | h | h
  · rw [List.getElem?_append_left h, if_neg (by omega)]
  · subst h; simp
  · rw [if_neg (by omega), List.getElem?_eq_none (by simp; omega), List.getElem?_eq_none (by omega)]

theorem lt_of_join {β : Type} {l : List (Option β)} {i : Nat} {x : β} (h : (l[i]?).join = some x) : i < l.length := by
  rw [Option.join_eq_some_iff] at h
  exact (List.getElem?_eq_some_iff.1 h).1

theorem join_set_some {β : Type} {l : List (Option β)} {i : Nat} {y : β} (h : (l[i]?).join = some y) (j : Nat)
    (x : Option β) : ((l.set i x)[j]?).join = if i = j then x else (l[j]?).join := by
  rw [join_set]
  simp [lt_of_join h]

theorem setCameras_join (slots : List (Option Nat)) (rig : List Nat) (frames : List (Option (Frame α))) (f : Nat) :
    ∀ F, (frames[f]?).join = some F →
      ∃ F', ((setCameras slots rig frames)[f]?).join = some F' ∧ F'.data = F.data := by
  induction slots generalizing rig frames with
  | nil => intro F h; exact ⟨F, by simpa [setCameras] using h, rfl⟩
  | cons x xs ih =>
    intro F h
    cases rig with
    | nil => cases x <;> exact ⟨F, by simpa [setCameras] using h, rfl⟩
    | cons c cs =>
      cases x with
      | none => exact ih cs frames F h
      | some g =>
        by_cases e : g = f
        · subst e
          obtain ⟨F', h1, h2⟩ := ih cs (frames.modify g (Option.map fun F => { F with cam := some c }))
            { F with cam := some c } (by
              rw [List.getElem?_modify]
              rw [Option.join_eq_some_iff] at h
              simp [h])
          exact ⟨F', h1, h2⟩
        · exact ih cs _ F (by rw [List.getElem?_modify]; simp [e, h])

theorem mem_slots {m : NFrame} {i f : Nat} (h : m.slots[i]? = some (some f)) : some f ∈ m.slots :=
  List.mem_of_getElem? h

theorem nowned_congr {s t : State α} (h1 : t.nh = s.nh) (h2 : t.ids = s.ids) (n : Nat) : NOwned t n ↔ NOwned s n := by
  unfold NOwned State.ident
  rw [h1, h2]

/-- A call that changes one n-frame. -/
theorem inv_set_nframe {s t : State α} (hs : Inv s) {n : Nat} {m m' : NFrame} (hm : s.nframe n = some m)
    (e1 : t.nframes = s.nframes.set n (some m')) (e2 : t.nh = s.nh) (e3 : t.ids = s.ids) (e4 : t.fh = s.fh)
    (hf : ∀ f, (s.frame f).isSome → (t.frame f).isSome)
    (hslots : ∀ f, some f ∈ m'.slots → FOwned s f) : Inv t where
  nalive n' hn' := by
    have h := hs.nalive n' ((nowned_congr e2 e3 n').1 hn')
    unfold State.nframe at hm ⊢
    rw [e1, join_set_some hm]
    split
    · rfl
    · exact h
  falive f h := by
    apply hf
    rcases h with h | ⟨n', m2, h, e⟩
    · exact hs.falive f (.inl (e4 ▸ h))
    · unfold State.nframe at hm h
      rw [e1, join_set_some hm] at h
      split at h
      · cases h
        exact hs.falive f (hslots f e)
      · exact hs.falive f (.inr ⟨n', m2, h, e⟩)

/-- A call that changes the content of one frame. -/
theorem inv_set_frame {s t : State α} (hs : Inv s) {f : Nat} {F F' : Frame α} (hF : s.frame f = some F)
    (e1 : t.frames = s.frames.set f (some F')) (e2 : t.nh = s.nh) (e3 : t.ids = s.ids) (e4 : t.fh = s.fh)
    (e5 : t.nframes = s.nframes) : Inv t where
  nalive n' hn' := by
    have h := hs.nalive n' ((nowned_congr e2 e3 n').1 hn')
    unfold State.nframe at h ⊢
    rw [e5]; exact h
  falive g h := by
    have h' : FOwned s g := by
      unfold FOwned State.nframe at h ⊢
      rw [e4, e5] at h
      exact h
    have h2 := hs.falive g h'
    unfold State.frame at hF h2 ⊢
    rw [e1, join_set_some hF]
    split
    · rfl
    · exact h2

theorem act_inv {s t : State α} {o : Op α} (hs : Inv s) (h : act s o = .ok t) : Inv t := by
  cases o with
  | newFrame cam =>
    cases h
    constructor
    · exact hs.nalive
    · intro f hf
      show (((s.frames ++ [_])[f]?).join).isSome
      rw [join_append]
      split
      · rfl
      · rename_i hne
        rcases hf with hf | hf
        · rcases List.mem_cons.1 hf with e | e
          · exact absurd e hne
          · exact hs.falive f (.inl e)
        · exact hs.falive f (.inr hf)
  | newNFrame size =>
    cases h
    have key : ∀ n, State.nframe { s with nframes := s.nframes ++ [some ⟨none, List.replicate size none⟩], nh := s.nframes.length :: s.nh } n = if n = s.nframes.length then some ⟨none, List.replicate size none⟩ else s.nframe n := fun n => join_append _ _ _
    constructor
    · intro n hn
      rw [key]
      split
      · rfl
      · rename_i hne
        rcases hn with hn | hn
        · rcases List.mem_cons.1 hn with e | e
          · exact absurd e hne
          · exact hs.nalive n (.inl e)
        · exact hs.nalive n (.inr hn)
    · intro f hf
      rcases hf with hf | ⟨n, m, hn, e⟩
      · exact hs.falive f (.inl hf)
      · rw [key] at hn
        split at hn
        · cases hn
          simp at e
        · exact hs.falive f (.inr ⟨n, m, hn, e⟩)
  | setNCameras n rig =>
    simp only [act] at h
    split at h
    · cases h; exact hs
    · split at h
      · exact absurd h (by simp)
      · rename_i m hm
        split at h
        · cases h
          refine inv_set_nframe hs hm rfl rfl rfl rfl ?_ ?_
          · intro f hf
            obtain ⟨F, hF⟩ := Option.isSome_iff_exists.1 hf
            obtain ⟨F', h', _⟩ := setCameras_join m.slots rig s.frames f F hF
            exact Option.isSome_iff_exists.2 ⟨F', h'⟩
          · intro f e
            exact .inr ⟨n, m, hm, e⟩
        · exact absurd h (by simp)
  | setCamera f cam =>
    simp only [act] at h
    split at h
    · cases h; exact hs
    · split at h
      · exact absurd h (by simp)
      · rename_i F hF
        cases h
        exact inv_set_frame hs hF rfl rfl rfl rfl rfl
  | setFrame n i f =>
    simp only [act] at h
    split at h
    · cases h; exact hs
    · rename_i hh
      have hf : f ∈ s.fh := Classical.not_not.1 fun x => hh (.inr x)
      split at h
      · rename_i m F hm hF
        split at h
        · split at h
          · cases h
            refine inv_set_nframe hs hm rfl rfl rfl rfl (fun _ x => x) ?_
            intro g e
            rcases List.mem_or_eq_of_mem_set e with e | e
            · exact .inr ⟨n, m, hm, e⟩
            · cases e
              exact .inl hf
          · exact absurd h (by simp)
        · exact absurd h (by simp)
      · exact absurd h (by simp)
  | unSetFrame n i =>
    simp only [act] at h
    split at h
    · cases h; exact hs
    · split at h
      · exact absurd h (by simp)
      · rename_i m hm
        split at h
        · cases h
          refine inv_set_nframe hs hm rfl rfl rfl rfl (fun _ x => x) ?_
          intro g e
          rcases List.mem_or_eq_of_mem_set e with e | e
          · exact .inr ⟨n, m, hm, e⟩
          · cases e
        · exact absurd h (by simp)
  | getFrameShared n i =>
    simp only [act] at h
    split at h
    · cases h; exact hs
    · split at h
      · exact absurd h (by simp)
      · rename_i m hm
        split at h
        · exact absurd h (by simp)
        · cases h; exact hs
        · rename_i f hf
          cases h
          constructor
          · exact hs.nalive
          · intro g hg
            rcases hg with hg | hg
            · rcases List.mem_cons.1 hg with e | e
              · subst e
                exact hs.falive g (.inr ⟨n, m, hm, mem_slots hf⟩)
              · exact hs.falive g (.inl e)
            · exact hs.falive g (.inr hg)
  | setData f c columns =>
    simp only [act] at h
    split at h
    · cases h; exact hs
    · split at h
      · exact absurd h (by simp)
      · rename_i F hF
        cases h
        exact inv_set_frame hs hF rfl rfl rfl rfl rfl
  | clear f =>
    simp only [act] at h
    split at h
    · cases h; exact hs
    · split at h
      · exact absurd h (by simp)
      · rename_i F hF
        cases h
        exact inv_set_frame hs hF rfl rfl rfl rfl rfl
  | dropFrame f =>
    cases h
    constructor
    · exact hs.nalive
    · intro g hg
      rcases hg with hg | hg
      · exact hs.falive g (.inl (List.mem_of_mem_erase hg))
      · exact hs.falive g (.inr hg)
  | dropNFrame n =>
    cases h
    constructor
    · intro n' hn
      rcases hn with hn | hn
      · exact hs.nalive n' (.inl (List.mem_of_mem_erase hn))
      · exact hs.nalive n' (.inr hn)
    · exact hs.falive
  | create n i j =>
    simp only [act] at h
    split at h
    · cases h; exact hs
    · rename_i hh
      have hn : n ∈ s.nh := Classical.not_not.1 hh
      split at h
      · exact absurd h (by simp)
      · obtain ⟨_, _, h⟩ := Outcome.bind_eq_ok.1 h
        cases h
        constructor
        · intro n' hn'
          rcases hn' with hn' | ⟨k, id, hk, e⟩
          · exact hs.nalive n' (.inl hn')
          · have hk' : ((s.ids ++ [some ⟨n, i, j⟩])[k]?).join = some id := hk
            rw [join_append] at hk'
            split at hk'
            · cases hk'
              cases e
              exact hs.nalive n (.inl hn)
            · exact hs.nalive n' (.inr ⟨k, id, hk', e⟩)
        · exact hs.falive
  | dropIdent k =>
    cases h
    constructor
    · intro n' hn'
      rcases hn' with hn' | ⟨k', id, hk, e⟩
      · exact hs.nalive n' (.inl hn')
      · have hk' : ((s.ids.set k none)[k']?).join = some id := hk
        rw [join_set] at hk'
        split at hk'
        · cases hk'
        · exact hs.nalive n' (.inr ⟨k', id, hk', e⟩)
    · exact hs.falive

theorem start_inv : Inv (State.start : State α) where
  nalive n h := by
    rcases h with h | ⟨k, id, h, _⟩
    · cases h
    · simp [State.ident, State.start] at h
  falive f h := by
    rcases h with h | ⟨k, id, h, _⟩
    · cases h
    · simp [State.nframe, State.start] at h

theorem step_inv {s t : State α} {o : Op α} (hs : Inv s) (h : step s o = .ok t) : Inv t := by
  obtain ⟨u, hu, h⟩ := Outcome.bind_eq_ok.1 h
  cases h
  exact collect_inv (act_inv hs hu)

theorem run_inv {s t : State α} {os : List (Op α)} (hs : Inv s) (h : run s os = .ok t) : Inv t := by
  induction os generalizing s with
  | nil => cases h; exact hs
  | cons o os ih =>
    obtain ⟨u, hu, h⟩ := Outcome.bind_eq_ok.1 h
    exact ih (step_inv hs hu) h

/-- **After any program, whatever has an owner is alive.** -/
theorem alive {t : State α} {os : List (Op α)} (h : run State.start os = .ok t) : Inv t := run_inv start_inv h

theorem run_tidy {s t : State α} {os : List (Op α)} (hs : Tidy s) (h : run s os = .ok t) : Tidy t := by
  induction os generalizing s with
  | nil => cases h; exact hs
  | cons o os ih =>
    obtain ⟨u, hu, h⟩ := Outcome.bind_eq_ok.1 h
    obtain ⟨w, _, hw⟩ := Outcome.bind_eq_ok.1 hu
    cases hw
    exact ih (collect_tidy w) h

/-- **After any program, whatever has no owner was freed.** -/
theorem no_leak {t : State α} {os : List (Op α)} (h : run State.start os = .ok t) : Tidy t :=
  run_tidy ⟨fun n hn => by simp [State.nframe, State.start] at hn,
    fun f hf => by simp [State.frame, State.start] at hf⟩ h

/-! ## No call is undefined -/

/-- The frame in a slot of a living n-frame is alive. -/
theorem slot_frame {s : State α} (hs : Inv s) {n i f : Nat} {m : NFrame} (hm : s.nframe n = some m)
    (h : m.slots[i]? = some (some f)) : ∃ F, s.frame f = some F :=
  Option.isSome_iff_exists.1 (hs.falive f (.inr ⟨n, m, hm, mem_slots h⟩))

theorem createChecks_defined {s : State α} (hs : Inv s) {n : Nat} {m : NFrame} (hm : s.nframe n = some m) (i j : Nat) :
    createChecks s m i j ≠ .ub := by
  unfold createChecks
  split
  · simp
  · simp
  · rename_i f hf
    obtain ⟨F, hF⟩ := slot_frame hs hm hf
    rw [hF]
    simp only []
    split
    · simp
    · split <;> simp

/-- **No call through a handle is undefined.** -/
theorem step_defined {s : State α} (hs : Inv s) (o : Op α) : step s o ≠ .ub := by
  have key : act s o ≠ .ub := by
    have hn : ∀ n, ¬ n ∉ s.nh → ∃ m, s.nframe n = some m := fun n h =>
      Option.isSome_iff_exists.1 (hs.nalive n (.inl (Classical.not_not.1 h)))
    have hf : ∀ f, ¬ f ∉ s.fh → ∃ F, s.frame f = some F := fun f h =>
      Option.isSome_iff_exists.1 (hs.falive f (.inl (Classical.not_not.1 h)))
    cases o with
    | newFrame cam => simp [act]
    | newNFrame size => simp [act]
    | setNCameras n rig =>
      simp only [act]
      split
      · simp
      · rename_i h
        obtain ⟨m, hm⟩ := hn n h
        rw [hm]; simp only []
        split <;> simp
    | setCamera f cam =>
      simp only [act]
      split
      · simp
      · rename_i h
        obtain ⟨F, hF⟩ := hf f h
        rw [hF]; simp
    | setFrame n i f =>
      simp only [act]
      split
      · simp
      · rename_i h
        obtain ⟨m, hm⟩ := hn n (fun x => h (.inl x))
        obtain ⟨F, hF⟩ := hf f (fun x => h (.inr x))
        rw [hm, hF]; simp only []
        split
        · split <;> simp
        · simp
    | unSetFrame n i =>
      simp only [act]
      split
      · simp
      · rename_i h
        obtain ⟨m, hm⟩ := hn n h
        rw [hm]; simp only []
        split <;> simp
    | getFrameShared n i =>
      simp only [act]
      split
      · simp
      · rename_i h
        obtain ⟨m, hm⟩ := hn n h
        rw [hm]; simp only []
        split <;> simp
    | setData f c columns =>
      simp only [act]
      split
      · simp
      · rename_i h
        obtain ⟨F, hF⟩ := hf f h
        rw [hF]; simp
    | clear f =>
      simp only [act]
      split
      · simp
      · rename_i h
        obtain ⟨F, hF⟩ := hf f h
        rw [hF]; simp
    | dropFrame f => simp [act]
    | dropNFrame n => simp [act]
    | create n i j =>
      simp only [act]
      split
      · simp
      · rename_i h
        obtain ⟨m, hm⟩ := hn n h
        rw [hm]; simp only []
        have := createChecks_defined hs hm i j
        cases hc : createChecks s m i j with
        | ok u => simp [Outcome.bind_ok]
        | abort => intro x; cases x
        | ub => exact absurd hc this
        | exc => intro x; cases x
    | dropIdent k => simp [act]
  unfold step
  cases h : act s o with
  | ok u => intro x; cases x
  | abort => intro x; cases x
  | ub => exact absurd h key
  | exc => intro x; cases x

/-- The column an identifier stands for: the n-frame, the frame in the slot, the matrix of the channel. -/
def Column (s : State α) (id : Ident) (c : Chan) (x : α) : Prop :=
  ∃ (m : NFrame) (f : Nat) (F : Frame α) (b : Nat) (cs : List α), s.nframe id.owner = some m
    ∧ m.slots[id.frameIndex]? = some (some f) ∧ s.frame f = some F ∧ F.data c = some (b, cs)
    ∧ cs[id.keypointIndex]? = some x

/-- **Asking an identifier gives what is in the slot, the channel and the column at that moment.** -/
theorem read_spec (s : State α) (id : Ident) (c : Chan) (x : α) : read s id c = .ok x ↔ Column s id c x := by
  constructor
  · intro h
    obtain ⟨v, hv, h⟩ := Outcome.bind_eq_ok.1 h
    obtain ⟨f, hf, hv⟩ := Outcome.bind_eq_ok.1 hv
    unfold frameOf at hf
    split at hf
    · cases hf
    · rename_i m hm
      split at hf
      · cases hf
      · cases hf
      · rename_i f' hf'
        cases hf
        split at hv
        · cases hv
        · rename_i F hF
          split at hv
          · cases hv
          · rename_i b cs hd
            split at hv
            · cases hv
              refine ⟨m, f, F, b, cs, hm, hf', hF, hd, ?_⟩
              unfold deref at h
              simp only [hF, hd, if_true] at h
              split at h
              · cases h; assumption
              · cases h
            · cases hv
  · rintro ⟨m, f, F, b, cs, hm, hf, hF, hd, hx⟩
    have hlt : id.keypointIndex < cs.length := (List.getElem?_eq_some_iff.1 hx).1
    have hv : view s id c = .ok ⟨f, c, b, id.keypointIndex⟩ := by
      unfold view frameOf
      simp only [hm, hf, Outcome.bind_ok, hF, hd, if_pos hlt]
    unfold read
    rw [hv, Outcome.bind_ok]
    unfold deref
    simp only [hF, hd, if_true, hx]

/-- **Asking an identifier is never undefined**: it gives the value or stops the process. -/
theorem read_defined {s : State α} (hs : Inv s) {k : Nat} {id : Ident} (hk : s.ident k = some id) (c : Chan) :
    (∃ x, read s id c = .ok x) ∨ read s id c = .abort := by
  obtain ⟨m, hm⟩ := Option.isSome_iff_exists.1 (hs.nalive id.owner (.inr ⟨k, id, hk, rfl⟩))
  cases hf : m.slots[id.frameIndex]? with
  | none => right; simp only [read, view, frameOf, hm, hf]; rfl
  | some o =>
    cases o with
    | none => right; simp only [read, view, frameOf, hm, hf]; rfl
    | some f =>
      obtain ⟨F, hF⟩ := slot_frame hs hm hf
      cases hd : F.data c with
      | none => right; simp only [read, view, frameOf, hm, hf, Outcome.bind_ok, hF, hd]; rfl
      | some d =>
        obtain ⟨b, cs⟩ := d
        by_cases hlt : id.keypointIndex < cs.length
        · left
          exact ⟨cs[id.keypointIndex], (read_spec s id c _).2
            ⟨m, f, F, b, cs, hm, hf, hF, hd, List.getElem?_eq_getElem hlt⟩⟩
        · right
          simp only [read, view, frameOf, hm, hf, Outcome.bind_ok, hF, hd, if_neg hlt]; rfl

/-- **Asking for the camera is never undefined.** -/
theorem camera_defined {s : State α} (hs : Inv s) {k : Nat} {id : Ident} (hk : s.ident k = some id) :
    (∃ x, camera s id = .ok x) ∨ camera s id = .abort := by
  obtain ⟨m, hm⟩ := Option.isSome_iff_exists.1 (hs.nalive id.owner (.inr ⟨k, id, hk, rfl⟩))
  simp only [camera, hm]
  split
  · right; rfl
  · split
    · right; rfl
    · left; exact ⟨_, rfl⟩

/-! ## Creation -/

theorem createChecks_iff {s : State α} {m : NFrame} {i j : Nat} :
    createChecks s m i j = .ok () ↔ ∃ (f : Nat) (F : Frame α) (b : Nat) (cs : List α), m.slots[i]? = some (some f)
      ∧ s.frame f = some F ∧ F.data .keypoints = some (b, cs) ∧ j < cs.length := by
  unfold createChecks
  constructor
  · intro h
    split at h
    · cases h
    · cases h
    · rename_i f hf
      split at h
      · cases h
      · rename_i F hF
        split at h
        · cases h
        · rename_i b cs hd
          split at h
          · rename_i hlt
            exact ⟨f, F, b, cs, hf, hF, hd, hlt⟩
          · cases h
  · rintro ⟨f, F, b, cs, h1, h2, h3, h4⟩
    simp only [h1, h2, h3, if_pos h4]

/-- **An identifier can be made exactly for a keypoint that is there, and reads it at once.**  The new identifier has the
n-frame and the indices given. -/
theorem create_spec {s : State α} (hs : Inv s) {n i j : Nat} (hn : n ∈ s.nh) :
    (∀ t, step s (.create n i j) = .ok t →
        t.ident s.ids.length = some ⟨n, i, j⟩ ∧ ∃ x, read t ⟨n, i, j⟩ .keypoints = .ok x ∧ Column s ⟨n, i, j⟩ .keypoints x)
      ∧ ((∃ t, step s (.create n i j) = .ok t) ↔ ∃ x, Column s ⟨n, i, j⟩ .keypoints x) := by
  obtain ⟨m, hm⟩ := Option.isSome_iff_exists.1 (hs.nalive n (.inl hn))
  have hact : act s (.create n i j) = (do createChecks s m i j; .ok { s with ids := s.ids ++ [some ⟨n, i, j⟩] }) := by
    simp only [act, hm, not_true, if_false, hn]
  have hcol : createChecks s m i j = .ok () ↔ ∃ x, Column s ⟨n, i, j⟩ .keypoints x := by
    rw [createChecks_iff]
    constructor
    · rintro ⟨f, F, b, cs, h1, h2, h3, h4⟩
      exact ⟨cs[j], m, f, F, b, cs, hm, h1, h2, h3, List.getElem?_eq_getElem h4⟩
    · rintro ⟨x, m', f, F, b, cs, h0, h1, h2, h3, h4⟩
      cases hm.symm.trans h0
      exact ⟨f, F, b, cs, h1, h2, h3, (List.getElem?_eq_some_iff.1 h4).1⟩
  refine ⟨?_, ?_⟩
  · intro t ht
    have hit := step_inv hs ht
    obtain ⟨u, hu, ht⟩ := Outcome.bind_eq_ok.1 ht
    cases ht
    rw [hact] at hu
    obtain ⟨_, hc, hu⟩ := Outcome.bind_eq_ok.1 hu
    cases hu
    have hid : State.ident (collect { s with ids := s.ids ++ [some ⟨n, i, j⟩] }) s.ids.length = some ⟨n, i, j⟩ := by
      show ((s.ids ++ [some _])[s.ids.length]?).join = _
      rw [join_append, if_pos rfl]
    refine ⟨hid, ?_⟩
    obtain ⟨x, m', f, F, b, cs, h0, h1, h2, h3, h4⟩ := hcol.1 hc
    refine ⟨x, (read_spec _ _ _ _).2 ⟨m', f, F, b, cs, ?_, h1, ?_, h3, h4⟩, m', f, F, b, cs, h0, h1, h2, h3, h4⟩
    · rw [collect_nframe, if_pos (.inl hn)]
      exact h0
    · rw [collect_frame, if_pos]
      · exact h2
      · refine .inr ⟨n, m', ?_, mem_slots h1⟩
        rw [collect_nframe, if_pos (.inl hn)]
        exact h0
  · rw [← hcol]
    unfold step
    rw [hact]
    constructor
    · rintro ⟨t, ht⟩
      obtain ⟨u, hu, _⟩ := Outcome.bind_eq_ok.1 ht
      obtain ⟨_, hc, _⟩ := Outcome.bind_eq_ok.1 hu
      exact hc
    · intro hc
      rw [hc]
      exact ⟨_, rfl⟩

/-! ## What an identifier refers to stays, if it is left alone -/

/-- The calls that change the slot `i` of the n-frame `n` or the columns of the frame `f`. -/
def Touches (n i f : Nat) : Op α → Prop
  | .setFrame n' i' _ => n' = n ∧ i' = i
  | .unSetFrame n' i' => n' = n ∧ i' = i
  | .setData f' _ _ => f' = f
  | .clear f' => f' = f
  | _ => False

/-- The slot `i` of the n-frame `n` has the frame `f`, whose channels are `d`. -/
def Holds (s : State α) (n i f : Nat) (d : Chan → Option (Nat × List α)) : Prop :=
  ∃ (m : NFrame) (F : Frame α), s.nframe n = some m ∧ m.slots[i]? = some (some f) ∧ s.frame f = some F ∧ F.data = d

theorem holds_congr {s t : State α} {n i f : Nat} {d : Chan → Option (Nat × List α)} (e1 : t.nframes = s.nframes)
    (e2 : t.frames = s.frames) (h : Holds s n i f d) : Holds t n i f d := by
  unfold Holds State.nframe State.frame at h ⊢
  rw [e1, e2]
  exact h

theorem holds_set_frame {s t : State α} {n i f g : Nat} {F' : Frame α} {d : Chan → Option (Nat × List α)}
    (e1 : t.nframes = s.nframes) (e2 : t.frames = s.frames.set g (some F'))
    (hg : f = g → F'.data = d) (h : Holds s n i f d) : Holds t n i f d := by
  obtain ⟨m, F, h1, h2, h3, h4⟩ := h
  unfold Holds State.nframe State.frame at *
  rw [e1, e2]
  by_cases e : g = f
  · subst e
    exact ⟨m, F', h1, h2, by rw [join_set, if_pos ⟨rfl, lt_of_join h3⟩], hg rfl⟩
  · exact ⟨m, F, h1, h2, by rw [join_set, if_neg (fun x => e x.1)]; exact h3, h4⟩

theorem act_keeps {s t : State α} {o : Op α} {n i f : Nat} {d : Chan → Option (Nat × List α)}
    (ho : ¬ Touches n i f o) (h : Holds s n i f d) (ht : act s o = .ok t) : Holds t n i f d := by
  cases o with
  | newFrame cam =>
    cases ht
    obtain ⟨m, F, h1, h2, h3, h4⟩ := h
    refine ⟨m, F, h1, h2, ?_, h4⟩
    show ((s.frames ++ [_])[f]?).join = _
    rw [join_append, if_neg (Nat.ne_of_lt (lt_of_join h3))]
    exact h3
  | newNFrame size =>
    cases ht
    obtain ⟨m, F, h1, h2, h3, h4⟩ := h
    refine ⟨m, F, ?_, h2, h3, h4⟩
    show ((s.nframes ++ [_])[n]?).join = _
    rw [join_append, if_neg (Nat.ne_of_lt (lt_of_join h1))]
    exact h1
  | setNCameras n' rig =>
    simp only [act] at ht
    split at ht
    · cases ht; exact h
    · split at ht
      · cases ht
      · rename_i m' hm'
        split at ht
        · cases ht
          obtain ⟨m, F, h1, h2, h3, h4⟩ := h
          obtain ⟨F', h3', h4'⟩ := setCameras_join m'.slots rig s.frames f F h3
          by_cases e : n' = n
          · subst e
            cases hm'.symm.trans h1
            refine ⟨{ m' with rig := some rig }, F', ?_, h2, h3', h4'.trans h4⟩
            show ((s.nframes.set n' _)[n']?).join = _
            rw [join_set, if_pos ⟨rfl, lt_of_join h1⟩]
          · refine ⟨m, F', ?_, h2, h3', h4'.trans h4⟩
            show ((s.nframes.set n' _)[n]?).join = _
            rw [join_set, if_neg (fun x => e x.1)]
            exact h1
        · cases ht
  | setCamera g cam =>
    simp only [act] at ht
    split at ht
    · cases ht; exact h
    · split at ht
      · cases ht
      · rename_i F' hF'
        cases ht
        refine holds_set_frame (s := s) (g := g) rfl rfl ?_ h
        intro e
        subst e
        obtain ⟨m, F, h1, h2, h3, h4⟩ := h
        cases hF'.symm.trans h3
        exact h4
  | setFrame n' i' g =>
    simp only [act] at ht
    split at ht
    · cases ht; exact h
    · split at ht
      · rename_i m' F' hm' hF'
        split at ht
        · split at ht
          · cases ht
            obtain ⟨m, F, h1, h2, h3, h4⟩ := h
            by_cases e : n' = n
            · subst e
              cases hm'.symm.trans h1
              have ei : i' ≠ i := fun x => ho ⟨rfl, x⟩
              refine ⟨{ m' with slots := m'.slots.set i' (some g) }, F, ?_, ?_, h3, h4⟩
              · show ((s.nframes.set n' _)[n']?).join = _
                rw [join_set, if_pos ⟨rfl, lt_of_join h1⟩]
              · show (m'.slots.set i' (some g))[i]? = _
                rw [List.getElem?_set, if_neg ei]
                exact h2
            · refine ⟨m, F, ?_, h2, h3, h4⟩
              show ((s.nframes.set n' _)[n]?).join = _
              rw [join_set, if_neg (fun x => e x.1)]
              exact h1
          · cases ht
        · cases ht
      · cases ht
  | unSetFrame n' i' =>
    simp only [act] at ht
    split at ht
    · cases ht; exact h
    · split at ht
      · cases ht
      · rename_i m' hm'
        split at ht
        · cases ht
          obtain ⟨m, F, h1, h2, h3, h4⟩ := h
          by_cases e : n' = n
          · subst e
            cases hm'.symm.trans h1
            have ei : i' ≠ i := fun x => ho ⟨rfl, x⟩
            refine ⟨{ m' with slots := m'.slots.set i' none }, F, ?_, ?_, h3, h4⟩
            · show ((s.nframes.set n' _)[n']?).join = _
              rw [join_set, if_pos ⟨rfl, lt_of_join h1⟩]
            · show (m'.slots.set i' none)[i]? = _
              rw [List.getElem?_set, if_neg ei]
              exact h2
          · refine ⟨m, F, ?_, h2, h3, h4⟩
            show ((s.nframes.set n' _)[n]?).join = _
            rw [join_set, if_neg (fun x => e x.1)]
            exact h1
        · cases ht
  | getFrameShared n' i' =>
    simp only [act] at ht
    split at ht
    · cases ht; exact h
    · split at ht
      · cases ht
      · split at ht
        · cases ht
        · cases ht; exact h
        · cases ht; exact holds_congr rfl rfl h
  | setData g c columns =>
    simp only [act] at ht
    split at ht
    · cases ht; exact h
    · split at ht
      · cases ht
      · cases ht
        exact holds_set_frame (s := s) (g := g) rfl rfl (fun e => absurd e.symm ho) h
  | clear g =>
    simp only [act] at ht
    split at ht
    · cases ht; exact h
    · split at ht
      · cases ht
      · cases ht
        exact holds_set_frame (s := s) (g := g) rfl rfl (fun e => absurd e.symm ho) h
  | dropFrame g => cases ht; exact holds_congr rfl rfl h
  | dropNFrame g => cases ht; exact holds_congr rfl rfl h
  | create n' i' j' =>
    simp only [act] at ht
    split at ht
    · cases ht; exact h
    · split at ht
      · cases ht
      · obtain ⟨_, _, ht⟩ := Outcome.bind_eq_ok.1 ht
        cases ht
        exact holds_congr rfl rfl h
  | dropIdent k => cases ht; exact holds_congr rfl rfl h

theorem collect_holds {s : State α} {n i f : Nat} {d : Chan → Option (Nat × List α)} (hn : NOwned s n)
    (h : Holds s n i f d) : Holds (collect s) n i f d := by
  obtain ⟨m, F, h1, h2, h3, h4⟩ := h
  have hm : (collect s).nframe n = some m := by rw [collect_nframe, if_pos hn]; exact h1
  refine ⟨m, F, hm, h2, ?_, h4⟩
  rw [collect_frame, if_pos (.inr ⟨n, m, hm, mem_slots h2⟩)]
  exact h3

/-- Identifiers are never changed: only destroyed. -/
theorem act_ident {s t : State α} {o : Op α} {k : Nat} {id : Ident} (hk : s.ident k = some id) (ho : o ≠ .dropIdent k)
    (ht : act s o = .ok t) : t.ident k = some id := by
  have same : t.ids = s.ids → t.ident k = some id := fun e => by unfold State.ident at *; rw [e]; exact hk
  cases o with
  | newFrame cam => cases ht; exact hk
  | newNFrame size => cases ht; exact hk
  | setNCameras n' rig =>
    simp only [act] at ht
    split at ht
    · cases ht; exact hk
    · split at ht
      · cases ht
      · split at ht
        · cases ht; exact hk
        · cases ht
  | setCamera g cam =>
    simp only [act] at ht
    split at ht
    · cases ht; exact hk
    · split at ht
      · cases ht
      · cases ht; exact hk
  | setFrame n' i' g =>
    simp only [act] at ht
    split at ht
    · cases ht; exact hk
    · split at ht
      · split at ht
        · split at ht
          · cases ht; exact hk
          · cases ht
        · cases ht
      · cases ht
  | unSetFrame n' i' =>
    simp only [act] at ht
    split at ht
    · cases ht; exact hk
    · split at ht
      · cases ht
      · split at ht
        · cases ht; exact hk
        · cases ht
  | getFrameShared n' i' =>
    simp only [act] at ht
    split at ht
    · cases ht; exact hk
    · split at ht
      · cases ht
      · split at ht
        · cases ht
        · cases ht; exact hk
        · cases ht; exact hk
  | setData g c columns =>
    simp only [act] at ht
    split at ht
    · cases ht; exact hk
    · split at ht
      · cases ht
      · cases ht; exact hk
  | clear g =>
    simp only [act] at ht
    split at ht
    · cases ht; exact hk
    · split at ht
      · cases ht
      · cases ht; exact hk
  | dropFrame g => cases ht; exact hk
  | dropNFrame g => cases ht; exact hk
  | create n' i' j' =>
    simp only [act] at ht
    split at ht
    · cases ht; exact hk
    · split at ht
      · cases ht
      · obtain ⟨_, _, ht⟩ := Outcome.bind_eq_ok.1 ht
        cases ht
        show ((s.ids ++ [_])[k]?).join = _
        rw [join_append, if_neg (Nat.ne_of_lt (lt_of_join hk))]
        exact hk
  | dropIdent k' =>
    cases ht
    show ((s.ids.set k' none)[k]?).join = _
    rw [join_set, if_neg (fun x => ho (by rw [x.1]))]
    exact hk

/-- **Identifiers are never changed**: whatever a program does short of destroying it, an identifier keeps its n-frame and
its indices. -/
theorem ident_fixed {s t : State α} {os : List (Op α)} {k : Nat} {id : Ident} (hk : s.ident k = some id)
    (ho : .dropIdent k ∉ os) (ht : run s os = .ok t) : t.ident k = some id := by
  induction os generalizing s with
  | nil => cases ht; exact hk
  | cons o os ih =>
    obtain ⟨u, hu, ht⟩ := Outcome.bind_eq_ok.1 ht
    obtain ⟨w, hw, hu⟩ := Outcome.bind_eq_ok.1 hu
    cases hu
    refine ih ?_ (fun x => ho (.tail _ x)) ht
    rw [collect_ident]
    exact act_ident hk (fun x => ho (x ▸ .head _)) hw

/-- **The n-frame of an identifier lives as long as the identifier**, whatever handles are dropped. -/
theorem owner_alive {s t : State α} {os : List (Op α)} {k : Nat} {id : Ident} (hs : Inv s) (hk : s.ident k = some id)
    (ho : .dropIdent k ∉ os) (ht : run s os = .ok t) : (t.nframe id.owner).isSome :=
  (run_inv hs ht).nalive _ (.inr ⟨k, id, ident_fixed hk ho ht, rfl⟩)

theorem run_keeps {s t : State α} {os : List (Op α)} {k f : Nat} {id : Ident} {d : Chan → Option (Nat × List α)}
    (hk : s.ident k = some id) (ho : .dropIdent k ∉ os) (hf : ∀ o ∈ os, ¬ Touches id.owner id.frameIndex f o)
    (h : Holds s id.owner id.frameIndex f d) (ht : run s os = .ok t) : Holds t id.owner id.frameIndex f d := by
  induction os generalizing s with
  | nil => cases ht; exact h
  | cons o os ih =>
    obtain ⟨u, hu, ht⟩ := Outcome.bind_eq_ok.1 ht
    obtain ⟨w, hw, hu⟩ := Outcome.bind_eq_ok.1 hu
    cases hu
    have hkw := act_ident hk (fun x => ho (x ▸ .head _)) hw
    refine ih (by rw [collect_ident]; exact hkw) (fun x => ho (.tail _ x)) (fun o' h' => hf o' (.tail _ h')) ?_ ht
    exact collect_holds (.inr ⟨k, id, hkw, rfl⟩) (act_keeps (hf o (.head _)) h hw)

theorem frameOf_iff {s : State α} {id : Ident} {f : Nat} :
    frameOf s id = .ok f ↔ ∃ m, s.nframe id.owner = some m ∧ m.slots[id.frameIndex]? = some (some f) := by
  unfold frameOf
  constructor
  · intro h
    split at h
    · cases h
    · rename_i m hm
      split at h
      · cases h
      · cases h
      · cases h; exact ⟨m, hm, by assumption⟩
  · rintro ⟨m, h1, h2⟩
    simp only [h1, h2]

/-- **The value an identifier reads is the same for ever, unless its slot or the columns of that frame are assigned**: other
slots, other frames, cameras, and the dropping of every handle do not matter. -/
theorem read_stable {s t : State α} {os : List (Op α)} {k f : Nat} {id : Ident} {c : Chan} {x : α}
    (hk : s.ident k = some id) (hf : frameOf s id = .ok f) (hx : read s id c = .ok x) (ho : .dropIdent k ∉ os)
    (hos : ∀ o ∈ os, ¬ Touches id.owner id.frameIndex f o) (ht : run s os = .ok t) :
    read t id c = .ok x ∧ frameOf t id = .ok f := by
  obtain ⟨m, f', F, b, cs, h1, h2, h3, h4, h5⟩ := (read_spec _ _ _ _).1 hx
  obtain ⟨m', h1', h2'⟩ := frameOf_iff.1 hf
  cases h1.symm.trans h1'
  cases h2.symm.trans h2'
  obtain ⟨m2, F2, g1, g2, g3, g4⟩ := run_keeps hk ho hos ⟨m, F, h1, h2, h3, rfl⟩ ht
  exact ⟨(read_spec _ _ _ _).2 ⟨m2, f, F2, b, cs, g1, g2, g3, g4 ▸ h4, h5⟩, frameOf_iff.2 ⟨m2, g1, g2⟩⟩

/-- **The references given out stay good as long**: as the identifier lives and its slot and the columns of that frame are
not assigned. -/
theorem view_stable {s t : State α} {os : List (Op α)} {k : Nat} {id : Ident} {c : Chan} {v : View}
    (hk : s.ident k = some id) (hv : view s id c = .ok v) (ho : .dropIdent k ∉ os)
    (hos : ∀ o ∈ os, ¬ Touches id.owner id.frameIndex v.frame o) (ht : run s os = .ok t) :
    ∃ x, deref t v = .ok x ∧ read s id c = .ok x := by
  obtain ⟨f, hf, hv'⟩ := Outcome.bind_eq_ok.1 hv
  obtain ⟨m, h1, h2⟩ := frameOf_iff.1 hf
  split at hv'
  · cases hv'
  · rename_i F hF
    split at hv'
    · cases hv'
    · rename_i b cs hd
      split at hv'
      · rename_i hlt
        cases hv'
        obtain ⟨m2, F2, g1, g2, g3, g4⟩ := run_keeps hk ho hos ⟨m, F, h1, h2, hF, rfl⟩ ht
        have hx : cs[id.keypointIndex]? = some cs[id.keypointIndex] := List.getElem?_eq_getElem hlt
        refine ⟨cs[id.keypointIndex], ?_, (read_spec _ _ _ _).2 ⟨m, f, F, b, cs, h1, h2, hF, hd, hx⟩⟩
        unfold deref
        simp only [g3, g4, hd, if_true, hx]
      · cases hv'

/-- **Assigning as many columns as there were shows the new ones through old references and identifiers.** -/
theorem view_sees {s t : State α} {k f : Nat} {id : Ident} {c : Chan} {F : Frame α} {b : Nat} {cs cs' : List α} (hs : Inv s)
    (hk : s.ident k = some id) (hv : view s id c = .ok ⟨f, c, b, id.keypointIndex⟩) (hF : s.frame f = some F)
    (hd : F.data c = some (b, cs)) (hlen : cs'.length = cs.length) (hfh : f ∈ s.fh)
    (ht : step s (.setData f c cs') = .ok t) :
    ∃ x, cs'[id.keypointIndex]? = some x ∧ deref t ⟨f, c, b, id.keypointIndex⟩ = .ok x ∧ read t id c = .ok x := by
  obtain ⟨f', hf, hv'⟩ := Outcome.bind_eq_ok.1 hv
  obtain ⟨m, h1, h2⟩ := frameOf_iff.1 hf
  split at hv'
  · cases hv'
  · rename_i F' hF'
    split at hv'
    · cases hv'
    · rename_i b' cs2 hd'
      split at hv'
      · rename_i hlt
        cases hv'
        cases hF.symm.trans hF'
        cases hd.symm.trans hd'
        obtain ⟨w, hw, hu⟩ := Outcome.bind_eq_ok.1 ht
        cases hu
        simp only [act, hfh, not_true, if_false, hF, hd, assign, hlen.symm, if_true] at hw
        cases hw
        have hx : cs'[id.keypointIndex]? = some (cs'[id.keypointIndex]'(by omega)) := List.getElem?_eq_getElem _
        have hH : Holds { s with frames := s.frames.set f (some (F.set c (some (b, cs')))), next := s.next + 1 }
            id.owner id.frameIndex f (F.set c (some (b, cs'))).data := by
          refine ⟨m, _, h1, h2, ?_, rfl⟩
          show ((s.frames.set f _)[f]?).join = _
          rw [join_set, if_pos ⟨rfl, lt_of_join hF⟩]
        have hC := fun hO => collect_holds hO hH
        obtain ⟨m2, F2, g1, g2, g3, g4⟩ := hC (.inr ⟨k, id, hk, rfl⟩)
        have hdc : F2.data c = some (b, cs') := by rw [g4]; simp [Frame.set]
        refine ⟨_, hx, ?_, (read_spec _ _ _ _).2 ⟨m2, f, F2, b, cs', g1, g2, g3, hdc, hx⟩⟩
        unfold deref
        simp only [g3, hdc, if_true, hx]
      · cases hv'

/-! ## Where identifiers do not keep what they were made for -/

/-- A frame with the keypoints `1`, `2` in slot `0` of an n-frame, and an identifier of the second one.  The program keeps
the handles `0` to the frame and to the n-frame. -/
def demo : List (Op Nat) :=
  [.newFrame none, .setData 0 .keypoints [1, 2], .newNFrame 1, .setFrame 0 0 0, .create 0 0 1]

/-- What the identifier made by `demo` reads after more calls. -/
def after (os : List (Op Nat)) (c : Chan) : Outcome Nat := do
  let s ← run State.start (demo ++ os)
  read s ⟨0, 0, 1⟩ c

/-- The program is one the theorems speak of: it succeeds, the identifier is there and reads the second keypoint, also after
both handles are dropped and another frame is made. -/
example : (∃ s, run State.start demo = .ok s ∧ s.ident 0 = some ⟨0, 0, 1⟩) ∧ after [] .keypoints = .ok 2
    ∧ after [.dropFrame 0, .dropNFrame 0, .newFrame none, .setData 1 .keypoints [7, 8, 9]] .keypoints = .ok 2 :=
  ⟨⟨_, rfl, rfl⟩, rfl, rfl⟩

/-- **Refuted: that an identifier goes on referring to the keypoint it was made for.**  When another frame is put into the
slot, the identifier reads a keypoint of that frame, without a word. -/
theorem replaced_refuted :
    ∃ (s t : State Nat) (os : List (Op Nat)) (id : Ident), run State.start demo = .ok s ∧ s.ident 0 = some id
      ∧ read s id .keypoints = .ok 2 ∧ run s os = .ok t ∧ t.ident 0 = some id ∧ read t id .keypoints = .ok 6 :=
  ⟨_, _, [.newFrame none, .setData 1 .keypoints [5, 6], .setFrame 0 0 1], ⟨0, 0, 1⟩, rfl, rfl, rfl, rfl, rfl, rfl⟩

/-- **Refuted: that an identifier can be asked as long as it lives.**  When the slot is emptied, the keypoints are cleared
or fewer are set, asking it stops the process. -/
theorem asked_refuted :
    after [.unSetFrame 0 0] .keypoints = .abort ∧ after [.clear 0] .keypoints = .abort
      ∧ after [.setData 0 .keypoints [1]] .keypoints = .abort := ⟨rfl, rfl, rfl⟩

/-- **Refuted: that an identified keypoint has a descriptor and a camera.**  Only the measurements are checked when an
identifier is made: with fewer descriptors, with none, or without a rig, asking stops the process. -/
theorem descriptor_refuted :
    after [] .descriptors = .abort ∧ after [.setData 0 .descriptors [4]] .descriptors = .abort
      ∧ (∃ s : State Nat, run State.start demo = .ok s ∧ camera s ⟨0, 0, 1⟩ = .abort) := ⟨rfl, rfl, ⟨_, rfl, rfl⟩⟩

/-- Asking for a reference, doing more, and reading through the reference. -/
def later (os : List (Op Nat)) : Outcome Nat := do
  let s ← run State.start demo
  let v ← view s ⟨0, 0, 1⟩ .keypoints
  let t ← run s os
  deref t v

/-- **Refuted: that the references an identifier gives stay good as long as the identifier.**  Setting another number of
keypoints frees the memory they point to, and so does replacing the frame once no handle to it is left; the identifier is
still there, and so is the n-frame. -/
theorem dangling_refuted :
    later [] = .ok 2 ∧ later [.setData 0 .keypoints [1, 2, 3]] = .ub ∧ later [.unSetFrame 0 0, .dropFrame 0] = .ub
      ∧ later [.setData 0 .keypoints [3, 4]] = .ok 4 := ⟨rfl, rfl, rfl, rfl⟩

/-- **Refuted: that the camera of the identifier is the camera of its frame.**  The frame can be given another camera
afterwards; the identifier asks the rig. -/
theorem camera_refuted :
    ∃ (s t : State Nat) (F : Frame Nat), run State.start
        [.newFrame (some 10), .setData 0 .keypoints [1], .newNFrame 1, .setNCameras 0 [10], .setFrame 0 0 0, .create 0 0 0] = .ok s
      ∧ camera s ⟨0, 0, 0⟩ = .ok 10 ∧ step s (.setCamera 0 11) = .ok t ∧ t.ident 0 = some ⟨0, 0, 0⟩
      ∧ camera t ⟨0, 0, 0⟩ = .ok 10 ∧ frameOf t ⟨0, 0, 0⟩ = .ok 0 ∧ t.frame 0 = some F ∧ F.cam = some 11 :=
  ⟨_, _, _, rfl, rfl, rfl, rfl, rfl, rfl, rfl, rfl⟩

/-- **A frame put into a slot of an n-frame with a rig has the camera of the rig.** -/
theorem setFrame_camera {s t : State α} {n i f : Nat} {m : NFrame} {F : Frame α} {rig : List Nat} (hn : n ∈ s.nh)
    (hf : f ∈ s.fh) (hm : s.nframe n = some m) (hF : s.frame f = some F) (hrig : m.rig = some rig)
    (ht : step s (.setFrame n i f) = .ok t) :
    ∃ c, rig[i]? = some c ∧ F.cam = some c ∧ frameOf t ⟨n, i, 0⟩ = .ok f ∧ camera t ⟨n, i, 0⟩ = .ok c := by
  obtain ⟨w, hw, hu⟩ := Outcome.bind_eq_ok.1 ht
  cases hu
  simp only [act, hn, hf, not_true, or_self, if_false, hm, hF] at hw
  split at hw
  · rename_i hi
    split at hw
    · rename_i hc
      cases hw
      simp only [cameraFits, hrig, Bool.and_eq_true, beq_iff_eq] at hc
      obtain ⟨c, hc2⟩ := Option.isSome_iff_exists.1 hc.2
      have hnf : State.nframe (collect { s with nframes := s.nframes.set n (some { m with slots := m.slots.set i (some f) }) }) n
          = some { m with slots := m.slots.set i (some f) } := by
        rw [collect_nframe, if_pos (.inl hn)]
        show ((s.nframes.set n _)[n]?).join = _
        rw [join_set, if_pos ⟨rfl, lt_of_join hm⟩]
      refine ⟨c, hc2, by rw [← hc.1, hc2], frameOf_iff.2 ⟨_, hnf, ?_⟩, ?_⟩
      · show (m.slots.set i (some f))[i]? = _
        rw [List.getElem?_set, if_pos rfl, if_pos hi]
      · simp only [camera, hnf]
        simp only [hrig, hc2]
    · cases hw
  · cases hw

/-- A frame that does not have the camera of the rig is refused. -/
example : run (State.start : State Nat) [.newFrame (some 3), .newNFrame 1, .setNCameras 0 [10], .setFrame 0 0 0] = .abort := rfl

theorem setCameras_other (slots : List (Option Nat)) (rig : List Nat) (frames : List (Option (Frame α))) {f : Nat}
    (h : some f ∉ slots) : (setCameras slots rig frames)[f]? = frames[f]? := by
  induction slots generalizing rig frames with
  | nil => simp [setCameras]
  | cons x xs ih =>
    have hx : some f ∉ xs := fun e => h (.tail _ e)
    cases rig with
    | nil => cases x <;> simp [setCameras]
    | cons c cs =>
      cases x with
      | none => exact ih cs frames hx
      | some g =>
        have hg : g ≠ f := fun e => h (e ▸ .head _)
        simp only [setCameras]
        rw [ih cs _ hx, List.getElem?_modify]
        simp [hg]

theorem setCameras_cam (slots : List (Option Nat)) (rig : List Nat) (frames : List (Option (Frame α))) {i f c : Nat}
    {F : Frame α} (hi : slots[i]? = some (some f)) (hc : rig[i]? = some c) (hF : (frames[f]?).join = some F)
    (hlast : some f ∉ slots.drop (i + 1)) :
    ∃ F', ((setCameras slots rig frames)[f]?).join = some F' ∧ F'.cam = some c ∧ F'.data = F.data := by
  induction slots generalizing rig frames i F with
  | nil => simp at hi
  | cons x xs ih =>
    cases rig with
    | nil => simp at hc
    | cons c' cs =>
      cases i with
      | zero =>
        simp only [List.getElem?_cons_zero, Option.some.injEq] at hi hc
        subst hi hc
        simp only [setCameras]
        rw [setCameras_other xs cs _ (by simpa using hlast), List.getElem?_modify]
        rw [Option.join_eq_some_iff] at hF
        exact ⟨{ F with cam := some c' }, by simp [hF], rfl, rfl⟩
      | succ i =>
        simp only [List.getElem?_cons_succ] at hi hc
        have hl : some f ∉ xs.drop (i + 1) := by simpa using hlast
        cases x with
        | none => exact ih cs frames hi hc hF hl
        | some g =>
          simp only [setCameras]
          by_cases e : g = f
          · subst e
            refine ih cs _ (F := { F with cam := some c' }) hi hc ?_ hl
            rw [Option.join_eq_some_iff] at hF
            rw [List.getElem?_modify]; simp [hF]
          · refine ih cs _ hi hc ?_ hl
            rw [List.getElem?_modify]; simp [e, hF]

/-- **A rig is accepted exactly if it has as many cameras as the n-frame has slots; then identifiers give its cameras, and
the frame in a slot has the camera of the slot**, or, being in several slots, of the last of them.  Keypoints are kept. -/
theorem setNCameras_spec {s : State α} (hs : Inv s) {n : Nat} {m : NFrame} {rig : List Nat} (hn : n ∈ s.nh)
    (hm : s.nframe n = some m) :
    ((∃ t, step s (.setNCameras n rig) = .ok t) ↔ m.slots.length = rig.length)
      ∧ ∀ t, step s (.setNCameras n rig) = .ok t → ∀ (i c : Nat), rig[i]? = some c →
        (∀ j, camera t ⟨n, i, j⟩ = .ok c) ∧ ∀ f, m.slots[i]? = some (some f) → some f ∉ m.slots.drop (i + 1) →
          ∃ F F', s.frame f = some F ∧ t.frame f = some F' ∧ F'.cam = some c ∧ F'.data = F.data := by
  have hact : act s (.setNCameras n rig) = if m.slots.length = rig.length then
      .ok { s with
        nframes := s.nframes.set n (some { m with rig := some rig })
        frames := setCameras m.slots rig s.frames }
      else .abort := by
    simp only [act, hn, not_true, if_false, hm]
  refine ⟨?_, ?_⟩
  · unfold step
    rw [hact]
    by_cases h : m.slots.length = rig.length
    · rw [if_pos h]; exact ⟨fun _ => h, fun _ => ⟨_, rfl⟩⟩
    · rw [if_neg h]
      refine ⟨?_, fun e => absurd e h⟩
      rintro ⟨t, ht⟩
      cases ht
  · intro t ht i c hc
    obtain ⟨w, hw, hu⟩ := Outcome.bind_eq_ok.1 ht
    cases hu
    rw [hact] at hw
    split at hw
    · cases hw
      have hnf : State.nframe (collect { s with
          nframes := s.nframes.set n (some { m with rig := some rig })
          frames := setCameras m.slots rig s.frames }) n = some { m with rig := some rig } := by
        rw [collect_nframe, if_pos (.inl hn)]
        show ((s.nframes.set n _)[n]?).join = _
        rw [join_set, if_pos ⟨rfl, lt_of_join hm⟩]
      refine ⟨fun j => by simp only [camera, hnf, hc], ?_⟩
      intro f hf hlast
      obtain ⟨F, hF⟩ := slot_frame hs hm hf
      obtain ⟨F', h1, h2, h3⟩ := setCameras_cam m.slots rig s.frames hf hc hF hlast
      refine ⟨F, F', hF, ?_, h2, h3⟩
      rw [collect_frame, if_pos (.inr ⟨n, _, hnf, mem_slots hf⟩)]
      exact h1
    · cases hw

/-- Two cameras for two slots; the frame in the second slot gets the second camera. -/
example : ∃ (s : State Nat) (F : Frame Nat), run State.start
      [.newFrame none, .newNFrame 2, .setFrame 0 1 0, .setNCameras 0 [10, 11]] = .ok s ∧ s.frame 0 = some F
      ∧ F.cam = some 11 := ⟨_, _, rfl, rfl, rfl⟩

/-- **Refuted: that after setting the rig each slot has a frame with the camera of that slot.**  One frame may be in two
slots; it has the camera of the second one. -/
theorem rig_refuted :
    ∃ (s : State Nat) (F : Frame Nat), run State.start
      [.newFrame none, .newNFrame 2, .setFrame 0 0 0, .setFrame 0 1 0, .setNCameras 0 [10, 11]] = .ok s
      ∧ frameOf s ⟨0, 0, 0⟩ = .ok 0 ∧ camera s ⟨0, 0, 0⟩ = .ok 10 ∧ s.frame 0 = some F ∧ F.cam = some 11 :=
  ⟨_, _, rfl, rfl, rfl, rfl, rfl⟩

end Verif.FeatureTrack.Life
