import Verif.Base.Outcome

/-!
# Channel groups

Model of `aslam_cv_common/include/aslam/common/channel.h`, `.../channel-declaration.h` and
`aslam_cv_common/src/channel.cc`.

A `ChannelGroup` maps names to `shared_ptr<ChannelBase>`; the heap objects are explicit so that sharing
is visible.  The mutex of a group is held for the whole of each function, so each call is one step.
-/

namespace Verif.Channels

open Verif (Outcome)

/-- The C++ value type of a channel (the template argument of `Channel<TYPE>`), as a tag (channel.h:69-99). -/
abbrev Ty := Nat

/-- Channel values.  `matrix` stands for Eigen matrices (dimensions and storage, copied by value);
`image` stands for `cv::Mat` (and pointer types): a handle to pixel storage that copies share (channel.h:31-50, 69-117). -/
inductive Val where
  | matrix (rows cols : Nat) (data : List UInt8)
  | image (buf : Nat)
  deriving DecidableEq, Repr

/-- A channel object on the heap: dynamic type and `value_` (channel.h:69-101). -/
structure Obj where
  ty : Ty
  val : Val
  deriving DecidableEq, Repr

/-- `ChannelMap` (channel.h:121): the list order stands for the arbitrary iteration order of the
`unordered_map`. -/
abbrev Group := List (String × Nat)

/-- All channel objects ever allocated, all pixel buffers, and the groups of the program (channel.h:122-123). -/
structure Store where
  objs : List Obj
  pixels : List (List UInt8)
  groups : List Group
  deriving DecidableEq, Repr

/-- The program before any group exists (channel.h:124). -/
def Store.empty : Store := ⟨[], [], []⟩

/-- `std::unordered_map::erase(key)` returning the number of erased elements (used at channel-declaration.h:92). -/
def erase (g : Group) (n : String) : Group × Nat :=
  (g.filter (fun e => e.1 ≠ n), if (g.lookup n).isSome then 1 else 0)

/-- The value of a freshly constructed `Channel<TYPE>`: an empty matrix.  Fixed-size Eigen types are
left uninitialised by C++; no channel declared by the library has such a type (channel.h:69-76). -/
def defaultVal : Val := .matrix 0 0 []

/-- `ChannelValueCloner::clone` (channel.h:31-50): a copy of the value; for `cv::Mat` and pointers the
copy is shallow, so the handle is copied. -/
def cloneVal : Val → Val
  | .matrix r c d => .matrix r c d
  | .image b => .image b

/-- Find a channel and cast it (channel-declaration.h:26-38 and 103-116): `CHECK` that it exists and
that `dynamic_pointer_cast` succeeds.  A dangling object id cannot occur (`shared_ptr`); `ub` for it. -/
def resolve (s : Store) (g : Group) (n : String) (t : Ty) : Outcome Nat :=
  match g.lookup n with
  | none => .abort
  | some i =>
    match s.objs[i]? with
    | none => .ub
    | some o => if o.ty = t then .ok i else .abort

/-- `Channel<TYPE>::operator==` on values: Eigen `==` for matrices is undefined for different sizes
(an assertion in debug builds); for images `cv::countNonZero(a != b) == 0`, throwing for different
sizes (channel.cc:10-13). -/
def valEq (pixels : List (List UInt8)) : Val → Val → Outcome Bool
  | .matrix r c d, .matrix r' c' d' =>
    if r = r' ∧ c = c' then .ok (decide (d = d')) else .ub
  | .image a, .image b =>
    match pixels[a]?, pixels[b]? with
    | some p, some q => if p.length = q.length then .ok (decide (p = q)) else .exc
    | _, _ => .ub
  | _, _ => .ub

/-- `Channel<TYPE>::compare` (channel.h:87-89): `CHECK_NOTNULL(dynamic_cast)` to the own type. -/
def compare (pixels : List (List UInt8)) (self other : Obj) : Outcome Bool :=
  if other.ty = self.ty then valEq pixels self.val other.val else .abort

/-- The loop of `isChannelGroupEqual` (channel.cc:38-46). -/
def equalLoop (s : Store) (right : Group) : Group → Outcome Bool
  | [] => .ok true
  | (n, i) :: rest =>
    match right.lookup n with
    | none => .ok false
    | some j =>
      match s.objs[j]?, s.objs[i]? with
      | some oj, some oi => do
        let b ← compare s.pixels oj oi
        if b then equalLoop s right rest else .ok false
      | _, _ => .ub

/-- `isChannelGroupEqual` (channel.cc:26-47); `same` is the address comparison. -/
def isChannelGroupEqual (s : Store) (same : Bool) (left right : Group) : Outcome Bool :=
  if same then .ok true
  else if left.length ≠ right.length then .ok false
  else equalLoop s right left

/-- The loop of `cloneChannelGroup` (channel.cc:15-24): every object is cloned into a new one. -/
def cloneLoop (objs : List Obj) : Group → List Obj × Group
  | [] => (objs, [])
  | (n, i) :: rest =>
    match objs[i]? with
    | some o =>
      let (objs', g') := cloneLoop (objs ++ [⟨o.ty, cloneVal o.val⟩]) rest
      (objs', (n, objs.length) :: g')
    | none => cloneLoop objs rest

/-- Calls a program can make (channel.h:124-131, channel.cc:15-24, channel-declaration.h:26-137). -/
inductive Op where
  /-- `ChannelGroup()` -/
  | newGroup
  /-- `add_NAME_Channel` / `addChannel<TYPE>` (channel-declaration.h:68-79, 125-137) -/
  | add (g : Nat) (n : String) (t : Ty)
  /-- `get_NAME_Data` / `getChannelData<TYPE>` read through the reference (26-38, 103-116) -/
  | get (g : Nat) (n : String) (t : Ty)
  /-- the same reference assigned to -/
  | set (g : Nat) (n : String) (t : Ty) (v : Val)
  /-- `has_NAME_Channel` / `hasChannel` (81-86, 118-123) -/
  | has (g : Nat) (n : String)
  /-- `remove_NAME_Channel` (88-94) -/
  | remove (g : Nat) (n : String)
  /-- `cloneChannelGroup` (channel.cc:15-24) -/
  | clone (g : Nat)
  /-- copy constructor / `operator=` (channel.h:125-131): the pointers are shared -/
  | assign (dst src : Nat)
  deriving DecidableEq, Repr

/-- What a call returns (channel-declaration.h:26-137). -/
inductive Out where
  | unit
  | bool (b : Bool)
  | val (v : Val)
  | group (g : Nat)
  deriving DecidableEq, Repr

/-- One call; `none` if it names a group that does not exist
(channel.h:124-131, channel.cc:15-24, channel-declaration.h:26-137). -/
def step (s : Store) : Op → Option (Outcome (Store × Out))
  | .newGroup => some (.ok ({ s with groups := s.groups ++ [[]] }, .group s.groups.length))
  | .add g n t =>
    match s.groups[g]? with
    | none => none
    | some m =>
      match m.lookup n with
      | some _ => some .abort
      | none => some (.ok ({ s with
          objs := s.objs ++ [⟨t, defaultVal⟩]
          groups := s.groups.set g ((n, s.objs.length) :: m) }, .val defaultVal))
  | .get g n t =>
    match s.groups[g]? with
    | none => none
    | some m => some (do
        let i ← resolve s m n t
        match s.objs[i]? with
        | some o => .ok (s, .val o.val)
        | none => .ub)
  | .set g n t v =>
    match s.groups[g]? with
    | none => none
    | some m => some (do
        let i ← resolve s m n t
        .ok ({ s with objs := s.objs.set i ⟨t, v⟩ }, .unit))
  | .has g n =>
    match s.groups[g]? with
    | none => none
    | some m => some (.ok (s, .bool (m.lookup n).isSome))
  | .remove g n =>
    match s.groups[g]? with
    | none => none
    | some m =>
      if (erase m n).2 = 1 then
        some (.ok ({ s with groups := s.groups.set g (erase m n).1 }, .unit))
      else some .abort
  | .clone g =>
    match s.groups[g]? with
    | none => none
    | some m =>
      let r := cloneLoop s.objs m
      some (.ok ({ s with objs := r.1, groups := s.groups ++ [r.2] }, .group s.groups.length))
  | .assign d g =>
    match s.groups[d]?, s.groups[g]? with
    | some _, some m => some (.ok ({ s with groups := s.groups.set d m }, .unit))
    | _, _ => none

/-- Writing into the pixel storage of the image channel `n` of group `g` (through `cv::Mat`, outside
of the channel code: what sharing at channel.h:31-50 is about). -/
def writePixels (s : Store) (g : Nat) (n : String) (t : Ty) (px : List UInt8) :
    Option (Outcome Store) :=
  match s.groups[g]? with
  | none => none
  | some m => some (do
      let i ← resolve s m n t
      match s.objs[i]? with
      | some ⟨_, .image b⟩ => .ok { s with pixels := s.pixels.set b px }
      | _ => .ub)

/-- Pixels seen through the image channel `n` of group `g` (the image that channel-declaration.h:26-38 returns). -/
def readPixels (s : Store) (g : Nat) (n : String) : Option (List UInt8) :=
  match s.groups[g]? with
  | none => none
  | some m =>
    match m.lookup n with
    | none => none
    | some i =>
      match s.objs[i]? with
      | some ⟨_, .image b⟩ => s.pixels[b]?
      | _ => none

end Verif.Channels
