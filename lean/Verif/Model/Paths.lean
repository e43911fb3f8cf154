import Verif.Model.Basic

/-! # Object paths (`src/paths.rs`) -/

namespace Tedium

/-- `src/paths.rs:15-17` `escape_name`: every `'` becomes `"`. -/
def escapeName (name : Text) : Text := name.map (fun c => if c = '\'' then '"' else c)

/-- `str::split(c)`: the pieces between occurrences of `c` (always at least one piece) (`src/paths.rs:37,121`). -/
def splitOn (c : Char) : Text → List Text
  | [] => [[]]
  | x :: xs =>
    if x = c then [] :: splitOn c xs
    else match splitOn c xs with
      | [] => [[x]]
      | h :: t => (x :: h) :: t

/-- `str::starts_with(char)` (`src/paths.rs:27,53,122`) -/
def startsWithChar (c : Char) (s : Text) : Bool := s.head? = some c
/-- `str::ends_with(char)` (`src/paths.rs:53,122`) -/
def endsWithChar (c : Char) (s : Text) : Bool := s.getLast? = some c

/-- `&name[1..name.len() - 1]` (`src/paths.rs:57,123`): panics when the range is decreasing.
    Both ends are ASCII quotes where this is used, so the range is on character boundaries. -/
def stripEnds (s : Text) : R Text :=
  if s.length < 2 then R.panic .sliceRange else .ok (s.tail.dropLast)

/-- `src/paths.rs:52-58` `parse_name` -/
def parseName (name : Text) : R (Option Text) :=
  if !startsWithChar '\'' name || !endsWithChar '\'' name then .ok none
  else do
    let inner ← stripEnds name
    return some inner

/-- One step of the lazy iterator `parts` (`src/paths.rs:36-39`) followed by `invert(..)?`
    (`src/paths.rs:40-41,65-67`): the next component, an error when it is not quoted. -/
def nextPart (path : Text) : List Text → R (Option Text × List Text)
  | [] => .ok (none, [])
  | p :: ps => do
    match ← parseName p with
    | some n => return (some n, ps)
    | none => R.err (.invalidObjectPath path)

/-- `src/paths.rs:25-49` `parse_path`. (`path.len() == 1` counts bytes; the path starts with `/`
    here, so this is the same as one character.) -/
def parsePath (path : Text) : R (Option Text × Option Text) :=
  if !startsWithChar '/' path then R.err (.invalidObjectPath path)
  else if path.length = 1 then .ok (none, none)
  else do
    let (group, rest) ← nextPart path ((splitOn '/' path).drop 1)
    let (channel, rest) ← nextPart path rest
    -- `parts.next().is_some()`: evaluates `parse_name` on the third component
    match rest with
    | [] => return (group, channel)
    | p :: _ => do
      let _ ← parseName p
      R.err (.invalidObjectPath path)

/-- `src/paths.rs:61-63` `path_group_name`: `parse_path(path).ok()?.0`. -/
def pathGroupName (path : Text) : R (Option Text) :=
  match parsePath path with
  | .ok (g, _) => .ok g
  | .error (.err _) => .ok none
  | .error f => .error f

/-- `src/paths.rs:90` `PropertyPath(String)` -/
structure PropertyPath where
  path : Text
  deriving DecidableEq, Repr

namespace PropertyPath

/-- `src/paths.rs:94-98` -/
def file : PropertyPath := ⟨['/']⟩
/-- `src/paths.rs:101-103` -/
def group (g : Text) : PropertyPath := ⟨['/', '\''] ++ escapeName g ++ ['\'']⟩
/-- `src/paths.rs:106-112` -/
def channel (g c : Text) : PropertyPath :=
  ⟨['/', '\''] ++ escapeName g ++ ['\'', '/', '\''] ++ escapeName c ++ ['\'']⟩

/-- `src/paths.rs:120-128` `path_levels().nth(n)`: the components are examined lazily from the left;
    unquoted ones are dropped, a component that is a lone quote panics when it is reached. -/
def nthLevel : Nat → List Text → R (Option Text)
  | _, [] => .ok none
  | n, v :: vs =>
    if startsWithChar '\'' v && endsWithChar '\'' v then do
      let inner ← stripEnds v
      match n with
      | 0 => return some inner
      | n + 1 => nthLevel n vs
    else nthLevel n vs

/-- `src/paths.rs:145-147` -/
def groupName (p : PropertyPath) : R (Option Text) := nthLevel 0 ((splitOn '/' p.path).drop 1)
/-- `src/paths.rs:162-164` -/
def channelName (p : PropertyPath) : R (Option Text) := nthLevel 1 ((splitOn '/' p.path).drop 1)

/-- `src/paths.rs:166-168` -/
def pathDepth (p : PropertyPath) : Nat := p.path.count '/'
/-- `src/paths.rs:170-172` -/
def isChannel (p : PropertyPath) : Bool := p.pathDepth = 2

/-- `src/paths.rs:187-199` `TryFrom<&str> for PropertyPath` -/
def tryFrom (value : Text) : R PropertyPath := do
  match ← parsePath value with
  | (none, none) => return file
  | (some g, none) => return group g
  | (some g, some c) => return channel g c
  | (none, some _) => R.panic .expect

end PropertyPath

/-- `src/paths.rs:212` `ChannelPath(PropertyPath)` -/
structure ChannelPath where
  inner : PropertyPath
  deriving DecidableEq, Repr

namespace ChannelPath

/-- `src/paths.rs:216-218` -/
def path (c : ChannelPath) : Text := c.inner.path
/-- `src/paths.rs:223-225` -/
def new (g c : Text) : ChannelPath := ⟨PropertyPath.channel g c⟩

/-- `Option::expect` (`src/paths.rs:231,238`) -/
def expectSome {α : Type} (o : Option α) : R α :=
  match o with
  | some a => .ok a
  | none => R.panic .expect

/-- `src/paths.rs:228-232` -/
def groupName (c : ChannelPath) : R Text := do expectSome (← c.inner.groupName)
/-- `src/paths.rs:235-239` -/
def channelName (c : ChannelPath) : R Text := do expectSome (← c.inner.channelName)

/-- `src/paths.rs:271-279` `TryFrom<PropertyPath> for ChannelPath` -/
def ofPropertyPath (p : PropertyPath) : R ChannelPath :=
  if !p.isChannel then R.err (.invalidChannelPath p.path) else .ok ⟨p⟩

/-- `src/paths.rs:262-269` `TryFrom<&str> for ChannelPath` -/
def tryFrom (value : Text) : R ChannelPath := do
  ofPropertyPath (← PropertyPath.tryFrom value)

end ChannelPath
end Tedium
