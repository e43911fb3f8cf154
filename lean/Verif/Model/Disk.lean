import Verif.Spec.History

/-!
# Files in a file system

`TdmsFile::load` and `TdmsFile::create` (`src/file/mod.rs:36-54`) with a file system that maps names to contents, and any
number of open files, several of which may be handles on the same file. An open file keeps the index that it built, and
sees the contents that the file has at the moment (`src/file/mod.rs:31-34`).

Simplifications: every call has a writer of its own, which is dropped at once (`Tedium.BufW` models the buffer);
files are not removed or renamed; the file system may refuse to open a file, for a reason given by the environment, and is
otherwise reliable (`Tedium.Stream` and `Tedium.Device` model failing streams).
-/

namespace Tedium

/-- `ErrorKind::NotFound`, as one of the errors of the environment. Of `src/file/mod.rs:40`. -/
def IoKind.notFound : IoKind := .other 2

/-- The files by name, and the open files: the name and the index of each. The file system under `src/file/mod.rs:36-54`. -/
structure Disk (ν : Type) where
  files : ν → Option Bytes
  handles : List (ν × Index)

/-- What a program does: create or load a file (the file system may refuse), or use the open file with this number
    (`src/file/mod.rs:39,45,179`). -/
inductive DiskCall (ν : Type) where
  | create (name : ν) (refused : Option IoKind)
  | load (name : ν) (refused : Option IoKind)
  | call (handle : Nat) (op : Op)

namespace Disk
variable {ν : Type} [DecidableEq ν]

/-- Replace the contents of a file. The file system under `src/file/mod.rs:36-54`. -/
def put (files : ν → Option Bytes) (name : ν) (contents : Bytes) : ν → Option Bytes :=
  fun n => if n = name then some contents else files n

/-- What the open file with this number is at the moment: its index, and the contents of the file
    (`src/file/mod.rs:31-34`). -/
def view (d : Disk ν) (handle : Nat) : Option TdmsFile :=
  match d.handles[handle]? with
  | none => none
  | some (name, index) => (d.files name).map (fun bytes => { index, bytes })

/-- `src/file/mod.rs:45-53` `create`: `write(true).create(true).truncate(true).read(true)`, then `new` -/
def create (al : Alloc) (d : Disk ν) (name : ν) (refused : Option IoKind) : R Unit × Disk ν :=
  match refused with
  | some kind => (R.err (.ioError kind), d)
  | none =>
    let files := put d.files name []
    match TdmsFile.new al [] with
    | .error e => (.error e, { d with files })
    | .ok t => (.ok (), { files, handles := d.handles ++ [(name, t.index)] })

/-- `src/file/mod.rs:39-42` `load`: `read(true).write(true)`, then `new` -/
def load (al : Alloc) (d : Disk ν) (name : ν) (refused : Option IoKind) : R Unit × Disk ν :=
  match refused with
  | some kind => (R.err (.ioError kind), d)
  | none =>
    match d.files name with
    | none => (R.err (.ioError .notFound), d)
    | some contents =>
      match TdmsFile.new al contents with
      | .error e => (.error e, d)
      | .ok t => (.ok (), { d with handles := d.handles ++ [(name, t.index)] })

/-- A call of the writer of an open file: the bytes go to the end of the file (`src/file/mod.rs:179-188`), the index is
    updated. (There is nothing to call if there is no open file with this number.) -/
def call (al : Alloc) (d : Disk ν) (handle : Nat) (op : Op) : R Unit × Disk ν :=
  match d.handles[handle]? with
  | none => (.ok (), d)
  | some (name, index) =>
    match d.files name with
    | none => (.ok (), d)
    | some bytes =>
      let (r, t) := op.run al { index, bytes }
      (r, { files := put d.files name t.bytes, handles := d.handles.set handle (name, t.index) })

/-- One action (`src/file/mod.rs:39-53,179-188`). -/
def step (al : Alloc) (d : Disk ν) : DiskCall ν → R Unit × Disk ν
  | .create name refused => d.create al name refused
  | .load name refused => d.load al name refused
  | .call handle op => d.call al handle op

/-- Actions one after the other, whatever their results (`src/file/mod.rs:39-53,179-188`). -/
def run (al : Alloc) (d : Disk ν) (cs : List (DiskCall ν)) : Disk ν := cs.foldl (fun d c => (d.step al c).2) d

end Disk
end Tedium
