import Verif.Model.Device
import Verif.Spec.Faults

/-!
# An open file as a handle on a stream

`Model/File.lean` takes an open file to be its index and its contents. Here it is what it is in the code: the index
and a stream with a position (`src/file/mod.rs:33-36`), which every call leaves wherever it happens to end. Reads go
through a fresh `BufReader` of the given capacity, writes through a `BufWriter` as in `Model/Stream.lean`.
-/

namespace Tedium

/-! ## Opening -/

/-- `src/meta_data.rs:176-203` `Segment::read`: tag and flags are read from the stream itself, the rest through a
    `BufReader` (`src/io/reader.rs:44-58`). The position afterwards is where the `BufReader` left the stream. -/
def Device.readSegment (al : Alloc) (capacity : Nat) (d : Device) : R Segment × Device :=
  match (BufReader.new 0 d).readExact 4 with
  | (.error (.err (.ioError .unexpectedEof)), b) => (R.err .endOfFile, b.dev)
  | (.error e, b) => (.error e, b.dev)
  | (.ok tag, b) =>
    if tag ≠ tdsmTag then (R.err (.headerPatternNotMatched tag), b.dev)
    else
      match b.readExact 4 with
      | (.error e, b) => (.error e, b.dev)
      | (.ok buf, b) =>
        let toc := ToC.fromU32 (decNat .little buf)
        let (r, b) := (BufReader.new capacity b.dev).run (Act.segment al (if toc.bigEndian then .big else .little) toc)
        (r, b.dev)

/-- the loop of `build_index`, `src/file/mod.rs:62-73`: an error of the seek ends the loop without an error. -/
def Device.openLoop (al : Alloc) (capacity : Nat) : (fuel : Nat) → Index → Device → R Index × Device
  | 0, _, d => (.error .hang, d)
  | fuel + 1, ix, d =>
    match d.readSegment al capacity with
    | (.error (.err .endOfFile), d) => (.ok ix, d)
    | (.error e, d) => (.error e, d)
    | (.ok segment, d) =>
      match ix.addSegment segment with
      | (.error e, _) => (.error e, d)
      | (.ok next, ix) =>
        match d.seekStart next with
        | (some _, d) => (.ok ix, d)
        | (none, d) => Device.openLoop al capacity fuel ix d

/-- `src/file/mod.rs:56-75` `build_index` -/
def Device.buildIndex (al : Alloc) (capacity : Nat) (d : Device) : R Index × Device :=
  match d.seekStart 0 with
  | (some kind, d) => (R.err (.ioError kind), d)
  | (none, d) => d.openLoop al capacity (d.bytes.length / leadInBytes + 1) Index.new

/-- `src/file/mod.rs:33-36` `TdmsFile` -/
structure Handle where
  index : Index
  dev : Device
  deriving DecidableEq, Repr

/-- `src/file/mod.rs:86-89` `TdmsFile::new` -/
def Handle.new (al : Alloc) (capacity : Nat) (d : Device) : R Handle :=
  match d.buildIndex al capacity with
  | (.error e, _) => .error e
  | (.ok index, dev) => .ok ⟨index, dev⟩

/-! ## Reading -/

section
variable {α : Type}

/-- `to_file_position(start)?` on a fresh `BufReader` (`src/io/reader.rs:30-34`), then the program -/
def Device.runAt (capacity : Nat) (start : Nat) (a : Act α) (d : Device) : R α × Device :=
  match (BufReader.new capacity d).seekStart start with
  | (some kind, b) => (R.err (.ioError kind), b.dev)
  | (none, b) =>
    let (r, b) := b.run a
    (r, b.dev)

/-- `src/raw_data/mod.rs:197-237` `read`; `rd` is `D::read_le` and `D::read_be`. -/
def DataBlock.readDev (S : Storage α) (rd : Endian → Act α) (capacity : Nat) (b : DataBlock)
    (reqs : List (ChannelRequest α)) (d : Device) : R (Nat × List (RecordEntry α)) × Device :=
  match buildRecordPlan S b.channels reqs with
  | .error e => (.error e, d)
  | .ok plan =>
    match b.layout with
    | .contigious => d.runAt capacity b.start (Act.contigReadFrom S (rd b.byteOrder) b.length plan 0)
    | .interleaved => d.runAt capacity b.start (Act.interRead S (rd b.byteOrder) b.length plan)

/-- `src/raw_data/mod.rs:321-389` `read_with_per_channel_skip` -/
def DataBlock.readWithSkipDev (S : Storage α) (rd : Endian → Act α) (capacity : Nat) (b : DataBlock)
    (reqs : List (ChannelRequest α)) (d : Device) : R (Nat × List (RecordEntry α)) × Device :=
  let skips := reqs.map (·.skip)
  match buildRecordPlan S b.channels reqs with
  | .error e => (.error e, d)
  | .ok plan =>
    match b.layout with
    | .contigious => d.runAt capacity b.start (Act.contigReadSkip S (rd b.byteOrder) b.length plan skips)
    | .interleaved => d.runAt capacity b.start (Act.interRead S (rd b.byteOrder) b.length (setSkips skips plan))

/-- one iteration of `execute_read_plan`, `src/file/channel_reader.rs:156-192` -/
def executeBlockDev (S : Storage α) (rd : Endian → Act α) (capacity : Nat) (ix : Index) (loc : BlockRead)
    (ps : List (Progress α)) (d : Device) : R (List (Progress α)) × Device :=
  let anySkip := loc.channelIndexes.any (fun
    | some p => decide (p.samplesToSkip > 0)
    | none => false)
  match ix.getDataBlock loc.dataBlock with
  | none => (R.err (.dataBlockNotFound loc.dataBlock), d)
  | some block =>
    let reqs := blockRequests 0 loc.channelIndexes ps
    match (if anySkip then block.readWithSkipDev S rd capacity reqs d else block.readDev S rd capacity reqs d) with
    | (.error e, d) => (.error e, d)
    | (.ok (n, plan), d) => (.ok (addSamples n loc.channelIndexes (storeOutputs (planOutputs plan) 0 ps)), d)

/-- `src/file/channel_reader.rs:145-200` `execute_read_plan` -/
def executePlanDev (S : Storage α) (rd : Endian → Act α) (capacity : Nat) (ix : Index) : List BlockRead →
    List (Progress α) → Device → R (List (Progress α)) × Device
  | [], ps, d => (.ok ps, d)
  | loc :: locs, ps, d =>
    match executeBlockDev S rd capacity ix loc ps d with
    | (.error e, d) => (.error e, d)
    | (.ok ps, d) =>
      if ps.all Progress.isComplete then (.ok ps, d) else executePlanDev S rd capacity ix locs ps d

end

namespace Handle

/-- the index and the contents: what `Model/File.lean` takes an open file to be (`src/file/mod.rs:31-34`) -/
def file (h : Handle) : TdmsFile := ⟨h.index, h.dev.bytes⟩

/-- `src/file/channel_reader.rs:120-139` `read_channels_from` -/
def readChannelsFrom (al : Alloc) (capacity : Nat) (ty : STy) (h : Handle) (channels : List ChannelPath) (start : Nat)
    (outputs : List (List ty.Val)) : R (List (List ty.Val)) × Handle :=
  match h.file.lookupPositions channels with
  | .error e => (.error e, h)
  | .ok positions =>
    match readPlan positions start with
    | .error e => (.error e, h)
    | .ok plan =>
      match executePlanDev (ty.storage al) (Act.value al ty) capacity h.index plan (outputs.map (fun o => ⟨o, 0⟩)) h.dev with
      | (.error e, dev) => (.error e, { h with dev })
      | (.ok ps, dev) => (.ok (ps.map (·.output)), { h with dev })

/-- `src/file/channel_reader.rs:79-92` `read_channel_from` -/
def readChannelFrom (al : Alloc) (capacity : Nat) (ty : STy) (h : Handle) (channel : ChannelPath) (start : Nat)
    (output : List ty.Val) : R (List ty.Val) × Handle :=
  match h.index.getChannelDataPositions channel with
  | none => (R.err (.missingObject channel.path), h)
  | some ls =>
    match readPlan [ls] start with
    | .error e => (.error e, h)
    | .ok plan =>
      match executePlanDev (ty.storage al) (Act.value al ty) capacity h.index plan [⟨output, 0⟩] h.dev with
      | (.error e, dev) => (.error e, { h with dev })
      | (.ok ps, dev) => (.ok ((ps.map (·.output)).headD []), { h with dev })

end Handle

/-! ## Writing -/

/-- Writing bytes to a stream at its position: what is there is overwritten, what lies beyond the end is
    appended, a gap is filled with zeros. The parameter `F: Write` of `src/file/mod.rs:155`. -/
def Device.write (d : Device) (bs : Bytes) : Device :=
  if bs = [] then d
  else
    { d with
      bytes := d.bytes.take d.pos ++ List.replicate (d.pos - d.bytes.length) 0 ++ bs ++ d.bytes.drop (d.pos + bs.length)
      pos := d.pos + bs.length }

/-- The results of the calls, and the writer afterwards (`src/file/file_writer.rs:39-99`). -/
def FileWriter.calls (al : Alloc) (split : Bytes → List Bytes) (w : FileWriter) : List Call →
    List (R Unit) × FileWriter
  | [] => ([], w)
  | c :: cs =>
    let (r, w) := Faults.run al split w c
    let (rs, w) := FileWriter.calls al split w cs
    (r :: rs, w)

/-- `src/file/mod.rs:179-188` `writer`, calls on the writer, and its drop. The writer of `Model/Stream.lean` runs
    over an empty stream, which collects the bytes that reach the stream; they are written where the stream
    stands. `script` is what the `write` calls do. (A position is not changed by a failing `write`.) -/
def Handle.session (al : Alloc) (split : Bytes → List Bytes) (capacity : Nat) (script : List WriteOutcome) (h : Handle)
    (calls : List Call) : R (List (R Unit)) × Handle :=
  match h.dev.seekEnd with
  | (some kind, dev) => (R.err (.ioError kind), { h with dev })
  | (none, dev) =>
    let (rs, w) := FileWriter.calls al split ⟨h.index, ⟨capacity, [], ⟨[], script⟩⟩⟩ calls
    (.ok rs, ⟨w.index, dev.write w.out.drop⟩)

end Tedium
