import Verif.Model.File
import Verif.Spec.Format

/-! # Which errors each call can return -/

namespace Tedium.ErrorSpec

/-- The errors of opening a file: what is wrong with the bytes (they end too early, a segment without its tag, text
    that is not UTF-8, unknown and unsupported types), with the structure, or memory that is not to be had (`al` says which requests for memory are granted). -/
inductive Opening (al : Alloc) : TdmsError → Prop
  | ends : Opening al (.ioError .unexpectedEof)
  | tag {bs : Bytes} : bs.length = 4 → bs ≠ [0x54, 0x44, 0x53, 0x6D] → Opening al (.headerPatternNotMatched bs)
  | text : Opening al .stringFormatError
  | code {n : Nat} : n < 2 ^ 32 → Format.typeCodes.lookup n = none → Opening al (.unknownPropertyType n)
  | fixedPoint : Opening al (.unsupportedType .fixedPoint)
  | daqmxProperty : Opening al (.unsupportedType .daqmxRawData)
  | daqmx : Opening al .daqmxChannelsNotSupported
  | vec {n : Nat} : al (.vec n) = false → Opening al .vecAllocationFailed
  | string {n : Nat} : al (.str n) = false → Opening al .stringAllocationFailed
  | table {n : Nat} : al (.props n) = false → Opening al .propertyTableAllocationFailed
  | previous : Opening al .noPreviousType
  | channels : Opening al .segmentTocDataBlockWithoutDataChannels
  | offset : Opening al .invalidRawOffset
  | zero : Opening al .zeroLengthDataBlock
  | chunk : Opening al .chunkSizeOverflow
  | address : Opening al .segmentAddressOverflow

/-- Some samples of the channel are stored with the type `d`: one of the places of the channel in the data blocks. -/
def StoredAs (t : TdmsFile) (c : ChannelPath) (d : DataType) : Prop :=
  ∃ places, t.index.getChannelDataPositions c = some places ∧
    ∃ l ∈ places, 0 < l.numberOfSamples ∧ ∃ block, t.index.getDataBlock l.dataBlock = some block ∧
      ∃ stored, block.channels[l.channelIndex]? = some stored ∧ stored.dataType = d

/-- The errors of reading the channels `asked` as a type: a channel that the file does not have, a type of samples of an
    asked channel that cannot be read as the wanted one, a position that is not in the file; and for strings the errors of text. -/
inductive Reading (t : TdmsFile) (al : Alloc) (ty : STy) (asked : List ChannelPath) : TdmsError → Prop
  | missing {c : ChannelPath} : c ∈ asked → t.channelLength c = .ok none → Reading t al ty asked (.missingObject c.path)
  | type {c : ChannelPath} {d : DataType} : c ∈ asked → StoredAs t c d → d ∉ (ty.storage al).supported →
      Reading t al ty asked (.dataTypeMismatch d (ty.storage al).natural)
  | ends : Reading t al ty asked (.ioError .unexpectedEof)
  | position : Reading t al ty asked (.ioError .invalidInput)
  | text : ty = .string → Reading t al ty asked .stringFormatError
  | memory {n : Nat} : ty = .string → al (.str n) = false → Reading t al ty asked .stringAllocationFailed

/-- The errors of writing `values` values to `channels` channels: arguments that do not fit, nothing to write, sizes
    that do not fit 64 bits. -/
inductive Writing (channels values : Nat) : TdmsError → Prop
  | none : channels = 0 → Writing channels values .noChannels
  | uneven : channels ≠ 0 → ¬ channels ∣ values → Writing channels values (.badDataBlockLength values channels)
  | nothing : channels ≠ 0 → values = 0 → Writing channels values .zeroLengthDataBlock
  | chunk : channels ≠ 0 → values ≠ 0 → Writing channels values .chunkSizeOverflow
  | address : channels ≠ 0 → values ≠ 0 → Writing channels values .segmentAddressOverflow

end Tedium.ErrorSpec
