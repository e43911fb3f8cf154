import Verif.Model.DataType
import Verif.Model.Paths

/-! # What the crate prints (`src/error.rs`, `src/io/data_types/mod.rs`, `src/paths.rs`)

The `Display` texts. The formatting of numbers is the standard library's: `{}` prints a number in decimal,
`{:X}` in upper case hexadecimal, `{:X?}` an array as its elements in hexadecimal between brackets. -/

namespace Tedium

/-- One digit of a number in upper case hexadecimal or in decimal (`core::fmt`, used by the attributes of
    `src/error.rs:8-75`). -/
def digitChar (d : Nat) : Char := ['0', '1', '2', '3', '4', '5', '6', '7', '8', '9', 'A', 'B', 'C', 'D', 'E', 'F'].getD d '?'

/-- A number in a base, most significant digit first, no leading zero (`core::fmt`; used by
    `src/error.rs:8,18,22,26`). -/
def printNat (base : Nat) (n : Nat) : Text :=
  if _h : n < base ∨ base < 2 then [digitChar n]
  else printNat base (n / base) ++ [digitChar (n % base)]
  termination_by n
  decreasing_by exact Nat.div_lt_self (by omega) (by omega)

/-- `{}` of an unsigned number (`src/error.rs:26`). -/
def decimal (n : Nat) : Text := printNat 10 n
/-- `{:X}` of an unsigned number (`src/error.rs:8,18`). -/
def hex (n : Nat) : Text := printNat 16 n

/-- The elements of an array, separated as `Debug` separates them (`src/error.rs:22`). -/
def printElements : Bytes → Text
  | [] => []
  | [b] => hex b.toNat
  | b :: bs => hex b.toNat ++ [',', ' '] ++ printElements bs

/-- `{:X?}` of `[u8; 4]` (`src/error.rs:22`). -/
def printArray (bs : Bytes) : Text := ['['] ++ printElements bs ++ [']']

namespace DataType

/-- `src/io/data_types/mod.rs:91-118` `Display for DataType`. -/
def shown : DataType → Text
  | .void => "Void".toList
  | .i8 => "I8".toList
  | .i16 => "I16".toList
  | .i32 => "I32".toList
  | .i64 => "I64".toList
  | .u8 => "U8".toList
  | .u16 => "U16".toList
  | .u32 => "U32".toList
  | .u64 => "U64".toList
  | .singleFloat => "SingleFloat".toList
  | .doubleFloat => "DoubleFloat".toList
  | .extendedFloat => "ExtendedFloat".toList
  | .singleFloatWithUnit => "SingleFloatWithUnit".toList
  | .doubleFloatWithUnit => "DoubleFloatWithUnit".toList
  | .extendedFloatWithUnit => "ExtendedFloatWithUnit".toList
  | .tdmsString => "TdmsString".toList
  | .boolean => "Boolean".toList
  | .timestamp => "TimeStamp".toList
  | .fixedPoint => "FixedPoint".toList
  | .complexSingleFloat => "ComplexSingleFloat".toList
  | .complexDoubleFloat => "ComplexDoubleFloat".toList
  | .daqmxRawData => "DAQmxRawData".toList

/-- `#[derive(Debug)]` of `DataType` (`src/io/data_types/mod.rs:38-63`): the variant's name. It differs from
    the `Display` text in the spelling of `Timestamp`. -/
def debug : DataType → Text
  | .timestamp => "Timestamp".toList
  | t => t.shown

end DataType

/-- `src/paths.rs:175-185` `Display` and `Debug` of `PropertyPath`. -/
def PropertyPath.shown (p : PropertyPath) : Text := p.path

/-- `src/paths.rs:256-260` `Display` of `ChannelPath`. -/
def ChannelPath.shown (c : ChannelPath) : Text := c.inner.path

/-- `src/error.rs:6-75` the `#[error(...)]` texts. The model's `dataBlockNotFound` does not carry the channel
    path that the code's variant carries: the only place that raises it always gives the path of a channel
    `MIXED` of a group `MIXED` (`src/file/channel_reader.rs:166-169`).
    The variants the model leaves out (`UnknownDataType`, `IndexReaderError`: never constructed;
    `ChronoDateTimeConversionFailed`: a feature of its own) have no text here. -/
def TdmsError.message : TdmsError → Text
  | .missingObject path => "Group or Channel not found in index. ".toList ++ path
  | .ioError _ => "IO Error".toList
  | .stringFormatError => "String formatting error".toList
  | .unknownPropertyType code => "Unknown Property Type: ".toList ++ hex code
  | .unsupportedType t => "Unsupported Property Type: ".toList ++ t.debug
  | .headerPatternNotMatched tag =>
    "Attempted to read header where no header exists. Bytes: ".toList ++ printArray tag
  | .dataBlockNotFound _ =>
    "Tried to access a datablock that doesn't exist when reading channel: ".toList ++
      (ChannelPath.new "MIXED".toList "MIXED".toList).shown
  | .badDataBlockLength len channels =>
    "The data block has length ".toList ++ (decimal len ++
      (" which is not divisible by the number of channels: ".toList ++ decimal channels))
  | .dataTypeMismatch found wanted =>
    "Attempting to read a channel or property of type ".toList ++ (found.shown ++
      (" as type ".toList ++ wanted.shown))
  | .endOfFile => "Attempted to read past the end of the file".toList
  | .segmentAddressOverflow =>
    "The start address for the next segment is invalid. The address overflowed. The file is likely corrupt.".toList
  | .segmentTocDataBlockWithoutDataChannels =>
    "The segment ToC expects a data block but no data channels are present. The file is likely corrupt.".toList
  | .invalidObjectPath path => "Attempted to parse an invalid object path. ".toList ++ path
  | .invalidChannelPath path => "Attempted to parse an valid but unsuitable path to a channel. ".toList ++ path
  | .noChannels => "Data blocks must have at least 1 channel".toList
  | .vecAllocationFailed =>
    "Memory allocation error for vector. This is likely to be due to file corruption.".toList
  | .stringAllocationFailed =>
    "Memory allocation error for string. This is likely to be due to file corruption.".toList
  | .propertyTableAllocationFailed =>
    "Memory allocation error for property table. This is likely to be due to file corruption.".toList
  | .zeroLengthDataBlock => "A data block has a lenght of zero. The file is likely to be corrupted.".toList
  | .noActiveChannelsInDataBlock =>
    "A data block has no active channels. The file is likely to be corrupted.".toList
  | .noPreviousType =>
    "The data block wants to use the same data type as previous, but no previous type is available.".toList
  | .invalidRawOffset =>
    "The raw data offset is greater than the next segment offset which is an invalid condition. The file is likely corrupt".toList
  | .chunkSizeOverflow =>
    "The calculated size for a data chunk is grater than 2^64 bytes. This isn't allowed and probably indicates a corrupt file.".toList
  | .daqmxChannelsNotSupported => "DAQmx Channels are not supported yet".toList

end Tedium
