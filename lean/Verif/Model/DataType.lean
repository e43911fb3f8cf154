import Verif.Model.Basic

/-! # Type codes and sizes (`src/io/data_types/mod.rs`) -/

namespace Tedium
namespace DataType

/-- `src/io/data_types/mod.rs:41-62` the discriminants (`*self as u32`). -/
def code : DataType → Nat
  | .void => 0 | .i8 => 1 | .i16 => 2 | .i32 => 3 | .i64 => 4
  | .u8 => 5 | .u16 => 6 | .u32 => 7 | .u64 => 8
  | .singleFloat => 9 | .doubleFloat => 10 | .extendedFloat => 11
  | .singleFloatWithUnit => 0x19 | .doubleFloatWithUnit => 12 | .extendedFloatWithUnit => 13
  | .tdmsString => 0x20 | .boolean => 0x21 | .timestamp => 0x44 | .fixedPoint => 0x4F
  | .complexSingleFloat => 0x0008000c | .complexDoubleFloat => 0x0010000d
  | .daqmxRawData => 0xFFFFFFFF

/-- All variants, in declaration order (`src/io/data_types/mod.rs:41-62`). -/
def all : List DataType :=
  [.void, .i8, .i16, .i32, .i64, .u8, .u16, .u32, .u64, .singleFloat, .doubleFloat,
   .extendedFloat, .singleFloatWithUnit, .doubleFloatWithUnit, .extendedFloatWithUnit,
   .tdmsString, .boolean, .timestamp, .fixedPoint, .complexSingleFloat, .complexDoubleFloat,
   .daqmxRawData]

/-- `#[derive(FromPrimitive)]` `from_u32` (`src/io/data_types/mod.rs:38`): compare with each
    discriminant in turn. -/
def ofCode? (n : Nat) : Option DataType := all.find? (fun t => t.code == n)

/-- `src/io/data_types/mod.rs:67-88` `DataType::size`. -/
def size : DataType → Nat
  | .void => 0
  | .i8 | .u8 => 1
  | .i16 | .u16 => 2
  | .i32 | .u32 => 4
  | .i64 | .u64 => 8
  | .singleFloat => 4
  | .doubleFloat => 8
  | .extendedFloat => 16
  | .singleFloatWithUnit => 4
  | .doubleFloatWithUnit => 8
  | .extendedFloatWithUnit => 16
  | .tdmsString => 0
  | .boolean => 1
  | .timestamp => 8
  | .fixedPoint => 8
  | .complexSingleFloat => 8
  | .complexDoubleFloat => 16
  | .daqmxRawData => 4

end DataType
end Tedium
