import Verif.Model.Storage

/-!
# Facts of the TDMS file format, stated without reference to the code

Type codes and the bits of the table of contents, from the NI white paper
"TDMS File Format Internal Structure".
-/

namespace Tedium.Format

/-- code ↔ type, as the white paper has it -/
def publishedCodes : List (Nat × DataType) :=
  [(0, .void), (1, .i8), (2, .i16), (3, .i32), (4, .i64), (5, .u8), (6, .u16), (7, .u32), (8, .u64),
   (9, .singleFloat), (10, .doubleFloat), (11, .extendedFloat), (0x19, .singleFloatWithUnit),
   (0x1A, .doubleFloatWithUnit), (0x1B, .extendedFloatWithUnit), (0x20, .tdmsString), (0x21, .boolean),
   (0x44, .timestamp), (0x4F, .fixedPoint), (0x08000c, .complexSingleFloat),
   (0x10000d, .complexDoubleFloat), (0xFFFFFFFF, .daqmxRawData)]

/-- code ↔ type, as this library has it: two of the types with a unit have codes of their own
    (`src/io/data_types/mod.rs:54-55`). -/
def typeCodes : List (Nat × DataType) :=
  [(0, .void), (1, .i8), (2, .i16), (3, .i32), (4, .i64), (5, .u8), (6, .u16), (7, .u32), (8, .u64),
   (9, .singleFloat), (10, .doubleFloat), (11, .extendedFloat), (0x19, .singleFloatWithUnit),
   (12, .doubleFloatWithUnit), (13, .extendedFloatWithUnit), (0x20, .tdmsString), (0x21, .boolean),
   (0x44, .timestamp), (0x4F, .fixedPoint), (0x08000c, .complexSingleFloat),
   (0x10000d, .complexDoubleFloat), (0xFFFFFFFF, .daqmxRawData)]

/-- The number of bytes of a number type in the file. -/
def width : STy → Option Nat
  | .i8 | .u8 => some 1
  | .i16 | .u16 => some 2
  | .i32 | .u32 | .f32 => some 4
  | .i64 | .u64 | .f64 => some 8
  | .timestamp => some 16
  | _ => none

/-- The unsigned value of the bit pattern of a number. -/
def natOf : (t : STy) → t.Val → Nat
  | .i8, v | .u8, v => BitVec.toNat (w := 8) v
  | .i16, v | .u16, v => BitVec.toNat (w := 16) v
  | .i32, v | .u32, v | .f32, v => BitVec.toNat (w := 32) v
  | .i64, v | .u64, v | .f64, v => BitVec.toNat (w := 64) v
  | .timestamp, v | .extended, v => BitVec.toNat (w := 128) v
  | _, _ => 0

/-- `bs` are the `w` bytes of `n` in the given byte order: byte `i` counted from the least
    significant end has weight `256^i`. -/
def IsUInt (e : Endian) (w n : Nat) (bs : Bytes) : Prop :=
  bs.length = w ∧ ∀ i, i < w →
    bs[match e with | .little => i | .big => w - 1 - i]? = some (UInt8.ofNat (n / 256 ^ i % 256))

end Tedium.Format
