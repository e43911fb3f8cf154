import Verif.Spec.Layout

/-!
# Content that this library does not support

For each kind of item, how its bytes begin and the error that is due. What comes after the bad item is not
described: it may be anything.
-/

namespace Tedium.Layout

/-- A string whose bytes are not the UTF-8 encoding of any text. -/
def BadText (e : Endian) (bs : Bytes) : Prop :=
  ∃ len raw, bs = len ++ raw ∧ IsNumber e 4 raw.length len ∧ ∀ t, raw ≠ utf8 t

/-- A property that cannot be read: a bad name; a type code without a type; a fixed-point number or DAQmx data;
    a bad string as value. -/
inductive BadProperty (e : Endian) : TdmsError → Bytes → Prop
  | name {bs} : BadText e bs → BadProperty e .stringFormatError bs
  | code {name code x y} : IsString e name x → IsNumber e 4 code y → Format.typeCodes.lookup code = none →
      BadProperty e (.unknownPropertyType code) (x ++ y)
  | type {name t x y} : IsString e name x → IsType e t y → t = .fixedPoint ∨ t = .daqmxRawData →
      BadProperty e (.unsupportedType t) (x ++ y)
  | text {name x y z} : IsString e name x → IsType e .tdmsString y → BadText e z →
      BadProperty e .stringFormatError (x ++ (y ++ z))

/-- An object that cannot be read: a bad path; a DAQmx raw data index (`6912xxxx` or `6913xxxx`); an index with
    a type code without a type; a bad property after good ones. -/
inductive BadObject (e : Endian) : TdmsError → Bytes → Prop
  | path {bs} : BadText e bs → BadObject e .stringFormatError bs
  | daqmx {path n x y} : IsString e path x → IsNumber e 4 n y → n / 2 ^ 16 = 0x6912 ∨ n / 2 ^ 16 = 0x6913 →
      BadObject e .daqmxChannelsNotSupported (x ++ y)
  | type {path l code x y z} : IsString e path x → IsNumber e 4 l y → l ≠ 0 → l ≠ 0xFFFFFFFF →
      l / 2 ^ 16 ≠ 0x6912 → l / 2 ^ 16 ≠ 0x6913 → IsNumber e 4 code z → Format.typeCodes.lookup code = none →
      BadObject e (.unknownPropertyType code) (x ++ (y ++ z))
  | property {path index count properties err x y n ps bad} : IsString e path x → Usual index → IsIndex e index y →
      IsNumber e 4 count n → IsList (IsProperty e) properties ps → properties.length < count →
      BadProperty e err bad → BadObject e err (x ++ (y ++ (n ++ (ps ++ bad))))

end Tedium.Layout
