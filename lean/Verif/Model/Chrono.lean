import Verif.Model.Property

/-!
# The `chrono` feature (`src/properties.rs:268-302`)

The conversion between `LVTime` and `chrono::DateTime<Utc>` is that of the crate `labview-interop`, which is not part
of this repository: it is a parameter.
-/

namespace Tedium

/-- `chrono::DateTime<Utc>` and the two conversions of `labview-interop`. Used in `src/properties.rs:268-301`;
    parameters, since the crates are not part of the repository. -/
structure DateTimes where
  DateTime : Type
  /-- the error of the conversion (`src/error.rs:72-75`) -/
  Err : Type
  /-- `TryFrom<LVTime> for DateTime<Utc>` -/
  ofLVTime : BitVec 128 → Except Err DateTime
  /-- `From<DateTime<Utc>> for LVTime` -/
  toLVTime : DateTime → BitVec 128

/-- `TdmsError` with the variant of the feature, `ChronoDateTimeConversionFailed` (`src/error.rs:72-75`) -/
inductive DateTimeError (Err : Type) where
  | other (e : Fail)
  | conversionFailed (e : Err)

namespace PropertyValue

/-- `src/properties.rs:298-302` `From<DateTime<Utc>> for PropertyValue` -/
def ofDateTime (C : DateTimes) (d : C.DateTime) : PropertyValue := .timestamp (C.toLVTime d)

/-- `src/properties.rs:273-296` `TryFrom<PropertyValue>` and `TryFrom<&PropertyValue>` `for DateTime<Utc>` -/
def toDateTime (C : DateTimes) (p : PropertyValue) : Except (DateTimeError C.Err) C.DateTime :=
  match PropertyValue.toVal .timestamp p with
  | .error e => .error (.other e)
  | .ok lvtime =>
    match C.ofLVTime lvtime with
    | .error e => .error (.conversionFailed e)
    | .ok d => .ok d

end PropertyValue
end Tedium
