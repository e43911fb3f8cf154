import Verif.Model.MetaData

/-!
# What fits into the file format

Counts and string lengths are 32-bit numbers in a TDMS file, sample counts are 64-bit numbers and
an extended float has 80 bits. The in-memory types of the crate can hold more.
-/

namespace Tedium

/-- Memory allocation always succeeds. -/
def Generous (al : Alloc) : Prop := ∀ r, al r = true

/-- A string whose UTF-8 length fits into 32 bits. -/
def Text.Fits (t : Text) : Prop := (utf8Enc t).length < 2 ^ 32

/-- A value of a storage type that the format can represent: strings are limited in length,
    extended floats to 80 bits, everything else always fits. -/
def STy.Fits : (t : STy) → t.Val → Prop
  | .string, v => Text.Fits v
  | .extended, v => BitVec.toNat (w := 128) v < 2 ^ 80
  | _, _ => True

/-- A property value that the format can represent. -/
def PropertyValue.Fits : PropertyValue → Prop
  | .string v => Text.Fits v
  | .extended v => v.toNat < 2 ^ 80
  | _ => True

/-- A raw-data index that the format can represent. The crate never stores a total size. -/
def RawDataIndex.Fits : RawDataIndex → Prop
  | .rawData m => m.numberOfValues < 2 ^ 64 ∧ m.totalSizeBytes = Option.none
  | _ => True

/-- An object entry that the format can represent. -/
structure ObjectMetaData.Fits (o : ObjectMetaData) : Prop where
  path : Text.Fits o.path
  index : o.rawDataIndex.Fits
  count : o.properties.length < 2 ^ 32
  props : ∀ p ∈ o.properties, Text.Fits p.1 ∧ p.2.Fits

/-- A metadata section that the format can represent. -/
structure MetaData.Fits (m : MetaData) : Prop where
  count : m.objects.length < 2 ^ 32
  objects : ∀ o ∈ m.objects, o.Fits

end Tedium
