import Verif.Model.File

/-!
# How much an open file keeps in memory

Names and properties are counted with the bytes of their texts and a few bytes for each of them, the tables by their
entries.
-/

namespace Tedium.Kept

/-- the bytes of a text -/
def text (t : Text) : Nat := (utf8Enc t).length

/-- the bytes of a text that is the value of a property -/
def value : PropertyValue → Nat
  | .string t => text t
  | _ => 0

/-- the properties of an object: 8 for each, and its texts -/
def properties (ps : List (Text × PropertyValue)) : Nat := (ps.map (fun p => 8 + text p.1 + value p.2)).sum

/-- all objects: 12 for each, its path, and its properties -/
def objects (ix : Index) : Nat := (ix.objects.map (fun o => 12 + text o.1 + properties o.2.properties)).sum

/-- the entries of the tables: for each block its channels, for each object the blocks with its data -/
def tables (ix : Index) : Nat :=
  (ix.dataBlocks.map (fun b => b.channels.length)).sum + (ix.objects.map (fun o => o.2.dataLocations.length)).sum

end Tedium.Kept
