import Verif.Model.Basic

/-!
# Ordered maps

`BTreeMap<String, V>` as an association list kept in ascending key order. Rust orders strings by
their UTF-8 bytes, which is the same as ordering by code points (`Tedium.utf8_order`).
-/

namespace Tedium

/-- Lexicographic comparison of texts by code point (`Ord for str`). The order of `src/index/mod.rs:59,114`. -/
def textCmp : Text → Text → Ordering
  | [], [] => .eq
  | [], _ :: _ => .lt
  | _ :: _, [] => .gt
  | a :: as, b :: bs =>
    if a.toNat < b.toNat then .lt
    else if b.toNat < a.toNat then .gt
    else textCmp as bs

/-- `BTreeMap<String, β>` (`src/index/mod.rs:59,114`) -/
abbrev SMap (β : Type) := List (Text × β)

namespace SMap

/-- `BTreeMap::get` (`src/index/mod.rs:137,152,162,170`) -/
def get? {β : Type} (k : Text) : SMap β → Option β
  | [] => none
  | (k', v) :: rest => if k' = k then some v else get? k rest

/-- `BTreeMap::insert`; also models an update through `get_mut` of an existing key (`src/index/mod.rs:84`,
    `src/index/building.rs:52,185-189`). -/
def insert {β : Type} (k : Text) (v : β) : SMap β → SMap β
  | [] => [(k, v)]
  | (k', v') :: rest =>
    match textCmp k k' with
    | .lt => (k, v) :: (k', v') :: rest
    | .eq => (k', v) :: rest
    | .gt => (k', v') :: insert k v rest

/-- `BTreeMap::keys` (`src/index/querying.rs:18-20`) -/
def keys {β : Type} (m : SMap β) : List Text := m.map (·.1)

end SMap
end Tedium
