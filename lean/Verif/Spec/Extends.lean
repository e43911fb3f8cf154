import Verif.Spec.History
import Verif.Spec.Reads

/-! # A file that has all that another one has -/

namespace Tedium.ReadSpec

/-- Everything that can be asked of `t` has, in `t'`, the same answer or one that adds to it. (The value of a property
    may be another one.) -/
structure Extends (al : Alloc) (t t' : TdmsFile) : Prop where
  objects : ∀ path, t.readAllProperties path ≠ none → t'.readAllProperties path ≠ none
  properties : ∀ path name v, t.readProperty path name = .ok (some v) →
    ∃ v', t'.readProperty path name = .ok (some v')
  groups : ∀ gs gs', t.listGroups = .ok gs → t'.listGroups = .ok gs' → gs ⊆ gs'
  channels : ∀ group cs cs', t.listChannelsInGroup group = .ok cs → t'.listChannelsInGroup group = .ok cs' → cs ⊆ cs'
  /-- channels do not become shorter -/
  lengths : ∀ c n r, t.channelLength c = .ok (some n) → t'.channelLength c = .ok r → ∃ n', r = some n' ∧ n ≤ n'
  /-- a read that fills its buffer gives the same -/
  full : ∀ (ty : STy) c start n (vals : List ty.Val), 0 < n → Delivers (ty.storage al) t c start n vals → vals.length = n →
    Delivers (ty.storage al) t' c start n vals
  /-- other reads give the same values first -/
  reads : ∀ (ty : STy) c start n m (vals vals' : List ty.Val), n ≤ m → Delivers (ty.storage al) t c start n vals →
    Delivers (ty.storage al) t' c start m vals' → vals <+: vals'

end Tedium.ReadSpec
