import Verif.Spec.Objects

/-! # The grammar of path strings -/

namespace Tedium

/-- A name between quotes. -/
def inQuotes (n : Text) : Text := '\'' :: (n ++ ['\''])

/-- What a path string denotes: `/` the file, `/'g'` a group, `/'g'/'c'` a channel, where the names do not
    contain a slash. -/
inductive Denotes : Text → Obj → Prop where
  | root : Denotes ['/'] .root
  | group {g : Text} : '/' ∉ g → Denotes ('/' :: inQuotes g) (.group g)
  | channel {g c : Text} : '/' ∉ g → '/' ∉ c → Denotes ('/' :: (inQuotes g ++ '/' :: inQuotes c)) (.channel g c)

/-- A quote with nothing behind it before the next slash. -/
def Lone (rest : Text) : Prop := rest = ['\''] ∨ ∃ more, rest = '\'' :: '/' :: more

/-- The first, second or third component of the path is a lone quote, and those before it are quoted names. -/
inductive Stumbles : Text → Prop where
  | first {rest : Text} : Lone rest → Stumbles ('/' :: rest)
  | second {g rest : Text} : '/' ∉ g → Lone rest → Stumbles ('/' :: (inQuotes g ++ '/' :: rest))
  | third {g c rest : Text} : '/' ∉ g → '/' ∉ c → Lone rest →
      Stumbles ('/' :: (inQuotes g ++ '/' :: (inQuotes c ++ '/' :: rest)))

/-- The name of the group an object is or belongs to, as written in the path. -/
def Obj.inGroup : Obj → Option Text
  | .root => none
  | .group g => some g
  | .channel g _ => some g

/-- The path string of the object. -/
def Obj.written : Obj → Text
  | .root => ['/']
  | .group g => '/' :: inQuotes g
  | .channel g c => '/' :: (inQuotes g ++ '/' :: inQuotes c)

/-- The name begins or ends with a slash. -/
def SlashAtEnd (n : Text) : Prop := n.head? = some '/' ∨ n.getLast? = some '/'

end Tedium
