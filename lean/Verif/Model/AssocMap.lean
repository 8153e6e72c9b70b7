/-
`std::collections::HashMap<String, V>` as an association list. The iteration order of the real map is unspecified; no modelled
function lets it become observable (see DESIGN.md).
-/

namespace Ratel

/-- A finite map with string keys. -/
abbrev AssocMap (V : Type) := List (String × V)

namespace AssocMap

variable {V : Type}

/-- `HashMap::get`. -/
def get? : AssocMap V → String → Option V
  | [], _ => none
  | (k', v) :: r, k => if k' = k then some v else get? r k

/-- `HashMap::contains_key`. -/
def contains (m : AssocMap V) (k : String) : Bool := (get? m k).isSome

/-- `HashMap::insert`: an existing binding is replaced. -/
def insert : AssocMap V → String → V → AssocMap V
  | [], k, v => [(k, v)]
  | (k', v') :: r, k, v => if k' = k then (k, v) :: r else (k', v') :: insert r k v

/-- `HashMap::remove`, remaining map. -/
def erase : AssocMap V → String → AssocMap V
  | [], _ => []
  | (k', v) :: r, k => if k' = k then erase r k else (k', v) :: erase r k

/-- `HashMap::entry(k).or_insert(default)` followed by an update `f` of the entry through the returned `&mut`. -/
def upsert (default : V) (f : V → V) : AssocMap V → String → AssocMap V
  | [], k => [(k, f default)]
  | (k', v) :: r, k => if k' = k then (k', f v) :: r else (k', v) :: upsert default f r k

end AssocMap

end Ratel
