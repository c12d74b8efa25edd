import Verif.Model.Wire
/-
Model of `std::map<std::string, T>` as an association list kept sorted by key
(`std::string::operator<`: lexicographic on unsigned bytes).  Used for `FieldDesc::mlookup` (/repo/src/dataimpl.h:73).
-/
namespace Pvxs

/-- a `std::string`: arbitrary bytes -/
abbrev Str := List Wire.Byte

/-- `std::string::operator<` -/
def strLt : Str → Str → Bool
  | _, [] => false
  | [], _ :: _ => true
  | a :: as, b :: bs => decide (a < b) || (decide (a = b) && strLt as bs)

/-- std::map, sorted by key -/
abbrev SMap (α : Type) := List (Str × α)

namespace SMap

/-- `m[k] = v` -/
def insert (k : Str) (v : α) : SMap α → SMap α
  | [] => [(k, v)]
  | (k', v') :: m =>
    if k = k' then (k, v) :: m
    else if strLt k k' then (k, v) :: (k', v') :: m
    else (k', v') :: insert k v m

/-- `m.find(k)` -/
def find? (k : Str) : SMap α → Option α
  | [] => none
  | (k', v) :: m => if k = k' then some v else find? k m

end SMap
end Pvxs
