import Verif.Py.Str
namespace Verif

/-- `OrderedSet` (lazy_type_hint/utils/ordered_set.py:7-12): the set of elements added and the list. The Python
`set` is only used for membership, so it is kept as a list here. -/
structure OSet (α : Type) where
  seen : List α := []
  lst : List α := []

namespace OSet
variable {α : Type} [DecidableEq α]

/-- `OrderedSet.add` (ordered_set.py:14-23). -/
def add (s : OSet α) (x : α) : OSet α :=
  if x ∈ s.seen then s else { seen := x :: s.seen, lst := s.lst ++ [x] }

/-- Adding a sequence of elements, one `add` each, to an empty set. -/
def ofAdds (xs : List α) : OSet α := xs.foldl add {}

/-- `OrderedSet.as_list` / `as_tuple` (ordered_set.py:25-41). -/
def asList (s : OSet α) : List α := s.lst

end OSet
end Verif
