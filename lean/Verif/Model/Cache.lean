namespace Verif

/-- `cache_returned_value_per_instance` (lazy_type_hint/utils/utils.py:72-106), for one decorated method on one
instance: the state is the attribute `{method}____` (absent = `none`), a call ignores its arguments once the
attribute exists. An exception of the method propagates and nothing is stored. -/
def cachedCall {α ε β : Type} (method : α → Except ε β) (st : Option β) (args : α) : Except ε β × Option β :=
  match st with
  | some r => (.ok r, some r)
  | none => match method args with
    | .ok r => (.ok r, some r)
    | .error e => (.error e, none)

/-- The results of a history of calls on a fresh instance. -/
def cachedRun {α ε β : Type} (method : α → Except ε β) : Option β → List α → List (Except ε β)
  | _, [] => []
  | st, a :: as => (cachedCall method st a).1 :: cachedRun method (cachedCall method st a).2 as

end Verif
