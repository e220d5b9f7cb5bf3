import Verif.Spec.Values
/-
Type hints as abstract syntax: how they are written, and which values they admit. Nothing here refers to the model of the
generator; `Val` is the type of input values.
-/
namespace Verif.Spec
open Verif

/-- Type expressions. -/
inductive TExpr
  /-- an identifier: a class, `Any`, or a name declared in the generated text -/
  | name (n : Str)
  /-- the same in quotes (forward reference) -/
  | quoted (n : Str)
  /-- `Optional[object]` -/
  | object
  /-- `Union[t1, t2, ...]` -/
  | union (ts : List TExpr)
  /-- `con[t]` for a container such as `List` or `Set` -/
  | app (con : Str) (t : TExpr)
  /-- `Tuple[t1, t2, ...]` -/
  | tuple (ts : List TExpr)
  /-- `Tuple[t, ...]` with a literal ellipsis -/
  | tupleOf (t : TExpr)
  /-- `con[k, v]` for `Dict`, `Mapping` and `MappingProxyType` -/
  | mapping (con : Str) (k v : TExpr)
  /-- `Callable[[Any, Any, ...], Any]` with `n` parameters -/
  | callable (n : Nat)

mutual
/-- The text of a type expression. -/
def TExpr.print : TExpr → Str
  | .name n => n
  | .quoted n => py!"\"" ++ n ++ py!"\""
  | .object => py!"Optional[object]"
  | .union ts => py!"Union[" ++ join py!", " (printList ts) ++ py!"]"
  | .app con t => con ++ py!"[" ++ t.print ++ py!"]"
  | .tuple ts => py!"Tuple[" ++ join py!", " (printList ts) ++ py!"]"
  | .tupleOf t => py!"Tuple[" ++ t.print ++ py!", ...]"
  | .mapping con k v => con ++ py!"[" ++ k.print ++ py!", " ++ v.print ++ py!"]"
  | .callable n => py!"Callable[[" ++ join py!", " (List.replicate n py!"Any") ++ py!"], Any]"
def printList : List TExpr → List Str
  | [] => []
  | t :: r => t.print :: printList r
end

mutual
/-- The identifiers that occur in an expression outside quotes. -/
def TExpr.idents : TExpr → List Str
  | .name n => [n]
  | .quoted _ => []
  | .object => [py!"Optional", py!"object"]
  | .union ts => py!"Union" :: identsList ts
  | .app con t => con :: t.idents
  | .tuple ts => py!"Tuple" :: identsList ts
  | .tupleOf t => py!"Tuple" :: t.idents
  | .mapping con k v => con :: (k.idents ++ v.idents)
  | .callable _ => [py!"Callable", py!"Any"]
def identsList : List TExpr → List Str
  | [] => []
  | t :: r => t.idents ++ identsList r
end

/-- One entry of a TypedDict; `doc` is the docstring printed below it. -/
structure Entry where
  key : Str
  required : Bool
  readOnly : Bool
  type : TExpr
  doc : Option Str := none

/-- What a name is declared to be. -/
inductive Body
  | alias (t : TExpr)
  /-- a TypedDict in functional or class syntax, with an optional docstring -/
  | record (functional : Bool) (doc : Option Str) (entries : List Entry)
  /-- a protocol class for functions, with the text of its signature -/
  | protocol (sig : Str)
  /-- a subclass of `pd.DataFrame`: the overloads of `__getitem__` (printed label and result type) and the rest -/
  | frame (overloads : List (Str × TExpr)) (rest : Str)

structure TDecl where
  name : Str
  body : Body

/-- The text of an entry's type, with its qualifiers. -/
def Entry.typeText (e : Entry) : Str :=
  let t := if e.required then e.type.print else py!"NotRequired[" ++ e.type.print ++ py!"]"
  if e.readOnly then py!"ReadOnly[" ++ t ++ py!"]" else t

/-- An entry as text: key, type and docstring. -/
structure RawEntry where
  key : Str
  type : Str
  doc : Option Str

def Entry.raw (e : Entry) : RawEntry := ⟨e.key, e.typeText, e.doc⟩

/-- The lines of an entry in class syntax. -/
def RawEntry.classText (e : RawEntry) : Str :=
  py!"    " ++ e.key ++ py!": " ++ e.type ++ (match e.doc with
    | some d => py!"\n" ++ d
    | none => [])

/-- The line of an entry in functional syntax. -/
def RawEntry.functionalText (e : RawEntry) : Str := py!"        \"" ++ e.key ++ py!"\": " ++ e.type ++ py!","

/-- The text of a TypedDict, in functional or class syntax. -/
def recordText (name : Str) (functional : Bool) (doc : Option Str) (es : List RawEntry) : Str :=
  if functional then
    name ++ py!" = TypedDict(\n    \"" ++ name ++ py!"\",\n    {\n" ++
    join py!"\n" (es.map RawEntry.functionalText) ++ py!"\n    },\n)" ++ (match doc with
      | some t => py!"\n" ++ t
      | none => [])
  else
    py!"class " ++ name ++ py!"(TypedDict):\n" ++ (match doc with
      | some t => t ++ py!"\n\n"
      | none => []) ++
    (match es with
      | [] => py!"    ..."
      | es => join py!"\n" (es.map RawEntry.classText))

/-- The text of a declaration. -/
def TDecl.print (d : TDecl) : Str :=
  match d.body with
  | .alias t => d.name ++ py!": TypeAlias = " ++ t.print
  | .record f doc es => recordText d.name f doc (es.map Entry.raw)
  | .protocol sig => py!"class " ++ d.name ++ py!"(Protocol):\n    def __call__" ++ sig
  | .frame ovs rest => py!"class " ++ d.name ++ py!"(pd.DataFrame):\n\n" ++
      join py!"\n" (ovs.map fun o => py!"    @overload  # type: ignore\n    def __getitem__(self, key: Literal[" ++ o.1 ++
        py!"]) -> " ++ o.2.print ++ py!":\n        ...\n") ++ py!"\n" ++ rest

/-- The type expressions of a declaration. -/
def Body.types : Body → List TExpr
  | .alias t => [t]
  | .record _ _ es => es.map Entry.type
  | .protocol _ => []
  | .frame ovs _ => ovs.map (·.2)

/-- `Declared Γ n`: the text declares the name `n`. -/
def Declared (Γ : List TDecl) (n : Str) : Prop := ∃ d ∈ Γ, d.name = n

/-- `Defines Γ n b`: the declarations give `n` the meaning `b`, unambiguously. -/
def Defines (Γ : List TDecl) (n : Str) (b : Body) : Prop :=
  ⟨n, b⟩ ∈ Γ ∧ ∀ d ∈ Γ, d.name = n → d.body = b

/-- The containers that may annotate a sequence-like value. A tuple is also a `Sequence`. (So are instances of other classes, such as
strings and ranges; what they yield is not known here.) -/
def containerFits : SeqKind → Str → Bool
  | .list, c => c == py!"List" || c == py!"Sequence"
  | .set, c => c == py!"Set"
  | .frozenset, c => c == py!"FrozenSet"
  | .iterator, c => c == py!"Iterator"
  | .series, c => c == py!"pd.Series"
  | .tuple, c => c == py!"Sequence"

/-- The containers that may annotate a mapping. -/
def mappingFits : MapKind → Str → Bool
  | .dict, c => c == py!"Dict" || c == py!"Mapping"
  | .proxy, c => c == py!"MappingProxyType" || c == py!"Mapping"
  | .frame _, _ => false

/-- The number of parameters of a function, if it can be found out. -/
def paramCount (f : FuncInfo) : Option Nat :=
  match f.sig with
  | .ok _ n => some n
  | _ => none

/-- `Labels k l`: the text `l` is a literal for the label `k`. -/
def Labels (k : Key) (l : Str) : Prop := ∃ s, k = .str s ∧ l = py!"'" ++ s ++ py!"'"

/-- `Admits Γ t v`: the value `v` belongs to the type `t` under the declarations `Γ`. An identifier means what the text
declares it to be; otherwise it is a typing symbol or stands for the class of that name. An `int` may be used where a
`float` is expected. -/
inductive Admits (Γ : List TDecl) : TExpr → Val → Prop
  | any (v) : ¬ Declared Γ py!"Any" → Admits Γ (.name py!"Any") v
  | object (v) : ¬ Declared Γ py!"Optional" → ¬ Declared Γ py!"object" → Admits Γ .object v
  | cls (v : Val) : ¬ Declared Γ v.ty.name → Admits Γ (.name v.ty.name) v
  | promote (v : Val) : ¬ Declared Γ py!"float" → v.ty.name = py!"int" → Admits Γ (.name py!"float") v
  | quoted {n} (v : Val) : Admits Γ (.name n) v → Admits Γ (.quoted n) v
  | alias {n t v} : Defines Γ n (.alias t) → Admits Γ t v → Admits Γ (.name n) v
  | union {ts t v} : ¬ Declared Γ py!"Union" → t ∈ ts → Admits Γ t v → Admits Γ (.union ts) v
  | app {con t k ty es} : ¬ Declared Γ con → containerFits k con = true → (∀ e ∈ es, Admits Γ t e) →
      Admits Γ (.app con t) (.seq k ty es)
  | tuple {ts ty es} : ¬ Declared Γ py!"Tuple" → ts.length = es.length → (∀ p ∈ ts.zip es, Admits Γ p.1 p.2) →
      Admits Γ (.tuple ts) (.seq .tuple ty es)
  | tupleOf {t ty es} : ¬ Declared Γ py!"Tuple" → (∀ e ∈ es, Admits Γ t e) → Admits Γ (.tupleOf t) (.seq .tuple ty es)
  | mapping {con kt vt k ty ks vs} : ¬ Declared Γ con → mappingFits k con = true →
      (∀ key ∈ ks, Admits Γ kt (.inst key.ty none)) →
      (∀ v ∈ vs, Admits Γ vt v) → Admits Γ (.mapping con kt vt) (.map k ty ks vs)
  /-- A dictionary belongs to a TypedDict if it has the required keys, and every item has an entry that admits it. -/
  | record {n f doc entries ty ks vs} : Defines Γ n (.record f doc entries) →
      (∀ e ∈ entries, e.required = true → Key.str e.key ∈ ks) →
      (∀ k ∈ ks, ∃ e ∈ entries, k = .str e.key) →
      (∀ kv ∈ ks.zip vs, ∀ e ∈ entries, kv.1 = .str e.key → Admits Γ e.type kv.2) →
      Admits Γ (.name n) (.map .dict ty ks vs)
  | anyFrame {i ty ks vs} : ¬ Declared Γ py!"pd.DataFrame" → Admits Γ (.name py!"pd.DataFrame") (.map (.frame i) ty ks vs)
  /-- A data frame belongs to a class with overloads of `__getitem__` if it has the columns of the overloads and no others, and
  every overload for the label of a column admits this column. -/
  | frame {n ovs rest i ty ks vs} : Defines Γ n (.frame ovs rest) → ¬ Declared Γ py!"pd.DataFrame" →
      (∀ o ∈ ovs, ∃ k ∈ ks, Labels k o.1) → (∀ k ∈ ks, ∃ o ∈ ovs, Labels k o.1) →
      (∀ kv ∈ ks.zip vs, ∀ o ∈ ovs, Labels kv.1 o.1 → Admits Γ o.2 kv.2) → Admits Γ (.name n) (.map (.frame i) ty ks vs)
  /-- `Type[C]` means the class `C` itself. -/
  | typeOf {n m} {t : TExpr} : ¬ Declared Γ py!"Type" → ¬ Declared Γ n → t = .name n ∨ t = .quoted n →
      Admits Γ (.app py!"Type" t) (.cls m n)
  | module {ty} : ¬ Declared Γ py!"ModuleType" → Admits Γ (.name py!"ModuleType") (.module ty)
  | file {ty} : ¬ Declared Γ py!"TextIO" → Admits Γ (.name py!"TextIO") (.io ty)
  /-- An array belongs to `NDArray` of the type of its elements. -/
  | array {ty d} : ¬ Declared Γ py!"NDArray" → ¬ Declared Γ py!"np" →
      Admits Γ (.quoted (py!"NDArray[np." ++ d ++ py!"]")) (.ndarray ty d)
  /-- A function with `n` parameters can be called with `n` arguments (for other kinds of parameters see C67). -/
  | callable {n} {f : FuncInfo} : ¬ Declared Γ py!"Callable" → ¬ Declared Γ py!"Any" → paramCount f = some n →
      Admits Γ (.callable n) (.func f)
  | function {f : FuncInfo} : ¬ Declared Γ py!"Callable" → Admits Γ (.name py!"Callable") (.func f)

/-- The identifiers with a fixed meaning that hints are written with. -/
def typingNames : List Str :=
  [py!"Any", py!"Optional", py!"object", py!"Union", py!"List", py!"Sequence", py!"Set", py!"FrozenSet", py!"Iterator",
   py!"Tuple", py!"Dict", py!"Mapping", py!"MappingProxyType", py!"pd.Series", py!"float",
   py!"Type", py!"ModuleType", py!"TextIO", py!"NDArray", py!"np", py!"Callable",
   py!"pd.DataFrame"]

/-- The declarations do not redefine the identifiers hints are written with. -/
def NoShadow (Γ : List TDecl) : Prop := ∀ n ∈ typingNames, ¬ Declared Γ n

/-- `Writes t c`: `t` is a way to write the class `c`; `None` values are written `Optional[object]`. -/
def Writes : TExpr → Ty → Prop
  | .object, c => c = .noneType
  | .name n, c => c.name = n
  | .quoted n, c => c.name = n
  | _, _ => False

/-- The type of values that belong to one of `ts`. -/
def unionOf : List TExpr → TExpr
  | [t] => t
  | ts => .union ts

/-- A plain instance. -/
def Scalar : Val → Prop
  | .inst _ _ => True
  | _ => False

/-- The entries describe the dictionaries `ds` together: one entry per key, required exactly if all of them have it. -/
def Describes (es : List Entry) (ds : List Dct) : Prop :=
  (es.map (·.key)).Perm (allKeys ds) ∧ ∀ e ∈ es, (e.required = true ↔ e.key ∈ commonKeys ds)

/-- The type `t` is one TypedDict for all of `ds`, declared in the texts. -/
def OneRecord (texts : List Str) (t : TExpr) (ds : List Dct) : Prop :=
  ∃ X f doc es, t = .name X ∧ (TDecl.mk X (.record f doc es)).print ∈ texts ∧ Describes es ds

/-- The type `t` is a union of several TypedDicts declared in the texts, each for one of `ds`, and every one of `ds` has
one. -/
def SeparateRecords (texts : List Str) (t : TExpr) (ds : List Dct) : Prop :=
  ∃ Xs : List Str, 2 ≤ Xs.length ∧ Xs.Nodup ∧ t = .union (Xs.map .name) ∧
    (∀ X ∈ Xs, ∃ d ∈ ds, ∃ f doc es, (TDecl.mk X (.record f doc es)).print ∈ texts ∧ Describes es [d]) ∧
    ∀ d ∈ ds, ∃ X ∈ Xs, ∃ f doc es, (TDecl.mk X (.record f doc es)).print ∈ texts ∧ Describes es [d]

end Verif.Spec
