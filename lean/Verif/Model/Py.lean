/-!
# Python values used by the index containers

Only what the modelled code distinguishes: plain and numpy scalars of kind `int`, `bool`, `str`.
-/
namespace Alipy

/-- The exceptions raised by the modelled code. For instance index_collections.py lines 82, 136, 187 and 336. -/
inductive PyErr where
  | typeError | keyError | valueError | indexError | assertionError | attributeError
  | zeroDivisionError | fileNotFoundError | unpicklingError | genericException | notImplementedError
  deriving DecidableEq, Repr

/-- A scalar without its numpy-ness.  Floats and other objects are not modelled: ALiPy's indexes
are integers or names. index_collections.py lines 84-88 and 132-138 distinguish these. -/
inductive Base where
  | int (n : Int)
  | bool (b : Bool)
  | str (s : String)
  deriving DecidableEq, Repr

/-- A Python scalar; `np = true` for an instance of `np.generic` (`np.int64`, `np.bool_`, `np.str_`). index_collections.py lines 84 and 132. -/
structure Val where
  np : Bool
  base : Base
  deriving DecidableEq, Repr

/-- The runtime classes of these scalars. index_collections.py lines 80, 86 and 130. -/
inductive Kind where
  | int | bool | str
  deriving DecidableEq, Repr

structure Ty where
  np : Bool
  kind : Kind
  deriving DecidableEq, Repr

def Base.kind : Base → Kind
  | .int _ => .int
  | .bool _ => .bool
  | .str _ => .str

/-- Python's `type(v)`. index_collections.py lines 80, 88 and 130. -/
def Val.ty (v : Val) : Ty := ⟨v.np, v.base.kind⟩

/-- Python's `np.generic.item()`; identity on plain Python objects (the code guards the call by
`isinstance(value, np.generic)`). index_collections.py lines 86 and 134. -/
def Val.item (v : Val) : Val := { v with np := false }

/-- What `==` compares: numbers (`True == 1`, `np.int64(3) == 3`) or strings. index_collections.py lines 138, 161 and 166. -/
inductive Key where
  | num (n : Int)
  | str (s : String)
  deriving DecidableEq, Repr

def Base.key : Base → Key
  | .int n => .num n
  | .bool b => .num (if b then 1 else 0)
  | .str s => .str s

def Val.key (v : Val) : Key := v.base.key

/-- Python's `==` on the modelled scalars. index_collections.py lines 138, 161 and 166. -/
def pyEq (v w : Val) : Bool := v.key == w.key

/-- Python's `v in l` for a list `l`. index_collections.py lines 138 and 161. -/
def pyMem (v : Val) (l : List Val) : Bool := l.any (pyEq v)

/-- Python's `isinstance(v, t)`: `bool` is a subclass of `int`, `np.str_` a subclass of `str`,
`np.int64` / `np.bool_` are not subclasses of the Python types. index_collections.py line 135. -/
def isInstance (v : Val) (t : Ty) : Bool :=
  match t.np, v.np with
  | false, false => v.base.kind == t.kind || (v.base.kind == .bool && t.kind == .int)
  | false, true => v.base.kind == .str && t.kind == .str
  | true, true => v.base.kind == t.kind
  | true, false => false

/-- `str(v)` as used by numpy when it coerces mixed data to a string array. Used by index_collections.py line 75. -/
def Base.toStr : Base → String
  | .int n => toString n
  | .bool b => if b then "True" else "False"
  | .str s => s

/-- Order used by `np.unique` (numeric or by code points). index_collections.py line 75. -/
def Base.le : Base → Base → Bool
  | .str a, .str b => decide (a ≤ b)
  | a, b =>
    match a.key, b.key with
    | .num m, .num n => decide (m ≤ n)
    | .num _, .str _ => true
    | .str _, .num _ => false
    | .str _, .str _ => true

end Alipy
