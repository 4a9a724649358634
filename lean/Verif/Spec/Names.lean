import Verif.Model.State
import Verif.Model.Split

/-! Spec for C135: other names for the examples. -/
namespace Alipy.Spec

/-- `g` gives the indexes in `D`, which are all of one kind, new names of one kind. Different indexes get different names. -/
structure Renaming (D : Base → Prop) (g : Base → Base) (k k' : Kind) : Prop where
  old : ∀ b, D b → b.kind = k
  new : ∀ b, D b → (g b).kind = k'
  inj : ∀ a b, D a → D b → g a = g b → a = b

/-- The new name of an index. -/
def newName (g : Base → Base) (v : Val) : Val := ⟨v.np, g v.base⟩

/-- A collection with the new names in the place of the old ones, which are of the kind `k'`. -/
def renamed (g : Base → Base) (k' : Kind) (c : IC) : IC := ⟨c.inner.map (newName g), c.ety.map (fun t => ⟨t.np, k'⟩)⟩

/-- The argument of a call with the new names. -/
def renamedArg (g : Base → Base) : IC.Arg → IC.Arg
  | .many vs => .many (vs.map (newName g))
  | .one v => .one (newName g v)
  | .self => .self

/-- A call with the new names. -/
def renamedOp (g : Base → Base) : IC.Op → IC.Op
  | .add v => .add (newName g v)
  | .discard v => .discard (newName g v)
  | .remove v => .remove (newName g v)
  | .update a => .update (renamedArg g a)
  | .differenceUpdate a => .differenceUpdate (renamedArg g a)
  | .pop => .pop
  | .clear => .clear

/-- The indexes named in an argument. -/
def argNames : IC.Arg → List Val
  | .many vs => vs
  | .one v => [v]
  | .self => []

/-- The indexes named in a call. -/
def opNames : IC.Op → List Val
  | .add v | .discard v | .remove v => [v]
  | .update a | .differenceUpdate a => argNames a
  | .pop | .clear => []

/-- All indexes of the collection are in `D` and its element type is of kind `k`. -/
def Over (D : Base → Prop) (k : Kind) (c : IC) : Prop := (∀ v ∈ c.inner, D v.base) ∧ ∀ t, c.ety = some t → t.kind = k

/-- `c'` holds the new names of the indexes of `c`, in any order. -/
def Twin (g : Base → Base) (k' : Kind) (c c' : IC) : Prop := c'.inner.Perm (c.inner.map (newName g)) ∧ c'.ety = c.ety.map (fun t => ⟨t.np, k'⟩)

/-- The calls whose effect does not depend on the order of the collection. -/
def orderFree : IC.Op → Prop
  | .pop | .update .self | .differenceUpdate .self => False
  | _ => True

/-- A value of a state with the new names. Numbers and other objects are no indexes. -/
def renamedObj (g : Base → Base) : Obj (List Val) → Obj (List Val)
  | .sel s => .sel (s.map (newName g))
  | .arr xs => .arr xs
  | .other n => .other n

/-- A recorded state with the new names. -/
def renamedEntry (g : Base → Base) : Entry (List Val) → Entry (List Val)
  | .st s => .st ⟨s.entries.map (fun p => (p.1, renamedObj g p.2)), s.batch⟩
  | .dict d => .dict (d.map (fun p => (p.1, renamedObj g p.2)))

/-- The indexes a recorded state has queried. -/
def queriedIn (D : Base → Prop) : Entry (List Val) → Prop
  | .st s => ∀ l, dictGet "select_index" s.entries = some (.sel l) → ∀ v ∈ l, D v.base
  | .dict _ => True

/-- A round of a split with the new names. -/
def renamedRound (f : Int → Int) (r : Round Int) : Round Int := ⟨r.train.map f, r.test.map f, r.label.map f, r.unlabel.map f⟩

end Alipy.Spec
