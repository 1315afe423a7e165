import Verif.Model.IndexMap

/-!
# `clf/IndexMap.py` index maps as objects

`Model/IndexMap.lean` has the evaluation of an index map whose values are given.  Here is the
object: values can be set again, and the cache is filled by the first evaluation that uses it.
-/

namespace CLF

variable {K : Type} [Field K] [LinearOrder K] [IsStrictOrderedRing K] [FloorRing K]

/-- `clf/IndexMap.py:65-71`: what an index map holds.  `none` stands for the empty lists that the
constructor has as defaults for dimension and values, and for the `None` of an empty cache. -/
structure MapObj (K : Type) where
  dimension : Option ℕ
  values : Option (List (Flt K) × List (Flt K))
  useCached : Bool
  cached : Option (Arr K)

namespace MapObj

/-- `clf/IndexMap.py:96-97`: `self._values[0]` and `self._values[1]`; there are none in the empty
list.  The dimension is not used by evaluation. -/
def map (o : MapObj K) : Py (IndexMap K) :=
  match o.values with
  | none => .error .indexError
  | some (i, u) => .ok ⟨o.dimension.getD 0, i, u⟩

/-- `clf/IndexMap.py:95-127`. -/
def raw (o : MapObj K) (v : Flt K) : Py (Flt K) := do
  let m ← o.map
  m.process v

/-- `clf/IndexMap.py:131-151` `_createCachedProcess`; the cache stays as it is if an evaluation
raises. -/
def createCache (o : MapObj K) : MapObj K × Py Unit :=
  match o.map.bind IndexMap.cache with
  | .ok a => ({ o with cached := some a }, .ok ())
  | .error e => (o, .error e)

/-- `clf/IndexMap.py:73`, `:84`: the test of constructor and `setValues`. -/
def wantsCache (o : MapObj K) : Bool := o.useCached && o.values.isSome && o.dimension.isSome

/-- `clf/IndexMap.py:65-75` constructor. -/
def create (dimension : Option ℕ) (values : Option (List (Flt K) × List (Flt K))) (useCached : Bool) :
    Py (MapObj K) :=
  let o : MapObj K := ⟨dimension, values, useCached, none⟩
  if o.wantsCache then
    match o.createCache with
    | (o, .ok ()) => .ok o
    | (_, .error e) => .error e
  else .ok o

/-- `clf/IndexMap.py:77-80` `setDimension`, `getDimension`. -/
def setDimension (o : MapObj K) (d : ℕ) : MapObj K := { o with dimension := some d }

/-- `clf/IndexMap.py:82-87` `setValues`, `getValues`: the values are stored; then `_createCachedEval` is called, which no
class has. -/
def setValues (o : MapObj K) (vs : List (Flt K) × List (Flt K)) : MapObj K × Py Unit :=
  let o := { o with values := some vs }
  (o, if o.wantsCache then .error .attributeError else .ok ())

/-- `clf/IndexMap.py:89-92` `setuseCachedProcess`, `getUseCachedProcessue`. -/
def setUseCached (o : MapObj K) (b : Bool) : MapObj K := { o with useCached := b }

/-- `clf/IndexMap.py:165-174` `read`: dimension, if there is the attribute, and values are
replaced, the cache is not.  The parsing of text is in `Model/ArrayText.lean`. -/
def readParts (o : MapObj K) (d : Option ℕ) (vs : List (Flt K) × List (Flt K)) : MapObj K :=
  { o with dimension := d.orElse fun _ => o.dimension, values := some vs }

/-- `clf/IndexMap.py:177-187` `process`. -/
def process (o : MapObj K) (v : Flt K) : MapObj K × Py (Flt K) :=
  if o.useCached then
    match o.cached with
    | some a => (o, a.lookup1DHalfDomainInterpolated v 0)
    | none =>
      match o.createCache with
      | (o, .ok ()) =>
        match o.cached with
        | some a => (o, a.lookup1DHalfDomainInterpolated v 0)
        | none => (o, .error .attributeError)
      | (o, .error e) => (o, .error e)
  else (o, o.raw v)

/-- The calls that change an index map. -/
inductive Call (K : Type)
  | setDimension (d : ℕ)
  | setValues (vs : List (Flt K) × List (Flt K))
  | setUseCached (b : Bool)
  | read (d : Option ℕ) (vs : List (Flt K) × List (Flt K))
  | process (v : Flt K)

/-- The object after a call, whether or not it raises. -/
def step (o : MapObj K) : Call K → MapObj K
  | .setDimension d => o.setDimension d
  | .setValues vs => (o.setValues vs).1
  | .setUseCached b => o.setUseCached b
  | .read d vs => o.readParts d vs
  | .process v => (o.process v).1

end MapObj

end CLF
