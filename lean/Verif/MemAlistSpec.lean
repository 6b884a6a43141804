import Verif.MemDataSpec
/-!
# Association lists in memory: the specification
-/
namespace Pscm
namespace Spec

/-- A key: a datum without dotted pairs and without strings that contain the null character. -/
def IsKey (k : Ref.Val) : Prop := ∃ d, k.datum = some d ∧ d.proper = true

/-- All entries (elements that are pairs) have keys. -/
def Keyed (us : List Ref.Val) : Prop := ∀ k w, Ref.Val.pair k w ∈ us → IsKey k

/-- Is the element an entry for the key? -/
def isEntry (k : Ref.Val) : Ref.Val → Bool
  | .pair k' _ => Ref.sameDatum k k' == some true
  | _ => false

/-- Without the first entry for the key. -/
def without (k : Ref.Val) : List Ref.Val → List Ref.Val
  | [] => []
  | u :: us => if isEntry k u then us else u :: without k us

/-- With the value for the key: all entries for the key are replaced; if there are none, one is put in front. -/
def withEntry (k v : Ref.Val) (us : List Ref.Val) : List Ref.Val :=
  if us.any (isEntry k) then us.map fun u => if isEntry k u then .pair k v else u else .pair k v :: us

/-- Is the element an entry for the same key, in the sense of `eqv?`? -/
def isSameEntry (k : Ref.Val) : Ref.Val → Bool
  | .pair k' _ => Ref.sameKey k k' == some true
  | _ => false

/-- `withEntry` with `eqv?` as the comparison of keys. -/
def withSameEntry (k v : Ref.Val) (us : List Ref.Val) : List Ref.Val :=
  if us.any (isSameEntry k) then us.map fun u => if isSameEntry k u then .pair k v else u else .pair k v :: us

/-- What `assoc-ref` makes of the rest of the entry: the first element if it is a pair, false if it is the empty list, else the rest itself. -/
def refOf : Ref.Val → Ref.Val
  | .nil => .bool false
  | .pair a _ => a
  | w => w

end Spec
end Pscm
