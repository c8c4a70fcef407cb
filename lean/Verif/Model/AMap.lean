/-!
# Association lists

Finite maps (`std::map`, `boost::unordered_map`) are modelled by association lists; the order of the
entries of an `unordered_map` is never observable in the modelled functions.
-/

namespace K52.AMap

variable {K : Type u} {V : Type v} [DecidableEq K]

/-- Lookup of a key (`map.find`). -/
def get? : List (K × V) → K → Option V
  | [], _ => none
  | (k', v) :: m, k => if k' = k then some v else get? m k

/-- Insert or overwrite (`map[key] = value`). -/
def set : List (K × V) → K → V → List (K × V)
  | [], k, v => [(k, v)]
  | (k', v') :: m, k, v => if k' = k then (k, v) :: m else (k', v') :: set m k v

/-- `operator[]` used as an rvalue: inserts `dflt` when the key is missing. -/
def touch (m : List (K × V)) (k : K) (dflt : V) : List (K × V) :=
  match get? m k with
  | some _ => m
  | none => m ++ [(k, dflt)]

/-- The keys of the entries. -/
def keys (m : List (K × V)) : List K := m.map Prod.fst

end K52.AMap
