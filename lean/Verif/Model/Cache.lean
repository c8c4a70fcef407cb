import Verif.Model.AMap
import Mathlib.Data.Rat.Defs
import Mathlib.Algebra.Order.Ring.Rat

/-!
# Model of `k52::common::Cache`

Source: `include/k52/common/cache.h`, `include/k52/common/stored_value.h`.
-/

namespace K52.Cache

variable {K V : Type} [DecidableEq K] [Inhabited V]

/-- `StoredValue`, stored_value.h:9-29.  `usage` is the `int` counter `number_of_usage_`. -/
structure Stored (V : Type) where
  hasValue : Bool
  value : V
  usage : Nat
  deriving Repr, DecidableEq

/-- Default constructor, stored_value.h:13. -/
def Stored.empty : Stored V := ⟨false, default, 0⟩

/-- Constructor from a value, stored_value.h:15. -/
def Stored.of (v : V) : Stored V := ⟨true, v, 0⟩

/-- The object: cache.h:54-55.  `entryBytes` is the compile-time constant
`sizeof(key_type) + sizeof(value_type)`; the limit is a rational (every finite `double` is one).
Overflow of the `size_t` product in `IsSizeLimitExceeded` is not modelled. -/
structure State (K V : Type) where
  map : List (K × Stored V)
  entryBytes : Nat
  limitMb : Rat
  deriving Repr

/-- `Create`, cache.h:62-73: a null pointer (`none`) unless the limit is positive. -/
def create (entryBytes : Nat) (limitMb : Rat) : Option (State K V) :=
  if limitMb > 0 then some ⟨[], entryBytes, limitMb⟩ else none

/-- `IsSizeLimitExceeded`, cache.h:136-145, for a given number of entries. -/
def exceeds (entryBytes : Nat) (limitMb : Rat) (entries : Nat) : Bool :=
  decide (((entryBytes * entries : Nat) : Rat) / 1048576 > limitMb)

def State.exceeded (c : State K V) : Bool := exceeds c.entryBytes c.limitMb c.map.length

/-- `ClearUnusedCacheValues`, cache.h:147-167: erase every entry with `usage < minUsage`. -/
def clearUnused (c : State K V) (minUsage : Nat) : State K V :=
  { c with map := c.map.filter (fun e => !decide (e.2.usage < minUsage)) }

/-- `ClearCacheUpToLimit`, cache.h:120-134.  The flag is `false` when it throws; the entries erased before
the throw stay erased. -/
def clearUpToLimit (c : State K V) : State K V × Bool :=
  let c' := if c.exceeded then clearUnused c 1 else c
  if c'.exceeded then (c', false) else (c', true)

/-- Observable outcome of a call. -/
inductive Out (V : Type) where
  | bool (b : Bool)
  | value (v : V)
  | done
  | threw
  | ub
  deriving Repr, DecidableEq

/-- The public calls, cache.h:38-44. -/
inductive Op (K V : Type) where
  | isCached (k : K)
  | get (k : K)
  | add (k : K) (v : V)
  | addMany (rs : List (K × V))
  deriving Repr

/-- `IsCached`, cache.h:75-80 (note `cache_map_[key]` inserts a placeholder). -/
def isCached (c : State K V) (k : K) : State K V × Out V :=
  let c' := { c with map := AMap.touch c.map k Stored.empty }
  match AMap.get? c'.map k with
  | some s => (c', .bool s.hasValue)
  | none => (c', .ub)  -- impossible: the entry was just created

/-- `GetCachedValue`, cache.h:82-95.  The usage counter is an `int`: incrementing 2^31-1 is undefined behaviour. -/
def get (c : State K V) (k : K) : State K V × Out V :=
  let c' := { c with map := AMap.touch c.map k Stored.empty }
  match AMap.get? c'.map k with
  | some s =>
    if s.hasValue then
      if s.usage < 2147483647 then
        ({ c' with map := AMap.set c'.map k { s with usage := s.usage + 1 } }, .value s.value)
      else (c', .ub)
    else (c', .threw)
  | none => (c', .ub)  -- impossible: the entry was just created

/-- `AddValue`, cache.h:97-104. -/
def add (c : State K V) (k : K) (v : V) : State K V × Out V :=
  let (c', fits) := clearUpToLimit c
  if fits then ({ c' with map := AMap.set c'.map k (Stored.of v) }, .done) else (c', .threw)

/-- `AddValues`, cache.h:106-118. -/
def addMany (c : State K V) (rs : List (K × V)) : State K V × Out V :=
  let (c', fits) := clearUpToLimit c
  if fits then
    ({ c' with map := rs.foldl (fun m r => AMap.set m r.1 (Stored.of r.2)) c'.map }, .done)
  else (c', .threw)

def step (c : State K V) : Op K V → State K V × Out V
  | .isCached k => isCached c k
  | .get k => get c k
  | .add k v => add c k v
  | .addMany rs => addMany c rs

/-- A history of calls; returns the final state and the outcome of each call. -/
def run (c : State K V) : List (Op K V) → State K V × List (Out V)
  | [] => (c, [])
  | op :: ops =>
    let (c', o) := step c op
    let (c'', os) := run c' ops
    (c'', o :: os)

end K52.Cache
