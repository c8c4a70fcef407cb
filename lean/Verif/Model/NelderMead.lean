import Verif.Model.Continuous
import Verif.Model.Processors
import Verif.Model.FloatingPoint

/-!
# Model of `BoundedNelderMead`

Source: `src/optimization/bounded_nelder_mead.cpp`.  `double` is an arbitrary type with arithmetic and comparisons (a linearly ordered
field in most theorems, IEEE comparisons with NaN in C89), `sqrt` a parameter.
The output of polygons to a file and of warnings to the console (85, 214-224, 451-465) is not modelled.
-/

namespace K52.NelderMead

variable {R : Type} [Add R] [Sub R] [Mul R] [Div R] [Neg R] [Zero R] [One R] [NatCast R] [LT R] [LE R] [DecidableLT R] [DecidableLE R]

/-- Constructor arguments, bounded_nelder_mead.cpp:26-32. -/
structure Config (R : Type) where
  l : R
  precision : R
  lower : R
  upper : R

/-- `CorrectByProjectingToBounds`, bounded_nelder_mead.cpp:168-181. -/
def project (cfg : Config R) (point : List R) : List R :=
  point.map fun x => if x > cfg.upper then cfg.upper else if x < cfg.lower then cfg.lower else x

/-- The indices being determined by `GetIndexes`, each with the value at it (`values[*first_max_index]` etc. in the code). -/
structure Idx (R : Type) where
  first : Nat
  firstV : R
  second : Nat
  secondV : R
  min : Nat
  minV : R
deriving DecidableEq

/-- The loop of `GetIndexes`, bounded_nelder_mead.cpp:273-289; `i` is the position of the head of the list. -/
def indexLoop : Nat → List R → Idx R → Idx R
  | _, [], s => s
  | i, v :: vs, s =>
    let s1 := if v > s.firstV then { s with second := s.first, secondV := s.firstV, first := i, firstV := v }
      else if v > s.secondV then { s with second := i, secondV := v } else s
    let s2 := if v < s.minV then { s1 with min := i, minV := v } else s1
    indexLoop (i + 1) vs s2

/-- `GetIndexes`, bounded_nelder_mead.cpp:253-290. -/
def getIndexes : List R → Res (Idx R)
  | v0 :: v1 :: vs => .ok (indexLoop 2 vs (if v0 > v1 then ⟨0, v0, 1, v1, 1, v1⟩ else ⟨1, v1, 0, v0, 0, v0⟩))
  | _ => .throw "invalid_argument"

/-- `GetRegularSimplex`, bounded_nelder_mead.cpp:292-322. -/
def regularSimplex (sqrt : R → R) (base : List R) (l : R) : List (List R) :=
  let n : R := (base.length : R)
  let r1 := l * (sqrt (n + 1) + n - 1) / (n * sqrt 2)
  let r2 := l * (sqrt (n + 1) - 1) / (n * sqrt 2)
  base :: (List.range base.length).map fun i => base.mapIdx fun j x => if j = i then x + r1 else x + r2

/-- `Reflexion`, bounded_nelder_mead.cpp:324-336 (both points have the same dimension). -/
def reflexion (center target : List R) : List R := List.zipWith (fun c t => c + 1 * (c - t)) center target

/-- `Expansion`, bounded_nelder_mead.cpp:338-350. -/
def expansion (center target : List R) : List R := List.zipWith (fun c t => c + 2 * (t - c)) center target

/-- `Contraction`, bounded_nelder_mead.cpp:352-364. -/
def contraction (center target : List R) : List R := List.zipWith (fun c t => c + 1 / 2 * (t - c)) center target

/-- `Reduction`, bounded_nelder_mead.cpp:366-387 (a polygon has one vertex more than coordinates; vertex `index` does not move). -/
def reduction (polygon : List (List R)) (index : Nat) : Res (List (List R)) :=
  match polygon[index]? with
  | none => .throw "invalid_argument"
  | some base => .ok (polygon.mapIdx fun i p => if i ≠ index then List.zipWith (fun b x => b + 1 / 2 * (x - b)) base p else p)

/-- `CountDifferance`, bounded_nelder_mead.cpp:389-405. -/
def difference (sqrt : R → R) (values : List R) : R :=
  let average := values.foldl (· + ·) 0 / (values.length : R)
  sqrt (values.foldl (fun s v => s + (v - average) * (v - average)) 0 / (values.length : R))

/-- `std::abs`. -/
def absolute (x : R) : R := if x < 0 then -x else x

/-- The inner loop of `CountPolygonDifferance`, bounded_nelder_mead.cpp:414-417; reading outside the other vector is undefined. -/
def rowDifference : R → List R → List R → Res R
  | acc, [], _ => .ok acc
  | acc, x :: xs, y :: ys => rowDifference (acc + absolute (x - y)) xs ys
  | _, _ :: _, [] => .ub

/-- `CountPolygonDifferance`, bounded_nelder_mead.cpp:407-420. -/
def polygonDifference : R → List (List R) → List (List R) → Res R
  | acc, [], _ => .ok acc
  | acc, p :: ps, q :: qs => do
    let acc' ← rowDifference acc p q
    polygonDifference acc' ps qs
  | acc, p :: ps, [] => if p.isEmpty then polygonDifference acc ps [] else .ub

/-- `GetCenterOfMass`, bounded_nelder_mead.cpp:422-449. -/
def centerOfMass (polygon : List (List R)) (index : Nat) : Res (List R) :=
  if index ≥ polygon.length then .throw "invalid_argument"
  else
    let n := (polygon.headD []).length
    .ok ((List.range n).map fun i => (polygon.eraseIdx index).foldl (fun s p => s + p.getD i 0) 0 / (n : R))

/-- `Constants::Eps`, constants.cpp:11 (`1e-10`; here the exact decimal if division is exact). -/
def tolerance : R := 1 / ((10000000000 : Nat) : R)

/-- The search loop of `WasSamePolygonBefore`, bounded_nelder_mead.cpp:233-242. -/
def sameLoop (polygon : List (List R)) : List (List (List R)) → Res Bool
  | [] => .ok false
  | q :: qs => do
    let d ← polygonDifference 0 polygon q
    if d < tolerance then return true else sameLoop polygon qs

/-- `WasSamePolygonBefore`, bounded_nelder_mead.cpp:229-251 (`max_previous_polygons_count` is 10, bounded_nelder_mead.h:75): the answer
and the new `previous_polygons_`. -/
def wasSame (previous : List (List (List R))) (polygon : List (List R)) : Res (Bool × List (List (List R))) := do
  let b ← sameLoop polygon previous
  let kept := if previous.length ≥ 10 then previous.tail else previous
  return (b, kept ++ [polygon])

/-- `GetTerminationCriteria`, bounded_nelder_mead.cpp:206-227: whether to go on, and the new `previous_polygons_`. -/
def goOn (sqrt : R → R) (cfg : Config R) (r : Nat) (values : List R) (polygon : List (List R)) (previous : List (List (List R))) :
    Res (Bool × List (List (List R))) :=
  if r > 1000 * (polygon.headD []).length then .ok (false, previous)
  else do
    let s ← wasSame previous polygon
    if s.1 then return (false, s.2) else return (decide (difference sqrt values > cfg.precision), s.2)

/-- One iteration, bounded_nelder_mead.cpp:88-160: the new polygon and function values. -/
def body (cfg : Config R) (polygon : List (List R)) (values : List R) : Prog R (List (List R) × List R) := do
  let idx ← Prog.lift (getIndexes values)
  let center ← Prog.lift (centerOfMass polygon idx.first)
  match polygon[idx.first]? with
  | none => Prog.ub
  | some worst =>
    let reflected := project cfg (reflexion center worst)
    let rv ← Prog.askMin reflected
    if rv < idx.minV then
      let expanded := project cfg (expansion center reflected)
      let ev ← Prog.askMin expanded
      if ev < rv then return (polygon.set idx.first expanded, values.set idx.first ev)
      else return (polygon.set idx.first reflected, values.set idx.first rv)
    else if rv ≤ idx.secondV then return (polygon.set idx.first reflected, values.set idx.first rv)
    else
      let better := decide (rv < idx.firstV)
      let polygon' := if better then polygon.set idx.first reflected else polygon
      let values' := if better then values.set idx.first rv else values
      let highest := if better then rv else idx.firstV
      let contracted := contraction center (if better then reflected else worst)
      let cv ← Prog.askMin contracted
      if cv > highest then
        let polygon'' ← Prog.lift (reduction polygon' idx.min)
        return (polygon'', values')
      else return (polygon'.set idx.first contracted, values'.set idx.first cv)

/-- State when the loop is left: polygon, recorded function values, `previous_polygons_` and the number of iterations. -/
structure Final (R : Type) where
  polygon : List (List R)
  values : List R
  previous : List (List (List R))
  iterations : Nat

/-- The `do ... while` loop, bounded_nelder_mead.cpp:83-161 (with fuel). -/
def loop (sqrt : R → R) (cfg : Config R) : Nat → Nat → List (List R) → List R → List (List (List R)) → Prog R (Final R)
  | 0, _, _, _, _ => .done (.throw "(out of fuel)")
  | fuel + 1, r, polygon, values, previous => do
    let s ← body cfg polygon values
    let t ← Prog.lift (goOn sqrt cfg (r + 1) s.2 s.1 previous)
    if t.1 then loop sqrt cfg fuel (r + 1) s.1 s.2 t.2 else return ⟨s.1, s.2, t.2, r + 1⟩

/-- `CountObjectiveFunctionValues`, bounded_nelder_mead.cpp:183-196. -/
def countAll : List (List R) → Prog R (List R)
  | [] => return []
  | p :: ps => do
    let v ← Prog.askMin p
    let vs ← countAll ps
    return v :: vs

/-- `FindOptimalParameters` up to the end of the loop, bounded_nelder_mead.cpp:72-161; `previous` is what earlier calls left in the object. -/
def search (sqrt : R → R) (cfg : Config R) (fuel : Nat) (previous : List (List (List R))) (initial : List R) : Prog R (Final R) := do
  let polygon := regularSimplex sqrt initial cfg.l
  let values ← countAll polygon
  loop sqrt cfg fuel 0 polygon values previous

/-- The result, bounded_nelder_mead.cpp:164-165: the vertex at the first of the largest recorded values. -/
def result (s : Final R) : Res (List R) :=
  match s.values with
  | [] => .ub
  | v :: vs =>
    match s.polygon[Grid.maxElement 0 v 1 vs]? with
    | some p => .ok p
    | none => .ub

/-- `FindOptimalParameters`, bounded_nelder_mead.cpp:72-166; returns the point and the new `previous_polygons_`. -/
def find (sqrt : R → R) (cfg : Config R) (fuel : Nat) (previous : List (List (List R))) (initial : List R) :
    Prog R (List R × List (List (List R))) := do
  let s ← search sqrt cfg fuel previous initial
  let p ← Prog.lift (result s)
  return (p, s.previous)

end K52.NelderMead
