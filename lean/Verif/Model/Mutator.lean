import Verif.Model.Random
import Verif.Model.Params
import Verif.Model.Floor

/-!
# Model of the gene mutators

Sources: `src/optimization/genetic_algorithm/gen_mutator_base.cpp`, `flip_bit_mutator.cpp`, `linear_mutator.cpp`.
-/

namespace K52.Mutator
open K52.Random (Lib)

variable {R : Type} [Div R] [Zero R] [One R] [HasFloor R] [DecidableEq R]

/-- `MutationContext`, mutation_context in i_mutator.h / gen_mutator_base.h. -/
structure Context where
  current : Int
  maxGenerations : Int

/-- The virtual functions a gene mutator supplies to `GenMutatorBase` (gen_mutator_base.h): whether to mutate the current gene,
and what to do after it.  `S` is the mutator object's own state. -/
structure Genes (S : Type) where
  should : S → Lib → Res (Bool × Lib)
  after : S → Bool → Lib → Res (S × Lib)

/-- `GenMutatorBase::MutateChromosome`, gen_mutator_base.cpp:16-29. -/
def mutateChromosome {S : Type} (g : Genes S) : S → Lib → List Bool → Res (List Bool × S × Lib)
  | s, l, [] => .ok ([], s, l)
  | s, l, b :: bs => do
    let m ← g.should s l
    let a ← g.after s m.1 m.2
    let rest ← mutateChromosome g a.1 a.2 bs
    return ((if m.1 then !b else b) :: rest.1, rest.2)

/-! ### FlipBitMutator -/

/-- Fields of `FlipBitMutator`, flip_bit_mutator.h. -/
structure Flip where
  maxSkip : Int
  toSkip : Int
  skipped : Int
  deriving Repr, DecidableEq

/-- `SetGensToSkipNow`, flip_bit_mutator.cpp:45-49. -/
def Flip.setGensToSkip (f : Flip) (l : Lib) : Res (Flip × Lib) := do
  let r ← Random.discrete l 0 f.maxSkip
  return ({ f with toSkip := r.1, skipped := 0 }, r.2)

/-- Constructor, flip_bit_mutator.cpp:14-26.  Dividing by a zero probability gives infinity, whose conversion to `int` is
undefined. -/
def Flip.new (p : R) (l : Lib) : Res (Flip × Lib) :=
  if p = 0 then .ub
  else do
    let k ← int32 (HasFloor.floor (1 / p))
    let m ← int32 (k - 1)
    if m ≤ 0 then .throw "invalid_argument" else Flip.setGensToSkip ⟨m, 0, 0⟩ l

/-- `ShouldMutateCurrentGen` and `AfterGenProcessed`, flip_bit_mutator.cpp:28-43.  (`currently_skipped_gens_` never exceeds
`gens_to_skip_now_`, see `C38_flip_invariant`, so its increment does not overflow.) -/
def flipGenes : Genes Flip where
  should f l := .ok (decide (f.skipped ≥ f.toSkip), l)
  after f mutated l := if mutated then f.setGensToSkip l else .ok ({ f with skipped := f.skipped + 1 }, l)

/-! ### LinearMutator -/

section Linear

/-! As in `Verif.Model.Random`, `double` is any type with arithmetic and comparisons (exact in C38, rounded in C99). -/

variable {R : Type} [Add R] [Sub R] [Mul R] [Div R] [Zero R] [One R] [NatCast R] [IntCast R] [LT R] [LE R] [DecidableLT R] [DecidableLE R]
  [DecidableEq R]

/-- Fields of `LinearMutator`, linear_mutator.h, with the context stored by `ApplyNewMutationContext`
(gen_mutator_base.cpp:11-14). -/
structure Linear (R : Type) where
  start : R
  stop : R
  ctx : Context

/-- A `double` that may be the result of a division by zero. -/
inductive Ext (R : Type) where
  | val (x : R)
  | nan
  | inf

/-- Constructor, linear_mutator.cpp:12-17. -/
def Linear.new (start stop : R) : Res (Linear R) := do
  Random.validateProbability start
  Random.validateProbability stop
  return ⟨start, stop, ⟨0, 0⟩⟩

/-- `GetCurrentGenMutationProbability`, linear_mutator.cpp:24-29. -/
def Linear.probability (m : Linear R) : Ext R :=
  if m.ctx.maxGenerations - 1 = 0 then
    if (m.stop - m.start) * (m.ctx.current : R) = 0 then .nan else .inf
  else .val ((m.stop - m.start) * (m.ctx.current : R) / ((m.ctx.maxGenerations - 1 : Int) : R) + m.start)

/-- `ShouldMutateCurrentGen`, linear_mutator.cpp:19-22 with random.cpp:20-26, 60-65: comparisons with NaN are false, so a NaN
probability is accepted and the event does not happen; an infinite one is rejected. -/
def linearGenes : Genes (Linear R) where
  should m l :=
    match m.probability with
    | .val p => Random.event l p
    | .nan => .ok (false, (Random.rand l).2)
    | .inf => .throw "invalid_argument"
  after m _ l := .ok (m, l)

end Linear

end K52.Mutator
