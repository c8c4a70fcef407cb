import Verif.Model.GA

/-!
# Model of the text form of individuals and populations

Sources: `src/optimization/genetic_algorithm/individual.cpp`:254-305, `genetic_algorithm.cpp`:461-500.

A stream is the list of characters still to come and the fail bit.  How numbers are printed and parsed by the standard library is a
parameter (`Format`): the default `<<` for `double` keeps six significant digits, so printing and reading back is not the identity.
-/

namespace K52.Text
open K52.Indiv

variable {P R : Type} [DiscreteParams P] [Add R] [Sub R] [Mul R] [Div R] [Zero R] [One R] [NatCast R] [LinearOrder R]

/-- `isspace` in the "C" locale. -/
def isSpace (c : Char) : Bool :=
  c == ' ' || c == '\t' || c == '\n' || c == '\r' || c == Char.ofNat 11 || c == Char.ofNat 12

/-- Characters a printed number consists of (`num_get` collects these). -/
def isNumChar (c : Char) : Bool :=
  c.isDigit || c == '.' || c == 'e' || c == 'E' || c == '+' || c == '-'

/-- Printing and parsing of numbers by `<<` and `>>`. -/
structure Format (R : Type) where
  /-- what `out << x` writes -/
  fmt : R → List Char
  /-- what a run of number characters is read as; `none` sets the fail bit -/
  num : List Char → Option R
  /-- the same for `std::size_t` -/
  fmtN : Nat → List Char
  numN : List Char → Option Nat

/-- What is assumed of the standard library: numbers are printed with number characters, at least one, and reading a printed number
back succeeds, giving the number rounded to the printed digits; sizes are read back exactly. -/
structure Format.Sane (F : Format R) (round : R → R) : Prop where
  chars : ∀ x, F.fmt x ≠ [] ∧ ∀ c ∈ F.fmt x, isNumChar c = true
  num : ∀ x, F.num (F.fmt x) = some (round x)
  charsN : ∀ n, F.fmtN n ≠ [] ∧ ∀ c ∈ F.fmtN n, isNumChar c = true
  numN : ∀ n, F.numN (F.fmtN n) = some n

/-- An input stream. -/
structure In where
  rest : List Char
  fail : Bool
  deriving Repr, DecidableEq

/-- `in >> s` for a string: skips white space, reads up to the next white space; at the end of input or in a failed stream the string
keeps its old value and the stream fails. -/
def readWord (i : In) (old : List Char) : List Char × In :=
  if i.fail then (old, i)
  else match i.rest.dropWhile isSpace with
    | [] => (old, ⟨[], true⟩)
    | c :: cs => ((c :: cs).takeWhile (fun x => !isSpace x), ⟨(c :: cs).dropWhile (fun x => !isSpace x), false⟩)

/-- `in >> x` for a number: 0 and a failed stream when there is nothing to parse. -/
def readNum {α : Type} (zero : α) (parse : List Char → Option α) (i : In) : α × In :=
  if i.fail then (zero, i)
  else
    let cs := i.rest.dropWhile isSpace
    match parse (cs.takeWhile isNumChar) with
    | some x => (x, ⟨cs.dropWhile isNumChar, false⟩)
    | none => (zero, ⟨cs.dropWhile isNumChar, true⟩)

/-- `operator<<`, individual.cpp:254-264. -/
def write (F : Format R) (i : Indiv P R) : Res (List Char) :=
  if i.init then do
    let x ← getFitness i
    return "Chromosome:\t".toList ++ i.chrom.map (fun b => if b then '1' else '0') ++ "\tFitness:\t".toList ++ F.fmt x ++ ['\n']
  else .throw "logic_error"

/-- The character loop of `operator>>`, individual.cpp:284-298. -/
def parseBits : List Char → Option (List Bool)
  | [] => some []
  | c :: cs =>
    if c = '1' then (parseBits cs).map (true :: ·)
    else if c = '0' then (parseBits cs).map (false :: ·)
    else none

/-- `operator>>`, individual.cpp:266-305: the individual and the stream after the call, and whether it returned.
(`set_fitness` runs after the chromosome has been replaced and before the parameters are.) -/
def read (F : Format R) (i : Indiv P R) (s : In) : Indiv P R × In × Res Unit :=
  let w1 := readWord s []
  let w2 := readWord w1.2 []
  let w3 := readWord w2.2 w1.1
  let f := readNum 0 F.num w3.2
  if !i.init then (i, f.2, .throw "logic_error")
  else if w2.1.length ≠ i.chrom.length then (i, f.2, .throw "logic_error")
  else match parseBits w2.1 with
    | none => (i, f.2, .throw "logic_error")
    | some bits =>
      match setFitness { i with chrom := bits } f.1 with
      | .ok j =>
        match setParams j with
        | .ok k => (k, f.2, .ok ())
        | .throw w => (j, f.2, .throw w)
        | .ub => (j, f.2, .ub)
      | .throw w => ({ i with chrom := bits }, f.2, .throw w)
      | .ub => ({ i with chrom := bits }, f.2, .ub)

/-- The individuals of `OutputPopulation`, genetic_algorithm.cpp:467-470. -/
def writeAll (F : Format R) : List (Indiv P R) → Res (List Char)
  | [] => .ok []
  | i :: is => do
    let a ← write F i
    let b ← writeAll F is
    return a ++ b

/-- `OutputPopulation`, genetic_algorithm.cpp:461-471 (an empty population dereferences `population_[0]`). -/
def writePopulation (F : Format R) (pop : List (Indiv P R)) : Res (List Char) :=
  match pop with
  | [] => .ub
  | i :: is =>
    if i.init then do
      let body ← writeAll F (i :: is)
      return "Population_size: \n".toList ++ F.fmtN (i :: is).length ++ "\nChromosome_size: \n".toList ++ F.fmtN i.chrom.length ++
        ['\n'] ++ body
    else .throw "logic_error"

/-- The loop of `InputPopulation`, genetic_algorithm.cpp:489-497. -/
def readAll (F : Format R) : List (Indiv P R) → In → Res (List (Indiv P R) × In)
  | [], s => .ok ([], s)
  | i :: is, s =>
    match read F i s with
    | (j, s', .ok ()) => do
      let b ← isValid j
      if b then do
        let rest ← readAll F is s'
        return (j :: rest.1, rest.2)
      else .throw "logic_error"
    | (_, _, .throw w) => .throw w
    | (_, _, .ub) => .ub

/-- `InputPopulation`, genetic_algorithm.cpp:473-500, reading into a population of `n` individuals. -/
def readPopulation (F : Format R) (n : Nat) (pop : List (Indiv P R)) (s : In) : Res (List (Indiv P R) × In) :=
  let w1 := readWord s []
  let n1 := readNum 0 F.numN w1.2
  let w2 := readWord n1.2 w1.1
  let n2 := readNum 0 F.numN w2.2
  if n ≠ n1.1 then .throw "logic_error"
  else match pop with
    | [] => .ub
    | i :: is =>
      if !i.init then .throw "logic_error"
      else if n2.1 ≠ i.chrom.length then .throw "logic_error"
      else readAll F (i :: is) n2.2

end K52.Text
