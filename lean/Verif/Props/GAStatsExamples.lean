import Verif.Props.GAStats
import Verif.Props.GAExamples

/-! # A concrete run with a callback that saves a population, and a run resumed from it: the hypotheses of C78 and C79 are met -/

namespace K52.GA.Examples
open K52.Indiv

/-- Counts its calls and asks for two files in generation 1, one of which cannot be opened. -/
def watcher (calls : Nat) (s : GenStat Two ℚ) : Nat × List String :=
  (calls + 1, if s.number = 1 then ["population.txt", ""] else [])

def observer : Observer Two ℚ Nat := ⟨some watcher, fun n => decide (n ≠ ""), Text.unaryFormat⟩

def watched : Res (ResultS Two ℚ Unit Nat) := optimizeS config observer .none 10 value (Counter.new 12 1) () rng 7 0 ⟨false, false⟩ true

/-- Average, best, number, cache hits, invalid chromosomes told to the callback. -/
def figures (r : Res (ResultS Two ℚ Unit Nat)) : List (ℚ × ℚ × Int × Nat × Nat) :=
  match r with
  | .ok r => r.fin.gens.filterMap (fun g => g.stat.map (fun s => (s.average, s.bestFitness, s.number, s.hits, s.invalid)))
  | _ => []

/-- The individual figures (fitness, times chosen) told to the callback, and the fitnesses of the generation. -/
def individuals (r : Res (ResultS Two ℚ Unit Nat)) : List (List (ℚ × Nat) × List ℚ) :=
  match r with
  | .ok r => r.fin.gens.filterMap (fun g => g.stat.map (fun s => (s.all.map (fun x => (x.fitness, x.times)), g.pop.map Indiv.fitness)))
  | _ => []

def files (r : Res (ResultS Two ℚ Unit Nat)) : List (List String) :=
  match r with
  | .ok r => r.fin.gens.map (fun g => g.files.map Prod.fst)
  | _ => []

/-- Three calls; the 7 invalid chromosomes left by an earlier run are reported for generation 0. -/
theorem watched_figures : figures watched = [(2, 3, 0, 0, 7), (5 / 2, 4, 1, 3, 0), (7 / 2, 4, 2, 4, 0)] := by decide +kernel

/-- **C78 (statistics of single individuals are one generation late).** The individual figures told in generation 1 are those of
generation 0 (fitnesses 2, 3, 1, 2), not those of the current population (4, 1, 3, 2). -/
theorem C78_previous_generation : individuals watched =
    [([(0, 0), (0, 0), (0, 0), (0, 0)], [2, 3, 1, 2]), ([(2, 1), (3, 1), (1, 0), (2, 0)], [4, 1, 3, 2]),
      ([(4, 1), (3, 1), (1, 0), (2, 0)], [3, 4, 4, 3])] := by decide +kernel

/-- Only the file that can be opened is written, and silently so. -/
theorem watched_files : files watched = [[], ["population.txt"], []] := by decide +kernel

theorem watched_ok : ∃ r, watched = .ok r := by
  have h : (match watched with | .ok _ => true | _ => false) = true := by decide +kernel
  split at h
  · next r e => exact ⟨r, e⟩
  · simp at h

/-- The hypotheses of `C78_report` are met by this run. -/
example : ∃ r, watched = .ok r ∧ Setting (fun _ => True) 2 config (Counter.new 12 1) ⟨false, false⟩ ∧
    observer.callback = some watcher ∧ (Counter.new (R := ℚ) 12 1).hits = 0 := by
  obtain ⟨r, h⟩ := watched_ok
  refine ⟨r, h, config_setting, rfl, ?_⟩
  unfold Counter.new
  rfl

/-- The text saved in generation 1. -/
def saved : List Char :=
  match watched with
  | .ok r => (r.fin.gens.flatMap (fun g => g.files.map Prod.snd)).headD []
  | _ => []

/-- A later run with another random sequence, started from the saved file: its first generation holds the saved chromosomes. -/
theorem resumed : (match optimizeS config observer (.text saved) 10 value (Counter.new 12 1) () ⟨⟨7, fun _ => 3⟩, fun i => i % 2 == 0⟩ 0 0
      ⟨false, false⟩ true, watched with
    | .ok r2, .ok r => decide ((r2.fin.gens.head?.map fun g => g.pop.map Indiv.chrom) = (r.fin.gens[1]?.map fun g => g.pop.map Indiv.chrom))
    | _, _ => false) = true := by decide +kernel

/-- A file for another population size is refused. -/
theorem refused : (match optimizeS { config with popSize := 6 } observer (.text saved) 10 value (Counter.new 12 1) () rng 0 0 ⟨false, false⟩ true with
    | .throw _ => true
    | _ => false) = true := by decide +kernel

end K52.GA.Examples
