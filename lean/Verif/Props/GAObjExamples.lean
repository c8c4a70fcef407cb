import Verif.Props.GAObjRun
import Verif.Props.GAExamples

/-! # Concrete histories of one genetic algorithm object: the hypotheses of C126 are met, and what the history leaves behind -/

set_option linter.unusedSectionVars false

namespace K52.GA.Examples
open K52.Indiv

/-- Throws in the second generation. -/
def shaky (calls : Nat) (s : GenStat Two ℚ) : Nat × Res (List String) :=
  (calls + 1, if s.number = 1 then .throw "callback" else .ok [])

/-- Never throws. -/
def steady (calls : Nat) (_ : GenStat Two ℚ) : Nat × Res (List String) := (calls + 1, .ok [])

/-- One call of `Optimize`. -/
def call (f : Two → Res ℚ) (cb : Nat → GenStat Two ℚ → Nat × Res (List String)) : Call Two ℚ Unit Nat :=
  ⟨f, ⟨false, false⟩, true, some cb, 0, fun _ => true, Text.unaryFormat, .none, (), rng, 10⟩

/-- The function of the other examples. -/
def valueX (p : Two) : Res ℚ := .ok (value p)

/-- The same function, which throws for one argument. -/
def valueY (p : Two) : Res ℚ := if p = ⟨true, true⟩ then .throw "objective" else .ok (value p)

def fresh : Mem Two ℚ := Mem.new 12 1

/-- How a call ended: the parameters, the best fitness, the hits told to the callback, the fitnesses; or the exception. -/
def ending (x : Mem Two ℚ × Res (Two × EndX Two ℚ Unit Nat)) : Except String (Two × ℚ × List Nat × List (List ℚ)) × Nat × Nat :=
  (match x.2 with
  | .ok (q, r) => .ok (q, r.best.fitness, (r.gens.filterMap Gen.stat).map GenStat.hits, r.gens.map (·.pop.map Indiv.fitness))
  | .throw w => .error w
  | .ub => .error "undefined", x.1.counter.hits, x.1.log.length)

instance : DecidableEq (Except String (Two × ℚ × List Nat × List (List ℚ))) := fun a b =>
  match a, b with
  | .ok x, .ok y => if h : x = y then isTrue (h ▸ rfl) else isFalse fun e => h (by cases e; rfl)
  | .error x, .error y => if h : x = y then isTrue (h ▸ rfl) else isFalse fun e => h (by cases e; rfl)
  | .ok _, .error _ => isFalse fun e => by cases e
  | .error _, .ok _ => isFalse fun e => by cases e

/-- An undisturbed first call: 0, 3 and 4 cache hits. -/
theorem first_call : ending (optimizeX config (call valueX steady) fresh) =
    (.ok (⟨true, true⟩, 4, [0, 3, 4], [[2, 3, 1, 2], [4, 1, 3, 2], [3, 4, 4, 3]]), 0, 5) := by decide +kernel

/-- A callback that throws in the second generation leaves 3 hits behind. -/
theorem callback_throws : ending (optimizeX config (call valueX shaky) fresh) = (.error "callback", 3, 5) := by decide +kernel

/-- **C126** (left over hits, violation): the next call tells them to its callback: 7 hits for a generation of 4. -/
theorem C126_left_over : ending (optimizeX config (call valueX steady) (objRun config fresh [.optimize (call valueX shaky)])) =
    (.ok (⟨true, true⟩, 4, [7, 4, 4], [[2, 3, 1, 2], [4, 1, 3, 2], [3, 4, 4, 3]]), 0, 5) := by decide +kernel

/-- An objective function that throws in the second generation: the next call tells the 3 left over hits too, and has to evaluate only the individual
whose evaluation failed. -/
theorem objective_throws : ending (optimizeX config (call valueY steady) fresh) = (.error "objective", 3, 4) ∧
    ending (optimizeX config (call valueX steady) (objRun config fresh [.optimize (call valueY steady)])) =
      (.ok (⟨true, true⟩, 4, [7, 3, 4], [[2, 3, 1, 2], [4, 1, 3, 2], [3, 4, 4, 3]]), 0, 5) := by decide +kernel

/-- A second objective function on the same object (C23's violation seen through C126): the fitnesses are those of the first function. -/
theorem C126_old_values : ending (optimizeX config (call (fun p => .ok (5 - value p)) steady) (objRun config fresh [.optimize (call valueX steady)])) =
    (.ok (⟨true, true⟩, 4, [4, 4, 4], [[2, 3, 1, 2], [4, 1, 3, 2], [3, 4, 4, 3]]), 0, 5) := by decide +kernel

/-- A cache that cannot hold a generation: the first call throws when it stores the second generation, and so does the next when it stores its first
(`C126_full`: and so does every later one). -/
theorem full_cache : ending (optimizeX config (call valueX steady) (Mem.new 12 (1 / 1000000))) = (.error "runtime_error", 3, 5) ∧
    ending (optimizeX config (call valueX steady) (objRun config (Mem.new 12 (1 / 1000000)) [.optimize (call valueX steady)])) =
      (.error "runtime_error", 7, 5) := by decide +kernel

/-- The hypotheses of `C126_full` are met by that object. -/
theorem full_met : ∃ m, storeX hash [] [] (objRun config (Mem.new 12 (1 / 1000000)) [.optimize (call valueX steady)]) = (m, .throw "runtime_error") := by
  have h : (match storeX hash [] [] (objRun config (Mem.new 12 (1 / 1000000)) [.optimize (call valueX steady)]) with
    | (_, .throw w) => decide (w = "runtime_error")
    | _ => false) = true := by decide +kernel
  rcases hs : storeX hash [] [] (objRun config (Mem.new 12 (1 / 1000000)) [.optimize (call valueX steady)]) with ⟨m, w⟩
  rw [hs] at h
  cases w with
  | throw w => simp only [decide_eq_true_eq] at h; subst h; exact ⟨m, rfl⟩
  | ok u => simp at h
  | ub => simp at h

theorem two_noCollision : NoCollision hash fun chr => chr.length = 2 := by
  intro a b ha hb h
  match a, ha, b, hb with
  | [a1, a2], _, [b1, b2], _ =>
    revert h; revert a1 a2 b1 b2; decide

/-- The hypotheses of `C126_same_function` are met after a call whose callback threw. -/
theorem same_function_met : ∃ m' q r, optimizeX config (call valueX steady) (objRun config fresh [.optimize (call valueX shaky)]) = (m', .ok (q, r)) ∧
    (∀ op ∈ [.optimize (call valueX shaky)], Fits (fun _ => True) 2 valueX op) ∧ 0 < m'.log.length ∧ r.gens.length = 3 ∧
    NoCollision config.hash fun chr => (∃ e ∈ m'.log, e.1 = chr) ∨ ∃ g ∈ r.gens, ∃ i ∈ g.pop, i.chrom = chr := by
  have h : (match optimizeX config (call valueX steady) (objRun config fresh [.optimize (call valueX shaky)]) with
    | (m', .ok (_, r)) => decide (0 < m'.log.length) && decide (r.gens.length = 3) && m'.log.all (fun e => decide (e.1.length = 2)) &&
        r.gens.all (fun g => g.pop.all fun i => decide (i.chrom.length = 2))
    | _ => false) = true := by decide +kernel
  rcases hs : optimizeX config (call valueX steady) (objRun config fresh [.optimize (call valueX shaky)]) with ⟨m', w⟩
  rw [hs] at h
  cases w with
  | throw w => simp at h
  | ub => simp at h
  | ok x =>
    obtain ⟨q, r⟩ := x
    simp only [Bool.and_eq_true, decide_eq_true_eq, List.all_eq_true] at h
    obtain ⟨⟨⟨h1, h2⟩, h3⟩, h4⟩ := h
    refine ⟨m', q, r, rfl, ?_, h1, h2, ?_⟩
    · intro op hop
      simp only [List.mem_singleton] at hop
      subst hop
      exact ⟨trivial, rfl⟩
    · intro a b ha hb hab
      have len : ∀ chr, ((∃ e ∈ m'.log, e.1 = chr) ∨ ∃ g ∈ r.gens, ∃ i ∈ g.pop, i.chrom = chr) → chr.length = 2 := by
        rintro chr (⟨e, he, rfl⟩ | ⟨g, hg, i, hi, rfl⟩)
        · exact h3 e he
        · exact h4 g hg i hi
      exact two_noCollision a b (len a ha) (len b hb) hab

/-- A parameter whose copying can fail. -/
structure Frail where
  bad : Bool
  deriving DecidableEq

instance : DiscreteParams Frail where
  clone p := if p.bad then .throw "bad_alloc" else .ok p
  size _ := .ok 1
  check _ := .ok true
  setChromosome p chr := if chr.length = 1 then .ok [p.bad] else .throw "invalid_argument"
  setFrom p chr := match chr with
    | [_] => (p, .ok ())
    | _ => (p, .throw "invalid_argument")
  sameMeta _ _ := .ok true

/-- `SetInitialParameters` fails at the second object. -/
theorem set_failed_met : ∃ m : Mem Frail ℚ, setInitialX (Mu := Unit) ⟨2, 1, 3, 100, none, flipFirst, hash, id⟩ [some ⟨false⟩, some ⟨true⟩]
    (Mem.new 12 1) = (m, .throw "bad_alloc") ∧ m.initial = [some ⟨false⟩, none] ∧ m.given = false :=
  ⟨{ Mem.new 12 1 with initial := [some ⟨false⟩, none] }, rfl, rfl, rfl⟩

/-- On an object that had initial parameters (the hypotheses of the first half of `C126_set_failed`). -/
theorem set_failed_met_given : ∃ m m' : Mem Frail ℚ, m.given = true ∧
    setInitialX (Mu := Unit) ⟨2, 1, 3, 100, none, flipFirst, hash, id⟩ [some ⟨false⟩, some ⟨false⟩] (Mem.new 12 1) = (m, .ok ()) ∧
    setInitialX (Mu := Unit) ⟨2, 1, 3, 100, none, flipFirst, hash, id⟩ [some ⟨true⟩, some ⟨true⟩] m = (m', .throw "bad_alloc") :=
  ⟨{ Mem.new 12 1 with initial := [some ⟨false⟩, some ⟨false⟩], given := true }, { Mem.new 12 1 with initial := [none, none], given := true }, rfl, rfl, rfl⟩

end K52.GA.Examples
