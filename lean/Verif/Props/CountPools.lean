import Verif.Props.ThreadPool
import Verif.Props.MpiBlocking
import Verif.Props.Parallel
import Verif.Props.GA
import Verif.Model.Processors

/-!
# C123: the worker pool does not matter

`CountObjectiveFunctionValues` (objective_function_counter.cpp:51-66) hands counting tasks to whichever pool the factory made (C58).  The models of the genetic
algorithm and of the parameter processors evaluate the objective function directly; here they are connected to the transition systems of the three pools.
-/

namespace K52.CountPools

variable {P R : Type}

/-! ## Specification -/

/-- What `Perform` of the counting task for `p` gives in this process. -/
def performLocal (f : P → R) (p : P) : Option R := some (f p)

/-- `AnyPool f DoTasks`: `DoTasks ps vals` says that counting the values of `f` for `ps`, in a pool in some state it can be in between two calls, can end with
the values `vals` being returned.  For MPI `f` is what a worker computes for the parameters it receives (C33: the same). -/
inductive AnyPool (f : P → R) : (List P → List R → Prop) → Prop
  /-- the sequential pool, whatever it has counted before -/
  | sequential (st : WStats) : AnyPool f fun ps vals => (SeqPool.doTasks (fun (e : Unit) p => (e, performLocal f p)) () st ps).2.2 = .ok vals
  /-- a thread pool after any history, that is not inside a call; `vals` are the results of any execution of the call that ends -/
  | thread (w : Nat) (s₀ : Pool.S P R w) : Pool.Reach (performLocal f) s₀ → s₀.loc none = .idle → 2 ≤ w →
      AnyPool f fun ps vals => ∃ s, Pool.Returns (performLocal f) s₀ ps s ∧ s.results = vals.map some
  /-- an MPI pool after any history, that is not inside a call; `vals` are read from the messages of any execution of the call that ends -/
  | mpi (size : Nat) (b₀ : Mpi.Blk P (Transfer.Datum R)) : Mpi.BlkReach size (fun p => Transfer.sendValue (f p)) (fun _ => Mpi.valueRest) b₀ →
      b₀.s.loc = .idle → 2 ≤ size →
      AnyPool f fun ps vals => ∃ s k b, Mpi.Call size b₀.s s ∧ s.batch = ps ∧
        Mpi.BlkRun size (fun p => Transfer.sendValue (f p)) (fun _ => Mpi.valueRest) k { b₀ with s := s } b ∧ b.s.loc = .idle ∧
        vals.length = ps.length ∧ ∀ (i : Nat) v, vals[i]? = some v → Transfer.receiveValue (b.s.got i) = .ok (v, [])

theorem map_some_inj {α : Type} : ∀ {l l' : List α}, l.map some = l'.map some → l = l'
  | [], [], _ => rfl
  | [], _ :: _, h => by simp at h
  | _ :: _, [], h => by simp at h
  | a :: l, b :: l', h => by
    simp only [List.map_cons, List.cons.injEq, Option.some.injEq] at h
    rw [h.1, map_some_inj h.2]

theorem server_batch {T M : Type} {size : Nat} {parts : T → List M} {b : Bool} {s s' : Mpi.S T M} (h : Mpi.Server size parts b s s') : s'.batch = s.batch := by
  cases h <;> rfl

theorem remote_batch {T M : Type} {size : Nat} {parts : T → List M} {s s' : Mpi.S T M} (h : Mpi.Remote size parts s s') : s'.batch = s.batch := by
  cases h <;> rfl

theorem run_batch {T M : Type} {size : Nat} {parts : T → List M} {rest : T → List Mpi.Kind} {k : Nat} {b b' : Mpi.Blk T M}
    (h : Mpi.BlkRun size parts rest k b b') : b'.s.batch = b.s.batch := by
  have one : ∀ {l : Bool} {b b' : Mpi.Blk T M}, Mpi.BlkStep size parts rest l b b' → b'.s.batch = b.s.batch := by
    intro l b b' h
    cases h with
    | remote h => exact remote_batch h
    | server h =>
      cases h <;> first | rfl | (rename_i h; exact server_batch h)
  induction h with
  | refl => rfl
  | work _ h ih => rw [one h, ih]
  | poll _ h ih => rw [one h, ih]

/-! ## Theorems -/

theorem sequential_values (f : P → R) : ∀ (ps : List P) (st : WStats),
    (SeqPool.doTasks (fun (e : Unit) p => (e, performLocal f p)) () st ps).2.2 = .ok (ps.map f)
  | [], _ => rfl
  | p :: ps, st => by
    have h := sequential_values f ps st.incCounted
    simp only [SeqPool.doTasks, performLocal] at h ⊢
    rcases hd : SeqPool.doTasks (fun (e : Unit) p => (e, some (f p))) () st.incCounted ps with ⟨e, st', r⟩
    rw [hd] at h
    simp only at h
    subst h
    rfl

/-- **C123** (values).  Whichever pool it is and whatever it did before, counting the values of `ps` can end, and only with the value of the first parameters
first, the value of the second parameters second, and so on. -/
theorem C123_values [Field R] [LinearOrder R] [IsStrictOrderedRing R] [FloorRing R] (f : P → R) (DoTasks : List P → List R → Prop)
    (h : AnyPool f DoTasks) (ps : List P) (vals : List R) : DoTasks ps vals ↔ vals = ps.map f := by
  cases h with
  | sequential st =>
    show (SeqPool.doTasks (fun (e : Unit) p => (e, performLocal f p)) () st ps).2.2 = .ok vals ↔ _
    rw [sequential_values]
    simp [eq_comm]
  | thread w s₀ hr h0 hw =>
    constructor
    · rintro ⟨s, hs, hv⟩
      have h1 := (Pool.C24_results hr hs).1
      rw [hv] at h1
      apply map_some_inj
      rw [h1, List.map_map]
      rfl
    · rintro rfl
      obtain ⟨s, hs⟩ := Pool.C25_can_return (tasks := ps) hr h0 hw (by simp [performLocal])
      refine ⟨s, hs, ?_⟩
      rw [(Pool.C24_results hr hs).1, List.map_map]
      rfl
  | mpi size b₀ hr h0 hw =>
    have val : ∀ s k b, Mpi.Call size b₀.s s → s.batch = ps →
        Mpi.BlkRun size (fun p => Transfer.sendValue (f p)) (fun _ => Mpi.valueRest) k { b₀ with s := s } b → b.s.loc = .idle →
        ∀ i (hi : i < ps.length), Transfer.receiveValue (b.s.got i) = .ok (f ps[i], []) := by
      intro s k b hc hb hrun hi i hlt
      have h1 : b.s.batch = ps := by rw [run_batch hrun]; exact hb
      have h2 := Mpi.C119_values f (hrun.reach (hr.call hc)) hi i (by rw [h1]; exact hlt)
      simpa [h1] using h2
    constructor
    · rintro ⟨s, k, b, hc, hb, hrun, hi, hl, hv⟩
      apply List.ext_getElem (by simp [hl])
      intro i h1 h2
      have h3 := hv i _ (List.getElem?_eq_getElem h1)
      rw [val s k b hc hb hrun hi i (by omega)] at h3
      simp only [Res.ok.injEq, Prod.mk.injEq, and_true] at h3
      rw [List.getElem_map, h3]
    · rintro rfl
      obtain ⟨k, b, hrun, hi⟩ := Mpi.C119_can_return (fun t => by simp [Transfer.sendValue, Mpi.valueRest]) (hr.call (Mpi.Call.doTasks ps h0 hw))
      refine ⟨_, k, b, Mpi.Call.doTasks ps h0 hw, rfl, hrun, hi, by simp, ?_⟩
      intro i v hv
      obtain ⟨hlt, rfl⟩ := List.getElem?_eq_some_iff.1 hv
      rw [List.getElem_map]
      exact val _ k b (Mpi.Call.doTasks ps h0 hw) rfl hrun hi i (by simpa using hlt)

/-! ### The two users of the counting tasks -/

/-- `ObtainFitness`, objective_function_counter.cpp:29-49, with the values of the individuals that are not in the cache counted by a pool: `out` is a possible
outcome. -/
def ObtainsBy [DiscreteParams P] [Zero R] [LT R] [DecidableLT R] (DoTasks : List P → List R → Prop) (hash : List Bool → Nat) (c : GA.Counter R) (pop : List (Indiv P R))
    (out : Res (GA.Counter R × List (Indiv P R))) : Prop :=
  match GA.process hash c pop with
  | .throw w => out = .throw w
  | .ub => out = .ub
  | .ok (c0, todo) => ∃ vals, DoTasks (GA.toCount todo) vals ∧
      out = (do
        let pop' ← GA.assign todo vals
        match c0.cache with
        | none => return ({ c0 with counts := c0.counts + vals.length }, pop')
        | some k =>
          match Cache.addMany k (GA.records hash todo pop') with
          | (k', .done) => return ({ c0 with counts := c0.counts + vals.length, cache := some k' }, pop')
          | _ => .throw "runtime_error")

/-- `SimpleParametersProcessor::ProcessParameters`, simple_parameters_processor.cpp:15-43, with the values counted by a pool. -/
def ChoosesBy [LT R] [DecidableLT R] (DoTasks : List P → List R → Prop) (parameters : List P) (maximize : Bool) (out : Res P) : Prop :=
  ∃ vals, DoTasks parameters vals ∧
    out = match vals with
      | [] => .throw "invalid_argument"
      | v :: vs =>
        match parameters[Processor.selectLoop maximize 0 v 1 vs]? with
        | some p => .ok p
        | none => .ub

/-- `GridSearch::Optimize`, grid_search.cpp:26-70, with the values of the points of the grid counted by a pool (lines 66-67). -/
def SearchesBy [Add R] [Sub R] [Mul R] [Div R] [Zero R] [NatCast R] [HasFloor R] [DecidableEq R] {S : Type} [LT S] [DecidableLT S]
    (DoTasks : List (List R) → List S → Prop) (precision lower upper : R) (values : List R) (out : Res (Grid.Outcome R)) : Prop :=
  match Grid.sizePerParameter precision lower upper with
  | .throw w => out = .throw w
  | .ub => out = .ub
  | .ok size =>
    if size ≤ 0 then out = .throw "invalid_argument"
    else match Grid.points precision lower size.toNat values.length 0 (Grid.intPow size.toNat values.length) with
      | .throw w => out = .throw w
      | .ub => out = .ub
      | .ok ps => ∃ vals, DoTasks ps vals ∧
          out = match vals with
            | [] => .ub
            | v :: vs =>
              match ps[Grid.maxElement 0 v 1 vs]? with
              | some p => .ok ⟨p, ps⟩
              | none => .ub

/-- **C123** (fitness).  Whichever pool counts, `ObtainFitness` has exactly one outcome: that of the modelled genetic algorithm (C01-C14), which evaluates the
objective function directly. -/
theorem C123_fitness [DiscreteParams P] [Field R] [LinearOrder R] [IsStrictOrderedRing R] [FloorRing R] (f : P → R) (DoTasks : List P → List R → Prop)
    (h : AnyPool f DoTasks) (hash : List Bool → Nat) (c : GA.Counter R) (pop : List (Indiv P R)) (out : Res (GA.Counter R × List (Indiv P R))) :
    ObtainsBy DoTasks hash c pop out ↔ out = GA.obtainFitness hash f c pop := by
  unfold ObtainsBy GA.obtainFitness
  rcases GA.process hash c pop with ⟨c0, todo⟩ | w | _
  · simp only [C123_values f DoTasks h, exists_eq_left]
    rfl
  · rfl
  · rfl

/-- **C123** (choice).  Whichever pool counts, the simple parameters processor chooses the same parameters: those of the model (C38, C39). -/
theorem C123_choice [Field R] [LinearOrder R] [IsStrictOrderedRing R] [FloorRing R] (f : P → R) (DoTasks : List P → List R → Prop)
    (h : AnyPool f DoTasks) (parameters : List P) (maximize : Bool) (out : Res P) :
    ChoosesBy DoTasks parameters maximize out ↔ out = Processor.simple f parameters maximize := by
  unfold ChoosesBy Processor.simple
  simp only [C123_values f DoTasks h, exists_eq_left]
  rcases parameters.map f with _ | ⟨v, vs⟩ <;> rfl

/-- **C123** (grid search).  Whichever pool counts, grid search has exactly one outcome: that of the model (C40, C100). -/
theorem C123_grid [Add P] [Sub P] [Mul P] [Div P] [Zero P] [NatCast P] [HasFloor P] [DecidableEq P] [Field R] [LinearOrder R] [IsStrictOrderedRing R]
    [FloorRing R] (f : List P → R) (DoTasks : List (List P) → List R → Prop) (h : AnyPool f DoTasks) (precision lower upper : P) (values : List P)
    (out : Res (Grid.Outcome P)) :
    SearchesBy DoTasks precision lower upper values out ↔ out = Grid.optimize precision lower upper f (.continuous values) := by
  unfold SearchesBy Grid.optimize
  rcases Grid.sizePerParameter precision lower upper with size | w | _
  · simp only [Res.ok_bind]
    split
    · rfl
    · rcases Grid.points precision lower size.toNat values.length 0 (Grid.intPow size.toNat values.length) with ps | w | _
      · simp only [C123_values f DoTasks h, exists_eq_left, Res.ok_bind]
        rcases ps.map f with _ | ⟨v, vs⟩ <;> rfl
      · rfl
      · rfl
  · rfl
  · rfl

/-! ## Non-vacuity -/

/-- A sequential pool that counted before, a thread pool with two workers that has just returned from a call, and an MPI pool with three processes that has. -/
example : ∃ D₁ D₂ D₃ : List ℚ → List ℚ → Prop, AnyPool (fun x => x * x - 1) D₁ ∧ AnyPool (fun x => x * x - 1) D₂ ∧ AnyPool (fun x => x * x - 1) D₃ ∧
    D₁ [3, 1] [8, 0] ∧ D₂ [3, 1] [8, 0] ∧ D₃ [3, 1] [8, 0] ∧ ¬ D₂ [3, 1] [0, 8] := by
  obtain ⟨s, hs⟩ := Pool.C25_can_return (perform := performLocal fun x : ℚ => x * x - 1) (s₀ := Pool.S.init ℚ ℚ 2) (tasks := [5, 7]) .init rfl
    (by decide) (by simp [performLocal])
  obtain ⟨k, b, hrun, hb⟩ := Mpi.C119_can_return (size := 3) (parts := fun p : ℚ => Transfer.sendValue (p * p - 1)) (rest := fun _ => Mpi.valueRest)
    (fun t => by simp [Transfer.sendValue, Mpi.valueRest]) (Mpi.BlkReach.init.call (Mpi.Call.doTasks [5, 7] rfl (by decide)))
  have h1 := AnyPool.sequential (f := fun x : ℚ => x * x - 1) ⟨4, 0, 0⟩
  have h2 := AnyPool.thread (f := fun x : ℚ => x * x - 1) 2 s (hs.2.2.2.elim fun m he => he.elim fun k he =>
    he.reach (.next .init (.call (.doTasks [5, 7] hs.1 hs.2.1)))) hs.2.2.1 (by decide)
  have h3 := AnyPool.mpi (f := fun x : ℚ => x * x - 1) 3 b (hrun.reach (Mpi.BlkReach.init.call (Mpi.Call.doTasks [5, 7] rfl (by decide)))) hb (by decide)
  refine ⟨_, _, _, h1, h2, h3, (C123_values _ _ h1 _ _).2 ?_, (C123_values _ _ h2 _ _).2 ?_, (C123_values _ _ h3 _ _).2 ?_,
    fun h => absurd ((C123_values _ _ h2 _ _).1 h) ?_⟩ <;> norm_num

end K52.CountPools
