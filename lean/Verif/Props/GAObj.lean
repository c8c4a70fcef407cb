import Verif.Lemmas.GAObj
import Verif.Props.GAProgress

/-! # C126: one genetic algorithm object, many calls -/

set_option linter.unusedSectionVars false

namespace K52.GA
open K52.Indiv

variable {P R Mu σ : Type} [DiscreteParams P] [Add R] [Sub R] [Mul R] [Div R] [Zero R] [One R] [NatCast R] [LinearOrder R]

/-! ### Every part of a call, however it ends -/

theorem goes_bind {hash : List Bool → Nat} {f : P → Res R} {α β : Type} {x : X (Mem P R) α} {k : α → X (Mem P R) β}
    (h1 : X.Keeps x (Goes hash f)) (h2 : ∀ a, X.Keeps (k a) (Goes hash f)) : X.Keeps (x >>= k) (Goes hash f) := X.Keeps.bind Goes.trans h1 h2

theorem goes_only {hash : List Bool → Nat} {f : P → Res R} {α : Type} {x : X (Mem P R) α} (h : X.Keeps x OnlyInvalid) : X.Keeps x (Goes hash f) :=
  fun m => (h m).goes

theorem iterateX_goes (cfg : Config P R Mu) (a : Call P R Mu σ) :
    ∀ (k : Nat) (n : Int) (pop : List (Indiv P R)) (best : Indiv P R) (mu : Mu) (rng : Rng) (stats : List (IndStat R)) (st : σ),
    X.Keeps (iterateX cfg a k n pop best mu rng stats st) (Goes cfg.hash a.f)
  | 0, _, _, _, _, _, _, _ => goes_only (keeps_pure _)
  | k + 1, n, pop, best, mu, rng, stats, st => by
    unfold iterateX
    refine goes_bind (fun m => (obtainFitnessX_spec cfg.hash a.f pop m).1) fun e => goes_bind (goes_only (keeps_lift _)) fun b =>
      goes_bind (goes_only (observeX_keeps _ _ _ _ _ _ _)) fun o => goes_bind ?_ fun _ => goes_bind (goes_only (keeps_lift _)) fun x => ?_
    · intro m
      exact ⟨rfl, rfl, ⟨[], by simp, by simp⟩, id, id⟩
    · split
      · exact goes_only (keeps_pure _)
      · exact goes_bind (goes_only (nextPopulationX_keeps _ _ _ _)) fun nx => goes_bind (goes_only (mutateAllX_keeps _ _ _ _ _)) fun m =>
          goes_bind (iterateX_goes cfg a k _ _ _ _ _ _ _) fun _ => goes_only (keeps_pure _)

theorem optimizeX_goes (cfg : Config P R Mu) (a : Call P R Mu σ) : X.Keeps (optimizeX cfg a) (Goes cfg.hash a.f) := by
  unfold optimizeX
  split
  · refine goes_bind (goes_only (initialPopulationX_keeps _ _ _ _)) fun i => goes_bind (goes_only (keeps_lift _)) fun l =>
      goes_bind (iterateX_goes cfg a _ _ _ _ _ _ _ _) fun r => ?_
    split
    · split
      · exact goes_only (keeps_pure _)
      · exact goes_only (keeps_lift _)
      · exact goes_only (keeps_lift _)
    · exact goes_only (keeps_lift _)
  · exact goes_only (keeps_lift _)

/-! ### A call that returns is a run of the model without exceptions -/

/-- The callback with exceptions left out. -/
def Call.quiet (a : Call P R Mu σ) : Observer P R σ :=
  ⟨a.callback.map fun cb st s => ((cb st s).1, match (cb st s).2 with | .ok names => names | _ => []), a.canOpen, a.format⟩

theorem saveAll_congr (o o' : Observer P R σ) (h1 : o.canOpen = o'.canOpen) (h2 : o.format = o'.format) (pop : List (Indiv P R)) :
    ∀ names, saveAll o pop names = saveAll o' pop names
  | [] => rfl
  | n :: ns => by unfold saveAll; rw [h1, h2, saveAll_congr o o' h1 h2 pop ns]

theorem observeX_ok {popSize : Nat} {a : Call P R Mu σ} {st : σ} {number : Int} {pop : List (Indiv P R)} {best : Indiv P R}
    {stats : List (IndStat R)} {m m' : Mem P R} {o : σ × Option (GenStat P R) × List (String × List Char)}
    (h : observeX popSize a st number pop best stats m = (m', .ok o)) :
    m' = m ∧ observe popSize a.quiet st number pop best m.counter.hits m.invalid stats = .ok o := by
  unfold observeX at h
  unfold observe
  cases hcb : a.callback with
  | none =>
    rw [hcb] at h
    simp only [X.pure_def, Prod.mk.injEq, Res.ok.injEq] at h
    obtain ⟨rfl, rfl⟩ := h
    exact ⟨rfl, by simp [Call.quiet, hcb]⟩
  | some cb =>
    rw [hcb] at h
    simp only at h
    obtain ⟨r, m1, h1, h⟩ := X.bind_ok h
    simp only [X.pure_def, Prod.mk.injEq, Res.ok.injEq] at h
    obtain ⟨rfl, rfl⟩ := h
    unfold processStatisticsX at h1
    rw [X.get_bind] at h1
    obtain ⟨total, ht, h1⟩ := X.lift_bind_def h1
    by_cases hb : best.init = true
    · simp only [hb, if_true] at h1
      cases hp : best.params with
      | none => rw [hp] at h1; simp at h1
      | some bp =>
        rw [hp] at h1
        simp only at h1
        obtain ⟨x, hx, h1⟩ := X.lift_bind_def h1
        obtain ⟨q, hq, h1⟩ := X.lift_bind_def h1
        obtain ⟨names, hn, h1⟩ := X.lift_bind_def h1
        obtain ⟨files, hf, h1⟩ := X.lift_bind_def h1
        simp only [X.pure_def, Prod.mk.injEq, Res.ok.injEq] at h1
        obtain ⟨rfl, rfl⟩ := h1
        refine ⟨rfl, ?_⟩
        have hf' : saveAll a.quiet pop names = .ok files := by rw [saveAll_congr a.quiet a.observer rfl rfl]; exact hf
        simp only [Call.quiet, hcb, Option.map_some] at hf' ⊢
        unfold processStatistics
        rw [ht]
        simp only [Res.ok_bind, hb, if_true, hp, hx, hq, hn]
        rw [hf']
        rfl
    · simp only [hb, Bool.false_eq_true, if_false] at h1
      simp at h1

theorem iterateX_ok (cfg : Config P R Mu) (a : Call P R Mu σ) :
    ∀ (k : Nat) (n : Int) (pop : List (Indiv P R)) (best : Indiv P R) (mu : Mu) (rng : Rng) (stats : List (IndStat R)) (st : σ)
      (m m' : Mem P R) (r : EndX P R Mu σ), iterateX cfg a k n pop best mu rng stats st m = (m', .ok r) →
    iterateS cfg a.quiet a.fuel (totalised a.f) k n m.counter pop best mu rng stats m.invalid st =
      .ok ⟨r.gens, m'.counter, r.best, r.mu, r.rng, m'.invalid, r.st⟩
  | 0, n, pop, best, mu, rng, stats, st, m, m', r, h => by
    simp only [iterateX, X.pure_def, Prod.mk.injEq, Res.ok.injEq] at h
    obtain ⟨rfl, rfl⟩ := h
    rfl
  | k + 1, n, pop, best, mu, rng, stats, st, m, m', r, h => by
    unfold iterateX at h
    obtain ⟨e, m1, h1, h⟩ := X.bind_ok h
    obtain ⟨_, hi, _, hob⟩ := obtainFitnessX_spec cfg.hash a.f pop m
    obtain ⟨hob, _⟩ := hob e (by rw [h1])
    rw [h1] at hob hi
    obtain ⟨b, hb, h⟩ := X.lift_bind_def h
    obtain ⟨o, m2, h2, h'⟩ := X.bind_ok h
    clear h
    obtain ⟨rfl, ho⟩ := observeX_ok h2
    rw [X.modify_bind] at h'
    obtain ⟨x, hx, h⟩ := X.lift_bind_def h'
    simp only at hi hob
    unfold iterateS
    rw [hob, Res.ok_bind]
    simp only
    rw [hb, Res.ok_bind, ← hi, ho, Res.ok_bind, hx, Res.ok_bind]
    by_cases hs : x ≥ cfg.stop
    · rw [if_pos hs] at h ⊢
      simp only [X.pure_def, Prod.mk.injEq, Res.ok.injEq] at h
      obtain ⟨rfl, rfl⟩ := h
      rfl
    · rw [if_neg hs] at h ⊢
      obtain ⟨nx, m3, h3, h⟩ := X.bind_ok h
      obtain ⟨nx', e3, e4, e5⟩ := (nextPopulationX_sim _ _ _ _ _).conv h3
      subst e4 e5
      obtain ⟨mt, m4, h4, h⟩ := X.bind_ok h
      obtain ⟨mt', e6, e7, e8⟩ := (mutateAllX_sim _ _ _ _ _ _).conv h4
      subst e7 e8
      obtain ⟨rest, m5, h5, h⟩ := X.bind_ok h
      simp only [X.pure_def, Prod.mk.injEq, Res.ok.injEq] at h
      obtain ⟨rfl, rfl⟩ := h
      have ih := iterateX_ok cfg a k _ _ _ _ _ _ _ _ _ _ h5
      try simp only at e3
      try simp only at e6
      try simp only at ih
      rw [e3, Res.ok_bind]
      simp only
      rw [e6, Res.ok_bind]
      try simp only
      rw [ih]
      rfl

/-- What the object holds as initial parameters: nothing, or a list of parameter objects. -/
def Mem.Holds (m : Mem P R) (ini : Option (List P)) : Prop :=
  match ini with
  | none => m.given = false
  | some qs => m.given = true ∧ m.initial = qs.map some

theorem validateX_go_ok (p : P) : ∀ ps : List (Option P), validateX.go p ps = .ok () → ∃ qs : List P, ps = qs.map some ∧ validateInitial.go p qs = .ok ()
  | [], _ => ⟨[], rfl, rfl⟩
  | none :: _, h => by simp [validateX.go] at h
  | some q :: ps, h => by
    unfold validateX.go at h
    obtain ⟨b, hb, h⟩ := Res.bind_eq_ok.1 h
    split at h
    · next hbt =>
      obtain ⟨qs, rfl, hq⟩ := validateX_go_ok p ps h
      exact ⟨q :: qs, rfl, by unfold validateInitial.go; rw [hb, Res.ok_bind, if_pos hbt]; exact hq⟩
    · simp at h

theorem initGivenX_eq : ∀ qs : List P, initGivenX (R := R) (qs.map some) = initGiven qs
  | [] => rfl
  | q :: qs => by simp only [List.map_cons, initGivenX, initGiven, initGivenX_eq qs]

theorem initialPopulationX_ok {cfg : Config P R Mu} {fuel : Nat} {p : P} {rng : Rng} {m m' : Mem P R} {r : List (Indiv P R) × Indiv P R × Rng}
    (h : initialPopulationX cfg fuel p rng m = (m', .ok r)) :
    ∃ ini, m.Holds ini ∧ initialPopulationS { cfg with initial := ini } fuel p rng m.invalid = .ok (r, m'.invalid) ∧ m'.counter = m.counter := by
  unfold initialPopulationX at h
  rw [X.get_bind] at h
  obtain ⟨x, m1, h1, h⟩ := X.bind_ok h
  obtain ⟨b, hb, h⟩ := X.lift_bind_def h
  simp only [X.pure_def, Prod.mk.injEq, Res.ok.injEq] at h
  obtain ⟨rfl, rfl⟩ := h
  by_cases hg : m.given = true
  · rw [if_pos hg] at h1
    obtain ⟨_, hv, h1⟩ := X.lift_bind_def h1
    obtain ⟨is, hi, h1⟩ := X.lift_bind_def h1
    simp only [X.pure_def, Prod.mk.injEq, Res.ok.injEq] at h1
    obtain ⟨rfl, rfl⟩ := h1
    unfold validateX at hv
    split at hv
    · simp at hv
    · next hl =>
      obtain ⟨qs, hq, hv⟩ := validateX_go_ok p _ hv
      refine ⟨some qs, ⟨hg, hq⟩, ?_, rfl⟩
      unfold initialPopulationS
      simp only
      rw [hq, initGivenX_eq] at hi
      rw [hq, List.length_map] at hl
      unfold validateInitial
      rw [if_neg hl, hv, Res.ok_bind, hi, Res.ok_bind]
      simp only [Res.pure_eq, Res.ok_bind, hb]
  · rw [if_neg hg] at h1
    obtain ⟨b', e1, rfl, rfl⟩ := (initRandomX_sim _ _ _ _ _).conv h1
    refine ⟨none, by simpa [Mem.Holds] using hg, ?_, rfl⟩
    unfold initialPopulationS
    simp only
    rw [e1, Res.ok_bind, hb]
    rfl

/-- **C126** (a call that returns).  Whatever happened to the object before, an `Optimize` call that returns is a run of the model without
exceptions (`optimizeS`, to which C18, C20-C23, C59, C78, C79 apply): with the initial parameters, the counter (cache included) and the number of invalid
chromosomes the object has at that time, with the values of the objective function, and it leaves the run's counter and number behind. -/
theorem C126_returns (cfg : Config P R Mu) (a : Call P R Mu σ) (m m' : Mem P R) (q : P) (r : EndX P R Mu σ)
    (h : optimizeX cfg a m = (m', .ok (q, r))) :
    ∃ ini, m.Holds ini ∧
      optimizeS { cfg with initial := ini } a.quiet a.file a.fuel (totalised a.f) m.counter a.mu a.rng m.invalid a.st a.p a.maximize =
        .ok ⟨q, ⟨r.gens, m'.counter, r.best, r.mu, r.rng, m'.invalid, r.st⟩⟩ := by
  unfold optimizeX at h
  by_cases hm : a.maximize = true
  · rw [if_pos hm] at h
    obtain ⟨i, m1, h1, h⟩ := X.bind_ok h
    obtain ⟨ini, hh, hi, hc⟩ := initialPopulationX_ok h1
    obtain ⟨l, hl, h⟩ := X.lift_bind_def h
    obtain ⟨r', m2, h2, h⟩ := X.bind_ok h
    have h3 := iterateX_ok cfg a _ _ _ _ _ _ _ _ _ _ _ h2
    have hcfg : ∀ (obs : Observer P R σ) (fuel : Nat) (f : P → R) (k : Nat) (n : Int) (c : Counter R) (pop : List (Indiv P R)) (best : Indiv P R)
        (mu : Mu) (rng : Rng) (stats : List (IndStat R)) (inv : Nat) (st : σ),
        iterateS { cfg with initial := ini } obs fuel f k n c pop best mu rng stats inv st = iterateS cfg obs fuel f k n c pop best mu rng stats inv st := by
      intro obs fuel f k
      induction k with
      | zero => intros; rfl
      | succ k ih =>
        intros
        unfold iterateS
        simp only [ih]
        rfl
    refine ⟨ini, hh, ?_⟩
    unfold optimizeS
    rw [if_pos hm, hi, Res.ok_bind]
    simp only
    rw [show a.quiet.format = a.format from rfl, hl, Res.ok_bind, hcfg, ← hc, h3, Res.ok_bind]
    simp only
    by_cases hb : r'.best.init = true
    · rw [if_pos hb] at h ⊢
      rcases hs : DiscreteParams.setFrom a.p r'.best.chrom with ⟨q', o⟩
      rw [hs] at h
      cases o with
      | ok u =>
        simp only [X.pure_def, Prod.mk.injEq, Res.ok.injEq] at h
        obtain ⟨rfl, rfl, rfl⟩ := h
        rfl
      | throw w => simp at h
      | ub => simp at h
    · rw [if_neg hb] at h
      simp at h
  · rw [if_neg hm] at h
    simp at h

/-! ### Where fitness values come from -/

theorem evalX_entries (f : P → Res R) : ∀ (ts : List (Todo P R)) (m : Mem P R), ∃ new, (evalX f ts m).1.log = m.log ++ new ∧
    ∀ e ∈ new, ∃ x ∈ counted ts, x.1.chrom = e.1 ∧ x.2 = e.2.1
  | [], m => ⟨[], by simp [evalX], by simp⟩
  | .done _ :: ts, m => evalX_entries f ts m
  | .count i p :: ts, m => by
    unfold evalX
    rw [X.bind_def, X.lift_def]
    cases hf : f p with
    | throw w => exact ⟨[], by simp, by simp⟩
    | ub => exact ⟨[], by simp, by simp⟩
    | ok v =>
      simp only
      rw [X.modify_bind, X.bind_def]
      obtain ⟨new, h1, h2⟩ := evalX_entries f ts { m with log := m.log ++ [(i.chrom, p, v)] }
      refine ⟨(i.chrom, p, v) :: new, ?_, ?_⟩
      · rcases he : evalX f ts { m with log := m.log ++ [(i.chrom, p, v)] } with ⟨s, r⟩
        rw [he] at h1
        simp only at h1
        cases r <;> simp [h1, List.append_assoc]
      · intro e he
        rcases List.mem_cons.1 he with rfl | he
        · exact ⟨(i, p), by simp [counted], rfl, rfl⟩
        · obtain ⟨x, hx, q⟩ := h2 e he
          exact ⟨x, by simp [counted, hx], q⟩

theorem counted_decided {hash : List Bool → Nat} {c : Counter R} : ∀ {pop : List (Indiv P R)} {ts : List (Todo P R)},
    List.Forall₂ (Decided hash c) pop ts → ∀ x ∈ counted ts, x.1 ∈ pop ∧ x.1.params = some x.2
  | _, _, .nil, x, hx => by simp [counted] at hx
  | _, _, .cons (a := i) (b := t) hd ht, x, hx => by
    obtain ⟨_, hd⟩ := hd
    cases hk : c.known (hash i.chrom) with
    | some v =>
      simp only [hk] at hd
      rw [hd.2] at hx
      obtain ⟨a, b⟩ := counted_decided ht x hx
      exact ⟨List.mem_cons_of_mem _ a, b⟩
    | none =>
      simp only [hk] at hd
      obtain ⟨p, hp, rfl⟩ := hd
      simp only [counted, List.mem_cons] at hx
      rcases hx with rfl | hx
      · exact ⟨List.mem_cons_self, hp⟩
      · obtain ⟨a, b⟩ := counted_decided ht x hx
        exact ⟨List.mem_cons_of_mem _ a, b⟩

/-- The calls of the objective function in one `ObtainFitness` are for individuals of the population, with their parameters. -/
theorem obtainFitnessX_entries (hash : List Bool → Nat) (f : P → Res R) (pop : List (Indiv P R)) (m : Mem P R) :
    ∃ new, (obtainFitnessX hash f pop m).1.log = m.log ++ new ∧ ∀ e ∈ new, ∃ i ∈ pop, i.chrom = e.1 ∧ i.params = some e.2.1 := by
  unfold obtainFitnessX
  rw [X.bind_def]
  have hl := processX_looked hash pop m
  have hsim := processX_sim hash pop m
  rcases hp : processX hash pop m with ⟨m1, r⟩
  rw [hp] at hl
  simp only at hl
  cases r with
  | throw w => exact ⟨[], by simp [hl.log], by simp⟩
  | ub => exact ⟨[], by simp [hl.log], by simp⟩
  | ok ts =>
    obtain ⟨⟨c1, ts'⟩, hproc, rfl, rfl⟩ := hsim.conv hp
    simp only at *
    rw [X.modify_bind]
    generalize hm2 : ({ m with counter := { c1 with counts := c1.counts + (toCount ts).length } } : Mem P R) = m2
    have hl2 : m2.log = m.log := by subst hm2; rfl
    obtain ⟨new, e1, e2⟩ := evalX_entries f ts m2
    rw [hl2] at e1
    have hnew : ∀ e ∈ new, ∃ i ∈ pop, i.chrom = e.1 ∧ i.params = some e.2.1 := by
      intro e he
      obtain ⟨x, hx, q1, q2⟩ := e2 e he
      obtain ⟨a, b⟩ := counted_decided (process_spec hproc).1 x hx
      exact ⟨x.1, a, q1, by rw [b, q2]⟩
    rw [X.bind_def]
    rcases hev : evalX f ts m2 with ⟨m3, r⟩
    rw [hev] at e1
    simp only at e1
    cases r with
    | throw w => exact ⟨new, e1, hnew⟩
    | ub => exact ⟨new, e1, hnew⟩
    | ok vals =>
      simp only
      cases has : assign ts vals with
      | throw w => exact ⟨new, by simpa [X.bind_def] using e1, hnew⟩
      | ub => exact ⟨new, by simpa [X.bind_def] using e1, hnew⟩
      | ok out =>
        rw [X.lift_bind_ok, X.bind_def]
        obtain ⟨c, s1, _⟩ := storeX_spec hash ts out m3
        rcases hst : storeX hash ts out m3 with ⟨m4, r⟩
        rw [hst] at s1
        simp only at s1
        subst s1
        refine ⟨new, ?_, hnew⟩
        cases r <;> simpa using e1

/-- The entries made are of individuals that hold what their chromosomes encode. -/
def DecLog (Fam : P → Prop) (m m' : Mem P R) : Prop :=
  ∃ new, m'.log = m.log ++ new ∧ ∀ e ∈ new, ∀ p, Fam p → DiscreteParams.setFrom p e.1 = (e.2.1, .ok ())

theorem DecLog.same {Fam : P → Prop} {m m' : Mem P R} (h : m'.log = m.log) : DecLog Fam m m' := ⟨[], by simp [h], by simp⟩
theorem DecLog.trans {Fam : P → Prop} {a b c : Mem P R} (h1 : DecLog Fam a b) (h2 : DecLog Fam b c) : DecLog Fam a c := by
  obtain ⟨n1, a1, b1⟩ := h1
  obtain ⟨n2, a2, b2⟩ := h2
  refine ⟨n1 ++ n2, by rw [a2, a1, List.append_assoc], ?_⟩
  intro e he
  rcases List.mem_append.1 he with he | he
  · exact b1 e he
  · exact b2 e he

theorem OnlyInvalid.log {m m' : Mem P R} (h : OnlyInvalid m m') : m'.log = m.log := by obtain ⟨n, rfl⟩ := h; rfl

theorem decLog_bind {Fam : P → Prop} {α β : Type} {x : X (Mem P R) α} {k : α → X (Mem P R) β} {m : Mem P R} (h1 : DecLog Fam m (x m).1)
    (h2 : ∀ a m', x m = (m', .ok a) → DecLog Fam m' (k a m').1) : DecLog Fam m ((x >>= k) m).1 := by
  rw [X.bind_def]
  rcases hx : x m with ⟨m', r⟩
  rw [hx] at h1
  cases r with
  | ok a => exact h1.trans (h2 a m' hx)
  | throw w => exact h1
  | ub => exact h1

theorem iterateX_dec {Fam : P → Prop} {s : Nat} (hF : Family Fam s) (cfg : Config P R Mu) (hsort : ∀ l, (cfg.sort l).Perm l) (hmut : KeepsLength cfg.mutator)
    (a : Call P R Mu σ) :
    ∀ (k : Nat) (n : Int) (pop : List (Indiv P R)) (best : Indiv P R) (mu : Mu) (rng : Rng) (stats : List (IndStat R)) (st : σ) (m : Mem P R),
    (∀ i ∈ pop, Good Fam s i ∧ Decoded Fam i) → DecLog Fam m (iterateX cfg a k n pop best mu rng stats st m).1
  | 0, _, _, _, _, _, _, _, m, _ => DecLog.same rfl
  | k + 1, n, pop, best, mu, rng, stats, st, m, hp => by
    unfold iterateX
    refine decLog_bind ?_ fun e m1 he => decLog_bind (DecLog.same ?_) fun b m2 hb => decLog_bind (DecLog.same (observeX_keeps _ _ _ _ _ _ _ _).log) fun o m3 ho =>
      decLog_bind (DecLog.same rfl) fun _ m4 _ => decLog_bind (DecLog.same rfl) fun x m5 hx => ?_
    · obtain ⟨new, h1, h2⟩ := obtainFitnessX_entries cfg.hash a.f pop m
      refine ⟨new, h1, ?_⟩
      intro e he p hfp
      obtain ⟨i, hi, q1, q2⟩ := h2 e he
      obtain ⟨q, w1, w2⟩ := (hp i hi).2
      rw [q2] at w1
      simp only [Option.some.injEq] at w1
      rw [← q1, w2 p hfp, w1]
    · rfl
    · have hgood : ∀ i ∈ e, Good Fam s i := by
        obtain ⟨_, _, _, hob⟩ := obtainFitnessX_spec cfg.hash a.f pop m
        obtain ⟨_, ts, hts, _⟩ := hob e (by rw [he])
        have hwf := (hob e (by rw [he])).1
        intro i hi
        unfold obtainFitness at hwf
        obtain ⟨⟨c1, ts1⟩, h1, hwf⟩ := Res.bind_eq_ok.1 hwf
        simp only at hwf
        obtain ⟨pop', h2, hwf⟩ := Res.bind_eq_ok.1 hwf
        have hpe : pop' = e := by
          cases hc : c1.cache with
          | none =>
            rw [hc] at hwf
            simp only [Res.pure_eq, Res.ok.injEq, Prod.mk.injEq] at hwf
            exact hwf.2
          | some kc =>
            simp only [hc] at hwf
            split at hwf
            · simp only [Res.pure_eq, Res.ok.injEq, Prod.mk.injEq] at hwf
              exact hwf.2
            · simp at hwf
        subst hpe
        obtain ⟨b1, _⟩ := assign_spec (process_spec h1).1 h2
        obtain ⟨x, hxp, hxe⟩ := forall₂_mem_right b1 hi
        exact (Evaluated.same hxe).1.good (hp x hxp).1
      split
      · exact DecLog.same rfl
      · refine decLog_bind (DecLog.same (nextPopulationX_keeps _ _ _ _ _).log) fun nx m6 hnx =>
          decLog_bind (DecLog.same (mutateAllX_keeps _ _ _ _ _ _).log) fun mt m7 hmt => decLog_bind ?_ fun _ _ _ => DecLog.same rfl
        refine iterateX_dec hF cfg hsort hmut a k _ _ _ _ _ _ _ _ ?_
        obtain ⟨nx', e3, e4, e5⟩ := (nextPopulationX_sim _ _ _ _ _).conv hnx
        subst e4 e5
        obtain ⟨mt', e6, e7, e8⟩ := (mutateAllX_sim _ _ _ _ _ _).conv hmt
        subst e7 e8
        have hn := ((nextPopulationS_spec cfg a.fuel e rng _).1 _ _ _ e3).1
        have hm := (mutateAllS_spec _ _ _ _ _ _).1 _ _ e6
        unfold nextPopulation at hn
        obtain ⟨total, _, hn⟩ := Res.bind_eq_ok.1 hn
        have hnp := nextPairs_good hF hgood (fun i hi => hgood i ((hsort e).subset hi)) _ _ _ _ _ _ hn
        obtain ⟨_, hma⟩ := mutateAll_good hF hmut a.fuel _ _ _ _ _ _ hnp.2 hm
        exact fun j hj => ⟨(hma j hj).1, (hma j hj).2.1⟩

end K52.GA
