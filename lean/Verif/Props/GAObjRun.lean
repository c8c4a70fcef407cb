import Verif.Props.GAObj

/-! # C126: histories of calls of one genetic algorithm object -/

set_option linter.unusedSectionVars false

namespace K52.GA
open K52.Indiv

variable {P R Mu σ : Type} [DiscreteParams P] [Add R] [Sub R] [Mul R] [Div R] [Zero R] [One R] [NatCast R] [LinearOrder R]

/-! ### `SetInitialParameters` touches nothing else -/

/-- Only the initial parameters differ. -/
def OnlyInitial (m m' : Mem P R) : Prop := ∃ l b, m' = { m with initial := l, given := b }

theorem OnlyInitial.trans (a b c : Mem P R) : OnlyInitial a b → OnlyInitial b c → OnlyInitial a c := by
  rintro ⟨l, b, rfl⟩ ⟨l', b', rfl⟩; exact ⟨l', b', rfl⟩

theorem cloneX_keeps (ps : List (Option P)) : ∀ (n i : Nat), X.Keeps (cloneX (R := R) ps n i) OnlyInitial
  | 0, _ => fun m => ⟨m.initial, m.given, rfl⟩
  | n + 1, i => by
    unfold cloneX
    split
    · exact X.Keeps.bind OnlyInitial.trans (fun m => ⟨m.initial, m.given, rfl⟩) fun q =>
        X.Keeps.bind OnlyInitial.trans (fun m => ⟨_, m.given, rfl⟩) fun _ => cloneX_keeps ps n (i + 1)
    · exact fun m => ⟨m.initial, m.given, rfl⟩

theorem setInitialX_keeps (cfg : Config P R Mu) (ps : List (Option P)) : X.Keeps (setInitialX cfg ps) OnlyInitial := by
  unfold setInitialX
  exact X.Keeps.bind OnlyInitial.trans (fun m => ⟨_, m.given, rfl⟩) fun _ => X.Keeps.bind OnlyInitial.trans (cloneX_keeps _ _ _) fun _ =>
    fun m => ⟨m.initial, true, rfl⟩

/-! ### Where fitness values come from -/

theorem decided_counted {hash : List Bool → Nat} {c : Counter R} {f : P → R} : ∀ {pop out : List (Indiv P R)} {ts : List (Todo P R)},
    List.Forall₂ (Decided hash c) pop ts → List.Forall₂ (Evaluated hash f c) pop out → ∀ j ∈ out,
    c.known (hash j.chrom) = some j.fitness ∨ ∃ x ∈ counted ts, x.1.chrom = j.chrom ∧ j.fitness = f x.2
  | _, _, _, .nil, .nil, j, hj => by simp at hj
  | _, _, _, .cons (a := i) (b := t) hd ht, .cons (b := j0) he hr, j, hj => by
    rcases List.mem_cons.1 hj with rfl | hj
    · obtain ⟨_, hd⟩ := hd
      obtain ⟨_, v, _, rfl, hv⟩ := he
      cases hk : c.known (hash i.chrom) with
      | some w =>
        simp only [hk] at hv
        left
        rw [hv]
      | none =>
        simp only [hk] at hv hd
        obtain ⟨p, hp, rfl⟩ := hd
        obtain ⟨p', hp', rfl⟩ := hv
        rw [hp] at hp'
        simp only [Option.some.injEq] at hp'
        subst hp'
        exact .inr ⟨(i, p), by simp [counted], rfl, rfl⟩
    · rcases decided_counted ht hr j hj with h | ⟨x, hx, q⟩
      · exact .inl h
      · refine .inr ⟨x, ?_, q⟩
        cases t with
        | done k => simpa [counted] using hx
        | count k p => simp only [counted, List.mem_cons]; exact .inr hx

theorem obtainFitnessX_source {hash : List Bool → Nat} {f : P → Res R} {pop out : List (Indiv P R)} {m m' : Mem P R} (hb : Backed hash m)
    (h : obtainFitnessX hash f pop m = (m', .ok out)) :
    ∀ j ∈ out, ∃ e ∈ m'.log, hash e.1 = hash j.chrom ∧ e.2.2 = j.fitness := by
  obtain ⟨_, _, _, hob⟩ := obtainFitnessX_spec hash f pop m
  obtain ⟨hob, ts, hts, hlog, _⟩ := hob out (by rw [h])
  rw [h] at hob hlog
  simp only at hob hlog
  obtain ⟨e1, _⟩ := obtainFitness_spec hb.1 hob
  intro j hj
  rcases decided_counted hts e1 j hj with hk | ⟨x, hx, q1, q2⟩
  · obtain ⟨e, he, w⟩ := hb.2 _ _ hk
    exact ⟨e, by rw [hlog]; exact List.mem_append.2 (.inl he), w⟩
  · refine ⟨(x.1.chrom, x.2, totalised f x.2), ?_, by simp [q1], q2.symm⟩
    rw [hlog]
    exact List.mem_append.2 (.inr (List.mem_map.2 ⟨x, hx, rfl⟩))

theorem Goes.logMem {hash : List Bool → Nat} {f : P → Res R} {m m' : Mem P R} (h : Goes hash f m m') {e} (he : e ∈ m.log) : e ∈ m'.log := by
  obtain ⟨new, h1, _⟩ := h.log
  rw [h1]
  exact List.mem_append.2 (.inl he)

theorem iterateX_source (cfg : Config P R Mu) (a : Call P R Mu σ) :
    ∀ (k : Nat) (n : Int) (pop : List (Indiv P R)) (best : Indiv P R) (mu : Mu) (rng : Rng) (stats : List (IndStat R)) (st : σ)
      (m m' : Mem P R) (r : EndX P R Mu σ), iterateX cfg a k n pop best mu rng stats st m = (m', .ok r) → Backed cfg.hash m →
    ∀ g ∈ r.gens, ∀ j ∈ g.pop, ∃ e ∈ m'.log, cfg.hash e.1 = cfg.hash j.chrom ∧ e.2.2 = j.fitness
  | 0, n, pop, best, mu, rng, stats, st, m, m', r, h, _ => by
    simp only [iterateX, X.pure_def, Prod.mk.injEq, Res.ok.injEq] at h
    obtain ⟨rfl, rfl⟩ := h
    simp
  | k + 1, n, pop, best, mu, rng, stats, st, m, m', r, h, hb => by
    unfold iterateX at h
    obtain ⟨e, m1, h1, h⟩ := X.bind_ok h
    have hsrc := obtainFitnessX_source hb h1
    have hg1 := (obtainFitnessX_spec cfg.hash a.f pop m).1
    rw [h1] at hg1
    have hb1 := hg1.backed hb
    simp only at hb1
    obtain ⟨b, _, h⟩ := X.lift_bind_def h
    obtain ⟨o, m2, h2, h'⟩ := X.bind_ok h
    clear h
    obtain ⟨rfl, _⟩ := observeX_ok h2
    rw [X.modify_bind] at h'
    obtain ⟨x, hx, h⟩ := X.lift_bind_def h'
    by_cases hs : x ≥ cfg.stop
    · rw [if_pos hs] at h
      simp only [X.pure_def, Prod.mk.injEq, Res.ok.injEq] at h
      obtain ⟨rfl, rfl⟩ := h
      intro g hg
      simp only [List.mem_singleton] at hg
      subst hg
      exact hsrc
    · rw [if_neg hs] at h
      obtain ⟨nx, m3, h3, h⟩ := X.bind_ok h
      have k3 := nextPopulationX_keeps cfg a.fuel e rng ({ m2 with counter := { m2.counter with hits := 0 }, invalid := 0 } : Mem P R)
      rw [h3] at k3
      obtain ⟨mt, m4, h4, h⟩ := X.bind_ok h
      have k4 := mutateAllX_keeps (P := P) (R := R) cfg.mutator a.fuel nx.1.1 (cfg.mutator.apply mu ⟨n, cfg.maxGen⟩) nx.1.2 m3
      rw [h4] at k4
      obtain ⟨rest, m5, h5, h⟩ := X.bind_ok h
      simp only [X.pure_def, Prod.mk.injEq, Res.ok.injEq] at h
      obtain ⟨rfl, rfl⟩ := h
      obtain ⟨n3, rfl⟩ := k3
      obtain ⟨n4, rfl⟩ := k4
      have hb4 : Backed cfg.hash ({ m2 with counter := { m2.counter with hits := 0 }, invalid := n4 } : Mem P R) := hb1
      have ih := iterateX_source cfg a k _ _ _ _ _ _ _ _ _ _ h5 hb4
      have hg5 := iterateX_goes cfg a k (n + 1) mt.1 b mt.2.1 mt.2.2 nx.2 o.1
        ({ m2 with counter := { m2.counter with hits := 0 }, invalid := n4 } : Mem P R)
      rw [h5] at hg5
      intro g hg
      rcases List.mem_cons.1 hg with rfl | hg
      · intro j hj
        obtain ⟨e', he, q⟩ := hsrc j hj
        exact ⟨e', hg5.logMem (by exact he), q⟩
      · exact ih g hg

/-- The parts of a call that returned. -/
theorem optimizeX_parts {cfg : Config P R Mu} {a : Call P R Mu σ} {m m' : Mem P R} {q : P} {r : EndX P R Mu σ}
    (h : optimizeX cfg a m = (m', .ok (q, r))) :
    ∃ i n l, initialPopulationX cfg a.fuel a.p a.rng m = ({ m with invalid := n }, .ok i) ∧ readFile a.format cfg.popSize a.file i.1 = .ok l ∧
      iterateX cfg a cfg.maxGen.toNat 0 l.1 i.2.1 a.mu i.2.2 l.2 a.st { m with invalid := n } = (m', .ok r) := by
  unfold optimizeX at h
  split at h
  · obtain ⟨i, m1, h1, h⟩ := X.bind_ok h
    obtain ⟨l, hl, h⟩ := X.lift_bind_def h
    obtain ⟨r', m2, h2, h3⟩ := X.bind_ok h
    have k1 := initialPopulationX_keeps cfg a.fuel a.p a.rng m
    rw [h1] at k1
    obtain ⟨n, rfl⟩ := k1
    refine ⟨i, n, l, h1, hl, ?_⟩
    by_cases hb : r'.best.init = true
    · rw [if_pos hb] at h3
      rcases hs : DiscreteParams.setFrom a.p r'.best.chrom with ⟨q', o⟩
      rw [hs] at h3
      cases o with
      | ok u =>
        simp only [X.pure_def, Prod.mk.injEq, Res.ok.injEq] at h3
        obtain ⟨rfl, rfl, rfl⟩ := h3
        exact h2
      | throw w => simp at h3
      | ub => simp at h3
    · rw [if_neg hb] at h3
      simp at h3
  · simp at h

theorem objStep_backed (cfg : Config P R Mu) (m : Mem P R) (op : ObjOp P R Mu σ) (h : Backed cfg.hash m) : Backed cfg.hash (objStep cfg m op) := by
  cases op with
  | setInitial ps =>
    obtain ⟨l, b, e⟩ := setInitialX_keeps cfg ps m
    show Backed cfg.hash (setInitialX cfg ps m).1
    rw [e]
    exact h
  | optimize a => exact (optimizeX_goes cfg a m).backed h

theorem objRun_backed (cfg : Config P R Mu) : ∀ (ops : List (ObjOp P R Mu σ)) (m : Mem P R), Backed cfg.hash m → Backed cfg.hash (objRun cfg m ops)
  | [], _, h => h
  | op :: ops, m, h => objRun_backed cfg ops _ (objStep_backed cfg m op h)

theorem new_backed (hash : List Bool → Nat) (eb : Nat) (lm : Rat) : Backed hash (Mem.new eb lm : Mem P R) :=
  ⟨new_wf eb lm, fun k v h => by rw [show (Mem.new eb lm : Mem P R).counter = Counter.new eb lm from rfl, new_known] at h; simp at h⟩

theorem objRun_log (cfg : Config P R Mu) : ∀ (ops : List (ObjOp P R Mu σ)) (m : Mem P R), ∀ e ∈ (objRun cfg m ops).log,
    e ∈ m.log ∨ ∃ b, .optimize b ∈ ops ∧ b.f e.2.1 = .ok e.2.2
  | [], m, e, he => .inl he
  | op :: ops, m, e, he => by
    rcases objRun_log cfg ops _ e he with h | ⟨b, hb, q⟩
    · cases op with
      | setInitial ps =>
        obtain ⟨l, b, e1⟩ := setInitialX_keeps cfg ps m
        rw [show objStep cfg m (.setInitial ps : ObjOp P R Mu σ) = (setInitialX cfg ps m).1 from rfl, e1] at h
        exact .inl h
      | optimize b =>
        obtain ⟨new, h1, h2⟩ := (optimizeX_goes cfg b m).log
        rw [show objStep cfg m (.optimize b) = (optimizeX cfg b m).1 from rfl, h1] at h
        rcases List.mem_append.1 h with h | h
        · exact .inl h
        · exact .inr ⟨b, List.mem_cons_self, h2 e h⟩
    · exact .inr ⟨b, List.mem_cons_of_mem _ hb, q⟩

/-- **C126** (where fitness values come from).  After any history of calls, whatever exceptions they ended with, when `Optimize` returns, the
fitness of every individual of every generation is a value that the objective function of this call or of an earlier one returned, for parameters
whose chromosome had the same hash as the individual's. -/
theorem C126_source (cfg : Config P R Mu) (eb : Nat) (lm : Rat) (ops : List (ObjOp P R Mu σ)) (a : Call P R Mu σ) (m' : Mem P R) (q : P)
    (r : EndX P R Mu σ) (h : optimizeX cfg a (objRun cfg (Mem.new eb lm) ops) = (m', .ok (q, r))) :
    ∀ g ∈ r.gens, ∀ i ∈ g.pop, ∃ b chr x, .optimize b ∈ ops ++ [.optimize a] ∧ b.f x = .ok i.fitness ∧ cfg.hash chr = cfg.hash i.chrom ∧
      (chr, x, i.fitness) ∈ m'.log := by
  intro g hg i hi
  have hb := objRun_backed cfg ops _ (new_backed cfg.hash eb lm)
  obtain ⟨i0, n, l, _, _, hit⟩ := optimizeX_parts h
  obtain ⟨⟨chr, x, v⟩, he, q1, q2⟩ := iterateX_source cfg a _ _ _ _ _ _ _ _ _ _ _ hit hb g hg i hi
  simp only at q1 q2
  subst q2
  have hm' : m' = objRun cfg (Mem.new eb lm) (ops ++ [.optimize a]) := by
    have hcat : ∀ (l1 : List (ObjOp P R Mu σ)) (m : Mem P R), objRun cfg m (l1 ++ [.optimize a]) = objStep cfg (objRun cfg m l1) (.optimize a) := by
      intro l1
      induction l1 with
      | nil => intro m; rfl
      | cons o l1 ih => intro m; exact ih _
    rw [hcat]
    show m' = (optimizeX cfg a _).1
    rw [h]
  have he' := he
  rw [hm'] at he'
  rcases objRun_log cfg _ _ _ he' with h0 | ⟨b, hb, hf⟩
  · simp [Mem.new] at h0
  · exact ⟨b, chr, x, hb, hf, q1, he⟩

/-! ### The same function in all calls -/

/-- What a history may do for the next theorem: every call has objective function `f` and an object of the family, every initial parameter is of the
family and survives encoding. -/
def Fits (Fam : P → Prop) (s : Nat) (f : P → Res R) : ObjOp P R Mu σ → Prop
  | .setInitial ps => ∀ p, some p ∈ ps → Fam p ∧ RoundTrips s p
  | .optimize b => Fam b.p ∧ b.f = f

/-- The state stays in the family. -/
structure InFam (Fam : P → Prop) (s : Nat) (f : P → Res R) (m : Mem P R) : Prop where
  initial : ∀ p, some p ∈ m.initial → Fam p ∧ RoundTrips s p
  value : ∀ e ∈ m.log, f e.2.1 = .ok e.2.2
  decoded : ∀ e ∈ m.log, ∀ p, Fam p → DiscreteParams.setFrom p e.1 = (e.2.1, .ok ())

theorem cloneX_inFam {Fam : P → Prop} {s : Nat} (hF : Family Fam s) {ps : List (Option P)} (hps : ∀ p, some p ∈ ps → Fam p ∧ RoundTrips s p) :
    ∀ (n i : Nat) (m : Mem P R), (∀ p, some p ∈ m.initial → Fam p ∧ RoundTrips s p) →
    ∀ p, some p ∈ (cloneX (R := R) ps n i m).1.initial → Fam p ∧ RoundTrips s p
  | 0, _, m, h => h
  | n + 1, i, m, h => by
    unfold cloneX
    cases hp : ps[i]? with
    | none => exact h
    | some o =>
      cases o with
      | none => exact h
      | some p =>
        have hmem := hps p (List.mem_of_getElem? hp)
        simp only
        rw [hF.clone p hmem.1, X.lift_bind_ok, X.modify_bind]
        refine cloneX_inFam hF hps n (i + 1) _ ?_
        intro x hx
        rcases List.mem_or_eq_of_mem_set hx with hx | hx
        · exact h x hx
        · simp only [Option.some.injEq] at hx
          subst hx
          exact hmem

theorem setInitialX_inFam {Fam : P → Prop} {s : Nat} (hF : Family Fam s) (cfg : Config P R Mu) {ps : List (Option P)}
    (hps : ∀ p, some p ∈ ps → Fam p ∧ RoundTrips s p) (m : Mem P R) :
    ∀ p, some p ∈ (setInitialX cfg ps m).1.initial → Fam p ∧ RoundTrips s p := by
  unfold setInitialX
  rw [X.modify_bind, X.bind_def]
  have h := cloneX_inFam (R := R) hF hps cfg.popSize 0 { m with initial := List.replicate cfg.popSize none } (by
    intro p hp
    simp at hp)
  rcases hc : cloneX (R := R) ps cfg.popSize 0 { m with initial := List.replicate cfg.popSize none } with ⟨m1, r⟩
  rw [hc] at h
  cases r <;> exact h

/-- The configuration of a run that starts with what the object holds is one `Create` and `SetInitialParameters` make. -/
theorem setting_of {Fam : P → Prop} {s : Nat} (hF : Family Fam s) {cfg : Config P R Mu} (hbuilt : Built cfg) (hsort : ∀ l, (cfg.sort l).Perm l)
    (hmut : KeepsLength cfg.mutator) {m : Mem P R} {c : Counter R} (hw : c.WF) {p : P} (hp : Fam p)
    (hin : ∀ p, some p ∈ m.initial → Fam p ∧ RoundTrips s p) {ini : Option (List P)} (hini : m.Holds ini) {fuel : Nat} {rng : Rng} {x}
    (h : initialPopulation { cfg with initial := ini } fuel p rng = .ok x) (hnone : cfg.initial = none) :
    Setting Fam s { cfg with initial := ini } c p ∧ ∀ qs, ini = some qs → ∀ q ∈ qs, RoundTrips s q := by
  have hmem : ∀ qs, ini = some qs → ∀ q ∈ qs, Fam q ∧ RoundTrips s q := by
    rintro qs rfl q hq
    obtain ⟨_, hq'⟩ := hini
    exact hin q (by rw [hq']; exact List.mem_map_of_mem hq)
  refine ⟨⟨hF, ?_, hsort, hmut, hp, fun qs hqs q hq => (hmem qs hqs q hq).1, hw⟩, fun qs hqs q hq => (hmem qs hqs q hq).2⟩
  cases ini with
  | none =>
    have : ({ cfg with initial := none } : Config P R Mu) = cfg := by cases cfg; simp only at hnone; subst hnone; rfl
    rw [this]
    exact hbuilt
  | some qs =>
    refine .initial (ps := qs) hbuilt ?_
    have hl : qs.length = cfg.popSize := by
      unfold initialPopulation at h
      obtain ⟨_, h1, _⟩ := Res.bind_eq_ok.1 h
      simp only at h1
      obtain ⟨_, h2, _⟩ := Res.bind_eq_ok.1 h1
      unfold validateInitial at h2
      split at h2
      · simp at h2
      · next h3 => simpa using h3
    rw [(C19_initial hF cfg qs fun p hp => (hmem qs rfl p hp).1).1 (by omega), List.take_of_length_le (by omega)]

theorem readFile_none_good {Fam : P → Prop} {s : Nat} (hF : Family Fam s) (F : Text.Format R) (n : Nat) {file : PopFile} {pop : List (Indiv P R)}
    (hg : ∀ i ∈ pop, Good Fam s i ∧ Decoded Fam i) {l} (h : readFile F n file pop = .ok l) :
    l.1.length = pop.length ∧ ∀ i ∈ l.1, Good Fam s i ∧ Decoded Fam i := by
  cases file with
  | none =>
    simp only [readFile, Res.ok.injEq] at h
    subst h
    exact ⟨rfl, hg⟩
  | missing => simp [readFile] at h
  | text t =>
    obtain ⟨h1, h2, _⟩ := readFile_good hF F n (fun i hi => (hg i hi).1) h
    exact ⟨h1, fun i hi => ⟨(h2 i hi).1, (h2 i hi).2.1⟩⟩

/-- The population the main loop starts from. -/
theorem start_good {Fam : P → Prop} {s : Nat} (hF : Family Fam s) {cfg : Config P R Mu} (hbuilt : Built cfg) (hnone : cfg.initial = none)
    (hsort : ∀ l, (cfg.sort l).Perm l) (hmut : KeepsLength cfg.mutator) {m m' : Mem P R} (hw : m.counter.WF)
    (hin : ∀ p, some p ∈ m.initial → Fam p ∧ RoundTrips s p) {p : P} (hp : Fam p) {fuel : Nat} {rng : Rng} {i}
    (h : initialPopulationX cfg fuel p rng m = (m', .ok i)) :
    i.1.length = cfg.popSize ∧ (∀ x ∈ i.1, Good Fam s x ∧ Decoded Fam x) ∧ i.2.1.hasFitness = false := by
  obtain ⟨ini, hini, hi, _⟩ := initialPopulationX_ok h
  have h1 : initialPopulation { cfg with initial := ini } fuel p rng = .ok i := by
    have := Res.mapR_ok (f := Prod.fst) hi
    rwa [initialPopulationS_erase] at this
  obtain ⟨hs, hr⟩ := setting_of hF hbuilt hsort hmut hw hp hin hini h1 hnone
  obtain ⟨pop, best, rng1⟩ := i
  obtain ⟨g1, g2, _, g4, g5, _, g7⟩ := initial_good hs h1
  refine ⟨g1, fun x hx => ⟨g2 x hx, ?_⟩, g4⟩
  cases hi0 : ini with
  | none => exact (g5 hi0 x hx).2
  | some qs => exact g7 qs hi0 (hr qs hi0) x hx

theorem optimizeX_dec {Fam : P → Prop} {s : Nat} (hF : Family Fam s) {cfg : Config P R Mu} (hbuilt : Built cfg) (hnone : cfg.initial = none)
    (hsort : ∀ l, (cfg.sort l).Perm l) (hmut : KeepsLength cfg.mutator) (a : Call P R Mu σ) (m : Mem P R) (hw : m.counter.WF)
    (hin : ∀ p, some p ∈ m.initial → Fam p ∧ RoundTrips s p) (hp : Fam a.p) : DecLog Fam m (optimizeX cfg a m).1 := by
  unfold optimizeX
  split
  · refine decLog_bind (DecLog.same (initialPopulationX_keeps _ _ _ _ _).log) fun i m1 h1 => decLog_bind (DecLog.same rfl) fun l m2 h2 =>
      decLog_bind ?_ fun r m3 _ => ?_
    · obtain ⟨rfl, hl⟩ := X.lift_ok h2
      obtain ⟨_, g, _⟩ := start_good hF hbuilt hnone hsort hmut hw hin hp h1
      exact iterateX_dec hF cfg hsort hmut a _ _ _ _ _ _ _ _ _ (readFile_none_good hF _ _ g hl).2
    · by_cases hb : r.best.init = true
      · rw [if_pos hb]
        rcases DiscreteParams.setFrom a.p r.best.chrom with ⟨q, o⟩
        cases o <;> exact DecLog.same rfl
      · rw [if_neg hb]
        exact DecLog.same rfl
  · exact DecLog.same rfl

theorem objStep_inFam {Fam : P → Prop} {s : Nat} (hF : Family Fam s) {cfg : Config P R Mu} (hbuilt : Built cfg) (hnone : cfg.initial = none)
    (hsort : ∀ l, (cfg.sort l).Perm l) (hmut : KeepsLength cfg.mutator) {f : P → Res R} (m : Mem P R) (hb : Backed cfg.hash m)
    (hm : InFam Fam s f m) (op : ObjOp P R Mu σ) (hop : Fits Fam s f op) : InFam Fam s f (objStep cfg m op) := by
  cases op with
  | setInitial ps =>
    obtain ⟨l, b, e⟩ := setInitialX_keeps cfg ps m
    have hl : (setInitialX cfg ps m).1.log = m.log := by rw [e]
    exact ⟨setInitialX_inFam hF cfg hop m, fun x hx => hm.value x (by rw [← hl]; exact hx), fun x hx => hm.decoded x (by rw [← hl]; exact hx)⟩
  | optimize a =>
    obtain ⟨hp, rfl⟩ := hop
    have hg := optimizeX_goes cfg a m
    obtain ⟨n1, l1, v1⟩ := hg.log
    obtain ⟨n2, l2, v2⟩ := optimizeX_dec hF hbuilt hnone hsort hmut a m hb.1 hm.initial hp
    have hnn : n1 = n2 := by
      rw [l1] at l2
      exact List.append_cancel_left l2
    subst hnn
    refine ⟨?_, ?_, ?_⟩
    · show ∀ p, some p ∈ (optimizeX cfg a m).1.initial → _
      rw [hg.initial]
      exact hm.initial
    · intro e he
      rw [show objStep cfg m (.optimize a) = (optimizeX cfg a m).1 from rfl, l1] at he
      rcases List.mem_append.1 he with he | he
      · exact hm.value e he
      · exact v1 e he
    · intro e he
      rw [show objStep cfg m (.optimize a) = (optimizeX cfg a m).1 from rfl, l1] at he
      rcases List.mem_append.1 he with he | he
      · exact hm.decoded e he
      · exact v2 e he

theorem objRun_inFam {Fam : P → Prop} {s : Nat} (hF : Family Fam s) {cfg : Config P R Mu} (hbuilt : Built cfg) (hnone : cfg.initial = none)
    (hsort : ∀ l, (cfg.sort l).Perm l) (hmut : KeepsLength cfg.mutator) {f : P → Res R} : ∀ (ops : List (ObjOp P R Mu σ)) (m : Mem P R),
    Backed cfg.hash m → InFam Fam s f m → (∀ op ∈ ops, Fits Fam s f op) → InFam Fam s f (objRun cfg m ops)
  | [], _, _, h, _ => h
  | op :: ops, m, hb, h, hops => objRun_inFam hF hbuilt hnone hsort hmut ops _ (objStep_backed cfg m op hb)
      (objStep_inFam hF hbuilt hnone hsort hmut m hb h op (hops op List.mem_cons_self)) fun o ho => hops o (List.mem_cons_of_mem _ ho)

theorem new_inFam {Fam : P → Prop} {s : Nat} {f : P → Res R} (eb : Nat) (lm : Rat) : InFam Fam s f (Mem.new eb lm : Mem P R) :=
  ⟨by simp [Mem.new], by simp [Mem.new], by simp [Mem.new]⟩

/-- **C126** (one objective function).  If all calls use the same objective function, parameter objects of one family and initial parameters that
survive encoding, and no two different chromosomes that were evaluated or visited have the same hash, then after any history — calls that threw
in the middle of a generation included — when `Optimize` returns, the fitness of every individual of every generation is the value the objective
function returns for its own parameters, the caller's object holds the parameters of one of them, and none has a larger value. -/
theorem C126_same_function {Fam : P → Prop} {s : Nat} (hF : Family Fam s) {cfg : Config P R Mu} (hbuilt : Built cfg) (hnone : cfg.initial = none)
    (hsort : ∀ l, (cfg.sort l).Perm l) (hmut : KeepsLength cfg.mutator) (f : P → Res R) (eb : Nat) (lm : Rat) (ops : List (ObjOp P R Mu σ))
    (hops : ∀ op ∈ ops, Fits Fam s f op) (a : Call P R Mu σ) (ha : Fam a.p ∧ a.f = f) (m' : Mem P R) (q : P) (r : EndX P R Mu σ)
    (h : optimizeX cfg a (objRun cfg (Mem.new eb lm) ops) = (m', .ok (q, r)))
    (hnc : NoCollision cfg.hash fun chr => (∃ e ∈ m'.log, e.1 = chr) ∨ ∃ g ∈ r.gens, ∃ i ∈ g.pop, i.chrom = chr) :
    (∀ g ∈ r.gens, ∀ i ∈ g.pop, ∃ x, i.params = some x ∧ f x = .ok i.fitness ∧ i.fitness ≤ r.best.fitness) ∧
    (∃ g ∈ r.gens, ∃ i ∈ g.pop, i.params = some q) ∧ f q = .ok r.best.fitness := by
  have hb0 := objRun_backed cfg ops _ (new_backed cfg.hash eb lm)
  have hm0 := objRun_inFam hF hbuilt hnone hsort hmut ops _ (new_backed cfg.hash eb lm) (new_inFam eb lm) hops
  generalize objRun cfg (Mem.new eb lm) ops = m at h hb0 hm0
  have hm' := objStep_inFam hF hbuilt hnone hsort hmut m hb0 hm0 (.optimize a) ha
  rw [show objStep cfg m (.optimize a) = (optimizeX cfg a m).1 from rfl, h] at hm'
  obtain ⟨i0, n, l, h1, h2, h3⟩ := optimizeX_parts h
  have hsrc := iterateX_source cfg a _ _ _ _ _ _ _ _ _ _ _ h3 hb0
  obtain ⟨s1, s2, s3⟩ := start_good hF hbuilt hnone hsort hmut hb0.1 hm0.initial ha.1 h1
  obtain ⟨t1, t2⟩ := readFile_none_good hF _ _ s2 h2
  have h4 := iterateS_erase _ _ _ _ _ _ _ _ _ _ _ _ _ _ _ (iterateX_ok cfg a _ _ _ _ _ _ _ _ _ _ _ h3)
  obtain ⟨b1, b2, b3, _⟩ := hbuilt.facts
  obtain ⟨i1, i2, i3, i4, i5, i6, i7, i8, i9, i10, i11, i12, i13, _⟩ :=
    iterate_spec hF cfg hsort hmut b2 a.fuel (totalised a.f) _ _ _ _ _ _ _ _ _ _ _ _ h4 (by omega) (fun i hi => (t2 i hi).1) hb0.1
  have hk : 0 < cfg.maxGen.toNat := by omega
  simp only [EndS.erase] at i3 i4 i5 i6 i7 i11
  have hdec : ∀ g ∈ r.gens, ∀ i ∈ g.pop, Decoded Fam i := by
    intro g hg i hi
    cases htr : r.gens with
    | nil => rw [htr] at hg; simp at hg
    | cons g0 t =>
      rw [htr] at hg i5 i6
      simp only [List.map_cons, List.head?_cons, Option.mem_def, Option.some.injEq, forall_eq', List.tail_cons] at i5 i6
      rcases List.mem_cons.1 hg with rfl | hg
      · obtain ⟨y, hy, sy⟩ := forall₂_mem_right i5 hi
        exact sy.decoded (t2 y hy).2
      · exact (i6 g.pop (List.mem_map_of_mem hg) i hi).2
  have hval : ∀ g ∈ r.gens, ∀ i ∈ g.pop, ∃ x, i.params = some x ∧ f x = .ok i.fitness ∧ DiscreteParams.setFrom a.p i.chrom = (x, .ok ()) := by
    intro g hg i hi
    obtain ⟨e, he, q1, q2⟩ := hsrc g hg i hi
    have hc : e.1 = i.chrom := hnc _ _ (.inl ⟨e, he, rfl⟩) (.inr ⟨g, hg, i, hi, rfl⟩) q1
    obtain ⟨x, hx, hd⟩ := hdec g hg i hi
    have d1 := hm'.decoded e he a.p ha.1
    have d2 := hd a.p ha.1
    rw [hc, d2] at d1
    simp only [Prod.mk.injEq, and_true] at d1
    refine ⟨x, hx, ?_, d2⟩
    rw [d1, ← q2]
    exact hm'.value e he
  obtain ⟨gb, hgb, hbm⟩ := i11 s3 hk
  obtain ⟨g, hg, rfl⟩ := List.mem_map.1 hgb
  obtain ⟨x, x1, x2, x3⟩ := hval g hg _ hbm
  have hq : x = q := by
    have hr := C126_returns cfg a m m' q r h
    obtain ⟨ini, _, hr⟩ := hr
    obtain ⟨_, _, _, _, _, _, _, _, _, _, hset⟩ := optimizeS_ok hr
    simp only at hset
    rw [x3] at hset
    simpa using hset
  subst hq
  refine ⟨?_, ⟨g, hg, _, hbm, x1⟩, x2⟩
  intro g' hg' i hi
  obtain ⟨y, y1, y2, _⟩ := hval g' hg' i hi
  exact ⟨y, y1, y2, i7 _ (List.mem_map_of_mem hg') i hi⟩

/-! ### A cache that is full -/

/-- **C126** (a full cache is never emptied).  When the new values of a generation cannot be stored (`runtime_error`), the cache stays so full that no
later `Optimize` on this object returns, whatever its arguments, and whatever is called in between. -/
theorem C126_full (cfg : Config P R Mu) (hgen : 0 < cfg.maxGen) (hash : List Bool → Nat) (ts : List (Todo P R)) (pop : List (Indiv P R))
    (m0 m : Mem P R) (w : String) (hthrow : storeX hash ts pop m0 = (m, .throw w)) (ops : List (ObjOp P R Mu σ)) (a : Call P R Mu σ) :
    ∀ x, (optimizeX cfg a (objRun cfg m ops)).2 ≠ .ok x := by
  have hf : m.counter.Full := by
    obtain ⟨c, h1, _, _, _, h5, _⟩ := storeX_spec hash ts pop m0
    rw [hthrow] at h1 h5
    simp only at h1
    subst h1
    rcases h5 with h | ⟨_, h⟩
    · simp at h
    · exact h
  have hrun : ∀ (ops : List (ObjOp P R Mu σ)) (m : Mem P R), m.counter.Full → (objRun cfg m ops).counter.Full := by
    intro ops
    induction ops with
    | nil => intro m h; exact h
    | cons op ops ih =>
      intro m h
      refine ih _ ?_
      cases op with
      | setInitial ps =>
        obtain ⟨l, b, e⟩ := setInitialX_keeps cfg ps m
        show (setInitialX cfg ps m).1.counter.Full
        rw [e]
        exact h
      | optimize a => exact (optimizeX_goes cfg a m).full h
  have hf' := hrun ops m hf
  generalize objRun cfg m ops = m1 at hf'
  rintro ⟨q, r⟩ hx
  obtain ⟨i, n, l, _, _, h3⟩ := optimizeX_parts (m' := (optimizeX cfg a m1).1) (Prod.ext rfl hx)
  obtain ⟨k, hk⟩ : ∃ k, cfg.maxGen.toNat = k + 1 := ⟨cfg.maxGen.toNat - 1, by omega⟩
  rw [hk] at h3
  unfold iterateX at h3
  obtain ⟨e, m2, h4, _⟩ := X.bind_ok h3
  exact (obtainFitnessX_spec cfg.hash a.f l.1 { m1 with invalid := n }).2.2.1 hf' e (by rw [h4])

/-! ### What the statistics say -/

theorem obtainFitnessX_hits {hash : List Bool → Nat} {f : P → Res R} {pop out : List (Indiv P R)} {m m' : Mem P R}
    (h : obtainFitnessX hash f pop m = (m', .ok out)) :
    m'.counter.hits + m'.log.length = m.counter.hits + m.log.length + pop.length ∧ out.length = pop.length := by
  have hsim := processX_sim hash pop m
  unfold obtainFitnessX at h
  obtain ⟨ts, m1, h1, h⟩ := X.bind_ok h
  have hl := processX_looked hash pop m
  rw [h1] at hl
  obtain ⟨⟨c1, ts'⟩, hproc, rfl, rfl⟩ := hsim.conv h1
  have e1 := process_hits hproc
  have e2 : c1.counts = m.counter.counts := (process_spec hproc).2.2.2.2
  rw [X.modify_bind] at h
  obtain ⟨vals, m3, h3, h'⟩ := X.bind_ok h
  obtain ⟨e3, rfl, _⟩ := evalX_ok f _ _ _ _ h3
  obtain ⟨out', e4, h''⟩ := X.lift_bind_def h'
  obtain ⟨u, m4, h4, h5⟩ := X.bind_ok h''
  simp only [X.pure_def, Prod.mk.injEq, Res.ok.injEq] at h5
  obtain ⟨rfl, rfl⟩ := h5
  obtain ⟨c, s1, _, _, _, _, _, s7⟩ := storeX_spec hash ts out' m3
  rw [h4] at s1
  simp only at s1
  subst s1
  have hlen := congrArg List.length (counted_toCount ts)
  simp only [List.length_map] at hlen
  refine ⟨?_, ((assign_spec (process_spec hproc).1 e4).1.length_eq).symm⟩
  simp only [s7, e3, List.length_append, List.length_map, hlen]
  omega

theorem nextPairsX_length (elitism : Int) (fuel : Nat) (total : R) (pop sorted : List (Indiv P R)) :
    ∀ (n i : Nat) (ready : Int) (rng : Rng) (times : List Nat) (m m' : Mem P R) (r),
    nextPairsX elitism fuel total pop sorted n i ready rng times m = (m', .ok r) → r.1.1.length = 2 * n
  | 0, _, _, _, _, m, m', r, h => by
    simp only [nextPairsX, X.pure_def, Prod.mk.injEq, Res.ok.injEq] at h
    obtain ⟨_, rfl⟩ := h
    rfl
  | n + 1, i, ready, rng, times, m, m', r, h => by
    unfold nextPairsX at h
    by_cases hr : ready < elitism
    · rw [if_pos hr] at h
      obtain ⟨_, _, h⟩ := X.lift_bind_def h
      obtain ⟨_, _, h⟩ := X.lift_bind_def h
      obtain ⟨_, _, h⟩ := X.lift_bind_def h
      obtain ⟨_, _, h⟩ := X.lift_bind_def h
      obtain ⟨x, m1, h1, h2⟩ := X.bind_ok h
      simp only [X.pure_def, Prod.mk.injEq, Res.ok.injEq] at h2
      obtain ⟨_, rfl⟩ := h2
      have := nextPairsX_length elitism fuel total pop sorted n _ _ _ _ _ _ _ h1
      simp only [List.length_cons]
      omega
    · rw [if_neg hr] at h
      obtain ⟨c, m0, _, h⟩ := X.bind_ok h
      obtain ⟨x, m1, h1, h2⟩ := X.bind_ok h
      simp only [X.pure_def, Prod.mk.injEq, Res.ok.injEq] at h2
      obtain ⟨_, rfl⟩ := h2
      have := nextPairsX_length elitism fuel total pop sorted n _ _ _ _ _ _ _ h1
      simp only [List.length_cons]
      omega

theorem nextPopulationX_length {cfg : Config P R Mu} (heven : cfg.popSize % 2 = 0) {fuel : Nat} {pop : List (Indiv P R)} {rng : Rng} {m m' : Mem P R} {r}
    (h : nextPopulationX cfg fuel pop rng m = (m', .ok r)) : r.1.1.length = cfg.popSize := by
  unfold nextPopulationX at h
  obtain ⟨_, _, h⟩ := X.lift_bind_def h
  obtain ⟨x, m1, h1, h2⟩ := X.bind_ok h
  obtain ⟨_, _, h2⟩ := X.lift_bind_def h2
  simp only [X.pure_def, Prod.mk.injEq, Res.ok.injEq] at h2
  obtain ⟨_, rfl⟩ := h2
  have := nextPairsX_length _ _ _ _ _ _ _ _ _ _ _ _ _ h1
  simp only
  omega

theorem mutateAllX_length (mt : MutatorI Mu) (fuel : Nat) : ∀ (pop : List (Indiv P R)) (mu : Mu) (rng : Rng) (m m' : Mem P R) (r),
    mutateAllX mt fuel pop mu rng m = (m', .ok r) → r.1.length = pop.length
  | [], _, _, m, m', r, h => by
    simp only [mutateAllX, X.pure_def, Prod.mk.injEq, Res.ok.injEq] at h
    obtain ⟨_, rfl⟩ := h
    rfl
  | i :: is, mu, rng, m, m', r, h => by
    unfold mutateAllX at h
    obtain ⟨x, _, h⟩ := X.lift_bind_def h
    obtain ⟨_, m1, _, h⟩ := X.bind_ok h
    obtain ⟨y, m2, h1, h2⟩ := X.bind_ok h
    simp only [X.pure_def, Prod.mk.injEq, Res.ok.injEq] at h2
    obtain ⟨_, rfl⟩ := h2
    have := mutateAllX_length mt fuel is _ _ _ _ _ h1
    simp only [List.length_cons]
    omega

/-- The numbers of cache hits told to the callback. -/
def hitsTold (gens : List (Gen P R)) : Nat := ((gens.filterMap Gen.stat).map GenStat.hits).sum

theorem iterateX_hits {cb : σ → GenStat P R → σ × Res (List String)} (cfg : Config P R Mu) (heven : cfg.popSize % 2 = 0) (a : Call P R Mu σ)
    (hcb : a.callback = some cb) :
    ∀ (k : Nat) (n : Int) (pop : List (Indiv P R)) (best : Indiv P R) (mu : Mu) (rng : Rng) (stats : List (IndStat R)) (st : σ)
      (m m' : Mem P R) (r : EndX P R Mu σ), iterateX cfg a k n pop best mu rng stats st m = (m', .ok r) → pop.length = cfg.popSize →
    hitsTold r.gens + m'.log.length + m'.counter.hits = m.counter.hits + m.log.length + cfg.popSize * r.gens.length ∧
    (0 < k → m'.counter.hits = 0 ∧ 0 < r.gens.length)
  | 0, n, pop, best, mu, rng, stats, st, m, m', r, h, _ => by
    simp only [iterateX, X.pure_def, Prod.mk.injEq, Res.ok.injEq] at h
    obtain ⟨rfl, rfl⟩ := h
    simp only [hitsTold, List.filterMap_nil, List.map_nil, List.sum_nil, List.length_nil, Nat.mul_zero, Nat.lt_irrefl, false_implies, and_true]
    omega
  | k + 1, n, pop, best, mu, rng, stats, st, m, m', r, h, hlen => by
    unfold iterateX at h
    obtain ⟨e, m1, h1, h⟩ := X.bind_ok h
    obtain ⟨e1, e1'⟩ := obtainFitnessX_hits h1
    obtain ⟨b, _, h⟩ := X.lift_bind_def h
    obtain ⟨o, m2, h2, h'⟩ := X.bind_ok h
    clear h
    obtain ⟨rfl, ho⟩ := observeX_ok h2
    have ho' : ∃ s, o.2.1 = some s ∧ s.hits = m2.counter.hits := by
      unfold observe at ho
      simp only [Call.quiet, hcb, Option.map_some] at ho
      obtain ⟨x, hx, ho⟩ := Res.bind_eq_ok.1 ho
      unfold processStatistics at hx
      obtain ⟨total, _, hx⟩ := Res.bind_eq_ok.1 hx
      split at hx
      · split at hx
        · simp at hx
        · obtain ⟨y, _, hx⟩ := Res.bind_eq_ok.1 hx
          obtain ⟨z, _, hx⟩ := Res.bind_eq_ok.1 hx
          obtain ⟨fs, _, hx⟩ := Res.bind_eq_ok.1 hx
          simp only [Res.pure_eq, Res.ok.injEq] at hx ho
          subst hx
          subst ho
          exact ⟨_, rfl, rfl⟩
      · simp at hx
    obtain ⟨s, hs1, hs2⟩ := ho'
    rw [X.modify_bind] at h'
    obtain ⟨x, hx, h⟩ := X.lift_bind_def h'
    by_cases hs : x ≥ cfg.stop
    · rw [if_pos hs] at h
      simp only [X.pure_def, Prod.mk.injEq, Res.ok.injEq] at h
      obtain ⟨rfl, rfl⟩ := h
      simp only [hitsTold, List.filterMap_cons, hs1, List.filterMap_nil, List.map_cons, List.map_nil, List.sum_cons, List.sum_nil, List.length_cons,
        List.length_nil, hs2]
      refine ⟨by omega, fun _ => ⟨trivial, by omega⟩⟩
    · rw [if_neg hs] at h
      obtain ⟨nx, m3, h3, h⟩ := X.bind_ok h
      have k3 := nextPopulationX_keeps cfg a.fuel e rng ({ m2 with counter := { m2.counter with hits := 0 }, invalid := 0 } : Mem P R)
      rw [h3] at k3
      obtain ⟨n3, rfl⟩ := k3
      obtain ⟨mt, m4, h4, h⟩ := X.bind_ok h
      have k4 := mutateAllX_keeps (P := P) (R := R) cfg.mutator a.fuel nx.1.1 (cfg.mutator.apply mu ⟨n, cfg.maxGen⟩) nx.1.2
        ({ m2 with counter := { m2.counter with hits := 0 }, invalid := n3 } : Mem P R)
      rw [h4] at k4
      obtain ⟨n4, rfl⟩ := k4
      obtain ⟨rest, m5, h5, h⟩ := X.bind_ok h
      simp only [X.pure_def, Prod.mk.injEq, Res.ok.injEq] at h
      obtain ⟨rfl, rfl⟩ := h
      have hl1 := nextPopulationX_length heven h3
      have hl2 := mutateAllX_length _ _ _ _ _ _ _ _ h4
      obtain ⟨ih1, ih2⟩ := iterateX_hits cfg heven a hcb k _ _ _ _ _ _ _ _ _ _ h5 (by omega)
      simp only at ih1 ih2
      refine ⟨?_, fun _ => ⟨?_, by simp⟩⟩
      · simp only [hitsTold, List.filterMap_cons, hs1, List.map_cons, List.sum_cons, List.length_cons, hs2, Nat.mul_add, Nat.mul_one]
        simp only [hitsTold] at ih1
        omega
      · rcases Nat.eq_zero_or_pos k with rfl | hk
        · simp only [iterateX, X.pure_def, Prod.mk.injEq, Res.ok.injEq] at h5
          obtain ⟨rfl, rfl⟩ := h5
          rfl
        · exact (ih2 hk).1

theorem readAll_length (F : Text.Format R) : ∀ (old : List (Indiv P R)) (t : Text.In) (pop : List (Indiv P R)) (out : Text.In),
    Text.readAll F old t = .ok (pop, out) → pop.length = old.length
  | [], t, pop, out, h => by
    simp only [Text.readAll, Res.ok.injEq, Prod.mk.injEq] at h
    obtain ⟨rfl, _⟩ := h
    rfl
  | i :: is, t, pop, out, h => by
    simp only [Text.readAll] at h
    split at h
    · next j s' hr =>
      obtain ⟨b, hb, h⟩ := Res.bind_eq_ok.1 h
      split at h
      · obtain ⟨rest, h1, h2⟩ := Res.bind_eq_ok.1 h
        simp only [Res.pure_eq, Res.ok.injEq, Prod.mk.injEq] at h2
        obtain ⟨rfl, _⟩ := h2
        simp [readAll_length F is s' rest.1 rest.2 h1]
      · cases h
    · cases h
    · cases h

theorem readFile_length (F : Text.Format R) (n : Nat) {file : PopFile} {pop : List (Indiv P R)} {l} (h : readFile F n file pop = .ok l) :
    l.1.length = pop.length := by
  cases file with
  | none =>
    simp only [readFile, Res.ok.injEq] at h
    subst h
    rfl
  | missing => simp [readFile] at h
  | text t =>
    simp only [readFile] at h
    obtain ⟨⟨pop', out⟩, hr, h⟩ := Res.bind_eq_ok.1 h
    obtain ⟨stats, hst, h⟩ := Res.bind_eq_ok.1 h
    simp only [Res.pure_eq, Res.ok.injEq] at h
    subst h
    unfold Text.readPopulation at hr
    simp only at hr
    split at hr
    · simp at hr
    · split at hr
      · simp at hr
      · split at hr
        · simp at hr
        · split at hr
          · simp at hr
          · exact readAll_length F _ _ _ _ hr

theorem initRandomX_length (fuel : Nat) (p : P) : ∀ (n : Nat) (rng : Rng) (m m' : Mem P R) (r), initRandomX fuel p n rng m = (m', .ok r) → r.1.length = n
  | 0, rng, m, m', r, h => by
    simp only [initRandomX, X.pure_def, Prod.mk.injEq, Res.ok.injEq] at h
    obtain ⟨_, rfl⟩ := h
    rfl
  | n + 1, rng, m, m', r, h => by
    unfold initRandomX at h
    obtain ⟨_, _, h⟩ := X.lift_bind_def h
    obtain ⟨_, _, h⟩ := X.lift_bind_def h
    obtain ⟨_, m1, _, h⟩ := X.bind_ok h
    obtain ⟨y, m2, h1, h2⟩ := X.bind_ok h
    simp only [X.pure_def, Prod.mk.injEq, Res.ok.injEq] at h2
    obtain ⟨_, rfl⟩ := h2
    have := initRandomX_length fuel p n _ _ _ _ h1
    simp only [List.length_cons]
    omega

theorem initGivenX_length : ∀ (ps : List (Option P)) (is : List (Indiv P R)), initGivenX ps = .ok is → is.length = ps.length
  | [], is, h => by simp only [initGivenX, Res.ok.injEq] at h; subst h; rfl
  | none :: _, is, h => by simp [initGivenX] at h
  | some p :: ps, is, h => by
    unfold initGivenX at h
    obtain ⟨i, _, h⟩ := Res.bind_eq_ok.1 h
    obtain ⟨is', h1, h⟩ := Res.bind_eq_ok.1 h
    simp only [Res.pure_eq, Res.ok.injEq] at h
    subst h
    simp [initGivenX_length ps is' h1]

theorem initialPopulationX_length {cfg : Config P R Mu} {fuel : Nat} {p : P} {rng : Rng} {m m' : Mem P R} {r}
    (h : initialPopulationX cfg fuel p rng m = (m', .ok r)) : r.1.length = cfg.popSize := by
  unfold initialPopulationX at h
  rw [X.get_bind] at h
  obtain ⟨x, m1, h1, h⟩ := X.bind_ok h
  obtain ⟨b, hb, h⟩ := X.lift_bind_def h
  simp only [X.pure_def, Prod.mk.injEq, Res.ok.injEq] at h
  obtain ⟨_, rfl⟩ := h
  by_cases hg : m.given = true
  · rw [if_pos hg] at h1
    obtain ⟨_, hv, h1⟩ := X.lift_bind_def h1
    obtain ⟨is, hi, h1⟩ := X.lift_bind_def h1
    simp only [X.pure_def, Prod.mk.injEq, Res.ok.injEq] at h1
    obtain ⟨_, rfl⟩ := h1
    unfold validateX at hv
    split at hv
    · simp at hv
    · next hl => simp only [initGivenX_length _ _ hi]; simpa using hl
  · rw [if_neg hg] at h1
    exact initRandomX_length _ _ _ _ _ _ _ h1

/-- **C126** (what is counted).  When a call with a callback returns, the cache hits told to the callback plus the calls of the objective function
add up to all individuals of all generations plus the hits left over by an earlier call that threw; it leaves no hits over itself. -/
theorem C126_hits {cfg : Config P R Mu} (hbuilt : Built cfg) (a : Call P R Mu σ) (cb : σ → GenStat P R → σ × Res (List String))
    (hcb : a.callback = some cb) (m m' : Mem P R) (q : P) (r : EndX P R Mu σ) (h : optimizeX cfg a m = (m', .ok (q, r))) :
    (∃ new, m'.log = m.log ++ new ∧ hitsTold r.gens + new.length = m.counter.hits + cfg.popSize * r.gens.length) ∧ m'.counter.hits = 0 := by
  obtain ⟨new, hn, _⟩ := (optimizeX_goes cfg a m).log
  rw [h] at hn
  simp only at hn
  obtain ⟨_, b2, b3, _⟩ := hbuilt.facts
  obtain ⟨i, n, l, h1, h2, h3⟩ := optimizeX_parts h
  have hl := readFile_length _ _ h2
  rw [initialPopulationX_length h1] at hl
  obtain ⟨e1, e2⟩ := iterateX_hits cfg b2 a hcb _ _ _ _ _ _ _ _ _ _ _ h3 hl
  have e3 := (e2 (by omega)).1
  refine ⟨⟨new, hn, ?_⟩, e3⟩
  rw [hn, e3] at e1
  simp only [List.length_append] at e1
  omega

/-! ### `SetInitialParameters` -/

theorem cloneX_spec (ps : List (Option P)) : ∀ (n i : Nat) (m : Mem P R) (ready : List (Option P)), m.initial = ready ++ List.replicate n none →
    ready.length = i →
    (∃ qs, cloneX ps n i m = ({ m with initial := ready ++ qs.map some }, .ok ()) ∧ qs.length = n ∧
      List.Forall₂ (fun o q => ∃ p, o = some p ∧ DiscreteParams.clone p = .ok q) ((ps.drop i).take n) qs) ∨
    (∃ l w, cloneX ps n i m = ({ m with initial := l }, w) ∧ none ∈ l ∧ w ≠ .ok ())
  | 0, i, m, ready, h, _ => .inl ⟨[], by
      simp only [cloneX, X.pure_def]
      congr 1
      cases m
      simpa using h, rfl, by simp⟩
  | n + 1, i, m, ready, h, hi => by
    unfold cloneX
    have hnone : none ∈ m.initial := by rw [h]; simp
    cases hp : ps[i]? with
    | none => exact .inr ⟨m.initial, .ub, rfl, hnone, by simp⟩
    | some o =>
      cases o with
      | none => exact .inr ⟨m.initial, .ub, rfl, hnone, by simp⟩
      | some p =>
        simp only
        cases hc : (DiscreteParams.clone p : Res P) with
        | throw w => exact .inr ⟨m.initial, .throw w, rfl, hnone, by simp⟩
        | ub => exact .inr ⟨m.initial, .ub, rfl, hnone, by simp⟩
        | ok q =>
          rw [X.lift_bind_ok, X.modify_bind]
          have hset : m.initial.set i (some q) = (ready ++ [some q]) ++ List.replicate n none := by
            rw [h, List.set_append_right _ _ (by omega), hi, Nat.sub_self, List.replicate_succ, List.set_cons_zero, List.append_assoc]
            rfl
          rcases cloneX_spec ps n (i + 1) { m with initial := m.initial.set i (some q) } (ready ++ [some q]) hset (by simp [hi]) with
            ⟨qs, e1, e2, e3⟩ | ⟨l, w, e1, e2, e3⟩
          · refine .inl ⟨q :: qs, ?_, by simp [e2], ?_⟩
            · rw [e1]
              simp
            · have hd : ps.drop i = some p :: ps.drop (i + 1) := by
                obtain ⟨hlt, hget⟩ := List.getElem?_eq_some_iff.1 hp
                rw [List.drop_eq_getElem_cons hlt, hget]
              rw [hd, List.take_succ_cons]
              exact .cons ⟨p, rfl, hc⟩ e3
          · exact .inr ⟨l, w, e1, e2, e3⟩

/-- **C126** (initial parameters).  `SetInitialParameters` either clones the first `population_size` entries, and the object holds exactly the clones, or
does not return, and the object holds a null pointer; nothing else changes. -/
theorem C126_set (cfg : Config P R Mu) (ps : List (Option P)) (m m' : Mem P R) (w : Res Unit) (h : setInitialX cfg ps m = (m', w)) :
    (w = .ok () ∧ ∃ qs, m' = { m with initial := qs.map some, given := true } ∧ qs.length = cfg.popSize ∧
      List.Forall₂ (fun o q => ∃ p, o = some p ∧ DiscreteParams.clone p = .ok q) (ps.take cfg.popSize) qs) ∨
    (w ≠ .ok () ∧ ∃ l, m' = { m with initial := l } ∧ none ∈ l) := by
  unfold setInitialX at h
  rw [X.modify_bind, X.bind_def] at h
  rcases cloneX_spec ps cfg.popSize 0 { m with initial := List.replicate cfg.popSize none } [] rfl rfl with ⟨qs, e1, e2, e3⟩ | ⟨l, w', e1, e2, e3⟩
  · rw [e1] at h
    simp only [X.modify_def, Prod.mk.injEq] at h
    obtain ⟨rfl, rfl⟩ := h
    exact .inl ⟨rfl, qs, by simp, e2, by simpa using e3⟩
  · rw [e1] at h
    right
    cases w' with
    | ok u => exact absurd rfl e3
    | throw w0 =>
      simp only [Prod.mk.injEq] at h
      obtain ⟨rfl, rfl⟩ := h
      exact ⟨by simp, l, rfl, e2⟩
    | ub =>
      simp only [Prod.mk.injEq] at h
      obtain ⟨rfl, rfl⟩ := h
      exact ⟨by simp, l, rfl, e2⟩

/-- The history has no call of `SetInitialParameters`. -/
def NoSet (ops : List (ObjOp P R Mu σ)) : Prop := ∀ op ∈ ops, ∃ a, op = .optimize a

theorem objRun_initial (cfg : Config P R Mu) : ∀ (ops : List (ObjOp P R Mu σ)) (m : Mem P R), NoSet ops →
    (objRun cfg m ops).initial = m.initial ∧ (objRun cfg m ops).given = m.given
  | [], m, _ => ⟨rfl, rfl⟩
  | op :: ops, m, h => by
    obtain ⟨a, rfl⟩ := h _ List.mem_cons_self
    obtain ⟨e1, e2⟩ := objRun_initial cfg ops (objStep cfg m (.optimize a)) fun o ho => h o (List.mem_cons_of_mem _ ho)
    have hg := optimizeX_goes cfg a m
    exact ⟨e1.trans hg.initial, e2.trans hg.given⟩

/-- **C126** (initial parameters stay).  After `SetInitialParameters` returned, every later `Optimize` that returns is the run that starts from those
clones (and from the file, if one is named) — also the tenth, also after calls that threw, until `SetInitialParameters` is called again; there is no
way back to a random start. -/
theorem C126_stays {cfg : Config P R Mu} {ps : List (Option P)} {m m1 : Mem P R} (h1 : setInitialX cfg ps m = (m1, .ok ()))
    (ops : List (ObjOp P R Mu σ)) (hops : NoSet ops) (a : Call P R Mu σ) (m' : Mem P R) (q : P) (r : EndX P R Mu σ)
    (h : optimizeX cfg a (objRun cfg m1 ops) = (m', .ok (q, r))) :
    ∃ qs, List.Forall₂ (fun o q => ∃ p, o = some p ∧ DiscreteParams.clone p = .ok q) (ps.take cfg.popSize) qs ∧
      optimizeS { cfg with initial := some qs } a.quiet a.file a.fuel (totalised a.f) (objRun cfg m1 ops).counter a.mu a.rng (objRun cfg m1 ops).invalid
          a.st a.p a.maximize = .ok ⟨q, ⟨r.gens, m'.counter, r.best, r.mu, r.rng, m'.invalid, r.st⟩⟩ := by
  rcases C126_set cfg ps m m1 _ h1 with ⟨_, qs, rfl, hl, hq⟩ | ⟨hw, _⟩
  · obtain ⟨e1, e2⟩ := objRun_initial cfg ops _ hops
    obtain ⟨ini, hini, hr⟩ := C126_returns cfg a _ m' q r h
    cases ini with
    | none =>
      have : (objRun cfg ({ m with initial := qs.map some, given := true } : Mem P R) ops).given = false := hini
      rw [e2] at this
      simp at this
    | some qs' =>
      obtain ⟨_, h3⟩ := hini
      rw [e1] at h3
      have : qs = qs' := by
        have := congrArg (List.map (fun o : Option P => o)) h3
        exact List.map_injective_iff.2 (fun _ _ => Option.some.inj) h3
      subst this
      exact ⟨qs, hq, hr⟩
  · exact absurd rfl hw

/-- **C126** (a failed `SetInitialParameters`).  If it does not return on an object that had initial parameters, no later `Optimize` returns until another
`SetInitialParameters` does; if the object had none, it makes no difference to later calls: those that return started at random. -/
theorem C126_set_failed {cfg : Config P R Mu} {ps : List (Option P)} {m m1 : Mem P R} {w : Res Unit} (h1 : setInitialX cfg ps m = (m1, w)) (hw : w ≠ .ok ())
    (ops : List (ObjOp P R Mu σ)) (hops : NoSet ops) (a : Call P R Mu σ) :
    (m.given = true → ∀ x, (optimizeX cfg a (objRun cfg m1 ops)).2 ≠ .ok x) ∧
    (m.given = false → ∀ m' q r, optimizeX cfg a (objRun cfg m1 ops) = (m', .ok (q, r)) →
      optimizeS { cfg with initial := none } a.quiet a.file a.fuel (totalised a.f) (objRun cfg m1 ops).counter a.mu a.rng (objRun cfg m1 ops).invalid
          a.st a.p a.maximize = .ok ⟨q, ⟨r.gens, m'.counter, r.best, r.mu, r.rng, m'.invalid, r.st⟩⟩) := by
  rcases C126_set cfg ps m m1 _ h1 with ⟨h, _⟩ | ⟨_, l, rfl, hl⟩
  · exact absurd h hw
  · obtain ⟨e1, e2⟩ := objRun_initial cfg ops _ hops
    generalize objRun cfg ({ m with initial := l } : Mem P R) ops = m2 at e1 e2
    simp only at e1 e2
    constructor
    · rintro hg ⟨q, r⟩ hx
      obtain ⟨ini, hini, _⟩ := C126_returns cfg a m2 (optimizeX cfg a m2).1 q r (Prod.ext rfl hx)
      cases ini with
      | none =>
        have : m2.given = false := hini
        rw [e2, hg] at this
        simp at this
      | some qs =>
        obtain ⟨_, h3⟩ := hini
        rw [← e1, h3] at hl
        simp at hl
    · intro hg m' q r h
      obtain ⟨ini, hini, hr⟩ := C126_returns cfg a m2 m' q r h
      cases ini with
      | none => exact hr
      | some qs =>
        have := hini.1
        rw [e2, hg] at this
        simp at this

end K52.GA
