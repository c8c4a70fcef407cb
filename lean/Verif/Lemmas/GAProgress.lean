import Verif.Props.GA

/-! # Lemmas for C94: the genetic algorithm does not fail -/

set_option linter.unusedSectionVars false

namespace K52.GA
open K52.Indiv
open K52.Random (rand)

/-- The call returns something that satisfies `Q`; or, but only if `loops`, it is still in one of the loops that retry until constraints
hold.  It neither throws nor runs into undefined behaviour. -/
def Fine {α : Type} (loops : Prop) (x : Res α) (Q : α → Prop) : Prop := (loops ∧ x = outOfFuel) ∨ ∃ a, x = .ok a ∧ Q a

theorem Fine.ok {α : Type} {loops : Prop} {Q : α → Prop} {a : α} (h : Q a) : Fine loops (.ok a) Q := .inr ⟨a, rfl, h⟩

theorem Fine.bind {α β : Type} {loops : Prop} {x : Res α} {f : α → Res β} {Q : α → Prop} {Q' : β → Prop} (h : Fine loops x Q)
    (hf : ∀ a, x = .ok a → Q a → Fine loops (f a) Q') : Fine loops (x >>= f) Q' := by
  rcases h with ⟨hl, rfl⟩ | ⟨a, rfl, ha⟩
  · exact .inl ⟨hl, rfl⟩
  · exact hf a rfl ha

theorem Fine.mono {α : Type} {loops : Prop} {x : Res α} {Q Q' : α → Prop} (h : Fine loops x Q) (hq : ∀ a, x = .ok a → Q a → Q' a) :
    Fine loops x Q' := by
  rcases h with h | ⟨a, e, ha⟩
  · exact .inl h
  · exact .inr ⟨a, e, hq a e ha⟩

variable {P R Mu : Type} [DiscreteParams P] [Add R] [Sub R] [Mul R] [Div R] [Zero R] [One R] [NatCast R] [LinearOrder R]

local instance : Inhabited R := ⟨0⟩

/-- The object's value can be written to a chromosome of length `s`. -/
def Encodes (s : Nat) (p : P) : Prop := ∃ out, DiscreteParams.setChromosome p (List.replicate s false) = .ok out

/-- The parameter class can read every chromosome of its length and check its constraints; if not `loops`, the constraints hold
for all decoded values. -/
structure Total (loops : Prop) (Fam : P → Prop) (s : Nat) : Prop where
  pos : 0 < s
  small : s ≤ 2147483647
  dec : ∀ p chr, Fam p → chr.length = s → ∃ q, DiscreteParams.setFrom p chr = (q, .ok ()) ∧
    ∃ b, DiscreteParams.check q = .ok b ∧ (loops ∨ b = true)

/-- The mutation operator never fails: it has an invariant `I` that every mutation keeps and that a new context re-establishes from
`I0`. -/
structure MutTotal (m : MutatorI Mu) (maxGen : Int) (I0 I : Mu → Prop) : Prop where
  sub : ∀ mu, I mu → I0 mu
  apply : ∀ mu n, I0 mu → 0 ≤ n → n < maxGen → I (m.apply mu ⟨n, maxGen⟩)
  mutate : ∀ mu l chr, I mu → l.Valid → ∃ out mu' l', m.mutate mu l chr = .ok (out, mu', l') ∧ I mu' ∧ l'.Valid

/-- Selection always succeeds. -/
def Selects (P R : Type) [DiscreteParams P] [Add R] [Sub R] [Mul R] [Div R] [Zero R] [One R] [NatCast R] [LinearOrder R] : Prop :=
  ∀ (pop : List (Indiv P R)) (rng : Rng), rng.lib.Valid → pop ≠ [] → (∀ i ∈ pop, i.hasFitness = true ∧ 0 ≤ i.fitness) →
    ∃ t m, totalFitness 0 pop = .ok t ∧ select t pop rng = .ok (m, { rng with lib := (rand rng.lib).2 }) ∧ m < pop.length

theorem rand_valid {l : Random.Lib} (h : l.Valid) : (rand l).2.Valid := ⟨h.1, fun i => h.2 (i + 1)⟩

variable {Fam : P → Prop} {s : Nat} {loops : Prop}

theorem setParams_fine (hF : Family Fam s) (ht : Total loops Fam s) {i : Indiv P R} (hi : i.init = true)
    (hp : ∃ p, i.params = some p ∧ Fam p) (hl : i.chrom.length = s) :
    ∃ j, setParams i = .ok j ∧ Good Fam s j ∧ ∃ b, j.checkParams = .ok b ∧ (loops ∨ b = true) := by
  obtain ⟨p, hpp, hfp⟩ := hp
  obtain ⟨q, hq, b, hb⟩ := ht.dec p i.chrom hfp hl
  have e : setParams i = .ok { i with params := some q } := by
    unfold setParams
    rw [if_pos hi, hpp]
    simp only [hq]
  exact ⟨_, e, (setParams_good hF ⟨p, hpp, hfp⟩ hl e).1, b, hb⟩

/-! ### Initialisation -/

theorem initWith_fine (hF : Family Fam s) {p : P} (hp : Fam p) (he : Encodes s p) :
    ∃ i : Indiv P R, initWith new p = .ok i ∧ Good Fam s i := by
  obtain ⟨out, ho⟩ := he
  have e : initWith (new : Indiv P R) p = .ok ⟨true, some p, out, false, 0⟩ := by
    unfold initWith
    rw [hF.clone p hp, Res.ok_bind, hF.size p hp, Res.ok_bind, ho, Res.ok_bind]
    rfl
  exact ⟨_, e, (init_good hF hp e).1⟩

theorem randomLoop_fine (hF : Family Fam s) (ht : Total loops Fam s) : ∀ (fuel : Nat) (i : Indiv P R) (rng : Rng) (n : Nat),
    (fuel = 0 → loops) → Good Fam s i → Fine loops (randomLoop fuel i rng n) (fun r => r.2.2.lib = rng.lib)
  | 0, i, rng, n, hl, _ => .inl ⟨hl rfl, rfl⟩
  | fuel + 1, i, rng, n, _, g => by
    obtain ⟨j, e, gj, b, hb, hlb⟩ := setParams_fine (R := R) hF ht (i := { i with chrom := (rng.takeBools i.chrom.length).1, hasFitness := false })
      g.1 g.2.1 (by simp [Rng.takeBools, g.2.2])
    unfold randomLoop
    simp only [e, hb, Res.ok_bind]
    cases b with
    | true => exact Fine.ok rfl
    | false =>
      have hl : loops := by simpa using hlb
      exact randomLoop_fine hF ht fuel j _ (n + 1) (fun _ => hl) gj

theorem initRandom_fine (hF : Family Fam s) (ht : Total loops Fam s) {p : P} (hp : Fam p) (he : Encodes s p) (fuel : Nat) (hfuel : fuel = 0 → loops) :
    ∀ (n : Nat) (rng : Rng), Fine loops (initRandom (R := R) fuel p n rng) (fun r => r.2.lib = rng.lib)
  | 0, rng => Fine.ok rfl
  | n + 1, rng => by
    obtain ⟨i, e, g⟩ := initWith_fine (R := R) hF hp he
    unfold initRandom
    rw [e, Res.ok_bind]
    have h1 : Fine loops (setRandom fuel i rng) (fun r => r.2.2.lib = rng.lib) := by
      unfold setRandom
      rw [if_pos g.1]
      exact randomLoop_fine hF ht fuel i rng 0 hfuel g
    refine h1.bind fun r _ hr => ?_
    refine (initRandom_fine hF ht hp he fuel hfuel n r.2.2).bind fun rs _ hrs => ?_
    exact Fine.ok (hrs.trans hr)

theorem initGiven_fine (hF : Family Fam s) : ∀ (ps : List P), (∀ q ∈ ps, Fam q ∧ Encodes s q) →
    ∃ is : List (Indiv P R), initGiven ps = .ok is
  | [], _ => ⟨[], rfl⟩
  | p :: ps, h => by
    obtain ⟨i, e, _⟩ := initWith_fine (R := R) hF (h p List.mem_cons_self).1 (h p List.mem_cons_self).2
    obtain ⟨is, e2⟩ := initGiven_fine hF ps (fun q hq => h q (List.mem_cons_of_mem _ hq))
    exact ⟨i :: is, by unfold initGiven; rw [e, Res.ok_bind, e2]; rfl⟩

theorem validate_go_ok {p : P} : ∀ (ps : List P), (∀ q ∈ ps, DiscreteParams.sameMeta q p = .ok true) → validateInitial.go p ps = .ok ()
  | [], _ => rfl
  | q :: qs, h => by
    unfold validateInitial.go
    rw [h q List.mem_cons_self, Res.ok_bind, if_pos rfl]
    exact validate_go_ok qs (fun x hx => h x (List.mem_cons_of_mem _ hx))

/-! ### The next population -/

theorem discrete_fine {l : Random.Lib} {s : Nat} (h0 : 0 < s) (h1 : s ≤ 2147483647) :
    ∃ d, Random.discrete l 0 ((s : Int) - 1) = .ok (d, (rand l).2) := by
  obtain ⟨v, l', e, _, _⟩ := Random.C36_discrete_range l 0 ((s : Int) - 1) ⟨by omega, by omega, by omega, by omega⟩
  refine ⟨v, ?_⟩
  rw [e]
  unfold Random.discrete at e
  rw [Res.bind_eq_ok] at e; obtain ⟨d, _, e⟩ := e
  rw [Res.bind_eq_ok] at e; obtain ⟨n, _, e⟩ := e
  split at e
  · simp at e
  · rw [Res.bind_eq_ok] at e; obtain ⟨r, _, e⟩ := e
    simp only [Res.pure_eq, Res.ok.injEq, Prod.mk.injEq] at e
    rw [e.2]

theorem crossover_fine (hF : Family Fam s) (ht : Total loops Fam s) {a b : Indiv P R} (ga : Good Fam s a) (gb : Good Fam s b) (rng : Rng)
    (hr : rng.lib.Valid) : ∃ r, crossover a b rng = .ok r ∧ r.2.2.2.lib.Valid ∧ (loops ∨ r.1 = true) := by
  have hs := ht.pos
  have hs' := ht.small
  obtain ⟨d, hd⟩ := discrete_fine (l := rng.lib) ht.pos ht.small
  have e : boolCrossover rng a.chrom b.chrom =
      .ok ((crossAt d.toNat a.chrom b.chrom).1, (crossAt d.toNat a.chrom b.chrom).2, { rng with lib := (rand rng.lib).2 }) := by
    unfold boolCrossover
    rw [if_neg (by rw [ga.2.2, gb.2.2]; simp), ga.2.2]
    unfold int32
    rw [if_pos (by omega), Res.ok_bind, hd]
    rfl
  obtain ⟨_, l2, l3, _⟩ := C17_pointwise _ _ _ _ _ _ e
  obtain ⟨a', ea, ga', ba, hba, hla⟩ := setParams_fine (R := R) hF ht
    (i := { a with chrom := (crossAt d.toNat a.chrom b.chrom).1, hasFitness := false }) ga.1 ga.2.1 (by have := C17_pointwise _ _ _ _ _ _ e; simp_all [Good])
  obtain ⟨b', eb, gb', bb, hbb, hlb⟩ := setParams_fine (R := R) hF ht
    (i := { b with chrom := (crossAt d.toNat a.chrom b.chrom).2, hasFitness := false }) gb.1 gb.2.1 (by have := C17_pointwise _ _ _ _ _ _ e; simp_all [Good])
  unfold crossover
  rw [if_pos ga.1, e, Res.ok_bind]
  simp only [ea, eb, hba, hbb, Res.ok_bind]
  cases ba with
  | true => exact ⟨_, rfl, rand_valid hr, hlb⟩
  | false => exact ⟨_, rfl, rand_valid hr, .inl (by simpa using hla)⟩

theorem at'_fine {α : Type} {l : List α} {k : Nat} (h : k < l.length) : ∃ x, at' l k = .ok x ∧ x ∈ l := by
  refine ⟨l[k], ?_, List.getElem_mem h⟩
  unfold at'
  rw [List.getElem?_eq_getElem h]

theorem crossPair_fine (hsel : Selects P R) (hF : Family Fam s) (ht : Total loops Fam s) {pop : List (Indiv P R)} (hne : pop ≠ [])
    (hg : ∀ i ∈ pop, Good Fam s i ∧ i.hasFitness = true ∧ 0 ≤ i.fitness) {total : R} (htot : totalFitness 0 pop = .ok total) :
    ∀ (fuel : Nat) (rng : Rng), (fuel = 0 → loops) → rng.lib.Valid → Fine loops (crossPair total pop fuel rng) (fun r => r.2.2.lib.Valid)
  | 0, _, hl, _ => .inl ⟨hl rfl, rfl⟩
  | fuel + 1, rng, _, hr => by
    have sel : ∀ rng : Rng, rng.lib.Valid → ∃ m, select total pop rng = .ok (m, { rng with lib := (rand rng.lib).2 }) ∧ m < pop.length := by
      intro rng hr
      obtain ⟨t, m, h1, h2, h3⟩ := hsel pop rng hr hne (fun i hi => (hg i hi).2)
      rw [htot] at h1
      cases h1
      exact ⟨m, h2, h3⟩
    obtain ⟨m1, e1, l1⟩ := sel rng hr
    obtain ⟨m2, e2, l2⟩ := sel { rng with lib := (rand rng.lib).2 } (rand_valid hr)
    obtain ⟨x, ex, hx⟩ := at'_fine l1
    obtain ⟨y, ey, hy⟩ := at'_fine l2
    obtain ⟨r, er, hrv, hrl⟩ := crossover_fine hF ht (hg x hx).1 (hg y hy).1
      { rng with lib := (rand (rand rng.lib).2).2 } (rand_valid (rand_valid hr))
    unfold crossPair
    simp only [e1, e2, ex, ey, copy_good hF (hg x hx).1, copy_good hF (hg y hy).1, Res.ok_bind]
    rw [er, Res.ok_bind]
    split
    · exact Fine.ok hrv
    · next hn =>
      have hl : loops := by
        rcases hrl with h | h
        · exact h
        · exact absurd h hn
      exact crossPair_fine hsel hF ht hne hg htot fuel _ (fun _ => hl) hrv

theorem nextPairs_fine (hsel : Selects P R) (hF : Family Fam s) (ht : Total loops Fam s) {pop sorted : List (Indiv P R)} (hne : pop ≠ [])
    (hg : ∀ i ∈ pop, Good Fam s i ∧ i.hasFitness = true ∧ 0 ≤ i.fitness) (hs : ∀ i ∈ sorted, Good Fam s i) {total : R}
    (htot : totalFitness 0 pop = .ok total) (elitism : Int) (fuel : Nat) (hfuel : fuel = 0 → loops) :
    ∀ (n i : Nat) (ready : Int) (rng : Rng), i + 2 * n ≤ sorted.length → rng.lib.Valid →
    Fine loops (nextPairs elitism fuel total pop sorted n i ready rng) (fun r => r.2.lib.Valid)
  | 0, _, _, rng, _, hr => Fine.ok hr
  | n + 1, i, ready, rng, hi, hr => by
    unfold nextPairs
    split
    · obtain ⟨x, ex, hx⟩ := at'_fine (show i < sorted.length by omega)
      obtain ⟨y, ey, hy⟩ := at'_fine (show i + 1 < sorted.length by omega)
      simp only [ex, ey, copy_good hF (hs x hx), copy_good hF (hs y hy), Res.ok_bind]
      refine (nextPairs_fine hsel hF ht hne hg hs htot elitism fuel hfuel n (i + 2) (ready + 1) rng (by omega) hr).bind fun r _ h => ?_
      exact Fine.ok h
    · refine (crossPair_fine hsel hF ht hne hg htot fuel rng hfuel hr).bind fun c _ hc => ?_
      refine (nextPairs_fine hsel hF ht hne hg hs htot elitism fuel hfuel n (i + 2) ready c.2.2 (by omega) hc).bind fun r _ h => ?_
      exact Fine.ok h

theorem nextPopulation_fine (hsel : Selects P R) (hF : Family Fam s) (ht : Total loops Fam s) (cfg : Config P R Mu)
    (hsort : ∀ l, (cfg.sort l).Perm l) {pop : List (Indiv P R)} (hlen : pop.length = cfg.popSize) (hpos : 0 < cfg.popSize)
    (hg : ∀ i ∈ pop, Good Fam s i ∧ i.hasFitness = true ∧ 0 ≤ i.fitness) (fuel : Nat) (hfuel : fuel = 0 → loops) (rng : Rng)
    (hr : rng.lib.Valid) : Fine loops (nextPopulation cfg fuel pop rng) (fun r => r.2.lib.Valid) := by
  have hne : pop ≠ [] := by rintro rfl; simp at hlen; omega
  obtain ⟨t, _, h1, _⟩ := hsel pop rng hr hne (fun i hi => (hg i hi).2)
  unfold nextPopulation
  rw [h1, Res.ok_bind]
  refine nextPairs_fine hsel hF ht hne hg (fun i hi => (hg i ((hsort pop).mem_iff.1 hi)).1) h1 _ fuel hfuel _ 0 0 rng ?_ hr
  rw [(hsort pop).length_eq]
  omega

/-! ### Mutation -/

theorem mutateLoop_fine (hF : Family Fam s) (ht : Total loops Fam s) {m : MutatorI Mu} (hm : KeepsLength m) {maxGen : Int} {I0 I : Mu → Prop}
    (hM : MutTotal m maxGen I0 I) : ∀ (fuel : Nat) (i : Indiv P R) (mu : Mu) (rng : Rng) (n : Nat), (fuel = 0 → loops) → Good Fam s i →
    I mu → rng.lib.Valid → Fine loops (mutateLoop m fuel i mu rng n) (fun r => I r.2.2.1 ∧ r.2.2.2.lib.Valid)
  | 0, _, _, _, _, hl, _, _, _ => .inl ⟨hl rfl, rfl⟩
  | fuel + 1, i, mu, rng, n, _, g, hI, hr => by
    obtain ⟨out, mu', l', e, hI', hl'⟩ := hM.mutate mu rng.lib i.chrom hI hr
    have hlen := hm _ _ _ _ _ _ e
    obtain ⟨j, ej, gj, b, hb, hlb⟩ := setParams_fine (R := R) hF ht (i := { i with chrom := out, hasFitness := false }) g.1 g.2.1
      (by simp [hlen, g.2.2])
    unfold mutateLoop
    simp only [e, ej, hb, Res.ok_bind]
    cases b with
    | true => exact Fine.ok ⟨hI', hl'⟩
    | false => exact mutateLoop_fine hF ht hm hM fuel j mu' _ (n + 1) (fun _ => by simpa using hlb) gj hI' hl'

theorem mutateAll_fine (hF : Family Fam s) (ht : Total loops Fam s) {m : MutatorI Mu} (hm : KeepsLength m) {maxGen : Int} {I0 I : Mu → Prop}
    (hM : MutTotal m maxGen I0 I) (fuel : Nat) (hfuel : fuel = 0 → loops) : ∀ (pop : List (Indiv P R)) (mu : Mu) (rng : Rng),
    (∀ i ∈ pop, Good Fam s i) → I mu → rng.lib.Valid → Fine loops (mutateAll m fuel pop mu rng) (fun r => I r.2.1 ∧ r.2.2.lib.Valid)
  | [], _, _, _, hI, hr => Fine.ok ⟨hI, hr⟩
  | i :: is, mu, rng, hg, hI, hr => by
    have h1 : Fine loops (mutate m fuel i mu rng) (fun r => I r.2.2.1 ∧ r.2.2.2.lib.Valid) := by
      unfold mutate
      rw [if_pos (hg i List.mem_cons_self).1]
      exact mutateLoop_fine hF ht hm hM fuel i mu rng 0 hfuel (hg i List.mem_cons_self) hI hr
    unfold mutateAll
    refine h1.bind fun r _ hr' => ?_
    refine (mutateAll_fine hF ht hm hM fuel hfuel is r.2.2.1 r.2.2.2 (fun x hx => hg x (List.mem_cons_of_mem _ hx)) hr'.1 hr'.2).bind
      fun rs _ hrs => ?_
    exact Fine.ok hrs

/-! ### Evaluation -/

/-- The counter's cache, if it has one, holds at most `n` entries, each used at most `n` times, with non-negative values, and has the given
limit. -/
def Counter.Within (entryBytes : Nat) (limitMb : Rat) (n : Nat) (c : Counter R) : Prop :=
  ∀ st, c.cache = some st → st.entryBytes = entryBytes ∧ st.limitMb = limitMb ∧ Cache.WF st ∧ st.map.length ≤ n ∧
    ∀ e ∈ st.map, e.2.usage ≤ n ∧ (e.2.hasValue = true → 0 ≤ e.2.value)

/-- The keys in the counter's cache. -/
def Counter.keys (c : Counter R) : List Nat := match c.cache with
  | none => []
  | some st => AMap.keys st.map

theorem mem_set {K V : Type} [DecidableEq K] : ∀ {m : List (K × V)} {k : K} {v : V} {e : K × V}, e ∈ AMap.set m k v → e ∈ m ∨ e = (k, v)
  | [], k, v, e, h => by simp [AMap.set] at h; exact .inr h
  | (k', v') :: m, k, v, e, h => by
    unfold AMap.set at h
    split at h
    · simp only [List.mem_cons] at h ⊢
      rcases h with h | h
      · exact .inr h
      · exact .inl (.inr h)
    · simp only [List.mem_cons] at h ⊢
      rcases h with h | h
      · exact .inl (.inl h)
      · rcases mem_set h with h | h
        · exact .inl (.inr h)
        · exact .inr h

theorem length_set_mem {K V : Type} [DecidableEq K] {m : List (K × V)} {k : K} {v : V} (h : k ∈ AMap.keys m) :
    (AMap.set m k v).length = m.length := by
  have := congrArg List.length (AMap.keys_set m k v)
  rw [if_pos h] at this
  simpa [AMap.keys] using this

theorem keys_set_mem {K V : Type} [DecidableEq K] {m : List (K × V)} {k : K} {v : V} (h : k ∈ AMap.keys m) :
    AMap.keys (AMap.set m k v) = AMap.keys m := by
  rw [AMap.keys_set, if_pos h]

theorem mem_touch {K V : Type} [DecidableEq K] {m : List (K × V)} {k : K} {v : V} {e : K × V} (h : e ∈ AMap.touch m k v) :
    e ∈ m ∨ e = (k, v) := by
  unfold AMap.touch at h
  split at h
  · exact .inl h
  · simpa using h

theorem length_touch_le {K V : Type} [DecidableEq K] (m : List (K × V)) (k : K) (v : V) : (AMap.touch m k v).length ≤ m.length + 1 := by
  unfold AMap.touch; split <;> simp

theorem mem_keys_touch {K V : Type} [DecidableEq K] (m : List (K × V)) (k : K) (v : V) : k ∈ AMap.keys (AMap.touch m k v) ∧
    ∀ x ∈ AMap.keys m, x ∈ AMap.keys (AMap.touch m k v) := by
  rw [AMap.keys_touch]
  split
  · next h => exact ⟨h, fun x hx => hx⟩
  · exact ⟨by simp, fun x hx => by simp [hx]⟩

theorem processOne_fine {eb : Nat} {lm : Rat} {n : Nat} {hash : List Bool → Nat} {c : Counter R} {i : Indiv P R} (hi : Good Fam s i)
    (hc : c.Within eb lm n) (hn : n < 2147483647) :
    ∃ c1 t, processOne hash c i = .ok (c1, t) ∧ c1.Within eb lm (n + 1) ∧ (∀ k ∈ c.keys, k ∈ c1.keys) ∧
      (c.cache.isSome = true → hash i.chrom ∈ c1.keys) := by
  obtain ⟨h1, ⟨p, hp, _⟩, _⟩ := hi
  unfold processOne
  cases hcc : c.cache with
  | none =>
    simp only [h1, if_true, hp]
    exact ⟨c, _, rfl, fun st hst => by rw [hcc] at hst; simp at hst, fun k hk => hk, by simp⟩
  | some st =>
    obtain ⟨w1, w2, w3, w4, w5⟩ := hc st hcc
    have e1 : Cache.isCached st (hash i.chrom) =
        ({ st with map := AMap.touch st.map (hash i.chrom) Cache.Stored.empty }, .bool (Cache.absV st (hash i.chrom)).isSome) :=
      Prod.ext (Cache.isCached_map st _) (Cache.isCached_out st _)
    obtain ⟨k1, k2⟩ := mem_keys_touch st.map (hash i.chrom) Cache.Stored.empty
    have ew : ∀ e ∈ AMap.touch st.map (hash i.chrom) (Cache.Stored.empty : Cache.Stored R),
        e.2.usage ≤ n ∧ (e.2.hasValue = true → 0 ≤ e.2.value) := by
      intro e he
      rcases mem_touch he with he | rfl
      · exact w5 e he
      · exact ⟨Nat.zero_le _, by simp [Cache.Stored.empty]⟩
    have hlen := length_touch_le st.map (hash i.chrom) (Cache.Stored.empty : Cache.Stored R)
    have wf1 : Cache.WF { st with map := AMap.touch st.map (hash i.chrom) (Cache.Stored.empty : Cache.Stored R) } := AMap.nodup_touch w3 _ _
    simp only [h1, if_true, e1]
    cases ha : Cache.absV st (hash i.chrom) with
    | none =>
      simp only [Option.isSome_none, hp]
      refine ⟨_, _, rfl, ?_, ?_, fun _ => k1⟩
      · rintro st' hst'
        simp only [Option.some.injEq] at hst'
        subst hst'
        exact ⟨w1, w2, wf1, hlen.trans (by omega), fun e he => ⟨(ew e he).1.trans (by omega), (ew e he).2⟩⟩
      · intro k hk
        simp only [Counter.keys, hcc] at hk
        exact k2 k hk
    | some v =>
      simp only [Option.isSome_some]
      have hg : ∃ x, AMap.get? st.map (hash i.chrom) = some x ∧ x.hasValue = true ∧ x.value = v := by
        unfold Cache.absV at ha
        split at ha
        · next x hx =>
          split at ha
          · next hv => exact ⟨x, hx, hv, by simpa using ha⟩
          · simp at ha
        · simp at ha
      obtain ⟨x, hx, hv, hxv⟩ := hg
      have hxm := w5 _ (AMap.mem_of_get? hx)
      have ht2 : AMap.touch st.map (hash i.chrom) (Cache.Stored.empty : Cache.Stored R) = st.map := by
        unfold AMap.touch; rw [hx]
      have hkm : hash i.chrom ∈ AMap.keys st.map := (AMap.mem_keys_iff _ _).2 ⟨x, hx⟩
      have e2 : Cache.get { st with map := AMap.touch st.map (hash i.chrom) (Cache.Stored.empty : Cache.Stored R) } (hash i.chrom) =
          ({ st with map := AMap.set st.map (hash i.chrom) { x with usage := x.usage + 1 } }, .value v) := by
        unfold Cache.get
        simp only [ht2, hx, hv, if_true]
        rw [if_pos (by have := hxm.1; simp only at this; omega), hxv]
      have e3 : setFitness i v = .ok { i with fitness := v, hasFitness := true } := by
        unfold setFitness
        rw [if_neg (not_lt.2 (by rw [← hxv]; exact hxm.2 hv))]
      simp only [e2, e3, Res.ok_bind, Res.pure_eq]
      refine ⟨_, _, rfl, ?_, ?_, fun _ => ?_⟩
      · rintro st' hst'
        simp only [Option.some.injEq] at hst'
        subst hst'
        refine ⟨w1, w2, AMap.nodup_set w3 _ _, by simp only; rw [length_set_mem hkm]; omega, fun e he => ?_⟩
        rcases mem_set he with he | rfl
        · exact ⟨(w5 e he).1.trans (by omega), (w5 e he).2⟩
        · exact ⟨by have := hxm.1; simp only at this ⊢; omega, hxm.2⟩
      · intro k hk
        simp only [Counter.keys, hcc] at hk
        show k ∈ AMap.keys (AMap.set _ _ _)
        rw [keys_set_mem hkm]
        exact hk
      · show hash i.chrom ∈ AMap.keys (AMap.set _ _ _)
        rw [keys_set_mem hkm]
        exact hkm

theorem process_fine {eb : Nat} {lm : Rat} {hash : List Bool → Nat} : ∀ (pop : List (Indiv P R)) (c : Counter R) (n : Nat),
    (∀ i ∈ pop, Good Fam s i) → c.Within eb lm n → n + pop.length ≤ 2147483647 →
    ∃ c1 ts, process hash c pop = .ok (c1, ts) ∧ c1.Within eb lm (n + pop.length) ∧ (∀ k ∈ c.keys, k ∈ c1.keys) ∧
      (c.cache.isSome = true → ∀ i ∈ pop, hash i.chrom ∈ c1.keys)
  | [], c, n, _, hc, _ => ⟨c, [], rfl, by simpa using hc, fun k hk => hk, by simp⟩
  | i :: is, c, n, hg, hc, hn => by
    simp only [List.length_cons] at hn
    obtain ⟨c1, t, e1, w1, k1, m1⟩ := processOne_fine (hash := hash) (hg i List.mem_cons_self) hc (by omega)
    obtain ⟨c2, ts, e2, w2, k2, m2⟩ := process_fine (hash := hash) is c1 (n + 1) (fun x hx => hg x (List.mem_cons_of_mem _ hx)) w1 (by omega)
    have hsome := (processOne_spec e1).2.2.2.1
    refine ⟨c2, t :: ts, by unfold process; rw [e1, Res.ok_bind, e2]; rfl, ?_, fun k hk => k2 k (k1 k hk), ?_⟩
    · have : n + (i :: is).length = n + 1 + is.length := by simp only [List.length_cons]; omega
      rw [this]; exact w2
    · intro hs x hx
      rcases List.mem_cons.1 hx with rfl | hx
      · exact k2 _ (m1 hs)
      · exact m2 (by rw [hsome]; exact hs) x hx

theorem assign_fine {f : P → R} (hf : ∀ p, 0 ≤ f p) : ∀ (ts : List (Todo P R)), ∃ out, assign ts ((toCount ts).map f) = .ok out
  | [] => ⟨[], rfl⟩
  | .done i :: ts => by
    obtain ⟨out, h⟩ := assign_fine hf ts
    exact ⟨i :: out, by simp [toCount, assign, h]⟩
  | .count i p :: ts => by
    obtain ⟨out, h⟩ := assign_fine hf ts
    exact ⟨{ i with fitness := f p, hasFitness := true } :: out, by simp [toCount, assign, h, setFitness, not_lt.2 (hf p)]⟩

theorem foldl_set_within {n : Nat} (rs : List (Nat × R)) : ∀ (m : List (Nat × Cache.Stored R)),
    (∀ r ∈ rs, r.1 ∈ AMap.keys m ∧ 0 ≤ r.2) → (∀ e ∈ m, e.2.usage ≤ n ∧ (e.2.hasValue = true → 0 ≤ e.2.value)) →
    (rs.foldl (fun m r => AMap.set m r.1 (Cache.Stored.of r.2)) m).length = m.length ∧
    ∀ e ∈ rs.foldl (fun m r => AMap.set m r.1 (Cache.Stored.of r.2)) m, e.2.usage ≤ n ∧ (e.2.hasValue = true → 0 ≤ e.2.value) := by
  induction rs with
  | nil => intro m _ h; exact ⟨rfl, h⟩
  | cons r rs ih =>
    intro m hr h
    obtain ⟨hk, hv⟩ := hr r List.mem_cons_self
    obtain ⟨a, b⟩ := ih (AMap.set m r.1 (Cache.Stored.of r.2)) (fun x hx => by
      rw [keys_set_mem hk]; exact hr x (List.mem_cons_of_mem _ hx)) (fun e he => by
      rcases mem_set he with he | rfl
      · exact h e he
      · exact ⟨Nat.zero_le _, fun _ => hv⟩)
    exact ⟨by rw [List.foldl_cons, a, length_set_mem hk], b⟩

theorem obtainFitness_fine {eb : Nat} {lm : Rat} {hash : List Bool → Nat} {f : P → R} (hf : ∀ p, 0 ≤ f p) {c : Counter R} {n : Nat}
    {pop : List (Indiv P R)} (hg : ∀ i ∈ pop, Good Fam s i) (hc : c.Within eb lm n) (hn : n + pop.length ≤ 2147483647)
    (hlim : Cache.exceeds eb lm (n + pop.length) = false) :
    ∃ r, obtainFitness hash f c pop = .ok r ∧ r.1.Within eb lm (n + pop.length) := by
  obtain ⟨c1, ts, e1, w1, k1, m1⟩ := process_fine (hash := hash) pop c n hg hc hn
  obtain ⟨out, e2⟩ := assign_fine hf ts
  obtain ⟨p1, _, _, p4, _⟩ := process_spec e1
  obtain ⟨a1, a2, _⟩ := assign_spec p1 e2
  unfold obtainFitness
  simp only [e1, Res.ok_bind, e2]
  cases hcc : c1.cache with
  | none => exact ⟨_, rfl, fun st hst => by simp at hst⟩
  | some st =>
    obtain ⟨w1, w2, w3, w4, w5⟩ := w1 st hcc
    have hex : st.exceeded = false := by
      unfold Cache.State.exceeded
      rw [w1, w2]
      by_contra hx
      have := Cache.exceeds_mono w4 (by simpa using hx)
      rw [this] at hlim
      simp at hlim
    have hrec : ∀ r ∈ records hash ts out, r.1 ∈ AMap.keys st.map ∧ 0 ≤ r.2 := by
      intro r hr
      obtain ⟨j, hj, p, _, hjk, hjf, hfp⟩ := a2 r hr
      obtain ⟨i, hi, he⟩ := forall₂_mem_right a1 hj
      have hsb := (Evaluated.same he).1
      have hk := m1 (by rw [← p4, hcc]; rfl) i hi
      simp only [Counter.keys, hcc] at hk
      refine ⟨?_, ?_⟩
      · rw [← hjk, hsb.2.2]; exact hk
      · rw [← hjf, hfp]; exact hf p
    obtain ⟨f1, f2⟩ := foldl_set_within (n := n + pop.length) (records hash ts out) st.map hrec w5
    have ea : Cache.addMany st (records hash ts out) =
        ({ st with map := (records hash ts out).foldl (fun m r => AMap.set m r.1 (Cache.Stored.of r.2)) st.map }, .done) := by
      unfold Cache.addMany Cache.clearUpToLimit
      simp only [hex, Bool.false_eq_true, if_false, if_true]
    simp only [ea]
    refine ⟨_, rfl, ?_⟩
    rintro st' hst'
    simp only [Option.some.injEq] at hst'
    subst hst'
    exact ⟨w1, w2, Cache.WF_foldl_set w3 _, by simp only; rw [f1]; exact w4, f2⟩

theorem bestOf_fine : ∀ (is : List (Indiv P R)) (b : Indiv P R), b.hasFitness = true → (∀ i ∈ is, i.hasFitness = true) →
    ∃ r, bestOf b is = .ok r
  | [], b, _, _ => ⟨b, rfl⟩
  | i :: is, b, hb, h => by
    have hi := h i List.mem_cons_self
    unfold bestOf
    simp only [getFitness, hb, hi, if_true, Res.ok_bind]
    exact bestOf_fine is _ (by split <;> assumption) (fun x hx => h x (List.mem_cons_of_mem _ hx))

theorem updateBest_fine {best : Indiv P R} {pop : List (Indiv P R)} (hne : pop ≠ []) (h : ∀ i ∈ pop, i.hasFitness = true) :
    ∃ r, updateBest best pop = .ok r := by
  cases pop with
  | nil => exact absurd rfl hne
  | cons i is =>
    obtain ⟨b, hb⟩ := bestOf_fine is i (h i List.mem_cons_self) (fun x hx => h x (List.mem_cons_of_mem _ hx))
    obtain ⟨h1, _⟩ := bestOf_spec is i b hb (h i List.mem_cons_self) (fun x hx => h x (List.mem_cons_of_mem _ hx))
    have hbf : b.hasFitness = true := by
      rcases h1 with rfl | h1
      · exact h _ List.mem_cons_self
      · exact h _ (List.mem_cons_of_mem _ h1)
    unfold updateBest
    simp only [hb, Res.ok_bind]
    by_cases hh : best.hasFitness = true
    · simp only [hh, Bool.not_true, Bool.false_eq_true, if_false, getFitness, if_true, hbf, Res.ok_bind, Res.pure_eq]
      exact ⟨_, rfl⟩
    · simp only [hh]
      exact ⟨_, rfl⟩

/-! ### The run -/

theorem iterate_fine (hsel : Selects P R) (hF : Family Fam s) (ht : Total loops Fam s) (cfg : Config P R Mu)
    (hsort : ∀ l, (cfg.sort l).Perm l) (hm : KeepsLength cfg.mutator) (heven : cfg.popSize % 2 = 0) (hpos : 0 < cfg.popSize)
    {I0 I : Mu → Prop} (hM : MutTotal cfg.mutator cfg.maxGen I0 I) {f : P → R} (hf : ∀ p, 0 ≤ f p) (fuel : Nat) (hfuel : fuel = 0 → loops)
    {eb : Nat} {lm : Rat} {N : Nat} (hN : N ≤ 2147483647) (hlim : Cache.exceeds eb lm N = false) :
    ∀ (k : Nat) (n : Int) (c : Counter R) (m : Nat) (pop : List (Indiv P R)) (best : Indiv P R) (mu : Mu) (rng : Rng),
    0 ≤ n → n + k ≤ cfg.maxGen → c.Within eb lm m → m + k * cfg.popSize ≤ N → pop.length = cfg.popSize → (∀ i ∈ pop, Good Fam s i) →
    Good Fam s best → I0 mu → rng.lib.Valid →
    Fine loops (iterate cfg fuel f k n c pop best mu rng) (fun r => Good Fam s r.2.2.1) := by
  intro k
  induction k with
  | zero => intro n c m pop best mu rng _ _ _ _ _ _ hb _ _; exact Fine.ok hb
  | succ k ih =>
    intro n c m pop best mu rng hn hk hc hm' hlen hg hb hI hr
    have hmul : (k + 1) * cfg.popSize = k * cfg.popSize + cfg.popSize := by ring
    obtain ⟨⟨c1, ev⟩, e1, w1⟩ := obtainFitness_fine (hash := cfg.hash) hf hg hc (by rw [hlen]; omega) (by
      rw [hlen]
      by_contra hx
      have := Cache.exceeds_mono (show m + cfg.popSize ≤ N by omega) (by simpa using hx)
      rw [this] at hlim
      simp at hlim)
    have hw : c.WF := fun st hst => (hc st hst).2.2.1
    obtain ⟨q1, _⟩ := obtainFitness_spec hw e1
    have hevl : ev.length = cfg.popSize := (q1.length_eq).symm.trans hlen
    have hev : ∀ i ∈ ev, Good Fam s i ∧ i.hasFitness = true ∧ 0 ≤ i.fitness := by
      intro i hi
      obtain ⟨p, hp, q⟩ := forall₂_mem_right q1 hi
      exact ⟨(Evaluated.same q).1.good (hg p hp), (Evaluated.same q).2⟩
    have hne : ev ≠ [] := by rintro rfl; simp at hevl; omega
    obtain ⟨b1, e2⟩ := updateBest_fine (best := best) hne (fun i hi => (hev i hi).2.1)
    obtain ⟨u1, u2, _⟩ := updateBest_spec e2 (fun i hi => (hev i hi).2.1)
    have gb1 : Good Fam s b1 := by
      rcases u2 with h | ⟨_, h⟩
      · exact (hev b1 h).1
      · rw [h]; exact hb
    unfold iterate
    simp only [e1, e2, Res.ok_bind, getFitness, u1, if_true]
    split
    · exact Fine.ok gb1
    · refine (nextPopulation_fine hsel hF ht cfg hsort hevl hpos hev fuel hfuel rng hr).bind fun nx hnx hv => ?_
      unfold nextPopulation at hnx
      rw [Res.bind_eq_ok] at hnx
      obtain ⟨t, _, hnx⟩ := hnx
      have gn := nextPairs_good (s := s) hF (fun i hi => (hev i hi).1) (fun i hi => (hev i ((hsort ev).mem_iff.1 hi)).1) _ _ _ _ nx.1 nx.2 hnx
      refine (mutateAll_fine hF ht hm hM fuel hfuel nx.1 _ nx.2 gn.2 (hM.apply mu n hI hn (by push_cast at hk; omega)) hv).bind
        fun mm hmm hIv => ?_
      obtain ⟨ml, mg⟩ := mutateAll_good hF hm fuel nx.1 _ nx.2 mm.1 mm.2.1 mm.2.2 gn.2 hmm
      have hc1 : Counter.Within eb lm (m + cfg.popSize) { c1 with hits := 0 } := by
        intro st hst
        have := w1 st hst
        rw [hlen] at this
        exact this
      refine (ih (n + 1) _ (m + cfg.popSize) mm.1 b1 mm.2.1 mm.2.2 (by omega) (by push_cast at hk; omega) hc1 (by omega)
        (by rw [ml, gn.1]; omega) (fun i hi => (mg i hi).1) gb1 (hM.sub _ hIv.1) hIv.2).bind fun r _ hr' => ?_
      exact Fine.ok hr'

end K52.GA
