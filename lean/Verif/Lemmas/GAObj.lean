import Verif.Model.GAObj
import Verif.Lemmas.GAStats
import Verif.Props.GAStats

/-! # Lemmas about genetic algorithm objects under repeated calls -/

set_option linter.unusedSectionVars false

namespace K52.GA
open K52.Indiv

namespace X
variable {S α β γ δ : Type}

theorem bind_def (x : X S α) (k : α → X S β) (s : S) : (x >>= k) s = match x s with
    | (s', .ok a) => k a s'
    | (s', .throw w) => (s', .throw w)
    | (s', .ub) => (s', .ub) := rfl
@[simp] theorem pure_def (a : α) (s : S) : (pure a : X S α) s = (s, .ok a) := rfl
@[simp] theorem lift_def (r : Res α) (s : S) : (lift r : X S α) s = (s, r) := rfl
@[simp] theorem get_def (s : S) : (get : X S S) s = (s, .ok s) := rfl
@[simp] theorem modify_def (g : S → S) (s : S) : (modify g : X S Unit) s = (g s, .ok ()) := rfl
@[simp] theorem lift_bind_ok (a : α) (k : α → X S β) : ((lift (.ok a) : X S α) >>= k) = k a := rfl
@[simp] theorem get_bind (k : S → X S β) (s : S) : ((get : X S S) >>= k) s = k s s := rfl
@[simp] theorem modify_bind (g : S → S) (k : Unit → X S β) (s : S) : ((modify g : X S Unit) >>= k) s = k () (g s) := rfl

theorem bind_ok {x : X S α} {k : α → X S β} {s s' : S} {b : β} (h : (x >>= k) s = (s', .ok b)) :
    ∃ a s1, x s = (s1, .ok a) ∧ k a s1 = (s', .ok b) := by
  rw [bind_def] at h
  split at h
  · next s1 a e => exact ⟨a, s1, e, h⟩
  · simp at h
  · simp at h

theorem lift_ok {r : Res α} {s s' : S} {a : α} (h : (lift r : X S α) s = (s', .ok a)) : s' = s ∧ r = .ok a := by
  simp only [lift_def, Prod.mk.injEq] at h
  exact ⟨h.1.symm, h.2⟩

theorem lift_bind_def {r : Res α} {k : α → X S β} {s s' : S} {b : β} (h : (lift r >>= k) s = (s', .ok b)) :
    ∃ a, r = .ok a ∧ k a s = (s', .ok b) := by
  obtain ⟨a, s1, h1, h2⟩ := bind_ok h
  obtain ⟨e, h3⟩ := lift_ok h1
  subst e
  exact ⟨a, h3, h2⟩

/-- The states a computation can leave behind, whether it returns or throws: closed under sequencing. -/
def Keeps (x : X S α) (I : S → S → Prop) : Prop := ∀ s, I s (x s).1

theorem Keeps.bind {x : X S α} {k : α → X S β} {I : S → S → Prop} (ht : ∀ a b c, I a b → I b c → I a c) (h1 : Keeps x I) (h2 : ∀ a, Keeps (k a) I) :
    Keeps (x >>= k) I := by
  intro s
  rw [bind_def]
  have h := h1 s
  split
  · next s1 a e => rw [e] at h; exact ht _ _ _ h (h2 a s1)
  · next s1 w e => rw [e] at h; exact h
  · next s1 e => rw [e] at h; exact h

theorem Keeps.lift {I : S → S → Prop} (hr : ∀ s, I s s) (r : Res α) : Keeps (lift r : X S α) I := fun s => hr s

/-- `x` from `s` does what `r` says, up to `G`. -/
def Sim (xs : S × Res α) (r : Res β) (G : S → α → β → Prop) : Prop :=
  match r with
  | .ok b => ∃ s a, xs = (s, .ok a) ∧ G s a b
  | .throw w => xs.2 = .throw w
  | .ub => xs.2 = .ub

theorem Sim.bind {x : X S α} {k : α → X S γ} {s : S} {r : Res β} {h : β → Res δ} {G : S → α → β → Prop} {G' : S → γ → δ → Prop}
    (h1 : Sim (x s) r G) (h2 : ∀ s' a b, G s' a b → Sim (k a s') (h b) G') : Sim ((x >>= k) s) (r >>= h) G' := by
  rw [bind_def]
  cases r with
  | ok b =>
    obtain ⟨s', a, e, g⟩ := h1
    rw [e]
    exact h2 s' a b g
  | throw w =>
    simp only [Sim] at h1 ⊢
    rcases hx : x s with ⟨s', r'⟩
    rw [hx] at h1
    subst h1
    rfl
  | ub =>
    simp only [Sim] at h1 ⊢
    rcases hx : x s with ⟨s', r'⟩
    rw [hx] at h1
    subst h1
    rfl

theorem Sim.lift {s : S} {r : Res α} {G : S → α → α → Prop} (h : ∀ a, G s a a) : Sim ((X.lift r : X S α) s) r G := by
  cases r with
  | ok a => exact ⟨s, a, rfl, h a⟩
  | throw w => rfl
  | ub => rfl

theorem Sim.liftBind {k : α → X S γ} {s : S} {r : Res α} {h : α → Res δ} {G' : S → γ → δ → Prop}
    (h2 : ∀ a, Sim (k a s) (h a) G') : Sim ((X.lift r >>= k) s) (r >>= h) G' :=
  Sim.bind (G := fun s' a b => s' = s ∧ a = b) (Sim.lift fun _ => ⟨rfl, rfl⟩) (by rintro _ a _ ⟨rfl, rfl⟩; exact h2 a)

theorem Sim.ok {s : S} {a : α} {b : β} {G : S → α → β → Prop} (h : G s a b) : Sim (s, .ok a) (.ok b) G := ⟨s, a, rfl, h⟩

theorem Sim.mono {xs : S × Res α} {r : Res β} {G G' : S → α → β → Prop} (h : Sim xs r G) (hg : ∀ s a b, G s a b → G' s a b) : Sim xs r G' := by
  cases r with
  | ok b => obtain ⟨s, a, e, g⟩ := h; exact ⟨s, a, e, hg _ _ _ g⟩
  | throw w => exact h
  | ub => exact h

end X

variable {P R Mu σ : Type} [DiscreteParams P] [Add R] [Sub R] [Mul R] [Div R] [Zero R] [One R] [NatCast R] [LinearOrder R]

local instance instInhLX : Inhabited R := ⟨0⟩

/-! ### Steps on the population only touch the number of invalid chromosomes -/

/-- Only the number of invalid chromosomes differs. -/
def OnlyInvalid (m m' : Mem P R) : Prop := ∃ n, m' = { m with invalid := n }

theorem OnlyInvalid.refl (m : Mem P R) : OnlyInvalid m m := ⟨m.invalid, rfl⟩
theorem OnlyInvalid.trans (a b c : Mem P R) : OnlyInvalid a b → OnlyInvalid b c → OnlyInvalid a c := by
  rintro ⟨n, rfl⟩ ⟨k, rfl⟩; exact ⟨k, rfl⟩

theorem keeps_lift {α : Type} (r : Res α) : X.Keeps (X.lift r : X (Mem P R) α) OnlyInvalid := X.Keeps.lift OnlyInvalid.refl r
theorem keeps_pure {α : Type} (r : α) : X.Keeps (pure r : X (Mem P R) α) OnlyInvalid := fun m => OnlyInvalid.refl m
theorem keeps_add (n : Nat) : X.Keeps (addInvalid n : X (Mem P R) Unit) OnlyInvalid := fun m => ⟨m.invalid + n, rfl⟩

theorem Keeps.then {α β : Type} {x : X (Mem P R) α} {k : α → X (Mem P R) β} (h1 : X.Keeps x OnlyInvalid) (h2 : ∀ a, X.Keeps (k a) OnlyInvalid) :
    X.Keeps (x >>= k) OnlyInvalid := X.Keeps.bind OnlyInvalid.trans h1 h2

theorem crossPairX_keeps (total : R) (pop : List (Indiv P R)) : ∀ (fuel : Nat) (rng : Rng) (times : List Nat),
    X.Keeps (crossPairX total pop fuel rng times) OnlyInvalid
  | 0, _, _ => keeps_lift _
  | fuel + 1, rng, times => by
    unfold crossPairX
    refine Keeps.then (keeps_lift _) fun k1 => Keeps.then (keeps_lift _) fun k2 => Keeps.then (keeps_lift _) fun p1 =>
      Keeps.then (keeps_lift _) fun a => Keeps.then (keeps_lift _) fun p2 => Keeps.then (keeps_lift _) fun b => Keeps.then (keeps_lift _) fun c => ?_
    split
    · exact keeps_pure _
    · exact Keeps.then (keeps_add _) fun _ => crossPairX_keeps total pop fuel _ _

theorem nextPairsX_keeps (elitism : Int) (fuel : Nat) (total : R) (pop sorted : List (Indiv P R)) :
    ∀ (n i : Nat) (ready : Int) (rng : Rng) (times : List Nat),
    X.Keeps (nextPairsX elitism fuel total pop sorted n i ready rng times) OnlyInvalid
  | 0, _, _, _, _ => keeps_pure _
  | n + 1, i, ready, rng, times => by
    unfold nextPairsX
    split
    · refine Keeps.then (keeps_lift _) fun _ => Keeps.then (keeps_lift _) fun _ => Keeps.then (keeps_lift _) fun _ => Keeps.then (keeps_lift _) fun _ =>
        Keeps.then (nextPairsX_keeps _ _ _ _ _ _ _ _ _ _) fun _ => keeps_pure _
    · exact Keeps.then (crossPairX_keeps _ _ _ _ _) fun _ => Keeps.then (nextPairsX_keeps _ _ _ _ _ _ _ _ _ _) fun _ => keeps_pure _

theorem nextPopulationX_keeps (cfg : Config P R Mu) (fuel : Nat) (pop : List (Indiv P R)) (rng : Rng) :
    X.Keeps (nextPopulationX cfg fuel pop rng) OnlyInvalid := by
  unfold nextPopulationX
  exact Keeps.then (keeps_lift _) fun _ => Keeps.then (nextPairsX_keeps _ _ _ _ _ _ _ _ _ _) fun _ => Keeps.then (keeps_lift _) fun _ => keeps_pure _

theorem mutateAllX_keeps (m : MutatorI Mu) (fuel : Nat) : ∀ (pop : List (Indiv P R)) (mu : Mu) (rng : Rng),
    X.Keeps (mutateAllX m fuel pop mu rng) OnlyInvalid
  | [], _, _ => keeps_pure _
  | i :: is, mu, rng => by
    unfold mutateAllX
    exact Keeps.then (keeps_lift _) fun _ => Keeps.then (keeps_add _) fun _ => Keeps.then (mutateAllX_keeps m fuel is _ _) fun _ => keeps_pure _

theorem initRandomX_keeps (fuel : Nat) (p : P) : ∀ (n : Nat) (rng : Rng), X.Keeps (initRandomX (R := R) fuel p n rng) OnlyInvalid
  | 0, _ => keeps_pure _
  | n + 1, rng => by
    unfold initRandomX
    exact Keeps.then (keeps_lift _) fun _ => Keeps.then (keeps_lift _) fun _ => Keeps.then (keeps_add _) fun _ =>
      Keeps.then (initRandomX_keeps fuel p n _) fun _ => keeps_pure _

theorem initialPopulationX_keeps (cfg : Config P R Mu) (fuel : Nat) (p : P) (rng : Rng) : X.Keeps (initialPopulationX cfg fuel p rng) OnlyInvalid := by
  unfold initialPopulationX
  refine Keeps.then (fun m => OnlyInvalid.refl m) fun m => Keeps.then ?_ fun _ => Keeps.then (keeps_lift _) fun _ => keeps_pure _
  split
  · exact Keeps.then (keeps_lift _) fun _ => Keeps.then (keeps_lift _) fun _ => keeps_pure _
  · exact initRandomX_keeps _ _ _ _

theorem observeX_keeps (popSize : Nat) (a : Call P R Mu σ) (st : σ) (number : Int) (pop : List (Indiv P R)) (best : Indiv P R) (stats : List (IndStat R)) :
    X.Keeps (observeX popSize a st number pop best stats) OnlyInvalid := by
  unfold observeX
  split
  · exact keeps_pure _
  · refine Keeps.then ?_ fun _ => keeps_pure _
    unfold processStatisticsX
    refine Keeps.then (fun m => OnlyInvalid.refl m) fun m => Keeps.then (keeps_lift _) fun _ => ?_
    split
    · split
      · exact keeps_lift _
      · exact Keeps.then (keeps_lift _) fun _ => Keeps.then (keeps_lift _) fun _ => Keeps.then (keeps_lift _) fun _ => Keeps.then (keeps_lift _) fun _ =>
          keeps_pure _
    · exact keeps_lift _

/-! ### What they compute is what the functions of `Model/GAStats.lean` compute -/

/-- State and result of a step on the population that counted up to `b.2`. -/
def Tracks {α β : Type} (m : Mem P R) (inv : β → Nat) (out : β → α) (s : Mem P R) (a : α) (b : β) : Prop :=
  s = { m with invalid := inv b } ∧ a = out b

theorem sim_add {α β : Type} {n : Nat} {k : Unit → X (Mem P R) α} {m : Mem P R} {r : Res β} {G : Mem P R → α → β → Prop}
    (h : X.Sim (k () { m with invalid := m.invalid + n }) r G) : X.Sim ((addInvalid n >>= k) m) r G := h

theorem crossPairX_sim (total : R) (pop : List (Indiv P R)) : ∀ (fuel : Nat) (rng : Rng) (times : List Nat) (m : Mem P R),
    X.Sim (crossPairX total pop fuel rng times m) (crossPairS total pop fuel rng times m.invalid)
      (Tracks m (fun b => b.2.2) (fun b => (b.1, b.2.1)))
  | 0, _, _, _ => rfl
  | fuel + 1, rng, times, m => by
    unfold crossPairX crossPairS
    refine X.Sim.liftBind fun k1 => X.Sim.liftBind fun k2 => X.Sim.liftBind fun p1 => X.Sim.liftBind fun a => X.Sim.liftBind fun p2 =>
      X.Sim.liftBind fun b => X.Sim.liftBind fun c => ?_
    by_cases hc : c.1 = true
    · simp only [hc, if_true]
      exact .ok ⟨rfl, rfl⟩
    · simp only [hc, Bool.false_eq_true, if_false]
      exact (crossPairX_sim total pop fuel _ _ { m with invalid := m.invalid + 1 })

theorem nextPairsX_sim (elitism : Int) (fuel : Nat) (total : R) (pop sorted : List (Indiv P R)) :
    ∀ (n i : Nat) (ready : Int) (rng : Rng) (times : List Nat) (m : Mem P R),
    X.Sim (nextPairsX elitism fuel total pop sorted n i ready rng times m) (nextPairsS elitism fuel total pop sorted n i ready rng times m.invalid)
      (Tracks m (fun b => b.2.2) (fun b => (b.1, b.2.1)))
  | 0, _, _, _, _, _ => .ok ⟨rfl, rfl⟩
  | n + 1, i, ready, rng, times, m => by
    unfold nextPairsX nextPairsS
    by_cases hr : ready < elitism
    · rw [if_pos hr, if_pos hr]
      refine X.Sim.liftBind fun _ => X.Sim.liftBind fun _ => X.Sim.liftBind fun _ => X.Sim.liftBind fun _ => ?_
      refine X.Sim.bind (nextPairsX_sim elitism fuel total pop sorted n _ _ _ _ m) ?_
      rintro _ _ b ⟨rfl, rfl⟩
      exact .ok ⟨rfl, rfl⟩
    · rw [if_neg hr, if_neg hr]
      refine X.Sim.bind (crossPairX_sim total pop fuel rng times m) ?_
      rintro _ _ b ⟨rfl, rfl⟩
      refine X.Sim.bind (nextPairsX_sim elitism fuel total pop sorted n _ _ _ _ { m with invalid := b.2.2 }) ?_
      rintro _ _ b' ⟨rfl, rfl⟩
      exact .ok ⟨rfl, rfl⟩

theorem nextPopulationX_sim (cfg : Config P R Mu) (fuel : Nat) (pop : List (Indiv P R)) (rng : Rng) (m : Mem P R) :
    X.Sim (nextPopulationX cfg fuel pop rng m) (nextPopulationS cfg fuel pop rng m.invalid) (Tracks m (fun b => b.2.2) (fun b => (b.1, b.2.1))) := by
  unfold nextPopulationX nextPopulationS
  refine X.Sim.liftBind fun total => ?_
  refine X.Sim.bind (nextPairsX_sim _ _ _ _ _ _ _ _ _ _ m) ?_
  rintro _ _ b ⟨rfl, rfl⟩
  refine X.Sim.liftBind fun _ => ?_
  exact .ok ⟨rfl, rfl⟩

theorem mutateAllX_sim (mt : MutatorI Mu) (fuel : Nat) : ∀ (pop : List (Indiv P R)) (mu : Mu) (rng : Rng) (m : Mem P R),
    X.Sim (mutateAllX mt fuel pop mu rng m) (mutateAllS mt fuel pop mu rng m.invalid) (Tracks m (fun b => b.2) (fun b => b.1))
  | [], _, _, _ => .ok ⟨rfl, rfl⟩
  | i :: is, mu, rng, m => by
    unfold mutateAllX mutateAllS
    refine X.Sim.liftBind fun r => sim_add ?_
    refine X.Sim.bind (mutateAllX_sim mt fuel is _ _ { m with invalid := m.invalid + r.2.1 }) ?_
    rintro _ _ b ⟨rfl, rfl⟩
    exact .ok ⟨rfl, rfl⟩

theorem initRandomX_sim (fuel : Nat) (p : P) : ∀ (n : Nat) (rng : Rng) (m : Mem P R),
    X.Sim (initRandomX fuel p n rng m) (initRandomS fuel p n rng m.invalid) (Tracks m (fun b => b.2) (fun b => b.1))
  | 0, _, _ => .ok ⟨rfl, rfl⟩
  | n + 1, rng, m => by
    unfold initRandomX initRandomS
    refine X.Sim.liftBind fun i => X.Sim.liftBind fun r => sim_add ?_
    refine X.Sim.bind (initRandomX_sim fuel p n _ { m with invalid := m.invalid + r.2.1 }) ?_
    rintro _ _ b ⟨rfl, rfl⟩
    exact .ok ⟨rfl, rfl⟩

/-! ### The counter -/

/-- The cache cannot take values any more: everything in it has been read and it is too big. -/
def Counter.Full (c : Counter R) : Prop := ∃ k, c.cache = some k ∧ Cache.Stuck k

/-- What looking up and reading does to the object, however it ends. -/
structure Looked (m m' : Mem P R) : Prop where
  log : m'.log = m.log
  initial : m'.initial = m.initial
  given : m'.given = m.given
  invalid : m'.invalid = m.invalid
  counts : m'.counter.counts = m.counter.counts
  known : ∀ k, m'.counter.known k = m.counter.known k
  wf : m.counter.WF → m'.counter.WF
  full : m.counter.Full → m'.counter.Full
  some : m'.counter.cache.isSome = m.counter.cache.isSome

theorem Looked.refl (m : Mem P R) : Looked m m := ⟨rfl, rfl, rfl, rfl, rfl, fun _ => rfl, id, id, rfl⟩
theorem Looked.trans (a b c : Mem P R) (h1 : Looked a b) (h2 : Looked b c) : Looked a c :=
  ⟨h2.log.trans h1.log, h2.initial.trans h1.initial, h2.given.trans h1.given, h2.invalid.trans h1.invalid, h2.counts.trans h1.counts,
    fun k => (h2.known k).trans (h1.known k), fun h => h2.wf (h1.wf h), fun h => h2.full (h1.full h), h2.some.trans h1.some⟩

theorem looked_cache {m : Mem P R} {k k' : Cache.State Nat R} (hc : m.counter.cache = some k) (hits : Nat)
    (hk : ∀ key, Cache.absV k' key = Cache.absV k key) (hw : Cache.WF k → Cache.WF k') (hs : Cache.Stuck k → Cache.Stuck k') :
    Looked m { m with counter := { m.counter with cache := some k', hits := hits } } where
  log := rfl
  initial := rfl
  given := rfl
  invalid := rfl
  counts := rfl
  known key := by simp only [Counter.known, hc, hk]
  wf h st hst := by simp only [Option.some.injEq] at hst; subst hst; exact hw (h k hc)
  full := by
    rintro ⟨k0, h0, h1⟩
    rw [hc] at h0
    simp only [Option.some.injEq] at h0
    subst h0
    exact ⟨k', rfl, hs h1⟩
  some := by rw [hc]; rfl

theorem processOneX_looked (hash : List Bool → Nat) (i : Indiv P R) : X.Keeps (processOneX hash i) Looked := by
  intro m
  unfold processOneX
  cases hc : m.counter.cache with
  | none => exact Looked.refl m
  | some k =>
    simp only
    have one : ∀ k1 : Cache.State Nat R, k1 = (Cache.isCached k (hash i.chrom)).1 → ∀ hits : Nat,
        Looked m { m with counter := { m.counter with cache := some k1, hits := hits } } := by
      rintro k1 rfl hits
      exact looked_cache hc hits (fun key => Cache.absV_isCached _ _ _) (fun w => Cache.WF_step w (.isCached _)) (fun s => s.step (.isCached _))
    have two : ∀ k1 : Cache.State Nat R, k1 = (Cache.isCached k (hash i.chrom)).1 → ∀ k2, k2 = (Cache.get k1 (hash i.chrom)).1 → ∀ hits : Nat,
        Looked m { m with counter := { m.counter with cache := some k2, hits := hits } } := by
      rintro k1 rfl k2 rfl hits
      exact looked_cache hc hits (fun key => by rw [Cache.absV_get, Cache.absV_isCached])
        (fun w => Cache.WF_step (Cache.WF_step w (.isCached _)) (.get _)) (fun s => (s.step (.isCached _)).step (.get _))
    split
    · split
      · next k1 e1 =>
        have h1 : k1 = (Cache.isCached k (hash i.chrom)).1 := by rw [e1]
        split
        · next k2 v e2 =>
          have h2 : k2 = (Cache.get k1 (hash i.chrom)).1 := by rw [e2]
          rw [setCache, X.modify_bind, X.bind_def, X.lift_def]
          cases setFitness i v with
          | ok j => exact two k1 h1 k2 h2 _
          | throw w => exact two k1 h1 k2 h2 _
          | ub => exact two k1 h1 k2 h2 _
        · next k2 e2 =>
          have h2 : k2 = (Cache.get k1 (hash i.chrom)).1 := by rw [e2]
          exact two k1 h1 k2 h2 _
        · next k2 _ _ _ e2 =>
          have h2 : k2 = (Cache.get k1 (hash i.chrom)).1 := by rw [e2]
          exact two k1 h1 k2 h2 _
      · next k1 e1 =>
        have h1 : k1 = (Cache.isCached k (hash i.chrom)).1 := by rw [e1]
        exact one k1 h1 _
      · next k1 _ _ _ e1 =>
        have h1 : k1 = (Cache.isCached k (hash i.chrom)).1 := by rw [e1]
        exact one k1 h1 _
    · exact Looked.refl m

theorem processX_looked (hash : List Bool → Nat) : ∀ pop : List (Indiv P R), X.Keeps (processX hash pop) Looked
  | [] => Looked.refl
  | i :: is => by
    unfold processX
    exact X.Keeps.bind Looked.trans (processOneX_looked hash i) fun _ => X.Keeps.bind Looked.trans (processX_looked hash is) fun _ => Looked.refl

theorem processOneX_sim (hash : List Bool → Nat) (i : Indiv P R) (m : Mem P R) :
    X.Sim (processOneX hash i m) (processOne hash m.counter i) (fun s t b => s = { m with counter := b.1 } ∧ t = b.2) := by
  have todo : ∀ (m : Mem P R) (c : Counter R), X.Sim ((X.lift (todoX i) : X (Mem P R) (Todo P R)) { m with counter := c })
      (if i.init then match i.params with
        | some p => Res.ok (c, .count i p)
        | none => .ub
      else .throw "logic_error") (fun s t b => s = { m with counter := b.1 } ∧ t = b.2) := by
    intro m c
    unfold todoX
    by_cases hi : i.init = true
    · simp only [hi, if_true]
      cases i.params with
      | none => rfl
      | some p => exact .ok ⟨rfl, rfl⟩
    · simp only [hi, Bool.false_eq_true, if_false]
      rfl
  unfold processOneX processOne
  cases hc : m.counter.cache with
  | none => exact todo m m.counter
  | some k =>
    simp only
    by_cases hi : i.init = true
    · simp only [hi, if_true]
      rcases e1 : Cache.isCached k (hash i.chrom) with ⟨k1, o⟩
      cases o with
      | bool b =>
        cases b with
        | true =>
          simp only
          rcases e2 : Cache.get k1 (hash i.chrom) with ⟨k2, o2⟩
          cases o2 with
          | value v =>
            simp only
            rw [setCache, X.modify_bind]
            refine X.Sim.liftBind fun j => ?_
            exact .ok ⟨rfl, rfl⟩
          | threw => rfl
          | bool _ => rfl
          | done => rfl
          | ub => rfl
        | false =>
          have h := todo m { m.counter with cache := some k1 }
          simp only [hi, if_true] at h
          exact h
      | value v => rfl
      | threw => rfl
      | done => rfl
      | ub => rfl
    · simp only [hi, Bool.false_eq_true, if_false]
      rfl

theorem processX_sim (hash : List Bool → Nat) : ∀ (pop : List (Indiv P R)) (m : Mem P R),
    X.Sim (processX hash pop m) (process hash m.counter pop) (fun s t b => s = { m with counter := b.1 } ∧ t = b.2)
  | [], m => .ok ⟨rfl, rfl⟩
  | i :: is, m => by
    unfold processX process
    refine X.Sim.bind (processOneX_sim hash i m) ?_
    rintro _ _ b ⟨rfl, rfl⟩
    refine X.Sim.bind (processX_sim hash is { m with counter := b.1 }) ?_
    rintro _ _ b' ⟨rfl, rfl⟩
    exact .ok ⟨rfl, rfl⟩

theorem X.Sim.conv {S α β : Type} {xs : S × Res α} {r : Res β} {G : S → α → β → Prop} (h : Sim xs r G) {s : S} {a : α} (e : xs = (s, .ok a)) :
    ∃ b, r = .ok b ∧ G s a b := by
  cases r with
  | ok b =>
    obtain ⟨s', a', e', g⟩ := h
    rw [e] at e'
    cases e'
    exact ⟨b, rfl, g⟩
  | throw w => rw [e] at h; simp [Sim] at h
  | ub => rw [e] at h; simp [Sim] at h

/-- The values of a function that may throw (0 where it does). -/
def totalised (f : P → Res R) (p : P) : R :=
  match f p with
  | .ok v => v
  | _ => 0

/-- The individuals that have to be evaluated. -/
def counted : List (Todo P R) → List (Indiv P R × P)
  | [] => []
  | .done _ :: ts => counted ts
  | .count i p :: ts => (i, p) :: counted ts

/-- What evaluating does to the object, however it ends. -/
theorem evalX_log (f : P → Res R) : ∀ (ts : List (Todo P R)) (m : Mem P R), ∃ new, (evalX f ts m).1 = { m with log := m.log ++ new } ∧
    ∀ e ∈ new, f e.2.1 = .ok e.2.2
  | [], m => ⟨[], by simp [evalX], by simp⟩
  | .done _ :: ts, m => evalX_log f ts m
  | .count i p :: ts, m => by
    unfold evalX
    rw [X.bind_def, X.lift_def]
    cases hf : f p with
    | throw w => exact ⟨[], by simp, by simp⟩
    | ub => exact ⟨[], by simp, by simp⟩
    | ok v =>
      simp only
      rw [X.modify_bind, X.bind_def]
      obtain ⟨new, h1, h2⟩ := evalX_log f ts { m with log := m.log ++ [(i.chrom, p, v)] }
      refine ⟨(i.chrom, p, v) :: new, ?_, ?_⟩
      · rcases he : evalX f ts { m with log := m.log ++ [(i.chrom, p, v)] } with ⟨s, r⟩
        rw [he] at h1
        simp only at h1
        subst h1
        cases r <;> simp [List.append_assoc]
      · intro e he
        rcases List.mem_cons.1 he with rfl | he
        · exact hf
        · exact h2 e he

/-- Evaluating to the end. -/
theorem evalX_ok (f : P → Res R) : ∀ (ts : List (Todo P R)) (m m' : Mem P R) (vals : List R), evalX f ts m = (m', .ok vals) →
    m' = { m with log := m.log ++ (counted ts).map fun x => (x.1.chrom, x.2, totalised f x.2) } ∧ vals = (toCount ts).map (totalised f) ∧
    ∀ x ∈ counted ts, f x.2 = .ok (totalised f x.2)
  | [], m, m', vals, h => by
    simp only [evalX, X.pure_def, Prod.mk.injEq, Res.ok.injEq] at h
    obtain ⟨rfl, rfl⟩ := h
    simp [counted, toCount]
  | .done _ :: ts, m, m', vals, h => by simpa [counted, toCount] using evalX_ok f ts m m' vals h
  | .count i p :: ts, m, m', vals, h => by
    unfold evalX at h
    obtain ⟨v, hv, h⟩ := X.lift_bind_def h
    rw [X.modify_bind] at h
    obtain ⟨vs, m1, h1, h⟩ := X.bind_ok h
    simp only [X.pure_def, Prod.mk.injEq, Res.ok.injEq] at h
    obtain ⟨rfl, rfl⟩ := h
    obtain ⟨a1, a2, a3⟩ := evalX_ok f ts _ _ _ h1
    have hv' : totalised f p = v := by simp [totalised, hv]
    subst hv'
    refine ⟨?_, ?_, ?_⟩
    · rw [a1]; simp [counted]
    · rw [a2]; simp [toCount]
    · intro x hx
      rcases List.mem_cons.1 hx with rfl | hx
      · exact hv
      · exact a3 x hx

theorem counted_toCount : ∀ ts : List (Todo P R), (counted ts).map (·.2) = toCount ts
  | [] => rfl
  | .done _ :: ts => counted_toCount ts
  | .count i p :: ts => by simp [counted, toCount, counted_toCount ts]

theorem records_counted (hash : List Bool → Nat) (g : P → R) : ∀ (ts : List (Todo P R)) (out : List (Indiv P R)),
    assign ts ((toCount ts).map g) = .ok out → ∀ r ∈ records hash ts out, ∃ x ∈ counted ts, hash x.1.chrom = r.1 ∧ r.2 = g x.2
  | [], out, h, r, hr => by simp [records] at hr
  | .done i :: ts, out, h, r, hr => by
    simp only [toCount, assign] at h
    obtain ⟨rest, h1, h⟩ := Res.bind_eq_ok.1 h
    simp only [Res.pure_eq, Res.ok.injEq] at h
    subst h
    exact records_counted hash g ts rest h1 r hr
  | .count i p :: ts, out, h, r, hr => by
    simp only [toCount, List.map_cons, assign] at h
    obtain ⟨j, hj, h⟩ := Res.bind_eq_ok.1 h
    obtain ⟨rest, h1, h⟩ := Res.bind_eq_ok.1 h
    simp only [Res.pure_eq, Res.ok.injEq] at h
    subst h
    obtain ⟨_, rfl⟩ := setFitness_ok hj
    simp only [records, List.mem_cons] at hr
    rcases hr with rfl | hr
    · exact ⟨(i, p), by simp [counted], rfl, rfl⟩
    · obtain ⟨x, hx, q⟩ := records_counted hash g ts rest h1 r hr
      exact ⟨x, by simp [counted, hx], q⟩

/-- Every remembered value is the value of a completed call of the objective function for an individual whose chromosome has that hash. -/
def Backed (hash : List Bool → Nat) (m : Mem P R) : Prop :=
  m.counter.WF ∧ ∀ k v, m.counter.known k = some v → ∃ e ∈ m.log, hash e.1 = k ∧ e.2.2 = v

/-- What any part of `Optimize` with objective function `f` does to the object, however it ends. -/
structure Goes (hash : List Bool → Nat) (f : P → Res R) (m m' : Mem P R) : Prop where
  initial : m'.initial = m.initial
  given : m'.given = m.given
  log : ∃ new, m'.log = m.log ++ new ∧ ∀ e ∈ new, f e.2.1 = .ok e.2.2
  backed : Backed hash m → Backed hash m'
  full : m.counter.Full → m'.counter.Full

theorem Goes.trans {hash : List Bool → Nat} {f : P → Res R} (a b c : Mem P R) (h1 : Goes hash f a b) (h2 : Goes hash f b c) : Goes hash f a c where
  initial := h2.initial.trans h1.initial
  given := h2.given.trans h1.given
  log := by
    obtain ⟨n1, a1, b1⟩ := h1.log
    obtain ⟨n2, a2, b2⟩ := h2.log
    refine ⟨n1 ++ n2, by rw [a2, a1, List.append_assoc], ?_⟩
    intro e he
    rcases List.mem_append.1 he with he | he
    · exact b1 e he
    · exact b2 e he
  backed h := h2.backed (h1.backed h)
  full h := h2.full (h1.full h)

theorem OnlyInvalid.goes {hash : List Bool → Nat} {f : P → Res R} {m m' : Mem P R} (h : OnlyInvalid m m') : Goes hash f m m' := by
  obtain ⟨n, rfl⟩ := h
  exact ⟨rfl, rfl, ⟨[], by simp, by simp⟩, id, id⟩

theorem Looked.goes {hash : List Bool → Nat} {f : P → Res R} {m m' : Mem P R} (h : Looked m m') : Goes hash f m m' where
  initial := h.initial
  given := h.given
  log := ⟨[], by simp [h.log], by simp⟩
  backed := fun ⟨a, b⟩ => ⟨h.wf a, fun k v hk => by rw [h.known] at hk; rw [h.log]; exact b k v hk⟩
  full := h.full

/-- What storing the new values does. -/
theorem storeX_spec (hash : List Bool → Nat) (ts : List (Todo P R)) (pop : List (Indiv P R)) (m : Mem P R) :
    ∃ c, (storeX hash ts pop m).1 = { m with counter := c } ∧ (m.counter.WF → c.WF) ∧
      (m.counter.WF → ∀ k v, c.known k = some v → m.counter.known k = some v ∨ (k, v) ∈ records hash ts pop) ∧
      (m.counter.Full → c.Full ∧ (storeX hash ts pop m).2 = .throw "runtime_error") ∧
      ((storeX hash ts pop m).2 = .ok () ∨ ((storeX hash ts pop m).2 = .throw "runtime_error" ∧ c.Full)) ∧
      c.counts = m.counter.counts ∧ c.hits = m.counter.hits := by
  unfold storeX
  cases hc : m.counter.cache with
  | none => exact ⟨m.counter, rfl, id, fun _ k v h => .inl h, (by rintro ⟨k, h, _⟩; rw [hc] at h; simp at h), .inl rfl, rfl, rfl⟩
  | some k =>
    simp only
    rcases e : Cache.addMany k (records hash ts pop) with ⟨k', o⟩
    have hk' : k' = (Cache.addMany k (records hash ts pop)).1 := by rw [e]
    have hw : m.counter.WF → ({ m.counter with cache := some k' } : Counter R).WF := by
      intro w st hst
      simp only [Option.some.injEq] at hst
      subst hst
      rw [hk']
      exact Cache.WF_step (w k hc) (.addMany _)
    have hkn : m.counter.WF → ∀ key v, ({ m.counter with cache := some k' } : Counter R).known key = some v →
        m.counter.known key = some v ∨ (key, v) ∈ records hash ts pop := by
      intro w key v hv
      simp only [Counter.known] at hv
      rw [hk'] at hv
      rcases Cache.absV_addMany (w k hc) (records hash ts pop) key with ⟨_, x, hl, hx⟩ | ⟨_, hor⟩
      · rw [hv] at hx
        simp only [Option.some.injEq] at hx
        subst hx
        exact .inr (lastRecord_mem hl)
      · rcases hor with q | q
        · left
          simp only [Counter.known, hc]
          rw [← q, hv]
        · rw [q] at hv; simp at hv
    have hfull : (Cache.clearUpToLimit k).2 = false → o = .threw ∧ Cache.Stuck k' := by
      intro hf
      unfold Cache.addMany at e
      simp only [hf, Bool.false_eq_true, if_false, Prod.mk.injEq] at e
      obtain ⟨rfl, rfl⟩ := e
      exact ⟨rfl, Cache.stuck_of_clear_false hf⟩
    have hdone : (Cache.clearUpToLimit k).2 = true → o = .done := by
      intro hf
      unfold Cache.addMany at e
      simp only [hf, if_true, Prod.mk.injEq] at e
      exact e.2.symm
    cases hf : (Cache.clearUpToLimit k).2 with
    | true =>
      obtain rfl := hdone hf
      refine ⟨{ m.counter with cache := some k' }, rfl, hw, hkn, ?_, .inl rfl, rfl, rfl⟩
      rintro ⟨k0, h0, h1⟩
      rw [hc] at h0
      simp only [Option.some.injEq] at h0
      subst h0
      rw [h1.clear_false] at hf
      simp at hf
    | false =>
      obtain ⟨rfl, hs⟩ := hfull hf
      exact ⟨{ m.counter with cache := some k' }, rfl, hw, hkn, fun _ => ⟨⟨k', rfl, hs⟩, rfl⟩, .inr ⟨rfl, k', rfl, hs⟩, rfl, rfl⟩

/-- `ObtainFitness`, however it ends; if it returns, it returned what the model without exceptions returns. -/
theorem obtainFitnessX_spec (hash : List Bool → Nat) (f : P → Res R) (pop : List (Indiv P R)) (m : Mem P R) :
    Goes hash f m (obtainFitnessX hash f pop m).1 ∧ (obtainFitnessX hash f pop m).1.invalid = m.invalid ∧
    (m.counter.Full → ∀ out, (obtainFitnessX hash f pop m).2 ≠ .ok out) ∧
    ∀ out, (obtainFitnessX hash f pop m).2 = .ok out →
      obtainFitness hash (totalised f) m.counter pop = .ok ((obtainFitnessX hash f pop m).1.counter, out) ∧
      ∃ ts, List.Forall₂ (Decided hash m.counter) pop ts ∧
        (obtainFitnessX hash f pop m).1.log = m.log ++ (counted ts).map (fun x => (x.1.chrom, x.2, totalised f x.2)) ∧
        ∀ x ∈ counted ts, f x.2 = .ok (totalised f x.2) := by
  unfold obtainFitnessX
  rw [X.bind_def]
  have hl := processX_looked hash pop m
  have hsim := processX_sim hash pop m
  rcases hp : processX hash pop m with ⟨m1, r⟩
  rw [hp] at hl
  simp only at hl
  have hg1 : Goes hash f m m1 := hl.goes
  cases r with
  | throw w => exact ⟨hg1, hl.invalid, by simp, by simp⟩
  | ub => exact ⟨hg1, hl.invalid, by simp, by simp⟩
  | ok ts =>
    obtain ⟨⟨c1, ts'⟩, hproc, rfl, rfl⟩ := hsim.conv hp
    simp only at *
    rw [X.modify_bind]
    generalize hm2 : ({ m with counter := { c1 with counts := c1.counts + (toCount ts).length } } : Mem P R) = m2
    have hg2 : Goes hash f m m2 := by
      refine Goes.trans _ _ _ hg1 ?_
      subst hm2
      exact ⟨rfl, rfl, ⟨[], by simp, by simp⟩, id, id⟩
    have hi2 : m2.invalid = m.invalid := by subst hm2; rfl
    rw [X.bind_def]
    obtain ⟨new, e1, e2⟩ := evalX_log f ts m2
    have hg3 : Goes hash f m (evalX f ts m2).1 := by
      refine Goes.trans _ _ _ hg2 ?_
      rw [e1]
      exact ⟨rfl, rfl, ⟨new, rfl, e2⟩,
        fun ⟨a, b⟩ => ⟨a, fun k v hk => by obtain ⟨e, he, q⟩ := b k v hk; exact ⟨e, List.mem_append.2 (.inl he), q⟩⟩, id⟩
    have hi3 : (evalX f ts m2).1.invalid = m.invalid := by rw [e1]; exact hi2
    rcases hev : evalX f ts m2 with ⟨m3, r⟩
    rw [hev] at hg3 hi3
    cases r with
    | throw w => exact ⟨hg3, hi3, by simp, by simp⟩
    | ub => exact ⟨hg3, hi3, by simp, by simp⟩
    | ok vals =>
      obtain ⟨hm3, rfl, hval⟩ := evalX_ok f ts m2 m3 vals hev
      simp only at *
      cases has : assign ts ((toCount ts).map (totalised f)) with
      | throw w => exact ⟨hg3, hi3, by simp [X.bind_def], by simp [X.bind_def]⟩
      | ub => exact ⟨hg3, hi3, by simp [X.bind_def], by simp [X.bind_def]⟩
      | ok out =>
        rw [X.lift_bind_ok, X.bind_def]
        obtain ⟨c, s1, s2, s3, s4, s5, s6, s7⟩ := storeX_spec hash ts out m3
        have hrec := records_counted hash (totalised f) ts out has
        have hg4 : Goes hash f m { m3 with counter := c } := by
          refine ⟨hg3.initial, hg3.given, hg3.log, ?_, fun h => (s4 (hg3.full h)).1⟩
          intro hb
          obtain ⟨b1, b2⟩ := hg3.backed hb
          refine ⟨s2 b1, ?_⟩
          intro k v hk
          rcases s3 b1 k v hk with h | h
          · exact b2 k v h
          · obtain ⟨x, hx, q1, q2⟩ := hrec _ h
            simp only at q1 q2
            refine ⟨(x.1.chrom, x.2, totalised f x.2), ?_, q1, q2.symm⟩
            rw [show ({ m3 with counter := c } : Mem P R).log = m3.log from rfl, hm3]
            exact List.mem_append.2 (.inr (List.mem_map.2 ⟨x, hx, rfl⟩))
        rcases hst : storeX hash ts out m3 with ⟨m4, r⟩
        rw [hst] at s1 s4 s5
        simp only at s1 s4 s5
        subst s1
        rcases s5 with rfl | ⟨rfl, _⟩
        · refine ⟨hg4, hi3, ?_, ?_⟩
          · intro hfull
            have := (s4 (hg3.full hfull)).2
            simp at this
          · intro out' ho
            simp only [X.pure_def, Res.ok.injEq] at ho
            subst ho
            refine ⟨?_, ts, (process_spec hproc).1, ?_, hval⟩
            · unfold obtainFitness
              rw [hproc, Res.ok_bind]
              simp only [has, Res.ok_bind, List.length_map]
              have hm3c : m3.counter = { c1 with counts := c1.counts + (toCount ts).length } := by rw [hm3, ← hm2]
              unfold storeX at hst
              rw [hm3c] at hst
              simp only at hst
              cases hcc : c1.cache with
              | none =>
                simp only [hcc, Prod.mk.injEq, and_true] at hst
                have : c = m3.counter := by rw [hst]
                simp only [X.pure_def, this, hm3c, hcc, Res.pure_eq]
              | some k =>
                simp only [hcc] at hst ⊢
                rcases ha : Cache.addMany k (records hash ts out) with ⟨k', o⟩
                rw [ha] at hst
                cases o with
                | done =>
                  simp only [setCache, X.modify_def, Prod.mk.injEq, and_true] at hst
                  have hce : c = { m3.counter with cache := some k' } := by
                    have := congrArg Mem.counter hst
                    exact this.symm
                  simp only [X.pure_def, Res.pure_eq, hce, hm3c]
                | bool b => simp [X.bind_def, setCache] at hst
                | value v => simp [X.bind_def, setCache] at hst
                | threw => simp [X.bind_def, setCache] at hst
                | ub => simp [X.bind_def, setCache] at hst
            · show m3.log = _
              rw [hm3, ← hm2]
        · exact ⟨hg4, hi3, by simp, by simp⟩

end K52.GA
