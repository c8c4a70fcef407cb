import Verif.Model.GA
import Verif.Lemmas.Cache
import Verif.Props.Individual

/-! # Lemmas about the objective function counter -/

set_option linter.unusedSectionVars false

namespace K52.GA
open K52.Indiv

variable {P R Mu : Type} [DiscreteParams P] [Add R] [Sub R] [Mul R] [Div R] [Zero R] [One R] [NatCast R] [LinearOrder R]

local instance : Inhabited R := ⟨0⟩

/-- What the counter would answer for a hash without calling the objective function. -/
def Counter.known (c : Counter R) (k : Nat) : Option R :=
  match c.cache with
  | none => none
  | some st => Cache.absV st k

/-- No duplicate keys in the counter's cache. -/
def Counter.WF (c : Counter R) : Prop := ∀ st, c.cache = some st → Cache.WF st

/-- What is decided for one individual. -/
def Decided (hash : List Bool → Nat) (c : Counter R) (i : Indiv P R) (t : Todo P R) : Prop :=
  i.init = true ∧
  match c.known (hash i.chrom) with
  | some v => 0 ≤ v ∧ t = .done { i with fitness := v, hasFitness := true }
  | none => ∃ p, i.params = some p ∧ t = .count i p

theorem setFitness_ok {i j : Indiv P R} {v : R} (h : setFitness i v = .ok j) :
    0 ≤ v ∧ j = { i with fitness := v, hasFitness := true } := by
  unfold setFitness at h
  split at h
  · simp at h
  · next hv =>
    simp only [Res.ok.injEq] at h
    exact ⟨not_lt.1 hv, h.symm⟩

theorem processOne_spec {hash : List Bool → Nat} {c c1 : Counter R} {i : Indiv P R} {t : Todo P R}
    (h : processOne hash c i = .ok (c1, t)) :
    Decided hash c i t ∧ (∀ k, c1.known k = c.known k) ∧ (c.WF → c1.WF) ∧ (c1.cache.isSome = c.cache.isSome) ∧
    c1.counts = c.counts := by
  unfold processOne at h
  simp only at h
  unfold Decided Counter.known Counter.WF
  cases hc : c.cache with
  | none =>
    rw [hc] at h
    simp only at h
    split at h
    · next hi =>
      split at h
      · next p hp =>
        simp only [Res.ok.injEq, Prod.mk.injEq] at h
        obtain ⟨rfl, rfl⟩ := h
        exact ⟨⟨hi, p, hp, rfl⟩, by simp [hc], by simp [hc], by simp [hc], rfl⟩
      · simp at h
    · simp at h
  | some k =>
    rw [hc] at h
    simp only at h
    split at h
    · next hi =>
      have ho := Cache.isCached_out k (hash i.chrom)
      split at h
      · next k1 e1 =>
        have hk1 : k1 = (Cache.isCached k (hash i.chrom)).1 := by rw [e1]
        have ha : ∀ key, Cache.absV k1 key = Cache.absV k key := fun key => by rw [hk1, Cache.absV_isCached]
        have hw : Cache.WF k → Cache.WF k1 := fun w => by rw [hk1]; exact Cache.WF_step w (.isCached _)
        split at h
        · next k2 v e2 =>
          have hk2 : k2 = (Cache.get k1 (hash i.chrom)).1 := by rw [e2]
          have hv : Cache.absV k1 (hash i.chrom) = some v := by
            rcases Cache.get_out k1 (hash i.chrom) with ⟨q, _⟩ | ⟨w, q1, q2⟩ | ⟨_, q⟩
            · rw [e2] at q; simp at q
            · rw [e2] at q2; simp at q2; rw [q1, q2]
            · rw [e2] at q; simp at q
          rw [Res.bind_eq_ok] at h
          obtain ⟨j, hj, h⟩ := h
          simp only [Res.pure_eq, Res.ok.injEq, Prod.mk.injEq] at h
          obtain ⟨rfl, rfl⟩ := h
          obtain ⟨h0, rfl⟩ := setFitness_ok hj
          have hb : ∀ key, Cache.absV k2 key = Cache.absV k key := fun key => by
            rw [hk2, Cache.absV_get, ha]
          rw [ha] at hv
          refine ⟨⟨hi, ?_⟩, fun key => hb key, ?_, rfl, rfl⟩
          · simp only [hv]; exact ⟨h0, trivial⟩
          · intro w st hst
            simp only [Option.some.injEq] at hst
            subst hst
            rw [hk2]
            exact Cache.WF_step (hw (w k rfl)) (.get _)
        · simp at h
        · simp at h
      · next k1 e1 =>
        have hk1 : k1 = (Cache.isCached k (hash i.chrom)).1 := by rw [e1]
        have ha : ∀ key, Cache.absV k1 key = Cache.absV k key := fun key => by rw [hk1, Cache.absV_isCached]
        split at h
        · next p hp =>
          simp only [Res.ok.injEq, Prod.mk.injEq] at h
          obtain ⟨rfl, rfl⟩ := h
          rw [e1] at ho
          simp only [Cache.Out.bool.injEq] at ho
          have hn : Cache.absV k (hash i.chrom) = none := by
            cases q : Cache.absV k (hash i.chrom) with
            | none => rfl
            | some v => rw [q] at ho; simp at ho
          refine ⟨⟨hi, ?_⟩, fun key => ha key, ?_, rfl, rfl⟩
          · simp only [hn]; exact ⟨p, hp, rfl⟩
          · intro w st hst
            simp only [Option.some.injEq] at hst
            subst hst
            rw [hk1]
            exact Cache.WF_step (w k rfl) (.isCached _)
        · simp at h
      · simp at h
    · simp at h

theorem process_spec {hash : List Bool → Nat} : ∀ {pop : List (Indiv P R)} {c c1 : Counter R} {ts : List (Todo P R)},
    process hash c pop = .ok (c1, ts) →
    List.Forall₂ (Decided hash c) pop ts ∧ (∀ k, c1.known k = c.known k) ∧ (c.WF → c1.WF) ∧
    (c1.cache.isSome = c.cache.isSome) ∧ c1.counts = c.counts
  | [], c, c1, ts, h => by
    simp only [process, Res.ok.injEq, Prod.mk.injEq] at h
    obtain ⟨rfl, rfl⟩ := h
    exact ⟨.nil, fun _ => rfl, id, rfl, rfl⟩
  | i :: is, c, c1, ts, h => by
    unfold process at h
    rw [Res.bind_eq_ok] at h
    obtain ⟨⟨c2, t⟩, h1, h⟩ := h
    rw [Res.bind_eq_ok] at h
    obtain ⟨⟨c3, ts'⟩, h2, h⟩ := h
    simp only [Res.pure_eq, Res.ok.injEq, Prod.mk.injEq] at h
    obtain ⟨rfl, rfl⟩ := h
    obtain ⟨a1, a2, a3, a4, a5⟩ := processOne_spec h1
    obtain ⟨b1, b2, b3, b4, b5⟩ := process_spec h2
    refine ⟨.cons a1 (b1.imp ?_), fun k => by rw [b2, a2], fun w => b3 (a3 w), by rw [b4, a4], by rw [b5, a5]⟩
    intro x y hxy
    unfold Decided at *
    rw [a2] at hxy
    exact hxy

/-- The value `ObtainFitness` stores for one individual. -/
def fitnessOf (hash : List Bool → Nat) (f : P → R) (c : Counter R) (i : Indiv P R) (p : P) : R :=
  (c.known (hash i.chrom)).getD (f p)

/-- The evaluated version of one individual: everything but the fitness is unchanged; the fitness is the known value, otherwise the
objective function's. -/
def Evaluated (hash : List Bool → Nat) (f : P → R) (c : Counter R) (i j : Indiv P R) : Prop :=
  i.init = true ∧ ∃ v, 0 ≤ v ∧ j = { i with fitness := v, hasFitness := true } ∧
  match c.known (hash i.chrom) with
  | some w => v = w
  | none => ∃ p, i.params = some p ∧ v = f p

theorem assign_spec {hash : List Bool → Nat} {f : P → R} {c : Counter R} :
    ∀ {pop : List (Indiv P R)} {ts : List (Todo P R)} {out : List (Indiv P R)},
    List.Forall₂ (Decided hash c) pop ts → assign ts ((toCount ts).map f) = .ok out →
    List.Forall₂ (Evaluated hash f c) pop out ∧
    (∀ r ∈ records hash ts out, ∃ j ∈ out, ∃ p, j.params = some p ∧ hash j.chrom = r.1 ∧ j.fitness = r.2 ∧ j.fitness = f p) ∧
    (toCount ts).length = (pop.filter (fun i => (c.known (hash i.chrom)).isNone)).length
  | _, _, out, .nil, h => by
    simp only [assign, Res.ok.injEq] at h
    subst h
    exact ⟨.nil, by simp [records], rfl⟩
  | _, _, out, .cons (a := i) (b := t) (l₁ := pop) (l₂ := ts) hd ht, h => by
    obtain ⟨hi, hd⟩ := hd
    cases hk : c.known (hash i.chrom) with
    | some v =>
      simp only [hk] at hd
      obtain ⟨h0, rfl⟩ := hd
      simp only [toCount, assign] at h
      rw [Res.bind_eq_ok] at h
      obtain ⟨rest, hr, h⟩ := h
      simp only [Res.pure_eq, Res.ok.injEq] at h
      subst h
      obtain ⟨b1, b2, b3⟩ := assign_spec ht hr
      refine ⟨.cons ⟨hi, v, h0, rfl, by simp [hk]⟩ b1, ?_, ?_⟩
      · intro r hrm
        simp only [records] at hrm
        obtain ⟨j, hj, q⟩ := b2 r hrm
        exact ⟨j, List.mem_cons_of_mem _ hj, q⟩
      · simpa [toCount, hk] using b3
    | none =>
      simp only [hk] at hd
      obtain ⟨p, hp, rfl⟩ := hd
      simp only [toCount, List.map_cons, assign] at h
      rw [Res.bind_eq_ok] at h
      obtain ⟨j, hj, h⟩ := h
      rw [Res.bind_eq_ok] at h
      obtain ⟨rest, hr, h⟩ := h
      simp only [Res.pure_eq, Res.ok.injEq] at h
      subst h
      obtain ⟨h0, rfl⟩ := setFitness_ok hj
      obtain ⟨b1, b2, b3⟩ := assign_spec ht hr
      refine ⟨.cons ⟨hi, _, h0, rfl, by simp only [hk]; exact ⟨p, hp, rfl⟩⟩ b1, ?_, ?_⟩
      · intro r hrm
        simp only [records, List.mem_cons] at hrm
        rcases hrm with rfl | hrm
        · exact ⟨_, List.mem_cons_self, p, hp, rfl, rfl, rfl⟩
        · obtain ⟨j, hj, q⟩ := b2 r hrm
          exact ⟨j, List.mem_cons_of_mem _ hj, q⟩
      · simpa [toCount, hk] using b3

theorem lastRecord_mem {K V : Type} [DecidableEq K] {rs : List (K × V)} {k : K} {v : V} (h : Cache.lastRecord rs k = some v) :
    (k, v) ∈ rs := by
  have key : ∀ (rs : List (K × V)) (a : Option V), rs.foldl (fun acc r => if r.1 = k then some r.2 else acc) a = some v →
      (k, v) ∈ rs ∨ a = some v := by
    intro rs
    induction rs with
    | nil => intro a h; exact .inr h
    | cons r rs ih =>
      intro a h
      rcases ih _ h with h | h
      · exact .inl (List.mem_cons_of_mem _ h)
      · simp only at h
        split at h
        · next e =>
          simp only [Option.some.injEq] at h
          left
          have : (k, v) = r := by rw [← e, ← h]
          rw [this]; exact List.mem_cons_self
        · exact .inr h
  rcases key rs none h with h | h
  · exact h
  · simp at h

/-- Everything `ObtainFitness` does when it returns. -/
theorem obtainFitness_spec {hash : List Bool → Nat} {f : P → R} {c c' : Counter R} {pop out : List (Indiv P R)}
    (hw : c.WF) (h : obtainFitness hash f c pop = .ok (c', out)) :
    List.Forall₂ (Evaluated hash f c) pop out ∧ c'.WF ∧
    c'.counts = c.counts + (pop.filter (fun i => (c.known (hash i.chrom)).isNone)).length ∧
    (∀ k v, c'.known k = some v → c.known k = some v ∨
      ∃ j ∈ out, ∃ p, j.params = some p ∧ hash j.chrom = k ∧ j.fitness = v ∧ v = f p) := by
  unfold obtainFitness at h
  rw [Res.bind_eq_ok] at h
  obtain ⟨⟨c1, ts⟩, h1, h⟩ := h
  simp only at h
  rw [Res.bind_eq_ok] at h
  obtain ⟨pop', h2, h⟩ := h
  obtain ⟨a1, a2, a3, a4, a5⟩ := process_spec h1
  obtain ⟨b1, b2, b3⟩ := assign_spec a1 h2
  cases hc : c1.cache with
  | none =>
    simp only [hc, Res.pure_eq, Res.ok.injEq, Prod.mk.injEq] at h
    obtain ⟨rfl, rfl⟩ := h
    refine ⟨b1, ?_, by simp [a5, b3], ?_⟩
    · intro st hst; exact absurd hst (by simp)
    · intro k v hk
      simp [Counter.known] at hk
  | some k =>
    simp only [hc] at h
    split at h
    · next k' e =>
      simp only [Res.pure_eq, Res.ok.injEq, Prod.mk.injEq] at h
      obtain ⟨rfl, rfl⟩ := h
      have hwk : Cache.WF k := a3 hw k hc
      have hk' : k' = (Cache.addMany k (records hash ts pop')).1 := by rw [e]
      refine ⟨b1, ?_, by simp [a5, b3], ?_⟩
      · intro st hst
        simp only [Option.some.injEq] at hst
        subst hst
        rw [hk']
        exact Cache.WF_step hwk (.addMany _)
      · intro key v hv
        simp only [Counter.known] at hv
        rw [hk'] at hv
        rcases Cache.absV_addMany hwk (records hash ts pop') key with ⟨_, w, hl, hw'⟩ | ⟨_, hor⟩
        · rw [hv] at hw'
          simp only [Option.some.injEq] at hw'
          subst hw'
          obtain ⟨j, hj, p, q1, q2, q3, q4⟩ := b2 _ (lastRecord_mem hl)
          exact .inr ⟨j, hj, p, q1, q2, q3, by rw [← q4, q3]⟩
        · rcases hor with q | q
          · left
            rw [← a2]
            simp only [Counter.known, hc]
            rw [← q, hv]
          · rw [q] at hv; simp at hv
    · simp at h

end K52.GA
