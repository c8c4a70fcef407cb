import Verif.Model.IndividualObj
import Verif.Props.Random

/-!
# C125: individuals under every sequence of calls, exceptions included
-/

set_option linter.unusedSectionVars false

namespace K52.IndividualObj

variable {P R : Type} [Zero R] [LT R] [DecidableLT R]

/-! ## Specification -/

/-- For every object: the chromosome it had and the number given when its fitness was last set (or that of the object it was copied from). -/
abbrev Credits (R : Type) := List (Option (List Bool × R))

/-- The call ended without an exception. -/
def Returned {α : Type} : Res α → Prop
  | .ok _ => True
  | _ => False

instance {α : Type} (r : Res α) : Decidable (Returned r) := by cases r <;> unfold Returned <;> infer_instance

theorem returned_ok {α : Type} (a : α) : Returned (.ok a : Res α) = True := rfl

theorem returned_throw {α : Type} (w : String) : Returned (.throw w : Res α) = False := rfl

theorem returned_ub {α : Type} : Returned (.ub : Res α) = False := rfl

/-- How a call changes the credits: setting the fitness and reading from a stream record chromosome and number, copying and assignment copy the record. -/
def credit (st : Store P R) (op : Op P R) (ans : Res (Ans P R)) (cr : Credits R) : Credits R :=
  match op with
  | .new => cr ++ [none]
  | .newWith _ => if Returned ans then cr ++ [none] else cr
  | .copy i => if Returned ans then cr ++ [(cr[i]?).join] else cr
  | .assign i j => if Returned ans then cr.set i (cr[j]?).join else cr
  | .setFitness i x =>
    match st[i]? with
    | some o => if Returned ans then cr.set i (some (o.chrom, x)) else cr
    | none => cr
  | .read i word x =>
    match st[i]? with
    | some o => if o.init ∧ word.length = o.chrom.length ∧ (∀ c ∈ word, c = '1' ∨ c = '0') ∧ ¬ x < 0 then cr.set i (some (word.map (· == '1'), x)) else cr
    | none => cr
  | _ => cr

/-- Calls after which a fitness can be left over from an earlier chromosome: reading a negative fitness, and an `Initialize` in which the parameters cannot write their value into
the chromosome. -/
def Careless (I : ParamsI P) : Op P R → Prop
  | .initialise _ p => ∃ s w, (I.setChromosome p (List.replicate s false)).2 = .throw w
  | .read _ _ x => x < 0
  | _ => False

/-- The objects (with their credits) after a sequence of calls, none of which was undefined, and all of which are `allowed`. -/
inductive Reach (I : ParamsI P) (allowed : Op P R → Prop) : Store P R → Credits R → Prop
  | start : Reach I allowed [] []
  | call {st : Store P R} {cr : Credits R} (op : Op P R) (h : Reach I allowed st cr) (ok : allowed op) (nub : (step I st op).2 ≠ .ub) :
      Reach I allowed (step I st op).1 (credit st op (step I st op).2 cr)

/-! ## Single objects -/

theorem bits_iff : ∀ (w : List Char) (b : List Bool), bits w = some b ↔ (∀ c ∈ w, c = '1' ∨ c = '0') ∧ b = w.map (· == '1')
  | [], b => by simp [bits, eq_comm]
  | c :: cs, b => by
    unfold bits
    by_cases h1 : c = '1'
    · subst h1
      rw [if_pos rfl, Option.map_eq_some_iff]
      simp only [bits_iff cs]
      constructor
      · rintro ⟨a, ⟨h1, rfl⟩, rfl⟩
        exact ⟨by simpa using h1, by simp⟩
      · rintro ⟨h1, rfl⟩
        exact ⟨_, ⟨fun x hx => h1 x (by simp [hx]), rfl⟩, by simp⟩
    · by_cases h0 : c = '0'
      · subst h0
        rw [if_neg h1, if_pos rfl, Option.map_eq_some_iff]
        simp only [bits_iff cs]
        constructor
        · rintro ⟨a, ⟨h1, rfl⟩, rfl⟩
          exact ⟨by simpa using h1, by simp⟩
        · rintro ⟨h1, rfl⟩
          exact ⟨_, ⟨fun x hx => h1 x (by simp [hx]), rfl⟩, by simp⟩
      · rw [if_neg h1, if_neg h0]
        constructor
        · intro h; cases h
        · rintro ⟨h, _⟩
          rcases h c (by simp) with h | h
          · exact absurd h h1
          · exact absurd h h0

theorem setParams_fst (I : ParamsI P) (o : Obj P R) : ∃ p, (setParams I o).1 = { o with params := p } ∧ (o.params.isSome → p.isSome) := by
  unfold setParams
  split
  · split
    · exact ⟨o.params, rfl, id⟩
    · exact ⟨_, rfl, fun _ => rfl⟩
  · exact ⟨o.params, rfl, id⟩

/-- What the loops leave alone. -/
def Same (o o' : Obj P R) : Prop :=
  o'.init = o.init ∧ (o.params.isSome → o'.params.isSome) ∧ o'.times = o.times ∧ o'.hasFitness = o.hasFitness ∧ o'.fitness = o.fitness

theorem Same.refl (o : Obj P R) : Same o o := ⟨rfl, id, rfl, rfl, rfl⟩

theorem Same.trans {a b c : Obj P R} (h : Same a b) (h' : Same b c) : Same a c :=
  ⟨h'.1.trans h.1, h'.2.1 ∘ h.2.1, h'.2.2.1.trans h.2.2.1, h'.2.2.2.1.trans h.2.2.2.1, h'.2.2.2.2.trans h.2.2.2.2⟩

theorem Same.chrom (o : Obj P R) (c : List Bool) : Same o { o with chrom := c } := ⟨rfl, id, rfl, rfl, rfl⟩

theorem setParams_same (I : ParamsI P) (o : Obj P R) : Same o (setParams I o).1 ∧ (setParams I o).1.chrom = o.chrom := by
  obtain ⟨p, h, hp⟩ := setParams_fst I o
  rw [h]
  exact ⟨⟨rfl, hp, rfl, rfl, rfl⟩, rfl⟩

theorem randomLoop_same (I : ParamsI P) (draw : Nat → Nat → Bool) : ∀ (fuel k : Nat) (o : Obj P R), Same o (randomLoop I draw fuel k o).1
  | 0, _, o => Same.refl o
  | fuel + 1, k, o => by
    unfold randomLoop
    have h := (Same.chrom o _).trans (setParams_same I { o with chrom := (List.range o.chrom.length).map (draw k) }).1
    split
    · next e => rw [e] at h; exact h
    · next e => rw [e] at h; exact h
    · next o' e =>
      rw [e] at h
      split
      · exact h
      · exact h
      · exact h
      · exact h.trans (randomLoop_same I draw fuel (k + 1) o')

theorem mutateLoop_same (I : ParamsI P) (m : Nat → List Bool → List Bool × Res Unit) : ∀ (fuel k : Nat) (o : Obj P R), Same o (mutateLoop I m fuel k o).1
  | 0, _, o => Same.refl o
  | fuel + 1, k, o => by
    unfold mutateLoop
    split
    · exact Same.chrom o _
    · exact Same.chrom o _
    · next c _ =>
      have h := (Same.chrom o c).trans (setParams_same I { o with chrom := c }).1
      split
      · next e => rw [e] at h; exact h
      · next e => rw [e] at h; exact h
      · next o' e =>
        rw [e] at h
        split
        · exact h
        · exact h
        · exact h
        · exact h.trans (mutateLoop_same I m fuel (k + 1) o')

/-! ## Fitness -/

/-- The invariant. -/
def Inv (st : Store P R) (cr : Credits R) : Prop :=
  cr.length = st.length ∧ ∀ (i : Nat) (o : Obj P R), st[i]? = some o → o.hasFitness → cr[i]? = some (some (o.chrom, o.fitness))

theorem Inv.set {st : Store P R} {cr : Credits R} (h : Inv st cr) {i : Nat} {o' : Obj P R} {c : Option (List Bool × R)}
    (hc : o'.hasFitness → c = some (o'.chrom, o'.fitness)) : Inv (st.set i o') (cr.set i c) := by
  refine ⟨by simp [h.1], fun j o hj hf => ?_⟩
  by_cases hij : i = j
  · subst hij
    have hlt : i < st.length := by
      have := (List.getElem?_eq_some_iff.1 hj).1
      simpa using this
    rw [List.getElem?_set_self hlt] at hj
    cases hj
    rw [List.getElem?_set_self (by rw [h.1]; exact hlt), hc hf]
  · rw [List.getElem?_set_ne hij] at hj ⊢
    exact h.2 j o hj hf

/-- A change of one object that does not touch the credits. -/
theorem Inv.setKeep {st : Store P R} {cr : Credits R} (h : Inv st cr) {i : Nat} {o o' : Obj P R} (ho : st[i]? = some o)
    (hk : o'.hasFitness → o.hasFitness ∧ o'.chrom = o.chrom ∧ o'.fitness = o.fitness) : Inv (st.set i o') cr := by
  refine ⟨by simp [h.1], fun j p hj hf => ?_⟩
  by_cases hij : i = j
  · subst hij
    rw [List.getElem?_set_self (List.getElem?_eq_some_iff.1 ho).1] at hj
    cases hj
    obtain ⟨k1, k2, k3⟩ := hk hf
    rw [k2, k3]
    exact h.2 i o ho k1
  · rw [List.getElem?_set_ne hij] at hj
    exact h.2 j p hj hf

theorem Inv.push {st : Store P R} {cr : Credits R} (h : Inv st cr) {o : Obj P R} {c : Option (List Bool × R)} (hc : o.hasFitness → c = some (o.chrom, o.fitness)) :
    Inv (st ++ [o]) (cr ++ [c]) := by
  refine ⟨by simp [h.1], fun j p hj hf => ?_⟩
  rcases lt_trichotomy j st.length with hlt | rfl | hgt
  · rw [List.getElem?_append_left hlt] at hj
    rw [List.getElem?_append_left (by rw [h.1]; exact hlt)]
    exact h.2 j p hj hf
  · rw [List.getElem?_append_right le_rfl] at hj
    simp only [Nat.sub_self, List.getElem?_cons_zero, Option.some.injEq] at hj
    subst hj
    rw [List.getElem?_append_right (by rw [h.1]), h.1]
    simp [hc hf]
  · rw [List.getElem?_eq_none (by simp; omega)] at hj
    cases hj

theorem Inv.credit {st : Store P R} {cr : Credits R} (h : Inv st cr) {i : Nat} {o : Obj P R} (ho : st[i]? = some o) (hf : o.hasFitness) :
    (cr[i]?).join = some (o.chrom, o.fitness) := by
  rw [h.2 i o ho hf]
  rfl

theorem on_keep {st : Store P R} {cr : Credits R} (h : Inv st cr) {α : Type} (i : Nat) (f : Obj P R → Obj P R × Res α) (g : α → Ans P R)
    (hf : ∀ o, (f o).1.hasFitness → o.hasFitness ∧ (f o).1.chrom = o.chrom ∧ (f o).1.fitness = o.fitness) : Inv (on st i f g).1 cr := by
  unfold on
  split
  · exact h
  · next o ho => exact h.setKeep ho (hf o)

theorem initWith_fitness (I : ParamsI P) (p : P) (o : Obj P R) (hc : ¬ ∃ s w, (I.setChromosome p (List.replicate s false)).2 = .throw w) (hu : (initWith I p o).2 ≠ .ub) :
    (initWith I p o).1.hasFitness → o.hasFitness ∧ (initWith I p o).1.chrom = o.chrom ∧ (initWith I p o).1.fitness = o.fitness := by
  revert hu
  unfold initWith
  split
  · exact fun _ h => ⟨h, rfl, rfl⟩
  · exact fun hu => absurd rfl hu
  · split
    · exact fun _ h => ⟨h, rfl, rfl⟩
    · exact fun hu => absurd rfl hu
    · next s _ =>
      split
      · next w e => exact absurd ⟨s, w, by rw [e]⟩ hc
      · exact fun hu => absurd rfl hu
      · split
        · intro _ h; cases h
        · intro _ h; cases h

theorem initWith_ok {I : ParamsI P} {p : P} {o : Obj P R} (h : (initWith I p o).2 = .ok ()) : (initWith I p o).1.hasFitness = false := by
  revert h
  unfold initWith
  split
  · intro h; cases h
  · intro h; cases h
  · split
    · intro h; cases h
    · intro h; cases h
    · split
      · intro h; cases h
      · intro h; cases h
      · split
        · intro h; cases h
        · intro _; rfl

theorem assign_ok {I : ParamsI P} {a o : Obj P R} (h : (assign I a o).2 = .ok ()) : ∃ q, (assign I a o).1 = { a with params := q } := by
  revert h
  unfold assign
  split
  · exact fun _ => ⟨_, rfl⟩
  · split
    · exact fun _ => ⟨_, rfl⟩
    · intro h; cases h
    · intro h; cases h

theorem assign_throw {I : ParamsI P} {a o : Obj P R} {w : String} (h : (assign I a o).2 = .throw w) : (assign I a o).1 = o := by
  revert h
  unfold assign
  split
  · intro h; cases h
  · split
    · intro h; cases h
    · exact fun _ => rfl
    · intro h; cases h

theorem assign_ub {I : ParamsI P} {a o : Obj P R} (h : (assign I a o).2 = .ub) : (assign I a o).1 = o := by
  revert h
  unfold assign
  split
  · intro h; cases h
  · split
    · intro h; cases h
    · intro h; cases h
    · exact fun _ => rfl

theorem setRandom_fitness (I : ParamsI P) (draw : Nat → Nat → Bool) (fuel : Nat) (o : Obj P R) (hf : (setRandom I draw fuel o).1.hasFitness) :
    o.hasFitness ∧ (setRandom I draw fuel o).1.chrom = o.chrom ∧ (setRandom I draw fuel o).1.fitness = o.fitness := by
  revert hf
  unfold setRandom
  split
  · intro hf
    rw [(randomLoop_same I draw fuel 0 { o with hasFitness := false }).2.2.2.1] at hf
    cases hf
  · exact fun hf => ⟨hf, rfl, rfl⟩

theorem mutate_fitness (I : ParamsI P) (m : Nat → List Bool → List Bool × Res Unit) (fuel : Nat) (o : Obj P R) (hf : (mutate I m fuel o).1.hasFitness) :
    o.hasFitness ∧ (mutate I m fuel o).1.chrom = o.chrom ∧ (mutate I m fuel o).1.fitness = o.fitness := by
  revert hf
  unfold mutate
  split
  · intro hf
    rw [(mutateLoop_same I m fuel 0 { o with hasFitness := false }).2.2.2.1] at hf
    cases hf
  · exact fun hf => ⟨hf, rfl, rfl⟩

theorem read_good (I : ParamsI P) {o : Obj P R} {word : List Char} {x : R} (hi : o.init) (hl : word.length = o.chrom.length) (hw : ∀ c ∈ word, c = '1' ∨ c = '0') (hx : ¬ x < 0) :
    read I word x o = setParams I { o with chrom := word.map (· == '1'), fitness := x, hasFitness := true } := by
  unfold read getChromosome
  rw [if_pos hi]
  simp only
  rw [if_neg (by simpa using hl), (bits_iff word _).2 ⟨hw, rfl⟩]
  simp only [setFitness]
  rw [if_neg hx]

theorem read_bad (I : ParamsI P) {o : Obj P R} {word : List Char} {x : R} (h : ¬ (o.init ∧ word.length = o.chrom.length ∧ ∀ c ∈ word, c = '1' ∨ c = '0')) :
    read I word x o = (o, .throw "logic_error") := by
  unfold read getChromosome
  by_cases hi : o.init
  · rw [if_pos hi]
    simp only
    by_cases hl : word.length = o.chrom.length
    · rw [if_neg (by simpa using hl)]
      cases hb : bits word with
      | none => rfl
      | some b => exact absurd ⟨hi, hl, ((bits_iff word b).1 hb).1⟩ h
    · rw [if_pos hl]
  · rw [if_neg hi]

theorem crossover_inv (I : ParamsI P) {st : Store P R} {cr : Credits R} (h : Inv st cr) (i j : Nat) (l : Random.Lib) : Inv (crossover I st i j l).1 cr := by
  unfold crossover
  split
  · next a b ha hb =>
    split
    · have hclear : ∀ (ca cb : List Bool), Inv ((st.set j { b with hasFitness := false, chrom := cb }).set i { a with hasFitness := false, chrom := ca }) cr := by
        intro ca cb
        have h1 := h.setKeep (o' := { b with hasFitness := false, chrom := cb }) hb (by intro h; cases h)
        by_cases hij : j = i
        · subst hij
          exact h1.setKeep (o := { b with hasFitness := false, chrom := cb }) (List.getElem?_set_self (List.getElem?_eq_some_iff.1 hb).1) (by intro h; cases h)
        · exact h1.setKeep (o := a) (by rw [List.getElem?_set_ne hij]; exact ha) (by intro h; cases h)
      have hp : ∀ o : Obj P R, (setParams I o).1.hasFitness → o.hasFitness ∧ (setParams I o).1.chrom = o.chrom ∧ (setParams I o).1.fitness = o.fitness := by
        intro o hf
        obtain ⟨⟨_, _, _, k1, k2⟩, k3⟩ := setParams_same I o
        rw [k1] at hf
        exact ⟨hf, k3, k2⟩
      simp only
      split
      · exact hclear a.chrom b.chrom
      · split
        · exact hclear a.chrom b.chrom
        · exact hclear a.chrom b.chrom
        · next d _ =>
          have h1 := on_keep (hclear (Indiv.crossAt d.1.toNat a.chrom b.chrom).1 (Indiv.crossAt d.1.toNat a.chrom b.chrom).2) i (setParams I) (fun _ => .unit) hp
          split
          · next e =>
            rw [e] at h1
            have h2 := on_keep h1 j (setParams I) (fun _ => .unit) hp
            split
            · next e =>
              rw [e] at h2
              have h3 := on_keep h2 i (fun o => (o, check I o)) .flag (fun o hf => ⟨hf, rfl, rfl⟩)
              split
              · next e =>
                rw [e] at h3
                exact on_keep h3 j (fun o => (o, check I o)) .flag (fun o hf => ⟨hf, rfl, rfl⟩)
              · exact h3
            · exact h2
          · exact h1
    · exact h
  · exact h

theorem step_inv (I : ParamsI P) {st : Store P R} {cr : Credits R} (h : Inv st cr) (op : Op P R) (hc : ¬ Careless I op) (hu : (step I st op).2 ≠ .ub) :
    Inv (step I st op).1 (credit st op (step I st op).2 cr) := by
  have hmake : ∀ (r : Obj P R × Res Unit) (c : Option (List Bool × R)), (Returned (make st r).2 → r.1.hasFitness → c = some (r.1.chrom, r.1.fitness)) →
      Inv (make st r).1 (if Returned (make st r).2 then cr ++ [c] else cr) := by
    intro r c hr
    unfold make at hr ⊢
    split
    · next e =>
      simp only [Res.bind, returned_ok, returned_throw, returned_ub, if_true, if_false]
      exact h.push (hr (by rw [e]; trivial))
    · exact h
    · exact h
  cases op with
  | new =>
    have := hmake (fresh, .ok ()) none (by intro _ h; cases h)
    exact this
  | newWith p =>
    refine hmake (initWith I p fresh) none ?_
    intro hr hf
    have : (initWith I p fresh : Obj P R × Res Unit).2 = .ok () := by
      unfold make at hr
      split at hr
      · next e => exact e
      · exact hr.elim
      · exact hr.elim
    rw [initWith_ok this] at hf
    cases hf
  | copy i =>
    show Inv (match st[i]? with | none => _ | some a => make st (assign I a fresh)).1 (if Returned (match st[i]? with | none => _ | some a => make st (assign I a fresh)).2 then _ else _)
    cases ho : st[i]? with
    | none => exact h
    | some a =>
      refine hmake (assign I a fresh) _ ?_
      intro hr hf
      have : (assign I a fresh).2 = .ok () := by
        unfold make at hr
        split at hr
        · next e => exact e
        · exact hr.elim
        · exact hr.elim
      obtain ⟨q, e⟩ := assign_ok this
      rw [e] at hf ⊢
      exact h.credit (o := a) ho hf
  | assign i j =>
    show Inv (match st[j]? with | none => (st, Res.ub) | some a => on st i (fun o => if i = j then (o, .ok ()) else assign I a o) fun _ => .unit).1
      (if Returned (match st[j]? with | none => (st, Res.ub) | some a => on st i (fun o => if i = j then (o, .ok ()) else assign I a o) fun _ => .unit).2 then _ else _)
    cases hj : st[j]? with
    | none => exact h
    | some a =>
      simp only
      unfold on
      cases hi : st[i]? with
      | none => exact h
      | some o =>
        simp only
        by_cases hij : i = j
        · subst hij
          rw [hi] at hj
          cases hj
          simp only [↓reduceIte, Res.bind, returned_ok, returned_throw, returned_ub, if_true, if_false]
          exact h.set fun hf => h.credit hi hf
        · simp only [if_neg hij]
          cases e : (assign I a o).2 with
          | ok u =>
            simp only [Res.bind, returned_ok, returned_throw, returned_ub, if_true, if_false]
            obtain ⟨q, e⟩ := assign_ok e
            rw [e]
            exact h.set fun hf => h.credit (o := a) hj hf
          | throw w =>
            simp only [Res.bind, returned_ok, returned_throw, returned_ub, if_true, if_false]
            rw [assign_throw e]
            exact h.setKeep hi fun hf => ⟨hf, rfl, rfl⟩
          | ub =>
            simp only [Res.bind, returned_ok, returned_throw, returned_ub, if_true, if_false]
            rw [assign_ub e]
            exact h.setKeep hi fun hf => ⟨hf, rfl, rfl⟩
  | initialise i p =>
    show Inv (on st i (initWith I p) fun _ => .unit).1 cr
    have hu : (on st i (initWith I p) fun _ => .unit).2 ≠ .ub := hu
    unfold on at hu ⊢
    split
    · exact h
    · next o ho =>
      rw [ho] at hu
      exact h.setKeep ho (initWith_fitness I p o hc fun e => hu (by simp only [e]; rfl))
  | getParameters i => exact on_keep h i _ _ fun o hf => ⟨hf, rfl, rfl⟩
  | getChromosome i => exact on_keep h i _ _ fun o hf => ⟨hf, rfl, rfl⟩
  | setRandom i draw fuel => exact on_keep h i _ _ fun o => setRandom_fitness I draw fuel o
  | crossover i j l => exact crossover_inv I h i j l
  | mutate i m fuel => exact on_keep h i _ _ fun o => mutate_fitness I m fuel o
  | hasFitness i => exact on_keep h i _ _ fun o hf => ⟨hf, rfl, rfl⟩
  | getFitness i => exact on_keep h i _ _ fun o hf => ⟨hf, rfl, rfl⟩
  | setFitness i x =>
    show Inv (on st i (setFitness x) fun _ => .unit).1 (match st[i]? with | some o => if Returned (on st i (setFitness x) fun _ => .unit).2 then cr.set i (some (o.chrom, x)) else cr | none => cr)
    unfold on
    cases hi : st[i]? with
    | none => exact h
    | some o =>
      simp only
      unfold setFitness
      split
      · simp only [Res.bind, returned_ok, returned_throw, returned_ub, if_true, if_false]
        exact h.setKeep hi fun hf => ⟨hf, rfl, rfl⟩
      · simp only [Res.bind, returned_ok, returned_throw, returned_ub, if_true, if_false]
        exact h.set fun _ => rfl
  | increaseTimes i => exact on_keep h i _ _ fun o hf => ⟨hf, rfl, rfl⟩
  | resetTimes i => exact on_keep h i _ _ fun o hf => ⟨hf, rfl, rfl⟩
  | getTimes i => exact on_keep h i _ _ fun o hf => ⟨hf, rfl, rfl⟩
  | isValid i => exact on_keep h i _ _ fun o hf => ⟨hf, rfl, rfl⟩
  | read i word x =>
    show Inv (on st i (read I word x) fun _ => .unit).1 (match st[i]? with
      | some o => if o.init ∧ word.length = o.chrom.length ∧ (∀ c ∈ word, c = '1' ∨ c = '0') ∧ ¬ x < 0 then cr.set i (some (word.map (· == '1'), x)) else cr
      | none => cr)
    unfold on
    cases hi : st[i]? with
    | none => exact h
    | some o =>
      simp only
      have hx : ¬ x < 0 := hc
      split
      · next hg =>
        rw [read_good I hg.1 hg.2.1 hg.2.2.1 hg.2.2.2]
        obtain ⟨⟨_, _, _, k1, k2⟩, k3⟩ := setParams_same I { o with chrom := word.map (· == '1'), fitness := x, hasFitness := true }
        refine h.set fun _ => ?_
        rw [k3, k2]
      · next hg =>
        rw [read_bad I fun hh => hg ⟨hh.1, hh.2.1, hh.2.2, hx⟩]
        exact h.setKeep hi fun hf => ⟨hf, rfl, rfl⟩

theorem reach_inv {I : ParamsI P} {st : Store P R} {cr : Credits R} (h : Reach I (fun op => ¬ Careless I op) st cr) : Inv st cr := by
  induction h with
  | start => exact ⟨rfl, fun i o h => by simp at h⟩
  | call op _ ok nub ih => exact step_inv I ih op ok nub

/-- **C125 (fitness).** After any sequence of constructors, copies, assignments and calls on any number of individuals, exceptions included - but without reading a negative fitness and
without an `Initialize` broken off by parameters that cannot be encoded - a fitness returned by `get_fitness` is the number that was set for exactly the chromosome the individual has
now, on the individual itself or on the one it was copied from. -/
theorem C125_fitness {I : ParamsI P} {st : Store P R} {cr : Credits R} (h : Reach I (fun op => ¬ Careless I op) st cr) (i : Nat) (o : Obj P R) (ho : st[i]? = some o)
    (x : R) (hx : getFitness o = .ok x) : cr[i]? = some (some (o.chrom, x)) := by
  unfold getFitness at hx
  split at hx
  · next hf =>
    cases hx
    exact (reach_inv h).2 i o ho hf
  · cases hx

/-- **C125 (reading a negative fitness).** The first exception is real: reading a text with a negative fitness throws, and leaves the individual with the new chromosome, the parameters of the
old chromosome and, if it had one, the fitness of the old chromosome. -/
theorem C125_negative (I : ParamsI P) {o : Obj P R} {word : List Char} {x : R} (hi : o.init) (hl : word.length = o.chrom.length) (hw : ∀ c ∈ word, c = '1' ∨ c = '0') (hx : x < 0) :
    read I word x o = ({ o with chrom := word.map (· == '1') }, .throw "logic_error") := by
  unfold read getChromosome
  rw [if_pos hi]
  simp only
  rw [if_neg (by simpa using hl), (bits_iff word _).2 ⟨hw, rfl⟩]
  simp only [setFitness]
  rw [if_pos hx]

/-- **C125 (parameters that cannot be encoded).** So is the second: the individual has whatever the parameters wrote for a chromosome, and still its fitness. -/
theorem C125_broken_initialization (I : ParamsI P) (o : Obj P R) {p q : P} {s : Nat} {c : List Bool} {w : String} (hq : I.clone p = .ok q) (hs : I.size q = .ok s)
    (hc : I.setChromosome p (List.replicate s false) = (c, .throw w)) : initWith I p o = ({ o with params := some q, chrom := c }, .throw w) := by
  unfold initWith
  simp only [hq, hs, hc]

/-- **C125 (initializing again).** A second `Initialize` throws, but only after it has initialized the individual with the new parameters. -/
theorem C125_again (I : ParamsI P) (o : Obj P R) (hi : o.init) {p : P} {f : Obj P R} (hf : initWith I p fresh = (f, .ok ())) :
    initWith I p o = ({ f with fitness := o.fitness }, .throw "logic_error") := by
  revert hf
  unfold initWith
  cases I.clone p with
  | throw w => intro h; cases h
  | ub => intro h; cases h
  | ok q =>
    simp only
    cases I.size q with
    | throw w => intro h; cases h
    | ub => intro h; cases h
    | ok s =>
      simp only
      rcases hc : I.setChromosome p (List.replicate s false) with ⟨c, r⟩
      cases r with
      | throw w => intro h; cases h
      | ub => intro h; cases h
      | ok u =>
        simp only [fresh, Bool.false_eq_true, if_false]
        rw [if_pos hi]
        rintro ⟨⟩
        obtain ⟨i1, _, _, _, _, _⟩ := o
        cases (hi : i1 = true)
        rfl

/-- The calls that need an initialized individual. -/
def Needs (st : Store P R) (i : Nat) : Op P R → Prop
  | .getParameters k => k = i
  | .getChromosome k => k = i
  | .setRandom k _ _ => k = i
  | .crossover k j _ => k = i ∧ j < st.length
  | .mutate k _ _ => k = i
  | .isValid k => k = i
  | .read k _ _ => k = i
  | _ => False

theorem set_same {st : Store P R} {i : Nat} {o : Obj P R} (h : st[i]? = some o) : st.set i o = st := by
  obtain ⟨hlt, rfl⟩ := List.getElem?_eq_some_iff.1 h
  exact List.set_getElem_self hlt

/-- **C125 (not initialized).** On an individual that is not initialized the calls that need it throw `logic_error` and change nothing. -/
theorem C125_uninitialized (I : ParamsI P) {st : Store P R} {i : Nat} {o : Obj P R} (ho : st[i]? = some o) (hi : o.init = false) {op : Op P R} (hop : Needs st i op) :
    step I st op = (st, .throw "logic_error") := by
  cases op with
  | new => exact hop.elim
  | newWith p => exact hop.elim
  | copy i => exact hop.elim
  | assign i j => exact hop.elim
  | initialise i p => exact hop.elim
  | getParameters k => cases hop; simp [step, on, ho, getParameters, hi, Res.bind, set_same ho]
  | getChromosome k => cases hop; simp [step, on, ho, getChromosome, hi, Res.bind, set_same ho]
  | setRandom k d n => cases hop; simp [step, on, ho, setRandom, hi, Res.bind, set_same ho]
  | crossover k j l =>
    obtain ⟨rfl, hj⟩ := hop
    simp [step, crossover, ho, List.getElem?_eq_getElem hj, hi]
  | mutate k m n => cases hop; simp [step, on, ho, mutate, hi, Res.bind, set_same ho]
  | hasFitness i => exact hop.elim
  | getFitness i => exact hop.elim
  | setFitness i x => exact hop.elim
  | increaseTimes i => exact hop.elim
  | resetTimes i => exact hop.elim
  | getTimes i => exact hop.elim
  | isValid k => cases hop; simp [step, on, ho, isValid, hi, Res.bind, set_same ho]
  | read k w x => cases hop; simp [step, on, ho, read, getChromosome, hi, Res.bind, set_same ho]

/-- **C125 (assignment).** Assignment makes the target equal to the source, with a clone of its parameters - except that a source without parameters leaves the target its own - or
throws what `Clone` throws and changes nothing. -/
theorem C125_assign (I : ParamsI P) {st : Store P R} {i j : Nat} {o a : Obj P R} (ho : st[i]? = some o) (ha : st[j]? = some a) (hij : i ≠ j) :
    step I st (.assign i j) =
      match a.params with
      | none => (st.set i { a with params := o.params }, .ok .unit)
      | some p =>
        match I.clone p with
        | .ok q => (st.set i { a with params := some q }, .ok .unit)
        | .throw w => (st, .throw w)
        | .ub => (st, .ub) := by
  simp only [step, ha, on, ho, if_neg hij, assign]
  cases a.params with
  | none => rfl
  | some p =>
    simp only
    cases I.clone p with
    | ok q => rfl
    | throw w => simp only [set_same ho, Res.bind]
    | ub => simp only [set_same ho, Res.bind]

/-- **C125 (fitness dropped).** However `SetRandomChromosome` and `Mutate` on an initialized individual end, and while they run, it has no fitness. -/
theorem C125_drops (I : ParamsI P) {o : Obj P R} (hi : o.init) :
    (∀ draw fuel, getFitness (setRandom I draw fuel o).1 = .throw "logic_error") ∧ ∀ m fuel, getFitness (mutate I m fuel o).1 = .throw "logic_error" := by
  constructor
  · intro draw fuel
    unfold setRandom getFitness
    rw [if_pos hi, (randomLoop_same I draw fuel 0 { o with hasFitness := false }).2.2.2.1]
    rfl
  · intro m fuel
    unfold mutate getFitness
    rw [if_pos hi, (mutateLoop_same I m fuel 0 { o with hasFitness := false }).2.2.2.1]
    rfl

/-- **C125 (crossover of different sizes).** The call throws `invalid_argument`; the only change is that neither individual has a fitness any more. -/
theorem C125_sizes (I : ParamsI P) {st : Store P R} {i j : Nat} {a b : Obj P R} (ha : st[i]? = some a) (hb : st[j]? = some b) (hi : a.init) (hl : a.chrom.length ≠ b.chrom.length)
    (l : Random.Lib) : step I st (.crossover i j l) = ((st.set j { b with hasFitness := false }).set i { a with hasFitness := false }, .throw "invalid_argument") := by
  simp only [step, crossover, ha, hb]
  rw [if_pos hi, if_pos hl]

/-! ## Null pointers -/

/-- An initialized individual has parameters. -/
def Sound (st : Store P R) : Prop := ∀ o ∈ st, o.init → o.params.isSome

theorem Sound.set {st : Store P R} (h : Sound st) (i : Nat) {o' : Obj P R} (ho : o'.init → o'.params.isSome) : Sound (st.set i o') := by
  intro o hm
  rcases List.mem_or_eq_of_mem_set hm with hm | rfl
  · exact h o hm
  · exact ho

theorem Sound.on {α : Type} {st : Store P R} (h : Sound st) (i : Nat) (f : Obj P R → Obj P R × Res α) (g : α → Ans P R)
    (hf : ∀ o, (o.init → o.params.isSome) → (f o).1.init → (f o).1.params.isSome) : Sound (on st i f g).1 := by
  unfold IndividualObj.on
  split
  · exact h
  · next o ho => exact h.set i (hf o (h o (List.mem_of_getElem? ho)))

theorem Same.sound {o o' : Obj P R} (h : Same o o') (ho : o.init → o.params.isSome) : o'.init → o'.params.isSome := by
  intro hi
  rw [h.1] at hi
  exact h.2.1 (ho hi)

theorem initWith_sound (I : ParamsI P) (p : P) (o : Obj P R) (h : o.init → o.params.isSome) : (initWith I p o).1.init → (initWith I p o).1.params.isSome := by
  unfold initWith
  split
  · exact h
  · exact h
  · split
    · exact fun _ => rfl
    · exact fun _ => rfl
    · split
      · exact fun _ => rfl
      · exact fun _ => rfl
      · split
        · exact fun _ => rfl
        · exact fun _ => rfl

theorem assign_sound (I : ParamsI P) (a o : Obj P R) (ha : a.init → a.params.isSome) (ho : o.init → o.params.isSome) : (assign I a o).1.init → (assign I a o).1.params.isSome := by
  unfold assign
  split
  · next e =>
    intro hi
    have := ha hi
    rw [e] at this
    cases this
  · split
    · exact fun _ => rfl
    · exact ho
    · exact ho

theorem setRandom_sound (I : ParamsI P) (draw : Nat → Nat → Bool) (fuel : Nat) (o : Obj P R) (h : o.init → o.params.isSome) :
    (setRandom I draw fuel o).1.init → (setRandom I draw fuel o).1.params.isSome := by
  unfold setRandom
  split
  · exact (randomLoop_same I draw fuel 0 { o with hasFitness := false }).sound h
  · exact h

theorem mutate_sound (I : ParamsI P) (m : Nat → List Bool → List Bool × Res Unit) (fuel : Nat) (o : Obj P R) (h : o.init → o.params.isSome) :
    (mutate I m fuel o).1.init → (mutate I m fuel o).1.params.isSome := by
  unfold mutate
  split
  · exact (mutateLoop_same I m fuel 0 { o with hasFitness := false }).sound h
  · exact h

theorem read_sound (I : ParamsI P) (word : List Char) (x : R) (o : Obj P R) (h : o.init → o.params.isSome) : (read I word x o).1.init → (read I word x o).1.params.isSome := by
  by_cases hg : o.init ∧ word.length = o.chrom.length ∧ ∀ c ∈ word, c = '1' ∨ c = '0'
  · by_cases hx : x < 0
    · rw [C125_negative I hg.1 hg.2.1 hg.2.2 hx]
      exact h
    · rw [read_good I hg.1 hg.2.1 hg.2.2 hx]
      exact (setParams_same I _).1.sound h
  · rw [read_bad I hg]
    exact h

theorem crossover_sound (I : ParamsI P) {st : Store P R} (h : Sound st) (i j : Nat) (l : Random.Lib) : Sound (crossover I st i j l).1 := by
  unfold crossover
  split
  · next a b ha hb =>
    have hA := h a (List.mem_of_getElem? ha)
    have hB := h b (List.mem_of_getElem? hb)
    have hclear : ∀ (ca cb : List Bool), Sound ((st.set j { b with hasFitness := false, chrom := cb }).set i { a with hasFitness := false, chrom := ca }) :=
      fun ca cb => (h.set j (o' := { b with hasFitness := false, chrom := cb }) hB).set i (o' := { a with hasFitness := false, chrom := ca }) hA
    have hp : ∀ o : Obj P R, (o.init → o.params.isSome) → (setParams I o).1.init → (setParams I o).1.params.isSome := fun o ho => (setParams_same I o).1.sound ho
    split
    · simp only
      split
      · exact hclear a.chrom b.chrom
      · split
        · exact hclear a.chrom b.chrom
        · exact hclear a.chrom b.chrom
        · next d _ =>
          have h1 := (hclear (Indiv.crossAt d.1.toNat a.chrom b.chrom).1 (Indiv.crossAt d.1.toNat a.chrom b.chrom).2).on i (setParams I) (fun _ => .unit) hp
          split
          · next e =>
            rw [e] at h1
            have h2 := Sound.on h1 j (setParams I) (fun _ => .unit) hp
            split
            · next e =>
              rw [e] at h2
              have h3 := Sound.on h2 i (fun o => (o, check I o)) .flag (fun o ho => ho)
              split
              · next e =>
                rw [e] at h3
                exact Sound.on h3 j (fun o => (o, check I o)) .flag (fun o ho => ho)
              · exact h3
            · exact h2
          · exact h1
    · exact h
  · exact h

theorem make_sound {st : Store P R} (h : Sound st) (r : Obj P R × Res Unit) (hr : r.1.init → r.1.params.isSome) : Sound (make st r).1 := by
  unfold make
  split
  · intro o hm
    rcases List.mem_append.1 hm with hm | hm
    · exact h o hm
    · rw [List.mem_singleton.1 hm]
      exact hr
  · exact h
  · exact h

theorem step_sound (I : ParamsI P) {st : Store P R} (h : Sound st) (op : Op P R) : Sound (step I st op).1 := by
  have hfresh : (fresh : Obj P R).init → (fresh : Obj P R).params.isSome := by intro h; cases h
  cases op with
  | new => exact make_sound h _ hfresh
  | newWith p => exact make_sound h _ (initWith_sound I p fresh hfresh)
  | copy i =>
    show Sound (match st[i]? with | none => (st, Res.ub) | some a => make st (assign I a fresh)).1
    split
    · exact h
    · next a ha => exact make_sound h _ (assign_sound I a fresh (h a (List.mem_of_getElem? ha)) hfresh)
  | assign i j =>
    show Sound (match st[j]? with | none => (st, Res.ub) | some a => on st i (fun o => if i = j then (o, .ok ()) else assign I a o) fun _ => .unit).1
    split
    · exact h
    · next a ha =>
      refine h.on i _ _ fun o ho => ?_
      split
      · exact ho
      · exact assign_sound I a o (h a (List.mem_of_getElem? ha)) ho
  | initialise i p => exact h.on i _ _ (initWith_sound I p)
  | getParameters i => exact h.on i _ _ fun o ho => ho
  | getChromosome i => exact h.on i _ _ fun o ho => ho
  | setRandom i draw fuel => exact h.on i _ _ (setRandom_sound I draw fuel)
  | crossover i j l => exact crossover_sound I h i j l
  | mutate i m fuel => exact h.on i _ _ (mutate_sound I m fuel)
  | hasFitness i => exact h.on i _ _ fun o ho => ho
  | getFitness i => exact h.on i _ _ fun o ho => ho
  | setFitness i x =>
    refine h.on i _ _ fun o ho => ?_
    unfold setFitness
    split <;> exact ho
  | increaseTimes i => exact h.on i _ _ fun o ho => ho
  | resetTimes i => exact h.on i _ _ fun o ho => ho
  | getTimes i => exact h.on i _ _ fun o ho => ho
  | isValid i => exact h.on i _ _ fun o ho => ho
  | read i word x => exact h.on i _ _ (read_sound I word x)

theorem reach_sound {I : ParamsI P} {allowed : Op P R → Prop} {st : Store P R} {cr : Credits R} (h : Reach I allowed st cr) : Sound st := by
  induction h with
  | start => intro o hm; cases hm
  | call op _ _ _ ih => exact step_sound I ih op

/-- User code without undefined behaviour. -/
structure ParamsI.Safe (I : ParamsI P) : Prop where
  clone : ∀ p, I.clone p ≠ .ub
  size : ∀ p, I.size p ≠ .ub
  check : ∀ p, I.check p ≠ .ub
  setChromosome : ∀ p c, (I.setChromosome p c).2 ≠ .ub
  setFrom : ∀ p c, (I.setFrom p c).2 ≠ .ub

/-- The objects a call uses exist, mutators are free of undefined behaviour, and chromosomes to be crossed over are not empty (nor longer than an `int` can tell). -/
def Proper (st : Store P R) : Op P R → Prop
  | .new => True
  | .newWith _ => True
  | .assign i j => i < st.length ∧ j < st.length
  | .crossover i j _ => ∃ a b, st[i]? = some a ∧ st[j]? = some b ∧ 1 ≤ a.chrom.length ∧ a.chrom.length ≤ 2147483647
  | .mutate i m _ => i < st.length ∧ ∀ k c, (m k c).2 ≠ .ub
  | .copy i => i < st.length
  | .initialise i _ => i < st.length
  | .getParameters i => i < st.length
  | .getChromosome i => i < st.length
  | .setRandom i _ _ => i < st.length
  | .hasFitness i => i < st.length
  | .getFitness i => i < st.length
  | .setFitness i _ => i < st.length
  | .increaseTimes i => i < st.length
  | .resetTimes i => i < st.length
  | .getTimes i => i < st.length
  | .isValid i => i < st.length
  | .read i _ _ => i < st.length

theorem bind_ne_ub {α β : Type} {r : Res α} (h : r ≠ .ub) (g : α → β) : (r.bind fun a => .ok (g a)) ≠ .ub := by
  cases r with
  | ok a => intro e; cases e
  | throw w => intro e; cases e
  | ub => exact absurd rfl h

theorem on_ne_ub {α : Type} {st : Store P R} {i : Nat} (hi : i < st.length) {f : Obj P R → Obj P R × Res α} {g : α → Ans P R} (hf : ∀ o ∈ st, (f o).2 ≠ .ub) : (on st i f g).2 ≠ .ub := by
  unfold on
  rw [List.getElem?_eq_getElem hi]
  exact bind_ne_ub (hf _ (List.getElem_mem hi)) g

theorem setParams_ne_ub {I : ParamsI P} (hI : I.Safe) {o : Obj P R} (ho : o.init → o.params.isSome) : (setParams I o).2 ≠ .ub := by
  unfold setParams
  split
  · next hi =>
    split
    · next e =>
      have := ho hi
      rw [e] at this
      cases this
    · exact hI.setFrom _ _
  · intro h; cases h

theorem check_ne_ub {I : ParamsI P} (hI : I.Safe) {o : Obj P R} (ho : o.params.isSome) : check I o ≠ .ub := by
  unfold check
  split
  · next e =>
    rw [e] at ho
    cases ho
  · exact hI.check _

theorem randomLoop_ne_ub {I : ParamsI P} (hI : I.Safe) (draw : Nat → Nat → Bool) : ∀ (fuel k : Nat) (o : Obj P R), o.params.isSome → (randomLoop I draw fuel k o).2 ≠ .ub
  | 0, _, o, _ => by intro h; cases h
  | fuel + 1, k, o, ho => by
    unfold randomLoop
    have h1 := setParams_ne_ub (o := { o with chrom := (List.range o.chrom.length).map (draw k) }) hI fun _ => ho
    have h2 := (setParams_same I { o with chrom := (List.range o.chrom.length).map (draw k) }).1.2.1 ho
    split
    · intro h; cases h
    · next e => rw [e] at h1; exact absurd rfl h1
    · next o' e =>
      rw [e] at h2
      split
      · intro h; cases h
      · next e => exact absurd e (check_ne_ub hI h2)
      · intro h; cases h
      · exact randomLoop_ne_ub hI draw fuel (k + 1) o' h2

theorem mutateLoop_ne_ub {I : ParamsI P} (hI : I.Safe) (m : Nat → List Bool → List Bool × Res Unit) (hm : ∀ k c, (m k c).2 ≠ .ub) :
    ∀ (fuel k : Nat) (o : Obj P R), o.params.isSome → (mutateLoop I m fuel k o).2 ≠ .ub
  | 0, _, o, _ => by intro h; cases h
  | fuel + 1, k, o, ho => by
    unfold mutateLoop
    split
    · intro h; cases h
    · next e => exact absurd (by rw [e]) (hm k o.chrom)
    · next c _ =>
      have h1 := setParams_ne_ub (o := { o with chrom := c }) hI fun _ => ho
      have h2 := (setParams_same I { o with chrom := c }).1.2.1 ho
      split
      · intro h; cases h
      · next e => rw [e] at h1; exact absurd rfl h1
      · next o' e =>
        rw [e] at h2
        split
        · intro h; cases h
        · next e => exact absurd e (check_ne_ub hI h2)
        · intro h; cases h
        · exact mutateLoop_ne_ub hI m hm fuel (k + 1) o' h2

theorem initWith_ne_ub {I : ParamsI P} (hI : I.Safe) (p : P) (o : Obj P R) : (initWith I p o).2 ≠ .ub := by
  unfold initWith
  split
  · intro h; cases h
  · next e => exact absurd e (hI.clone _)
  · split
    · intro h; cases h
    · next e => exact absurd e (hI.size _)
    · split
      · intro h; cases h
      · next e => exact absurd (by rw [e]) (hI.setChromosome p _)
      · split <;> (intro h; cases h)

theorem assign_ne_ub {I : ParamsI P} (hI : I.Safe) (a o : Obj P R) : (assign I a o).2 ≠ .ub := by
  unfold assign
  split
  · intro h; cases h
  · split
    · intro h; cases h
    · intro h; cases h
    · next e => exact absurd e (hI.clone _)

theorem make_ne_ub {st : Store P R} {r : Obj P R × Res Unit} (h : r.2 ≠ .ub) : (make st r).2 ≠ .ub := by
  unfold make
  split
  · intro h; cases h
  · intro h; cases h
  · next e => exact absurd e h

theorem on_length {α : Type} (st : Store P R) (i : Nat) (f : Obj P R → Obj P R × Res α) (g : α → Ans P R) : (on st i f g).1.length = st.length := by
  unfold on
  split
  · rfl
  · simp

theorem on_init {α : Type} {st : Store P R} {j : Nat} {f : Obj P R → Obj P R × Res α} {g : α → Ans P R} (hf : ∀ o, (f o).1.init = o.init) {i : Nat}
    (h : ∀ o, st[i]? = some o → o.init) : ∀ o, (on st j f g).1[i]? = some o → o.init := by
  unfold on
  split
  · exact h
  · next p hp =>
    intro o ho
    by_cases hij : j = i
    · subst hij
      rw [List.getElem?_set_self (List.getElem?_eq_some_iff.1 hp).1] at ho
      cases ho
      rw [hf]
      exact h p hp
    · rw [List.getElem?_set_ne hij] at ho
      exact h o ho

theorem setParams_on_init {I : ParamsI P} {st : Store P R} {j : Nat} {g : Unit → Ans P R} {x : Ans P R} (h : (on st j (setParams I) g).2 = .ok x) :
    ∀ o, (on st j (setParams I) g).1[j]? = some o → o.init := by
  revert h
  unfold on
  split
  · intro h; cases h
  · next p hp =>
    intro h o ho
    rw [List.getElem?_set_self (List.getElem?_eq_some_iff.1 hp).1] at ho
    cases ho
    have hi : p.init := by
      by_contra hc
      unfold setParams at h
      rw [if_neg hc] at h
      cases h
    rw [(setParams_same I p).1.1]
    exact hi

theorem check_on_ne_ub {I : ParamsI P} (hI : I.Safe) {st : Store P R} (h : Sound st) {i : Nat} (hl : i < st.length) (hi : ∀ o, st[i]? = some o → o.init) :
    (on st i (fun o => (o, check I o)) .flag).2 ≠ .ub := by
  unfold on
  rw [List.getElem?_eq_getElem hl]
  exact bind_ne_ub (check_ne_ub hI (h _ (List.getElem_mem hl) (hi _ (List.getElem?_eq_getElem hl)))) _

theorem crossover_ne_ub {I : ParamsI P} (hI : I.Safe) {st : Store P R} (h : Sound st) {i j : Nat} {a b : Obj P R} (ha : st[i]? = some a) (hb : st[j]? = some b)
    (h1 : 1 ≤ a.chrom.length) (h2 : a.chrom.length ≤ 2147483647) (l : Random.Lib) : (crossover I st i j l).2 ≠ .ub := by
  have hA := h a (List.mem_of_getElem? ha)
  have hB := h b (List.mem_of_getElem? hb)
  have hil := (List.getElem?_eq_some_iff.1 ha).1
  have hjl := (List.getElem?_eq_some_iff.1 hb).1
  have hp : ∀ o : Obj P R, (o.init → o.params.isSome) → (setParams I o).1.init → (setParams I o).1.params.isSome := fun o ho => (setParams_same I o).1.sound ho
  have hpi : ∀ o : Obj P R, (setParams I o).1.init = o.init := fun o => (setParams_same I o).1.1
  unfold crossover
  rw [ha, hb]
  simp only
  split
  · next hai =>
    split
    · intro h; cases h
    · next hlen =>
      split
      · intro h; cases h
      · next e =>
        exfalso
        have e1 : int32 ((a.chrom.length : Int) - 1) = .ok ((a.chrom.length : Int) - 1) := by
          unfold int32
          rw [if_pos ⟨by omega, by omega⟩]
        rw [e1] at e
        obtain ⟨v, l', hr, _⟩ := Random.C36_discrete_range l 0 ((a.chrom.length : Int) - 1) ⟨by omega, by omega, by omega, by omega⟩
        rw [Res.ok_bind, hr] at e
        cases e
      · next d _ =>
        have hs : Sound ((st.set j { b with hasFitness := false, chrom := (Indiv.crossAt d.1.toNat a.chrom b.chrom).2 }).set i
            { a with hasFitness := false, chrom := (Indiv.crossAt d.1.toNat a.chrom b.chrom).1 }) :=
          (h.set j (o' := { b with hasFitness := false, chrom := (Indiv.crossAt d.1.toNat a.chrom b.chrom).2 }) hB).set i
            (o' := { a with hasFitness := false, chrom := (Indiv.crossAt d.1.toNat a.chrom b.chrom).1 }) hA
        have hlen : ((st.set j { b with hasFitness := false, chrom := (Indiv.crossAt d.1.toNat a.chrom b.chrom).2 }).set i
            { a with hasFitness := false, chrom := (Indiv.crossAt d.1.toNat a.chrom b.chrom).1 }).length = st.length := by simp
        revert hs hlen
        generalize ((st.set j { b with hasFitness := false, chrom := (Indiv.crossAt d.1.toNat a.chrom b.chrom).2 }).set i
            { a with hasFitness := false, chrom := (Indiv.crossAt d.1.toNat a.chrom b.chrom).1 }) = s0
        intro hs hlen
        have n1 := on_ne_ub (st := s0) (i := i) (by omega) (f := setParams I) (g := fun _ => .unit) fun o ho => setParams_ne_ub hI (hs o ho)
        have s1 := hs.on i (setParams I) (fun _ => .unit) hp
        have i1 := fun x => setParams_on_init (I := I) (st := s0) (j := i) (g := fun _ => .unit) (x := x)
        have l1 := on_length s0 i (setParams I) (fun _ => .unit)
        split
        · next s1' u e =>
          rw [e] at s1 i1 l1
          have l1 : s1'.length = st.length := l1.trans hlen
          have i1 := i1 _ rfl
          have n2 := on_ne_ub (st := s1') (i := j) (by omega) (f := setParams I) (g := fun _ => .unit) fun o ho => setParams_ne_ub hI (s1 o ho)
          have s2 := Sound.on s1 j (setParams I) (fun _ => .unit) hp
          have i2 := on_init (j := j) (f := setParams I) (g := fun _ => .unit) hpi i1
          have j2 := fun x => setParams_on_init (I := I) (st := s1') (j := j) (g := fun _ => .unit) (x := x)
          have l2 := on_length s1' j (setParams I) (fun _ => .unit)
          split
          · next s2' u' e =>
            rw [e] at s2 i2 j2 l2
            have l2 : s2'.length = st.length := l2.trans l1
            have j2 := j2 _ rfl
            have n3 := check_on_ne_ub hI s2 (i := i) (by omega) i2
            have s3 := Sound.on s2 i (fun o => (o, check I o)) .flag (fun o ho => ho)
            have j3 := on_init (j := i) (f := fun o => (o, check I o)) (g := Ans.flag) (fun _ => rfl) j2
            have l3 := on_length s2' i (fun o => (o, check I o)) .flag
            split
            · next s3' e =>
              rw [e] at s3 j3 l3
              have l3 : s3'.length = st.length := l3.trans l2
              exact check_on_ne_ub hI s3 (by omega) j3
            · exact n3
          · exact n2
        · exact n1
  · intro h; cases h

/-- **C125 (no null pointers).** After any sequence of calls - careless ones included - a proper call is defined: an initialized individual always has parameters. -/
theorem C125_defined {I : ParamsI P} (hI : I.Safe) {allowed : Op P R → Prop} {st : Store P R} {cr : Credits R} (h : Reach I allowed st cr) {op : Op P R} (hop : Proper st op) :
    (step I st op).2 ≠ .ub := by
  have hs := reach_sound h
  have triv : ∀ {α : Type} (i : Nat) (hi : i < st.length) (f : Obj P R → Obj P R × Res α) (g : α → Ans P R), (∀ o ∈ st, (f o).2 ≠ .ub) → (on st i f g).2 ≠ .ub :=
    fun i hi f g hf => on_ne_ub hi hf
  cases op with
  | new => intro h; cases h
  | newWith p => exact make_ne_ub (initWith_ne_ub hI p fresh)
  | copy i =>
    show (match st[i]? with | none => (st, Res.ub) | some a => make st (assign I a fresh)).2 ≠ .ub
    rw [List.getElem?_eq_getElem hop]
    exact make_ne_ub (assign_ne_ub hI _ _)
  | assign i j =>
    show (match st[j]? with | none => (st, Res.ub) | some a => on st i (fun o => if i = j then (o, .ok ()) else assign I a o) fun _ => .unit).2 ≠ .ub
    rw [List.getElem?_eq_getElem hop.2]
    refine triv i hop.1 _ _ fun o _ => ?_
    split
    · intro h; cases h
    · exact assign_ne_ub hI _ _
  | initialise i p => exact triv i hop _ _ fun o _ => initWith_ne_ub hI p o
  | getParameters i => exact triv i hop _ _ fun o _ => by unfold getParameters; split <;> (intro h; cases h)
  | getChromosome i => exact triv i hop _ _ fun o _ => by unfold getChromosome; split <;> (intro h; cases h)
  | setRandom i draw fuel =>
    refine triv i hop _ _ fun o ho => ?_
    unfold setRandom
    split
    · next hi => exact randomLoop_ne_ub hI draw fuel 0 _ (hs o ho hi)
    · intro h; cases h
  | crossover i j l =>
    obtain ⟨a, b, ha, hb, h1, h2⟩ := hop
    exact crossover_ne_ub hI hs ha hb h1 h2 l
  | mutate i m fuel =>
    refine triv i hop.1 _ _ fun o ho => ?_
    unfold mutate
    split
    · next hi => exact mutateLoop_ne_ub hI m hop.2 fuel 0 _ (hs o ho hi)
    · intro h; cases h
  | hasFitness i => exact triv i hop _ _ fun o _ => by intro h; cases h
  | getFitness i => exact triv i hop _ _ fun o _ => by unfold getFitness; split <;> (intro h; cases h)
  | setFitness i x => exact triv i hop _ _ fun o _ => by unfold setFitness; split <;> (intro h; cases h)
  | increaseTimes i => exact triv i hop _ _ fun o _ => by intro h; cases h
  | resetTimes i => exact triv i hop _ _ fun o _ => by intro h; cases h
  | getTimes i => exact triv i hop _ _ fun o _ => by intro h; cases h
  | isValid i =>
    refine triv i hop _ _ fun o ho => ?_
    unfold isValid
    split
    · next hi => exact check_ne_ub hI (hs o ho hi)
    · intro h; cases h
  | read i word x =>
    refine triv i hop _ _ fun o ho => ?_
    by_cases hg : o.init ∧ word.length = o.chrom.length ∧ ∀ c ∈ word, c = '1' ∨ c = '0'
    · by_cases hx : x < 0
      · rw [C125_negative I hg.1 hg.2.1 hg.2.2 hx]
        intro h; cases h
      · rw [read_good I hg.1 hg.2.1 hg.2.2 hx]
        exact setParams_ne_ub hI (hs o ho)
    · rw [read_bad I hg]
      intro h; cases h

/-- **C125 (empty chromosomes).** Crossing over two initialized individuals with empty chromosomes is undefined (a division by zero). -/
theorem C125_empty (I : ParamsI P) {st : Store P R} {i j : Nat} {a b : Obj P R} (ha : st[i]? = some a) (hb : st[j]? = some b) (hi : a.init) (h1 : a.chrom = []) (h2 : b.chrom = [])
    (l : Random.Lib) : (step I st (.crossover i j l)).2 = .ub := by
  simp only [step, crossover, ha, hb]
  rw [if_pos hi, if_neg (by simp [h1, h2]), h1, show int32 ((([] : List Bool).length : Int) - 1) = .ok (-1) from rfl, Res.ok_bind]
  rw [show Random.discrete l 0 (-1) = .ub from rfl]

/-! ## Concrete cases -/

section Examples

/-- Parameters of two bits: the decoded number 0-3; 3 violates the constraints, and 9 cannot be encoded. -/
def two : ParamsI Nat where
  clone p := .ok p
  size _ := .ok 2
  check p := .ok (p ≠ 3)
  setChromosome p c := if p = 9 then (c, .throw "invalid_argument") else ([p / 2 % 2 = 1, p % 2 = 1], .ok ())
  setFrom _ c := (c.foldl (fun n b => 2 * n + cond b 1 0) 0, .ok ())

theorem two_safe : two.Safe where
  clone _ := by intro h; cases h
  size _ := by intro h; cases h
  check _ := by intro h; cases h
  setChromosome p c := by unfold two; dsimp only; split <;> (intro h; cases h)
  setFrom _ _ := by intro h; cases h

/-- Calls one after the other. -/
def run (I : ParamsI P) : List (Op P R) → Store P R × Credits R → Store P R × Credits R
  | [], s => s
  | op :: ops, s => run I ops ((step I s.1 op).1, credit s.1 op (step I s.1 op).2 s.2)

/-- Two individuals, a fitness copied, a mutation that goes through an invalid chromosome: the mutated one has no fitness, the other one has its own. -/
def history : List (Op Nat ℤ) :=
  [.newWith 1, .setFitness 0 7, .new, .assign 1 0, .mutate 0 (fun k _ => ([true, decide (k = 0)], .ok ())) 5, .increaseTimes 0]

example : (run two history ([], [])).1.map (fun o => (o.init, o.params, o.times, o.chrom, o.hasFitness, o.fitness)) =
      [(true, some 2, 1, [true, false], false, 7), (true, some 1, 0, [false, true], true, 7)] ∧
    (run two history ([], [])).2 = [some ([false, true], 7), some ([false, true], 7)] := ⟨by decide +kernel, by rfl⟩

/-- The history is a reachable one without careless calls. -/
example : Reach two (fun op => ¬ Careless two op) (run two history ([], [])).1 (run two history ([], [])).2 := by
  have h0 := Reach.start (I := two) (R := ℤ) (allowed := fun op => ¬ Careless two op)
  have h1 := h0.call (.newWith 1) (fun h => h) (by intro h; cases h)
  have h2 := h1.call (.setFitness 0 7) (fun h => h) (by intro h; cases h)
  have h3 := h2.call .new (fun h => h) (by intro h; cases h)
  have h4 := h3.call (.assign 1 0) (fun h => h) (by intro h; cases h)
  have h5 := h4.call (.mutate 0 (fun k _ => ([true, decide (k = 0)], .ok ())) 5) (fun h => h) (by intro h; cases h)
  exact h5.call (.increaseTimes 0) (fun h => h) (by intro h; cases h)

/-- A negative fitness in a text: the chromosome is now 00, the fitness still that of 01. -/
example : (run two ([.newWith 1, .setFitness 0 7, .read 0 ['0', '0'] (-1)] : List (Op Nat ℤ)) ([], [])).1.map (fun o => (o.params, o.chrom, o.hasFitness, o.fitness)) =
    [(some 1, [false, false], true, 7)] := by decide +kernel

/-- Parameters that cannot be encoded: fitness 7 stays with another chromosome. -/
example : (run two ([.newWith 1, .setFitness 0 7, .initialise 0 9] : List (Op Nat ℤ)) ([], [])).1.map (fun o => (o.params, o.chrom, o.hasFitness, o.fitness)) =
    [(some 9, [false, false], true, 7)] := by decide +kernel

/-- An individual crossed over with itself. -/
example : ((step two [(⟨true, some 1, 0, [false, true], true, 7⟩ : Obj Nat ℤ)] (.crossover 0 0 ⟨7, fun _ => 1⟩)).1.map fun o => (o.params, o.chrom, o.hasFitness)) =
    [(some 1, [false, true], false)] := by decide +kernel

end Examples

end K52.IndividualObj
