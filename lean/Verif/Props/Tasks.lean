import Verif.Model.Tasks
import Verif.Props.Processors
import Verif.Props.Search
import Verif.Props.HookeJeeves
import Verif.Props.NelderMead
import Verif.Props.GradientProg
import Verif.Props.Transfer

/-!
# C82–C84: cloned optimizers, optimization tasks, multi-start search and remote optimization
-/

set_option linter.unusedSectionVars false

namespace K52.Tasks
variable {P : Type}

/-! ### Specification -/

/-- What an optimizer remembers of earlier calls. -/
def Method.memory : Method → List (List (List ℝ))
  | .nelderMead _ previous => previous
  | _ => []

/-- The same settings in an object that has not been used. -/
def IsFresh (m m' : Method) : Prop := m'.settings = m.settings ∧ m'.memory = []

/-- Optimizing `p` for `f` with `m` returns, leaving `q`. -/
def Leads (e : Env) (m : Method) (f : List ℝ → ℝ) (maximize : Bool) (p q : CParams ℝ) : Prop :=
  ∃ m', m.optimizeCont e f p maximize = .ok (q, m')

/-- `v` is at least as good as `w`. -/
def AtLeast (maximize : Bool) (v w : ℝ) : Prop := if maximize then w ≤ v else v ≤ w

/-! ### Clone -/

theorem method_ext {m m' : Method} (hs : m.settings = m'.settings) (hm : m.memory = m'.memory) : m = m' := by
  cases m <;> cases m' <;> simp only [Method.settings, Method.memory, reduceCtorEq, Transfer.Optimizer.nelderMead.injEq,
    Transfer.Optimizer.hookeJeeves.injEq, Transfer.Optimizer.rosenbrock.injEq, Transfer.Optimizer.steepestDescent.injEq,
    Transfer.Optimizer.conjugateGradient.injEq] at hs hm
  case nelderMead.nelderMead a b c d =>
    obtain ⟨_, _, _, _⟩ := a; obtain ⟨_, _, _, _⟩ := c; simp_all
  case hookeJeeves.hookeJeeves a c => obtain ⟨_, _, _, _, _⟩ := a; obtain ⟨_, _, _, _, _⟩ := c; simp_all
  case rosenbrock.rosenbrock a c => obtain ⟨_, _, _, _⟩ := a; obtain ⟨_, _, _, _⟩ := c; simp_all
  case steepestDescent.steepestDescent a c => obtain ⟨_, _, _⟩ := a; obtain ⟨_, _, _⟩ := c; simp_all
  case conjugateGradient.conjugateGradient a c => obtain ⟨_, _, _⟩ := a; obtain ⟨_, _, _⟩ := c; simp_all

theorem clone_method (m : Method) : ∃ m', (Optimizer.method m).clone = .ok m' ∧ IsFresh m m' := by
  cases m <;> exact ⟨_, rfl, rfl, rfl⟩

theorem IsFresh.unique {m a b : Method} (ha : IsFresh m a) (hb : IsFresh m b) : a = b :=
  method_ext (ha.1.trans hb.1.symm) (ha.2.trans hb.2.symm)

/-- **C82 (clones).** Cloning an optimizer gives an object with the same settings that remembers nothing of earlier calls, for the five
methods; for simulated annealing, random search, grid search and the genetic algorithm it throws `std::logic_error`. -/
theorem C82_clone (o : Optimizer) (c : Method) :
    (o.clone = .ok c ↔ ∃ m, o = .method m ∧ c.settings = m.settings ∧ c.memory = []) ∧
    ((∀ m, o ≠ .method m) → o.clone = .throw "logic_error") := by
  refine ⟨⟨fun h => ?_, ?_⟩, fun h => ?_⟩
  · cases o with
    | method m =>
      obtain ⟨m', e, hf⟩ := clone_method m
      rw [h] at e
      obtain rfl : c = m' := by simpa using e
      exact ⟨m, rfl, hf⟩
    | _ => exact absurd h (by simp [Optimizer.clone])
  · rintro ⟨m, rfl, hf⟩
    obtain ⟨m', e, hf'⟩ := clone_method m
    rw [e, IsFresh.unique hf hf']
  · cases o with
    | method m => exact absurd rfl (h m)
    | _ => rfl

/-- **C82 (history).** So two optimizers with the same settings have the same clones, however they were used before. -/
theorem C82_clone_history (m m' : Method) (h : m.settings = m'.settings) : (Optimizer.method m).clone = (Optimizer.method m').clone := by
  obtain ⟨c, e, hc⟩ := clone_method m
  obtain ⟨c', e', hc'⟩ := clone_method m'
  rw [e, e', IsFresh.unique hc ⟨hc'.1.trans h.symm, hc'.2⟩]

/-! ### Wrong arguments -/

/-- **C82 (wrong arguments).** A continuous optimizer given parameters that are not continuous throws `std::logic_error` whatever the
function; given continuous parameters and a function that is not continuous it throws `std::bad_cast`.  A discrete optimizer likewise.  A
continuous (discrete) function called on other parameters throws `std::logic_error`. -/
theorem C82_wrong_arguments (e : Env) (m : Method) (run : (P → ℝ) → P → Bool → Res P) (f : Fn P) (p : Pars P) (maximize : Bool) :
    ((∀ q, p ≠ .cont q) → m.optimize e f p maximize = .throw "logic_error") ∧
    (∀ q, p = .cont q → (∀ g, f ≠ .cont g) → m.optimize e f p maximize = .throw "bad_cast") ∧
    ((∀ q, p ≠ .disc q) → optimizeDiscrete run f p maximize = .throw "logic_error") ∧
    (∀ q, p = .disc q → (∀ g, f ≠ .disc g) → optimizeDiscrete run f p maximize = .throw "bad_cast") ∧
    (∀ g, f = .cont g → (∀ q, p ≠ .cont q) → f.call p = .throw "logic_error") ∧
    (∀ g, f = .disc g → (∀ q, p ≠ .disc q) → f.call p = .throw "logic_error") := by
  refine ⟨fun h => ?_, ?_, fun h => ?_, ?_, ?_, ?_⟩
  · cases p with
    | cont q => exact absurd rfl (h q)
    | disc q => rfl
    | other => rfl
  · rintro q rfl h
    cases f with
    | cont g => exact absurd rfl (h g)
    | disc g => rfl
    | own g => rfl
  · cases p with
    | disc q => exact absurd rfl (h q)
    | cont q => rfl
    | other => rfl
  · rintro q rfl h
    cases f with
    | disc g => exact absurd rfl (h g)
    | cont g => rfl
    | own g => rfl
  · rintro g rfl h
    cases p with
    | cont q => exact absurd rfl (h q)
    | disc q => rfl
    | other => rfl
  · rintro g rfl h
    cases p with
    | disc q => exact absurd rfl (h q)
    | cont q => rfl
    | other => rfl

/-! ### The optimizing processor -/

theorem each_ok {α β : Type} (f : α → Res β) : ∀ (as : List α) (bs : List β), each f as = .ok bs ↔ List.Forall₂ (fun a b => f a = .ok b) as bs
  | [], bs => by
    simp only [each, Res.ok.injEq]
    constructor
    · rintro rfl; exact .nil
    · rintro ⟨⟩; rfl
  | a :: as, bs => by
    simp only [each, Res.bind_eq_ok, Res.pure_eq, Res.ok.injEq, each_ok f as]
    constructor
    · rintro ⟨b, hb, bs', hbs, rfl⟩; exact .cons hb hbs
    · rintro ⟨⟩; exact ⟨_, by assumption, _, by assumption, rfl⟩

theorem each_congr {α β : Type} {f g : α → Res β} : ∀ {as : List α}, (∀ a ∈ as, f a = g a) → each f as = each g as
  | [], _ => rfl
  | a :: as, h => by
    simp only [each]
    rw [h a (by simp), each_congr fun b hb => h b (by simp [hb])]

theorem forall₂_map_right {α β γ : Type} (r : α → γ → Prop) (g : β → γ) : ∀ {as : List α} {bs : List β},
    List.Forall₂ r as (bs.map g) ↔ List.Forall₂ (fun a b => r a (g b)) as bs := by
  intro as bs
  exact List.forall₂_map_right_iff

/-- **C82 (multi-start optimization).** Optimizing every one of a list of start parameters and keeping the best returns `r` exactly when the
optimizer can be cloned, each start is optimized by an unused optimizer with the same settings and every such call returns, and `r` is the
best of what they return: the first of the best when maximizing, the last when minimizing. -/
theorem C82_process (e : Env) (o : Optimizer) (f : Fn P) (ps : List (Pars P)) (maximize : Bool) (r : Pars P) :
    process e o f ps maximize = .ok r ↔
      ∃ (m : Method) (rs : List (Pars P)) (values : List ℝ) (k : Nat), o.clone = .ok m ∧
        List.Forall₂ (fun p q => ∃ m', m.optimize e f p maximize = .ok (q, m')) ps rs ∧
        List.Forall₂ (fun q v => f.call q = .ok v) rs values ∧ rs[k]? = some r ∧ Processor.BestAt values maximize k := by
  have pick : ∀ (v : ℝ) (vs : List ℝ) (k : Nat), Processor.BestAt (v :: vs) maximize k →
      k = Processor.selectLoop maximize 0 v 1 vs := by
    intro v vs k hk
    obtain ⟨w, hw, hb⟩ := hk
    obtain ⟨w', hw', hb'⟩ := Processor.select_best maximize v vs
    cases maximize
    · simp only [Bool.false_eq_true, if_false] at hb hb'
      have : w = w' := le_antisymm (hb.1 _ _ hw') (hb'.1 _ _ hw)
      subst this
      exact le_antisymm (hb'.2 _ _ hw rfl) (hb.2 _ _ hw' rfl)
    · simp only [if_true] at hb hb'
      have : w = w' := le_antisymm (hb'.1 _ _ hw) (hb.1 _ _ hw')
      subst this
      exact le_antisymm (hb.2 _ _ hw' rfl) (hb'.2 _ _ hw rfl)
  constructor
  · intro h
    simp only [process] at h
    obtain ⟨tasks, h1, h⟩ := Res.bind_eq_ok.1 h
    obtain ⟨performed, h2, h⟩ := Res.bind_eq_ok.1 h
    obtain ⟨values, h3, h⟩ := Res.bind_eq_ok.1 h
    rw [each_ok] at h1 h2 h3
    cases values with
    | nil => simp at h
    | cons v vs =>
      simp only at h
      rcases hk : performed[Processor.selectLoop maximize 0 v 1 vs]? with _ | x
      · rw [hk] at h; simp at h
      rw [hk] at h
      simp only [Res.pure_eq, Res.ok.injEq] at h
      have hm : ∃ m, o.clone = .ok m := by
        cases h1 with
        | nil => cases h2; cases h3
        | cons a _ =>
          simp only [Task.new] at a
          obtain ⟨m, hm, _⟩ := Res.bind_eq_ok.1 a
          exact ⟨m, hm⟩
      obtain ⟨m, hm⟩ := hm
      refine ⟨m, performed.map (·.1), v :: vs, Processor.selectLoop maximize 0 v 1 vs, hm, ?_, ?_, ?_, Processor.select_best _ _ _⟩
      · rw [List.forall₂_map_right_iff]
        have aux : ∀ {ps : List (Pars P)} {ts : List (Task P)} {pf : List (Pars P × Task P)},
            List.Forall₂ (fun p t => Task.new o p f maximize = .ok t) ps ts →
            List.Forall₂ (fun t x => Task.perform e t = .ok x) ts pf →
            List.Forall₂ (fun p (x : Pars P × Task P) => ∃ m', m.optimize e f p maximize = .ok (x.1, m')) ps pf := by
          intro ps ts pf a
          induction a generalizing pf with
          | nil => intro b; cases b; exact .nil
          | cons a _ ih =>
            intro b
            cases b with
            | cons b bs =>
              refine .cons ?_ (ih bs)
              simp only [Task.new, hm, Res.ok_bind, Res.pure_eq, Res.ok.injEq] at a
              subst a
              simp only [Task.perform] at b
              obtain ⟨y, hy, b⟩ := Res.bind_eq_ok.1 b
              simp only [Res.pure_eq, Res.ok.injEq] at b
              subst b
              exact ⟨y.2, hy⟩
        exact aux h1 h2
      · rw [List.forall₂_map_left_iff]; exact h3
      · rw [List.getElem?_map, hk, ← h]; rfl
  · rintro ⟨m, rs, values, k, hm, h1, h2, hk, hb⟩
    have aux : ∀ {ps rs : List (Pars P)}, List.Forall₂ (fun p q => ∃ m', m.optimize e f p maximize = .ok (q, m')) ps rs →
        ∃ (ts : List (Task P)) (pf : List (Pars P × Task P)), each (fun p => Task.new o p f maximize) ps = .ok ts ∧
          each (fun t => Task.perform e t) ts = .ok pf ∧ pf.map (·.1) = rs := by
      intro ps rs a
      induction a with
      | nil => exact ⟨[], [], rfl, rfl, rfl⟩
      | @cons p q _ _ a _ ih =>
        obtain ⟨m', hm'⟩ := a
        obtain ⟨ts, pf, i1, i2, i3⟩ := ih
        refine ⟨⟨f, p, m, maximize⟩ :: ts, (q, ⟨f, q, m', maximize⟩) :: pf, ?_, ?_, by simp [i3]⟩
        · simp only [each, Task.new, hm, Res.ok_bind, Res.pure_eq] at i1 ⊢; rw [i1]; rfl
        · simp only [each, Task.perform, hm', Res.ok_bind, Res.pure_eq] at i2 ⊢; rw [i2]; rfl
    obtain ⟨ts, pf, i1, i2, i3⟩ := aux h1
    have i4 : each (fun r : Pars P × Task P => f.call r.1) pf = .ok values := by
      rw [each_ok]; rw [← i3, List.forall₂_map_left_iff] at h2; exact h2
    simp only [process, i1, i2, i4, Res.ok_bind]
    cases values with
    | nil => obtain ⟨v, hv, _⟩ := hb; simp at hv
    | cons v vs =>
      simp only [← pick v vs k hb]
      rw [← i3, List.getElem?_map] at hk
      rcases hx : pf[k]? with _ | x
      · rw [hx] at hk; simp at hk
      · rw [hx] at hk
        simp only [Option.map_some, Option.some.injEq] at hk
        simp [hk]

/-- **C82 (multi-start, history).** What multi-start optimization returns – or throws – does not depend on how the optimizer passed to it was
used before. -/
theorem C82_process_history (e : Env) (m m' : Method) (h : m.settings = m'.settings) (f : Fn P) (ps : List (Pars P)) (maximize : Bool) :
    process e (.method m) f ps maximize = process e (.method m') f ps maximize := by
  simp only [process, Task.new, C82_clone_history m m' h]

/-- **C82 (multi-start, unsupported).** With an optimizer that cannot be cloned it throws `std::logic_error` – given at least one start; given
none the behaviour is undefined, with any optimizer. -/
theorem C82_process_unsupported (e : Env) (o : Optimizer) (f : Fn P) (ps : List (Pars P)) (maximize : Bool) :
    (ps = [] → process e o f ps maximize = .ub) ∧
    (ps ≠ [] → (∀ m, o ≠ .method m) → process e o f ps maximize = .throw "logic_error") := by
  refine ⟨?_, fun hne ho => ?_⟩
  · rintro rfl; rfl
  · obtain ⟨p, ps, rfl⟩ := List.exists_cons_of_ne_nil hne
    cases o with
    | method m => exact absurd rfl (ho m)
    | _ => rfl

/-! ### Performing a task -/

theorem find_settings (e : Env) (m : Method) (g : List ℝ → ℝ) (x r : List ℝ) (m' : Method)
    (h : (m.find e x).eval g = .ok (r, m')) : m'.settings = m.settings := by
  cases m <;> simp only [Method.find, Prog.eval_bind, Res.bind_eq_ok, Prog.pure_def, Prog.eval_done, Res.ok.injEq, Prod.mk.injEq] at h <;>
    (obtain ⟨_, _, _, rfl⟩ := h; rfl)

theorem optimizeCont_ok {e : Env} {m m' : Method} {f : List ℝ → ℝ} {p q : CParams ℝ} {maximize : Bool}
    (h : m.optimizeCont e f p maximize = .ok (q, m')) :
    (m.find e p.values).eval (ContinuousOptimizer.target maximize f) = .ok (q.values, m') ∧ q.ok = p.ok ∧
      q.values.length = p.values.length := by
  simp only [Method.optimizeCont, CParams.getValues] at h
  rcases hr : ContinuousOptimizer.run maximize f (m.find e p.values) p with ⟨a, x | w | _⟩
  · rw [hr] at h
    simp only at h
    have adm := ContinuousOptimizer.run_ok_inv maximize f _ _ _ _ hr
    have key := ContinuousOptimizer.run_admissible maximize f _ _ adm
    rw [hr] at key
    simp only [Prod.mk.injEq] at key
    have hl : a.values.length = p.values.length := by
      rw [key.1]
      rcases hg : ((m.find e p.values).trace (ContinuousOptimizer.target maximize f)).getLast? with _ | y
      · rfl
      · exact (adm y (List.mem_of_getLast? hg)).1
    by_cases hx : x.1.length = a.values.length
    · rw [CParams.setValues_ok hx] at h
      simp only [Res.ok.injEq, Prod.mk.injEq] at h
      obtain ⟨rfl, rfl⟩ := h
      exact ⟨key.2.symm, by rw [key.1], hx.trans hl⟩
    · simp [CParams.setValues, hx] at h
  · rw [hr] at h; simp at h
  · rw [hr] at h; simp at h

theorem optimizeCont_of {e : Env} {m m' : Method} {f : List ℝ → ℝ} {p : CParams ℝ} {maximize : Bool} {v : List ℝ}
    (hv : (m.find e p.values).eval (ContinuousOptimizer.target maximize f) = .ok (v, m')) (hl : v.length = p.values.length)
    (adm : ∀ x ∈ (m.find e p.values).trace (ContinuousOptimizer.target maximize f), ContinuousOptimizer.Admissible p x) :
    m.optimizeCont e f p maximize = .ok ({ p with values := v }, m') := by
  have key := ContinuousOptimizer.run_admissible maximize f _ _ adm
  have hl' : v.length = (((m.find e p.values).trace (ContinuousOptimizer.target maximize f)).getLast?.getD p.values).length := by
    rw [hl]
    rcases hg : ((m.find e p.values).trace (ContinuousOptimizer.target maximize f)).getLast? with _ | y
    · rfl
    · exact (adm y (List.mem_of_getLast? hg)).1.symm
  have hset : ∀ w : List ℝ, v.length = w.length → (CParams.mk w p.ok).setValues v = (⟨v, p.ok⟩, .ok ()) :=
    fun w hw => CParams.setValues_ok (p := ⟨w, p.ok⟩) hw
  simp only [Method.optimizeCont, CParams.getValues]
  rw [key, hv]
  simp only
  rw [hset _ hl']

/-- **C82 (performing a task).** A task whose `Perform` returns holds the result as its new start and an optimizer with the same settings; so
performing it again continues from the first result, with whatever the optimizer remembers, instead of repeating the first run. -/
theorem C82_perform (e : Env) (t t' : Task P) (r : Pars P) (h : t.perform e = .ok (r, t')) :
    t'.pars = r ∧ t'.fn = t.fn ∧ t'.maximize = t.maximize ∧ t'.method.settings = t.method.settings ∧
    t.method.optimize e t.fn t.pars t.maximize = .ok (r, t'.method) ∧
    ∀ r', (∃ t'', t'.perform e = .ok (r', t'')) ↔ ∃ m, t'.method.optimize e t.fn r t.maximize = .ok (r', m) := by
  simp only [Task.perform] at h
  obtain ⟨x, hx, h⟩ := Res.bind_eq_ok.1 h
  simp only [Res.pure_eq, Res.ok.injEq, Prod.mk.injEq] at h
  obtain ⟨rfl, rfl⟩ := h
  refine ⟨rfl, rfl, rfl, ?_, by rw [hx], fun r' => ?_⟩
  · obtain ⟨q, hq⟩ : ∃ q, t.pars = .cont q := by
      cases hp : t.pars with
      | cont q => exact ⟨q, rfl⟩
      | disc q => rw [hp] at hx; simp [Method.optimize] at hx
      | other => rw [hp] at hx; simp [Method.optimize] at hx
    obtain ⟨g, hg⟩ : ∃ g, t.fn = .cont g := by
      cases hf : t.fn with
      | cont g => exact ⟨g, rfl⟩
      | disc g => rw [hq, hf] at hx; simp [Method.optimize] at hx
      | own g => rw [hq, hf] at hx; simp [Method.optimize] at hx
    rw [hq, hg] at hx
    simp only [Method.optimize] at hx
    obtain ⟨y, hy, hx⟩ := Res.bind_eq_ok.1 hx
    simp only [Res.pure_eq, Res.ok.injEq] at hx
    subst hx
    exact find_settings _ _ _ _ _ _ (optimizeCont_ok hy).1
  · simp only [Task.perform]
    constructor
    · rintro ⟨t'', h⟩
      obtain ⟨y, hy, h⟩ := Res.bind_eq_ok.1 h
      simp only [Res.pure_eq, Res.ok.injEq, Prod.mk.injEq] at h
      exact ⟨y.2, by rw [hy, ← h.1]⟩
    · rintro ⟨m, hm⟩
      exact ⟨⟨t.fn, r', m, t.maximize⟩, by rw [hm]; rfl⟩

/-! ### Random search with an inner method -/

theorem candidates_eq (p : CParams ℝ) (n : Nat) (lower upper : ℝ) : ∀ (k : Nat) (l : Random.Lib),
    candidates (P := P) p n lower upper k l =
      (RandomSearch.candidates p n lower upper k l >>= fun r => .ok (r.1.map Pars.cont, r.2))
  | 0, _ => rfl
  | k + 1, l => by
    simp only [candidates, RandomSearch.candidates]
    rcases p.clone.setValues (Random.vector l n lower upper).1 with ⟨q, x | w | _⟩
    · simp only [candidates_eq p n lower upper k]
      cases RandomSearch.candidates p n lower upper k (Random.vector l n lower upper).2 with
      | ok r => simp
      | throw w => simp
      | ub => simp
    · rfl
    · rfl

/-- What multi-start optimization of continuous parameters amounts to. -/
theorem process_cont (e : Env) (m m' : Method) (hm : IsFresh m m') (f : List ℝ → ℝ) (ps : List (CParams ℝ)) (maximize : Bool) (r : Pars P) :
    process e (.method m) (.cont f) (ps.map Pars.cont) maximize = .ok r ↔
      ∃ (rs : List (CParams ℝ)) (k : Nat) (q : CParams ℝ), List.Forall₂ (Leads e m' f maximize) ps rs ∧ rs[k]? = some q ∧ r = .cont q ∧
        Processor.BestAt (rs.map fun q => f q.values) maximize k := by
  rw [C82_process]
  have hc : (Optimizer.method m).clone = .ok m' := by
    obtain ⟨c, hc, hf⟩ := clone_method m
    rw [hc, IsFresh.unique hf hm]
  constructor
  · rintro ⟨m'', rs, values, k, h1, h2, h3, h4, h5⟩
    rw [hc] at h1
    obtain rfl : m' = m'' := by simpa using h1
    rw [List.forall₂_map_left_iff] at h2
    have aux : ∀ {ps : List (CParams ℝ)} {rs : List (Pars P)},
        List.Forall₂ (fun p q => ∃ m'', m'.optimize e (.cont f) (.cont p) maximize = .ok (q, m'')) ps rs →
        ∃ qs : List (CParams ℝ), rs = qs.map Pars.cont ∧ List.Forall₂ (Leads e m' f maximize) ps qs := by
      intro ps rs a
      induction a with
      | nil => exact ⟨[], rfl, .nil⟩
      | cons a _ ih =>
        obtain ⟨qs, rfl, ih⟩ := ih
        obtain ⟨m'', a⟩ := a
        simp only [Method.optimize] at a
        obtain ⟨y, hy, a⟩ := Res.bind_eq_ok.1 a
        simp only [Res.pure_eq, Res.ok.injEq, Prod.mk.injEq] at a
        obtain ⟨rfl, rfl⟩ := a
        exact ⟨y.1 :: qs, rfl, .cons ⟨y.2, hy⟩ ih⟩
    obtain ⟨qs, rfl, h2'⟩ := aux h2
    rw [List.forall₂_map_left_iff] at h3
    have aux2 : ∀ {qs : List (CParams ℝ)} {vs : List ℝ},
        List.Forall₂ (fun q v => (Fn.cont f : Fn P).call (.cont q) = .ok v) qs vs → vs = qs.map fun q => f q.values := by
      intro qs vs a
      induction a with
      | nil => rfl
      | cons a _ ih =>
        simp only [Fn.call, Res.ok.injEq] at a
        rw [ih, ← a]; rfl
    rw [aux2 h3] at h5
    rw [List.getElem?_map] at h4
    rcases hq : qs[k]? with _ | q
    · rw [hq] at h4; simp at h4
    · rw [hq] at h4
      exact ⟨qs, k, q, h2', hq, by simpa using h4.symm, h5⟩
  · rintro ⟨rs, k, q, h1, h2, rfl, h3⟩
    refine ⟨m', rs.map Pars.cont, rs.map fun q => f q.values, k, hc, ?_, ?_, by rw [List.getElem?_map, h2]; rfl, h3⟩
    · rw [List.forall₂_map_left_iff, List.forall₂_map_right_iff]
      refine h1.imp ?_
      rintro p q ⟨m'', h⟩
      exact ⟨m'', by simp only [Method.optimize, h, Res.ok_bind, Res.pure_eq]⟩
    · rw [List.forall₂_map_left_iff, List.forall₂_map_right_iff]
      clear h1 h2 h3
      induction rs with
      | nil => exact .nil
      | cons a as ih => exact .cons rfl ih

theorem forall₂_left {α β : Type} {r : α → β → Prop} : ∀ {as : List α} {bs : List β}, List.Forall₂ r as bs →
    ∀ a ∈ as, ∃ b ∈ bs, r a b
  | _, _, .nil, _, h => by simp at h
  | _, _, .cons h t, x, hx => by
    rcases List.mem_cons.1 hx with rfl | hx
    · exact ⟨_, by simp, h⟩
    · obtain ⟨b, hb, hr⟩ := forall₂_left t x hx
      exact ⟨b, by simp [hb], hr⟩

theorem forall₂_right {α β : Type} {r : α → β → Prop} : ∀ {as : List α} {bs : List β}, List.Forall₂ r as bs →
    ∀ b ∈ bs, ∃ a ∈ as, r a b
  | _, _, .nil, _, h => by simp at h
  | _, _, .cons h t, x, hx => by
    rcases List.mem_cons.1 hx with rfl | hx
    · exact ⟨_, by simp, h⟩
    · obtain ⟨b, hb, hr⟩ := forall₂_right t x hx
      exact ⟨b, by simp [hb], hr⟩

theorem forall₂_exists {α β : Type} {r : α → β → Prop} : ∀ {as : List α}, (∀ a ∈ as, ∃ b, r a b) → ∃ bs, List.Forall₂ r as bs
  | [], _ => ⟨[], .nil⟩
  | a :: as, h => by
    obtain ⟨b, hb⟩ := h a (by simp)
    obtain ⟨bs, hbs⟩ := forall₂_exists (as := as) fun x hx => h x (by simp [hx])
    exact ⟨b :: bs, .cons hb hbs⟩

/-- **C83 (random search with an inner method).** Random search with one of the five methods returns exactly when there is at least one point
and the method – unused, with the same settings, whatever the past of the object given – returns from every random start; all starts lie within
the bounds, and the parameters then hold the method's result from one of the starts, than which none of its results is better. -/
theorem C83_inner (points : Nat) (lower upper : ℝ) (hb : lower ≤ upper) (l : Random.Lib) (hl : l.Valid) (p : CParams ℝ) :
    ∃ starts : List (CParams ℝ), starts.length = points ∧
      (∀ s ∈ starts, RandomSearch.InBox lower upper p.values.length s.values ∧ s.ok = p.ok) ∧
      ∀ (e : Env) (m m' : Method), IsFresh m m' → ∀ (maximize : Bool) (f : List ℝ → ℝ),
      ((∃ l', (randomSearch P e points lower upper (.method m) l maximize f p).2 = .ok l') ↔
        0 < points ∧ ∀ s ∈ starts, ∃ q, Leads e m' f maximize s q) ∧
      ((∃ l', (randomSearch P e points lower upper (.method m) l maximize f p).2 = .ok l') →
        ∃ s ∈ starts, Leads e m' f maximize s (randomSearch P e points lower upper (.method m) l maximize f p).1 ∧
          ∀ s' ∈ starts, ∀ q', Leads e m' f maximize s' q' →
            AtLeast maximize (f (randomSearch P e points lower upper (.method m) l maximize f p).1.values) (f q'.values)) := by
  obtain ⟨cs, l', ec, hv, hn, hc⟩ := RandomSearch.candidates_spec p lower upper hb points l hl
  refine ⟨cs, hn, hc, ?_⟩
  intro e m m' hm maximize f
  have huniq : ∀ s q q', Leads e m' f maximize s q → Leads e m' f maximize s q' → q = q' := by
    rintro s q q' ⟨a, h⟩ ⟨b, h'⟩
    rw [h] at h'
    simp only [Res.ok.injEq, Prod.mk.injEq] at h'
    exact h'.1
  have hfind : ∀ r, randomFind (P := P) e points lower upper (.method m) l maximize f p = .ok r ↔
      ∃ (rs : List (CParams ℝ)) (k : Nat) (q : CParams ℝ), List.Forall₂ (Leads e m' f maximize) cs rs ∧ rs[k]? = some q ∧
        r = (q.values, l') ∧ Processor.BestAt (rs.map fun q => f q.values) maximize k := by
    intro r
    simp only [randomFind, CParams.getValues, candidates_eq, ec, Res.ok_bind, Res.bind_eq_ok, Res.pure_eq, Res.ok.injEq, process_cont e m m' hm]
    constructor
    · rintro ⟨b, ⟨rs, k, q, h1, h2, rfl, h3⟩, v, hv, rfl⟩
      simp only [asContinuous, Res.ok.injEq, CParams.getValues] at hv
      exact ⟨rs, k, q, h1, h2, by rw [hv], h3⟩
    · rintro ⟨rs, k, q, h1, h2, rfl, h3⟩
      exact ⟨_, ⟨rs, k, q, h1, h2, rfl, h3⟩, q.values, rfl, rfl⟩
  have hres : ∀ (rs : List (CParams ℝ)) (k : Nat) (q : CParams ℝ), List.Forall₂ (Leads e m' f maximize) cs rs → rs[k]? = some q →
      Processor.BestAt (rs.map fun q => f q.values) maximize k →
      randomSearch P e points lower upper (.method m) l maximize f p = (q, .ok l') ∧ (∃ s ∈ cs, Leads e m' f maximize s q) ∧
        ∀ s' ∈ cs, ∀ q', Leads e m' f maximize s' q' → AtLeast maximize (f q.values) (f q'.values) := by
    intro rs k q h1 h2 h3
    obtain ⟨s, hs, hsq⟩ := forall₂_right h1 q (List.mem_of_getElem? h2)
    obtain ⟨m'', hsq'⟩ := id hsq
    obtain ⟨_, o2, o3⟩ := optimizeCont_ok hsq'
    refine ⟨?_, ⟨s, hs, hsq⟩, ?_⟩
    · have : randomFind (P := P) e points lower upper (.method m) l maximize f p = .ok (q.values, l') := (hfind _).2 ⟨rs, k, q, h1, h2, rfl, h3⟩
      simp only [randomSearch, this]
      rw [CParams.setValues_ok (o3.trans (hc s hs).1.1)]
      have : q.ok = p.ok := o2.trans (hc s hs).2
      cases q
      simp_all
    · intro s' hs' q' hq'
      obtain ⟨b, hbm, hb'⟩ := forall₂_left h1 s' hs'
      obtain rfl := huniq _ _ _ hb' hq'
      obtain ⟨i, hi⟩ := List.mem_iff_getElem?.1 hbm
      obtain ⟨v, hv, h3⟩ := h3
      rw [List.getElem?_map, h2] at hv
      obtain rfl : f q.values = v := by simpa using hv
      have hi' : (rs.map fun q => f q.values)[i]? = some (f b.values) := by rw [List.getElem?_map, hi]; rfl
      cases maximize
      · simp only [Bool.false_eq_true, if_false, AtLeast] at h3 ⊢; exact h3.1 i _ hi'
      · simp only [if_true, AtLeast] at h3 ⊢; exact h3.1 i _ hi'
  have hok : (∃ l', (randomSearch P e points lower upper (.method m) l maximize f p).2 = .ok l') →
      ∃ (rs : List (CParams ℝ)) (k : Nat) (q : CParams ℝ), List.Forall₂ (Leads e m' f maximize) cs rs ∧ rs[k]? = some q ∧
        Processor.BestAt (rs.map fun q => f q.values) maximize k := by
    rintro ⟨l'', h⟩
    simp only [randomSearch] at h
    rcases hr : randomFind (P := P) e points lower upper (.method m) l maximize f p with r | w | _
    · obtain ⟨rs, k, q, h1, h2, _, h3⟩ := (hfind r).1 hr
      exact ⟨rs, k, q, h1, h2, h3⟩
    · rw [hr] at h; simp at h
    · rw [hr] at h; simp at h
  refine ⟨⟨fun h => ?_, ?_⟩, fun h => ?_⟩
  · obtain ⟨rs, k, q, h1, h2, _⟩ := hok h
    refine ⟨?_, fun s hs => ?_⟩
    · rw [← hn, h1.length_eq]
      exact List.length_pos_of_mem (List.mem_of_getElem? h2)
    · obtain ⟨b, _, hb'⟩ := forall₂_left h1 s hs
      exact ⟨b, hb'⟩
  · rintro ⟨hp, h⟩
    obtain ⟨rs, h1⟩ := forall₂_exists h
    cases rs with
    | nil => have := h1.length_eq; simp [hn] at this; omega
    | cons r rs =>
      have hbest := Processor.select_best maximize (f r.values) (rs.map fun q => f q.values)
      obtain ⟨v, hv, _⟩ := id hbest
      have hk : ((r :: rs).map fun q => f q.values)[Processor.selectLoop maximize 0 (f r.values) 1 (rs.map fun q => f q.values)]? = some v := hv
      rw [List.getElem?_map] at hk
      rcases hq : (r :: rs)[Processor.selectLoop maximize 0 (f r.values) 1 (rs.map fun q => f q.values)]? with _ | q
      · rw [hq] at hk; simp at hk
      · exact ⟨l', by rw [(hres _ _ q h1 hq hbest).1]⟩
  · obtain ⟨rs, k, q, h1, h2, h3⟩ := hok h
    obtain ⟨a, ⟨s, hs, b⟩, c⟩ := hres rs k q h1 h2 h3
    rw [a]
    exact ⟨s, hs, b, c⟩

/-- Hooke-Jeeves through `Optimize` leaves parameters that are at least as good as the start. -/
theorem hookeJeeves_leads {e : Env} {cfg : HookeJeeves.Config ℝ} {f : List ℝ → ℝ} {maximize : Bool} {s q : CParams ℝ}
    (h : Leads e (.hookeJeeves cfg) f maximize s q) : AtLeast maximize (f q.values) (f s.values) := by
  obtain ⟨m', h⟩ := h
  obtain ⟨h, _, _⟩ := optimizeCont_ok h
  simp only [Method.find, Prog.eval_bind] at h
  obtain ⟨r, hr, h⟩ := Res.bind_eq_ok.1 h
  simp only [Prog.pure_def, Prog.eval_done, Res.ok.injEq, Prod.mk.injEq] at h
  obtain ⟨rfl, _⟩ := h
  have := (HookeJeeves.C41_never_worse _ _ _ _ _ _ hr).2
  cases maximize
  · simpa [ContinuousOptimizer.target, AtLeast] using this
  · simpa [ContinuousOptimizer.target, AtLeast] using this

/-- **C83 (Hooke-Jeeves inside).** When random search with Hooke-Jeeves inside returns, the parameters are at least as good as every one of the
random points it started from. -/
theorem C83_hooke_jeeves (e : Env) (points : Nat) (lower upper : ℝ) (hb : lower ≤ upper) (cfg : HookeJeeves.Config ℝ) (l : Random.Lib)
    (hl : l.Valid) (maximize : Bool) (f : List ℝ → ℝ) (p : CParams ℝ)
    (h : ∃ l', (randomSearch P e points lower upper (.method (.hookeJeeves cfg)) l maximize f p).2 = .ok l') :
    ∃ starts : List (CParams ℝ), starts.length = points ∧ (∀ s ∈ starts, RandomSearch.InBox lower upper p.values.length s.values ∧ s.ok = p.ok) ∧
      ∀ s ∈ starts, AtLeast maximize (f (randomSearch P e points lower upper (.method (.hookeJeeves cfg)) l maximize f p).1.values) (f s.values) := by
  obtain ⟨starts, h1, h2, hall⟩ := C83_inner (P := P) points lower upper hb l hl p
  obtain ⟨h3, h4⟩ := hall e (.hookeJeeves cfg) (.hookeJeeves cfg) ⟨rfl, rfl⟩ maximize f
  refine ⟨starts, h1, h2, fun s hs => ?_⟩
  obtain ⟨q, hq⟩ := (h3.1 h).2 s hs
  obtain ⟨_, _, _, best⟩ := h4 h
  have a := best s hs q hq
  have b := hookeJeeves_leads hq
  cases maximize
  · simp only [AtLeast, Bool.false_eq_true, if_false] at a b ⊢; exact a.trans b
  · simp only [AtLeast, if_true] at a b ⊢; exact b.trans a

/-- **C83 (Hooke-Jeeves inside, returning).** It does return, on unconstrained parameters and with at least one point, when the function to be
minimized has no infinite strictly decreasing sequence of values and dividing the steps often enough meets the exit criterion. -/
theorem C83_hooke_jeeves_returns (abs : Gradient.Sd.AbsImpl) (points : Nat) (hpts : 0 < points) (lower upper : ℝ) (hb : lower ≤ upper)
    (cfg : HookeJeeves.Config ℝ) (l : Random.Lib) (hl : l.Valid) (maximize : Bool) (f : List ℝ → ℝ) (p : CParams ℝ)
    (hok : ∀ x, p.ok x = true) (hg : HookeJeeves.Descends (ContinuousOptimizer.target maximize f)) (k : Nat)
    (hk : HookeJeeves.exitCriteria ⟨Real.sqrt, FloatingPoint.areEqualVec⟩ cfg
      (HookeJeeves.divided cfg (List.replicate p.values.length cfg.initStep) (k + 1)) = true) :
    ∃ fuel, ∀ n ≥ fuel, ∃ l', (randomSearch P ⟨n, abs⟩ points lower upper (.method (.hookeJeeves cfg)) l maximize f p).2 = .ok l' := by
  obtain ⟨starts, h1, h2, hall⟩ := C83_inner (P := P) points lower upper hb l hl p
  have each : ∀ s ∈ starts, ∃ fuel, ∀ n ≥ fuel, ∃ q, Leads ⟨n, abs⟩ (.hookeJeeves cfg) f maximize s q := by
    intro s hs
    obtain ⟨⟨hlen, _⟩, hsok⟩ := h2 s hs
    obtain ⟨fuel, r, hr⟩ := HookeJeeves.C63_terminates _ hg ⟨Real.sqrt, FloatingPoint.areEqualVec⟩ cfg (fun v => (FloatingPoint.C57_refl 0 v).2)
      s.values k (by rw [hlen]; exact hk)
    refine ⟨fuel, fun n hn => ⟨{ s with values := r }, .hookeJeeves cfg, optimizeCont_of ?_ ?_ ?_⟩⟩
    · simp only [Method.find, Prog.eval_bind, hr n hn, Res.ok_bind, Prog.pure_def, Prog.eval_done]
    · exact (HookeJeeves.C41_never_worse _ _ _ _ _ _ (hr n hn)).1
    · intro x hx
      simp only [Method.find, Prog.mem_trace_bind, Prog.pure_def, Prog.trace_done] at hx
      rcases hx with hx | ⟨_, _, hx⟩
      · exact ⟨HookeJeeves.C41_dimension _ _ _ _ _ x hx, by rw [hsok]; exact hok x⟩
      · simp at hx
  have common : ∀ ss : List (CParams ℝ), (∀ s ∈ ss, ∃ fuel, ∀ n ≥ fuel, ∃ q, Leads ⟨n, abs⟩ (.hookeJeeves cfg) f maximize s q) →
      ∃ fuel, ∀ n ≥ fuel, ∀ s ∈ ss, ∃ q, Leads ⟨n, abs⟩ (.hookeJeeves cfg) f maximize s q := by
    intro ss
    induction ss with
    | nil => intro _; exact ⟨0, fun n _ s hs => by simp at hs⟩
    | cons s ss ih =>
      intro h
      obtain ⟨f1, hf1⟩ := h s (by simp)
      obtain ⟨f2, hf2⟩ := ih fun t ht => h t (by simp [ht])
      refine ⟨max f1 f2, fun n hn t ht => ?_⟩
      rcases List.mem_cons.1 ht with rfl | ht
      · exact hf1 n (le_trans (le_max_left _ _) hn)
      · exact hf2 n (le_trans (le_max_right _ _) hn) t ht
  obtain ⟨fuel, hfuel⟩ := common starts each
  exact ⟨fuel, fun n hn => ((hall ⟨n, abs⟩ (.hookeJeeves cfg) (.hookeJeeves cfg) ⟨rfl, rfl⟩ maximize f).1).2 ⟨hpts, hfuel n hn⟩⟩

/-- **C83 (Nelder-Mead inside).** On unconstrained parameters with at least one coordinate, random search with Nelder-Mead inside returns for
every function and every stream of random numbers, even when the optimizer object given to it was used in another dimension before (which makes
using that object itself undefined, C64). -/
theorem C83_nelder_mead (e : Env) (points : Nat) (hpts : 0 < points) (lower upper : ℝ) (hb : lower ≤ upper) (cfg : NelderMead.Config ℝ)
    (previous : List (List (List ℝ))) (l : Random.Lib) (hl : l.Valid) (maximize : Bool) (f : List ℝ → ℝ) (p : CParams ℝ)
    (hok : ∀ x, p.ok x = true) (hne : p.values ≠ []) (hf : 1000 * p.values.length + 1 ≤ e.fuel) :
    ∃ l', (randomSearch P e points lower upper (.method (.nelderMead cfg previous)) l maximize f p).2 = .ok l' := by
  obtain ⟨starts, h1, h2, hall⟩ := C83_inner (P := P) points lower upper hb l hl p
  obtain ⟨h3, _⟩ := hall e (.nelderMead cfg previous) (.nelderMead cfg []) ⟨rfl, rfl⟩ maximize f
  refine h3.2 ⟨hpts, fun s hs => ?_⟩
  obtain ⟨⟨hlen, _⟩, hsok⟩ := h2 s hs
  have hsne : s.values ≠ [] := by
    intro h0; rw [h0] at hlen; exact hne (List.length_eq_zero_iff.1 hlen.symm)
  obtain ⟨F, v, _, c2, c3, _, _, _, _, c8, _⟩ := (NelderMead.C45_terminates Real.sqrt (ContinuousOptimizer.target maximize f) cfg s.values []
    ⟨by simp, by simp⟩ e.fuel (by rw [hlen]; exact hf)).2 hsne
  refine ⟨{ s with values := v }, .nelderMead cfg F.previous, optimizeCont_of ?_ c3 ?_⟩
  · simp only [Method.find, Prog.eval_bind, c2, Res.ok_bind, Prog.pure_def, Prog.eval_done]
  · intro x hx
    simp only [Method.find, Prog.mem_trace_bind, Prog.pure_def, Prog.trace_done] at hx
    rcases hx with hx | ⟨_, _, hx⟩
    · exact ⟨c8 x hx, by rw [hsok]; exact hok x⟩
    · simp at hx

/-- **C83 (unsupported inner optimizers).** With simulated annealing or random search inside (they are continuous optimizers, so the constructor
takes them) every call with at least one point throws `std::logic_error` and leaves the parameters as they were; with zero points the behaviour
is undefined, whatever the inner optimizer. -/
theorem C83_unsupported (e : Env) (points : Nat) (lower upper : ℝ) (hb : lower ≤ upper) (o : Optimizer) (l : Random.Lib) (hl : l.Valid)
    (maximize : Bool) (f : List ℝ → ℝ) (p : CParams ℝ) :
    (points = 0 → (randomSearch P e points lower upper o l maximize f p).2 = .ub) ∧
    (0 < points → (∀ m, o ≠ .method m) → randomSearch P e points lower upper o l maximize f p = (p, .throw "logic_error")) := by
  obtain ⟨cs, l', ec, hv, hn, hc⟩ := RandomSearch.candidates_spec p lower upper hb points l hl
  refine ⟨?_, fun hp ho => ?_⟩
  · rintro rfl; rfl
  · have hne : (cs.map Pars.cont : List (Pars P)) ≠ [] := by
      intro h; simp at h; subst h; simp at hn; omega
    simp only [randomSearch, randomFind, CParams.getValues, candidates_eq, ec, Res.ok_bind,
      (C82_process_unsupported e o (.cont f) _ maximize).2 hne ho, Res.throw_bind]

/-! ### Remote optimization -/

/-- What a result sent back says: the values of continuous parameters. -/
def reported : Pars P → Transfer.Params ℝ
  | .cont p => .cont p.values
  | _ => .cont []

/-- **C84 (remote optimization).** Send a task – a function, a continuous array of parameters, one of the five methods, a direction – to another
process, where a function `g` with the same values is registered for the function's type (and any continuous array and any optimizer of that
class): performing what was received gives exactly what performing the task here gives – the same values, the same exception or the same undefined
behaviour –, for an optimizer never used here as well as for a used one; and the result sent back is received with the same values. -/
theorem C84_remote {F : Type} (e : Env) (c : Transfer.FnClass ℝ F) (reg : Transfer.Registered ℝ F) (eval : F → List ℝ → ℝ) (fn g : F)
    (values other : List ℝ) (m : Method) (maximize : Bool) (oproto : Transfer.Optimizer ℝ)
    (hg : reg (c.typeName fn) = some (.fn g)) (heq : eval g = eval fn)
    (hproto : reg (Transfer.Params.cont values : Transfer.Params ℝ).typeName = some (.pars (.cont other)))
    (hopt : reg m.settings.typeName = some (.opt oproto)) (hclass : oproto.typeName = m.settings.typeName) (rest : List (Transfer.Datum ℝ)) :
    ∃ ms t, (Transfer.OptTask.mk fn (.cont values) m.settings maximize).send c = .ok ms ∧
      Transfer.OptTask.receive reg (ms ++ rest) = .ok (t, rest) ∧
      performReceived e eval t =
        ((Task.new (.method m) (.cont (CParams.ofValues values)) (.cont (eval fn)) maximize : Res (Task P)) >>= fun task => task.perform e) >>=
          (fun r => .ok (reported r.1)) ∧
      ∀ r, performReceived e eval t = .ok r → ∃ back, Transfer.sendResult r = .ok back ∧ Transfer.receiveResult reg (back ++ rest) = .ok (r, rest) := by
  obtain ⟨os, hos⟩ : ∃ os, m.settings.send = .ok os := by
    cases m <;> exact ⟨_, rfl⟩
  obtain ⟨ms, r, h1, h2, h3⟩ := Transfer.C33_optimization_task c reg (Transfer.OptTask.mk fn (.cont values) m.settings maximize) g (.cont other)
    oproto os hg hproto trivial hopt hclass hos rest
  have hr : r = .cont values := by
    cases r with
    | cont ws => simp only [Transfer.Same] at h3; rw [h3]
    | disc q => exact absurd h3 (by simp [Transfer.Same])
  subst hr
  refine ⟨ms, _, h1, h2, ?_, ?_⟩
  · obtain ⟨m', hc, hf⟩ := clone_method m
    have hof : Method.ofSettings m.settings = some m' := by
      obtain ⟨x, hx, hxf⟩ : ∃ x, Method.ofSettings m.settings = some x ∧ IsFresh m x := by
        cases m <;> exact ⟨_, rfl, rfl, rfl⟩
      rw [hx, IsFresh.unique hxf hf]
    simp only [performReceived, ofTransferred, hof, Task.new, hc, Res.ok_bind, Res.pure_eq, Task.perform, Method.optimize, heq]
    cases m'.optimizeCont e (eval fn) (CParams.ofValues values) maximize with
    | ok y => simp [reported, CParams.getValues]
    | throw w => simp
    | ub => simp
  · intro r hr
    obtain ⟨vs, rfl⟩ : ∃ vs, r = .cont vs := by
      cases r with
      | cont vs => exact ⟨vs, rfl⟩
      | disc q =>
        exfalso
        simp only [performReceived] at hr
        split at hr
        · obtain ⟨y, _, hr⟩ := Res.bind_eq_ok.1 hr
          simp at hr
        · simp at hr
        · simp at hr
    obtain ⟨back, q, b1, b2, b3⟩ := Transfer.C33_result reg (.cont vs) (.cont other) hproto trivial rest
    refine ⟨back, b1, ?_⟩
    cases q with
    | cont ws => simp only [Transfer.Same] at b3; rw [b2, b3]
    | disc q => exact absurd b3 (by simp [Transfer.Same])

/-- **C84 (tasks no method accepts).** A received task whose parameters are discrete, or whose optimizer is not one of the five methods, throws when it is
performed; so does the task here if the parameters are discrete. -/
theorem C84_rejected {F : Type} (e : Env) (eval : F → List ℝ → ℝ) (t : Transfer.OptTask ℝ F)
    (h : (∃ q, t.pars = .disc q) ∨ Method.ofSettings t.opt = none) : performReceived e eval t = .throw "logic_error" := by
  unfold performReceived
  rcases h with ⟨q, h⟩ | h
  · rw [h]
    rfl
  · rw [h]
    cases ofTransferred t.pars <;> rfl

theorem C84_rejected_here (e : Env) (m : Method) (f : Fn P) (p : P) (maximize : Bool) : m.optimize e f (.disc p) maximize = .throw "logic_error" := rfl

/-! ### Concrete cases -/

/-- Two random numbers in turn. -/
def alternating : Random.Lib := ⟨10, fun i => if i % 2 = 0 then 3 else 8⟩

theorem alternating_valid : alternating.Valid := by
  refine ⟨by decide, fun i => ?_⟩
  simp only [alternating]; split <;> omega

/-- Non-vacuity of the Nelder-Mead case (and so of C83, C82 and of performing tasks): two starts in two dimensions, an object used in one
dimension before. -/
example : ∃ l', (randomSearch Unit ⟨2001, .real⟩ 2 (-5) 5 (.method (.nelderMead ⟨1, 1 / 100, -100, 100⟩ [[[0], [1]]])) alternating false
    (fun v => v.sum ^ 2) (CParams.ofValues [1, 1])).2 = .ok l' :=
  C83_nelder_mead _ 2 (by norm_num) (-5) 5 (by norm_num) _ _ _ alternating_valid _ _ _ (fun _ => rfl) (by simp [CParams.ofValues])
    (by simp [CParams.ofValues])

/-- Non-vacuity of the Hooke-Jeeves case: a function with two values. -/
example : ∃ fuel, ∀ n ≥ fuel, ∃ l', (randomSearch Unit ⟨n, .real⟩ 3 (-5) 5 (.method (.hookeJeeves ⟨2, 1, 0, 1, 2⟩)) alternating false
    (fun v => if v.headD 0 < 5 then 1 else 0) (CParams.ofValues [1])).2 = .ok l' := by
  refine C83_hooke_jeeves_returns _ 3 (by norm_num) (-5) 5 (by norm_num) _ _ alternating_valid _ _ _ (fun _ => rfl) ?_ 0 ?_
  · refine Subrelation.wf (r := InvImage (· < ·) fun v : List ℝ => if v.headD 0 < 5 then (1 : ℕ) else 0) ?_ (InvImage.wf _ Nat.lt_wfRel.wf)
    intro a b h
    simp only [InvImage, ContinuousOptimizer.target, Bool.false_eq_true, if_false] at h ⊢
    split at h <;> split at h <;> simp_all
    linarith
  · norm_num [HookeJeeves.exitCriteria, HookeJeeves.divided, CParams.ofValues]
    exact inv_le_one_of_one_le₀ (Real.one_le_sqrt.2 (by norm_num))

/-- Non-vacuity of the remote case: a registry with one function, an array and a Nelder-Mead object with other settings; the task returns. -/
example : ∃ (reg : Transfer.Registered ℝ Unit) (ms : List (Transfer.Datum ℝ)) (t : Transfer.OptTask ℝ Unit) (r : Transfer.Params ℝ),
    (Transfer.OptTask.mk () (.cont [1, 2]) (Method.nelderMead ⟨1, 1 / 100, -100, 100⟩ [[[0], [1]]]).settings false).send
      ⟨fun _ => "Square", fun _ _ => 0⟩ = .ok ms ∧
    Transfer.OptTask.receive reg ms = .ok (t, []) ∧ performReceived ⟨2001, .real⟩ (fun _ v => v.sum ^ 2) t = .ok r := by
  let reg : Transfer.Registered ℝ Unit := fun id =>
    if id = "Square" then some (.fn ()) else if id = "ContinuousParametersArray" then some (.pars (.cont [])) else
      if id = "BoundedNelderMead" then some (.opt (.nelderMead 1 1 1 1)) else none
  obtain ⟨ms, t, h1, h2, h3, _⟩ := C84_remote (P := Unit) ⟨2001, .real⟩ ⟨fun _ => "Square", fun _ _ => 0⟩ reg (fun _ v => v.sum ^ 2) () () [1, 2] []
    (.nelderMead ⟨1, 1 / 100, -100, 100⟩ [[[0], [1]]]) false (.nelderMead 1 1 1 1) (by simp [reg]) rfl (by simp [reg, Transfer.Params.typeName])
    (by simp [reg, Transfer.Optimizer.typeName, Method.settings]) rfl []
  rw [List.append_nil] at h2
  obtain ⟨F, v, _, c2, c3, _, _, _, _, c8, _⟩ := (NelderMead.C45_terminates Real.sqrt (ContinuousOptimizer.target false fun v : List ℝ => v.sum ^ 2)
    ⟨1, 1 / 100, -100, 100⟩ [1, 2] [] ⟨by simp, by simp⟩ 2001 (by simp)).2 (by simp)
  have hopt : (Method.nelderMead ⟨1, 1 / 100, -100, 100⟩ []).optimizeCont ⟨2001, .real⟩ (fun v : List ℝ => v.sum ^ 2) (CParams.ofValues [1, 2]) false =
      .ok ({ CParams.ofValues [1, 2] with values := v }, .nelderMead ⟨1, 1 / 100, -100, 100⟩ F.previous) := by
    refine optimizeCont_of ?_ c3 ?_
    · simp only [Method.find, CParams.ofValues, Prog.eval_bind, c2, Res.ok_bind, Prog.pure_def, Prog.eval_done]
    · intro x hx
      simp only [Method.find, Prog.mem_trace_bind, Prog.pure_def, Prog.trace_done] at hx
      rcases hx with hx | ⟨_, _, hx⟩
      · exact ⟨c8 x hx, rfl⟩
      · simp at hx
  refine ⟨reg, ms, t, .cont v, h1, h2, ?_⟩
  rw [h3]
  simp only [Task.new, Optimizer.clone, Res.ok_bind, Res.pure_eq, Task.perform, Method.optimize, hopt, reported]

end K52.Tasks
