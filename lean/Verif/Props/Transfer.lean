import Verif.Model.Transfer
import Verif.Props.Composite
import Verif.Props.Parallel

/-!
# C33: what is sent over MPI is what is received
-/

set_option linter.unusedSectionVars false

namespace K52.Transfer

variable {R : Type}

/-- **C33** (optimizers).  Every optimizer that can be sent is restored with all its settings by `Receive` on any object of its class -
whatever settings that had - and exactly the sent messages are consumed. -/
theorem C33_optimizer (o proto : Optimizer R) (hclass : proto.typeName = o.typeName) (ms : List (Datum R)) (h : o.send = .ok ms)
    (rest : List (Datum R)) : proto.receive (ms ++ rest) = .ok (o, rest) := by
  cases o <;> simp only [Optimizer.send] at h <;> cases h <;> cases proto <;>
    first
      | (exfalso; revert hclass; simp [Optimizer.typeName]; done)
      | rfl

/-- **C33** (which optimizers).  Exactly the five continuous methods with an implemented `Send` can be sent; on an object of any other
class both `Send` and `Receive` throw. -/
theorem C33_unsupported (o : Optimizer R) :
    (o.send = .throw "logic_error" ∧ ∀ ms, o.receive ms = .throw "logic_error") ↔
    o.typeName ∈ ["SimulatedAnnealing", "RandomSearch", "GridSearch", "GeneticAlgorithm"] := by
  cases o <;> simp [Optimizer.send, Optimizer.receive, Optimizer.typeName]

variable [Field R] [LinearOrder R] [IsStrictOrderedRing R] [FloorRing R] {F : Type}

/-- What a receiver holds for the parameters `p` of the sender: for a continuous array the same values, for discrete parameters the same
values with the same bounds (in a double array each value rounded down by less than the precision). -/
def Same : Params R → Params R → Prop
  | .disc p, .disc r => p.Restored r
  | .cont vs, .cont ws => ws = vs
  | _, _ => False

/-- The object registered in the receiving process fits `p`: the class is the same and for discrete parameters the bounds, precision,
lengths and members are those of `p`. -/
def Fits : Params R → Params R → Prop
  | .disc p, .disc q => (∃ s, Param.WFP p s) ∧ (∃ t, Param.WFP q t) ∧ p.SameShape q ∧ p.InRange
  | .cont _, .cont _ => True
  | _, _ => False

theorem Fits.typeName {p q : Params R} (h : Fits p q) : q.typeName = p.typeName := by
  cases p with
  | cont vs => cases q with
    | cont ws => rfl
    | disc q => exact absurd h (by simp [Fits])
  | disc p => cases q with
    | cont ws => exact absurd h (by simp [Fits])
    | disc q =>
      obtain ⟨_, _, h, _⟩ := h
      cases p <;> cases q <;> first | rfl | (simp [Param.SameShape] at h)

/-- **C33** (parameters).  Parameters are sent as one message; receiving it into (a clone of) an object that fits restores the values, whatever
values that object had. -/
theorem C33_parameters (p proto : Params R) (h : Fits p proto) (rest : List (Datum R)) :
    ∃ ms q r, p.send = .ok ms ∧ ms.length = 1 ∧ proto.clone = .ok q ∧ q.receive (ms ++ rest) = .ok (r, rest) ∧ Same p r := by
  cases p with
  | cont vs => cases proto with
    | cont ws => exact ⟨_, _, _, rfl, rfl, rfl, rfl, rfl⟩
    | disc q => exact absurd h (by simp [Fits])
  | disc p => cases proto with
    | cont ws => exact absurd h (by simp [Fits])
    | disc q =>
      obtain ⟨⟨s, hp⟩, ⟨t, hq⟩, hshape, hin⟩ := h
      obtain ⟨out, h1, h2, h3, h4⟩ := Param.C13_tree_roundtrip p q s t hp hq hshape hin (List.replicate s false) (by simp [hp.size])
      refine ⟨[.bits out], .disc q, .disc (q.setFromChromosome out).1, ?_, rfl, ?_, ?_, h4⟩
      · simp [Params.send, hp.size, h1]
      · simp [Params.clone, Param.C15_clone_equal q t hq]
      · simp [Params.receive, recvBits, h3]

/-- **C33** (evaluation task).  A task made for function `f` and parameters `p`, sent to a process where a function object `g` is registered
under the type of `f` and a fitting parameters object under that of `p`: the receiver, into any task object that was itself
received or default-constructed, gets a task that evaluates `g` on the same parameters, and exactly the sent messages are consumed. -/
theorem C33_count_task (c : FnClass R F) (reg : Registered R F) (f g : F) (p proto : Params R) (hg : reg (c.typeName f) = some (.fn g))
    (hproto : reg p.typeName = some (.pars proto)) (hfit : Fits p proto) (t : CountTask R F) (ht : t.created = none) (rest : List (Datum R)) :
    ∃ ms t' r, (CountTask.new p f).send c = .ok ms ∧ t.receive reg (ms ++ rest) = .ok (t', rest) ∧ Same p r ∧
      t'.perform c = .ok (c.eval g r) := by
  obtain ⟨ms, q, r, h1, _, h2, h3, h4⟩ := C33_parameters p proto hfit rest
  refine ⟨.str (c.typeName f) :: .str p.typeName :: ms, { t with received := some (g, r) }, r, ?_, ?_, h4, ?_⟩
  · simp only [CountTask.send, CountTask.content, CountTask.new, h1, Res.ok_bind, Res.pure_eq]
  · simp only [CountTask.receive, List.cons_append, recvStr, Res.ok_bind, getFn, hg, getPars, hproto, h2, h3, Res.pure_eq]
  · simp [CountTask.perform, CountTask.content, ht]

/-- **C33** (remote = local).  If objective functions of one type compute the same function and the value does not depend on how
parameters were rounded by the transfer, the remote result is the local one. -/
theorem C33_remote_value (c : FnClass R F) (reg : Registered R F) (f g : F) (p proto : Params R) (hg : reg (c.typeName f) = some (.fn g))
    (hreg : c.typeName g = c.typeName f) (hfn : ∀ f g, c.typeName f = c.typeName g → c.eval f = c.eval g)
    (hround : ∀ r, Same p r → c.eval f r = c.eval f p)
    (hproto : reg p.typeName = some (.pars proto)) (hfit : Fits p proto) :
    ∃ ms t' v, (CountTask.new p f).send c = .ok ms ∧ CountTask.default.receive reg ms = .ok (t', []) ∧ t'.perform c = .ok v ∧
      (CountTask.new p f).perform c = .ok v ∧ receiveValue (sendValue v) = .ok (v, []) := by
  obtain ⟨ms, t', r, h1, h2, h3, h4⟩ := C33_count_task c reg f g p proto hg hproto hfit CountTask.default rfl []
  refine ⟨ms, t', _, h1, by simpa using h2, h4, ?_, rfl⟩
  rw [hfn g f hreg, hround r h3]
  rfl

/-- **C33** (the state of a function is not sent).  Only the type name of the objective function travels: any two functions of the same type
produce the same messages, so the receiver uses the registered object whatever state the sender's had. -/
theorem C33_function_state_lost (c : FnClass R F) (f f' : F) (h : c.typeName f = c.typeName f') (p : Params R) :
    (CountTask.new p f).send c = (CountTask.new p f').send c := by
  simp [CountTask.send, CountTask.new, CountTask.content, h]

/-- **C33** (a task registered after it was filled).  A task object created with its own function and parameters ignores what it receives. -/
theorem C33_created_ignores_received (c : FnClass R F) (reg : Registered R F) (t t' : CountTask R F) (x : F × Params R) (ht : t.created = some x)
    (ms rest : List (Datum R)) (h : t.receive reg ms = .ok (t', rest)) : t'.perform c = .ok (c.eval x.1 x.2) := by
  unfold CountTask.receive at h
  obtain ⟨⟨fid, ms1⟩, _, h⟩ := Res.bind_eq_ok.1 h
  obtain ⟨f, _, h⟩ := Res.bind_eq_ok.1 h
  obtain ⟨⟨pid, ms2⟩, _, h⟩ := Res.bind_eq_ok.1 h
  obtain ⟨proto, _, h⟩ := Res.bind_eq_ok.1 h
  obtain ⟨q, _, h⟩ := Res.bind_eq_ok.1 h
  obtain ⟨⟨p, ms3⟩, _, h⟩ := Res.bind_eq_ok.1 h
  simp only [Res.pure_eq, Res.ok.injEq, Prod.mk.injEq] at h
  obtain ⟨rfl, _⟩ := h
  simp [CountTask.perform, CountTask.content, ht]

/-- **C33** (optimisation task).  Function type, parameters, optimizer with all settings and direction arrive. -/
theorem C33_optimization_task (c : FnClass R F) (reg : Registered R F) (t : OptTask R F) (g : F) (proto : Params R) (oproto : Optimizer R)
    (os : List (Datum R)) (hg : reg (c.typeName t.fn) = some (.fn g)) (hproto : reg t.pars.typeName = some (.pars proto))
    (hfit : Fits t.pars proto) (hopt : reg t.opt.typeName = some (.opt oproto)) (hclass : oproto.typeName = t.opt.typeName)
    (hsend : t.opt.send = .ok os) (rest : List (Datum R)) :
    ∃ ms r, t.send c = .ok ms ∧ OptTask.receive reg (ms ++ rest) = .ok (⟨g, r, t.opt, t.maximize⟩, rest) ∧ Same t.pars r := by
  obtain ⟨ps, q, r, h1, _, h2, h3, h4⟩ := C33_parameters t.pars proto hfit (.str t.opt.typeName :: (os ++ (.bool t.maximize :: rest)))
  have h5 := C33_optimizer t.opt oproto hclass os hsend (.bool t.maximize :: rest)
  refine ⟨.str (c.typeName t.fn) :: .str t.pars.typeName :: ps ++ .str t.opt.typeName :: os ++ [.bool t.maximize], r, ?_, ?_, h4⟩
  · simp only [OptTask.send, h1, hsend, Res.ok_bind, Res.pure_eq]
  · simp only [OptTask.receive, List.cons_append, List.append_assoc, List.nil_append, recvStr, Res.ok_bind, getFn, hg, getPars, hproto, h2, h3,
      getOpt, hopt, h5, recvBool, Res.pure_eq]

/-- **C33** (optimisation result). -/
theorem C33_result (reg : Registered R F) (p proto : Params R) (hproto : reg p.typeName = some (.pars proto)) (hfit : Fits p proto)
    (rest : List (Datum R)) :
    ∃ ms r, sendResult p = .ok ms ∧ receiveResult reg (ms ++ rest) = .ok (r, rest) ∧ Same p r := by
  obtain ⟨ms, q, r, h1, _, h2, h3, h4⟩ := C33_parameters p proto hfit rest
  refine ⟨.str p.typeName :: ms, r, ?_, ?_, h4⟩
  · simp only [sendResult, h1, Res.ok_bind, Res.pure_eq]
  · simp only [receiveResult, List.cons_append, recvStr, Res.ok_bind, getPars, hproto, h2, h3]

/-- **C33** (unregistered types).  When the function type is not registered with the receiver, it throws. -/
theorem C33_unregistered (c : FnClass R F) (reg : Registered R F) (f : F) (p : Params R) (hg : reg (c.typeName f) = none) (t : CountTask R F)
    (ms rest : List (Datum R)) (h : (CountTask.new p f).send c = .ok ms) : t.receive reg (ms ++ rest) = .throw "invalid_argument" := by
  simp only [CountTask.send, CountTask.content, CountTask.new] at h
  obtain ⟨ps, _, h⟩ := Res.bind_eq_ok.1 h
  cases h
  simp only [CountTask.receive, List.cons_append, recvStr, Res.ok_bind, getFn, hg, Res.throw_bind]

/-- What is registered under a name is of no use as an objective function, as parameters, or as an optimizer, and the error that makes. -/
inductive Unusable (reg : Registered R F) (isIt : Obj R F → Prop) (name : String) : String → Prop
  | missing (h : reg name = none) : Unusable reg isIt name "invalid_argument"
  | otherClass (o : Obj R F) (h : reg name = some o) (hno : ¬ isIt o) : Unusable reg isIt name "runtime_error"

def Obj.IsFn (o : Obj R F) : Prop := ∃ f, o = .fn f
def Obj.IsPars (o : Obj R F) : Prop := ∃ p, o = .pars p
def Obj.IsOpt (o : Obj R F) : Prop := ∃ p, o = .opt p

theorem getFn_unusable {reg : Registered R F} {n e : String} (h : Unusable reg Obj.IsFn n e) : getFn reg n = .throw e := by
  cases h with
  | missing h => simp [getFn, h]
  | otherClass o h hno =>
    cases o with
    | fn f => exact absurd ⟨f, rfl⟩ hno
    | _ => simp [getFn, h]

theorem getPars_unusable {reg : Registered R F} {n e : String} (h : Unusable reg Obj.IsPars n e) : getPars reg n = .throw e := by
  cases h with
  | missing h => simp [getPars, h]
  | otherClass o h hno =>
    cases o with
    | pars f => exact absurd ⟨f, rfl⟩ hno
    | _ => simp [getPars, h]

theorem getOpt_unusable {reg : Registered R F} {n e : String} (h : Unusable reg Obj.IsOpt n e) : getOpt reg n = .throw e := by
  cases h with
  | missing h => simp [getOpt, h]
  | otherClass o h hno =>
    cases o with
    | opt f => exact absurd ⟨f, rfl⟩ hno
    | _ => simp [getOpt, h]

/-- **C33** (evaluation task, receiver not prepared).  When the type of the function, or that of the parameters, is not registered with the
receiver, receiving the task throws `std::invalid_argument`; when an object of another kind is registered under the name, `std::runtime_error`. -/
theorem C33_count_task_unusable (c : FnClass R F) (reg : Registered R F) (f : F) (p : Params R) (t : CountTask R F) (ms rest : List (Datum R))
    (h : (CountTask.new p f).send c = .ok ms) (e : String)
    (hbad : Unusable reg Obj.IsFn (c.typeName f) e ∨ (∃ g, reg (c.typeName f) = some (.fn g)) ∧ Unusable reg Obj.IsPars p.typeName e) :
    t.receive reg (ms ++ rest) = .throw e := by
  simp only [CountTask.send, CountTask.content, CountTask.new] at h
  obtain ⟨ps, _, h⟩ := Res.bind_eq_ok.1 h
  cases h
  rcases hbad with hf | ⟨⟨g, hg⟩, hp⟩
  · simp only [CountTask.receive, List.cons_append, recvStr, Res.ok_bind, getFn_unusable hf, Res.throw_bind]
  · simp only [CountTask.receive, List.cons_append, recvStr, Res.ok_bind, getFn, hg, getPars_unusable hp, Res.throw_bind]

/-- **C33** (optimisation task, receiver not prepared).  The same for the three types an optimisation task names. -/
theorem C33_optimization_task_unusable (c : FnClass R F) (reg : Registered R F) (t : OptTask R F) (ms rest : List (Datum R))
    (h : t.send c = .ok ms) (e : String)
    (hbad : Unusable reg Obj.IsFn (c.typeName t.fn) e ∨
      (∃ g, reg (c.typeName t.fn) = some (.fn g)) ∧ (Unusable reg Obj.IsPars t.pars.typeName e ∨
        (∃ proto, reg t.pars.typeName = some (.pars proto) ∧ Fits t.pars proto) ∧ Unusable reg Obj.IsOpt t.opt.typeName e)) :
    OptTask.receive reg (ms ++ rest) = .throw e := by
  simp only [OptTask.send] at h
  obtain ⟨ps, hps, h⟩ := Res.bind_eq_ok.1 h
  obtain ⟨os, _, h⟩ := Res.bind_eq_ok.1 h
  cases h
  rcases hbad with hf | ⟨⟨g, hg⟩, hp | ⟨⟨proto, hproto, hfit⟩, ho⟩⟩
  · simp only [OptTask.receive, List.cons_append, List.append_assoc, recvStr, Res.ok_bind, getFn_unusable hf, Res.throw_bind]
  · simp only [OptTask.receive, List.cons_append, List.append_assoc, recvStr, Res.ok_bind, getFn, hg, getPars_unusable hp, Res.throw_bind]
  · obtain ⟨ps', q, r, h1, _, h2, h3, _⟩ := C33_parameters t.pars proto hfit (.str t.opt.typeName :: (os ++ (.bool t.maximize :: rest)))
    cases hps.symm.trans h1
    simp only [OptTask.receive, List.cons_append, List.append_assoc, List.nil_append, recvStr, Res.ok_bind, getFn, hg, getPars, hproto, h2, h3,
      getOpt_unusable ho, Res.throw_bind]

/-- **C33** (optimisation result, receiver not prepared). -/
theorem C33_result_unusable (reg : Registered R F) (p : Params R) (ms rest : List (Datum R)) (h : sendResult p = .ok ms) (e : String)
    (hbad : Unusable reg Obj.IsPars p.typeName e) : receiveResult reg (ms ++ rest) = .throw e := by
  obtain ⟨ps, _, h⟩ := Res.bind_eq_ok.1 h
  cases h
  simp only [receiveResult, List.cons_append, recvStr, Res.ok_bind, getPars_unusable hbad, Res.throw_bind]

/-- **C33** (bounds are the receiver's).  An integer parameter arrives as its distance from the lower bound: with an object of other bounds
but the same chromosome size registered, another value arrives. -/
theorem C33_foreign_bounds (v min max w min' max' : Int) (p q : IntParam) (hv : min ≤ v ∧ v < max) (hmin : IsInt min) (hmax : IsInt max)
    (hmin' : IsInt min') (hp : IntParam.new v min max = .ok p) (hq : IntParam.new w min' max' = .ok q) (hcs : p.cs = q.cs)
    (hfit : IsInt (min' + (v - min))) :
    ∃ ms r, (Params.disc (.int p) : Params R).send = .ok ms ∧ (Params.disc (.int q)).receive ms = .ok (.disc (.int r), []) ∧
      r.value = min' + (v - min) := by
  obtain ⟨n, hn⟩ : ∃ n, p.cs.get = .ok n := by
    obtain ⟨s, hs, rfl⟩ := IntParam.new_eq_ok hp
    exact ⟨s, rfl⟩
  classical
  obtain ⟨out, h1, h2, h3, h4⟩ := IntParam.C05_value_roundtrip v v min max hmin hmax ⟨hv.1, by omega⟩ p p hp hp (List.replicate n false)
    (by simp [hn])
  rw [if_neg (by rintro ⟨rfl, _⟩; omega)] at h4
  have hlen : out.length = n := by simpa using h2
  have hbits : bitsVal out = v - min := by
    have h5 := IntParam.C06_chromosome_roundtrip v min max hmin p hp out out (by rw [hn, hlen]) rfl
    by_cases hi : IsInt (min + bitsVal out)
    · have := (h5.2 hi).2.1
      rw [h4] at this
      have := congrArg IntParam.value this
      simp only at this
      omega
    · have := h5.1 hi
      rw [h3] at this
      cases this
  have h6 := IntParam.C06_chromosome_roundtrip w min' max' hmin' q hq out out (by rw [← hcs, hn, hlen]) rfl
  have h7 := h6.2 (by rw [hbits]; exact hfit)
  refine ⟨[.bits out], { q with value := min' + bitsVal out }, ?_, ?_, by simp [hbits]⟩
  · simp [Params.send, Param.chromosomeSize, hn, Param.setChromosome, h1]
  · simp [Params.receive, recvBits, Param.setFromChromosome, h7.1, h7.2.1]

/-! ## Non-vacuity -/

section Example

theorem count07 : IntParam.countChromosomeSize 0 7 = .ok 3 := by
  obtain ⟨p, s, h1, h2, h3, h4, h5, h6, h7, h8⟩ := (IntParam.C07_size_exact 5 0 7 (by simp [IsInt]) (by simp [IsInt])).2 (by decide)
  obtain ⟨s', hs, rfl⟩ := IntParam.new_eq_ok h1
  simp only [ConstSize.get, if_true, Res.ok.injEq] at h2
  subst h2
  have := h7 3 (by norm_num)
  have : ¬ s' ≤ 2 := by
    intro hle
    have : (2 : Int) ^ s' ≤ 2 ^ 2 := pow_le_pow_right₀ (by norm_num) hle
    norm_num at this
    omega
  have : s' = 3 := by omega
  rw [← this]; exact hs

/-- The number 5 in [0, 7]. -/
def five : IntParam := ⟨⟨true, 3⟩, 5, 0, 7⟩

theorem five_fits : Fits (.disc (.int five) : Params ℚ) (.disc (.int { five with value := 2 })) := by
  refine ⟨⟨3, ?_⟩, ⟨3, ?_⟩, ⟨rfl, rfl⟩, ?_⟩
  · exact ⟨rfl, count07, by simp [IsInt, five]⟩
  · exact ⟨rfl, count07, by simp [IsInt, five]⟩
  · exact ⟨by simp [IsInt, five], by decide, by decide, by simp [five]⟩

/-- One function type whose objects add a constant; the server's adds 1, the worker registered one that adds 10. -/
def exClass : FnClass ℚ ℚ := ⟨fun _ => "Plus", fun a p => match p with
  | .disc (.int i) => i.value + a
  | _ => a⟩

def exReg : Registered ℚ ℚ := fun id =>
  if id = "Plus" then some (.fn 10)
  else if id = "IntParameter" then some (.pars (.disc (.int { five with value := 2 })))
  else if id = "BoundedNelderMead" then some (.opt (.nelderMead 1 1 1 1))
  else none

/-- The parameter arrives, the state of the function does not: 5 + 10 instead of 5 + 1. -/
theorem C33_example : ∃ ms t, (CountTask.new (.disc (.int five)) (1 : ℚ)).send exClass = .ok ms ∧
    CountTask.default.receive exReg ms = .ok (t, []) ∧ t.perform exClass = .ok 15 ∧
    (CountTask.new (.disc (.int five)) (1 : ℚ)).perform exClass = .ok 6 := by
  obtain ⟨ms, t, r, h1, h2, h3, h4⟩ := C33_count_task exClass exReg 1 10 (.disc (.int five)) (.disc (.int { five with value := 2 })) (by rfl) (by rfl)
    five_fits CountTask.default rfl []
  refine ⟨ms, t, h1, by simpa using h2, ?_, ?_⟩
  · rw [h4]
    cases r with
    | cont vs => exact absurd h3 (by simp [Same])
    | disc r =>
      cases r with
      | int r =>
        simp only [Same, Param.Restored] at h3
        simp only [exClass, h3.1, five]
        norm_num
      | dbl r => exact absurd h3 (by simp [Same, Param.Restored])
      | arr r => exact absurd h3 (by simp [Same, Param.Restored])
      | comp _ _ _ => exact absurd h3 (by simp [Same, Param.Restored])
  · simp only [CountTask.perform, CountTask.content, CountTask.new, exClass, five]; norm_num

/-- A whole optimisation task arrives with the settings of its optimizer. -/
theorem C33_example_task : ∃ ms r, (OptTask.mk (1 : ℚ) (.disc (.int five)) (.nelderMead 2 3 4 5) true).send exClass = .ok ms ∧
    OptTask.receive exReg ms = .ok (⟨10, r, .nelderMead 2 3 4 5, true⟩, []) := by
  obtain ⟨ms, r, h1, h2, _⟩ := C33_optimization_task exClass exReg (OptTask.mk (1 : ℚ) (.disc (.int five)) (.nelderMead 2 3 4 5) true) 10
    (.disc (.int { five with value := 2 })) (.nelderMead 1 1 1 1) _ (by rfl) (by rfl) five_fits (by rfl) rfl rfl []
  exact ⟨ms, r, h1, by simpa using h2⟩

/-- A worker where another optimizer class is registered under the name cannot receive the task: the parameters arrive, the optimizer does not. -/
theorem C33_example_unusable : ∃ ms, (OptTask.mk (1 : ℚ) (.disc (.int five)) (.nelderMead 2 3 4 5) true).send exClass = .ok ms ∧
    OptTask.receive (fun id => if id = "BoundedNelderMead" then some .other else exReg id) ms = .throw "runtime_error" ∧
    OptTask.receive (fun id => if id = "BoundedNelderMead" then none else exReg id) ms = .throw "invalid_argument" := by
  obtain ⟨ms, r, h1, h2⟩ := C33_example_task
  refine ⟨ms, h1, ?_, ?_⟩
  · have := C33_optimization_task_unusable exClass (fun id => if id = "BoundedNelderMead" then some .other else exReg id) _ ms [] h1 "runtime_error"
      (.inr ⟨⟨10, rfl⟩, .inr ⟨⟨_, rfl, five_fits⟩, .otherClass .other rfl (by rintro ⟨o, h⟩; cases h)⟩⟩)
    simpa using this
  · have := C33_optimization_task_unusable exClass (fun id => if id = "BoundedNelderMead" then none else exReg id) _ ms [] h1 "invalid_argument"
      (.inr ⟨⟨10, rfl⟩, .inr ⟨⟨_, rfl, five_fits⟩, .missing rfl⟩⟩)
    simpa using this

end Example

end K52.Transfer
