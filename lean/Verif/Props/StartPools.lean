import Verif.Props.Tasks
import Verif.Props.CountPools

/-!
# C128: the worker pool does not matter to multi-start optimization

`OptimizationParametersProcessor::ProcessParameters` (optimization_parameters_processor.cpp:27-79) hands one optimization task per start to whichever
pool the factory made (C58).  `Tasks.process` (C82) performs the tasks one after the other in this process; here it is connected to the transition
systems of the three pools.  With MPI the tasks are sent to workers, rebuilt and performed there, and the parameters found are sent back.
-/

namespace K52.StartPools
open Tasks

variable {F : Type}

/-! ## Specification -/

/-- What the processor creates a task from: a continuous function, the values of a continuous array of parameters, one of the five methods, a
direction. -/
structure Start (F : Type) where
  fn : F
  values : List ℝ
  method : Method
  maximize : Bool

/-- The task created from `t`, performed in this process (optimization_task.cpp:32-41, 137-149). -/
noncomputable def performHere (e : Env) (eval : F → List ℝ → ℝ) (t : Start F) : Res (Pars Unit × Tasks.Task Unit) := do
  let task ← Tasks.Task.new (.method t.method) (.cont (CParams.ofValues t.values)) (.cont (eval t.fn)) t.maximize
  task.perform e

/-- The values it finds; `none` if creating or performing the task does not return. -/
noncomputable def foundHere (e : Env) (eval : F → List ℝ → ℝ) (t : Start F) : Option (List ℝ) :=
  match performHere e eval t with
  | .ok (.cont q, _) => some q.values
  | _ => none

/-- What the processes of an MPI job have registered (they all run the same program, but a server and its workers may have registered different
objects): a function with the same values for every function sent, some continuous array at both ends, and an optimizer of the same class as every
method. -/
structure Registries (c : Transfer.FnClass ℝ F) (eval : F → List ℝ → ℝ) (worker server : Transfer.Registered ℝ F) : Prop where
  fn : ∀ f, ∃ g, worker (c.typeName f) = some (.fn g) ∧ eval g = eval f
  workerArray : ∃ vs, worker "ContinuousParametersArray" = some (.pars (.cont vs))
  serverArray : ∃ vs, server "ContinuousParametersArray" = some (.pars (.cont vs))
  optimizer : ∀ m : Method, ∃ o, worker m.settings.typeName = some (.opt o) ∧ o.typeName = m.settings.typeName

/-- What a worker sends back for `t`, if it gets that far: the messages of the task are received, the rebuilt task is performed, the result is sent
(mpi_worker_pool.cpp:173-190, optimization_task.cpp:67-149, optimization_task_result.cpp:52-59). -/
noncomputable def work (e : Env) (c : Transfer.FnClass ℝ F) (eval : F → List ℝ → ℝ) (worker : Transfer.Registered ℝ F) (t : Start F) :
    Res (List (Transfer.Datum ℝ)) := do
  let ms ← (Transfer.OptTask.mk t.fn (.cont t.values) t.method.settings t.maximize).send c
  let (received, _) ← Transfer.OptTask.receive worker ms
  let found ← performReceived e eval received
  Transfer.sendResult found

/-- The starts for which a worker gets that far. -/
abbrev Workable (e : Env) (c : Transfer.FnClass ℝ F) (eval : F → List ℝ → ℝ) (worker : Transfer.Registered ℝ F) :=
  { t : Start F // ∃ ms, work e c eval worker t = .ok ms }

/-- The messages of the result of such a start. -/
noncomputable def parts {e : Env} {c : Transfer.FnClass ℝ F} {eval : F → List ℝ → ℝ} {worker : Transfer.Registered ℝ F}
    (t : Workable e c eval worker) : List (Transfer.Datum ℝ) := t.2.choose

/-- `AnyPool e eval DoTasks`: `DoTasks ts rs` says that performing the tasks of `ts`, in a pool in some state it can be in between two calls, can end
with results that hold the values `rs`. -/
inductive AnyPool (e : Env) (eval : F → List ℝ → ℝ) : (List (Start F) → List (List ℝ) → Prop) → Prop
  /-- the sequential pool, whatever it has counted before -/
  | sequential (st : WStats) :
      AnyPool e eval fun ts rs => (SeqPool.doTasks (fun (u : Unit) t => (u, foundHere e eval t)) () st ts).2.2 = .ok rs
  /-- a thread pool after any history, that is not inside a call; `rs` are the results of any execution of the call that ends -/
  | thread (w : Nat) (s₀ : Pool.S (Start F) (List ℝ) w) : Pool.Reach (foundHere e eval) s₀ → s₀.loc none = .idle → 2 ≤ w →
      AnyPool e eval fun ts rs => ∃ s, Pool.Returns (foundHere e eval) s₀ ts s ∧ s.results = rs.map some
  /-- an MPI pool after any history (of tasks the workers can perform), that is not inside a call; `rs` are the parameters the receiving calls of the
  results rebuild from the messages of any execution of the call that ends -/
  | mpi (size : Nat) (c : Transfer.FnClass ℝ F) (worker server : Transfer.Registered ℝ F) (hreg : Registries c eval worker server)
      (b₀ : Mpi.Blk (Workable e c eval worker) (Transfer.Datum ℝ)) :
      Mpi.BlkReach size parts (fun _ => Mpi.optimizationRest 1) b₀ → b₀.s.loc = .idle → 2 ≤ size →
      AnyPool e eval fun ts rs => ∃ s k b, Mpi.Call size b₀.s s ∧ s.batch.map Subtype.val = ts ∧
        Mpi.BlkRun size parts (fun _ => Mpi.optimizationRest 1) k { b₀ with s := s } b ∧ b.s.loc = .idle ∧
        rs.length = ts.length ∧ ∀ (i : Nat) v, rs[i]? = some v → Transfer.receiveResult server (b.s.got i) = .ok (.cont v, [])

/-- `OptimizationParametersProcessor::ProcessParameters`, optimization_parameters_processor.cpp:27-79, for continuous arrays holding `starts`, with the
tasks performed by a pool: `out` is a possible outcome (the values of the parameters returned). -/
def ProcessesBy (DoTasks : List (Start F) → List (List ℝ) → Prop) (eval : F → List ℝ → ℝ) (m : Method) (f : F) (starts : List (List ℝ))
    (maximize : Bool) (out : Res (List ℝ)) : Prop :=
  ∃ rs, DoTasks (starts.map fun v => ⟨f, v, m, maximize⟩) rs ∧
    out = match rs.map (eval f) with
      | [] => .ub
      | v :: vs =>
        match rs[Processor.selectLoop maximize 0 v 1 vs]? with
        | some r => .ok r
        | none => .ub

/-! ## Performing a task remotely -/

theorem foundHere_some {e : Env} {eval : F → List ℝ → ℝ} {t : Start F} {v : List ℝ} :
    foundHere e eval t = some v ↔ ∃ q task', performHere e eval t = .ok (.cont q, task') ∧ q.values = v := by
  unfold foundHere
  rcases performHere e eval t with ⟨p, task'⟩ | w | _
  · cases p <;> simp
  · simp
  · simp

/-- Only continuous parameters are returned by a task created from continuous parameters. -/
theorem perform_cont {e : Env} {eval : F → List ℝ → ℝ} {t : Start F} {p : Pars Unit} {task' : Tasks.Task Unit}
    (h : performHere e eval t = .ok (p, task')) : ∃ q, p = .cont q := by
  obtain ⟨m', hc, _⟩ := clone_method t.method
  simp only [performHere, Tasks.Task.new, hc, Res.ok_bind, Res.pure_eq, Tasks.Task.perform, Method.optimize] at h
  obtain ⟨x, hx, h⟩ := Res.bind_eq_ok.1 h
  obtain ⟨y, _, hx⟩ := Res.bind_eq_ok.1 hx
  simp only [Res.ok.injEq] at hx
  simp only [Res.pure_eq, Res.ok.injEq, Prod.mk.injEq] at h
  obtain ⟨rfl, _⟩ := h
  exact ⟨y.1, by rw [← hx]⟩

theorem work_iff {e : Env} {c : Transfer.FnClass ℝ F} {eval : F → List ℝ → ℝ} {worker server : Transfer.Registered ℝ F}
    (hreg : Registries c eval worker server) (t : Start F) (ms : List (Transfer.Datum ℝ)) :
    work e c eval worker t = .ok ms ↔ ∃ v, foundHere e eval t = some v ∧ Transfer.sendResult (.cont v) = .ok ms := by
  obtain ⟨g, hg, heq⟩ := hreg.fn t.fn
  obtain ⟨other, ho⟩ := hreg.workerArray
  obtain ⟨o, hopt, hclass⟩ := hreg.optimizer t.method
  obtain ⟨sent, received, h1, h2, h3, _⟩ := C84_remote (P := Unit) e c worker eval t.fn g t.values other t.method t.maximize o hg heq
    (by simpa [Transfer.Params.typeName] using ho) hopt hclass []
  rw [List.append_nil] at h2
  simp only [work, h1, h2, Res.ok_bind]
  rw [h3]
  change (performHere e eval t >>= _) >>= _ = _ ↔ _
  constructor
  · intro h
    obtain ⟨found, hf, h⟩ := Res.bind_eq_ok.1 h
    obtain ⟨⟨p, task'⟩, hp, hf⟩ := Res.bind_eq_ok.1 hf
    obtain ⟨q, rfl⟩ := perform_cont hp
    simp only [reported, Res.ok.injEq] at hf
    subst hf
    exact ⟨q.values, foundHere_some.2 ⟨q, task', hp, rfl⟩, h⟩
  · rintro ⟨v, hv, h⟩
    obtain ⟨q, task', hp, rfl⟩ := foundHere_some.1 hv
    rw [hp]
    exact h

theorem sendResult_cont (v : List ℝ) : ∃ ms, Transfer.sendResult (.cont v) = .ok ms := by
  obtain ⟨ms, _, h, _⟩ := Transfer.C33_result (F := Unit) (fun _ => some (.pars (.cont v))) (.cont v) (.cont v) rfl trivial []
  exact ⟨ms, h⟩

/-! ## Theorems -/

theorem forall₂_map_some {α β : Type} (f : α → Option β) : ∀ {as : List α} {bs : List β},
    as.map f = bs.map some ↔ List.Forall₂ (fun a b => f a = some b) as bs
  | [], [] => by simp
  | [], _ :: _ => by simp
  | _ :: _, [] => by simp
  | a :: as, b :: bs => by simp [forall₂_map_some f (as := as) (bs := bs)]

theorem sequential_results (perform : Start F → Option (List ℝ)) : ∀ (ts : List (Start F)) (st : WStats) (rs : List (List ℝ)),
    (SeqPool.doTasks (fun (u : Unit) t => (u, perform t)) () st ts).2.2 = .ok rs ↔ List.Forall₂ (fun t r => perform t = some r) ts rs
  | [], st, rs => by
    simp only [SeqPool.doTasks, Res.ok.injEq, List.forall₂_nil_left_iff]
    exact eq_comm
  | t :: ts, st, rs => by
    simp only [SeqPool.doTasks]
    rcases hp : perform t with _ | r
    · simp only [reduceCtorEq, List.forall₂_cons_left_iff, false_iff, hp]
      rintro ⟨b, u, h, _⟩
      simp at h
    · have ih := sequential_results perform ts st.incCounted
      simp only
      rcases hd : SeqPool.doTasks (fun (u : Unit) t => (u, perform t)) () st.incCounted ts with ⟨u, st', x | w | _⟩
      · simp only [hd, Res.ok.injEq] at ih ⊢
        constructor
        · rintro rfl
          exact .cons hp ((ih x).1 rfl)
        · intro h
          cases h with
          | cons h1 h2 =>
            rw [hp] at h1
            simp only [Option.some.injEq] at h1
            rw [h1, (ih _).2 h2]
      · simp only [hd, reduceCtorEq, false_iff] at ih ⊢
        intro h
        cases h with
        | cons h1 h2 => exact ih _ h2
      · simp only [hd, reduceCtorEq, false_iff] at ih ⊢
        intro h
        cases h with
        | cons h1 h2 => exact ih _ h2

/-- **C128** (results).  Whichever pool it is and whatever it did before: performing the tasks of `ts` can return the results `rs` exactly when performing
the task of each start in this process finds the values given for it in `rs`. -/
theorem C128_results (e : Env) (eval : F → List ℝ → ℝ) (DoTasks : List (Start F) → List (List ℝ) → Prop) (h : AnyPool e eval DoTasks)
    (ts : List (Start F)) (rs : List (List ℝ)) : DoTasks ts rs ↔ List.Forall₂ (fun t r => foundHere e eval t = some r) ts rs := by
  cases h with
  | sequential st => exact sequential_results _ ts st rs
  | thread w s₀ hr h0 hw =>
    constructor
    · rintro ⟨s, hs, hv⟩
      have h1 := (Pool.C24_results hr hs).1
      rw [hv] at h1
      exact (forall₂_map_some _).1 h1.symm
    · intro h
      have h1 := (forall₂_map_some _).2 h
      obtain ⟨s, hs⟩ := Pool.C25_can_return (tasks := ts) hr h0 hw (by
        intro t ht
        obtain ⟨r, _, hr⟩ := forall₂_left h t ht
        rw [hr]
        simp)
      exact ⟨s, hs, by rw [(Pool.C24_results hr hs).1, h1]⟩
  | mpi size c worker server hreg b₀ hr h0 hw =>
    have opt : ∀ t : Workable e c eval worker, ∃ v, foundHere e eval t.1 = some v ∧ Transfer.sendResult (.cont v) = .ok (parts t) := fun t =>
      (work_iff hreg t.1 _).1 t.2.choose_spec
    choose found hfound hsend using opt
    obtain ⟨other, ho⟩ := hreg.serverArray
    have hlen : ∀ t : Workable e c eval worker, (parts t).length = 1 + ((Mpi.optimizationRest 1).map Mpi.Kind.size).sum := by
      intro t
      have h3 := hsend t
      obtain ⟨ms, q, r, h1, h2, _⟩ := Transfer.C33_parameters (R := ℝ) (.cont (found t)) (.cont other) trivial []
      simp only [Transfer.sendResult, h1, Res.ok_bind, Res.pure_eq, Res.ok.injEq] at h3
      rw [← h3]
      simp [Mpi.optimizationRest, Mpi.Kind.size, h2]
    have val : ∀ (batch : List (Workable e c eval worker)) s k b, Mpi.Call size b₀.s s → s.batch = batch →
        Mpi.BlkRun size parts (fun _ => Mpi.optimizationRest 1) k { b₀ with s := s } b → b.s.loc = .idle →
        ∀ i (hi : i < batch.length), Transfer.receiveResult server (b.s.got i) = .ok (.cont (found batch[i]), []) := by
      intro batch s k b hc hb hrun hi i hlt
      have h1 : b.s.batch = batch := by rw [CountPools.run_batch hrun]; exact hb
      subst h1
      obtain ⟨r, h2, h3⟩ := Mpi.C119_optimization server (fun t => .cont (found t)) (fun _ => .cont other)
        (fun t => by simpa [Transfer.Params.typeName] using ho) (fun _ => trivial) parts hsend (hrun.reach (hr.call hc)) hi i hlt
      rw [h2]
      cases r with
      | cont ws => simp only [Transfer.Same] at h3; rw [h3]
      | disc q => exact absurd h3 (by simp [Transfer.Same])
    constructor
    · rintro ⟨s, k, b, hc, hb, hrun, hi, hl, hv⟩
      subst hb
      rw [List.forall₂_map_left_iff, List.forall₂_iff_get]
      rw [List.length_map] at hl
      refine ⟨hl.symm, fun i h1 h2 => ?_⟩
      have h3 := hv i _ (List.getElem?_eq_getElem h2)
      rw [val _ s k b hc rfl hrun hi i h1] at h3
      simp only [Res.ok.injEq, Prod.mk.injEq, and_true, Transfer.Params.cont.injEq] at h3
      simp only [List.get_eq_getElem]
      rw [← h3]
      exact hfound _
    · intro h
      have hw' : ∀ t ∈ ts, ∃ ms, work e c eval worker t = .ok ms := by
        intro t ht
        obtain ⟨r, _, hr⟩ := forall₂_left h t ht
        obtain ⟨ms, hms⟩ := sendResult_cont r
        exact ⟨ms, (work_iff hreg t ms).2 ⟨r, hr, hms⟩⟩
      obtain ⟨batch, rfl⟩ : ∃ batch : List (Workable e c eval worker), batch.map Subtype.val = ts :=
        ⟨ts.pmap Subtype.mk hw', by simp [List.map_pmap]⟩
      obtain ⟨k, b, hrun, hi⟩ := Mpi.C119_can_return (b := { b₀ with s := _ }) hlen (hr.call (Mpi.Call.doTasks batch h0 hw))
      rw [List.forall₂_map_left_iff, List.forall₂_iff_get] at h
      refine ⟨_, k, b, Mpi.Call.doTasks batch h0 hw, rfl, hrun, hi, by simp [h.1], ?_⟩
      intro i v hv
      obtain ⟨hlt, rfl⟩ := List.getElem?_eq_some_iff.1 hv
      have hb : i < batch.length := by rw [h.1]; exact hlt
      rw [val batch _ k b (Mpi.Call.doTasks batch h0 hw) rfl hrun hi i hb]
      have h3 := h.2 i hb hlt
      simp only [List.get_eq_getElem] at h3
      rw [hfound] at h3
      simp only [Option.some.injEq] at h3
      rw [h3]

/-- Optimizing the starts one after the other finds what the tasks find. -/
theorem leads_iff {P : Type} (e : Env) (eval : F → List ℝ → ℝ) (m m' : Method) (hm : IsFresh m m') (f : F) (maximize : Bool) (v r : List ℝ) :
    foundHere e eval ⟨f, v, m, maximize⟩ = some r ↔ ∃ q, Leads e m' (eval f) maximize (CParams.ofValues v) q ∧ q.values = r := by
  have hc : (Optimizer.method m).clone = .ok m' := by
    obtain ⟨c, hc, hf⟩ := clone_method m
    rw [hc, IsFresh.unique hf hm]
  rw [foundHere_some]
  simp only [performHere, Tasks.Task.new, hc, Res.ok_bind, Res.pure_eq, Tasks.Task.perform, Method.optimize, Leads]
  rcases m'.optimizeCont e (eval f) (CParams.ofValues v) maximize with y | w | _
  · simp only [Res.ok_bind, Res.ok.injEq, Prod.mk.injEq, Pars.cont.injEq]
    constructor
    · rintro ⟨q, task', ⟨rfl, _⟩, h⟩
      exact ⟨y.1, ⟨y.2, rfl⟩, h⟩
    · rintro ⟨q, ⟨m'', rfl⟩, h⟩
      exact ⟨q, _, ⟨rfl, rfl⟩, h⟩
  · simp
  · simp

theorem bestAt_unique {values : List ℝ} {maximize : Bool} {i j : Nat} (hi : Processor.BestAt values maximize i)
    (hj : Processor.BestAt values maximize j) : i = j := by
  obtain ⟨v, hv, hi⟩ := hi
  obtain ⟨w, hw, hj⟩ := hj
  cases maximize
  · simp only [Bool.false_eq_true, if_false] at hi hj
    have : v = w := le_antisymm (hi.1 _ _ hw) (hj.1 _ _ hv)
    subst this
    exact le_antisymm (hj.2 _ _ hv rfl) (hi.2 _ _ hw rfl)
  · simp only [if_true] at hi hj
    have : v = w := le_antisymm (hj.1 _ _ hv) (hi.1 _ _ hw)
    subst this
    exact le_antisymm (hi.2 _ _ hw rfl) (hj.2 _ _ hv rfl)

theorem forall₂_exists_right {α β γ : Type} {s : α → β → Prop} {g : β → γ} : ∀ {as : List α} {cs : List γ},
    List.Forall₂ (fun a c => ∃ b, s a b ∧ g b = c) as cs ↔ ∃ bs, List.Forall₂ s as bs ∧ bs.map g = cs
  | [], cs => by simp [eq_comm]
  | a :: as, cs => by
    constructor
    · intro h
      cases h with
      | cons h1 h2 =>
        obtain ⟨b, hb, rfl⟩ := h1
        obtain ⟨bs, hbs, rfl⟩ := forall₂_exists_right.1 h2
        exact ⟨b :: bs, .cons hb hbs, rfl⟩
    · rintro ⟨bs, h, rfl⟩
      cases h with
      | cons h1 h2 => exact .cons ⟨_, h1, rfl⟩ (forall₂_exists_right.2 ⟨_, h2, rfl⟩)

/-- **C128** (choice).  Whichever pool performs the tasks and whatever it did before, multi-start optimization can return the values `r` exactly when it
returns parameters holding `r` with the tasks performed one after the other in this process (`Tasks.process`, C82).  Given no start at all its
behaviour is undefined with every pool. -/
theorem C128_choice {P : Type} (e : Env) (eval : F → List ℝ → ℝ) (DoTasks : List (Start F) → List (List ℝ) → Prop) (h : AnyPool e eval DoTasks)
    (m : Method) (f : F) (starts : List (List ℝ)) (maximize : Bool) :
    (∀ r, ProcessesBy DoTasks eval m f starts maximize (.ok r) ↔
      ∃ q, process e (.method m) (.cont (eval f) : Fn P) (starts.map fun v => .cont (CParams.ofValues v)) maximize = .ok (.cont q) ∧ q.values = r) ∧
    (starts = [] → ∀ out, ProcessesBy DoTasks eval m f starts maximize out ↔ out = .ub) := by
  obtain ⟨m', _, hm⟩ := clone_method m
  refine ⟨fun r => ?_, ?_⟩
  · have e1 : (starts.map fun v => (.cont (CParams.ofValues v) : Pars P)) = (starts.map CParams.ofValues).map Pars.cont := by
      rw [List.map_map]; rfl
    simp only [ProcessesBy, C128_results e eval DoTasks h, List.forall₂_map_left_iff, e1, process_cont e m m' hm]
    constructor
    · rintro ⟨rs, hrs, hr⟩
      have h1 : List.Forall₂ (fun v r => ∃ q, Leads e m' (eval f) maximize (CParams.ofValues v) q ∧ q.values = r) starts rs :=
        hrs.imp fun v r h => (leads_iff (P := P) e eval m m' hm f maximize v r).1 h
      obtain ⟨qs, hqs, rfl⟩ := forall₂_exists_right.1 h1
      rw [List.map_map] at hr
      rcases hv : qs.map (eval f ∘ fun q => q.values) with _ | ⟨v, vs⟩
      · rw [hv] at hr
        simp at hr
      · rw [hv] at hr
        simp only [List.getElem?_map] at hr
        rcases hq : qs[Processor.selectLoop maximize 0 v 1 vs]? with _ | q
        · rw [hq] at hr
          simp at hr
        · rw [hq] at hr
          simp only [Option.map_some, Res.ok.injEq] at hr
          refine ⟨q, ⟨qs, _, q, hqs, hq, rfl, ?_⟩, hr.symm⟩
          have := Processor.select_best maximize v vs
          rw [← hv] at this
          exact this
    · rintro ⟨q, ⟨qs, k, q', hqs, hk, he, hb⟩, rfl⟩
      simp only [Pars.cont.injEq] at he
      subst he
      refine ⟨qs.map fun q => q.values, ?_, ?_⟩
      · have h1 : List.Forall₂ (fun v r => ∃ q, Leads e m' (eval f) maximize (CParams.ofValues v) q ∧ q.values = r) starts (qs.map fun q => q.values) :=
          forall₂_exists_right.2 ⟨qs, hqs, rfl⟩
        exact h1.imp fun v r h => (leads_iff (P := P) e eval m m' hm f maximize v r).2 h
      · rw [List.map_map]
        rcases hv : qs.map (eval f ∘ fun q => q.values) with _ | ⟨v, vs⟩
        · obtain ⟨v, hv', _⟩ := hb
          have : (qs.map fun q => eval f q.values) = [] := hv
          rw [this] at hv'
          simp at hv'
        · rw [hv]
          simp only
          have : k = Processor.selectLoop maximize 0 v 1 vs := by
            have h1 := Processor.select_best maximize v vs
            have h2 : (qs.map fun q => eval f q.values) = v :: vs := hv
            rw [h2] at hb
            exact bestAt_unique hb h1
          subst this
          simp only [List.getElem?_map, hk, Option.map_some]
  · rintro rfl out
    simp only [ProcessesBy, C128_results e eval DoTasks h, List.map_nil, List.forall₂_nil_left_iff, exists_eq_left]

/-- **C128** (agreement).  So two programs that differ only in the pools they use, and in what these did before, can return the same. -/
theorem C128_agree (e : Env) (eval : F → List ℝ → ℝ) (D D' : List (Start F) → List (List ℝ) → Prop) (h : AnyPool e eval D) (h' : AnyPool e eval D')
    (m : Method) (f : F) (starts : List (List ℝ)) (maximize : Bool) (out : Res (List ℝ)) :
    ProcessesBy D eval m f starts maximize out ↔ ProcessesBy D' eval m f starts maximize out := by
  unfold ProcessesBy
  simp only [C128_results e eval D h, C128_results e eval D' h']

/-! ## Concrete cases -/

/-- One function, registered at both ends, with arrays and optimizers of all five classes. -/
def exRegistered : Transfer.Registered ℝ Unit := fun id =>
  if id = "Square" then some (.fn ())
  else if id = "ContinuousParametersArray" then some (.pars (.cont []))
  else if id = "BoundedNelderMead" then some (.opt (.nelderMead 1 1 1 1))
  else if id = "HookeJeevesMethod" then some (.opt (.hookeJeeves 1 1 1 1 1))
  else if id = "HleborodovRosenbrockMethod" then some (.opt (.rosenbrock 1 1 1 1))
  else if id = "SteepestDescentMethod" then some (.opt (.steepestDescent 1 1 1))
  else if id = "ConjugateGradientMethod" then some (.opt (.conjugateGradient 1 1 1))
  else none

def exClass : Transfer.FnClass ℝ Unit := ⟨fun _ => "Square", fun _ _ => 0⟩

theorem exRegistries (eval : Unit → List ℝ → ℝ) : Registries exClass eval exRegistered exRegistered where
  fn _ := ⟨(), by simp [exRegistered, exClass], rfl⟩
  workerArray := ⟨[], by simp [exRegistered]⟩
  serverArray := ⟨[], by simp [exRegistered]⟩
  optimizer m := by
    cases m
    · exact ⟨.nelderMead 1 1 1 1, by simp [exRegistered, Method.settings, Transfer.Optimizer.typeName], rfl⟩
    · exact ⟨.hookeJeeves 1 1 1 1 1, by simp [exRegistered, Method.settings, Transfer.Optimizer.typeName], rfl⟩
    · exact ⟨.rosenbrock 1 1 1 1, by simp [exRegistered, Method.settings, Transfer.Optimizer.typeName], rfl⟩
    · exact ⟨.steepestDescent 1 1 1, by simp [exRegistered, Method.settings, Transfer.Optimizer.typeName], rfl⟩
    · exact ⟨.conjugateGradient 1 1 1, by simp [exRegistered, Method.settings, Transfer.Optimizer.typeName], rfl⟩

noncomputable def exEval : Unit → List ℝ → ℝ := fun _ v => v.sum ^ 2

noncomputable def exMethod : Method := .nelderMead ⟨1, 1 / 100, -100, 100⟩ [[[0], [1]]]

/-- Nelder-Mead returns from every start with one to three coordinates. -/
theorem ex_found (v : List ℝ) (hv : v ≠ []) (hl : v.length ≤ 3) (maximize : Bool) :
    ∃ r, foundHere ⟨3001, .real⟩ exEval ⟨(), v, exMethod, maximize⟩ = some r := by
  obtain ⟨Fin, r, _, c2, c3, _, _, _, _, c8, _⟩ := (NelderMead.C45_terminates Real.sqrt (ContinuousOptimizer.target maximize (exEval ()))
    ⟨1, 1 / 100, -100, 100⟩ v [] ⟨by simp, by simp⟩ 3001 (by omega)).2 hv
  refine ⟨r, (leads_iff (P := Unit) ⟨3001, .real⟩ exEval exMethod (.nelderMead ⟨1, 1 / 100, -100, 100⟩ []) ⟨rfl, rfl⟩ () maximize v r).2
    ⟨{ CParams.ofValues v with values := r }, ⟨.nelderMead ⟨1, 1 / 100, -100, 100⟩ Fin.previous, optimizeCont_of ?_ c3 ?_⟩, rfl⟩⟩
  · simp only [Method.find, CParams.ofValues, Prog.eval_bind, c2, Res.ok_bind, Prog.pure_def, Prog.eval_done]
  · intro x hx
    simp only [Method.find, Prog.mem_trace_bind, Prog.pure_def, Prog.trace_done] at hx
    rcases hx with hx | ⟨_, _, hx⟩
    · exact ⟨c8 x hx, rfl⟩
    · simp at hx

/-- The three pools are instances of `AnyPool`: a used sequential pool, fresh pools of two threads and of three processes. -/
example : AnyPool ⟨3001, .real⟩ exEval
    (fun ts rs => (SeqPool.doTasks (fun (u : Unit) t => (u, foundHere ⟨3001, .real⟩ exEval t)) () WStats.new.incCounted ts).2.2 = .ok rs) :=
  .sequential _

/-- So multi-start optimization in a fresh pool of two threads and in a fresh pool of three processes can return – the same: what it returns in this
process. -/
example (maximize : Bool) : ∃ D D' r, AnyPool ⟨3001, .real⟩ exEval D ∧ AnyPool ⟨3001, .real⟩ exEval D' ∧
    ProcessesBy D exEval exMethod () [[1, 2], [3]] maximize (.ok r) ∧ ∀ out, ProcessesBy D' exEval exMethod () [[1, 2], [3]] maximize out ↔
      ProcessesBy D exEval exMethod () [[1, 2], [3]] maximize out := by
  have h := AnyPool.thread (e := ⟨3001, .real⟩) (eval := exEval) 2 (Pool.S.init _ _ 2) .init rfl (by decide)
  have h' := AnyPool.mpi (e := ⟨3001, .real⟩) (eval := exEval) 3 exClass exRegistered exRegistered (exRegistries exEval) (Mpi.Blk.init _ _) .init rfl
    (by decide)
  obtain ⟨a, ha⟩ := ex_found [1, 2] (by simp) (by simp) maximize
  obtain ⟨b, hb⟩ := ex_found [3] (by simp) (by simp) maximize
  have sel := Processor.select_best maximize (exEval () a) [exEval () b]
  obtain ⟨v, hv, _⟩ := sel
  rcases hr : [a, b][Processor.selectLoop maximize 0 (exEval () a) 1 [exEval () b]]? with _ | r
  · rw [List.getElem?_eq_none_iff] at hr
    rw [List.getElem?_eq_none_iff.2 (by simpa using hr)] at hv
    simp at hv
  have hr : ∀ D, AnyPool ⟨3001, .real⟩ exEval D → ProcessesBy D exEval exMethod () [[1, 2], [3]] maximize (.ok r) := fun D hD =>
    ⟨[a, b], (C128_results _ _ D hD _ _).2 (.cons ha (.cons hb .nil)), by simp only [List.map_cons, List.map_nil, hr]⟩
  exact ⟨_, _, r, h, h', hr _ h, fun out => (C128_agree _ _ _ _ h h' exMethod () _ maximize out).symm⟩

end K52.StartPools
