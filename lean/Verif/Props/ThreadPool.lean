import Verif.Lemmas.ThreadPool

/-! # Properties C24, C25, C60: the thread pool under every schedule -/

set_option linter.unusedSectionVars false

namespace K52.Pool

variable {T R : Type} {w : Nat}

/-! ### Specification -/

/-- What happens inside one call: steps of any threads in any order (spurious wake-ups included), but no other call. `m` counts the steps
and `k` the spurious wake-ups. -/
inductive Exec (perform : T → Option R) : Nat → Nat → S T R w → S T R w → Prop
  | refl (s) : Exec perform 0 0 s s
  | step {m k s s' s''} : Exec perform m k s s' → Step perform s' s'' → Exec perform (m + 1) k s s''
  | spurious {m k s s' s''} : Exec perform m k s s' → Spurious s' s'' → Exec perform m (k + 1) s s''

/-- `DoTasks(tasks)` was called in `s₀` and has returned in `s`, after some execution. -/
def Returns (perform : T → Option R) (s₀ : S T R w) (tasks : List T) (s : S T R w) : Prop :=
  s₀.loc none = .idle ∧ 2 ≤ w ∧ s.loc none = .idle ∧
    ∃ m k, Exec perform m k { s₀.go none (mainPush tasks 0) with
        batch := tasks, results := List.replicate tasks.length none, perf := [], got := [], lost := [] } s

/-- The points inside `DoTasks`. -/
def InDo : Loc T → Prop
  | .push _ _ _ => True
  | .pop _ _ _ => True
  | .popped _ _ _ => True
  | _ => False

/-- The owner is inside `DoTasks`. -/
def Inside (s : S T R w) : Prop := InDo (s.loc none)

/-- The owner is inside the destructor. -/
def Destroying (s : S T R w) : Prop :=
  match s.loc none with
  | .stop _ => True
  | .join _ => True
  | _ => False

/-! ### Executions -/

theorem Exec.reach {perform : T → Option R} {m k : Nat} {s s' : S T R w} (h : Exec perform m k s s') (hr : Reach perform s) :
    Reach perform s' := by
  induction h with
  | refl => exact hr
  | step _ hs ih => exact .next (ih hr) (.step hs)
  | spurious _ hs ih => exact .next (ih hr) (.spurious hs)

theorem step_batch {perform : T → Option R} {s s' : S T R w} (h : Step perform s s') : s'.batch = s.batch := by
  cases h <;> rfl

theorem spurious_batch {s s' : S T R w} (h : Spurious s s') : s'.batch = s.batch := by
  cases h; rfl

theorem Exec.batch {perform : T → Option R} {m k : Nat} {s s' : S T R w} (h : Exec perform m k s s') : s'.batch = s.batch := by
  induction h with
  | refl => rfl
  | step _ hs ih => rw [step_batch hs, ih]
  | spurious _ hs ih => rw [spurious_batch hs, ih]

/-- When the owner is not inside a call, the last call is completely done. -/
theorem idle_done {perform : T → Option R} {s : S T R w} (hr : Reach perform s) (hg : s.got.length = s.batch.length) :
    s.results = s.batch.map perform ∧ (∀ t ∈ s.batch, perform t ≠ none) ∧ s.perf.Perm (elems s.batch) ∧
      ∀ i x, s.loc (some i) ≠ .run x := by
  obtain ⟨h1, h2, h3, h4, h5, h6⟩ := (cons_reach hr).finished hg
  have hG := good_reach hr
  have hok : ∀ x ∈ elems s.batch, perform x.task ≠ none := fun x hx => hG.got x (h1.mem_iff.2 hx)
  refine ⟨?_, ?_, h2, ?_⟩
  · refine List.ext_getElem (by simp [hG.len]) ?_
    intro i hi hi'
    have hi'' : i < s.batch.length := by simpa using hi'
    have hx : (⟨s.batch[i], i⟩ : Elem T) ∈ elems s.batch := mem_elems.2 (List.getElem?_eq_getElem hi'')
    have := hG.val _ (h2.mem_iff.2 hx) (hok _ hx)
    simp only [List.getElem?_eq_getElem hi, Option.some.injEq] at this
    rw [this, List.getElem_map]
  · intro t ht
    obtain ⟨i, hi, rfl⟩ := List.getElem_of_mem ht
    exact hok ⟨s.batch[i], i⟩ (mem_elems.2 (List.getElem?_eq_getElem hi))
  · intro i x hx
    have := h6 (some i)
    rw [hx] at this
    simp [hand] at this

/-! ### C24 -/

/-- **C24.** Whatever the pool was used for before, for any number of workers and tasks and under every schedule: when `DoTasks(tasks)`
returns, `results[i]` is the result of `tasks[i]` for every `i`, every task has been performed exactly once, and no worker is about to
perform (or write a result of) anything. -/
theorem C24_results {perform : T → Option R} {s₀ s : S T R w} {tasks : List T} (hr : Reach perform s₀)
    (h : Returns perform s₀ tasks s) :
    s.results = tasks.map perform ∧ (∀ t ∈ tasks, perform t ≠ none) ∧
      s.perf.Perm (tasks.zipIdx.map fun p => ⟨p.1, p.2⟩) ∧ ∀ i x, s.loc (some i) ≠ .run x := by
  obtain ⟨h1, h2, h3, m, k, he⟩ := h
  have hr' := he.reach (.next hr (.call (.doTasks tasks h1 h2)))
  have hb : s.batch = tasks := he.batch
  have hs := shape_reach hr' none
  rw [h3] at hs
  obtain ⟨a, b, c, d⟩ := idle_done hr' hs.1
  rw [hb] at a b c
  exact ⟨a, b, c, d⟩

/-- **C24 (never twice).** At every moment of every execution each task of the current call has been performed at most once, and nothing
else has been performed. -/
theorem C24_once {perform : T → Option R} {s : S T R w} (hr : Reach perform s) :
    s.perf.Nodup ∧ ∀ x ∈ s.perf, s.batch[x.slot]? = some x.task := by
  classical
  have hc := cons_reach hr
  refine ⟨?_, fun x hx => mem_elems.1 (mem_elems_of_perf hc x hx)⟩
  rw [List.nodup_iff_count_le_one]
  intro a
  by_cases ha : a ∈ s.perf
  · have h1 := hc.all a
    have h2 := hc.perf a
    have h4 : tot (fun t l => (handDone t l).count a) s.loc ≤ tot (fun t l => (hand s.batch t l).count a) s.loc := by
      unfold tot
      refine Finset.sum_le_sum fun t _ => ?_
      show (handDone t (s.loc t)).count a ≤ (hand s.batch t (s.loc t)).count a
      cases t with
      | none => simp [handDone_main]
      | some i =>
        generalize s.loc (some i) = l
        unfold handDone
        split <;> simp_all [hand]
    have h5 : (elems s.batch).Nodup := by
      unfold elems
      refine List.Nodup.map ?_ ?_
      · rintro ⟨a, b⟩ ⟨c, d⟩ h; simp at h; simp [h]
      · refine List.Nodup.of_map Prod.snd ?_
        rw [List.zipIdx_map_snd]
        exact List.nodup_range'
    have h6 := List.nodup_iff_count_le_one.1 h5 a
    omega
  · simp [List.count_eq_zero.2 ha]

/-- **C24 (mutual exclusion).** No two threads are ever inside critical sections of the same queue. -/
theorem C24_exclusion {perform : T → Option R} {s : S T R w} (hr : Reach perform s) (q : Bool) (t u : Tid w)
    (ht : holds q (s.loc t)) (hu : holds q (s.loc u)) : t = u := by
  have h := excl_reach hr
  have a := (h q t).2 ht
  have b := (h q u).2 hu
  rw [a] at b
  exact Option.some.inj b

/-! ### C25 -/

/-- **C25 (progress).** Inside `DoTasks`, if no task throws, some thread can take a step: the pool never deadlocks and no wake-up is
ever lost. -/
theorem C25_progress {perform : T → Option R} {s : S T R w} (hr : Reach perform s) (hw : 0 < w) (hin : Inside s)
    (hok : ∀ t ∈ s.batch, perform t ≠ none) : ∃ s', Step perform s s' := by
  classical
  by_contra hst
  push Not at hst
  have hx := excl_reach hr
  have hsh := shape_reach hr
  have hwk := wake_reach hr
  have hc := cons_reach hr
  have hG := good_reach hr
  -- where everybody is
  have hmain : ∃ c, s.loc none = .pop true .wait c := by
    rcases stuck_loc hx hst none with ⟨q, c, h, -⟩ | h | h | ⟨k, h⟩ | ⟨k, h⟩ | h
    · have := hsh none; rw [h] at this; obtain ⟨rfl, -⟩ := this; exact ⟨c, h⟩
    all_goals (unfold Inside at hin; rw [h] at hin; exact hin.elim)
  obtain ⟨c, hm⟩ := hmain
  have hcm := hsh none
  rw [hm] at hcm
  have hflag : ∀ i, s.flag i = false := hcm.2.2.2.2.2
  have hwork : ∀ i, ∃ d, s.loc (some i) = .pop false .wait d := by
    intro i
    have hs := hsh (some i)
    rcases stuck_loc hx hst (some i) with ⟨q, d, h, -⟩ | h | h | ⟨k, h⟩ | ⟨k, h⟩ | h
    · rw [h] at hs; obtain ⟨rfl, -⟩ := hs; exact ⟨d, h⟩
    · rw [h] at hs; simp only [Okay] at hs; rw [hflag i] at hs; cases hs
    all_goals (rw [h] at hs; cases hs)
  have hzero : ∀ q, tot (wakes q) s.loc = 0 := by
    intro q
    refine tot_zero fun t => ?_
    cases t with
    | none => rw [hm]; rfl
    | some i => obtain ⟨d, hd⟩ := hwork i; rw [hd]; rfl
  have e1 : s.items false = [] := by
    obtain ⟨d, hd⟩ := hwork ⟨0, hw⟩
    have := hwk false ⟨_, _, hd⟩
    rw [hzero] at this
    exact List.length_eq_zero_iff.1 (Nat.le_zero.1 this)
  have e2 : s.items true = [] := by
    have := hwk true ⟨_, _, hm⟩
    rw [hzero] at this
    exact List.length_eq_zero_iff.1 (Nat.le_zero.1 this)
  have e3 : s.lost = [] := by
    by_contra hne
    obtain ⟨x, hx'⟩ := List.exists_mem_of_ne_nil _ hne
    have hxe : x ∈ elems s.batch := by
      have := hc.all x
      have h0 : 0 < s.lost.count x := List.count_pos_iff.2 hx'
      refine List.count_pos_iff.1 ?_
      omega
    exact hok x.task (List.mem_of_getElem? (mem_elems.1 hxe)) (hG.lost x hx')
  have e4 : s.got.Perm (elems s.batch) := by
    refine List.perm_iff_count.2 fun a => ?_
    have h1 := hc.all a
    have h2 : tot (fun t l => (hand s.batch t l).count a) s.loc = 0 := by
      refine tot_zero fun t => ?_
      cases t with
      | none => rw [hm]; rfl
      | some i => obtain ⟨d, hd⟩ := hwork i; rw [hd]; rfl
    rw [h2, e1, e2, e3] at h1
    simpa using h1
  have := e4.length_eq
  have h3 := hcm.2.1
  have h4 := hcm.2.2.1
  simp [elems] at this
  omega

/-- **C25 (termination).** An execution inside one call has no infinite continuation: from every reachable state at most `bound s` steps
follow, plus two for every spurious wake-up (an infinite execution would need infinitely many of those). -/
theorem C25_terminates {perform : T → Option R} {m k : Nat} {s s' : S T R w} (hr : Reach perform s) (h : Exec perform m k s s') :
    m + bound s' ≤ bound s + 2 * k := by
  induction h with
  | refl => omega
  | step he hs ih => have := ih hr; have := bound_step (shape_reach (he.reach hr)) hs; omega
  | spurious he hs ih => have := ih hr; have := bound_spurious hs; omega

theorem inDo_mainPop (n c : Nat) : InDo (mainPop n c : Loc T) ∨ (mainPop n c : Loc T) = .idle := by
  unfold mainPop
  by_cases h : c < n
  · rw [if_pos h]; exact .inl trivial
  · rw [if_neg h]; exact .inr rfl

theorem inDo_mainPush (b : List T) (k : Nat) : InDo (mainPush b k) ∨ mainPush b k = .idle := by
  unfold mainPush
  cases b[k]? with
  | some a => exact .inl trivial
  | none => exact inDo_mainPop _ _

/-- Executions do not leave a call other than by returning. -/
theorem exec_inside {perform : T → Option R} {m k : Nat} {s₁ s : S T R w} (hr0 : Reach perform s₁)
    (h0 : Inside s₁ ∨ s₁.loc none = .idle) (he : Exec perform m k s₁ s) : Inside s ∨ s.loc none = .idle := by
    induction he with
    | refl => exact h0
    | step he' hs ih =>
      have ih := ih hr0 h0
      have hsh := shape_reach (he'.reach hr0) none
      have hpop := fun n c => inDo_mainPop (T := T) n c
      have hpush := fun (b : List T) n => inDo_mainPush b n
      unfold Inside at ih ⊢
      cases hs with
      | notifyOne t q x u c h1 h2 =>
        by_cases ht : none = t
        · subst ht
          simp only [S.go, Function.update_self]
          exact hpush _ _
        · simp only [S.go, Function.update_of_ne ht]
          by_cases hu : none = u
          · subst hu; simp only [Function.update_self]; exact .inl trivial
          · simp only [Function.update_of_ne hu]; exact ih
      | notifyNone t q x h1 h2 =>
        by_cases ht : none = t
        · subst ht
          simp only [S.go, Function.update_self]
          exact hpush _ _
        · simp only [S.go, Function.update_of_ne ht]; exact ih
      | popUnlock t q x c h1 =>
        by_cases ht : none = t
        · subst ht
          simp only [S.go, Function.update_self]
          exact hpop _ _
        · simp only [S.go, S.own, Function.update_of_ne ht]; exact ih
      | takeWorker i q c x xs h1 h2 =>
        simp only [S.go, S.put, Function.update_of_ne (show (none : Tid w) ≠ some i by simp)]; exact ih
      | takeMain q c x xs h1 h2 => simp only [S.go, Function.update_self]; exact .inl trivial
      | stop k h1 => rw [h1] at ih; simp [InDo] at ih
      | stopEnd k h1 h2 => rw [h1] at ih; simp [InDo] at ih
      | join k h1 h2 => rw [h1] at ih; simp [InDo] at ih
      | joinEnd k h1 h2 => rw [h1] at ih; simp [InDo] at ih
      | pushLock t q x h1 h2 =>
        by_cases ht : none = t
        · subst ht; simp only [S.go, Function.update_self]; exact .inl trivial
        · simp only [S.go, S.own, Function.update_of_ne ht]; exact ih
      | pushBody t q x h1 =>
        by_cases ht : none = t
        · subst ht; simp only [S.go, Function.update_self]; exact .inl trivial
        · simp only [S.go, S.put, Function.update_of_ne ht]; exact ih
      | pushUnlock t q x h1 =>
        by_cases ht : none = t
        · subst ht; simp only [S.go, Function.update_self]; exact .inl trivial
        · simp only [S.go, S.own, Function.update_of_ne ht]; exact ih
      | popLock t q c h1 h2 =>
        by_cases ht : none = t
        · subst ht; simp only [S.go, Function.update_self]; exact .inl trivial
        · simp only [S.go, S.own, Function.update_of_ne ht]; exact ih
      | popReacq t q c h1 h2 =>
        by_cases ht : none = t
        · subst ht; simp only [S.go, Function.update_self]; exact .inl trivial
        · simp only [S.go, S.own, Function.update_of_ne ht]; exact ih
      | testEmpty t q c h1 h2 h3 =>
        by_cases ht : none = t
        · subst ht; simp only [S.go, Function.update_self]; exact .inl trivial
        · simp only [S.go, S.own, Function.update_of_ne ht]; exact ih
      | testIntr t q c h1 h2 h3 =>
        by_cases ht : none = t
        · subst ht; simp only [S.go, Function.update_self]; exact .inl trivial
        · simp only [S.go, Function.update_of_ne ht]; exact ih
      | runOk t x r h1 h2 =>
        by_cases ht : none = t
        · subst ht; rw [h1] at hsh; cases hsh
        · simp only [S.go, Function.update_of_ne ht]; exact ih
      | runThrow t x h1 h2 =>
        by_cases ht : none = t
        · subst ht; rw [h1] at hsh; cases hsh
        · simp only [S.go, Function.update_of_ne ht]; exact ih
      | checkGo t h1 h2 =>
        by_cases ht : none = t
        · subst ht; rw [h1] at hsh; cases hsh
        · simp only [S.go, Function.update_of_ne ht]; exact ih
      | checkIntr t h1 h2 =>
        by_cases ht : none = t
        · subst ht; rw [h1] at hsh; cases hsh
        · simp only [S.go, Function.update_of_ne ht]; exact ih
      | waitIntr t q c h1 h2 =>
        by_cases ht : none = t
        · subst ht; simp only [S.go, Function.update_self]; exact .inl trivial
        · simp only [S.go, Function.update_of_ne ht]; exact ih
      | abortLock t q c h1 h2 =>
        by_cases ht : none = t
        · subst ht; simp only [S.go, Function.update_self]; exact .inl trivial
        · simp only [S.go, S.own, Function.update_of_ne ht]; exact ih
      | abortUnlock t q c h1 =>
        by_cases ht : none = t
        · subst ht; rw [h1] at hsh; exact absurd rfl hsh.2.2.2.2.1
        · simp only [S.go, S.own, Function.update_of_ne ht]; exact ih
    | spurious he' hs ih =>
      have ih := ih hr0 h0
      unfold Inside at ih ⊢
      cases hs with
      | wake t q c h1 =>
        by_cases ht : none = t
        · subst ht; simp only [S.go, Function.update_self]; exact .inl trivial
        · simp only [S.go, Function.update_of_ne ht]; exact ih

/-- **C25 (every maximal execution of a call with well-behaved tasks ends with its return).** -/
theorem C25_returns {perform : T → Option R} {s₀ s : S T R w} {tasks : List T} {m k : Nat} (hr : Reach perform s₀)
    (h0 : s₀.loc none = .idle) (hw : 2 ≤ w) (hok : ∀ t ∈ tasks, perform t ≠ none)
    (he : Exec perform m k { s₀.go none (mainPush tasks 0) with
        batch := tasks, results := List.replicate tasks.length none, perf := [], got := [], lost := [] } s)
    (hmax : ∀ s', ¬ Step perform s s') : Returns perform s₀ tasks s := by
  refine ⟨h0, hw, ?_, m, k, he⟩
  have hr0 : Reach perform _ := .next hr (.call (.doTasks tasks h0 hw))
  have hr' := he.reach hr0
  have hb : s.batch = tasks := he.batch
  have hinv : Inside s ∨ s.loc none = .idle := by
    refine exec_inside hr0 ?_ he
    show InDo (Function.update s₀.loc none (mainPush tasks 0) none) ∨ Function.update s₀.loc none (mainPush tasks 0) none = .idle
    rw [Function.update_self]
    exact inDo_mainPush _ _
  rcases hinv with hin | hi
  · obtain ⟨s', h'⟩ := C25_progress hr' (by omega) hin (by rw [hb]; exact hok)
    exact absurd h' (hmax s')
  · exact hi

/-- **C25 (a throwing task blocks the caller for ever).** If some task of a call throws, the call never returns, under any schedule: the
worker prints the message and does not report the task. -/
theorem C25_throw {perform : T → Option R} {s₀ s : S T R w} {tasks : List T} (hr : Reach perform s₀) (t : T) (ht : t ∈ tasks)
    (hthrow : perform t = none) : ¬ Returns perform s₀ tasks s :=
  fun h => (C24_results hr h).2.1 t ht hthrow

/-- Every execution can be continued to one that cannot go on. -/
theorem exists_maximal {perform : T → Option R} (n : Nat) {s : S T R w} (hr : Reach perform s) (hn : bound s ≤ n) :
    ∀ {m k : Nat} {s₁ : S T R w}, Exec perform m k s₁ s → ∃ m' s', Exec perform m' k s₁ s' ∧ ∀ s'', ¬ Step perform s' s'' := by
  induction n generalizing s with
  | zero =>
    intro m k s₁ he
    refine ⟨m, s, he, fun s'' h => ?_⟩
    have := bound_step (shape_reach hr) h
    omega
  | succ n ih =>
    intro m k s₁ he
    by_cases h : ∃ s'', Step perform s s''
    · obtain ⟨s'', h⟩ := h
      have := bound_step (shape_reach hr) h
      exact ih (.next hr (.step h)) (by omega) (.step he h)
    · push Not at h
      exact ⟨m, s, he, h⟩

/-- **C25 (a call with well-behaved tasks can return; `Returns` is not vacuous).** -/
theorem C25_can_return {perform : T → Option R} {s₀ : S T R w} {tasks : List T} (hr : Reach perform s₀) (h0 : s₀.loc none = .idle)
    (hw : 2 ≤ w) (hok : ∀ t ∈ tasks, perform t ≠ none) : ∃ s, Returns perform s₀ tasks s := by
  have hr1 : Reach perform _ := .next hr (.call (.doTasks tasks h0 hw))
  obtain ⟨m, s, he, hmax⟩ := exists_maximal _ hr1 (Nat.le_refl _) (.refl _)
  exact ⟨s, C25_returns hr h0 hw hok he hmax⟩

/-- Three tasks on two workers, fresh pool: some execution returns, and every one that does returns the squares in order. -/
example : (∃ s, Returns (fun n : Nat => some (n * n)) (S.init Nat Nat 2) [3, 1, 2] s) ∧
    ∀ s, Returns (fun n : Nat => some (n * n)) (S.init Nat Nat 2) [3, 1, 2] s → s.results = [some 9, some 1, some 4] :=
  ⟨C25_can_return .init rfl (by decide) (by simp), fun _ h => (C24_results .init h).1⟩

/-! ### C60: the destructor -/

/-- **C60 (progress).** While the destructor runs, some thread can take a step. -/
theorem C60_progress {perform : T → Option R} {s : S T R w} (hr : Reach perform s) (hd : Destroying s) : ∃ s', Step perform s s' := by
  by_contra hst
  push Not at hst
  have hx := excl_reach hr
  have hsh := shape_reach hr
  have hm := hsh none
  unfold Destroying at hd
  cases hl : s.loc none with
  | stop k =>
    by_cases hk : k < w
    · exact hst _ (.stop ⟨k, hk⟩ hl)
    · exact hst _ (.stopEnd k hl (by omega))
  | join k =>
    rw [hl] at hm
    by_cases hk : k < w
    · have hs := hsh (some ⟨k, hk⟩)
      rcases stuck_loc hx hst (some ⟨k, hk⟩) with ⟨q, d, h, hf⟩ | h | h | ⟨k, h⟩ | ⟨k, h⟩ | h
      · simp only [S.intr] at hf; rw [hm.2] at hf; cases hf
      · exact hst _ (.join ⟨k, hk⟩ hl h)
      all_goals (rw [h] at hs; cases hs)
    · exact hst _ (.joinEnd k hl (by omega))
  | _ => rw [hl] at hd; simp at hd

/-- Workers stay dead and the joined ones are dead. -/
theorem joined_dead {perform : T → Option R} {s : S T R w} (hr : Reach perform s) :
    (∀ k, s.loc none = .join k → ∀ i : Fin w, (i : Nat) < k → s.loc (some i) = .dead) ∧
      (s.loc none = .gone → ∀ i, s.loc (some i) = .dead) := by
  induction hr with
  | init => exact ⟨fun k h => (by cases h), fun h => (by cases h)⟩
  | @next s s' hr hn ih =>
    -- a dead worker does not move, and only the last four steps bring the owner to `join` or `gone`
    have dead : ∀ (t : Tid w) (l : Loc T) (i : Fin w), s.loc t ≠ .dead → s.loc (some i) = .dead →
        Function.update s.loc t l (some i) = .dead := by
      intro t l i ht hi
      rw [Function.update_of_ne (by rintro rfl; exact ht hi)]; exact hi
    have keep : ∀ (t : Tid w) (l : Loc T), s.loc t ≠ .dead → (∀ k, l ≠ .join k) → l ≠ .gone → s'.loc = Function.update s.loc t l →
        (∀ k, s'.loc none = .join k → ∀ i : Fin w, (i : Nat) < k → s'.loc (some i) = .dead) ∧
          (s'.loc none = .gone → ∀ i, s'.loc (some i) = .dead) := by
      intro t l ht h1 h2 hl
      have hmain : ∀ l', s'.loc none = l' → (l' = l ∨ s.loc none = l') := by
        intro l' h'
        rw [hl] at h'
        by_cases hn : none = t
        · subst hn; rw [Function.update_self] at h'; exact .inl h'.symm
        · rw [Function.update_of_ne hn] at h'; exact .inr h'
      constructor
      · intro k hk i hi
        rcases hmain _ hk with h | h
        · exact absurd h.symm (h1 k)
        · rw [hl]; exact dead t l i ht (ih.1 k h i hi)
      · intro hg i
        rcases hmain _ hg with h | h
        · exact absurd h.symm h2
        · rw [hl]; exact dead t l i ht (ih.2 h i)
    have mp : ∀ n c, (∀ k, (mainPop n c : Loc T) ≠ .join k) ∧ (mainPop n c : Loc T) ≠ .gone := by
      intro n c; unfold mainPop; split <;> simp
    have mpu : ∀ b n, (∀ k, (mainPush b n : Loc T) ≠ .join k) ∧ (mainPush b n : Loc T) ≠ .gone := by
      intro b n; unfold mainPush; split
      · simp
      · exact mp _ _
    have ap : ∀ b (t : Tid w) x, (∀ k, (afterPush b t x : Loc T) ≠ .join k) ∧ (afterPush b t x : Loc T) ≠ .gone := by
      intro b t x; cases t
      · exact mpu _ _
      · simp [afterPush]
    have apo : ∀ b (t : Tid w) x c, (∀ k, (afterPop b t x c : Loc T) ≠ .join k) ∧ (afterPop b t x c : Loc T) ≠ .gone := by
      intro b t x c; cases t
      · exact mp _ _
      · simp [afterPop]
    cases hn with
    | spurious hs => cases hs with
      | wake t q c h1 => exact keep t _ (by rw [h1]; simp) (by simp) (by simp) rfl
    | call hs => cases hs with
      | doTasks tasks h1 h2 => exact keep none _ (by rw [h1]; simp) (mpu _ _).1 (mpu _ _).2 rfl
      | destroy h1 => exact keep none _ (by rw [h1]; simp) (by simp) (by simp) rfl
    | step hs => cases hs with
      | pushLock t q x h1 h2 => exact keep t _ (by rw [h1]; simp) (by simp) (by simp) rfl
      | pushBody t q x h1 => exact keep t _ (by rw [h1]; simp) (by simp) (by simp) rfl
      | pushUnlock t q x h1 => exact keep t _ (by rw [h1]; simp) (by simp) (by simp) rfl
      | notifyOne t q x u c h1 h2 =>
        have hne : t ≠ u := by rintro rfl; rw [h1] at h2; cases h2
        have hmain : ∀ l', Function.update (Function.update s.loc u (.pop q .reacq c)) t (afterPush s.batch t x) none = l' →
            ((∀ k, l' ≠ .join k) ∧ l' ≠ .gone) ∨ s.loc none = l' := by
          intro l' h'
          by_cases hn : none = t
          · subst hn; rw [Function.update_self] at h'; subst h'; exact .inl (ap _ _ _)
          · rw [Function.update_of_ne hn] at h'
            by_cases hu : none = u
            · subst hu; rw [Function.update_self] at h'; subst h'; exact .inl (by simp)
            · rw [Function.update_of_ne hu] at h'; exact .inr h'
        have hd : ∀ i, s.loc (some i) = .dead →
            Function.update (Function.update s.loc u (.pop q .reacq c)) t (afterPush s.batch t x) (some i) = .dead := by
          intro i hi
          rw [Function.update_of_ne (by rintro rfl; rw [h1] at hi; cases hi),
            Function.update_of_ne (by rintro rfl; rw [h2] at hi; cases hi)]
          exact hi
        constructor
        · intro k hk i hi
          rcases hmain _ hk with h | h
          · exact absurd rfl (h.1 k)
          · exact hd i (ih.1 k h i hi)
        · intro hg i
          rcases hmain _ hg with h | h
          · exact absurd rfl h.2
          · exact hd i (ih.2 h i)
      | notifyNone t q x h1 h2 => exact keep t _ (by rw [h1]; simp) (ap _ _ _).1 (ap _ _ _).2 rfl
      | popLock t q c h1 h2 => exact keep t _ (by rw [h1]; simp) (by simp) (by simp) rfl
      | popReacq t q c h1 h2 => exact keep t _ (by rw [h1]; simp) (by simp) (by simp) rfl
      | testEmpty t q c h1 h2 h3 => exact keep t _ (by rw [h1]; simp) (by simp) (by simp) rfl
      | testIntr t q c h1 h2 h3 => exact keep t _ (by rw [h1]; simp) (by simp) (by simp) rfl
      | takeWorker i q c x xs h1 h2 => exact keep (some i) _ (by rw [h1]; simp) (by simp) (by simp) rfl
      | takeMain q c x xs h1 h2 => exact keep none _ (by rw [h1]; simp) (by simp) (by simp) rfl
      | popUnlock t q x c h1 => exact keep t _ (by rw [h1]; simp) (apo _ _ _ _).1 (apo _ _ _ _).2 rfl
      | runOk t x r h1 h2 => exact keep t _ (by rw [h1]; simp) (by simp) (by simp) rfl
      | runThrow t x h1 h2 => exact keep t _ (by rw [h1]; simp) (by simp) (by simp) rfl
      | checkGo t h1 h2 => exact keep t _ (by rw [h1]; simp) (by simp) (by simp) rfl
      | checkIntr t h1 h2 => exact keep t _ (by rw [h1]; simp) (by simp) (by simp) rfl
      | waitIntr t q c h1 h2 => exact keep t _ (by rw [h1]; simp) (by simp) (by simp) rfl
      | abortLock t q c h1 h2 => exact keep t _ (by rw [h1]; simp) (by simp) (by simp) rfl
      | abortUnlock t q c h1 => exact keep t _ (by rw [h1]; simp) (by simp) (by simp) rfl
      | stop k h1 => exact keep none _ (by rw [h1]; simp) (by simp) (by simp) rfl
      | stopEnd k h1 h2 =>
        constructor
        · intro k' hk i hi
          simp only [S.go, Function.update_self, Loc.join.injEq] at hk
          omega
        · intro hg; simp [S.go] at hg
      | join k h1 h2 =>
        constructor
        · intro k' hk i hi
          simp only [S.go, Function.update_self, Loc.join.injEq] at hk
          show Function.update s.loc none (.join (k + 1)) (some i) = .dead
          rw [Function.update_of_ne (by simp)]
          by_cases hik : i = k
          · subst hik; exact h2
          · refine ih.1 k h1 i ?_
            have : (i : Nat) ≠ k := fun e => hik (Fin.ext e)
            omega
        · intro hg; simp [S.go] at hg
      | joinEnd k h1 h2 =>
        constructor
        · intro k' hk i hi; simp [S.go] at hk
        · intro _ i
          show Function.update s.loc none .gone (some i) = .dead
          rw [Function.update_of_ne (by simp)]
          exact ih.1 k h1 i (by omega)

/-- **C60.** Destroying the pool (with no call in progress) finishes: executions are finite (`C25_terminates`), none gets stuck before the
destructor has returned (`C60_progress`), and when it has returned every worker thread has ended and nothing is queued. -/
theorem C60_joined {perform : T → Option R} {s : S T R w} (hr : Reach perform s) (hg : s.loc none = .gone) :
    (∀ i, s.loc (some i) = .dead) ∧ s.items false = [] ∧ s.items true = [] := by
  have hm := shape_reach hr none
  rw [hg] at hm
  obtain ⟨-, -, h3, h4, -, -⟩ := (cons_reach hr).finished hm
  exact ⟨(joined_dead hr).2 hg, h3, h4⟩

/-- The checks made before anything is started. -/
theorem C60_checks (n : Int) (w : Nat) :
    ((construct n).threw ↔ n ≤ 0) ∧ (construct n = .ok w ↔ 0 < n ∧ n.toNat = w) ∧ (checkAvailable w = .ok () ↔ 2 ≤ w) ∧
      ((checkAvailable w).threw ↔ w < 2) := by
  unfold construct checkAvailable
  refine ⟨?_, ?_, ?_, ?_⟩
  · split
    · next h => exact ⟨fun _ => h, fun _ => trivial⟩
    · next h => exact ⟨fun e => absurd e (by simp [Res.threw]), fun e => absurd e h⟩
  · split
    · next h => simp; omega
    · next h => simp; omega
  · split <;> simp_all
  · split
    · next h => simp [Res.threw]; omega
    · next h => simp [Res.threw]; omega

end K52.Pool
