import Verif.Lemmas.MpiPool
import Mathlib.Algebra.BigOperators.Group.Finset.Basic

/-!
# C28: the MPI worker pool

Hypothesis `hp : ∀ t, parts t ≠ []`: lines 113-116 reject a result without receive calls.
-/

set_option linter.unusedSectionVars false

namespace K52.Mpi
variable {T M : Type}

/-! ## What a call returns -/

/-- **C28** (results).  Whenever `DoTasks` has returned - whatever the number of workers and tasks, and in whatever order messages travelled -
every result vector entry holds exactly the messages of the result of the task at the same index, in order; every task was performed exactly
once, nothing else was performed; and one statistics entry was made per task. -/
theorem C28_results {size : Nat} {parts : T → List M} (hp : ∀ t, parts t ≠ []) {s : S T M} (h : Reach size parts s) (hidle : s.loc = .idle) :
    (∀ i (hi : i < s.batch.length), s.got i = parts s.batch[i] ∧ s.perf.count i = 1) ∧
    (∀ i, s.batch.length ≤ i → s.perf.count i = 0) ∧ s.stats.length = s.batch.length := by
  have inv := inv_of_reach hp h
  have he : s.exps = [] := by have := inv.loc; rw [hidle] at this; exact this
  have hn : sentN s.batch.length s.loc = s.batch.length := by rw [hidle]; rfl
  refine ⟨fun i hi => ?_, fun i hi => ?_, ?_⟩
  · obtain ⟨⟨t, ht, hg⟩, hc⟩ := inv.done i (by omega) (by simp [he])
    rw [List.getElem?_eq_getElem hi] at ht
    cases ht
    exact ⟨hg, hc⟩
  · exact (inv.unsent i (by omega)).2
  · have := inv.stats; rw [he, hn] at this; simpa using this

/-- **C28** (nothing left behind).  After `DoTasks` has returned every worker waits for a task, no message is on its way and no receive is
posted, so that a later call cannot be given messages of this one. -/
theorem C28_clean {size : Nat} {parts : T → List M} (hp : ∀ t, parts t ≠ []) {s : S T M} (h : Reach size parts s) (hidle : s.loc = .idle) (r : Nat) :
    s.inbox r = [] ∧ s.work r = [] ∧ s.out r = [] ∧ s.posted r = [] := by
  have inv := inv_of_reach hp h
  have he : s.exps = [] := by have := inv.loc; rw [hidle] at this; exact this
  exact inv.free r (by simp [he])

/-- **C28** (workers).  A task is only ever sent to an existing worker (never to the server itself) that waits for a task and from which no
message is outstanding. -/
theorem C28_worker_ready {size : Nat} {parts : T → List M} (hp : ∀ t, parts t ≠ []) {s : S T M} (h : Reach size parts s) {i cur : Nat} {first : Bool}
    (hl : s.loc = .send i cur first) :
    1 ≤ cur ∧ cur < size ∧ s.inbox cur = [] ∧ s.work cur = [] ∧ s.out cur = [] ∧ s.posted cur = [] := by
  have inv := inv_of_reach hp h
  have hloc := inv.loc
  rw [hl] at hloc
  obtain ⟨h1, h2, _, h3⟩ := hloc
  exact ⟨h1, h2, inv.free cur h3⟩

/-- **C28** (one task each).  At any time a worker has at most one task: waiting, being performed or being answered. -/
theorem C28_one_task {size : Nat} {parts : T → List M} (hp : ∀ t, parts t ≠ []) {s : S T M} (h : Reach size parts s) (r : Nat) :
    (s.inbox r).length ≤ 1 ∧ (s.inbox r ≠ [] → s.work r = [] ∧ s.out r = []) ∧ (s.posted r).length ≤ 1 := by
  have inv := inv_of_reach hp h
  by_cases hr : ∀ e ∈ s.exps, e.rank ≠ r
  · obtain ⟨h1, h2, h3, h4⟩ := inv.free r hr
    simp [h1, h4]
  · push Not at hr
    obtain ⟨e, he, rfl⟩ := hr
    obtain ⟨t, ok⟩ := inv.exp e he
    have hpost : (s.posted e.rank).length ≤ 1 := by rcases ok.post with h | h <;> simp [h]
    rcases ok.perf with ⟨h1, _⟩ | ⟨h1, _⟩
    · simp [h1, hpost]
    · refine ⟨by simp [h1], fun _ => ?_, hpost⟩
      have hf := congrArg List.length ok.flow
      rw [h1] at hf
      simp only [List.length_append, List.flatMap_cons, List.flatMap_nil, List.length_nil] at hf
      exact ⟨List.length_eq_zero_iff.1 (by omega), List.length_eq_zero_iff.1 (by omega)⟩

/-! ## Termination -/

/-- What is still to be done for a worker. -/
def load (parts : T → List M) (s : S T M) (r : Nat) : Nat :=
  ((s.inbox r).map (fun m => 1 + 2 * (parts m.task).length)).sum + 2 * (s.work r).length + (s.out r).length

/-- What a task not yet sent will cost. -/
def cost (parts : T → List M) (t : T) : Nat := 3 * (parts t).length + 2

def flag : Loc → Nat
  | .idle => 0
  | .send _ _ _ => 1
  | .scan _ (some _) => 1
  | .scan _ none => 0

/-- The steps other than polling still to be made. -/
def todo (size : Nat) (parts : T → List M) (s : S T M) : Nat :=
  ((s.batch.drop (sentN s.batch.length s.loc)).map (cost parts)).sum + ∑ r ∈ Finset.range size, load parts s r +
    (s.exps.map (fun e => e.left + 1)).sum + flag s.loc

theorem sum_one {size r : Nat} {f g : Nat → Nat} (hr : r < size) (h : ∀ k, k ≠ r → g k = f k) :
    ∑ k ∈ Finset.range size, g k + f r = ∑ k ∈ Finset.range size, f k + g r := by
  have h1 := Finset.add_sum_erase (Finset.range size) f (Finset.mem_range.2 hr)
  have h2 := Finset.add_sum_erase (Finset.range size) g (Finset.mem_range.2 hr)
  have h3 : ∑ k ∈ (Finset.range size).erase r, g k = ∑ k ∈ (Finset.range size).erase r, f k :=
    Finset.sum_congr rfl (fun k hk => h k (Finset.ne_of_mem_erase hk))
  omega

theorem load_congr (parts : T → List M) {s s' : S T M} (r : Nat) (h1 : s'.inbox r = s.inbox r) (h2 : s'.work r = s.work r)
    (h3 : s'.out r = s.out r) : load parts s' r = load parts s r := by
  simp [load, h1, h2, h3]

theorem flag_afterSend (size i cur : Nat) (first : Bool) : flag (afterSend size i cur first) = 1 := by
  unfold afterSend
  split
  · rfl
  · split <;> rfl

theorem flag_drain (l : List Exp) : flag (drain l) = 0 := by
  unfold drain; split <;> rfl

theorem flag_afterPop (l : List Exp) (rank pos : Nat) (next : Option Nat) : flag (afterPop l rank next) = flag (.scan pos next) := by
  cases next with
  | none => exact flag_drain l
  | some i => rfl

theorem flag_scan (pos pos' : Nat) (next : Option Nat) : flag (.scan pos next) = flag (.scan pos' next) := by
  cases next <;> rfl

theorem sum_set {l : List Exp} {pos : Nat} {e e1 : Exp} (f : Exp → Nat) (he : l[pos]? = some e) :
    ((l.set pos e1).map f).sum + f e = (l.map f).sum + f e1 := by
  induction l generalizing pos with
  | nil => simp at he
  | cons x l ih =>
    cases pos with
    | zero =>
      simp only [List.getElem?_cons_zero, Option.some.injEq] at he
      subst he
      simp; omega
    | succ p =>
      have := ih (pos := p) (by simpa using he)
      simp only [List.set_cons_succ, List.map_cons, List.sum_cons]
      omega

theorem sum_erase {l : List Exp} {pos : Nat} {e : Exp} (f : Exp → Nat) (he : l[pos]? = some e) :
    ((l.eraseIdx pos).map f).sum + f e = (l.map f).sum := by
  induction l generalizing pos with
  | nil => simp at he
  | cons x l ih =>
    cases pos with
    | zero =>
      simp only [List.getElem?_cons_zero, Option.some.injEq] at he
      subst he
      simp; omega
    | succ p =>
      have := ih (pos := p) (by simpa using he)
      simp only [List.eraseIdx_cons_succ, List.map_cons, List.sum_cons]
      omega

theorem todo_remote {size : Nat} {parts : T → List M} {s s' : S T M} (hr : Remote size parts s s') :
    todo size parts s' + 1 = todo size parts s := by
  cases hr with
  | receive r m ms _ hlt hw hi =>
    have h := sum_one (f := load parts s) (g := load parts { s with
        inbox := Function.update s.inbox r ms
        work := Function.update s.work r (parts m.task)
        perf := s.perf ++ [m.slot] }) hlt
      (fun k hk => load_congr parts k (Function.update_of_ne hk _ _) (Function.update_of_ne hk _ _) rfl)
    have h1 : load parts s r = (1 + 2 * (parts m.task).length) + (ms.map (fun m => 1 + 2 * (parts m.task).length)).sum + (s.out r).length := by
      simp [load, hw, hi]
    have h2 : load parts { s with
        inbox := Function.update s.inbox r ms
        work := Function.update s.work r (parts m.task)
        perf := s.perf ++ [m.slot] } r = (ms.map (fun m => 1 + 2 * (parts m.task).length)).sum + 2 * (parts m.task).length + (s.out r).length := by
      simp [load]
    simp only [todo] at *
    omega
  | reply r m ms _ hlt hw =>
    have h := sum_one (f := load parts s) (g := load parts { s with
        work := Function.update s.work r ms
        out := Function.update s.out r (s.out r ++ [m]) }) hlt
      (fun k hk => load_congr parts k rfl (Function.update_of_ne hk _ _) (Function.update_of_ne hk _ _))
    simp only [load, Function.update_self, hw, List.length_append, List.length_cons, List.length_nil] at h
    simp only [todo, load] at *
    omega
  | deliver r m ms k ks _ hlt ho hp =>
    have h := sum_one (f := load parts s) (g := load parts { s with
        out := Function.update s.out r ms
        posted := Function.update s.posted r ks
        got := Function.update s.got k (s.got k ++ [m]) }) hlt
      (fun k hk => load_congr parts k rfl rfl (Function.update_of_ne hk _ _))
    simp only [load, Function.update_self, ho, List.length_cons] at h
    simp only [todo, load] at *
    omega

theorem todo_server_true {size : Nat} {parts : T → List M} (hp : ∀ t, parts t ≠ []) {s s' : S T M} (inv : Inv size parts s)
    (hs : Server size parts true s s') : todo size parts s' + 1 = todo size parts s := by
  cases hs with
  | sendTask i cur first t hl ht =>
    have hloc := inv.loc
    rw [hl] at hloc
    obtain ⟨h1, h2, _, h3⟩ := hloc
    have h := sum_one (f := load parts s) (g := load parts { s with
        loc := afterSend size i cur first
        inbox := Function.update s.inbox cur (s.inbox cur ++ [⟨i, t⟩])
        posted := Function.update s.posted cur (s.posted cur ++ [i])
        exps := s.exps ++ [⟨cur, i, (parts t).length - 1⟩] }) h2
      (fun k hk => load_congr parts k (Function.update_of_ne hk _ _) rfl rfl)
    simp only [load, Function.update_self, List.map_append, List.sum_append, List.map_cons, List.map_nil, List.sum_cons, List.sum_nil] at h
    have hi : i < s.batch.length := by
      rcases Nat.lt_or_ge i s.batch.length with hlt | hge
      · exact hlt
      · rw [List.getElem?_eq_none hge] at ht; cases ht
    have hti : s.batch[i] = t := by rw [List.getElem?_eq_getElem hi] at ht; simpa using ht
    have hd : ((s.batch.drop i).map (cost parts)).sum = cost parts t + ((s.batch.drop (i + 1)).map (cost parts)).sum := by
      rw [List.drop_eq_getElem_cons hi, hti]; simp
    have hpos : 0 < (parts t).length := List.length_pos_iff.2 (hp t)
    have hsn : sentN s.batch.length s.loc = i := by rw [hl]; rfl
    have hfl : flag s.loc = 1 := by rw [hl]; rfl
    simp only [todo, load, sentN_afterSend, flag_afterSend, hsn, hfl, hd, cost, List.map_append, List.sum_append, List.map_cons, List.map_nil,
      List.sum_cons, List.sum_nil] at *
    omega
  | sendEnd i cur first hl ht =>
    have h2 := List.getElem?_eq_none_iff.1 ht
    have hsn : sentN s.batch.length s.loc = i := by rw [hl]; rfl
    have hfl : flag s.loc = 1 := by rw [hl]; rfl
    have hload : (load parts { s with loc := drain s.exps }) = load parts s := rfl
    simp only [todo, hsn, hfl, sentN_drain, flag_drain, List.drop_eq_nil_of_le h2, List.drop_length, hload]
  | scanNext pos next e l hl he hnp hleft =>
    have h := sum_set (e1 := { e with left := l }) (fun e => e.left + 1) he
    have hsn : sentN s.batch.length (.scan (pos + 1) next) = sentN s.batch.length s.loc := by rw [hl]; exact sentN_scan _ _ _ _
    have hfl : flag (.scan (pos + 1) next) = flag s.loc := by rw [hl]; exact flag_scan _ _ _
    simp only [todo, hsn, hfl, load] at *
    omega
  | scanPop pos next e hl he hnp hleft =>
    have h := sum_erase (fun e => e.left + 1) he
    have hsn : sentN s.batch.length (afterPop (s.exps.eraseIdx pos) e.rank next) = sentN s.batch.length s.loc := by
      rw [hl]; exact sentN_afterPop _ _ _ _ _
    have hfl : flag (afterPop (s.exps.eraseIdx pos) e.rank next) = flag s.loc := by rw [hl]; exact flag_afterPop _ _ _ _
    simp only [todo, hsn, hfl, load] at *
    omega

theorem todo_server_false {size : Nat} {parts : T → List M} {s s' : S T M} (hs : Server size parts false s s') :
    todo size parts s' = todo size parts s := by
  cases hs with
  | scanPending pos next e hl he hpo =>
    have hsn : sentN s.batch.length (.scan (pos + 1) next) = sentN s.batch.length s.loc := by rw [hl]; exact sentN_scan _ _ _ _
    have hfl : flag (.scan (pos + 1) next) = flag s.loc := by rw [hl]; exact flag_scan _ _ _
    simp only [todo, hsn, hfl, load]
  | scanWrap pos next hl he =>
    have hsn : sentN s.batch.length (.scan 0 next) = sentN s.batch.length s.loc := by rw [hl]; exact sentN_scan _ _ _ _
    have hfl : flag (.scan 0 next) = flag s.loc := by rw [hl]; exact flag_scan _ _ _
    simp only [todo, hsn, hfl, load]

/-- A run of a call: its states are joined by steps; `k` counts the steps that are not fruitless polling. -/
inductive Run (size : Nat) (parts : T → List M) : Nat → S T M → S T M → Prop
  | refl (s) : Run size parts 0 s s
  | work {k s s' s''} : Run size parts k s s' → Step size parts true s' s'' → Run size parts (k + 1) s s''
  | poll {k s s' s''} : Run size parts k s s' → Step size parts false s' s'' → Run size parts k s s''

theorem Run.reach {size : Nat} {parts : T → List M} {k : Nat} {s s' : S T M} (h : Run size parts k s s') (hr : Reach size parts s) :
    Reach size parts s' := by
  induction h with
  | refl => exact hr
  | work _ hs ih => exact (ih hr).step hs
  | poll _ hs ih => exact (ih hr).step hs

theorem Run.todo {size : Nat} {parts : T → List M} (hp : ∀ t, parts t ≠ []) {k : Nat} {s s' : S T M} (h : Run size parts k s s')
    (hr : Reach size parts s) : Mpi.todo size parts s' + k = Mpi.todo size parts s := by
  induction h with
  | refl => simp
  | work h1 hs ih =>
    have ih := ih hr
    have inv := inv_of_reach hp (h1.reach hr)
    cases hs with
    | server hs => have := todo_server_true hp inv hs; omega
    | remote hs => have := todo_remote hs; omega
  | poll h1 hs ih =>
    have ih := ih hr
    cases hs with
    | server hs => have := todo_server_false hs; omega

theorem todo_idle {size : Nat} {parts : T → List M} (hp : ∀ t, parts t ≠ []) {s : S T M} (h : Reach size parts s) (hidle : s.loc = .idle) :
    todo size parts s = 0 := by
  have inv := inv_of_reach hp h
  have he : s.exps = [] := by have := inv.loc; rw [hidle] at this; exact this
  have hl : ∀ r, load parts s r = 0 := by
    intro r
    obtain ⟨h1, h2, h3, _⟩ := inv.free r (by simp [he])
    simp [load, h1, h2, h3]
  simp [todo, hidle, sentN, he, hl, flag]

/-- **C28** (work).  Leaving fruitless polling aside, a call that returns has made exactly `3 p + 2` steps for each task (with `p` messages in
its result) and one more, under every schedule; and no run of a call, finished or not, makes more. -/
theorem C28_work {size : Nat} {parts : T → List M} (hp : ∀ t, parts t ≠ []) {s0 s s' : S T M} {k : Nat} (h0 : Reach size parts s0)
    (hc : Call size s0 s) (hrun : Run size parts k s s') :
    k ≤ (s.batch.map (fun t => 3 * (parts t).length + 2)).sum + 1 ∧
    (s'.loc = .idle → k = (s.batch.map (fun t => 3 * (parts t).length + 2)).sum + 1) := by
  have hr := h0.call hc
  have h1 := hrun.todo hp hr
  have h2 : todo size parts s = (s.batch.map (fun t => 3 * (parts t).length + 2)).sum + 1 := by
    cases hc with
    | doTasks tasks hl hsz =>
      have hload : ∀ r, load parts s0 r = 0 := by
        intro r
        obtain ⟨h1, h2, h3, _⟩ := C28_clean hp h0 hl r
        simp [load, h1, h2, h3]
      have he : s0.exps = [] := by have := (inv_of_reach hp h0).loc; rw [hl] at this; exact this
      have hl' : load parts { s0 with loc := .send 0 1 false, batch := tasks, got := fun _ => [], perf := [], stats := [] } = fun _ => 0 :=
        funext hload
      simp only [todo, sentN, flag, hl', Finset.sum_const_zero, List.drop_zero]
      simp only [he, List.map_nil, List.sum_nil]
      rfl
  refine ⟨by omega, fun hidle => ?_⟩
  have h3 := todo_idle hp (hrun.reach hr) hidle
  omega

theorem quiet_posted {size : Nat} {parts : T → List M} {s : S T M} (inv : Inv size parts s)
    (hq : ∀ s', ¬ Remote size parts s s') {e : Exp} (he : e ∈ s.exps) : s.posted e.rank = [] := by
  obtain ⟨t, ok⟩ := inv.exp e he
  have hw : s.work e.rank = [] := by
    cases hc : s.work e.rank with
    | nil => rfl
    | cons m ms => exact absurd (Remote.reply e.rank m ms ok.lo ok.hi hc) (hq _)
  have hi : s.inbox e.rank = [] := by
    cases hc : s.inbox e.rank with
    | nil => rfl
    | cons m ms => exact absurd (Remote.receive e.rank m ms ok.lo ok.hi hw hc) (hq _)
  cases hc : s.posted e.rank with
  | nil => rfl
  | cons k ks =>
    have ho : s.out e.rank = [] := by
      cases ho : s.out e.rank with
      | nil => rfl
      | cons m ms => exact absurd (Remote.deliver e.rank m ms k ks ok.lo ok.hi ho hc) (hq _)
    have h1 := congrArg List.length ok.flow
    have h2 := ok.calls
    rw [hw, hi, ho] at h1
    rw [hc] at h2
    simp at h1 h2
    omega

theorem quiet_productive {size : Nat} {parts : T → List M} {s : S T M} (inv : Inv size parts s) (hq : ∀ s', ¬ Remote size parts s s')
    {pos : Nat} {next : Option Nat} (hl : s.loc = .scan pos next) {e : Exp} (he : s.exps[pos]? = some e) : ∃ s', Server size parts true s s' := by
  have hpost := quiet_posted inv hq (List.mem_of_getElem? he)
  cases hleft : e.left with
  | zero => exact ⟨_, .scanPop pos next e hl he (by simp [hpost]) hleft⟩
  | succ l => exact ⟨_, .scanNext pos next e l hl he (by simp [hpost]) hleft⟩

/-- **C28** (no deadlock).  As long as `DoTasks` has not returned, some step other than polling can be made - by a worker, by the message
passing or by the server - at once, or after the server has started its list of expected results again. -/
theorem C28_progress {size : Nat} {parts : T → List M} (hp : ∀ t, parts t ≠ []) {s : S T M} (h : Reach size parts s) (hl : s.loc ≠ .idle) :
    ∃ s', Step size parts true s s' ∨ ∃ s'', Step size parts false s s' ∧ Step size parts true s' s'' := by
  have inv := inv_of_reach hp h
  by_cases hq : ∃ s', Remote size parts s s'
  · obtain ⟨s', hq⟩ := hq
    exact ⟨s', .inl (.remote hq)⟩
  push Not at hq
  cases hloc : s.loc with
  | idle => exact absurd hloc hl
  | send i cur first =>
    cases ht : s.batch[i]? with
    | none => exact ⟨_, .inl (.server (.sendEnd i cur first hloc ht))⟩
    | some t => exact ⟨_, .inl (.server (.sendTask i cur first t hloc ht))⟩
  | scan pos next =>
    cases he : s.exps[pos]? with
    | some e =>
      obtain ⟨s', hs⟩ := quiet_productive inv hq hloc he
      exact ⟨s', .inl (.server hs)⟩
    | none =>
      have hne : s.exps ≠ [] := by have := inv.loc; rw [hloc] at this; exact this
      have hw : Server size parts false s { s with loc := .scan 0 next } := .scanWrap pos next hloc he
      have inv' := inv.server hp hw
      have hq' : ∀ s', ¬ Remote size parts { s with loc := .scan 0 next } s' := by
        intro s' hr
        cases hr with
        | receive r m ms h1 h2 h3 h4 => exact hq _ (.receive r m ms h1 h2 h3 h4)
        | reply r m ms h1 h2 h3 => exact hq _ (.reply r m ms h1 h2 h3)
        | deliver r m ms k ks h1 h2 h3 h4 => exact hq _ (.deliver r m ms k ks h1 h2 h3 h4)
      obtain ⟨e, he0⟩ : ∃ e, s.exps[0]? = some e := by
        cases hx : s.exps with
        | nil => exact absurd hx hne
        | cons e l => exact ⟨e, by simp⟩
      obtain ⟨s'', hs⟩ := quiet_productive inv' hq' rfl he0
      exact ⟨_, .inr ⟨s'', .server hw, .server hs⟩⟩

/-- **C28** (return).  From every state of a call the return of `DoTasks` can be reached. -/
theorem C28_can_return {size : Nat} {parts : T → List M} (hp : ∀ t, parts t ≠ []) {s : S T M} (h : Reach size parts s) :
    ∃ k s', Run size parts k s s' ∧ s'.loc = .idle := by
  have key : ∀ n, ∀ s, Reach size parts s → todo size parts s = n → ∃ k s', Run size parts k s s' ∧ s'.loc = .idle := by
    have trans : ∀ {k1 k2 : Nat} {a b c : S T M}, Run size parts k1 a b → Run size parts k2 b c → ∃ k, Run size parts k a c := by
      intro k1 k2 a b c h1 h2
      induction h2 with
      | refl => exact ⟨_, h1⟩
      | work _ hs ih => obtain ⟨k, ih⟩ := ih h1; exact ⟨_, ih.work hs⟩
      | poll _ hs ih => obtain ⟨k, ih⟩ := ih h1; exact ⟨_, ih.poll hs⟩
    intro n
    induction n with
    | zero =>
      intro s hr hn
      by_cases hl : s.loc = .idle
      · exact ⟨0, s, .refl s, hl⟩
      · obtain ⟨s', hs | ⟨s'', h1, h2⟩⟩ := C28_progress hp hr hl
        · have := (Run.work (.refl s) hs).todo hp hr; omega
        · have := (Run.work (.poll (.refl s) h1) h2).todo hp hr; omega
    | succ n ih =>
      intro s hr hn
      by_cases hl : s.loc = .idle
      · exact ⟨0, s, .refl s, hl⟩
      · have : ∃ b, Run size parts 1 s b := by
          obtain ⟨s', hs | ⟨s'', h1, h2⟩⟩ := C28_progress hp hr hl
          · exact ⟨_, .work (.refl s) hs⟩
          · exact ⟨_, .work (.poll (.refl s) h1) h2⟩
        obtain ⟨b, hb⟩ := this
        have h1 := hb.todo hp hr
        obtain ⟨k, s', h2, h3⟩ := ih b (hb.reach hr) (by omega)
        obtain ⟨k', h4⟩ := trans hb h2
        exact ⟨k', s', h4, h3⟩
  exact key _ s h rfl

/-- **C28** (termination).  There is no endless run of a call in which workers and messages do not stand still for ever although they could
move: under that fairness assumption every call of `DoTasks` ends, and by `C28_progress` it ends by returning. -/
theorem C28_terminates {size : Nat} {parts : T → List M} (hp : ∀ t, parts t ≠ []) (run : Nat → S T M) (lab : Nat → Bool)
    (h0 : Reach size parts (run 0)) (hstep : ∀ n, Step size parts (lab n) (run n) (run (n + 1)))
    (fair : ∀ n, (∀ m, n ≤ m → ∃ s', Remote size parts (run m) s') → ∃ m, n ≤ m ∧ Remote size parts (run m) (run (m + 1))) : False := by
  have hr : ∀ n, Reach size parts (run n) := by
    intro n
    induction n with
    | zero => exact h0
    | succ n ih => exact ih.step (hstep n)
  have ht : ∀ n, todo size parts (run (n + 1)) + (lab n).toNat = todo size parts (run n) := by
    intro n
    have hs := hstep n
    cases hb : lab n with
    | true => rw [hb] at hs; exact (Run.work (.refl _) hs).todo hp (hr n)
    | false => rw [hb] at hs; exact (Run.poll (.refl _) hs).todo hp (hr n)
  have key : ∀ v n, todo size parts (run n) = v → ∃ N, ∀ m, N ≤ m → lab m = false := by
    intro v
    induction v using Nat.strong_induction_on with
    | _ v ih =>
      intro n hn
      by_cases hx : ∃ m, n ≤ m ∧ lab m = true
      · obtain ⟨m, hm, hl⟩ := hx
        have mono : ∀ d, todo size parts (run (n + d)) ≤ todo size parts (run n) := by
          intro d
          induction d with
          | zero => simp
          | succ d ihd => have := ht (n + d); rw [← Nat.add_assoc]; omega
        have h1 := mono (m - n)
        rw [Nat.add_sub_cancel' hm] at h1
        have h2 := ht m
        rw [hl] at h2
        simp only [Bool.toNat_true] at h2
        exact ih _ (by omega) (m + 1) rfl
      · push Not at hx
        exact ⟨n, fun m hm => by have := hx m hm; simpa using this⟩
  obtain ⟨N, hN⟩ := key _ 0 rfl
  have hpoll : ∀ m, N ≤ m → Server size parts false (run m) (run (m + 1)) := by
    intro m hm
    have hs := hstep m
    rw [hN m hm] at hs
    cases hs with
    | server hs => exact hs
  have hsame : ∀ {a b : S T M} {c}, Server size parts false a b → Remote size parts b c → ∃ c', Remote size parts a c' := by
    intro a b c hs hr
    cases hs <;> cases hr <;> first
      | exact ⟨_, .receive _ _ _ ‹_› ‹_› ‹_› ‹_›⟩
      | exact ⟨_, .reply _ _ _ ‹_› ‹_› ‹_›⟩
      | exact ⟨_, .deliver _ _ _ _ _ ‹_› ‹_› ‹_› ‹_›⟩
  by_cases hq : ∀ m, N ≤ m → ∃ s', Remote size parts (run m) s'
  · obtain ⟨m, hm, hrem⟩ := fair N hq
    have h1 := todo_remote hrem
    have h2 := todo_server_false (hpoll m hm)
    omega
  · push Not at hq
    obtain ⟨m, hm, hq⟩ := hq
    have hq1 : ∀ s', ¬ Remote size parts (run (m + 1)) s' := fun s' hr' => by
      obtain ⟨c, hc⟩ := hsame (hpoll m hm) hr'
      exact hq c hc
    have stuck : ∀ {a b c : S T M}, Inv size parts a → (∀ s', ¬ Remote size parts a s') → Server size parts false a b →
        Server size parts false b c → (∀ s', ¬ Remote size parts b s') → Inv size parts b → False := by
      intro a b c ia qa h1 h2 qb ib
      cases h1 with
      | scanPending pos next e hl he hpo =>
        rw [quiet_posted ia qa (List.mem_of_getElem? he)] at hpo
        cases hpo
      | scanWrap pos next hl he =>
        have hne : a.exps ≠ [] := by have := ia.loc; rw [hl] at this; exact this
        cases h2 with
        | scanPending pos next e hl he hpo =>
          have := quiet_posted ib qb (List.mem_of_getElem? he)
          simp only at this hpo
          rw [this] at hpo
          cases hpo
        | scanWrap pos next' hl2 he2 =>
          simp only [Loc.scan.injEq] at hl2
          obtain ⟨rfl, _⟩ := hl2
          simp only [List.getElem?_eq_none_iff, Nat.le_zero, List.length_eq_zero_iff] at he2
          exact hne he2
    exact stuck (inv_of_reach hp (hr m)) hq (hpoll m hm) (hpoll (m + 1) (by omega)) hq1 (inv_of_reach hp (hr (m + 1)))

/-- `CheckAvailableWorkers` throws exactly when the server is alone. -/
theorem C28_no_workers (size : Nat) : checkAvailable size = .throw "runtime_error" ↔ size < 2 := by
  unfold checkAvailable
  split
  · constructor
    · intro h; cases h
    · intro h; omega
  · constructor
    · intro _; omega
    · intro _; rfl

/-! ## Non-vacuity: three processes, two tasks answered in the opposite order -/

section Example

def exParts : Nat → List Nat := fun t => [t, t * t]

/-- A call with tasks 5 and 7 on three processes; worker 2 answers first. -/
theorem C28_example : ∃ s, Reach 3 exParts s ∧ s.loc = .idle ∧ s.batch = [5, 7] ∧ s.got 0 = [5, 25] ∧ s.got 1 = [7, 49] := by
  have h0 : Reach 3 exParts (S.init Nat Nat) := .init
  have h1 := h0.call (Call.doTasks [5, 7] rfl (by omega))
  obtain ⟨k, s, hrun, hidle⟩ := C28_can_return (by simp [exParts]) h1
  have hb : s.batch = [5, 7] := by
    have : ∀ {k : Nat} {a b : S Nat Nat}, Run 3 exParts k a b → b.batch = a.batch := by
      intro k a b h
      induction h with
      | refl => rfl
      | work _ hs ih => rw [← ih]; cases hs with
        | server hs => cases hs <;> rfl
        | remote hs => cases hs <;> rfl
      | poll _ hs ih => rw [← ih]; cases hs with
        | server hs => cases hs <;> rfl
    exact this hrun
  obtain ⟨h, _⟩ := C28_results (by simp [exParts]) (hrun.reach h1) hidle
  refine ⟨s, hrun.reach h1, hidle, hb, ?_, ?_⟩
  · have := (h 0 (by simp [hb])).1
    rw [this]; simp [hb, exParts]
  · have := (h 1 (by simp [hb])).1
    rw [this]; simp [hb, exParts]

end Example

end K52.Mpi
