import Verif.Model.MpiLife
import Verif.Props.MpiPool

/-!
# C85, C86: tasks an `MpiWorkerPool` cannot send, and its destruction
-/

set_option linter.unusedSectionVars false

namespace K52.Mpi
variable {T M : Type} {size : Nat} {parts : T → List M} {mpi : T → Bool}

/-- How many results are expected at each point of `DoTasks`. -/
def CountOK (size : Nat) (exps : List Exp) : Loc → Prop
  | .idle => True
  | .send i cur first => if first then size - 1 ≤ i ∧ exps.length + 2 = size else cur = i + 1 ∧ exps.length = i
  | .scan _ (some i) => size - 1 ≤ i ∧ exps.length + 1 = size
  | .scan _ none => True

theorem countOK_reach (hp : ∀ t, parts t ≠ []) {s : S T M} (h : Reach size parts s) : CountOK size s.exps s.loc := by
  induction h with
  | init => trivial
  | call hr hc ih =>
    cases hc with
    | doTasks tasks hl hsz =>
      have := (inv_of_reach hp hr).loc
      rw [hl] at this
      simp [CountOK, this] 
      exact this
  | step hr hs ih =>
    cases hs with
    | remote hs => cases hs <;> exact ih
    | server hs =>
      cases hs with
      | sendTask i cur first t hl hb =>
        have hloc := (inv_of_reach hp hr).loc
        rw [hl] at ih hloc
        simp only [LocOK] at hloc
        simp only [CountOK] at ih
        simp only [afterSend]
        cases first with
        | true =>
          simp only [if_true] at ih ⊢
          simp only [CountOK, List.length_append, List.length_singleton]; omega
        | false =>
          simp only [Bool.false_eq_true, if_false] at ih ⊢
          split
          · simp only [CountOK, List.length_append, List.length_singleton]; omega
          · simp only [CountOK, List.length_append, List.length_singleton, Bool.false_eq_true, if_false]; omega
      | sendEnd i cur first hl hb => simp only [drain]; split <;> trivial
      | scanPending pos next e hl he hpost => rw [hl] at ih; cases next <;> exact ih
      | scanNext pos next e l hl he hpost hleft =>
        rw [hl] at ih; cases next
        · trivial
        · simpa [CountOK] using ih
      | scanPop pos next e hl he hpost hleft =>
        rw [hl] at ih
        cases next with
        | none => simp only [afterPop, drain]; split <;> trivial
        | some i =>
          simp only [CountOK] at ih
          have hlt : pos < _ := (List.getElem?_eq_some_iff.1 he).1
          simp only [afterPop, CountOK, if_true, List.length_eraseIdx_of_lt hlt]; omega
      | scanWrap pos next hl he => rw [hl] at ih; cases next <;> exact ih

/-- All tasks sent so far are of the kind the pool can send. -/
def SentOK (mpi : T → Bool) (s : S T M) : Prop := s.loc ≠ .idle → ∀ k < sentN s.batch.length s.loc, ∀ t, s.batch[k]? = some t → mpi t = true

theorem sentOK_server {b : Bool} {s s' : S T M} (h : SentOK mpi s) (hs : Server size parts b s s')
    (hg : ∀ i cur first t, s.loc = .send i cur first → s.batch[i]? = some t → mpi t = true) : SentOK mpi s' := by
  intro hne k hk t ht
  cases hs with
  | sendTask i cur first u hl hb =>
    have hk' : k < i + 1 := by
      simp only [afterSend] at hk
      split at hk
      · exact hk
      · split at hk <;> exact hk
    rcases Nat.lt_succ_iff_lt_or_eq.1 hk' with h1 | h1
    · exact h (by rw [hl]; simp) k (by rw [hl]; exact h1) t ht
    · subst h1; exact hg k cur first t hl ht
  | sendEnd i cur first hl hb =>
    have hi : s.batch.length ≤ i := List.getElem?_eq_none_iff.1 hb
    have : k < s.batch.length := (List.getElem?_eq_some_iff.1 ht).1
    exact h (by rw [hl]; simp) k (by rw [hl]; simp only [sentN]; omega) t ht
  | scanPending pos next e hl he hpost =>
    refine h (by rw [hl]; simp) k ?_ t ht
    rw [hl]; cases next <;> exact hk
  | scanNext pos next e l hl he hpost hleft =>
    refine h (by rw [hl]; simp) k ?_ t ht
    rw [hl]; cases next <;> exact hk
  | scanPop pos next e hl he hpost hleft =>
    refine h (by rw [hl]; simp) k ?_ t ht
    rw [hl]
    cases next with
    | some i => exact hk
    | none => exact (List.getElem?_eq_some_iff.1 ht).1
  | scanWrap pos next hl he =>
    refine h (by rw [hl]; simp) k ?_ t ht
    rw [hl]; cases next <;> exact hk

/-- What holds before the first failure, and just after it. -/
structure LifeInv (size : Nat) (parts : T → List M) (mpi : T → Bool) (l : Life T M) : Prop where
  reach : l.failures = 0 ∨ (l.failures = 1 ∧ l.phase = .threw) → Reach size parts l.s ∧ SentOK mpi l.s
  good : l.failures = 0 → l.phase ≠ .threw
  bad : l.failures = 1 → l.phase = .threw → ∃ i cur first t, l.s.loc = .send i cur first ∧ l.s.batch[i]? = some t ∧ mpi t = false
  idle : l.failures = 0 → ∀ k, l.phase = .ending k → l.s.loc = .idle
  range : ∀ k, l.phase = .ending k → 1 ≤ k ∧ (k ≤ size ∨ k = 1)
  ended : ∀ r, l.ended r = true ↔ ∃ k, l.phase = .ending k ∧ 1 ≤ r ∧ r < k
  left : ∀ r, l.left r = true → l.ended r = true ∧ 1 ≤ r ∧ r < size

theorem remote_loc {s s' : S T M} (h : Remote size parts s s') : s'.loc = s.loc ∧ s'.batch = s.batch := by cases h <;> exact ⟨rfl, rfl⟩

/-- Steps of workers and messages keep the invariant. -/
theorem LifeInv.remote {l : Life T M} {s' : S T M} (h : LifeInv size parts mpi l) (hr : Remote size parts l.s s') :
    LifeInv size parts mpi { l with s := s' } := by
  obtain ⟨e1, e2⟩ := remote_loc hr
  refine ⟨fun hf => ?_, h.good, fun a b => ?_, fun a k b => ?_, h.range, h.ended, h.left⟩
  · obtain ⟨a, b⟩ := h.reach hf
    refine ⟨a.step (.remote hr), ?_⟩
    intro hne k hk t ht
    rw [e1] at hne; rw [e1, e2] at hk; rw [e2] at ht
    exact b hne k hk t ht
  · show ∃ i cur first t, s'.loc = _ ∧ s'.batch[i]? = _ ∧ _
    rw [e1, e2]; exact h.bad a b
  · show s'.loc = _
    rw [e1]; exact h.idle a k b

theorem lifeInv_of_reach {l : Life T M} (h : LifeReach size parts mpi l) : LifeInv size parts mpi l := by
  induction h with
  | init =>
    refine ⟨fun _ => ⟨.init, fun h => absurd rfl h⟩, by simp [Life.init], by simp [Life.init], by simp [Life.init], by simp [Life.init],
      by simp [Life.init], by simp [Life.init]⟩
  | @step l l' hr hs ih =>
    cases hs with
    | server hw hs hg =>
      refine ⟨fun hf => ?_, ih.good, fun a b => ?_, fun a k b => ?_, ih.range, ih.ended, ih.left⟩
      · rcases hf with hf | ⟨_, hf⟩
        · obtain ⟨a, b⟩ := ih.reach (Or.inl hf)
          exact ⟨a.step (.server hs), sentOK_server b hs hg⟩
        · simp only [hw] at hf; cases hf
      · simp only [hw] at b; cases b
      · simp only [hw] at b; cases b
    | throws i cur first t hw hl hb ht =>
      refine ⟨fun hf => ?_, fun a => ?_, fun a _ => ⟨i, cur, first, t, hl, hb, ht⟩, fun _ k b => (by cases b), fun k b => (by cases b), fun r => ?_, fun r hr => ?_⟩
      · rcases hf with hf | ⟨hf, _⟩
        · simp at hf
        · exact ih.reach (Or.inl (by simpa using hf))
      · simp at a
      · have := ih.ended r
        rw [hw] at this
        simpa using this
      · exact ih.left r hr
    | receive r m ms h1 h2 h3 h4 h5 => exact ih.remote (.receive r m ms h1 h2 h4 h5)
    | reply r m ms h1 h2 h3 h4 => exact ih.remote (.reply r m ms h1 h2 h4)
    | deliver r m ms k ks hw h1 h2 h3 h4 => exact ih.remote (.deliver r m ms k ks h1 h2 h3 h4)
    | call hw hc =>
      refine ⟨fun hf => ?_, ih.good, fun a b => ?_, fun a k b => ?_, ih.range, ih.ended, ih.left⟩
      · rcases hf with hf | ⟨_, hf⟩
        · obtain ⟨a, b⟩ := ih.reach (Or.inl hf)
          refine ⟨a.call hc, ?_⟩
          cases hc
          intro _ k hk
          simp [sentN] at hk
        · simp only [hw] at hf; cases hf
      · simp only [hw] at b; cases b
      · simp only [hw] at b; cases b
    | again hw hpost hc =>
      have hne : l.failures ≠ 0 := fun h0 => ih.good h0 hw
      refine ⟨fun hf => ?_, fun a => absurd a hne, fun a b => (by cases b), fun a => absurd a hne, fun k b => (by cases b), fun r => ?_, ih.left⟩
      · rcases hf with hf | ⟨_, hf⟩
        · exact absurd hf hne
        · cases hf
      · have := ih.ended r
        rw [hw] at this
        simpa using this
    | destroy hw =>
      have hend : ∀ r, l.ended r = false := fun r => by
        have := ih.ended r
        rcases hw with ⟨hw, _⟩ | hw <;> (rw [hw] at this; simpa using this)
      refine ⟨fun hf => ?_, fun _ b => (by cases b), fun _ b => (by cases b), fun a k _ => ?_, fun k b => ?_, fun r => ?_, ih.left⟩
      · rcases hf with hf | ⟨_, hf⟩
        · exact ih.reach (Or.inl hf)
        · cases hf
      · rcases hw with ⟨_, hl⟩ | hw
        · exact hl
        · exact absurd hw (ih.good a)
      · obtain rfl : 1 = k := by simpa using b
        exact ⟨le_refl _, Or.inr rfl⟩
      · simp only [hend r, Bool.false_eq_true, false_iff, Phase.ending.injEq]
        rintro ⟨k, rfl, h1, h2⟩; omega
    | sendEnd k hw hk =>
      have hr := ih.range k hw
      refine ⟨fun hf => ?_, fun _ b => (by cases b), fun _ b => (by cases b), fun a k' _ => ih.idle a k hw, fun k' b => ?_, fun r => ?_, fun r h => ?_⟩
      · rcases hf with hf | ⟨_, hf⟩
        · exact ih.reach (Or.inl hf)
        · cases hf
      · obtain rfl : k + 1 = k' := by simpa using b
        omega
      · have := ih.ended r
        rw [hw] at this
        by_cases he : r = k
        · subst he
          simp only [Function.update_self, true_iff, Phase.ending.injEq]
          exact ⟨r + 1, rfl, by omega, by omega⟩
        · simp only [Function.update_of_ne he, this, Phase.ending.injEq, exists_eq_left']
          omega
      · obtain ⟨a, b, c⟩ := ih.left r h
        refine ⟨?_, b, c⟩
        by_cases he : r = k
        · subst he; simp
        · simpa [Function.update_of_ne he] using a
    | leave r h1 h2 h3 h4 h5 h6 =>
      refine ⟨ih.reach, ih.good, ih.bad, ih.idle, ih.range, ih.ended, fun r' h => ?_⟩
      by_cases he : r' = r
      · subst he; exact ⟨h6, h1, h2⟩
      · simp only [Function.update_of_ne he] at h
        exact ih.left r' h

/-! ## C85: a task that cannot be sent -/

/-- **C85 (when `DoTasks` throws).** After the first call that threw, the batch contains a task that is not an `IMpiTask`; the first such task, at
index `i`, is the one that made it throw; the tasks before it were sent, and their results are complete but for those of `min i (size - 2)` of them,
which were not waited for. -/
theorem C85_throws (hp : ∀ t, parts t ≠ []) {l : Life T M} (h : LifeReach size parts mpi l) (hf : l.failures = 1) (ht : l.phase = .threw) :
    ∃ i t, l.s.batch[i]? = some t ∧ mpi t = false ∧ (∀ j < i, ∀ u, l.s.batch[j]? = some u → mpi u = true) ∧
      l.s.exps.length = min i (size - 2) ∧ (l.s.exps.map (·.slot)).Nodup ∧ (∀ e ∈ l.s.exps, e.slot < i) ∧
      ∀ j < i, (∀ e ∈ l.s.exps, e.slot ≠ j) → ∃ u, l.s.batch[j]? = some u ∧ l.s.got j = parts u := by
  have linv := lifeInv_of_reach h
  obtain ⟨hr, hs⟩ := linv.reach (Or.inr ⟨hf, ht⟩)
  obtain ⟨i, cur, first, t, hl, hb, hm⟩ := linv.bad hf ht
  have inv := inv_of_reach hp hr
  have hc := countOK_reach hp hr
  have hloc := inv.loc
  rw [hl] at hc hloc
  simp only [LocOK] at hloc
  refine ⟨i, t, hb, hm, fun j hj u hu => hs (by rw [hl]; simp) j (by rw [hl]; exact hj) u hu, ?_, ?_, fun e he => ?_, fun j hj hno => ?_⟩
  · simp only [CountOK] at hc
    cases first with
    | true => simp only [if_true] at hc; omega
    | false => simp only [Bool.false_eq_true, if_false] at hc; omega
  · rw [List.nodup_iff_pairwise_ne, List.pairwise_map]; exact inv.slots
  · have := inv.sent e he
    rw [hl] at this; exact this
  · exact (inv.done j (by rw [hl]; exact hj) hno).1

/-- **C85 (first task, or a single worker).** When the task that cannot be sent is the first of the batch, or there is only one worker, nothing is
left behind by the first call that throws: no task is being performed, no message is on its way, no receive is posted, and all results of the
tasks before it had arrived. -/
theorem C85_nothing_left (hp : ∀ t, parts t ≠ []) {l : Life T M} (h : LifeReach size parts mpi l) (hf : l.failures = 1) (ht : l.phase = .threw)
    (hcase : size ≤ 2 ∨ ∃ t, l.s.batch[0]? = some t ∧ mpi t = false) :
    ¬ l.WritesFreed ∧ ∀ r, l.s.inbox r = [] ∧ l.s.work r = [] ∧ l.s.out r = [] ∧ l.s.posted r = [] := by
  obtain ⟨i, t, hb, hm, hj, hlen, _⟩ := C85_throws hp h hf ht
  have he : l.s.exps = [] := by
    apply List.length_eq_zero_iff.1
    rw [hlen]
    rcases hcase with hc | ⟨u, hu, hum⟩
    · omega
    · rcases Nat.eq_zero_or_pos i with rfl | hi
      · simp
      · rw [hj 0 hi u hu] at hum; simp at hum
  have inv := inv_of_reach hp ((lifeInv_of_reach h).reach (Or.inr ⟨hf, ht⟩)).1
  have key : ∀ r, l.s.inbox r = [] ∧ l.s.work r = [] ∧ l.s.out r = [] ∧ l.s.posted r = [] := fun r => inv.free r (by simp [he])
  exact ⟨fun ⟨_, r, _, hpost⟩ => hpost (key r).2.2.2, key⟩

/-- The workers go on (the server does nothing): receiving a task and performing it, sending a message. -/
inductive Workers (size : Nat) (parts : T → List M) (mpi : T → Bool) : Life T M → Life T M → Prop
  | refl (l) : Workers size parts mpi l l
  | step {a b c} : Workers size parts mpi a b → LifeStep size parts mpi b c → c.phase = b.phase → c.s.posted = b.s.posted →
      c.failures = b.failures → Workers size parts mpi a c

/-- **C85 (freed memory).** If after the first call that threw a receive is still posted, then it stays posted whatever happens – until the pool is
destroyed –, another call of `DoTasks` is not followed, and the workers by themselves get to the point where a message is written into the destroyed
result. -/
theorem C85_freed (hp : ∀ t, parts t ≠ []) {l : Life T M} (h : LifeReach size parts mpi l) (hf : l.failures = 1) (ht : l.phase = .threw)
    (r : Nat) (hr : l.s.posted r ≠ []) :
    (∀ l', LifeStep size parts mpi l l' → l'.s.posted = l.s.posted ∧ (l'.phase = .threw ∨ l'.phase = .ending 1)) ∧
    ∃ l', Workers size parts mpi l l' ∧ l'.phase = .threw ∧ l'.WritesFreed := by
  refine ⟨fun l' hs => ?_, ?_⟩
  · cases hs with
    | server hw => rw [ht] at hw; cases hw
    | throws i cur first t hw => rw [ht] at hw; cases hw
    | receive => exact ⟨rfl, Or.inl ht⟩
    | reply => exact ⟨rfl, Or.inl ht⟩
    | deliver r m ms k ks hw => rw [ht] at hw; cases hw
    | call hw => rw [ht] at hw; cases hw
    | again _ hpost => exact absurd (hpost r) hr
    | destroy => exact ⟨rfl, Or.inr rfl⟩
    | sendEnd k hw => rw [ht] at hw; cases hw
    | leave => exact ⟨rfl, Or.inl ht⟩
  · have key : ∀ (n : Nat) (a : Life T M), Workers size parts mpi l a → LifeReach size parts mpi a → a.failures = 1 → a.phase = .threw →
        a.s.posted r ≠ [] → todo size parts a.s ≤ n → ∃ l', Workers size parts mpi l l' ∧ l'.phase = .threw ∧ l'.WritesFreed := by
      intro n
      induction n with
      | zero =>
        intro a hw hra hfa hta hpa hn
        by_cases hwf : a.WritesFreed
        · exact ⟨a, hw, hta, hwf⟩
        have inv := inv_of_reach hp ((lifeInv_of_reach hra).reach (Or.inr ⟨hfa, hta⟩)).1
        exfalso
        have hex : ∃ e ∈ a.s.exps, e.rank = r := by
          by_contra hno
          push Not at hno
          exact hpa (inv.free r hno).2.2.2
        obtain ⟨e, he, rfl⟩ := hex
        refine hpa (quiet_posted inv (fun s' hs => ?_) he)
        have := todo_remote hs
        omega
      | succ n ih =>
        intro a hw hra hfa hta hpa hn
        by_cases hwf : a.WritesFreed
        · exact ⟨a, hw, hta, hwf⟩
        have linv := lifeInv_of_reach hra
        have inv := inv_of_reach hp (linv.reach (Or.inr ⟨hfa, hta⟩)).1
        have hex : ∃ e ∈ a.s.exps, e.rank = r := by
          by_contra hno
          push Not at hno
          exact hpa (inv.free r hno).2.2.2
        obtain ⟨e, he, rfl⟩ := hex
        obtain ⟨t, ok⟩ := inv.exp e he
        have hleft : a.left e.rank = false := by
          cases hl : a.left e.rank with
          | false => rfl
          | true =>
            obtain ⟨h1, _⟩ := linv.left _ hl
            obtain ⟨k, hk, _⟩ := (linv.ended _).1 h1
            rw [hta] at hk; cases hk
        have go : ∀ (b : Life T M), LifeStep size parts mpi a b → Remote size parts a.s b.s → b.phase = a.phase → b.s.posted = a.s.posted →
            b.failures = a.failures → ∃ l', Workers size parts mpi l l' ∧ l'.phase = .threw ∧ l'.WritesFreed := by
          intro b hs hrem e1 e2 e3
          have := todo_remote hrem
          exact ih b (hw.step hs e1 e2 e3) (hra.step hs) (e3.trans hfa) (e1.trans hta) (by rw [e2]; exact hpa) (by omega)
        cases hwk : a.s.work e.rank with
        | cons m ms =>
          exact go _ (.reply e.rank m ms ok.lo ok.hi hleft hwk) (.reply e.rank m ms ok.lo ok.hi hwk) rfl rfl rfl
        | nil =>
          cases hin : a.s.inbox e.rank with
          | cons m ms =>
            exact go _ (.receive e.rank m ms ok.lo ok.hi hleft hwk hin) (.receive e.rank m ms ok.lo ok.hi hwk hin) rfl rfl rfl
          | nil =>
            exfalso
            have ho : a.s.out e.rank = [] := by
              by_contra hne
              exact hwf ⟨by rw [hta]; simp, e.rank, hne, hpa⟩
            have h1 := congrArg List.length ok.flow
            have h2 := ok.calls
            rw [hwk, hin, ho] at h1
            simp at h1
            have : 0 < (a.s.posted e.rank).length := List.length_pos_iff.2 hpa
            omega
    exact key _ l (.refl l) h hf ht hr le_rfl

/-- **C85 (it happens).** In every batch whose first task that cannot be sent is at an index `i` with `1 ≤ i < size - 1`, on a pool not used before,
`DoTasks` may throw with the receives for all the `i` results before it posted. -/
theorem C85_reachable (tasks : List T) (i : Nat) (hi : i + 1 < size) (t : T) (hb : tasks[i]? = some t) (hm : mpi t = false)
    (hbefore : ∀ j < i, ∀ u, tasks[j]? = some u → mpi u = true) :
    ∃ l, LifeReach size parts mpi l ∧ l.failures = 1 ∧ l.phase = .threw ∧ l.s.batch = tasks ∧ ∀ r, 1 ≤ r → r ≤ i → l.s.posted r = [r - 1] := by
  have key : ∀ k ≤ i, ∃ l : Life T M, LifeReach size parts mpi l ∧ l.failures = 0 ∧ l.phase = .working ∧ l.s.batch = tasks ∧
      l.s.loc = .send k (k + 1) false ∧ (∀ r, 1 ≤ r → r ≤ k → l.s.posted r = [r - 1]) ∧ ∀ r, k < r → l.s.posted r = [] := by
    intro k
    induction k with
    | zero =>
      intro _
      refine ⟨_, LifeReach.step .init (.call rfl (Call.doTasks tasks rfl (by omega))), rfl, rfl, rfl, rfl, fun r h1 h2 => by omega, fun r _ => rfl⟩
    | succ k ih =>
      intro hk
      obtain ⟨l, h1, h2, h3, h4, h5, h6, h7⟩ := ih (by omega)
      have hlt : i < tasks.length := (List.getElem?_eq_some_iff.1 hb).1
      have hkt : l.s.batch[k]? = some tasks[k] := by rw [h4]; exact List.getElem?_eq_getElem (by omega)
      refine ⟨_, h1.step (.server h3 (.sendTask k (k + 1) false _ h5 hkt) ?_), h2, h3, h4, ?_, fun r r1 r2 => ?_, fun r hr => ?_⟩
      · intro i' cur first u hl hu
        rw [h5] at hl
        simp only [Loc.send.injEq] at hl
        obtain ⟨rfl, _, _⟩ := hl
        rw [h4] at hu
        exact hbefore k (by omega) u hu
      · simp only [afterSend, Bool.false_eq_true, if_false]
        rw [if_neg (by omega)]
      · show Function.update _ _ _ _ = _
        by_cases he : r = k + 1
        · subst he; rw [Function.update_self, h7 _ (by omega)]; simp
        · rw [Function.update_of_ne he]; exact h6 r r1 (by omega)
      · show Function.update _ _ _ _ = _
        rw [Function.update_of_ne (by omega)]; exact h7 r (by omega)
  obtain ⟨l, h1, h2, h3, h4, h5, h6, _⟩ := key i le_rfl
  refine ⟨_, h1.step (.throws i (i + 1) false t h3 h5 (by rw [h4]; exact hb) hm), by simp [h2], rfl, h4, h6⟩

/-- **C85 (wrong results afterwards).** Even when no receive was outstanding, a program that catches the exception and calls `DoTasks` again may be
given the messages of the failed call as results: three processes, results of two messages; the first batch is task 5 followed by a task that
cannot be sent (0), the second is task 7, and its result then is `[25, 7]` instead of `[7, 49]`. -/
theorem C85_stale : ∃ l : Life Nat Nat, LifeReach 3 exParts (fun t => t != 0) l ∧ l.phase = .working ∧ l.s.loc = .idle ∧ l.s.batch = [7] ∧
    l.s.got 0 = [25, 7] ∧ exParts 7 = [7, 49] := by
  have h0 : LifeReach 3 exParts (fun t => t != 0) (Life.init Nat Nat) := .init
  have h1 := h0.step (.call rfl (Call.doTasks [5, 0] rfl (by omega)))
  have h2 := h1.step (.server rfl (.sendTask 0 1 false 5 rfl rfl) (by intro i cur first t hl hb; simp at hl; obtain ⟨rfl, _⟩ := hl; simp at hb; subst hb; rfl))
  have h3 := h2.step (.receive 1 ⟨0, 5⟩ [] (by omega) (by omega) rfl rfl rfl)
  have h4 := h3.step (.reply 1 5 [25] (by omega) (by omega) rfl rfl)
  have h5 := h4.step (.reply 1 25 [] (by omega) (by omega) rfl rfl)
  have h6 := h5.step (.deliver 1 5 [25] 0 [] rfl (by omega) (by omega) rfl rfl)
  have h7 := h6.step (.throws 1 2 false 0 rfl rfl rfl rfl)
  have h8 := h7.step (.again rfl (by intro r; by_cases hr : r = 1 <;> simp [hr, Life.init, S.init]) (Call.doTasks [7] rfl (by omega)))
  have h9 := h8.step (.server rfl (.sendTask 0 1 false 7 rfl rfl) (by intro i cur first t hl hb; simp at hl; obtain ⟨rfl, _⟩ := hl; simp at hb; subst hb; rfl))
  have h10 := h9.step (.deliver 1 25 [] 0 [] rfl (by omega) (by omega) rfl rfl)
  have h11 := h10.step (.receive 1 ⟨0, 7⟩ [] (by omega) (by omega) rfl rfl rfl)
  have h12 := h11.step (.reply 1 7 [49] (by omega) (by omega) rfl rfl)
  have h13 := h12.step (.server rfl (.sendEnd 1 2 false rfl rfl) (by intro i cur first t hl hb; simp [afterSend] at hl; obtain ⟨rfl, _⟩ := hl; simp at hb))
  have h14 := h13.step (.server rfl (.scanNext 0 none ⟨1, 0, 1⟩ 0 rfl rfl (by simp [Life.init, S.init]) rfl) (by intro i cur first t hl; simp [drain] at hl))
  have h15 := h14.step (.deliver 1 7 [] 0 [] rfl (by omega) (by omega) rfl rfl)
  have h16 := h15.step (.server rfl (.scanWrap 1 none rfl rfl) (by intro i cur first t hl; simp at hl))
  have h17 := h16.step (.server rfl (.scanPop 0 none ⟨1, 0, 0⟩ rfl rfl (by simp [Life.init, S.init]) rfl) (by intro i cur first t hl; simp at hl))
  exact ⟨_, h17, rfl, rfl, rfl, rfl, rfl⟩

/-! ## C86: destruction -/

/-- What is left to do for the end: end-of-work messages to send, workers to leave. -/
def toEnd (size : Nat) (l : Life T M) : Nat :=
  (match l.phase with | .ending k => size - k | _ => 0) + ((List.range size).filter fun r => decide (1 ≤ r) && !l.left r).length

theorem left_idle {l : Life T M} (h : LifeReach size parts mpi l) : ∀ r, l.left r = true → l.s.inbox r = [] ∧ l.s.work r = [] := by
  induction h with
  | init => intro r hr; simp [Life.init] at hr
  | @step l l' hr hs ih =>
    intro r hleft
    have inv := lifeInv_of_reach hr
    have notWorking : l.left r = true → l.phase ≠ .working ∧ l.phase ≠ .threw := by
      intro h
      obtain ⟨k, hk, _⟩ := (inv.ended r).1 (inv.left r h).1
      rw [hk]; simp
    cases hs with
    | server hw => exact absurd hw (notWorking hleft).1
    | throws i cur first t hw => exact absurd hw (notWorking hleft).1
    | receive r' m ms h1 h2 h3 h4 h5 =>
      have hne : r ≠ r' := by rintro rfl; rw [show l.left r = true from hleft] at h3; cases h3
      simpa only [Function.update_of_ne hne] using ih r hleft
    | reply r' m ms h1 h2 h3 h4 =>
      have hne : r ≠ r' := by rintro rfl; rw [show l.left r = true from hleft] at h3; cases h3
      simpa only [Function.update_of_ne hne] using ih r hleft
    | deliver r' m ms k ks hw => exact absurd hw (notWorking hleft).1
    | call hw => exact absurd hw (notWorking hleft).1
    | again hw => exact absurd hw (notWorking hleft).2
    | destroy => exact ih r hleft
    | sendEnd => exact ih r hleft
    | leave r' h1 h2 h3 h4 h5 h6 =>
      by_cases hne : r = r'
      · subst hne; exact ⟨h5, h4⟩
      · simp only [Function.update_of_ne hne] at hleft; exact ih r hleft

/-- **C86 (no worker leaves early).** A worker process only ever exits when the pool is being destroyed and it has been sent the end-of-work message,
and it then has performed and answered all tasks sent to it; if no call of `DoTasks` threw, its answers have all arrived. -/
theorem C86_not_early (hp : ∀ t, parts t ≠ []) {l : Life T M} (h : LifeReach size parts mpi l) (r : Nat) (hr : l.left r = true) :
    (∃ k, l.phase = .ending k ∧ 1 ≤ r ∧ r < k) ∧ r < size ∧ l.s.inbox r = [] ∧ l.s.work r = [] ∧
    (l.failures = 0 → l.s.inbox r = [] ∧ l.s.work r = [] ∧ l.s.out r = [] ∧ l.s.posted r = []) := by
  have linv := lifeInv_of_reach h
  obtain ⟨h1, h2, h3⟩ := linv.left r hr
  obtain ⟨k, hk, ha, hb⟩ := (linv.ended r).1 h1
  refine ⟨⟨k, hk, ha, hb⟩, h3, (left_idle h r hr).1, (left_idle h r hr).2, fun hf => ?_⟩
  exact C28_clean hp (linv.reach (Or.inl hf)).1 (linv.idle hf k hk) r

theorem filter_update {l : List Nat} (hl : l.Nodup) {f g : Nat → Bool} {r : Nat} (hr : r ∈ l) (hf : f r = true) (hg : g r = false)
    (h : ∀ k, k ≠ r → g k = f k) : (l.filter g).length + 1 = (l.filter f).length := by
  induction l with
  | nil => simp at hr
  | cons a l ih =>
    obtain ⟨h1, h2⟩ := List.nodup_cons.1 hl
    rcases List.mem_cons.1 hr with rfl | hr
    · have : l.filter g = l.filter f := List.filter_congr fun x hx => h x (by rintro rfl; exact h1 hx)
      simp [hf, hg, this]
    · have ha : a ≠ r := by rintro rfl; exact h1 hr
      have := ih h2 hr
      simp only [List.filter_cons, h a ha]
      split
      · simp only [List.length_cons]; omega
      · omega

/-- **C86 (destruction ends all workers).** Once the destructor has been called on a pool none of whose calls threw, every step sends one more
end-of-work message or makes one worker leave – at most `2·(size - 1)` steps in all –, and as long as a message is unsent or a worker has not left,
such a step can be made: all messages get sent and all workers leave, in whatever order. -/
theorem C86_all_leave (hp : ∀ t, parts t ≠ []) {l : Life T M} (h : LifeReach size parts mpi l) (hf : l.failures = 0) (k : Nat)
    (hk : l.phase = .ending k) :
    (∀ l', LifeStep size parts mpi l l' → toEnd size l' + 1 = toEnd size l ∧ l'.failures = 0 ∧ ∃ k', l'.phase = .ending k') ∧
    toEnd size l ≤ 2 * (size - 1) ∧
    ((∃ l', LifeStep size parts mpi l l') ∨ (size ≤ k ∧ ∀ r, 1 ≤ r → r < size → l.left r = true)) := by
  have linv := lifeInv_of_reach h
  have hidle := linv.idle hf k hk
  have clean := C28_clean hp (linv.reach (Or.inl hf)).1 hidle
  refine ⟨fun l' hs => ?_, ?_, ?_⟩
  · cases hs with
    | server hw => rw [hk] at hw; cases hw
    | throws i cur first t hw => rw [hk] at hw; cases hw
    | receive r m ms h1 h2 h3 h4 h5 => rw [(clean r).1] at h5; cases h5
    | reply r m ms h1 h2 h3 h4 => rw [(clean r).2.1] at h4; cases h4
    | deliver r m ms k ks hw => rw [hk] at hw; cases hw
    | call hw => rw [hk] at hw; cases hw
    | again hw => rw [hk] at hw; cases hw
    | destroy hw => rcases hw with ⟨hw, _⟩ | hw <;> (rw [hk] at hw; cases hw)
    | sendEnd k' hw hlt =>
      rw [hk] at hw
      obtain rfl : k = k' := by simpa using hw
      refine ⟨?_, hf, _, rfl⟩
      simp only [toEnd, hk]; omega
    | leave r h1 h2 h3 h4 h5 h6 =>
      refine ⟨?_, hf, k, hk⟩
      simp only [toEnd, hk]
      have := filter_update (List.nodup_range (n := size)) (f := fun r => decide (1 ≤ r) && !l.left r)
        (g := fun r' => decide (1 ≤ r') && !(Function.update l.left r true) r') (r := r) (List.mem_range.2 h2) (by simp [h1, h3])
        (by simp) (fun x hx => by simp [Function.update_of_ne hx])
      omega
  · have hr := linv.range k hk
    have hlen : ((List.range size).filter fun r => decide (1 ≤ r) && !l.left r).length ≤ size - 1 := by
      rcases size with _ | n
      · simp
      · rw [List.range_succ_eq_map, List.filter_cons]
        rw [if_neg (by simp)]
        refine le_trans (List.length_filter_le _ _) ?_
        simp
    simp only [toEnd, hk]
    omega
  · by_cases hlt : k < size
    · exact Or.inl ⟨_, .sendEnd k hk hlt⟩
    · by_cases hall : ∀ r, 1 ≤ r → r < size → l.left r = true
      · exact Or.inr ⟨by omega, hall⟩
      · left
        push Not at hall
        obtain ⟨r, h1, h2, h3⟩ := hall
        refine ⟨_, .leave r h1 h2 (by simpa using h3) (clean r).2.1 (clean r).1 ((linv.ended r).2 ⟨k, hk, h1, by omega⟩)⟩

/-- **C86 (the destructor can always be called).** Between calls of `DoTasks`, and nothing is lost by it: the results of the last call are those of C28. -/
theorem C86_destroy (hp : ∀ t, parts t ≠ []) {l : Life T M} (h : LifeReach size parts mpi l) (hf : l.failures = 0) (hidle : l.s.loc = .idle)
    (hw : l.phase = .working) :
    LifeReach size parts mpi { l with phase := .ending 1 } ∧
    ∀ i (hi : i < l.s.batch.length), l.s.got i = parts l.s.batch[i] ∧ l.s.perf.count i = 1 :=
  ⟨h.step (.destroy (Or.inl ⟨hw, hidle⟩)), (C28_results hp ((lifeInv_of_reach h).reach (Or.inl hf)).1 hidle).1⟩

/-- Non-vacuity: two processes, one task, destruction; the worker has left. -/
theorem C86_example : ∃ l : Life Nat Nat, LifeReach 2 exParts (fun t => t != 0) l ∧ l.failures = 0 ∧ l.phase = .ending 2 ∧ l.left 1 = true ∧
    l.s.got 0 = [5, 25] := by
  have h0 : LifeReach 2 exParts (fun t => t != 0) (Life.init Nat Nat) := .init
  have h1 := h0.step (.call rfl (Call.doTasks [5] rfl (by omega)))
  have h2 := h1.step (.server rfl (.sendTask 0 1 false 5 rfl rfl) (by intro i cur first t hl hb; simp at hl; obtain ⟨rfl, _⟩ := hl; simp at hb; subst hb; rfl))
  have h3 := h2.step (.receive 1 ⟨0, 5⟩ [] (by omega) (by omega) rfl rfl rfl)
  have h4 := h3.step (.reply 1 5 [25] (by omega) (by omega) rfl rfl)
  have h5 := h4.step (.reply 1 25 [] (by omega) (by omega) rfl rfl)
  have h6 := h5.step (.deliver 1 5 [25] 0 [] rfl (by omega) (by omega) rfl rfl)
  have h7 := h6.step (.server rfl (.scanNext 0 (some 1) ⟨1, 0, 1⟩ 0 rfl rfl (by simp [Life.init, S.init]) rfl) (by intro i cur first t hl; simp [afterSend] at hl))
  have h8 := h7.step (.deliver 1 25 [] 0 [] rfl (by omega) (by omega) rfl rfl)
  have h9 := h8.step (.server rfl (.scanWrap 1 (some 1) rfl rfl) (by intro i cur first t hl; simp at hl))
  have h10 := h9.step (.server rfl (.scanPop 0 (some 1) ⟨1, 0, 0⟩ rfl rfl (by simp [Life.init, S.init]) rfl) (by intro i cur first t hl; simp at hl))
  have h11 := h10.step (.server rfl (.sendEnd 1 1 true rfl rfl) (by intro i cur first t hl hb; simp [afterPop] at hl; obtain ⟨rfl, _⟩ := hl; simp at hb))
  have h12 := h11.step (.destroy (Or.inl ⟨rfl, rfl⟩))
  have h13 := h12.step (.sendEnd 1 rfl (by omega))
  have h14 := h13.step (.leave 1 (by omega) (by omega) rfl rfl rfl rfl)
  exact ⟨_, h14, rfl, rfl, rfl, rfl⟩

end K52.Mpi
