import Verif.Model.SharedFn
import Mathlib.Tactic.SplitIfs

/-!
# C122: objective functions with internal state in a thread pool
-/

namespace K52.SharedFn

variable {P M L V : Type}

/-! ## Specification -/

/-- The computation from `l` alone, undisturbed: the memory and the point it gets to. -/
inductive Alone (code : Code P M L V) (m : M) (l : L) : M → L → Prop
  | start : Alone code m l m l
  | step {m' l' m'' l''} : Alone code m l m' l' → code.step m' l' = (m'', .inl l'') → Alone code m l m'' l''

/-- Called alone with argument `p` on an object with memory `m`, the code returns `v`. -/
def Returns (code : Code P M L V) (m : M) (p : P) (v : V) : Prop :=
  ∃ m' l m'', Alone code m (code.start p) m' l ∧ code.step m' l = (m'', .inr v)

/-- Called alone the code computes `f`, whatever it left in the object before: internal state is only scratch space. -/
def Computes (code : Code P M L V) (f : P → V) : Prop := ∀ m p v, Returns code m p v → v = f p

/-- Writes that no evaluation can notice: memories related by `E` are indistinguishable, and steps stay within the relation.  With `E` equality: no writes
at all. -/
structure Unnoticed (code : Code P M L V) (E : M → M → Prop) : Prop where
  refl : ∀ m, E m m
  trans : ∀ m m' m'', E m m' → E m' m'' → E m m''
  writes : ∀ m l, E m (code.step m l).1
  reads : ∀ m m' l, E m m' → (code.step m l).2 = (code.step m' l).2

/-! ## The tasks -/

theorem createRawTasks_get (fn : Nat) : ∀ (ps : List P) (i : Nat) (t : Task P), (createRawTasks fn ps)[i]? = some t → t.obj = fn ∧ ps[i]? = some t.arg := by
  intro ps
  induction ps with
  | nil => intro i t h; simp [createRawTasks] at h
  | cons p ps ih =>
    intro i t h
    cases i with
    | zero =>
      simp only [createRawTasks, List.getElem?_cons_zero, Option.some.injEq] at h
      subst h
      exact ⟨rfl, rfl⟩
    | succ i =>
      simp only [createRawTasks, List.getElem?_cons_succ] at h ⊢
      exact ih i t h

theorem createOptimizationTasks_get (clone : M → M) (fn : Nat) : ∀ (ps : List P) (h : Heap M), fn < h.next →
    (∀ k < h.next, (createOptimizationTasks clone fn h ps).1.mem k = h.mem k) ∧
    ∀ (i : Nat) (t : Task P), (createOptimizationTasks clone fn h ps).2[i]? = some t →
      t.obj = h.next + i ∧ ps[i]? = some t.arg ∧ (createOptimizationTasks clone fn h ps).1.mem t.obj = clone (h.mem fn) := by
  intro ps
  induction ps with
  | nil => intro h _; simp [createOptimizationTasks]
  | cons p ps ih =>
    intro h hfn
    obtain ⟨h1, h2⟩ := ih ⟨Function.update h.mem h.next (clone (h.mem fn)), h.next + 1⟩ (by simp only; omega)
    have hne : fn ≠ h.next := by omega
    simp only [createOptimizationTasks]
    refine ⟨?_, ?_⟩
    · intro k hk
      have hk' : k ≠ h.next := by omega
      rw [h1 k (by simp only; omega)]
      simp [Function.update_of_ne hk']
    · intro i t ht
      cases i with
      | zero =>
        simp only [List.getElem?_cons_zero, Option.some.injEq] at ht
        subst ht
        refine ⟨rfl, rfl, ?_⟩
        rw [h1 h.next (by simp only; omega)]
        simp
      | succ i =>
        simp only [List.getElem?_cons_succ] at ht ⊢
        obtain ⟨a, b, c⟩ := h2 i t ht
        refine ⟨by rw [a]; simp only; omega, b, ?_⟩
        rw [c]
        simp [Function.update_of_ne hne]

/-! ## Each task with its own object -/

theorem own_inv (code : Code P M L V) (w : Nat) (h : Heap M) (ts : List (Task P))
    (hdist : ∀ (i j : Nat) t t', ts[i]? = some t → ts[j]? = some t' → t.obj = t'.obj → i = j) {s : S M L V} (hr : Reach code w h ts s) :
    (∀ k, (∀ (i : Nat) t, ts[i]? = some t → t.obj ≠ k) → s.mem k = h.mem k) ∧
    ∀ (i : Nat) t, ts[i]? = some t → (s.status i = .waiting → s.mem t.obj = h.mem t.obj) ∧
      (∀ l, s.status i = .running l → Alone code (h.mem t.obj) (code.start t.arg) (s.mem t.obj) l) ∧
      ∀ v, s.status i = .done v → Returns code (h.mem t.obj) t.arg v := by
  induction hr with
  | init => simp [S.init]
  | @step s s' _ hs ih =>
    obtain ⟨ih1, ih2⟩ := ih
    cases hs with
    | take i t busy ht hw _ _ =>
      refine ⟨ih1, fun j t' ht' => ?_⟩
      by_cases hji : j = i
      · subst hji
        cases ht.symm.trans ht'
        refine ⟨by simp, ?_, by simp⟩
        intro l hl
        simp only [Function.update_self, Status.running.injEq] at hl
        subst hl
        rw [(ih2 j t ht).1 hw]
        exact .start
      · simpa [Function.update_of_ne hji] using ih2 j t' ht'
    | work i t l l' m ht hl hst =>
      refine ⟨fun k hk => ?_, fun j t' ht' => ?_⟩
      · simp only [Function.update_of_ne (Ne.symm (hk i t ht))]
        exact ih1 k hk
      · by_cases hji : j = i
        · subst hji
          cases ht.symm.trans ht'
          refine ⟨by simp, ?_, by simp⟩
          intro l2 hl2
          simp only [Function.update_self, Status.running.injEq] at hl2
          subst hl2
          simpa using ((ih2 j t ht).2.1 l hl).step hst
        · have hne : t'.obj ≠ t.obj := fun he => hji (hdist j i t' t ht' ht he)
          simpa [Function.update_of_ne hji, Function.update_of_ne hne] using ih2 j t' ht'
    | finish i t l v m ht hl hst =>
      refine ⟨fun k hk => ?_, fun j t' ht' => ?_⟩
      · simp only [Function.update_of_ne (Ne.symm (hk i t ht))]
        exact ih1 k hk
      · by_cases hji : j = i
        · subst hji
          cases ht.symm.trans ht'
          refine ⟨by simp, by simp, ?_⟩
          intro v2 hv2
          simp only [Function.update_self, Status.done.injEq] at hv2
          subst hv2
          exact ⟨_, _, _, (ih2 j t ht).2.1 l hl, hst⟩
        · have hne : t'.obj ≠ t.obj := fun he => hji (hdist j i t' t ht' ht he)
          simpa [Function.update_of_ne hji, Function.update_of_ne hne] using ih2 j t' ht'

theorem createOptimizationTasks_length (clone : M → M) (fn : Nat) : ∀ (ps : List P) (h : Heap M),
    (createOptimizationTasks clone fn h ps).2.length = ps.length := by
  intro ps
  induction ps with
  | nil => intro h; rfl
  | cons p ps ih => intro h; simp [createOptimizationTasks, ih]

/-- **C122** (optimization tasks).  Tasks that clone what they work on never influence each other, however many workers there are and however they are
interleaved: each returns what it returns when it runs alone on a clone, and the objects that were there before are not changed. -/
theorem C122_optimization_tasks (code : Code P M L V) (clone : M → M) (w : Nat) (h : Heap M) (fn : Nat) (hfn : fn < h.next) (ps : List P)
    (s : S M L V) (hr : Reach code w (createOptimizationTasks clone fn h ps).1 (createOptimizationTasks clone fn h ps).2 s) :
    (∀ k < h.next, s.mem k = h.mem k) ∧
    ∀ (i : Nat) (p : P) (v : V), ps[i]? = some p → s.status i = .done v →
      Returns code (clone (h.mem fn)) p v := by
  obtain ⟨h1, h2⟩ := createOptimizationTasks_get clone fn ps h hfn
  obtain ⟨i1, i2⟩ := own_inv code w _ _ (by
    intro i j t t' ht ht' he
    have := (h2 i t ht).1
    have := (h2 j t' ht').1
    omega) hr
  refine ⟨fun k hk => ?_, fun i p v hp hv => ?_⟩
  · rw [i1 k (fun i t ht => by have := (h2 i t ht).1; omega)]
    exact h1 k hk
  · have hi : i < (createOptimizationTasks clone fn h ps).2.length := by
      rw [createOptimizationTasks_length]
      exact (List.getElem?_eq_some_iff.1 hp).1
    have ht := List.getElem?_eq_getElem hi
    obtain ⟨a, b, c⟩ := h2 i _ ht
    have := (i2 i _ ht).2.2 v hv
    rw [c] at this
    cases hp.symm.trans b
    exact this

/-! ## All tasks with one object -/

/-- **C122** (counting tasks, functions without state that matters).  Counting tasks all call the same function object.  If no evaluation can notice the writes of
another, each returns what it returns alone. -/
theorem C122_stateless (code : Code P M L V) (E : M → M → Prop) (hE : Unnoticed code E) (w : Nat) (h : Heap M) (fn : Nat) (ps : List P)
    (s : S M L V) (hr : Reach code w h (createRawTasks fn ps) s) (i : Nat) (p : P) (v : V) (hp : ps[i]? = some p) (hv : s.status i = .done v) :
    Returns code (h.mem fn) p v := by
  have key : E (h.mem fn) (s.mem fn) ∧ ∀ i : Nat, ∀ p, ps[i]? = some p →
      (∀ l, s.status i = .running l → ∃ m', Alone code (h.mem fn) (code.start p) m' l ∧ E (h.mem fn) m') ∧
      ∀ v, s.status i = .done v → Returns code (h.mem fn) p v := by
    clear hv hp i p v
    induction hr with
    | init => exact ⟨hE.refl _, by simp [S.init]⟩
    | @step s s' _ hs ih =>
      obtain ⟨ih1, ih2⟩ := ih
      have hmono : ∀ m l, E (h.mem fn) m → E (h.mem fn) (code.step m l).1 := fun m l hm => hE.trans _ _ _ hm (hE.writes m l)
      have same : ∀ m l, E (h.mem fn) m → (code.step m l).2 = (code.step (h.mem fn) l).2 := fun m l hm => (hE.reads _ _ l hm).symm
      cases hs with
      | take i t busy ht hw _ _ =>
        obtain ⟨ho, ha⟩ := createRawTasks_get fn ps i t ht
        refine ⟨ih1, fun j p hp => ?_⟩
        by_cases hji : j = i
        · subst hji
          cases hp.symm.trans ha
          refine ⟨fun l hl => ?_, by simp⟩
          simp only [Function.update_self, Status.running.injEq] at hl
          subst hl
          exact ⟨_, .start, hE.refl _⟩
        · simpa [Function.update_of_ne hji] using ih2 j p hp
      | work i t l l' m ht hl hst =>
        obtain ⟨ho, ha⟩ := createRawTasks_get fn ps i t ht
        rw [ho] at hst ⊢
        refine ⟨?_, fun j p hp => ?_⟩
        · have := hmono _ l ih1
          rw [hst] at this
          simpa using this
        · by_cases hji : j = i
          · subst hji
            cases hp.symm.trans ha
            refine ⟨fun l2 hl2 => ?_, by simp⟩
            simp only [Function.update_self, Status.running.injEq] at hl2
            subst hl2
            obtain ⟨m', ha', he⟩ := (ih2 j _ ha).1 l hl
            have h1 : (code.step m' l).2 = .inl l' := by rw [same m' l he, ← same _ l ih1, hst]
            exact ⟨(code.step m' l).1, ha'.step (Prod.ext rfl h1), hmono _ l he⟩
          · simpa [Function.update_of_ne hji] using ih2 j p hp
      | finish i t l v m ht hl hst =>
        obtain ⟨ho, ha⟩ := createRawTasks_get fn ps i t ht
        rw [ho] at hst ⊢
        refine ⟨?_, fun j p hp => ?_⟩
        · have := hmono _ l ih1
          rw [hst] at this
          simpa using this
        · by_cases hji : j = i
          · subst hji
            cases hp.symm.trans ha
            refine ⟨by simp, fun v2 hv2 => ?_⟩
            simp only [Function.update_self, Status.done.injEq] at hv2
            subst hv2
            obtain ⟨m', ha', he⟩ := (ih2 j _ ha).1 l hl
            have h1 : (code.step m' l).2 = .inr v := by rw [same m' l he, ← same _ l ih1, hst]
            exact ⟨m', l, (code.step m' l).1, ha', Prod.ext rfl h1⟩
          · simpa [Function.update_of_ne hji] using ih2 j p hp
  exact (key.2 i p hp).2 v hv

/-- **C122** (counting tasks, one worker).  With a single worker tasks run one after the other: a function whose state is only scratch space is evaluated
correctly. -/
theorem C122_one_worker (code : Code P M L V) (f : P → V) (hf : Computes code f) (h : Heap M) (fn : Nat) (ps : List P)
    (s : S M L V) (hr : Reach code 1 h (createRawTasks fn ps) s) (i : Nat) (p : P) (v : V) (hp : ps[i]? = some p) (hv : s.status i = .done v) :
    v = f p := by
  have key : (∀ i j l l', s.status i = .running l → s.status j = .running l' → i = j) ∧ ∀ i : Nat, ∀ p, ps[i]? = some p →
      (∀ l, s.status i = .running l → ∃ m, Alone code m (code.start p) (s.mem fn) l) ∧ ∀ v, s.status i = .done v → v = f p := by
    clear hv hp i p v
    induction hr with
    | init => exact ⟨by simp [S.init], by simp [S.init]⟩
    | @step s s' _ hs ih =>
      obtain ⟨ih1, ih2⟩ := ih
      cases hs with
      | take i t busy ht hw hb hbusy =>
        obtain ⟨ho, ha⟩ := createRawTasks_get fn ps i t ht
        have hno : ∀ j l, s.status j ≠ .running l := by
          intro j l hj
          have := hbusy j l hj
          rw [List.length_eq_zero_iff.1 (by omega : busy.length = 0)] at this
          simp at this
        have hone : ∀ j l, Function.update s.status i (.running (code.start t.arg)) j = .running l → j = i := by
          intro j l hj
          by_contra hji
          rw [Function.update_of_ne hji] at hj
          exact hno j l hj
        refine ⟨fun j k l l' hj hk => (hone j l hj).trans (hone k l' hk).symm, fun j p hp => ?_⟩
        by_cases hji : j = i
        · subst hji
          cases hp.symm.trans ha
          refine ⟨fun l hl => ?_, by simp⟩
          simp only [Function.update_self, Status.running.injEq] at hl
          subst hl
          exact ⟨_, .start⟩
        · simpa [Function.update_of_ne hji] using ih2 j p hp
      | work i t l l' m ht hl hst =>
        obtain ⟨ho, ha⟩ := createRawTasks_get fn ps i t ht
        rw [ho] at hst ⊢
        have hone : ∀ j l, Function.update s.status i (.running l') j = .running l → j = i := by
          intro j l2 hj
          by_contra hji
          rw [Function.update_of_ne hji] at hj
          exact hji (ih1 j i l2 l hj hl)
        refine ⟨fun j k l l' hj hk => (hone j l hj).trans (hone k l' hk).symm, fun j p hp => ?_⟩
        by_cases hji : j = i
        · subst hji
          cases hp.symm.trans ha
          refine ⟨fun l2 hl2 => ?_, by simp⟩
          simp only [Function.update_self, Status.running.injEq] at hl2
          subst hl2
          obtain ⟨m0, h0⟩ := (ih2 j _ ha).1 l hl
          exact ⟨m0, by simpa using h0.step hst⟩
        · refine ⟨fun l2 hl2 => absurd (hone j l2 hl2) hji, ?_⟩
          simpa [Function.update_of_ne hji] using (ih2 j p hp).2
      | finish i t l v m ht hl hst =>
        obtain ⟨ho, ha⟩ := createRawTasks_get fn ps i t ht
        rw [ho] at hst ⊢
        have hno : ∀ j l, Function.update s.status i (.done v) j ≠ .running l := by
          intro j l2 hj
          by_cases hji : j = i
          · subst hji
            simp at hj
          · rw [Function.update_of_ne hji] at hj
            exact hji (ih1 j i l2 l hj hl)
        refine ⟨fun j k l l' hj _ => absurd hj (hno j l), fun j p hp => ?_⟩
        refine ⟨fun l2 hl2 => absurd hl2 (hno j l2), fun v2 hv2 => ?_⟩
        by_cases hji : j = i
        · subst hji
          cases hp.symm.trans ha
          simp only [Function.update_self, Status.done.injEq] at hv2
          subst hv2
          obtain ⟨m0, h0⟩ := (ih2 j _ ha).1 l hl
          exact hf m0 _ _ ⟨_, _, _, h0, hst⟩
        · simp only [Function.update_of_ne hji] at hv2
          exact (ih2 j p hp).2 v2 hv2
  exact (key.2 i p hp).2 v hv

/-! ## A function with scratch space -/

/-- An objective function that stores its argument in a member, then computes `f` from the member. -/
def scratch (f : P → V) : Code P P (Option P) V := ⟨some, fun m l => match l with
  | some p => (p, .inl none)
  | none => (m, .inr (f m))⟩

/-- Called alone it computes `f`. -/
theorem scratch_computes (f : P → V) : Computes (scratch f) f := by
  rintro m p v ⟨m', l, m'', ha, hs⟩
  have key : ∀ m' l, Alone (scratch f) m (some p) m' l → l = some p ∨ l = none ∧ m' = p := by
    intro m' l ha
    induction ha with
    | start => exact .inl rfl
    | @step m' l' m'' l'' _ hs ih =>
      rcases ih with rfl | ⟨rfl, rfl⟩
      · simp only [scratch, Prod.mk.injEq, Sum.inl.injEq] at hs
        exact .inr ⟨hs.2.symm, hs.1.symm⟩
      · simp [scratch] at hs
  rcases key m' l ha with rfl | ⟨rfl, rfl⟩
  · simp [scratch] at hs
  · simp only [scratch, Prod.mk.injEq, Sum.inr.injEq] at hs
    exact hs.2.symm

/-- **C122** (counting tasks, two workers).  With two workers or more such a function can be evaluated wrongly: for any two parameters there is an
interleaving in which the pool returns for the first one the value of the second. -/
theorem C122_shared_function (f : P → V) (w : Nat) (hw : 2 ≤ w) (h : Heap P) (fn : Nat) (p q : P) (ps : List P) :
    ∃ s, Reach (scratch f) w h (createRawTasks fn (p :: q :: ps)) s ∧ s.status 0 = .done (f q) ∧ s.status 1 = .done (f q) := by
  have h0 : Reach (scratch f) w h (createRawTasks fn (p :: q :: ps)) _ := .init
  have h1 := h0.step (.take 0 ⟨fn, p⟩ [] rfl rfl (by simp; omega) (by simp [S.init]))
  have h2 := h1.step (.take 1 ⟨fn, q⟩ [0] rfl (by simp [S.init]) (by simp; omega) (by
    intro j l hj
    by_cases hj0 : j = 0
    · simp [hj0]
    · simp [S.init, Function.update_of_ne hj0] at hj))
  have h3 := h2.step (.work 0 ⟨fn, p⟩ (some p) none p rfl (by simp [S.init, scratch]) rfl)
  have h4 := h3.step (.work 1 ⟨fn, q⟩ (some q) none q rfl (by simp [S.init, scratch]) rfl)
  have h5 := h4.step (.finish 0 ⟨fn, p⟩ none (f q) q rfl (by simp) (by simp [scratch]))
  have h6 := h5.step (.finish 1 ⟨fn, q⟩ none (f q) q rfl (by simp) (by simp [scratch]))
  exact ⟨_, h6, by simp, by simp⟩

/-- Non-vacuity of the other theorems: the same function in two optimization tasks, interleaved in the same way, and one that never writes. -/
theorem C122_example (f : P → V) (h : Heap P) (p q : P) :
    (∃ s, Reach (scratch f) 2 (createOptimizationTasks id 0 h [p, q]).1 (createOptimizationTasks id 0 h [p, q]).2 s ∧
      s.status 0 = .done (f p) ∧ s.status 1 = .done (f q)) ∧
    Unnoticed (P := P) (M := M) ⟨id, fun m p => (m, .inr (f p))⟩ Eq := by
  refine ⟨?_, ⟨fun _ => rfl, fun _ _ _ => Eq.trans, fun _ _ => rfl, fun _ _ _ _ => rfl⟩⟩
  have h0 : Reach (scratch f) 2 (createOptimizationTasks id 0 h [p, q]).1 (createOptimizationTasks id 0 h [p, q]).2 _ := .init
  have h1 := h0.step (.take 0 ⟨h.next, p⟩ [] rfl rfl (by simp) (by simp [S.init]))
  have h2 := h1.step (.take 1 ⟨h.next + 1, q⟩ [0] rfl (by simp [S.init]) (by simp) (by
    intro j l hj
    by_cases hj0 : j = 0
    · simp [hj0]
    · simp [S.init, Function.update_of_ne hj0] at hj))
  have h3 := h2.step (.work 0 ⟨h.next, p⟩ (some p) none p rfl (by simp [S.init, scratch]) rfl)
  have h4 := h3.step (.work 1 ⟨h.next + 1, q⟩ (some q) none q rfl (by simp [S.init, scratch]) rfl)
  have h5 := h4.step (.finish 0 ⟨h.next, p⟩ none (f p) p rfl (by simp) (by simp [scratch, S.init]))
  have h6 := h5.step (.finish 1 ⟨h.next + 1, q⟩ none (f q) q rfl (by simp) (by simp [scratch, S.init]))
  exact ⟨_, h6, by simp, by simp⟩

end K52.SharedFn
