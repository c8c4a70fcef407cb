import Verif.Lemmas.Cache

/-!
# Properties C01–C04: `Cache`

Specification vocabulary (independent of the implementation): a *history* is the list of calls made on the
cache with their observed outcomes, oldest first.
-/

set_option linter.unusedSectionVars false

namespace K52.Cache
variable {K V : Type} [DecidableEq K] [Inhabited V]

/-- Spec: the value that one call with the given outcome stored under `k` (only calls that returned normally store). -/
def storedBy (k : K) : Op K V × Out V → Option V
  | (.add k' v, .done) => if k' = k then some v else none
  | (.addMany rs, .done) => (rs.reverse.find? (fun r => decide (r.1 = k))).map Prod.snd
  | _ => none

/-- Spec: the most recently stored value under `k` in a history (oldest call first). -/
def latest (k : K) (history : List (Op K V × Out V)) : Option V :=
  history.reverse.findSome? (storedBy k)

/-- The calls of `ops` with their outcomes, on a fresh cache. -/
def historyOf (c : State K V) (ops : List (Op K V)) : List (Op K V × Out V) := ops.zip (run c ops).2

/-- `c` is what `Create` returns. -/
def Fresh (c : State K V) : Prop := ∃ b l, create b l = some c

/-- State reachable by calls from a freshly created cache. -/
def Reachable (c : State K V) : Prop := ∃ c0 ops, Fresh c0 ∧ c = (run c0 ops).1

omit [Inhabited V] [DecidableEq K] in
theorem Fresh.map {c : State K V} (h : Fresh c) : c.map = [] := by
  obtain ⟨b, l, h⟩ := h
  unfold create at h
  split at h
  · simp at h; rw [← h]
  · cases h

theorem Fresh.wf {c : State K V} (h : Fresh c) : WF c := by
  unfold WF; rw [h.map]; simp [AMap.keys]

theorem Reachable.wf {c : State K V} (h : Reachable c) : WF c := by
  obtain ⟨c0, ops, h0, rfl⟩ := h
  exact WF_run h0.wf ops

theorem lastRecord_eq (rs : List (K × V)) (k : K) :
    lastRecord rs k = (rs.reverse.find? (fun r => decide (r.1 = k))).map Prod.snd := by
  induction rs with
  | nil => rfl
  | cons r rs ih =>
    have : lastRecord (r :: rs) k = (lastRecord rs k).or (if r.1 = k then some r.2 else none) := by
      conv_lhs => unfold lastRecord
      simp only [List.foldl_cons]
      exact foldl_rec_init rs k _
    rw [this, ih, List.reverse_cons, List.find?_append]
    cases h : rs.reverse.find? (fun r => decide (r.1 = k)) with
    | some x => simp
    | none => by_cases e : r.1 = k <;> simp [e]

/-- One step either keeps/loses what was visible or makes visible what the call stored. -/
theorem absV_step {c : State K V} (h : WF c) (op : Op K V) (k : K) :
    absV (step c op).1 k = none ∨
    absV (step c op).1 k = (storedBy k (op, (step c op).2)).or (absV c k) := by
  cases op with
  | isCached k' =>
    right; simp only [step, absV_isCached, isCached_out, storedBy, Option.none_or]
  | get k' =>
    right; simp only [step, absV_get, storedBy, Option.none_or]
  | add k' v =>
    simp only [step]
    rcases absV_add h k' k v with ⟨h1, h2, h3⟩ | ⟨h1, h2⟩
    · right; subst h2; simp [h1, h3, storedBy]
    · rcases h2 with h2 | h2
      · right
        have : storedBy k (Op.add k' v, (add c k' v).2) = none := by
          cases ho : (add c k' v).2 <;> simp_all [storedBy]
        rw [this, h2]; simp
      · left; exact h2
  | addMany rs =>
    simp only [step]
    rcases absV_addMany h rs k with ⟨h1, v, h2, h3⟩ | ⟨h1, h2⟩
    · right; simp [h1, h3, storedBy, ← lastRecord_eq, h2]
    · rcases h2 with h2 | h2
      · right
        have : storedBy k (Op.addMany rs, (addMany c rs).2) = none := by
          cases ho : (addMany c rs).2 <;> simp only [storedBy, ← lastRecord_eq]
          exact h1 ho
        rw [this, h2]; simp
      · left; exact h2

theorem absV_run {c : State K V} (h : WF c) (ops : List (Op K V)) (k : K) :
    absV (run c ops).1 k = none ∨
    absV (run c ops).1 k = (latest k (historyOf c ops)).or (absV c k) := by
  induction ops generalizing c with
  | nil => right; simp [run, latest, historyOf]
  | cons op ops ih =>
    have hl : latest k (historyOf c (op :: ops)) =
        (latest k (historyOf (step c op).1 ops)).or (storedBy k (op, (step c op).2)) := by
      simp [latest, historyOf, run, List.findSome?_append]
    have hr : (run c (op :: ops)).1 = (run (step c op).1 ops).1 := rfl
    rw [hl, hr]
    rcases ih (WF_step h op) with h1 | h1
    · left; exact h1
    · rw [h1]
      rcases absV_step h op k with h2 | h2
      · cases h3 : latest k (historyOf (step c op).1 ops) with
        | some v => right; simp
        | none => left; simp [h2]
      · right; rw [h2, Option.or_assoc]

/-- **C01.** Whatever calls were made on a cache before (including ones that threw), a lookup that returns a
value returns the value most recently stored under that very key. -/
theorem C01_get_returns_latest (c : State K V) (hc : Fresh c) (ops : List (Op K V)) (k : K) (v : V)
    (hget : (step (run c ops).1 (.get k)).2 = .value v) :
    latest k (historyOf c ops) = some v := by
  have h0 : absV c k = none := by simp [absV, hc.map]
  have h1 : absV (run c ops).1 k = some v := by
    simp only [step] at hget
    rcases get_out (run c ops).1 k with h | ⟨v', h, h'⟩ | h
    · rw [h.1] at hget; cases hget
    · rw [h'] at hget; simp at hget; rw [h, hget]
    · rw [h.2] at hget; cases hget
  rcases absV_run hc.wf ops k with h2 | h2
  · rw [h1] at h2; cases h2
  · rw [h1, h0] at h2; simpa using h2.symm

/-- Non-vacuity for C01: two stores to key 1 with a store to key 2 in between; the lookup answers. -/
example : ∃ c : State Nat Nat, create 16 1 = some c ∧
    (step (run c [.add 1 10, .add 2 20, .isCached 3, .addMany [(1, 11), (1, 12)]]).1 (.get 1)).2 = .value 12 :=
  ⟨_, rfl, by decide +kernel⟩

/-- A successful store of `v` under `k` is immediately visible. -/
theorem C01_add_then_get (c : State K V) (k : K) (v : V) (h : (step c (.add k v)).2 = .done) :
    (step (step c (.add k v)).1 (.get k)).2 = .value v := by
  have ha : AMap.get? (step c (.add k v)).1.map k = some (Stored.of v) := by
    simp only [step, add] at *
    split
    · simp [AMap.get?_set]
    · next hf => simp [hf] at h
  simp only [step] at *
  simp [get, AMap.get?_touch, ha, Stored.of]

example : ∃ c : State Nat Nat, create 16 1 = some c ∧ (step c (.add 1 5)).2 = .done := ⟨_, rfl, by decide +kernel⟩

/-- **C02.** In every state `IsCached(k)` answers `true` exactly when `GetCachedValue(k)` would not throw,
always answers, and neither call changes what `IsCached` says next about any key. -/
theorem C02_isCached_iff (c : State K V) (k : K) :
    (∃ b, (step c (.isCached k)).2 = .bool b) ∧
    ((step c (.isCached k)).2 = .bool true ↔ (step c (.get k)).2 ≠ .threw) ∧
    (∀ k', (step (step c (.isCached k)).1 (.isCached k')).2 = (step c (.isCached k')).2) ∧
    (∀ k', (step (step c (.get k)).1 (.isCached k')).2 = (step c (.isCached k')).2) := by
  simp only [step]
  refine ⟨⟨_, isCached_out c k⟩, ?_, ?_, ?_⟩
  · rw [isCached_out]
    rcases get_out c k with h | ⟨v', h, h'⟩ | h
    · simp [h]
    · simp [h, h']
    · simp [h]
  · intro k'; rw [isCached_out, isCached_out, absV_isCached]
  · intro k'; rw [isCached_out, isCached_out, absV_get]

/-- **C02 (values).** `IsCached` changes no later answer of `GetCachedValue` for any key; `GetCachedValue`
changes no later *value* (only the usage count, which is undefined behaviour after 2^31-1 reads). -/
theorem C02_lookups_keep_values (c : State K V) (k k' : K) :
    (step (step c (.isCached k)).1 (.get k')).2 = (step c (.get k')).2 ∧
    (∀ v, (step c (.get k')).2 = .value v →
      (step (step c (.get k)).1 (.get k')).2 = .value v ∨ (step (step c (.get k)).1 (.get k')).2 = .ub) ∧
    ((step c (.get k')).2 = .threw → (step (step c (.get k)).1 (.get k')).2 = .threw) := by
  simp only [step]
  refine ⟨?_, ?_, ?_⟩
  · rw [isCached_map]
    simp only [get, AMap.get?_touch]
    cases h : AMap.get? c.map k' with
    | none => by_cases e : k = k' <;> simp [e, Stored.empty]
    | some s => simp only; split <;> [split; skip] <;> rfl
  · intro v hv
    have hv' : absV c k' = some v := by
      rcases get_out c k' with h | ⟨v', h, h'⟩ | h
      · rw [h.1] at hv; cases hv
      · rw [h'] at hv; simp at hv; rw [h, hv]
      · rw [h.2] at hv; cases hv
    rcases get_out (get c k).1 k' with h | ⟨v', h, h'⟩ | h
    · right; exact h.1
    · left; rw [absV_get, hv'] at h; simp at h; rw [h', h]
    · rw [absV_get, hv'] at h; cases h.1
  · intro ht
    have hv' : absV c k' = none := by
      rcases get_out c k' with h | ⟨v', h, h'⟩ | h
      · rw [h.1] at ht; cases ht
      · rw [h'] at ht; cases ht
      · exact h.1
    rcases get_out (get c k).1 k' with h | ⟨v', h, h'⟩ | h
    · rw [absV_get, hv'] at h; cases h.2
    · rw [absV_get, hv'] at h; cases h
    · exact h.2

example : ∃ c : State Nat Nat, create 16 1 = some c ∧
    (step (run c [.add 1 10]).1 (.isCached 1)).2 = .bool true ∧
    (step (run c [.add 1 10]).1 (.get 2)).2 = .threw := ⟨_, rfl, by decide +kernel, by decide +kernel⟩

/-- **C03.** A value that was returned by `GetCachedValue(k)` stays retrievable through any continuation in
which no call successfully stores under `k` again – in particular through any number of evictions.
(`ub` is the overflow of the `int` usage counter after 2^31-1 reads.) -/
theorem C03_read_values_survive (c : State K V) (hc : Reachable c) (k : K) (v : V)
    (hread : (step c (.get k)).2 = .value v) (ops : List (Op K V))
    (hno : latest k (historyOf (step c (.get k)).1 ops) = none) :
    (step (run (step c (.get k)).1 ops).1 (.isCached k)).2 = .bool true ∧
    ((step (run (step c (.get k)).1 ops).1 (.get k)).2 = .value v ∨
     (step (run (step c (.get k)).1 ops).1 (.get k)).2 = .ub) := by
  have key : ∀ (ops : List (Op K V)) (c : State K V), WF c → Used c k v →
      latest k (historyOf c ops) = none → Used (run c ops).1 k v := by
    intro ops
    induction ops with
    | nil => intro c _ h _; exact h
    | cons op ops ih =>
      intro c hw hu hl
      have hl' : latest k (historyOf c (op :: ops)) =
          (latest k (historyOf (step c op).1 ops)).or (storedBy k (op, (step c op).2)) := by
        simp [latest, historyOf, run, List.findSome?_append]
      rw [hl'] at hl
      have hl2 : latest k (historyOf (step c op).1 ops) = none ∧ storedBy k (op, (step c op).2) = none := by
        cases h : latest k (historyOf (step c op).1 ops) <;> simp_all
      refine ih _ (WF_step hw op) ?_ hl2.1
      cases op with
      | isCached k' => simp only [step, isCached_map]; exact hu.touch
      | get k' => exact hu.get
      | add k' v' =>
        have h2 := hl2.2
        simp only [step, add] at h2 ⊢
        split
        · next hf =>
          simp only [hf, if_true, storedBy] at h2
          have hne : k' ≠ k := by intro e; simp [e] at h2
          obtain ⟨s, hs, r⟩ := hu.clear hw
          exact ⟨s, by simp [AMap.get?_set, hne, hs], r⟩
        · exact hu.clear hw
      | addMany rs =>
        have h2 := hl2.2
        simp only [step, addMany] at h2 ⊢
        split
        · next hf =>
          simp only [hf, if_true, storedBy, ← lastRecord_eq] at h2
          obtain ⟨s, hs, r⟩ := hu.clear hw
          exact ⟨s, by simp [get?_foldl_set, h2, hs], r⟩
        · exact hu.clear hw
  have hu := key ops _ (WF_step hc.wf (.get k)) (used_after_get hread) hno
  have ha := hu.absV
  refine ⟨?_, ?_⟩
  · simp only [step] at *; rw [isCached_out, ha]; rfl
  · simp only [step] at *
    rcases get_out (run (get c k).1 ops).1 k with h | ⟨v', h, h'⟩ | h
    · right; exact h.1
    · left; rw [ha] at h; simp at h; rw [h', h]
    · rw [ha] at h; cases h.1

/-- Non-vacuity for C03 with evictions really happening (limit: 2 entries of 2^19 bytes). -/
example : ∃ c : State Nat Nat, create 524288 1 = some c ∧
    let c1 := (run c [.add 1 10]).1
    (step c1 (.get 1)).2 = .value 10 ∧
    (run (step c1 (.get 1)).1 [.add 2 20, .add 3 30, .add 4 40, .isCached 2, .get 1]).2 =
      [.done, .done, .done, .bool false, .value 10] := ⟨_, rfl, by decide +kernel, by decide +kernel⟩

/-- Converse side of C03: with *no* read, a stored value can be lost; and merely asking `IsCached` for other keys can
cause the loss, because every such question inserts a placeholder that counts towards the limit. -/
theorem C03_lookups_can_evict : ∃ (c : State Nat Nat), Fresh c ∧
    (run c [.add 1 10, .add 3 30, .isCached 1]).2 = [.done, .done, .bool true] ∧
    (run c [.add 1 10, .isCached 7, .isCached 8, .add 3 30, .isCached 1]).2 =
      [.done, .bool false, .bool false, .done, .bool false] :=
  ⟨⟨[], 524288, 1⟩, ⟨524288, 1, rfl⟩, by decide +kernel, by decide +kernel⟩

/-- Number of entries the given limit allows: `n` entries do not exceed the limit. -/
def WithinLimit (c : State K V) (n : Nat) : Prop :=
  ((c.entryBytes * n : Nat) : Rat) / 1048576 ≤ c.limitMb

theorem exceeds_false {b : Nat} {l : Rat} {n : Nat} :
    exceeds b l n = false ↔ ((b * n : Nat) : Rat) / 1048576 ≤ l := by
  unfold exceeds; simp

/-- **C04 (bound).** After an `AddValue` that returns normally, at most one entry is beyond the limit, and the limit
itself is unchanged; after an `AddValues`, at most as many as were passed. -/
theorem C04_size_bound (c : State K V) :
    (∀ k v, (step c (.add k v)).2 = .done →
      ∃ n, WithinLimit c n ∧ (step c (.add k v)).1.map.length ≤ n + 1) ∧
    (∀ rs, (step c (.addMany rs)).2 = .done →
      ∃ n, WithinLimit c n ∧ (step c (.addMany rs)).1.map.length ≤ n + rs.length) := by
  have hk : (clearUpToLimit c).2 = true → WithinLimit c (clearUpToLimit c).1.map.length := by
    intro h
    have hx := clear_true h
    unfold State.exceeded at hx
    rw [(clear_const c).1, (clear_const c).2, exceeds_false] at hx
    exact hx
  constructor
  · intro k v h
    simp only [step, add] at *
    split at h
    · next hf =>
      refine ⟨_, hk hf, ?_⟩
      simp only [hf, if_true]
      exact AMap.length_set_le _ _ _
    · cases h
  · intro rs h
    simp only [step, addMany] at *
    split at h
    · next hf =>
      refine ⟨_, hk hf, ?_⟩
      simp only [hf, if_true]
      exact (length_foldl_set _ _).2
    · cases h

example : ∃ c : State Nat Nat, create 524288 1 = some c ∧
    (run c [.add 1 10, .add 2 20, .add 3 30, .add 4 40]).2 = [.done, .done, .done, .done] ∧
    (run c [.add 1 10, .add 2 20, .add 3 30]).1.map.length = 3 :=
  ⟨_, rfl, by decide +kernel, by decide +kernel⟩

/-- **C04 (overflow is permanent).** Once a store has thrown, every later store throws, whatever happens in between. -/
theorem C04_failure_permanent (c : State K V) (op : Op K V)
    (hstore : (∃ k v, op = .add k v) ∨ (∃ rs, op = .addMany rs)) (hthrow : (step c op).2 = .threw)
    (ops : List (Op K V)) :
    (∀ k v, (step (run (step c op).1 ops).1 (.add k v)).2 = .threw) ∧
    (∀ rs, (step (run (step c op).1 ops).1 (.addMany rs)).2 = .threw) := by
  have hs : Stuck (step c op).1 := by
    rcases hstore with ⟨k, v, rfl⟩ | ⟨rs, rfl⟩
    · simp only [step, add] at *
      by_cases hf : (clearUpToLimit c).2 = true
      · simp [hf] at hthrow
      · simp only [Bool.not_eq_true] at hf
        simp only [hf]
        exact stuck_of_clear_false hf
    · simp only [step, addMany] at *
      by_cases hf : (clearUpToLimit c).2 = true
      · simp [hf] at hthrow
      · simp only [Bool.not_eq_true] at hf
        simp only [hf]
        exact stuck_of_clear_false hf
  have h2 := (hs.run ops).clear_false
  generalize (run (step c op).1 ops).1 = c2 at h2
  constructor
  · intro k v; simp [step, add, h2]
  · intro rs; simp [step, addMany, h2]

example : ∃ c : State Nat Nat, create 524288 1 = some c ∧
    (run c [.addMany [(1, 1), (2, 2), (3, 3)], .get 1, .get 2, .get 3, .add 4 4, .isCached 5, .add 1 1]).2 =
      [.done, .value 1, .value 2, .value 3, .threw, .bool false, .threw] :=
  ⟨_, rfl, by decide +kernel⟩

/-- **C04 (no needless eviction).** While the cache is within its limit a store succeeds and leaves the answers for
every other key as they were. -/
theorem C04_within_limit_keeps_all (c : State K V) (h : WithinLimit c c.map.length) (k : K) (v : V) :
    (step c (.add k v)).2 = .done ∧
    ∀ k', k' ≠ k → (step (step c (.add k v)).1 (.get k')).2 = (step c (.get k')).2 := by
  have hx : c.exceeded = false := exceeds_false.2 h
  have hcl : clearUpToLimit c = (c, true) := by simp [clearUpToLimit, hx]
  simp only [step, add, hcl, if_true, true_and]
  intro k' hne
  simp only [get, AMap.get?_touch, AMap.get?_set, if_neg (Ne.symm hne)]
  cases AMap.get? c.map k' with
  | none => simp [Stored.empty]
  | some s => simp only; split <;> [split; skip] <;> rfl

example : ∃ c : State Nat Nat, create 524288 1 = some c ∧ WithinLimit c c.map.length :=
  ⟨_, rfl, by norm_num [WithinLimit]⟩

/-- **C04 (creation).** A cache object is created exactly for positive limits. -/
theorem C04_create_iff (b : Nat) (l : Rat) : (create b l : Option (State K V)).isSome ↔ 0 < l := by
  unfold create
  split <;> simp_all

end K52.Cache
