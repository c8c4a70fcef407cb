import Verif.Model.Cache
import Verif.Lemmas.AMap
import Mathlib.Tactic.Linarith
import Mathlib.Tactic.Positivity
import Mathlib.Tactic.FieldSimp

set_option linter.unusedSectionVars false

namespace K52.Cache
variable {K V : Type} [DecidableEq K] [Inhabited V]

/-- Keys are unique. -/
def WF (c : State K V) : Prop := (AMap.keys c.map).Nodup

/-- Stored value visible under a key. -/
def absV (c : State K V) (k : K) : Option V :=
  match AMap.get? c.map k with
  | some s => if s.hasValue then some s.value else none
  | none => none

/-- The three ways `clearUpToLimit` can go. -/
theorem clear_cases (c : State K V) :
    (c.exceeded = false ∧ clearUpToLimit c = (c, true)) ∨
    (c.exceeded = true ∧ (clearUnused c 1).exceeded = false ∧ clearUpToLimit c = (clearUnused c 1, true)) ∨
    (c.exceeded = true ∧ (clearUnused c 1).exceeded = true ∧ clearUpToLimit c = (clearUnused c 1, false)) := by
  cases h1 : c.exceeded <;> cases h2 : (clearUnused c 1).exceeded <;> simp [clearUpToLimit, h1, h2]

theorem WF_clearUnused {c : State K V} (h : WF c) (n : Nat) : WF (clearUnused c n) :=
  AMap.nodup_filter h _

theorem WF_clear {c : State K V} (h : WF c) : WF (clearUpToLimit c).1 := by
  rcases clear_cases c with ⟨_, e⟩ | ⟨_, _, e⟩ | ⟨_, _, e⟩ <;> rw [e] <;>
    first | exact h | exact WF_clearUnused h _

theorem WF_foldl_set {m : List (K × Stored V)} (h : (AMap.keys m).Nodup) (rs : List (K × V)) :
    (AMap.keys (rs.foldl (fun m r => AMap.set m r.1 (Stored.of r.2)) m)).Nodup := by
  induction rs generalizing m with
  | nil => exact h
  | cons r rs ih => exact ih (AMap.nodup_set h _ _)

theorem WF_step {c : State K V} (h : WF c) (op : Op K V) : WF (step c op).1 := by
  cases op with
  | isCached k =>
    simp only [step, isCached]
    split <;> exact AMap.nodup_touch h _ _
  | get k =>
    simp only [step, get]
    split
    · split
      · split
        · exact AMap.nodup_set (AMap.nodup_touch h _ _) _ _
        · exact AMap.nodup_touch h _ _
      · exact AMap.nodup_touch h _ _
    · exact AMap.nodup_touch h _ _
  | add k v =>
    simp only [step, add]
    split
    · exact AMap.nodup_set (WF_clear h) _ _
    · exact WF_clear h
  | addMany rs =>
    simp only [step, addMany]
    split
    · exact WF_foldl_set (WF_clear h) _
    · exact WF_clear h

theorem run_append (c : State K V) (a b : List (Op K V)) :
    run c (a ++ b) = ((run (run c a).1 b).1, (run c a).2 ++ (run (run c a).1 b).2) := by
  induction a generalizing c with
  | nil => simp [run]
  | cons op a ih => simp [run, ih]

theorem WF_run {c : State K V} (h : WF c) (ops : List (Op K V)) : WF (run c ops).1 := by
  induction ops generalizing c with
  | nil => exact h
  | cons op ops ih => exact ih (WF_step h op)

theorem run_length (c : State K V) (ops : List (Op K V)) : (run c ops).2.length = ops.length := by
  induction ops generalizing c with
  | nil => rfl
  | cons op ops ih => simp [run, ih]

/-! ### lookups -/

theorem touch_get (c : State K V) (k : K) :
    AMap.get? (AMap.touch c.map k Stored.empty) k = some ((AMap.get? c.map k).getD Stored.empty) := by
  rw [AMap.get?_touch]
  cases AMap.get? c.map k <;> simp

theorem isCached_out (c : State K V) (k : K) :
    (isCached c k).2 = .bool (absV c k).isSome := by
  simp only [isCached, touch_get, absV]
  cases h : AMap.get? c.map k with
  | none => simp [Stored.empty]
  | some s => by_cases hs : s.hasValue <;> simp [hs]

theorem isCached_map (c : State K V) (k : K) :
    (isCached c k).1 = { c with map := AMap.touch c.map k Stored.empty } := by
  simp only [isCached, touch_get]

theorem absV_touch (c : State K V) (k k' : K) :
    absV { c with map := AMap.touch c.map k Stored.empty } k' = absV c k' := by
  simp only [absV, AMap.get?_touch]
  cases h : AMap.get? c.map k' with
  | none => by_cases e : k = k' <;> simp [e, Stored.empty]
  | some s => simp

theorem absV_isCached (c : State K V) (k k' : K) : absV (isCached c k).1 k' = absV c k' := by
  rw [isCached_map, absV_touch]

/-- `GetCachedValue` in terms of the abstract view. -/
theorem get_out (c : State K V) (k : K) :
    (get c k).2 = .ub ∧ (absV c k).isSome ∨
    (∃ v, absV c k = some v ∧ (get c k).2 = .value v) ∨ (absV c k = none ∧ (get c k).2 = .threw) := by
  simp only [get, touch_get, absV]
  cases h : AMap.get? c.map k with
  | none => simp [Stored.empty]
  | some s =>
    by_cases hs : s.hasValue
    · by_cases hu : s.usage < 2147483647 <;> simp [hs, hu]
    · simp [hs]

theorem absV_get (c : State K V) (k k' : K) : absV (get c k).1 k' = absV c k' := by
  simp only [get, touch_get]
  split
  · split
    · next hv _ =>
      simp only [absV, AMap.get?_set, AMap.get?_touch]
      by_cases e : k = k'
      · subst e
        cases h : AMap.get? c.map k with
        | none => simp [h, Stored.empty] at hv
        | some s => simp [h] at hv; simp [hv]
      · simp only [if_neg e]
        cases h : AMap.get? c.map k' <;> simp
    · exact absV_touch c k k'
  · exact absV_touch c k k'

theorem absV_clear {c : State K V} (h : WF c) (k : K) :
    absV (clearUpToLimit c).1 k = absV c k ∨ absV (clearUpToLimit c).1 k = none := by
  have key : absV (clearUnused c 1) k = absV c k ∨ absV (clearUnused c 1) k = none := by
    unfold absV clearUnused
    cases hg : AMap.get? (c.map.filter (fun e => !decide (e.2.usage < 1))) k with
    | none => simp
    | some s =>
      have := (AMap.get?_filter h _ k s).1 hg
      simp [this.1]
  rcases clear_cases c with ⟨_, e⟩ | ⟨_, _, e⟩ | ⟨_, _, e⟩ <;> rw [e] <;>
    first | exact key | exact Or.inl rfl

/-- value of the last record with that key -/
def lastRecord (rs : List (K × V)) (k : K) : Option V :=
  rs.foldl (fun acc r => if r.1 = k then some r.2 else acc) none

theorem foldl_rec_init (rs : List (K × V)) (k : K) (a : Option V) :
    rs.foldl (fun acc r => if r.1 = k then some r.2 else acc) a =
      (lastRecord rs k).or a := by
  unfold lastRecord
  induction rs generalizing a with
  | nil => simp
  | cons r rs ih =>
    simp only [List.foldl_cons]
    rw [ih, ih (if r.1 = k then some r.2 else none)]
    split
    · cases List.foldl (fun acc r => if r.1 = k then some r.2 else acc) none rs <;> simp
    · simp

theorem get?_foldl_set (m : List (K × Stored V)) (rs : List (K × V)) (k : K) :
    AMap.get? (rs.foldl (fun m r => AMap.set m r.1 (Stored.of r.2)) m) k =
      ((lastRecord rs k).map Stored.of).or (AMap.get? m k) := by
  induction rs generalizing m with
  | nil => simp [lastRecord]
  | cons r rs ih =>
    simp only [List.foldl_cons]
    rw [ih, AMap.get?_set]
    have : lastRecord (r :: rs) k = (lastRecord rs k).or (if r.1 = k then some r.2 else none) := by
      conv_lhs => unfold lastRecord
      simp only [List.foldl_cons]
      exact foldl_rec_init rs k _
    rw [this]
    split <;> cases lastRecord rs k <;> simp

theorem absV_add {c : State K V} (h : WF c) (k k' : K) (v : V) :
    ((add c k v).2 = .done ∧ k = k' ∧ absV (add c k v).1 k' = some v) ∨
    (((add c k v).2 = .done → k ≠ k') ∧
      (absV (add c k v).1 k' = absV c k' ∨ absV (add c k v).1 k' = none)) := by
  simp only [add]
  split
  · by_cases e : k = k'
    · left; subst e; simp [absV, AMap.get?_set, Stored.of]
    · right
      refine ⟨fun _ => e, ?_⟩
      have := absV_clear h k'
      simpa [absV, AMap.get?_set, e] using this
  · right
    refine ⟨by simp, absV_clear h k'⟩

theorem absV_addMany {c : State K V} (h : WF c) (rs : List (K × V)) (k' : K) :
    ((addMany c rs).2 = .done ∧ ∃ v, lastRecord rs k' = some v ∧ absV (addMany c rs).1 k' = some v) ∨
    (((addMany c rs).2 = .done → lastRecord rs k' = none) ∧
      (absV (addMany c rs).1 k' = absV c k' ∨ absV (addMany c rs).1 k' = none)) := by
  simp only [addMany]
  split
  · cases e : lastRecord rs k' with
    | some v => left; refine ⟨rfl, v, rfl, ?_⟩; simp only [absV, get?_foldl_set, e]; simp [Stored.of]
    | none =>
      right
      refine ⟨fun _ => rfl, ?_⟩
      have := absV_clear h k'
      simpa [absV, get?_foldl_set, e] using this
  · right
    exact ⟨by simp, absV_clear h k'⟩

/-! ### usage and permanence -/

/-- entry present, has a value and has been read -/
def Used (c : State K V) (k : K) (v : V) : Prop :=
  ∃ s, AMap.get? c.map k = some s ∧ s.hasValue = true ∧ s.value = v ∧ 1 ≤ s.usage

theorem Used.absV {c : State K V} {k : K} {v : V} (h : Used c k v) : absV c k = some v := by
  obtain ⟨s, hs, hv, rfl, _⟩ := h
  simp [Cache.absV, hs, hv]

theorem used_after_get {c : State K V} {k : K} {v : V} (h : (get c k).2 = .value v) :
    Used (get c k).1 k v := by
  revert h
  simp only [get, touch_get]
  split
  · split
    · intro h
      simp only [Out.value.injEq] at h
      refine ⟨_, (AMap.get?_set _ _ _ _).trans (if_pos rfl), by assumption, h, Nat.le_add_left 1 _⟩
    · simp
  · simp

theorem Used.clear {c : State K V} {k : K} {v : V} (hc : WF c) (h : Used c k v) :
    Used (clearUpToLimit c).1 k v := by
  have key : Used (clearUnused c 1) k v := by
    obtain ⟨s, hs, hv, he, hu⟩ := h
    refine ⟨s, ?_, hv, he, hu⟩
    exact (AMap.get?_filter hc _ k s).2 ⟨hs, by simp; omega⟩
  rcases clear_cases c with ⟨_, e⟩ | ⟨_, _, e⟩ | ⟨_, _, e⟩ <;> rw [e] <;>
    first | exact key | exact h

theorem Used.touch {c : State K V} {k k' : K} {v : V} (h : Used c k v) :
    Used { c with map := AMap.touch c.map k' Stored.empty } k v := by
  obtain ⟨s, hs, r⟩ := h
  exact ⟨s, by simp [AMap.get?_touch, hs], r⟩

theorem Used.get {c : State K V} {k k' : K} {v : V} (h : Used c k v) :
    Used (Cache.get c k').1 k v := by
  simp only [Cache.get, touch_get]
  split
  · split
    · obtain ⟨s, hs, hv, he, hu⟩ := h
      by_cases e : k' = k
      · subst e
        refine ⟨{ s with usage := s.usage + 1 }, ?_, hv, he, by simp⟩
        simp [AMap.get?_set, hs]
      · refine ⟨s, ?_, hv, he, hu⟩
        simp [AMap.get?_set, e, AMap.get?_touch, hs]
    · exact h.touch
  · exact h.touch

theorem length_foldl_set (m : List (K × Stored V)) (rs : List (K × V)) :
    m.length ≤ (rs.foldl (fun m r => AMap.set m r.1 (Stored.of r.2)) m).length ∧
    (rs.foldl (fun m r => AMap.set m r.1 (Stored.of r.2)) m).length ≤ m.length + rs.length := by
  induction rs generalizing m with
  | nil => simp
  | cons r rs ih =>
    simp only [List.foldl_cons, List.length_cons]
    have := ih (AMap.set m r.1 (Stored.of r.2))
    have h1 := AMap.length_set_le m r.1 (Stored.of r.2)
    have h2 := AMap.length_le_set m r.1 (Stored.of r.2)
    omega

theorem exceeds_mono {b : Nat} {l : Rat} {m n : Nat} (h : m ≤ n) (hm : exceeds b l m = true) :
    exceeds b l n = true := by
  unfold exceeds at *
  simp only [decide_eq_true_eq] at *
  refine lt_of_lt_of_le hm ?_
  have : ((b * m : Nat) : Rat) ≤ ((b * n : Nat) : Rat) := by exact_mod_cast Nat.mul_le_mul_left b h
  linarith

theorem clear_true {c : State K V} (h : (clearUpToLimit c).2 = true) :
    (clearUpToLimit c).1.exceeded = false := by
  rcases clear_cases c with ⟨h1, e⟩ | ⟨_, h1, e⟩ | ⟨_, h1, e⟩ <;> rw [e] at h ⊢
  · exact h1
  · exact h1
  · cases h

theorem clear_const (c : State K V) :
    (clearUpToLimit c).1.entryBytes = c.entryBytes ∧ (clearUpToLimit c).1.limitMb = c.limitMb := by
  rcases clear_cases c with ⟨_, e⟩ | ⟨_, _, e⟩ | ⟨_, _, e⟩ <;> rw [e] <;> simp [clearUnused]

/-- number of entries that have been used -/
def usedEntries (c : State K V) : Nat := (c.map.filter (fun e => !decide (e.2.usage < 1))).length

/-- the stuck condition -/
def Stuck (c : State K V) : Prop := exceeds c.entryBytes c.limitMb (usedEntries c) = true

theorem usedEntries_le (c : State K V) : usedEntries c ≤ c.map.length := List.length_filter_le _ _

theorem usedEntries_clear (c : State K V) : usedEntries (clearUpToLimit c).1 = usedEntries c := by
  have key : usedEntries (clearUnused c 1) = usedEntries c := by
    unfold usedEntries clearUnused
    simp
  rcases clear_cases c with ⟨_, e⟩ | ⟨_, _, e⟩ | ⟨_, _, e⟩ <;> rw [e] <;>
    first | exact key | rfl

theorem Stuck.clear_false {c : State K V} (h : Stuck c) : (clearUpToLimit c).2 = false := by
  by_contra hne
  have ht : (clearUpToLimit c).2 = true := by simpa using hne
  have hx := clear_true ht
  have h2 : exceeds c.entryBytes c.limitMb (clearUpToLimit c).1.map.length = true := by
    refine exceeds_mono (usedEntries_le _) ?_
    rw [usedEntries_clear]; exact h
  unfold State.exceeded at hx
  rw [(clear_const c).1, (clear_const c).2, h2] at hx
  cases hx

theorem stuck_of_clear_false {c : State K V} (h : (clearUpToLimit c).2 = false) :
    Stuck (clearUpToLimit c).1 := by
  rcases clear_cases c with ⟨h1, e⟩ | ⟨_, h1, e⟩ | ⟨_, h1, e⟩ <;> rw [e] at h ⊢
  · cases h
  · cases h
  · unfold Stuck usedEntries
    unfold State.exceeded at h1
    have : (clearUnused c 1).map.filter (fun e => !decide (e.2.usage < 1)) = (clearUnused c 1).map := by
      simp [clearUnused]
    rw [this]; exact h1

theorem Stuck.clear {c : State K V} (h : Stuck c) : Stuck (clearUpToLimit c).1 := by
  unfold Stuck
  rw [usedEntries_clear, (clear_const c).1, (clear_const c).2]
  exact h

theorem usedEntries_touch (c : State K V) (k : K) :
    usedEntries { c with map := AMap.touch c.map k Stored.empty } = usedEntries c := by
  unfold usedEntries AMap.touch
  cases AMap.get? c.map k <;> simp [Stored.empty]

theorem filter_set_used (m : List (K × Stored V)) (k : K) (s : Stored V) (hs : 1 ≤ s.usage) :
    (m.filter (fun e => !decide (e.2.usage < 1))).length ≤
    ((AMap.set m k s).filter (fun e => !decide (e.2.usage < 1))).length := by
  induction m with
  | nil => simp
  | cons e m ih =>
    obtain ⟨a, b⟩ := e
    simp only [AMap.set]
    split
    · rw [List.filter_cons_of_pos (a := (k, s)) (by simp; omega)]
      rw [List.filter_cons]
      split <;> simp
    · rw [List.filter_cons, List.filter_cons]
      split
      · simpa using ih
      · exact ih

theorem Stuck.step {c : State K V} (h : Stuck c) (op : Op K V) : Stuck (step c op).1 := by
  have ht : ∀ k, Stuck { c with map := AMap.touch c.map k Stored.empty } := by
    intro k
    unfold Stuck
    rw [usedEntries_touch]; exact h
  cases op with
  | isCached k => simp only [Cache.step]; rw [isCached_map]; exact ht k
  | get k =>
    simp only [Cache.step, Cache.get, touch_get]
    split
    · split
      · unfold Stuck
        refine exceeds_mono ?_ (ht k)
        exact filter_set_used _ _ _ (by simp)
      · exact ht k
    · exact ht k
  | add k v =>
    simp only [Cache.step, Cache.add, h.clear_false]
    exact h.clear
  | addMany rs =>
    simp only [Cache.step, Cache.addMany, h.clear_false]
    exact h.clear

theorem Stuck.run {c : State K V} (h : Stuck c) (ops : List (Op K V)) : Stuck (run c ops).1 := by
  induction ops generalizing c with
  | nil => exact h
  | cons op ops ih => exact ih (h.step op)

end K52.Cache
