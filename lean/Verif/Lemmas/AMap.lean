import Verif.Model.AMap
import Mathlib.Data.List.Nodup

namespace K52.AMap
variable {K : Type u} {V : Type v} [DecidableEq K]

@[simp] theorem get?_nil (k : K) : get? ([] : List (K × V)) k = none := rfl

theorem get?_set (m : List (K × V)) (k k' : K) (v : V) :
    get? (set m k v) k' = if k = k' then some v else get? m k' := by
  induction m with
  | nil => simp [set, get?]
  | cons e m ih =>
    obtain ⟨a, b⟩ := e
    by_cases h : a = k
    · subst h; simp only [set, if_true, get?]; split <;> simp_all
    · simp only [set, if_neg h, get?, ih]
      by_cases h2 : a = k'
      · subst h2; simp [Ne.symm h]
      · simp [h2]

theorem get?_append_singleton (m : List (K × V)) (k k' : K) (v : V) :
    get? (m ++ [(k, v)]) k' = match get? m k' with
      | some x => some x
      | none => if k = k' then some v else none := by
  induction m with
  | nil => simp [get?]
  | cons e m ih =>
    obtain ⟨a, b⟩ := e
    simp only [List.cons_append, get?]
    split
    · rfl
    · exact ih

theorem get?_touch (m : List (K × V)) (k k' : K) (d : V) :
    get? (touch m k d) k' = match get? m k' with
      | some x => some x
      | none => if k = k' then some d else none := by
  unfold touch
  cases h : get? m k with
  | some x =>
    simp only
    cases h' : get? m k' with
    | some y => rfl
    | none =>
      by_cases e : k = k'
      · subst e; simp [h] at h'
      · simp [e]
  | none => exact get?_append_singleton m k k' d

theorem mem_keys_iff (m : List (K × V)) (k : K) : k ∈ keys m ↔ ∃ v, get? m k = some v := by
  induction m with
  | nil => simp [keys]
  | cons e m ih =>
    obtain ⟨a, b⟩ := e
    simp only [keys, List.map_cons, List.mem_cons, get?] at *
    by_cases h : a = k
    · subst h; simp
    · simp [h, Ne.symm h, ih]

theorem get?_none_iff (m : List (K × V)) (k : K) : get? m k = none ↔ k ∉ keys m := by
  rw [mem_keys_iff]
  cases get? m k <;> simp

theorem keys_set (m : List (K × V)) (k : K) (v : V) :
    keys (set m k v) = if k ∈ keys m then keys m else keys m ++ [k] := by
  induction m with
  | nil => simp [set, keys]
  | cons e m ih =>
    obtain ⟨a, b⟩ := e
    by_cases h : a = k
    · subst h; simp [set, keys]
    · have hc : ∀ x : List (K × V), keys ((a, b) :: x) = a :: keys x := fun _ => rfl
      simp only [set, if_neg h, hc, ih]
      by_cases h2 : k ∈ keys m
      · simp [h2]
      · have : k ∉ a :: keys m := by simp [h2, Ne.symm h]
        rw [if_neg h2, if_neg this]; rfl

theorem nodup_set {m : List (K × V)} (h : (keys m).Nodup) (k : K) (v : V) : (keys (set m k v)).Nodup := by
  rw [keys_set]
  split
  · exact h
  · next hk =>
    rw [List.nodup_append]
    refine ⟨h, by simp, ?_⟩
    intro a ha b hb
    simp at hb
    subst hb
    intro e; exact hk (e ▸ ha)

theorem keys_touch (m : List (K × V)) (k : K) (d : V) :
    keys (touch m k d) = if k ∈ keys m then keys m else keys m ++ [k] := by
  unfold touch
  cases h : get? m k with
  | some x =>
    have : k ∈ keys m := (mem_keys_iff m k).2 ⟨x, h⟩
    simp [this]
  | none =>
    have : k ∉ keys m := (get?_none_iff m k).1 h
    simp only [if_neg this]
    simp [keys]

theorem nodup_touch {m : List (K × V)} (h : (keys m).Nodup) (k : K) (d : V) : (keys (touch m k d)).Nodup := by
  rw [keys_touch]
  split
  · exact h
  · next hk =>
    rw [List.nodup_append]
    refine ⟨h, by simp, ?_⟩
    intro a ha b hb
    simp at hb
    subst hb
    intro e; exact hk (e ▸ ha)

omit [DecidableEq K] in
theorem nodup_filter {m : List (K × V)} (h : (keys m).Nodup) (p : K × V → Bool) :
    (keys (m.filter p)).Nodup := by
  unfold keys at *
  exact h.sublist (List.filter_sublist.map _)

theorem get?_of_mem {m : List (K × V)} (h : (keys m).Nodup) {k : K} {v : V} (hm : (k, v) ∈ m) :
    get? m k = some v := by
  induction m with
  | nil => simp at hm
  | cons e m ih =>
    obtain ⟨a, b⟩ := e
    simp only [keys, List.map_cons, List.nodup_cons] at h
    simp only [List.mem_cons, Prod.mk.injEq] at hm
    rcases hm with ⟨rfl, rfl⟩ | hm
    · simp [get?]
    · have : a ≠ k := by
        rintro rfl
        exact h.1 (List.mem_map.2 ⟨_, hm, rfl⟩)
      simp [get?, this]
      exact ih h.2 hm

theorem mem_of_get? {m : List (K × V)} {k : K} {v : V} (h : get? m k = some v) : (k, v) ∈ m := by
  induction m with
  | nil => simp at h
  | cons e m ih =>
    obtain ⟨a, b⟩ := e
    simp only [get?] at h
    split at h
    · next e => subst e; simp at h; subst h; simp
    · exact List.mem_cons_of_mem _ (ih h)

theorem get?_filter {m : List (K × V)} (h : (keys m).Nodup) (p : K × V → Bool) (k : K) (v : V) :
    get? (m.filter p) k = some v ↔ get? m k = some v ∧ p (k, v) = true := by
  constructor
  · intro hg
    have := mem_of_get? hg
    rw [List.mem_filter] at this
    exact ⟨get?_of_mem h this.1, this.2⟩
  · rintro ⟨hg, hp⟩
    exact get?_of_mem (nodup_filter h p) (List.mem_filter.2 ⟨mem_of_get? hg, hp⟩)

theorem length_set (m : List (K × V)) (k : K) (v : V) :
    (set m k v).length = m.length ∨ (set m k v).length = m.length + 1 := by
  have := congrArg List.length (keys_set m k v)
  by_cases h : k ∈ keys m
  · left
    rw [if_pos h] at this
    simpa [keys] using this
  · right
    rw [if_neg h] at this
    simpa [keys] using this

theorem length_set_le (m : List (K × V)) (k : K) (v : V) : (set m k v).length ≤ m.length + 1 := by
  have := length_set m k v; omega

theorem length_le_set (m : List (K × V)) (k : K) (v : V) : m.length ≤ (set m k v).length := by
  have := length_set m k v; omega

theorem length_le_touch (m : List (K × V)) (k : K) (v : V) : m.length ≤ (touch m k v).length := by
  unfold touch; split <;> simp

end K52.AMap
