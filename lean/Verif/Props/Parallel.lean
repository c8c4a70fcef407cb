import Verif.Model.Parallel
import Verif.Lemmas.AMap
import Mathlib.Data.List.Count
import Mathlib.Data.List.Induction
import Mathlib.Algebra.BigOperators.Group.List.Basic
import Mathlib.Tactic.Ring

/-!
# Sequential pool, statistics, factory, delays, registry, call chains (C27, C29, C30, C31, C32, C58)
-/

set_option linter.unusedSectionVars false

namespace K52

/-! ### C27 -/

namespace SeqPool
variable {E T R : Type}

/-- Spec: performing the tasks one after the other, in order, leads from world `e` to `e'` with results `rs`. -/
inductive Performs (perform : E → T → E × Option R) : E → List T → E → List R → Prop
  | nil (e) : Performs perform e [] e []
  | cons {e t e1 r ts e' rs} : perform e t = (e1, some r) → Performs perform e1 ts e' rs → Performs perform e (t :: ts) e' (r :: rs)

/-- **C27 (order).** Either every task returns: they have been performed in order, once each, the results are returned in the same order
and the statistics grew by the number of tasks; or the exception of the first task that throws leaves `DoTasks`, the tasks before it have
been performed and counted, and those after it have not been touched. -/
theorem C27_in_order (perform : E → T → E × Option R) (e : E) (st : WStats) (ts : List T) :
    (∃ e' rs, Performs perform e ts e' rs ∧
      doTasks perform e st ts = (e', { st with counted := st.counted + ts.length }, .ok rs)) ∨
    (∃ pre t post e1 e' rs w, ts = pre ++ t :: post ∧ Performs perform e pre e1 rs ∧ perform e1 t = (e', none) ∧
      doTasks perform e st ts = (e', { st with counted := st.counted + pre.length }, .throw w)) := by
  induction ts generalizing e st with
  | nil => left; exact ⟨e, [], .nil e, rfl⟩
  | cons t ts ih =>
    rcases hp : perform e t with ⟨e1, r | r⟩
    · right
      exact ⟨[], t, ts, e, e1, [], _, rfl, .nil e, hp, by simp only [doTasks, hp, List.length_nil, Nat.add_zero]; rfl⟩
    · rcases ih e1 st.incCounted with ⟨e', rs, h1, h2⟩ | ⟨pre, t', post, e2, e', rs, w, h1, h2, h3, h4⟩
      · left
        refine ⟨e', r :: rs, .cons hp h1, ?_⟩
        simp only [doTasks, hp, h2]
        simp only [WStats.incCounted, List.length_cons, Nat.add_assoc, Nat.add_comm 1]
      · right
        refine ⟨t :: pre, t', post, e2, e', r :: rs, w, by simp [h1], .cons hp h2, h3, ?_⟩
        simp only [doTasks, hp, h4]
        simp only [WStats.incCounted, List.length_cons, Nat.add_assoc, Nat.add_comm 1]

theorem Performs.spec {perform : E → T → E × Option R} {e e' : E} {ts : List T} {rs : List R} (h : Performs perform e ts e' rs)
    (f : T → R) (hf : ∀ e t r, (perform e t).2 = some r → r = f t) : rs = ts.map f := by
  induction h with
  | nil => rfl
  | @cons e t e1 r ts e' rs hp _ ih => rw [List.map_cons, ← ih, hf e t r (by rw [hp])]

/-- **C27 (results).** If the result of a task depends on the task only, then whenever `DoTasks` returns it returns `results[i]` of
`tasks[i]` for every `i`, and no others. -/
theorem C27_results (perform : E → T → E × Option R) (f : T → R) (hf : ∀ e t r, (perform e t).2 = some r → r = f t)
    (e : E) (st : WStats) (ts : List T) (rs : List R) (h : (doTasks perform e st ts).2.2 = .ok rs) : rs = ts.map f := by
  rcases C27_in_order perform e st ts with ⟨e', rs', h1, h2⟩ | ⟨pre, t, post, e1, e', rs', w, _, _, _, h4⟩
  · rw [h2] at h; cases h; exact h1.spec f hf
  · rw [h4] at h; cases h

/-- **C27 (independent calls).** If what a task does - return its result or throw - depends on the task only, then in any history of calls on one pool the answers are
those of the batches, one by one: the results in order, or an exception exactly when some task of that batch throws.  Earlier calls, failed
ones included, have no influence. -/
theorem C27_calls (perform : E → T → E × Option R) (f : T → Option R) (hf : ∀ e t, (perform e t).2 = f t) (e : E) (st : WStats)
    (tss : List (List T)) :
    (calls perform e st tss).2.2.length = tss.length ∧
    ∀ (i : Nat) (ts : List T) (r : Res (List R)), tss[i]? = some ts → (calls perform e st tss).2.2[i]? = some r →
      (∃ rs, r = .ok rs ∧ ts.map f = rs.map some) ∨ r.threw ∧ ∃ t ∈ ts, f t = none := by
  have one : ∀ (ts : List T) (e : E) (st : WStats), (∃ rs, (doTasks perform e st ts).2.2 = .ok rs ∧ ts.map f = rs.map some) ∨
      (doTasks perform e st ts).2.2.threw ∧ ∃ t ∈ ts, f t = none := by
    intro ts
    induction ts with
    | nil => intro e st; exact .inl ⟨[], rfl, rfl⟩
    | cons t ts ih =>
      intro e st
      have hp := hf e t
      rcases h : perform e t with ⟨e1, r | r⟩
      · rw [h] at hp
        exact .inr ⟨by simp [doTasks, h], t, List.mem_cons_self .., hp.symm⟩
      · rw [h] at hp
        simp only [doTasks, h]
        rcases hd : doTasks perform e1 st.incCounted ts with ⟨e2, st2, rs⟩
        have := ih e1 st.incCounted
        rw [hd] at this
        rcases this with ⟨rs', h1, h2⟩ | ⟨h1, t', ht', h2⟩
        · simp only at h1
          subst h1
          exact .inl ⟨r :: rs', rfl, by simp [← hp, h2]⟩
        · right
          refine ⟨?_, t', List.mem_cons_of_mem _ ht', h2⟩
          cases rs with
          | ok a => simp at h1
          | throw w => simp
          | ub => simp at h1
  induction tss generalizing e st with
  | nil => exact ⟨rfl, by simp⟩
  | cons ts tss ih =>
    obtain ⟨h1, h2⟩ := ih (doTasks perform e st ts).1 (doTasks perform e st ts).2.1
    refine ⟨by simp [calls, h1], ?_⟩
    intro i ts' r hts hr
    cases i with
    | zero =>
      simp only [List.getElem?_cons_zero, Option.some.injEq, calls] at hts hr
      subst hts hr
      exact one ts e st
    | succ i =>
      simp only [List.getElem?_cons_succ, calls] at hts hr
      exact h2 i ts' r hts hr

/-- Non-vacuity: three batches, the second of which throws. -/
example : (calls (fun (_ : Unit) (n : Nat) => ((), if n = 0 then none else some (n * n))) () WStats.new [[1, 2], [3, 0, 4], [5]]).2.2 =
    [.ok [1, 4], .throw "thrown by the task", .ok [25]] := by decide

/-- The same tasks in a world that also counts the tasks that returned. -/
def counting (perform : E → T → E × Option R) (x : E × Nat) (t : T) : (E × Nat) × Option R :=
  match perform x.1 t with
  | (e', none) => ((e', x.2), none)
  | (e', some r) => ((e', x.2 + 1), some r)

/-- **C27 (statistics).** After any number of calls, some of which may have thrown, `GetStatistics` has one entry: no errors, and as many
counts as tasks returned normally in all calls together. -/
theorem C27_statistics (perform : E → T → E × Option R) (e : E) (tss : List (List T)) :
    getStatistics (calls (counting perform) (e, 0) WStats.new tss).2.1 =
      [⟨(calls (counting perform) (e, 0) WStats.new tss).1.2, 0, 0⟩] := by
  have one : ∀ (ts : List T) (x : E × Nat) (c : Nat),
      ∃ k, (doTasks (counting perform) x ⟨c, 0, 0⟩ ts).1.2 = x.2 + k ∧
        (doTasks (counting perform) x ⟨c, 0, 0⟩ ts).2.1 = ⟨c + k, 0, 0⟩ := by
    intro ts
    induction ts with
    | nil => intro x c; exact ⟨0, rfl, rfl⟩
    | cons t ts ih =>
      intro x c
      rcases hp : perform x.1 t with ⟨e1, r | r⟩
      · exact ⟨0, by simp [doTasks, counting, hp], by simp [doTasks, counting, hp]⟩
      · obtain ⟨k, h1, h2⟩ := ih (e1, x.2 + 1) (c + 1)
        refine ⟨k + 1, ?_, ?_⟩
        all_goals
          simp only [doTasks, counting, hp, WStats.incCounted]
          rcases hd : doTasks (counting perform) (e1, x.2 + 1) ⟨c + 1, 0, 0⟩ ts with ⟨a, b, _ | _ | _⟩ <;>
            · rw [hd] at h1 h2
              simp only at h1 h2 ⊢
              first
                | (rw [h1]; ring)
                | (rw [h2]; congr 1; ring)
  have all : ∀ (tss : List (List T)) (x : E × Nat) (c : Nat),
      ∃ k, (calls (counting perform) x ⟨c, 0, 0⟩ tss).1.2 = x.2 + k ∧
        (calls (counting perform) x ⟨c, 0, 0⟩ tss).2.1 = ⟨c + k, 0, 0⟩ := by
    intro tss
    induction tss with
    | nil => intro x c; exact ⟨0, rfl, rfl⟩
    | cons ts tss ih =>
      intro x c
      obtain ⟨k, h1, h2⟩ := one ts x c
      obtain ⟨k', h3, h4⟩ := ih (doTasks (counting perform) x ⟨c, 0, 0⟩ ts).1 (c + k)
      refine ⟨k + k', ?_, ?_⟩
      · simp only [calls, h2]; rw [h3, h1]; ring
      · simp only [calls, h2]; rw [h4]; congr 1; ring
  obtain ⟨k, h1, h2⟩ := all tss (e, 0) 0
  simp only [getStatistics, WStats.new]
  rw [h1, h2]

/-- Non-vacuity: tasks that use up the world; the third one throws. -/
example : doTasks (fun (e : Nat) (t : Nat) => if e < t then (e, none) else (e - t, some (t * 2))) 5 WStats.new [2, 3] =
      (0, ⟨2, 0, 0⟩, .ok [4, 6]) ∧
    doTasks (fun (e : Nat) (t : Nat) => if e < t then (e, none) else (e - t, some (t * 2))) 5 WStats.new [2, 3, 1, 0] =
      (0, ⟨2, 0, 0⟩, .throw "thrown by the task") := ⟨rfl, rfl⟩

end SeqPool

/-! ### C29 -/

namespace Aggregator

/-- Keys in strictly increasing order. -/
def Sorted (m : List (Int × WStats)) : Prop := m.Pairwise (fun a b => a.1 < b.1)

theorem mem_store {m : List (Int × WStats)} (hs : Sorted m) (k : Int) (v : WStats) (a : Int × WStats) :
    a ∈ store m k v ↔ a = (k, v) ∨ (a ∈ m ∧ a.1 ≠ k) := by
  induction m with
  | nil => simp [store]
  | cons b m ih =>
    obtain ⟨k', v'⟩ := b
    obtain ⟨h1, h2⟩ := List.pairwise_cons.1 hs
    simp only [store]
    split
    · next hlt =>
      simp only [List.mem_cons]
      constructor
      · rintro (h | h | h)
        · exact .inl h
        · subst h; exact .inr ⟨.inl rfl, by simp; omega⟩
        · exact .inr ⟨.inr h, by have := h1 a h; simp at this; omega⟩
      · rintro (h | ⟨h, _⟩)
        · exact .inl h
        · exact .inr h
    · split
      · next hlt =>
        simp only [List.mem_cons, ih h2]
        constructor
        · rintro (h | h | h)
          · subst h; exact .inr ⟨.inl rfl, by simp; omega⟩
          · exact .inl h
          · exact .inr ⟨.inr h.1, h.2⟩
        · rintro (h | ⟨h | h, hne⟩)
          · exact .inr (.inl h)
          · exact .inl h
          · exact .inr (.inr ⟨h, hne⟩)
      · have e : k' = k := by omega
        subst e
        simp only [List.mem_cons]
        constructor
        · rintro (h | h)
          · exact .inl h
          · exact .inr ⟨.inr h, by have := h1 a h; simp at this; omega⟩
        · rintro (h | ⟨h | h, hne⟩)
          · exact .inl h
          · subst h; simp at hne
          · exact .inr h

theorem sorted_store {m : List (Int × WStats)} (hs : Sorted m) (k : Int) (v : WStats) : Sorted (store m k v) := by
  induction m with
  | nil => simp [store, Sorted]
  | cons b m ih =>
    obtain ⟨k', v'⟩ := b
    obtain ⟨h1, h2⟩ := List.pairwise_cons.1 hs
    simp only [store]
    split
    · next hlt =>
      refine List.pairwise_cons.2 ⟨?_, hs⟩
      intro a ha
      rcases List.mem_cons.1 ha with h | h
      · subst h; exact hlt
      · have := h1 a h; simp at this ⊢; omega
    · split
      · next hlt =>
        refine List.pairwise_cons.2 ⟨?_, ih h2⟩
        intro a ha
        rcases (mem_store h2 k v a).1 ha with h | h
        · subst h; exact hlt
        · exact h1 a h.1
      · have e : k' = k := by omega
        subst e
        exact List.pairwise_cons.2 ⟨h1, h2⟩

theorem get?_sorted {m : List (Int × WStats)} (hs : Sorted m) (k : Int) (v : WStats) : AMap.get? m k = some v ↔ (k, v) ∈ m := by
  induction m with
  | nil => simp [AMap.get?]
  | cons b m ih =>
    obtain ⟨k', v'⟩ := b
    obtain ⟨h1, h2⟩ := List.pairwise_cons.1 hs
    simp only [AMap.get?]
    split
    · next e =>
      subst e
      simp only [Option.some.injEq, List.mem_cons, Prod.mk.injEq, true_and]
      constructor
      · intro h; exact .inl h.symm
      · rintro (h | h)
        · exact h.symm
        · have := h1 _ h; simp at this
    · next hne =>
      rw [ih h2]
      simp only [List.mem_cons, Prod.mk.injEq]
      constructor
      · exact .inr
      · rintro (h | h)
        · exact absurd h.1.symm hne
        · exact h

/-- What the map holds after a history. -/
structure Holds (m : List (Int × WStats)) (evs : List Event) : Prop where
  sorted : Sorted m
  ids : ∀ a ∈ m, a.2.id = a.1
  counted : ∀ a ∈ m, a.2.counted = evs.count (.count a.1)
  errors : ∀ a ∈ m, a.2.errors = evs.count (.error a.1)
  keys : ∀ i, (∃ a ∈ m, a.1 = i) ↔ ∃ ev ∈ evs, ev.id = i

theorem appropriate_spec {m : List (Int × WStats)} {evs : List Event} (h : Holds m evs) (i : Int) :
    appropriate m i = ⟨evs.count (.count i), evs.count (.error i), i⟩ := by
  unfold appropriate
  cases hg : AMap.get? m i with
  | some s =>
    have hm := (get?_sorted h.sorted i s).1 hg
    have h1 := h.counted _ hm
    have h2 := h.errors _ hm
    have h3 := h.ids _ hm
    simp only at h1 h2 h3 ⊢
    cases s; simp_all
  | none =>
    have hno : ¬ ∃ ev ∈ evs, ev.id = i := by
      intro hc
      obtain ⟨a, ha, e⟩ := (h.keys i).2 hc
      have : AMap.get? m i = some a.2 := (get?_sorted h.sorted i a.2).2 (by rw [← e]; exact ha)
      rw [hg] at this; cases this
    simp only
    rw [List.count_eq_zero.2 (fun hc => hno ⟨_, hc, rfl⟩), List.count_eq_zero.2 (fun hc => hno ⟨_, hc, rfl⟩)]

theorem Holds.register {m : List (Int × WStats)} {evs : List Event} (h : Holds m evs) (ev : Event) :
    Holds (register m ev) (evs ++ [ev]) := by
  cases ev with
  | count i =>
    simp only [Aggregator.register, appropriate_spec h, WStats.incCounted]
    refine ⟨sorted_store h.sorted _ _, ?_, ?_, ?_, ?_⟩
    · intro a ha
      rcases (mem_store h.sorted _ _ _).1 ha with e | ⟨e, _⟩
      · subst e; rfl
      · exact h.ids a e
    · intro a ha
      rcases (mem_store h.sorted _ _ _).1 ha with e | ⟨e, hne⟩
      · subst e; simp [List.count_append]
      · rw [h.counted a e, List.count_append, (List.count_eq_zero (a := Event.count a.1) (l := [Event.count i])).2 (by simpa using hne)]; rfl
    · intro a ha
      rcases (mem_store h.sorted _ _ _).1 ha with e | ⟨e, hne⟩
      · subst e; simp [List.count_append]
      · rw [h.errors a e, List.count_append, (List.count_eq_zero (a := Event.error a.1) (l := [Event.count i])).2 (by simp)]; rfl
    · intro j
      constructor
      · rintro ⟨a, ha, e⟩
        rcases (mem_store h.sorted _ _ _).1 ha with e' | ⟨e', _⟩
        · subst e'; exact ⟨.count i, by simp, e⟩
        · obtain ⟨x, hx, e2⟩ := (h.keys j).1 ⟨a, e', e⟩
          exact ⟨x, by simp [hx], e2⟩
      · rintro ⟨x, hx, e⟩
        by_cases hj : j = i
        · subst hj; exact ⟨_, (mem_store h.sorted _ _ _).2 (.inl rfl), rfl⟩
        · rcases List.mem_append.1 hx with hx | hx
          · obtain ⟨a, ha, e2⟩ := (h.keys j).2 ⟨x, hx, e⟩
            exact ⟨a, (mem_store h.sorted _ _ _).2 (.inr ⟨ha, by rw [e2]; exact hj⟩), e2⟩
          · simp at hx; subst hx; exact absurd e.symm hj
  | error i =>
    simp only [Aggregator.register, appropriate_spec h, WStats.incErrors]
    refine ⟨sorted_store h.sorted _ _, ?_, ?_, ?_, ?_⟩
    · intro a ha
      rcases (mem_store h.sorted _ _ _).1 ha with e | ⟨e, _⟩
      · subst e; rfl
      · exact h.ids a e
    · intro a ha
      rcases (mem_store h.sorted _ _ _).1 ha with e | ⟨e, hne⟩
      · subst e; simp [List.count_append]
      · rw [h.counted a e, List.count_append, (List.count_eq_zero (a := Event.count a.1) (l := [Event.error i])).2 (by simp)]; rfl
    · intro a ha
      rcases (mem_store h.sorted _ _ _).1 ha with e | ⟨e, hne⟩
      · subst e; simp [List.count_append]
      · rw [h.errors a e, List.count_append, (List.count_eq_zero (a := Event.error a.1) (l := [Event.error i])).2 (by simpa using hne)]; rfl
    · intro j
      constructor
      · rintro ⟨a, ha, e⟩
        rcases (mem_store h.sorted _ _ _).1 ha with e' | ⟨e', _⟩
        · subst e'; exact ⟨.error i, by simp, e⟩
        · obtain ⟨x, hx, e2⟩ := (h.keys j).1 ⟨a, e', e⟩
          exact ⟨x, by simp [hx], e2⟩
      · rintro ⟨x, hx, e⟩
        by_cases hj : j = i
        · subst hj; exact ⟨_, (mem_store h.sorted _ _ _).2 (.inl rfl), rfl⟩
        · rcases List.mem_append.1 hx with hx | hx
          · obtain ⟨a, ha, e2⟩ := (h.keys j).2 ⟨x, hx, e⟩
            exact ⟨a, (mem_store h.sorted _ _ _).2 (.inr ⟨ha, by rw [e2]; exact hj⟩), e2⟩
          · simp at hx; subst hx; exact absurd e.symm hj

theorem run_snoc (evs : List Event) (ev : Event) : run (evs ++ [ev]) = register (run evs) ev := by
  simp [run]

theorem holds_run (evs : List Event) : Holds (run evs) evs := by
  induction evs using List.reverseRecOn with
  | nil => exact ⟨.nil, by simp [run], by simp [run], by simp [run], by simp [run]⟩
  | append_singleton evs ev ih => rw [run_snoc]; exact ih.register ev

/-- **C29 (exactness).** After any history of registrations the statistics list the workers in strictly increasing order of id, exactly
those with at least one event, each with the number of its own counts and errors. -/
theorem C29_statistics_exact (evs : List Event) :
    (getStatistics (run evs)).Pairwise (fun a b => a.id < b.id) ∧
    (∀ s ∈ getStatistics (run evs), s.counted = evs.count (.count s.id) ∧ s.errors = evs.count (.error s.id)) ∧
    (∀ i, (∃ s ∈ getStatistics (run evs), s.id = i) ↔ ∃ ev ∈ evs, ev = .count i ∨ ev = .error i) := by
  have h := holds_run evs
  refine ⟨?_, ?_, ?_⟩
  · unfold getStatistics
    rw [List.pairwise_map]
    refine List.Pairwise.imp_of_mem ?_ h.sorted
    intro a b ha hb hab
    rw [h.ids a ha, h.ids b hb]; exact hab
  · intro s hs
    obtain ⟨a, ha, rfl⟩ := List.mem_map.1 hs
    rw [h.ids a ha]
    exact ⟨h.counted a ha, h.errors a ha⟩
  · intro i
    have hk := h.keys i
    have e1 : (∃ s ∈ getStatistics (run evs), s.id = i) ↔ ∃ a ∈ run evs, a.1 = i := by
      unfold getStatistics
      constructor
      · rintro ⟨s, hs, e⟩
        obtain ⟨a, ha, rfl⟩ := List.mem_map.1 hs
        exact ⟨a, ha, by rw [← h.ids a ha]; exact e⟩
      · rintro ⟨a, ha, e⟩
        exact ⟨a.2, List.mem_map.2 ⟨a, ha, rfl⟩, by rw [h.ids a ha]; exact e⟩
    rw [e1, hk]
    constructor
    · rintro ⟨ev, hev, e⟩
      refine ⟨ev, hev, ?_⟩
      cases ev <;> simp_all [Event.id]
    · rintro ⟨ev, hev, e | e⟩ <;> exact ⟨ev, hev, by rw [e]; rfl⟩

theorem sum_store (g : WStats → Nat) {m : List (Int × WStats)} (hs : Sorted m) (k : Int) (v : WStats) :
    ((store m k v).map (fun a => g a.2)).sum + (match AMap.get? m k with | some s => g s | none => 0) =
      (m.map (fun a => g a.2)).sum + g v := by
  induction m with
  | nil => simp [store, AMap.get?]
  | cons b m ih =>
    obtain ⟨k', v'⟩ := b
    obtain ⟨h1, h2⟩ := List.pairwise_cons.1 hs
    simp only [store, AMap.get?]
    split
    · next hlt =>
      rw [if_neg (by omega)]
      have hg : AMap.get? m k = none := by
        cases hg : AMap.get? m k with
        | none => rfl
        | some s => have := h1 _ ((get?_sorted h2 k s).1 hg); simp at this; omega
      rw [hg]; simp only [List.map_cons, List.sum_cons]; omega
    · split
      · next hlt =>
        rw [if_neg (by omega)]
        have := ih h2
        simp only [List.map_cons, List.sum_cons]
        omega
      · have e : k' = k := by omega
        subst e
        simp only [if_true, List.map_cons, List.sum_cons]
        omega

/-- Spec: is the event a count? -/
def Event.isCount : Event → Bool
  | .count _ => true
  | .error _ => false

/-- **C29 (sums).** The counts of all workers add up to the number of `RegisterCount` calls, the errors to the number of `RegisterError`
calls. -/
theorem C29_sums (evs : List Event) :
    ((getStatistics (run evs)).map WStats.counted).sum = evs.countP Event.isCount ∧
    ((getStatistics (run evs)).map WStats.errors).sum = evs.countP (fun ev => !ev.isCount) := by
  induction evs using List.reverseRecOn with
  | nil => exact ⟨rfl, rfl⟩
  | append_singleton evs ev ih =>
    have hs := (holds_run evs).sorted
    rw [run_snoc]
    simp only [getStatistics, List.map_map, Function.comp_def, List.countP_append] at ih ⊢
    cases ev with
    | count i =>
      have a1 := sum_store WStats.counted hs i (appropriate (run evs) i).incCounted
      have a2 := sum_store WStats.errors hs i (appropriate (run evs) i).incCounted
      have c1 : [Event.count i].countP Event.isCount = 1 := rfl
      have c2 : [Event.count i].countP (fun ev => !ev.isCount) = 0 := rfl
      have c3 : [Event.error i].countP Event.isCount = 0 := rfl
      have c4 : [Event.error i].countP (fun ev => !ev.isCount) = 1 := rfl
      simp only [Aggregator.register]
      have e1 : (appropriate (run evs) i).incCounted.counted = (match AMap.get? (run evs) i with | some s => s.counted | none => 0) + 1 := by
        unfold appropriate; cases AMap.get? (run evs) i <;> rfl
      have e2 : (appropriate (run evs) i).incCounted.errors = (match AMap.get? (run evs) i with | some s => s.errors | none => 0) := by
        unfold appropriate; cases AMap.get? (run evs) i <;> rfl
      omega
    | error i =>
      have a1 := sum_store WStats.counted hs i (appropriate (run evs) i).incErrors
      have a2 := sum_store WStats.errors hs i (appropriate (run evs) i).incErrors
      have c1 : [Event.count i].countP Event.isCount = 1 := rfl
      have c2 : [Event.count i].countP (fun ev => !ev.isCount) = 0 := rfl
      have c3 : [Event.error i].countP Event.isCount = 0 := rfl
      have c4 : [Event.error i].countP (fun ev => !ev.isCount) = 1 := rfl
      simp only [Aggregator.register]
      have e1 : (appropriate (run evs) i).incErrors.counted = (match AMap.get? (run evs) i with | some s => s.counted | none => 0) := by
        unfold appropriate; cases AMap.get? (run evs) i <;> rfl
      have e2 : (appropriate (run evs) i).incErrors.errors = (match AMap.get? (run evs) i with | some s => s.errors | none => 0) + 1 := by
        unfold appropriate; cases AMap.get? (run evs) i <;> rfl
      omega

/-- Non-vacuity: interleaved events of three workers. -/
example : getStatistics (run [.count 3, .count 1, .error 3, .count 3, .error 2]) = [⟨1, 0, 1⟩, ⟨0, 1, 2⟩, ⟨2, 1, 3⟩] := by decide

end Aggregator

/-! ### C58 -/

namespace Factory

/-- Spec: the kind of pool a process should get, given whether the MPI pool has been created before. -/
def wanted (env : Env) (created : Bool) : Kind :=
  if env.withMpi ∧ created = false ∧ 2 ≤ env.mpiSize then .mpi
  else if env.withThread ∧ 2 ≤ env.cores then .thread
  else .seq

/-- **C58 (choice).** `CreateBestWorkerPool` returns a pool of the first usable kind in the order MPI, thread, sequential — except that
it throws when the library was built with threads, no MPI pool can be used and the number of cores is unknown (0).  Afterwards the MPI
pool counts as created if the library was built with MPI. -/
theorem C58_best (env : Env) (created : Bool) :
    (createBest env created).1 = (created || env.withMpi) ∧
    (¬ (env.withThread = true ∧ env.cores = 0 ∧ wanted env created ≠ .mpi) → (createBest env created).2 = .ok (wanted env created)) ∧
    (env.withThread = true ∧ env.cores = 0 ∧ wanted env created ≠ .mpi → (createBest env created).2.threw) := by
  obtain ⟨wt, wm, cores, size⟩ := env
  by_cases h0 : cores = 0
  · subst h0
    by_cases h2 : 2 ≤ size
    · cases wt <;> cases wm <;> cases created <;>
        simp [createBest, bestLoop, canCreate, create, isValid, wanted, Pool.construct, h2]
    · cases wt <;> cases wm <;> cases created <;>
        simp [createBest, bestLoop, canCreate, create, isValid, wanted, Pool.construct, h2]
  · have hp : ¬ ((cores : Int) ≤ 0) := by omega
    by_cases h2 : 2 ≤ size
    · by_cases h3 : 2 ≤ cores
      · cases wt <;> cases wm <;> cases created <;>
          simp [createBest, bestLoop, canCreate, create, isValid, wanted, Pool.construct, h2, h3, h0]
      · cases wt <;> cases wm <;> cases created <;>
          simp [createBest, bestLoop, canCreate, create, isValid, wanted, Pool.construct, h2, h3, h0]
    · by_cases h3 : 2 ≤ cores
      · cases wt <;> cases wm <;> cases created <;>
          simp [createBest, bestLoop, canCreate, create, isValid, wanted, Pool.construct, h2, h3, h0]
      · cases wt <;> cases wm <;> cases created <;>
          simp [createBest, bestLoop, canCreate, create, isValid, wanted, Pool.construct, h2, h3, h0]

theorem create_flag (env : Env) (created : Bool) (k : Kind) :
    ((create env created k).2 = .ok .mpi → created = false ∧ (create env created k).1 = true) ∧
    (created = true → (create env created k).1 = true) := by
  cases k with
  | thread =>
    simp only [create]
    split
    · unfold Pool.construct; split <;> simp_all
    · simp
  | mpi =>
    simp only [create]
    split
    · split <;> simp_all
    · simp
  | seq => simp [create]

theorem bestLoop_flag (env : Env) (ks : List Kind) (created : Bool) :
    ((bestLoop env created ks).2 = .ok .mpi → created = false ∧ (bestLoop env created ks).1 = true) ∧
    (created = true → (bestLoop env created ks).1 = true) := by
  induction ks generalizing created with
  | nil => simp [bestLoop]
  | cons k ks ih =>
    unfold bestLoop
    split
    · obtain ⟨h1, h2⟩ := create_flag env created k
      rcases hc : create env created k with ⟨c', p | w | _⟩
      · rw [hc] at h1 h2
        simp only
        split
        · exact ⟨fun h => h1 h, h2⟩
        · obtain ⟨i1, i2⟩ := ih c'
          refine ⟨fun h => ?_, fun h => i2 (h2 h)⟩
          obtain ⟨a, b⟩ := i1 h
          refine ⟨?_, b⟩
          by_contra hcr
          have := h2 (by simpa using hcr)
          simp_all
      · rw [hc] at h2; simp; exact h2
      · rw [hc] at h2; simp; exact h2
    · exact ih created

theorem step_flag (env : Env) (created : Bool) (op : Op) :
    ((step env created op).2 = .ok .mpi → created = false ∧ (step env created op).1 = true) ∧
    (created = true → (step env created op).1 = true) := by
  cases op with
  | create k => exact create_flag env created k
  | best => exact bestLoop_flag env _ created

/-- **C58 (once).** In every history of factory calls in one process, an MPI pool is handed out at most once. -/
theorem C58_mpi_once (env : Env) (created : Bool) (ops : List Op) :
    (run env created ops).2.countP (fun r => decide (r = .ok .mpi)) ≤ 1 := by
  have key : ∀ ops (c : Bool), (run env c ops).2.countP (fun r => decide (r = .ok .mpi)) ≤ (if c then 0 else 1) := by
    intro ops
    induction ops with
    | nil => intro c; simp [run]
    | cons op ops ih =>
      intro c
      obtain ⟨h1, h2⟩ := step_flag env c op
      have h3 := ih (step env c op).1
      simp only [run, List.countP_cons]
      by_cases hm : (step env c op).2 = .ok .mpi
      · obtain ⟨a, b⟩ := h1 hm
        rw [b] at h3 ⊢
        simp only [if_true, Nat.le_zero] at h3
        rw [h3]
        simp [a]
        split <;> simp
      · simp only [hm, decide_false, Bool.false_eq_true, if_false, Nat.add_zero]
        cases c
        · refine h3.trans ?_; split <;> simp
        · rw [h2 rfl] at h3 ⊢; exact h3
  refine (key ops created).trans ?_
  split <;> simp

/-- **C58 (queries).** Without concurrency, `CanCreateWorkerPool` tells whether `CreateWorkerPool` throws, except that creating a thread
pool also throws when the number of cores is unknown. -/
theorem C58_can_create (env : Env) (created : Bool) (k : Kind) :
    ((create env created k).2 = .ok k ↔ canCreate env created k = true ∧ ¬ (k = .thread ∧ env.cores = 0)) ∧
    ((create env created k).2.threw ↔ ¬ (canCreate env created k = true ∧ ¬ (k = .thread ∧ env.cores = 0))) := by
  cases k with
  | thread =>
    simp only [create, canCreate, Pool.construct]
    cases env.withThread
    · simp
    · by_cases h : env.cores = 0
      · simp [h]
      · simp [h]
  | mpi =>
    simp only [create, canCreate]
    cases env.withMpi <;> cases created <;> simp
  | seq => simp [create, canCreate]

/-- Non-vacuity: with MPI (4 processes) and threads, the first pool is the MPI one and the second a thread pool; with one MPI process the MPI
pool is used up all the same. -/
example : (run ⟨true, true, 8, 4⟩ false [.best, .best, .create .mpi]).2 = [.ok .mpi, .ok .thread, .throw "runtime_error"] ∧
    (run ⟨true, true, 8, 1⟩ false [.best, .create .mpi]).2 = [.ok .thread, .throw "runtime_error"] ∧
    (run ⟨true, false, 0, 1⟩ false [.best]).2 = [.throw "invalid_argument"] := by decide

end Factory

/-! ### C31 -/

namespace Delay

/-- Spec: number of increases since the last reset. -/
def sinceReset : List Op → Nat
  | [] => 0
  | .increase :: ops => sinceReset ops + 1
  | .reset :: _ => 0

/-- **C31.** After any history the delay is 1, 10, 100 or 1000 ms: 10 to the number of increases since the last reset, at most 1000. -/
theorem C31_delay (ops : List Op) : (run ops).current = min (10 ^ sinceReset ops.reverse) 1000 := by
  have key : (run ops).initial = 1 ∧ (run ops).maximum = 1000 ∧ (run ops).current = min (10 ^ sinceReset ops.reverse) 1000 := by
    induction ops using List.reverseRecOn with
    | nil => exact ⟨rfl, rfl, rfl⟩
    | append_singleton ops op ih =>
      obtain ⟨h1, h2, h3⟩ := ih
      have e : run (ops ++ [op]) = step (run ops) op := by simp [run]
      rw [e]
      cases op with
      | increase =>
        simp only [step, List.reverse_append, List.reverse_cons, List.reverse_nil, List.nil_append, List.singleton_append, sinceReset]
        rw [h3, h2]
        have hp : 10 ^ (sinceReset ops.reverse + 1) = 10 ^ sinceReset ops.reverse * 10 := pow_succ _ _
        split
        · next h =>
          refine ⟨h1, rfl, ?_⟩
          simp only
          omega
        · next h =>
          refine ⟨h1, rfl, ?_⟩
          simp only
          omega
      | reset =>
        simp only [step, List.reverse_append, List.reverse_cons, List.reverse_nil, List.nil_append, List.singleton_append, sinceReset]
        exact ⟨h1, h2, by rw [h1]; rfl⟩
  exact key.2.2

/-- **C31 (bounds).** The delay is always between 1 and 1000, is 1 after a reset and never decreases by an increase. -/
theorem C31_bounds (ops : List Op) : 1 ≤ (run ops).current ∧ (run ops).current ≤ 1000 ∧ (run (ops ++ [.reset])).current = 1 ∧
    (run ops).current ≤ (run (ops ++ [.increase])).current := by
  rw [C31_delay, C31_delay, C31_delay]
  have h1 : 1 ≤ 10 ^ sinceReset ops.reverse := Nat.one_le_pow _ _ (by norm_num)
  have hp : 10 ^ (sinceReset ops.reverse + 1) = 10 ^ sinceReset ops.reverse * 10 := pow_succ _ _
  simp only [List.reverse_append, List.reverse_cons, List.reverse_nil, List.nil_append, List.singleton_append, sinceReset]
  refine ⟨by omega, by omega, rfl, by omega⟩

example : [run [], run [.increase, .increase], run [.increase, .increase, .increase, .increase, .increase],
    run [.increase, .reset, .increase]].map State.current = [1, 100, 1000, 10] := by decide

end Delay

/-! ### C32 -/

namespace Registry
variable {O : Type}

/-- Spec: the object registered last with the given type name (history with the latest call first). -/
def lastReg (c : Class O) (id : String) : List (Op O) → Option O
  | [] => none
  | .get _ :: ops => lastReg c id ops
  | .reg o :: ops => if c.typeName o = id then some o else lastReg c id ops

theorem get_run (c : Class O) (ops : List (Op O)) (id : String) :
    (AMap.get? (run c ops) id).join = (lastReg c id ops.reverse).map c.clone := by
  induction ops using List.reverseRecOn with
  | nil => rfl
  | append_singleton ops op ih =>
    have e : run c (ops ++ [op]) = step c (run c ops) op := by simp [run]
    rw [e]
    simp only [List.reverse_append, List.reverse_cons, List.reverse_nil, List.nil_append, List.singleton_append]
    cases op with
    | get id' =>
      simp only [lastReg, ← ih, step]
      have : (getObject (run c ops) id').1 = AMap.touch (run c ops) id' none := by
        unfold getObject; simp only; split <;> rfl
      rw [this, AMap.get?_touch]
      cases AMap.get? (run c ops) id with
      | some x => rfl
      | none => by_cases h : id' = id <;> simp [h]
    | reg o =>
      simp only [lastReg, step, registerObject, AMap.get?_set]
      by_cases h : c.typeName o = id
      · simp [h]
      · simp [h, ih]

/-- **C32.** After any history of registrations and lookups (also failed ones), `GetObject(id)` returns a clone of the object registered
last with that type name, and throws if there is none. -/
theorem C32_last_registration (c : Class O) (ops : List (Op O)) (id : String) :
    (∀ o, lastReg c id ops.reverse = some o → (getObject (run c ops) id).2 = .ok (c.clone o)) ∧
    (lastReg c id ops.reverse = none → (getObject (run c ops) id).2.threw) := by
  have h := get_run c ops id
  have h2 : AMap.get? (AMap.touch (run c ops) id none) id = some (AMap.get? (run c ops) id).join := by
    rw [AMap.get?_touch]
    cases AMap.get? (run c ops) id with
    | some x => cases x <;> rfl
    | none => simp
  constructor
  · intro o ho
    rw [ho] at h
    unfold getObject
    simp only [h2, h]
    rfl
  · intro ho
    rw [ho] at h
    unfold getObject
    simp only [h2, h]
    trivial

/-- **C32 (lookups are harmless).** A lookup, successful or not, does not change the answer to any later lookup. -/
theorem C32_lookup_harmless (c : Class O) (ops later : List (Op O)) (id id' : String)
    (hl : ∀ op ∈ later, ∃ i, op = .get i) :
    (getObject (run c (ops ++ .get id :: later)) id').2 = (getObject (run c ops) id').2 := by
  have hl2 : ∀ (later : List (Op O)) (rest : List (Op O)), (∀ op ∈ later, ∃ i, op = .get i) →
      lastReg c id' (later ++ rest) = lastReg c id' rest := by
    intro later rest hl
    induction later with
    | nil => rfl
    | cons op later ih =>
      obtain ⟨i, rfl⟩ := hl op (by simp)
      simp only [List.cons_append, lastReg]
      exact ih (fun op h => hl op (by simp [h]))
  have e : lastReg c id' (ops ++ .get id :: later).reverse = lastReg c id' ops.reverse := by
    simp only [List.reverse_append, List.reverse_cons, List.append_assoc]
    rw [hl2 later.reverse _ (fun op h => hl op (by simpa using h))]
    rfl
  have spec : ∀ ops : List (Op O), (getObject (run c ops) id').2 =
      (match lastReg c id' ops.reverse with | some o => .ok (c.clone o) | none => .throw "invalid_argument") := by
    intro ops
    cases h : lastReg c id' ops.reverse with
    | some o => exact (C32_last_registration c ops id').1 o h
    | none =>
      have h1 := get_run c ops id'
      rw [h] at h1
      have h2 : AMap.get? (AMap.touch (run c ops) id' none) id' = some (AMap.get? (run c ops) id').join := by
        rw [AMap.get?_touch]
        cases AMap.get? (run c ops) id' with
        | some x => cases x <;> rfl
        | none => simp
      unfold getObject
      simp only [h2, h1]
      rfl
  rw [spec, spec, e]

example : (getObject (run ⟨fun (o : String × Nat) => o.1, id⟩ [.reg ("a", 1), .get "b", .reg ("b", 2), .reg ("a", 3)]) "a").2 = .ok ("a", 3) ∧
    (getObject (run ⟨fun (o : String × Nat) => o.1, id⟩ [.reg ("a", 1), .get "b"]) "b").2 = .throw "invalid_argument" := by decide

end Registry

/-! ### C30 -/

namespace Chain
variable {α : Type}

/-- Spec: the calls added by a history. -/
def added : List (Op α) → List α
  | [] => []
  | .add c :: ops => c :: added ops
  | _ :: ops => added ops

/-- Spec: the calls made according to a log. -/
def made : List (Op α × Out α) → List α
  | [] => []
  | (_, .started c) :: l => c :: made l
  | _ :: l => made l

theorem queue_isFinished (s : State α) : (isFinished s).1.queue = s.queue := by
  unfold isFinished
  split
  · rfl
  · split <;> rfl

theorem step_queue (hasReq : α → Bool) (s : State α) (op : Op α) :
    made [(op, (step hasReq s op).2)] ++ (step hasReq s op).1.queue = s.queue ++ added [op] := by
  cases op with
  | add c => simp [step, made, added]
  | isFinished =>
    have hq := queue_isFinished s
    simp only [step]
    rcases h : isFinished s with ⟨s', b | b⟩ <;> rw [h] at hq <;> simpa [made, added] using hq
  | willBeNext => simp [step, made, added]
  | makeNext =>
    have hq := queue_isFinished s
    simp only [step, makeNext, added, List.append_nil]
    rcases h : isFinished s with ⟨s', b | b⟩
    · rw [h] at hq; simpa [made] using hq
    · rw [h] at hq
      cases b
      · simpa [made] using hq
      · simp only at hq ⊢
        rw [← hq]
        cases hs : s'.queue with
        | nil => simp [made, hs]
        | cons c cs => simp [made]
  | mpi =>
    simp only [step, made, added, List.append_nil, List.nil_append]
    split <;> rfl

theorem added_cons (op : Op α) (ops : List (Op α)) : added (op :: ops) = added [op] ++ added ops := by
  cases op <;> rfl

theorem made_cons (x : Op α × Out α) (l : List (Op α × Out α)) : made (x :: l) = made [x] ++ made l := by
  obtain ⟨op, o⟩ := x
  cases o <;> rfl

/-- **C30 (order, once).** Whatever the history of calls on a chain: the calls made so far, followed by those still queued, are the first
call and the added ones in the order they were added.  So calls are made in order, each exactly once. -/
theorem C30_in_order_once (hasReq : α → Bool) (first : α) (ops : List (Op α)) :
    made (run hasReq (new first) ops).2 ++ (run hasReq (new first) ops).1.queue = first :: added ops := by
  have key : ∀ ops (s : State α), made (run hasReq s ops).2 ++ (run hasReq s ops).1.queue = s.queue ++ added ops := by
    intro ops
    induction ops with
    | nil => intro s; simp [run, made, added]
    | cons op ops ih =>
      intro s
      have h1 := step_queue hasReq s op
      have h2 := ih (step hasReq s op).1
      simp only [run]
      rw [made_cons, List.append_assoc, h2, ← List.append_assoc, h1, List.append_assoc, ← added_cons]
  exact key ops (new first)

/-- A state where another `test()` would throw is never asked to test. -/
def Safe (s : State α) : Prop := s.req = .consumed → s.finished = true

theorem safe_step (hasReq : α → Bool) (s : State α) (op : Op α) (h : Safe s) :
    Safe (step hasReq s op).1 ∧ ∀ o, (step hasReq s op).2 = o → (match o with | .badTest => False | _ => True) := by
  have hf : ∀ s : State α, Safe s → Safe (isFinished s).1 ∧ (isFinished s).2 ≠ none := by
    intro s h
    unfold isFinished
    by_cases hfin : s.finished = true
    · simp [hfin, h]
    · cases hr : s.req with
      | consumed => exact absurd (h hr) hfin
      | none => simp [hfin, Safe]
      | pending => simp [hfin, Safe, hr]
      | complete => simp [hfin, Safe]
  obtain ⟨h1, h2⟩ := hf s h
  cases op with
  | add c => exact ⟨h, fun o e => by subst e; trivial⟩
  | isFinished =>
    simp only [step]
    rcases hh : isFinished s with ⟨s', b | b⟩
    · rw [hh] at h2; simp at h2
    · rw [hh] at h1; exact ⟨h1, fun o e => by subst e; trivial⟩
  | willBeNext => exact ⟨h, fun o e => by subst e; trivial⟩
  | makeNext =>
    simp only [step, makeNext]
    rcases hh : isFinished s with ⟨s', b | b⟩
    · rw [hh] at h2; simp at h2
    · rw [hh] at h1
      cases b
      · exact ⟨h1, fun o e => by subst e; trivial⟩
      · simp only
        cases hs : s'.queue with
        | nil => exact ⟨h1, fun o e => by subst e; trivial⟩
        | cons c cs =>
          refine ⟨?_, fun o e => by subst e; trivial⟩
          intro hc
          simp only at hc
          split at hc <;> cases hc
  | mpi =>
    refine ⟨?_, fun o e => by subst e; trivial⟩
    simp only [step]
    split
    · intro hc; cases hc
    · exact h

/-- **C30 (tests).** No history of calls tests a request again after the test has been positive (which boost forbids). -/
theorem C30_no_repeated_test (hasReq : α → Bool) (first : α) (ops : List (Op α)) :
    ∀ x ∈ (run hasReq (new first) ops).2, (match x.2 with | .badTest => False | _ => True) := by
  have key : ∀ ops (s : State α), Safe s → ∀ x ∈ (run hasReq s ops).2, (match x.2 with | .badTest => False | _ => True) := by
    intro ops
    induction ops with
    | nil => intro s _ x hx; simp [run] at hx
    | cons op ops ih =>
      intro s h x hx
      obtain ⟨h1, h2⟩ := safe_step hasReq s op h
      simp only [run, List.mem_cons] at hx
      rcases hx with rfl | hx
      · exact h2 _ rfl
      · exact ih _ h1 x hx
  exact key ops (new first) (by intro h; cases h)

/-- Spec: scanning a log, the communication of the last call made is still under way. -/
def underWay (hasReq : α → Bool) : List (Op α × Out α) → Bool → Bool
  | [], b => b
  | (_, .started c) :: l, _ => underWay hasReq l (hasReq c)
  | (.mpi, _) :: l, _ => underWay hasReq l false
  | _ :: l, b => underWay hasReq l b

/-- What the fields say about the communication. -/
def Tracks (s : State α) (b : Bool) : Prop := (s.req = .pending ↔ b = true) ∧ (b = true → s.finished = false)

theorem tracks_isFinished {s : State α} {b : Bool} (h : Tracks s b) : Tracks (isFinished s).1 b ∧
    ((isFinished s).2 = some true → b = false) ∧ ((isFinished s).2 = some false → b = true) := by
  unfold isFinished
  by_cases hfin : s.finished = true
  · have : b = false := by
      cases b
      · rfl
      · have := h.2 rfl; simp [hfin] at this
    simp [hfin, this, h.1, Tracks]
  · have hfin' : s.finished = false := by simpa using hfin
    cases hr : s.req <;> (have h1 := h.1; rw [hr] at h1; cases b <;> simp_all [Tracks])

theorem tracks_step (hasReq : α → Bool) (s : State α) (b : Bool) (op : Op α) (h : Tracks s b) :
    Tracks (step hasReq s op).1 (underWay hasReq [(op, (step hasReq s op).2)] b) ∧
    (∀ c, (step hasReq s op).2 = .started c → b = false) ∧
    ((step hasReq s op).2 = .refused → b = true) ∧
    (∀ r, op = .isFinished → (step hasReq s op).2 = .bool r → (r = true ↔ b = false)) := by
  obtain ⟨h1, h2, h3⟩ := tracks_isFinished h
  cases op with
  | add c =>
    refine ⟨h, ?_, ?_, ?_⟩ <;> simp [step]
  | isFinished =>
    simp only [step]
    rcases hh : isFinished s with ⟨s', r | r⟩ <;> rw [hh] at h1 h2 h3
    · exact ⟨h1, by simp, by simp, by simp⟩
    · refine ⟨h1, by simp, by simp, ?_⟩
      rintro r' - e
      cases e
      cases r
      · simp [h3 rfl]
      · simp [h2 rfl]
  | willBeNext => refine ⟨h, ?_, ?_, ?_⟩ <;> simp [step]
  | makeNext =>
    simp only [step, makeNext]
    rcases hh : isFinished s with ⟨s', r | r⟩ <;> rw [hh] at h1 h2 h3
    · exact ⟨h1, by simp, by simp, by simp⟩
    · cases r
      · exact ⟨h1, by simp, fun _ => h3 rfl, by simp⟩
      · simp only
        cases hs : s'.queue with
        | nil => exact ⟨h1, by simp, by simp, by simp⟩
        | cons c cs =>
          refine ⟨?_, fun _ _ => h2 rfl, by simp, by simp⟩
          simp only [underWay, Tracks]
          cases hasReq c <;> simp
  | mpi =>
    refine ⟨?_, by simp [step], by simp [step], by simp⟩
    simp only [step, underWay, Tracks]
    split
    · simp
    · next hne => simp; exact hne

theorem underWay_cons (hasReq : α → Bool) (x : Op α × Out α) (l : List (Op α × Out α)) (b : Bool) :
    underWay hasReq (x :: l) b = underWay hasReq l (underWay hasReq [x] b) := by
  obtain ⟨op, o⟩ := x
  cases o <;> cases op <;> rfl

theorem run_append (hasReq : α → Bool) (s : State α) (a b : List (Op α)) :
    run hasReq s (a ++ b) = ((run hasReq (run hasReq s a).1 b).1, (run hasReq s a).2 ++ (run hasReq (run hasReq s a).1 b).2) := by
  induction a generalizing s with
  | nil => rfl
  | cons op a ih => simp only [List.cons_append, run, ih]

theorem tracks_run (hasReq : α → Bool) (ops : List (Op α)) (s : State α) (b : Bool) (h : Tracks s b) :
    Tracks (run hasReq s ops).1 (underWay hasReq (run hasReq s ops).2 b) := by
  induction ops generalizing s b with
  | nil => exact h
  | cons op ops ih =>
    simp only [run]
    rw [underWay_cons]
    exact ih _ _ (tracks_step hasReq s b op h).1

/-- **C30 (one at a time).** After any history, a call is made only when the communication of the call made before it has completed,
`MakeNextCall` is refused only while that communication is under way, and `IsCurrentCallFinished` tells exactly which is the case. -/
theorem C30_one_at_a_time (hasReq : α → Bool) (first : α) (ops : List (Op α)) :
    (∀ c, (step hasReq (run hasReq (new first) ops).1 .makeNext).2 = .started c →
      underWay hasReq (run hasReq (new first) ops).2 false = false) ∧
    ((step hasReq (run hasReq (new first) ops).1 .makeNext).2 = .refused →
      underWay hasReq (run hasReq (new first) ops).2 false = true) ∧
    (∀ r, (step hasReq (run hasReq (new first) ops).1 .isFinished).2 = .bool r →
      (r = true ↔ underWay hasReq (run hasReq (new first) ops).2 false = false)) := by
  have h0 : Tracks (new first) false := by simp [Tracks, new]
  have h := tracks_run hasReq ops _ _ h0
  obtain ⟨_, h1, h2, _⟩ := tracks_step hasReq _ _ .makeNext h
  obtain ⟨_, _, _, h3⟩ := tracks_step hasReq _ _ .isFinished h
  exact ⟨h1, h2, fun r => h3 r rfl⟩

/-- **C30 (progress).** A finished chain with a call left makes it: in any state reached, if the communication under way (if any) is over and
calls are queued, `MakeNextCall` makes the first of them. -/
theorem C30_progress (hasReq : α → Bool) (first : α) (ops : List (Op α)) (c : α) (cs : List α)
    (hq : (run hasReq (new first) ops).1.queue = c :: cs) (hu : underWay hasReq (run hasReq (new first) ops).2 false = false) :
    (step hasReq (run hasReq (new first) ops).1 .makeNext).2 = .started c := by
  have h0 : Tracks (new first) false := by simp [Tracks, new]
  have h := tracks_run hasReq ops _ _ h0
  rw [hu] at h
  have hs : Safe (run hasReq (new first) ops).1 := by
    have : ∀ ops (s : State α), Safe s → Safe (run hasReq s ops).1 := by
      intro ops
      induction ops with
      | nil => intro s h; exact h
      | cons op ops ih => intro s h; exact ih _ (safe_step hasReq s op h).1
    exact this ops _ (by intro h; cases h)
  generalize (run hasReq (new first) ops).1 = s at hq h hs
  obtain ⟨h1, h2, h3⟩ := tracks_isFinished h
  have hq' := queue_isFinished s
  rw [hq] at hq'
  have hne : (isFinished s).2 ≠ none := by
    unfold isFinished
    by_cases hfin : s.finished = true
    · simp [hfin]
    · cases hr : s.req with
      | consumed => exact absurd (hs hr) hfin
      | none => simp [hfin]
      | pending => simp [hfin]
      | complete => simp [hfin]
  simp only [step, makeNext]
  rcases hh : isFinished s with ⟨s', r | r⟩ <;> rw [hh] at h2 h3 hq' hne
  · simp at hne
  · cases r
    · have := h3 rfl; cases this
    · simp only at hq' ⊢; rw [hq']

/-- Non-vacuity: three calls, the second needs no communication; the third is refused while the first is under way. -/
example : made (run (fun c : Nat => c != 2) (new 1) [.add 2, .makeNext, .makeNext, .mpi, .makeNext, .add 3, .makeNext]).2 = [1, 2, 3] := by
  decide

end Chain
end K52
