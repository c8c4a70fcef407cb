import Verif.Model.ExampleFns

/-!
# C117: the example's tester and its output
-/

set_option linter.unusedSectionVars false

namespace K52.ExampleFns

section Tester
variable {R : Type} [Add R] [Sub R] [Mul R] [Div R] [Zero R] [One R] [NatCast R] [LT R] [DecidableLT R] {σ : Type}

/-- Specification: the state of an optimizer after it has been called for some test functions in turn, always from their start points. -/
def after (l : Lib R) (o : Opt σ R) : σ → List (TestFunction R) → Res σ
  | s, [] => .ok s
  | s, t :: ts => do
    let r ← o.optimize s (t.fn.call l) t.start t.maximize
    after l o r.2 ts

theorem testSingle_ok {l : Lib R} {t : TestFunction R} {o : Opt σ R} {s : σ} {r : Result R × σ} (h : testSingle l t o s = .ok r) :
    o.optimize s (t.fn.call l) t.start t.maximize = .ok (r.1.foundSolution, r.2) ∧ t.fn.call l r.1.foundSolution = .ok r.1.foundValue ∧
      r.1.optimizerName = o.name ∧ r.1.function = t := by
  unfold testSingle at h
  obtain ⟨a, ha, h⟩ := Res.bind_eq_ok.1 h
  obtain ⟨b, hb, h⟩ := Res.bind_eq_ok.1 h
  cases h
  exact ⟨ha, hb, rfl, rfl⟩

theorem testRow_ok {l : Lib R} {t : TestFunction R} : ∀ {os : List (Opt σ R × σ)} {row : List (Result R)} {os' : List (Opt σ R × σ)},
    testRow l t os = .ok (row, os') → row.length = os.length ∧ os'.length = os.length ∧ ∀ (j : Nat) (o : Opt σ R) (s : σ), os[j]? = some (o, s) →
      ∃ (r : Result R) (s' : σ), row[j]? = some r ∧ os'[j]? = some (o, s') ∧ testSingle l t o s = .ok (r, s')
  | [], row, os', h => by
    cases h
    refine ⟨rfl, rfl, ?_⟩
    intro j o s hj
    simp at hj
  | (o0, s0) :: os, row, os', h => by
    unfold testRow at h
    obtain ⟨a, ha, h⟩ := Res.bind_eq_ok.1 h
    obtain ⟨b, hb, h⟩ := Res.bind_eq_ok.1 h
    cases h
    obtain ⟨h1, h2, h3⟩ := testRow_ok hb
    refine ⟨by simp [h1], by simp [h2], ?_⟩
    intro j o s hj
    cases j with
    | zero =>
      simp only [List.getElem?_cons_zero, Option.some.injEq, Prod.mk.injEq] at hj
      obtain ⟨rfl, rfl⟩ := hj
      exact ⟨a.1, a.2, by simp, by simp, ha⟩
    | succ j =>
      rw [List.getElem?_cons_succ] at hj
      obtain ⟨r, s', h4, h5, h6⟩ := h3 j o s hj
      exact ⟨r, s', by simpa using h4, by simpa using h5, h6⟩

/-- **C117 (results).** When the tester returns, row `i` and column `j` of its results belong to function `i` and optimizer `j`: the point is the one found
by `Optimize` from the function's own start point, on an object that has been used for the functions before, and the value is that of the function
at the point. -/
theorem C117_results {l : Lib R} : ∀ {ts : List (TestFunction R)} {os : List (Opt σ R × σ)} {rows : List (List (Result R))} {os' : List (Opt σ R × σ)},
    test l ts os = .ok (rows, os') → rows.length = ts.length ∧ ∀ (i : Nat) (t : TestFunction R), ts[i]? = some t → ∃ (row : List (Result R)), rows[i]? = some row ∧ row.length = os.length ∧
      ∀ (j : Nat) (o : Opt σ R) (s : σ), os[j]? = some (o, s) → ∃ (r : Result R) (s1 s2 : σ), row[j]? = some r ∧ r.optimizerName = o.name ∧ r.function = t ∧ after l o s (ts.take i) = .ok s1 ∧
        o.optimize s1 (t.fn.call l) t.start t.maximize = .ok (r.foundSolution, s2) ∧ t.fn.call l r.foundSolution = .ok r.foundValue
  | [], os, rows, os', h => by
    cases h
    refine ⟨rfl, ?_⟩
    intro i t hi
    simp at hi
  | t0 :: ts, os, rows, os', h => by
    unfold test at h
    obtain ⟨a, ha, h⟩ := Res.bind_eq_ok.1 h
    obtain ⟨b, hb, h⟩ := Res.bind_eq_ok.1 h
    cases h
    obtain ⟨r1, r2, r3⟩ := testRow_ok (row := a.1) (os' := a.2) ha
    obtain ⟨h1, h2⟩ := C117_results (rows := b.1) (os' := b.2) hb
    refine ⟨by simp [h1], ?_⟩
    intro i t hi
    cases i with
    | zero =>
      simp only [List.getElem?_cons_zero, Option.some.injEq] at hi
      subst hi
      refine ⟨a.1, by simp, r1, ?_⟩
      intro j o s hj
      obtain ⟨r, s', e1, _, e3⟩ := r3 j o s hj
      obtain ⟨k1, k2, k3, k4⟩ := testSingle_ok e3
      exact ⟨r, s, s', e1, k3, k4, rfl, k1, k2⟩
    | succ i =>
      rw [List.getElem?_cons_succ] at hi
      obtain ⟨row, e1, e2, e3⟩ := h2 i t hi
      refine ⟨row, by simpa using e1, by rw [e2, r2], ?_⟩
      intro j o s hj
      obtain ⟨r0, s', f1, f2, f3⟩ := r3 j o s hj
      obtain ⟨r, s1, s2, g1, g2, g3, g4, g5, g6⟩ := e3 j o s' f2
      refine ⟨r, s1, s2, g1, g2, g3, ?_, g5, g6⟩
      rw [List.take_succ_cons]
      unfold after
      rw [(testSingle_ok f3).1]
      exact g4

/-- **C117 (independent entries).** If an optimizer's answer does not depend on what the object did before, its column holds what a fresh object finds. -/
theorem C117_fresh {l : Lib R} {ts : List (TestFunction R)} {os : List (Opt σ R × σ)} {rows : List (List (Result R))} {os' : List (Opt σ R × σ)}
    (h : test l ts os = .ok (rows, os')) {j : Nat} {o : Opt σ R} {s : σ} (hj : os[j]? = some (o, s))
    (hfree : ∀ s1 f x m p s2, o.optimize s1 f x m = .ok (p, s2) → ∃ s3, o.optimize s f x m = .ok (p, s3)) {i : Nat} {t : TestFunction R}
    (hi : ts[i]? = some t) : ∃ (row : List (Result R)) (r : Result R) (s3 : σ), rows[i]? = some row ∧ row[j]? = some r ∧ testSingle l t o s = .ok (r, s3) := by
  obtain ⟨_, h2⟩ := C117_results h
  obtain ⟨row, e1, _, e3⟩ := h2 i t hi
  obtain ⟨r, s1, s2, g1, g2, g3, _, g5, g6⟩ := e3 j o s hj
  obtain ⟨s3, hs3⟩ := hfree _ _ _ _ _ _ g5
  refine ⟨row, r, s3, e1, g1, ?_⟩
  unfold testSingle
  rw [hs3, Res.ok_bind]
  simp only
  rw [g6, Res.ok_bind]
  cases r
  simp only at g2 g3
  subst g2
  subst g3
  rfl

theorem row_throw {l : Lib R} {t : TestFunction R} {w : String} : ∀ {os : List (Opt σ R × σ)}, testRow l t os = .throw w →
    ∃ (j : Nat) (o : Opt σ R) (s : σ), os[j]? = some (o, s) ∧ testSingle l t o s = .throw w
  | [], h => by cases h
  | (o, s) :: os, h => by
    unfold testRow at h
    cases hs : testSingle l t o s with
    | ok a =>
      rw [hs, Res.ok_bind] at h
      cases hr : testRow l t os with
      | ok b => rw [hr, Res.ok_bind] at h; cases h
      | throw w' =>
        rw [hr] at h
        cases h
        obtain ⟨j, o', s', h1, h2⟩ := row_throw hr
        exact ⟨j + 1, o', s', by simpa using h1, h2⟩
      | ub => rw [hr] at h; cases h
    | throw w' =>
      rw [hs] at h
      cases h
      exact ⟨0, o, s, rfl, hs⟩
    | ub => rw [hs] at h; cases h

/-- **C117 (exceptions).** The tester throws only what an optimizer or a function throws, for some function and optimizer in the state left by the
functions before; then there are no results at all. -/
theorem C117_throw {l : Lib R} {w : String} : ∀ {ts : List (TestFunction R)} {os : List (Opt σ R × σ)}, test l ts os = .throw w →
    ∃ (i : Nat) (t : TestFunction R) (j : Nat) (o : Opt σ R) (s s1 : σ), ts[i]? = some t ∧ os[j]? = some (o, s) ∧ after l o s (ts.take i) = .ok s1 ∧ testSingle l t o s1 = .throw w
  | [], os, h => by cases h
  | t :: ts, os, h => by
    unfold test at h
    cases hr : testRow l t os with
    | ok a =>
      rw [hr, Res.ok_bind] at h
      cases ht : test l ts a.2 with
      | ok b => rw [ht, Res.ok_bind] at h; cases h
      | throw w' =>
        rw [ht] at h
        cases h
        obtain ⟨i, t', j, o, s, s1, h1, h2, h3, h4⟩ := C117_throw ht
        obtain ⟨r1, r2, r3⟩ := testRow_ok (row := a.1) (os' := a.2) hr
        have hj : j < os.length := by
          have := (List.getElem?_eq_some_iff.1 h2).1
          omega
        obtain ⟨r, s', e1, e2, e3⟩ := r3 j os[j].1 os[j].2 (List.getElem?_eq_getElem hj)
        rw [h2] at e2
        simp only [Option.some.injEq, Prod.mk.injEq] at e2
        obtain ⟨rfl, rfl⟩ := e2
        refine ⟨i + 1, t', j, os[j].1, os[j].2, s1, by simpa using h1, List.getElem?_eq_getElem hj, ?_, h4⟩
        rw [List.take_succ_cons]
        unfold after
        rw [(testSingle_ok e3).1]
        exact h3
      | ub => rw [ht] at h; cases h
    | throw w' =>
      rw [hr] at h
      cases h
      obtain ⟨j, o, s, h1, h2⟩ := row_throw hr
      exact ⟨0, t, j, o, s, s, rfl, h1, rfl, h2⟩
    | ub => rw [hr] at h; cases h

theorem row_total {l : Lib R} {t : TestFunction R} : ∀ {os : List (Opt σ R × σ)}, (∀ o s, (∃ s0, (o, s0) ∈ os) → ∃ r, testSingle l t o s = .ok r) →
    ∃ r, testRow l t os = .ok r ∧ ∀ o s, (o, s) ∈ r.2 → ∃ s0, (o, s0) ∈ os
  | [], _ => ⟨_, rfl, by simp⟩
  | (o, s) :: os, h => by
    obtain ⟨a, ha⟩ := h o s ⟨s, by simp⟩
    obtain ⟨b, hb, hb2⟩ := row_total (os := os) fun o' s' ⟨s0, hs0⟩ => h o' s' ⟨s0, by simp [hs0]⟩
    refine ⟨(a.1 :: b.1, (o, a.2) :: b.2), ?_, ?_⟩
    · unfold testRow
      rw [ha, Res.ok_bind, hb, Res.ok_bind]
      rfl
    · intro o' s' hmem
      rcases List.mem_cons.1 hmem with h1 | h1
      · cases h1
        exact ⟨s, by simp⟩
      · obtain ⟨s0, hs0⟩ := hb2 o' s' h1
        exact ⟨s0, by simp [hs0]⟩

/-- **C117 (returns).** If every optimizer, in every state, returns for every function, so does the tester. -/
theorem C117_returns {l : Lib R} : ∀ {ts : List (TestFunction R)} {os : List (Opt σ R × σ)},
    (∀ t ∈ ts, ∀ o s, (∃ s0, (o, s0) ∈ os) → ∃ r, testSingle l t o s = .ok r) → ∃ r, test l ts os = .ok r
  | [], _, _ => ⟨_, rfl⟩
  | t :: ts, os, h => by
    obtain ⟨a, ha, ha2⟩ := row_total (os := os) (h t (by simp))
    obtain ⟨b, hb⟩ := C117_returns (ts := ts) (os := a.2) fun t' ht' o s ⟨s0, hs0⟩ => h t' (by simp [ht']) o s (ha2 o s0 hs0)
    refine ⟨(a.1 :: b.1, b.2), ?_⟩
    unfold test
    rw [ha, Res.ok_bind, hb, Res.ok_bind]
    rfl

theorem each_total {α β : Type} {f : α → Res β} : ∀ {as : List α}, (∀ a ∈ as, ∃ b, f a = .ok b) →
    ∃ bs, Tasks.each f as = .ok bs ∧ bs.length = as.length ∧ ∀ (i : Nat) (a : α), as[i]? = some a → ∃ b, bs[i]? = some b ∧ f a = .ok b
  | [], _ => ⟨[], rfl, rfl, by simp⟩
  | a :: as, h => by
    obtain ⟨b, hb⟩ := h a (by simp)
    obtain ⟨bs, h1, h2, h3⟩ := each_total (as := as) fun x hx => h x (by simp [hx])
    refine ⟨b :: bs, ?_, by simp [h2], ?_⟩
    · unfold Tasks.each
      rw [hb, Res.ok_bind, h1, Res.ok_bind]
      rfl
    · intro i x hx
      cases i with
      | zero =>
        simp only [List.getElem?_cons_zero, Option.some.injEq] at hx
        subst hx
        exact ⟨b, by simp, hb⟩
      | succ i =>
        rw [List.getElem?_cons_succ] at hx
        simpa using h3 i x hx

/-- **C117 (output).** With at least one function and one optimizer the results of the tester are written as a heading with the optimizers' names and one
line per function, in order: its formula, Max or Min, the value at the declared solution and the values found, one for each optimizer. -/
theorem C117_output {l : Lib R} (print : R → String) {ts : List (TestFunction R)} {os : List (Opt σ R × σ)} {rows : List (List (Result R))}
    {os' : List (Opt σ R × σ)} (h : test l ts os = .ok (rows, os')) (hts : ts ≠ []) (hos : os ≠ []) (hsol : ∀ t ∈ ts, ∃ b, t.solutionValue l = .ok b) :
    ∃ lines, output l print rows = .ok ((["Function ", "Target ", "Solution value "] ++ os.map (·.1.name)) :: lines) ∧ lines.length = ts.length ∧
      ∀ (i : Nat) (t : TestFunction R), ts[i]? = some t → ∃ (b : R) (row : List (Result R)), t.solutionValue l = .ok b ∧ rows[i]? = some row ∧ lines[i]? = some ([t.form, if t.maximize then "Max" else "Min", print b] ++
        row.map fun r => print r.foundValue) := by
  obtain ⟨h1, h2⟩ := C117_results h
  have hos0 : 0 < os.length := List.length_pos_of_ne_nil hos
  have hrow : ∀ (i : Nat) (t : TestFunction R) (row : List (Result R)), ts[i]? = some t → rows[i]? = some row → ∃ (r : Result R) (rest : List (Result R)), row = r :: rest ∧ r.function = t ∧ row.map (·.optimizerName) = os.map (·.1.name) := by
    intro i t row hi hr
    obtain ⟨row', e1, e2, e3⟩ := h2 i t hi
    rw [hr] at e1
    cases e1
    obtain ⟨r0, _, _, g1, _, g3, _⟩ := e3 0 os[0].1 os[0].2 (List.getElem?_eq_getElem hos0)
    have hnames : row.map (·.optimizerName) = os.map (·.1.name) := by
      refine List.ext_getElem (by simp [e2]) fun j k1 k2 => ?_
      simp only [List.length_map] at k1 k2
      obtain ⟨r, _, _, f1, f2, _⟩ := e3 j os[j].1 os[j].2 (List.getElem?_eq_getElem k2)
      rw [List.getElem?_eq_getElem k1] at f1
      simp only [Option.some.injEq] at f1
      simp [f1, f2]
    cases row with
    | nil => simp at g1
    | cons r rest =>
      simp only [List.getElem?_cons_zero, Option.some.injEq] at g1
      subst g1
      exact ⟨r, rest, rfl, g3, hnames⟩
  let line : List (Result R) → Res (List String) := fun row =>
      match row with
      | [] => .ub
      | r :: _ => do
        let value ← r.function.solutionValue l
        return [r.function.form, if r.function.maximize then "Max" else "Min", print value] ++ row.map fun r => print r.foundValue
  have hline : ∀ (i : Nat) (t : TestFunction R) (row : List (Result R)), ts[i]? = some t → rows[i]? = some row → ∃ b, t.solutionValue l = .ok b ∧
      line row = .ok ([t.form, if t.maximize then "Max" else "Min", print b] ++ row.map fun r => print r.foundValue) := by
    intro i t row hi hr
    obtain ⟨b, hb⟩ := hsol t (List.mem_of_getElem? hi)
    obtain ⟨r, rest, e1, e2, _⟩ := hrow i t row hi hr
    refine ⟨b, hb, ?_⟩
    subst e1
    show (r.function.solutionValue l >>= _) = _
    rw [e2, hb]
    rfl
  obtain ⟨lines, k1, k2, k3⟩ := each_total (f := line) (as := rows) (by
    intro row hmem
    obtain ⟨i, hi, e⟩ := List.mem_iff_getElem.1 hmem
    have hi' : i < ts.length := by omega
    obtain ⟨b, _, hb⟩ := hline i ts[i] row (List.getElem?_eq_getElem hi') (by rw [List.getElem?_eq_getElem hi, e])
    exact ⟨_, hb⟩)
  refine ⟨lines, ?_, by rw [k2, h1], ?_⟩
  · have hr0 : 0 < rows.length := by
      rw [h1]
      exact List.length_pos_of_ne_nil hts
    cases rows with
    | nil => simp at hr0
    | cons first more =>
      obtain ⟨_, _, _, _, e⟩ := hrow 0 ts[0] first (List.getElem?_eq_getElem (by rw [h1] at hr0; exact hr0)) rfl
      unfold output
      show (Tasks.each line (first :: more) >>= _) = _
      rw [k1, Res.ok_bind, e]
      rfl
  · intro i t hi
    have hi' : i < rows.length := by
      rw [h1]
      exact (List.getElem?_eq_some_iff.1 hi).1
    obtain ⟨b, hb, hl⟩ := hline i t rows[i] hi (List.getElem?_eq_getElem hi')
    obtain ⟨x, hx1, hx2⟩ := k3 i rows[i] (List.getElem?_eq_getElem hi')
    rw [hl] at hx2
    cases hx2
    exact ⟨b, rows[i], hb, List.getElem?_eq_getElem hi', hx1⟩

/-- **C117 (empty).** Without functions, or without optimizers, writing the results reads a missing element. -/
theorem C117_output_empty {l : Lib R} (print : R → String) (ts : List (TestFunction R)) :
    (∃ os', (test l ([] : List (TestFunction R)) ([] : List (Opt σ R × σ))) = .ok ([], os')) ∧ output l print ([] : List (List (Result R))) = .ub ∧
      (ts ≠ [] → ∃ rows, test l ts ([] : List (Opt σ R × σ)) = .ok (rows, []) ∧ output l print rows = .ub) := by
  refine ⟨⟨_, rfl⟩, rfl, fun h => ?_⟩
  have key : ∀ ts : List (TestFunction R), test l ts ([] : List (Opt σ R × σ)) = .ok (List.replicate ts.length [], []) := by
    intro ts
    induction ts with
    | nil => rfl
    | cons t ts ih =>
      unfold test
      show test l ts [] >>= _ = _
      rw [ih]
      rfl
  refine ⟨_, key ts, ?_⟩
  cases ts with
  | nil => exact absurd rfl h
  | cons t ts => rfl

end Tester

/-! ## Concrete cases -/

section Examples

/-- An optimizer that counts its calls and returns the start, shifted by the count. -/
def shifter : Opt Nat ℚ := ⟨"shift", fun n _ x _ => .ok (x.map (· + n), n + 1)⟩

/-- A library of rational numbers. -/
def ratLib : Lib ℚ := ⟨fun x => |x|, fun x => x, 1 / 10 ^ 10, 11 / 10, 3 / 2⟩

/-- The tester runs on the functions of the example: five rows of two results. -/
example : ∃ rows os', test ratLib (provider ratLib) [(shifter, 0), (shifter, 5)] = .ok (rows, os') ∧
    rows.map (·.map (·.foundSolution)) = [[[11, 7], [16, 12]], [[12, 8], [17, 13]], [[102, 102], [107, 107]], [[103, 103], [108, 108]], [[104, 104], [109, 109]]] :=
  ⟨_, _, rfl, by decide +kernel⟩

end Examples

end K52.ExampleFns
