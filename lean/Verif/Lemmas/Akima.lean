import Verif.Model.Akima
import Verif.Lemmas.Dsp

/-! Helper lemmas for the Akima spline. -/

set_option linter.unusedSectionVars false

namespace K52.Akima

open K52.Dsp (rd fillLoop fillLoop_ok)

variable {K : Type} [Add K] [Sub K] [Mul K] [Div K] [Neg K] [Zero K] [One K] [NatCast K] [LinearOrder K] [SplineLib K]

theorem rd_some {α : Type} {v : List α} {i : Nat} {a : α} (h : v[i]? = some a) : rd v i = .ok a := by
  simp [rd, h]

theorem rd_getD {v : List K} {i : Nat} (h : i < v.length) : rd v i = .ok (v.getD i 0) := by
  unfold rd
  rw [List.getElem?_eq_getElem h]
  simp [List.getD, h]

theorem wr_ok {α : Type} {v : List α} {i : Nat} (a : α) (h : i < v.length) : wr v i a = .ok (v.set i a) := by
  simp [wr, h]

/-- Chord slope number `i`. -/
def chord (xs ys : List K) (i : Nat) : K :=
  (ys.getD (i + 1) 0 - ys.getD i 0) / (xs.getD (i + 1) 0 - xs.getD i 0)

/-- Element `j` of the vector of extended chord slopes. -/
def mAt (xs ys : List K) (j : Nat) : K :=
  if j = 0 then 3 * chord xs ys 0 - 2 * chord xs ys 1
  else if j = 1 then 2 * chord xs ys 0 - chord xs ys 1
  else if j = xs.length + 1 then 2 * chord xs ys (xs.length - 2) - chord xs ys (xs.length - 3)
  else if j = xs.length + 2 then 3 * chord xs ys (xs.length - 2) - 2 * chord xs ys (xs.length - 3)
  else chord xs ys (j - 2)

theorem calculateM_eq {xs ys : List K} (hn : 5 ≤ xs.length) (hy : ys.length = xs.length) :
    calculateM xs ys = .ok ((List.range (xs.length + 3)).map (mAt xs ys)) := by
  unfold calculateM
  rw [fillLoop_ok (g := chord xs ys) (fun i hi => by
    rw [rd_getD (by omega), rd_getD (by omega), rd_getD (by omega), rd_getD (by omega)]
    rfl)]
  simp only [Res.ok_bind]
  obtain ⟨n, hn'⟩ : ∃ n, xs.length = n + 5 := ⟨xs.length - 5, by omega⟩
  set r := [0, 0] ++ List.map (chord xs ys) (List.range (xs.length - 1)) ++ [0, 0] with hr
  have hlen : r.length = n + 8 := by simp [hr, hn']
  have hin : ∀ i, i < n + 4 → r[i + 2]? = some (chord xs ys i) := by
    intro i hi
    rw [hr]
    simp only [List.cons_append, List.nil_append, List.getElem?_cons_succ]
    rw [List.getElem?_append_left (by simp [hn']; omega)]
    simp [hn', hi]
  rw [rd_some (hin 0 (by omega)), rd_some (hin 1 (by omega))]
  simp only [Res.ok_bind]
  rw [wr_ok _ (by omega)]
  simp only [Res.ok_bind]
  set r1 := r.set 0 (3 * chord xs ys 0 - 2 * chord xs ys 1) with hr1
  have h1 : ∀ i, i < n + 4 → r1[i + 2]? = some (chord xs ys i) := by
    intro i hi
    rw [hr1, List.getElem?_set_ne (by omega)]
    exact hin i hi
  rw [rd_some (h1 0 (by omega)), rd_some (h1 1 (by omega))]
  simp only [Res.ok_bind]
  have hlen1 : r1.length = n + 8 := by simp [hr1, hlen]
  rw [wr_ok _ (by omega)]
  simp only [Res.ok_bind]
  set r2 := r1.set 1 (2 * chord xs ys 0 - chord xs ys 1) with hr2
  have hlen2 : r2.length = n + 8 := by simp [hr2, hlen1]
  have h2 : ∀ i, i < n + 4 → r2[i + 2]? = some (chord xs ys i) := by
    intro i hi
    rw [hr2, List.getElem?_set_ne (by omega)]
    exact h1 i hi
  rw [hlen2]
  have e1 : n + 8 - 1 - 2 = (n + 3) + 2 := by omega
  have e2 : n + 8 - 1 - 3 = (n + 2) + 2 := by omega
  have e3 : n + 8 - 1 - 1 = n + 6 := by omega
  have e4 : n + 8 - 1 = n + 7 := by omega
  rw [e1, e2, e3, e4]
  rw [rd_some (h2 (n + 3) (by omega)), rd_some (h2 (n + 2) (by omega))]
  simp only [Res.ok_bind]
  rw [wr_ok _ (by omega)]
  simp only [Res.ok_bind]
  set r3 := r2.set (n + 6) (2 * chord xs ys (n + 3) - chord xs ys (n + 2)) with hr3
  have hlen3 : r3.length = n + 8 := by simp [hr3, hlen2]
  have h3 : ∀ i, i < n + 4 → r3[i + 2]? = some (chord xs ys i) := by
    intro i hi
    rw [hr3, List.getElem?_set_ne (by omega)]
    exact h2 i hi
  rw [rd_some (h3 (n + 3) (by omega)), rd_some (h3 (n + 2) (by omega))]
  simp only [Res.ok_bind]
  rw [wr_ok _ (by omega)]
  congr 1
  apply List.ext_getElem?
  intro j
  rw [hn']
  by_cases hj : j < n + 8
  swap
  · rw [List.getElem?_eq_none (by simp [hlen3]; omega), List.getElem?_eq_none (by simp; omega)]
  have hR : ((List.range (n + 5 + 3)).map (mAt xs ys))[j]? = some (mAt xs ys j) := by
    simp [hj]
  rw [hR]
  unfold mAt
  rw [hn']
  by_cases j7 : j = n + 7
  · subst j7
    rw [List.getElem?_set_self (by omega)]
    simp
  rw [List.getElem?_set_ne (by omega), hr3]
  by_cases j6 : j = n + 6
  · subst j6
    rw [List.getElem?_set_self (by omega)]
    simp
  rw [List.getElem?_set_ne (by omega), hr2]
  by_cases j1 : j = 1
  · subst j1
    rw [List.getElem?_set_self (by omega)]
    simp
  rw [List.getElem?_set_ne (by omega), hr1]
  by_cases j0 : j = 0
  · subst j0
    rw [List.getElem?_set_self (by omega)]
    simp
  rw [List.getElem?_set_ne (by omega)]
  obtain ⟨i, rfl⟩ : ∃ i, j = i + 2 := ⟨j - 2, by omega⟩
  rw [hin i (by omega)]
  rw [if_neg j0, if_neg j1, if_neg (by omega), if_neg (by omega)]
  simp

/-- Slope number `i` as computed. -/
def slopeAt (xs ys : List K) (i : Nat) : K :=
  let d := SplineLib.abs (mAt xs ys (i + 3) - mAt xs ys (i + 2)) + SplineLib.abs (mAt xs ys (i + 1) - mAt xs ys i)
  if d = 0 then (1 / 2) * (mAt xs ys (i + 1) + mAt xs ys (i + 2))
  else (mAt xs ys (i + 1) * SplineLib.abs (mAt xs ys (i + 3) - mAt xs ys (i + 2)) +
    mAt xs ys (i + 2) * SplineLib.abs (mAt xs ys (i + 1) - mAt xs ys i)) / d

theorem calculateSlopes_eq {xs ys : List K} :
    calculateSlopes xs ((List.range (xs.length + 3)).map (mAt xs ys)) =
      .ok ((List.range xs.length).map (slopeAt xs ys)) := by
  unfold calculateSlopes
  refine fillLoop_ok fun i hi => ?_
  have hg : ∀ j, j < xs.length + 3 → rd ((List.range (xs.length + 3)).map (mAt xs ys)) j = .ok (mAt xs ys j) := by
    intro j hj
    apply rd_some
    simp [hj]
  have e1 : 2 + i + 1 = i + 3 := by omega
  have e2 : 2 + i = i + 2 := by omega
  have e3 : i + 2 - 1 = i + 1 := by omega
  have e4 : i + 2 - 2 = i := by omega
  rw [e1, e2, e3, e4, hg _ (by omega), hg _ (by omega), hg _ (by omega), hg _ (by omega)]
  simp only [Res.ok_bind, slopeAt, Res.pure_eq]
  split <;> rfl

/-- Piece `i` as computed. -/
def pieceAt (xs ys : List K) (i : Nat) : Poly K :=
  let h := xs.getD (i + 1) 0 - xs.getD i 0
  let dy := ys.getD (i + 1) 0 - ys.getD i 0
  { c0 := ys.getD i 0
    c1 := slopeAt xs ys i
    c2 := (3 * dy / h - 2 * slopeAt xs ys i - slopeAt xs ys (i + 1)) / h
    c3 := (slopeAt xs ys (i + 1) + slopeAt xs ys i - 2 * dy / h) / SplineLib.sq h }

theorem reestimate_eq {xs ys : List K} (hn : 5 ≤ xs.length) (hy : ys.length = xs.length) :
    reestimate xs ys = .ok ((List.range (xs.length - 1)).map (pieceAt xs ys)) := by
  unfold reestimate
  rw [calculateM_eq hn hy]
  simp only [Res.ok_bind]
  rw [calculateSlopes_eq]
  simp only [Res.ok_bind]
  refine fillLoop_ok fun i hi => ?_
  have hg : ∀ j, j < xs.length → rd ((List.range xs.length).map (slopeAt xs ys)) j = .ok (slopeAt xs ys j) := by
    intro j hj
    apply rd_some
    simp [hj]
  rw [rd_getD (by omega), rd_getD (by omega), rd_getD (by omega), rd_getD (by omega), hg _ (by omega), hg _ (by omega)]
  rfl

theorem init_eq {xs ys : List K} (hn : 5 ≤ xs.length) (hy : ys.length = xs.length) :
    init xs ys = .ok ⟨(List.range (xs.length - 1)).map (pieceAt xs ys), xs, ys⟩ := by
  unfold init
  rw [if_neg (by omega), if_neg (by omega), reestimate_eq hn hy]
  rfl

/-! ### Binary search -/

/-- On a partitioned range the loop finds the partition point. -/
theorem boundLoop_spec (p : K → Bool) (xs : List K)
    (hp : ∀ (i j : Nat) a b, i ≤ j → xs[i]? = some a → xs[j]? = some b → p a = true → p b = true) (first len : Nat)
    (hfl : first + len ≤ xs.length)
    (hlo : ∀ (i : Nat) a, i < first → xs[i]? = some a → p a = false)
    (hhi : ∀ (i : Nat) a, first + len ≤ i → xs[i]? = some a → p a = true) :
    boundLoop p xs first len ≤ xs.length ∧
    (∀ (i : Nat) a, i < boundLoop p xs first len → xs[i]? = some a → p a = false) ∧
    (∀ (i : Nat) a, boundLoop p xs first len ≤ i → xs[i]? = some a → p a = true) := by
  induction len using Nat.strong_induction_on generalizing first with
  | _ len ih =>
    unfold boundLoop
    by_cases h0 : 0 < len
    · rw [if_pos h0]
      have hv : ∃ v, xs[first + len / 2]? = some v :=
        ⟨xs[first + len / 2]'(by omega), List.getElem?_eq_getElem (by omega)⟩
      obtain ⟨v, hv⟩ := hv
      rw [hv]
      simp only
      by_cases hpv : p v = true
      · rw [if_pos hpv]
        refine ih (len / 2) (by omega) first (by omega) hlo ?_
        intro i a hi ha
        exact hp _ _ _ _ hi hv ha hpv
      · rw [if_neg hpv]
        refine ih (len - len / 2 - 1) (by omega) (first + len / 2 + 1) (by omega) ?_ ?_
        · intro i a hi ha
          by_contra hc
          have : p a = true := by simpa using hc
          exact hpv (hp i (first + len / 2) a v (by omega) ha hv this)
        · intro i a hi ha
          exact hhi i a (by omega) ha
    · rw [if_neg h0]
      have : len = 0 := by omega
      subst this
      exact ⟨by omega, hlo, fun i a hi ha => hhi i a (by omega) ha⟩

theorem lt_of_sorted {xs : List K} (hs : xs.Pairwise (· < ·)) {i j : Nat} {a b : K} (hij : i < j)
    (ha : xs[i]? = some a) (hb : xs[j]? = some b) : a < b := by
  rw [List.getElem?_eq_some_iff] at ha hb
  obtain ⟨hi, rfl⟩ := ha
  obtain ⟨hj, rfl⟩ := hb
  exact List.pairwise_iff_getElem.1 hs i j hi hj hij

theorem upperBound_spec {xs : List K} (hs : xs.Pairwise (· < ·)) (x : K) :
    upperBound xs x ≤ xs.length ∧ (∀ (i : Nat) a, i < upperBound xs x → xs[i]? = some a → a ≤ x) ∧
    (∀ (i : Nat) a, upperBound xs x ≤ i → xs[i]? = some a → x < a) := by
  have := boundLoop_spec (fun v => decide (x < v)) xs (by
    intro i j a b hij ha hb h
    rcases Nat.lt_or_eq_of_le hij with hij | rfl
    · have := lt_of_sorted hs hij ha hb
      simp only [decide_eq_true_eq] at h ⊢
      exact h.trans this
    · rw [ha] at hb
      cases hb
      exact h) 0 xs.length (by omega) (fun i a hi => by omega) (fun i a hi ha => by
        rw [List.getElem?_eq_none (by omega)] at ha
        cases ha)
  simpa [upperBound] using this

theorem lowerBound_spec {xs : List K} (hs : xs.Pairwise (· < ·)) (x : K) :
    lowerBound xs x ≤ xs.length ∧ (∀ (i : Nat) a, i < lowerBound xs x → xs[i]? = some a → a < x) ∧
    (∀ (i : Nat) a, lowerBound xs x ≤ i → xs[i]? = some a → x ≤ a) := by
  have := boundLoop_spec (fun v => !decide (v < x)) xs (by
    intro i j a b hij ha hb h
    rcases Nat.lt_or_eq_of_le hij with hij | rfl
    · have := lt_of_sorted hs hij ha hb
      simp only [Bool.not_eq_true', decide_eq_false_iff_not, not_lt] at h ⊢
      exact h.trans this.le
    · rw [ha] at hb
      cases hb
      exact h) 0 xs.length (by omega) (fun i a hi => by omega) (fun i a hi ha => by
        rw [List.getElem?_eq_none (by omega)] at ha
        cases ha)
  simpa [lowerBound] using this

/-- The interval of a point, on strictly increasing knots. -/
theorem resolve_interval {xs : List K} (hs : xs.Pairwise (· < ·)) {x a b : K} {i : Nat}
    (ha : xs[i]? = some a) (hb : xs[i + 1]? = some b) (h1 : a ≤ x) (h2 : x < b ∨ (x = b ∧ i + 2 = xs.length)) :
    resolveInterval xs x = .ok (some i) := by
  obtain ⟨u1, u2, u3⟩ := upperBound_spec hs x
  obtain ⟨l1, l2, l3⟩ := lowerBound_spec hs x
  unfold resolveInterval
  have hib : i + 1 < xs.length := (List.getElem?_eq_some_iff.1 hb).1
  have hui : i < upperBound xs x := by
    by_contra hn
    exact absurd (u3 i a (by omega) ha) (not_lt.2 h1)
  rcases h2 with h2 | ⟨rfl, h2⟩
  · have : upperBound xs x ≤ i + 1 := by
      by_contra hn
      exact absurd (u2 (i + 1) b (by omega) hb) (not_le.2 h2)
    have hu : upperBound xs x = i + 1 := by omega
    simp only [hu]
    rw [if_neg (by omega), if_neg (by omega)]
    simp
  · have hu : upperBound xs x = xs.length := by
      have : i + 1 < upperBound xs x := by
        by_contra hn
        exact absurd (u3 (i + 1) x (by omega) hb) (lt_irrefl x)
      omega
    have hab := lt_of_sorted hs (Nat.lt_succ_self i) ha hb
    have hl1 : lowerBound xs x ≤ i + 1 := by
      by_contra hn
      exact absurd (l2 (i + 1) x (by omega) hb) (lt_irrefl x)
    have hl2 : i < lowerBound xs x := by
      by_contra hn
      exact absurd (l3 i a (by omega) ha) (not_le.2 hab)
    have hl : lowerBound xs x = i + 1 := by omega
    simp only [hu, hl]
    rw [if_neg (by omega), if_pos trivial, if_neg (by omega), if_neg (by omega)]
    simp

/-- Points outside the knots are rejected. -/
theorem resolve_outside {xs : List K} (hs : xs.Pairwise (· < ·)) {x : K}
    (h : (∀ a ∈ xs, x < a) ∨ (∀ a ∈ xs, a < x)) : resolveInterval xs x = .throw "out_of_range" := by
  obtain ⟨u1, u2, u3⟩ := upperBound_spec hs x
  obtain ⟨l1, l2, l3⟩ := lowerBound_spec hs x
  unfold resolveInterval
  by_cases hu : upperBound xs x = 0
  · simp [hu]
  rcases h with h | h
  · exfalso
    have h0 : xs[0]? = some (xs[0]'(by omega)) := List.getElem?_eq_getElem (by omega)
    exact absurd (u2 0 _ (by omega) h0) (not_le.2 (h _ (List.getElem_mem _)))
  · have hu' : upperBound xs x = xs.length := by
      by_contra hn
      have h0 : xs[upperBound xs x]? = some (xs[upperBound xs x]'(by omega)) := List.getElem?_eq_getElem (by omega)
      exact absurd (u3 _ _ le_rfl h0) (not_lt.2 (h _ (List.getElem_mem _)).le)
    have hl' : lowerBound xs x = xs.length := by
      by_contra hn
      have h0 : xs[lowerBound xs x]? = some (xs[lowerBound xs x]'(by omega)) := List.getElem?_eq_getElem (by omega)
      exact absurd (l3 _ _ le_rfl h0) (not_le.2 (h _ (List.getElem_mem _)))
    simp only [hu', hl']
    rw [if_neg (by omega)]
    simp

end K52.Akima
