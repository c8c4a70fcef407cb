import Verif.Model.Rosenbrock
import Verif.Lemmas.Continuous
import Mathlib.Tactic.Positivity
import Mathlib.Tactic.FieldSimp
import Mathlib.Tactic.NormNum
import Mathlib.Data.Rat.Floor
import Mathlib.Analysis.Real.Sqrt

/-! # Properties C48 and C66: Rosenbrock's method -/

set_option linter.unusedSectionVars false

namespace K52.Rosenbrock
variable {R : Type} [Field R] [LinearOrder R] [IsStrictOrderedRing R]

/-! ### Scalar products of lists -/

/-- The scalar product (specification). -/
def inner (p q : List R) : R := (List.zipWith (· * ·) p q).sum

theorem foldl_zip_eq : ∀ (p q : List R) (acc : R), (p.zip q).foldl (fun s x => s + x.1 * x.2) acc = acc + inner p q
  | [], q, acc => by simp [inner]
  | _ :: _, [], acc => by simp [inner]
  | x :: p, y :: q, acc => by
    simp only [List.zip_cons_cons, List.foldl_cons]
    rw [foldl_zip_eq p q]
    simp [inner, add_assoc]

theorem dot_eq (p q : List R) : dot p q = inner p q := by simp [dot, foldl_zip_eq]

theorem foldl_sq_eq : ∀ (v : List R) (acc : R), v.foldl (fun s x => s + x * x) acc = acc + inner v v
  | [], acc => by simp [inner]
  | x :: v, acc => by
    simp only [List.foldl_cons]
    rw [foldl_sq_eq v]
    simp [inner, add_assoc]

theorem inner_comm : ∀ (p q : List R), inner p q = inner q p
  | [], q => by cases q <;> simp [inner]
  | _ :: _, [] => by simp [inner]
  | x :: p, y :: q => by
    have := inner_comm p q
    simp only [inner, List.zipWith_cons_cons, List.sum_cons] at this ⊢
    rw [this, mul_comm]

theorem inner_add_smul (t : R) : ∀ (u e b : List R), u.length = e.length →
    inner (List.zipWith (fun x y => x + t * y) u e) b = inner u b + t * inner e b
  | [], [], b, _ => by simp [inner]
  | x :: u, y :: e, [], _ => by simp [inner]
  | x :: u, y :: e, z :: b, h => by
    have := inner_add_smul t u e b (by simpa using h)
    simp only [inner, List.zipWith_cons_cons, List.sum_cons] at this ⊢
    rw [this]; ring

theorem inner_sub_smul (t : R) (u e b : List R) (h : u.length = e.length) :
    inner (List.zipWith (fun x y => x - t * y) u e) b = inner u b - t * inner e b := by
  have := inner_add_smul (-t) u e b h
  simp only [neg_mul, ← sub_eq_add_neg] at this
  exact this

theorem inner_replicate_zero : ∀ (n : Nat) (b : List R), inner (List.replicate n 0) b = 0
  | 0, b => by simp [inner]
  | n + 1, [] => by simp [inner]
  | n + 1, y :: b => by
    have := inner_replicate_zero n b
    simp only [inner, List.replicate_succ, List.zipWith_cons_cons, List.sum_cons] at this ⊢
    rw [this]; ring

theorem inner_self_nonneg : ∀ (v : List R), 0 ≤ inner v v
  | [] => by simp [inner]
  | x :: v => by
    have := inner_self_nonneg v
    simp only [inner, List.zipWith_cons_cons, List.sum_cons] at this ⊢
    nlinarith [mul_self_nonneg x]

theorem inner_eq_zero_of_self : ∀ (v w : List R), inner v v = 0 → inner v w = 0
  | [], w, _ => by simp [inner]
  | x :: v, [], _ => by simp [inner]
  | x :: v, y :: w, h => by
    have h0 := inner_self_nonneg v
    have h1 : inner (x :: v) (x :: v) = x * x + inner v v := by simp [inner]
    rw [h1] at h
    have hx : x * x = 0 := by nlinarith [mul_self_nonneg x]
    have hv : inner v v = 0 := by nlinarith [mul_self_nonneg x]
    have hx' : x = 0 := by simpa using hx
    have := inner_eq_zero_of_self v w hv
    simp only [inner, List.zipWith_cons_cons, List.sum_cons] at this ⊢
    rw [this, hx']; ring

theorem inner_map_div (t : R) : ∀ (v w : List R), inner (v.map (· / t)) w = inner v w / t
  | [], w => by simp [inner]
  | x :: v, [] => by simp [inner]
  | x :: v, y :: w => by
    have := inner_map_div t v w
    simp only [inner, List.map_cons, List.zipWith_cons_cons, List.sum_cons] at this ⊢
    rw [this]; ring

/-! ### C48: orthonormal bases -/

/-- What is used of the library's square root. -/
def SqrtOk (sqrt : R → R) : Prop := ∀ x, 0 ≤ x → 0 ≤ sqrt x ∧ sqrt x * sqrt x = x

/-- Vectors of length `n`, perpendicular to each other and of length one. -/
def Orthonormal (n : Nat) (B : List (List R)) : Prop :=
  (∀ b ∈ B, b.length = n) ∧ ∀ (i j : Nat) a b, B[i]? = some a → B[j]? = some b → inner a b = if i = j then 1 else 0

/-- Linear independence in terms of test vectors: for every row there is a vector perpendicular to all earlier rows but not to it. -/
def Independent (n : Nat) (M : List (List R)) : Prop :=
  ∀ (j : Nat) m, M[j]? = some m → ∃ w : List R, w.length = n ∧ inner m w ≠ 0 ∧ ∀ (i : Nat) m', i < j → M[i]? = some m' → inner m' w = 0

theorem orthogonalize_inner (row : List R) (b : List R) : ∀ (found : List (List R)) (u : List R),
    (∀ e ∈ found, e.length = u.length) →
    inner (found.foldl (fun u e => List.zipWith (fun x y => x - dot row e * y) u e) u) b =
      inner u b - (found.map fun e => inner row e * inner e b).sum ∧
    (found.foldl (fun u e => List.zipWith (fun x y => x - dot row e * y) u e) u).length = u.length
  | [], u, _ => by simp
  | e :: found, u, h => by
    have he := h e (by simp)
    have hl : (List.zipWith (fun x y => x - dot row e * y) u e).length = u.length := by simp [he]
    obtain ⟨h1, h2⟩ := orthogonalize_inner row b found (List.zipWith (fun x y => x - dot row e * y) u e)
      (fun e' he' => by rw [hl]; exact h e' (by simp [he']))
    simp only [List.foldl_cons, List.map_cons, List.sum_cons]
    refine ⟨?_, by rw [h2, hl]⟩
    rw [h1, inner_sub_smul _ u e b he.symm, dot_eq]
    ring

theorem sum_kronecker {f : List R → R} : ∀ (found : List (List R)) (b : List R) (k : Nat),
    (∀ (i : Nat) e, found[i]? = some e → inner e b = if i = k then 1 else 0) →
    (found.map fun e => f e * inner e b).sum = match found[k]? with | some e => f e | none => 0
  | [], b, k, _ => by simp
  | e :: found, b, k, h => by
    have h0 := h 0 e rfl
    simp only [List.map_cons, List.sum_cons]
    cases k with
    | zero =>
      have : (found.map fun e => f e * inner e b).sum = 0 := by
        refine List.sum_eq_zero fun x hx => ?_
        obtain ⟨e', he', rfl⟩ := List.mem_map.1 hx
        obtain ⟨i, hi⟩ := List.mem_iff_getElem?.1 he'
        have := h (i + 1) e' (by simpa using hi)
        simp at this
        rw [this, mul_zero]
      rw [this, h0]; simp
    | succ k =>
      rw [sum_kronecker found b k (fun i e' hi => by have := h (i + 1) e' (by simpa using hi); simpa using this)]
      simp at h0
      rw [h0]; simp

theorem normalize_spec {sqrt : R → R} (hs : SqrtOk sqrt) {v : List R} (hv : inner v v ≠ 0) :
    ∃ t, 0 < t ∧ t * t = inner v v ∧ normalize sqrt v = v.map (· / t) := by
  have h0 := inner_self_nonneg v
  obtain ⟨q1, q2⟩ := hs _ h0
  have hne : sqrt (inner v v) ≠ 0 := by intro h; rw [h] at q2; simp at q2; exact hv q2.symm
  refine ⟨sqrt (inner v v), lt_of_le_of_ne q1 (Ne.symm hne), q2, ?_⟩
  simp [normalize, foldl_sq_eq, hne]

theorem gramSchmidt_spec {sqrt : R → R} (hs : SqrtOk sqrt) (n : Nat) : ∀ (rows found done : List (List R)),
    (∀ r ∈ rows, r.length = n) → Orthonormal n found → done.length = found.length →
    (∀ w : List R, w.length = n → (∀ d ∈ done, inner d w = 0) → ∀ e ∈ found, inner e w = 0) →
    Independent n (done ++ rows) →
    Orthonormal n (gramSchmidt sqrt found rows) ∧ (gramSchmidt sqrt found rows).length = found.length + rows.length
  | [], found, done, _, ho, _, _, _ => by simpa [gramSchmidt] using ho
  | row :: rows, found, done, hl, ho, hd, hspan, hi => by
    have hrow : row.length = n := hl row (by simp)
    have hfl : ∀ e ∈ found, e.length = row.length := fun e he => by rw [hrow]; exact ho.1 e he
    set u := orthogonalize found row with hu
    have hul : u.length = n := by rw [hu, orthogonalize, (orthogonalize_inner row [] found row hfl).2, hrow]
    have hui : ∀ b, inner u b = inner row b - (found.map fun e => inner row e * inner e b).sum :=
      fun b => (orthogonalize_inner row b found row hfl).1
    -- the row is not a combination of the earlier ones
    obtain ⟨w, hwl, hw1, hw2⟩ := hi done.length row (by simp)
    have hw0 : ∀ d ∈ done, inner d w = 0 := by
      intro d hdm
      obtain ⟨i, hi'⟩ := List.mem_iff_getElem?.1 hdm
      have hlt := (List.getElem?_eq_some_iff.1 hi').1
      exact hw2 i d hlt (by rw [List.getElem?_append_left hlt]; exact hi')
    have hsum0 : ∀ w : List R, w.length = n → (∀ d ∈ done, inner d w = 0) →
        (found.map fun e => inner row e * inner e w).sum = 0 := by
      intro w hwl hwd
      refine List.sum_eq_zero fun x hx => ?_
      obtain ⟨e, he, rfl⟩ := List.mem_map.1 hx
      rw [hspan w hwl hwd e he, mul_zero]
    have huw : inner u w ≠ 0 := by rw [hui, hsum0 w hwl hw0, sub_zero]; exact hw1
    have huu : inner u u ≠ 0 := fun h => huw (inner_eq_zero_of_self u w h)
    obtain ⟨t, ht, htt, hnorm⟩ := normalize_spec hs huu
    have horth : ∀ e ∈ found, inner u e = 0 := by
      intro e he
      obtain ⟨k, hk⟩ := List.mem_iff_getElem?.1 he
      rw [hui, sum_kronecker (f := fun e => inner row e) found e k (fun i e' hi' => ho.2 i k e' e hi' hk), hk]
      simp
    set e' := normalize sqrt u with he'
    have hel : e'.length = n := by rw [hnorm]; simp [hul]
    have hee : inner e' e' = 1 := by
      rw [hnorm, inner_map_div, inner_comm, inner_map_div, div_div, htt, div_self huu]
    have hef : ∀ e ∈ found, inner e' e = 0 := by
      intro e he; rw [hnorm, inner_map_div, horth e he, zero_div]
    have ho' : Orthonormal n (found ++ [e']) := by
      constructor
      · intro b hb
        rcases List.mem_append.1 hb with hb | hb
        · exact ho.1 b hb
        · simp at hb; subst hb; exact hel
      · have key : ∀ (i : Nat) a, (found ++ [e'])[i]? = some a → (found[i]? = some a ∧ i < found.length) ∨ (i = found.length ∧ a = e') := by
          intro i a hi'
          rcases lt_trichotomy i found.length with h1 | h1 | h1
          · left; rw [List.getElem?_append_left h1] at hi'; exact ⟨hi', h1⟩
          · right; subst h1; simp at hi'; exact ⟨rfl, hi'.symm⟩
          · rw [List.getElem?_eq_none (by simp; omega)] at hi'; simp at hi'
        intro i j a b ha hb
        rcases key i a ha with ⟨ha, hia⟩ | ⟨rfl, rfl⟩ <;> rcases key j b hb with ⟨hb, hjb⟩ | ⟨rfl, rfl⟩
        · exact ho.2 i j a b ha hb
        · rw [if_neg (by omega), inner_comm]; exact hef a (List.mem_of_getElem? ha)
        · rw [if_neg (by omega)]; exact hef b (List.mem_of_getElem? hb)
        · simpa using hee
    have hspan' : ∀ w : List R, w.length = n → (∀ d ∈ done ++ [row], inner d w = 0) → ∀ e ∈ found ++ [e'], inner e w = 0 := by
      intro w hwl hwd e he
      have hwd' : ∀ d ∈ done, inner d w = 0 := fun d hd' => hwd d (by simp [hd'])
      rcases List.mem_append.1 he with he | he
      · exact hspan w hwl hwd' e he
      · simp at he; subst he
        rw [hnorm, inner_map_div, hui, hsum0 w hwl hwd', hwd row (by simp)]
        simp
    have := gramSchmidt_spec hs n rows (found ++ [e']) (done ++ [row]) (fun r hr => hl r (by simp [hr])) ho' (by simp [hd]) hspan'
      (by simpa using hi)
    simp only [gramSchmidt]
    refine ⟨this.1, ?_⟩
    rw [this.2]; simp; omega

/-- **C48 (Gram-Schmidt).** From independent rows of length `n` the orthogonalization makes as many orthonormal vectors. -/
theorem C48_gram_schmidt {sqrt : R → R} (hs : SqrtOk sqrt) (n : Nat) (rows : List (List R)) (hl : ∀ r ∈ rows, r.length = n)
    (hi : Independent n rows) :
    Orthonormal n (gramSchmidt sqrt [] rows) ∧ (gramSchmidt sqrt [] rows).length = rows.length := by
  have := gramSchmidt_spec hs n rows [] [] hl ⟨by simp, by simp⟩ rfl (by simp) (by simpa using hi)
  simpa using this

theorem accumulate_inner (n : Nat) (b : List R) : ∀ (L : List (R × List R)) (acc : List R), (∀ p ∈ L, p.2.length = n) → acc.length = n →
    inner (L.foldl (fun acc p => List.zipWith (fun a b => a + p.1 * b) acc p.2) acc) b =
      inner acc b + (L.map fun p => p.1 * inner p.2 b).sum ∧
    (L.foldl (fun acc p => List.zipWith (fun a b => a + p.1 * b) acc p.2) acc).length = n
  | [], acc, _, ha => by simp [ha]
  | p :: L, acc, h, ha => by
    have hp := h p (by simp)
    obtain ⟨h1, h2⟩ := accumulate_inner n b L (List.zipWith (fun a b => a + p.1 * b) acc p.2) (fun q hq => h q (by simp [hq]))
      (by simp [ha, hp])
    simp only [List.foldl_cons, List.map_cons, List.sum_cons]
    refine ⟨?_, h2⟩
    rw [h1, inner_add_smul _ acc p.2 b (by rw [ha, hp])]
    ring

theorem sum_pairs (b : List R) : ∀ (L : List (R × List R)) (j k : Nat),
    (∀ (i : Nat) p, L[i]? = some p → inner p.2 b = if j + i = k then 1 else 0) →
    (L.map fun p => p.1 * inner p.2 b).sum = if j ≤ k then (L[k - j]?.map Prod.fst).getD 0 else 0
  | [], j, k, _ => by simp
  | p :: L, j, k, h => by
    have h0 := h 0 p rfl
    have ih := sum_pairs b L (j + 1) k (fun i q hi => by
      have := h (i + 1) q (by simpa using hi)
      rw [this]
      congr 1
      apply propext
      omega)
    simp only [List.map_cons, List.sum_cons]
    rw [ih, h0]
    rcases lt_trichotomy j k with h1 | h1 | h1
    · have e : k - j = (k - (j + 1)) + 1 := by omega
      rw [if_neg (by omega), if_pos (by omega), if_pos h1.le, e]
      simp
    · subst h1; simp
    · rw [if_neg (by omega), if_neg (by omega), if_neg (by omega)]; simp

theorem rowSum_inner {n : Nat} {steps : List R} {B : List (List R)} (ho : Orthonormal n B) (hsl : steps.length = B.length)
    (j k : Nat) (b : List R) (hb : B[k]? = some b) :
    inner (rowSum n steps B j) b = if j ≤ k then (steps[k]?).getD 0 else 0 := by
  have hzip : ∀ p ∈ (steps.zip B).drop j, p.2.length = n := by
    intro p hp
    have := List.mem_of_mem_drop hp
    exact ho.1 _ (List.of_mem_zip this).2
  have hk : k < B.length := (List.getElem?_eq_some_iff.1 hb).1
  unfold rowSum
  rw [(accumulate_inner n b _ _ hzip (by simp)).1, inner_replicate_zero, zero_add, sum_pairs b _ j k]
  · by_cases hjk : j ≤ k
    · have hks : k < steps.length := by omega
      have hz : (steps.zip B)[k]? = some (steps[k], b) :=
        List.getElem?_zip_eq_some.2 ⟨List.getElem?_eq_getElem hks, hb⟩
      rw [if_pos hjk, if_pos hjk, List.getElem?_drop, show j + (k - j) = k by omega, hz, List.getElem?_eq_getElem hks]
      rfl
    · rw [if_neg hjk, if_neg hjk]
  · intro i p hi
    rw [List.getElem?_drop] at hi
    obtain ⟨_, h2⟩ := List.getElem?_zip_eq_some.1 hi
    exact ho.2 (j + i) k p.2 b h2 hb

theorem matrix_independent {n : Nat} {steps : List R} {B : List (List R)} (ho : Orthonormal n B) (hB : B.length = n)
    (hsl : steps.length = n) (hne : ∀ s ∈ steps, s ≠ 0) : Independent n (matrixOfCoeff n steps B) := by
  have hsl' : steps.length = B.length := by rw [hsl, hB]
  have hM : ∀ (j : Nat) m, (matrixOfCoeff n steps B)[j]? = some m → j < n ∧ m = rowSum n steps B j := by
    intro j m hm
    unfold matrixOfCoeff at hm
    rw [List.getElem?_map] at hm
    by_cases hj : j < n
    · rw [List.getElem?_range hj] at hm
      simp at hm
      exact ⟨hj, hm.symm⟩
    · rw [List.getElem?_eq_none (by simpa using hj)] at hm; simp at hm
  intro j m hm
  obtain ⟨hj, rfl⟩ := hM j m hm
  have hjB : j < B.length := by omega
  have hjs : j < steps.length := by omega
  have eb : B[j]? = some B[j] := List.getElem?_eq_getElem hjB
  have es : steps[j]? = some steps[j] := List.getElem?_eq_getElem hjs
  have hsj : steps[j] ≠ 0 := hne _ (List.getElem_mem hjs)
  by_cases h0 : j = 0
  · refine ⟨B[j], ho.1 _ (List.getElem_mem hjB), ?_, fun i m' hi' => by omega⟩
    rw [rowSum_inner ho hsl' j j _ eb, if_pos le_rfl, es]
    exact hsj
  · have hpB : j - 1 < B.length := by omega
    have hps : j - 1 < steps.length := by omega
    have eb' : B[j - 1]? = some B[j - 1] := List.getElem?_eq_getElem hpB
    have es' : steps[j - 1]? = some steps[j - 1] := List.getElem?_eq_getElem hps
    have hsp : steps[j - 1] ≠ 0 := hne _ (List.getElem_mem hps)
    have hlen : B[j].length = B[j - 1].length := by rw [ho.1 _ (List.getElem_mem hjB), ho.1 _ (List.getElem_mem hpB)]
    have hw : ∀ i, inner (rowSum n steps B i) (List.zipWith (fun x y => x - steps[j] / steps[j - 1] * y) B[j] B[j - 1]) =
        (if i ≤ j then steps[j] else 0) - steps[j] / steps[j - 1] * (if i ≤ j - 1 then steps[j - 1] else 0) := by
      intro i
      rw [inner_comm, inner_sub_smul _ _ _ _ hlen, inner_comm B[j], inner_comm B[j - 1], rowSum_inner ho hsl' i j _ eb,
        rowSum_inner ho hsl' i (j - 1) _ eb', es, es']
      rfl
    refine ⟨List.zipWith (fun x y => x - steps[j] / steps[j - 1] * y) B[j] B[j - 1], ?_, ?_, ?_⟩
    · simp [ho.1 _ (List.getElem_mem hjB), ho.1 _ (List.getElem_mem hpB)]
    · rw [hw j, if_pos le_rfl, if_neg (by omega), mul_zero, sub_zero]
      exact hsj
    · intro i m' hi' hm'
      obtain ⟨_, rfl⟩ := hM i m' hm'
      rw [hw i, if_pos (by omega), if_pos (by omega), div_mul_cancel₀ _ hsp, sub_self]

theorem rowSum_length {n : Nat} {steps : List R} {B : List (List R)} (ho : Orthonormal n B) (j : Nat) :
    (rowSum n steps B j).length = n :=
  (accumulate_inner n [] _ _ (fun p hp => ho.1 _ (List.of_mem_zip (List.mem_of_mem_drop hp)).2) (by simp)).2

/-- **C48 (new basis).** From `n` orthonormal vectors of length `n` and `n` steps none of which is zero, the new basis consists of `n`
orthonormal vectors again. -/
theorem C48_new_basis {sqrt : R → R} (hs : SqrtOk sqrt) {n : Nat} {steps : List R} {B : List (List R)} (ho : Orthonormal n B)
    (hB : B.length = n) (hsl : steps.length = n) (hne : ∀ s ∈ steps, s ≠ 0) :
    Orthonormal n (createNewBasis sqrt n steps B) ∧ (createNewBasis sqrt n steps B).length = n := by
  have := C48_gram_schmidt hs n (matrixOfCoeff n steps B) (by
    intro r hr
    simp only [matrixOfCoeff, List.mem_map] at hr
    obtain ⟨j, _, rfl⟩ := hr
    exact rowSum_length ho j) (matrix_independent ho hB hsl hne)
  refine ⟨this.1, ?_⟩
  rw [createNewBasis, this.2]
  simp [matrixOfCoeff]

/-! ### C48: steps -/

/-- **C48 (correction).** A corrected step is at most `max_step` in absolute value, is unchanged if it was, has the same sign, and has
absolute value exactly `max_step` otherwise. -/
theorem C48_correct_step (cfg : Config R) (hm : 0 ≤ cfg.maxStep) (step : R) :
    |correctStep cfg step| ≤ cfg.maxStep ∧ (|step| ≤ cfg.maxStep → correctStep cfg step = step) ∧
    (cfg.maxStep < |step| → |correctStep cfg step| = cfg.maxStep ∧ 0 ≤ correctStep cfg step * step) := by
  unfold correctStep
  by_cases h : |step| > cfg.maxStep
  · have hs : 0 < |step| := lt_of_le_of_lt hm h
    have e : |cfg.maxStep * step / (|step|)| = cfg.maxStep := by
      rw [abs_div, abs_mul, abs_abs, mul_div_assoc, div_self hs.ne', mul_one, abs_of_nonneg hm]
    rw [if_pos h, e]
    refine ⟨le_rfl, fun h' => absurd h (not_lt.2 h'), fun _ => ⟨rfl, ?_⟩⟩
    rw [div_mul_eq_mul_div, mul_assoc]
    exact div_nonneg (mul_nonneg hm (mul_self_nonneg _)) hs.le
  · rw [if_neg h]
    exact ⟨not_lt.1 h, fun _ => rfl, fun h' => absurd h' h⟩

theorem correctStep_ne (cfg : Config R) (hm : 0 < cfg.maxStep) {step : R} (h : step ≠ 0) : correctStep cfg step ≠ 0 := by
  unfold correctStep
  split
  · exact div_ne_zero (mul_ne_zero hm.ne' h) (abs_ne_zero.2 h)
  · exact h

/-- The new step of a direction: half as long again when the test improved the value, else half as long and reversed; then corrected. -/
def nextStep (g : List R → R) (cfg : Config R) (x : List R) (step : R) (direction : List R) : R :=
  correctStep cfg (if g (List.zipWith (fun x d => x + step * d) x direction) < g x then 3 / 2 * step else -(1 / 2) * step)

theorem stepLoop_spec (g : List R → R) (cfg : Config R) (n : Nat) (x : List R) (hx : x.length = n) : ∀ (steps : List R) (B : List (List R))
    (t : List R), steps.length = B.length → (∀ b ∈ B, b.length = n) → t.length = n →
    ∃ t', (stepLoop cfg (g x) x steps B t).eval g = .ok (t', List.zipWith (nextStep g cfg x) steps B) ∧ t'.length = n ∧
      (∀ b, inner t' b = inner t b + (List.zipWith (fun s e => s * inner e b) (List.zipWith (nextStep g cfg x) steps B) B).sum) ∧
      (stepLoop cfg (g x) x steps B t).trace g = List.zipWith (fun s e => List.zipWith (fun x d => x + s * d) x e) steps B
  | [], [], t, _, _, ht => ⟨t, rfl, ht, by simp, rfl⟩
  | s :: steps, e :: B, t, h, hB, ht => by
    have he : e.length = n := hB e (by simp)
    have hst : (stepPerCoordinate (nextStep g cfg x s e) e t).length = n := by simp [stepPerCoordinate, he, ht]
    obtain ⟨t', h1, h2, h3, h4⟩ := stepLoop_spec g cfg n x hx steps B (stepPerCoordinate (nextStep g cfg x s e) e t) (by simpa using h)
      (fun b hb => hB b (by simp [hb])) hst
    have hn : correctStep cfg (if g x > g (stepPerCoordinate s e x) then s * increase else s * decrease) = nextStep g cfg x s e := by
      unfold nextStep increase decrease stepPerCoordinate
      congr 1
      split <;> ring
    refine ⟨t', ?_, h2, ?_, ?_⟩
    · simp only [stepLoop, Prog.askMin, Prog.ask_bind, Prog.done_ok_bind, Prog.eval, if_true, Prog.eval_bind, hn, h1]
      rfl
    · intro b
      rw [h3 b, stepPerCoordinate, inner_add_smul _ t e b (by rw [ht, he])]
      simp only [List.zipWith_cons_cons, List.sum_cons]
      ring
    · simp only [stepLoop, Prog.askMin, Prog.ask_bind, Prog.done_ok_bind, Prog.trace, if_true, Prog.trace_bind, hn, h1, h4,
        List.zipWith_cons_cons]
      simp [stepPerCoordinate]

/-- Squared Euclidean distance. -/
def sqDist (p q : List R) : R := (List.zipWith (fun x y => (x - y) * (x - y)) p q).sum

theorem sqDist_eq (p q : List R) : sqDist p q = inner (List.zipWith (fun x y => x - 1 * y) p q) (List.zipWith (fun x y => x - 1 * y) p q) := by
  induction p generalizing q with
  | nil => simp [sqDist, inner]
  | cons x p ih =>
    cases q with
    | nil => simp [sqDist, inner]
    | cons y q =>
      have := ih q
      simp only [sqDist, inner, List.zipWith_cons_cons, List.sum_cons] at this ⊢
      rw [this]; ring

/-- A good state of the object in dimension `n`. -/
structure Good (n : Nat) (s : State R) : Prop where
  basis : Orthonormal n s.basis
  count : s.basis.length = n
  steps : s.steps.length = n

theorem makeStep_spec (g : List R → R) (cfg : Config R) {n : Nat} {s : State R} (h : Good n s) {x : List R} (hx : x.length = n) :
    ∃ x' σ, σ.Perm s.steps ∧ σ.Pairwise (· ≥ ·) ∧
      (makeStep cfg s x).eval g = .ok (x', List.zipWith (nextStep g cfg x) σ s.basis) ∧ x'.length = n ∧
      (∀ b, inner x' b = inner x b + (List.zipWith (fun s e => s * inner e b) (List.zipWith (nextStep g cfg x) σ s.basis) s.basis).sum) ∧
      (makeStep cfg s x).trace g = x :: List.zipWith (fun s e => List.zipWith (fun x d => x + s * d) x e) σ s.basis := by
  have hp := List.perm_insertionSort (· ≥ ·) s.steps
  have hsort : (s.steps.insertionSort (· ≥ ·)).Pairwise (· ≥ ·) := List.pairwise_insertionSort (· ≥ ·) s.steps
  obtain ⟨t', h1, h2, h3, h4⟩ := stepLoop_spec g cfg n x hx (s.steps.insertionSort (· ≥ ·)) s.basis x
    (by rw [hp.length_eq, h.steps, h.count]) h.basis.1 hx
  refine ⟨t', _, hp, hsort, ?_, h2, h3, ?_⟩
  · simp only [makeStep, Prog.askMin, Prog.ask_bind, Prog.done_ok_bind, Prog.eval, if_true]
    exact h1
  · simp only [makeStep, Prog.askMin, Prog.ask_bind, Prog.done_ok_bind, Prog.trace, if_true, h4]

theorem zipWith_sum_swap (x x' : List R) : ∀ (S : List R) (B : List (List R)), S.length = B.length →
    (∀ (i : Nat) s b, S[i]? = some s → B[i]? = some b → inner x b = s) →
    (List.zipWith (fun s e => s * inner e x) S B).sum = (S.map fun s => s * s).sum
  | [], [], _, _ => by simp
  | s :: S, b :: B, h, hi => by
    have h0 := hi 0 s b rfl rfl
    have := zipWith_sum_swap x x' S B (by simpa using h) (fun i s' b' h1 h2 => hi (i + 1) s' b' (by simpa using h1) (by simpa using h2))
    simp only [List.zipWith_cons_cons, List.sum_cons, List.map_cons]
    rw [this, inner_comm, h0]

theorem zipWith_kronecker (S : List R) (B : List (List R)) (hl : S.length = B.length) {n : Nat} (ho : Orthonormal n B) (k : Nat) (s : R)
    (b : List R) (hs : S[k]? = some s) (hb : B[k]? = some b) :
    (List.zipWith (fun s e => s * inner e b) S B).sum = s := by
  have e : List.zipWith (fun s e => s * inner e b) S B = (S.zip B).map fun p => p.1 * inner p.2 b := by
    rw [List.zip, List.map_zipWith]
  have hz : (S.zip B)[k]? = some (s, b) := List.getElem?_zip_eq_some.2 ⟨hs, hb⟩
  rw [e, sum_pairs b (S.zip B) 0 k, if_pos (Nat.zero_le _), Nat.sub_zero, hz]
  · rfl
  · intro i p hi
    rw [Nat.zero_add]
    exact ho.2 i k p.2 b (List.getElem?_zip_eq_some.1 hi).2 hb

theorem distance_spec {n : Nat} {B : List (List R)} (ho : Orthonormal n B) {S : List R} (hl : S.length = B.length) {x x' : List R}
    (hx : x.length = n) (hx' : x'.length = n)
    (h : ∀ b, inner x' b = inner x b + (List.zipWith (fun s e => s * inner e b) S B).sum) :
    sqDist x' x = (S.map fun s => s * s).sum := by
  have hd : ∀ b, inner (List.zipWith (fun x y => x - 1 * y) x' x) b = (List.zipWith (fun s e => s * inner e b) S B).sum := by
    intro b
    rw [inner_sub_smul 1 x' x b (by rw [hx, hx']), h b]
    ring
  rw [sqDist_eq, hd]
  exact zipWith_sum_swap _ x' S B hl fun i s b hs hb => by rw [hd b, zipWith_kronecker S B hl ho i s b hs hb]

/-- One iteration in a good state: what a user of the method can observe. -/
structure Moved (g : List R → R) (cfg : Config R) (n : Nat) (s : State R) (x x' : List R) (steps' : List R) : Prop where
  /-- the new steps come from the old ones in descending order, lengthened where the test improved the value, else reversed -/
  steps : ∃ σ : List R, σ.Perm s.steps ∧ σ.Pairwise (· ≥ ·) ∧ steps' = List.zipWith (nextStep g cfg x) σ s.basis
  count : steps'.length = n
  dim : x'.length = n
  /-- the move along each basis vector is the new step -/
  along : ∀ (i : Nat) t b, steps'[i]? = some t → s.basis[i]? = some b → inner x' b - inner x b = t
  /-- and there is no other move -/
  distance : sqDist x' x = (steps'.map fun t => t * t).sum
  bounded : 0 ≤ cfg.maxStep → ∀ t ∈ steps', |t| ≤ cfg.maxStep
  nonzero : 0 < cfg.maxStep → (∀ t ∈ s.steps, t ≠ 0) → ∀ t ∈ steps', t ≠ 0
  asked : ((makeStep cfg s x).trace g).length = n + 1
  dims : ∀ y ∈ (makeStep cfg s x).trace g, y.length = n

/-- **C48 (one iteration).** In a good state an iteration moves the point by exactly the new step along every basis vector, in total by a
distance whose square is the sum of the squared steps; the new steps are bounded by `max_step` and, unless an old one was, not zero; the
function is evaluated `n + 1` times. -/
theorem C48_iteration (g : List R → R) (cfg : Config R) {n : Nat} {s : State R} (h : Good n s) {x : List R} (hx : x.length = n) :
    ∃ x' steps', (makeStep cfg s x).eval g = .ok (x', steps') ∧ Moved g cfg n s x x' steps' := by
  obtain ⟨x', σ, hp, hsort, hev, hxl, hin, htr⟩ := makeStep_spec g cfg h hx
  have hσ : σ.length = n := by rw [hp.length_eq, h.steps]
  have hl : (List.zipWith (nextStep g cfg x) σ s.basis).length = n := by simp [hσ, h.count]
  have hl' : (List.zipWith (nextStep g cfg x) σ s.basis).length = s.basis.length := by rw [hl, h.count]
  refine ⟨x', _, hev, ⟨σ, hp, hsort, rfl⟩, hl, hxl, ?_, distance_spec h.basis hl' hx hxl hin, ?_, ?_, ?_, ?_⟩
  · intro i t b ht hb
    rw [hin b, zipWith_kronecker _ _ hl' h.basis i t b ht hb]
    ring
  · intro hm t ht
    obtain ⟨i, hi, rfl⟩ := List.mem_iff_getElem.1 ht
    rw [List.getElem_zipWith]
    exact (C48_correct_step cfg hm _).1
  · intro hm hnz t ht
    obtain ⟨i, hi, rfl⟩ := List.mem_iff_getElem.1 ht
    rw [List.getElem_zipWith]
    have hi' : i < σ.length := by rw [hσ, ← hl]; exact hi
    have hne : σ[i] ≠ 0 := hnz _ (hp.mem_iff.1 (List.getElem_mem hi'))
    refine correctStep_ne cfg hm ?_
    split
    · exact mul_ne_zero (by norm_num) hne
    · exact mul_ne_zero (by norm_num) hne
  · rw [htr]; simp [hσ, h.count]
  · rw [htr]
    intro y hy
    rcases List.mem_cons.1 hy with rfl | hy
    · exact hx
    · obtain ⟨i, hi, rfl⟩ := List.mem_iff_getElem.1 hy
      have hi' : i < s.basis.length := by simp at hi; exact hi.2
      rw [List.getElem_zipWith]
      simp [hx, h.basis.1 _ (List.getElem_mem hi')]

theorem initState_good (cfg : Config R) (n : Nat) : Good n (initState cfg n) := by
  refine ⟨⟨?_, ?_⟩, by simp [initState], by simp [initState]⟩
  · intro b hb
    simp only [initState, List.mem_map] at hb
    obtain ⟨i, _, rfl⟩ := hb
    simp
  · have row : ∀ (i : Nat) a, (initState cfg n).basis[i]? = some a →
        i < n ∧ a = (List.range n).map fun j => if j = i then (1 : R) else 0 := by
      intro i a ha
      simp only [initState, List.getElem?_map] at ha
      by_cases hi : i < n
      · rw [List.getElem?_range hi] at ha
        simp at ha
        exact ⟨hi, by simpa using ha.symm⟩
      · rw [List.getElem?_eq_none (by simpa using hi)] at ha; simp at ha
    have key : ∀ (n i j k : Nat), k ≤ i →
        inner ((List.range' k n).map fun l => if l = i then (1 : R) else 0) ((List.range' k n).map fun l => if l = j then (1 : R) else 0) =
          if i = j ∧ i < k + n then 1 else 0 := by
      intro n
      induction n with
      | zero => intro i j k hk; rw [if_neg (by omega)]; simp [inner]
      | succ n ih =>
        intro i j k hk
        simp only [List.range'_succ, List.map_cons, inner, List.zipWith_cons_cons, List.sum_cons]
        by_cases hki : k = i
        · subst hki
          have hz : ∀ (m l : Nat), k < l →
              (List.zipWith (· * ·) ((List.range' l m).map fun l => if l = k then (1 : R) else 0)
                ((List.range' l m).map fun l => if l = j then (1 : R) else 0)).sum = 0 := by
            intro m
            induction m with
            | zero => intro l _; simp
            | succ m ihm =>
              intro l hl
              simp only [List.range'_succ, List.map_cons, List.zipWith_cons_cons, List.sum_cons]
              rw [ihm (l + 1) (by omega), if_neg (by omega)]
              simp
          rw [hz n (k + 1) (by omega)]
          by_cases hkj : k = j
          · subst hkj; simp
          · simp [hkj]
        · have := ih i j (k + 1) (by omega)
          simp only [inner] at this
          rw [this, if_neg hki, zero_mul, zero_add]
          congr 1
          apply propext
          constructor <;> (rintro ⟨a, b⟩; exact ⟨a, by omega⟩)
    intro i j a b ha hb
    obtain ⟨hi, rfl⟩ := row i a ha
    obtain ⟨hj, rfl⟩ := row j b hb
    rw [List.range_eq_range', key n i j 0 (Nat.zero_le _)]
    congr 1
    apply propext
    constructor
    · exact fun h => h.1
    · exact fun h => ⟨h, by omega⟩

theorem exitCriteria_iff (cfg : Config R) : ∀ (p q : List R), exitCriteria cfg p q = true ↔
    ∀ (i : Nat) x y, p[i]? = some x → q[i]? = some y → |x - y| ≤ cfg.precision := by
  have key : ∀ (L : List (R × R)) (b : Bool),
      L.foldl (fun escape p => if |p.1 - p.2| > cfg.precision then false else escape) b = true ↔
        b = true ∧ ∀ p ∈ L, |p.1 - p.2| ≤ cfg.precision := by
    intro L
    induction L with
    | nil => intro b; simp
    | cons p L ih =>
      intro b
      simp only [List.foldl_cons]
      rw [ih]
      by_cases hp : |p.1 - p.2| > cfg.precision
      · simp [hp, not_le.2 hp]
      · simp [hp, not_lt.1 hp]
  intro p q
  rw [exitCriteria, key]
  constructor
  · rintro ⟨_, h⟩ i x y hx hy
    exact h (x, y) (List.mem_of_getElem? (List.getElem?_zip_eq_some.2 ⟨hx, hy⟩))
  · intro h
    refine ⟨rfl, fun r hr => ?_⟩
    obtain ⟨i, hi⟩ := List.mem_iff_getElem?.1 hr
    obtain ⟨h1, h2⟩ := List.getElem?_zip_eq_some.1 hi
    exact h i r.1 r.2 h1 h2

/-- Some coordinate of the two points differs by more than the precision. -/
def Far (cfg : Config R) (p q : List R) : Prop := ∃ (i : Nat) (x y : R), p[i]? = some x ∧ q[i]? = some y ∧ cfg.precision < |x - y|

/-- The iterations of a call: `(state, point)` at the beginning of each, the point reached by the last being `result`. -/
inductive Iterations (sqrt : R → R) (g : List R → R) (cfg : Config R) (n : Nat) :
    State R → List R → List (State R × List R) → List R → Prop
  | none (s : State R) (x : List R) : Iterations sqrt g cfg n s x [] x
  | last {s : State R} {x x' steps' : List R} : Good n s → Moved g cfg n s x x' steps' → ¬ Far cfg x' x →
      Iterations sqrt g cfg n s x [(s, x)] x'
  | more {s s' : State R} {x x' r : List R} {L : List (State R × List R)} : Good n s → Moved g cfg n s x x' s'.steps → Far cfg x' x →
      Iterations sqrt g cfg n s' x' L r → Iterations sqrt g cfg n s x ((s, x) :: L) r

theorem Iterations.good {sqrt : R → R} {g : List R → R} {cfg : Config R} {n : Nat} {s : State R} {x r : List R}
    {L : List (State R × List R)} (h : Iterations sqrt g cfg n s x L r) : ∀ p ∈ L, Good n p.1 := by
  induction h with
  | none => simp
  | last h => simpa using h
  | more h _ _ _ ih =>
    intro p hp
    rcases List.mem_cons.1 hp with rfl | hp
    · exact h
    · exact ih p hp

theorem loop_spec {sqrt : R → R} (hsq : SqrtOk sqrt) (g : List R → R) (cfg : Config R) (hm : 0 < cfg.maxStep) {n : Nat} :
    ∀ (k : Nat) (s : State R) (x : List R), Good n s → (∀ t ∈ s.steps, t ≠ 0) → x.length = n →
    ∃ r L, (loop sqrt cfg k s x).eval g = .ok (r, L) ∧ Iterations sqrt g cfg n s x L r ∧ L.length ≤ k ∧ r.length = n ∧
      (0 < k → L ≠ []) ∧
      ((loop sqrt cfg k s x).trace g).length = (n + 1) * L.length ∧ (∀ y ∈ (loop sqrt cfg k s x).trace g, y.length = n) ∧
      (L.length < k → ∀ s' x', L.getLast? = some (s', x') → ¬ Far cfg r x') ∧
      ∀ p ∈ L, ∀ t ∈ p.1.steps, t ≠ 0
  | 0, s, x, _, _, hx => ⟨x, [], rfl, .none s x, by simp, hx, by simp, by simp [loop], by simp [loop], by simp, by simp⟩
  | k + 1, s, x, hg, hnz, hx => by
    obtain ⟨x', steps', hev, hmv⟩ := C48_iteration g cfg hg hx
    have hfar : exitCriteria cfg x' x = true ↔ ¬ Far cfg x' x := by
      rw [exitCriteria_iff, Far]
      push Not
      rfl
    by_cases hc : exitCriteria cfg x' x = true
    · refine ⟨x', [(s, x)], ?_, .last hg hmv (hfar.1 hc), by simp, hmv.dim, by simp, ?_, ?_, ?_, ?_⟩
      · simp only [loop, Prog.eval_bind, hev, Res.ok_bind, hc, if_true]; rfl
      · simp only [loop, Prog.trace_bind, hev, hc, if_true]
        simp [hmv.asked]
      · simp only [loop, Prog.trace_bind, hev, hc, if_true]
        simpa using hmv.dims
      · intro _ s' y hl
        simp at hl
        obtain ⟨rfl, rfl⟩ := hl
        exact hfar.1 hc
      · simpa using hnz
    · have hnz' := hmv.nonzero hm hnz
      obtain ⟨b1, b2⟩ := C48_new_basis hsq hg.basis hg.count hmv.count hnz'
      obtain ⟨r, L, e, hi, h1, h2, hpos, h3, h4, h5, h6⟩ := loop_spec hsq g cfg hm k ⟨createNewBasis sqrt n steps' s.basis, steps'⟩ x'
        ⟨b1, b2, hmv.count⟩ hnz' hmv.dim
      refine ⟨r, (s, x) :: L, ?_, .more (s' := ⟨createNewBasis sqrt n steps' s.basis, steps'⟩) hg hmv (not_not.1 fun h => hc (hfar.2 h)) hi,
        by simp; omega, h2, by simp, ?_, ?_, ?_, ?_⟩
      · simp only [loop, Prog.eval_bind, hev, Res.ok_bind, hc, hx]
        rw [if_neg (by simp)]
        simp only [Prog.eval_bind, e]
        rfl
      · simp only [loop, Prog.trace_bind, hev, hc, hx]
        rw [if_neg (by simp)]
        simp only [Prog.trace_bind, e]
        simp [hmv.asked, h3]
        ring
      · simp only [loop, Prog.trace_bind, hev, hc, hx]
        rw [if_neg (by simp)]
        simp only [Prog.trace_bind, e]
        intro y hy
        simp at hy
        rcases hy with hy | hy
        · exact hmv.dims y hy
        · exact h4 y hy
      · intro hk s' y hl
        by_cases hL : L = []
        · subst hL
          simp at hk
          exact absurd rfl (hpos (by omega))
        · rw [List.getLast?_cons_of_ne_nil hL] at hl
          exact h5 (by simpa using hk) s' y hl
      · intro p hp t ht
        rcases List.mem_cons.1 hp with rfl | hp
        · exact hnz t ht
        · exact h6 p hp t ht

/-- **C48 (whole calls).** With a non-zero first step and a positive `max_step`, for every function and start: a call performs at most
`max_iteration_number` iterations of `n + 1` evaluations each; at the beginning of every iteration the basis consists of `n` orthonormal
vectors and no step is zero; and if there were fewer iterations than allowed, no coordinate changed by more than the precision in the
last one. -/
theorem C48_run {sqrt : R → R} (hsq : SqrtOk sqrt) (g : List R → R) (cfg : Config R) (hf : cfg.firstStep ≠ 0) (hm : 0 < cfg.maxStep)
    (initial : List R) :
    ∃ r L, (run sqrt cfg initial).eval g = .ok (r, L) ∧ (find sqrt cfg initial).eval g = .ok r ∧
      Iterations sqrt g cfg initial.length (initState cfg initial.length) initial L r ∧
      L.length ≤ cfg.maxIterations ∧ r.length = initial.length ∧
      ((find sqrt cfg initial).trace g).length = (initial.length + 1) * L.length ∧
      (∀ y ∈ (find sqrt cfg initial).trace g, y.length = initial.length) ∧
      (∀ p ∈ L, Orthonormal initial.length p.1.basis ∧ p.1.basis.length = initial.length ∧ ∀ t ∈ p.1.steps, t ≠ 0) ∧
      (L.length < cfg.maxIterations → ∀ s' x', L.getLast? = some (s', x') → ¬ Far cfg r x') := by
  obtain ⟨r, L, e, hi, h1, h2, _, h3, h4, h5, h6⟩ := loop_spec hsq g cfg hm cfg.maxIterations (initState cfg initial.length) initial
    (initState_good cfg _) (by simp [initState, hf]) rfl
  have hgood : ∀ p ∈ L, Good initial.length p.1 := hi.good
  have htr : (find sqrt cfg initial).trace g = (loop sqrt cfg cfg.maxIterations (initState cfg initial.length) initial).trace g := by
    simp only [find, run, Prog.trace_bind, e]
    simp
  refine ⟨r, L, e, ?_, hi, h1, h2, by rw [htr, h3], by rw [htr]; exact h4, fun p hp => ⟨(hgood p hp).basis, (hgood p hp).count, h6 p hp⟩, h5⟩
  simp only [find, run, Prog.eval_bind, e]
  rfl

/-! ### C48: the first new direction is that of the last move -/

theorem eq_of_inner {p q : List R} (hl : p.length = q.length) (h : ∀ c, inner p c = inner q c) : p = q := by
  have hd : ∀ c, inner (List.zipWith (fun x y => x - 1 * y) p q) c = 0 := by
    intro c; rw [inner_sub_smul 1 p q c hl, h c]; ring
  have h0 := hd (List.zipWith (fun x y => x - 1 * y) p q)
  clear h hd
  induction p generalizing q with
  | nil => cases q with
    | nil => rfl
    | cons _ _ => simp at hl
  | cons x p ih =>
    cases q with
    | nil => simp at hl
    | cons y q =>
      have e : inner (List.zipWith (fun x y => x - 1 * y) (x :: p) (y :: q)) (List.zipWith (fun x y => x - 1 * y) (x :: p) (y :: q)) =
          (x - 1 * y) * (x - 1 * y) + inner (List.zipWith (fun x y => x - 1 * y) p q) (List.zipWith (fun x y => x - 1 * y) p q) := by
        simp [inner]
      rw [e] at h0
      have n1 := mul_self_nonneg (x - 1 * y)
      have n2 := inner_self_nonneg (List.zipWith (fun x y => x - 1 * y) p q)
      have e1 : (x - 1 * y) * (x - 1 * y) = 0 := by linarith
      have e2 := ih (q := q) (by simpa using hl) (by linarith)
      have e3 : x - 1 * y = 0 := by simpa using e1
      rw [e2, show x = y by linarith]

theorem gramSchmidt_prefix (sqrt : R → R) : ∀ (rows found : List (List R)), ∃ rest, gramSchmidt sqrt found rows = found ++ rest
  | [], found => ⟨[], by simp [gramSchmidt]⟩
  | row :: rows, found => by
    obtain ⟨rest, h⟩ := gramSchmidt_prefix sqrt rows (found ++ [normalize sqrt (orthogonalize found row)])
    exact ⟨normalize sqrt (orthogonalize found row) :: rest, by simp [gramSchmidt, h]⟩

/-- **C48 (direction).** After an iteration in a good state with non-zero steps the first vector of the new basis points in the direction of
the move just made: the move is that vector times its length. -/
theorem C48_first_direction {sqrt : R → R} (hsq : SqrtOk sqrt) (g : List R → R) (cfg : Config R) (hm : 0 < cfg.maxStep) {n : Nat} (hn : 0 < n)
    {s : State R} (h : Good n s) (hnz : ∀ t ∈ s.steps, t ≠ 0) {x : List R} (hx : x.length = n) :
    ∃ x' steps' v t, (makeStep cfg s x).eval g = .ok (x', steps') ∧ (createNewBasis sqrt n steps' s.basis)[0]? = some v ∧
      0 < t ∧ t * t = sqDist x' x ∧ x' = List.zipWith (fun a d => a + t * d) x v := by
  obtain ⟨x', σ, hp, hsort, hev, hxl, hin, htr⟩ := makeStep_spec g cfg h hx
  obtain ⟨x'', steps', hev', hmv⟩ := C48_iteration g cfg h hx
  rw [hev] at hev'
  have hinj := Res.ok.inj hev'
  simp only [Prod.mk.injEq] at hinj
  obtain ⟨rfl, hst⟩ := hinj
  rw [hst] at hev hin
  have hnz' := hmv.nonzero hm hnz
  have hl' : steps'.length = s.basis.length := by rw [hmv.count, h.count]
  set m := rowSum n steps' s.basis 0 with hmdef
  have hmi : ∀ c, inner m c = (List.zipWith (fun s e => s * inner e c) steps' s.basis).sum := by
    intro c
    rw [hmdef, rowSum, (accumulate_inner n c _ _ (fun p hp => h.basis.1 _ (List.of_mem_zip (List.mem_of_mem_drop hp)).2) (by simp)).1,
      inner_replicate_zero, zero_add, List.drop_zero, List.zip, List.map_zipWith]
  have hml : m.length = n := rowSum_length h.basis 0
  have hxm : x' = List.zipWith (fun a d => a + 1 * d) x m := by
    refine eq_of_inner (by simp [hxl, hx, hml]) fun c => ?_
    rw [hin c, inner_add_smul 1 x m c (by rw [hx, hml]), hmi c]
    ring
  have hmm : inner m m = sqDist x' x := by
    have e : List.zipWith (fun a b => a - 1 * b) x' x = m := by
      refine eq_of_inner (by simp [hxl, hx, hml]) fun c => ?_
      rw [inner_sub_smul 1 x' x c (by rw [hx, hxl]), hin c, hmi c]
      ring
    rw [sqDist_eq, e]
  have hmne : inner m m ≠ 0 := by
    have h0 : 0 < s.basis.length := by rw [h.count]; exact hn
    have h0s : 0 < steps'.length := by rw [hmv.count]; exact hn
    intro hz
    have e := inner_eq_zero_of_self m s.basis[0] hz
    rw [hmdef, rowSum_inner h.basis hl' 0 0 _ (List.getElem?_eq_getElem h0), if_pos le_rfl, List.getElem?_eq_getElem h0s] at e
    exact hnz' _ (List.getElem_mem h0s) e
  obtain ⟨t, ht, htt, hnorm⟩ := normalize_spec hsq hmne
  obtain ⟨rest, hrest⟩ := gramSchmidt_prefix sqrt ((List.range' 1 (n - 1)).map (rowSum n steps' s.basis)) [normalize sqrt m]
  refine ⟨x', steps', normalize sqrt m, t, hev, ?_, ht, by rw [htt, hmm], ?_⟩
  · have e : matrixOfCoeff n steps' s.basis = m :: (List.range' 1 (n - 1)).map (rowSum n steps' s.basis) := by
      unfold matrixOfCoeff
      obtain ⟨k, rfl⟩ : ∃ k, n = k + 1 := ⟨n - 1, by omega⟩
      rw [List.range_eq_range', List.range'_succ]
      simp [hmdef]
    rw [createNewBasis, e, gramSchmidt]
    simp only [orthogonalize, List.foldl_nil, List.nil_append]
    rw [hrest]
    rfl
  · rw [hxm, hnorm, List.zipWith_map_right]
    congr 1
    funext a d
    field_simp

/-! ### C66: every iteration moves, so the method does not stay at an optimum -/

theorem exists_ne_of_moved {g : List R → R} {cfg : Config R} {n : Nat} {s : State R} {x x' steps' : List R} (hmv : Moved g cfg n s x x' steps')
    (hn : 0 < n) (hnz : ∀ t ∈ steps', t ≠ 0) : 0 < sqDist x' x := by
  rw [hmv.distance]
  have hl : steps' ≠ [] := by intro h; have := hmv.count; rw [h] at this; simp at this; omega
  obtain ⟨t, ts, rfl⟩ := List.exists_cons_of_ne_nil hl
  have h1 : 0 < t * t := by
    exact mul_self_pos.2 (hnz t (by simp))
  have h2 : 0 ≤ (ts.map fun t => t * t).sum := by
    refine List.sum_nonneg fun y hy => ?_
    obtain ⟨z, _, rfl⟩ := List.mem_map.1 hy
    exact mul_self_nonneg z
  simp only [List.map_cons, List.sum_cons]
  linarith

theorem sqDist_self (x : List R) : sqDist x x = 0 := by
  induction x with
  | nil => simp [sqDist]
  | cons a x ih => simp [sqDist]

/-- **C66.** Each of the first iterations moves the point whatever the function: started at the strict minimum of a function (in at least one
dimension) and limited to one iteration, the method returns a worse point. -/
theorem C66_leaves_the_minimum (sqrt : R → R) (g : List R → R) (cfg : Config R) (hf : cfg.firstStep ≠ 0)
    (hm : 0 < cfg.maxStep) (hone : cfg.maxIterations = 1) (initial : List R) (hne : initial ≠ []) (hmin : ∀ y, y ≠ initial → g initial < g y) :
    ∃ r, (find sqrt cfg initial).eval g = .ok r ∧ r ≠ initial ∧ g initial < g r := by
  have hn : 0 < initial.length := List.length_pos_iff.2 hne
  have hg := initState_good cfg initial.length
  have hnz : ∀ t ∈ (initState cfg initial.length).steps, t ≠ 0 := by simp [initState, hf]
  obtain ⟨x', steps', hev, hmv⟩ := C48_iteration g cfg hg rfl
  have hpos := exists_ne_of_moved hmv hn (hmv.nonzero hm hnz)
  have hr : (find sqrt cfg initial).eval g = .ok x' := by
    simp only [find, run, hone, loop, Prog.eval_bind, hev, Res.ok_bind]
    split <;> rfl
  have hx : x' ≠ initial := by rintro rfl; rw [sqDist_self] at hpos; exact lt_irrefl _ hpos
  exact ⟨x', hr, hx, hmin x' hx⟩

/-- **C66 (moves).** In every iteration of every call (first step not zero, `max_step` positive, at least one dimension) the point changes. -/
theorem C66_always_moves {sqrt : R → R} (hsq : SqrtOk sqrt) (g : List R → R) (cfg : Config R) (hf : cfg.firstStep ≠ 0)
    (hm : 0 < cfg.maxStep) (initial : List R) (hne : initial ≠ []) :
    ∃ r L, (run sqrt cfg initial).eval g = .ok (r, L) ∧
      ∀ (i : Nat) p q, (L.map Prod.snd ++ [r])[i]? = some p → (L.map Prod.snd ++ [r])[i + 1]? = some q → q ≠ p := by
  obtain ⟨r, L, e, _, hi, _, _, _, _, hL, _⟩ := C48_run hsq g cfg hf hm initial
  refine ⟨r, L, e, ?_⟩
  have hn : 0 < initial.length := List.length_pos_iff.2 hne
  have hnz : ∀ p ∈ L, ∀ t ∈ p.1.steps, t ≠ 0 := fun p hp => (hL p hp).2.2
  have key : ∀ {s : State R} {x r : List R} {L : List (State R × List R)}, Iterations sqrt g cfg initial.length s x L r →
      (∀ p ∈ L, ∀ t ∈ p.1.steps, t ≠ 0) → (L.map Prod.snd ++ [r])[0]? = some x ∧
      ∀ (i : Nat) p q, (L.map Prod.snd ++ [r])[i]? = some p → (L.map Prod.snd ++ [r])[i + 1]? = some q → q ≠ p := by
    intro s x r L h
    induction h with
    | none => intro _; exact ⟨by simp, fun i p q _ h2 => by simp at h2⟩
    | last hg hmv hfar =>
      intro hz
      refine ⟨by simp, fun i p q h1 h2 => ?_⟩
      have hpos := exists_ne_of_moved hmv hn (hmv.nonzero hm (hz _ List.mem_cons_self))
      match i with
      | 0 =>
        simp at h1 h2
        subst h1 h2
        rintro rfl
        rw [sqDist_self] at hpos; exact lt_irrefl _ hpos
      | i + 1 => simp at h2
    | more hg hmv hfar hrest ih =>
      intro hz
      obtain ⟨i1, i2⟩ := ih fun p hp => hz p (by simp [hp])
      refine ⟨by simp, fun i p q h1 h2 => ?_⟩
      have hpos := exists_ne_of_moved hmv hn (hmv.nonzero hm (hz _ List.mem_cons_self))
      match i with
      | 0 =>
        simp only [List.map_cons, List.cons_append, List.getElem?_cons_zero, Option.some.injEq] at h1
        simp only [List.map_cons, List.cons_append, Nat.zero_add, List.getElem?_cons_succ] at h2
        rw [i1] at h2
        obtain rfl := Option.some.inj h2
        subst h1
        rintro rfl
        rw [sqDist_self] at hpos; exact lt_irrefl _ hpos
      | i + 1 => exact i2 i p q (by simpa using h1) (by simpa using h2)
  exact (key hi hnz).2

/-- Non-vacuity of the hypotheses about the square root. -/
example : SqrtOk Real.sqrt := fun x hx => ⟨Real.sqrt_nonneg x, Real.mul_self_sqrt hx⟩

/-- Non-vacuity: three iterations on `|x|` from 0 (with a square root that is right for the numbers that occur); the method ends at 5/8. -/
example : (find (fun x : ℚ => if x = 1 / 4 then 1 / 2 else if x = 9 / 16 then 3 / 4 else x) ⟨1 / 100, 3, 1, 3⟩ [0]).eval
    (fun v => |v.headD 0|) = .ok [5 / 8] := by decide +kernel

end K52.Rosenbrock
