import Verif.Model.WaveletObj
import Verif.Props.Cwt

/-!
# C97: changing the settings of a wavelet that was already built
-/

namespace K52.WaveletObj

open K52.Dsp (rd fillLoop fillLoop_ok)
open K52.Cwt (ScaleType refScale refPoint DivOk createScale_eq padded padded_length padded_getD sig RealArgs)
open Finset

noncomputable section

/-! ## Specification -/

/-- `o'` is `o` after any sequence of setter calls. -/
inductive Configured (o : Obj) : Obj → Prop
  | refl : Configured o o
  | base {o'} (f : Option (ℝ → ℂ)) : Configured o o' → Configured o (o'.setBase f)
  | count {o'} (n : Int) : Configured o o' → Configured o (o'.setCount n)
  | max {o'} (n : Int) : Configured o o' → Configured o (o'.setMax n)
  | min {o'} (n : Int) : Configured o o' → Configured o (o'.setMin n)

/-- The correlation of row `i` of the wavelet sampled with the given settings and `maxLength` samples of the data. -/
def corr (f : ℝ → ℂ) (type : ScaleType) (minLength maxLength : Int) (count i : Nat) (data : Nat → ℝ) : ℂ :=
  ∑ j ∈ range maxLength.toNat, f (refPoint maxLength.toNat (refScale type minLength maxLength count i) j) * (data j : ℂ)

/-! ## Lemmas -/

theorem fillLoop_ub {α : Type} {N : Nat} {f : Nat → Res α} (h : ∀ i < N, f i = .ub ∨ ∃ v, f i = .ok v) (hb : ∃ i < N, f i = .ub) :
    fillLoop N f = .ub := by
  unfold fillLoop
  have key : ∀ l : List Nat, (∀ i ∈ l, f i = .ub ∨ ∃ v, f i = .ok v) → (∃ i ∈ l, f i = .ub) → l.mapM f = .ub := by
    intro l
    induction l with
    | nil => rintro - ⟨i, hi, -⟩; simp at hi
    | cons a l ih =>
      intro h1 h2
      rw [List.mapM_cons]
      rcases h1 a (by simp) with e | ⟨v, e⟩
      · rw [e]; rfl
      · rw [e, Res.ok_bind]
        rw [ih (fun i hi => h1 i (by simp [hi])) ?_]
        · rfl
        · obtain ⟨i, hi, hu⟩ := h2
          simp only [List.mem_cons] at hi
          rcases hi with rfl | hi
          · rw [e] at hu; cases hu
          · exact ⟨i, hi, hu⟩
  exact key _ (by simpa using h) (by simpa using hb)

theorem rd_ok {α : Type} {v : List α} {i : Nat} (d : α) (h : i < v.length) : rd v i = .ok (v.getD i d) := by
  unfold rd
  rw [List.getElem?_eq_getElem h]
  simp [h]

theorem inner_ok (ws data : List ℝ) (offset : Nat) (acc : ℝ) (h : offset + ws.length ≤ data.length) :
    inner ws data offset acc = .ok (acc + ∑ j ∈ range ws.length, ws.getD j 0 * data.getD (offset + j) 0) := by
  induction ws generalizing offset acc with
  | nil => simp [inner]
  | cons w ws ih =>
    simp only [List.length_cons] at h
    unfold inner
    rw [rd_ok 0 (by omega), Res.ok_bind, ih _ _ (by omega)]
    congr 1
    rw [List.length_cons, sum_range_succ']
    simp only [List.getD_cons_succ, List.getD_cons_zero, add_zero]
    have : ∀ j, offset + 1 + j = offset + (j + 1) := fun j => by omega
    simp only [this]
    ring

theorem inner_ub (ws data : List ℝ) (offset : Nat) (acc : ℝ) (h0 : 0 < ws.length) (h : data.length < offset + ws.length) :
    inner ws data offset acc = .ub := by
  induction ws generalizing offset acc with
  | nil => simp at h0
  | cons w ws ih =>
    unfold inner
    by_cases hd : offset < data.length
    · rw [rd_ok 0 hd, Res.ok_bind]
      simp only [List.length_cons] at h
      exact ih _ _ (by omega) (by omega)
    · unfold rd
      rw [List.getElem?_eq_none (by omega)]
      rfl

theorem getD_map_r {α : Type} {n j : Nat} {d : α} (g : Nat → α) (h : j < n) : ((List.range n).map g).getD j d = g j := by
  simp [List.getD_eq_getElem?_getD, h]

/-- The samples of row `i`. -/
def row (f : ℝ → ℂ) (type : ScaleType) (mn mx : Int) (c i : Nat) : List ℂ :=
  (List.range mx.toNat).map fun j => f (refPoint mx.toNat (refScale type mn mx c i) j)

/-- The state after a successful `createWavelet`. -/
structure Created (f : ℝ → ℂ) (type : ScaleType) (mn mx : Int) (c : Nat) (o : Obj) : Prop where
  real : o.real = (List.range c).map fun i => (row f type mn mx c i).map Complex.re
  imag : o.imag = (List.range c).map fun i => (row f type mn mx c i).map Complex.im
  scale : o.scale = (List.range c).map (refScale type mn mx c)

theorem create_ok {o : Obj} {f : ℝ → ℂ} {type : ScaleType} (hb : o.base = some f) (hc : 0 ≤ o.count) (hm : 0 < o.count → 0 ≤ o.maxLength)
    (hd : DivOk type o.minLength o.maxLength) :
    ∃ o', o.create type = (o', .ok ()) ∧ Created f type o.minLength o.maxLength o.count.toNat o' ∧ o'.base = o.base ∧ o'.count = o.count ∧
      o'.maxLength = o.maxLength ∧ o'.minLength = o.minLength := by
  have e : fillLoop o.count.toNat (fun i => do
      let s ← rd ((List.range o.count.toNat).map (refScale type o.minLength o.maxLength o.count.toNat)) i
      fillLoop o.maxLength.toNat fun j => .ok (f (Cwt.samplePoint o.maxLength.toNat s j))) =
      .ok ((List.range o.count.toNat).map fun i => row f type o.minLength o.maxLength o.count.toNat i) := by
    refine fillLoop_ok fun i hi => ?_
    have : rd ((List.range o.count.toNat).map (refScale type o.minLength o.maxLength o.count.toNat)) i =
        .ok (refScale type o.minLength o.maxLength o.count.toNat i) := by
      simp [rd, hi]
    rw [this, Res.ok_bind]
    exact fillLoop_ok fun j _ => rfl
  refine ⟨{ o with
    scale := (List.range o.count.toNat).map (refScale type o.minLength o.maxLength o.count.toNat),
    real := ((List.range o.count.toNat).map fun i => row f type o.minLength o.maxLength o.count.toNat i).map (·.map Complex.re),
    imag := ((List.range o.count.toNat).map fun i => row f type o.minLength o.maxLength o.count.toNat i).map (·.map Complex.im) },
    ?_, ⟨?_, ?_, rfl⟩, rfl, rfl, rfl, rfl⟩
  · unfold Obj.create
    rw [hb]
    simp only
    rw [if_neg (by omega), if_neg (by omega), createScale_eq hd]
    simp only [Res.ok_bind]
    rw [e]
    rfl
  · simp [List.map_map, Function.comp_def]
  · simp [List.map_map, Function.comp_def]

theorem create_inv {o : Obj} {type : ScaleType} (h : (o.create type).2 = .ok ()) :
    ∃ f, o.base = some f ∧ 0 ≤ o.count ∧ (0 < o.count → 0 ≤ o.maxLength) ∧ DivOk type o.minLength o.maxLength := by
  unfold Obj.create at h
  split at h
  · cases h
  · next f hf =>
    split at h
    · cases h
    · next h1 =>
      split at h
      · cases h
      · next h2 =>
        refine ⟨f, hf, by omega, by omega, fun ht => ?_⟩
        subst ht
        by_contra hc
        have : Cwt.createScale .linear o.minLength o.maxLength o.count.toNat = .ub := by
          unfold Cwt.createScale Cwt.createScaleBy Cwt.intDiv
          by_cases h0 : o.minLength = 0
          · simp [h0]
          · rw [if_neg h0]
            unfold int32
            rw [if_neg (by tauto)]
            rfl
        simp only [this] at h
        cases h

theorem create_ub {o : Obj} {f : ℝ → ℂ} {type : ScaleType} (hb : o.base = some f) (hc : ¬ o.count < 0)
    (hm : ¬ (0 < o.count ∧ o.maxLength < 0)) (hs : Cwt.createScale type o.minLength o.maxLength o.count.toNat = .ub) :
    o.create type = (o, .ub) := by
  unfold Obj.create
  rw [hb]
  simp only
  rw [if_neg hc, if_neg hm, hs]
  rfl

theorem Created.configured {f : ℝ → ℂ} {type : ScaleType} {mn mx : Int} {c : Nat} {o o' : Obj} (h : Created f type mn mx c o)
    (hc : Configured o o') : Created f type mn mx c o' := by
  induction hc with
  | refl => exact h
  | base _ _ ih => exact ⟨ih.real, ih.imag, ih.scale⟩
  | count _ _ ih => exact ⟨ih.real, ih.imag, ih.scale⟩
  | max _ _ ih => exact ⟨ih.real, ih.imag, ih.scale⟩
  | min _ _ ih => exact ⟨ih.real, ih.imag, ih.scale⟩

theorem map_range_ne {α : Type} {c : Nat} (hc : 0 < c) (g : Nat → α) : (List.range c).map g ≠ [] := by
  intro hh
  have := congrArg List.length hh
  simp at this
  omega

/-- One entry of a row. -/
theorem entry_ok {f : ℝ → ℂ} {type : ScaleType} {mn mx : Int} {c : Nat} {o : Obj} (h : Created f type mn mx c o) (data : List ℝ)
    (offset i : Nat) (hi : i < c) (hl : offset + mx.toNat ≤ data.length) :
    (do
      let re ← rd o.real i
      let a ← inner re data offset 0
      let im ← rd o.imag i
      let b ← inner im data offset 0
      return Real.sqrt (a * a + b * b)) = Res.ok ‖corr f type mn mx c i fun j => data.getD (offset + j) 0‖ := by
  have hr : rd o.real i = .ok ((row f type mn mx c i).map Complex.re) := by rw [h.real]; simp [rd, hi]
  have hm : rd o.imag i = .ok ((row f type mn mx c i).map Complex.im) := by rw [h.imag]; simp [rd, hi]
  rw [hr, hm]
  simp only [Res.ok_bind]
  rw [inner_ok _ _ _ _ (by simpa [row] using hl), inner_ok _ _ _ _ (by simpa [row] using hl)]
  simp only [Res.ok_bind, Res.pure_eq, zero_add]
  congr 1
  have e1 : (∑ j ∈ range ((row f type mn mx c i).map Complex.re).length, ((row f type mn mx c i).map Complex.re).getD j 0 *
      data.getD (offset + j) 0) = (corr f type mn mx c i fun j => data.getD (offset + j) 0).re := by
    unfold corr
    rw [Complex.re_sum]
    simp only [row, List.length_map, List.length_range, List.map_map]
    refine sum_congr rfl fun j hj => ?_
    rw [getD_map_r _ (mem_range.1 hj)]
    simp
  have e2 : (∑ j ∈ range ((row f type mn mx c i).map Complex.im).length, ((row f type mn mx c i).map Complex.im).getD j 0 *
      data.getD (offset + j) 0) = (corr f type mn mx c i fun j => data.getD (offset + j) 0).im := by
    unfold corr
    rw [Complex.im_sum]
    simp only [row, List.length_map, List.length_range, List.map_map]
    refine sum_congr rfl fun j hj => ?_
    rw [getD_map_r _ (mem_range.1 hj)]
    simp
  rw [e1, e2, ← Complex.normSq_apply, ← Complex.norm_def]

theorem entry_short {f : ℝ → ℂ} {type : ScaleType} {mn mx : Int} {c : Nat} {o : Obj} (h : Created f type mn mx c o) (data : List ℝ)
    (offset i : Nat) (hi : i < c) (h0 : 0 < mx.toNat) (hl : data.length < offset + mx.toNat) :
    (do
      let re ← rd o.real i
      let a ← inner re data offset 0
      let im ← rd o.imag i
      let b ← inner im data offset 0
      return Real.sqrt (a * a + b * b)) = Res.ub := by
  have hr : rd o.real i = .ok ((row f type mn mx c i).map Complex.re) := by rw [h.real]; simp [rd, hi]
  rw [hr]
  simp only [Res.ok_bind]
  rw [inner_ub _ _ _ _ (by simpa [row] using h0) (by simpa [row] using hl)]
  rfl

theorem entry_out {f : ℝ → ℂ} {type : ScaleType} {mn mx : Int} {c : Nat} {o : Obj} (h : Created f type mn mx c o) (data : List ℝ)
    (offset i : Nat) (hi : c ≤ i) :
    (do
      let re ← rd o.real i
      let a ← inner re data offset 0
      let im ← rd o.imag i
      let b ← inner im data offset 0
      return Real.sqrt (a * a + b * b)) = Res.ub := by
  have hr : rd o.real i = .ub := by
    rw [h.real]; unfold rd; rw [List.getElem?_eq_none (by simpa using hi)]
  rw [hr]; rfl

theorem entry_cases {f : ℝ → ℂ} {type : ScaleType} {mn mx : Int} {c : Nat} {o : Obj} (h : Created f type mn mx c o) (data : List ℝ)
    (offset i : Nat) :
    (do
      let re ← rd o.real i
      let a ← inner re data offset 0
      let im ← rd o.imag i
      let b ← inner im data offset 0
      return Real.sqrt (a * a + b * b)) = Res.ub ∨ ∃ v, (do
      let re ← rd o.real i
      let a ← inner re data offset 0
      let im ← rd o.imag i
      let b ← inner im data offset 0
      return Real.sqrt (a * a + b * b)) = Res.ok v := by
  by_cases hi : i < c
  · by_cases hl : offset + mx.toNat ≤ data.length
    · exact .inr ⟨_, entry_ok h data offset i hi hl⟩
    · by_cases h0 : 0 < mx.toNat
      · exact .inl (entry_short h data offset i hi h0 (by omega))
      · right
        have hr : rd o.real i = .ok [] := by
          rw [h.real]; simp [rd, hi, row, show mx.toNat = 0 by omega]
        have hm : rd o.imag i = .ok [] := by
          rw [h.imag]; simp [rd, hi, row, show mx.toNat = 0 by omega]
        rw [hr, hm]
        exact ⟨_, rfl⟩
  · exact .inl (entry_out h data offset i (by omega))

theorem transform_unfold (o : Obj) (data : List ℝ) (offset : Nat) : o.transform data offset =
    if o.real = [] ∨ o.imag = [] ∨ o.scale = [] then .throw "Wavelet isn't ready"
    else if o.count < 0 then .throw "length_error"
    else
      fillLoop o.count.toNat fun i => do
        let re ← rd o.real i
        let a ← inner re data offset 0
        let im ← rd o.imag i
        let b ← inner im data offset 0
        return Real.sqrt (a * a + b * b) := by
  unfold Obj.transform transformOf
  simp only [List.isEmpty_iff]

theorem Created.transform {f : ℝ → ℂ} {type : ScaleType} {mn mx : Int} {c : Nat} {o : Obj} (h : Created f type mn mx c o) (hc : 0 < c)
    (data : List ℝ) (offset : Nat) :
    (o.count < 0 → (o.transform data offset).threw) ∧
    (c < o.count → o.transform data offset = .ub) ∧
    (0 ≤ o.count → o.count ≤ c → offset + mx.toNat ≤ data.length →
      o.transform data offset = .ok ((List.range o.count.toNat).map fun i => ‖corr f type mn mx c i fun j => data.getD (offset + j) 0‖)) ∧
    (0 < o.count → 0 < mx.toNat → data.length < offset + mx.toNat → o.transform data offset = .ub) := by
  have hne : ¬ (o.real = [] ∨ o.imag = [] ∨ o.scale = []) := by
    rw [h.real, h.imag, h.scale]
    rintro (hh | hh | hh) <;> exact map_range_ne hc _ hh
  rw [transform_unfold, if_neg hne]
  refine ⟨fun h1 => by rw [if_pos h1]; trivial, fun h1 => ?_, fun h1 h2 h3 => ?_, fun h1 h2 h3 => ?_⟩
  · rw [if_neg (by omega)]
    exact fillLoop_ub (fun i _ => entry_cases h data offset i) ⟨c, by omega, entry_out h data offset c le_rfl⟩
  · rw [if_neg (by omega)]
    exact fillLoop_ok fun i hi => entry_ok h data offset i (by omega) h3
  · rw [if_neg (by omega)]
    exact fillLoop_ub (fun i _ => entry_cases h data offset i) ⟨0, by omega, entry_short h data offset 0 hc h2 h3⟩

/-- The rows at the positions `i, i + step, ...` below the length of the signal. -/
def rows (g : Nat → List ℝ) (n step i : Nat) : List (List ℝ) :=
  (List.range ((n - i + step - 1) / step)).map fun r => g (i + r * step)

theorem rows_nil (g : Nat → List ℝ) {n step i : Nat} (hs : 0 < step) (h : n ≤ i) : rows g n step i = [] := by
  unfold rows
  rw [Nat.div_eq_of_lt (by omega)]
  rfl

theorem rows_cons (g : Nat → List ℝ) {n step i : Nat} (hs : 0 < step) (h : i < n) :
    rows g n step i = g i :: rows g n step (i + step) := by
  unfold rows
  have e : (n - i + step - 1) / step = (n - (i + step) + step - 1) / step + 1 := by
    by_cases h2 : i + step ≤ n
    · have : n - i + step - 1 = (n - (i + step) + step - 1) + step := by omega
      rw [this, Nat.add_div_right _ hs]
    · have h3 : n - (i + step) = 0 := by omega
      rw [h3, Nat.div_eq_of_lt (show 0 + step - 1 < step by omega)]
      have h4 : n - i + step - 1 = (n - i - 1) + step := by omega
      rw [h4, Nat.add_div_right _ hs, Nat.div_eq_of_lt (by omega)]
  rw [e, List.range_succ_eq_map, List.map_cons, List.map_map]
  congr 1
  · simp
  · apply List.map_congr_left
    intro r _
    simp only [Function.comp, Nat.succ_eq_add_one]
    have : i + (r + 1) * step = i + step + r * step := by ring
    rw [this]

theorem loop_ok {o : Obj} {data : List ℝ} {n step : Nat} (hs : 0 < step) (hn : n + step < 18446744073709551616) (g : Nat → List ℝ)
    (hg : ∀ r, r * step < n → o.transform data (r * step) = .ok (g (r * step))) (fuel r : Nat) (hi : r * step < n + step)
    (hf : n - r * step < fuel) : loop o data n step fuel (r * step) = some (.ok (rows g n step (r * step))) := by
  induction fuel generalizing r with
  | zero => omega
  | succ fuel ih =>
    unfold loop
    by_cases hin : r * step < n
    · rw [if_pos hin, hg r hin]
      simp only
      have h1 : (r + 1) * step = r * step + step := by ring
      have e : (((r * step : Nat) : Int) + (step : Int)) % 18446744073709551616 = (((r + 1) * step : Nat) : Int) := by
        rw [Int.emod_eq_of_lt (by omega) (by omega), h1]
        push_cast; ring
      rw [e, Int.toNat_natCast, ih (r + 1) (by omega) (by omega)]
      simp only [Res.ok_bind, Res.pure_eq]
      rw [rows_cons g hs hin, h1]
    · rw [if_neg hin, rows_nil g hs (by omega)]

theorem loop_ub {o : Obj} {data : List ℝ} {n step : Nat} (hs : 0 < step) (hn : n + step < 18446744073709551616)
    (hg : ∀ r, r * step < n → o.transform data (r * step) = .ub ∨ ∃ v, o.transform data (r * step) = .ok v) (r₀ : Nat) (h₀ : r₀ * step < n)
    (hb : o.transform data (r₀ * step) = .ub) (fuel r : Nat) (hr : r ≤ r₀) (hf : n - r * step < fuel) :
    loop o data n step fuel (r * step) = some .ub := by
  induction fuel generalizing r with
  | zero => omega
  | succ fuel ih =>
    have hle : r * step ≤ r₀ * step := Nat.mul_le_mul_right _ hr
    have hin : r * step < n := by omega
    unfold loop
    rw [if_pos hin]
    rcases hg r hin with e | ⟨v, e⟩
    · rw [e]
    · rw [e]
      simp only
      have hne : r ≠ r₀ := by
        rintro rfl
        rw [hb] at e; cases e
      have h1 : (r + 1) * step = r * step + step := by ring
      have e : (((r * step : Nat) : Int) + (step : Int)) % 18446744073709551616 = (((r + 1) * step : Nat) : Int) := by
        rw [Int.emod_eq_of_lt (by omega) (by omega), h1]
        push_cast; ring
      rw [e, Int.toNat_natCast, ih (r + 1) (by omega) (by omega)]
      rfl

/-! ## The theorems -/

/-- **C97 (settings).** After a successful `createWavelet` with at least one scale, calling any setters in any order has no effect on
`transform` except for the count: with a smaller count the first entries of the same row are returned, with a larger one `transform`
reads outside the object, with a negative one it throws. -/
theorem C97_setters (o o' : Obj) (f : ℝ → ℂ) (type : ScaleType) (hb : o.base = some f) (hcr : (o.create type).2 = .ok ())
    (hc : 0 < o.count) (_hr : RealArgs type o.minLength o.maxLength) (ho : Configured (o.create type).1 o') (data : List ℝ) (offset : Nat)
    (hl : offset + o.maxLength.toNat ≤ data.length) :
    (o.create type).1.transform data offset = .ok ((List.range o.count.toNat).map fun i =>
      ‖corr f type o.minLength o.maxLength o.count.toNat i fun j => data.getD (offset + j) 0‖) ∧
    (0 ≤ o'.count → o'.count ≤ o.count → o'.transform data offset = .ok ((List.range o'.count.toNat).map fun i =>
      ‖corr f type o.minLength o.maxLength o.count.toNat i fun j => data.getD (offset + j) 0‖)) ∧
    (o.count < o'.count → o'.transform data offset = .ub) ∧
    (o'.count < 0 → (o'.transform data offset).threw) := by
  obtain ⟨f', hf', h1, h2, h3⟩ := create_inv hcr
  rw [hb] at hf'; cases hf'
  obtain ⟨o1, e, w, e0, e1, e2, e3⟩ := create_ok hb h1 h2 h3
  rw [e] at ho ⊢
  have w' := w.configured ho
  have t := w.transform (by omega) data offset
  have t' := w'.transform (by omega) data offset
  refine ⟨?_, fun a b => t'.2.2.1 a (by omega) hl, fun a => t'.2.1 (by omega), t'.1⟩
  have := t.2.2.1 (by simp only [e1]; omega) (by simp only [e1]; omega) hl
  simp only [e1] at this
  exact this

/-- **C97 (building again).** Whatever happened to the object before, a `createWavelet` that returns leaves it exactly as if a new wavelet
had been built with the settings it has now. -/
theorem C97_recreate (o : Obj) (type : ScaleType) (h : (o.create type).2 = .ok ()) :
    build o.base o.minLength o.maxLength o.count type = .ok (o.create type).1 := by
  unfold build
  obtain ⟨f, hb, h1, h2, h3⟩ := create_inv h
  obtain ⟨o1, e, w, e0, e1, e2, e3⟩ := create_ok hb h1 h2 h3
  obtain ⟨o2, e', w', e0', e1', e2', e3'⟩ := create_ok (o := ((((Obj.new.setBase o.base).setCount o.count).setMax o.maxLength).setMin o.minLength))
    (type := type) (f := f) hb h1 h2 h3
  rw [e, e']
  simp only
  congr 1
  cases o1; cases o2
  simp only at e0 e1 e2 e3 e0' e1' e2' e3'
  have a1 := w.real; have a2 := w'.real
  have b1 := w.imag; have b2 := w'.imag
  have c1 := w.scale; have c2 := w'.scale
  simp only at a1 a2 b1 b2 c1 c2
  subst e0 e1 e2 e3 e0' e1' e2' e3' a1 b1 c1
  rw [a2, b2, c2]
  rfl

/-- **C97 (agreement).** `BuildWavelet` and `transform` of this model and of the model behind C56 and C68 agree. -/
theorem C97_build_agrees (f : Option (ℝ → ℂ)) (mn mx count : Int) (type : ScaleType) (hm : 0 ≤ mx) :
    (∀ e, Cwt.build f mn mx count type = .throw e → (build f mn mx count type).threw) ∧
    (Cwt.build f mn mx count type = .ub → build f mn mx count type = .ub) ∧
    (∀ w, Cwt.build f mn mx count type = .ok w → 0 < count → ∃ o, build f mn mx count type = .ok o ∧
      ∀ data offset, offset + mx.toNat ≤ data.length → o.transform data offset = Cwt.transform w data offset) := by
  cases f with
  | none =>
    refine ⟨fun e _ => trivial, fun h => by simp [Cwt.build_none] at h, fun w h => by simp [Cwt.build_none] at h⟩
  | some f =>
    by_cases hc : count < 0
    · have : build (some f) mn mx count type = .throw "length_error" := by
        simp [build, Obj.create, Obj.setBase, Obj.setCount, Obj.setMax, Obj.setMin, hc]
      refine ⟨fun e _ => by rw [this]; trivial, fun h => ?_, fun w h h' => by omega⟩
      simp [Cwt.build_some, hc] at h
    · by_cases hd : DivOk type mn mx
      · have hbe := Cwt.build_eq (f := f) (count := count) (by omega) hm hd
        obtain ⟨o, e, w, e0, e1, e2, e3⟩ := create_ok (o := ((((Obj.new.setBase (some f)).setCount count).setMax mx).setMin mn))
          (type := type) (f := f) rfl (not_lt.1 hc) (fun _ => hm) hd
        refine ⟨fun e' h => (by rw [hbe] at h; cases h), fun h => (by rw [hbe] at h; cases h), fun w' h hpos => ?_⟩
        rw [hbe] at h
        cases h
        refine ⟨o, by unfold build; rw [e], fun data offset hl => ?_⟩
        rw [(w.transform (show 0 < count.toNat by omega) data offset).2.2.1 (by rw [e1]; exact hpos.le) (by rw [e1]; exact Int.self_le_toNat _) hl, e1]
        unfold Cwt.transform
        rw [if_neg (by
          rintro (hh | hh) <;> exact map_range_ne (show 0 < count.toNat by omega) _ hh)]
        symm
        refine fillLoop_ok fun i hi => ?_
        have hi' : i < count.toNat := hi
        have hr : rd ((List.range count.toNat).map fun i => (List.range mx.toNat).map fun j =>
            f (refPoint mx.toNat (refScale type mn mx count.toNat i) j)) i =
            .ok ((List.range mx.toNat).map fun j => f (refPoint mx.toNat (refScale type mn mx count.toNat i) j)) := by
          simp [rd, hi']
        simp only
        rw [hr, Res.ok_bind, Cwt.innerProduct_eq _ _ _ _ (by simpa using hl)]
        simp only [Res.ok_bind, zero_add, Res.pure_eq, List.length_map, List.length_range]
        congr 1
        have hsum : (∑ j ∈ range mx.toNat,
            ((List.range mx.toNat).map fun j => f (refPoint mx.toNat (refScale type mn mx count.toNat i) j)).getD j 0 *
              (data.getD (offset + j) 0 : ℂ)) = corr f type mn mx count.toNat i fun j => data.getD (offset + j) 0 := by
          unfold corr
          refine sum_congr rfl fun j hj => ?_
          rw [K52.Dsp.getD_map_range _ (mem_range.1 hj)]
        rw [hsum, ← Complex.normSq_apply, ← Complex.norm_def]
        rfl
      · have hlin : type = .linear := by
          by_contra hn
          exact hd fun ht => absurd ht hn
        subst hlin
        have hs : Cwt.createScale .linear mn mx count.toNat = .ub := by
          unfold Cwt.createScale Cwt.createScaleBy Cwt.intDiv
          by_cases h0 : mn = 0
          · simp [h0]
          · rw [if_neg h0]
            unfold int32
            rw [if_neg (by unfold DivOk at hd; tauto)]
            rfl
        have hbu : Cwt.build (some f) mn mx count .linear = .ub := by
          rw [Cwt.build_some]
          rw [if_neg hc, if_neg (by omega), hs]
          rfl
        refine ⟨fun e h => (by rw [hbu] at h; cases h), fun _ => ?_, fun w h => (by rw [hbu] at h; cases h)⟩
        unfold build
        rw [create_ub (o := ((((Obj.new.setBase (some f)).setCount count).setMax mx).setMin mn)) (f := f) rfl hc (fun h => absurd h.2 (by
          show ¬ mx < 0; omega)) hs]

/-- **C97 (the transformation after a change).** `ContiniousWaveletTransformation` pads the signal for the length that is set *now*, but
uses the samples the wavelet was built with.  If the samples fit at every position, row `r` is the correlation with the signal shifted by half of
the *new* length; otherwise the transformation reads outside its copy of the signal. -/
theorem C97_cwt (o o' : Obj) (f : ℝ → ℂ) (type : ScaleType) (hb : o.base = some f) (hcr : (o.create type).2 = .ok ())
    (_hr : RealArgs type o.minLength o.maxLength) (ho : Configured (o.create type).1 o') (hc : 0 < o'.count) (hc' : o'.count ≤ o.count)
    (hm : 0 ≤ o'.maxLength) (source : List ℝ) (step : Nat) (hs : 0 < step) (hn : source.length + step < 2 ^ 64) :
    ((∀ r, r * step < source.length → r * step + o.maxLength ≤ source.length + o'.maxLength) → ∃ fuel₀, ∀ fuel ≥ fuel₀,
      cwt o' source step fuel = some (.ok ((List.range ((source.length + step - 1) / step)).map fun r =>
        (List.range o'.count.toNat).map fun i => ‖corr f type o.minLength o.maxLength o.count.toNat i fun j =>
          sig source (((r * step : Nat) : Int) + j - o'.maxLength / 2)‖))) ∧
    ((∃ r, r * step < source.length ∧ source.length + o'.maxLength < r * step + o.maxLength) → ∃ fuel₀, ∀ fuel ≥ fuel₀,
      cwt o' source step fuel = some .ub) := by
  obtain ⟨f', hf', h1, h2, h3⟩ := create_inv hcr
  rw [hb] at hf'; cases hf'
  obtain ⟨o1, e, w, e0, e1, e2, e3⟩ := create_ok hb h1 h2 h3
  rw [e] at ho
  have w' := w.configured ho
  have hlen : (padded source o'.maxLength.toNat).length = source.length + o'.maxLength.toNat := padded_length _ _
  have hmx := h2 (by omega)
  have t := w'.transform (by omega) (padded source o'.maxLength.toNat)
  constructor
  · intro hfit
    refine ⟨source.length + 1, fun fuel hf => ?_⟩
    unfold cwt
    rw [if_neg (by omega)]
    have := loop_ok (o := o') (data := padded source o'.maxLength.toNat) hs (by omega) (fun p => (List.range o'.count.toNat).map fun i =>
      ‖corr f type o.minLength o.maxLength o.count.toNat i fun j => sig source ((p : Int) + j - o'.maxLength / 2)‖) (fun r hr => by
        have hfr := hfit r hr
        have hfr' : r * step + o.maxLength.toNat ≤ source.length + o'.maxLength.toNat := by
          have : ((r * step : Nat) : Int) + o.maxLength ≤ source.length + o'.maxLength := by exact_mod_cast hfr
          omega
        rw [(t (r * step)).2.2.1 hc.le (by omega) (by omega)]
        congr 1
        refine List.map_congr_left fun i _ => ?_
        unfold corr
        congr 1
        refine sum_congr rfl fun j hj => ?_
        have hj' := mem_range.1 hj
        beta_reduce
        rw [padded_getD _ _ _ (by omega)]
        have : ((r * step + j : Nat) : Int) - ((o'.maxLength.toNat / 2 : Nat) : Int) = ((r * step : Nat) : Int) + j - o'.maxLength / 2 := by omega
        rw [this]) fuel 0 (by omega) (by omega)
    rw [Nat.zero_mul] at this
    rw [this]
    simp only [rows, Nat.zero_add, Nat.sub_zero]
  · rintro ⟨r₀, hr₀, hbad⟩
    have hbad' : source.length + o'.maxLength.toNat < r₀ * step + o.maxLength.toNat := by
      have : source.length + o'.maxLength < ((r₀ * step : Nat) : Int) + o.maxLength := by exact_mod_cast hbad
      omega
    refine ⟨source.length + 1, fun fuel hf => ?_⟩
    unfold cwt
    rw [if_neg (by omega)]
    have := loop_ub (o := o') (data := padded source o'.maxLength.toNat) hs (by omega) (fun r hr => by
      by_cases hl : r * step + o.maxLength.toNat ≤ source.length + o'.maxLength.toNat
      · exact .inr ⟨_, (t (r * step)).2.2.1 hc.le (by omega) (by omega)⟩
      · exact .inl ((t (r * step)).2.2.2 hc (by omega) (by omega))) r₀ hr₀ ((t (r₀ * step)).2.2.2 hc (by omega) (by omega)) fuel 0
        (by omega) (by omega)
    rw [Nat.zero_mul] at this
    exact this

/-- With step 1 and a non-empty signal the transformation stays inside its copy of the signal exactly when the length was not reduced by more
than one since the wavelet was built. -/
theorem C97_cwt_step_one (n : Nat) (hn : 0 < n) (built now : Int) :
    (∀ r : Nat, r * 1 < n → ((r * 1 : Nat) : Int) + built ≤ n + now) ↔ built ≤ now + 1 := by
  constructor
  · intro h
    have := h (n - 1) (by omega)
    omega
  · intro h r hr
    omega

/-- **C97 (failed `createWavelet`).** A `createWavelet` that throws can leave the object half built.  After `max_lenght(-1)` it throws, but the
next `transform` returns normally with only the imaginary part of the correlations; after `count(-1)` it throws and the wavelet is not ready
any more, even if the old count is restored; without a base function it throws and changes nothing. -/
theorem C97_failed_create (o : Obj) (f : ℝ → ℂ) (type type' : ScaleType) (hb : o.base = some f) (hcr : (o.create type).2 = .ok ())
    (hc : 0 < o.count) (_hr : RealArgs type o.minLength o.maxLength) (neg : Int) (hneg : neg < 0) (data : List ℝ) (offset : Nat)
    (hl : offset + o.maxLength.toNat ≤ data.length) :
    ((((o.create type).1.setMax neg).create type').2.threw ∧
      (((o.create type).1.setMax neg).create type').1.transform data offset = .ok ((List.range o.count.toNat).map fun i =>
        |(corr f type o.minLength o.maxLength o.count.toNat i fun j => data.getD (offset + j) 0).im|)) ∧
    ((((o.create type).1.setCount neg).create type').2.threw ∧
      ∀ o', Configured (((o.create type).1.setCount neg).create type').1 o' → (o'.transform data offset).threw) ∧
    ((((o.create type).1.setBase none).create type').2.threw ∧
      (((o.create type).1.setBase none).create type').1 = (o.create type).1.setBase none) := by
  obtain ⟨f', hf', h1, h2, h3⟩ := create_inv hcr
  rw [hb] at hf'; cases hf'
  obtain ⟨o1, e, w, e0, e1, e2, e3⟩ := create_ok hb h1 h2 h3
  rw [e]
  have hb1 : o1.base = some f := e0.trans hb
  refine ⟨?_, ?_, ?_⟩
  · have hcreate : (o1.setMax neg).create type' =
        ({ (o1.setMax neg) with real := List.replicate o1.count.toNat [] }, .throw "length_error") := by
      unfold Obj.create
      rw [show (o1.setMax neg).base = some f from hb1]
      simp only
      rw [if_neg (show ¬ (o1.setMax neg).count < 0 by show ¬ o1.count < 0; omega), if_pos (show 0 < (o1.setMax neg).count ∧ (o1.setMax neg).maxLength < 0 from ⟨by
        show 0 < o1.count; omega, hneg⟩)]
      rw [← show (o1.setMax neg).base = some f from hb1]
      rfl
    rw [hcreate]
    refine ⟨trivial, ?_⟩
    have hpos : 0 < o.count.toNat := by omega
    rw [transform_unfold]
    simp only
    rw [if_neg (by
      show ¬ (List.replicate o1.count.toNat [] = [] ∨ o1.imag = [] ∨ o1.scale = [])
      rw [w.imag, w.scale, e1]
      rintro (hh | hh | hh)
      · rw [List.replicate_eq_nil_iff] at hh; omega
      · exact map_range_ne hpos _ hh
      · exact map_range_ne hpos _ hh), if_neg (by show ¬ o1.count < 0; omega)]
    show fillLoop o1.count.toNat _ = _
    rw [e1]
    refine fillLoop_ok fun i hi => ?_
    have hr : rd (List.replicate o.count.toNat ([] : List ℝ)) i = .ok [] := by simp [rd, hi]
    have hm : rd (o1.setMax neg).imag i = .ok ((row f type o.minLength o.maxLength o.count.toNat i).map Complex.im) := by
      show rd o1.imag i = _
      rw [w.imag]; simp [rd, hi]
    rw [hr, hm]
    simp only [Res.ok_bind]
    rw [show inner [] data offset 0 = .ok 0 from rfl, Res.ok_bind, inner_ok _ _ _ _ (by simpa [row] using hl)]
    have e2 : (∑ j ∈ range ((row f type o.minLength o.maxLength o.count.toNat i).map Complex.im).length,
        ((row f type o.minLength o.maxLength o.count.toNat i).map Complex.im).getD j 0 *
        data.getD (offset + j) 0) = (corr f type o.minLength o.maxLength o.count.toNat i fun j => data.getD (offset + j) 0).im := by
      unfold corr
      rw [Complex.im_sum]
      simp only [row, List.length_map, List.length_range, List.map_map]
      refine sum_congr rfl fun j hj => ?_
      rw [getD_map_r _ (mem_range.1 hj)]
      simp
    rw [e2]
    simp only [Res.ok_bind, Res.pure_eq, zero_add, mul_zero]
    rw [Real.sqrt_mul_self_eq_abs]
  · have hcreate : (o1.setCount neg).create type' = ({ (o1.setCount neg) with real := [] }, .throw "length_error") := by
      unfold Obj.create
      rw [show (o1.setCount neg).base = some f from hb1]
      simp only
      rw [if_pos (show (o1.setCount neg).count < 0 from hneg), ← show (o1.setCount neg).base = some f from hb1]
    rw [hcreate]
    refine ⟨trivial, fun o' ho' => ?_⟩
    have hre : o'.real = [] := by
      induction ho' with
      | refl => rfl
      | base _ _ ih => exact ih
      | count _ _ ih => exact ih
      | max _ _ ih => exact ih
      | min _ _ ih => exact ih
    rw [transform_unfold, if_pos (.inl hre)]
    trivial
  · have hcreate : (o1.setBase none).create type' = (o1.setBase none, .throw "base function") := by
      unfold Obj.create
      rw [show (o1.setBase none).base = none from rfl]
    rw [hcreate]
    exact ⟨trivial, rfl⟩

/-- The hypotheses are met: the default object with a base function, with 4 samples and 2 scales, can be built; after that the length can be
reduced to 3 and a signal of 5 samples transformed with step 2 inside the copy, but reduced to 1 the transformation reads outside it. -/
example (f : ℝ → ℂ) : ∃ o : Obj, o.base = some f ∧ (o.create .log).2 = .ok () ∧ 0 < o.count ∧ RealArgs .log o.minLength o.maxLength ∧
    (∀ r, r * 2 < 5 → ((r * 2 : Nat) : Int) + o.maxLength ≤ (5 : Nat) + ((o.create .log).1.setMax 3).maxLength) ∧
    (∃ r, r * 2 < 5 ∧ ((5 : Nat) : Int) + ((o.create .log).1.setMax 1).maxLength < ((r * 2 : Nat) : Int) + o.maxLength) := by
  refine ⟨(((Obj.new.setBase (some f)).setCount 2).setMax 4).setMin 2, rfl, ?_, show (0 : Int) < 2 by decide, ?_, ?_, ?_⟩
  · obtain ⟨o', e, -⟩ := create_ok (o := (((Obj.new.setBase (some f)).setCount 2).setMax 4).setMin 2) (type := .log) (f := f) rfl
      (show (0 : Int) ≤ 2 by decide) (fun _ => show (0 : Int) ≤ 4 by decide) (fun h => by cases h)
    rw [e]
  · exact ⟨show (4 : Int) ≠ 1 by decide, fun _ => ⟨show (0 : Int) < 2 by decide, show (0 : Int) < 4 by decide⟩⟩
  · intro r hr
    show ((r * 2 : Nat) : Int) + 4 ≤ (5 : Nat) + 3
    omega
  · exact ⟨2, by omega, by show ((5 : Nat) : Int) + 1 < ((2 * 2 : Nat) : Int) + 4; omega⟩

end

end K52.WaveletObj
