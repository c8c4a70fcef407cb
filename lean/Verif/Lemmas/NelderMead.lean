import Verif.Model.NelderMead
import Verif.Lemmas.Continuous
import Verif.Props.Processors
import Mathlib.Tactic.Positivity
import Mathlib.Tactic.FieldSimp

/-! # Lemmas about Nelder-Mead -/

set_option linter.unusedSectionVars false

namespace K52.NelderMead
variable {R : Type} [Field R] [LinearOrder R] [IsStrictOrderedRing R]

/-- Indices of the largest, the second largest and the (first) smallest value. -/
def GoodIdx (values : List R) (s : Idx R) : Prop :=
  values[s.first]? = some s.firstV ∧ values[s.second]? = some s.secondV ∧ values[s.min]? = some s.minV ∧
  s.first ≠ s.second ∧ s.first ≠ s.min ∧
  ∀ (k : Nat) v, values[k]? = some v → v ≤ s.firstV ∧ s.minV ≤ v ∧ (k ≠ s.first → v ≤ s.secondV) ∧ (k < s.min → s.minV < v)

theorem getElem?_snoc {α : Type} {l : List α} {w u : α} {i : Nat} (hi : (l ++ [w])[i]? = some u) :
    (l[i]? = some u ∧ i < l.length) ∨ (i = l.length ∧ u = w) := by
  rcases lt_trichotomy i l.length with h1 | h1 | h1
  · left; rw [List.getElem?_append_left h1] at hi; exact ⟨hi, h1⟩
  · right; subst h1; simp at hi; exact ⟨rfl, hi.symm⟩
  · rw [List.getElem?_eq_none (by simp; omega)] at hi; simp at hi

theorem getElem?_keep {α : Type} {l : List α} {w u : α} {i : Nat} (h : l[i]? = some u) : (l ++ [w])[i]? = some u := by
  rw [List.getElem?_append_left (List.getElem?_eq_some_iff.1 h).1]; exact h

theorem GoodIdx.snoc {values : List R} {s : Idx R} (h : GoodIdx values s) (v : R) :
    GoodIdx (values ++ [v])
      (let s1 := if v > s.firstV then { s with second := s.first, secondV := s.firstV, first := values.length, firstV := v }
        else if v > s.secondV then { s with second := values.length, secondV := v } else s
      if v < s.minV then { s1 with min := values.length, minV := v } else s1) := by
  obtain ⟨h1, h2, h3, h4, h5, h6⟩ := h
  have l1 : s.first < values.length := (List.getElem?_eq_some_iff.1 h1).1
  have l2 : s.second < values.length := (List.getElem?_eq_some_iff.1 h2).1
  have l3 : s.min < values.length := (List.getElem?_eq_some_iff.1 h3).1
  have hmf : s.minV ≤ s.firstV := (h6 _ _ h1).2.1
  have hms : s.minV ≤ s.secondV := (h6 _ _ h2).2.1
  have hsf : s.secondV ≤ s.firstV := (h6 _ _ h2).1
  have last : (values ++ [v])[values.length]? = some v := by simp
  by_cases c1 : v > s.firstV
  · have c3 : ¬ v < s.minV := not_lt.2 (hmf.trans c1.le)
    simp only [c1, if_true, c3, if_false]
    refine ⟨last, getElem?_keep h1, getElem?_keep h3, by simp only; omega, by simp only; omega, fun k u hk => ?_⟩
    rcases getElem?_snoc hk with ⟨hk, hl⟩ | ⟨rfl, rfl⟩
    · exact ⟨(h6 k u hk).1.trans c1.le, (h6 k u hk).2.1, fun _ => (h6 k u hk).1, (h6 k u hk).2.2.2⟩
    · exact ⟨le_rfl, not_lt.1 c3, fun hn => absurd rfl hn, fun hn => by simp only at hn; omega⟩
  · by_cases c2 : v > s.secondV
    · have c3 : ¬ v < s.minV := not_lt.2 (hms.trans c2.le)
      simp only [c1, c2, if_true, c3, if_false]
      refine ⟨getElem?_keep h1, last, getElem?_keep h3, by simp only; omega, h5, fun k u hk => ?_⟩
      rcases getElem?_snoc hk with ⟨hk, hl⟩ | ⟨rfl, rfl⟩
      · exact ⟨(h6 k u hk).1, (h6 k u hk).2.1, fun hn => ((h6 k u hk).2.2.1 hn).trans c2.le, (h6 k u hk).2.2.2⟩
      · exact ⟨not_lt.1 c1, not_lt.1 c3, fun _ => le_rfl, fun hn => by simp only at hn; omega⟩
    · by_cases c3 : v < s.minV
      · simp only [c1, c2, if_true, c3, if_false]
        refine ⟨getElem?_keep h1, getElem?_keep h2, last, h4, by simp only; omega, fun k u hk => ?_⟩
        rcases getElem?_snoc hk with ⟨hk, hl⟩ | ⟨rfl, rfl⟩
        · exact ⟨(h6 k u hk).1, c3.le.trans (h6 k u hk).2.1, (h6 k u hk).2.2.1, fun _ => c3.trans_le (h6 k u hk).2.1⟩
        · exact ⟨not_lt.1 c1, le_rfl, fun _ => not_lt.1 c2, fun hn => by simp only at hn; omega⟩
      · simp only [c1, c2, c3, if_false]
        refine ⟨getElem?_keep h1, getElem?_keep h2, getElem?_keep h3, h4, h5, fun k u hk => ?_⟩
        rcases getElem?_snoc hk with ⟨hk, hl⟩ | ⟨rfl, rfl⟩
        · exact h6 k u hk
        · exact ⟨not_lt.1 c1, not_lt.1 c3, fun _ => not_lt.1 c2, fun hn => by omega⟩

theorem indexLoop_spec : ∀ (vs done : List R) (s : Idx R), GoodIdx done s → GoodIdx (done ++ vs) (indexLoop done.length vs s)
  | [], done, s, h => by simpa [indexLoop] using h
  | v :: vs, done, s, h => by
    have e : done ++ v :: vs = (done ++ [v]) ++ vs := by simp
    have l : done.length + 1 = (done ++ [v]).length := by simp
    rw [e]
    simp only [indexLoop]
    rw [l]
    exact indexLoop_spec vs (done ++ [v]) _ (h.snoc v)

theorem getIndexes_spec {values : List R} (h : 2 ≤ values.length) : ∃ s, getIndexes values = .ok s ∧ GoodIdx values s := by
  match values, h with
  | v0 :: v1 :: vs, _ =>
    refine ⟨_, rfl, indexLoop_spec vs [v0, v1] _ ?_⟩
    by_cases c : v0 > v1
    · simp only [c, if_true]
      refine ⟨rfl, rfl, rfl, by simp, by simp, fun k v hk => ?_⟩
      match k with
      | 0 => simp at hk; subst hk; exact ⟨le_rfl, c.le, fun hn => absurd rfl hn, fun _ => c⟩
      | 1 => simp at hk; subst hk; exact ⟨c.le, le_rfl, fun _ => le_rfl, fun hn => by simp at hn⟩
      | k + 2 => simp at hk
    · simp only [c, if_false]
      refine ⟨rfl, rfl, rfl, by simp, by simp, fun k v hk => ?_⟩
      match k with
      | 0 => simp at hk; subst hk; exact ⟨not_lt.1 c, le_rfl, fun _ => le_rfl, fun hn => by simp at hn⟩
      | 1 => simp at hk; subst hk; exact ⟨le_rfl, not_lt.1 c, fun hn => absurd rfl hn, fun hn => by simp at hn⟩
      | k + 2 => simp at hk

/-! ### Bounds -/

/-- All coordinates lie within the bounds. -/
def InBounds (cfg : Config R) (p : List R) : Prop := ∀ x ∈ p, cfg.lower ≤ x ∧ x ≤ cfg.upper

theorem project_in (cfg : Config R) (hb : cfg.lower ≤ cfg.upper) (p : List R) : InBounds cfg (project cfg p) := by
  intro x hx
  obtain ⟨y, _, rfl⟩ := List.mem_map.1 hx
  split
  · exact ⟨hb, le_rfl⟩
  · split
    · exact ⟨le_rfl, hb⟩
    · next h1 h2 => exact ⟨not_lt.1 h2, not_lt.1 h1⟩

theorem project_length (cfg : Config R) (p : List R) : (project cfg p).length = p.length := by simp [project]

theorem project_id (cfg : Config R) {p : List R} (h : InBounds cfg p) : project cfg p = p := by
  unfold project
  conv_rhs => rw [← List.map_id p]
  refine List.map_congr_left fun x hx => ?_
  have := h x hx
  simp only [gt_iff_lt, not_lt.2 this.2, not_lt.2 this.1, if_false, id]

theorem foldl_sum_bounds (lo hi : R) (i : Nat) : ∀ (ps : List (List R)) (acc : R) (k : Nat),
    (∀ p ∈ ps, lo ≤ p.getD i 0 ∧ p.getD i 0 ≤ hi) → (k : R) * lo ≤ acc ∧ acc ≤ (k : R) * hi →
    ((k + ps.length : Nat) : R) * lo ≤ ps.foldl (fun s p => s + p.getD i 0) acc ∧
    ps.foldl (fun s p => s + p.getD i 0) acc ≤ ((k + ps.length : Nat) : R) * hi
  | [], acc, k, _, h => by simpa using h
  | p :: ps, acc, k, hp, h => by
    have h1 := hp p (by simp)
    have := foldl_sum_bounds lo hi i ps (acc + p.getD i 0) (k + 1) (fun q hq => hp q (by simp [hq]))
      (by push_cast; constructor <;> nlinarith [h1.1, h1.2, h.1, h.2])
    simp only [List.foldl_cons, List.length_cons]
    rw [show k + (ps.length + 1) = k + 1 + ps.length by omega]
    exact this

/-- `n + 1` vertices with `n` coordinates and `n + 1` recorded values. -/
structure Shape (n : Nat) (polygon : List (List R)) (values : List R) : Prop where
  pos : 1 ≤ n
  count : polygon.length = n + 1
  dim : ∀ p ∈ polygon, p.length = n
  vals : values.length = n + 1

theorem headD_length {n : Nat} {polygon : List (List R)} {values : List R} (h : Shape n polygon values) :
    (polygon.headD []).length = n := by
  cases polygon with
  | nil => have := h.count; simp at this
  | cons p ps => exact h.dim p (by simp)

theorem centerOfMass_spec {n : Nat} {polygon : List (List R)} {values : List R} (h : Shape n polygon values) {i : Nat}
    (hi : i < polygon.length) : ∃ c, centerOfMass polygon i = .ok c ∧ c.length = n ∧
      ∀ cfg : Config R, (∀ p ∈ polygon, InBounds cfg p) → InBounds cfg c := by
  have hn : (0 : R) < (n : R) := by exact_mod_cast h.pos
  unfold centerOfMass
  rw [if_neg (by omega), headD_length h]
  refine ⟨_, rfl, by simp, fun cfg hb x hx => ?_⟩
  simp only [List.mem_map, List.mem_range] at hx
  obtain ⟨j, hj, rfl⟩ := hx
  have hlen : (polygon.eraseIdx i).length = n := by rw [List.length_eraseIdx_of_lt hi, h.count]; rfl
  have := foldl_sum_bounds cfg.lower cfg.upper j (polygon.eraseIdx i) 0 0 (by
    intro p hp
    have hm : p ∈ polygon := List.mem_of_mem_eraseIdx hp
    have hd : j < p.length := by rw [h.dim p hm]; exact hj
    rw [List.getD_eq_getElem?_getD, List.getElem?_eq_getElem hd]
    exact hb p hm _ (List.getElem_mem hd)) (by simp)
  rw [Nat.zero_add, hlen] at this
  constructor
  · rw [le_div_iff₀ hn, mul_comm]; exact this.1
  · rw [div_le_iff₀ hn, mul_comm]; exact this.2

theorem zipWith_in (cfg : Config R) {f : R → R → R}
    (hf : ∀ a b, (cfg.lower ≤ a ∧ a ≤ cfg.upper) → (cfg.lower ≤ b ∧ b ≤ cfg.upper) → cfg.lower ≤ f a b ∧ f a b ≤ cfg.upper) :
    ∀ {p q : List R}, InBounds cfg p → InBounds cfg q → InBounds cfg (List.zipWith f p q)
  | [], _, _, _ => by intro x hx; simp at hx
  | _ :: _, [], _, _ => by intro x hx; simp at hx
  | a :: p, b :: q, hp, hq => by
    intro x hx
    simp only [List.zipWith_cons_cons, List.mem_cons] at hx
    rcases hx with rfl | hx
    · exact hf a b (hp a (by simp)) (hq b (by simp))
    · exact zipWith_in cfg hf (fun y hy => hp y (by simp [hy])) (fun y hy => hq y (by simp [hy])) x hx

theorem contraction_in (cfg : Config R) {p q : List R} (hp : InBounds cfg p) (hq : InBounds cfg q) : InBounds cfg (contraction p q) :=
  zipWith_in cfg (fun a b ha hb => by constructor <;> linarith [ha.1, ha.2, hb.1, hb.2]) hp hq

theorem reduction_spec {n : Nat} {polygon : List (List R)} {values : List R} (h : Shape n polygon values) {i : Nat}
    (hi : i < polygon.length) : ∃ polygon', reduction polygon i = .ok polygon' ∧ Shape n polygon' values ∧
      polygon'[i]? = polygon[i]? ∧
      ∀ cfg : Config R, (∀ p ∈ polygon, InBounds cfg p) → ∀ p ∈ polygon', InBounds cfg p := by
  have e : polygon[i]? = some polygon[i] := List.getElem?_eq_getElem hi
  unfold reduction
  rw [e]
  have hb : polygon[i].length = n := h.dim _ (List.getElem_mem hi)
  refine ⟨_, rfl, ⟨h.pos, by simp [h.count], ?_, h.vals⟩, ?_, ?_⟩
  · intro p hp
    obtain ⟨j, hj, rfl⟩ := List.mem_mapIdx.1 hp
    have hjl : polygon[j].length = n := h.dim _ (List.getElem_mem hj)
    split
    · simp [hb, hjl]
    · exact hjl
  · simp [List.getElem?_mapIdx, e]
  · intro cfg hin p hp
    obtain ⟨j, hj, rfl⟩ := List.mem_mapIdx.1 hp
    split
    · exact zipWith_in cfg (fun a b ha hb => by constructor <;> linarith [ha.1, ha.2, hb.1, hb.2])
        (hin _ (List.getElem_mem hi)) (hin _ (List.getElem_mem hj))
    · exact hin _ (List.getElem_mem hj)

theorem Shape.set {n : Nat} {polygon : List (List R)} {values : List R} (h : Shape n polygon values) {i : Nat} {p : List R} {v : R}
    (hp : p.length = n) : Shape n (polygon.set i p) (values.set i v) := by
  refine ⟨h.pos, by simp [h.count], ?_, by simp [h.vals]⟩
  intro q hq
  rcases List.mem_or_eq_of_mem_set hq with hq | rfl
  · exact h.dim q hq
  · exact hp

theorem forall_set {P : List R → Prop} {polygon : List (List R)} (h : ∀ p ∈ polygon, P p) {i : Nat} {p : List R} (hp : P p) :
    ∀ q ∈ polygon.set i p, P q := by
  intro q hq
  rcases List.mem_or_eq_of_mem_set hq with hq | rfl
  · exact h q hq
  · exact hp

/-! ### One iteration -/

/-- Every recorded value is at most what it was. -/
def Below (values' values : List R) : Prop :=
  ∀ (k : Nat) v, values[k]? = some v → ∃ v', values'[k]? = some v' ∧ v' ≤ v

theorem Below.refl (values : List R) : Below values values := fun _ v h => ⟨v, h, le_rfl⟩

theorem Below.trans {a b c : List R} (h1 : Below a b) (h2 : Below b c) : Below a c := by
  intro k v hv
  obtain ⟨v', h, hl⟩ := h2 k v hv
  obtain ⟨v'', h', hl'⟩ := h1 k v' h
  exact ⟨v'', h', hl'.trans hl⟩

theorem Below.set {values : List R} {i : Nat} {w v : R} (hi : values[i]? = some w) (hv : v ≤ w) : Below (values.set i v) values := by
  have hl : i < values.length := (List.getElem?_eq_some_iff.1 hi).1
  intro k u hu
  by_cases hk : i = k
  · subst hk
    rw [hi] at hu
    obtain rfl : w = u := by simpa using hu
    exact ⟨v, by simp [hl], hv⟩
  · exact ⟨u, by rw [List.getElem?_set_ne hk]; exact hu, le_rfl⟩

/-- `k` is the first position of a smallest value and the value recorded there is the value of the function at the vertex. -/
def MinTrue (g : List R → R) (polygon : List (List R)) (values : List R) : Prop :=
  ∃ k p, polygon[k]? = some p ∧ values[k]? = some (g p) ∧
    ∀ (i : Nat) v, values[i]? = some v → g p ≤ v ∧ (i < k → g p < v)

theorem MinTrue.of_fresh (g : List R → R) {polygon : List (List R)} (hne : polygon ≠ []) : MinTrue g polygon (polygon.map g) := by
  induction polygon with
  | nil => exact absurd rfl hne
  | cons p ps ih =>
    by_cases hps : ps = []
    · subst hps
      refine ⟨0, p, rfl, rfl, fun i v hi => ?_⟩
      match i with
      | 0 => simp at hi; subst hi; exact ⟨le_rfl, fun h => absurd h (by simp)⟩
      | i + 1 => simp at hi
    · obtain ⟨k, q, h1, h2, h3⟩ := ih hps
      by_cases hc : g p ≤ g q
      · refine ⟨0, p, rfl, rfl, fun i v hi => ?_⟩
        match i with
        | 0 => simp at hi; subst hi; exact ⟨le_rfl, fun h => absurd h (by simp)⟩
        | i + 1 => exact ⟨hc.trans (h3 i v (by simpa using hi)).1, fun h => absurd h (by simp)⟩
      · push Not at hc
        refine ⟨k + 1, q, by simpa using h1, by simpa using h2, fun i v hi => ?_⟩
        match i with
        | 0 => simp at hi; subst hi; exact ⟨hc.le, fun _ => hc⟩
        | i + 1 =>
          have := h3 i v (by simpa using hi)
          exact ⟨this.1, fun h => this.2 (by omega)⟩

theorem MinTrue.set {g : List R → R} {polygon : List (List R)} {values : List R} (h : MinTrue g polygon values)
    (hlen : polygon.length = values.length) {s : Idx R}
    (hs : GoodIdx values s) (p : List R) : MinTrue g (polygon.set s.first p) (values.set s.first (g p)) := by
  obtain ⟨k, q, h1, h2, h3⟩ := h
  obtain ⟨g1, g2, g3, g4, g5, g6⟩ := hs
  have hl : s.first < values.length := (List.getElem?_eq_some_iff.1 g1).1
  have hk : k < values.length := (List.getElem?_eq_some_iff.1 h2).1
  have e : k = s.min := by
    have a1 := g6 k _ h2
    have a2 := h3 s.min _ g3
    rcases lt_trichotomy k s.min with h | h | h
    · exact absurd (a1.2.2.2 h) (not_lt.2 a2.1)
    · exact h
    · exact absurd (a2.2 h) (not_lt.2 a1.2.1)
  have hne : s.first ≠ k := by rw [e]; exact g5
  have old : ∀ i v, i ≠ s.first → (values.set s.first (g p))[i]? = some v → values[i]? = some v := by
    intro i v hi hv
    rwa [List.getElem?_set_ne (fun h => hi h.symm)] at hv
  have new : ∀ v, (values.set s.first (g p))[s.first]? = some v → v = g p := by
    intro v hv
    simp [hl] at hv
    exact hv.symm
  by_cases hc : g p < g q ∨ (g p = g q ∧ s.first < k)
  · have hle : g p ≤ g q := by rcases hc with h | h; exacts [h.le, h.1.le]
    refine ⟨s.first, p, by simp [hlen, hl], by simp [hl], fun i v hi => ?_⟩
    by_cases hif : i = s.first
    · subst hif; rw [new v hi]; exact ⟨le_rfl, fun h => absurd h (lt_irrefl _)⟩
    · have a := h3 i v (old i v hif hi)
      refine ⟨hle.trans a.1, fun hlt => ?_⟩
      rcases hc with h | ⟨h, h'⟩
      · exact h.trans_le a.1
      · rw [h]; exact a.2 (hlt.trans h')
  · push Not at hc
    refine ⟨k, q, by rw [List.getElem?_set_ne hne]; exact h1, by rw [List.getElem?_set_ne hne]; exact h2, fun i v hi => ?_⟩
    by_cases hif : i = s.first
    · subst hif
      rw [new v hi]
      refine ⟨hc.1, fun hlt => lt_of_le_of_ne hc.1 fun he => ?_⟩
      exact absurd (hc.2 he.symm) (by omega)
    · exact h3 i v (old i v hif hi)

theorem MinTrue.reduction {g : List R → R} {polygon polygon' : List (List R)} {values : List R} (h : MinTrue g polygon values)
    {i : Nat} {w : R} (hi : values[i]? = some w) (hw : ∀ (k : Nat) v, values[k]? = some v → w ≤ v ∧ (k < i → w < v))
    (he : polygon'[i]? = polygon[i]?) : MinTrue g polygon' values := by
  obtain ⟨k, q, h1, h2, h3⟩ := h
  have e : k = i := by
    have a1 := hw k _ h2
    have a2 := h3 i _ hi
    rcases lt_trichotomy k i with h | h | h
    · exact absurd (a1.2 h) (not_lt.2 a2.1)
    · exact h
    · exact absurd (a2.2 h) (not_lt.2 a1.1)
  subst e
  exact ⟨k, q, he.trans h1, h2, h3⟩

end K52.NelderMead
