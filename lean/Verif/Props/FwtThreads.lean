import Verif.Model.FwtThreads
import Verif.Props.Cache
import Verif.Props.Wavelet
import Mathlib.Algebra.Order.Archimedean.Basic

/-!
# C129: the sample cache of one fast wavelet transform in several threads
-/

set_option linter.unusedSectionVars false

namespace K52.FwtThreads
open Cache

variable {T K V : Type} [DecidableEq T] [DecidableEq K] [Inhabited V]

/-! ## Specification -/

/-- Any client. -/
def Anyone (_ : S T K V) (_ : K) : Prop := True

/-- A client that begins a call only while no thread is inside one. -/
def OneCaller (s : S T K V) (_ : K) : Prop := ∀ t, s.loc t = .idle

/-- A client that uses only the keys `ks`. -/
def Only (ks : List K) (_ : S T K V) (k : K) : Prop := k ∈ ks

/-- A new cache with room for `n` entries. -/
def RoomFor (c : State K V) (n : Nat) : Prop := c.map = [] ∧ ((c.entryBytes * n : Nat) : Rat) / 1048576 ≤ c.limitMb

/-! ## Right samples -/

theorem isCached_eq {c c' : State K V} {k : K} {b : Bool} (h : isCached c k = (c', .bool b)) :
    c' = { c with map := AMap.touch c.map k Stored.empty } ∧ b = (absV c k).isSome := by
  have h1 := isCached_map c k
  have h2 := isCached_out c k
  rw [h] at h1 h2
  exact ⟨h1, by simpa using h2⟩

theorem get_eq {c c' : State K V} {k : K} {v : V} (h : Cache.get c k = (c', .value v)) : absV c k = some v := by
  rcases get_out c k with ⟨h1, _⟩ | ⟨w, h1, h2⟩ | ⟨_, h1⟩
  · rw [h] at h1; simp at h1
  · rw [h] at h2; simp only [Out.value.injEq] at h2; rw [h1, h2]
  · rw [h] at h1; simp at h1

theorem get_threw {c c' : State K V} {k : K} (h : Cache.get c k = (c', .threw)) : absV c k = none := by
  rcases get_out c k with ⟨h1, _⟩ | ⟨w, h1, h2⟩ | ⟨h0, h1⟩
  · rw [h] at h1; simp at h1
  · rw [h] at h2; simp at h2
  · exact h0

theorem WF_get {c : State K V} (h : WF c) (k : K) : WF (Cache.get c k).1 := WF_step h (.get k)
theorem WF_add {c : State K V} (h : WF c) (k : K) (v : V) : WF (Cache.add c k v).1 := WF_step h (.add k v)
theorem WF_isCached {c : State K V} (h : WF c) (k : K) : WF (isCached c k).1 := WF_step h (.isCached k)

/-- All the cache holds are the samples of the key. -/
structure Right (f : K → V) (s : S T K V) : Prop where
  wf : WF s.cache
  vals : ∀ k v, absV s.cache k = some v → v = f k
  log : ∀ t k v, (t, k, Res.ok v) ∈ s.log → v = f k

theorem Right.init (f : K → V) {c : State K V} (h : c.map = []) : Right f (S.init c : S T K V) :=
  ⟨by simp [S.init, WF, h, AMap.keys], by simp [S.init, absV, h], by simp [S.init]⟩

theorem Right.leave {f : K → V} {s : S T K V} (h : Right f s) {c : State K V} (t : T) (k : K) {r : Res V} (hw : WF c)
    (hv : ∀ k v, absV c k = some v → v = f k) (hr : ∀ v, r = .ok v → v = f k) : Right f (s.leave c t k r) := by
  refine ⟨hw, hv, ?_⟩
  intro t' k' v h1
  simp only [S.leave, List.mem_append, List.mem_singleton, Prod.mk.injEq] at h1
  rcases h1 with h1 | ⟨_, rfl, h1⟩
  · exact h.log _ _ _ h1
  · exact hr v h1.symm

theorem Right.step {f : K → V} {s s' : S T K V} {t : T} (h : Right f s) (hs : Step f t s s') : Right f s' := by
  cases hs with
  | found k c hl hc =>
    refine ⟨?_, ?_, h.log⟩
    · have := WF_isCached h.wf k; rwa [hc] at this
    · intro k' v hv
      have := absV_isCached s.cache k k'
      rw [hc] at this
      exact h.vals k' v (this ▸ hv)
  | missing k c hl hc =>
    refine ⟨?_, ?_, h.log⟩
    · have := WF_isCached h.wf k; rwa [hc] at this
    · intro k' v hv
      have := absV_isCached s.cache k k'
      rw [hc] at this
      exact h.vals k' v (this ▸ hv)
  | hit k c v hl hc =>
    refine h.leave t k ?_ ?_ ?_
    · have := WF_get h.wf k; rwa [hc] at this
    · intro k' w hw
      have := absV_get s.cache k k'
      rw [hc] at this
      exact h.vals k' w (this ▸ hw)
    · rintro w ⟨⟩
      exact h.vals k v (get_eq hc)
  | lost k c hl hc =>
    refine h.leave t k ?_ ?_ (by simp)
    · have := WF_get h.wf k; rwa [hc] at this
    · intro k' w hw
      have := absV_get s.cache k k'
      rw [hc] at this
      exact h.vals k' w (this ▸ hw)
  | stored k c hl hc =>
    refine h.leave t k ?_ ?_ (by rintro w ⟨⟩; rfl)
    · have := WF_add h.wf k (f k); rwa [hc] at this
    · intro k' w hw
      have := absV_add h.wf k k' (f k)
      rw [hc] at this
      rcases this with ⟨_, rfl, h1⟩ | ⟨_, h1 | h1⟩
      · rw [h1] at hw; simpa using hw.symm
      · exact h.vals k' w (h1 ▸ hw)
      · rw [h1] at hw; simp at hw
  | full k c hl hc =>
    refine h.leave t k ?_ ?_ (by simp)
    · have := WF_add h.wf k (f k); rwa [hc] at this
    · intro k' w hw
      have := absV_add h.wf k k' (f k)
      rw [hc] at this
      rcases this with ⟨_, rfl, h1⟩ | ⟨_, h1 | h1⟩
      · rw [h1] at hw; simpa using hw.symm
      · exact h.vals k' w (h1 ▸ hw)
      · rw [h1] at hw; simp at hw

theorem right {f : K → V} {may : S T K V → K → Prop} {c₀ : State K V} (h0 : c₀.map = []) {s : S T K V} (h : Reach f may c₀ s) : Right f s := by
  induction h with
  | init => exact .init f h0
  | call t k _ _ _ ih => exact ⟨ih.wf, ih.vals, ih.log⟩
  | step t _ hs ih => exact ih.step hs

/-- **C129** (right samples).  However the calls of any number of threads overlap, a call that returns samples returns those of its own wavelet, scale and
length. -/
theorem C129_right (f : K → V) (may : S T K V → K → Prop) (c₀ : State K V) (h0 : c₀.map = []) (s : S T K V) (h : Reach f may c₀ s)
    (t : T) (k : K) (v : V) (hr : (t, k, .ok v) ∈ s.log) : v = f k :=
  (right h0 h).log t k v hr

/-! ## One call at a time -/

structure Single (s : S T K V) : Prop where
  one : ∀ t t', s.loc t ≠ .idle → s.loc t' ≠ .idle → t = t'
  present : ∀ t k, s.loc t = .get k → (absV s.cache k).isSome
  log : ∀ t k w, (t, k, Res.throw w) ∈ s.log → w = "Unable to clear cache up to limit"

theorem Single.one_move {s : S T K V} (h : Single s) {t : T} (ht : s.loc t ≠ .idle) (l : Loc K) :
    ∀ u u', Function.update s.loc t l u ≠ .idle → Function.update s.loc t l u' ≠ .idle → u = u' := by
  have key : ∀ u, Function.update s.loc t l u ≠ .idle → u = t := by
    intro u hu
    by_contra hne
    rw [Function.update_of_ne hne] at hu
    exact hne (h.one u t hu ht)
  intro u u' h1 h2
  rw [key u h1, key u' h2]

theorem Single.leave {s : S T K V} (h : Single s) {t : T} (ht : s.loc t ≠ .idle) (c : State K V) (k : K) (r : Res V)
    (hr : ∀ w, r = .throw w → w = "Unable to clear cache up to limit") : Single (s.leave c t k r) := by
  refine ⟨h.one_move ht .idle, ?_, ?_⟩
  · intro u k' hu
    by_cases hut : u = t
    · subst hut; simp [S.leave] at hu
    · simp only [S.leave, Function.update_of_ne hut] at hu
      exact absurd (h.one u t (by rw [hu]; simp) ht) hut
  · intro u k' w hw
    simp only [S.leave, List.mem_append, List.mem_singleton, Prod.mk.injEq] at hw
    rcases hw with hw | ⟨_, _, hw⟩
    · exact h.log _ _ _ hw
    · exact hr w hw.symm

theorem Single.step {f : K → V} {s s' : S T K V} {t : T} (h : Single s) (hs : Step f t s s') : Single s' := by
  cases hs with
  | found k c hl hc =>
    have ht : s.loc t ≠ .idle := by rw [hl]; simp
    refine ⟨h.one_move ht _, ?_, h.log⟩
    intro u k' hu
    by_cases hut : u = t
    · subst hut
      simp only [Function.update_self, Loc.get.injEq] at hu
      subst hu
      have := absV_isCached s.cache k k
      rw [hc] at this
      rw [this, ← (isCached_eq hc).2]
    · simp only [Function.update_of_ne hut] at hu
      exact absurd (h.one u t (by rw [hu]; simp) ht) hut
  | missing k c hl hc =>
    have ht : s.loc t ≠ .idle := by rw [hl]; simp
    refine ⟨h.one_move ht _, ?_, h.log⟩
    intro u k' hu
    by_cases hut : u = t
    · subst hut; simp at hu
    · simp only [Function.update_of_ne hut] at hu
      exact absurd (h.one u t (by rw [hu]; simp) ht) hut
  | hit k c v hl hc => exact h.leave (by rw [hl]; simp) _ _ _ (by simp)
  | lost k c hl hc =>
    have := h.present t k hl
    rw [get_threw hc] at this
    simp at this
  | stored k c hl hc => exact h.leave (by rw [hl]; simp) _ _ _ (by simp)
  | full k c hl hc => exact h.leave (by rw [hl]; simp) _ _ _ (by simp [eq_comm])

theorem single {f : K → V} {c₀ : State K V} {s : S T K V} (h : Reach f OneCaller c₀ s) : Single s := by
  induction h with
  | init => exact ⟨by simp [S.init], by simp [S.init], by simp [S.init]⟩
  | @call s t k _ _ hm ih =>
    have key : ∀ u, (s.begin t k).loc u ≠ .idle → u = t := by
      intro u hu
      by_contra hne
      simp only [S.begin, Function.update_of_ne hne] at hu
      exact hu (hm u)
    refine ⟨fun u u' h1 h2 => by rw [key u h1, key u' h2], ?_, ih.log⟩
    intro u k' hu
    by_cases hut : u = t
    · subst hut; simp [S.begin] at hu
    · simp [S.begin, Function.update_of_ne hut, hm u] at hu
  | step t _ hs ih => exact ih.step hs

/-- **C129** (one call at a time).  When no two calls overlap, whichever threads make them, the only exception is that of a cache full of samples that were
all read. -/
theorem C129_single (f : K → V) (c₀ : State K V) (s : S T K V) (h : Reach f OneCaller c₀ s) (t : T) (k : K) (w : String)
    (hr : (t, k, .throw w) ∈ s.log) : w = "Unable to clear cache up to limit" :=
  (single h).log t k w hr

/-! ## Enough room -/

structure Roomy (ks : List K) (s : S T K V) : Prop where
  wf : WF s.cache
  keys : ∀ k ∈ AMap.keys s.cache.map, k ∈ ks
  room : exceeds s.cache.entryBytes s.cache.limitMb ks.length = false
  locs : ∀ t, match s.loc t with
    | .idle => True
    | .check k => k ∈ ks
    | .get k => k ∈ ks ∧ (absV s.cache k).isSome
    | .add k => k ∈ ks
  log : ∀ t k w, (t, k, Res.throw w) ∉ s.log

theorem Roomy.fits {ks : List K} {s : S T K V} (h : Roomy ks s) : s.cache.exceeded = false := by
  have h1 : s.cache.map.length ≤ ks.length := by
    have : (AMap.keys s.cache.map).length ≤ ks.length := (List.subperm_of_subset h.wf h.keys).length_le
    simpa [AMap.keys] using this
  unfold State.exceeded
  cases he : exceeds s.cache.entryBytes s.cache.limitMb s.cache.map.length with
  | false => rfl
  | true =>
    have := exceeds_mono h1 he
    rw [h.room] at this
    simp at this

theorem get_const (c : State K V) (k : K) : (Cache.get c k).1.entryBytes = c.entryBytes ∧ (Cache.get c k).1.limitMb = c.limitMb ∧
    ∀ k', k' ∈ AMap.keys (Cache.get c k).1.map → k' ∈ AMap.keys c.map ∨ k' = k := by
  have ht : ∀ k', k' ∈ AMap.keys (AMap.touch c.map k (Stored.empty : Stored V)) → k' ∈ AMap.keys c.map ∨ k' = k := by
    intro k'
    rw [AMap.keys_touch]
    split
    · exact Or.inl
    · simp
  simp only [Cache.get, touch_get]
  split
  · split
    · refine ⟨rfl, rfl, fun k' hk' => ?_⟩
      simp only [AMap.keys_set] at hk'
      split at hk'
      · exact ht k' hk'
      · rw [List.mem_append, List.mem_singleton] at hk'
        rcases hk' with hk' | hk'
        · exact ht k' hk'
        · exact .inr hk'
    · exact ⟨rfl, rfl, ht⟩
  · exact ⟨rfl, rfl, ht⟩

/-- A thread moves on, leaving every cached value in place. -/
theorem Roomy.move {ks : List K} {s : S T K V} (h : Roomy ks s) (t : T) (l : Loc K) (c : State K V) (evs : List (T × K × Res V))
    (hw : WF c) (hk : ∀ k ∈ AMap.keys c.map, k ∈ ks) (hc : c.entryBytes = s.cache.entryBytes ∧ c.limitMb = s.cache.limitMb)
    (hkeep : ∀ k, (absV s.cache k).isSome → (absV c k).isSome)
    (hl : match l with | .idle => True | .check k => k ∈ ks | .get k => k ∈ ks ∧ (absV c k).isSome | .add k => k ∈ ks)
    (hev : ∀ t k w, (t, k, Res.throw w) ∉ evs) : Roomy ks ⟨c, Function.update s.loc t l, s.log ++ evs⟩ := by
  refine ⟨hw, hk, by simpa only [hc.1, hc.2] using h.room, ?_, ?_⟩
  · intro u
    by_cases hut : u = t
    · subst hut
      simpa only [Function.update_self] using hl
    · simp only [Function.update_of_ne hut]
      have := h.locs u
      cases hu : s.loc u with
      | idle => trivial
      | check k => simpa only [hu] using this
      | get k =>
        simp only [hu] at this
        exact ⟨this.1, hkeep k this.2⟩
      | add k => simpa only [hu] using this
  · intro u k w hm
    rcases List.mem_append.1 hm with hm | hm
    · exact h.log _ _ _ hm
    · exact hev _ _ _ hm

theorem Roomy.step {f : K → V} {ks : List K} {s s' : S T K V} {t : T} (h : Roomy ks s) (hs : Step f t s s') : Roomy ks s' := by
  have hloc := h.locs t
  have touched : ∀ k ∈ ks, ∀ k' ∈ AMap.keys (AMap.touch s.cache.map k (Stored.empty : Stored V)), k' ∈ ks := by
    intro k hk k' hk'
    rw [AMap.keys_touch] at hk'
    split at hk'
    · exact h.keys k' hk'
    · rw [List.mem_append, List.mem_singleton] at hk'
      rcases hk' with hk' | rfl
      · exact h.keys k' hk'
      · exact hk
  cases hs with
  | found k c hl hc =>
    simp only [hl] at hloc
    have hw := WF_isCached h.wf k
    have ha := fun k' => absV_isCached s.cache k k'
    obtain ⟨e1, e2⟩ := isCached_eq hc
    rw [hc] at hw ha
    have := h.move t (.get k) c [] hw (by rw [e1]; exact touched k hloc) (by rw [e1]; exact ⟨rfl, rfl⟩) (fun k' => by rw [ha]; exact id)
      ⟨hloc, by rw [ha, ← e2]⟩ (by simp)
    simpa using this
  | missing k c hl hc =>
    simp only [hl] at hloc
    have hw := WF_isCached h.wf k
    have ha := fun k' => absV_isCached s.cache k k'
    obtain ⟨e1, e2⟩ := isCached_eq hc
    rw [hc] at hw ha
    have := h.move t (.add k) c [] hw (by rw [e1]; exact touched k hloc) (by rw [e1]; exact ⟨rfl, rfl⟩) (fun k' => by rw [ha]; exact id)
      hloc (by simp)
    simpa using this
  | hit k c v hl hc =>
    simp only [hl] at hloc
    have hw := WF_get h.wf k
    have ha := fun k' => absV_get s.cache k k'
    obtain ⟨e1, e2, e3⟩ := get_const s.cache k
    rw [hc] at hw ha e1 e2 e3
    refine h.move t .idle c _ hw ?_ ⟨e1, e2⟩ (fun k' => by rw [ha]; exact id) trivial (by simp)
    intro k' hk'
    rcases e3 k' hk' with hk' | rfl
    · exact h.keys k' hk'
    · exact hloc.1
  | lost k c hl hc =>
    simp only [hl] at hloc
    have := hloc.2
    rw [get_threw hc] at this
    simp at this
  | stored k c hl hc =>
    simp only [hl] at hloc
    have hcl : clearUpToLimit s.cache = (s.cache, true) := by simp [clearUpToLimit, h.fits]
    have hadd : Cache.add s.cache k (f k) = ({ s.cache with map := AMap.set s.cache.map k (Stored.of (f k)) }, .done) := by simp [Cache.add, hcl]
    have hw := WF_add h.wf k (f k)
    rw [hadd] at hc
    rw [hadd] at hw
    cases hc
    refine h.move t .idle _ _ hw ?_ ⟨rfl, rfl⟩ ?_ trivial (by simp)
    · intro k' hk'
      simp only [AMap.keys_set] at hk'
      split at hk'
      · exact h.keys k' hk'
      · rw [List.mem_append, List.mem_singleton] at hk'
        rcases hk' with hk' | rfl
        · exact h.keys k' hk'
        · exact hloc
    · intro k' hk'
      simp only [absV, AMap.get?_set] at hk' ⊢
      by_cases hkk : k = k'
      · simp [hkk, Stored.of]
      · simpa [hkk] using hk'
  | full k c hl hc =>
    have hcl : clearUpToLimit s.cache = (s.cache, true) := by simp [clearUpToLimit, h.fits]
    simp [Cache.add, hcl] at hc

/-- **C129** (enough room).  When the cache has room for all wavelets, scales and lengths that are used, no call throws, however the calls overlap. -/
theorem C129_room (f : K → V) (ks : List K) (c₀ : State K V) (h0 : RoomFor c₀ ks.length) (s : S T K V) (h : Reach f (Only ks) c₀ s)
    (t : T) (k : K) (w : String) : (t, k, .throw w) ∉ s.log := by
  have key : Roomy ks s := by
    induction h with
    | init =>
      refine ⟨by simp [S.init, WF, h0.1, AMap.keys], by simp [S.init, h0.1, AMap.keys], exceeds_false.2 h0.2, by simp [S.init], by simp [S.init]⟩
    | @call s t k _ _ hm ih => simpa [S.begin] using ih.move t (.check k) s.cache [] ih.wf ih.keys ⟨rfl, rfl⟩ (fun _ => id) hm (by simp)
    | step t _ hs ih => exact ih.step hs
  exact key.log t k w

/-! ## Progress -/

/-- The number of `GetCachedValue` calls that returned the entry of `k`. -/
def reads (c : State K V) (k : K) : Nat := ((AMap.get? c.map k).map Stored.usage).getD 0

/-- **C129** (no waiting).  A thread inside a call can always make its next step – except that the 2147483648th read of an entry is undefined. -/
theorem C129_progress (f : K → V) (s : S T K V) (t : T) (ht : s.loc t ≠ .idle) (hr : ∀ k, s.loc t = .get k → reads s.cache k < 2147483647) :
    ∃ s', Step f t s s' := by
  cases hl : s.loc t with
  | idle => exact absurd hl ht
  | check k =>
    have h := isCached_out s.cache k
    rcases hc : isCached s.cache k with ⟨c, o⟩
    rw [hc] at h
    simp only at h
    subst h
    cases hb : (absV s.cache k).isSome with
    | true => exact ⟨_, .found k c hl (by rw [hc, hb])⟩
    | false => exact ⟨_, .missing k c hl (by rw [hc, hb])⟩
  | get k =>
    have hr := hr k hl
    rcases hc : Cache.get s.cache k with ⟨c, o⟩
    rcases get_out s.cache k with ⟨h1, _⟩ | ⟨v, _, h1⟩ | ⟨_, h1⟩
    · exfalso
      revert h1
      simp only [reads] at hr
      simp only [Cache.get, touch_get]
      cases hg : AMap.get? s.cache.map k with
      | none => simp [Stored.empty]
      | some e =>
        simp only [hg, Option.map_some, Option.getD_some] at hr
        simp only [Option.getD_some, hr, if_true]
        split <;> simp
    · rw [hc] at h1
      simp only at h1
      subst h1
      exact ⟨_, .hit k c v hl hc⟩
    · rw [hc] at h1
      simp only at h1
      subst h1
      exact ⟨_, .lost k c hl hc⟩
  | add k =>
    rcases hc : Cache.add s.cache k (f k) with ⟨c, o⟩
    have : o = .done ∨ o = .threw := by
      have : (Cache.add s.cache k (f k)).2 = o := by rw [hc]
      simp only [Cache.add] at this
      split at this <;> simp [← this]
    rcases this with rfl | rfl
    · exact ⟨_, .stored k c hl hc⟩
    · exact ⟨_, .full k c hl hc⟩

/-! ## A call that is not interrupted is that of the sequential model -/

/-- **C129** (one thread).  The function run by one thread without interruption is `GetWaveletSamplesForConvolution` of C53: it returns the same samples
and leaves the same cache. -/
theorem C129_alone {W : Type} (value : W → ℝ → ℂ) (s : S T (W × ℝ × Nat) (List ℂ)) (t : T) (w : W) (scale : ℝ) (N : Nat) (c' : Dsp.WCache W)
    (v : List ℂ) :
    Dsp.getSamples value (some s.cache) w scale N = (some c', .ok v) ↔
      ∃ s', Runs (fun k : W × ℝ × Nat => Dsp.samples (value k.1) k.2.1 k.2.2) (s.begin t (w, scale, N)) [t, t] s' ∧ s'.cache = c' ∧
        s'.log = s.log ++ [(t, (w, scale, N), .ok v)] := by
  set f := fun k : W × ℝ × Nat => Dsp.samples (value k.1) k.2.1 k.2.2 with hf
  set k : W × ℝ × Nat := (w, scale, N) with hk
  have hl : (s.begin t k).loc t = .check k := by simp [S.begin]
  have e1 := isCached_out s.cache k
  simp only [Dsp.getSamples, Cache.step]
  rcases hc : isCached s.cache k with ⟨c1, o⟩
  rw [hc] at e1
  simp only at e1
  subst e1
  cases hb : (absV s.cache k).isSome with
  | true =>
    rw [hb] at hc
    simp only
    constructor
    · intro h
      rcases hg : Cache.get c1 k with ⟨c2, o⟩
      rw [hg] at h
      cases o <;> simp only [Prod.mk.injEq, Option.some.injEq, Res.ok.injEq, reduceCtorEq, and_false] at h
      obtain ⟨rfl, rfl⟩ := h
      exact ⟨_, .cons t _ (.found k c1 hl hc) (.cons t _ (.hit k c2 _ (by simp) hg) (.nil _)), rfl, rfl⟩
    · rintro ⟨s', h, rfl, hlog⟩
      cases h with
      | cons _ _ h1 h2 =>
        cases h2 with
        | cons _ _ h2 h3 =>
          cases h3
          cases h1 with
          | found k' c hl' hc' =>
            rw [hl] at hl'
            cases hl'
            have : c = c1 := by
              have : isCached s.cache k = (c, .bool true) := hc'
              rw [hc] at this
              simpa using this.symm
            subst this
            cases h2 with
            | hit k' c2 v' hl2 hg =>
              simp only [Function.update_self, Loc.get.injEq] at hl2
              subst hl2
              simp only [S.leave, S.begin, List.append_cancel_left_eq, List.cons.injEq, Prod.mk.injEq, true_and, Res.ok.injEq, and_true] at hlog
              subst hlog
              simp only at hg
              rw [hg]
              rfl
            | lost k' c2 hl2 hg => simp [S.leave, S.begin] at hlog
            | missing k' c2 hl2 | found k' c2 hl2 | stored k' c2 hl2 | full k' c2 hl2 => simp at hl2
          | missing k' c hl' hc' =>
            rw [hl] at hl'
            cases hl'
            have : isCached s.cache k = (c, .bool false) := hc'
            rw [hc] at this
            simp at this
          | hit k' c v' hl' | lost k' c hl' | stored k' c hl' | full k' c hl' => rw [hl] at hl'; simp at hl'
  | false =>
    rw [hb] at hc
    simp only
    constructor
    · intro h
      rcases hg : Cache.add c1 k (f k) with ⟨c2, o⟩
      have hg' : Cache.add c1 k (Dsp.samples (value w) scale N) = (c2, o) := hg
      rw [hg'] at h
      cases o <;> simp only [Prod.mk.injEq, Option.some.injEq, Res.ok.injEq, reduceCtorEq, and_false] at h
      obtain ⟨rfl, rfl⟩ := h
      exact ⟨_, .cons t _ (.missing k c1 hl hc) (.cons t _ (.stored k c2 (by simp) hg) (.nil _)), rfl, rfl⟩
    · rintro ⟨s', h, rfl, hlog⟩
      cases h with
      | cons _ _ h1 h2 =>
        cases h2 with
        | cons _ _ h2 h3 =>
          cases h3
          cases h1 with
          | missing k' c hl' hc' =>
            rw [hl] at hl'
            cases hl'
            have : c = c1 := by
              have : isCached s.cache k = (c, .bool false) := hc'
              rw [hc] at this
              simpa using this.symm
            subst this
            cases h2 with
            | stored k' c2 hl2 hg =>
              simp only [Function.update_self, Loc.add.injEq] at hl2
              subst hl2
              simp only [S.leave, S.begin, List.append_cancel_left_eq, List.cons.injEq, Prod.mk.injEq, true_and, Res.ok.injEq, and_true] at hlog
              have hg' : Cache.add c k (Dsp.samples (value w) scale N) = (c2, .done) := hg
              rw [hg', ← hlog]
              rfl
            | full k' c2 hl2 hg => simp [S.leave, S.begin] at hlog
            | missing k' c2 hl2 | found k' c2 hl2 | hit k' c2 v' hl2 | lost k' c2 hl2 => simp at hl2
          | found k' c hl' hc' =>
            rw [hl] at hl'
            cases hl'
            have : isCached s.cache k = (c, .bool true) := hc'
            rw [hc] at this
            simp at this
          | hit k' c v' hl' | lost k' c hl' | stored k' c hl' | full k' c hl' => rw [hl] at hl'; simp at hl'

/-! ## Two calls at a time -/

theorem get?_append_new {W : Type} {m : List (K × W)} {k : K} {w : W} (h : k ∉ AMap.keys m) : AMap.get? (m ++ [(k, w)]) k = some w := by
  induction m with
  | nil => simp [AMap.get?]
  | cons e m ih =>
    simp only [AMap.keys, List.map_cons, List.mem_cons, not_or] at h
    simp only [List.cons_append, AMap.get?, if_neg (Ne.symm h.1)]
    exact ih h.2

theorem set_append_new {W : Type} {m : List (K × W)} {k : K} {w w' : W} (h : k ∉ AMap.keys m) :
    AMap.set (m ++ [(k, w)]) k w' = m ++ [(k, w')] := by
  induction m with
  | nil => simp [AMap.set]
  | cons e m ih =>
    simp only [AMap.keys, List.map_cons, List.mem_cons, not_or] at h
    simp only [List.cons_append, AMap.set, if_neg (Ne.symm h.1)]
    rw [ih h.2]

theorem get?_new {W : Type} {m : List (K × W)} {k : K} (h : k ∉ AMap.keys m) : AMap.get? m k = none := by
  induction m with
  | nil => rfl
  | cons e m ih =>
    simp only [AMap.keys, List.map_cons, List.mem_cons, not_or] at h
    simp only [AMap.get?, if_neg (Ne.symm h.1)]
    exact ih h.2

theorem isCached_new {m : List (K × Stored V)} {b : Nat} {l : Rat} {k : K} (h : k ∉ AMap.keys m) :
    isCached ⟨m, b, l⟩ k = (⟨m ++ [(k, Stored.empty)], b, l⟩, .bool false) := by
  simp [isCached, AMap.touch, get?_new h, get?_append_new h, Stored.empty]

theorem isCached_old {m : List (K × Stored V)} {b : Nat} {l : Rat} {k : K} {v : V} {u : Nat} (h : AMap.get? m k = some ⟨true, v, u⟩) :
    isCached ⟨m, b, l⟩ k = (⟨m, b, l⟩, .bool true) := by
  simp [isCached, AMap.touch, h]

theorem get_old {m : List (K × Stored V)} {b : Nat} {l : Rat} {k : K} {v : V} (h : AMap.get? m k = some ⟨true, v, 0⟩) :
    Cache.get ⟨m, b, l⟩ k = (⟨AMap.set m k ⟨true, v, 1⟩, b, l⟩, .value v) := by
  simp [Cache.get, AMap.touch, h]

/-- Adding to a cache that is too large evicts what was never read. -/
theorem add_evict {m : List (K × Stored V)} {b : Nat} {l : Rat} {k : K} {v : V} (h : exceeds b l m.length = true)
    (h' : exceeds b l (m.filter (fun e => !decide (e.2.usage < 1))).length = false) :
    Cache.add ⟨m, b, l⟩ k v = (⟨AMap.set (m.filter (fun e => !decide (e.2.usage < 1))) k (Stored.of v), b, l⟩, .done) := by
  simp only [Cache.add, clearUpToLimit, clearUnused, State.exceeded, h, h', if_true, Bool.false_eq_true, if_false]

theorem add_fits {m : List (K × Stored V)} {b : Nat} {l : Rat} {k : K} {v : V} (h : exceeds b l m.length = false) :
    Cache.add ⟨m, b, l⟩ k v = (⟨AMap.set m k (Stored.of v), b, l⟩, .done) := by
  simp [Cache.add, clearUpToLimit, State.exceeded, h]

/-- The cache after the keys `ks 0`, …, `ks (n-1)` were used once each. -/
def filled (f : K → V) (ks : Nat → K) (n : Nat) : List (K × Stored V) := (List.range n).map (fun i => (ks i, Stored.of (f (ks i))))

theorem filled_succ (f : K → V) (ks : Nat → K) (n : Nat) : filled f ks (n + 1) = filled f ks n ++ [(ks n, Stored.of (f (ks n)))] := by
  simp [filled, List.range_succ]

theorem filled_keys (f : K → V) {ks : Nat → K} (hi : Function.Injective ks) {n i : Nat} (h : n ≤ i) : ks i ∉ AMap.keys (filled f ks n) := by
  simp only [filled, AMap.keys, List.map_map, List.mem_map, List.mem_range, Function.comp_apply, not_exists, not_and]
  intro j hj he
  have := hi he
  omega

theorem filled_length (f : K → V) (ks : Nat → K) (n : Nat) : (filled f ks n).length = n := by simp [filled]

theorem filled_cons (f : K → V) (ks : Nat → K) (n : Nat) :
    filled f ks (n + 1) = (ks 0, Stored.of (f (ks 0))) :: filled f (fun i => ks (i + 1)) n := by
  simp [filled, List.range_succ_eq_map, Function.comp_def]

theorem filled_unread (f : K → V) (ks : Nat → K) (n : Nat) : (filled f ks n).filter (fun e => !decide (e.2.usage < 1)) = [] := by
  simp [filled, Stored.of]

theorem reach_filled {f : K → V} {ks : Nat → K} (hi : Function.Injective ks) {b : Nat} {l : Rat} (t : T) :
    ∀ n, exceeds b l n = false → ∃ s : S T K V, Reach f OneCaller ⟨[], b, l⟩ s ∧ (∀ u, s.loc u = .idle) ∧ s.cache = ⟨filled f ks n, b, l⟩ := by
  intro n
  induction n with
  | zero => intro _; exact ⟨S.init ⟨[], b, l⟩, .init, fun _ => rfl, rfl⟩
  | succ n ih =>
    intro hx
    have hx' : exceeds b l n = false := by
      cases he : exceeds b l n with
      | false => rfl
      | true => have := exceeds_mono (Nat.le_succ n) he; rw [hx] at this; simp at this
    obtain ⟨s, hr, hid, hs⟩ := ih hx'
    have hnew := filled_keys f hi (le_refl n)
    have h1 := Reach.call t (ks n) hr (hid t) hid
    have h2 := h1.step t (Step.missing (ks n) ⟨filled f ks n ++ [(ks n, Stored.empty)], b, l⟩ (by simp [S.begin])
      (by rw [show (s.begin t (ks n)).cache = s.cache from rfl, hs]; exact isCached_new hnew))
    have h3 := h2.step t (Step.stored (ks n) ⟨filled f ks (n + 1), b, l⟩ (by simp)
      (by
        simp only
        rw [add_fits (by simpa [filled_length] using hx), set_append_new hnew, filled_succ]))
    refine ⟨_, h3, ?_, rfl⟩
    intro u
    by_cases hu : u = t
    · subst hu; simp [S.leave]
    · simp [S.leave, S.begin, Function.update_of_ne hu, hid u]

theorem limit_exists {b : Nat} {l : Rat} (hb : 0 < b) (h1 : exceeds b l 1 = false) :
    ∃ n, exceeds b l (n + 1) = false ∧ exceeds b l (n + 2) = true := by
  have hex : ∃ n, exceeds b l (n + 2) = true := by
    obtain ⟨n, hn⟩ := exists_nat_gt (l * 1048576)
    refine ⟨n, ?_⟩
    simp only [exceeds, decide_eq_true_eq, gt_iff_lt]
    rw [lt_div_iff₀ (by norm_num)]
    refine lt_of_lt_of_le hn ?_
    exact_mod_cast (by nlinarith : n ≤ b * (n + 2))
  classical
  refine ⟨Nat.find hex, ?_, Nat.find_spec hex⟩
  rcases hf : Nat.find hex with _ | n
  · exact h1
  · have := Nat.find_min hex (m := n) (by omega)
    simpa using this

/-- **C129** (two calls at a time).  Whatever the limit of the cache – provided one entry fits – there is a history of calls, none of which overlap, after
which two calls of different threads both return in either order, but throw when the second one runs between the two cache calls of the first. -/
theorem C129_race (f : K → V) (ks : Nat → K) (hi : Function.Injective ks) (b : Nat) (l : Rat) (hb : 0 < b) (h1 : exceeds b l 1 = false) (t t' : T)
    (hne : t ≠ t') :
    ∃ (n : Nat) (s : S T K V), Reach f OneCaller ⟨[], b, l⟩ s ∧ (∀ u, s.loc u = .idle) ∧
      (∃ s', Runs f ((s.begin t (ks 0)).begin t' (ks n)) [t, t, t', t'] s' ∧
        s'.log = s.log ++ [(t, ks 0, .ok (f (ks 0))), (t', ks n, .ok (f (ks n)))]) ∧
      (∃ s', Runs f ((s.begin t (ks 0)).begin t' (ks n)) [t', t', t, t] s' ∧
        s'.log = s.log ++ [(t', ks n, .ok (f (ks n))), (t, ks 0, .ok (f (ks 0)))]) ∧
      (∃ s', Runs f ((s.begin t (ks 0)).begin t' (ks n)) [t, t', t', t] s' ∧
        s'.log = s.log ++ [(t', ks n, .ok (f (ks n))), (t, ks 0, .throw "Attempt to get uncached value")]) := by
  obtain ⟨n, hn, hn1⟩ := limit_exists hb h1
  obtain ⟨s, hr, hid, hs⟩ := reach_filled (f := f) hi (T := T) t (n + 1) hn
  have h0 : exceeds b l 0 = false := by
    cases he : exceeds b l 0 with
    | false => rfl
    | true => have := exceeds_mono (Nat.zero_le 1) he; rw [h1] at this; simp at this
  have hnew := filled_keys f hi (le_refl (n + 1))
  have hk : ks 0 ≠ ks (n + 1) := fun h => by have := hi h; omega
  have hne' := Ne.symm hne
  have hget : AMap.get? (filled f ks (n + 1)) (ks 0) = some ⟨true, f (ks 0), 0⟩ := by simp [filled_cons, AMap.get?, Stored.of]
  have hget' : AMap.get? (filled f ks (n + 1) ++ [(ks (n + 1), Stored.empty)]) (ks 0) = some ⟨true, f (ks 0), 0⟩ := by
    simp [filled_cons, AMap.get?, Stored.of]
  have hlen : exceeds b l (filled f ks (n + 1) ++ [(ks (n + 1), (Stored.empty : Stored V))]).length = true := by simpa [filled_length] using hn1
  have hemp : (filled f ks (n + 1) ++ [(ks (n + 1), (Stored.empty : Stored V))]).filter (fun e => !decide (e.2.usage < 1)) = [] := by
    rw [List.filter_append, filled_unread]; simp [Stored.empty]
  have hadd : Cache.add ⟨filled f ks (n + 1) ++ [(ks (n + 1), Stored.empty)], b, l⟩ (ks (n + 1)) (f (ks (n + 1))) =
      (⟨[(ks (n + 1), Stored.of (f (ks (n + 1))))], b, l⟩, .done) := by
    rw [add_evict hlen (by rw [hemp]; exact h0), hemp]; rfl
  refine ⟨n + 1, s, hr, hid, ?_, ?_, ?_⟩
  · -- t, t, t', t'
    set m1 := AMap.set (filled f ks (n + 1)) (ks 0) ⟨true, f (ks 0), 1⟩ with hm1
    have hm1' : m1 = (ks 0, ⟨true, f (ks 0), 1⟩) :: filled f (fun i => ks (i + 1)) n := by simp [hm1, filled_cons, AMap.set]
    have hnew1 : ks (n + 1) ∉ AMap.keys m1 := by
      have : AMap.keys m1 = AMap.keys (filled f ks (n + 1)) := by simp [hm1', filled_cons, AMap.keys]
      rw [this]; exact hnew
    have hfil : (m1 ++ [(ks (n + 1), (Stored.empty : Stored V))]).filter (fun e => !decide (e.2.usage < 1)) = [(ks 0, ⟨true, f (ks 0), 1⟩)] := by
      rw [hm1', List.filter_append, List.filter_cons, filled_unread]; simp [Stored.empty]
    have hadd1 := add_evict (m := m1 ++ [(ks (n + 1), (Stored.empty : Stored V))]) (b := b) (l := l) (k := ks (n + 1)) (v := f (ks (n + 1)))
      (by simpa [hm1', filled_length] using hn1) (by rw [hfil]; exact h1)
    refine ⟨_, .cons t _ (.found (ks 0) ⟨filled f ks (n + 1), b, l⟩ (by simp [S.begin, Function.update_of_ne hne]) ?_)
      (.cons t _ (.hit (ks 0) ⟨m1, b, l⟩ (f (ks 0)) (by simp) (get_old hget))
      (.cons t' _ (.missing (ks (n + 1)) ⟨m1 ++ [(ks (n + 1), Stored.empty)], b, l⟩ (by simp [S.leave, S.begin, Function.update_of_ne hne']) (isCached_new hnew1))
      (.cons t' _ (.stored (ks (n + 1)) _ (by simp) hadd1) (.nil _)))), ?_⟩
    · simp only [S.begin, hs]; exact isCached_old hget
    · simp [S.leave, S.begin]
  · -- t', t', t, t
    have hnew2 : ks 0 ∉ AMap.keys [(ks (n + 1), (Stored.of (f (ks (n + 1))) : Stored V))] := by simpa [AMap.keys] using hk
    have hadd2 : ∃ c, Cache.add ⟨[(ks (n + 1), (Stored.of (f (ks (n + 1))) : Stored V))] ++ [(ks 0, Stored.empty)], b, l⟩ (ks 0) (f (ks 0)) = (c, .done) := by
      cases he : exceeds b l 2 with
      | false => exact ⟨_, add_fits (by simpa using he)⟩
      | true => exact ⟨_, add_evict (by simpa using he) (by simpa [Stored.of, Stored.empty] using h0)⟩
    obtain ⟨c, hadd2⟩ := hadd2
    refine ⟨_, .cons t' _ (.missing (ks (n + 1)) ⟨filled f ks (n + 1) ++ [(ks (n + 1), Stored.empty)], b, l⟩ (by simp [S.begin]) ?_)
      (.cons t' _ (.stored (ks (n + 1)) _ (by simp) hadd)
      (.cons t _ (.missing (ks 0) _ (by simp [S.leave, S.begin, Function.update_of_ne hne]) (isCached_new hnew2))
      (.cons t _ (.stored (ks 0) c (by simp) hadd2) (.nil _)))), ?_⟩
    · simp only [S.begin, hs]; exact isCached_new hnew
    · simp [S.leave, S.begin]
  · -- t, t', t', t
    have hlost : Cache.get ⟨[(ks (n + 1), (Stored.of (f (ks (n + 1))) : Stored V))], b, l⟩ (ks 0) =
        (⟨[(ks (n + 1), (Stored.of (f (ks (n + 1))) : Stored V)), (ks 0, Stored.empty)], b, l⟩, .threw) := by
      simp [Cache.get, AMap.touch, AMap.get?, hk.symm, Stored.empty]
    refine ⟨_, .cons t _ (.found (ks 0) ⟨filled f ks (n + 1), b, l⟩ (by simp [S.begin, Function.update_of_ne hne]) ?_)
      (.cons t' _ (.missing (ks (n + 1)) ⟨filled f ks (n + 1) ++ [(ks (n + 1), Stored.empty)], b, l⟩ (by simp [S.begin, Function.update_of_ne hne']) (isCached_new hnew))
      (.cons t' _ (.stored (ks (n + 1)) _ (by simp) hadd)
      (.cons t _ (.lost (ks 0) _ (by simp [S.leave, S.begin, Function.update_of_ne hne]) hlost) (.nil _)))), ?_⟩
    · simp only [S.begin, hs]; exact isCached_old hget
    · simp [S.leave, S.begin]

/-! ## The hypotheses can be met -/

/-- Two entries of half a megabyte in a cache of one megabyte. -/
example : ∃ (n : Nat) (s : S Bool Nat Nat), Reach (fun k => k * k) OneCaller ⟨[], 524288, 1⟩ s ∧ ∃ s',
    Runs (fun k => k * k) ((s.begin false 0).begin true n) [false, true, true, false] s' ∧ (false, 0, .throw "Attempt to get uncached value") ∈ s'.log := by
  obtain ⟨n, s, hr, _, _, _, s', h, hl⟩ := C129_race (T := Bool) (fun k : Nat => k * k) id Function.injective_id 524288 1 (by decide) (by decide +kernel) false true
    (by decide)
  exact ⟨n, s, hr, s', h, by rw [hl]; simp⟩

/-- The same cache with room for both keys: the calls overlap, and both return. -/
example : RoomFor (⟨[], 524288, 1⟩ : State Nat Nat) 2 ∧ ∃ s : S Bool Nat Nat, Reach (fun k => k * k) (Only [3, 5]) ⟨[], 524288, 1⟩ s ∧
    s.log = [(true, 5, .ok 25), (false, 3, .ok 9)] := by
  refine ⟨⟨rfl, by norm_num⟩, ?_⟩
  have h0 : Reach (fun k => k * k) (Only [3, 5]) ⟨[], 524288, 1⟩ (S.init ⟨[], 524288, 1⟩ : S Bool Nat Nat) := .init
  have h1 := h0.call false 3 rfl (by simp [Only])
  have h2 := h1.call true 5 (by simp [S.begin, S.init]) (by simp [Only])
  have h3 := h2.step false (.missing 3 ⟨[(3, Stored.empty)], 524288, 1⟩ (by simp [S.begin, Function.update_of_ne]) (isCached_new (by decide)))
  have h4 := h3.step true (.missing 5 ⟨[(3, Stored.empty), (5, Stored.empty)], 524288, 1⟩ (by simp [S.begin, Function.update_of_ne]) (isCached_new (by decide)))
  have h5 := h4.step true (.stored 5 ⟨[(3, Stored.empty), (5, Stored.of 25)], 524288, 1⟩ (by simp) (add_fits (by decide +kernel)))
  have h6 := h5.step false (.stored 3 ⟨[(3, Stored.of 9), (5, Stored.of 25)], 524288, 1⟩ (by simp [S.leave, Function.update_of_ne]) (add_fits (by decide +kernel)))
  exact ⟨_, h6, by simp [S.leave, S.begin, S.init]⟩

end K52.FwtThreads
