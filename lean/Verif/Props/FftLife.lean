import Verif.Model.FftLife
import Mathlib.Data.Finset.Image
import Mathlib.Data.Finset.Range

/-!
# C121: copies of fast Fourier transforms
-/

namespace K52.FftLife

/-! ## Specification

What a program does with its variables, without looking at pointers: variables get the numbers 0, 1, ... in the order in which they begin to exist, by
construction (of a positive size) or by copying. -/

/-- The variables: how many have begun to exist, and which exist now. -/
structure Vars where
  made : Nat
  live : Finset Nat
  deriving DecidableEq

/-- The effect of an operation on the variables; `none`: it mentions a variable that does not exist (no C++ program does). -/
def Vars.next (v : Vars) : Op → Option Vars
  | .construct size => if size = 0 then some v else some ⟨v.made + 1, insert v.made v.live⟩
  | .copy h => if h ∈ v.live then some ⟨v.made + 1, insert v.made v.live⟩ else none
  | .assign h g => if h ∈ v.live ∧ g ∈ v.live then some v else none
  | .destroy h => if h ∈ v.live then some ⟨v.made, v.live.erase h⟩ else none
  | .transform h _ => if h ∈ v.live then some v else none

def Vars.after (v : Vars) : List Op → Option Vars
  | [] => some v
  | op :: ops => (v.next op).bind fun v' => v'.after ops

/-- The program begins without variables and mentions only variables that exist; `live` are those that exist at its end. -/
def Program (ops : List Op) (live : Finset Nat) : Prop := ∃ made, Vars.after ⟨0, ∅⟩ ops = some ⟨made, live⟩

/-- The operation copies one variable to another. -/
def Op.copies : Op → Prop
  | .copy _ => True
  | .assign h g => h ≠ g
  | _ => False

/-- What a program that does not copy is told, when `sizes` are the sizes of the variables made so far. -/
def answers (sizes : List Nat) : List Op → List Ans
  | [] => []
  | .construct size :: ops => if size = 0 then .threw :: answers sizes ops else .done :: answers (sizes ++ [size]) ops
  | .transform h length :: ops => (if sizes[h]? = some length then .transformed else .threw) :: answers sizes ops
  | _ :: ops => .done :: answers sizes ops

/-! ## Invariants -/

/-- The variables that the state knows. -/
structure Agrees (v : Vars) (s : S) : Prop where
  made : v.made = s.made
  live : ∀ h, h ∈ v.live ↔ (s.ptr h).isSome
  bound : ∀ h ∈ v.live, h < v.made
  ptr : ∀ h p, s.ptr h = some p → p < s.sizes.length
  alive : ∀ p ∈ s.alive, p < s.sizes.length

theorem agrees_init : Agrees ⟨0, ∅⟩ S.init := ⟨rfl, by simp [S.init], by simp, by simp [S.init], by simp [S.init]⟩

theorem Agrees.exec {v v' : Vars} {s s' : S} {op : Op} {a : Ans} (h : Agrees v s) (hv : v.next op = some v') (he : exec s op = .ok (s', a)) :
    Agrees v' s' := by
  have hfresh : ∀ g, (s.ptr g).isSome → g ≠ s.made := fun g hg => by
    have := h.bound g ((h.live g).2 hg)
    have := h.made
    omega
  cases op with
  | construct size =>
    simp only [FftLife.exec, construct, Res.ok.injEq] at he
    simp only [Vars.next] at hv
    by_cases hz : size = 0
    · rw [if_pos (by omega)] at he
      rw [if_pos hz] at hv
      cases he; cases hv
      exact h
    · rw [if_neg (by omega)] at he
      rw [if_neg hz] at hv
      cases he; cases hv
      refine ⟨by simp [h.made], ?_, ?_, ?_, ?_⟩
      · intro g
        by_cases hg : g = s.made
        · simp [h.made, hg]
        · simp [h.made, hg, h.live]
      · intro g hg
        rcases Finset.mem_insert.1 hg with rfl | hg
        · simp
        · have := h.bound g hg
          simp only
          omega
      · intro g p hp
        by_cases hg : g = s.made
        · simp [hg] at hp
          simp [← hp]
        · simp only [Function.update_of_ne hg] at hp
          have := h.ptr g p hp
          simp only [List.length_append, List.length_singleton]
          omega
      · intro p hp
        simp only [List.length_append, List.length_singleton]
        rcases Finset.mem_insert.1 hp with rfl | hp
        · omega
        · have := h.alive p hp
          omega
  | copy g0 =>
    simp only [FftLife.exec, copy] at he
    simp only [Vars.next] at hv
    split at he
    · simp at he
    · rename_i p hp
      rw [if_pos ((h.live g0).2 (by simp [hp]))] at hv
      cases he; cases hv
      refine ⟨by simp [h.made], ?_, ?_, ?_, h.alive⟩
      · intro g
        by_cases hg : g = s.made
        · simp [h.made, hg]
        · simp [h.made, hg, h.live]
      · intro g hg
        rcases Finset.mem_insert.1 hg with rfl | hg
        · simp
        · have := h.bound g hg
          simp only
          omega
      · intro g q hq
        by_cases hg : g = s.made
        · simp [hg] at hq
          exact hq ▸ h.ptr g0 p hp
        · simp only [Function.update_of_ne hg] at hq
          exact h.ptr g q hq
  | assign g0 g1 =>
    simp only [FftLife.exec, assign] at he
    simp only [Vars.next] at hv
    split at he
    · rename_i p q hp hq
      rw [if_pos ⟨(h.live g0).2 (by simp [hp]), (h.live g1).2 (by simp [hq])⟩] at hv
      cases he; cases hv
      refine ⟨h.made, ?_, h.bound, ?_, h.alive⟩
      · intro g
        by_cases hg : g = g0
        · simp [hg, h.live, hp]
        · simp [hg, h.live]
      · intro g q' hq'
        by_cases hg : g = g0
        · simp [hg] at hq'
          exact hq' ▸ h.ptr g1 q hq
        · simp only [Function.update_of_ne hg] at hq'
          exact h.ptr g q' hq'
    · simp at he
  | destroy g0 =>
    simp only [FftLife.exec, destroy] at he
    simp only [Vars.next] at hv
    split at he
    · simp at he
    · rename_i p hp
      rw [if_pos ((h.live g0).2 (by simp [hp]))] at hv
      split at he
      · cases he; cases hv
        refine ⟨h.made, ?_, fun g hg => h.bound g (Finset.mem_of_mem_erase hg), ?_, fun p hp => h.alive p (Finset.mem_of_mem_erase hp)⟩
        · intro g
          by_cases hg : g = g0
          · simp [hg]
          · simp [hg, h.live]
        · intro g q hq
          by_cases hg : g = g0
          · simp [hg] at hq
          · simp only [Function.update_of_ne hg] at hq
            exact h.ptr g q hq
      · simp at he
  | transform g0 n =>
    simp only [FftLife.exec, transform] at he
    simp only [Vars.next] at hv
    split at he
    · simp at he
    · rename_i p hp
      rw [if_pos ((h.live g0).2 (by simp [hp]))] at hv
      split at he
      · split at he
        · simp at he
        · cases he; cases hv
          exact h
      · simp at he

/-- The implementations that are alive and that some variable points to. -/
def held (v : Vars) (s : S) : Finset Nat := (v.live.image fun h => (s.ptr h).getD 0).filter (· ∈ s.alive)

theorem held_card_le (v : Vars) (s : S) : (held v s).card ≤ v.live.card :=
  (Finset.card_filter_le _ _).trans Finset.card_image_le

theorem mem_held {v : Vars} {s : S} {p : Nat} (hag : Agrees v s) : p ∈ held v s ↔ p ∈ s.alive ∧ ∃ h, s.ptr h = some p := by
  simp only [held, Finset.mem_filter, Finset.mem_image]
  constructor
  · rintro ⟨⟨h, hh, rfl⟩, ha⟩
    obtain ⟨q, hq⟩ := Option.isSome_iff_exists.1 ((hag.live h).1 hh)
    exact ⟨ha, h, by simp [hq]⟩
  · rintro ⟨ha, h, hp⟩
    exact ⟨⟨h, (hag.live h).2 (by simp [hp]), by simp [hp]⟩, ha⟩

/-- There are fewer implementations to delete than variables that will delete one. -/
def Bad (v : Vars) (s : S) : Prop := (held v s).card < v.live.card

theorem bad_step {v v' : Vars} {s s' : S} {op : Op} {a : Ans} (hag : Agrees v s) (hv : v.next op = some v') (he : exec s op = .ok (s', a))
    (hb : Bad v s ∨ op.copies) : Bad v' s' := by
  have hag' := hag.exec hv he
  have hle := held_card_le v s
  have hnew : v.made ∉ v.live := fun h => absurd (hag.bound _ h) (lt_irrefl _)
  unfold Bad at hb ⊢
  cases op with
  | construct size =>
    replace hb := hb.resolve_right (by simp [Op.copies])
    simp only [FftLife.exec, construct, Res.ok.injEq] at he
    simp only [Vars.next] at hv
    by_cases hz : size = 0
    · rw [if_pos (by omega)] at he
      rw [if_pos hz] at hv
      cases he; cases hv
      exact hb
    · rw [if_neg (by omega)] at he
      rw [if_neg hz] at hv
      cases he; cases hv
      refine lt_of_le_of_lt (Finset.card_le_card (t := insert s.sizes.length (held v s)) ?_) ?_
      · intro p hp
        obtain ⟨hp1, h, hp2⟩ := (mem_held hag').1 hp
        by_cases hh : h = s.made
        · simp [hh] at hp2
          simp [hp2]
        · simp only [Function.update_of_ne hh] at hp2
          refine Finset.mem_insert_of_mem ((mem_held hag).2 ⟨?_, h, hp2⟩)
          refine Finset.mem_of_mem_insert_of_ne hp1 ?_
          have := hag.ptr h p hp2
          omega
      · have := Finset.card_insert_le s.sizes.length (held v s)
        rw [Finset.card_insert_of_notMem hnew]
        omega
  | copy g =>
    simp only [FftLife.exec, copy] at he
    simp only [Vars.next] at hv
    split at he
    · simp at he
    · rename_i q hq
      rw [if_pos ((hag.live g).2 (by simp [hq]))] at hv
      cases he; cases hv
      refine lt_of_le_of_lt (Finset.card_le_card (t := held v s) ?_) ?_
      · intro p hp
        obtain ⟨hp1, h, hp2⟩ := (mem_held hag').1 hp
        by_cases hh : h = s.made
        · simp [hh] at hp2
          exact (mem_held hag).2 ⟨hp1, g, hp2 ▸ hq⟩
        · simp only [Function.update_of_ne hh] at hp2
          exact (mem_held hag).2 ⟨hp1, h, hp2⟩
      · rw [Finset.card_insert_of_notMem hnew]
        omega
  | assign h g =>
    simp only [FftLife.exec, assign] at he
    simp only [Vars.next] at hv
    split at he
    · rename_i p q hp hq
      rw [if_pos ⟨(hag.live h).2 (by simp [hp]), (hag.live g).2 (by simp [hq])⟩] at hv
      cases he; cases hv
      by_cases hne : h = g
      · subst hne
        have : Function.update s.ptr h (some q) = s.ptr := by rw [← hq, Function.update_eq_self]
        simp only [this]
        exact hb.resolve_right (by simp [Op.copies])
      · have hl : h ∈ v.live := (hag.live h).2 (by simp [hp])
        have hg : g ∈ v.live.erase h := Finset.mem_erase.2 ⟨Ne.symm hne, (hag.live g).2 (by simp [hq])⟩
        refine lt_of_le_of_lt (Finset.card_filter_le _ _) ?_
        refine lt_of_le_of_lt (Finset.card_le_card (t := (v.live.erase h).image fun k => (s.ptr k).getD 0) ?_) ?_
        · intro r hr
          obtain ⟨k, hk, rfl⟩ := Finset.mem_image.1 hr
          by_cases hkh : k = h
          · subst hkh
            exact Finset.mem_image.2 ⟨g, hg, by simp [hq]⟩
          · exact Finset.mem_image.2 ⟨k, Finset.mem_erase.2 ⟨hkh, hk⟩, by simp [Function.update_of_ne hkh]⟩
        · exact lt_of_le_of_lt Finset.card_image_le (Finset.card_erase_lt_of_mem hl)
    · simp at he
  | destroy h =>
    replace hb := hb.resolve_right (by simp [Op.copies])
    simp only [FftLife.exec, destroy] at he
    simp only [Vars.next] at hv
    split at he
    · simp at he
    · rename_i p hp
      have hl : h ∈ v.live := (hag.live h).2 (by simp [hp])
      rw [if_pos hl] at hv
      split at he
      · rename_i hpa
        cases he; cases hv
        have hph : p ∈ held v s := (mem_held hag).2 ⟨hpa, h, hp⟩
        refine lt_of_le_of_lt (Finset.card_le_card (t := (held v s).erase p) ?_) ?_
        · intro r hr
          obtain ⟨hr1, k, hr2⟩ := (mem_held hag').1 hr
          by_cases hkh : k = h
          · simp [hkh] at hr2
          · simp only [Function.update_of_ne hkh] at hr2
            have := Finset.mem_erase.1 hr1
            exact Finset.mem_erase.2 ⟨this.1, (mem_held hag).2 ⟨this.2, k, hr2⟩⟩
        · rw [Finset.card_erase_of_mem hph, Finset.card_erase_of_mem hl]
          have := Finset.card_pos.2 ⟨p, hph⟩
          omega
      · simp at he
  | transform h n =>
    replace hb := hb.resolve_right (by simp [Op.copies])
    simp only [FftLife.exec, transform] at he
    simp only [Vars.next] at hv
    split at he
    · simp at he
    · rename_i p hp
      rw [if_pos ((hag.live h).2 (by simp [hp]))] at hv
      split at he
      · split at he
        · simp at he
        · cases he; cases hv
          exact hb
      · simp at he

theorem run_cons_ok {s s' : S} {op : Op} {ops : List Op} {as : List Ans} (h : run s (op :: ops) = .ok (s', as)) :
    ∃ s1 a as', exec s op = .ok (s1, a) ∧ run s1 ops = .ok (s', as') ∧ as = a :: as' := by
  simp only [run, Res.bind_eq_ok] at h
  obtain ⟨⟨s1, a⟩, h1, ⟨s2, as'⟩, h2, h3⟩ := h
  cases h3
  exact ⟨s1, a, as', h1, h2, rfl⟩

theorem bad_run : ∀ (ops : List Op) {v v' : Vars} {s s' : S} {as : List Ans}, Agrees v s → v.after ops = some v' → run s ops = .ok (s', as) →
    (Bad v s ∨ ∃ op ∈ ops, op.copies) → Bad v' s' := by
  intro ops
  induction ops with
  | nil =>
    intro v v' s s' as hag hv hr hb
    simp only [Vars.after, Option.some.injEq] at hv
    simp only [run, Res.ok.injEq, Prod.mk.injEq] at hr
    rw [← hv, ← hr.1]
    simpa using hb
  | cons op ops ih =>
    intro v v' s s' as hag hv hr hb
    obtain ⟨s1, a, as', h1, h2, -⟩ := run_cons_ok hr
    simp only [Vars.after, Option.bind_eq_some_iff] at hv
    obtain ⟨v1, hv1, hv2⟩ := hv
    refine ih (hag.exec hv1 h1) hv2 h2 ?_
    rcases hb with hb | ⟨o, ho, hc⟩
    · exact .inl (bad_step hag hv1 h1 (.inl hb))
    · rcases List.mem_cons.1 ho with rfl | ho
      · exact .inl (bad_step hag hv1 h1 (.inr hc))
      · exact .inr ⟨o, ho, hc⟩

theorem run_not_throw : ∀ (ops : List Op) (s : S), run s ops = .ub ∨ ∃ s' as, run s ops = .ok (s', as) := by
  intro ops
  induction ops with
  | nil => intro s; exact .inr ⟨s, [], rfl⟩
  | cons op ops ih =>
    intro s
    have : exec s op = .ub ∨ ∃ s1 a, exec s op = .ok (s1, a) := by
      cases op with
      | construct size => exact .inr ⟨(construct s size).1, (construct s size).2, rfl⟩
      | copy h => cases hp : s.ptr h <;> simp [exec, copy, hp]
      | assign h g => cases hp : s.ptr h <;> cases hq : s.ptr g <;> simp [exec, assign, hp, hq]
      | destroy h =>
        cases hp : s.ptr h with
        | none => simp [exec, destroy, hp]
        | some p => by_cases ha : p ∈ s.alive <;> simp [exec, destroy, hp, ha]
      | transform h n =>
        cases hp : s.ptr h with
        | none => simp [exec, transform, hp]
        | some p => by_cases ha : p ∈ s.alive <;> cases hz : s.sizes[p]? <;> simp [exec, transform, hp, ha, hz]
    rcases this with h | ⟨s1, a, h⟩
    · exact .inl (by simp [run, h])
    · rcases ih s1 with h2 | ⟨s', as, h2⟩
      · exact .inl (by simp [run, h, h2])
      · exact .inr ⟨s', a :: as, by simp [run, h, h2]⟩

/-! ## Programs that do not copy -/

/-- Variable `h` has implementation `h`, and there are no others. -/
structure Good (v : Vars) (s : S) : Prop where
  made : s.made = v.made
  len : s.sizes.length = v.made
  ptr : ∀ h, s.ptr h = if h ∈ v.live then some h else none
  alive : s.alive = v.live
  bound : ∀ h ∈ v.live, h < v.made

theorem good_run : ∀ (ops : List Op) {v v' : Vars} {s : S}, Good v s → v.after ops = some v' → (∀ op ∈ ops, ¬ op.copies) →
    ∃ s', run s ops = .ok (s', answers s.sizes ops) ∧ Good v' s' := by
  intro ops
  induction ops with
  | nil =>
    intro v v' s hg hv _
    simp only [Vars.after, Option.some.injEq] at hv
    exact ⟨s, rfl, hv ▸ hg⟩
  | cons op ops ih =>
    intro v v' s hg hv hn
    simp only [Vars.after, Option.bind_eq_some_iff] at hv
    obtain ⟨v1, hv1, hv2⟩ := hv
    have hn1 := hn op (List.mem_cons_self ..)
    have hn2 : ∀ op ∈ ops, ¬ op.copies := fun o ho => hn o (List.mem_cons_of_mem _ ho)
    cases op with
    | construct size =>
      simp only [Vars.next] at hv1
      by_cases hz : size = 0
      · rw [if_pos hz] at hv1
        cases hv1
        obtain ⟨s', h1, h2⟩ := ih hg hv2 hn2
        exact ⟨s', by simp [run, exec, construct, hz, answers, h1], h2⟩
      · rw [if_neg hz] at hv1
        cases hv1
        have hg' : Good ⟨v.made + 1, insert v.made v.live⟩
            ⟨s.sizes ++ [size], insert s.sizes.length s.alive, s.made + 1, Function.update s.ptr s.made (some s.sizes.length)⟩ := by
          refine ⟨by simp [hg.made], by simp [hg.len], ?_, by simp [hg.len, hg.alive], ?_⟩
          · intro h
            by_cases hh : h = s.made
            · simp [hh, hg.made, hg.len]
            · have : h ≠ v.made := hg.made ▸ hh
              simp [Function.update_of_ne hh, hg.ptr, this]
          · intro h hh
            rcases Finset.mem_insert.1 hh with rfl | hh
            · simp
            · have := hg.bound h hh
              simp only
              omega
        obtain ⟨s', h1, h2⟩ := ih hg' hv2 hn2
        exact ⟨s', by simp [run, exec, construct, hz, answers, h1], h2⟩
    | copy h => exact absurd trivial hn1
    | assign h g =>
      simp only [Op.copies, ne_eq, not_not] at hn1
      subst hn1
      simp only [Vars.next, and_self] at hv1
      split at hv1
      · rename_i hl
        cases hv1
        obtain ⟨s', h1, h2⟩ := ih hg hv2 hn2
        have hp : s.ptr h = some h := by rw [hg.ptr, if_pos hl]
        have hu : Function.update s.ptr h (some h) = s.ptr := by rw [← hp, Function.update_eq_self]
        exact ⟨s', by simp [run, exec, assign, hp, hu, answers, h1], h2⟩
      · simp at hv1
    | destroy h =>
      simp only [Vars.next] at hv1
      split at hv1
      · rename_i hl
        cases hv1
        have hp : s.ptr h = some h := by rw [hg.ptr, if_pos hl]
        have hg' : Good ⟨v.made, v.live.erase h⟩ { s with alive := s.alive.erase h, ptr := Function.update s.ptr h none } := by
          refine ⟨hg.made, hg.len, ?_, by simp [hg.alive], fun k hk => hg.bound k (Finset.mem_of_mem_erase hk)⟩
          intro k
          by_cases hk : k = h
          · simp [hk]
          · simp [hk, hg.ptr]
        obtain ⟨s', h1, h2⟩ := ih hg' hv2 hn2
        exact ⟨s', by simp [run, exec, destroy, hp, hg.alive, hl, answers]; simp [hg.alive] at h1; simp [h1], h2⟩
      · simp at hv1
    | transform h n =>
      simp only [Vars.next] at hv1
      split at hv1
      · rename_i hl
        cases hv1
        obtain ⟨s', h1, h2⟩ := ih hg hv2 hn2
        have hp : s.ptr h = some h := by rw [hg.ptr, if_pos hl]
        have hb : h < s.sizes.length := by rw [hg.len]; exact hg.bound h hl
        refine ⟨s', ?_, h2⟩
        simp only [run, exec, transform, hp, hg.alive, hl, if_true, List.getElem?_eq_getElem hb, answers, h1, Option.some.injEq, Res.ok_bind,
          Res.pure_eq, ne_eq, ite_not]
      · simp at hv1

theorem good_init : Good ⟨0, ∅⟩ S.init := ⟨rfl, rfl, by simp [S.init], rfl, by simp⟩

/-! ## C121 -/

/-- **C121** (when a program is defined).  A program that destroys all its variables is free of undefined behaviour exactly when it copies none: no copy
construction at all, and no assignment but of a variable to itself. -/
theorem C121_defined_iff (ops : List Op) (h : Program ops ∅) :
    run S.init ops = .ub ↔ ∃ op ∈ ops, op.copies := by
  obtain ⟨made, hv⟩ := h
  constructor
  · intro hub
    by_contra hn
    push Not at hn
    obtain ⟨s', h1, -⟩ := good_run ops good_init hv hn
    rw [h1] at hub
    cases hub
  · intro hc
    rcases run_not_throw ops S.init with h | ⟨s', as, h⟩
    · exact h
    · have := bad_run ops agrees_init hv h (.inr hc)
      simp [Bad] at this

/-- **C121** (programs that do not copy).  They are defined, at every moment there are as many implementations as variables, so everything is
freed when all variables are destroyed, and every `Transform` is answered according to the size its variable was constructed with. -/
theorem C121_without_copies (ops : List Op) (live : Finset Nat) (h : Program ops live) (hn : ∀ op ∈ ops, ¬ op.copies) :
    ∃ s, run S.init ops = .ok (s, answers [] ops) ∧ s.alive.card = live.card ∧ (live = ∅ → s.alive = ∅) := by
  obtain ⟨made, hv⟩ := h
  obtain ⟨s', h1, h2⟩ := good_run ops good_init hv hn
  exact ⟨s', h1, by rw [h2.alive], fun h => by rw [h2.alive, h]⟩

theorem run_append (s : S) (ops more : List Op) : run s (ops ++ more) = (do
    let (s', as) ← run s ops
    let (s'', bs) ← run s' more
    return (s'', as ++ bs)) := by
  induction ops generalizing s with
  | nil => simp only [List.nil_append, run, Res.ok_bind]; cases run s more <;> rfl
  | cons op ops ih =>
    simp only [List.cons_append, run]
    cases exec s op with
    | ok x =>
      simp only [Res.ok_bind, ih]
      cases run x.1 ops with
      | ok y =>
        simp only [Res.ok_bind, Res.pure_eq]
        cases run y.1 more with
        | ok z => rfl
        | throw w => rfl
        | ub => rfl
      | throw w => rfl
      | ub => rfl
    | throw w => rfl
    | ub => rfl

/-- An implementation that nothing points to stays. -/
theorem lost_run : ∀ (ops : List Op) {s s' : S} {as : List Ans} (p : Nat), run s ops = .ok (s', as) → p ∈ s.alive → p < s.sizes.length →
    (∀ h, s.ptr h ≠ some p) → p ∈ s'.alive := by
  intro ops
  induction ops with
  | nil =>
    intro s s' as p hr hp _ _
    simp only [run, Res.ok.injEq, Prod.mk.injEq] at hr
    exact hr.1 ▸ hp
  | cons op ops ih =>
    intro s s' as p hr hp hlt hno
    obtain ⟨s1, a, as', h1, h2, -⟩ := run_cons_ok hr
    have key : p ∈ s1.alive ∧ p < s1.sizes.length ∧ ∀ h, s1.ptr h ≠ some p := by
      cases op with
      | construct size =>
        simp only [FftLife.exec, construct, Res.ok.injEq] at h1
        split at h1
        · cases h1
          exact ⟨hp, hlt, hno⟩
        · cases h1
          refine ⟨Finset.mem_insert_of_mem hp, by simp; omega, fun h => ?_⟩
          by_cases hh : h = s.made
          · subst hh
            simp
            omega
          · simpa [Function.update_of_ne hh] using hno h
      | copy h =>
        simp only [FftLife.exec, copy] at h1
        split at h1
        · simp at h1
        · rename_i q hq
          cases h1
          refine ⟨hp, hlt, fun k => ?_⟩
          by_cases hk : k = s.made
          · subst hk
            simpa [← hq] using hno h
          · simpa [Function.update_of_ne hk] using hno k
      | assign h g =>
        simp only [FftLife.exec, assign] at h1
        split at h1
        · rename_i q r hq hr'
          cases h1
          refine ⟨hp, hlt, fun k => ?_⟩
          by_cases hk : k = h
          · subst hk
            simpa [← hr'] using hno g
          · simpa [Function.update_of_ne hk] using hno k
        · simp at h1
      | destroy h =>
        simp only [FftLife.exec, destroy] at h1
        split at h1
        · simp at h1
        · rename_i q hq
          split at h1
          · cases h1
            refine ⟨Finset.mem_erase.2 ⟨?_, hp⟩, hlt, fun k => ?_⟩
            · rintro rfl
              exact hno h hq
            · by_cases hk : k = h
              · subst hk
                simp
              · simpa [Function.update_of_ne hk] using hno k
          · simp at h1
      | transform h n =>
        simp only [FftLife.exec, transform] at h1
        split at h1
        · simp at h1
        · split at h1
          · split at h1
            · simp at h1
            · cases h1
              exact ⟨hp, hlt, hno⟩
          · simp at h1
    exact ih p h2 key.1 key.2.1 key.2.2

/-- **C121** (assignment loses memory).  After a program that does not copy, an assignment between two different variables loses the implementation of the left one: whatever
follows, it is never freed (the right one's is then shared). -/
theorem C121_assignment_leaks (ops : List Op) (live : Finset Nat) (hpr : Program ops live) (hn : ∀ op ∈ ops, ¬ op.copies) (h g : Nat)
    (hh : h ∈ live) (hg : g ∈ live) (hne : h ≠ g) :
    ∃ p : Nat, ∀ more s as, run S.init (ops ++ .assign h g :: more) = .ok (s, as) → p ∈ s.alive := by
  obtain ⟨made, hv⟩ := hpr
  obtain ⟨s', h1, h2⟩ := good_run ops good_init hv hn
  refine ⟨h, fun more s as hr => ?_⟩
  rw [run_append, h1] at hr
  simp only [Res.ok_bind, Res.bind_eq_ok] at hr
  obtain ⟨⟨s2, bs⟩, hr, he⟩ := hr
  cases he
  obtain ⟨s1, a, as', h3, h4, -⟩ := run_cons_ok hr
  simp only [exec, assign, h2.ptr, if_pos hh, if_pos hg, Res.ok.injEq] at h3
  cases h3
  refine lost_run more h h4 (by simpa [h2.alive] using hh) (by simpa [h2.len] using h2.bound h hh) fun k => ?_
  by_cases hk : k = h
  · subst hk
    simpa using Ne.symm hne
  · simp only [Function.update_of_ne hk, h2.ptr]
    split <;> simp [hk]

/-- **C121** (passing by value).  A function that takes an object by value makes the caller's object unusable: when the copy is destroyed, any later use or
the destruction of the original is undefined; the other way round as well. -/
theorem C121_by_value (ops : List Op) (live : Finset Nat) (made : Nat) (hpr : Vars.after ⟨0, ∅⟩ ops = some ⟨made, live⟩) (hn : ∀ op ∈ ops, ¬ op.copies)
    (h n : Nat) (hh : h ∈ live) (x y : Nat) (hxy : (x = h ∧ y = made) ∨ (x = made ∧ y = h)) :
    run S.init (ops ++ [.copy h, .destroy x, .transform y n]) = .ub ∧ run S.init (ops ++ [.copy h, .destroy x, .destroy y]) = .ub ∧
    ∃ s as, run S.init (ops ++ [.copy h, .transform x n, .transform y n, .destroy x]) = .ok (s, as) := by
  obtain ⟨s, h1, h2⟩ := good_run ops good_init hpr hn
  have hlt := h2.bound h hh
  simp only at hlt
  have hne : h ≠ s.made := by rw [h2.made]; simp only; omega
  have hne' : s.made ≠ h := Ne.symm hne
  have hp : s.ptr h = some h := by rw [h2.ptr, if_pos hh]
  have ha : h ∈ s.alive := by rw [h2.alive]; exact hh
  have hl : h < s.sizes.length := by rw [h2.len]; exact hlt
  have hm : s.made = made := h2.made
  refine ⟨?_, ?_, ?_⟩ <;> rw [run_append, h1] <;> simp only [Res.ok_bind] <;> rcases hxy with ⟨rfl, rfl⟩ | ⟨rfl, rfl⟩ <;>
    simp [run, exec, copy, hp, destroy, transform, ha, ← hm, hne, hne', List.getElem?_eq_getElem hl]

/-- Non-vacuity: a program with two variables that uses and destroys both, and one that copies. -/
theorem C121_example : Program [.construct 4, .construct 0, .construct 2, .transform 0 4, .transform 1 3, .destroy 1, .destroy 0] ∅ ∧
    answers [] [.construct 4, .construct 0, .construct 2, .transform 0 4, .transform 1 3, .destroy 1, .destroy 0] =
      [.done, .threw, .done, .transformed, .threw, .done, .done] ∧
    Program [.construct 4, .construct 2, .assign 0 1, .destroy 1, .destroy 0] ∅ ∧
    Program [.construct 4, .copy 0, .destroy 1] {0} := by
  refine ⟨⟨2, by decide⟩, by decide, ⟨2, by decide⟩, ⟨2, by decide⟩⟩

end K52.FftLife
