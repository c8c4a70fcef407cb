import Verif.Model.FftThreads
import Verif.Props.Dsp
import Mathlib.Algebra.BigOperators.Fin
import Mathlib.Algebra.Order.BigOperators.Group.Finset
import Mathlib.Tactic.Linarith
import Mathlib.Tactic.SplitIfs
import Mathlib.Tactic.Set
import Mathlib.Logic.Relation

/-!
# C120: fast Fourier transforms in several threads
-/

namespace K52.Fft

variable {T R : Type} [DecidableEq T]

/-! ## Specification -/

/-- The object whose `Transform` or destructor a thread is in. -/
def Loc.user : Loc R → Option Nat
  | .dtorLock o | .dtorPlan o | .check o _ | .fill o _ _ _ | .exec o _ _ | .read o _ _ _ _ => some o
  | _ => none

/-- Thread `t` is inside `Transform` or the destructor of object `o`. -/
def Inside (s : S T R) (t : T) (o : Nat) : Prop := (s.loc t).user = some o

/-- A client that never uses one object by two threads at once, nor an object that was destroyed: a call to an object begins only when the object
exists and no thread is inside it. -/
def OneUser (s : S T R) : Call R → Prop
  | .create _ => True
  | .destroy o => (s.objs o).isSome ∧ ∀ t, ¬ Inside s t o
  | .transform o _ => (s.objs o).isSome ∧ ∀ t, ¬ Inside s t o

/-- What `Transform` of an object of that size has to return. -/
def expected (dft : List (R × R) → List (R × R)) (size : Nat) (x : List (R × R)) : Res (List (R × R)) :=
  if x.length = size then .ok (dft x) else .throw "invalid_argument"

/-- The thread is executing FFTW's planner. -/
def Planning (s : S T R) (t : T) : Prop := (∃ size, s.loc t = .ctorPlan size) ∨ ∃ o, s.loc t = .dtorPlan o

/-! ## The invariant of careful clients -/

def LocOk (dft : List (R × R) → List (R × R)) (objs : Nat → Option (Impl R)) (made : List Nat) : Loc R → Prop
  | .idle | .ctorLock _ | .ctorCheck _ | .dtorUnlock _ => True
  | .ctorThrow size => size = 0
  | .ctorPlan size => 0 < size
  | .ctorUnlock size o => made[o]? = some size ∧ 0 < size
  | .dtorLock o | .dtorPlan o | .check o _ => ∃ m, objs o = some m
  | .fill o x n imag => ∃ m, objs o = some m ∧ m.size = x.length ∧ n ≤ x.length ∧ m.inp.take n = x.take n ∧
      (imag = true → n < x.length ∧ (m.inp[n]?).map Prod.fst = (x[n]?).map Prod.fst)
  | .exec o x k => ∃ m, objs o = some m ∧ m.size = x.length ∧ m.inp = x ∧ k ≤ x.length ∧ m.out.take k = (dft x).take k
  | .read o x n re acc => ∃ m, objs o = some m ∧ m.size = x.length ∧ m.out = dft x ∧ n ≤ x.length ∧ acc = (dft x).take n ∧
      ∀ r, re = some r → n < x.length ∧ ((dft x)[n]?).map Prod.fst = some r

def EventOk (dft : List (R × R) → List (R × R)) (made : List Nat) : Event T R → Prop
  | .created _ size r => if size = 0 then r = .throw "invalid_argument" else ∃ o : Nat, r = .ok o ∧ made[o]? = some size
  | .destroyed _ _ => True
  | .returned _ o x r => ∃ size, made[o]? = some size ∧ r = expected dft size x

structure Inv (dft : List (R × R) → List (R × R)) (s : S T R) : Prop where
  objs : ∀ (o : Nat) m, s.objs o = some m → s.made[o]? = some m.size ∧ m.inp.length = m.size ∧ m.out.length = m.size
  locs : ∀ t, LocOk dft s.objs s.made (s.loc t)
  apart : ∀ t t' o, Inside s t o → Inside s t' o → t = t'
  log : ∀ e ∈ s.log, EventOk dft s.made e

theorem LocOk.congr {dft : List (R × R) → List (R × R)} {objs objs' : Nat → Option (Impl R)} {made made' : List Nat} {l : Loc R}
    (h : LocOk dft objs made l) (ho : ∀ o, l.user = some o → objs' o = objs o)
    (hm : ∀ (o : Nat) v, made[o]? = some v → made'[o]? = some v) : LocOk dft objs' made' l := by
  cases l <;> simp only [LocOk, Loc.user, Option.some.injEq, forall_eq'] at h ho ⊢ <;> first | exact h | (rw [ho]; exact h) | exact ⟨hm _ _ h.1, h.2⟩

theorem EventOk.mono {dft : List (R × R) → List (R × R)} {made made' : List Nat} {e : Event T R}
    (h : EventOk dft made e) (hm : ∀ (o : Nat) v, made[o]? = some v → made'[o]? = some v) : EventOk dft made' e := by
  cases e with
  | created t size r =>
    simp only [EventOk] at h ⊢
    split_ifs with h0
    · simpa [h0] using h
    · simp only [h0, if_false] at h
      obtain ⟨o, h1, h2⟩ := h
      exact ⟨o, h1, hm _ _ h2⟩
  | destroyed t o => trivial
  | returned t o x r =>
    obtain ⟨size, h1, h2⟩ := h
    exact ⟨size, hm _ _ h1, h2⟩

/-- One thread moves on: it changes at most object `o0`, which no other thread is inside, and enters no object it was not in. -/
theorem Inv.move {dft : List (R × R) → List (R × R)} {s : S T R} (h : Inv dft s) (t : T) (l : Loc R) (o0 : Nat) (m' : Option (Impl R))
    (made' : List Nat) (lock' : Option T) (evs : List (Event T R))
    (hfree : ∀ t', t' ≠ t → ¬ Inside s t' o0)
    (hobj : ∀ m, m' = some m → made'[o0]? = some m.size ∧ m.inp.length = m.size ∧ m.out.length = m.size)
    (hmade : ∀ (o : Nat) v, s.made[o]? = some v → made'[o]? = some v)
    (hl : LocOk dft (Function.update s.objs o0 m') made' l) (huser : ∀ o, l.user = some o → (s.loc t).user = some o)
    (hev : ∀ e ∈ evs, EventOk dft made' e) :
    Inv dft ⟨Function.update s.objs o0 m', made', lock', Function.update s.loc t l, s.log ++ evs⟩ := by
  refine ⟨?_, ?_, ?_, ?_⟩
  · intro o m hm
    by_cases ho : o = o0
    · subst ho
      exact hobj m (by simpa using hm)
    · simp only [Function.update_of_ne ho] at hm
      exact ⟨hmade _ _ (h.objs o m hm).1, (h.objs o m hm).2⟩
  · intro t'
    by_cases ht : t' = t
    · subst ht
      simpa using hl
    · simp only [Function.update_of_ne ht]
      refine (h.locs t').congr ?_ hmade
      intro o ho
      have : o ≠ o0 := by
        rintro rfl
        exact hfree t' ht ho
      simp [Function.update_of_ne this]
  · have key : ∀ t1 o, (Function.update s.loc t l t1).user = some o → (s.loc t1).user = some o := by
      intro t1 o h1
      by_cases ht : t1 = t
      · subst ht
        exact huser o (by simpa using h1)
      · simpa [Function.update_of_ne ht] using h1
    intro t1 t2 o h1 h2
    exact h.apart t1 t2 o (key t1 o h1) (key t2 o h2)
  · intro e he
    rcases List.mem_append.1 he with he | he
    · exact (h.log e he).mono hmade
    · exact hev e he

/-- The same when no object changes. -/
theorem Inv.move_only {dft : List (R × R) → List (R × R)} {s : S T R} (h : Inv dft s) (t : T) (l : Loc R) (lock' : Option T)
    (evs : List (Event T R)) (hl : LocOk dft s.objs s.made l) (huser : ∀ o, l.user = some o → (s.loc t).user = some o)
    (hev : ∀ e ∈ evs, EventOk dft s.made e) :
    Inv dft ⟨s.objs, s.made, lock', Function.update s.loc t l, s.log ++ evs⟩ := by
  refine ⟨h.objs, ?_, ?_, ?_⟩
  · intro t'
    by_cases ht : t' = t
    · subst ht
      simpa using hl
    · simpa [Function.update_of_ne ht] using h.locs t'
  · have key : ∀ t1 o, (Function.update s.loc t l t1).user = some o → (s.loc t1).user = some o := by
      intro t1 o h1
      by_cases ht : t1 = t
      · subst ht
        exact huser o (by simpa using h1)
      · simpa [Function.update_of_ne ht] using h1
    intro t1 t2 o h1 h2
    exact h.apart t1 t2 o (key t1 o h1) (key t2 o h2)
  · intro e he
    rcases List.mem_append.1 he with he | he
    · exact h.log e he
    · exact hev e he

theorem take_modify_self {α : Type} (l : List α) (n : Nat) (f : α → α) : (l.modify n f).take n = l.take n := by
  apply List.ext_getElem?
  intro i
  simp only [List.getElem?_take, List.getElem?_modify]
  by_cases h : i < n
  · have : n ≠ i := by omega
    simp [h, this]
  · simp [h]

theorem take_set_self {α : Type} (l : List α) (n : Nat) (a : α) : (l.set n a).take n = l.take n := by
  apply List.ext_getElem?
  intro i
  simp only [List.getElem?_take, List.getElem?_set]
  split_ifs with h h2
  · omega
  · omega
  · rfl
  · rfl

theorem inv_step {dft : List (R × R) → List (R × R)} (hlen : ∀ x, (dft x).length = x.length) {s s' : S T R} {t : T} (h : Inv dft s)
    (hs : Step dft t s s') : Inv dft s' := by
  have hx : ∀ o, Inside s t o → ∀ t', t' ≠ t → ¬ Inside s t' o := fun o h1 t' hne h2 => hne (h.apart _ _ o h2 h1)
  have hlog : s.log = s.log ++ [] := (List.append_nil _).symm
  cases hs with
  | ctorLock _ size hl hk =>
    simpa [S.goto] using h.move_only t (.ctorCheck size) (some t) [] trivial (by simp [Loc.user]) (by simp)
  | ctorFail _ size hl h0 =>
    simpa [S.goto] using h.move_only t (.ctorThrow size) s.lock [] (by simpa [LocOk] using h0) (by simp [Loc.user]) (by simp)
  | ctorPass _ size hl h0 =>
    simpa [S.goto] using h.move_only t (.ctorPlan size) s.lock [] (by simp only [LocOk]; omega) (by simp [Loc.user]) (by simp)
  | ctorPlan _ size a b hl ha hb =>
    have hloc := h.locs t
    rw [hl] at hloc
    simpa [S.goto, S.store] using h.move t (.ctorUnlock size s.made.length) s.made.length (some ⟨size, a, b⟩) (s.made ++ [size]) s.lock []
      (by
        intro t' _ hin
        have hbad : ∀ m : Impl R, s.objs s.made.length ≠ some m := by
          intro m hm
          have := (h.objs _ m hm).1
          simp at this
        have h2 := h.locs t'
        unfold Inside at hin
        cases hl' : s.loc t' <;> rw [hl'] at h2 hin <;> simp only [Loc.user, Option.some.injEq, reduceCtorEq] at hin <;> subst hin <;>
          simp only [LocOk] at h2 <;> obtain ⟨m, hm⟩ := h2 <;> first | exact hbad m hm | exact hbad m hm.1)
      (by rintro m hm; cases hm; simp [ha, hb])
      (by intro o v hv; rw [List.getElem?_append_left (List.getElem?_eq_some_iff.1 hv).1]; exact hv)
      (by simpa [LocOk] using hloc) (by simp [Loc.user]) (by simp)
  | ctorUnlock _ size o hl =>
    have hloc := h.locs t
    rw [hl] at hloc
    simp only [LocOk] at hloc
    refine h.move_only t .idle none [.created t size (.ok o)] trivial (by simp [Loc.user]) ?_
    simp only [List.mem_singleton, forall_eq, EventOk]
    rw [if_neg (by omega)]
    exact ⟨o, rfl, hloc.1⟩
  | ctorThrow _ size hl =>
    have hloc := h.locs t
    rw [hl] at hloc
    simp only [LocOk] at hloc
    refine h.move_only t .idle none [.created t size (.throw "invalid_argument")] trivial (by simp [Loc.user]) ?_
    simp [EventOk, hloc]
  | dtorLock _ o hl hk =>
    have hloc := h.locs t
    rw [hl] at hloc
    simpa [S.goto] using h.move_only t (.dtorPlan o) (some t) [] hloc (by simp [hl, Loc.user]) (by simp)
  | dtorPlan _ o m hl hm =>
    simpa [S.goto, S.store] using h.move t (.dtorUnlock o) o none s.made s.lock [] (hx o (by simp [Inside, hl, Loc.user])) (by simp)
      (fun _ _ h => h) trivial (by simp [Loc.user]) (by simp)
  | dtorUnlock _ o hl =>
    exact h.move_only t .idle none [.destroyed t o] trivial (by simp [Loc.user]) (by simp [EventOk])
  | checkFail _ o x m hl hm hne =>
    refine h.move_only t .idle s.lock [.returned t o x (.throw "invalid_argument")] trivial (by simp [Loc.user]) ?_
    simp only [List.mem_singleton, forall_eq, EventOk]
    exact ⟨m.size, (h.objs o m hm).1, by rw [expected, if_neg (Ne.symm hne)]⟩
  | checkPass _ o x m hl hm he =>
    simp only [ne_eq, not_not] at he
    simpa [S.goto] using h.move_only t (.fill o x 0 false) s.lock [] ⟨m, hm, he, by omega, by simp, by simp⟩ (by simp [hl, Loc.user]) (by simp)
  | fillReal _ o x n m c hl hm hn hc =>
    have hloc := h.locs t
    rw [hl] at hloc
    obtain ⟨m', hm', hsz, hle, htake, -⟩ := hloc
    cases hm.symm.trans hm'
    have hob := h.objs o m hm
    have hnx : n < x.length := (List.getElem?_eq_some_iff.1 hc).1
    simpa [S.goto, S.store] using h.move t (.fill o x n true) o (some { m with inp := m.inp.modify n fun d => (c.1, d.2) }) s.made s.lock []
      (hx o (by simp [Inside, hl, Loc.user])) (by rintro _ ⟨⟩; simpa using hob) (fun _ _ h => h)
      ⟨{ m with inp := m.inp.modify n fun d => (c.1, d.2) }, by simp, hsz, hle, by rw [← htake]; exact take_modify_self _ _ _, fun _ => ⟨hnx, by
        have : n < m.inp.length := by omega
        simp [List.getElem?_modify, hc, List.getElem?_eq_getElem this]⟩⟩
      (by simp [hl, Loc.user]) (by simp)
  | fillImag _ o x n m c hl hm hc =>
    have hloc := h.locs t
    rw [hl] at hloc
    obtain ⟨m', hm', hsz, hle, htake, hre⟩ := hloc
    cases hm.symm.trans hm'
    have hob := h.objs o m hm
    obtain ⟨hnx, hre⟩ := hre rfl
    have hnm : n < m.inp.length := by omega
    simpa [S.goto, S.store] using h.move t (.fill o x (n + 1) false) o (some { m with inp := m.inp.modify n fun d => (d.1, c.2) }) s.made s.lock []
      (hx o (by simp [Inside, hl, Loc.user])) (by rintro _ ⟨⟩; simpa using hob) (fun _ _ h => h)
      ⟨{ m with inp := m.inp.modify n fun d => (d.1, c.2) }, by simp, hsz, hnx, by
        show (m.inp.modify n _).take (n + 1) = x.take (n + 1)
        rw [List.take_add_one, List.take_add_one, take_modify_self, htake]
        congr 1
        have hnm' := List.getElem?_eq_getElem hnm
        rw [hc, hnm'] at hre
        simp only [Option.map_some, Option.some.injEq] at hre
        rw [List.getElem?_modify, hnm', hc]
        simp [hre], by simp⟩
      (by simp [hl, Loc.user]) (by simp)
  | fillEnd _ o x n m hl hm hn =>
    have hloc := h.locs t
    rw [hl] at hloc
    obtain ⟨m', hm', hsz, hle, htake, -⟩ := hloc
    cases hm.symm.trans hm'
    have hob := h.objs o m hm
    have hn' : n = x.length := by omega
    have : m.inp = x := by
      rw [hn', List.take_length, ← hsz, ← hob.2.1, List.take_length] at htake
      exact htake
    simpa [S.goto] using h.move_only t (.exec o x 0) s.lock [] ⟨m, hm, hsz, this, by omega, by simp⟩ (by simp [hl, Loc.user]) (by simp)
  | exec _ o x k m v hl hm hk hv =>
    have hloc := h.locs t
    rw [hl] at hloc
    obtain ⟨m', hm', hsz, hin, hle, htake⟩ := hloc
    cases hm.symm.trans hm'
    have hob := h.objs o m hm
    have hkm : k < m.out.length := by omega
    simpa [S.goto, S.store] using h.move t (.exec o x (k + 1)) o (some { m with out := m.out.set k v }) s.made s.lock []
      (hx o (by simp [Inside, hl, Loc.user])) (by rintro _ ⟨⟩; simpa using hob) (fun _ _ h => h)
      ⟨{ m with out := m.out.set k v }, by simp, hsz, hin, by omega, by
        show (m.out.set k v).take (k + 1) = (dft x).take (k + 1)
        rw [List.take_add_one, List.take_add_one, take_set_self, htake]
        congr 1
        rw [← hin, hv]
        simp [hkm]⟩
      (by simp [hl, Loc.user]) (by simp)
  | execEnd _ o x k m hl hm hk =>
    have hloc := h.locs t
    rw [hl] at hloc
    obtain ⟨m', hm', hsz, hin, hle, htake⟩ := hloc
    cases hm.symm.trans hm'
    have hob := h.objs o m hm
    have : m.out = dft x := by
      have hk' : k = x.length := by omega
      rw [hk', ← hlen x, List.take_length, hlen x, ← hsz, ← hob.2.2, List.take_length] at htake
      exact htake
    simpa [S.goto] using h.move_only t (.read o x 0 none []) s.lock [] ⟨m, hm, hsz, this, by omega, by simp, by simp⟩
      (by simp [hl, Loc.user]) (by simp)
  | readReal _ o x n acc m c hl hm hn hc =>
    have hloc := h.locs t
    rw [hl] at hloc
    obtain ⟨m', hm', hsz, hout, hle, hacc, -⟩ := hloc
    cases hm.symm.trans hm'
    simpa [S.goto] using h.move_only t (.read o x n (some c.1) acc) s.lock [] ⟨m, hm, hsz, hout, hle, hacc, by
      rintro r ⟨⟩
      exact ⟨by omega, by rw [← hout, hc]; rfl⟩⟩ (by simp [hl, Loc.user]) (by simp)
  | readImag _ o x n re acc m c hl hm hc =>
    have hloc := h.locs t
    rw [hl] at hloc
    obtain ⟨m', hm', hsz, hout, hle, hacc, hre⟩ := hloc
    cases hm.symm.trans hm'
    obtain ⟨hnx, hre⟩ := hre re rfl
    simpa [S.goto] using h.move_only t (.read o x (n + 1) none (acc ++ [(re, c.2)])) s.lock [] ⟨m, hm, hsz, hout, hnx, by
      rw [← hout, hc, Option.map_some, Option.some.injEq] at hre
      rw [List.take_add_one, hacc, ← hout, hc, ← hre]
      rfl, by simp⟩ (by simp [hl, Loc.user]) (by simp)
  | readEnd _ o x n acc m hl hm hn =>
    have hloc := h.locs t
    rw [hl] at hloc
    obtain ⟨m', hm', hsz, hout, hle, hacc, -⟩ := hloc
    cases hm.symm.trans hm'
    refine h.move_only t .idle s.lock [.returned t o x (.ok acc)] trivial (by simp [Loc.user]) ?_
    simp only [List.mem_singleton, forall_eq, EventOk]
    refine ⟨m.size, (h.objs o m hm).1, ?_⟩
    rw [expected, if_pos hsz.symm, hacc, show n = (dft x).length by rw [hlen]; omega, List.take_length]

theorem inv {dft : List (R × R) → List (R × R)} (hlen : ∀ x, (dft x).length = x.length) {s : S T R} (h : Reach dft OneUser s) : Inv dft s := by
  induction h with
  | init => exact ⟨by simp [S.init], by simp [S.init, LocOk], by simp [S.init, Inside, Loc.user], by simp [S.init]⟩
  | step t _ hs ih => exact inv_step hlen ih hs
  | @call s t c _ hidle hmay ih =>
    refine ⟨ih.objs, ?_, ?_, ih.log⟩
    · intro t'
      by_cases ht : t' = t
      · subst ht
        cases c with
        | create size => simp [S.goto, Call.entry, LocOk]
        | destroy o => simpa [S.goto, Call.entry, LocOk, Option.isSome_iff_exists] using hmay.1
        | transform o x => simpa [S.goto, Call.entry, LocOk, Option.isSome_iff_exists] using hmay.1
      · simpa [S.goto, Function.update_of_ne ht] using ih.locs t'
    · intro t1 t2 o h1 h2
      have hnew : ∀ t1, t1 ≠ t → Inside (s.goto t c.entry) t1 o → Inside s t1 o := by
        intro t1 ht h1
        simpa [Inside, S.goto, Function.update_of_ne ht] using h1
      have hself : Inside (s.goto t c.entry) t o → ∀ t', ¬ Inside s t' o := by
        intro h1
        simp only [Inside, S.goto, Function.update_self] at h1
        cases c with
        | create size => simp [Call.entry, Loc.user] at h1
        | destroy o' =>
          simp only [Call.entry, Loc.user, Option.some.injEq] at h1
          subst h1
          exact hmay.2
        | transform o' x =>
          simp only [Call.entry, Loc.user, Option.some.injEq] at h1
          subst h1
          exact hmay.2
      by_cases e1 : t1 = t
      · by_cases e2 : t2 = t
        · rw [e1, e2]
        · subst e1
          exact absurd (hnew t2 e2 h2) (hself h1 t2)
      · by_cases e2 : t2 = t
        · subst e2
          exact absurd (hnew t1 e1 h1) (hself h2 t1)
        · exact ih.apart t1 t2 o (hnew t1 e1 h1) (hnew t2 e2 h2)

/-! ## C120 -/

/-- **C120** (results).  However the threads are scheduled: as long as no object is used by two threads at once, every call of `Transform` that has returned
gave the transform of its own argument, or refused an argument whose size is not that of the object (`made` lists the sizes the objects were
constructed with). -/
theorem C120_results (dft : List (R × R) → List (R × R)) (hlen : ∀ x, (dft x).length = x.length) (s : S T R) (h : Reach dft OneUser s)
    (t : T) (o : Nat) (x : List (R × R)) (r : Res (List (R × R))) (he : .returned t o x r ∈ s.log) :
    ∃ size, s.made[o]? = some size ∧ r = expected dft size x :=
  (inv hlen h).log _ he

/-- **C120** (construction).  Constructing an object of size 0 throws, any other construction yields an object of that size. -/
theorem C120_created (dft : List (R × R) → List (R × R)) (hlen : ∀ x, (dft x).length = x.length) (s : S T R) (h : Reach dft OneUser s)
    (t : T) (size : Nat) (r : Res Nat) (he : .created t size r ∈ s.log) :
    (size = 0 ∧ r = .throw "invalid_argument") ∨ 0 < size ∧ ∃ o, r = .ok o ∧ s.made[o]? = some size := by
  have := (inv hlen h).log _ he
  simp only [EventOk] at this
  split_ifs at this with h0
  · exact .inl ⟨h0, this⟩
  · exact .inr ⟨by omega, this⟩

/-- **C120** (no interference).  Such clients never have two threads inside one object. -/
theorem C120_apart (dft : List (R × R) → List (R × R)) (hlen : ∀ x, (dft x).length = x.length) (s : S T R) (h : Reach dft OneUser s)
    (t t' : T) (o : Nat) (h1 : Inside s t o) (h2 : Inside s t' o) : t = t' :=
  (inv hlen h).apart t t' o h1 h2

/-! ### The planner -/

/-- The places where the mutex is held. -/
def Loc.holds : Loc R → Prop
  | .ctorCheck _ | .ctorThrow _ | .ctorPlan _ | .ctorUnlock _ _ | .dtorPlan _ | .dtorUnlock _ => True
  | _ => False

theorem lock_iff {dft : List (R × R) → List (R × R)} {may : S T R → Call R → Prop} {s : S T R} (h : Reach dft may s) :
    ∀ t, (s.loc t).holds ↔ s.lock = some t := by
  induction h with
  | init => simp [S.init, Loc.holds]
  | @call s t c _ hidle hmay ih =>
    intro t'
    by_cases ht : t' = t
    · subst ht
      have := ih t'
      rw [hidle] at this
      cases c <;> simpa [S.goto, Call.entry, Loc.holds] using this
    · simpa [S.goto, Function.update_of_ne ht] using ih t'
  | @step s s' t _ hs ih =>
    intro t'
    have h1 := ih t
    have h2 := ih t'
    by_cases ht : t' = t
    · subst ht
      cases hs <;> rename_i hl <;> simp_all [S.goto, S.store, Loc.holds]
    · have ht' : t ≠ t' := Ne.symm ht
      cases hs <;> simp_all [S.goto, S.store, Loc.holds, Function.update_of_ne ht]

/-- **C120** (planner).  Whatever the clients do, at most one thread is in FFTW's planner. -/
theorem C120_planner (dft : List (R × R) → List (R × R)) (may : S T R → Call R → Prop) (s : S T R) (h : Reach dft may s) (t t' : T)
    (h1 : Planning s t) (h2 : Planning s t') : t = t' := by
  have key : ∀ t, Planning s t → s.lock = some t := by
    rintro t (⟨_, hl⟩ | ⟨_, hl⟩) <;> exact (lock_iff h t).1 (by simp [hl, Loc.holds])
  have := (key t h1).symm.trans (key t' h2)
  simpa using this

/-! ### Progress -/

/-- **C120** (no deadlock).  While some thread is inside a call, some thread can take a step. -/
theorem C120_progress [Inhabited R] (dft : List (R × R) → List (R × R)) (hlen : ∀ x, (dft x).length = x.length) (s : S T R)
    (h : Reach dft OneUser s) (t : T) (ht : s.loc t ≠ .idle) : ∃ t' s', Step dft t' s s' := by
  have hinv := inv hlen h
  have hlk := lock_iff h
  -- a thread that does not wait for the mutex can move
  have key : ∀ t', s.loc t' ≠ .idle → (∀ size, s.loc t' = .ctorLock size → s.lock = none) → (∀ o, s.loc t' = .dtorLock o → s.lock = none) →
      ∃ s', Step dft t' s s' := by
    intro t' h0 h1 h2
    have hloc := hinv.locs t'
    cases hl : s.loc t' with
    | idle => exact absurd hl h0
    | ctorLock size => exact ⟨_, .ctorLock t' size hl (h1 size hl)⟩
    | ctorCheck size =>
      by_cases hz : size ≤ 0
      · exact ⟨_, .ctorFail t' size hl hz⟩
      · exact ⟨_, .ctorPass t' size hl hz⟩
    | ctorThrow size => exact ⟨_, .ctorThrow t' size hl⟩
    | ctorPlan size => exact ⟨_, .ctorPlan t' size (List.replicate size default) (List.replicate size default) hl (by simp) (by simp)⟩
    | ctorUnlock size o => exact ⟨_, .ctorUnlock t' size o hl⟩
    | dtorLock o => exact ⟨_, .dtorLock t' o hl (h2 o hl)⟩
    | dtorPlan o =>
      rw [hl] at hloc
      obtain ⟨m, hm⟩ := hloc
      exact ⟨_, .dtorPlan t' o m hl hm⟩
    | dtorUnlock o => exact ⟨_, .dtorUnlock t' o hl⟩
    | check o x =>
      rw [hl] at hloc
      obtain ⟨m, hm⟩ := hloc
      by_cases hne : m.size ≠ x.length
      · exact ⟨_, .checkFail t' o x m hl hm hne⟩
      · exact ⟨_, .checkPass t' o x m hl hm hne⟩
    | fill o x n imag =>
      rw [hl] at hloc
      obtain ⟨m, hm, hsz, hle, -, hre⟩ := hloc
      cases imag with
      | false =>
        by_cases hn : n < m.size
        · exact ⟨_, .fillReal t' o x n m _ hl hm hn (List.getElem?_eq_getElem (by omega))⟩
        · exact ⟨_, .fillEnd t' o x n m hl hm hn⟩
      | true => exact ⟨_, .fillImag t' o x n m _ hl hm (List.getElem?_eq_getElem (hre rfl).1)⟩
    | exec o x k =>
      rw [hl] at hloc
      obtain ⟨m, hm, hsz, hin, -, -⟩ := hloc
      by_cases hk : k < m.size
      · exact ⟨_, .exec t' o x k m _ hl hm hk (List.getElem?_eq_getElem (by rw [hlen, hin]; omega))⟩
      · exact ⟨_, .execEnd t' o x k m hl hm hk⟩
    | read o x n re acc =>
      rw [hl] at hloc
      obtain ⟨m, hm, hsz, hout, hle, -, hre⟩ := hloc
      have hol : m.out.length = x.length := by rw [hout, hlen]
      cases re with
      | none =>
        by_cases hn : n < m.size
        · exact ⟨_, .readReal t' o x n acc m _ hl hm hn (List.getElem?_eq_getElem (by omega))⟩
        · exact ⟨_, .readEnd t' o x n acc m hl hm hn⟩
      | some r => exact ⟨_, .readImag t' o x n r acc m _ hl hm (List.getElem?_eq_getElem (by have := (hre r rfl).1; omega))⟩
  cases hlock : s.lock with
  | none => exact ⟨t, key t ht (fun _ _ => hlock) (fun _ _ => hlock)⟩
  | some t' =>
    have hh := (hlk t').2 hlock
    exact ⟨t', key t' (by intro h; simp [h, Loc.holds] at hh) (by intro _ h; simp [h, Loc.holds] at hh) (by intro _ h; simp [h, Loc.holds] at hh)⟩

/-- A bound on the steps a thread still makes inside its call. -/
def Loc.work : Loc R → Nat
  | .idle => 0
  | .ctorLock _ => 4
  | .ctorCheck _ => 3
  | .ctorThrow _ => 1
  | .ctorPlan _ => 2
  | .ctorUnlock _ _ => 1
  | .dtorLock _ => 3
  | .dtorPlan _ => 2
  | .dtorUnlock _ => 1
  | .check _ x => 5 * x.length + 4
  | .fill _ x n imag => 5 * x.length + 3 - 2 * n - (if imag then 1 else 0)
  | .exec _ x k => 3 * x.length + 2 - k
  | .read _ x n re _ => 2 * x.length + 1 - 2 * n - (if re.isSome then 1 else 0)

theorem step_work {dft : List (R × R) → List (R × R)} {s s' : S T R} {t : T} (h : Inv dft s) (hs : Step dft t s s') :
    ∃ l, s'.loc = Function.update s.loc t l ∧ l.work + 1 ≤ (s.loc t).work := by
  have hloc := h.locs t
  have hread : ∀ o x n re acc, s.loc t = .read o x n (some re) acc → n < x.length := by
    intro o x n re acc hl
    rw [hl] at hloc
    obtain ⟨m, -, -, -, -, -, hre⟩ := hloc
    exact (hre re rfl).1
  by_cases hr : ∃ o x n re acc, s.loc t = .read o x n (some re) acc
  · obtain ⟨o, x, n, re, acc, hl⟩ := hr
    have hn := hread _ _ _ _ _ hl
    cases hs with
    | readImag _ o' x' n' re' acc' m c hl' hm hc =>
      rw [hl] at hl'
      cases hl'
      refine ⟨_, rfl, ?_⟩
      rw [hl]
      simp only [Loc.work, Option.isSome_none, Option.isSome_some, if_true, Bool.false_eq_true, if_false]
      omega
    | _ => simp_all
  · cases hs <;> rename_i hl <;> simp only [*] at hloc ⊢ <;> refine ⟨_, rfl, ?_⟩ <;> simp_all [LocOk, Loc.work] <;> omega

/-- Steps of any threads, without new calls. -/
inductive Steps (dft : List (R × R) → List (R × R)) : Nat → S T R → S T R → Prop
  | nil (s) : Steps dft 0 s s
  | cons {n s s' s''} (t : T) : Step dft t s s' → Steps dft n s' s'' → Steps dft (n + 1) s s''

theorem steps_work [Fintype T] {dft : List (R × R) → List (R × R)} (hlen : ∀ x, (dft x).length = x.length) {n : Nat} {s s' : S T R}
    (hs : Steps dft n s s') : Inv dft s → ∑ t, (s'.loc t).work + n ≤ ∑ t, (s.loc t).work := by
  induction hs with
  | nil s => intro _; simp
  | @cons n s s' s'' t h1 _ ih =>
    intro hi
    have h2 := ih (inv_step hlen hi h1)
    obtain ⟨l, hl, hw⟩ := step_work hi h1
    have : ∑ t', (s'.loc t').work + 1 ≤ ∑ t', (s.loc t').work := by
      rw [← Finset.add_sum_erase _ _ (Finset.mem_univ t), ← Finset.add_sum_erase (a := t) _ _ (Finset.mem_univ t), hl]
      have : ∑ x ∈ Finset.univ.erase t, (Function.update s.loc t l x).work = ∑ x ∈ Finset.univ.erase t, (s.loc x).work :=
        Finset.sum_congr rfl fun x hx => by rw [Function.update_of_ne (Finset.ne_of_mem_erase hx)]
      rw [this, Function.update_self]
      omega
    omega

/-- **C120** (termination).  Every call ends: from any reachable state the threads make, without new calls, at most the number of steps that
`Loc.work` gives (4 for a constructor, 3 for a destructor, `5 n + 4` for `Transform` of `n` elements), and a run that cannot go on has
brought all threads back from their calls. -/
theorem C120_terminates [Fintype T] [Inhabited R] (dft : List (R × R) → List (R × R)) (hlen : ∀ x, (dft x).length = x.length) (s : S T R)
    (h : Reach dft OneUser s) (n : Nat) (s' : S T R) (hs : Steps dft n s s') :
    n ≤ ∑ t, (s.loc t).work ∧ ((∀ t s'', ¬ Step dft t s' s'') → ∀ t, s'.loc t = .idle) := by
  refine ⟨by have := steps_work hlen hs (inv hlen h); omega, ?_⟩
  have hr : Reach dft OneUser s' := by
    induction hs with
    | nil s => exact h
    | cons t h1 _ ih => exact ih (.step t h h1)
  intro hstuck t
  by_contra ht
  obtain ⟨t', s'', h1⟩ := C120_progress dft hlen s' hr t ht
  exact hstuck t' s'' h1

/-- The number of steps of the three calls. -/
theorem C120_steps (size o : Nat) (x : List (R × R)) : (Call.create (R := R) size).entry.work = 4 ∧ (Call.destroy (R := R) o).entry.work = 3 ∧
    (Call.transform o x).entry.work = 5 * x.length + 4 :=
  ⟨rfl, rfl, rfl⟩

/-! ### One object used by two threads -/

/-- A client that only takes care that the object exists when a call begins. -/
def Alive (s : S T R) : Call R → Prop
  | .create _ => True
  | .destroy o | .transform o _ => (s.objs o).isSome

/-- The steps of one thread alone. -/
def Alone (dft : List (R × R) → List (R × R)) (t : T) : S T R → S T R → Prop := Relation.ReflTransGen (Step dft t)

theorem Alone.reach {dft : List (R × R) → List (R × R)} {may : S T R → Call R → Prop} {t : T} {s s' : S T R} (h : Alone dft t s s')
    (hr : Reach dft may s) : Reach dft may s' := by
  induction h with
  | refl => exact hr
  | tail _ h1 ih => exact .step t ih h1

/-- One thread fills the buffer. -/
theorem alone_fill (dft : List (R × R) → List (R × R)) (t : T) (o : Nat) (x : List (R × R)) : ∀ (d n : Nat) (s : S T R) (m : Impl R),
    s.loc t = .fill o x n false → s.objs o = some m → m.size = x.length → m.inp.length = m.size → n + d = x.length →
    m.inp.take n = x.take n →
    ∃ s', Alone dft t s s' ∧ s'.objs o = some { m with inp := x } ∧ s'.loc = Function.update s.loc t (.exec o x 0) ∧ s'.log = s.log := by
  intro d
  induction d with
  | zero =>
    intro n s m hl hm hsz hil hnd htake
    have : m.inp = x := by
      rw [show n = x.length by omega, List.take_length, ← hsz, ← hil, List.take_length] at htake
      exact htake
    refine ⟨s.goto t (.exec o x 0), .single (.fillEnd t o x n m hl hm (by omega)), ?_, rfl, rfl⟩
    subst this
    exact hm
  | succ d ih =>
    intro n s m hl hm hsz hil hnd htake
    have hn : n < x.length := by omega
    have h1 := Step.fillReal (dft := dft) t o x n m _ hl hm (by omega) (List.getElem?_eq_getElem hn)
    set m1 : Impl R := { m with inp := m.inp.modify n fun d => (x[n].1, d.2) } with hm1
    set s1 := (s.store o (some m1)).goto t (.fill o x n true) with hs1
    have h2 := Step.fillImag (dft := dft) (s := s1) t o x n m1 _ (by simp [hs1, S.goto]) (by simp [hs1, S.goto, S.store])
      (List.getElem?_eq_getElem hn)
    set m2 : Impl R := { m1 with inp := m1.inp.modify n fun d => (d.1, x[n].2) } with hm2
    set s2 := (s1.store o (some m2)).goto t (.fill o x (n + 1) false) with hs2
    have htake2 : m2.inp.take (n + 1) = x.take (n + 1) := by
      have hnm : n < m.inp.length := by omega
      rw [List.take_add_one, List.take_add_one, hm2, hm1]
      simp only [take_modify_self, htake]
      congr 1
      simp [List.getElem?_modify, List.getElem?_eq_getElem hnm, List.getElem?_eq_getElem hn]
    obtain ⟨s', ha, ho, hloc, hlog⟩ := ih (n + 1) s2 m2 (by simp [hs2, S.goto]) (by simp [hs2, S.goto, S.store]) hsz
      (by simpa [hm2, hm1] using hil) (by omega) htake2
    refine ⟨s', (Relation.ReflTransGen.single h1).trans ((Relation.ReflTransGen.single h2).trans ha), ho, ?_, by simpa [hs2, hs1, S.goto, S.store] using hlog⟩
    rw [hloc]
    simp [hs2, hs1, S.goto, S.store]

/-- One thread executes the plan. -/
theorem alone_exec (dft : List (R × R) → List (R × R)) (hlen : ∀ x, (dft x).length = x.length) (t : T) (o : Nat) (x : List (R × R)) :
    ∀ (d k : Nat) (s : S T R) (m : Impl R), s.loc t = .exec o x k → s.objs o = some m → m.inp.length = m.size → m.out.length = m.size →
    k + d = m.size → m.out.take k = (dft m.inp).take k →
    ∃ s', Alone dft t s s' ∧ s'.objs o = some { m with out := dft m.inp } ∧ s'.loc = Function.update s.loc t (.read o x 0 none []) ∧
      s'.log = s.log := by
  intro d
  induction d with
  | zero =>
    intro k s m hl hm hil hol hkd htake
    have : m.out = dft m.inp := by
      rw [show k = m.size by omega, ← hil, ← hlen m.inp, List.take_length, hlen, hil, ← hol, List.take_length] at htake
      exact htake
    refine ⟨s.goto t (.read o x 0 none []), .single (.execEnd t o x k m hl hm (by omega)), ?_, rfl, rfl⟩
    rw [← this]
    exact hm
  | succ d ih =>
    intro k s m hl hm hil hol hkd htake
    have hk : k < (dft m.inp).length := by rw [hlen]; omega
    have h1 := Step.exec (dft := dft) t o x k m _ hl hm (by omega) (List.getElem?_eq_getElem hk)
    obtain ⟨s', ha, ho, hloc, hlog⟩ := ih (k + 1)
      ((s.store o (some { m with out := m.out.set k (dft m.inp)[k] })).goto t (.exec o x (k + 1))) { m with out := m.out.set k (dft m.inp)[k] }
      (by simp [S.goto]) (by simp [S.goto, S.store]) hil
      (by simpa using hol) (by simpa using (by omega : k + 1 + d = m.size)) (by
        have hkm : k < m.out.length := by omega
        show (m.out.set k _).take (k + 1) = (dft m.inp).take (k + 1)
        rw [List.take_add_one, List.take_add_one, take_set_self, htake]
        congr 1
        simp [hkm, List.getElem?_eq_getElem hk])
    refine ⟨s', (Relation.ReflTransGen.single h1).trans ha, ho, ?_, hlog⟩
    rw [hloc]
    simp [S.goto, S.store]

/-- One thread reads the result. -/
theorem alone_read (dft : List (R × R) → List (R × R)) (t : T) (o : Nat) (x : List (R × R)) :
    ∀ (d n : Nat) (s : S T R) (m : Impl R), s.loc t = .read o x n none (m.out.take n) → s.objs o = some m → m.out.length = m.size →
    n + d = m.size → ∃ s', Alone dft t s s' ∧ .returned t o x (.ok m.out) ∈ s'.log := by
  intro d
  induction d with
  | zero =>
    intro n s m hl hm hol hnd
    refine ⟨_, .single (.readEnd t o x n _ m hl hm (by omega)), ?_⟩
    simp [List.take_of_length_le (show m.out.length ≤ n by omega)]
  | succ d ih =>
    intro n s m hl hm hol hnd
    have hn : n < m.out.length := by omega
    have h1 := Step.readReal (dft := dft) t o x n _ m _ hl hm (by omega) (List.getElem?_eq_getElem hn)
    have h2 := Step.readImag (dft := dft) (s := s.goto t (.read o x n (some m.out[n].1) (m.out.take n))) t o x n m.out[n].1
      (m.out.take n) m _ (by simp [S.goto]) (by simpa [S.goto] using hm) (List.getElem?_eq_getElem hn)
    obtain ⟨s', ha, he⟩ := ih (n + 1) ((s.goto t (.read o x n (some m.out[n].1) (m.out.take n))).goto t
      (.read o x (n + 1) none (m.out.take n ++ [(m.out[n].1, m.out[n].2)]))) m (by
      simp only [S.goto, Function.update_self]
      rw [List.take_add_one, List.getElem?_eq_getElem hn]; rfl) (by simpa [S.goto] using hm) hol (by omega)
    exact ⟨s', (Relation.ReflTransGen.single h1).trans ((Relation.ReflTransGen.single h2).trans ha), he⟩

/-- One thread constructs an object. -/
theorem start [Inhabited R] (dft : List (R × R) → List (R × R)) (may : S T R → Call R → Prop) (hmay : ∀ s n, may s (.create n)) (t : T)
    (size : Nat) (hs : 0 < size) :
    ∃ (s : S T R) (m : Impl R), Reach dft may s ∧ s.objs 0 = some m ∧ m.size = size ∧ m.inp.length = m.size ∧ m.out.length = m.size ∧
      ∀ t', s.loc t' = .idle := by
  set l : List (R × R) := List.replicate size default
  have h0 : Reach (T := T) dft may _ := .call t (.create size) .init rfl (hmay _ _)
  have h1 := Reach.step t h0 (.ctorLock t size (by simp [S.goto, Call.entry]) rfl)
  have h2 := Reach.step t h1 (.ctorPass t size (by simp [S.goto]) (by omega))
  have h3 := Reach.step t h2 (.ctorPlan t size l l (by simp [S.goto]) (by simp [l]) (by simp [l]))
  have h4 := Reach.step t h3 (.ctorUnlock t size 0 (by simp [S.goto, S.init, S.store]))
  refine ⟨_, ⟨size, l, l⟩, h4, by simp [S.goto, S.store, S.init], rfl, by simp [l], by simp [l], ?_⟩
  intro t'
  by_cases ht : t' = t
  · subst ht
    simp [S.goto]
  · simp [S.goto, S.init, S.store, Function.update_of_ne ht]

/-- Two threads have called `Transform` of the object and are about to write its buffer. -/
theorem two_inside [Inhabited R] (dft : List (R × R) → List (R × R)) (t u : T) (htu : t ≠ u)
    (x y : List (R × R)) (hx : x ≠ []) (hxy : x.length = y.length) :
    ∃ (s : S T R) (m : Impl R), Reach dft Alive s ∧ s.objs 0 = some m ∧ m.size = x.length ∧ m.inp.length = m.size ∧ m.out.length = m.size ∧
      s.loc t = .fill 0 x 0 false ∧ s.loc u = .fill 0 y 0 false := by
  obtain ⟨s, m, hr, hm, hsz, hil, hol, hidle⟩ := start (T := T) (R := R) dft Alive (fun _ _ => trivial) t x.length (List.length_pos_iff.2 hx)
  have hut : u ≠ t := Ne.symm htu
  have h1 := Reach.call t (.transform 0 x) hr (hidle t) (by simp [Alive, hm])
  have h2 := Reach.call u (.transform 0 y) h1 (by simp [S.goto, Function.update_of_ne hut, hidle]) (by simp [Alive, S.goto, hm])
  have h3 := Reach.step t h2 (.checkPass t 0 x m (by simp [S.goto, Function.update_of_ne htu, Call.entry]) (by simp [S.goto, hm]) (by simp [hsz]))
  have h4 := Reach.step u h3 (.checkPass u 0 y m (by simp [S.goto, Function.update_of_ne hut, Call.entry]) (by simp [S.goto, hm]) (by simp [hsz, hxy]))
  exact ⟨_, m, h4, by simp [S.goto, hm], hsz, hil, hol, by simp [S.goto, Function.update_of_ne htu], by simp [S.goto]⟩

/-- **C120** (sharing an object: the result).  The class does not protect a shared object: for any two sequences of the size of the object, two threads
that call `Transform` with them can be scheduled so that the call with the first sequence returns the transform of the second one. -/
theorem C120_shared_object [Inhabited R] (dft : List (R × R) → List (R × R)) (hlen : ∀ x, (dft x).length = x.length) (t u : T) (htu : t ≠ u)
    (x y : List (R × R)) (hx : x ≠ []) (hxy : x.length = y.length) :
    ∃ s : S T R, Reach dft Alive s ∧ .returned t 0 x (.ok (dft y)) ∈ s.log := by
  obtain ⟨s, m, hr, hm, hsz, hil, hol, hlt, hlu⟩ := two_inside (T := T) dft t u htu x y hx hxy
  have hut : u ≠ t := Ne.symm htu
  obtain ⟨s1, ha1, hm1, hl1, -⟩ := alone_fill dft t 0 x x.length 0 s m hlt hm hsz hil (by omega) (by simp)
  obtain ⟨s2, ha2, hm2, hl2, -⟩ := alone_fill dft u 0 y y.length 0 s1 { m with inp := x } (by rw [hl1, Function.update_of_ne hut, hlu]) hm1
    (by simp [hsz, hxy]) (by simp [hsz]) (by omega) (by simp)
  obtain ⟨s3, ha3, hm3, hl3, -⟩ := alone_exec dft hlen t 0 x m.size 0 s2 { m with inp := y } (by rw [hl2, Function.update_of_ne htu, hl1, Function.update_self])
    hm2 (by simp [hsz, hxy]) hol (by simp) (by simp)
  obtain ⟨s4, ha4, he⟩ := alone_read dft t 0 x m.size 0 s3 { m with inp := y, out := dft y } (by rw [hl3, Function.update_self]; rfl) hm3
    (by simp [hlen, hsz, hxy]) (by simp)
  exact ⟨s4, ha4.reach (ha3.reach (ha2.reach (ha1.reach hr))), he⟩

/-- **C120** (sharing an object: the data race).  And there is a moment at which both threads are about to write the same element of the buffer. -/
theorem C120_data_race [Inhabited R] (dft : List (R × R) → List (R × R)) (t u : T) (htu : t ≠ u)
    (x y : List (R × R)) (hx : x ≠ []) (hxy : x.length = y.length) :
    ∃ s : S T R, Reach dft Alive s ∧ s.loc t = .fill 0 x 0 false ∧ s.loc u = .fill 0 y 0 false ∧
      (∃ s', Step dft t s s') ∧ ∃ s', Step dft u s s' := by
  obtain ⟨s, m, hr, hm, hsz, -, -, hlt, hlu⟩ := two_inside (T := T) dft t u htu x y hx hxy
  have hl := List.length_pos_iff.2 hx
  exact ⟨s, hr, hlt, hlu, ⟨_, .fillReal t 0 x 0 m _ hlt hm (by omega) (List.getElem?_eq_getElem hl)⟩,
    ⟨_, .fillReal u 0 y 0 m _ hlu hm (by omega) (List.getElem?_eq_getElem (hxy ▸ hl))⟩⟩

/-- Non-vacuity of the theorems on careful clients: one thread transforms any sequence while another one is waiting in a constructor. -/
theorem C120_example [Inhabited R] (dft : List (R × R) → List (R × R)) (hlen : ∀ x, (dft x).length = x.length) (t u : T) (htu : t ≠ u)
    (x : List (R × R)) (hx : x ≠ []) :
    ∃ s : S T R, Reach dft OneUser s ∧ s.loc u = .ctorLock 3 ∧ Inside s t 0 ∧ ∃ s', Alone dft t s s' ∧ .returned t 0 x (.ok (dft x)) ∈ s'.log := by
  obtain ⟨s, m, hr, hm, hsz, hil, hol, hidle⟩ := start (T := T) (R := R) dft OneUser (fun _ _ => trivial) t x.length (List.length_pos_iff.2 hx)
  have hut : u ≠ t := Ne.symm htu
  have hin : ∀ t', ¬ Inside (s.goto u (.ctorLock 3)) t' 0 := by
    intro t'
    by_cases h : t' = u
    · subst h
      simp [Inside, S.goto, Loc.user]
    · simp [Inside, S.goto, Function.update_of_ne h, hidle, Loc.user]
  have h1 := Reach.call u (.create 3) hr (hidle u) trivial
  have h2 := Reach.call t (.transform 0 x) h1 (by simp [S.goto, Function.update_of_ne htu, hidle]) ⟨by simp [S.goto, hm], hin⟩
  set s2 := (s.goto u (Call.create 3).entry).goto t (Call.transform 0 x).entry with hs2
  have hs3 := Step.checkPass (dft := dft) (s := s2) t 0 x m (by simp [hs2, S.goto, Call.entry]) (by simp [hs2, S.goto, hm]) (by simp [hsz])
  set s3 := s2.goto t (.fill 0 x 0 false) with hs3e
  have h3 := Reach.step t h2 hs3
  obtain ⟨s4, ha4, hm4, hl4, -⟩ := alone_fill dft t 0 x x.length 0 s3 m (by simp [hs3e, S.goto]) (by simp [hs3e, hs2, S.goto, hm]) hsz hil (by omega) (by simp)
  obtain ⟨s5, ha5, hm5, hl5, -⟩ := alone_exec dft hlen t 0 x m.size 0 s4 { m with inp := x } (by rw [hl4, Function.update_self]) hm4 (by simp [hsz]) hol
    (by simp) (by simp)
  obtain ⟨s6, ha6, he⟩ := alone_read dft t 0 x m.size 0 s5 { m with inp := x, out := dft x } (by rw [hl5, Function.update_self]; rfl) hm5
    (by simp [hlen, hsz]) (by simp)
  exact ⟨s3, h3, by simp [hs3e, hs2, S.goto, Function.update_of_ne hut, Call.entry], by simp [Inside, hs3e, S.goto, Loc.user],
    s6, ha4.trans (ha5.trans ha6), he⟩

/-! ### The exact Fourier transform -/

/-- The complex numbers that the pairs stand for. -/
def toComplex (x : List (ℝ × ℝ)) : List ℂ := x.map fun c => ⟨c.1, c.2⟩

theorem made_pos {dft : List (R × R) → List (R × R)} (hlen : ∀ x, (dft x).length = x.length) {s : S T R} (h : Reach dft OneUser s) :
    ∀ v ∈ s.made, 0 < v := by
  induction h with
  | init => simp [S.init]
  | call t c _ _ _ ih => exact ih
  | @step s s' t hr hs ih =>
    have hloc := (inv hlen hr).locs t
    cases hs with
    | ctorPlan _ size a b hl ha hb =>
      rw [hl] at hloc
      intro v hv
      rcases List.mem_append.1 hv with h | h
      · exact ih v h
      · rw [List.mem_singleton.1 h]
        exact hloc
    | _ => exact ih

/-- **C120** (agreement with the sequential transform).  If the plan computes the discrete Fourier transform in exact arithmetic, every call of every
careful client returns what the transform of C49 returns for its argument. -/
theorem C120_exact (dft : List (ℝ × ℝ) → List (ℝ × ℝ)) (hdft : ∀ x, Dsp.fourier (toComplex x) = .ok (toComplex (dft x))) (s : S T ℝ)
    (h : Reach dft OneUser s) (t : T) (o : Nat) (x : List (ℝ × ℝ)) (r : Res (List (ℝ × ℝ))) (he : .returned t o x r ∈ s.log) :
    ∃ size F, s.made[o]? = some size ∧ Dsp.fastFourier true size = .ok F ∧ (do return toComplex (← r)) = F (toComplex x) := by
  have hlen : ∀ x, (dft x).length = x.length := by
    intro x
    have := hdft x
    rw [Dsp.fourier_eq, Res.ok.injEq] at this
    have := congrArg List.length this
    simpa [toComplex] using this.symm
  obtain ⟨size, hs, rfl⟩ := C120_results dft hlen s h t o x r he
  have hpos := made_pos hlen h size (List.mem_of_getElem? hs)
  refine ⟨size, _, hs, by simp only [Dsp.fastFourier, if_true]; rw [if_neg hpos.ne'], ?_⟩
  unfold expected
  by_cases hx : x.length = size
  · have hx' : ¬ size ≠ (toComplex x).length := by simpa [toComplex] using hx.symm
    rw [if_pos hx, if_neg hx', hdft x]
    rfl
  · have hx' : size ≠ (toComplex x).length := by simpa [toComplex] using Ne.symm hx
    rw [if_neg hx, if_pos hx']
    rfl

/-- Non-vacuity: there is such a function. -/
theorem C120_example_exact : ∃ dft : List (ℝ × ℝ) → List (ℝ × ℝ), ∀ x, Dsp.fourier (toComplex x) = .ok (toComplex (dft x)) := by
  refine ⟨fun x => (Dsp.dftL (toComplex x)).map fun z => (z.re, z.im), fun x => ?_⟩
  rw [Dsp.fourier_eq]
  simp [toComplex, Function.comp_def]

end K52.Fft
