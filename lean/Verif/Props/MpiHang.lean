import Verif.Model.MpiHang
import Verif.Props.MpiLife

/-!
# C98: tasks the workers never answer
-/

set_option linter.unusedSectionVars false

namespace K52.Mpi
variable {T M : Type} {size : Nat} {parts : T → List M} {hangs : T → Bool}

theorem HangRemote.toRemote {l l' : Hang T M} (h : HangRemote size parts hangs l l') : Remote size parts l.s l'.s := by
  cases h with
  | receive r m ms h1 h2 h3 h4 => exact .receive r m ms h1 h2 h3 h4
  | reply r m ms h1 h2 h3 h4 => exact .reply r m ms h1 h2 h4
  | deliver r m ms k ks h1 h2 h3 h4 => exact .deliver r m ms k ks h1 h2 h3 h4

theorem HangStep.toStep {b : Bool} {l l' : Hang T M} (h : HangStep size parts hangs b l l') : Step size parts b l.s l'.s := by
  cases h with
  | server h => exact .server h
  | remote h => exact .remote h.toRemote

theorem HangReach.toReach {l : Hang T M} (h : HangReach size parts hangs l) : Reach size parts l.s := by
  induction h with
  | init => exact .init
  | step _ hs ih => exact ih.step hs.toStep
  | call _ hc ih => exact ih.call hc

/-- The server expects result `k` from worker `r`. -/
def Waits (s : S T M) (r k : Nat) : Prop := ∃ e ∈ s.exps, e.rank = r ∧ e.slot = k

structure HangInv (parts : T → List M) (hangs : T → Bool) (l : Hang T M) : Prop where
  stuck : ∀ r k t, Waits l.s r k → l.s.batch[k]? = some t → hangs t = true → l.s.inbox r = [] → l.hung r = true ∧ l.s.work r = parts t
  who : ∀ r, l.hung r = true → ∃ k t, Waits l.s r k ∧ l.s.batch[k]? = some t ∧ hangs t = true ∧ l.s.work r = parts t
  done : ∀ k, k < sentN l.s.batch.length l.s.loc → (∀ r, ¬ Waits l.s r k) → ∀ t, l.s.batch[k]? = some t → hangs t = false

theorem Waits.uniq {s : S T M} (inv : Inv size parts s) {r k k' : Nat} (h : Waits s r k) (h' : Waits s r k') : k = k' := by
  obtain ⟨e, he, rfl, rfl⟩ := h
  obtain ⟨e', he', hr, rfl⟩ := h'
  rw [pairwise_ne_of_mem inv.ranks he' he hr]

theorem hangInv_server (hp : ∀ t, parts t ≠ []) {b : Bool} {l : Hang T M} {s' : S T M} (inv : Inv size parts l.s) (h : HangInv parts hangs l)
    (hs : Server size parts b l.s s') : HangInv parts hangs { l with s := s' } := by
  cases hs with
  | sendTask i cur first t hl hb =>
    have hw : ∀ r k, Waits { l.s with
        loc := afterSend size i cur first
        inbox := Function.update l.s.inbox cur (l.s.inbox cur ++ [⟨i, t⟩])
        posted := Function.update l.s.posted cur (l.s.posted cur ++ [i])
        exps := l.s.exps ++ [⟨cur, i, (parts t).length - 1⟩] } r k ↔ Waits l.s r k ∨ (r = cur ∧ k = i) := by
      intro r k
      simp only [Waits, List.mem_append, List.mem_singleton]
      constructor
      · rintro ⟨e, he | rfl, h1, h2⟩
        · exact .inl ⟨e, he, h1, h2⟩
        · exact .inr ⟨h1.symm, h2.symm⟩
      · rintro (⟨e, he, h1, h2⟩ | ⟨rfl, rfl⟩)
        · exact ⟨e, .inl he, h1, h2⟩
        · exact ⟨_, .inr rfl, rfl, rfl⟩
    refine ⟨fun r k t' h1 h2 h3 h4 => ?_, fun r hr => ?_, fun k hk hno t' ht' => ?_⟩
    · by_cases hr : r = cur
      · subst hr; simp at h4
      · simp only [Function.update_of_ne hr] at h4
        rcases (hw r k).1 h1 with h1 | ⟨h1, _⟩
        · exact h.stuck r k t' h1 h2 h3 h4
        · exact absurd h1 hr
    · obtain ⟨k, t', h1, h2⟩ := h.who r hr
      exact ⟨k, t', (hw r k).2 (.inl h1), h2⟩
    · simp only [sentN_afterSend] at hk
      have hki : k ≠ i := fun hc => hno cur ((hw cur k).2 (.inr ⟨rfl, hc⟩))
      refine h.done k (by rw [hl]; simp only [sentN]; omega) (fun r hr => hno r ((hw r k).2 (.inl hr))) t' ht'
  | sendEnd i cur first hl hb =>
    refine ⟨h.stuck, h.who, fun k hk hno t' ht' => h.done k ?_ hno t' ht'⟩
    rw [List.getElem?_eq_none_iff] at hb
    simp only [sentN_drain] at hk
    rw [hl]; simp only [sentN]; omega
  | scanPending pos next e hl he hpo =>
    refine ⟨h.stuck, h.who, fun k hk hno t' ht' => h.done k ?_ hno t' ht'⟩
    rw [hl, sentN_scan _ pos (pos + 1)]; exact hk
  | scanWrap pos next hl he =>
    refine ⟨h.stuck, h.who, fun k hk hno t' ht' => h.done k ?_ hno t' ht'⟩
    rw [hl, sentN_scan _ pos 0]; exact hk
  | scanNext pos next e left hl he hpo hleft =>
    have hmem := List.mem_of_getElem? he
    have hw : ∀ r k, Waits { l.s with
        loc := .scan (pos + 1) next
        posted := Function.update l.s.posted e.rank (l.s.posted e.rank ++ [e.slot])
        exps := l.s.exps.set pos { e with left := left } } r k ↔ Waits l.s r k := by
      intro r k
      simp only [Waits]
      constructor
      · rintro ⟨x, hx, h1, h2⟩
        rcases (mem_set_iff inv.ranks he).1 hx with rfl | ⟨hx, _⟩
        · exact ⟨e, hmem, h1, h2⟩
        · exact ⟨x, hx, h1, h2⟩
      · rintro ⟨x, hx, h1, h2⟩
        by_cases hr : x.rank = e.rank
        · have := pairwise_ne_of_mem inv.ranks hx hmem hr
          subst this
          exact ⟨_, (mem_set_iff inv.ranks he).2 (.inl rfl), h1, h2⟩
        · exact ⟨x, (mem_set_iff inv.ranks he).2 (.inr ⟨hx, hr⟩), h1, h2⟩
    refine ⟨fun r k t' h1 h2 h3 h4 => h.stuck r k t' ((hw r k).1 h1) h2 h3 h4, fun r hr => ?_, fun k hk hno t' ht' => ?_⟩
    · obtain ⟨k, t', h1, h2⟩ := h.who r hr
      exact ⟨k, t', (hw r k).2 h1, h2⟩
    · refine h.done k ?_ (fun r hr => hno r ((hw r k).2 hr)) t' ht'
      rw [hl, sentN_scan _ pos (pos + 1)]; exact hk
  | scanPop pos next e hl he hpo hleft =>
    have hmem := List.mem_of_getElem? he
    obtain ⟨t, ok⟩ := inv.exp e hmem
    have hw : ∀ r k, Waits { l.s with
        loc := afterPop (l.s.exps.eraseIdx pos) e.rank next
        exps := l.s.exps.eraseIdx pos
        stats := l.s.stats ++ [e.rank] } r k ↔ Waits l.s r k ∧ r ≠ e.rank := by
      intro r k
      simp only [Waits]
      constructor
      · rintro ⟨x, hx, rfl, rfl⟩
        obtain ⟨hx, hne⟩ := (mem_erase_iff inv.ranks he).1 hx
        exact ⟨⟨x, hx, rfl, rfl⟩, hne⟩
      · rintro ⟨⟨x, hx, rfl, rfl⟩, hne⟩
        exact ⟨x, (mem_erase_iff inv.ranks he).2 ⟨hx, hne⟩, rfl, rfl⟩
    have hpost : l.s.posted e.rank = [] := by
      rcases ok.post with h1 | h1
      · exact h1
      · rw [h1] at hpo; simp at hpo
    have hc := ok.calls
    have hf := congrArg List.length ok.flow
    rw [hleft, hpost] at hc
    simp only [List.length_append, List.length_nil] at hf hc
    have hwork : l.s.work e.rank = [] := List.length_eq_zero_iff.1 (by omega)
    have hin : l.s.inbox e.rank = [] := by
      rcases ok.perf with ⟨h1, _⟩ | ⟨h1, _⟩
      · exact h1
      · rw [h1] at hf
        have : (parts t).length ≠ 0 := fun hc => hp t (List.length_eq_zero_iff.1 hc)
        simp only [List.flatMap_cons, List.flatMap_nil, List.append_nil] at hf
        omega
    have hok : hangs t = false := by
      by_contra hc
      obtain ⟨_, h2⟩ := h.stuck e.rank e.slot t ⟨e, hmem, rfl, rfl⟩ ok.task (by simpa using hc) hin
      rw [hwork] at h2
      exact hp t h2.symm
    refine ⟨fun r k t' h1 h2 h3 h4 => h.stuck r k t' ((hw r k).1 h1).1 h2 h3 h4, fun r hr => ?_, fun k hk hno t' ht' => ?_⟩
    · obtain ⟨k, t', h1, h2, h3, h4⟩ := h.who r hr
      refine ⟨k, t', (hw r k).2 ⟨h1, ?_⟩, h2, h3, h4⟩
      rintro rfl
      rw [hwork] at h4
      exact hp t' h4.symm
    · simp only [sentN_afterPop _ _ _ pos] at hk
      by_cases hke : k = e.slot
      · subst hke
        have := ok.task
        simp only at ht'
        rw [this] at ht'
        cases ht'
        exact hok
      · refine h.done k (by rw [hl]; exact hk) (fun r hr => ?_) t' ht'
        by_cases hre : r = e.rank
        · subst hre
          exact hke (hr.uniq inv ⟨e, hmem, rfl, rfl⟩)
        · exact hno r ((hw r k).2 ⟨hr, hre⟩)

theorem hangInv_remote (hp : ∀ t, parts t ≠ []) {l l' : Hang T M} (inv : Inv size parts l.s) (h : HangInv parts hangs l)
    (hs : HangRemote size parts hangs l l') : HangInv parts hangs l' := by
  cases hs with
  | receive r m ms h1 h2 h3 h4 =>
    obtain ⟨e, he, rfl⟩ := exp_of_busy inv r (by simp [h4])
    obtain ⟨t, ok⟩ := inv.exp e he
    have hm : m = ⟨e.slot, t⟩ ∧ ms = [] := by
      rcases ok.perf with ⟨h, _⟩ | ⟨h, _⟩
      · rw [h] at h4; cases h4
      · rw [h] at h4; cases h4; exact ⟨rfl, rfl⟩
    obtain ⟨rfl, rfl⟩ := hm
    have hwe : Waits l.s e.rank e.slot := ⟨e, he, rfl, rfl⟩
    refine ⟨fun r k t' w1 w2 w3 w4 => ?_, fun r hr => ?_, h.done⟩
    · by_cases hr : r = e.rank
      · subst hr
        have := (show Waits l.s e.rank k from w1).uniq inv hwe
        subst this
        simp only [ok.task] at w2
        cases w2
        simp [w3]
      · simp only [Function.update_of_ne hr] at w4 ⊢
        exact h.stuck r k t' w1 w2 w3 w4
    · by_cases hr' : r = e.rank
      · subst hr'
        simp only [Function.update_self] at hr ⊢
        exact ⟨e.slot, t, hwe, ok.task, hr, rfl⟩
      · simp only [Function.update_of_ne hr'] at hr ⊢
        exact h.who r hr
  | reply r m ms h1 h2 h3 h4 =>
    refine ⟨fun r' k t' w1 w2 w3 w4 => ?_, fun r' hr => ?_, h.done⟩
    · obtain ⟨g1, g2⟩ := h.stuck r' k t' w1 w2 w3 w4
      have hne : r' ≠ r := by rintro rfl; rw [h3] at g1; cases g1
      simp only [Function.update_of_ne hne]
      exact ⟨g1, g2⟩
    · have hne : r' ≠ r := by rintro rfl; simp only at hr; rw [h3] at hr; cases hr
      simp only [Function.update_of_ne hne]
      exact h.who r' hr
  | deliver r m ms k ks h1 h2 h3 h4 => exact ⟨h.stuck, h.who, h.done⟩

theorem hangInv_of_reach (hp : ∀ t, parts t ≠ []) {l : Hang T M} (h : HangReach size parts hangs l) : HangInv parts hangs l := by
  induction h with
  | init => exact ⟨by simp [Waits, S.init], by simp, by simp [S.init, sentN]⟩
  | step hr hs ih =>
    have inv := inv_of_reach hp hr.toReach
    cases hs with
    | server hs => exact hangInv_server hp inv ih hs
    | remote hs => exact hangInv_remote hp inv ih hs
  | @call l s' hr hc ih =>
    have inv := inv_of_reach hp hr.toReach
    cases hc with
    | doTasks tasks hl hsz =>
      have he : l.s.exps = [] := by have := inv.loc; rw [hl] at this; exact this
      have hno : ∀ r k, ¬ Waits l.s r k := fun r k ⟨e, h1, _⟩ => by rw [he] at h1; cases h1
      refine ⟨fun r k t' w1 => absurd w1 (hno r k), fun r hr => ?_, by simp [sentN]⟩
      obtain ⟨k, t', w1, _⟩ := ih.who r hr
      exact absurd w1 (hno r k)

/-! ## Counting the tasks that hang -/

theorem countP_take (hangs : T → Bool) (b : List T) (i : Nat) :
    (b.take i).countP hangs = ((List.range i).filter (fun j => b[j]?.any hangs)).length := by
  induction i with
  | zero => simp
  | succ i ih =>
    rw [List.take_add_one, List.countP_append, ih, List.range_succ, List.filter_append, List.length_append]
    congr 1
    cases h : b[i]? with
    | none => simp [h]
    | some t => cases ht : hangs t <;> simp [h, ht]

theorem slots_nodup {s : S T M} (inv : Inv size parts s) : (s.exps.map Exp.slot).Nodup := List.pairwise_map.2 inv.slots

/-- The tasks sent that hang are all still expected. -/
theorem count_le (hp : ∀ t, parts t ≠ []) {l : Hang T M} (h : HangReach size parts hangs l) {i : Nat}
    (hi : i ≤ sentN l.s.batch.length l.s.loc) : (l.s.batch.take i).countP hangs ≤ l.s.exps.length := by
  have hinv := hangInv_of_reach hp h
  rw [countP_take, ← List.length_map (f := Exp.slot)]
  refine List.Subperm.length_le (List.Nodup.subperm (List.nodup_range.filter _) ?_)
  intro j hj
  obtain ⟨h1, h2⟩ := List.mem_filter.1 hj
  rw [List.mem_range] at h1
  by_contra hc
  cases hb : l.s.batch[j]? with
  | none => simp [hb] at h2
  | some t =>
    have := hinv.done j (by omega) (fun r ⟨e, he, _, hs⟩ => hc (List.mem_map.2 ⟨e, he, hs⟩)) t hb
    simp [hb, this] at h2

/-- A task is only sent while fewer than `size - 1` of the tasks before it hang. -/
theorem count_sent (hp : ∀ t, parts t ≠ []) {l : Hang T M} (h : HangReach size parts hangs l) :
    ∀ i, i < sentN l.s.batch.length l.s.loc → i < l.s.batch.length → (l.s.batch.take i).countP hangs + 1 < size := by
  induction h with
  | init => intro i _ hi; simp [S.init] at hi
  | call hr hc ih => cases hc with
    | doTasks tasks hl hsz => intro i hi; simp [sentN] at hi
  | @step b l l' hr hs ih =>
    have hcnt := countOK_reach hp hr.toReach
    have inv := inv_of_reach hp hr.toReach
    have hsend : ∀ i cur first, l.s.loc = .send i cur first → (l.s.batch.take i).countP hangs + 1 < size := by
      intro i cur first hl
      have h1 := count_le hp hr (i := i) (by rw [hl]; exact Nat.le_refl _)
      have hloc := inv.loc
      rw [hl] at hcnt hloc
      simp only [LocOK] at hloc
      cases first
      · simp only [CountOK, Bool.false_eq_true, if_false] at hcnt; omega
      · simp only [CountOK, if_true] at hcnt; omega
    cases hs with
    | remote hs => cases hs <;> exact ih
    | server hs =>
      cases hs with
      | sendTask i cur first t hl hb =>
        intro j hj hjb
        simp only [sentN_afterSend] at hj
        by_cases hji : j = i
        · subst hji; exact hsend _ _ _ hl
        · exact ih j (by rw [hl]; simp only [sentN]; omega) hjb
      | sendEnd i cur first hl hb =>
        intro j hj hjb
        rw [List.getElem?_eq_none_iff] at hb
        simp only at hjb
        exact ih j (by rw [hl]; simp only [sentN]; omega) hjb
      | scanPending pos next e hl he hpo =>
        intro j hj hjb
        exact ih j (by rw [hl, sentN_scan _ pos (pos + 1)]; exact hj) hjb
      | scanWrap pos next hl he =>
        intro j hj hjb
        exact ih j (by rw [hl, sentN_scan _ pos 0]; exact hj) hjb
      | scanNext pos next e left hl he hpo hleft =>
        intro j hj hjb
        exact ih j (by rw [hl, sentN_scan _ pos (pos + 1)]; exact hj) hjb
      | scanPop pos next e hl he hpo hleft =>
        intro j hj hjb
        simp only [sentN_afterPop _ _ _ pos] at hj
        exact ih j (by rw [hl]; exact hj) hjb

/-! ## The theorems -/

/-- **C98** (no return).  A `DoTasks` that has returned was given no task that hangs: with one in the batch it never returns. -/
theorem C98_no_return (hp : ∀ t, parts t ≠ []) {l : Hang T M} (h : HangReach size parts hangs l) (hidle : l.s.loc = .idle) :
    ∀ t ∈ l.s.batch, hangs t = false := by
  intro t ht
  obtain ⟨i, hi, rfl⟩ := List.mem_iff_getElem.1 ht
  have he : l.s.exps = [] := by have := (inv_of_reach hp h.toReach).loc; rw [hidle] at this; exact this
  refine (hangInv_of_reach hp h).done i (by rw [hidle]; exact hi) (fun r ⟨e, h1, _⟩ => ?_) _ (List.getElem?_eq_getElem hi)
  rw [he] at h1; cases h1

/-- **C98** (blocked tasks).  At every moment a task has been performed at most once, and not at all if as many tasks before it hang as there are
workers (`size - 1`). -/
theorem C98_blocked (hp : ∀ t, parts t ≠ []) {l : Hang T M} (h : HangReach size parts hangs l) (i : Nat) (hi : i < l.s.batch.length) :
    l.s.perf.count i ≤ 1 ∧ (size ≤ (l.s.batch.take i).countP hangs + 1 → l.s.perf.count i = 0 ∧ l.s.got i = []) := by
  have inv := inv_of_reach hp h.toReach
  by_cases hs : i < sentN l.s.batch.length l.s.loc
  · have h1 := count_sent hp h i hs hi
    refine ⟨?_, fun h2 => by omega⟩
    by_cases he : ∀ e ∈ l.s.exps, e.slot ≠ i
    · exact (inv.done i hs he).2.le
    · push Not at he
      obtain ⟨e, he, rfl⟩ := he
      obtain ⟨t, ok⟩ := inv.exp e he
      rcases ok.perf with ⟨_, h⟩ | ⟨_, h⟩ <;> omega
  · have := inv.unsent i (by omega)
    exact ⟨by omega, fun _ => ⟨this.2, this.1⟩⟩

/-- What can be expected of a call on `size - 1` workers: all tasks with fewer than `size - 1` tasks that hang before them have been started, and
those of them that do not hang have been answered. -/
def Settled (size : Nat) (parts : T → List M) (hangs : T → Bool) (s : S T M) : Prop :=
  ∀ i t, s.batch[i]? = some t → (s.batch.take i).countP hangs + 1 < size → s.perf.count i = 1 ∧ (hangs t = false → s.got i = parts t)

theorem quiet_hung {l : Hang T M} (inv : Inv size parts l.s) (hinv : HangInv parts hangs l)
    (hq : ∀ l', ¬ HangRemote size parts hangs l l') {e : Exp} (he : e ∈ l.s.exps) (hpost : l.s.posted e.rank ≠ []) :
    l.hung e.rank = true ∧ l.s.perf.count e.slot = 1 ∧ ∃ t, l.s.batch[e.slot]? = some t ∧ hangs t = true := by
  obtain ⟨t, ok⟩ := inv.exp e he
  have ho : l.s.out e.rank = [] := by
    cases ho : l.s.out e.rank with
    | nil => rfl
    | cons m ms =>
      cases hc : l.s.posted e.rank with
      | nil => exact absurd hc hpost
      | cons k ks => exact absurd (HangRemote.deliver e.rank m ms k ks ok.lo ok.hi ho hc) (hq _)
  have hi : l.s.inbox e.rank = [] := by
    cases hc : l.s.inbox e.rank with
    | nil => rfl
    | cons m ms =>
      have hw : l.s.work e.rank = [] := by
        rcases ok.perf with ⟨h, _⟩ | ⟨h, _⟩
        · rw [h] at hc; cases hc
        · have hf := congrArg List.length ok.flow
          rw [h] at hf
          simp only [List.length_append, List.flatMap_cons, List.flatMap_nil, List.length_nil] at hf
          exact List.length_eq_zero_iff.1 (by omega)
      exact absurd (HangRemote.receive e.rank m ms ok.lo ok.hi hw hc) (hq _)
  have hperf : l.s.perf.count e.slot = 1 := by
    rcases ok.perf with ⟨_, h⟩ | ⟨h, _⟩
    · exact h
    · rw [hi] at h; cases h
  have hw : l.s.work e.rank ≠ [] := by
    intro hw
    have h1 := congrArg List.length ok.flow
    have h2 := ok.calls
    rw [hw, hi, ho] at h1
    have h3 : (l.s.posted e.rank).length ≠ 0 := fun hc => hpost (List.length_eq_zero_iff.1 hc)
    simp at h1
    omega
  have hhung : l.hung e.rank = true := by
    by_contra hc
    cases hx : l.s.work e.rank with
    | nil => exact hw hx
    | cons m ms => exact hq _ (HangRemote.reply e.rank m ms ok.lo ok.hi (by simpa using hc) hx)
  obtain ⟨k, t', hk, ht, hh, _⟩ := hinv.who e.rank hhung
  obtain ⟨e', he', hr, rfl⟩ := hk
  rw [pairwise_ne_of_mem inv.ranks he' he hr] at ht
  exact ⟨hhung, hperf, t', ht, hh⟩

/-- When nothing but polling is left to be done, the call has settled. -/
theorem settled_of_stuck (hp : ∀ t, parts t ≠ []) {l : Hang T M} (h : HangReach size parts hangs l)
    (hq : ∀ l', ¬ HangRemote size parts hangs l l') (hpost : ∀ e ∈ l.s.exps, l.s.posted e.rank ≠ [])
    (hloc : ∀ i cur first, l.s.loc ≠ .send i cur first) : Settled size parts hangs l.s := by
  have inv := inv_of_reach hp h.toReach
  have hinv := hangInv_of_reach hp h
  have hsent : ∀ i t, l.s.batch[i]? = some t → i < sentN l.s.batch.length l.s.loc →
      l.s.perf.count i = 1 ∧ (hangs t = false → l.s.got i = parts t) := by
    intro i t ht hi
    by_cases he : ∀ e ∈ l.s.exps, e.slot ≠ i
    · obtain ⟨⟨t', ht', hg⟩, hc⟩ := inv.done i hi he
      rw [ht] at ht'; cases ht'
      exact ⟨hc, fun _ => hg⟩
    · push Not at he
      obtain ⟨e, he, rfl⟩ := he
      obtain ⟨_, hc, t', ht', hh⟩ := quiet_hung inv hinv hq he (hpost e he)
      rw [ht] at ht'; cases ht'
      exact ⟨hc, fun h => by rw [hh] at h; cases h⟩
  intro i t ht hcount
  refine hsent i t ht ?_
  have hib : i < l.s.batch.length := (List.getElem?_eq_some_iff.1 ht).1
  cases hl : l.s.loc with
  | idle => simpa [sentN] using hib
  | send i' cur first => exact absurd hl (hloc i' cur first)
  | scan pos next =>
    cases next with
    | none => simpa [sentN] using hib
    | some n =>
      simp only [sentN]
      by_contra hc
      have hcnt := countOK_reach hp h.toReach
      rw [hl] at hcnt
      simp only [CountOK] at hcnt
      have h1 : l.s.exps.length ≤ (l.s.batch.take n).countP hangs := by
        rw [countP_take, ← List.length_map (f := Exp.slot)]
        refine List.Subperm.length_le (List.Nodup.subperm (slots_nodup inv) ?_)
        intro j hj
        obtain ⟨e, he, rfl⟩ := List.mem_map.1 hj
        obtain ⟨_, _, t', ht', hh⟩ := quiet_hung inv hinv hq he (hpost e he)
        have := inv.sent e he
        rw [hl] at this
        simp only [sentN] at this
        simp [this, ht', hh]
      have h2 : (l.s.batch.take n).countP hangs ≤ (l.s.batch.take i).countP hangs :=
        List.Sublist.countP_le (List.take_sublist_take_left (by omega))
      omega

/-- A run of polling steps. -/
inductive Polls (size : Nat) (parts : T → List M) (hangs : T → Bool) : Hang T M → Hang T M → Prop
  | refl (l) : Polls size parts hangs l l
  | head {l l' l''} : HangStep size parts hangs false l l' → Polls size parts hangs l' l'' → Polls size parts hangs l l''

theorem Polls.reach {l l' : Hang T M} (h : Polls size parts hangs l l') (hr : HangReach size parts hangs l) : HangReach size parts hangs l' := by
  induction h with
  | refl => exact hr
  | head hs _ ih => exact ih (hr.step hs)

/-- The server comes to the place of its list where it can do something. -/
theorem walk_up {l : Hang T M} {q : Nat} {e : Exp} (he : l.s.exps[q]? = some e) (hpo : l.s.posted e.rank = []) {next : Option Nat} :
    ∀ d pos, q - pos = d → pos ≤ q → l.s.loc = .scan pos next →
      ∃ l' l'', Polls size parts hangs l l' ∧ HangStep size parts hangs true l' l'' := by
  intro d
  induction d generalizing l with
  | zero =>
    intro pos hd hle hl
    obtain rfl : pos = q := by omega
    cases hleft : e.left with
    | zero => exact ⟨l, _, .refl l, .server (.scanPop pos next e hl he (by simp [hpo]) hleft)⟩
    | succ k => exact ⟨l, _, .refl l, .server (.scanNext pos next e k hl he (by simp [hpo]) hleft)⟩
  | succ d ih =>
    intro pos hd hle hl
    have hlt : pos < l.s.exps.length := by have := (List.getElem?_eq_some_iff.1 he).1; omega
    have hx : l.s.exps[pos]? = some l.s.exps[pos] := List.getElem?_eq_getElem hlt
    by_cases hin : l.s.exps[pos].slot ∈ l.s.posted l.s.exps[pos].rank
    · obtain ⟨l', l'', h1, h2⟩ := ih (l := { l with s := { l.s with loc := .scan (pos + 1) next } }) he hpo (pos + 1) (by omega) (by omega) rfl
      exact ⟨l', l'', .head (.server (.scanPending pos next _ hl hx hin)) h1, h2⟩
    · cases hleft : l.s.exps[pos].left with
      | zero => exact ⟨l, _, .refl l, .server (.scanPop pos next _ hl hx hin hleft)⟩
      | succ k => exact ⟨l, _, .refl l, .server (.scanNext pos next _ k hl hx hin hleft)⟩

theorem walk {l : Hang T M} {q : Nat} {e : Exp} (he : l.s.exps[q]? = some e) (hpo : l.s.posted e.rank = []) {next : Option Nat} :
    ∀ d pos, l.s.exps.length - pos = d → l.s.loc = .scan pos next →
      ∃ l' l'', Polls size parts hangs l l' ∧ HangStep size parts hangs true l' l'' := by
  intro d
  induction d generalizing l with
  | zero =>
    intro pos hd hl
    have hx : l.s.exps[pos]? = none := List.getElem?_eq_none (by omega)
    obtain ⟨l', l'', h1, h2⟩ := walk_up (size := size) (parts := parts) (hangs := hangs) (l := { l with s := { l.s with loc := .scan 0 next } })
      he hpo q 0 (by omega) (by omega) rfl
    exact ⟨l', l'', .head (.server (.scanWrap pos next hl hx)) h1, h2⟩
  | succ d ih =>
    intro pos hd hl
    have hlt : pos < l.s.exps.length := by omega
    have hx : l.s.exps[pos]? = some l.s.exps[pos] := List.getElem?_eq_getElem hlt
    by_cases hin : l.s.exps[pos].slot ∈ l.s.posted l.s.exps[pos].rank
    · obtain ⟨l', l'', h1, h2⟩ := ih (l := { l with s := { l.s with loc := .scan (pos + 1) next } }) he hpo (pos + 1)
        (by simp only; omega) rfl
      exact ⟨l', l'', .head (.server (.scanPending pos next _ hl hx hin)) h1, h2⟩
    · cases hleft : l.s.exps[pos].left with
      | zero => exact ⟨l, _, .refl l, .server (.scanPop pos next _ hl hx hin hleft)⟩
      | succ k => exact ⟨l, _, .refl l, .server (.scanNext pos next _ k hl hx hin hleft)⟩

/-- **C98** (progress).  As long as some task that is not blocked has not been answered (or, if it hangs, not been started), something other than
polling happens next, possibly after some more polling - whatever the other tasks do. -/
theorem C98_progress (hp : ∀ t, parts t ≠ []) {l : Hang T M} (h : HangReach size parts hangs l) (hs : ¬ Settled size parts hangs l.s) :
    ∃ l' l'', Polls size parts hangs l l' ∧ HangStep size parts hangs true l' l'' := by
  by_cases hq : ∃ l', HangRemote size parts hangs l l'
  · obtain ⟨l', hq⟩ := hq
    exact ⟨l, l', .refl l, .remote hq⟩
  push Not at hq
  by_cases hpost : ∃ e ∈ l.s.exps, l.s.posted e.rank = []
  · obtain ⟨e, he, hpo⟩ := hpost
    obtain ⟨q, hq1, hq2⟩ := List.mem_iff_getElem.1 he
    have hget : l.s.exps[q]? = some e := by rw [List.getElem?_eq_getElem hq1, hq2]
    cases hl : l.s.loc with
    | idle =>
      have := (inv_of_reach hp h.toReach).loc
      rw [hl] at this
      simp only [LocOK] at this
      rw [this] at he; cases he
    | send i cur first =>
      cases ht : l.s.batch[i]? with
      | none => exact ⟨l, _, .refl l, .server (.sendEnd i cur first hl ht)⟩
      | some t => exact ⟨l, _, .refl l, .server (.sendTask i cur first t hl ht)⟩
    | scan pos next => exact walk hget hpo _ pos rfl hl
  · push Not at hpost
    by_cases hl : ∀ i cur first, l.s.loc ≠ .send i cur first
    · exact absurd (settled_of_stuck hp h hq hpost hl) hs
    · push Not at hl
      obtain ⟨i, cur, first, hl⟩ := hl
      cases ht : l.s.batch[i]? with
      | none => exact ⟨l, _, .refl l, .server (.sendEnd i cur first hl ht)⟩
      | some t => exact ⟨l, _, .refl l, .server (.sendTask i cur first t hl ht)⟩

theorem HangStep.todo (hp : ∀ t, parts t ≠ []) {b : Bool} {l l' : Hang T M} (hr : HangReach size parts hangs l)
    (hs : HangStep size parts hangs b l l') : Mpi.todo size parts l'.s + b.toNat = Mpi.todo size parts l.s := by
  cases b with
  | true => exact (Run.work (.refl _) hs.toStep).todo hp hr.toReach
  | false => exact (Run.poll (.refl _) hs.toStep).todo hp hr.toReach

theorem Polls.todo (hp : ∀ t, parts t ≠ []) {l l' : Hang T M} (h : Polls size parts hangs l l') (hr : HangReach size parts hangs l) :
    Mpi.todo size parts l'.s = Mpi.todo size parts l.s := by
  induction h with
  | refl => rfl
  | head hs _ ih => rw [ih (hr.step hs)]; simpa using hs.todo hp hr

/-- Steps of a call, of any kind. -/
inductive HangRun (size : Nat) (parts : T → List M) (hangs : T → Bool) : Hang T M → Hang T M → Prop
  | refl (l) : HangRun size parts hangs l l
  | head {b l l' l''} : HangStep size parts hangs b l l' → HangRun size parts hangs l' l'' → HangRun size parts hangs l l''

theorem Polls.append {l l' l'' : Hang T M} (h : Polls size parts hangs l l') (h2 : HangRun size parts hangs l' l'') :
    HangRun size parts hangs l l'' := by
  induction h with
  | refl => exact h2
  | head hs _ ih => exact .head hs (ih h2)

/-- **C98** (reachable).  From every state the call can settle. -/
theorem C98_can_settle (hp : ∀ t, parts t ≠ []) {l : Hang T M} (h : HangReach size parts hangs l) :
    ∃ l', HangRun size parts hangs l l' ∧ Settled size parts hangs l'.s := by
  have key : ∀ n, ∀ l, HangReach size parts hangs l → todo size parts l.s = n →
      ∃ l', HangRun size parts hangs l l' ∧ Settled size parts hangs l'.s := by
    intro n
    induction n using Nat.strong_induction_on with
    | _ n ih =>
      intro l hr hn
      by_cases hs : Settled size parts hangs l.s
      · exact ⟨l, .refl l, hs⟩
      · obtain ⟨l1, l2, h1, h2⟩ := C98_progress hp hr hs
        have e1 := h1.todo hp hr
        have e2 := h2.todo hp (h1.reach hr)
        simp only [Bool.toNat_true] at e2
        obtain ⟨l', h3, h4⟩ := ih _ (by omega) l2 ((h1.reach hr).step h2) rfl
        exact ⟨l', h1.append (.head h2 h3), h4⟩
  exact key _ l h rfl

/-- **C98** (the others are done).  In every endless run of a call in which workers and messages do not stand still for ever although they could
move, from some moment on all tasks with fewer than `size - 1` hanging tasks before them have been started once and, unless they hang, their
results are complete in their places. -/
theorem C98_settles (hp : ∀ t, parts t ≠ []) (run : Nat → Hang T M) (lab : Nat → Bool) (h0 : HangReach size parts hangs (run 0))
    (hstep : ∀ n, HangStep size parts hangs (lab n) (run n) (run (n + 1)))
    (fair : ∀ n, (∀ m, n ≤ m → ∃ l', HangRemote size parts hangs (run m) l') → ∃ m, n ≤ m ∧ HangRemote size parts hangs (run m) (run (m + 1))) :
    ∃ N, ∀ n, N ≤ n → Settled size parts hangs (run n).s := by
  have hr : ∀ n, HangReach size parts hangs (run n) := by
    intro n
    induction n with
    | zero => exact h0
    | succ n ih => exact ih.step (hstep n)
  have ht : ∀ n, todo size parts (run (n + 1)).s + (lab n).toNat = todo size parts (run n).s := fun n => (hstep n).todo hp (hr n)
  have key : ∀ v n, todo size parts (run n).s = v → ∃ N, ∀ m, N ≤ m → lab m = false := by
    intro v
    induction v using Nat.strong_induction_on with
    | _ v ih =>
      intro n hn
      by_cases hx : ∃ m, n ≤ m ∧ lab m = true
      · obtain ⟨m, hm, hl⟩ := hx
        have mono : ∀ d, todo size parts (run (n + d)).s ≤ todo size parts (run n).s := by
          intro d
          induction d with
          | zero => simp
          | succ d ihd => have := ht (n + d); rw [← Nat.add_assoc]; omega
        have h1 := mono (m - n)
        rw [Nat.add_sub_cancel' hm] at h1
        have h2 := ht m
        rw [hl] at h2
        simp only [Bool.toNat_true] at h2
        exact ih _ (by omega) (m + 1) rfl
      · push Not at hx
        exact ⟨n, fun m hm => by have := hx m hm; simpa using this⟩
  obtain ⟨N, hN⟩ := key _ 0 rfl
  have hpoll : ∀ m, N ≤ m → ∃ s', Server size parts false (run m).s s' ∧ run (m + 1) = { run m with s := s' } := by
    intro m hm
    have hs := hstep m
    rw [hN m hm] at hs
    generalize run (m + 1) = l' at hs
    cases hs with
    | server hs => exact ⟨_, hs, rfl⟩
  -- polling changes nothing but the place in the list
  have hscan : ∀ m, N ≤ m → ∃ pos next, (run m).s.loc = .scan pos next ∧
      ((∃ e, (run m).s.exps[pos]? = some e ∧ e.slot ∈ (run m).s.posted e.rank ∧ run (m + 1) = { run m with s := { (run m).s with loc := .scan (pos + 1) next } }) ∨
       ((run m).s.exps[pos]? = none ∧ run (m + 1) = { run m with s := { (run m).s with loc := .scan 0 next } })) := by
    intro m hm
    obtain ⟨s', hs, he⟩ := hpoll m hm
    cases hs with
    | scanPending pos next e hl hx hin => exact ⟨pos, next, hl, .inl ⟨e, hx, hin, he⟩⟩
    | scanWrap pos next hl hx => exact ⟨pos, next, hl, .inr ⟨hx, he⟩⟩
  have hsame : ∀ m, N ≤ m → ∀ l', HangRemote size parts hangs (run (m + 1)) l' → ∃ l', HangRemote size parts hangs (run m) l' := by
    intro m hm l' hrem
    obtain ⟨pos, next, _, ⟨e, _, _, he⟩ | ⟨_, he⟩⟩ := hscan m hm
    all_goals
      rw [he] at hrem
      cases hrem with
      | receive r m ms h1 h2 h3 h4 => exact ⟨_, .receive r m ms h1 h2 h3 h4⟩
      | reply r m ms h1 h2 h3 h4 => exact ⟨_, .reply r m ms h1 h2 h3 h4⟩
      | deliver r m ms k ks h1 h2 h3 h4 => exact ⟨_, .deliver r m ms k ks h1 h2 h3 h4⟩
  have hquiet : ∃ m, N ≤ m ∧ ∀ l', ¬ HangRemote size parts hangs (run m) l' := by
    by_contra hc
    push Not at hc
    obtain ⟨m, hm, hrem⟩ := fair N hc
    have h1 := (HangStep.remote hrem).todo hp (hr m)
    have h2 := ht m
    rw [hN m hm] at h2
    simp at h1 h2
    omega
  obtain ⟨m0, hm0, hq0⟩ := hquiet
  have hq : ∀ d, ∀ l', ¬ HangRemote size parts hangs (run (m0 + d)) l' := by
    intro d
    induction d with
    | zero => exact hq0
    | succ d ih =>
      intro l' hl'
      obtain ⟨c, hc⟩ := hsame (m0 + d) (by omega) l' hl'
      exact ih c hc
  refine ⟨m0, fun n hn => ?_⟩
  obtain ⟨d, rfl⟩ := Nat.exists_eq_add_of_le hn
  refine settled_of_stuck hp (hr _) (hq d) ?_ ?_
  · intro e he hpo
    obtain ⟨q, hq1, hq2⟩ := List.mem_iff_getElem.1 he
    have up : ∀ k m pos next, N ≤ m → (run m).s.exps[q]? = some e → (run m).s.posted e.rank = [] → (run m).s.loc = .scan pos next →
        pos ≤ q → q - pos = k → False := by
      intro k
      induction k with
      | zero =>
        intro m pos next hm hx hpo hl hle hk
        obtain rfl : pos = q := by omega
        obtain ⟨pos', next', hl', ⟨e', hx', hin, _⟩ | ⟨hx', _⟩⟩ := hscan m hm
        · rw [hl] at hl'; cases hl'
          rw [hx] at hx'; cases hx'
          rw [hpo] at hin; cases hin
        · rw [hl] at hl'; cases hl'
          rw [hx] at hx'; cases hx'
      | succ k ih =>
        intro m pos next hm hx hpo hl hle hk
        obtain ⟨pos', next', hl', ⟨e', hx', hin, he'⟩ | ⟨hx', _⟩⟩ := hscan m hm
        · rw [hl] at hl'; cases hl'
          refine ih (m + 1) (pos + 1) next (by omega) ?_ ?_ ?_ (by omega) (by omega) <;> rw [he']
          · exact hx
          · exact hpo
        · rw [hl] at hl'; cases hl'
          rw [List.getElem?_eq_none_iff] at hx'
          have := (List.getElem?_eq_some_iff.1 hx).1
          omega
    have all : ∀ k m pos next, N ≤ m → (run m).s.exps[q]? = some e → (run m).s.posted e.rank = [] → (run m).s.loc = .scan pos next →
        (run m).s.exps.length - pos = k → False := by
      intro k
      induction k with
      | zero =>
        intro m pos next hm hx hpo hl hk
        obtain ⟨pos', next', hl', ⟨e', hx', _⟩ | ⟨_, he'⟩⟩ := hscan m hm
        · rw [hl] at hl'; cases hl'
          have := (List.getElem?_eq_some_iff.1 hx').1
          omega
        · refine up _ (m + 1) 0 next' (by omega) ?_ ?_ ?_ (by omega) rfl <;> rw [he']
          · exact hx
          · exact hpo
      | succ k ih =>
        intro m pos next hm hx hpo hl hk
        obtain ⟨pos', next', hl', ⟨e', hx', _, he'⟩ | ⟨hx', _⟩⟩ := hscan m hm
        · rw [hl] at hl'; cases hl'
          refine ih (m + 1) (pos + 1) next (by omega) ?_ ?_ ?_ ?_ <;> rw [he']
          · exact hx
          · exact hpo
          · simp only; omega
        · rw [hl] at hl'; cases hl'
          rw [List.getElem?_eq_none_iff] at hx'
          omega
    obtain ⟨pos, next, hl, _⟩ := hscan (m0 + d) (by omega)
    exact all _ (m0 + d) pos next (by omega) (by rw [List.getElem?_eq_getElem hq1, hq2]) hpo hl rfl
  · intro i cur first hl
    obtain ⟨pos, next, hl', _⟩ := hscan (m0 + d) (by omega)
    rw [hl] at hl'; cases hl'

/-! ## Non-vacuity: three processes, tasks 5, 0, 7 of which 0 hangs -/

theorem HangRun.reach {l l' : Hang T M} (h : HangRun size parts hangs l l') (hr : HangReach size parts hangs l) : HangReach size parts hangs l' := by
  induction h with
  | refl => exact hr
  | head hs _ ih => exact ih (hr.step hs)

theorem HangRun.batch {l l' : Hang T M} (h : HangRun size parts hangs l l') : l'.s.batch = l.s.batch := by
  induction h with
  | refl => rfl
  | head hs _ ih =>
    rw [ih]
    cases hs with
    | server hs => cases hs <;> rfl
    | remote hs => cases hs <;> rfl

/-- On two workers the tasks 5 and 7 are answered although 0 between them hangs; the call has not returned. -/
theorem C98_example : ∃ l : Hang Nat Nat, HangReach 3 exParts (fun t => t == 0) l ∧ l.s.batch = [5, 0, 7] ∧ l.s.loc ≠ .idle ∧
    l.s.got 0 = [5, 25] ∧ l.s.got 2 = [7, 49] ∧ l.s.perf.count 1 = 1 := by
  have hp : ∀ t, exParts t ≠ [] := by simp [exParts]
  have h1 : HangReach 3 exParts (fun t => t == 0) _ := HangReach.call .init (Call.doTasks [5, 0, 7] rfl (by omega))
  obtain ⟨l, hrun, hset⟩ := C98_can_settle hp h1
  have hb : l.s.batch = [5, 0, 7] := hrun.batch
  have hr := hrun.reach h1
  refine ⟨l, hr, hb, fun hidle => ?_, (hset 0 5 (by simp [hb]) (by simp)).2 rfl, (hset 2 7 (by simp [hb]) (by simp [hb])).2 rfl,
    (hset 1 0 (by simp [hb]) (by simp [hb])).1⟩
  have := C98_no_return hp hr hidle 0 (by simp [hb])
  simp at this

/-- With the first two tasks hanging on two workers, the third is never performed. -/
theorem C98_example_blocked {l : Hang Nat Nat} (h : HangReach 3 exParts (fun t => t == 0) l) (hb : l.s.batch = [0, 0, 7]) :
    l.s.perf.count 2 = 0 ∧ l.s.got 2 = [] :=
  (C98_blocked (by simp [exParts]) h 2 (by simp [hb])).2 (by simp [hb])

end K52.Mpi
