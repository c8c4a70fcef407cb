import Verif.Model.MpiPool
import Mathlib.Data.List.Count
import Mathlib.Data.List.Basic
import Mathlib.Data.List.Nodup
import Mathlib.Tactic.Ring

set_option linter.unusedSectionVars false

namespace K52.Mpi
variable {T M : Type}

/-- Number of tasks sent so far in the current call. -/
def sentN (n : Nat) : Loc → Nat
  | .idle => n
  | .send i _ _ => i
  | .scan _ (some i) => i
  | .scan _ none => n

/-- What holds of an expectation, with the task it belongs to. -/
structure ExpOK (size : Nat) (parts : T → List M) (s : S T M) (e : Exp) (t : T) : Prop where
  lo : 1 ≤ e.rank
  hi : e.rank < size
  task : s.batch[e.slot]? = some t
  flow : s.got e.slot ++ s.out e.rank ++ s.work e.rank ++ (s.inbox e.rank).flatMap (fun m => parts m.task) = parts t
  calls : e.left + (s.posted e.rank).length + (s.got e.slot).length = (parts t).length
  post : s.posted e.rank = [] ∨ s.posted e.rank = [e.slot]
  perf : (s.inbox e.rank = [] ∧ s.perf.count e.slot = 1) ∨ (s.inbox e.rank = [⟨e.slot, t⟩] ∧ s.perf.count e.slot = 0)

theorem ExpOK.frame {size : Nat} {parts : T → List M} {s s' : S T M} {e : Exp} {t : T} (h : ExpOK size parts s e t)
    (hb : s'.batch = s.batch) (h1 : s'.inbox e.rank = s.inbox e.rank) (h2 : s'.work e.rank = s.work e.rank)
    (h3 : s'.out e.rank = s.out e.rank) (h4 : s'.posted e.rank = s.posted e.rank) (h5 : s'.got e.slot = s.got e.slot)
    (h6 : s'.perf.count e.slot = s.perf.count e.slot) : ExpOK size parts s' e t :=
  ⟨h.lo, h.hi, by rw [hb]; exact h.task, by rw [h1, h2, h3, h5]; exact h.flow, by rw [h4, h5]; exact h.calls,
    by rw [h4]; exact h.post, by rw [h1, h6]; exact h.perf⟩

/-- What holds at each program point of the server. -/
def LocOK (size : Nat) (exps : List Exp) : Loc → Prop
  | .idle => exps = []
  | .send _ cur first => 1 ≤ cur ∧ cur < size ∧ (first = false → ∀ e ∈ exps, e.rank < cur) ∧ ∀ e ∈ exps, e.rank ≠ cur
  | .scan _ _ => exps ≠ []

structure Inv (size : Nat) (parts : T → List M) (s : S T M) : Prop where
  exp : ∀ e ∈ s.exps, ∃ t, ExpOK size parts s e t
  free : ∀ r, (∀ e ∈ s.exps, e.rank ≠ r) → s.inbox r = [] ∧ s.work r = [] ∧ s.out r = [] ∧ s.posted r = []
  ranks : s.exps.Pairwise (fun a b => a.rank ≠ b.rank)
  slots : s.exps.Pairwise (fun a b => a.slot ≠ b.slot)
  bound : sentN s.batch.length s.loc ≤ s.batch.length
  sent : ∀ e ∈ s.exps, e.slot < sentN s.batch.length s.loc
  done : ∀ k, k < sentN s.batch.length s.loc → (∀ e ∈ s.exps, e.slot ≠ k) →
    (∃ t, s.batch[k]? = some t ∧ s.got k = parts t) ∧ s.perf.count k = 1
  unsent : ∀ k, sentN s.batch.length s.loc ≤ k → s.got k = [] ∧ s.perf.count k = 0
  stats : s.stats.length + s.exps.length = sentN s.batch.length s.loc
  loc : LocOK size s.exps s.loc

theorem Inv.init (size : Nat) (parts : T → List M) : Inv size parts (S.init T M) where
  exp := by simp [S.init]
  free := by simp [S.init]
  ranks := by simp [S.init]
  slots := by simp [S.init]
  bound := by simp [S.init, sentN]
  sent := by simp [S.init]
  done := by simp [S.init, sentN]
  unsent := by simp [S.init]
  stats := by simp [S.init, sentN]
  loc := by simp [S.init, LocOK]

theorem Inv.call {size : Nat} {parts : T → List M} {s s' : S T M} (h : Inv size parts s) (hc : Call size s s') : Inv size parts s' := by
  cases hc with
  | doTasks tasks hl hsz =>
    have he : s.exps = [] := by have := h.loc; rw [hl] at this; exact this
    refine ⟨by simp [he], ?_, by simp [he], by simp [he], by simp [sentN], by simp [he], by simp [sentN], by simp, by simp [he, sentN], ?_⟩
    · intro r _; exact h.free r (by simp [he])
    · simp only [LocOK, he]; exact ⟨by simp, by omega, by simp, by simp⟩

theorem pairwise_ne_of_mem {α β : Type} {l : List α} {f : α → β} (h : l.Pairwise (fun a b => f a ≠ f b)) {a b : α} (ha : a ∈ l)
    (hb : b ∈ l) (he : f a = f b) : a = b := by
  induction l with
  | nil => simp at ha
  | cons x l ih =>
    obtain ⟨h1, h2⟩ := List.pairwise_cons.1 h
    rcases List.mem_cons.1 ha with e1 | ha1
    · rcases List.mem_cons.1 hb with e2 | hb1
      · rw [e1, e2]
      · exact absurd (e1 ▸ he) (h1 b hb1)
    · rcases List.mem_cons.1 hb with e2 | hb1
      · exact absurd (e2 ▸ he.symm) (h1 a ha1)
      · exact ih h2 ha1 hb1

theorem exp_of_busy {size : Nat} {parts : T → List M} {s : S T M} (h : Inv size parts s) (r : Nat)
    (hb : s.inbox r ≠ [] ∨ s.work r ≠ [] ∨ s.out r ≠ [] ∨ s.posted r ≠ []) : ∃ e ∈ s.exps, e.rank = r := by
  by_contra hc
  push Not at hc
  obtain ⟨h1, h2, h3, h4⟩ := h.free r hc
  simp [h1, h2, h3, h4] at hb

theorem Inv.receive {size : Nat} {parts : T → List M} {s : S T M} (h : Inv size parts s) (r : Nat) (m : Msg T) (ms : List (Msg T))
    (hw : s.work r = []) (hi : s.inbox r = m :: ms) :
    Inv size parts { s with
        inbox := Function.update s.inbox r ms
        work := Function.update s.work r (parts m.task)
        perf := s.perf ++ [m.slot] } := by
  obtain ⟨e, he, rfl⟩ := exp_of_busy h r (by simp [hi])
  obtain ⟨t, ok⟩ := h.exp e he
  obtain ⟨hi2, hc⟩ : s.inbox e.rank = [⟨e.slot, t⟩] ∧ s.perf.count e.slot = 0 := by
    rcases ok.perf with ⟨h1, _⟩ | h1
    · rw [hi] at h1; cases h1
    · exact h1
  rw [hi2] at hi
  cases hi
  have hflow := ok.flow
  rw [hw, hi2] at hflow
  have hcount : ∀ k, k ≠ e.slot → (s.perf ++ [e.slot]).count k = s.perf.count k := by
    intro k hk
    rw [List.count_append, List.count_singleton]
    simp [Ne.symm hk]
  refine ⟨?_, ?_, h.ranks, h.slots, h.bound, h.sent, ?_, ?_, h.stats, h.loc⟩
  · intro e' he'
    by_cases hr : e'.rank = e.rank
    · have : e' = e := pairwise_ne_of_mem h.ranks he' he hr
      subst this
      refine ⟨t, ok.lo, ok.hi, ok.task, ?_, ok.calls, ok.post, .inl ⟨?_, ?_⟩⟩
      · simp only [Function.update_self, List.flatMap_nil, List.append_nil]
        simpa using hflow
      · simp
      · simp only [List.count_append, hc]; simp
    · have hs : e'.slot ≠ e.slot := fun hs => hr (by rw [pairwise_ne_of_mem h.slots he' he hs])
      obtain ⟨t', ok'⟩ := h.exp e' he'
      exact ⟨t', ok'.frame rfl (Function.update_of_ne hr _ _) (Function.update_of_ne hr _ _) rfl rfl rfl (hcount _ hs)⟩
  · intro r hr
    have hne : r ≠ e.rank := fun hc => hr e he hc.symm
    simp only [Function.update_of_ne hne]
    exact h.free r hr
  · intro k hk hno
    have hne : k ≠ e.slot := fun hc => hno e he hc.symm
    simp only [hcount k hne]
    exact h.done k hk hno
  · intro k hk
    have hne : k ≠ e.slot := fun hc => by have := h.sent e he; simp only at hk; omega
    simp only [hcount k hne]
    exact h.unsent k hk

theorem Inv.reply {size : Nat} {parts : T → List M} {s : S T M} (h : Inv size parts s) (r : Nat) (m : M) (ms : List M)
    (hw : s.work r = m :: ms) :
    Inv size parts { s with
        work := Function.update s.work r ms
        out := Function.update s.out r (s.out r ++ [m]) } := by
  obtain ⟨e, he, rfl⟩ := exp_of_busy h r (by simp [hw])
  obtain ⟨t, ok⟩ := h.exp e he
  have hflow := ok.flow
  rw [hw] at hflow
  refine ⟨?_, ?_, h.ranks, h.slots, h.bound, h.sent, h.done, h.unsent, h.stats, h.loc⟩
  · intro e' he'
    by_cases hr : e'.rank = e.rank
    · have : e' = e := pairwise_ne_of_mem h.ranks he' he hr
      subst this
      refine ⟨t, ok.lo, ok.hi, ok.task, ?_, ok.calls, ok.post, ok.perf⟩
      simp only [Function.update_self]
      simpa using hflow
    · obtain ⟨t', ok'⟩ := h.exp e' he'
      exact ⟨t', ok'.frame rfl rfl (Function.update_of_ne hr _ _) (Function.update_of_ne hr _ _) rfl rfl rfl⟩
  · intro r hr
    have hne : r ≠ e.rank := fun hc => hr e he hc.symm
    simp only [Function.update_of_ne hne]
    exact h.free r hr

theorem Inv.deliver {size : Nat} {parts : T → List M} {s : S T M} (h : Inv size parts s) (r : Nat) (m : M) (ms : List M)
    (k : Nat) (ks : List Nat) (ho : s.out r = m :: ms) (hp : s.posted r = k :: ks) :
    Inv size parts { s with
        out := Function.update s.out r ms
        posted := Function.update s.posted r ks
        got := Function.update s.got k (s.got k ++ [m]) } := by
  obtain ⟨e, he, rfl⟩ := exp_of_busy h r (by simp [ho])
  obtain ⟨t, ok⟩ := h.exp e he
  obtain ⟨rfl, rfl⟩ : k = e.slot ∧ ks = [] := by
    rcases ok.post with h1 | h1
    · rw [hp] at h1; cases h1
    · rw [hp] at h1; simpa using h1
  have hflow := ok.flow
  rw [ho] at hflow
  have hcalls := ok.calls
  rw [hp] at hcalls
  refine ⟨?_, ?_, h.ranks, h.slots, h.bound, h.sent, ?_, ?_, h.stats, h.loc⟩
  · intro e' he'
    by_cases hr : e'.rank = e.rank
    · have : e' = e := pairwise_ne_of_mem h.ranks he' he hr
      subst this
      refine ⟨t, ok.lo, ok.hi, ok.task, ?_, ?_, ?_, ok.perf⟩
      · simp only [Function.update_self]
        simpa using hflow
      · simp only [Function.update_self, List.length_append, List.length_nil, List.length_cons] at hcalls ⊢
        omega
      · simp
    · have hs : e'.slot ≠ e.slot := fun hs => hr (by rw [pairwise_ne_of_mem h.slots he' he hs])
      obtain ⟨t', ok'⟩ := h.exp e' he'
      exact ⟨t', ok'.frame rfl rfl rfl (Function.update_of_ne hr _ _) (Function.update_of_ne hr _ _) (Function.update_of_ne hs _ _) rfl⟩
  · intro r hr
    have hne : r ≠ e.rank := fun hc => hr e he hc.symm
    simp only [Function.update_of_ne hne]
    exact h.free r hr
  · intro k hk hno
    have hne : k ≠ e.slot := fun hc => hno e he hc.symm
    simp only [Function.update_of_ne hne]
    exact h.done k hk hno
  · intro k hk
    have hne : k ≠ e.slot := fun hc => by have := h.sent e he; simp only at hk; omega
    simp only [Function.update_of_ne hne]
    exact h.unsent k hk

theorem Inv.remote {size : Nat} {parts : T → List M} {s s' : S T M} (h : Inv size parts s) (hr : Remote size parts s s') :
    Inv size parts s' := by
  cases hr with
  | receive r m ms _ _ hw hi => exact h.receive r m ms hw hi
  | reply r m ms _ _ hw => exact h.reply r m ms hw
  | deliver r m ms k ks _ _ ho hp => exact h.deliver r m ms k ks ho hp

theorem sentN_afterSend (n size i cur : Nat) (first : Bool) : sentN n (afterSend size i cur first) = i + 1 := by
  unfold afterSend
  split
  · rfl
  · split <;> rfl

theorem sentN_drain (n : Nat) (l : List Exp) : sentN n (drain l) = n := by
  unfold drain; split <;> rfl

theorem sentN_afterPop (n : Nat) (l : List Exp) (rank pos : Nat) (next : Option Nat) :
    sentN n (afterPop l rank next) = sentN n (.scan pos next) := by
  cases next with
  | none => exact sentN_drain n l
  | some i => rfl

theorem locOK_drain (size : Nat) (l : List Exp) : LocOK size l (drain l) := by
  unfold drain
  split
  · next h => simpa [LocOK] using h
  · next h => simpa [LocOK] using h

theorem Inv.sendTask {size : Nat} {parts : T → List M} (hp : ∀ t, parts t ≠ []) {s : S T M} (h : Inv size parts s) (i cur : Nat)
    (first : Bool) (t : T) (hl : s.loc = .send i cur first) (ht : s.batch[i]? = some t) :
    Inv size parts { s with
        loc := afterSend size i cur first
        inbox := Function.update s.inbox cur (s.inbox cur ++ [⟨i, t⟩])
        posted := Function.update s.posted cur (s.posted cur ++ [i])
        exps := s.exps ++ [⟨cur, i, (parts t).length - 1⟩] } := by
  have hloc := h.loc
  rw [hl] at hloc
  obtain ⟨hlo, hhi, hfirst, hne⟩ := hloc
  obtain ⟨f1, f2, f3, f4⟩ := h.free cur hne
  have hs : sentN s.batch.length s.loc = i := by rw [hl]; rfl
  obtain ⟨u1, u2⟩ := h.unsent i (by omega)
  have hin : i < s.batch.length := by
    rcases Nat.lt_or_ge i s.batch.length with hlt | hge
    · exact hlt
    · rw [List.getElem?_eq_none hge] at ht; cases ht
  have hpos : 0 < (parts t).length := List.length_pos_iff.2 (hp t)
  have hsent := h.sent
  have hdone := h.done
  have hunsent := h.unsent
  have hstats := h.stats
  rw [hs] at hsent hdone hunsent hstats
  constructor
  · intro e he
    simp only [List.mem_append, List.mem_singleton] at he
    rcases he with he | rfl
    · obtain ⟨t', ok⟩ := h.exp e he
      have hr := hne e he
      exact ⟨t', ok.frame rfl (Function.update_of_ne hr _ _) rfl rfl (Function.update_of_ne hr _ _) rfl rfl⟩
    · refine ⟨t, hlo, hhi, ht, ?_, ?_, ?_, ?_⟩
      · simp [f1, f2, f3, u1]
      · simp only [Function.update_self, f4, u1]; simp; omega
      · simp [f4]
      · simp [f1, u2]
  · intro r hr
    have hr' : r ≠ cur := fun hc => hr ⟨cur, i, (parts t).length - 1⟩ (by simp) hc.symm
    simp only [Function.update_of_ne hr']
    exact h.free r (fun e he => hr e (by simp [he]))
  · simp only [List.pairwise_append]
    refine ⟨h.ranks, by simp, ?_⟩
    intro a ha b hb
    simp only [List.mem_singleton] at hb
    subst hb
    exact hne a ha
  · simp only [List.pairwise_append]
    refine ⟨h.slots, by simp, ?_⟩
    intro a ha b hb
    simp only [List.mem_singleton] at hb
    subst hb
    have := hsent a ha
    simp only; omega
  · simp only [sentN_afterSend]; omega
  · intro e he
    simp only [sentN_afterSend]
    simp only [List.mem_append, List.mem_singleton] at he
    rcases he with he | rfl
    · have := hsent e he; omega
    · simp
  · intro k hk hno
    simp only [sentN_afterSend] at hk
    have hki : k ≠ i := fun hc => hno ⟨cur, i, (parts t).length - 1⟩ (by simp) hc.symm
    exact hdone k (by omega) (fun e he => hno e (by simp [he]))
  · intro k hk
    simp only [sentN_afterSend] at hk
    exact hunsent k (by omega)
  · simp only [sentN_afterSend, List.length_append, List.length_singleton]; omega
  · simp only
    unfold afterSend
    split
    · simp [LocOK]
    · split
      · simp [LocOK]
      · next hf hsz =>
        have hf' : first = false := by simpa using hf
        have hlt : ∀ e ∈ s.exps ++ [⟨cur, i, (parts t).length - 1⟩], e.rank < cur + 1 := by
          intro e he
          simp only [List.mem_append, List.mem_singleton] at he
          rcases he with he | rfl
          · have := hfirst hf' e he; omega
          · simp
        refine ⟨by omega, by omega, fun _ => hlt, ?_⟩
        intro e he
        have := hlt e he
        omega

theorem Inv.sendEnd {size : Nat} {parts : T → List M} {s : S T M} (h : Inv size parts s) (i cur : Nat)
    (first : Bool) (hl : s.loc = .send i cur first) (ht : s.batch[i]? = none) :
    Inv size parts { s with loc := drain s.exps } := by
  have hs : sentN s.batch.length s.loc = i := by rw [hl]; rfl
  have hi : i = s.batch.length := by
    have h1 := h.bound
    have h2 := List.getElem?_eq_none_iff.1 ht
    omega
  have e : sentN s.batch.length (drain s.exps) = sentN s.batch.length s.loc := by rw [sentN_drain, hs, hi]
  exact { exp := fun e' he' => by obtain ⟨t, ok⟩ := h.exp e' he'; exact ⟨t, ok.frame rfl rfl rfl rfl rfl rfl rfl⟩
          free := h.free, ranks := h.ranks, slots := h.slots
          bound := by simp only [e]; exact h.bound
          sent := by simp only [e]; exact h.sent
          done := by simp only [e]; exact h.done
          unsent := by simp only [e]; exact h.unsent
          stats := by simp only [e]; exact h.stats
          loc := locOK_drain size s.exps }

theorem Inv.move {size : Nat} {parts : T → List M} {s : S T M} (h : Inv size parts s) (l : Loc)
    (e : sentN s.batch.length l = sentN s.batch.length s.loc) (hl : LocOK size s.exps l) : Inv size parts { s with loc := l } :=
  { exp := fun e' he' => by obtain ⟨t, ok⟩ := h.exp e' he'; exact ⟨t, ok.frame rfl rfl rfl rfl rfl rfl rfl⟩
    free := h.free, ranks := h.ranks, slots := h.slots
    bound := by simp only [e]; exact h.bound
    sent := by simp only [e]; exact h.sent
    done := by simp only [e]; exact h.done
    unsent := by simp only [e]; exact h.unsent
    stats := by simp only [e]; exact h.stats
    loc := hl }

theorem sentN_scan (n pos pos' : Nat) (next : Option Nat) : sentN n (.scan pos next) = sentN n (.scan pos' next) := by
  cases next <;> rfl

theorem mem_set_iff {l : List Exp} {pos : Nat} {e e1 x : Exp} (hn : l.Pairwise (fun a b => a.rank ≠ b.rank))
    (he : l[pos]? = some e) : x ∈ l.set pos e1 ↔ x = e1 ∨ (x ∈ l ∧ x.rank ≠ e.rank) := by
  have hlt : pos < l.length := by
    rcases Nat.lt_or_ge pos l.length with h | h
    · exact h
    · rw [List.getElem?_eq_none h] at he; cases he
  have hget : l[pos] = e := by rw [List.getElem?_eq_getElem hlt] at he; simpa using he
  constructor
  · intro hx
    obtain ⟨j, hj, rfl⟩ := List.mem_iff_getElem.1 hx
    simp only [List.length_set] at hj
    rw [List.getElem_set]
    split
    · exact .inl rfl
    · next hne =>
      refine .inr ⟨List.getElem_mem _, ?_⟩
      intro hr
      have h1 : l[j] = l[pos] := pairwise_ne_of_mem hn (List.getElem_mem _) (List.getElem_mem _) (by rw [hget]; exact hr)
      rcases Nat.lt_trichotomy j pos with h | h | h
      · exact List.pairwise_iff_getElem.1 hn j pos _ _ h (by rw [h1])
      · exact hne h.symm
      · exact List.pairwise_iff_getElem.1 hn pos j _ _ h (by rw [h1])
  · rintro (rfl | ⟨hx, hne⟩)
    · exact List.mem_iff_getElem.2 ⟨pos, by simpa using hlt, by simp⟩
    · obtain ⟨j, hj, rfl⟩ := List.mem_iff_getElem.1 hx
      refine List.mem_iff_getElem.2 ⟨j, by simpa using hj, ?_⟩
      rw [List.getElem_set, if_neg]
      rintro rfl
      rw [hget] at hne
      exact hne rfl

theorem pairwise_set {l : List Exp} {pos : Nat} {e e1 : Exp} (f : Exp → Nat) (hf : f e1 = f e) (he : l[pos]? = some e)
    (h : l.Pairwise (fun a b => f a ≠ f b)) : (l.set pos e1).Pairwise (fun a b => f a ≠ f b) := by
  have hm : (l.set pos e1).map f = l.map f := by
    apply List.ext_getElem (by simp)
    intro j h1 h2
    simp only [List.getElem_map, List.getElem_set]
    split
    · next hj =>
      subst hj
      have hlt : pos < l.length := by simpa using h2
      rw [List.getElem?_eq_getElem hlt] at he
      simp only [Option.some.injEq] at he
      rw [he]; exact hf
    · rfl
  have h1 : (l.map f).Pairwise (· ≠ ·) := List.pairwise_map.2 h
  rw [← hm] at h1
  exact List.pairwise_map.1 h1

theorem Inv.scanNext {size : Nat} {parts : T → List M} {s : S T M} (h : Inv size parts s) (pos : Nat) (next : Option Nat) (e : Exp) (l : Nat)
    (hl : s.loc = .scan pos next) (he : s.exps[pos]? = some e) (hnp : e.slot ∉ s.posted e.rank) (hleft : e.left = l + 1) :
    Inv size parts { s with
        loc := .scan (pos + 1) next
        posted := Function.update s.posted e.rank (s.posted e.rank ++ [e.slot])
        exps := s.exps.set pos { e with left := l } } := by
  have hmem : e ∈ s.exps := List.mem_of_getElem? he
  obtain ⟨t, ok⟩ := h.exp e hmem
  have hpost : s.posted e.rank = [] := by
    rcases ok.post with h1 | h1
    · exact h1
    · rw [h1] at hnp; simp at hnp
  have hsn : sentN s.batch.length (.scan (pos + 1) next) = sentN s.batch.length s.loc := by rw [hl]; exact sentN_scan _ _ _ _
  have hm := fun x => mem_set_iff (e1 := { e with left := l }) (x := x) h.ranks he
  have hslot : ∀ k, (∀ x ∈ s.exps.set pos { e with left := l }, x.slot ≠ k) → ∀ x ∈ s.exps, x.slot ≠ k := by
    intro k hk x hx
    by_cases hr : x.rank = e.rank
    · have := pairwise_ne_of_mem h.ranks hx hmem hr
      subst this
      exact hk { x with left := l } ((hm _).2 (.inl rfl))
    · exact hk x ((hm _).2 (.inr ⟨hx, hr⟩))
  constructor
  · intro x hx
    rcases (hm x).1 hx with rfl | ⟨hx, hr⟩
    · have hc := ok.calls
      rw [hpost, hleft] at hc
      refine ⟨t, ok.lo, ok.hi, ok.task, ok.flow, ?_, ?_, ok.perf⟩
      · simp only [Function.update_self, hpost]; simp at hc ⊢; omega
      · simp [hpost]
    · obtain ⟨t', ok'⟩ := h.exp x hx
      exact ⟨t', ok'.frame rfl rfl rfl rfl (Function.update_of_ne hr _ _) rfl rfl⟩
  · intro r hr
    have hne : r ≠ e.rank := fun hc => hr _ ((hm _).2 (.inl rfl)) hc.symm
    simp only [Function.update_of_ne hne]
    refine h.free r (fun x hx hc => ?_)
    exact hr x ((hm x).2 (.inr ⟨hx, by rw [hc]; exact hne⟩)) hc
  · exact pairwise_set (e := e) (e1 := { e with left := l }) (fun x => x.rank) rfl he h.ranks
  · exact pairwise_set (e := e) (e1 := { e with left := l }) (fun x => x.slot) rfl he h.slots
  · simp only [hsn]; exact h.bound
  · intro x hx
    simp only [hsn]
    rcases (hm x).1 hx with rfl | ⟨hx, _⟩
    · exact h.sent e hmem
    · exact h.sent x hx
  · intro k hk hno
    simp only [hsn] at hk
    exact h.done k hk (hslot k hno)
  · intro k hk
    simp only [hsn] at hk
    exact h.unsent k hk
  · simp only [hsn, List.length_set]; exact h.stats
  · have := h.loc
    rw [hl] at this
    simp only [LocOK] at this ⊢
    intro hc
    rw [List.set_eq_nil_iff] at hc
    exact this hc

theorem mem_erase_iff {l : List Exp} {pos : Nat} {e x : Exp} (hn : l.Pairwise (fun a b => a.rank ≠ b.rank))
    (he : l[pos]? = some e) : x ∈ l.eraseIdx pos ↔ x ∈ l ∧ x.rank ≠ e.rank := by
  have hlt : pos < l.length := by
    rcases Nat.lt_or_ge pos l.length with h | h
    · exact h
    · rw [List.getElem?_eq_none h] at he; cases he
  have hget : l[pos] = e := by rw [List.getElem?_eq_getElem hlt] at he; simpa using he
  rw [List.mem_eraseIdx_iff_getElem]
  constructor
  · rintro ⟨j, hj, hne, rfl⟩
    refine ⟨List.getElem_mem _, ?_⟩
    intro hr
    have h1 : l[j] = l[pos] := pairwise_ne_of_mem hn (List.getElem_mem _) (List.getElem_mem _) (by rw [hget]; exact hr)
    rcases Nat.lt_trichotomy j pos with h | h | h
    · exact List.pairwise_iff_getElem.1 hn j pos _ _ h (by rw [h1])
    · exact hne h
    · exact List.pairwise_iff_getElem.1 hn pos j _ _ h (by rw [h1])
  · rintro ⟨hx, hr⟩
    obtain ⟨j, hj, rfl⟩ := List.mem_iff_getElem.1 hx
    refine ⟨j, hj, ?_, rfl⟩
    rintro rfl
    rw [hget] at hr
    exact hr rfl

theorem ExpOK.finished {size : Nat} {parts : T → List M} {s : S T M} {e : Exp} {t : T} (ok : ExpOK size parts s e t)
    (hp : parts t ≠ []) (hpost : s.posted e.rank = []) (hleft : e.left = 0) :
    s.got e.slot = parts t ∧ s.out e.rank = [] ∧ s.work e.rank = [] ∧ s.inbox e.rank = [] ∧ s.perf.count e.slot = 1 := by
  have hc := ok.calls
  rw [hpost, hleft] at hc
  simp only [List.length_nil, Nat.zero_add] at hc
  have hf := ok.flow
  have hlen := congrArg List.length hf
  simp only [List.length_append] at hlen
  have h1 : s.out e.rank = [] := List.length_eq_zero_iff.1 (by omega)
  have h2 : s.work e.rank = [] := List.length_eq_zero_iff.1 (by omega)
  have h3 : (s.inbox e.rank).flatMap (fun m => parts m.task) = [] := List.length_eq_zero_iff.1 (by omega)
  rcases ok.perf with ⟨h4, h5⟩ | ⟨h4, _⟩
  · refine ⟨?_, h1, h2, h4, h5⟩
    rw [h1, h2, h3] at hf; simpa using hf
  · rw [h4] at h3
    simp only [List.flatMap_cons, List.flatMap_nil, List.append_nil] at h3
    exact absurd h3 hp

theorem Inv.scanPop {size : Nat} {parts : T → List M} (hp : ∀ t, parts t ≠ []) {s : S T M} (h : Inv size parts s) (pos : Nat) (next : Option Nat)
    (e : Exp) (hl : s.loc = .scan pos next) (he : s.exps[pos]? = some e) (hnp : e.slot ∉ s.posted e.rank) (hleft : e.left = 0) :
    Inv size parts { s with
        loc := afterPop (s.exps.eraseIdx pos) e.rank next
        exps := s.exps.eraseIdx pos
        stats := s.stats ++ [e.rank] } := by
  have hmem : e ∈ s.exps := List.mem_of_getElem? he
  obtain ⟨t, ok⟩ := h.exp e hmem
  have hpost : s.posted e.rank = [] := by
    rcases ok.post with h1 | h1
    · exact h1
    · rw [h1] at hnp; simp at hnp
  obtain ⟨d1, d2, d3, d4, d5⟩ := ok.finished (hp t) hpost hleft
  have hsn : sentN s.batch.length (afterPop (s.exps.eraseIdx pos) e.rank next) = sentN s.batch.length s.loc := by
    rw [hl]; exact sentN_afterPop _ _ _ _ _
  have hm := fun x => mem_erase_iff (x := x) h.ranks he
  have hlt : pos < s.exps.length := by
    rcases Nat.lt_or_ge pos s.exps.length with h | h
    · exact h
    · rw [List.getElem?_eq_none h] at he; cases he
  constructor
  · intro x hx
    obtain ⟨t', ok'⟩ := h.exp x ((hm x).1 hx).1
    exact ⟨t', ok'.frame rfl rfl rfl rfl rfl rfl rfl⟩
  · intro r hr
    by_cases hre : r = e.rank
    · subst hre; exact ⟨d4, d3, d2, hpost⟩
    · exact h.free r (fun x hx hc => hr x ((hm x).2 ⟨hx, by rw [hc]; exact hre⟩) hc)
  · exact h.ranks.sublist (List.eraseIdx_sublist _ _)
  · exact h.slots.sublist (List.eraseIdx_sublist _ _)
  · simp only [hsn]; exact h.bound
  · intro x hx
    simp only [hsn]
    exact h.sent x ((hm x).1 hx).1
  · intro k hk hno
    simp only [hsn] at hk
    by_cases hke : k = e.slot
    · subst hke; exact ⟨⟨t, ok.task, d1⟩, d5⟩
    · refine h.done k hk (fun x hx hc => ?_)
      refine hno x ((hm x).2 ⟨hx, fun hr => ?_⟩) hc
      have := pairwise_ne_of_mem h.ranks hx hmem hr
      subst this
      exact hke hc.symm
  · intro k hk
    simp only [hsn] at hk
    exact h.unsent k hk
  · simp only [hsn]
    have := h.stats
    rw [List.length_append, List.length_eraseIdx, if_pos hlt]
    simp only [List.length_singleton]
    omega
  · cases next with
    | none => exact locOK_drain size _
    | some i =>
      refine ⟨ok.lo, ok.hi, by simp, ?_⟩
      intro x hx
      exact ((hm x).1 hx).2

theorem Inv.server {size : Nat} {parts : T → List M} (hp : ∀ t, parts t ≠ []) {s s' : S T M} {b : Bool} (h : Inv size parts s)
    (hs : Server size parts b s s') : Inv size parts s' := by
  cases hs with
  | sendTask i cur first t hl ht => exact h.sendTask hp i cur first t hl ht
  | sendEnd i cur first hl ht => exact h.sendEnd i cur first hl ht
  | scanPending pos next e hl he hpo =>
    refine h.move _ (by rw [hl]; exact sentN_scan _ _ _ _) ?_
    have := h.loc
    rw [hl] at this
    exact this
  | scanNext pos next e l hl he hnp hleft => exact h.scanNext pos next e l hl he hnp hleft
  | scanPop pos next e hl he hnp hleft => exact h.scanPop hp pos next e hl he hnp hleft
  | scanWrap pos next hl he =>
    refine h.move _ (by rw [hl]; exact sentN_scan _ _ _ _) ?_
    have := h.loc
    rw [hl] at this
    exact this

theorem Inv.step {size : Nat} {parts : T → List M} (hp : ∀ t, parts t ≠ []) {s s' : S T M} {b : Bool} (h : Inv size parts s)
    (hs : Step size parts b s s') : Inv size parts s' := by
  cases hs with
  | server hs => exact h.server hp hs
  | remote hs => exact h.remote hs

theorem inv_of_reach {size : Nat} {parts : T → List M} (hp : ∀ t, parts t ≠ []) {s : S T M} (h : Reach size parts s) : Inv size parts s := by
  induction h with
  | init => exact Inv.init size parts
  | step _ hs ih => exact ih.step hp hs
  | call _ hc ih => exact ih.call hc

end K52.Mpi
