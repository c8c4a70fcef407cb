import Verif.Model.MpiBlocking
import Verif.Props.MpiPool
import Verif.Props.Transfer

/-!
# C119: the MPI worker pool with results received by blocking calls

Hypothesis `hr : ∀ t, (parts t).length = 1 + ((rest t).map Kind.size).sum`: the calls of the chain ask for as many messages as the result's `Send`
produces (what `C33_result` says of the library's classes).
-/

namespace K52.Mpi
variable {T M : Type} {size : Nat} {parts : T → List M} {rest : T → List Kind}

/-- Messages the queued calls of a chain will ask for. -/
def asks (l : List Kind) : Nat := (l.map Kind.size).sum

/-- Is the server inside a blocking call for the result `k`? -/
def blockAt (b : Blk T M) (k : Nat) : Nat :=
  match b.s.loc with
  | .scan pos _ =>
    match b.s.exps[pos]? with
    | some e => if e.slot = k then b.block.getD 0 else 0
    | none => 0
  | _ => 0

structure BlkInv (size : Nat) (parts : T → List M) (rest : T → List Kind) (b : Blk T M) : Prop where
  inv : Inv size parts b.s
  left : ∀ e ∈ b.s.exps, e.left = asks (b.chain e.slot) + blockAt b e.slot
  suffix : ∀ e ∈ b.s.exps, ∀ t, b.s.batch[e.slot]? = some t → e.left + 1 ≤ (parts t).length
  block : b.block ≠ none → ∃ pos next e, b.s.loc = .scan pos next ∧ b.s.exps[pos]? = some e ∧ b.s.got e.slot ≠ []

theorem blockAt_none {b : Blk T M} (h : b.block = none) (k : Nat) : blockAt b k = 0 := by
  unfold blockAt
  split
  · split
    · simp [h]
    · rfl
  · rfl

theorem blockAt_some {b : Blk T M} {pos : Nat} {next : Option Nat} {e : Exp} (hl : b.s.loc = .scan pos next) (he : b.s.exps[pos]? = some e)
    (k : Nat) : blockAt b k = if e.slot = k then b.block.getD 0 else 0 := by
  unfold blockAt
  rw [hl]; simp only; rw [he]

theorem BlkInv.server (hp : ∀ t, (parts t).length = 1 + asks (rest t)) {l : Bool} {b b' : Blk T M} (h : BlkInv size parts rest b)
    (hs : BlkServer size parts rest l b b') : BlkInv size parts rest b' := by
  have hp' : ∀ t, parts t ≠ [] := fun t hc => by have := hp t; rw [hc] at this; simp at this; omega
  cases hs with
  | sendTask i cur first t hb hl ht =>
    have hslots : ∀ e ∈ b.s.exps, e.slot ≠ i := by
      intro e he hc
      have := h.inv.sent e he
      rw [hl] at this; simp only [sentN] at this; omega
    refine ⟨h.inv.sendTask hp' i cur first t hl ht, ?_, ?_, fun hc => absurd hb hc⟩
    · intro e he
      rw [blockAt_none (by exact hb)]
      simp only [List.mem_append, List.mem_singleton] at he
      rcases he with he | rfl
      · have := h.left e he
        rw [blockAt_none hb] at this
        simp only [Function.update_of_ne (hslots e he)]
        exact this
      · simp only [Function.update_self]
        have := hp t; omega
    · intro e he t' ht'
      simp only [List.mem_append, List.mem_singleton] at he
      rcases he with he | rfl
      · exact h.suffix e he t' ht'
      · simp only at ht' ⊢
        rw [ht] at ht'; cases ht'
        have := hp t; omega
  | sendEnd i cur first hb hl ht =>
    refine ⟨h.inv.sendEnd i cur first hl ht, ?_, h.suffix, fun hc => absurd hb hc⟩
    intro e he
    have := h.left e he
    rw [blockAt_none hb] at this
    rw [blockAt_none (by exact hb)]
    exact this
  | scanPending pos next e hb hl he hpo =>
    refine ⟨h.inv.server hp' (Server.scanPending pos next e hl he hpo), ?_, h.suffix, fun hc => absurd hb hc⟩
    intro e he
    have := h.left e he
    rw [blockAt_none hb] at this
    rw [blockAt_none (by exact hb)]
    exact this
  | scanAsync pos next e cs hb hl he hnp hch =>
    have hmem : e ∈ b.s.exps := List.mem_of_getElem? he
    have hle := h.left e hmem
    rw [blockAt_none hb, hch] at hle
    simp only [asks, List.map_cons, List.sum_cons, Kind.size] at hle
    refine ⟨h.inv.scanNext pos next e (e.left - 1) hl he hnp (by omega), ?_, ?_, fun hc => absurd hb hc⟩
    · intro x hx
      rw [blockAt_none (by exact hb)]
      rcases (mem_set_iff h.inv.ranks he).1 hx with rfl | ⟨hx, hr⟩
      · simp only [Function.update_self, asks]; omega
      · have hs : x.slot ≠ e.slot := fun hs => hr (by rw [pairwise_ne_of_mem h.inv.slots hx hmem hs])
        have := h.left x hx
        rw [blockAt_none hb] at this
        simp only [Function.update_of_ne hs]
        exact this
    · intro x hx t ht
      rcases (mem_set_iff h.inv.ranks he).1 hx with rfl | ⟨hx, hr⟩
      · have := h.suffix e hmem t ht
        simp only; omega
      · exact h.suffix x hx t ht
  | scanSync pos next e k cs hb hl he hnp hch =>
    have hmem : e ∈ b.s.exps := List.mem_of_getElem? he
    have hgot : b.s.got e.slot ≠ [] := by
      obtain ⟨t, ok⟩ := h.inv.exp e hmem
      have hpost : b.s.posted e.rank = [] := by
        rcases ok.post with h1 | h1
        · exact h1
        · rw [h1] at hnp; simp at hnp
      have h1 := h.suffix e hmem t ok.task
      have h2 := ok.calls
      rw [hpost] at h2
      intro hc
      rw [hc] at h2
      simp at h2
      omega
    refine ⟨h.inv, ?_, h.suffix, fun _ => ⟨pos, next, e, hl, he, hgot⟩⟩
    intro x hx
    have hlx := h.left x hx
    rw [blockAt_none hb] at hlx
    rw [blockAt_some (pos := pos) (next := next) (e := e) (by exact hl) (by exact he)]
    by_cases hs : x.slot = e.slot
    · rw [hs, hch] at hlx
      simp only [asks, List.map_cons, List.sum_cons, Kind.size] at hlx
      simp only [hs, Function.update_self, if_pos, asks, Option.getD_some]; omega
    · simp only [Function.update_of_ne hs, if_neg (Ne.symm hs)]; exact hlx
  | recvPost pos next e k hb hl he hnp =>
    have hmem : e ∈ b.s.exps := List.mem_of_getElem? he
    have hle := h.left e hmem
    rw [blockAt_some hl he, if_pos rfl, hb] at hle
    simp only [Option.getD_some] at hle
    have hlt : pos < b.s.exps.length := by
      rcases Nat.lt_or_ge pos b.s.exps.length with h | h
      · exact h
      · rw [List.getElem?_eq_none h] at he; cases he
    have hget : (b.s.exps.set pos { e with left := e.left - 1 })[pos]? = some { e with left := e.left - 1 } := by
      rw [List.getElem?_set_self hlt]
    have hgot : b.s.got e.slot ≠ [] := by
      obtain ⟨pos', next', e', h1, h2, h3⟩ := h.block (by simp [hb])
      rw [hl] at h1; cases h1
      rw [he] at h2; cases h2
      exact h3
    have inv1 := h.inv.scanNext pos next e (e.left - 1) hl he hnp (by omega)
    have inv2 := inv1.move (.scan pos next) (sentN_scan _ _ _ _) inv1.loc
    have inv3 : Inv size parts { b.s with
          posted := Function.update b.s.posted e.rank (b.s.posted e.rank ++ [e.slot])
          exps := b.s.exps.set pos { e with left := e.left - 1 } } := by
      have : b.s.loc = .scan pos next := hl
      rw [show ({ b.s with
          posted := Function.update b.s.posted e.rank (b.s.posted e.rank ++ [e.slot])
          exps := b.s.exps.set pos { e with left := e.left - 1 } } : S T M) = { b.s with
          loc := .scan pos next
          posted := Function.update b.s.posted e.rank (b.s.posted e.rank ++ [e.slot])
          exps := b.s.exps.set pos { e with left := e.left - 1 } } by rw [← this]]
      exact inv2
    refine ⟨inv3, ?_, ?_, fun _ => ⟨pos, next, _, hl, hget, hgot⟩⟩
    · intro x hx
      rw [blockAt_some (pos := pos) (next := next) (by exact hl) hget]
      rcases (mem_set_iff h.inv.ranks he).1 hx with rfl | ⟨hx, hr⟩
      · simp only [if_pos, Option.getD_some]; omega
      · have hs : x.slot ≠ e.slot := fun hs => hr (by rw [pairwise_ne_of_mem h.inv.slots hx hmem hs])
        have := h.left x hx
        rw [blockAt_some hl he, if_neg (Ne.symm hs)] at this
        simp only [if_neg (Ne.symm hs)]
        exact this
    · intro x hx t ht
      rcases (mem_set_iff h.inv.ranks he).1 hx with rfl | ⟨hx, hr⟩
      · have := h.suffix e hmem t ht
        simp only; omega
      · exact h.suffix x hx t ht
  | recvEnd pos next e hb hl he hnp =>
    have hle : ∀ x ∈ b.s.exps, x.left = asks (b.chain x.slot) := by
      intro x hx
      have := h.left x hx
      rw [blockAt_some hl he, hb] at this
      simpa using this
    refine ⟨h.inv.move _ (by rw [hl]; exact sentN_scan _ _ _ _) (by have := h.inv.loc; rw [hl] at this; exact this), ?_, h.suffix,
      fun hc => absurd rfl hc⟩
    intro x hx
    rw [blockAt_none rfl]
    exact hle x hx
  | scanPop pos next e hb hl he hnp hch =>
    have hmem : e ∈ b.s.exps := List.mem_of_getElem? he
    have hle := h.left e hmem
    rw [blockAt_none hb, hch] at hle
    refine ⟨h.inv.scanPop hp' pos next e hl he hnp (by simpa [asks] using hle), ?_, ?_, fun hc => absurd hb hc⟩
    · intro x hx
      have := h.left x ((mem_erase_iff h.inv.ranks he).1 hx).1
      rw [blockAt_none hb] at this
      rw [blockAt_none (by exact hb)]
      exact this
    · intro x hx t ht
      exact h.suffix x ((mem_erase_iff h.inv.ranks he).1 hx).1 t ht
  | scanWrap pos next hb hl he =>
    refine ⟨h.inv.server hp' (Server.scanWrap pos next hl he), ?_, h.suffix, fun hc => absurd hb hc⟩
    intro e he
    have := h.left e he
    rw [blockAt_none hb] at this
    rw [blockAt_none (by exact hb)]
    exact this

theorem remote_same {s s' : S T M} (h : Remote size parts s s') : s'.loc = s.loc ∧ s'.exps = s.exps ∧ s'.batch = s.batch := by
  cases h <;> exact ⟨rfl, rfl, rfl⟩

theorem remote_got {s s' : S T M} (h : Remote size parts s s') {k : Nat} (hk : s.got k ≠ []) : s'.got k ≠ [] := by
  cases h with
  | receive => exact hk
  | reply => exact hk
  | deliver r m ms j ks _ _ _ _ =>
    by_cases hj : k = j
    · subst hj; simp
    · simp only [Function.update_of_ne hj]; exact hk

theorem BlkInv.remote {b : Blk T M} {s' : S T M} (h : BlkInv size parts rest b) (hs : Remote size parts b.s s') :
    BlkInv size parts rest { b with s := s' } := by
  obtain ⟨h1, h2, h3⟩ := remote_same hs
  refine ⟨h.inv.remote hs, ?_, ?_, ?_⟩
  · intro e he
    simp only [h2] at he
    have : blockAt { b with s := s' } e.slot = blockAt b e.slot := by simp only [blockAt, h1, h2]
    rw [this]; exact h.left e he
  · simp only [h2, h3]; exact h.suffix
  · intro hb
    obtain ⟨pos, next, e, g1, g2, g3⟩ := h.block hb
    exact ⟨pos, next, e, by rw [h1]; exact g1, by rw [h2]; exact g2, remote_got hs g3⟩

theorem BlkInv.call {b : Blk T M} {s' : S T M} (h : BlkInv size parts rest b) (hc : Call size b.s s') :
    BlkInv size parts rest { b with s := s' } := by
  have inv' := h.inv.call hc
  cases hc with
  | doTasks tasks hl hsz =>
    have he : b.s.exps = [] := by have := h.inv.loc; rw [hl] at this; exact this
    have hb : b.block = none := by
      by_contra hne
      obtain ⟨pos, next, e, h1, _⟩ := h.block hne
      rw [hl] at h1; cases h1
    exact ⟨inv', by simp [he], by simp [he], fun hc => absurd hb hc⟩

theorem blkInv_of_reach (hp : ∀ t, (parts t).length = 1 + asks (rest t)) {b : Blk T M} (h : BlkReach size parts rest b) :
    BlkInv size parts rest b := by
  induction h with
  | init => exact ⟨Inv.init size parts, by simp [Blk.init, S.init], by simp [Blk.init, S.init], by simp [Blk.init]⟩
  | step _ hs ih =>
    cases hs with
    | server hs => exact ih.server hp hs
    | remote hs => exact ih.remote hs
  | call _ hc ih => exact ih.call hc

/-! ## What a call returns -/

/-- **C119** (results).  Whenever `DoTasks` has returned, every entry of the result vector holds exactly the messages of the result of the task at
the same index, in order; every task was performed exactly once, nothing else was performed, and one statistics entry was made per task. -/
theorem C119_results (hr : ∀ t, (parts t).length = 1 + ((rest t).map Kind.size).sum) {b : Blk T M} (h : BlkReach size parts rest b)
    (hidle : b.s.loc = .idle) :
    (∀ i (hi : i < b.s.batch.length), b.s.got i = parts b.s.batch[i] ∧ b.s.perf.count i = 1) ∧
    (∀ i, b.s.batch.length ≤ i → b.s.perf.count i = 0) ∧ b.s.stats.length = b.s.batch.length := by
  have inv := (blkInv_of_reach hr h).inv
  have he : b.s.exps = [] := by have := inv.loc; rw [hidle] at this; exact this
  have hn : sentN b.s.batch.length b.s.loc = b.s.batch.length := by rw [hidle]; rfl
  refine ⟨fun i hi => ?_, fun i hi => ?_, ?_⟩
  · obtain ⟨⟨t, ht, hg⟩, hc⟩ := inv.done i (by omega) (by simp [he])
    rw [List.getElem?_eq_getElem hi] at ht
    cases ht
    exact ⟨hg, hc⟩
  · exact (inv.unsent i (by omega)).2
  · have := inv.stats; rw [he, hn] at this; simpa using this

/-- **C119** (nothing left behind).  After `DoTasks` has returned every worker waits for a task, no message is on its way and no receive is
posted; the server is in no blocking call. -/
theorem C119_clean (hr : ∀ t, (parts t).length = 1 + ((rest t).map Kind.size).sum) {b : Blk T M} (h : BlkReach size parts rest b)
    (hidle : b.s.loc = .idle) : b.block = none ∧ ∀ r, b.s.inbox r = [] ∧ b.s.work r = [] ∧ b.s.out r = [] ∧ b.s.posted r = [] := by
  have inv := blkInv_of_reach hr h
  have he : b.s.exps = [] := by have := inv.inv.loc; rw [hidle] at this; exact this
  refine ⟨?_, fun r => inv.inv.free r (by simp [he])⟩
  by_contra hne
  obtain ⟨pos, next, e, h1, _⟩ := inv.block hne
  rw [hidle] at h1; cases h1

/-- **C119** (what the server waits for).  Whenever the server is inside a blocking call, it is one for a task of the current batch that its worker
has already performed and whose first message has been received; what is missing of the result is on its way or about to be sent by that worker.
So the server never stands still while the task it waits for is being performed. -/
theorem C119_performed (hr : ∀ t, (parts t).length = 1 + ((rest t).map Kind.size).sum) {b : Blk T M} (h : BlkReach size parts rest b)
    (hb : b.block ≠ none) : ∃ pos next e t, b.s.loc = .scan pos next ∧ b.s.exps[pos]? = some e ∧ b.s.batch[e.slot]? = some t ∧
      1 ≤ e.rank ∧ e.rank < size ∧ b.s.perf.count e.slot = 1 ∧ b.s.got e.slot ≠ [] ∧ b.s.inbox e.rank = [] ∧
      b.s.got e.slot ++ b.s.out e.rank ++ b.s.work e.rank = parts t := by
  have inv := blkInv_of_reach hr h
  obtain ⟨pos, next, e, hl, he, hgot⟩ := inv.block hb
  have hmem : e ∈ b.s.exps := List.mem_of_getElem? he
  obtain ⟨t, ok⟩ := inv.inv.exp e hmem
  have hf := ok.flow
  rcases ok.perf with ⟨h1, h2⟩ | ⟨h1, _⟩
  · rw [h1] at hf
    exact ⟨pos, next, e, t, hl, he, ok.task, ok.lo, ok.hi, h2, hgot, h1, by simpa using hf⟩
  · have hlen := congrArg List.length hf
    rw [h1] at hlen
    simp only [List.length_append, List.flatMap_cons, List.flatMap_nil, List.length_nil] at hlen
    exact absurd (List.length_eq_zero_iff.1 (by omega)) hgot

/-! ## Termination -/

/-- The blocking calls of a list of calls. -/
def syncs (l : List Kind) : Nat := (l.filter (fun k => k != .async)).length

/-- The steps other than polling still to be made: those of `MpiPool`, and entering and leaving each blocking call. -/
def btodo (size : Nat) (parts : T → List M) (rest : T → List Kind) (b : Blk T M) : Nat :=
  todo size parts b.s + 2 * ((b.s.batch.drop (sentN b.s.batch.length b.s.loc)).map (fun t => syncs (rest t))).sum +
    2 * (b.s.exps.map (fun e => syncs (b.chain e.slot))).sum + (if b.block = none then 0 else 1)

theorem sum_chain_update {l : List Exp} {c : Nat → List Kind} {k : Nat} {v : List Kind} (h : ∀ e ∈ l, e.slot ≠ k) :
    (l.map (fun e => syncs (Function.update c k v e.slot))).sum = (l.map (fun e => syncs (c e.slot))).sum := by
  congr 1
  apply List.map_congr_left
  intro e he
  rw [Function.update_of_ne (h e he)]

/-- Changing the chain of the expectation at one position changes the sum there only. -/
theorem sum_chain_at {l : List Exp} {c : Nat → List Kind} {pos : Nat} {e : Exp} {v : List Kind}
    (hn : l.Pairwise (fun a b => a.slot ≠ b.slot)) (he : l[pos]? = some e) :
    (l.map (fun x => syncs (Function.update c e.slot v x.slot))).sum + syncs (c e.slot) = (l.map (fun x => syncs (c x.slot))).sum + syncs v := by
  induction l generalizing pos with
  | nil => simp at he
  | cons x l ih =>
    obtain ⟨h1, h2⟩ := List.pairwise_cons.1 hn
    cases pos with
    | zero =>
      simp only [List.getElem?_cons_zero, Option.some.injEq] at he
      subst he
      simp only [List.map_cons, List.sum_cons, Function.update_self, sum_chain_update (fun e he => (h1 e he).symm)]
      omega
    | succ p =>
      have hp : l[p]? = some e := by simpa using he
      have := ih h2 hp
      have hx : x.slot ≠ e.slot := h1 e (List.mem_of_getElem? hp)
      simp only [List.map_cons, List.sum_cons, Function.update_of_ne hx]
      omega

theorem map_slot_set {l : List Exp} {pos n : Nat} {e : Exp} (he : l[pos]? = some e) (f : Nat → Nat) :
    ((l.set pos { e with left := n }).map (fun x => f x.slot)).sum = (l.map (fun x => f x.slot)).sum := by
  have := sum_set (e1 := { e with left := n }) (fun x => f x.slot) he
  simp only at this
  omega

theorem btodo_server_true (hr : ∀ t, (parts t).length = 1 + asks (rest t)) {b b' : Blk T M} (inv : BlkInv size parts rest b)
    (hs : BlkServer size parts rest true b b') : btodo size parts rest b' + 1 = btodo size parts rest b := by
  have hp' : ∀ t, parts t ≠ [] := fun t hc => by have := hr t; rw [hc] at this; simp at this; omega
  cases hs with
  | sendTask i cur first t hb hl ht =>
    have h1 := todo_server_true hp' inv.inv (Server.sendTask i cur first t hl ht)
    have hslots : ∀ e ∈ b.s.exps, e.slot ≠ i := by
      intro e he hc
      have := inv.inv.sent e he
      rw [hl] at this; simp only [sentN] at this; omega
    have hi : i < b.s.batch.length := by
      rcases Nat.lt_or_ge i b.s.batch.length with hlt | hge
      · exact hlt
      · rw [List.getElem?_eq_none hge] at ht; cases ht
    have hti : b.s.batch[i] = t := by rw [List.getElem?_eq_getElem hi] at ht; simpa using ht
    have hd : ((b.s.batch.drop i).map (fun t => syncs (rest t))).sum =
        syncs (rest t) + ((b.s.batch.drop (i + 1)).map (fun t => syncs (rest t))).sum := by
      rw [List.drop_eq_getElem_cons hi, hti]; simp
    have hsn : sentN b.s.batch.length b.s.loc = i := by rw [hl]; rfl
    simp only [btodo, sentN_afterSend, hsn, hd, List.map_append, List.sum_append, List.map_cons, List.map_nil, List.sum_cons, List.sum_nil,
      sum_chain_update hslots, Function.update_self]
    omega
  | sendEnd i cur first hb hl ht =>
    have h1 := todo_server_true hp' inv.inv (Server.sendEnd i cur first hl ht)
    have h2 := List.getElem?_eq_none_iff.1 ht
    have hsn : sentN b.s.batch.length b.s.loc = i := by rw [hl]; rfl
    simp only [btodo, sentN_drain, hsn, List.drop_eq_nil_of_le h2, List.drop_length] at *
    omega
  | scanAsync pos next e cs hb hl he hnp hch =>
    have hmem : e ∈ b.s.exps := List.mem_of_getElem? he
    have hle := inv.left e hmem
    rw [blockAt_none hb, hch] at hle
    simp only [asks, List.map_cons, List.sum_cons, Kind.size] at hle
    have h1 := todo_server_true hp' inv.inv (Server.scanNext pos next e (e.left - 1) hl he hnp (by omega))
    have hsn : sentN b.s.batch.length (.scan (pos + 1) next) = sentN b.s.batch.length b.s.loc := by rw [hl]; exact sentN_scan _ _ _ _
    have h2 := map_slot_set (n := e.left - 1) he (fun k => syncs (Function.update b.chain e.slot cs k))
    have h3 := sum_chain_at (c := b.chain) (v := cs) inv.inv.slots he
    rw [hch] at h3
    have h4 : syncs (Kind.async :: cs) = syncs cs := by simp [syncs]
    simp only [btodo, hsn, h2] at *
    omega
  | scanSync pos next e k cs hb hl he hnp hch =>
    have h3 := sum_chain_at (c := b.chain) (v := cs) inv.inv.slots he
    rw [hch] at h3
    have h4 : syncs (Kind.sync k :: cs) = syncs cs + 1 := by simp [syncs]
    simp only [btodo, hb] at *
    simp
    omega
  | recvPost pos next e k hb hl he hnp =>
    have hmem : e ∈ b.s.exps := List.mem_of_getElem? he
    have hle := inv.left e hmem
    rw [blockAt_some hl he, if_pos rfl, hb] at hle
    simp only [Option.getD_some] at hle
    have h1 := todo_server_true hp' inv.inv (Server.scanNext pos next e (e.left - 1) hl he hnp (by omega))
    have h2 := map_slot_set (n := e.left - 1) he (fun k => syncs (b.chain k))
    have h5 : todo size parts { b.s with
          posted := Function.update b.s.posted e.rank (b.s.posted e.rank ++ [e.slot])
          exps := b.s.exps.set pos { e with left := e.left - 1 } } = todo size parts { b.s with
          loc := .scan (pos + 1) next
          posted := Function.update b.s.posted e.rank (b.s.posted e.rank ++ [e.slot])
          exps := b.s.exps.set pos { e with left := e.left - 1 } } := by
      have hsn : sentN b.s.batch.length (.scan (pos + 1) next) = sentN b.s.batch.length b.s.loc := by rw [hl]; exact sentN_scan _ _ _ _
      have hfl : flag (.scan (pos + 1) next) = flag b.s.loc := by rw [hl]; exact flag_scan _ _ _
      simp only [todo, hsn, hfl, load]
    simp only [btodo, hb, h2, h5] at *
    simp
    omega
  | recvEnd pos next e hb hl he hnp =>
    have hsn : sentN b.s.batch.length (.scan (pos + 1) next) = sentN b.s.batch.length b.s.loc := by rw [hl]; exact sentN_scan _ _ _ _
    have hfl : flag (.scan (pos + 1) next) = flag b.s.loc := by rw [hl]; exact flag_scan _ _ _
    simp only [btodo, todo, hsn, hfl, hb, load]
    simp
  | scanPop pos next e hb hl he hnp hch =>
    have hmem : e ∈ b.s.exps := List.mem_of_getElem? he
    have hle := inv.left e hmem
    rw [blockAt_none hb, hch] at hle
    have h1 := todo_server_true hp' inv.inv (Server.scanPop pos next e hl he hnp (by simpa [asks] using hle))
    have hsn : sentN b.s.batch.length (afterPop (b.s.exps.eraseIdx pos) e.rank next) = sentN b.s.batch.length b.s.loc := by
      rw [hl]; exact sentN_afterPop _ _ _ _ _
    have h2 := sum_erase (fun e => syncs (b.chain e.slot)) he
    rw [hch] at h2
    have h3 : syncs [] = 0 := rfl
    simp only [btodo, hsn] at *
    omega

theorem btodo_server_false {b b' : Blk T M} (hs : BlkServer size parts rest false b b') :
    btodo size parts rest b' = btodo size parts rest b := by
  cases hs with
  | scanPending pos next e hb hl he hpo =>
    have h1 := todo_server_false (parts := parts) (size := size) (Server.scanPending pos next e hl he hpo)
    have hsn : sentN b.s.batch.length (.scan (pos + 1) next) = sentN b.s.batch.length b.s.loc := by rw [hl]; exact sentN_scan _ _ _ _
    simp only [btodo, hsn, h1]
  | scanWrap pos next hb hl he =>
    have h1 := todo_server_false (parts := parts) (size := size) (Server.scanWrap pos next hl he)
    have hsn : sentN b.s.batch.length (.scan 0 next) = sentN b.s.batch.length b.s.loc := by rw [hl]; exact sentN_scan _ _ _ _
    simp only [btodo, hsn, h1]

theorem btodo_remote {b : Blk T M} {s' : S T M} (hs : Remote size parts b.s s') :
    btodo size parts rest { b with s := s' } + 1 = btodo size parts rest b := by
  have h1 := todo_remote hs
  obtain ⟨h2, h3, h4⟩ := remote_same hs
  simp only [btodo, h2, h3, h4]
  omega

/-- A run of a call; `k` counts the steps that are not fruitless polling. -/
inductive BlkRun (size : Nat) (parts : T → List M) (rest : T → List Kind) : Nat → Blk T M → Blk T M → Prop
  | refl (b) : BlkRun size parts rest 0 b b
  | work {k b b' b''} : BlkRun size parts rest k b b' → BlkStep size parts rest true b' b'' → BlkRun size parts rest (k + 1) b b''
  | poll {k b b' b''} : BlkRun size parts rest k b b' → BlkStep size parts rest false b' b'' → BlkRun size parts rest k b b''

theorem BlkRun.reach {k : Nat} {b b' : Blk T M} (h : BlkRun size parts rest k b b') (hr : BlkReach size parts rest b) :
    BlkReach size parts rest b' := by
  induction h with
  | refl => exact hr
  | work _ hs ih => exact (ih hr).step hs
  | poll _ hs ih => exact (ih hr).step hs

theorem btodo_step (hp : ∀ t, (parts t).length = 1 + asks (rest t)) {l : Bool} {b b' : Blk T M} (inv : BlkInv size parts rest b)
    (hs : BlkStep size parts rest l b b') : btodo size parts rest b' + l.toNat = btodo size parts rest b := by
  cases hs with
  | server hs =>
    cases l with
    | true => exact btodo_server_true hp inv hs
    | false => exact btodo_server_false hs
  | remote hs => exact btodo_remote hs

theorem BlkRun.btodo (hp : ∀ t, (parts t).length = 1 + asks (rest t)) {k : Nat} {b b' : Blk T M} (h : BlkRun size parts rest k b b')
    (hr : BlkReach size parts rest b) : Mpi.btodo size parts rest b' + k = Mpi.btodo size parts rest b := by
  induction h with
  | refl => simp
  | work h1 hs ih =>
    have ih := ih hr
    have := btodo_step hp (blkInv_of_reach hp (h1.reach hr)) hs
    simp only [Bool.toNat_true] at this
    omega
  | poll h1 hs ih =>
    have ih := ih hr
    have := btodo_step hp (blkInv_of_reach hp (h1.reach hr)) hs
    simp only [Bool.toNat_false] at this
    omega

/-- **C119** (work).  Leaving fruitless polling aside, a call that returns has made exactly `3 p + 2` steps for each task (with `p` messages in its
result), two more for each blocking call, and one, under every schedule; no run of a call makes more. -/
theorem C119_work (hr : ∀ t, (parts t).length = 1 + ((rest t).map Kind.size).sum) {b0 b' : Blk T M} {s : S T M} {k : Nat}
    (h0 : BlkReach size parts rest b0) (hc : Call size b0.s s) (hrun : BlkRun size parts rest k { b0 with s := s } b') :
    k ≤ (s.batch.map (fun t => 3 * (parts t).length + 2 + 2 * ((rest t).filter (fun c => c != .async)).length)).sum + 1 ∧
    (b'.s.loc = .idle → k = (s.batch.map (fun t => 3 * (parts t).length + 2 + 2 * ((rest t).filter (fun c => c != .async)).length)).sum + 1) := by
  have hreach := h0.call hc
  have h1 := hrun.btodo hr hreach
  have hsplit : ∀ l : List T, (l.map (fun t => 3 * (parts t).length + 2 + 2 * ((rest t).filter (fun c => c != .async)).length)).sum =
      (l.map (cost parts)).sum + 2 * (l.map (fun t => syncs (rest t))).sum := by
    intro l
    induction l with
    | nil => rfl
    | cons t l ih => simp only [List.map_cons, List.sum_cons, ih, cost, syncs]; omega
  have h2 : btodo size parts rest { b0 with s := s } =
      (s.batch.map (fun t => 3 * (parts t).length + 2 + 2 * ((rest t).filter (fun c => c != .async)).length)).sum + 1 := by
    rw [hsplit]
    cases hc with
    | doTasks tasks hl hsz =>
      obtain ⟨hb, hclean⟩ := C119_clean hr h0 hl
      have hload : ∀ r, load parts b0.s r = 0 := by
        intro r
        obtain ⟨h1, h2, h3, _⟩ := hclean r
        simp [load, h1, h2, h3]
      have he : b0.s.exps = [] := by have := (blkInv_of_reach hr h0).inv.loc; rw [hl] at this; exact this
      have hl' : load parts { b0.s with loc := .send 0 1 false, batch := tasks, got := fun _ => [], perf := [], stats := [] } = fun _ => 0 :=
        funext hload
      simp only [btodo, todo, sentN, flag, hl', Finset.sum_const_zero, List.drop_zero, hb]
      simp only [he, List.map_nil, List.sum_nil]
      simp
      omega
  refine ⟨by omega, fun hidle => ?_⟩
  have h3 : btodo size parts rest b' = 0 := by
    obtain ⟨hb, hclean⟩ := C119_clean hr (hrun.reach hreach) hidle
    have he : b'.s.exps = [] := by have := (blkInv_of_reach hr (hrun.reach hreach)).inv.loc; rw [hidle] at this; exact this
    have hload : ∀ r, load parts b'.s r = 0 := by
      intro r
      obtain ⟨h1, h2, h3, _⟩ := hclean r
      simp [load, h1, h2, h3]
    simp [btodo, todo, hidle, sentN, he, hload, flag, hb]
  omega

theorem blk_quiet {b : Blk T M} (inv : BlkInv size parts rest b) (hq : ∀ s', ¬ Remote size parts b.s s')
    {pos : Nat} {next : Option Nat} (hl : b.s.loc = .scan pos next) {e : Exp} (he : b.s.exps[pos]? = some e) :
    ∃ b', BlkServer size parts rest true b b' := by
  have hpost := quiet_posted inv.inv hq (List.mem_of_getElem? he)
  have hnp : e.slot ∉ b.s.posted e.rank := by simp [hpost]
  cases hb : b.block with
  | none =>
    cases hch : b.chain e.slot with
    | nil => exact ⟨_, .scanPop pos next e hb hl he hnp hch⟩
    | cons c cs =>
      cases c with
      | async => exact ⟨_, .scanAsync pos next e cs hb hl he hnp hch⟩
      | sync k => exact ⟨_, .scanSync pos next e k cs hb hl he hnp hch⟩
  | some n =>
    cases n with
    | zero => exact ⟨_, .recvEnd pos next e hb hl he hnp⟩
    | succ k => exact ⟨_, .recvPost pos next e k hb hl he hnp⟩

/-- **C119** (no deadlock).  As long as `DoTasks` has not returned, some step other than polling can be made - by a worker, by the message
passing or by the server, also while the server waits inside a blocking call - at once, or after the server has started its list again. -/
theorem C119_progress (hr : ∀ t, (parts t).length = 1 + ((rest t).map Kind.size).sum) {b : Blk T M} (h : BlkReach size parts rest b)
    (hl : b.s.loc ≠ .idle) :
    ∃ b', BlkStep size parts rest true b b' ∨ ∃ b'', BlkStep size parts rest false b b' ∧ BlkStep size parts rest true b' b'' := by
  have inv := blkInv_of_reach hr h
  by_cases hq : ∃ s', Remote size parts b.s s'
  · obtain ⟨s', hq⟩ := hq
    exact ⟨_, .inl (.remote hq)⟩
  push Not at hq
  cases hloc : b.s.loc with
  | idle => exact absurd hloc hl
  | send i cur first =>
    have hb : b.block = none := by
      by_contra hne
      obtain ⟨pos, next, e, h1, _⟩ := inv.block hne
      rw [hloc] at h1; cases h1
    cases ht : b.s.batch[i]? with
    | none => exact ⟨_, .inl (.server (.sendEnd i cur first hb hloc ht))⟩
    | some t => exact ⟨_, .inl (.server (.sendTask i cur first t hb hloc ht))⟩
  | scan pos next =>
    cases he : b.s.exps[pos]? with
    | some e =>
      obtain ⟨s', hs⟩ := blk_quiet inv hq hloc he
      exact ⟨s', .inl (.server hs)⟩
    | none =>
      have hb : b.block = none := by
        by_contra hne
        obtain ⟨pos', next', e, h1, h2, _⟩ := inv.block hne
        rw [hloc] at h1; cases h1
        rw [he] at h2; cases h2
      have hne : b.s.exps ≠ [] := by have := inv.inv.loc; rw [hloc] at this; exact this
      have hw : BlkServer size parts rest false b { b with s := { b.s with loc := .scan 0 next } } := .scanWrap pos next hb hloc he
      have inv' := inv.server hr hw
      have hq' : ∀ s', ¬ Remote size parts { b.s with loc := .scan 0 next } s' := by
        intro s' hr
        cases hr with
        | receive r m ms h1 h2 h3 h4 => exact hq _ (.receive r m ms h1 h2 h3 h4)
        | reply r m ms h1 h2 h3 => exact hq _ (.reply r m ms h1 h2 h3)
        | deliver r m ms k ks h1 h2 h3 h4 => exact hq _ (.deliver r m ms k ks h1 h2 h3 h4)
      obtain ⟨e, he0⟩ : ∃ e, b.s.exps[0]? = some e := by
        cases hx : b.s.exps with
        | nil => exact absurd hx hne
        | cons e l => exact ⟨e, by simp⟩
      obtain ⟨s'', hs⟩ := blk_quiet inv' hq' rfl he0
      exact ⟨_, .inr ⟨s'', .server hw, .server hs⟩⟩

/-- **C119** (return).  From every state of a call the return of `DoTasks` can be reached. -/
theorem C119_can_return (hr : ∀ t, (parts t).length = 1 + ((rest t).map Kind.size).sum) {b : Blk T M} (h : BlkReach size parts rest b) :
    ∃ k b', BlkRun size parts rest k b b' ∧ b'.s.loc = .idle := by
  have trans : ∀ {k1 k2 : Nat} {a b c : Blk T M}, BlkRun size parts rest k1 a b → BlkRun size parts rest k2 b c →
      ∃ k, BlkRun size parts rest k a c := by
    intro k1 k2 a b c h1 h2
    induction h2 with
    | refl => exact ⟨_, h1⟩
    | work _ hs ih => obtain ⟨k, ih⟩ := ih h1; exact ⟨_, ih.work hs⟩
    | poll _ hs ih => obtain ⟨k, ih⟩ := ih h1; exact ⟨_, ih.poll hs⟩
  have key : ∀ n, ∀ b, BlkReach size parts rest b → btodo size parts rest b = n → ∃ k b', BlkRun size parts rest k b b' ∧ b'.s.loc = .idle := by
    intro n
    induction n using Nat.strong_induction_on with
    | _ n ih =>
      intro s hr' hn
      by_cases hl : s.s.loc = .idle
      · exact ⟨0, s, .refl s, hl⟩
      · have : ∃ b, BlkRun size parts rest 1 s b := by
          obtain ⟨s', hs | ⟨s'', h1, h2⟩⟩ := C119_progress hr hr' hl
          · exact ⟨_, .work (.refl s) hs⟩
          · exact ⟨_, .work (.poll (.refl s) h1) h2⟩
        obtain ⟨b, hb⟩ := this
        have h1 := hb.btodo hr hr'
        obtain ⟨k, s', h2, h3⟩ := ih _ (by omega) b (hb.reach hr') rfl
        obtain ⟨k', h4⟩ := trans hb h2
        exact ⟨k', s', h4, h3⟩
  exact key _ b h rfl

/-- **C119** (termination).  There is no endless run of a call in which workers and messages do not stand still for ever although they could
move. -/
theorem C119_terminates (hp : ∀ t, (parts t).length = 1 + ((rest t).map Kind.size).sum) (run : Nat → Blk T M) (lab : Nat → Bool)
    (h0 : BlkReach size parts rest (run 0)) (hstep : ∀ n, BlkStep size parts rest (lab n) (run n) (run (n + 1)))
    (fair : ∀ n, (∀ m, n ≤ m → ∃ s', Remote size parts (run m).s s') →
      ∃ m, n ≤ m ∧ Remote size parts (run m).s (run (m + 1)).s) : False := by
  have hr : ∀ n, BlkReach size parts rest (run n) := by
    intro n
    induction n with
    | zero => exact h0
    | succ n ih => exact ih.step (hstep n)
  have ht : ∀ n, btodo size parts rest (run (n + 1)) + (lab n).toNat = btodo size parts rest (run n) :=
    fun n => btodo_step hp (blkInv_of_reach hp (hr n)) (hstep n)
  have key : ∀ v n, btodo size parts rest (run n) = v → ∃ N, ∀ m, N ≤ m → lab m = false := by
    intro v
    induction v using Nat.strong_induction_on with
    | _ v ih =>
      intro n hn
      by_cases hx : ∃ m, n ≤ m ∧ lab m = true
      · obtain ⟨m, hm, hl⟩ := hx
        have mono : ∀ d, btodo size parts rest (run (n + d)) ≤ btodo size parts rest (run n) := by
          intro d
          induction d with
          | zero => simp
          | succ d ihd => have := ht (n + d); rw [← Nat.add_assoc]; omega
        have h1 := mono (m - n)
        rw [Nat.add_sub_cancel' hm] at h1
        have h2 := ht m
        rw [hl] at h2
        simp only [Bool.toNat_true] at h2
        exact ih _ (by omega) (m + 1) rfl
      · push Not at hx
        exact ⟨n, fun m hm => by have := hx m hm; simpa using this⟩
  obtain ⟨N, hN⟩ := key _ 0 rfl
  have hpoll : ∀ m, N ≤ m → Server size parts false (run m).s (run (m + 1)).s := by
    intro m hm
    have hs := hstep m
    rw [hN m hm] at hs
    generalize run m = x at hs
    generalize run (m + 1) = y at hs
    cases hs with
    | server hs =>
      cases hs with
      | scanPending pos next e hb hl he hpo => exact .scanPending pos next e hl he hpo
      | scanWrap pos next hb hl he => exact .scanWrap pos next hl he
  have hsame : ∀ {a b : S T M} {c}, Server size parts false a b → Remote size parts b c → ∃ c', Remote size parts a c' := by
    intro a b c hs hr
    cases hs <;> cases hr <;> first
      | exact ⟨_, .receive _ _ _ ‹_› ‹_› ‹_› ‹_›⟩
      | exact ⟨_, .reply _ _ _ ‹_› ‹_› ‹_›⟩
      | exact ⟨_, .deliver _ _ _ _ _ ‹_› ‹_› ‹_› ‹_›⟩
  have hinv : ∀ m, Inv size parts (run m).s := fun m => (blkInv_of_reach hp (hr m)).inv
  by_cases hq : ∀ m, N ≤ m → ∃ s', Remote size parts (run m).s s'
  · obtain ⟨m, hm, hrem⟩ := fair N hq
    have h1 := todo_remote hrem
    have h2 := todo_server_false (hpoll m hm)
    omega
  · push Not at hq
    obtain ⟨m, hm, hq⟩ := hq
    have hq1 : ∀ s', ¬ Remote size parts (run (m + 1)).s s' := fun s' hr' => by
      obtain ⟨c, hc⟩ := hsame (hpoll m hm) hr'
      exact hq c hc
    have stuck : ∀ {a b c : S T M}, Inv size parts a → (∀ s', ¬ Remote size parts a s') → Server size parts false a b →
        Server size parts false b c → (∀ s', ¬ Remote size parts b s') → Inv size parts b → False := by
      intro a b c ia qa h1 h2 qb ib
      cases h1 with
      | scanPending pos next e hl he hpo =>
        rw [quiet_posted ia qa (List.mem_of_getElem? he)] at hpo
        cases hpo
      | scanWrap pos next hl he =>
        have hne : a.exps ≠ [] := by have := ia.loc; rw [hl] at this; exact this
        cases h2 with
        | scanPending pos next e hl he hpo =>
          have := quiet_posted ib qb (List.mem_of_getElem? he)
          simp only at this hpo
          rw [this] at hpo
          cases hpo
        | scanWrap pos next' hl2 he2 =>
          simp only [Loc.scan.injEq] at hl2
          obtain ⟨rfl, _⟩ := hl2
          simp only [List.getElem?_eq_none_iff, Nat.le_zero, List.length_eq_zero_iff] at he2
          exact hne he2
    exact stuck (hinv m) hq (hpoll m hm) (hpoll (m + 1) (by omega)) hq1 (hinv (m + 1))

/-! ## The results of the library -/

section Library
open Transfer
variable {R F : Type} [Field R] [LinearOrder R] [IsStrictOrderedRing R] [FloorRing R]

/-- **C119** (optimization tasks).  A batch of optimization tasks on the MPI pool, `opt t` being the parameters the optimizer of `t` ends with on the
worker, `proto t` the object registered in the server for their class: once `DoTasks` has returned, the receiving calls of the `i`-th
result, run on the messages it was given, yield the parameters found for the `i`-th task and use all of them up. -/
theorem C119_optimization (reg : Registered R F) (opt proto : T → Params R) (hproto : ∀ t, reg (opt t).typeName = some (.pars (proto t)))
    (hfit : ∀ t, Fits (opt t) (proto t)) (parts : T → List (Datum R)) (hsend : ∀ t, sendResult (opt t) = .ok (parts t))
    {b : Blk T (Datum R)} (h : BlkReach size parts (fun _ => optimizationRest 1) b) (hidle : b.s.loc = .idle)
    (i : Nat) (hi : i < b.s.batch.length) : ∃ r, receiveResult reg (b.s.got i) = .ok (r, []) ∧ Same (opt b.s.batch[i]) r := by
  have hlen : ∀ t, (parts t).length = 1 + ((optimizationRest 1).map Kind.size).sum := by
    intro t
    obtain ⟨ms, q, r, h1, h2, _⟩ := C33_parameters (opt t) (proto t) (hfit t) []
    have h3 := hsend t
    simp only [sendResult, h1, Res.ok_bind, Res.pure_eq, Res.ok.injEq] at h3
    rw [← h3]
    simp [optimizationRest, Kind.size, h2]
  rw [((C119_results hlen h hidle).1 i hi).1]
  obtain ⟨ms, r, h1, h2, h3⟩ := C33_result reg (opt b.s.batch[i]) (proto b.s.batch[i]) (hproto _) (hfit _) []
  rw [hsend] at h1
  cases h1
  rw [List.append_nil] at h2
  exact ⟨r, h2, h3⟩

/-- **C119** (counting tasks).  The same for tasks that count an objective function: the `i`-th result ends up with the value of the `i`-th task. -/
theorem C119_values (value : T → R) {b : Blk T (Datum R)} (h : BlkReach size (fun t => sendValue (value t)) (fun _ => valueRest) b)
    (hidle : b.s.loc = .idle) (i : Nat) (hi : i < b.s.batch.length) : receiveValue (b.s.got i) = .ok (value b.s.batch[i], []) := by
  rw [((C119_results (fun t => by simp [sendValue, valueRest]) h hidle).1 i hi).1]
  rfl

end Library

/-! ## Non-vacuity: two optimization-like tasks on three processes, with the server inside a blocking call -/

section Example

def exBlkParts : Nat → List Nat := fun t => [t, t * t, t + 1]
def exBlkRest : Nat → List Kind := fun _ => [.sync 2]

/-- A call with tasks 5 and 7 on three processes returns with the right results. -/
theorem C119_example : ∃ b, BlkReach 3 exBlkParts exBlkRest b ∧ b.s.loc = .idle ∧ b.s.got 0 = [5, 25, 6] ∧ b.s.got 1 = [7, 49, 8] := by
  have hr : ∀ t, (exBlkParts t).length = 1 + ((exBlkRest t).map Kind.size).sum := fun _ => rfl
  have h0 : BlkReach 3 exBlkParts exBlkRest (Blk.init Nat Nat) := .init
  have h1 := h0.call (Call.doTasks [5, 7] rfl (by omega))
  obtain ⟨k, b, hrun, hidle⟩ := C119_can_return hr h1
  have hb : b.s.batch = [5, 7] := by
    have : ∀ {k : Nat} {a b : Blk Nat Nat}, BlkRun 3 exBlkParts exBlkRest k a b → b.s.batch = a.s.batch := by
      intro k a b h
      induction h with
      | refl => rfl
      | work _ hs ih => rw [← ih]; cases hs with
        | server hs => cases hs <;> rfl
        | remote hs => cases hs <;> rfl
      | poll _ hs ih => rw [← ih]; cases hs with
        | server hs => cases hs <;> rfl
    exact this hrun
  obtain ⟨h, _⟩ := C119_results hr (hrun.reach h1) hidle
  refine ⟨b, hrun.reach h1, hidle, ?_, ?_⟩
  · have := (h 0 (by simp [hb])).1
    rw [this]; simp [hb, exBlkParts]
  · have := (h 1 (by simp [hb])).1
    rw [this]; simp [hb, exBlkParts]

/-- The server can be inside a blocking call with nothing to do but wait: worker 1 has sent only the first of its messages. -/
theorem C119_example_blocked : ∃ b, BlkReach 2 exBlkParts exBlkRest b ∧ b.block = some 1 ∧ b.s.work 1 = [25, 6] ∧
    ∀ l b', ¬ BlkServer 2 exBlkParts exBlkRest l b b' := by
  have h0 : BlkReach 2 exBlkParts exBlkRest (Blk.init Nat Nat) := .init
  have h1 := h0.call (Call.doTasks [5] rfl (by omega))
  have h2 := h1.step (.server (.sendTask 0 1 false 5 rfl rfl rfl))
  have h3 := h2.step (.remote (.receive 1 ⟨0, 5⟩ [] (by omega) (by omega) rfl rfl))
  have h4 := h3.step (.remote (.reply 1 5 [25, 6] (by omega) (by omega) rfl))
  have h5 := h4.step (.remote (.deliver 1 5 [] 0 [] (by omega) (by omega) rfl rfl))
  have h6 := h5.step (.server (.scanSync 0 (some 1) ⟨1, 0, 2⟩ 2 [] rfl rfl rfl (by simp) rfl))
  have h7 := h6.step (.server (.recvPost 0 (some 1) ⟨1, 0, 2⟩ 1 rfl rfl rfl (by simp)))
  refine ⟨_, h7, rfl, by simp [exBlkParts], ?_⟩
  intro l b' hs
  cases hs with
  | sendTask _ _ _ _ hb => cases hb
  | sendEnd _ _ _ hb => cases hb
  | scanPending _ _ _ hb => cases hb
  | scanAsync _ _ _ _ hb => cases hb
  | scanSync _ _ _ _ _ hb => cases hb
  | recvPost pos next e k hb hl he hnp =>
    cases hl
    cases he
    exact hnp (by simp [S.init, Blk.init])
  | recvEnd pos next e hb => cases hb
  | scanPop _ _ _ hb => cases hb
  | scanWrap _ _ hb => cases hb

end Example

end K52.Mpi
