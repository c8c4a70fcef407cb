import Verif.Model.Settings
import Mathlib.Data.List.Basic
import Mathlib.Data.List.Infix
import Mathlib.Data.List.Induction

/-!
# C34, C35: settings from the command line and merging of settings
-/

set_option linter.unusedSectionVars false

namespace K52.Settings

theorem find_update (f : Forest) (k k' : Key) (g : Tree → Tree) :
    (f.update k g).find k' = if k' = k then some (g ((f.find k).getD .empty)) else f.find k' := by
  match f with
  | .nil =>
    simp only [Forest.update, Forest.find]
    by_cases h : k = k'
    · simp [h]
    · simp [h, Ne.symm h]
  | .cons k1 t rest =>
    have ih := find_update rest k k' g
    simp only [Forest.update, Forest.find]
    by_cases h1 : k1 = k
    · subst h1
      simp only [if_true, Forest.find, Option.getD_some]
      by_cases h2 : k1 = k'
      · simp [h2]
      · simp [h2, Ne.symm h2]
    · simp only [if_neg h1, Forest.find, ih]
      by_cases h2 : k1 = k'
      · subst h2; simp [h1]
      · simp [h2]

/-- The data at a path of names. -/
def Tree.at (t : Tree) (p : List Key) : Option (List Char) := (t.child p).map Tree.data

theorem lookup_eq (t : Tree) (name : List Char) : lookup t name = t.at (frags name) := rfl

theorem at_nil (t : Tree) : t.at [] = some t.data := by simp [Tree.at, Tree.child]

theorem at_cons (t : Tree) (k : Key) (ks : List Key) : t.at (k :: ks) = (t.kids.find k).bind (fun s => s.at ks) := by
  simp only [Tree.at, Tree.child]
  cases t.kids.find k <;> rfl

theorem empty_at (p : List Key) : Tree.empty.at p = if p = [] then some [] else none := by
  cases p with
  | nil => rfl
  | cons k ks => simp [at_cons, Tree.empty, Tree.kids, Forest.find]

/-- What a tree holds after a value was put at a path. -/
theorem at_put (t : Tree) (q p : List Key) (v : List Char) :
    (t.modify q (Tree.setData v)).at p =
      if p = q then some v else match t.at p with
        | some d => some d
        | none => if p <+: q then some [] else none := by
  induction q generalizing t p with
  | nil =>
    obtain ⟨d, f⟩ := t
    cases p with
    | nil => simp [Tree.modify, Tree.setData, Tree.at, Tree.child, Tree.data]
    | cons k ks =>
      have : (Tree.setData v (.node d f)).at (k :: ks) = (Tree.node d f).at (k :: ks) := by simp [at_cons, Tree.setData, Tree.kids]
      simp only [Tree.modify, this]
      rw [if_neg (by simp)]
      cases (Tree.node d f).at (k :: ks) <;> simp
  | cons q qs ih =>
    obtain ⟨d, f⟩ := t
    cases p with
    | nil =>
      simp [Tree.modify, at_nil, Tree.data]
    | cons k ks =>
      simp only [Tree.modify, at_cons, Tree.kids, find_update]
      by_cases hk : k = q
      · subst hk
        simp only [if_true, Option.bind_some, ih, List.cons.injEq, true_and, List.cons_prefix_cons]
        cases f.find k with
        | some s => rfl
        | none =>
          simp only [Option.getD_none, empty_at, Option.bind_none]
          by_cases h1 : ks = qs
          · simp [h1]
          · simp only [h1, if_false]
            by_cases h2 : ks = []
            · simp [h2]
            · simp [h2]
      · simp only [hk, if_false, List.cons.injEq, false_and, List.cons_prefix_cons]
        cases (f.find k).bind (fun s => s.at ks) <;> rfl

theorem put_at {t t' : Tree} {name v : List Char} (h : put t name v = .ok t') (p : List Key) :
    t'.at p = if p = frags name then some v else match t.at p with
        | some d => some d
        | none => if p <+: frags name then some [] else none := by
  unfold put at h
  split at h
  · cases h; exact at_put ..
  · split at h
    · cases h
    · cases h; exact at_put ..

/-! ## The command line -/

/-- What the property at `p` should be after the settings `(name, value)` were given in this order (`args`, last one first): the last
value given for that name, the empty string if only a longer name below it was given, and nothing otherwise. -/
def expected (p : List Key) : List (List Char × List Char) → Option (List Char)
  | [] => if p = [] then some [] else none
  | (name, value) :: earlier => if p = frags name then some value else match expected p earlier with
      | some d => some d
      | none => if p <+: frags name then some [] else none

theorem parse_at (args : List (List Char)) (t t' : Tree) (before : List (List Char × List Char)) (hb : ∀ p, t.at p = expected p before)
    (h : parseCommandLine t args = .ok t') (p : List Key) :
    t'.at p = expected p ((args.filterMap parseArg).reverse ++ before) := by
  induction args generalizing t before with
  | nil => simp only [parseCommandLine, Res.ok.injEq] at h; subst h; simpa using hb p
  | cons a as ih =>
    simp only [parseCommandLine] at h
    cases ha : parseArg a with
    | none => rw [ha] at h; simpa [List.filterMap_cons, ha] using ih t before hb h
    | some nv =>
      obtain ⟨name, value⟩ := nv
      rw [ha] at h
      obtain ⟨t1, h1, h2⟩ := Res.bind_eq_ok.1 h
      have := ih t1 ((name, value) :: before) (fun p => by rw [put_at h1 p, hb p]; rfl) h2
      simpa [List.filterMap_cons, ha, List.append_assoc] using this

/-- The settings given on a command line, in order. -/
def given (args : List (List Char)) : List (List Char × List Char) := args.filterMap parseArg

theorem expected_last (p : List Key) (settings : List (List Char × List Char)) :
    (∀ pre name value post, settings = pre ++ (name, value) :: post → frags name = p → (∀ nv ∈ post, frags nv.1 ≠ p) →
      expected p settings.reverse = some value) ∧
    ((∀ nv ∈ settings, frags nv.1 ≠ p) → (∃ nv ∈ settings, p <+: frags nv.1) → expected p settings.reverse = some []) ∧
    ((∀ nv ∈ settings, ¬ p <+: frags nv.1) → expected p settings.reverse = if p = [] then some [] else none) := by
  induction settings using List.reverseRecOn with
  | nil => simp [expected]
  | append_singleton settings nv ih =>
    obtain ⟨n, v⟩ := nv
    simp only [List.reverse_append, List.reverse_cons, List.reverse_nil, List.nil_append, List.singleton_append, expected]
    obtain ⟨ih1, ih2, ih3⟩ := ih
    refine ⟨?_, ?_, ?_⟩
    · intro pre name value post he hp hpost
      rcases List.eq_nil_or_concat post with rfl | ⟨post', last, rfl⟩
      · have := List.append_inj_right' he rfl
        simp only [List.cons.injEq, Prod.mk.injEq, and_true] at this
        obtain ⟨rfl, rfl⟩ := this
        rw [if_pos hp.symm]
      · have he' : settings ++ [(n, v)] = (pre ++ (name, value) :: post') ++ [last] := by simpa using he
        have h1 := List.append_inj_left' he' rfl
        have h2 := List.append_inj_right' he' rfl
        simp only [List.cons.injEq, and_true] at h2
        subst h2
        have hne : p ≠ frags n := fun hc => hpost (n, v) (by simp) hc.symm
        rw [if_neg hne, ih1 pre name value post' h1 hp (fun nv hnv => hpost nv (by simp [hnv]))]
    · intro hne hex
      have hn : p ≠ frags n := fun hc => hne (n, v) (by simp) hc.symm
      rw [if_neg hn]
      by_cases hx : ∃ nv ∈ settings, p <+: frags nv.1
      · rw [ih2 (fun nv hnv => hne nv (by simp [hnv])) hx]
      · push Not at hx
        rw [ih3 hx]
        obtain ⟨nv, hnv, hpre⟩ := hex
        simp only [List.mem_append, List.mem_singleton] at hnv
        rcases hnv with hnv | rfl
        · exact absurd hpre (hx nv hnv)
        · by_cases hp : p = []
          · simp [hp]
          · simp only [if_neg hp]; rw [if_pos hpre]
    · intro hno
      have h1 := hno (n, v) (by simp)
      have hn : p ≠ frags n := fun hc => h1 (hc ▸ List.prefix_refl _)
      rw [if_neg hn, ih3 (fun nv hnv => hno nv (by simp [hnv]))]
      by_cases hp : p = []
      · simp [hp]
      · simp [hp, h1]

/-- **C34** (last value wins).  After parsing any command line: a property that was given has the value given last for its name (names being
compared as dotted paths); a property that was not given but is the beginning of one that was (`a` when `a.b` was given) is the
empty string; every other one is missing.  The nameless property is always there. -/
theorem C34_last_wins (args : List (List Char)) (t : Tree) (h : fromCommandLine args = .ok t) (name : List Char) :
    (∀ pre n value post, given args = pre ++ (n, value) :: post → frags n = frags name → (∀ nv ∈ post, frags nv.1 ≠ frags name) →
      lookup t name = some value) ∧
    ((∀ nv ∈ given args, frags nv.1 ≠ frags name) → (∃ nv ∈ given args, frags name <+: frags nv.1) → lookup t name = some []) ∧
    ((∀ nv ∈ given args, ¬ frags name <+: frags nv.1) → lookup t name = if frags name = [] then some [] else none) := by
  have hp := parse_at args .empty t [] (fun p => empty_at p) h (frags name)
  rw [List.append_nil] at hp
  rw [lookup_eq, hp]
  exact expected_last (frags name) (given args)

theorem takeWhile_eq (name l : List Char) (hn : '=' ∉ name) : (name ++ '=' :: l).takeWhile (fun c => decide (c ≠ '=')) = name := by
  induction name with
  | nil => simp
  | cons c cs ih =>
    simp only [List.mem_cons, not_or] at hn
    simp only [List.cons_append]
    rw [List.takeWhile_cons_of_pos (by simpa using Ne.symm hn.1), ih hn.2]

theorem dropWhile_eq (name l : List Char) (hn : '=' ∉ name) : (name ++ '=' :: l).dropWhile (fun c => decide (c ≠ '=')) = '=' :: l := by
  induction name with
  | nil => simp
  | cons c cs ih =>
    simp only [List.mem_cons, not_or] at hn
    simp only [List.cons_append]
    rw [List.dropWhile_cons_of_pos (by simpa using Ne.symm hn.1), ih hn.2]

theorem takeWhile_self (name : List Char) (hn : '=' ∉ name) : name.takeWhile (fun c => decide (c ≠ '=')) = name := by
  induction name with
  | nil => simp
  | cons c cs ih =>
    simp only [List.mem_cons, not_or] at hn
    rw [List.takeWhile_cons_of_pos (by simpa using Ne.symm hn.1), ih hn.2]

/-- **C34** (form of an argument).  `--name=value` gives `value` - which may contain further `=` signs - to `name`; `--name` without `=` gives
the name itself as the value; arguments not starting with `--` are ignored. -/
theorem C34_argument (name value rest : List Char) (hn : '=' ∉ name) :
    parseArg ('-' :: '-' :: name ++ '=' :: value) = some (name, value) ∧
    parseArg ('-' :: '-' :: name) = some (name, name) ∧
    (¬ ['-', '-'] <+: rest → parseArg rest = none) := by
  refine ⟨?_, ?_, ?_⟩
  · show some ((name ++ '=' :: value).takeWhile _, if '=' ∈ name ++ '=' :: value then ((name ++ '=' :: value).dropWhile _).tail else _) = _
    rw [takeWhile_eq name value hn, dropWhile_eq name value hn]
    simp
  · show some (name.takeWhile _, if '=' ∈ name then _ else _) = _
    rw [takeWhile_self name hn, if_neg hn]
  · intro hr
    unfold parseArg
    split
    · next r => exact absurd ⟨r, rfl⟩ hr
    · rfl

/-- **C34** (independence).  `put` changes no property but the one named, except that missing properties on the way to it become empty. -/
theorem C34_put_other (t t' : Tree) (name value other : List Char) (h : put t name value = .ok t') :
    lookup t' name = some value ∧
    (frags other ≠ frags name → ¬ frags other <+: frags name → lookup t' other = lookup t other) ∧
    (frags other ≠ frags name → lookup t other ≠ none → lookup t' other = lookup t other) := by
  refine ⟨?_, ?_, ?_⟩
  · rw [lookup_eq, put_at h, if_pos rfl]
  · intro h1 h2
    rw [lookup_eq, lookup_eq, put_at h, if_neg h1]
    cases t.at (frags other) <;> simp [h2]
  · intro h1 h2
    rw [lookup_eq] at h2
    rw [lookup_eq, lookup_eq, put_at h, if_neg h1]
    cases hx : t.at (frags other) with
    | none => exact absurd hx h2
    | some d => rfl

variable {α : Type}

/-- **C34** (typed access).  A property put with a value is read back as that value when its textual form can be read back; a mandatory property that
is missing or cannot be converted throws; an optional one then has the default value. -/
theorem C34_typed (tr : Translator α) (t : Tree) (name : List Char) (v dflt : α) :
    (∀ t' s, tr.write v = some s → putValue tr t name v = .ok (t', true) → tr.read s = some v →
      getMandatory tr t' name = .ok v ∧ getDefault tr t' name dflt = v) ∧
    ((lookup t name).bind tr.read = none → getMandatory tr t name = .throw "runtime_error" ∧ getDefault tr t name dflt = dflt) ∧
    (∀ s x, lookup t name = some s → tr.read s = some x → getMandatory tr t name = .ok x ∧ getDefault tr t name dflt = x) := by
  refine ⟨?_, ?_, ?_⟩
  · intro t' s hw hp hr
    unfold putValue at hp
    rw [hw] at hp
    obtain ⟨t1, h1, h2⟩ := Res.bind_eq_ok.1 hp
    simp only [Res.pure_eq, Res.ok.injEq, Prod.mk.injEq, and_true] at h2
    subst h2
    have := (C34_put_other t t1 name s name h1).1
    simp [getMandatory, getDefault, this, hr]
  · intro h
    simp [getMandatory, getDefault, h]
  · intro s x h1 h2
    simp [getMandatory, getDefault, h1, h2]

/-- **C34** (failing put).  When the value cannot be written, `put` returns false and no existing property changes. -/
theorem C34_put_fails (tr : Translator α) (t t' : Tree) (name : List Char) (v : α) (b : Bool) (hw : tr.write v = none)
    (h : putValue tr t name v = .ok (t', b)) : b = false ∧ ∀ other, lookup t other ≠ none → lookup t' other = lookup t other := by
  unfold putValue at h
  rw [hw] at h
  simp only at h
  split at h
  · cases h; exact ⟨rfl, fun _ _ => rfl⟩
  · next hc =>
    obtain ⟨t1, h1, h2⟩ := Res.bind_eq_ok.1 h
    simp only [Res.pure_eq, Res.ok.injEq, Prod.mk.injEq] at h2
    obtain ⟨rfl, rfl⟩ := h2
    refine ⟨rfl, fun other ho => ?_⟩
    by_cases he : frags other = frags name
    · exfalso; apply ho; rw [lookup_eq, he]; simp [Tree.at, hc]
    · exact (C34_put_other t t1 name [] other h1).2.2 he ho

/-! ## Merging -/

mutual
/-- Names of children are non-empty and contain no dot. -/
def Simple : Tree → Prop
  | .node _ f => SimpleF f
def SimpleF : Forest → Prop
  | .nil => True
  | .cons k t rest => (k ≠ [] ∧ '.' ∉ k) ∧ Simple t ∧ SimpleF rest
end

mutual
/-- No node has two children of the same name. -/
def NoDup : Tree → Prop
  | .node _ f => NoDupF f
def NoDupF : Forest → Prop
  | .nil => True
  | .cons k t rest => rest.find k = none ∧ NoDup t ∧ NoDupF rest
end

theorem pieces_simple (k : List Char) (h : '.' ∉ k) : pieces k = [k] := by
  induction k with
  | nil => rfl
  | cons c cs ih =>
    simp only [List.mem_cons, not_or] at h
    simp [pieces, ih h.2, Ne.symm h.1]

theorem frags_simple (k : List Char) (h : k ≠ [] ∧ '.' ∉ k) : frags k = [k] := by
  simp [frags, pieces_simple k h.2, h.1]

theorem getLast_simple (k : List Char) (h : k ≠ [] ∧ '.' ∉ k) : ¬ (k = [] ∨ k.getLast? = some '.') := by
  rintro (h1 | h1)
  · exact h.1 h1
  · exact h.2 (List.mem_of_getLast? h1)

theorem find_modify1 (m : Tree) (k k' : Key) (s : Tree) :
    (m.modify [k] (fun _ => s)).kids.find k' = if k' = k then some s else m.kids.find k' := by
  simp only [Tree.modify, Tree.kids, find_update]

theorem data_modify1 (m : Tree) (k : Key) (s : Tree) : (m.modify [k] (fun _ => s)).data = m.data := rfl

mutual
theorem merge_left (l r : Tree) (hr : Simple r) : ∃ m, merge l r = .ok m ∧ ∀ p, l.at p ≠ none → m.at p = l.at p := by
  match r with
  | .node d f =>
    obtain ⟨m, h1, h2⟩ := mergeKids_left l f hr
    exact ⟨m, h1, h2⟩
theorem mergeKids_left (m : Tree) (f : Forest) (hf : SimpleF f) :
    ∃ m', mergeKids m f = .ok m' ∧ ∀ p, m.at p ≠ none → m'.at p = m.at p := by
  match f with
  | .nil => exact ⟨m, rfl, fun _ _ => rfl⟩
  | .cons k t rest =>
    simp only [SimpleF] at hf
    obtain ⟨hk, ht, hrest⟩ := hf
    simp only [mergeKids]
    cases hfind : m.kids.find k with
    | some found =>
      obtain ⟨sub, h1, h2⟩ := merge_left found t ht
      obtain ⟨m', h3, h4⟩ := mergeKids_left (m.modify [k] (fun _ => sub)) rest hrest
      have hc : m.child [k] = some found := by simp [Tree.child, hfind]
      refine ⟨m', by simp [h1, frags_simple k hk, hc, h3], ?_⟩
      have hstep : ∀ p, m.at p ≠ none → (m.modify [k] (fun _ => sub)).at p = m.at p := by
        intro p hp
        cases p with
        | nil => simp [at_nil, data_modify1]
        | cons k' ks =>
          simp only [at_cons, find_modify1]
          by_cases he : k' = k
          · subst he
            simp only [if_true, Option.bind_some, hfind]
            apply h2
            simpa [at_cons, hfind] using hp
          · simp [he]
      intro p hp
      rw [h4 p (by rw [hstep p hp]; exact hp), hstep p hp]
    | none =>
      obtain ⟨m', h3, h4⟩ := mergeKids_left (m.modify [k] (fun _ => t)) rest hrest
      have hnd := getLast_simple k hk
      refine ⟨m', by simp only [if_neg hnd, frags_simple k hk, h3], ?_⟩
      have hstep : ∀ p, m.at p ≠ none → (m.modify [k] (fun _ => t)).at p = m.at p := by
        intro p hp
        cases p with
        | nil => simp [at_nil, data_modify1]
        | cons k' ks =>
          simp only [at_cons, find_modify1]
          by_cases he : k' = k
          · subst he
            exfalso; apply hp; simp [at_cons, hfind]
          · simp [he]
      intro p hp
      rw [h4 p (by rw [hstep p hp]; exact hp), hstep p hp]
end

mutual
theorem merge_spec (l r : Tree) (hr : Simple r) (hd : NoDup r) :
    ∃ m, merge l r = .ok m ∧ ∀ p, m.at p = (l.at p).or (r.at p) := by
  match r with
  | .node d f =>
    obtain ⟨m, h1, h2, h3⟩ := mergeKids_spec l f hr hd
    refine ⟨m, h1, ?_⟩
    intro p
    cases p with
    | nil => rw [at_nil, at_nil, h2]; rfl
    | cons k ks => rw [h3 k ks]; simp [at_cons, Tree.kids]
theorem mergeKids_spec (m : Tree) (f : Forest) (hf : SimpleF f) (hd : NoDupF f) :
    ∃ m', mergeKids m f = .ok m' ∧ m'.data = m.data ∧
      ∀ k ks, m'.at (k :: ks) = (m.at (k :: ks)).or ((f.find k).bind (fun s => s.at ks)) := by
  match f with
  | .nil => exact ⟨m, rfl, rfl, fun k ks => by simp [Forest.find]⟩
  | .cons k t rest =>
    simp only [SimpleF] at hf
    obtain ⟨hk, ht, hrest⟩ := hf
    simp only [NoDupF] at hd
    obtain ⟨hdk, hdt, hdr⟩ := hd
    simp only [mergeKids]
    cases hfind : m.kids.find k with
    | some found =>
      obtain ⟨sub, h1, h2⟩ := merge_spec found t ht hdt
      obtain ⟨m', h3, h4, h5⟩ := mergeKids_spec (m.modify [k] (fun _ => sub)) rest hrest hdr
      have hc : m.child [k] = some found := by simp [Tree.child, hfind]
      refine ⟨m', by simp [h1, frags_simple k hk, hc, h3], h4, ?_⟩
      intro k' ks
      rw [h5 k' ks]
      simp only [at_cons, find_modify1, Forest.find]
      by_cases he : k' = k
      · subst he
        simp [hdk, hfind, h2]
      · simp [he, Ne.symm he]
    | none =>
      obtain ⟨m', h3, h4, h5⟩ := mergeKids_spec (m.modify [k] (fun _ => t)) rest hrest hdr
      refine ⟨m', by simp only [if_neg (getLast_simple k hk), frags_simple k hk, h3], h4, ?_⟩
      intro k' ks
      rw [h5 k' ks]
      simp only [at_cons, find_modify1, Forest.find]
      by_cases he : k' = k
      · subst he
        simp [hdk, hfind]
      · simp [he, Ne.symm he]
end

/-- **C35** (merge).  Merging settings succeeds, and afterwards every property has its value from the left settings if it is there, otherwise
from the right ones: nothing is lost and the left side wins.  (Names on the right are plain and not repeated within a node.) -/
theorem C35_merge (l r : Tree) (hr : Simple r) (hd : NoDup r) :
    ∃ m, merge l r = .ok m ∧ ∀ name, lookup m name = match lookup l name with
      | some v => some v
      | none => lookup r name := by
  obtain ⟨m, h1, h2⟩ := merge_spec l r hr hd
  refine ⟨m, h1, fun name => ?_⟩
  simp only [lookup_eq, h2]
  cases l.at (frags name) <;> rfl

/-- **C35** (left side).  Even with repeated names on the right no property of the left side changes. -/
theorem C35_left_kept (l r : Tree) (hr : Simple r) :
    ∃ m, merge l r = .ok m ∧ ∀ name, lookup l name ≠ none → lookup m name = lookup l name := by
  obtain ⟨m, h1, h2⟩ := merge_left l r hr
  exact ⟨m, h1, fun name h => h2 (frags name) h⟩

/-- **C35** (dotted names).  A child whose name contains a dot (possible in an XML file) is found by its name but looked up as a path: when both
sides have a child `a.b` and the left side has no property `a.b` below a child `a`, merging throws. -/
theorem C35_dotted_name_throws (l : Tree) (k : Key) (found t : Tree) (d : List Char) (rest : Forest) (hfind : l.kids.find k = some found)
    (hchild : l.child (frags k) = none) (ht : Simple t) : (merge l (.node d (.cons k t rest))).threw := by
  obtain ⟨sub, h1, _⟩ := merge_left found t ht
  simp [merge, mergeKids, hfind, h1, hchild]

theorem put_ok (t : Tree) (name value : List Char) (h : name.getLast? ≠ some '.') : ∃ t', put t name value = .ok t' := by
  unfold put
  split
  · exact ⟨_, rfl⟩
  · rw [if_neg h]; exact ⟨_, rfl⟩

/-- **C34** (parsing succeeds) unless a name ends in a dot. -/
theorem C34_parses (args : List (List Char)) (h : ∀ nv ∈ given args, nv.1.getLast? ≠ some '.') : ∃ t, fromCommandLine args = .ok t := by
  have : ∀ t, ∃ t', parseCommandLine t args = .ok t' := by
    induction args with
    | nil => exact fun t => ⟨t, rfl⟩
    | cons a as ih =>
      intro t
      simp only [parseCommandLine]
      cases ha : parseArg a with
      | none => exact ih (fun nv hnv => h nv (by simpa [given, List.filterMap_cons, ha] using hnv)) t
      | some nv =>
        obtain ⟨name, value⟩ := nv
        obtain ⟨t1, h1⟩ := put_ok t name value (h (name, value) (by simp [given, List.filterMap_cons, ha]))
        obtain ⟨t2, h2⟩ := ih (fun nv hnv => h nv (by
          simp only [given, List.filterMap_cons, ha, List.mem_cons]; exact .inr hnv)) t1
        exact ⟨t2, by simp [h1, h2]⟩
  exact this _

/-! ## Non-vacuity -/

section Example

/-- `prog --a.b=1 --a.b=2 x --c` -/
def exArgs : List (List Char) := ["prog".toList, "--a.b=1".toList, "--a.b=2".toList, "x".toList, "--c".toList]

theorem C34_example : ∃ t, fromCommandLine exArgs = .ok t ∧ lookup t "a.b".toList = some "2".toList ∧ lookup t "a".toList = some [] ∧
    lookup t "c".toList = some "c".toList ∧ lookup t "b".toList = none := by
  exact ⟨_, rfl, by decide, by decide, by decide, by decide⟩

def exLeft : Tree := .node [] (.cons ['a'] (.node ['1'] (.cons ['x'] (.node ['2'] .nil) .nil)) .nil)
def exRight : Tree := .node ['r'] (.cons ['a'] (.node ['3'] (.cons ['x'] (.node ['4'] .nil) (.cons ['y'] (.node ['5'] .nil) .nil))) .nil)

theorem exRight_ok : Simple exRight ∧ NoDup exRight := by
  simp [exRight, Simple, SimpleF, NoDup, NoDupF, Forest.find]

theorem C35_example : ∃ m, merge exLeft exRight = .ok m ∧ lookup m "a".toList = some ['1'] ∧ lookup m "a.x".toList = some ['2'] ∧
    lookup m "a.y".toList = some ['5'] := by
  obtain ⟨m, h1, h2⟩ := C35_merge exLeft exRight exRight_ok.1 exRight_ok.2
  exact ⟨m, h1, by rw [h2]; decide, by rw [h2]; decide, by rw [h2]; decide⟩

/-- A tree with a child `a.b`. -/
def exDotted : Tree := .node [] (.cons "a.b".toList .empty .nil)

theorem C35_example_dotted : (merge exDotted exDotted).threw :=
  C35_dotted_name_throws exDotted "a.b".toList .empty .empty [] .nil rfl (by decide) (by simp [Tree.empty, Simple, SimpleF])

end Example

end K52.Settings
