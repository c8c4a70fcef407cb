import Verif.Model.Text
import Verif.Lemmas.Family

/-! # Property C16: the text form of individuals and populations -/

set_option linter.unusedSectionVars false

namespace K52.Text
open K52.Indiv K52.GA

variable {P R : Type} [DiscreteParams P] [Add R] [Sub R] [Mul R] [Div R] [Zero R] [One R] [NatCast R] [LinearOrder R]

/-! ### Streams -/

theorem readWord_token (w rest : List Char) (old : List Char) (sp : List Char) (hsp : ∀ c ∈ sp, isSpace c = true)
    (hw : ∀ c ∈ w, isSpace c = false) (hne : w ≠ []) (d : Char) (hd : isSpace d = true) :
    readWord ⟨sp ++ w ++ d :: rest, false⟩ old = (w, ⟨d :: rest, false⟩) := by
  have h1 : (sp ++ w ++ d :: rest).dropWhile isSpace = w ++ d :: rest := by
    rw [List.append_assoc, List.dropWhile_append_of_pos hsp]
    cases w with
    | nil => exact absurd rfl hne
    | cons c cs => simp [hw c List.mem_cons_self]
  unfold readWord
  simp only [Bool.false_eq_true, if_false, h1]
  cases w with
  | nil => exact absurd rfl hne
  | cons c cs =>
    have ht : ∀ (l : List Char), (∀ x ∈ l, isSpace x = false) →
        (l ++ d :: rest).takeWhile (fun x => !isSpace x) = l ∧ (l ++ d :: rest).dropWhile (fun x => !isSpace x) = d :: rest := by
      intro l
      induction l with
      | nil => intro _; simp [hd]
      | cons x xs ih =>
        intro hx
        obtain ⟨a, b⟩ := ih (fun y hy => hx y (List.mem_cons_of_mem _ hy))
        simp [hx x List.mem_cons_self, a, b]
    obtain ⟨a, b⟩ := ht (c :: cs) hw
    simp only [List.cons_append] at a b ⊢
    simp only [a, b]

theorem isSpace_num {c : Char} (h : isSpace c = true) : isNumChar c = false := by
  unfold isSpace at h
  simp only [Bool.or_eq_true, beq_iff_eq] at h
  rcases h with ((((rfl | rfl) | rfl) | rfl) | rfl) | rfl <;> decide

theorem num_isSpace {c : Char} (h : isNumChar c = true) : isSpace c = false := by
  by_contra hc
  have := isSpace_num (by simpa using hc : isSpace c = true)
  rw [h] at this; simp at this

theorem readNum_token {α : Type} (zero x : α) (parse : List Char → Option α) (w rest : List Char) (sp : List Char)
    (hsp : ∀ c ∈ sp, isSpace c = true) (hw : ∀ c ∈ w, isNumChar c = true) (hne : w ≠ []) (d : Char) (hd : isSpace d = true)
    (hp : parse w = some x) :
    readNum zero parse ⟨sp ++ w ++ d :: rest, false⟩ = (x, ⟨d :: rest, false⟩) := by
  have h1 : (sp ++ w ++ d :: rest).dropWhile isSpace = w ++ d :: rest := by
    rw [List.append_assoc, List.dropWhile_append_of_pos hsp]
    cases w with
    | nil => exact absurd rfl hne
    | cons c cs => simp [num_isSpace (hw c List.mem_cons_self)]
  have ht : ∀ (l : List Char), (∀ x ∈ l, isNumChar x = true) →
      (l ++ d :: rest).takeWhile isNumChar = l ∧ (l ++ d :: rest).dropWhile isNumChar = d :: rest := by
    intro l
    induction l with
    | nil => intro _; simp [isSpace_num hd]
    | cons x xs ih =>
      intro hx
      obtain ⟨a, b⟩ := ih (fun y hy => hx y (List.mem_cons_of_mem _ hy))
      simp [hx x List.mem_cons_self, a, b]
  obtain ⟨a, b⟩ := ht w hw
  unfold readNum
  simp only [Bool.false_eq_true, if_false, h1, a, b, hp]

theorem parseBits_map : ∀ (bs : List Bool), parseBits (bs.map (fun b => if b then '1' else '0')) = some bs
  | [] => rfl
  | true :: bs => by simp [parseBits, parseBits_map bs]
  | false :: bs => by
    have : ('0' : Char) ≠ '1' := by decide
    simp [parseBits, parseBits_map bs, this]

theorem parseBits_some : ∀ (cs : List Char) (bs : List Bool), parseBits cs = some bs → cs = bs.map (fun b => if b then '1' else '0')
  | [], bs, h => by simp only [parseBits, Option.some.injEq] at h; subst h; rfl
  | c :: cs, bs, h => by
    unfold parseBits at h
    split at h
    · next hc =>
      cases hp : parseBits cs with
      | none => rw [hp] at h; simp at h
      | some b' =>
        rw [hp] at h
        simp only [Option.map_some, Option.some.injEq] at h
        subst h
        simp [hc, ← parseBits_some cs b' hp]
    · split at h
      · next hc =>
        cases hp : parseBits cs with
        | none => rw [hp] at h; simp at h
        | some b' =>
          rw [hp] at h
          simp only [Option.map_some, Option.some.injEq] at h
          subst h
          simp [hc, ← parseBits_some cs b' hp]
      · simp at h

/-! ### C16 -/

/-- **C16 (individual).** Writing an evaluated individual with a non-empty chromosome and reading the text (followed by anything) into an
initialised individual with a chromosome of the same size restores the chromosome, sets the fitness to the written one rounded to the
printed digits, and leaves the stream just after the number; the parameters are set to what the chromosome decodes to.  It throws exactly
when the rounded fitness is negative or the parameters reject the chromosome. -/
theorem C16_roundtrip (F : Format R) (round : R → R) (hF : F.Sane round) (i j : Indiv P R) (text rest : List Char)
    (hw : write F i = .ok text) (hne : i.chrom ≠ []) (hj : j.init = true) (hl : j.chrom.length = i.chrom.length)
    (h0 : 0 ≤ round i.fitness) (q : P) (pj : P) (hpj : j.params = some pj) (hdec : DiscreteParams.setFrom pj i.chrom = (q, .ok ())) :
    read F j ⟨text ++ rest, false⟩ =
      ({ j with chrom := i.chrom, params := some q, fitness := round i.fitness, hasFitness := true }, ⟨'\n' :: rest, false⟩, .ok ()) := by
  unfold write at hw
  split at hw
  · simp only [getFitness] at hw
    split at hw
    · next hfit =>
      simp only [Res.ok_bind, Res.pure_eq, Res.ok.injEq] at hw
      subst hw
      have e0 : ("Chromosome:\t".toList ++ List.map (fun b => if b = true then '1' else '0') i.chrom ++ "\tFitness:\t".toList ++
          F.fmt i.fitness ++ ['\n'] ++ rest) =
          [] ++ "Chromosome:".toList ++ '\t' :: (List.map (fun b => if b = true then '1' else '0') i.chrom ++ '\t' ::
            ("Fitness:".toList ++ '\t' :: (F.fmt i.fitness ++ '\n' :: rest))) := by
        simp
      have hbits : ∀ c ∈ List.map (fun b => if b = true then '1' else '0') i.chrom, isSpace c = false := by
        intro c hc
        simp only [List.mem_map] at hc
        obtain ⟨b, _, rfl⟩ := hc
        cases b <;> decide
      have r1 : readWord ⟨"Chromosome:\t".toList ++ List.map (fun b => if b = true then '1' else '0') i.chrom ++ "\tFitness:\t".toList ++
          F.fmt i.fitness ++ ['\n'] ++ rest, false⟩ [] = ("Chromosome:".toList, ⟨'\t' :: (List.map (fun b => if b = true then '1' else '0') i.chrom ++ '\t' ::
            ("Fitness:".toList ++ '\t' :: (F.fmt i.fitness ++ '\n' :: rest))), false⟩) := by
        rw [e0]
        exact readWord_token _ _ _ [] (by simp) (by decide) (by decide) '\t' (by decide)
      have r2 : readWord ⟨'\t' :: (List.map (fun b => if b = true then '1' else '0') i.chrom ++ '\t' ::
            ("Fitness:".toList ++ '\t' :: (F.fmt i.fitness ++ '\n' :: rest))), false⟩ [] =
          (List.map (fun b => if b = true then '1' else '0') i.chrom, ⟨'\t' ::
            ("Fitness:".toList ++ '\t' :: (F.fmt i.fitness ++ '\n' :: rest)), false⟩) :=
        readWord_token _ _ _ ['\t'] (by decide) hbits (by simpa using hne) '\t' (by decide)
      have r3 : ∀ old, readWord ⟨'\t' :: ("Fitness:".toList ++ '\t' :: (F.fmt i.fitness ++ '\n' :: rest)), false⟩ old =
          ("Fitness:".toList, ⟨'\t' :: (F.fmt i.fitness ++ '\n' :: rest), false⟩) :=
        fun old => readWord_token _ _ old ['\t'] (by decide) (by decide) (by decide) '\t' (by decide)
      have r4 : readNum 0 F.num ⟨'\t' :: (F.fmt i.fitness ++ '\n' :: rest), false⟩ = (round i.fitness, ⟨'\n' :: rest, false⟩) :=
        readNum_token 0 _ F.num _ _ ['\t'] (by decide) (hF.chars _).2 (hF.chars _).1 '\n' (by decide) (hF.num _)
      unfold read
      simp only [r1, r2, r3, r4, hj, Bool.not_true, Bool.false_eq_true, if_false, List.length_map, hl, ne_eq, not_true, parseBits_map]
      have hs : setFitness (⟨true, some pj, i.chrom, j.hasFitness, j.fitness⟩ : Indiv P R) (round i.fitness) =
            .ok ⟨true, some pj, i.chrom, true, round i.fitness⟩ := if_neg (not_lt.2 h0)
      simp only [hpj, hs, setParams, if_true, hdec]
    · simp at hw
  · simp at hw

/-- **C16 (only well-formed text is accepted).** If reading returns normally, the second word of the text was exactly the new chromosome
written with the characters 0 and 1, of the individual's chromosome size; otherwise it throws (or is undefined in the parameters), and
unless the fitness was negative or the parameters rejected the chromosome the individual is unchanged.  The labels are not checked. -/
theorem C16_accepts (F : Format R) (i : Indiv P R) (s : In) :
    let word := (readWord (readWord s []).2 []).1
    let r := read F i s
    (r.2.2 = .ok () → i.init = true ∧ r.1.chrom.length = i.chrom.length ∧ word = r.1.chrom.map (fun b => if b then '1' else '0') ∧
      r.1.hasFitness = true ∧ 0 ≤ r.1.fitness ∧ Synced r.1) ∧
    ((word.length ≠ i.chrom.length ∨ (∃ c ∈ word, c ≠ '0' ∧ c ≠ '1')) → r.2.2.threw ∧ r.1 = i) := by
  intro word r
  have hr : r = read F i s := rfl
  unfold read at hr
  simp only at hr
  constructor
  · intro hok
    split at hr
    · rw [hr] at hok; simp at hok
    · next hi =>
      split at hr
      · rw [hr] at hok; simp at hok
      · next hl =>
        split at hr
        · rw [hr] at hok; simp at hok
        · next bits hb =>
          split at hr
          · next j hj =>
            split at hr
            · next k hk =>
              rw [hr]
              obtain ⟨h0, rfl⟩ := setFitness_ok hj
              obtain ⟨q1, q2, q3, q4, q5⟩ := setParams_synced hk
              have hbits := parseBits_some _ _ hb
              refine ⟨by simpa using hi, ?_, ?_, by rw [q4], by rw [q5]; exact h0, q1⟩
              · rw [q3]
                simp only
                have : word.length = bits.length := by
                  have := congrArg List.length hbits
                  simpa using this
                rw [← this]; simpa using hl
              · rw [q3]; exact hbits
            · rw [hr] at hok; simp at hok
            · rw [hr] at hok; simp at hok
          · rw [hr] at hok; simp at hok
          · rw [hr] at hok; simp at hok
  · intro hbad
    rw [hr]
    split
    · exact ⟨trivial, rfl⟩
    · split
      · exact ⟨trivial, rfl⟩
      · next hl =>
        split
        · exact ⟨trivial, rfl⟩
        · next bits hb =>
          exfalso
          have hbits := parseBits_some _ _ hb
          rcases hbad with hbad | ⟨c, hc, h0, h1⟩
          · exact hl hbad
          · have hc' : c ∈ bits.map (fun b => if b then '1' else '0') := by rw [← hbits]; exact hc
            simp only [List.mem_map] at hc'
            obtain ⟨b, _, rfl⟩ := hc'
            cases b
            · exact h0 rfl
            · exact h1 rfl

/-- **C16 (empty chromosome, violation).** The text of an individual with an empty chromosome cannot be read back: the label after it is
taken for the chromosome. -/
theorem C16_empty (F : Format R) (i j : Indiv P R) (text rest : List Char) (hw : write F i = .ok text) (he : i.chrom = [])
    (hl : j.chrom = []) : (read F j ⟨text ++ rest, false⟩).2.2.threw := by
  unfold write at hw
  split at hw
  · simp only [getFitness] at hw
    split at hw
    · simp only [Res.ok_bind, Res.pure_eq, Res.ok.injEq] at hw
      subst hw
      have r1 : readWord ⟨"Chromosome:\t".toList ++ List.map (fun b => if b = true then '1' else '0') i.chrom ++ "\tFitness:\t".toList ++
          F.fmt i.fitness ++ ['\n'] ++ rest, false⟩ [] = ("Chromosome:".toList, ⟨'\t' :: ('\t' :: ("Fitness:".toList ++ '\t' :: (F.fmt i.fitness ++ '\n' :: rest))), false⟩) := by
        rw [he]
        have e0 : ("Chromosome:\t".toList ++ List.map (fun b => if b = true then '1' else '0') ([] : List Bool) ++ "\tFitness:\t".toList ++
          F.fmt i.fitness ++ ['\n'] ++ rest) = [] ++ "Chromosome:".toList ++ '\t' :: ('\t' :: ("Fitness:".toList ++ '\t' :: (F.fmt i.fitness ++ '\n' :: rest))) := by
          simp
        rw [e0]
        exact readWord_token _ _ _ [] (by simp) (by decide) (by decide) '\t' (by decide)
      have r2 : readWord ⟨'\t' :: ('\t' :: ("Fitness:".toList ++ '\t' :: (F.fmt i.fitness ++ '\n' :: rest))), false⟩ [] =
          ("Fitness:".toList, ⟨'\t' :: (F.fmt i.fitness ++ '\n' :: rest), false⟩) :=
        readWord_token _ _ _ ['\t', '\t'] (by decide) (by decide) (by decide) '\t' (by decide)
      refine ((C16_accepts F j _).2 (.inl ?_)).1
      rw [r1, r2, hl]
      show ("Fitness:".toList).length ≠ 0
      decide
    · simp at hw
  · simp at hw

/-- **C16 (negative fitness).** A text with a valid chromosome but a negative fitness throws after the chromosome has been replaced and
before the parameters are: the individual is left with parameters that do not match its chromosome. -/
theorem C16_negative (F : Format R) (round : R → R) (hF : F.Sane round) (j : Indiv P R) (bits : List Bool) (x : R) (rest : List Char)
    (hx : round x < 0) (hj : j.init = true) (hne : bits ≠ []) (hl : j.chrom.length = bits.length) :
    let r := read F j ⟨"Chromosome:\t".toList ++ bits.map (fun b => if b then '1' else '0') ++ "\tFitness:\t".toList ++ F.fmt x ++
      '\n' :: rest, false⟩
    r.2.2.threw ∧ r.1.chrom = bits ∧ r.1.params = j.params := by
  have hbits : ∀ c ∈ List.map (fun b => if b = true then '1' else '0') bits, isSpace c = false := by
    intro c hc
    simp only [List.mem_map] at hc
    obtain ⟨b, _, rfl⟩ := hc
    cases b <;> decide
  have e0 : ("Chromosome:\t".toList ++ List.map (fun b => if b = true then '1' else '0') bits ++ "\tFitness:\t".toList ++
      F.fmt x ++ '\n' :: rest) =
      [] ++ "Chromosome:".toList ++ '\t' :: (List.map (fun b => if b = true then '1' else '0') bits ++ '\t' ::
        ("Fitness:".toList ++ '\t' :: (F.fmt x ++ '\n' :: rest))) := by
    simp
  have r1 := readWord_token "Chromosome:".toList (List.map (fun b => if b = true then '1' else '0') bits ++ '\t' ::
        ("Fitness:".toList ++ '\t' :: (F.fmt x ++ '\n' :: rest))) [] [] (by simp) (by decide) (by decide) '\t' (by decide)
  have r2 : readWord ⟨'\t' :: (List.map (fun b => if b = true then '1' else '0') bits ++ '\t' ::
        ("Fitness:".toList ++ '\t' :: (F.fmt x ++ '\n' :: rest))), false⟩ [] = _ :=
    readWord_token _ _ _ ['\t'] (by decide) hbits (by simpa using hne) '\t' (by decide)
  have r3 : ∀ old, readWord ⟨'\t' :: ("Fitness:".toList ++ '\t' :: (F.fmt x ++ '\n' :: rest)), false⟩ old =
      ("Fitness:".toList, ⟨'\t' :: (F.fmt x ++ '\n' :: rest), false⟩) :=
    fun old => readWord_token _ _ old ['\t'] (by decide) (by decide) (by decide) '\t' (by decide)
  have r4 : readNum 0 F.num ⟨'\t' :: (F.fmt x ++ '\n' :: rest), false⟩ = (round x, ⟨'\n' :: rest, false⟩) :=
    readNum_token 0 _ F.num _ _ ['\t'] (by decide) (hF.chars _).2 (hF.chars _).1 '\n' (by decide) (hF.num _)
  intro r
  have hr : r = read F j ⟨"Chromosome:\t".toList ++ bits.map (fun b => if b then '1' else '0') ++ "\tFitness:\t".toList ++ F.fmt x ++
      '\n' :: rest, false⟩ := rfl
  rw [e0] at hr
  unfold read at hr
  have hs : ∀ k : Indiv P R, setFitness k (round x) = .throw "logic_error" := fun k => if_pos hx
  simp only [r1, r2, r3, r4, hj, Bool.not_true, Bool.false_eq_true, if_false, List.length_map, hl, ne_eq, not_true, parseBits_map,
    hs] at hr
  rw [hr]
  exact ⟨trivial, rfl, rfl⟩

/-- The individual that reading leaves behind for a written one. -/
def restored (round : R → R) (i : Indiv P R) : Indiv P R := { i with fitness := round i.fitness, hasFitness := true }

/-- **C16 (population).** Writing a population of evaluated, valid individuals (each holding what its non-empty chromosome decodes to) and
reading the file into a population of the same shape restores every individual in order, up to the rounding of the fitness. -/
theorem C16_population {Fam : P → Prop} {s : Nat} (F : Format R) (round : R → R) (hF : F.Sane round)
    (pop old : List (Indiv P R)) (text : List Char) (hs : 0 < s)
    (hpop : ∀ i ∈ pop, Good Fam s i ∧ Decoded Fam i ∧ Valid i ∧ 0 ≤ round i.fitness) (hold : ∀ i ∈ old, Good Fam s i)
    (hlen : old.length = pop.length) (hw : writePopulation F pop = .ok text) :
    ∃ out, readPopulation F pop.length old ⟨text, false⟩ = .ok (pop.map (restored round), out) := by
  have hall : ∀ (pop old : List (Indiv P R)) (text : List Char) (lead : List Char), (∀ c ∈ lead, isSpace c = true) →
      (∀ i ∈ pop, Good Fam s i ∧ Decoded Fam i ∧ Valid i ∧ 0 ≤ round i.fitness) → (∀ i ∈ old, Good Fam s i) →
      old.length = pop.length → writeAll F pop = .ok text →
      ∃ out, readAll F old ⟨lead ++ text, false⟩ = .ok (pop.map (restored round), out) := by
    intro pop
    induction pop with
    | nil =>
      intro old text lead _ _ _ hl _
      cases old with
      | nil => exact ⟨_, rfl⟩
      | cons => simp at hl
    | cons i is ih =>
      intro old text lead hlead hp ho hl hw
      cases old with
      | nil => simp at hl
      | cons o os =>
        unfold writeAll at hw
        rw [Res.bind_eq_ok] at hw
        obtain ⟨a, ha, hw⟩ := hw
        rw [Res.bind_eq_ok] at hw
        obtain ⟨b, hb, hw⟩ := hw
        simp only [Res.pure_eq, Res.ok.injEq] at hw
        subst hw
        obtain ⟨gi, di, vi, h0⟩ := hp i List.mem_cons_self
        have go := ho o List.mem_cons_self
        obtain ⟨q, dq1, dq2⟩ := di
        obtain ⟨po, hpo, fpo⟩ := go.2.1
        have hne : i.chrom ≠ [] := by
          intro hc; have := gi.2.2; rw [hc] at this; simp at this; omega
        -- leading white space does not matter
        have hskip : read F o ⟨lead ++ (a ++ b), false⟩ = read F o ⟨a ++ b, false⟩ := by
          have : readWord ⟨lead ++ (a ++ b), false⟩ [] = readWord ⟨a ++ b, false⟩ [] := by
            unfold readWord
            simp only [Bool.false_eq_true, if_false]
            rw [List.dropWhile_append_of_pos hlead]
          unfold read
          simp only [this]
        have hr := C16_roundtrip F round hF i o a b ha hne go.1 (by rw [go.2.2, gi.2.2]) h0 q po hpo (dq2 po fpo)
        rw [← hskip] at hr
        obtain ⟨out, hrest⟩ := ih os b ['\n'] (by decide) (fun x hx => hp x (List.mem_cons_of_mem _ hx))
          (fun x hx => ho x (List.mem_cons_of_mem _ hx)) (by simpa using hl) hb
        have heq : ({ o with chrom := i.chrom, params := some q, fitness := round i.fitness, hasFitness := true } : Indiv P R) =
            restored round i := by
          unfold restored
          rw [← dq1, go.1, gi.1]
        rw [heq] at hr
        have hv : isValid (restored round i) = .ok true := by
          obtain ⟨vi1, p, vi2, vi3⟩ := vi
          simp only [isValid, restored, vi1, if_true, checkParams, vi2, vi3]
        refine ⟨out, ?_⟩
        unfold readAll
        simp only [hr, hv, Res.ok_bind, if_true]
        have : (⟨'\n' :: b, false⟩ : In) = ⟨['\n'] ++ b, false⟩ := rfl
        rw [this, hrest]
        rfl
  cases pop with
  | nil => simp [writePopulation] at hw
  | cons i is =>
    cases old with
    | nil => simp at hlen
    | cons o os =>
      have gi := (hpop i List.mem_cons_self).1
      have go := hold o List.mem_cons_self
      unfold writePopulation at hw
      simp only [gi.1, if_true] at hw
      rw [Res.bind_eq_ok] at hw
      obtain ⟨body, hb, hw⟩ := hw
      simp only [Res.pure_eq, Res.ok.injEq] at hw
      obtain ⟨out, ho⟩ := hall (i :: is) (o :: os) body ['\n'] (by decide) hpop hold hlen hb
      have e0 : text = [] ++ "Population_size:".toList ++ ' ' :: ('\n' :: (F.fmtN (i :: is).length ++ '\n' ::
          ("Chromosome_size:".toList ++ ' ' :: ('\n' :: (F.fmtN i.chrom.length ++ '\n' :: body))))) := by
        rw [← hw]; simp
      have r1 := readWord_token "Population_size:".toList ('\n' :: (F.fmtN (i :: is).length ++ '\n' ::
          ("Chromosome_size:".toList ++ ' ' :: ('\n' :: (F.fmtN i.chrom.length ++ '\n' :: body))))) [] [] (by simp) (by decide) (by decide)
          ' ' (by decide)
      have r2 : readNum 0 F.numN ⟨' ' :: ('\n' :: (F.fmtN (i :: is).length ++ '\n' ::
          ("Chromosome_size:".toList ++ ' ' :: ('\n' :: (F.fmtN i.chrom.length ++ '\n' :: body))))), false⟩ = _ :=
        readNum_token 0 _ F.numN _ _ [' ', '\n'] (by decide) (hF.charsN _).2 (hF.charsN _).1 '\n' (by decide) (hF.numN _)
      have r3 : ∀ w, readWord ⟨'\n' :: ("Chromosome_size:".toList ++ ' ' :: ('\n' :: (F.fmtN i.chrom.length ++ '\n' :: body))), false⟩ w = _ :=
        fun w => readWord_token _ _ w ['\n'] (by decide) (by decide) (by decide) ' ' (by decide)
      have r4 : readNum 0 F.numN ⟨' ' :: ('\n' :: (F.fmtN i.chrom.length ++ '\n' :: body)), false⟩ = _ :=
        readNum_token 0 _ F.numN _ _ [' ', '\n'] (by decide) (hF.charsN _).2 (hF.charsN _).1 '\n' (by decide) (hF.numN _)
      refine ⟨out, ?_⟩
      rw [e0]
      unfold readPopulation
      simp only [r1, r2, r3, r4, ne_eq, not_true, if_false, go.1, Bool.not_true, Bool.false_eq_true]
      rw [if_neg (by rw [not_not, go.2.2, gi.2.2])]
      exact ho

/-! ### The hypotheses can be met -/

/-- A (unary) number format over the rationals that keeps the integer part. -/
def unaryFormat : Format ℚ where
  fmt x := List.replicate (⌊|x|⌋₊ + 1) (if x < 0 then '-' else '1')
  num w := match w with
    | [] => none
    | c :: cs => some (if c = '-' then -(cs.length : ℚ) else cs.length)
  fmtN n := List.replicate (n + 1) '1'
  numN w := match w with
    | [] => none
    | _ :: cs => some cs.length

example : unaryFormat.Sane (fun x => if x < 0 then -(⌊|x|⌋₊ : ℚ) else (⌊|x|⌋₊ : ℚ)) where
  chars x := by
    constructor
    · simp [unaryFormat]
    · intro c hc
      have := List.eq_of_mem_replicate hc
      subst this
      split <;> decide
  num x := by
    by_cases h : x < 0 <;> simp [unaryFormat, h, List.replicate_succ]
  charsN n := ⟨by simp [unaryFormat], fun c hc => by rw [List.eq_of_mem_replicate hc]; decide⟩
  numN n := by simp [unaryFormat, List.replicate_succ]

/-- **C16 (only valid individuals).** Whatever a population file contains: when reading it succeeds, the number in the file is the configured
population size, as many individuals as before are there, and every one of them is valid (its parameters satisfy their
constraints), has a fitness that is not negative and keeps the length of its chromosome. -/
theorem C16_population_valid (F : Format R) (n : Nat) (old pop : List (Indiv P R)) (s out : In)
    (h : readPopulation F n old s = .ok (pop, out)) :
    (readNum 0 F.numN (readWord s []).2).1 = n ∧
    List.Forall₂ (fun i j => isValid j = .ok true ∧ 0 ≤ j.fitness ∧ j.hasFitness = true ∧ j.chrom.length = i.chrom.length) old pop := by
  have hall : ∀ (old pop : List (Indiv P R)) (s out : In), readAll F old s = .ok (pop, out) →
      List.Forall₂ (fun i j => isValid j = .ok true ∧ 0 ≤ j.fitness ∧ j.hasFitness = true ∧ j.chrom.length = i.chrom.length) old pop := by
    intro old
    induction old with
    | nil =>
      intro pop s out h
      simp only [readAll, Res.ok.injEq, Prod.mk.injEq] at h
      rw [← h.1]; exact .nil
    | cons i is ih =>
      intro pop s out h
      simp only [readAll] at h
      split at h
      · next j s' hr =>
        obtain ⟨b, hb, h⟩ := Res.bind_eq_ok.1 h
        split at h
        · next hb' =>
          obtain ⟨rest, h1, h2⟩ := Res.bind_eq_ok.1 h
          simp only [Res.pure_eq, Res.ok.injEq, Prod.mk.injEq] at h2
          rw [← h2.1]
          have hacc := (C16_accepts F i s).1 (by rw [hr])
          rw [hr] at hacc
          refine .cons ⟨by rw [hb, hb'], hacc.2.2.2.2.1, hacc.2.2.2.1, hacc.2.1⟩ (ih rest.1 s' rest.2 h1)
        · cases h
      · cases h
      · cases h
  unfold readPopulation at h
  simp only at h
  split at h
  · cases h
  · next hn =>
    push Not at hn
    refine ⟨hn.symm, ?_⟩
    split at h
    · cases h
    · split at h
      · cases h
      · split at h
        · cases h
        · exact hall _ _ _ _ h

/-! ### Damaged files -/

/-- The characters `in >> x` collects for a number: digits, the point, the exponent letters and the signs. -/
theorem C16_number_chars (c : Char) :
    isNumChar c = true ↔ (c.val ≥ '0'.val ∧ c.val ≤ '9'.val) ∨ c = '.' ∨ c = 'e' ∨ c = 'E' ∨ c = '+' ∨ c = '-' := by
  unfold isNumChar Char.isDigit
  simp only [Bool.or_eq_true, Bool.and_eq_true, beq_iff_eq, decide_eq_true_eq]
  tauto

/-- What follows the chromosome of a text is not a number: nothing but white space, or a word that does not parse. -/
def NotANumber (F : Format R) (cs : List Char) : Prop := F.num ((cs.dropWhile isSpace).takeWhile isNumChar) = none

example : NotANumber unaryFormat " nan\n".toList ∧ NotANumber unaryFormat [] ∧ ¬ NotANumber unaryFormat " 11\n".toList := by
  refine ⟨rfl, rfl, ?_⟩
  intro h
  cases h

/-- **C16 (damaged fitness).** A text with a chromosome of the right size whose fitness cannot be parsed is accepted all the same: the
individual gets the chromosome, what it decodes to and the fitness 0; only the stream remembers the failure. -/
theorem C16_damaged (F : Format R) (j : Indiv P R) (bits : List Bool) (cs : List Char) (hcs : NotANumber F cs) (hj : j.init = true)
    (hne : bits ≠ []) (hl : j.chrom.length = bits.length) (k : Indiv P R)
    (hk : setParams { j with chrom := bits, fitness := (0 : R), hasFitness := true } = .ok k) :
    ∃ out, read F j ⟨"Chromosome:\t".toList ++ bits.map (fun b => if b then '1' else '0') ++ "\tFitness:\t".toList ++ cs, false⟩ =
      (k, ⟨out, true⟩, .ok ()) := by
  have hbits : ∀ c ∈ List.map (fun b => if b = true then '1' else '0') bits, isSpace c = false := by
    intro c hc
    simp only [List.mem_map] at hc
    obtain ⟨b, _, rfl⟩ := hc
    cases b <;> decide
  have hs : setFitness { j with chrom := bits } (0 : R) = .ok { j with chrom := bits, fitness := 0, hasFitness := true } := if_neg (lt_irrefl _)
  rw [hj] at hs hk
  have e0 : ("Chromosome:\t".toList ++ List.map (fun b => if b = true then '1' else '0') bits ++ "\tFitness:\t".toList ++ cs) =
      [] ++ "Chromosome:".toList ++ '\t' :: (List.map (fun b => if b = true then '1' else '0') bits ++ '\t' ::
        ("Fitness:".toList ++ '\t' :: cs)) := by
    simp
  have r1 := readWord_token "Chromosome:".toList (List.map (fun b => if b = true then '1' else '0') bits ++ '\t' ::
        ("Fitness:".toList ++ '\t' :: cs)) [] [] (by simp) (by decide) (by decide) '\t' (by decide)
  have r2 : readWord ⟨'\t' :: (List.map (fun b => if b = true then '1' else '0') bits ++ '\t' :: ("Fitness:".toList ++ '\t' :: cs)), false⟩ [] = _ :=
    readWord_token _ _ _ ['\t'] (by decide) hbits (by simpa using hne) '\t' (by decide)
  have r3 : ∀ old, readWord ⟨'\t' :: ("Fitness:".toList ++ '\t' :: cs), false⟩ old = ("Fitness:".toList, ⟨'\t' :: cs, false⟩) :=
    fun old => readWord_token _ _ old ['\t'] (by decide) (by decide) (by decide) '\t' (by decide)
  have r4 : readNum 0 F.num ⟨'\t' :: cs, false⟩ = (0, ⟨(cs.dropWhile isSpace).dropWhile isNumChar, true⟩) := by
    have ed : ('\t' :: cs).dropWhile isSpace = cs.dropWhile isSpace := by
      rw [List.dropWhile_cons, if_pos (by decide)]
    have hcs' := hcs
    unfold NotANumber at hcs'
    unfold readNum
    simp only [Bool.false_eq_true, if_false, ed, hcs']
  refine ⟨(cs.dropWhile isSpace).dropWhile isNumChar, ?_⟩
  rw [e0]
  unfold read
  simp only [r1, r2, r3, r4, hj, Bool.not_true, Bool.false_eq_true, if_false, List.length_map, hl, ne_eq, not_true, parseBits_map, hs, hk]

/-- **C16 (no fitness).** So is a text that ends right after the chromosome. -/
theorem C16_no_fitness (F : Format R) (j : Indiv P R) (bits : List Bool) (hj : j.init = true)
    (hne : bits ≠ []) (hl : j.chrom.length = bits.length) (k : Indiv P R)
    (hk : setParams { j with chrom := bits, fitness := (0 : R), hasFitness := true } = .ok k) :
    ∃ out, read F j ⟨"Chromosome:\t".toList ++ bits.map (fun b => if b then '1' else '0') ++ ['\n'], false⟩ = (k, ⟨out, true⟩, .ok ()) := by
  have hbits : ∀ c ∈ List.map (fun b => if b = true then '1' else '0') bits, isSpace c = false := by
    intro c hc
    simp only [List.mem_map] at hc
    obtain ⟨b, _, rfl⟩ := hc
    cases b <;> decide
  have hs : setFitness { j with chrom := bits } (0 : R) = .ok { j with chrom := bits, fitness := 0, hasFitness := true } := if_neg (lt_irrefl _)
  rw [hj] at hs hk
  have e0 : ("Chromosome:\t".toList ++ List.map (fun b => if b = true then '1' else '0') bits ++ ['\n']) =
      [] ++ "Chromosome:".toList ++ '\t' :: (List.map (fun b => if b = true then '1' else '0') bits ++ ['\n']) := by
    simp
  have r1 := readWord_token "Chromosome:".toList (List.map (fun b => if b = true then '1' else '0') bits ++ ['\n']) [] [] (by simp)
    (by decide) (by decide) '\t' (by decide)
  have r2 : readWord ⟨'\t' :: (List.map (fun b => if b = true then '1' else '0') bits ++ ['\n']), false⟩ [] = _ :=
    readWord_token _ _ _ ['\t'] (by decide) hbits (by simpa using hne) '\n' (by decide)
  have r3 : ∀ old, readWord ⟨['\n'], false⟩ old = (old, ⟨[], true⟩) := fun _ => rfl
  have r4 : readNum 0 F.num ⟨[], true⟩ = (0, ⟨[], true⟩) := rfl
  refine ⟨[], ?_⟩
  rw [e0]
  unfold read
  simp only [r1, r2, r3, r4, hj, Bool.not_true, Bool.false_eq_true, if_false, List.length_map, hl, ne_eq, not_true, parseBits_map, hs, hk]

/-- **C16 (failed stream).** From a failed stream no further individual can be read: reading throws and changes neither the individual nor the
stream; so does reading a population. -/
theorem C16_failed (F : Format R) (j : Indiv P R) (s : In) (hs : s.fail = true) (hne : j.chrom ≠ []) (n : Nat) (hn : 0 < n) (pop : List (Indiv P R)) :
    read F j s = (j, s, .throw "logic_error") ∧ readPopulation F n pop s = .throw "logic_error" := by
  have hw : ∀ old, readWord s old = (old, s) := fun old => by unfold readWord; rw [if_pos hs]
  have hr : ∀ {α : Type} (z : α) (f : List Char → Option α), readNum z f s = (z, s) := fun z f => by unfold readNum; rw [if_pos hs]
  constructor
  · unfold read
    simp only [hw, hr]
    have : ([] : List Char).length ≠ j.chrom.length := by
      intro h
      exact hne (List.length_eq_zero_iff.1 h.symm)
    split
    · rfl
    · rfl
  · unfold readPopulation
    simp only [hw, hr]
    rw [if_pos (by omega)]

/-- **C16 (truncated file).** A population file that is cut off within its last line, before the fitness, is read without an error: the last
individual gets the fitness 0. -/
theorem C16_truncated (F : Format R) (is js : List (Indiv P R)) (s out : In) (k : Indiv P R) (bits : List Bool) (j : Indiv P R)
    (hall : readAll F is s = .ok (js, out))
    (hout : out = ⟨'\n' :: ("Chromosome:\t".toList ++ bits.map (fun b => if b then '1' else '0') ++ ['\n']), false⟩)
    (hj : j.init = true) (hne : bits ≠ []) (hl : j.chrom.length = bits.length)
    (hk : setParams { j with chrom := bits, fitness := (0 : R), hasFitness := true } = .ok k) (hv : isValid k = .ok true) :
    ∃ o, readAll F (is ++ [j]) s = .ok (js ++ [k], o) ∧ o.fail = true := by
  induction is generalizing js s with
  | nil =>
    simp only [readAll, Res.ok.injEq, Prod.mk.injEq] at hall
    obtain ⟨rfl, rfl⟩ := hall
    have hd : ∀ (cs : List Char) old, readWord ⟨'\n' :: cs, false⟩ old = readWord ⟨cs, false⟩ old := by
      intro cs old
      unfold readWord
      rw [show ('\n' :: cs).dropWhile isSpace = cs.dropWhile isSpace by rw [List.dropWhile_cons, if_pos (by decide)]]
      rfl
    have he : ∀ cs, read F j ⟨'\n' :: cs, false⟩ = read F j ⟨cs, false⟩ := by
      intro cs
      unfold read
      rw [hd]
    obtain ⟨o, ho⟩ := C16_no_fitness F j bits hj hne hl k hk
    refine ⟨⟨o, true⟩, ?_, rfl⟩
    simp only [List.nil_append, readAll]
    rw [hout, he, ho]
    simp only [hv, Res.ok_bind, if_true]
    rfl
  | cons i is ih =>
    simp only [readAll] at hall
    split at hall
    · next i' s' hr =>
      obtain ⟨b, hb, hall⟩ := Res.bind_eq_ok.1 hall
      split at hall
      · next hb' =>
        obtain ⟨rest, h1, h2⟩ := Res.bind_eq_ok.1 hall
        simp only [Res.pure_eq, Res.ok.injEq, Prod.mk.injEq] at h2
        obtain ⟨rfl, rfl⟩ := h2
        obtain ⟨o, ho, hf⟩ := ih rest.1 s' h1
        refine ⟨o, ?_, hf⟩
        simp only [List.cons_append, readAll, hr, hb, Res.ok_bind, hb', if_true, ho]
        rfl
      · cases hall
    · cases hall
    · cases hall

end K52.Text
