import Verif.Proofs.SolFile
import Verif.Proofs.Arith
import Verif.Spec.Example
import Mathlib.Tactic.Linarith

/-! # Properties C47 - C49: the solution file of Clp and Cbc -/

namespace Verif

set_option linter.unusedSectionVars false
set_option linter.unusedSimpArgs false

theorem isBlank_iff (c : Char) : isBlank c = true ↔ Blank c := by
  simp [isBlank, Blank]

theorem SplitsInto.cons {c : Char} {s : List Char} {ws : List (List Char)} (hc : Blank c) (h : SplitsInto s ws) : SplitsInto (c :: s) ws := by
  cases h with
  | blanks h => exact .blanks (by simpa [hc] using h)
  | @last s w h h1 h2 => exact .last (s := c :: s) (by simpa [hc] using h) h1 h2
  | @word s w b t ws h h1 h2 h3 h4 => exact .word (s := c :: s) (by simpa [hc] using h) h1 h2 h3 h4

theorem wordsFrom_splits (s cur : List Char) (h : ∀ c ∈ cur, ¬ Blank c) : SplitsInto (cur ++ s) (wordsFrom cur s) := by
  induction s generalizing cur with
  | nil =>
    cases cur with
    | nil => exact .blanks (by simp)
    | cons c cur => simpa [wordsFrom] using SplitsInto.last (s := []) (by simp) (List.cons_ne_nil c cur) h
  | cons d s ih =>
    by_cases hd : Blank d
    · have hs : SplitsInto s (wordsFrom [] s) := ih [] (by simp)
      simp only [wordsFrom, (isBlank_iff d).2 hd, if_true]
      cases cur with
      | nil => exact hs.cons hd
      | cons c cur => simpa using SplitsInto.word (s := []) (by simp) (List.cons_ne_nil c cur) h hd hs
    · have : isBlank d = false := Bool.eq_false_iff.2 fun h' => hd ((isBlank_iff d).1 h')
      simp only [wordsFrom, this, Bool.false_eq_true, if_false]
      have := ih (cur ++ [d]) (by simp only [List.mem_append, List.mem_singleton]; rintro c (hc | rfl); exacts [h c hc, hd])
      simpa using this

theorem SplitsInto.words {s : List Char} {ws : List (List Char)} (h : SplitsInto s ws) : words s = ws := by
  have pre : ∀ s t : List Char, (∀ c ∈ s, Blank c) → Verif.words (s ++ t) = Verif.words t := by
    intro s t hs
    induction s with
    | nil => rfl
    | cons c s ih =>
      rw [List.cons_append, words_cons_blank ((isBlank_iff c).2 (hs c (by simp)))]
      exact ih fun d hd => hs d (by simp [hd])
  have plain : ∀ w : List Char, w ≠ [] → (∀ c ∈ w, ¬ Blank c) → Plain w := fun w h1 h2 =>
    ⟨h1, fun c hc => Bool.eq_false_iff.2 fun h' => h2 c hc ((isBlank_iff c).1 h')⟩
  induction h with
  | blanks h => simpa using pre _ [] h
  | last h h1 h2 => rw [pre _ _ h, words_plain (plain _ h1 h2)]
  | word h h1 h2 h3 _ ih => rw [List.append_assoc, pre _ _ h, words_plain_blank (plain _ h1 h2) ((isBlank_iff _).2 h3), ih]

/-- C47: the words into which the reader splits a line are the pieces between ASCII whitespace. -/
theorem C47_words (s : List Char) (ws : List (List Char)) : words s = ws ↔ SplitsInto s ws :=
  ⟨fun h => h ▸ wordsFrom_splits s [] (by simp), SplitsInto.words⟩

/-- Non-vacuity of C47_words: a line with a tab, two spaces and the carriage return of a Windows line end. -/
example : words " 0\tx_1  3 -2\r".toList = [['0'], ['x', '_', '1'], ['3'], ['-', '2']] := by decide +kernel

section
variable {F : Type} [FloatOps F] {parseF : List Char → Option F}

theorem solStatus_eq (cbc : Bool) (first : List Char) : solStatus cbc first =
    if (words first).head? = some (optimalWord cbc) then .solved
    else if (words first).head? = some (infeasibleWord cbc) then .infeasible else .error := by
  unfold solStatus optimalWord infeasibleWord
  rw [List.head?_eq_getElem?]
  generalize (words first)[0]? = o
  cases cbc <;> cases o <;> simp only [Bool.not_false, Bool.not_true, Bool.true_and, Bool.false_and, Bool.false_eq_true, if_false, if_true,
    beq_iff_eq, Option.some.injEq, reduceCtorEq]

/-- C49: the status that `read_sol_file` returns. It is `Solved` exactly if the first word of the file is the solver's word for an
optimal solution, `Infeasible` exactly for its word for infeasibility, and `Error` otherwise; unless it is `Solved`, the solution is
all zeros. -/
theorem C49_status {file : Option FileData} {q : Milp F} {cbc : Bool} {s : Status} {sol : Sol F}
    (h : readSolFile parseF file q cbc = .ok (some (s, sol))) :
    (s = .solved ↔ file.bind firstWord = some (optimalWord cbc)) ∧
    (s = .infeasible ↔ file.bind firstWord = some (infeasibleWord cbc)) ∧ s ≠ .unknown ∧
    (s ≠ .solved → sol = ⟨List.replicate q.nx zero, List.replicate q.na zero, [], List.replicate q.nx zero, List.replicate q.nx zero⟩) := by
  have hne : optimalWord cbc ≠ infeasibleWord cbc := by cases cbc <;> decide
  cases file with
  | none =>
    simp only [readSolFile, Except.ok.injEq, Option.some.injEq, Prod.mk.injEq] at h
    obtain ⟨rfl, rfl⟩ := h
    simp [Sol.new]
  | some lines =>
    have key : ∀ first, lines.headD (some []) = some first →
        (Option.bind (some lines) firstWord = (words first).head?) := by
      intro first hf
      cases lines with
      | nil => simp only [List.headD_nil, Option.some.injEq] at hf; subst hf; rfl
      | cons l ls =>
        simp only [List.headD_cons] at hf
        subst hf
        rfl
    simp only [readSolFile] at h
    split at h
    · simp at h
    · rename_i first hfirst
      rw [key first hfirst]
      have hst : s = solStatus cbc first ∧ (s ≠ .solved → sol = Sol.new q.nx q.na 0) := by
        split at h
        · simp only [Except.ok.injEq, Option.some.injEq, Prod.mk.injEq] at h
          exact ⟨h.1.symm, fun _ => h.2.symm⟩
        · rename_i hs
          have hs : solStatus cbc first = .solved := by simpa using hs
          split at h
          · simp at h
          · rw [R.bind_ok_iff] at h
            obtain ⟨o, -, h⟩ := h
            cases o with
            | none => simp at h
            | some sol' =>
              simp only [Except.ok.injEq, Option.some.injEq, Prod.mk.injEq] at h
              exact ⟨h.1.symm, fun hns => absurd (h.1.symm.trans hs) hns⟩
      obtain ⟨h1, h2⟩ := hst
      rw [solStatus_eq] at h1
      refine ⟨?_, ?_, ?_, fun hns => h2 hns⟩
      · rw [h1]
        split
        · simp [*]
        · split <;> simp_all
      · rw [h1]
        split
        · rename_i ho; simp [ho, hne]
        · split <;> simp [*]
      · rw [h1]
        split
        · simp
        · split <;> simp

/-- C49: a missing file, an empty file, and any file whose first line can be read and does not begin with the word for an optimal
solution: the call returns, with status `Infeasible` or `Error`. -/
theorem C49_not_solved {file : Option FileData} {q : Milp F} {cbc : Bool} (h : file.bind firstWord ≠ some (optimalWord cbc))
    (hread : ∀ ls, file ≠ some (none :: ls)) :
    readSolFile parseF file q cbc = .ok (some (if file.bind firstWord = some (infeasibleWord cbc) then .infeasible else .error,
      ⟨List.replicate q.nx zero, List.replicate q.na zero, [], List.replicate q.nx zero, List.replicate q.nx zero⟩)) := by
  cases file with
  | none => simp [readSolFile, Sol.new]
  | some lines =>
    have key : ∃ first, lines.headD (some []) = some first ∧ Option.bind (some lines) firstWord = (words first).head? := by
      cases lines with
      | nil => exact ⟨[], rfl, rfl⟩
      | cons l ls =>
        cases l with
        | none => exact absurd rfl (hread ls)
        | some first => exact ⟨first, rfl, rfl⟩
    obtain ⟨first, h1, h2⟩ := key
    rw [h2] at h ⊢
    have hs := solStatus_eq cbc first
    rw [if_neg h] at hs
    simp only [readSolFile, h1, hs]
    split <;> simp [Sol.new]

/-- C47: a file whose first word is the solver's word for an optimal solution (with a line for the objective value, for Clp), and that
lists variables and rows of the problem, each at most once, in any order: the returned solution has the listed values, multipliers
and reduced costs (positive ones in `pi`, the others negated in `mu`), zero for what is not listed, and one entry per variable and row. -/
theorem C47_solution {first objective : List Char} {lines : List (List Char)} {es : List (Listed F)} {q : Milp F} {cbc : Bool}
    (hfirst : (words first).head? = some (optimalWord cbc)) (hlines : List.Forall₂ (Listed.Line parseF) lines es)
    (honce : (es.map Listed.name).Nodup) (hr : ∀ e ∈ es, e.inRange q.nx q.na) (hx : q.nx ≤ 2 ^ 64) (ha : q.na ≤ 2 ^ 64) :
    ∃ sol, readSolFile parseF (some ((first :: ((if cbc then [] else [objective]) ++ lines)).map some)) q cbc = .ok (some (.solved, sol)) ∧
      sol.x.length = q.nx ∧ sol.lam.length = q.na ∧ sol.nu = [] ∧ sol.mu.length = q.nx ∧ sol.pi.length = q.nx ∧
      (∀ j v m, .col j v m ∈ es → sol.x[j]? = some v ∧ sol.pi[j]? = some (if zero <. m then m else zero) ∧
        sol.mu[j]? = some (if zero <. m then zero else FloatOps.neg m)) ∧
      (∀ j < q.nx, (∀ v m, .col j v m ∉ es) → sol.x[j]? = some zero ∧ sol.pi[j]? = some zero ∧ sol.mu[j]? = some zero) ∧
      (∀ i v m, .row i v m ∈ es → sol.lam[i]? = some m) ∧
      (∀ i < q.na, (∀ v m, .row i v m ∉ es) → sol.lam[i]? = some zero) := by
  have hd : SolDims q.nx q.na (Sol.new q.nx q.na 0 : Sol F) := SolDims.new _ _
  have hloop := readSolLines_listed hlines hr hx ha hd
  have hd' := hd.foldl es
  refine ⟨es.foldl Listed.apply (Sol.new q.nx q.na 0), ?_, hd'.x, hd'.lam, hd'.nu, hd'.mu, hd'.pi, ?_, ?_, ?_, ?_⟩
  · have hs : solStatus cbc first = .solved := by rw [solStatus_eq, if_pos hfirst]
    simp only [readSolFile, List.map_cons, List.headD_cons, hs]
    cases cbc <;> simp [hloop]
  · intro j v m hm
    have hj : j < q.nx := hr _ hm
    obtain ⟨h1, h2, h3⟩ := foldl_col honce hm hj hd
    rw [h1, h2, h3]
    have e : ∀ n, j < n → (List.replicate n (zero : F))[j]? = some zero := fun n hn => by simp [hn]
    simp only [Sol.new, e _ hj]
    split <;> simp
  · intro j hj hno
    obtain ⟨h1, h2, h3⟩ := foldl_other_col hno (Sol.new q.nx q.na 0)
    rw [h1, h2, h3]
    simp [Sol.new, hj]
  · intro i v m hm
    exact foldl_row honce hm (hr _ hm) hd
  · intro i hi hno
    rw [foldl_other_row hno]
    simp [Sol.new, hi]

/-- C47 for the characters of the file: lines without line feeds, each ended by one. -/
theorem C47_text {first objective : List Char} {lines : List (List Char)} {cbc : Bool}
    (h : ∀ l ∈ first :: ((if cbc then [] else [objective]) ++ lines), '\n' ∉ l) :
    fileOf ((first :: ((if cbc then [] else [objective]) ++ lines)).flatMap fun l => l ++ ['\n']) =
      (first :: ((if cbc then [] else [objective]) ++ lines)).map some := fileOf_lines h

/-- The three ways in which `read_sol_file` can end. -/
theorem readSolFile_cases (file : Option FileData) (q : Milp F) (cbc : Bool) :
    ((∃ s sol, readSolFile parseF file q cbc = .ok (some (s, sol)) ∧ SolDims q.nx q.na sol) ∧
      ∀ rs, Results cbc file rs → ∀ l ∈ rs, GoodLine parseF q.nx q.na l) ∧ (∀ ls, file ≠ some (none :: ls)) ∧
      (∀ first ls, cbc = false → file = some (some first :: none :: ls) → (words first).head? ≠ some (optimalWord cbc)) ∨
    (∃ rs l, Results cbc file rs ∧ FirstNotGood parseF q.nx q.na rs l ∧ BeyondLine parseF q.nx q.na l ∧
      readSolFile parseF file q cbc = .error .index) ∨
    (((∃ ls, file = some (none :: ls)) ∨
      (cbc = false ∧ ∃ first ls, file = some (some first :: none :: ls) ∧ (words first).head? = some (optimalWord cbc)) ∨
      ∃ rs l, Results cbc file rs ∧ FirstNotGood parseF q.nx q.na rs l ∧ ¬ BeyondLine parseF q.nx q.na l) ∧
      readSolFile parseF file q cbc = .ok none) := by
  have hd : SolDims q.nx q.na (Sol.new q.nx q.na 0 : Sol F) := SolDims.new _ _
  have nosolved : ∀ first, firstWord first ≠ some (optimalWord cbc) → ∀ rs, ¬ Results cbc (some first) rs := by
    rintro first h rs ⟨ls, he, h', -⟩
    simp only [Option.some.injEq] at he
    exact h (he ▸ h')
  have hne : optimalWord cbc ≠ [] := by cases cbc <;> decide
  cases file with
  | none =>
    refine .inl ⟨⟨⟨_, _, rfl, hd⟩, ?_⟩, by simp, by simp⟩
    rintro rs ⟨ls, he, -⟩
    cases he
  | some lines =>
    cases lines with
    | nil =>
      refine .inl ⟨⟨⟨.error, Sol.new q.nx q.na 0, ?_, hd⟩, fun rs h => absurd h (nosolved _ (by simp [firstWord]) rs)⟩, by simp, by simp⟩
      cases cbc <;> rfl
    | cons l0 rest =>
      cases l0 with
      | none => exact .inr (.inr ⟨.inl ⟨rest, rfl⟩, by simp [readSolFile]⟩)
      | some first =>
        have hs := solStatus_eq cbc first
        by_cases ho : (words first).head? = some (optimalWord cbc)
        · rw [if_pos ho] at hs
          have run : ∀ rs, rs = (if cbc then rest else rest.tail) → (cbc = false → ∀ ls, rest ≠ none :: ls) →
              (readSolFile parseF (some (some first :: rest)) q cbc = do
                match ← readSolLines parseF (Sol.new q.nx q.na 0) rs with
                | none => .ok none
                | some sol => .ok (some (.solved, sol))) ∧ Results cbc (some (some first :: rest)) rs := by
            rintro rs rfl hc
            constructor
            · simp only [readSolFile, List.headD_cons, hs, List.tail_cons]
              cases cbc
              · cases rest with
                | nil =>
                  simp
                  congr 1
                | cons l1 rest =>
                  cases l1 with
                  | none => exact absurd rfl (hc rfl rest)
                  | some l1 =>
                    simp
                    congr 1
              · simp
                congr 1
            · refine ⟨_, rfl, ho, fun h => ?_, ?_⟩
              · cases rest with
                | nil => simp
                | cons l1 rest =>
                  simp only [List.getElem?_cons_succ, List.getElem?_cons_zero, ne_eq, Option.some.injEq]
                  rintro rfl
                  exact hc h rest rfl
              · cases cbc <;> simp
          by_cases hh : cbc = false ∧ ∃ ls, rest = none :: ls
          · obtain ⟨rfl, ls, rfl⟩ := hh
            refine .inr (.inr ⟨.inr (.inl ⟨rfl, first, ls, rfl, ho⟩), ?_⟩)
            simp [readSolFile, hs]
          · obtain ⟨hrun, hres⟩ := run _ rfl (fun hc ls hl => hh ⟨hc, ls, hl⟩)
            rw [hrun]
            rcases readSolLines_cases (parseF := parseF) hd (if cbc then rest else rest.tail) with
              ⟨hg, sol', h', hs'⟩ | ⟨l, hf, hb, h'⟩ | ⟨l, hf, hb, h'⟩
            · rw [h']
              refine .inl ⟨⟨⟨_, _, rfl, hs'⟩, ?_⟩, by simp, ?_⟩
              · rintro rs ⟨ls, he, -, -, rfl⟩
                simp only [Option.some.injEq] at he
                subst he
                cases cbc <;> simpa using hg
              · rintro first' ls rfl he - 
                simp only [Option.some.injEq, List.cons.injEq] at he
                exact hh ⟨rfl, ls, he.2⟩
            · exact .inr (.inl ⟨_, l, hres, hf, hb, by rw [h']; rfl⟩)
            · exact .inr (.inr ⟨.inr (.inr ⟨_, l, hres, hf, hb⟩), by rw [h']; rfl⟩)
        · rw [if_neg ho] at hs
          have hns : (solStatus cbc first != .solved) = true := by rw [hs]; split <;> rfl
          refine .inl ⟨⟨⟨solStatus cbc first, Sol.new q.nx q.na 0, ?_, hd⟩, fun rs h => absurd h (nosolved _ (by simpa [firstWord] using ho) rs)⟩,
            by simp, ?_⟩
          · simp only [readSolFile, List.headD_cons, hns, if_true]
          · rintro first' ls - he
            simp only [Option.some.injEq, List.cons.injEq] at he
            rw [← he.1]; exact ho

/-- C48, partial: `read_sol_file` returns for every content of the file, provided that no line of the results names a variable or a row
beyond the dimensions of the problem. The full property (every content) is false: `C48_counterexample`. -/
theorem C48_no_panic_partial (file : Option FileData) (q : Milp F) (cbc : Bool)
    (h : ∀ rs, Results cbc file rs → ∀ l ∈ rs, ¬ BeyondLine parseF q.nx q.na l) :
    ∃ r, readSolFile parseF file q cbc = .ok r := by
  rcases readSolFile_cases (parseF := parseF) file q cbc with ⟨⟨⟨s, sol, h', -⟩, -⟩, -⟩ | ⟨rs, l, h1, ⟨b, a, rfl, -⟩, h3, -⟩ | ⟨-, h'⟩
  · exact ⟨_, h'⟩
  · exact absurd h3 (h _ h1 l (by simp))
  · exact ⟨_, h'⟩

/-- C48: exactly when the call panics. The file reports an optimal solution, and the first line of the results that is not about a
variable or a row of the problem is about one beyond its dimensions; the panic is an index out of range. -/
theorem C48_panic {file : Option FileData} {q : Milp F} {cbc : Bool} {e : Panic} : readSolFile parseF file q cbc = .error e ↔
    e = .index ∧ ∃ rs l, Results cbc file rs ∧ FirstNotGood parseF q.nx q.na rs l ∧ BeyondLine parseF q.nx q.na l := by
  rcases readSolFile_cases (parseF := parseF) file q cbc with ⟨⟨⟨s, sol, h', -⟩, hg⟩, -⟩ | ⟨rs, l, h1, h2, h3, h'⟩ | ⟨hc, h'⟩
  · rw [h']
    constructor
    · intro h; cases h
    · rintro ⟨-, rs, l, h1, ⟨b, a, rfl, -, h2⟩, -⟩
      exact absurd (hg _ h1 l (by simp)) h2
  · rw [h']
    constructor
    · intro h
      injection h with h
      exact ⟨h.symm, rs, l, h1, h2, h3⟩
    · rintro ⟨rfl, -⟩
      rfl
  · rw [h']
    constructor
    · intro h; cases h
    · rintro ⟨-, rs, l, ⟨ls, rfl, h1, h1', rfl⟩, h2, h3⟩
      rcases hc with ⟨ls', he⟩ | ⟨rfl, first, ls', he, -⟩ | ⟨rs', l', ⟨ls', he, -, -, rfl⟩, h2', h3'⟩
      · simp only [Option.some.injEq] at he
        subst he
        simp [firstWord] at h1
      · simp only [Option.some.injEq] at he
        subst he
        exact absurd rfl (h1' rfl)
      · simp only [Option.some.injEq] at he
        subst he
        exact absurd (h2.unique h2' ▸ h3) h3'

/-- C48: exactly when the call returns an error. The first line cannot be read; or the file reports an optimal solution, and the line of
the objective value (Clp) cannot be read, or the first line of the results that is not about a variable or a row of the problem
is not about one beyond its dimensions either: it cannot be read, has too few words, has a name or numbers that cannot be parsed,
or is about something else. -/
theorem C48_error {file : Option FileData} {q : Milp F} {cbc : Bool} : readSolFile parseF file q cbc = .ok none ↔
    (∃ ls, file = some (none :: ls)) ∨
    (cbc = false ∧ ∃ first ls, file = some (some first :: none :: ls) ∧ (words first).head? = some (optimalWord cbc)) ∨
    ∃ rs l, Results cbc file rs ∧ FirstNotGood parseF q.nx q.na rs l ∧ ¬ BeyondLine parseF q.nx q.na l := by
  rcases readSolFile_cases (parseF := parseF) file q cbc with ⟨⟨⟨s, sol, h', -⟩, hg⟩, h1, h2⟩ | ⟨rs, l, h1, h2, h3, h'⟩ | ⟨hc, h'⟩
  · rw [h']
    constructor
    · intro h; simp at h
    · rintro (⟨ls, rfl⟩ | ⟨hc, first, ls, he, ho⟩ | ⟨rs, l, h3, ⟨b, a, rfl, -, h4⟩, -⟩)
      · exact absurd rfl (h1 ls)
      · exact absurd ho (h2 first ls hc he)
      · exact absurd (hg _ h3 l (by simp)) h4
  · rw [h']
    constructor
    · intro h; cases h
    · intro hc
      exfalso
      obtain ⟨ls, rfl, h4, h4', rfl⟩ := h1
      rcases hc with ⟨ls', he⟩ | ⟨rfl, first, ls', he, -⟩ | ⟨rs', l', ⟨ls', he, -, -, rfl⟩, h2', h3'⟩
      · simp only [Option.some.injEq] at he
        subst he
        simp [firstWord] at h4
      · simp only [Option.some.injEq] at he
        subst he
        exact absurd rfl (h4' rfl)
      · simp only [Option.some.injEq] at he
        subst he
        exact absurd (h2.unique h2' ▸ h3) h3'
  · rw [h']
    exact ⟨fun _ => hc, fun _ => rfl⟩

/-- C47, C55: whatever the file contains, a returned solution has the dimensions of the problem. -/
theorem C47_dims {file : Option FileData} {q : Milp F} {cbc : Bool} {s : Status} {sol : Sol F}
    (h : readSolFile parseF file q cbc = .ok (some (s, sol))) :
    sol.x.length = q.nx ∧ sol.lam.length = q.na ∧ sol.nu = [] ∧ sol.mu.length = q.nx ∧ sol.pi.length = q.nx := by
  rcases readSolFile_cases (parseF := parseF) file q cbc with ⟨⟨⟨s', sol', h', hs⟩, -⟩, -⟩ | ⟨-, -, -, -, -, h'⟩ | ⟨-, h'⟩
  · rw [h'] at h
    simp only [Except.ok.injEq, Option.some.injEq, Prod.mk.injEq] at h
    rw [← h.2]
    exact ⟨hs.x, hs.lam, hs.nu, hs.mu, hs.pi⟩
  · rw [h'] at h; cases h
  · rw [h'] at h; simp at h

end

/-- C47 in exact arithmetic: `pi` is the positive part of the reduced cost, `mu` its negative part, and their difference is the reduced
cost. -/
theorem C47_parts {K : Type} [Field K] [LinearOrder K] [IsStrictOrderedRing K] [Trig K] (m : K) :
    (if (zero : Option K) <. some m then some m else zero) = some (max m 0) ∧
    (if (zero : Option K) <. some m then zero else FloatOps.neg (some m)) = some (max (-m) 0) ∧ max m 0 - max (-m) 0 = m := by
  simp only [Exact.zero_def, Exact.lt_some, Exact.neg_some, decide_eq_true_eq]
  by_cases h : 0 < m
  · simp only [h, if_true]
    rw [max_eq_left h.le, max_eq_right (by linarith)]
    simp
  · simp only [h, if_false]
    rw [max_eq_right (not_lt.1 h), max_eq_left (by linarith [not_lt.1 h])]
    simp

/-! ## Concrete cases -/

/-- Reads one-digit numbers with an optional minus sign. -/
def digitQ : List Char → Option Q
  | [c] => if c.isDigit then some (some ((c.toNat - 48 : Nat) : ℚ)) else none
  | ['-', c] => if c.isDigit then some (some (-((c.toNat - 48 : Nat) : ℚ))) else none
  | _ => none

/-- A problem with two variables and one row. -/
def exMilp2 : Milp Q :=
  ⟨[some 1, some 2], ⟨none, ⟨some 0, [], ⟨(2, 2), [], [], []⟩, [], ⟨(0, 2), [], [], []⟩, []⟩, ⟨(1, 2), [], [], []⟩, [some 0], ⟨(2, 2), [], [], []⟩,
    [some 0, some 0], [some 1, some 1], [false, false], fun b _ => .ok b⟩⟩

/-- C48: a file that names variable 99 makes the call panic. -/
theorem C48_counterexample :
    readSolFile digitQ (some (fileOf "optimal\nobjective\n 0 x_99 1 0\n".toList)) exMilp2 false = .error .index := by
  decide +kernel

/-- Non-vacuity of C47, C48 and C49: a solution file of Cbc with lines in mixed order, and what is read. -/
example :
    let file := fileOf "Optimal - objective value 3\n 1 x_1 3 -2\n 0 c_0 4 5\n".toList
    (∀ l ∈ ["Optimal - objective value 3".toList, " 1 x_1 3 -2".toList, " 0 c_0 4 5".toList], '\n' ∉ l) ∧
    readSolFile digitQ (some file) exMilp2 true =
      .ok (some (.solved, ⟨[some 0, some 3], [some 5], [], [some 0, some 2], [some 0, some 0]⟩)) ∧
    readSolFile digitQ (some (fileOf "Infeasible\n".toList)) exMilp2 true =
      .ok (some (.infeasible, ⟨[some 0, some 0], [some 0], [], [some 0, some 0], [some 0, some 0]⟩)) ∧
    readSolFile digitQ (some (fileOf "Optimal\n1 x 2\n".toList)) exMilp2 true = .ok none := by
  decide +kernel

/-- Non-vacuity of C48: a line about a variable of the problem, and one about a variable that it does not have (the number has a plus sign
and the name has a third part). -/
example : GoodLine digitQ 2 1 (some " 1 x_1 3 -2".toList) ∧ BeyondLine digitQ 2 1 (some "0 x_+99_y 1 0 more".toList) :=
  ⟨⟨_, ['x'], 1, some 3, some (-2), rfl, ⟨['1'], ['1'], [], ['3'], ['-', '2'], [], by decide +kernel, by decide, by decide, .inl rfl,
      ⟨['1'], .inl rfl, by decide, by decide, by decide, by decide⟩, by decide +kernel, by decide +kernel⟩, .inl ⟨rfl, by decide⟩⟩,
    ⟨_, ['x'], 99, some 1, some 0, rfl, ⟨['0'], ['+', '9', '9'], ['_', 'y'], ['1'], ['0'], [['m', 'o', 'r', 'e']], by decide +kernel, by decide,
      by decide, .inr ⟨_, rfl⟩, ⟨['9', '9'], .inr rfl, by decide, by decide, by decide, by decide⟩, by decide +kernel, by decide +kernel⟩,
      .inl ⟨rfl, by decide⟩⟩⟩

/-- Non-vacuity of the hypotheses of C47. -/
example : (words "Optimal - objective value 3".toList).head? = some (optimalWord true) ∧
    List.Forall₂ (Listed.Line digitQ) [" 1 x_1 3 -2".toList, " 0 c_0 4 5".toList] [.col 1 (some 3) (some (-2)), .row 0 (some 4) (some 5)] :=
  ⟨by decide +kernel, .cons ⟨['1'], ['3'], ['-', '2'], [], by decide +kernel, by decide +kernel, by decide +kernel⟩
    (.cons ⟨['0'], ['4'], ['5'], [], by decide +kernel, by decide +kernel, by decide +kernel⟩ .nil)⟩

end Verif
