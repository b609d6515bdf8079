import Verif.Spec.Report
import Verif.Props.CmdSolver
import Verif.Proofs.Ipopt

/-!
# C73: failures are reported, with their cause
-/

namespace Verif

variable {F : Type} [FloatOps F]

theorem readSol_remove {env : CmdEnv F} {q : Milp F} {cbc : Bool} {d : Dir} {input output : String} (h : input ≠ output) :
    readSolFile env.parseF ((d.tryRemove env.stuck input) output) q cbc = readSolFile env.parseF (d output) q cbc := by
  rw [tryRemove_other (Ne.symm h)]

theorem cmdSolve_report {cbc : Bool} {ps : Params F} {env : CmdEnv F} {prob : Problem F} {q : Milp F} {d : Dir} {r : Except String (Status × Sol F)}
    (hs : prob.SupportedBy cbc) (hq : prob.IsMilp q) (hio : ∀ input output, env.tempIn = some input → env.tempOut = some output → input ≠ output) :
    (∃ d', cmdSolve cbc ps env q d = .ok (d', r)) ↔ CmdReport cbc ps env prob d r := by
  have huniq : ∀ q', prob.IsMilp q' → q' = q := by
    rintro q' (h | ⟨p, h, rfl⟩) <;> rcases hq with h' | ⟨p', h', rfl⟩ <;> rw [h] at h' <;> cases h' <;> rfl
  constructor
  · rintro ⟨d', h⟩
    unfold cmdSolve at h
    split at h
    · rename_i hin
      cases h
      exact .noInput hs hin
    rename_i input hin
    split at h
    · rename_i hout
      cases h
      exact .noOutput hs hin hout
    rename_i output hout
    unfold writeLp at h
    cases hw : env.writeEnd with
    | notCreated =>
      simp only [hw, R.ok_bind] at h
      cases h
      exact .notCreated hs hin hout hw
    | failed data =>
      simp only [hw, R.bind_ok_iff] at h
      obtain ⟨⟨d1, w⟩, ⟨text, ht, h1⟩, h⟩ := h
      cases h1
      cases h
      exact .notWritten hs hq hin hout hw ht
    | written =>
      simp only [hw, R.bind_ok_iff] at h
      obtain ⟨⟨d1, w⟩, ⟨text, ht, h1⟩, h⟩ := h
      cases h1
      simp only [Bool.not_true, Bool.false_eq_true, if_false] at h
      split at h
      · rename_i level hl
        have hst : CmdStarts cbc ps env prob q input output text level := ⟨hs, hq, hin, hout, hw, ht, hl⟩
        split at h
        · rename_i hd
          cases h
          exact .notRun hst (by rw [Bool.not_eq_true'] at hd; exact hd)
        · rename_i hd
          rw [R.bind_ok_iff] at h
          obtain ⟨o, ho, h⟩ := h
          rw [readSol_remove (hio _ _ hin hout)] at ho
          have hd' : (env.runs cbc input output text level d).2 = true := by
            rw [Bool.not_eq_true, Bool.not_eq_false'] at hd
            exact hd
          cases o with
          | none => cases h; exact .notRead hst hd' ho
          | some o => obtain ⟨st, sol⟩ := o; cases h; exact .solution hst hd' ho
      · rename_i hl
        cases h
        exact .noLevel hs hq hin hout hw ht fun i hi => hl i hi
  · intro h
    have hruns : ∀ input output text level, env.command (cmdName cbc) (cmdArgs input output level) (d.write input (fileOf text)) =
        env.runs cbc input output text level d := fun _ _ _ _ => rfl
    have hrun : ∀ {q' input output text level}, CmdStarts cbc ps env prob q' input output text level → q' = q := fun h => huniq _ h.milp
    cases h with
    | unsupported h => exact absurd hs h
    | noInput _ hi => simp [cmdSolve, hi]
    | noOutput _ hi ho => simp [cmdSolve, hi, ho]
    | notCreated _ hi ho hw => simp [cmdSolve, hi, ho, writeLp, hw, R.ok_bind]
    | notWritten _ hq' hi ho hw ht =>
      obtain rfl := huniq _ hq'
      simp [cmdSolve, hi, ho, writeLp, hw, ht, R.ok_bind]
    | @noLevel _ input _ text _ hq' hi ho hw ht hl =>
      obtain rfl := huniq _ hq'
      refine ⟨d.write input (fileOf text), ?_⟩
      simp only [cmdSolve, hi, ho, writeLp, hw, ht, R.ok_bind, Bool.not_true, Bool.false_eq_true, if_false]
    | notRun h hr =>
      obtain rfl := hrun h
      simp only [cmdSolve, h.tempIn, h.tempOut, writeLp, h.writes, h.text, R.ok_bind, h.level, Bool.not_true, Bool.false_eq_true, if_false, hruns, hr,
        Bool.not_false, if_true]
      exact ⟨_, rfl⟩
    | notRead h hr hsol =>
      obtain rfl := hrun h
      rw [← readSol_remove (hio _ _ h.tempIn h.tempOut)] at hsol
      simp only [cmdSolve, h.tempIn, h.tempOut, writeLp, h.writes, h.text, R.ok_bind, h.level, Bool.not_true, Bool.false_eq_true, if_false, hruns, hr, hsol]
      exact ⟨_, rfl⟩
    | solution h hr hsol =>
      obtain rfl := hrun h
      rw [← readSol_remove (hio _ _ h.tempIn h.tempOut)] at hsol
      simp only [cmdSolve, h.tempIn, h.tempOut, writeLp, h.writes, h.text, R.ok_bind, h.level, Bool.not_true, Bool.false_eq_true, if_false, hruns, hr, hsol]
      exact ⟨_, rfl⟩

/-- **C73** For Clp and Cbc, whatever the files, the command and the parameters: `solve` returns exactly the result that `CmdReport` lists: an error
that names the first step that failed, or the status and solution in the output file if no step failed. (The names of the two files have different
endings.) -/
theorem C73_cmd {cbc : Bool} {ps : Params F} {env : CmdEnv F} {prob : Problem F} {d : Dir}
    (hio : ∀ input output, env.tempIn = some input → env.tempOut = some output → input ≠ output) (r : Except String (Status × Sol F)) :
    (∃ d', (if cbc then cbcSolve else clpSolve) ps env prob d = .ok (d', r)) ↔ CmdReport cbc ps env prob d r := by
  by_cases hs : prob.SupportedBy cbc
  · have : ∃ q, prob.IsMilp q ∧ (if cbc then cbcSolve else clpSolve) ps env prob d = cmdSolve cbc ps env q d := by
      rcases hs with ⟨q, rfl⟩ | ⟨rfl, q, rfl⟩
      · exact ⟨q.baseMilp, .inr ⟨q, rfl, rfl⟩, by cases cbc <;> rfl⟩
      · exact ⟨q, .inl rfl, rfl⟩
    obtain ⟨q, hq, he⟩ := this
    rw [he]
    exact cmdSolve_report hs hq hio
  · have he : (if cbc then cbcSolve else clpSolve) ps env prob d = .ok (d, .error "problem type not supported") := by
      cases cbc
      · exact C46_clp fun q h => hs (.inl ⟨q, h⟩)
      · exact C46_cbc (fun q h => hs (.inl ⟨q, h⟩)) fun q h => hs (.inr ⟨rfl, q, h⟩)
    rw [he]
    constructor
    · rintro ⟨d', h⟩
      cases h
      exact .unsupported hs
    · intro h
      have key : ∀ {q input output text level}, ¬ CmdStarts cbc ps env prob q input output text level := fun h => hs h.supported
      cases h
      case unsupported => exact ⟨d, rfl⟩
      case noInput h _ => exact absurd h hs
      case noOutput h _ _ => exact absurd h hs
      case notCreated h _ _ _ => exact absurd h hs
      case notWritten h _ _ _ _ _ => exact absurd h hs
      case noLevel h _ _ _ _ _ _ => exact absurd h hs
      case notRun h _ => exact absurd h key
      case notRead h _ _ => exact absurd h key
      case solution h _ _ => exact absurd h key

/-- C73 for Ipopt: `solve` returns an error exactly in the cases that `IpoptFails` lists, and if the class of the problem is not supported; then the
problem is unchanged. -/
theorem C73_ipopt {ps : Params F} {lib : IpoptLib F} {prob prob' : Problem F} {e : String} :
    (∃ live, ipoptSolve ps lib prob = .ok (prob', live, .error e)) ↔
      prob' = prob ∧ (((∀ q, ¬ prob.IsNlp q) ∧ e = "problem type not supported") ∨
        ∃ q args, prob.IsNlp q ∧ q.FitsI32 ∧ IsArgs q args ∧ IpoptFails ps lib args e) := by
  have key : ∀ {q q' : Minlp F}, (∃ live, ipoptSolveNlp ps lib q = .ok ⟨q', live, .error e⟩) ↔
      q' = q ∧ q.FitsI32 ∧ ∃ args, IsArgs q args ∧ IpoptFails ps lib args e := by
    intro q q'
    constructor
    · rintro ⟨live, h⟩
      unfold ipoptSolveNlp at h
      simp only [R.bind_ok_iff] at h
      obtain ⟨n, hn, m, hm, nj, hnj, nh, hnh, h⟩ := h
      have t : ∀ {a : ℕ} {b : Int}, toI32 a = .ok b → a < 2 ^ 31 ∧ b = a := by
        intro a b hab
        unfold toI32 at hab
        split at hab
        · cases hab; exact ⟨by assumption, rfl⟩
        · cases hab
      obtain ⟨f1, rfl⟩ := t hn
      obtain ⟨f2, rfl⟩ := t hm
      obtain ⟨f3, rfl⟩ := t hnj
      obtain ⟨f4, rfl⟩ := t hnh
      have args : IsArgs q _ := rfl
      split at h
      · rename_i hc
        cases h
        exact ⟨rfl, ⟨f1, f2, f3, f4⟩, _, args, .create (by simpa using hc)⟩
      · rename_i hc
        rw [Bool.not_eq_true, Bool.not_eq_false'] at hc
        split at h
        · rename_i pl hpl
          split at h
          · rename_i hr
            cases h
            exact ⟨rfl, ⟨f1, f2, f3, f4⟩, _, args, .level hc hpl (by simpa using hr)⟩
          · rename_i hr
            split at h
            · rename_i sb hsb
              split at h
              · cases h
              · rename_i h0
                split at h
                · rename_i ha
                  cases h
                  exact ⟨rfl, ⟨f1, f2, f3, f4⟩, _, args, .sb hc hpl (by simpa using hr) hsb (by simpa using h0) (by simpa using ha)⟩
                · split at h
                  · split at h
                    · simp only [R.bind_ok_iff] at h
                      obtain ⟨_, _, _, _, _, _, h⟩ := h
                      cases h
                    · cases h
                  · simp only [R.bind_ok_iff] at h
                    obtain ⟨_, _, _, _, _, _, h⟩ := h
                    cases h
            · rename_i hsb
              cases h
              exact ⟨rfl, ⟨f1, f2, f3, f4⟩, _, args, .noSb hc hpl (by simpa using hr) fun s hs => hsb s hs⟩
        · rename_i hpl
          cases h
          exact ⟨rfl, ⟨f1, f2, f3, f4⟩, _, args, .noLevel hc fun i hi => hpl i hi⟩
    · rintro ⟨rfl, ⟨f1, f2, f3, f4⟩, args, ha, hf⟩
      have t : ∀ {a : ℕ}, a < 2 ^ 31 → toI32 a = .ok (a : Int) := fun h => if_pos h
      unfold ipoptSolveNlp
      simp only [t f1, t f2, t f3, t f4, R.ok_bind]
      rw [IsArgs] at ha
      subst ha
      cases hf with
      | create hc => simp only [hc, Bool.not_false, if_true]; exact ⟨_, rfl⟩
      | noLevel hc hl =>
        refine ⟨1, ?_⟩
        simp only [hc, Bool.not_true, Bool.false_eq_true, if_false]
      | level hc hl hr => simp only [hc, hl, hr, Bool.not_true, Bool.not_false, Bool.false_eq_true, if_false, if_true]; exact ⟨_, rfl⟩
      | noSb hc hl hr hs =>
        refine ⟨1, ?_⟩
        simp only [hc, hl, hr, Bool.not_true, Bool.false_eq_true, if_false]
      | sb hc hl hr hs h0 ha =>
        have h0' : ∀ {s : String}, Char.ofNat 0 ∉ s.toList → s.toList.contains (Char.ofNat 0) = false := by simp
        simp only [hc, hl, hr, hs, h0' h0, ha, Bool.not_true, Bool.not_false, Bool.false_eq_true, if_false, if_true]
        exact ⟨_, rfl⟩
  cases prob with
  | nlp p =>
    have : ∀ {q'}, (∃ live, ipoptSolve ps lib (.nlp p) = .ok (q', live, .error e)) ↔ ∃ q1, q' = .nlp ⟨q1⟩ ∧ ∃ live, ipoptSolveNlp ps lib p.base = .ok ⟨q1, live, .error e⟩ := by
      intro q'
      simp only [ipoptSolve, R.bind_ok_iff]
      constructor
      · rintro ⟨live, r, hr, h⟩
        obtain ⟨q1, l1, r1⟩ := r
        injection h with h
        simp only [Prod.mk.injEq] at h
        obtain ⟨rfl, rfl, rfl⟩ := h
        exact ⟨q1, rfl, l1, hr⟩
      · rintro ⟨q1, rfl, live, h⟩
        exact ⟨live, _, h, rfl⟩
    rw [this]
    simp only [key]
    constructor
    · rintro ⟨q1, rfl, rfl, hfit, args, ha, hf⟩
      exact ⟨rfl, .inr ⟨_, args, .inl rfl, hfit, ha, hf⟩⟩
    · rintro ⟨rfl, ⟨h, -⟩ | ⟨q, args, hp | ⟨p', hp, rfl⟩, hfit, ha, hf⟩⟩
      · exact absurd (.inl rfl) (h p.base)
      · cases hp
        exact ⟨q, rfl, rfl, hfit, args, ha, hf⟩
      · cases hp
  | lp p =>
    have : ∀ {q'}, (∃ live, ipoptSolve ps lib (.lp p) = .ok (q', live, .error e)) ↔ ∃ q1, q' = .lp ⟨p.baseMilp, ⟨q1⟩⟩ ∧ ∃ live, ipoptSolveNlp ps lib p.baseNlp.base = .ok ⟨q1, live, .error e⟩ := by
      intro q'
      simp only [ipoptSolve, R.bind_ok_iff]
      constructor
      · rintro ⟨live, r, hr, h⟩
        obtain ⟨q1, l1, r1⟩ := r
        injection h with h
        simp only [Prod.mk.injEq] at h
        obtain ⟨rfl, rfl, rfl⟩ := h
        exact ⟨q1, rfl, l1, hr⟩
      · rintro ⟨q1, rfl, live, h⟩
        exact ⟨live, _, h, rfl⟩
    rw [this]
    simp only [key]
    constructor
    · rintro ⟨q1, rfl, rfl, hfit, args, ha, hf⟩
      exact ⟨rfl, .inr ⟨_, args, .inr ⟨p, rfl, rfl⟩, hfit, ha, hf⟩⟩
    · rintro ⟨rfl, ⟨h, -⟩ | ⟨q, args, hp | ⟨p', hp, rfl⟩, hfit, ha, hf⟩⟩
      · exact absurd (.inr ⟨p, rfl, rfl⟩) (h p.baseNlp.base)
      · cases hp
      · cases hp
        exact ⟨p.baseNlp.base, rfl, rfl, hfit, args, ha, hf⟩
  | milp p =>
    have hn : ∀ q, ¬ (Problem.milp p).IsNlp q := by rintro q (h | ⟨_, h, -⟩) <;> cases h
    constructor
    · rintro ⟨live, h⟩
      cases h
      exact ⟨rfl, .inl ⟨hn, rfl⟩⟩
    · rintro ⟨rfl, ⟨-, rfl⟩ | ⟨q, _, h, -⟩⟩
      · exact ⟨_, rfl⟩
      · exact absurd h (hn q)
  | minlp p =>
    have hn : ∀ q, ¬ (Problem.minlp p).IsNlp q := by rintro q (h | ⟨_, h, -⟩) <;> cases h
    constructor
    · rintro ⟨live, h⟩
      cases h
      exact ⟨rfl, .inl ⟨hn, rfl⟩⟩
    · rintro ⟨rfl, ⟨-, rfl⟩ | ⟨q, _, h, -⟩⟩
      · exact ⟨_, rfl⟩
      · exact absurd h (hn q)

/-- Is the result of a call the error `e`? -/
def failsWith (e : String) (r : R (Dir × Except String (Status × Sol Q))) : Bool :=
  match r with
  | .ok (_, .error e') => e' == e
  | _ => false

theorem of_failsWith {e : String} {r : R (Dir × Except String (Status × Sol Q))} (h : failsWith e r = true) : ∃ d', r = .ok (d', .error e) := by
  unfold failsWith at h
  split at h
  · rename_i d' e'
    exact ⟨d', by rw [eq_of_beq h]⟩
  · cases h

/-- Non-vacuity of `C73_cmd`: failures of three kinds of the same call of Cbc; the command cannot be run, it writes a malformed file, and the parameter
is missing. -/
example : CmdReport true cbcParams { exEnv with command := fun _ _ d => (d, false) } (.milp exMilp2) (fun _ => none) (.error "failed executing cbc command") ∧
    CmdReport true cbcParams { exEnv with command := fun _ _ d => (d.write "clp1.sol" (fileOf "Optimal\n0 x_0 2\n".toList), true) } (.milp exMilp2)
      (fun _ => none) (.error "failed to read cbc solution file") ∧
    CmdReport true [] exEnv (.milp exMilp2) (fun _ => none) (.error "unable to get parameter logLevel") ∧
    CmdReport false clpParams exEnv (.milp exMilp2) (fun _ => none) (.error "problem type not supported") := by
  have hio : ∀ input output, exEnv.tempIn = some input → exEnv.tempOut = some output → input ≠ output := by
    intro i o hi ho
    cases hi
    cases ho
    decide
  exact ⟨(C73_cmd (by exact hio) _).1 (of_failsWith (by decide +kernel)), (C73_cmd (by exact hio) _).1 (of_failsWith (by decide +kernel)),
    (C73_cmd hio _).1 (of_failsWith (by decide +kernel)), .unsupported (by rintro (⟨_, h⟩ | ⟨h, -⟩) <;> cases h)⟩

/-- Non-vacuity of `C73_ipopt`: a library that refuses to create the problem, and one that refuses a parameter. -/
example (lib : IpoptLib Q) (p : Nlp Q) (h : p.base.FitsI32) :
    (∃ live, ipoptSolve ipoptParams { lib with create := fun _ => false } (.nlp p) = .ok (.nlp p, live, .error "failed to create ipopt problem")) ∧
    ∃ live, ipoptSolve ipoptParams { lib with create := fun _ => true, addInt := fun _ _ => false } (.nlp p) =
      .ok (.nlp p, live, .error "unable to set parameter print_level") :=
  ⟨C73_ipopt.2 ⟨rfl, .inr ⟨_, _, .inl rfl, h, rfl, .create rfl⟩⟩,
    C73_ipopt.2 ⟨rfl, .inr ⟨_, _, .inl rfl, h, rfl, .level rfl (by rfl) rfl⟩⟩⟩

end Verif
