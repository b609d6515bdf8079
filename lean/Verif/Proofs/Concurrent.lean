import Verif.Spec.Concurrent

/-! # What each of several simultaneous calls of `solve` knows about its own files -/

namespace Verif

variable {F : Type} [FloatOps F] {c : CmdCall F} {d0 d d' : Dir}

/-- The directories agree on the files of the call. -/
def CmdCall.Same (c : CmdCall F) (d d' : Dir) : Prop := ∀ n, c.Uses n → d n = d' n

/-- The call gets as far as writing its file. -/
structure CmdCall.Names (c : CmdCall F) (q : Milp F) (i o : String) : Prop where
  milp : c.milp = some q
  input : c.env.tempIn = some i
  output : c.env.tempOut = some o

theorem CmdCall.Names.uses {q : Milp F} {i o : String} (h : c.Names q i o) {n : String} : c.Uses n ↔ n = i ∨ n = o := by
  unfold CmdCall.Uses
  rw [h.input, h.output]
  simp [eq_comm]

/-- The call has written the text. -/
structure CmdCall.Wrote (c : CmdCall F) (q : Milp F) (i o : String) (text : List Char) : Prop extends c.Names q i o where
  written : c.env.writeEnd = .written
  text : q.lpText c.env.fmtE = .ok text

/-- The call has run the command. -/
structure CmdCall.Ran (c : CmdCall F) (q : Milp F) (i o : String) (text : List Char) (level : Int) : Prop extends c.Wrote q i o text where
  level : getParam c.ps "logLevel" = some (.int level)

/-- What the command does when the call is alone. -/
def CmdCall.effect (c : CmdCall F) (d0 : Dir) (i o : String) (text : List Char) (level : Int) : Dir × Bool :=
  c.env.command (cmdName c.cbc) (cmdArgs i o level) (d0.write i (fileOf text))

/-- What is known about the own files at each position. -/
def CmdInv (c : CmdCall F) (d0 : Dir) : CmdPc F → Dir → Prop
  | .start, d => c.Same d d0
  | .writing, d => ∃ q i o, c.Names q i o ∧ c.env.writeEnd ≠ .notCreated ∧ (o ≠ i → d o = d0 o)
  | .wrote, d => ∃ q i o text, c.Wrote q i o text ∧ c.Same d (d0.write i (fileOf text))
  | .running b a ok, _ => ∃ q i o text level, c.Ran q i o text level ∧ (∀ n, ¬ c.Uses n → a n = b n) ∧
      a i = (c.effect d0 i o text level).1 i ∧ a o = (c.effect d0 i o text level).1 o ∧ ok = (c.effect d0 i o text level).2
  | .ran, d => ∃ q i o text level, c.Ran q i o text level ∧ c.Same d (c.effect d0 i o text level).1 ∧ (c.effect d0 i o text level).2 = true
  | .reading, d => ∃ q i o text level, c.Ran q i o text level ∧ c.Same d ((c.effect d0 i o text level).1.tryRemove c.env.stuck i) ∧
      (c.effect d0 i o text level).2 = true
  | .failing msg, d => ∃ q i o dd, c.Names q i o ∧ c.Same d dd ∧
      c.alone d0 = .ok ((dd.tryRemove c.env.stuck i).tryRemove c.env.stuck o, .error msg)
  | .removing r, d => ∃ q i o dd, c.Names q i o ∧ c.Same d dd ∧ c.alone d0 = .ok (dd.tryRemove c.env.stuck o, r)
  | .done r, d => ∃ d', c.alone d0 = .ok (d', r) ∧ c.Same d d'
  | .panicked p, _ => c.alone d0 = .error p

theorem alone_milp {q : Milp F} (h : c.milp = some q) : c.alone d0 = cmdSolve c.cbc c.ps c.env q d0 := by
  obtain ⟨cbc, ps, env, prob⟩ := c
  cases prob <;> cases cbc <;> simp_all [CmdCall.milp, CmdCall.alone, cbcSolve, clpSolve]

theorem alone_none (h : c.milp = none) : c.alone d0 = .ok (d0, .error "problem type not supported") := by
  obtain ⟨cbc, ps, env, prob⟩ := c
  cases prob <;> cases cbc <;> simp_all [CmdCall.milp, CmdCall.alone, cbcSolve, clpSolve]

theorem CmdCall.Names.alone {q : Milp F} {i o : String} (h : c.Names q i o) : c.alone d0 = (do
    let (d, written) ← writeLp c.env q i d0
    if !written then .ok ((d.tryRemove c.env.stuck i).tryRemove c.env.stuck o, .error "failed to write lp file")
    else
      match getParam c.ps "logLevel" with
      | some (.int level) =>
        let (d, done) := c.env.command (cmdName c.cbc) (cmdArgs i o level) d
        if !done then .ok ((d.tryRemove c.env.stuck i).tryRemove c.env.stuck o, .error (if c.cbc then "failed executing cbc command" else "failed executing clp command"))
        else do
          let d := d.tryRemove c.env.stuck i
          match ← readSolFile c.env.parseF (d o) q c.cbc with
          | none => .ok (d.tryRemove c.env.stuck o, .error (if c.cbc then "failed to read cbc solution file" else "failed to read clp solution file"))
          | some (status, sol) => .ok (d.tryRemove c.env.stuck o, .ok (status, sol))
      | _ => .ok (d, .error "unable to get parameter logLevel") : R (Dir × Except String (Status × Sol F))) := by
  rw [alone_milp h.milp]
  unfold cmdSolve
  simp only [h.input, h.output]
  rfl

theorem CmdCall.Ran.alone {q : Milp F} {i o : String} {text : List Char} {level : Int} (h : c.Ran q i o text level) :
    c.alone d0 = (if !(c.effect d0 i o text level).2 then
        .ok (((c.effect d0 i o text level).1.tryRemove c.env.stuck i).tryRemove c.env.stuck o,
          .error (if c.cbc then "failed executing cbc command" else "failed executing clp command"))
      else do
        let d := (c.effect d0 i o text level).1.tryRemove c.env.stuck i
        match ← readSolFile c.env.parseF (d o) q c.cbc with
        | none => .ok (d.tryRemove c.env.stuck o, .error (if c.cbc then "failed to read cbc solution file" else "failed to read clp solution file"))
        | some (status, sol) => .ok (d.tryRemove c.env.stuck o, .ok (status, sol)) : R (Dir × Except String (Status × Sol F))) := by
  rw [h.toNames.alone]
  simp only [writeLp, h.written, h.text, h.level]
  rfl

theorem same_write {i : String} (h : c.Same d d') (data : FileData) : c.Same (d.write i data) (d'.write i data) := by
  intro n hn
  simp only [Dir.write]
  split
  · rfl
  · exact h n hn

theorem same_remove {i : String} {stuck : String → Bool} (h : c.Same d d') : c.Same (d.tryRemove stuck i) (d'.tryRemove stuck i) := by
  intro n hn
  unfold Dir.tryRemove Dir.remove
  split
  · exact h n hn
  · by_cases hni : n = i
    · simp [hni]
    · simp [hni, h n hn]

/-- Other files do not matter. -/
theorem CmdInv.congr {pc : CmdPc F} (h : CmdInv c d0 pc d) (hs : c.Same d' d) : CmdInv c d0 pc d' := by
  cases pc with
  | start => exact fun n hn => (hs n hn).trans (h n hn)
  | writing =>
    obtain ⟨q, i, o, h1, h2, h3⟩ := h
    exact ⟨q, i, o, h1, h2, fun hne => (hs o (h1.uses.2 (.inr rfl))).trans (h3 hne)⟩
  | wrote =>
    obtain ⟨q, i, o, text, h1, h2⟩ := h
    exact ⟨q, i, o, text, h1, fun n hn => (hs n hn).trans (h2 n hn)⟩
  | running b a ok => exact h
  | ran =>
    obtain ⟨q, i, o, text, level, h1, h2, h3⟩ := h
    exact ⟨q, i, o, text, level, h1, fun n hn => (hs n hn).trans (h2 n hn), h3⟩
  | reading =>
    obtain ⟨q, i, o, text, level, h1, h2, h3⟩ := h
    exact ⟨q, i, o, text, level, h1, fun n hn => (hs n hn).trans (h2 n hn), h3⟩
  | failing msg =>
    obtain ⟨q, i, o, dd, h1, h2, h3⟩ := h
    exact ⟨q, i, o, dd, h1, fun n hn => (hs n hn).trans (h2 n hn), h3⟩
  | removing r =>
    obtain ⟨q, i, o, dd, h1, h2, h3⟩ := h
    exact ⟨q, i, o, dd, h1, fun n hn => (hs n hn).trans (h2 n hn), h3⟩
  | done r =>
    obtain ⟨dd, h1, h2⟩ := h
    exact ⟨dd, h1, fun n hn => (hs n hn).trans (h2 n hn)⟩
  | panicked p => exact h

/-- A step of the call keeps what is known. -/
theorem CmdInv.step {pc pc' : CmdPc F} (hl : c.Local) (h : CmdInv c d0 pc d) (hs : CmdStep c pc d pc' d') : CmdInv c d0 pc' d' := by
  cases hs with
  | unsupported h1 => exact ⟨d0, alone_none h1, h⟩
  | noInput h1 hi =>
    refine ⟨d0, ?_, h⟩
    rw [alone_milp h1]; unfold cmdSolve; simp only [hi]
  | noOutput h1 hi ho =>
    refine ⟨d0, ?_, h⟩
    rw [alone_milp h1]; unfold cmdSolve; simp only [hi, ho]
  | notCreated h1 hi ho hw =>
    have hn : c.Names _ _ _ := ⟨h1, hi, ho⟩
    refine ⟨_, _, _, d0, hn, h, ?_⟩
    rw [hn.alone]; simp only [writeLp, hw]; rfl
  | create h1 hi ho hw =>
    refine ⟨_, _, _, ⟨h1, hi, ho⟩, hw, fun hne => ?_⟩
    simp only [Dir.write, if_neg hne]
    exact h _ (.inr ho)
  | part hi data =>
    obtain ⟨q, i, o, h1, h2, h3⟩ := h
    obtain rfl : i = _ := Option.some.inj (h1.input.symm.trans hi)
    refine ⟨q, i, o, h1, h2, fun hne => ?_⟩
    simp only [Dir.write, if_neg hne]
    exact h3 hne
  | textPanics h1 ht =>
    obtain ⟨q, i, o, h2, h3, h4⟩ := h
    obtain rfl : q = _ := Option.some.inj (h2.milp.symm.trans h1)
    change c.alone d0 = _
    rw [h2.alone]
    unfold writeLp
    cases hw : c.env.writeEnd with
    | notCreated => exact absurd hw h3
    | failed data => simp only [ht]; rfl
    | written => simp only [ht]; rfl
  | writeFails h1 hi ht hw =>
    rename_i q' i' text data
    obtain ⟨q, i, o, h2, h3, h4⟩ := h
    obtain rfl : q = _ := Option.some.inj (h2.milp.symm.trans h1)
    obtain rfl : i = _ := Option.some.inj (h2.input.symm.trans hi)
    refine ⟨q, i, o, d0.write i data, h2, fun n hn => ?_, ?_⟩
    · simp only [Dir.write]
      split
      · rfl
      · rename_i hne
        rcases h2.uses.1 hn with rfl | rfl
        · exact absurd rfl hne
        · exact h4 hne
    · rw [h2.alone]; simp only [writeLp, hw, ht]; rfl
  | writeEnds h1 hi ht hw =>
    obtain ⟨q, i, o, h2, h3, h4⟩ := h
    obtain rfl : q = _ := Option.some.inj (h2.milp.symm.trans h1)
    obtain rfl : i = _ := Option.some.inj (h2.input.symm.trans hi)
    refine ⟨q, i, o, _, ⟨h2, hw, ht⟩, fun n hn => ?_⟩
    simp only [Dir.write]
    split
    · rfl
    · rename_i hne
      rcases h2.uses.1 hn with rfl | rfl
      · exact absurd rfl hne
      · exact h4 hne
  | noLevel h1 =>
    obtain ⟨q, i, o, text, h2, h3⟩ := h
    refine ⟨_, ?_, h3⟩
    rw [h2.toNames.alone]
    simp only [writeLp, h2.written, h2.text]
    rfl
  | spawn hi ho h1 =>
    rename_i i' o' level
    obtain ⟨q, i, o, text, h2, h3⟩ := h
    obtain rfl : i = _ := Option.some.inj (h2.input.symm.trans hi)
    obtain rfl : o = _ := Option.some.inj (h2.output.symm.trans ho)
    have hin := h3 i (h2.uses.2 (.inl rfl))
    have hout := h3 o (h2.uses.2 (.inr rfl))
    obtain ⟨e1, e2, e3, e4⟩ := hl i o level d (d0.write i (fileOf text)) hi ho hin hout
    refine ⟨q, i, o, text, level, ⟨h2, h1⟩, fun n hn => ?_, e2, e3, e1⟩
    exact e4 n (fun hne => hn (h2.uses.2 (.inl hne))) (fun hne => hn (h2.uses.2 (.inr hne)))
  | work hn data => exact h
  | ends hi ho =>
    rename_i i' o' b a ok
    obtain ⟨q, i, o, text, level, h2, h3, h4, h5, rfl⟩ := h
    obtain rfl : i = _ := Option.some.inj (h2.input.symm.trans hi)
    obtain rfl : o = _ := Option.some.inj (h2.output.symm.trans ho)
    have hsame : c.Same (fun n => if n = i ∨ n = o ∨ a n ≠ b n then a n else d n) (c.effect d0 i o text level).1 := by
      intro n hn
      rcases h2.uses.1 hn with rfl | rfl
      · simp [h4]
      · simp [h5]
    by_cases hk : (c.effect d0 i o text level).2 = true
    · rw [if_pos hk]
      exact ⟨q, i, o, text, level, h2, hsame, hk⟩
    · rw [if_neg hk]
      refine ⟨q, i, o, _, h2.toNames, hsame, ?_⟩
      rw [h2.alone, if_pos (by simpa using hk)]
  | removeInput hi =>
    obtain ⟨q, i, o, text, level, h2, h3, h4⟩ := h
    obtain rfl : i = _ := Option.some.inj (h2.input.symm.trans hi)
    exact ⟨q, i, o, text, level, h2, same_remove h3, h4⟩
  | readPanics h1 ho hr =>
    obtain ⟨q, i, o, text, level, h2, h3, h4⟩ := h
    obtain rfl : q = _ := Option.some.inj (h2.milp.symm.trans h1)
    obtain rfl : o = _ := Option.some.inj (h2.output.symm.trans ho)
    rw [h3 o (h2.uses.2 (.inr rfl))] at hr
    change c.alone d0 = _
    rw [h2.alone, if_neg (by simp [h4])]
    simp only [hr]; rfl
  | readFails h1 ho hr =>
    obtain ⟨q, i, o, text, level, h2, h3, h4⟩ := h
    obtain rfl : q = _ := Option.some.inj (h2.milp.symm.trans h1)
    obtain rfl : o = _ := Option.some.inj (h2.output.symm.trans ho)
    rw [h3 o (h2.uses.2 (.inr rfl))] at hr
    refine ⟨q, i, o, _, h2.toNames, h3, ?_⟩
    rw [h2.alone, if_neg (by simp [h4])]
    simp only [hr]; rfl
  | read h1 ho hr =>
    obtain ⟨q, i, o, text, level, h2, h3, h4⟩ := h
    obtain rfl : q = _ := Option.some.inj (h2.milp.symm.trans h1)
    obtain rfl : o = _ := Option.some.inj (h2.output.symm.trans ho)
    rw [h3 o (h2.uses.2 (.inr rfl))] at hr
    refine ⟨q, i, o, _, h2.toNames, h3, ?_⟩
    rw [h2.alone, if_neg (by simp [h4])]
    simp only [hr]; rfl
  | cleanInput hi =>
    obtain ⟨q, i, o, dd, h2, h3, h4⟩ := h
    obtain rfl : i = _ := Option.some.inj (h2.input.symm.trans hi)
    exact ⟨q, i, o, _, h2, same_remove h3, h4⟩
  | cleanOutput ho =>
    obtain ⟨q, i, o, dd, h2, h3, h4⟩ := h
    obtain rfl : o = _ := Option.some.inj (h2.output.symm.trans ho)
    exact ⟨_, h4, same_remove h3⟩

end Verif
