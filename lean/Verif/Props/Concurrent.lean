import Verif.Proofs.Concurrent
import Verif.Props.EndToEnd

/-! # Property C102: several calls of the command-line solvers at the same time -/

namespace Verif

variable {F : Type} [FloatOps F] {ι : Type} [DecidableEq ι] {call : ι → CmdCall F} {d0 d : Dir} {s : ι → CmdPc F}

/-- A step of a call changes only the files of the call, when the command minds its own business. -/
theorem step_frame {c : CmdCall F} (hl : c.Local) {pc pc' : CmdPc F} {d d' : Dir} (hinv : CmdInv c d0 pc d) (h : CmdStep c pc d pc' d') {n : String}
    (hn : ¬ c.Uses n) : d' n = d n := by
  have hni : ∀ {i}, c.env.tempIn = some i → n ≠ i := fun hi he => hn (.inl (by rw [hi, he]))
  have hno : ∀ {o}, c.env.tempOut = some o → n ≠ o := fun ho he => hn (.inr (by rw [ho, he]))
  cases h with
  | create _ hi _ _ => simp [Dir.write, hni hi]
  | part hi data => simp [Dir.write, hni hi]
  | writeFails _ hi _ _ => simp [Dir.write, hni hi]
  | writeEnds _ hi _ _ => simp [Dir.write, hni hi]
  | work hw data =>
    rename_i name
    have : n ≠ name := by
      rcases hw with hw | hw
      · exact hni hw
      · exact hno hw
    simp [this]
  | ends hi ho =>
    obtain ⟨_, _, _, _, _, _, h3, -⟩ := hinv
    simp [hni hi, hno ho, h3 n hn]
  | removeInput hi => exact tryRemove_other (hni hi)
  | cleanInput hi => exact tryRemove_other (hni hi)
  | cleanOutput ho => exact tryRemove_other (hno ho)
  | _ => rfl

theorem together_inv (hsep : Separate call) (hl : ∀ i, (call i).Local) (h : Together call d0 s d) (i : ι) : CmdInv (call i) d0 (s i) d := by
  induction h generalizing i with
  | start => exact fun n _ => rfl
  | step j h1 h2 ih =>
    by_cases hij : i = j
    · subst hij
      rw [Function.update_self]
      exact (ih i).step (hl i) h2
    · rw [Function.update_of_ne hij]
      exact (ih i).congr fun n hn => step_frame (hl j) (ih j) h2 (hsep i j hij n hn)
  | others h1 h2 ih => exact (ih i).congr fun n hn => h2 i n hn

/-- C102: whatever the order in which the steps of the calls are made, a call that has returned has returned what it returns when it is alone, and has
left its files as it leaves them when it is alone. -/
theorem C102_result (hsep : Separate call) (hl : ∀ i, (call i).Local) (h : Together call d0 s d) {i : ι} {r : Except String (Status × Sol F)}
    (hd : s i = .done r) : ∃ d', (call i).alone d0 = .ok (d', r) ∧ ∀ n, (call i).Uses n → d n = d' n := by
  have := together_inv hsep hl h i
  rw [hd] at this
  exact this

/-- C102: a call that has panicked panics when it is alone. -/
theorem C102_panic (hsep : Separate call) (hl : ∀ i, (call i).Local) (h : Together call d0 s d) {i : ι} {p : Panic}
    (hd : s i = .panicked p) : (call i).alone d0 = .error p := by
  have := together_inv hsep hl h i
  rw [hd] at this
  exact this

/-- C102: at every moment, also if calls have been killed, every file that no call uses is as it was, unless some other program changed it: no step of a
call changes it. -/
theorem C102_frame (hsep : Separate call) (hl : ∀ i, (call i).Local) (h : Together call d0 s d) {i : ι} {pc : CmdPc F} {d' : Dir}
    (hs : CmdStep (call i) (s i) d pc d') {n : String} (hn : ¬ (call i).Uses n) : d' n = d n :=
  step_frame (hl i) (together_inv hsep hl h i) hs hn

/-- Returned or panicked. -/
def CmdPc.Ended : CmdPc F → Prop
  | .done _ => True
  | .panicked _ => True
  | _ => False

/-- Steps that are left, at most. -/
def CmdPc.left : CmdPc F → Nat
  | .start => 9
  | .writing => 8
  | .wrote => 7
  | .running _ _ _ => 6
  | .ran => 5
  | .reading => 4
  | .failing _ => 2
  | .removing _ => 1
  | .done _ => 0
  | .panicked _ => 0

/-- A call that has not ended can go on, towards its end, whatever the files are. -/
theorem step_on {c : CmdCall F} {pc : CmdPc F} (hinv : CmdInv c d0 pc d) (h : ¬ pc.Ended) : ∃ pc' d', CmdStep c pc d pc' d' ∧ pc'.left < pc.left := by
  cases pc with
  | start =>
    cases hq : c.milp with
    | none => exact ⟨_, _, .unsupported hq, by simp [CmdPc.left]⟩
    | some q =>
      cases hi : c.env.tempIn with
      | none => exact ⟨_, _, .noInput hq hi, by simp [CmdPc.left]⟩
      | some i =>
        cases ho : c.env.tempOut with
        | none => exact ⟨_, _, .noOutput hq hi ho, by simp [CmdPc.left]⟩
        | some o =>
          by_cases hw : c.env.writeEnd = .notCreated
          · exact ⟨_, _, .notCreated hq hi ho hw, by simp [CmdPc.left]⟩
          · exact ⟨_, _, .create hq hi ho hw, by simp [CmdPc.left]⟩
  | writing =>
    obtain ⟨q, i, o, h1, h2, -⟩ := hinv
    cases ht : q.lpText c.env.fmtE with
    | error p => exact ⟨_, _, .textPanics h1.milp ht, by simp [CmdPc.left]⟩
    | ok text =>
      cases hw : c.env.writeEnd with
      | notCreated => exact absurd hw h2
      | failed data => exact ⟨_, _, .writeFails h1.milp h1.input ht hw, by simp [CmdPc.left]⟩
      | written => exact ⟨_, _, .writeEnds h1.milp h1.input ht hw, by simp [CmdPc.left]⟩
  | wrote =>
    obtain ⟨q, i, o, text, h1, -⟩ := hinv
    by_cases hlev : ∃ level, getParam c.ps "logLevel" = some (.int level)
    · obtain ⟨level, hlev⟩ := hlev
      exact ⟨_, _, .spawn h1.input h1.output hlev, by simp [CmdPc.left]⟩
    · exact ⟨_, _, .noLevel fun level hl => hlev ⟨level, hl⟩, by simp [CmdPc.left]⟩
  | running b a ok =>
    obtain ⟨q, i, o, text, level, h1, -⟩ := hinv
    refine ⟨_, _, .ends h1.input h1.output, ?_⟩
    split <;> simp [CmdPc.left]
  | ran =>
    obtain ⟨q, i, o, text, level, h1, -⟩ := hinv
    exact ⟨_, _, .removeInput h1.input, by simp [CmdPc.left]⟩
  | reading =>
    obtain ⟨q, i, o, text, level, h1, -⟩ := hinv
    cases hr : readSolFile c.env.parseF (d o) q c.cbc with
    | error p => exact ⟨_, _, .readPanics h1.milp h1.output hr, by simp [CmdPc.left]⟩
    | ok r =>
      cases r with
      | none => exact ⟨_, _, .readFails h1.milp h1.output hr, by simp [CmdPc.left]⟩
      | some r => exact ⟨_, _, .read h1.milp h1.output hr, by simp [CmdPc.left]⟩
  | failing msg =>
    obtain ⟨q, i, o, dd, h1, -⟩ := hinv
    exact ⟨_, _, .cleanInput h1.input, by simp [CmdPc.left]⟩
  | removing r =>
    obtain ⟨q, i, o, dd, h1, -⟩ := hinv
    exact ⟨_, _, .cleanOutput h1.output, by simp [CmdPc.left]⟩
  | done r => exact absurd trivial h
  | panicked p => exact absurd trivial h

/-- C102: no call waits for another one: from every situation, each call can be run to its end while all the others stand still. -/
theorem C102_finishes (hsep : Separate call) (hl : ∀ i, (call i).Local) (h : Together call d0 s d) (i : ι) :
    ∃ pc d', Together call d0 (Function.update s i pc) d' ∧ pc.Ended := by
  suffices ∀ k (s : ι → CmdPc F) (d : Dir), Together call d0 s d → (s i).left ≤ k → ∃ pc d', Together call d0 (Function.update s i pc) d' ∧ pc.Ended from
    this _ s d h le_rfl
  intro k
  induction k with
  | zero =>
    intro s d h hk
    by_cases he : (s i).Ended
    · exact ⟨s i, d, by rwa [Function.update_eq_self], he⟩
    · obtain ⟨pc, d', -, h2⟩ := step_on (together_inv hsep hl h i) he
      omega
  | succ k ih =>
    intro s d h hk
    by_cases he : (s i).Ended
    · exact ⟨s i, d, by rwa [Function.update_eq_self], he⟩
    · obtain ⟨pc, d', h1, h2⟩ := step_on (together_inv hsep hl h i) he
      obtain ⟨pc', d'', h3, h4⟩ := ih _ _ (h.step i h1) (by rw [Function.update_self]; omega)
      rw [Function.update_idem] at h3
      exact ⟨pc', d'', h3, h4⟩

/-- C102: after a call has returned, whatever the others did, its files are gone or (if the call did not get as far as using them) as they were, unless the
system refused to remove them. -/
theorem C102_no_files (hsep : Separate call) (hl : ∀ i, (call i).Local) (h : Together call d0 s d) {i : ι} {r : Except String (Status × Sol F)}
    (hd : s i = .done r) {calls : List (String × SolverParam F)} (hp : (call i).ps = setParams (if (call i).cbc then cbcParams else clpParams) calls)
    {n : String} (hn : (call i).Uses n) (hst : (call i).env.stuck n = false) : d n = none ∨ d n = d0 n := by
  obtain ⟨d', h1, h2⟩ := C102_result hsep hl h hd
  rw [h2 n hn]
  unfold CmdCall.alone at h1
  rw [hp] at h1
  have h3 : (if (call i).cbc then cbcSolve (setParams cbcParams calls) else clpSolve (setParams clpParams calls)) (call i).env (call i).prob d0
      = .ok (d', r) := by
    cases hc : (call i).cbc <;> simpa [hc] using h1
  rcases C50_no_files h3 with rfl | ⟨input, output, hi, ho, h4, h5, -⟩
  · exact .inr rfl
  · left
    rcases hn with hn | hn
    · rw [hi] at hn; cases hn; exact h4 hst
    · rw [ho] at hn; cases hn; exact h5 hst

/-! ### Examples -/

/-- The problem `minimize x subject to k <= x <= 5`. -/
def exBoxR (k : ℚ) : R (Milp Q) := Milp.new [some 1] (Coo.fromNnz (0, 1) 0) [] [some k] [some 5] [false] none

def exBox (k : ℚ) : Option (Milp Q) := (exBoxR k).toOption

/-- Its LP file. -/
def exBoxText (k : ℚ) : List Char := (((exBox k).map fun q => (q.lpText fmtQ).toOption).join).getD []

/-- A command that solves the problems with `k = 2` and `k = 3`, and otherwise leaves no output file. -/
def exCommand : String → List String → Dir → Dir × Bool := fun _ args d => match args with
  | [input, _, _, _, _, _, _, output] =>
    if d input = some (fileOf (exBoxText 2)) then (d.write output (fileOf "Optimal\n 0 x_0 2 1\n".toList), true)
    else if d input = some (fileOf (exBoxText 3)) then (d.write output (fileOf "Optimal\n 0 x_0 3 1\n".toList), true)
    else (d.remove output, true)
  | _ => (d, true)

/-- The call of Cbc that solves the problem, with files of the given names. -/
def exCall (q : Milp Q) (input output : String) : CmdCall Q :=
  ⟨true, cbcParams, { exEnv with tempIn := some input, tempOut := some output, command := exCommand }, .milp q⟩

theorem exCall_local (q : Milp Q) (input output : String) : (exCall q input output).Local := by
  intro i o level d d' hi ho h1 h2
  simp only [exCall, exCommand, cmdArgs]
  rw [← h1]
  split
  · refine ⟨rfl, ?_, by simp [Dir.write], fun n _ hno => by simp [Dir.write, hno]⟩
    simp only [Dir.write]; split
    · rfl
    · exact h1
  · split
    · refine ⟨rfl, ?_, by simp [Dir.write], fun n _ hno => by simp [Dir.write, hno]⟩
      simp only [Dir.write]; split
      · rfl
      · exact h1
    · refine ⟨rfl, ?_, by simp [Dir.remove], fun n _ hno => by simp [Dir.remove, hno]⟩
      simp only [Dir.remove]; split
      · rfl
      · exact h1

theorem exBox2_some : (exBox 2).isSome = true := by decide +kernel
theorem exBox3_some : (exBox 3).isSome = true := by decide +kernel

def exQ2 : Milp Q := (exBox 2).get exBox2_some
def exQ3 : Milp Q := (exBox 3).get exBox3_some

/-- The report that `x` is `k`. -/
def exOut (k : Char) : FileData := fileOf ("Optimal\n 0 x_0 ".toList ++ [k] ++ " 1\n".toList)

/-- What `solve` makes of it. -/
def exBoxSol (k : ℚ) : Status × Sol Q := (.solved, ⟨[some k], [], [], [some 0], [some 1]⟩)

theorem exQ2_text : exQ2.lpText fmtQ = .ok (exBoxText 2) := by decide +kernel
theorem exQ3_text : exQ3.lpText fmtQ = .ok (exBoxText 3) := by decide +kernel
theorem exTexts : fileOf (exBoxText 3) ≠ fileOf (exBoxText 2) := by decide +kernel
theorem exRead22 : readSolFile digitQ (some (exOut '2')) exQ2 true = .ok (some (exBoxSol 2)) := by decide +kernel
theorem exRead23 : readSolFile digitQ (some (exOut '3')) exQ2 true = .ok (some (exBoxSol 3)) := by decide +kernel
theorem exRead33 : readSolFile digitQ (some (exOut '3')) exQ3 true = .ok (some (exBoxSol 3)) := by decide +kernel

/-- The call writes its file. -/
theorem ex_begin {call : ι → CmdCall Q} {d0 d : Dir} {s : ι → CmdPc Q} {j : ι} {q : Milp Q} {input output : String} {text : List Char}
    (hc : call j = exCall q input output) (h : Together call d0 s d) (hs : s j = .start) (ht : q.lpText fmtQ = .ok text) :
    Together call d0 (Function.update s j .wrote) ((d.write input []).write input (fileOf text)) := by
  have h1 := h.step j (pc := .writing) (d' := d.write input []) (by
    rw [hs, hc]; exact .create rfl rfl rfl (by simp [exCall, exEnv]))
  have h2 := h1.step j (pc := .wrote) (d' := (d.write input []).write input (fileOf text)) (by
    rw [Function.update_self, hc]; exact .writeEnds rfl rfl ht rfl)
  rwa [Function.update_idem] at h2

/-- The call runs the command and returns. -/
theorem ex_finish {call : ι → CmdCall Q} {d0 d : Dir} {s : ι → CmdPc Q} {j : ι} {q : Milp Q} {input output : String} {out : FileData}
    {sol : Status × Sol Q} (hc : call j = exCall q input output) (hne : output ≠ input) (h : Together call d0 s d) (hs : s j = .wrote)
    (hout : exCommand "cbc" (cmdArgs input output 5) d = (d.write output out, true))
    (hr : readSolFile digitQ (some out) q true = .ok (some sol)) :
    ∃ d', Together call d0 (Function.update s j (.done (.ok sol))) d' ∧ ∀ n, n ≠ input → n ≠ output → d' n = d n := by
  have h1 := h.step j (pc := .running d (d.write output out) true) (d' := d) (by
    rw [hs, hc]
    have := CmdStep.spawn (c := exCall q input output) (d := d) rfl rfl (level := 5) rfl
    have he : (exCall q input output).env.command (cmdName (exCall q input output).cbc) (cmdArgs input output 5) d = (d.write output out, true) := hout
    rwa [he] at this)
  have h2 := h1.step j (pc := .ran) (d' := fun n => if n = input ∨ n = output ∨ d.write output out n ≠ d n then d.write output out n else d n) (by
    rw [Function.update_self, hc]; exact CmdStep.ends (c := exCall q input output) (ok := true) rfl rfl)
  rw [Function.update_idem] at h2
  have h3 := h2.step j (by rw [Function.update_self, hc]; exact .removeInput rfl)
  rw [Function.update_idem] at h3
  have h4 := h3.step j (by
    rw [Function.update_self, hc]
    refine CmdStep.read (q := q) (o := output) (r := sol) rfl rfl ?_
    rw [tryRemove_other hne]
    have he : (d.write output out) output = some out := by simp [Dir.write]
    simp only [true_or, or_true, if_true, he]
    exact hr)
  rw [Function.update_idem] at h4
  have h5 := h4.step j (by rw [Function.update_self, hc]; exact .cleanOutput rfl)
  rw [Function.update_idem] at h5
  refine ⟨_, h5, fun n h6 h7 => ?_⟩
  rw [tryRemove_other h7, tryRemove_other h6]
  simp [Dir.write, h6, h7]

/-- Two calls with their own files. -/
def exTwo : Bool → CmdCall Q
  | false => exCall exQ2 "a.lp" "a.sol"
  | true => exCall exQ3 "b.lp" "b.sol"

/-- Two calls with the same files. -/
def exClash : Bool → CmdCall Q
  | false => exCall exQ2 "a.lp" "a.sol"
  | true => exCall exQ3 "a.lp" "a.sol"

/-- Non-vacuity of C102: two calls with their own files, whose steps are interleaved; both return the solutions of their own problems. -/
example : Separate exTwo ∧ (∀ i, (exTwo i).Local) ∧ ∃ s d, Together exTwo (fun _ => none) s d ∧ s false = .done (.ok (exBoxSol 2)) ∧
    s true = .done (.ok (exBoxSol 3)) := by
  refine ⟨?_, fun i => by cases i <;> exact exCall_local _ _ _, ?_⟩
  · intro i j hij n h1 h2
    cases i <;> cases j <;> simp_all [exTwo, exCall, CmdCall.Uses] <;> rcases h1 with rfl | rfl <;> simp at h2
  · have h1 := ex_begin (call := exTwo) (d0 := fun _ => none) (j := false) rfl Together.start rfl exQ2_text
    have h2 := ex_begin (call := exTwo) (j := true) rfl h1 (by simp) exQ3_text
    obtain ⟨d', h3, h4⟩ := ex_finish (call := exTwo) (j := false) rfl (by decide) h2 (by simp) (out := exOut '2') (by
      simp only [exCommand, cmdArgs]
      rw [if_pos (by simp [Dir.write])]; rfl) exRead22
    obtain ⟨d'', h5, -⟩ := ex_finish (call := exTwo) (j := true) rfl (by decide) h3 (by simp) (out := exOut '3') (by
      simp only [exCommand, cmdArgs]
      have hb : d' "b.lp" = some (fileOf (exBoxText 3)) := by rw [h4 _ (by decide) (by decide)]; simp [Dir.write]
      rw [hb, if_neg (by simpa using exTexts), if_pos rfl]; rfl) exRead33
    exact ⟨_, _, h5, by simp, by simp⟩

/-- C102: the names have to be different. The names come from temporary files that are removed before the names are used, in another directory, so
nothing keeps two calls from using the same ones; then a call can return the solution of the problem of another call. -/
theorem C102_counterexample : ∃ s d, Together exClash (fun _ => none) s d ∧ (∀ i, (exClash i).Local) ∧ s false = .done (.ok (exBoxSol 3)) ∧
    ∃ d', (exClash false).alone (fun _ => none) = .ok (d', .ok (exBoxSol 2)) := by
  have h1 := ex_begin (call := exClash) (d0 := fun _ => none) (j := false) rfl Together.start rfl exQ2_text
  have h2 := ex_begin (call := exClash) (j := true) rfl h1 (by simp) exQ3_text
  obtain ⟨d', h3, -⟩ := ex_finish (call := exClash) (j := false) rfl (by decide) h2 (by simp) (out := exOut '3') (by
    simp only [exCommand, cmdArgs]
    rw [if_neg (by simpa [Dir.write] using exTexts), if_pos (by simp [Dir.write])]; rfl) exRead23
  refine ⟨_, _, h3, fun i => by cases i <;> exact exCall_local _ _ _, by simp, ?_⟩
  -- alone: one call, run to its end
  have h4 := ex_begin (call := fun _ : Unit => exClash false) (d0 := fun _ => none) (j := ()) rfl Together.start rfl exQ2_text
  obtain ⟨d'', h5, -⟩ := ex_finish (call := fun _ : Unit => exClash false) (j := ()) rfl (by decide) h4 (by simp) (out := exOut '2') (by
    simp only [exCommand, cmdArgs]
    rw [if_pos (by simp [Dir.write])]; rfl) exRead22
  obtain ⟨d3, h6, -⟩ := C102_result (i := ()) (fun i j hij => absurd rfl hij) (fun _ => exCall_local _ _ _) h5 (by simp; rfl)
  exact ⟨d3, h6⟩

end Verif
