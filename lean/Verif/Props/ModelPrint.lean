import Verif.Code.ModelPrint
import Verif.Spec.ModelReader
import Verif.Props.Print

/-! # Property C56: printed models -/

namespace Verif

set_option linter.unusedSectionVars false

/-- The numbers and names in `e` print without line feeds and colons. -/
structure PlainText {F : Type} (fmt : F → List Char) (e : Node F) : Prop where
  num : ∀ i v, Occurs (.const i v) e → '\n' ∉ fmt v ∧ ':' ∉ fmt v
  name : ∀ x : Node F, x.isVar = true → Occurs x e → '\n' ∉ x.name.toList ∧ ':' ∉ x.name.toList

theorem PlainText.arg {F : Type} {fmt : F → List Char} {e a : Node F} (h : PlainText fmt e) (ha : a ∈ e.arguments) : PlainText fmt a where
  num := fun i v ho => h.num i v (.arg ha ho)
  name := fun x hx ho => h.name x hx (.arg ha ho)

theorem PlainText.print {F : Type} {fmt : F → List Char} (e : Node F) (h : PlainText fmt e) :
    '\n' ∉ e.print fmt ∧ ':' ∉ e.print fmt := by
  have hpar : ∀ s : List Char, '\n' ∉ s ∧ ':' ∉ s → '\n' ∉ inParens s ∧ ':' ∉ inParens s := by
    intro s hs; simpa [inParens] using hs
  induction e using Node.ind with
  | const i v => exact h.num i v (.refl _)
  | var i s k => exact h.name (.var i s k) rfl (.refl _)
  | add i args ih =>
    have hargs : ∀ as : List (Node F), (∀ a ∈ as, '\n' ∉ a.print fmt ∧ ':' ∉ a.print fmt) →
        '\n' ∉ Node.print.printArgs fmt as ∧ ':' ∉ Node.print.printArgs fmt as := by
      intro as has
      induction as with
      | nil => simp [Node.print.printArgs]
      | cons a as ih2 =>
        have h1 := has a (by simp)
        have h2 := ih2 fun b hb => has b (by simp [hb])
        simp only [Node.print.printArgs]
        split
        · exact h1
        · simp [h1, h2]
    exact hargs args fun a ha => ih a ha (h.arg ha)
  | cos i a ih =>
    have := hpar _ (ih (h.arg (by simp [Node.arguments])))
    simp [Node.print, this]
  | sin i a ih =>
    have := hpar _ (ih (h.arg (by simp [Node.arguments])))
    simp [Node.print, this]
  | div i a b iha ihb =>
    have ha := iha (h.arg (by simp [Node.arguments]))
    have hb := ihb (h.arg (by simp [Node.arguments]))
    have ha' := hpar _ ha
    have hb' := hpar _ hb
    simp only [Node.print]
    split <;> split <;> simp [*]
  | mul i a b iha ihb =>
    have ha := iha (h.arg (by simp [Node.arguments]))
    have hb := ihb (h.arg (by simp [Node.arguments]))
    have ha' := hpar _ ha
    have hb' := hpar _ hb
    simp only [Node.print]
    split <;> split <;> simp [*]

theorem PlainText.constraint {F : Type} {fmt : F → List Char} {c : Constraint F} (h1 : PlainText fmt c.lhs) (h2 : PlainText fmt c.rhs) :
    '\n' ∉ c.print fmt ∧ ':' ∉ c.print fmt := by
  have a := h1.print
  have b := h2.print
  unfold Constraint.print
  cases c.kind <;> simp [CKind.symbol, a, b]

theorem splitLines_line (cur l rest : List Char) (h : '\n' ∉ l) :
    splitLines cur (l ++ '\n' :: rest) = (splitLines [] rest).map ((cur ++ l) :: ·) := by
  induction l generalizing cur with
  | nil => simp [splitLines]
  | cons c l ih =>
    simp only [List.mem_cons, not_or] at h
    rw [List.cons_append, splitLines, if_neg (fun e => h.1 e.symm), ih _ h.2]
    simp

theorem splitLabel_label (cur t lab : List Char) (h : ':' ∉ t) : splitLabel cur (t ++ ' ' :: ':' :: ' ' :: lab) = (cur ++ t, lab) := by
  induction t generalizing cur with
  | nil => simp [splitLabel]
  | cons c t ih =>
    simp only [List.mem_cons, not_or] at h
    have := ih (cur ++ [c]) h.2
    rw [List.cons_append, splitLabel, this]
    · simp
    · rintro cs rfl e
      cases t with
      | nil => simp at e
      | cons d t => simp at e; exact h.2 (by simp [e.1])

theorem splitLabel_none (cur t : List Char) (h : ':' ∉ t) : splitLabel cur t = (cur ++ t, []) := by
  induction t generalizing cur with
  | nil => simp [splitLabel]
  | cons c t ih =>
    simp only [List.mem_cons, not_or] at h
    have := ih (cur ++ [c]) h.2
    rw [splitLabel, this]
    · simp
    · rintro cs rfl e
      cases t with
      | nil => simp at e
      | cons d t => simp at e; exact h.2 (by simp [e.1])

/-- The line of a constraint without its line feed. -/
def Constraint.lineText {F : Type} (fmt : F → List Char) (c : Constraint F) : List Char :=
  if c.label = "" then c.print fmt else c.print fmt ++ ' ' :: ':' :: ' ' :: c.label.toList

theorem Constraint.line_eq {F : Type} (fmt : F → List Char) (c : Constraint F) : c.line fmt = c.lineText fmt ++ ['\n'] := by
  unfold Constraint.line Constraint.lineText
  by_cases h : c.label = "" <;> simp [h]

theorem splitLines_constraints {F : Type} (fmt : F → List Char) (cs : List (Constraint F)) (h : ∀ c ∈ cs, '\n' ∉ c.lineText fmt) :
    splitLines [] (cs.flatMap (·.line fmt)) = some (cs.map (·.lineText fmt)) := by
  induction cs with
  | nil => simp [splitLines]
  | cons c cs ih =>
    rw [List.flatMap_cons, Constraint.line_eq, List.append_assoc, List.singleton_append, splitLines_line _ _ _ (h c (by simp)),
      ih fun d hd => h d (by simp [hd])]
    simp

section
variable {K : Type} [Field K] [LinearOrder K] [Trig K]
variable {readNum : Word → Option (Option K)} {ρ : Word → Option K} {fmt : Option K → List Char} {σ : Env (Option K)}

/-- Everything that the text of the model shows can be read. -/
structure Model.ReadableText (readNum : Word → Option (Option K)) (ρ : Word → Option K) (fmt : Option K → List Char) (σ : Env (Option K))
    (m : Model (Option K)) : Prop where
  obj : ∀ e, m.objective = .minimize e ∨ m.objective = .maximize e → Readable readNum ρ fmt σ e ∧ PlainText fmt e
  lhs : ∀ c ∈ m.constraints, Readable readNum ρ fmt σ c.lhs ∧ PlainText fmt c.lhs
  rhs : ∀ c ∈ m.constraints, Readable readNum ρ fmt σ c.rhs ∧ PlainText fmt c.rhs
  label : ∀ c ∈ m.constraints, '\n' ∉ c.label.toList

/-- C56: the text of a model, read as a model, has the sense of the objective, a text of the objective that denotes its value, and for
each constraint of the model, in order, a text that denotes the comparison, and its label. -/
theorem C56_model {H : HashOrder} {W : World (Option K)} {n : Nat} (hr : ReachableW H W n)
    (hread : W.m.ReadableText readNum ρ fmt σ) :
    ∃ obj cs, readModel (W.m.print fmt) = some (W.m.objective.sense, obj, cs) ∧
      (∀ e, W.m.objective = .minimize e ∨ W.m.objective = .maximize e → Reads readNum ρ obj (e.evaluate σ)) ∧
      List.Forall₂ (fun (c : Constraint (Option K)) (t : List Char × List Char) =>
        ReadsCmp readNum ρ t.1 c.kind (c.lhs.evaluate σ) (c.rhs.evaluate σ) ∧ t.2 = c.label.toList) W.m.constraints cs := by
  have hinv := hr.inv
  obtain ⟨hp, hw⟩ := hinv
  have hplain : ∀ c ∈ W.m.constraints, '\n' ∉ c.print fmt ∧ ':' ∉ c.print fmt := fun c hc =>
    PlainText.constraint (hread.lhs c hc).2 (hread.rhs c hc).2
  have hline : ∀ c ∈ W.m.constraints, '\n' ∉ c.lineText fmt := by
    intro c hc
    have h1 := (hplain c hc).1
    have h2 := hread.label c hc
    unfold Constraint.lineText
    split <;> simp [h1, h2]
  have hcs : List.Forall₂ (fun (c : Constraint (Option K)) (t : List Char × List Char) =>
      ReadsCmp readNum ρ t.1 c.kind (c.lhs.evaluate σ) (c.rhs.evaluate σ) ∧ t.2 = c.label.toList) W.m.constraints
      (W.m.constraints.map fun c => splitLabel [] (c.lineText fmt)) := by
    rw [List.forall₂_map_right_iff, List.forall₂_same]
    intro c hc
    have hcmp := C17_constraint (readNum := readNum) (ρ := ρ) (fmt := fmt) (σ := σ) hr (hw.sub c hc) (hread.lhs c hc).1 (hread.rhs c hc).1
    unfold Constraint.lineText
    by_cases hl : c.label = ""
    · simp only [hl, if_true, splitLabel_none _ _ (hplain c hc).2, List.nil_append]
      exact ⟨hcmp, rfl⟩
    · simp only [hl, if_false, splitLabel_label _ _ _ (hplain c hc).2, List.nil_append]
      exact ⟨hcmp, trivial⟩
  -- the lines after the heading
  have key : ∀ (head : List Char) (s : Sense) (obj : List Char), '\n' ∉ head → '\n' ∉ obj → readSense head = some s →
      ∃ cs, readModel ('\n' :: head ++ '\n' :: (obj ++ ['\n']) ++ if W.m.constraints.length > 0 then
        ['\n', 'S', 'u', 'b', 'j', 'e', 'c', 't', ' ', 't', 'o', '\n'] ++ W.m.constraints.flatMap (·.line fmt) else []) =
          some (s, obj, cs) ∧
        List.Forall₂ (fun (c : Constraint (Option K)) (t : List Char × List Char) =>
          ReadsCmp readNum ρ t.1 c.kind (c.lhs.evaluate σ) (c.rhs.evaluate σ) ∧ t.2 = c.label.toList) W.m.constraints cs := by
    intro head s obj h1 h2 hs
    refine ⟨_, ?_, hcs⟩
    have hl1 := fun r => splitLines_line [] [] r (by simp)
    have hsub : splitLines [] (['\n', 'S', 'u', 'b', 'j', 'e', 'c', 't', ' ', 't', 'o', '\n'] ++ W.m.constraints.flatMap (·.line fmt)) =
        some ([] :: "Subject to".toList :: W.m.constraints.map (·.lineText fmt)) := by
      have := splitLines_line [] "Subject to".toList (W.m.constraints.flatMap (·.line fmt)) (by decide)
      rw [splitLines_constraints fmt _ hline] at this
      have h0 := hl1 ("Subject to".toList ++ '\n' :: W.m.constraints.flatMap (·.line fmt))
      rw [this] at h0
      simpa using h0
    have hall : ∀ tail ls, splitLines [] tail = some ls →
        splitLines [] ('\n' :: head ++ '\n' :: (obj ++ ['\n']) ++ tail) = some ([] :: head :: obj :: ls) := by
      intro tail ls ht
      have e : '\n' :: head ++ '\n' :: (obj ++ ['\n']) ++ tail = [] ++ '\n' :: (head ++ '\n' :: (obj ++ '\n' :: tail)) := by simp
      rw [e, hl1, splitLines_line _ _ _ h1, splitLines_line _ _ _ h2, ht]
      simp
    unfold readModel
    by_cases hc : W.m.constraints.length > 0
    · rw [if_pos hc, hall _ _ hsub]
      simp [hs, Function.comp_def]
    · have hnil : W.m.constraints = [] := by
        cases hh : W.m.constraints with
        | nil => rfl
        | cons a l => rw [hh] at hc; simp at hc
      rw [if_neg hc, hall [] [] (by simp [splitLines])]
      simp [hs, hnil]
  unfold Model.print
  cases ho : W.m.objective with
  | minimize e =>
    obtain ⟨r1, r2⟩ := hread.obj e (.inl ho)
    obtain ⟨cs, h1, h2⟩ := key "Minimize".toList .minimize (e.print fmt) (by decide) r2.print.1 (by decide)
    refine ⟨_, cs, h1, ?_, h2⟩
    rintro e' (he | he) <;> cases he
    have := (print_ok e (hw.model.min e ho) r1).sum.1 [] (e.evaluate σ, []) (by simp [NoTerm, NoOpen]) (sumLoop_stop (by simp))
    obtain ⟨N, hN⟩ := this
    exact ⟨N, by simpa using hN N (Nat.le_refl _)⟩
  | maximize e =>
    obtain ⟨r1, r2⟩ := hread.obj e (.inr ho)
    obtain ⟨cs, h1, h2⟩ := key "Maximize".toList .maximize (e.print fmt) (by decide) r2.print.1 (by decide)
    refine ⟨_, cs, h1, ?_, h2⟩
    rintro e' (he | he) <;> cases he
    have := (print_ok e (hw.model.max e ho) r1).sum.1 [] (e.evaluate σ, []) (by simp [NoTerm, NoOpen]) (sumLoop_stop (by simp))
    obtain ⟨N, hN⟩ := this
    exact ⟨N, by simpa using hN N (Nat.le_refl _)⟩
  | empty =>
    obtain ⟨cs, h1, h2⟩ := key "Find point".toList .find [] (by decide) (by simp) (by decide)
    refine ⟨_, cs, h1, ?_, h2⟩
    rintro e' (he | he) <;> cases he

end

/-- A check of plain texts, for the example. -/
def plainCheck (e : Node Q) : Bool :=
  e.nodes.all fun
    | .const _ v => !(exFmt v).contains '\n' && !(exFmt v).contains ':'
    | .var _ s _ => !s.toList.contains '\n' && !s.toList.contains ':'
    | _ => true

theorem plainCheck_sound {e : Node Q} (h : plainCheck e = true) : PlainText exFmt e := by
  unfold plainCheck at h
  rw [List.all_eq_true] at h
  constructor
  · intro i v ho
    simpa using h _ (mem_nodes ho)
  · intro x hx ho
    cases x <;> simp [Node.isVar] at hx
    have := h _ (mem_nodes ho)
    simpa [Node.name] using this

/-- Maximize `x*x` subject to `x <= 3` with the label `cap` and `x + 3 >= x*2` without a label. -/
def exModelProg : List (Cmd Q) := [.expr (.var "x" .continuous), .expr (.mul 0 0), .expr (.addScalar 0 (some 3)), .expr (.mulScalar 0 (some 2)),
  .cmpNodeScalar .lessEqual 0 (some 3) "cap", .cmpNodeNode .greaterEqual 2 3 "", .maximize 1, .addConstraints [0, 1]]

/-- Non-vacuity of C56: the model is built by a program, its text is as shown, and it is readable with `x = 2`. -/
example : ReachableW HashOrder.listOrder (worldOf exModelProg) (wcount exModelProg) ∧
    (worldOf exModelProg).m.print exFmt =
      "\nMaximize\nx*x\n\nSubject to\nx <= 3 : cap\nx + 3 >= x*2\n".toList ∧
    (worldOf exModelProg).m.ReadableText exRead exNames exFmt (envOf [(0, 2)]) := by
  have hmem : ∀ P : Constraint Q → Bool, (worldOf exModelProg).m.constraints.all P = true → ∀ c ∈ (worldOf exModelProg).m.constraints, P c = true :=
    fun P h => List.all_eq_true.1 h
  refine ⟨(runsW_reachable (by decide +kernel) (by decide +kernel)).reachable, by decide +kernel, ⟨?_, ?_, ?_, ?_⟩⟩
  · have h : (match (worldOf exModelProg).m.objective with
      | .minimize e => readableCheck exNames (envOf [(0, 2)]) e && plainCheck e
      | .maximize e => readableCheck exNames (envOf [(0, 2)]) e && plainCheck e
      | .empty => true) = true := by decide +kernel
    rintro e (he | he) <;> rw [he] at h <;> simp only [Bool.and_eq_true] at h <;> exact ⟨readableCheck_sound h.1, plainCheck_sound h.2⟩
  · intro c hc
    have := hmem (fun c => readableCheck exNames (envOf [(0, 2)]) c.lhs && plainCheck c.lhs) (by decide +kernel) c hc
    simp only [Bool.and_eq_true] at this
    exact ⟨readableCheck_sound this.1, plainCheck_sound this.2⟩
  · intro c hc
    have := hmem (fun c => readableCheck exNames (envOf [(0, 2)]) c.rhs && plainCheck c.rhs) (by decide +kernel) c hc
    simp only [Bool.and_eq_true] at this
    exact ⟨readableCheck_sound this.1, plainCheck_sound this.2⟩
  · intro c hc
    have := hmem (fun c => !c.label.toList.contains '\n') (by decide +kernel) c hc
    simpa using this

end Verif
