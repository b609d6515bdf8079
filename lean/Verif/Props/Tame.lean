import Verif.Proofs.GradedLaws
import Verif.Proofs.GradedModel
import Verif.Props.NoPanic
import Verif.Props.Ipopt2

/-!
# C98: polynomial models with terms of one sign, or homogeneous ones, are solved without panic
-/

set_option linter.unusedSectionVars false

namespace Verif

open Exact

/-- Facts about numbers that hold of doubles and of exact numbers. -/
structure TameLaws (F : Type) [FloatOps F] : Prop where
  simple : SimpleLaws F
  sign : SignFacts F
  zero : ZeroFacts F

/-- Doubles satisfy the laws. -/
theorem C98_laws_double [Libm] : TameLaws F64 := ⟨C96_laws_double, F64.signFacts, F64.zeroFacts⟩

/-- Exact numbers satisfy the laws. -/
theorem C98_laws_exact {K : Type} [Field K] [LinearOrder K] [IsStrictOrderedRing K] [Trig K] : TameLaws (Option K) :=
  ⟨C96_laws_exact, exactSignFacts, exactZeroFacts⟩

section
variable {F : Type} [FloatOps F] {H : HashOrder}

theorem zmod2_cancel : ∀ s : ZMod 2, 1 + (s + 1) = s := by decide

theorem tame_easy (laws : TameLaws F) {f x : Node F} (h : (∃ s, TermsWith x (Signed s) f) ∨ ∃ d, TermsWith x (Homogeneous d) f) : Easy x f := by
  rcases h with ⟨s, h⟩ | ⟨d, h⟩
  · exact ⟨_, _, _, _, _, _, _, s, signLaws laws.sign, h⟩
  · exact ⟨_, _, _, _, _, _, _, d, homLaws laws.zero, h⟩

theorem tame_easyC (laws : TameLaws F) {c : Constraint F} (h : c.MildTerms) : EasyC c := by
  rcases h with h | h
  · exact .inl h
  · refine .inr fun x hx => ?_
    rcases h x hx with ⟨s, h1, h2⟩ | ⟨d, h1, h2⟩
    · refine ⟨_, _, _, _, _, _, _, s + 1, signLaws laws.sign, ?_, h2⟩
      have : (1 : ZMod 2) + (s + 1) = s := zmod2_cancel s
      rw [this]; exact h1
    · refine ⟨_, _, _, _, _, _, _, d, homLaws laws.zero, ?_, h2⟩
      rw [zero_add]; exact h1

/-- C98, one function: an expression in which, for each of the given variables, the terms with that variable have coefficients of one sign or are homogeneous of one degree.
All its derivatives are returned, with an entry for each variable, and the derivatives of these derivatives by those variables are returned as well. -/
theorem C98_derivatives (laws : TameLaws F) {regs : List (Node F)} {n : Nat} (hr : ReachableApi H regs n) {e : Node F} (he : e ∈ regs) {vars : List (Node F)}
    (hv : ∀ x ∈ vars, x ∈ regs ∧ x.isVar = true ∧ ((∃ s, TermsWith x (Signed s) e) ∨ ∃ d, TermsWith x (Homogeneous d) e)) :
    ∃ r m, derivatives H e vars n = .ok (r, m) ∧ ∀ x ∈ vars, ∃ d, getN r x = some d ∧ ∀ k, m ≤ k → ∃ r' m', derivatives H d vars k = .ok (r', m') := by
  obtain ⟨hp, hn, hg⟩ := hr.inv
  obtain ⟨r, m, h1, h2, h3⟩ := easy_derivatives (H := H) hn (hg e he) fun x hx => ⟨(hv x hx).2.1, hg x (hv x hx).1, tame_easy laws (hv x hx).2.2⟩
  obtain ⟨hp1, hle1, hn1, _, hg1⟩ := spec_derivatives (l := .api) hn (hg e he) r m h1
  refine ⟨r, m, h1, fun x hx => ?_⟩
  obtain ⟨d, hd⟩ := h2 x hx
  refine ⟨d, hd, fun k hk => ?_⟩
  obtain ⟨y, hy, -⟩ := getN_some_iff hd
  have hnk : HInv hp1 k := fun i hi => hn1 i (by omega)
  obtain ⟨r', m', h', -⟩ := easy_derivatives (H := H) hnk (hg1 _ hy) fun z hz => ⟨(hv z hz).2.1, (hg z (hv z hz).1).mono hle1, h3 _ hy z⟩
  exact ⟨r', m', h'⟩

variable {W : World F} {n : Nat}

/-- C98: a model in which the objective and the two sides of each constraint are affine or have, for each variable, terms of one sign or of one degree, and in which no constraint
compares a number with a sum of a single term and numbers, has a standard form. -/
theorem C98_total (laws : TameLaws F) (hr : ReachableApiW H W n) (ht : W.m.MildTerms) (hc : ∀ c ∈ W.m.constraints, ¬ c.TermAgainstNumber) :
    ∃ sp m, W.m.stdProblem H n = .ok (sp, m) := by
  cases h : W.m.stdProblem H n with
  | ok r => exact ⟨r.1, r.2, rfl⟩
  | error p =>
    exfalso
    rw [C23_total hr.reachable] at h
    obtain ⟨h0, hw⟩ := hr.inv
    obtain ⟨r, m, h'⟩ := easy_model laws.simple.neg laws.simple.add (H := H) hw.heap hw.model
      (fun f hf => (ht.objective f hf).imp_right fun h x hx => tame_easy laws (h x hx)) fun c hcm => ⟨tame_easyC laws (ht.constraints c hcm), hc c hcm⟩
    rw [h'] at h; cases h

/-- C98: and solving it returns whenever the solver returns (with a solution that fits the problem, or an error). -/
theorem C98_solve (laws : TameLaws F) (hr : ReachableApiW H W n) (ht : W.m.MildTerms) (hc : ∀ c ∈ W.m.constraints, ¬ c.TermAgainstNumber)
    {solver : SolverFn F} (hs : ∀ q, ∃ r, solver q = .ok r ∧ ∀ status sol, r = .ok (status, sol) → ∃ v ∈ q.views, sol.Fits v) :
    ∃ res mod' m', W.m.solve H solver n = .ok ((res, mod'), m') := by
  obtain ⟨sp, m, h⟩ := C98_total laws hr ht hc
  obtain ⟨r, h1, h2⟩ := hs sp.prob
  obtain ⟨res, mod', m', h3, -⟩ := C55_fits hr.reachable h h1 h2
  exact ⟨res, mod', m', h3⟩

/-- C98, Ipopt: the same, for a call of Ipopt that returns. -/
theorem C98_ipopt (laws : TameLaws F) (hr : ReachableApiW H W n) (ht : W.m.MildTerms) (hc : ∀ c ∈ W.m.constraints, ¬ c.TermAgainstNumber)
    {ps : Params F} {lib : IpoptLib F} (hs : ∀ q, ∃ r, ipoptFn ps lib q = .ok r) : ∃ res mod' m', W.m.solve H (ipoptFn ps lib) n = .ok ((res, mod'), m') := by
  obtain ⟨sp, m, h⟩ := C98_total laws hr ht hc
  obtain ⟨r, h1⟩ := hs sp.prob
  obtain ⟨res, mod', m', h3, -⟩ := C55_ipopt hr.reachable h h1
  exact ⟨res, mod', m', h3⟩

end

/-! ## Example -/

/-- minimize x1 x4 (x1 + x2 + x3) + x3 subject to x1 x2 x3 x4 >= 25 (the first constraint of problem 71 of Hock and Schittkowski, which tests/model.rs solves with Ipopt) and to
x1 x1 - x1 x2 <= 4. -/
def exTame : List (Cmd Q) := [.expr (.var "x1" .continuous), .expr (.var "x2" .continuous), .expr (.var "x3" .continuous), .expr (.var "x4" .continuous),
  .expr (.mul 0 3), .expr (.add 0 1), .expr (.add 5 2), .expr (.mul 4 6), .expr (.add 7 2),
  .expr (.mul 0 1), .expr (.mul 9 2), .expr (.mul 10 3),
  .expr (.mul 0 0), .expr (.sub 12 9),
  .newModel, .minimize 8, .cmpNodeScalar .greaterEqual 11 (some 25) "a", .addConstraint 0, .cmpNodeScalar .lessEqual 13 (some 4) "b", .addConstraint 1]

mutual
/-- Check of a sign, for the example. -/
def signCheck (s : ZMod 2) : Node Q → Bool
  | .const _ v => if s = 0 then !(v <. zero) else !(zero <. v)
  | .var .. => decide (s = 0)
  | .add _ args => signChecks s args
  | .mul _ a b => (signCheck 0 a && signCheck s b) || (signCheck 1 a && signCheck (s + 1) b)
  | _ => false
/-- The same for a list. -/
def signChecks (s : ZMod 2) : List (Node Q) → Bool
  | [] => true
  | a :: as => signCheck s a && signChecks s as
end

mutual
/-- The degree of a product of variables, for the example. -/
def degOf : Node Q → Option ℕ
  | .const .. => some 0
  | .var .. => some 1
  | .add _ args => degsOf args
  | .mul _ a b => match degOf a, degOf b with
    | some d, some e => some (d + e)
    | _, _ => none
  | _ => none
/-- The common degree of a list. -/
def degsOf : List (Node Q) → Option ℕ
  | [] => none
  | [a] => degOf a
  | a :: as => if degOf a = degsOf as then degOf a else none
end

theorem signCheck_sound (e : Node Q) : ∀ {s : ZMod 2}, signCheck s e = true → Signed s e := by
  induction e using Node.ind with
  | const i v =>
    intro s h
    simp only [signCheck] at h
    refine .const ?_
    rcases zmod2 s with rfl | rfl
    · exact .inl ⟨rfl, by simpa using h⟩
    · rw [if_neg (by decide : ¬ (1 : ZMod 2) = 0)] at h
      exact .inr ⟨rfl, by simpa using h⟩
  | var i t k =>
    intro s h
    simp only [signCheck, decide_eq_true_eq] at h
    subst h; exact .var
  | add i args ih =>
    intro s h
    simp only [signCheck] at h
    refine .add ?_
    clear i
    induction args with
    | nil => simp
    | cons a as ih2 =>
      simp only [signChecks, Bool.and_eq_true] at h
      intro b hb
      rcases List.mem_cons.1 hb with rfl | hb
      · exact ih b (by simp) h.1
      · exact ih2 (fun c hc => ih c (by simp [hc])) h.2 b hb
  | mul i a b iha ihb =>
    intro s h
    simp only [signCheck, Bool.or_eq_true, Bool.and_eq_true] at h
    rcases h with h | h
    · have := Graded.mul (i := i) (iha h.1) (ihb h.2)
      rwa [zero_add] at this
    · have := Graded.mul (i := i) (iha h.1) (ihb h.2)
      have e1 : (1 : ZMod 2) + (s + 1) = s := zmod2_cancel s
      rwa [e1] at this
  | _ => intro s h; simp [signCheck] at h

theorem degOf_sound (e : Node Q) : ∀ {d : ℕ}, degOf e = some d → Homogeneous (d : ℤ) e := by
  induction e using Node.ind with
  | const i v => intro d h; simp only [degOf, Option.some.injEq] at h; subst h; exact .const (.inl rfl)
  | var i t k => intro d h; simp only [degOf, Option.some.injEq] at h; subst h; exact .var
  | add i args ih =>
    intro d h
    simp only [degOf] at h
    refine .add ?_
    clear i
    induction args with
    | nil => simp
    | cons a as ih2 =>
      intro b hb
      cases as with
      | nil => simp only [degsOf] at h; simp only [List.mem_singleton] at hb; subst hb; exact ih b (by simp) h
      | cons c cs =>
        simp only [degsOf] at h
        split at h
        · rename_i heq
          rcases List.mem_cons.1 hb with rfl | hb
          · exact ih b (by simp) h
          · refine ih2 (fun c hc => ih c (by simp [List.mem_cons.1 hc])) ?_ b hb
            rw [← h, heq]
        · cases h
  | mul i a b iha ihb =>
    intro d h
    simp only [degOf] at h
    split at h
    · rename_i d1 d2 h1 h2
      cases h
      push_cast
      exact .mul (iha h1) (ihb h2)
    · cases h
  | _ => intro d h; simp [degOf] at h

/-- Non-vacuity: the example meets the hypotheses of C98 (the objective and the first constraint with terms of one sign, the second constraint with terms of degree 2), and it
is not linear. -/
example : ReachableApiW HashOrder.listOrder (worldOf exTame) (wcount exTame) ∧ (worldOf exTame).m.MildTerms ∧ (worldOf exTame).m.constraints.length = 2 ∧
    (∀ c ∈ (worldOf exTame).m.constraints, ¬ c.TermAgainstNumber) ∧ ¬ (worldOf exTame).m.AllAffine := by
  have hsum : ∀ {D : Type} [AddCommGroup D] {num : Option ℚ → D → Prop} {var d : D} {e x : Node Q}, Graded num var d e → TermsWith x (Graded num var d) e :=
    fun h t ht _ => graded_summands h t ht
  have hconst : ∀ {x e : Node Q} {P : Node Q → Prop}, x.isVar = true → e.isConstant = true → TermsWith x P e := by
    intro x e P hx he t ht ho
    obtain ⟨i, v, rfl⟩ := isConst_exists he
    simp only [summands, List.mem_singleton] at ht
    subst ht
    exact absurd ho (not_occurs_const hx)
  refine ⟨runsW_reachable (by decide +kernel) (by decide +kernel), ⟨?_, ?_⟩, by decide +kernel, ?_, ?_⟩
  · intro f hf
    have hck : (match (worldOf exTame).m.objective with | .minimize f => signCheck 0 f | .maximize f => signCheck 0 f | .empty => true) = true := by decide +kernel
    refine .inr fun x hx => .inl ⟨0, hsum (signCheck_sound f ?_)⟩
    rcases hf with hf | hf <;> simpa [hf] using hck
  · intro c hc
    have hck : ((worldOf exTame).m.constraints.all fun c => c.rhs.isConstant && (signCheck 0 c.lhs || degOf c.lhs == some 2)) = true := by decide +kernel
    rw [List.all_eq_true] at hck
    have := hck c hc
    simp only [Bool.and_eq_true, Bool.or_eq_true, beq_iff_eq] at this
    refine .inr fun x hx => ?_
    rcases this.2 with h | h
    · exact .inl ⟨0, hsum (signCheck_sound _ h), hconst hx this.1⟩
    · exact .inr ⟨2, hsum (degOf_sound _ h), hconst hx this.1⟩
  · have h : ((worldOf exTame).m.constraints.all fun c => twoTerms c.lhs && twoTerms c.rhs) = true := by decide +kernel
    rw [List.all_eq_true] at h
    intro c hc h'
    have := h c hc
    rw [Bool.and_eq_true] at this
    rcases h' with h' | h'
    · exact twoTerms_sound this.1 h'.1
    · exact twoTerms_sound this.2 h'.1
  · intro ha
    have h : affineCheck (worldOf exTame).m = false := by decide +kernel
    have h' : affineCheck (worldOf exTame).m = true := by
      simp only [affineCheck, Bool.and_eq_true, List.all_eq_true]
      refine ⟨?_, ha.constraints⟩
      cases ho : (worldOf exTame).m.objective with
      | minimize f => exact ha.objective f (.inl ho)
      | maximize f => exact ha.objective f (.inr ho)
      | empty => rfl
    rw [h] at h'; cases h'

end Verif
