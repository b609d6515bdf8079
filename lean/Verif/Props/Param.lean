import Verif.Code.Param

/-! # Property C45: solver parameters -/

namespace Verif

variable {F : Type}

/-- The type of a parameter. -/
inductive ParamType where
  | int | float | str
  deriving DecidableEq

def SolverParam.type : SolverParam F → ParamType
  | .int _ => .int
  | .float _ => .float
  | .str _ => .str

/-- The parameters after a sequence of `set_param` calls, whatever their results. -/
def setParams (ps : Params F) (calls : List (String × SolverParam F)) : Params F :=
  calls.foldl (fun ps c => (setParam ps c.1 c.2).1) ps

theorem Params.get_put (ps : Params F) (name other : String) (x : SolverParam F) :
    (ps.put name x).get other = if name = other ∧ (ps.get name).isSome then some x else ps.get other := by
  induction ps with
  | nil => simp [Params.put, Params.get]
  | cons p ps ih =>
    obtain ⟨k, v⟩ := p
    by_cases hk : k = name
    · subst hk
      by_cases ho : k = other
      · simp [Params.put, Params.get, ho]
      · simp [Params.put, Params.get, ho]
    · by_cases ho : k = other
      · subst ho
        have : ¬ name = k := fun h => hk h.symm
        simp [Params.put, Params.get, hk, this]
      · simp [Params.put, Params.get, hk, ho, ih]

theorem Params.names_put (ps : Params F) (name : String) (x : SolverParam F) : (ps.put name x).map Prod.fst = ps.map Prod.fst := by
  induction ps with
  | nil => rfl
  | cons p ps ih =>
    obtain ⟨k, v⟩ := p
    by_cases hk : k = name <;> simp [Params.put, hk, ih]

/-- What one call does. -/
theorem setParam_spec (ps : Params F) (name : String) (value : SolverParam F) :
    ((∃ v, getParam ps name = some v ∧ v.type = value.type) ∧ setParam ps name value = (ps.put name value, .ok ())) ∨
    ((getParam ps name = none ∨ ∃ v, getParam ps name = some v ∧ v.type ≠ value.type) ∧
      ∃ e, setParam ps name value = (ps, .error e)) := by
  unfold setParam getParam
  cases h : ps.get name with
  | none => exact .inr ⟨.inl rfl, _, rfl⟩
  | some v => cases v <;> cases value <;> simp [SolverParam.type]

/-- C45 for one call: it succeeds exactly for a known name and a value of the type of the present one; then the named parameter has the
new value and all others are as before. A call that fails changes nothing. -/
theorem C45_call (ps : Params F) (name : String) (value : SolverParam F) :
    ((setParam ps name value).2 = .ok () ↔ ∃ v, getParam ps name = some v ∧ v.type = value.type) ∧
    ((setParam ps name value).2 = .ok () → ∀ other,
      getParam (setParam ps name value).1 other = if other = name then some value else getParam ps other) ∧
    ((∃ e, (setParam ps name value).2 = .error e) → (setParam ps name value).1 = ps) := by
  rcases setParam_spec ps name value with ⟨⟨v, h1, h2⟩, h3⟩ | ⟨h1, e, h2⟩
  · rw [h3]
    refine ⟨⟨fun _ => ⟨v, h1, h2⟩, fun _ => rfl⟩, fun _ other => ?_, fun ⟨e, he⟩ => by cases he⟩
    have hs : (ps.get name).isSome = true := by rw [getParam] at h1; simp [h1]
    simp only [getParam, Params.get_put, hs, and_true]
    by_cases ho : name = other
    · simp [ho]
    · have : ¬ other = name := fun h => ho h.symm
      simp [ho, this]
  · rw [h2]
    refine ⟨⟨fun h => (by cases h), fun ⟨v, hv, ht⟩ => ?_⟩, fun h => (by cases h), fun _ => rfl⟩
    rcases h1 with h1 | ⟨v', h1, h3⟩
    · rw [h1] at hv; cases hv
    · rw [h1] at hv; injection hv with hv; subst hv; exact absurd ht h3

/-- C45: after any sequence of calls, from any parameters (in particular those of a new solver), the names are the same and each has
the type it had. -/
theorem C45_history (ps : Params F) (calls : List (String × SolverParam F)) (name : String) :
    (setParams ps calls).map Prod.fst = ps.map Prod.fst ∧
    (getParam (setParams ps calls) name).map SolverParam.type = (getParam ps name).map SolverParam.type := by
  induction calls generalizing ps with
  | nil => exact ⟨rfl, rfl⟩
  | cons c calls ih =>
    obtain ⟨i1, i2⟩ := ih (setParam ps c.1 c.2).1
    have hstep : (setParam ps c.1 c.2).1.map Prod.fst = ps.map Prod.fst ∧
        (getParam (setParam ps c.1 c.2).1 name).map SolverParam.type = (getParam ps name).map SolverParam.type := by
      rcases setParam_spec ps c.1 c.2 with ⟨⟨v, h1, h2⟩, h3⟩ | ⟨h1, e, h2⟩
      · rw [h3]
        refine ⟨Params.names_put .., ?_⟩
        simp only [getParam] at h1 ⊢
        rw [Params.get_put]
        by_cases ho : c.1 = name
        · subst ho
          simp [h1, h2]
        · simp [ho]
      · rw [h2]; exact ⟨rfl, rfl⟩
    exact ⟨i1.trans hstep.1, i2.trans hstep.2⟩

/-- C45: the parameters of the solvers: names and types, after any sequence of calls. -/
theorem C45_solvers (calls : List (String × SolverParam F)) :
    (∃ i, getParam (setParams clpParams calls) "logLevel" = some (.int i)) ∧
    (∃ i, getParam (setParams cbcParams calls) "logLevel" = some (.int i)) ∧
    (∃ i, getParam (setParams ipoptParams calls) "print_level" = some (.int i)) ∧
    (∃ s, getParam (setParams ipoptParams calls) "sb" = some (.str s)) ∧
    (setParams (F := F) clpParams calls).map Prod.fst = ["logLevel"] ∧ (setParams (F := F) cbcParams calls).map Prod.fst = ["logLevel"] ∧
    (setParams (F := F) ipoptParams calls).map Prod.fst = ["print_level", "sb"] := by
  have hint : ∀ (ps : Params F) n, (getParam ps n).map SolverParam.type = some .int →
      ∃ i, getParam (setParams ps calls) n = some (.int i) := by
    intro ps n h
    have h2 := (C45_history ps calls n).2
    rw [h] at h2
    cases hg : getParam (setParams ps calls) n with
    | none => rw [hg] at h2; cases h2
    | some v => rw [hg] at h2; cases v <;> simp_all [SolverParam.type]
  have hstr : ∀ (ps : Params F) n, (getParam ps n).map SolverParam.type = some .str →
      ∃ i, getParam (setParams ps calls) n = some (.str i) := by
    intro ps n h
    have h2 := (C45_history ps calls n).2
    rw [h] at h2
    cases hg : getParam (setParams ps calls) n with
    | none => rw [hg] at h2; cases h2
    | some v => rw [hg] at h2; cases v <;> simp_all [SolverParam.type]
  exact ⟨hint _ _ rfl, hint _ _ rfl, hint _ _ rfl, hstr _ _ (by simp [getParam, ipoptParams, Params.get, SolverParam.type]), (C45_history _ _ "").1, (C45_history _ _ "").1,
    (C45_history _ _ "").1⟩

/-- Non-vacuity of C45: a success, a wrong type and an unknown name in one history. -/
example :
    let ps : Params Nat := setParams ipoptParams [("sb", .str "yes"), ("sb", .int 3), ("print_level", .int 0), ("tol", .float 1)]
    getParam ps "sb" = some (.str "yes") ∧ getParam ps "print_level" = some (.int 0) ∧ getParam ps "tol" = none ∧
    (setParam ps "sb" (.int 3)).2 = .error "invalid parameter type" ∧ (setParam ps "sb" (.str "no")).2 = .ok () := by
  refine ⟨?_, ?_, ?_, ?_, ?_⟩ <;> first | decide | rfl

end Verif
