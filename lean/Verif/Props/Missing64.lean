import Verif.Props.Expr2
import Verif.Props.Binary64
import Verif.Spec.ExampleD

/-!
# C06 in double precision: a variable without a value makes the value NaN
-/

namespace Verif

/-- The functions of the C library return NaN for NaN. -/
class LibmNan [Libm] : Prop where
  sin : Libm.sin .nan = .nan
  cos : Libm.cos .nan = .nan

section
variable [Libm]

theorem F64.add_nan_left (a : F64) : ((.nan : F64) +. a) = .nan := by cases a <;> rfl

theorem F64.add_nan_right (a : F64) : (a +. (.nan : F64)) = .nan := by cases a <;> rfl

theorem F64.mul_nan_left (a : F64) : ((.nan : F64) *. a) = .nan := by cases a <;> rfl

theorem F64.mul_nan_right (a : F64) : (a *. (.nan : F64)) = .nan := by cases a <;> rfl

theorem F64.div_nan_left (a : F64) : ((.nan : F64) /. a) = .nan := by cases a <;> rfl

theorem F64.div_nan_right (a : F64) : (a /. (.nan : F64)) = .nan := by cases a <;> rfl

theorem F64.sum_nan (l : List F64) : ∀ acc : F64, acc = .nan ∨ .nan ∈ l → l.foldl (fun s a => s +. a) acc = .nan := by
  induction l with
  | nil => intro acc h; simpa using h
  | cons a l ih =>
    intro acc h
    rw [List.foldl_cons]
    apply ih
    rcases h with rfl | h
    · exact .inl (F64.add_nan_left a)
    · rcases List.mem_cons.1 h with rfl | h
      · exact .inl (F64.add_nan_right acc)
      · exact .inr h

/-- C06 in double precision: if a variable that occurs in the expression has no value, or the value NaN, then the expression evaluates to NaN; nothing (no multiplication
with zero, no division by infinity) makes it disappear. -/
theorem C06_missing_double [LibmNan] {e : Node F64} {σ : Env F64} {i : Nat} {s : String} {k : VarKind} (ho : Occurs (.var i s k) e)
    (hm : σ i = none ∨ σ i = some .nan) : e.evaluate σ = .nan := by
  induction e using Node.ind_args with
  | step e ih =>
    rw [occurs_iff] at ho
    rcases ho with rfl | ⟨a, ha, ho⟩
    · rcases hm with hm | hm <;> simp only [Node.evaluate, hm]
      rfl
    · have := ih a ha ho
      cases e
      case const => simp [Node.arguments] at ha
      case var => simp [Node.arguments] at ha
      case add j args =>
        simp only [Node.evaluate, sumFrom_eq_foldl]
        rw [← List.foldl_map (f := Node.evaluate σ) (g := fun s a => s +. a)]
        exact F64.sum_nan _ _ (.inr (List.mem_map.2 ⟨a, by simpa [Node.arguments] using ha, this⟩))
      case cos j b => simp [Node.arguments] at ha; subst ha; simp only [Node.evaluate, this]; exact LibmNan.cos
      case sin j b => simp [Node.arguments] at ha; subst ha; simp only [Node.evaluate, this]; exact LibmNan.sin
      case mul j b c =>
        simp [Node.arguments] at ha
        rcases ha with rfl | rfl <;> simp only [Node.evaluate, this, F64.mul_nan_left, F64.mul_nan_right]
      case div j b c =>
        simp [Node.arguments] at ha
        rcases ha with rfl | rfl <;> simp only [Node.evaluate, this, F64.div_nan_left, F64.div_nan_right]

end

/-- Non-vacuity: a library with the laws, and an expression in which `y` occurs. -/
example : (∃ L : Libm, @LibmNan L) ∧
    Occurs (.var 1 "y" .continuous) (Node.mul 4 (.const 3 (.inf true)) (.div 2 (.var 0 "x" .continuous) (.var 1 "y" .continuous)) : Node F64) :=
  ⟨⟨⟨id, id⟩, @LibmNan.mk ⟨id, id⟩ rfl rfl⟩,
    .arg (a := .div 2 (.var 0 "x" .continuous) (.var 1 "y" .continuous)) (by simp [Node.arguments]) (.arg (a := .var 1 "y" .continuous) (by simp [Node.arguments]) (.refl _))⟩

end Verif
