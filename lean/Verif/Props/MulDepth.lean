import Verif.Code.Stack
import Verif.Props.Depth
import Verif.Props.SumForm

/-!
# C100: the stack that multiplication needs
-/

set_option linter.unusedSectionVars false
set_option linter.unusedSimpArgs false

namespace Verif

variable {F : Type} [FloatOps F]

theorem mapIn_done {f : Node F → M (Option (Node F))} {g : Node F → M (Node F)} {as : List (Node F)} (h : ∀ a ∈ as, f a = doneIn (g a)) :
    mapIn f as = M.bind (M.mapL g as) fun bs => M.pure (some bs) := by
  induction as with
  | nil => rfl
  | cons a as ih =>
    rw [mapIn, h a (by simp), ih (fun b hb => h b (by simp [hb]))]
    funext n
    simp only [M.mapL, doneIn, M.bind, M.pure]
    cases g a n with
    | error e => rfl
    | ok x =>
      show M.bind (M.bind (M.mapL g as) _) _ x.2 = _
      simp only [M.bind]
      cases M.mapL g as x.2 with
      | error e => rfl
      | ok y => rfl

theorem sumIn_done {f : Node F → M (Option (Node F))} {g : Node F → M (Node F)} {as : List (Node F)} (h : ∀ a ∈ as, f a = doneIn (g a)) :
    sumIn (mapIn f as) = doneIn (M.bind (M.mapL g as) newAdd) := by
  rw [sumIn, mapIn_done h, doneIn]
  funext n
  simp only [M.bind, M.pure]
  cases M.mapL g as n with
  | error e => rfl
  | ok y => rfl

theorem mulNIn_step {k : Nat} {s r : Node F} (hs : ∀ i args j v, s = .add i args → r = .const j v → ∀ x ∈ args, mulNIn k x r = doneIn (mulN x r))
    (hr : ∀ i args j v, r = .add i args → s = .const j v → ∀ x ∈ args, mulNIn k s x = doneIn (mulN s x)) : mulNIn (k + 1) s r = doneIn (mulN s r) := by
  rw [mulN_unfold, mulNIn.eq_def]
  simp only []
  have e : ∀ {p : Bool} {x : M (Option (Node F))} {y y' : M (Node F)}, x = doneIn y' → (if p then doneIn y else x) = doneIn (if p then y else y') := by
    intro p x y y' h; cases p <;> simp [h]
  refine e (e (e (e ?_)))
  cases s <;> cases r <;> first | rfl | exact sumIn_done (hr _ _ _ _ rfl rfl) | exact sumIn_done (hs _ _ _ _ rfl rfl)

theorem mulSIn_step {k : Nat} {c : F} {s : Node F} (hs : ∀ i args, s = .add i args → ∀ x ∈ args, mulSIn k c x = doneIn (mulS c x)) : mulSIn (k + 1) c s = doneIn (mulS c s) := by
  rw [mulS_unfold, mulSIn.eq_def]
  simp only []
  have e : ∀ {p : Bool} {x x' : M (Option (Node F))} {y y' : M (Node F)}, x' = doneIn y → x = doneIn y' → (if p then x' else x) = doneIn (if p then y else y') := by
    intro p x x' y y' h h'; cases p <;> simp [h, h']
  refine e (by cases s <;> rfl) (e rfl (e rfl ?_))
  cases s <;> first | rfl | exact sumIn_done (hs _ _ rfl)

theorem sMulIn_step {k : Nat} {c : F} {s : Node F} (hs : ∀ i args, s = .add i args → ∀ x ∈ args, sMulIn k c x = doneIn (sMul c x)) : sMulIn (k + 1) c s = doneIn (sMul c s) := by
  rw [sMul_unfold, sMulIn.eq_def]
  simp only []
  have e : ∀ {p : Bool} {x x' : M (Option (Node F))} {y y' : M (Node F)}, x' = doneIn y → x = doneIn y' → (if p then x' else x) = doneIn (if p then y else y') := by
    intro p x x' y y' h h'; cases p <;> simp [h, h']
  refine e (by cases s <;> rfl) (e rfl (e rfl ?_))
  cases s <;> first | rfl | exact sumIn_done (hs _ _ rfl)

/-- C100: a multiplication needs at most as many nested calls of itself as the operands have levels. -/
theorem C100_multiply {k : Nat} {a b : Node F} {c : F} (ha : a.depth ≤ k) (hb : b.depth ≤ k) :
    mulNIn k a b = doneIn (mulN a b) ∧ mulSIn k c a = doneIn (mulS c a) ∧ sMulIn k c a = doneIn (sMul c a) := by
  have key : ∀ (k : Nat) (a : Node F), a.depth ≤ k → mulSIn k c a = doneIn (mulS c a) ∧ sMulIn k c a = doneIn (sMul c a) := by
    intro k
    induction k with
    | zero => intro a h; have := depth_pos a; omega
    | succ k ih =>
      intro a h
      have hx : ∀ i args, a = .add i args → ∀ x ∈ args, x.depth ≤ k := by
        rintro i args rfl x hx
        have := depth_arg (e := .add i args) hx
        omega
      exact ⟨mulSIn_step fun i args e x h => (ih x (hx i args e x h)).1, sMulIn_step fun i args e x h => (ih x (hx i args e x h)).2⟩
  refine ⟨?_, key k a ha⟩
  clear key
  induction k generalizing a b with
  | zero => have := depth_pos a; omega
  | succ k ih =>
    apply mulNIn_step
    · rintro i args j v rfl rfl x hx
      have := depth_arg (e := .add i args) hx
      have := depth_pos x
      exact ih (by omega) (by simp only [Node.depth]; omega)
    · rintro i args j v rfl rfl x hx
      have := depth_arg (e := .add i args) hx
      have := depth_pos x
      exact ih (by simp only [Node.depth]; omega) (by omega)

theorem flat_terms {i : Nat} {args : List (Node F)} (h : FlatSums (.add i args)) {x : Node F} (hx : x ∈ args) : ∀ j bs, x ≠ .add j bs :=
  (h i args (Occurs.refl (Node.add i args))).1 x hx

/-- C100: when the sums are flat, which they are in all that the operators make (C85), two nested calls are enough, however large the operands are. -/
theorem C100_multiply_flat {H : HashOrder} {regs : List (Node F)} {n : ℕ} (hr : ReachableApi H regs n) {a b : Node F} (ha : a ∈ regs) (hb : b ∈ regs) {c : F} :
    mulNIn 2 a b = doneIn (mulN a b) ∧ mulSIn 2 c a = doneIn (mulS c a) ∧ sMulIn 2 c a = doneIn (sMul c a) := by
  have ha := C85_flat hr ha
  have hb := C85_flat hr hb
  refine ⟨mulNIn_step ?_ ?_, mulSIn_step ?_, sMulIn_step ?_⟩
  · rintro i args j v rfl rfl x hx
    exact mulNIn_step (fun i' args' _ _ e => absurd e (flat_terms ha hx _ _)) (fun _ _ _ _ e => nomatch e)
  · rintro i args j v rfl rfl x hx
    exact mulNIn_step (fun _ _ _ _ e => nomatch e) (fun i' args' _ _ e => absurd e (flat_terms hb hx _ _))
  · rintro i args rfl x hx
    exact mulSIn_step fun i' args' e => absurd e (flat_terms ha hx _ _)
  · rintro i args rfl x hx
    exact sMulIn_step fun i' args' e => absurd e (flat_terms ha hx _ _)

/-- C100: one nested call is not enough: a number other than 0 and 1 times a sum of at least one term multiplies every term. -/
theorem C100_multiply_one {c : F} {i n : Nat} {x : Node F} {args : List (Node F)} (h0 : (c ==. zero) = false) (h1 : (c ==. one) = false) :
    sMulIn 1 c (.add i (x :: args)) n = .ok (none, n) := by
  simp [sMulIn, h0, h1, Node.isConstant, Node.isConstVal, sumIn, mapIn, M.bind, M.pure]

/-! ## An example: `3 * (x + y)` -/

def mulEx : Node Q := .add 2 [.var 0 "x" .continuous, .var 1 "y" .continuous]

/-- One nested call is not enough, two are; the result is `3*x + 3*y`. -/
example : (match sMulIn 1 (some 3 : Q) mulEx 3 with | .ok (none, 3) => true | _ => false) = true ∧
    (match sMulIn 2 (some 3 : Q) mulEx 3 with
      | .ok (some (.add 7 [.mul 4 (.const 3 (some a)) (.var 0 _ _), .mul 6 (.const 5 (some b)) (.var 1 _ _)]), 8) => a == 3 && b == 3
      | _ => false) = true ∧
    (match mulNIn 2 (.const 3 (some 3 : Q)) mulEx 4 with | .ok (some (.add _ [.mul _ (.const 3 _) (.var 0 _ _), .mul _ (.const 3 _) (.var 1 _ _)]), _) => true | _ => false) = true := by
  decide +kernel

/-- `C100_multiply_flat` applied to `x + 2 * y + 13`, made by a program, and `3`. -/
example : let e := (regsOf exSops)[5]!
    e.arguments.length = 3 ∧ e.depth = 3 ∧ sMulIn 2 (some 3 : Q) e = doneIn (sMul (some 3) e) := by
  refine ⟨by decide +kernel, by decide +kernel, ?_⟩
  have hr : ReachableApi HashOrder.listOrder (regsOf exSops) (countOf exSops) := runs_reachableApi (by decide +kernel) (by decide)
  have hm : (regsOf exSops)[5]! ∈ regsOf exSops := by
    have h : (regsOf exSops)[5]? = some (regsOf exSops)[5]! := by decide +kernel
    exact List.mem_of_getElem? h
  exact (C100_multiply_flat hr hm hm).2.2

end Verif
