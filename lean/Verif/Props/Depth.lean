import Verif.Proofs.Depth
import Verif.Spec.ExampleW

/-!
# C100: the stack that the library needs
-/

set_option linter.unusedSectionVars false
set_option linter.unusedSimpArgs false

namespace Verif

variable {F : Type}

/-! ## How many nested calls each function needs -/

theorem intersperse_printArgs (fmt : F → List Char) (as : List (Node F)) :
    List.intercalate [' ', '+', ' '] (as.map (Node.print fmt)) = Node.print.printArgs fmt as := by
  induction as with
  | nil => rfl
  | cons a as ih =>
    cases as with
    | nil => simp [Node.print.printArgs, List.intercalate]
    | cons b bs =>
      simp only [List.map_cons] at ih ⊢
      rw [Node.print.printArgs, ← ih]
      simp [List.intercalate, List.intersperse]

theorem mapM_in {α β : Type} {f : α → Option β} {g : α → β} {p : α → Prop} [DecidablePred p] (hf : ∀ a, f a = if p a then some (g a) else none) (as : List α) :
    as.mapM f = if ∀ a ∈ as, p a then some (as.map g) else none := by
  induction as with
  | nil => simp
  | cons a as ih =>
    simp only [List.mapM_cons, ih, hf, List.forall_mem_cons]
    by_cases h1 : p a
    · by_cases h2 : ∀ a ∈ as, p a
      · rw [if_pos h1, if_pos h2, if_pos ⟨h1, h2⟩]; rfl
      · rw [if_pos h1, if_neg h2, if_neg fun hh => h2 hh.2]; rfl
    · rw [if_neg h1, if_neg (c := p a ∧ _) fun hh => h1 hh.1]; rfl

/-- C100: printing an expression needs exactly as many nested calls as the expression has levels. -/
theorem C100_print (fmt : F → List Char) (k : Nat) (a : Node F) : a.printIn fmt k = if a.depth ≤ k then some (a.print fmt) else none := by
  induction k generalizing a with
  | zero =>
    have := depth_pos a
    rw [if_neg (by omega)]
    cases a <;> rfl
  | succ k ih =>
    cases a with
    | const i v => simp [Node.printIn, Node.depth, Node.print]
    | var i s kk => simp [Node.printIn, Node.depth, Node.print]
    | add i args =>
      simp only [Node.printIn, Node.print, mapM_in ih, ← deepest_le, ← intersperse_printArgs]
      by_cases h : Node.depth.deepest args ≤ k
      · rw [if_pos h, if_pos (c := _ ≤ k + 1) (by simp only [Node.depth]; omega)]; rfl
      · rw [if_neg h, if_neg (c := _ ≤ k + 1) (by simp only [Node.depth]; omega)]; rfl
    | cos i b =>
      simp only [Node.printIn, Node.print, ih]
      by_cases h : b.depth ≤ k
      · rw [if_pos h, if_pos (c := _ ≤ k + 1) (by simp only [Node.depth]; omega)]; rfl
      · rw [if_neg h, if_neg (c := _ ≤ k + 1) (by simp only [Node.depth]; omega)]; rfl
    | sin i b =>
      simp only [Node.printIn, Node.print, ih]
      by_cases h : b.depth ≤ k
      · rw [if_pos h, if_pos (c := _ ≤ k + 1) (by simp only [Node.depth]; omega)]; rfl
      · rw [if_neg h, if_neg (c := _ ≤ k + 1) (by simp only [Node.depth]; omega)]; rfl
    | div i b c =>
      simp only [Node.printIn, Node.print, ih]
      by_cases h : b.depth ≤ k
      · by_cases h' : c.depth ≤ k
        · rw [if_pos h, if_pos h', if_pos (c := _ ≤ k + 1) (by simp only [Node.depth]; omega)]; rfl
        · rw [if_pos h, if_neg h', if_neg (c := _ ≤ k + 1) (by simp only [Node.depth]; omega)]; rfl
      · rw [if_neg h, if_neg (c := _ ≤ k + 1) (by simp only [Node.depth]; omega)]; rfl
    | mul i b c =>
      simp only [Node.printIn, Node.print, ih]
      by_cases h : b.depth ≤ k
      · by_cases h' : c.depth ≤ k
        · rw [if_pos h, if_pos h', if_pos (c := _ ≤ k + 1) (by simp only [Node.depth]; omega)]; rfl
        · rw [if_pos h, if_neg h', if_neg (c := _ ≤ k + 1) (by simp only [Node.depth]; omega)]; rfl
      · rw [if_neg h, if_neg (c := _ ≤ k + 1) (by simp only [Node.depth]; omega)]; rfl

variable [FloatOps F]

/-- C100: evaluating an expression needs exactly as many nested calls as the expression has levels. -/
theorem C100_evaluate (σ : Env F) (k : Nat) (a : Node F) : a.evaluateIn σ k = if a.depth ≤ k then some (a.evaluate σ) else none := by
  induction k generalizing a with
  | zero =>
    have := depth_pos a
    rw [if_neg (by omega)]
    cases a <;> rfl
  | succ k ih =>
    have hadd : ∀ (as : List (Node F)) (acc : F), as.foldlM (fun acc a => do some (acc +. (← Node.evaluateIn σ k a))) acc =
        if Node.depth.deepest as ≤ k then some (Node.evaluate.sumFrom σ acc as) else none := by
      intro as
      induction as with
      | nil => intro acc; simp [Node.depth.deepest, Node.evaluate.sumFrom]
      | cons b bs ihb =>
        intro acc
        rw [List.foldlM_cons, ih]
        by_cases h : b.depth ≤ k
        · rw [if_pos h]
          show bs.foldlM _ (acc +. b.evaluate σ) = _
          rw [ihb]
          by_cases h' : Node.depth.deepest bs ≤ k
          · rw [if_pos h', if_pos (by simp only [Node.depth.deepest]; omega)]; rfl
          · rw [if_neg h', if_neg (by simp only [Node.depth.deepest]; omega)]
        · rw [if_neg h, if_neg (by simp only [Node.depth.deepest]; omega)]; rfl
    cases a with
    | const i v => simp [Node.evaluateIn, Node.depth, Node.evaluate]
    | var i s kk => simp [Node.evaluateIn, Node.depth, Node.evaluate]; rfl
    | add i args =>
      simp only [Node.evaluateIn, Node.evaluate]
      rw [hadd]
      by_cases h : Node.depth.deepest args ≤ k
      · rw [if_pos h, if_pos (c := _ ≤ k + 1) (by simp only [Node.depth]; omega)]
      · rw [if_neg h, if_neg (c := _ ≤ k + 1) (by simp only [Node.depth]; omega)]
    | cos i b =>
      simp only [Node.evaluateIn, Node.evaluate, ih]
      by_cases h : b.depth ≤ k
      · rw [if_pos h, if_pos (c := _ ≤ k + 1) (by simp only [Node.depth]; omega)]; rfl
      · rw [if_neg h, if_neg (c := _ ≤ k + 1) (by simp only [Node.depth]; omega)]; rfl
    | sin i b =>
      simp only [Node.evaluateIn, Node.evaluate, ih]
      by_cases h : b.depth ≤ k
      · rw [if_pos h, if_pos (c := _ ≤ k + 1) (by simp only [Node.depth]; omega)]; rfl
      · rw [if_neg h, if_neg (c := _ ≤ k + 1) (by simp only [Node.depth]; omega)]; rfl
    | div i b c =>
      simp only [Node.evaluateIn, Node.evaluate, ih]
      by_cases h : b.depth ≤ k
      · by_cases h' : c.depth ≤ k
        · rw [if_pos h, if_pos h', if_pos (c := _ ≤ k + 1) (by simp only [Node.depth]; omega)]; rfl
        · rw [if_pos h, if_neg h', if_neg (c := _ ≤ k + 1) (by simp only [Node.depth]; omega)]; rfl
      · rw [if_neg h, if_neg (c := _ ≤ k + 1) (by simp only [Node.depth]; omega)]; rfl
    | mul i b c =>
      simp only [Node.evaluateIn, Node.evaluate, ih]
      by_cases h : b.depth ≤ k
      · by_cases h' : c.depth ≤ k
        · rw [if_pos h, if_pos h', if_pos (c := _ ≤ k + 1) (by simp only [Node.depth]; omega)]; rfl
        · rw [if_pos h, if_neg h', if_neg (c := _ ≤ k + 1) (by simp only [Node.depth]; omega)]; rfl
      · rw [if_neg h, if_neg (c := _ ≤ k + 1) (by simp only [Node.depth]; omega)]; rfl

/-- C100: the standard properties of an expression need exactly as many nested calls as the expression has levels. -/
theorem C100_properties (k : Nat) (a : Node F) : a.stdPropertiesIn k = if a.depth ≤ k then some a.stdProperties else none := by
  induction k generalizing a with
  | zero =>
    have := depth_pos a
    rw [if_neg (by omega)]
    cases a <;> rfl
  | succ k ih =>
    have hadd : ∀ (as : List (Node F)) (acc : Prop' F), as.foldlM (fun acc x => do
        let p ← Node.stdPropertiesIn k x
        some (⟨acc.affine && p.affine, p.a.foldl (fun m e => addToN m e.1 e.2) acc.a, acc.b +. p.b⟩ : Prop' F)) acc =
        if Node.depth.deepest as ≤ k then some (Node.stdProperties.addProps acc as) else none := by
      intro as
      induction as with
      | nil => intro acc; simp [Node.depth.deepest, Node.stdProperties.addProps]
      | cons b bs ihb =>
        intro acc
        rw [List.foldlM_cons, ih]
        by_cases h : b.depth ≤ k
        · rw [if_pos h]
          simp only [Option.bind_eq_bind, Option.bind_some] at ihb ⊢
          rw [ihb]
          by_cases h' : Node.depth.deepest bs ≤ k
          · rw [if_pos h', if_pos (by simp only [Node.depth.deepest]; omega)]; rfl
          · rw [if_neg h', if_neg (by simp only [Node.depth.deepest]; omega)]
        · rw [if_neg h, if_neg (by simp only [Node.depth.deepest]; omega)]; rfl
    cases a with
    | const i v => simp [Node.stdPropertiesIn, Node.depth, Node.stdProperties]
    | var i s kk => simp [Node.stdPropertiesIn, Node.depth, Node.stdProperties]
    | add i args =>
      simp only [Node.stdPropertiesIn, Node.stdProperties]
      rw [hadd]
      by_cases h : Node.depth.deepest args ≤ k
      · rw [if_pos h, if_pos (c := _ ≤ k + 1) (by simp only [Node.depth]; omega)]
      · rw [if_neg h, if_neg (c := _ ≤ k + 1) (by simp only [Node.depth]; omega)]
    | cos i b =>
      simp only [Node.stdPropertiesIn, Node.stdProperties, ih]
      by_cases h : b.depth ≤ k
      · rw [if_pos h, if_pos (c := _ ≤ k + 1) (by simp only [Node.depth]; omega)]; rfl
      · rw [if_neg h, if_neg (c := _ ≤ k + 1) (by simp only [Node.depth]; omega)]; rfl
    | sin i b =>
      simp only [Node.stdPropertiesIn, Node.stdProperties, ih]
      by_cases h : b.depth ≤ k
      · rw [if_pos h, if_pos (c := _ ≤ k + 1) (by simp only [Node.depth]; omega)]; rfl
      · rw [if_neg h, if_neg (c := _ ≤ k + 1) (by simp only [Node.depth]; omega)]; rfl
    | div i b c =>
      simp only [Node.stdPropertiesIn, Node.stdProperties, ih]
      by_cases h : b.depth ≤ k
      · by_cases h' : c.depth ≤ k
        · rw [if_pos h, if_pos h', if_pos (c := _ ≤ k + 1) (by simp only [Node.depth]; omega)]; rfl
        · rw [if_pos h, if_neg h', if_neg (c := _ ≤ k + 1) (by simp only [Node.depth]; omega)]; rfl
      · rw [if_neg h, if_neg (c := _ ≤ k + 1) (by simp only [Node.depth]; omega)]; rfl
    | mul i b c =>
      simp only [Node.stdPropertiesIn, Node.stdProperties, ih]
      by_cases h : b.depth ≤ k
      · by_cases h' : c.depth ≤ k
        · rw [if_pos h, if_pos h', if_pos (c := _ ≤ k + 1) (by simp only [Node.depth]; omega)]; rfl
        · rw [if_pos h, if_neg h', if_neg (c := _ ≤ k + 1) (by simp only [Node.depth]; omega)]; rfl
      · rw [if_neg h, if_neg (c := _ ≤ k + 1) (by simp only [Node.depth]; omega)]; rfl

/-! ## How many levels the library makes -/

/-- C100: an operator makes one level more than its operands have. -/
theorem C100_operators {a b r : Node F} {c : F} {n m : Nat} :
    (mulN a b n = .ok (r, m) → r.depth ≤ max a.depth b.depth + 1) ∧ (mulS c a n = .ok (r, m) → r.depth ≤ a.depth + 1) ∧
    (sMul c a n = .ok (r, m) → r.depth ≤ a.depth + 1) ∧ (negN a n = .ok (r, m) → r.depth ≤ a.depth + 1) ∧
    (divN a b n = .ok (r, m) → r.depth ≤ max a.depth b.depth + 1) ∧ (divS a c n = .ok (r, m) → r.depth ≤ a.depth + 1) ∧
    (sDiv c b n = .ok (r, m) → r.depth ≤ b.depth + 1) ∧ (cosN a n = .ok (r, m) → r.depth ≤ a.depth + 1) ∧ (sinN a n = .ok (r, m) → r.depth ≤ a.depth + 1) ∧
    (addN a b n = .ok (r, m) → r.depth ≤ max a.depth b.depth + 1) ∧ (subN a b n = .ok (r, m) → r.depth ≤ max a.depth b.depth + 2) := by
  refine ⟨dpost_mulN _ _ _ _ _, dpost_mulS _ _ _ _ _, dpost_sMul _ _ _ _ _, dpost_negN _ _ _ _, dpost_divN _ _ _ _ _, dpost_divS _ _ _ _ _, dpost_sDiv _ _ _ _ _,
    dpost_cosN _ _ _ _, dpost_sinN _ _ _ _, fun h => ?_, fun h => ?_⟩
  · have := depth_pos a
    exact termDepth_le (dpost_addN (d := max a.depth b.depth) (by omega) (termDepth_of (by omega)) (termDepth_of (by omega)) _ _ _ h)
  · exact dpost_subN (by omega) (by omega) _ _ _ h

/-- `let mut s = s; for t in &terms { s = s + t; }` -/
def addTerms (s : Node F) : List (Node F) → M (Node F)
  | [] => M.pure s
  | t :: ts => M.bind (addN s t) fun s' => addTerms s' ts

/-- C100: adding terms one after the other, any number of them, makes one level more than the terms have. -/
theorem C100_sum {s r : Node F} {ts : List (Node F)} {d n m : Nat} (hs : s.depth ≤ d) (ht : ∀ t ∈ ts, t.depth ≤ d) (h : addTerms s ts n = .ok (r, m)) : r.depth ≤ d + 1 := by
  have hd : 1 ≤ d := (depth_pos s).trans hs
  have key : ∀ (ts : List (Node F)) (s : Node F), s.TermDepth d → (∀ t ∈ ts, t.depth ≤ d) → Post (addTerms s ts) (fun r => r.TermDepth d) := by
    intro ts
    induction ts with
    | nil => intro s hs _; exact .pure hs
    | cons t ts ih =>
      intro s hs ht
      exact (dpost_addN hd hs (termDepth_of (ht t (by simp)))).bind fun s' hs' => ih s' hs' fun t h => ht t (by simp [h])
  exact termDepth_le (key ts s (termDepth_of hs) ht _ _ _ h)

/-- C100: a derivative has at most twice as many levels as the function, and one more. -/
theorem C100_derivative {H : HashOrder} {e x d : Node F} {n m : Nat} (h : derivative H e x n = .ok (d, m)) : d.depth ≤ 2 * e.depth + 1 :=
  dpost_derivative e x _ _ _ h

/-- C100, for several variables. -/
theorem C100_derivatives {H : HashOrder} {e : Node F} {xs : List (Node F)} {ds : List (Node F × Node F)} {n m : Nat} (h : derivatives H e xs n = .ok (ds, m)) :
    ∀ p ∈ ds, p.2.depth ≤ 2 * e.depth + 1 :=
  dpost_derivatives e xs _ _ _ h

/-- C100: the expression itself, its gradient and its Hessian. -/
theorem C100_node_components {H : HashOrder} {e : Node F} {c : NodeComp F} {n m : Nat} (h : e.stdComponents H n = .ok (c, m)) :
    c.phi = e ∧ (∀ p ∈ c.gphi, p.2.depth ≤ 2 * e.depth + 1) ∧ ∀ p ∈ c.hphi, p.2.2.depth ≤ 4 * e.depth + 3 :=
  dpost_nodeComponents e _ _ _ h

/-- C100: all functions of the standard form of a model have at most four times as many levels as the objective and the sides of the constraints, and eleven more: no matter how
many variables, terms and constraints the model has. -/
theorem C100_model {H : HashOrder} {mdl : Model F} {c : ModelComp F} {d n m : Nat} (hd : mdl.DepthIn d) (h : mdl.stdComponents H n = .ok (c, m)) : c.DepthIn (4 * d + 11) :=
  dpost_modelComponents hd _ _ _ h

/-- C100: so all of them are evaluated with that many nested calls. -/
theorem C100_model_evaluate {H : HashOrder} {mdl : Model F} {c : ModelComp F} {d n m : Nat} (hd : mdl.DepthIn d) (h : mdl.stdComponents H n = .ok (c, m)) (σ : Env F) :
    ∀ e, (e = c.obj.phi ∨ (∃ x, (x, e) ∈ c.obj.gphi) ∨ (∃ x y, (x, y, e) ∈ c.obj.hphi) ∨ e ∈ c.constr.f ∨ (∃ i x, (i, x, e) ∈ c.constr.j) ∨
      ∃ hh ∈ c.constr.h, ∃ x y, (x, y, e) ∈ hh) → e.evaluateIn σ (4 * d + 11) = some (e.evaluate σ) := by
  obtain ⟨h1, h2, h3, h4, h5, h6⟩ := C100_model hd h
  intro e he
  rw [C100_evaluate, if_pos]
  rcases he with rfl | ⟨x, he⟩ | ⟨x, y, he⟩ | he | ⟨i, x, he⟩ | ⟨hh, hhm, x, y, he⟩
  · exact h1
  · exact h2 _ he
  · exact h3 _ he
  · exact h4 _ he
  · exact h5 _ he
  · exact h6 _ hhm _ he

/-! ## Products -/

/-- `let mut p = x; for _ in 0..k { p = p * x; }` -/
def mulTimes (p x : Node F) : Nat → M (Node F)
  | 0 => M.pure p
  | k + 1 => M.bind (mulN p x) fun p' => mulTimes p' x k

/-- `let mut p = x; for _ in 0..k { p = p * c; }` -/
def scaleTimes (p : Node F) (c : F) : Nat → M (Node F)
  | 0 => M.pure p
  | k + 1 => M.bind (mulS c p) fun p' => scaleTimes p' c k

/-- C100: products are not flattened as sums are. Multiplying a variable `k` times, or scaling it `k` times by a number that is not 0 or 1, gives an expression that cannot be
evaluated, analysed or printed with `k` nested calls, whatever the size of the stack `k` stands for. -/
theorem C100_products (i : Nat) (s : String) (kind : VarKind) (c : F) (h0 : (c ==. zero) = false) (h1 : (c ==. one) = false) (k n : Nat) (σ : Env F) (fmt : F → List Char) :
    (∃ p m, mulTimes (.var i s kind) (.var i s kind) k n = .ok (p, m) ∧ p.depth = k + 1 ∧ p.evaluateIn σ k = none ∧ p.stdPropertiesIn k = none ∧ p.printIn fmt k = none) ∧
    ∃ p m, scaleTimes (.var i s kind) c k n = .ok (p, m) ∧ p.depth = k + 1 ∧ p.evaluateIn σ k = none ∧ p.stdPropertiesIn k = none ∧ p.printIn fmt k = none := by
  have deep : ∀ p : Node F, p.depth = k + 1 → p.depth = k + 1 ∧ p.evaluateIn σ k = none ∧ p.stdPropertiesIn k = none ∧ p.printIn fmt k = none := by
    intro p hp
    rw [C100_evaluate, C100_properties, C100_print, if_neg (by omega), if_neg (by omega), if_neg (by omega)]
    exact ⟨hp, rfl, rfl, rfl⟩
  have hm : ∀ (k n : Nat) (p : Node F), p.isConstant = false → ∃ q m, mulTimes p (.var i s kind) k n = .ok (q, m) ∧ q.depth = p.depth + k := by
    intro k
    induction k with
    | zero => intro n p _; exact ⟨p, n, rfl, rfl⟩
    | succ k ih =>
      intro n p hp
      have he : mulN p (.var i s kind) = newMul p (.var i s kind) := by cases p <;> first | rfl | simp [Node.isConstant] at hp
      obtain ⟨q, m, hq, hd⟩ := ih (n + 1) (.mul n p (.var i s kind)) rfl
      refine ⟨q, m, ?_, ?_⟩
      · simp only [mulTimes, he]
        rw [M.bind_ok_eq (newMul_eq p _ n)]
        exact hq
      · rw [hd]; simp only [Node.depth]; have := depth_pos p; omega
  have hsc : ∀ (k n : Nat) (p : Node F), (∀ j v, p ≠ .const j v) → (∀ j as, p ≠ .add j as) → ∃ q m, scaleTimes p c k n = .ok (q, m) ∧ q.depth = p.depth + k := by
    intro k
    induction k with
    | zero => intro n p _ _; exact ⟨p, n, rfl, rfl⟩
    | succ k ih =>
      intro n p hp hp'
      have he : mulS c p = M.bind (newConst c) fun k => newMul p k := by
        cases p <;> first | exact absurd rfl (hp _ _) | exact absurd rfl (hp' _ _) | simp [mulS, h0, h1]
      obtain ⟨q, m, hq, hd⟩ := ih (n + 2) (.mul (n + 1) p (.const n c)) (by intro _ _ h; cases h) (by intro _ _ h; cases h)
      refine ⟨q, m, ?_, ?_⟩
      · simp only [scaleTimes, he]
        rw [M.bind_ok_eq (M.bind_ok_eq (newConst_eq c n))]
        exact hq
      · rw [hd]; simp only [Node.depth]; have := depth_pos p; omega
  obtain ⟨p, m, h, hd⟩ := hm k n (.var i s kind) rfl
  obtain ⟨p', m', h', hd'⟩ := hsc k n (.var i s kind) (by intro _ _ h; cases h) (by intro _ _ h; cases h)
  exact ⟨⟨p, m, h, deep p (by rw [hd]; simp only [Node.depth]; omega)⟩, p', m', h', deep p' (by rw [hd']; simp only [Node.depth]; omega)⟩

/-! ## Non-vacuity -/

/-- A model whose objective has depth 3 and whose two constraints have depth 2 and 4: `x * y + x`, `x + y ≤ 3` and `x * y / (x + y) + y ≥ 1`. -/
def cmdsDepth : List (Cmd Q) :=
  [.expr (.var "x" .continuous), .expr (.var "y" .continuous), .expr (.mul 0 1), .expr (.add 2 0), .expr (.add 0 1), .expr (.div 2 4), .expr (.add 5 1),
   .cmpNodeScalar .lessEqual 4 (some 3) "c1", .cmpNodeScalar .greaterEqual 6 (some 1) "c2", .minimize 3, .addConstraint 0, .addConstraint 1]

/-- The hypotheses of C100_model hold for it with `d = 4`, it has nonlinear parts with a Jacobian and a Hessian, and an element of the Hessian has seven levels. -/
example : (worldOf cmdsDepth).m.DepthIn 4 ∧ (resultOf ((worldOf cmdsDepth).m.stdComponents HashOrder.listOrder) (wcount cmdsDepth)).map (fun c =>
    (c.constr.f.length, c.constr.j.length, c.constr.h.map List.length, (c.constr.h.flatten.map fun e => e.2.2.depth).foldl max 0, c.obj.hphi.length)) = some (1, 3, [3], 7, 1) := by
  refine ⟨⟨fun f hf => ?_, ?_⟩, by decide +kernel⟩
  · have h : (match (worldOf cmdsDepth).m.objective with | .minimize f => f.depth | .maximize f => f.depth | .empty => 0) ≤ 4 := by decide +kernel
    rcases hf with hf | hf <;> rw [hf] at h <;> exact h
  · decide +kernel

/-- C100_sum with three products: three levels, however many are added. -/
example : (match addTerms (regsOf [.var "x" .continuous, .mul 0 0])[1]! [(regsOf [.var "x" .continuous, .mul 0 0])[1]!, (regsOf [.var "x" .continuous, .mul 0 0])[1]!] 2 with
    | .ok (r, _) => r.depth | .error _ => 0) = 3 := by decide +kernel

/-- C100_products: the hypotheses hold for the factor 3. -/
example : ((some 3 : Q) ==. zero) = false ∧ ((some 3 : Q) ==. one) = false := by decide +kernel

end Verif
