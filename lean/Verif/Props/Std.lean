import Verif.Proofs.World
import Verif.Props.Diff

/-!
# Properties of standard properties and components: C12 – C16
-/

set_option linter.unusedSectionVars false
set_option linter.unusedSimpArgs false

namespace Verif

open Exact Filter Topology

section
variable {F : Type} [FloatOps F]

/-! ## C12 the keys are the variables -/

/-- C12: for every expression of every history (public constructors included) the keys of the coefficient map are exactly the
variables occurring in the expression, and each is there once. -/
theorem C12_keys {H : HashOrder} {regs : List (Node F)} {n : Nat} (hr : Reachable H regs n) {e : Node F} (he : e ∈ regs) :
    (e.stdProperties.a.map Prod.fst).Nodup ∧
    ∀ x, x ∈ e.stdProperties.a.map Prod.fst ↔ x.isVar = true ∧ Occurs x e := by
  obtain ⟨hp, -, hg⟩ := hr.inv
  obtain ⟨h1, h2, h3⟩ := stdProperties_keys e
  refine ⟨?_, ?_⟩
  · refine h1.imp ?_
    rintro a b hab rfl
    rw [ptrEq_refl] at hab; cases hab
  · intro x
    refine ⟨h2 x, fun ⟨hx, ho⟩ => ?_⟩
    obtain ⟨k, hk, hkx⟩ := h3 x hx ho
    have := (((hg e he).sub (h2 k hk).2).ptrEq_iff ((hg e he).sub ho)).1 hkx
    rw [← this]; exact hk

/-- C12: the content of the result does not depend on the iteration order of the hash maps: whatever order is used at each
iteration (`StdAny`), flag and constant are the same and the map has the same entries. -/
theorem C12_order_independent {e : Node F} {p q : Prop' F} (hp : StdAny e p) (hq : StdAny e q) :
    p.affine = q.affine ∧ p.b = q.b ∧ p.a.Perm q.a :=
  ⟨hp.content.1.trans hq.content.1.symm, hp.content.2.1.trans hq.content.2.1.symm, hp.content.2.2.trans hq.content.2.2.symm⟩

/-- Non-vacuity of C12: in `x*y + sin(x)/y` the keys are `x` and `y`. -/
example :
    let ops : List (Op Q) := [.var "x" .continuous, .var "y" .continuous, .mul 0 1, .sin 0, .div 3 1, .add 2 4]
    Reachable HashOrder.listOrder (regsOf ops) (countOf ops) ∧
    ((regsOf ops)[5]!).stdProperties.a.map Prod.fst = [.var 0 "x" .continuous, .var 1 "y" .continuous] := by
  exact ⟨runs_reachable (by decide +kernel), by decide +kernel⟩

end

/-! ## C13 affine decomposition -/

section
variable {K : Type} [Field K] [LinearOrder K] [Trig K]

/-- C13 (for expressions built with the operators; false for the raw constructors, see `C13_counterexample`): if the
expression is reported affine, its value is that of the reported form `Σ aᵢ xᵢ + b`, at every assignment, even where values
are missing. -/
theorem C13_affine_exact_partial {H : HashOrder} {regs : List (Node (Option K))} {n : Nat} (hr : ReachableApi H regs n)
    {e : Node (Option K)} (he : e ∈ regs) (ha : e.stdProperties.affine = true) (σ : Env (Option K)) :
    e.evaluate σ = affineValue σ e.stdProperties.a e.stdProperties.b := by
  obtain ⟨hp, -, hg⟩ := hr.inv
  rw [affineValue_eq]
  exact affine_val (by simp) σ e (hg e he) ha

end

/-- Non-vacuity of C13: `3*x - (y + 2)/4` is reported affine with coefficients 3 and -1/4 and constant -1/2. -/
example :
    let ops : List (Op Q) := [.var "x" .continuous, .var "y" .continuous, .scalarMul (some 3) 0, .addScalar 1 (some 2),
      .divScalar 3 (some 4), .sub 2 4]
    ReachableApi HashOrder.listOrder (regsOf ops) (countOf ops) ∧
    ((regsOf ops)[5]!).stdProperties.affine = true ∧
    ((regsOf ops)[5]!).stdProperties.a.map (fun p => (p.1.name, p.2)) = [("x", some 3), ("y", some (-1/4))] ∧
    ((regsOf ops)[5]!).stdProperties.b = some (-1/2) :=
  ⟨runs_reachableApi (by decide +kernel) (by decide +kernel), by decide +kernel, by decide +kernel, by decide +kernel⟩

/-- C13 fails for the raw constructors: `FunctionMul::new(x, FunctionCos::new(3))` is reported affine with coefficient 3. -/
theorem C13_counterexample :
    ∃ (regs : List (Node Q)) (n : Nat) (e : Node Q) (σ : Env Q), Reachable HashOrder.listOrder regs n ∧ e ∈ regs ∧
      e.stdProperties.affine = true ∧ e.evaluate σ ≠ affineValue σ e.stdProperties.a e.stdProperties.b := by
  let ops : List (Op Q) := [.var "x" .continuous, .const (some 3), .rawCos 1, .rawMul 0 2]
  refine ⟨regsOf ops, countOf ops, (regsOf ops)[3]!, envOf [(0, 2)], runs_reachable (by decide +kernel),
    get_mem (by decide +kernel), by decide +kernel, by decide +kernel⟩

/-! ## C14 linear expressions are recognised -/

/-- C14: every expression built from variables and constants with `+`, `-`, unary minus, multiplication and division by
constants is reported affine (for arbitrary scalars, so also for floating-point numbers). -/
theorem C14_linear {F : Type} [FloatOps F] {e : Node F} (h : LinExpr e) : e.stdProperties.affine = true := h.aff

/-- Non-vacuity of C14: `2*x + y` is such an expression. -/
example : ∃ (e : Node Q), LinExpr e ∧ e.stdProperties.a.map (fun p => (p.1.name, p.2)) = [("x", some 2), ("y", some 1)] := by
  have h1 : ∃ e, resultOf (sMul (some 2) (.var 0 "x" .continuous : Node Q)) 2 = some e ∧ e = .mul 3 (.const 2 (some 2)) (.var 0 "x" .continuous) :=
    ⟨_, by decide +kernel, rfl⟩
  obtain ⟨e, h1, rfl⟩ := h1
  obtain ⟨m, h1⟩ := of_resultOf h1
  have h2 : resultOf (addN (.mul 3 (.const 2 (some 2)) (.var 0 "x" .continuous)) (.var 1 "y" .continuous : Node Q)) 4 =
      some (.add 4 [.mul 3 (.const 2 (some 2)) (.var 0 "x" .continuous), .var 1 "y" .continuous]) := by decide +kernel
  obtain ⟨m2, h2⟩ := of_resultOf h2
  exact ⟨_, .add (.scalarMul (.var ..) h1) (.var ..) h2, by decide +kernel⟩

/-- C14, the other direction of what the flag means: a product of two variables is not reported affine. -/
example : (Node.mul 2 (.var 0 "x" .continuous) (.var 1 "y" .continuous) : Node Q).stdProperties.affine = false := by decide +kernel

/-! ## C15 gradient -/

/-- C15, completeness (all expressions of all histories): the gradient lists exactly the variables of the expression, each once. -/
theorem C15_complete {F : Type} [FloatOps F] {H : HashOrder} {regs : List (Node F)} {n m : Nat} (hr : Reachable H regs n)
    {e : Node F} (he : e ∈ regs) {c : NodeComp F} (h : e.stdComponents H n = .ok (c, m)) :
    (c.gphi.map Prod.fst).Nodup ∧ ∀ x, x ∈ c.gphi.map Prod.fst ↔ x.isVar = true ∧ Occurs x e := by
  obtain ⟨h1, h2⟩ := C12_keys hr he
  have hp := stdComponents_gphi h
  exact ⟨hp.nodup_iff.2 h1, fun x => hp.mem_iff.trans (h2 x)⟩

/-- Each first derivative node of the components has the value of the derivative, wherever the expression is defined. -/
theorem gphi_val {H : HashOrder} {hp : Heap (Option ℝ)} {e : Node (Option ℝ)} (hg : Good .noSelf hp e) {n m : Nat}
    {c : NodeComp (Option ℝ)} (h : e.stdComponents H n = .ok (c, m)) {σ : Env (Option ℝ)} (hd : Defined e σ) :
    ∀ p ∈ c.gphi, p.2.evaluate σ = some (numD σ p.1 e) := by
  have hk := stdProperties_keys e
  have hperm := stdComponents_gphi h
  intro p hp'
  have hmem : p.1 ∈ keysN e.stdProperties.a := hperm.mem_iff.1 (List.mem_map.2 ⟨p, hp', rfl⟩)
  obtain ⟨hv, ho⟩ := hk.2.1 p.1 hmem
  by_cases ha : Aff e
  · obtain ⟨-, -, -, es, hpe, hf⟩ := stdComponents_affine h ha
    obtain ⟨kv, hkv, h1, i, h2⟩ := derivatives_val.forall₂_mem_right hf p hp'
    have hin := hpe.mem_iff.1 hkv
    obtain ⟨t, ht⟩ := hd.var_value hv ho
    obtain ⟨w, hw⟩ := hd
    have hw' := hw
    rw [affine_val (by simp) σ e hg ha] at hw'
    obtain ⟨w1, w2, hw1, -, -⟩ := add_eq_some.1 hw'
    obtain ⟨cf, hcf⟩ := lin_coef_some hw1 hin
    rw [affine_numD (by simp) hg ha ⟨w, hw⟩ hv ht, h2]
    have := coefSum_mem hk.1 (v := p.1) (c := kv.2) (by rw [h1]; exact hin)
    rw [this, hcf]; rfl
  · obtain ⟨-, -, vars, derivs, k1, k2, hpe, hdv, h3⟩ := stdComponents_nonaffine h ha
    have hget := (hessLoop_ok h3).2.1 p hp'
    obtain ⟨x, hx, hxp⟩ := getN_some_iff hget
    have := derivatives_val hdv hg hd _ hx
    rw [this]; simp only; rw [numD_congr hxp]

/-- An affine expression has no quotient of a node by itself. -/
theorem aff_noSelf {F : Type} [FloatOps F] {hp : Heap F} (e : Node F) (hg : Good .api hp e) (ha : Aff e) : NoSelfDiv e := by
  induction e using Node.ind_args with
  | step e ih =>
    have hargs : ∀ a ∈ e.arguments, Aff a := by
      intro a hm
      have hca : ∀ b, b ∈ e.arguments → b.stdProperties.a = [] → Aff b := fun b hb h0 => by
        have := ((hg.arg hb).empty_iff (by simp)).1 h0
        cases b <;> simp [Node.isConstant] at this
        rfl
      unfold Aff at ha
      cases e
      case const => simp [Node.arguments] at hm
      case var => simp [Node.arguments] at hm
      case add i args => exact aff_add.1 ha a (by simpa [Node.arguments] using hm)
      case cos => simp [Node.stdProperties] at ha
      case sin => simp [Node.stdProperties] at ha
      case mul i x y =>
        simp only [Node.stdProperties, Bool.or_eq_true, Bool.and_eq_true, List.isEmpty_iff] at ha
        simp only [Node.arguments, List.mem_cons, List.not_mem_nil, or_false] at hm
        rcases hm with rfl | rfl <;> rcases ha with ⟨h1, h2⟩ | ⟨h1, h2⟩ <;>
          first | exact h1 | exact hca _ (by simp [Node.arguments]) h2
      case div i x y =>
        simp only [Node.stdProperties, Bool.and_eq_true, List.isEmpty_iff] at ha
        simp only [Node.arguments, List.mem_cons, List.not_mem_nil, or_false] at hm
        rcases hm with rfl | rfl
        · exact ha.1
        · exact hca _ (by simp [Node.arguments]) ha.2
    intro i a b ho
    rcases occurs_iff.1 ho with rfl | ⟨x, hx, ho⟩
    · unfold Aff at ha
      simp only [Node.stdProperties, Bool.and_eq_true, List.isEmpty_iff] at ha
      have hb := ((hg.arg (a := b) (by simp [Node.arguments])).empty_iff (by simp)).1 ha.2
      have hs := ((hg _ (.refl _)).2.1 (by simp)).1
      cases b <;> simp [Node.isConstant] at hb
      cases a <;> simp_all [Node.isConstant, Node.ptrEq, Node.tag]
    · exact ih x hx (hg.arg hx) (hargs x hx) i a b ho

/-- The nodes that `derivatives` returns, for every expression. -/
theorem derivatives_rule {K : Type} [Field K] [LinearOrder K] [Trig K] {H : HashOrder} {e : Node (Option K)} {vars : List (Node (Option K))}
    {n m : Nat} {r : List (Node (Option K) × Node (Option K))} (h : derivatives H e vars n = .ok (r, m)) {l : Level} {hp : Heap (Option K)}
    (hg : Good l hp e) {σ : Env (Option K)} (hd : ∃ v, e.evaluate σ = some v) : ∀ p ∈ r, p.2.evaluate σ = some (ruleD σ p.1 e) := by
  obtain ⟨-, vs, -, h⟩ := derivatives_ok h
  have hf := M.mapL_ok_forall (P := fun v p => p.1 = v ∧ p.2.evaluate σ = some (ruleD σ v e)) h ?_
  · intro p hp
    obtain ⟨v, _, hv1, hv2⟩ := (derivatives_val.forall₂_mem_right hf) p hp
    rw [hv1]; exact hv2
  · intro v _ p n m hv
    simp only [M.bind_ok, newConst_ok, M.pure_ok] at hv
    obtain ⟨d0, k, ⟨rfl, rfl⟩, d, k2, h1, rfl, rfl⟩ := hv
    refine ⟨rfl, ?_⟩
    rw [pathSum_val (fun p hp => dfs_defPath e hd p (List.mem_filter.1 hp).1) (x := 0) rfl h1, zero_add]
    rw [← pathsVal_eq_ruleD v e hg hd]
    rfl

theorem ruleD_congr {K : Type} [Field K] [LinearOrder K] [Trig K] {σ : Env (Option K)} {x x' : Node (Option K)} (h : x.ptrEq x' = true)
    (e : Node (Option K)) : ruleD σ x e = ruleD σ x' e := by
  have hv : ∀ i s k, (Node.var i s k : Node (Option K)).ptrEq x = (Node.var i s k : Node (Option K)).ptrEq x' := by
    intro i s k
    rw [Bool.eq_iff_iff]
    exact ⟨fun h1 => ptrEq_trans h1 h, fun h1 => ptrEq_trans h1 (by rw [ptrEq_symm]; exact h)⟩
  induction e using Node.ind_args with
  | step e ih =>
    cases e
    case const => rfl
    case var => simp only [ruleD, hv]
    case add i args =>
      simp only [ruleD, ruleDs_eq]
      congr 1
      exact List.map_congr_left fun a ha => ih a (by simpa [Node.arguments] using ha)
    all_goals simp only [ruleD]
    case cos i a => rw [ih a (by simp [Node.arguments])]
    case sin i a => rw [ih a (by simp [Node.arguments])]
    case mul i a b => rw [ih a (by simp [Node.arguments]), ih b (by simp [Node.arguments])]
    case div i a b => rw [ih a (by simp [Node.arguments]), ih b (by simp [Node.arguments])]

/-- C15, what is returned for every expression built with the operators, self-quotients or not: where the expression is defined, the
gradient entry of a variable is defined and has the value given by the rules of calculus, except that a quotient of a node by itself
contributes `2 a' / a` instead of 0 (`ruleD`, Spec/Calculus.lean). -/
theorem C15_exact {H : HashOrder} {regs : List (Node (Option ℝ))} {n m : Nat} (hr : ReachableApi H regs n)
    {e : Node (Option ℝ)} (he : e ∈ regs) {c : NodeComp (Option ℝ)} (h : e.stdComponents H n = .ok (c, m))
    {σ : Env (Option ℝ)} (hd : Defined e σ) : ∀ p ∈ c.gphi, p.2.evaluate σ = some (ruleD σ p.1 e) := by
  obtain ⟨hp, -, hg⟩ := hr.inv
  have hge := hg e he
  intro p hp'
  by_cases ha : Aff e
  · have hg' := hge.strengthen (aff_noSelf e hge ha)
    rw [gphi_val hg' h hd p hp', ← pathsVal_eq_numD σ p.1 e hg', ← pathsVal_eq_ruleD p.1 e hge hd]
  · obtain ⟨-, -, vars, derivs, k1, k2, hpe, hdv, h3⟩ := stdComponents_nonaffine h ha
    have hget := (hessLoop_ok h3).2.1 p hp'
    obtain ⟨x, hx, hxp⟩ := getN_some_iff hget
    rw [derivatives_rule hdv hge hd _ hx]
    simp only
    rw [ruleD_congr hxp]

/-- C15, exactness (no quotient of a node by itself, for the reason of C07): wherever the expression is defined, each gradient
entry is defined and its value is the derivative with respect to its variable. -/
theorem C15_gradient_partial {H : HashOrder} {regs : List (Node (Option ℝ))} {n m : Nat} (hr : ReachableApi H regs n)
    {e : Node (Option ℝ)} (he : e ∈ regs) (hs : NoSelfDiv e) {c : NodeComp (Option ℝ)} (h : e.stdComponents H n = .ok (c, m))
    {σ : Env (Option ℝ)} (hd : Defined e σ) :
    ∀ p ∈ c.gphi, ∃ t v, σ p.1.id = some (some t) ∧ p.2.evaluate σ = some v ∧ HasDerivAt (section' e p.1 σ) v t := by
  obtain ⟨hp, -, hg⟩ := hr.inv
  have hg' := (hg e he).strengthen hs
  intro p hp'
  obtain ⟨hv, ho⟩ := (C15_complete hr.reachable he h).2 p.1 |>.1 (List.mem_map.2 ⟨p, hp', rfl⟩)
  obtain ⟨t, ht⟩ := hd.var_value hv ho
  exact ⟨t, _, ht, gphi_val hg' h hd p hp', (numD_hasDerivAt hv ht e hd).2⟩

/-- C15 / C16: for an expression built with the operators, `std_components` can fail only in the assertion of
`FunctionAdd::new` (the defect of C03): no `unwrap` of it fails. -/
theorem C15_only_panic {F : Type} [FloatOps F] {H : HashOrder} {regs : List (Node F)} {n : Nat} (hr : ReachableApi H regs n)
    {e : Node F} (he : e ∈ regs) {p : Panic} (h : e.stdComponents H n = .error p) : p = .addArgs := by
  obtain ⟨hp, hn, hg⟩ := hr.inv
  have hge := hg e he
  clear hg
  simp only [Node.stdComponents] at h
  split at h
  · exfalso
    rw [M.bind_error] at h
    rcases h with h | ⟨es, k, h1, h⟩
    · simp [HashOrder.iter_error] at h
    · have ht : Total (M.bind (M.mapL (fun kv : Node F × F => M.bind (newConst kv.2) fun k => M.pure (kv.1, k)) es) fun g =>
          M.pure (⟨e, g, [], e.stdProperties⟩ : NodeComp F)) :=
        (total_mapL fun a _ => (total_newConst _).bind fun _ _ _ _ => Total.pure _).bind fun _ _ _ _ => Total.pure _
      obtain ⟨a, m, ha⟩ := ht k
      rw [h] at ha; cases ha
  · rw [M.bind_error] at h
    rcases h with h | ⟨vars, k, h1, h⟩
    · simp [HashOrder.iter_error] at h
    have hperm := HashOrder.iter_perm h1
    rw [HashOrder.iter_ok] at h1
    have hvars : ∀ v ∈ vars, v.isVar = true := fun v hv => ((stdProperties_keys e).2.1 v (hperm.mem_iff.1 hv)).1
    have hnd : NodupP vars := (stdProperties_keys e).1.perm hperm.symm
    have hn1 : HInv hp k := fun i hi => hn i (by omega)
    rw [M.bind_error] at h
    rcases h with h | ⟨derivs, k2, h2, h⟩
    · exact derivatives_error (l := .api) (by simp) hn1 hge hvars h
    obtain ⟨hp2, hle2, hn2, _, hg2⟩ := spec_derivatives hn1 hge derivs k2 h2
    rw [M.bind_error] at h
    rcases h with h | ⟨_, _, _, h⟩
    swap
    · simp [M.pure] at h
    -- every variable has its derivative
    have keys : ∀ {d : Node F} {vs : List (Node F)} {r : List (Node F × Node F)} {k k' : Nat}, derivatives H d vs k = .ok (r, k') →
        ∀ v ∈ vs, ∃ x, getN r v = some x := by
      intro d vs r k k' hd v hv
      obtain ⟨-, h2, -, -⟩ := C09_batch (H' := H) (n' := 0) hd
      obtain ⟨p, hp, hpv⟩ := h2 v hv
      clear hd h2
      induction r with
      | nil => simp at hp
      | cons q r ih =>
        obtain ⟨a, b⟩ := q
        simp only [getN]
        split
        · exact ⟨_, rfl⟩
        · rename_i hna
          rcases List.mem_cons.1 hp with rfl | hp
          · exact absurd hpv hna
          · exact ih hp
    have hall := keys h2
    clear h2 hperm hnd h1 hn hge
    have loop : ∀ (vs : List (Node F)) (k : Nat) (hp : Heap F), HInv hp k → (∀ p ∈ derivs, Good .api hp p.2) →
        (∀ v ∈ vs, v.isVar = true) → (∀ v ∈ vs, ∃ x, getN derivs v = some x) → ∀ p, hessLoop H derivs vs k = .error p → p = .addArgs := by
      intro vs
      induction vs with
      | nil => intro k hp _ _ _ _ p h; simp [hessLoop, M.pure] at h
      | cons v1 vs ih =>
        intro k hp hn hg hv hx p h
        obtain ⟨d, hd⟩ := hx v1 (by simp)
        simp only [hessLoop, hd] at h
        rw [M.bind_ok_eq (x := unwrapM (some d)) rfl] at h
        obtain ⟨y, hy, _⟩ := getN_some_iff hd
        have hgd : Good .api hp d := hg _ hy
        rw [M.bind_error] at h
        rcases h with h | ⟨dd, k2, h2, h⟩
        · exact derivatives_error (l := .api) (by simp) hn hgd hv h
        obtain ⟨hp2, hle2, hn2, _, _⟩ := spec_derivatives hn hgd dd k2 h2
        have hk2 := keys h2
        have hrow : ∀ (ws : List (Node F)), (∀ w ∈ ws, ∃ x, getN dd w = some x) → Total (hessRow v1 dd ws) := by
          intro ws
          induction ws with
          | nil => intro _; exact Total.pure _
          | cons w ws ih3 =>
            intro hw n
            obtain ⟨x, hx⟩ := hw w (by simp)
            obtain ⟨r, m, hr⟩ := ih3 (fun u hu => hw u (by simp [hu])) n
            simp only [hessRow, hx]
            rw [M.bind_ok_eq (x := unwrapM (some x)) rfl, M.bind_ok_eq hr]
            exact ⟨_, _, rfl⟩
        obtain ⟨row, k3, h3⟩ := hrow _ hk2 k2
        obtain ⟨rfl, -⟩ := hessRow_ok h3
        rw [M.bind_ok_eq h3, M.bind_error] at h
        rcases h with h | ⟨_, _, _, h⟩
        · exact ih _ hp2 hn2 (fun p hp => (hg p hp).mono hle2) (fun v hv' => hv v (by simp [hv'])) (fun v hv' => hx v (by simp [hv'])) p h
        · simp [M.pure] at h
    exact loop vars k2 hp2 hn2 hg2 hvars hall p h

/-! ## C16 Hessian -/

/-- The second derivative nodes of the components: no pair twice, each has the value of the second derivative wherever the expression
is defined, and the pairs that are not listed have second derivative zero. -/
theorem hess_val {H : HashOrder} {hp : Heap (Option ℝ)} {e : Node (Option ℝ)} (hge : Good .noSelf hp e) {n m : Nat}
    {c : NodeComp (Option ℝ)} (h : e.stdComponents H n = .ok (c, m)) (hgg : ∀ q ∈ c.gphi, Good .noSelf hp q.2) :
    (c.hphi.Pairwise fun p q => ¬ samePair p.1 p.2.1 q.1 q.2.1) ∧
    ∀ {σ : Env (Option ℝ)}, Defined e σ →
      (∀ p ∈ c.hphi, p.2.2.evaluate σ = some (numD2 σ p.1 p.2.1 e)) ∧
      (∀ x y : Node (Option ℝ), x.isVar = true → y.isVar = true → (∀ p ∈ c.hphi, ¬ samePair x y p.1 p.2.1) →
        ∀ s t, σ x.id = some (some s) → σ y.id = some (some t) → numD2 σ x y e = 0) := by
  have hk := stdProperties_keys e
  have hmem := stdComponents_hphi_mem h
  by_cases ha : Aff e
  · have hnil := (stdComponents_affine h ha).2.2.1
    rw [hnil]
    refine ⟨.nil, fun {σ} hd => ⟨by simp, ?_⟩⟩
    intro x y hx hy _ s t hxs hyt
    exact affine_numD2 (by simp) hge ha hd hx hy hxs hyt
  · obtain ⟨-, -, vars, derivs, k1, k2, hperm, hdv, h3⟩ := stdComponents_nonaffine h ha
    obtain ⟨l1, l2, l3, l4, l5⟩ := hessLoop_ok h3
    have hnd : NodupP vars := hk.1.perm hperm.symm
    have hgd : ∀ {v1 d}, v1 ∈ vars → getN derivs v1 = some d → Good .noSelf hp d := by
      intro v1 d hv1 hd
      rw [← l1] at hv1
      obtain ⟨q, hq, rfl⟩ := List.mem_map.1 hv1
      have := l2 q hq
      rw [hd] at this
      injection this with this
      rw [this]; exact hgg q hq
    -- value of an entry of the matrix of second derivatives
    have entry : ∀ {σ : Env (Option ℝ)}, Defined e σ → ∀ {v1 v2 d x : Node (Option ℝ)} {dd : List (Node (Option ℝ) × Node (Option ℝ))}
        {vs' : List (Node (Option ℝ))} {k k' : Nat} {t : ℝ}, v1 ∈ vars → v2.isVar = true → σ v2.id = some (some t) → getN derivs v1 = some d →
        derivatives H d vs' k = .ok (dd, k') → getN dd v2 = some x → x.evaluate σ = some (numD2 σ v1 v2 e) := by
      intro σ hd v1 v2 d x dd vs' k k' t hv1 hv2 ht hg1 hdd hx
      obtain ⟨y, hy, hyv⟩ := getN_some_iff hg1
      have hdval : ∀ τ, Defined e τ → d.evaluate τ = some (numD τ v1 e) := by
        intro τ hτ
        have := derivatives_val hdv hge hτ _ hy
        simp only at this
        rw [this, numD_congr hyv]
      obtain ⟨z, hz, hzv⟩ := getN_some_iff hx
      have := derivatives_val hdd (hgd hv1 hg1) (σ := σ) ⟨_, hdval σ hd⟩ _ hz
      simp only at this
      rw [this, numD_congr hzv, numD_of_deriv hv2 ht hd hdval]
    refine ⟨l5 hnd, fun {σ} hd => ⟨?_, ?_⟩⟩
    · intro p hp'
      obtain ⟨m1, m2⟩ := hmem p hp'
      obtain ⟨v2, o2⟩ := hk.2.1 _ m2
      obtain ⟨t, htv⟩ := hd.var_value v2 o2
      obtain ⟨i1, -, d, dd, vs', k, k', g1, g2, g3⟩ := l3 p hp'
      exact entry hd i1 v2 htv g1 g2 g3
    · intro x y hx hy hno s t hxs hyt
      by_cases hox : ∃ k ∈ keysN e.stdProperties.a, k.ptrEq x = true
      · by_cases hoy : ∃ k ∈ keysN e.stdProperties.a, k.ptrEq y = true
        · obtain ⟨kx, hkx, hkx'⟩ := hox
          obtain ⟨ky, hky, hky'⟩ := hoy
          rw [← numD2_congr hkx' hky']
          have ix := (isVar_ptrEq_iff (hk.2.1 kx hkx).1 hx).1 hkx'
          have iy := (isVar_ptrEq_iff (hk.2.1 ky hky).1 hy).1 hky'
          obtain ⟨w1, w2, d, dd, vs', k, k', f, hw, g1, g2, g3, g4⟩ := l4 kx ky (hperm.mem_iff.2 hkx) (hperm.mem_iff.2 hky)
          have hnotin : (w1, w2, f) ∉ c.hphi := by
            intro hin
            refine hno _ hin ?_
            rcases hw with ⟨rfl, rfl⟩ | ⟨rfl, rfl⟩
            · exact .inl ⟨by rw [ptrEq_symm]; exact hkx', by rw [ptrEq_symm]; exact hky'⟩
            · exact .inr ⟨by rw [ptrEq_symm]; exact hkx', by rw [ptrEq_symm]; exact hky'⟩
          have hc := g4.resolve_right hnotin
          have hval : f.evaluate σ = some 0 := by
            cases f <;> simp [Node.isConstVal] at hc
            exact eq_zero_iff.1 hc
          rcases hw with ⟨rfl, rfl⟩ | ⟨rfl, rfl⟩
          · have := entry hd (hperm.mem_iff.2 hkx) (hk.2.1 _ hky).1 (by rw [iy]; exact hyt) g1 g2 g3
            rw [hval] at this
            exact (Option.some.inj this).symm
          · have := entry hd (hperm.mem_iff.2 hky) (hk.2.1 _ hkx).1 (by rw [ix]; exact hxs) g1 g2 g3
            rw [hval] at this
            rw [numD2_symm]
            exact (Option.some.inj this).symm
        · rw [numD2_symm]
          refine numD2_absent (fun z hz => ?_) x
          rw [← Bool.not_eq_true]
          intro hzy
          have hzv : z.isVar = true := by
            simp only [Node.ptrEq, Bool.and_eq_true, beq_iff_eq] at hzy
            cases y <;> simp [Node.isVar] at hy
            cases z <;> simp [Node.tag, Node.isVar] at hzy ⊢
          obtain ⟨k, hk1, hk2⟩ := hk.2.2 z hzv hz
          exact hoy ⟨k, hk1, ptrEq_trans hk2 hzy⟩
      · refine numD2_absent (fun z hz => ?_) y
        rw [← Bool.not_eq_true]
        intro hzx
        have hzv : z.isVar = true := by
          simp only [Node.ptrEq, Bool.and_eq_true, beq_iff_eq] at hzx
          cases x <;> simp [Node.isVar] at hx
          cases z <;> simp [Node.tag, Node.isVar] at hzx ⊢
        obtain ⟨k, hk1, hk2⟩ := hk.2.2 z hzv hz
        exact hox ⟨k, hk1, ptrEq_trans hk2 hzx⟩

/-- C16 (no quotient of a node by itself): no unordered pair of variables is listed twice; where the expression is defined,
each entry is defined and is the second derivative, in both orders of differentiation; and for any two variables (of the
expression or not) whose pair is not listed, both second derivatives are zero. -/
theorem C16_hessian_partial {H : HashOrder} {regs : List (Node (Option ℝ))} {n m : Nat} (hr : ReachableApi H regs n)
    {e : Node (Option ℝ)} (he : e ∈ regs) (hs : NoSelfDiv e) {c : NodeComp (Option ℝ)} (h : e.stdComponents H n = .ok (c, m)) :
    (c.hphi.Pairwise fun p q => ¬ samePair p.1 p.2.1 q.1 q.2.1) ∧
    ∀ {σ : Env (Option ℝ)}, Defined e σ →
      (∀ p ∈ c.hphi, ∃ s t v, σ p.1.id = some (some s) ∧ σ p.2.1.id = some (some t) ∧ p.2.2.evaluate σ = some v ∧
        HasDerivAt (fun t => partialDeriv e p.1 (σ.set p.2.1.id (some t))) v t ∧
        HasDerivAt (fun s => partialDeriv e p.2.1 (σ.set p.1.id (some s))) v s) ∧
      (∀ x y : Node (Option ℝ), x.isVar = true → y.isVar = true → (∀ p ∈ c.hphi, ¬ samePair x y p.1 p.2.1) →
        ∀ s t, σ x.id = some (some s) → σ y.id = some (some t) →
          HasDerivAt (fun t => partialDeriv e x (σ.set y.id (some t))) 0 t) := by
  obtain ⟨hp, hn, hg⟩ := hr.inv
  have hge := (hg e he).strengthen hs
  have hk := stdProperties_keys e
  have hmem := stdComponents_hphi_mem h
  have hgg : ∃ hp', hp.le hp' ∧ ∀ q ∈ c.gphi, Good .noSelf hp' q.2 := by
    obtain ⟨hp', hle, -, -, hq⟩ := spec_nodeComp hn hge c m h
    exact ⟨hp', hle, hq.1⟩
  obtain ⟨hp', hle, hgg⟩ := hgg
  obtain ⟨h1, h2⟩ := hess_val (hge.mono hle) h hgg
  refine ⟨h1, fun {σ} hd => ⟨fun p hp' => ?_, fun x y hx hy hno s t hxs hyt => ?_⟩⟩
  · obtain ⟨m1, m2⟩ := hmem p hp'
    obtain ⟨v1, o1⟩ := hk.2.1 _ m1
    obtain ⟨v2, o2⟩ := hk.2.1 _ m2
    obtain ⟨s, hsv⟩ := hd.var_value v1 o1
    obtain ⟨t, htv⟩ := hd.var_value v2 o2
    refine ⟨s, t, _, hsv, htv, (h2 hd).1 p hp', partialDeriv_hasDerivAt v1 v2 hsv htv hd, ?_⟩
    rw [numD2_symm]
    exact partialDeriv_hasDerivAt v2 v1 htv hsv hd
  · have main := partialDeriv_hasDerivAt hx hy hxs hyt hd
    rwa [(h2 hd).2 x y hx hy hno s t hxs hyt] at main

/-- Non-vacuity of C15 and C16: the components of `x*y + sin(x)/y` are returned: two gradient entries and three Hessian entries. -/
example :
    let ops : List (Op Q) := [.var "x" .continuous, .var "y" .continuous, .mul 0 1, .sin 0, .div 3 1, .add 2 4]
    ReachableApi HashOrder.listOrder (regsOf ops) (countOf ops) ∧
    (resultOf (Node.stdComponents HashOrder.listOrder ((regsOf ops)[5]!)) (countOf ops)).map
      (fun c => (c.gphi.map fun p => p.1.name, c.hphi.map fun p => (p.1.name, p.2.1.name))) =
      some (["x", "y"], [("x", "x"), ("x", "y"), ("y", "y")]) :=
  ⟨runs_reachableApi (by decide +kernel) (by decide +kernel), by decide +kernel⟩

/-- Non-vacuity over the reals: `sin(x)` is free of quotients and its components are returned. -/
example : ∃ (regs : List (Node (Option ℝ))) (n m : Nat) (e : Node (Option ℝ)) (c : NodeComp (Option ℝ)),
    ReachableApi HashOrder.listOrder regs n ∧ e ∈ regs ∧ NoSelfDiv e ∧ e.stdComponents HashOrder.listOrder n = .ok (c, m) ∧
      c.gphi ≠ [] ∧ Defined e (fun _ => some (some 3)) := by
  let x : Node (Option ℝ) := .var 0 "x" .continuous
  let e : Node (Option ℝ) := .sin 1 x
  have h1 : ∃ c m, e.stdComponents HashOrder.listOrder 2 = .ok (c, m) ∧ c.gphi ≠ [] := by
    simp only [Node.stdComponents, e, x, Node.stdProperties, Bool.false_eq_true, if_false, List.map_cons, List.map_nil]
    rw [M.bind_ok_eq (iter_single _ _ _)]
    have hd : ∃ d k, derivatives HashOrder.listOrder (Node.sin 1 x) [x] 3 = .ok ([(x, .cos d x)], k) := by
      rw [derivatives_single rfl]
      simp [x, dfs, endsAt, Node.ptrEq, Node.tag, Node.id, pathSum, pathProd, partialN, M.bind, cosN, mulN, mulCL, addN,
        Node.isConstVal, M.pure]
    obtain ⟨i, k, hd⟩ := hd
    rw [M.bind_ok_eq hd]
    have hd2 : ∃ d k', derivatives HashOrder.listOrder (Node.cos i x) [x] k = .ok ([(x, d)], k') := by
      rw [derivatives_single rfl]
      have h11 : ¬ ((-1 : ℝ) = 1) := by norm_num
      simp [x, dfs, endsAt, Node.ptrEq, Node.tag, Node.id, pathSum, pathProd, partialN, M.bind, sinN, negN, sMul, negOne, mulN, mulCL, addN,
        Node.isConstVal, M.pure, eq_zero_iff, eq_one_iff, M.fresh, newConst, newSin, newMul, h11, FloatOps.eq, FloatOps.neg, one, zero]
    obtain ⟨d2, k', hd2⟩ := hd2
    have hrow : ∃ row, hessRow x [(x, d2)] [x] k' = .ok (row, k') := by
      simp only [hessRow, getN, ptrEq_refl, if_true, unwrapM]
      exact ⟨_, rfl⟩
    obtain ⟨row, hrow⟩ := hrow
    have hloop : hessLoop HashOrder.listOrder [(x, .cos i x)] [x] k = .ok (([(x, .cos i x)], row ++ []), k') := by
      simp only [hessLoop, getN, ptrEq_refl, if_true, unwrapM]
      rw [M.bind_ok_eq (a := Node.cos i x) (k := k) rfl, M.bind_ok_eq hd2, M.bind_ok_eq hrow]
      rfl
    rw [M.bind_ok_eq hloop]
    exact ⟨_, _, rfl, by simp⟩
  obtain ⟨c, m, h1, h2⟩ := h1
  refine ⟨[x, e], 2, m, e, c, ⟨[.var "x" .continuous, .sin 0], by simp [Op.isRaw], rfl⟩, by simp, ?_, h1, h2, ⟨Real.sin 3, rfl⟩⟩
  intro i a b h
  simp only [e, x] at h
  rw [occurs_iff] at h
  simp only [Node.arguments, List.mem_cons, List.not_mem_nil, or_false, exists_eq_left, reduceCtorEq, false_or] at h
  rw [occurs_iff] at h
  simp [Node.arguments] at h

end Verif
