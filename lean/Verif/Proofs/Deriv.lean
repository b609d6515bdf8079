import Verif.Proofs.Reach
import Verif.Spec.Calculus

/-! # Values of derivatives (exact scalars) -/

set_option linter.unusedSectionVars false
set_option linter.unusedSimpArgs false

namespace Verif

open Exact

variable {K : Type} [Field K] [LinearOrder K] [Trig K]

/-- The value of a node as a number (0 if undefined). -/
def val (σ : Env (Option K)) (e : Node (Option K)) : K := (e.evaluate σ).getD 0

theorem val_eq {σ : Env (Option K)} {e : Node (Option K)} {v : K} (h : e.evaluate σ = some v) : val σ e = v := by
  simp [val, h]

theorem eval_some_val {σ : Env (Option K)} {e : Node (Option K)} (h : ∃ v, e.evaluate σ = some v) :
    e.evaluate σ = some (val σ e) := by
  obtain ⟨v, h⟩ := h; simp [val, h]

theorem osum_eq_some {l : List (Option K)} {v : K} (h : osum l = some v) :
    (∀ a ∈ l, ∃ x, a = some x) ∧ v = (l.map (·.getD 0)).sum := by
  induction l generalizing v with
  | nil => simp at h; simp [h]
  | cons a l ih =>
    simp only [osum_cons, add_eq_some] at h
    obtain ⟨x, y, rfl, h2, rfl⟩ := h
    obtain ⟨h3, rfl⟩ := ih h2
    exact ⟨by simpa using h3, by simp⟩

/-- The value of an edge: partial derivative of `n` with respect to its argument `c`. -/
def pdv (σ : Env (Option K)) (n c : Node (Option K)) : K :=
  match n with
  | .const .. => 0
  | .var .. => 0
  | .add .. => 1
  | .cos _ a => - Trig.sin (val σ a)
  | .sin _ a => Trig.cos (val σ a)
  | .mul _ a b => if a.ptrEq c then val σ b else val σ a
  | .div _ a b => if a.ptrEq c then 1 / val σ b else - val σ a / (val σ b * val σ b)

/-- Arguments of a defined expression are defined. -/
theorem eval_args {σ : Env (Option K)} {e : Node (Option K)} (h : ∃ v, e.evaluate σ = some v) :
    ∀ a ∈ e.arguments, ∃ v, a.evaluate σ = some v := by
  obtain ⟨v, h⟩ := h
  cases e
  case const => simp [Node.arguments]
  case var => simp [Node.arguments]
  case add i args =>
    rw [evaluate_add] at h
    intro a ha
    exact (osum_eq_some h).1 _ (List.mem_map.2 ⟨a, by simpa [Node.arguments] using ha, rfl⟩)
  case cos i a =>
    simp only [Node.evaluate, cos_eq_some] at h
    obtain ⟨x, h, _⟩ := h
    simpa [Node.arguments] using ⟨x, h⟩
  case sin i a =>
    simp only [Node.evaluate, sin_eq_some] at h
    obtain ⟨x, h, _⟩ := h
    simpa [Node.arguments] using ⟨x, h⟩
  case mul i a b =>
    simp only [Node.evaluate, mul_eq_some] at h
    obtain ⟨x, y, h1, h2, _⟩ := h
    simpa [Node.arguments] using ⟨⟨x, h1⟩, ⟨y, h2⟩⟩
  case div i a b =>
    simp only [Node.evaluate, div_eq_some] at h
    obtain ⟨x, y, h1, h2, _⟩ := h
    simpa [Node.arguments] using ⟨⟨x, h1⟩, ⟨y, h2⟩⟩

theorem eval_div_ne {σ : Env (Option K)} {i : Nat} {a b : Node (Option K)}
    (h : ∃ v, (Node.div i a b).evaluate σ = some v) : val σ b ≠ 0 := by
  obtain ⟨v, h⟩ := h
  simp only [Node.evaluate, div_eq_some] at h
  obtain ⟨x, y, h1, h2, h3, _⟩ := h
  rwa [val_eq h2]

theorem partialN_pdv {σ : Env (Option K)} {a b e : Node (Option K)} {n m : Nat}
    (hd : ∃ v, a.evaluate σ = some v) (hb : b ∈ a.arguments) (h : partialN a b n = .ok (e, m)) :
    e.evaluate σ = some (pdv σ a b) := by
  have hargs := eval_args hd
  cases a
  case const i v => simp [Node.arguments] at hb
  case var i s k => simp [Node.arguments] at hb
  case add i args =>
    simp only [Node.arguments] at hb
    have : args.any (fun a => a.ptrEq b) = true := List.any_eq_true.2 ⟨b, hb, ptrEq_refl b⟩
    simp only [partialN, this, if_true, newConst_ok] at h
    rw [h.1]; rfl
  case cos i a =>
    simp only [Node.arguments, List.mem_singleton] at hb
    subst hb
    simp only [partialN, ptrEq_refl, if_true, M.bind_ok] at h
    obtain ⟨s, k, h1, h2⟩ := h
    rw [negN_val h2, sinN_val h1, eval_some_val (hargs b (by simp [Node.arguments]))]
    rfl
  case sin i a =>
    simp only [Node.arguments, List.mem_singleton] at hb
    subst hb
    simp only [partialN, ptrEq_refl, if_true] at h
    rw [cosN_val h, eval_some_val (hargs b (by simp [Node.arguments]))]
    rfl
  case mul i a c =>
    have ha := eval_some_val (hargs a (by simp [Node.arguments]))
    have hc := eval_some_val (hargs c (by simp [Node.arguments]))
    simp only [partialN] at h
    simp only [pdv]
    split at h
    · rename_i hp
      rw [M.pure_ok] at h
      rw [h.1, hc]; simp [hp]
    · rename_i hp
      split at h
      · rw [M.pure_ok] at h
        rw [h.1, ha]; simp [hp]
      · rename_i hp'
        simp only [Node.arguments, List.mem_cons, List.not_mem_nil, or_false] at hb
        rcases hb with rfl | rfl
        · exact absurd (ptrEq_refl b) hp
        · exact absurd (ptrEq_refl b) hp'
  case div i a c =>
    have ha := eval_some_val (hargs a (by simp [Node.arguments]))
    have hc := eval_some_val (hargs c (by simp [Node.arguments]))
    have hne := eval_div_ne hd
    simp only [partialN] at h
    simp only [pdv]
    split at h
    · rename_i hp
      rw [one_def] at h
      rw [sDiv_some h hc hne]; simp [hp]
    · rename_i hp
      split at h
      · simp only [M.bind_ok] at h
        obtain ⟨na, k, h1, cc, k2, h2, h3⟩ := h
        have hna : na.evaluate σ = some (- val σ a) := by rw [negN_val h1, ha]; rfl
        rw [divN_some h3 hna (mulN_some h2 hc hc) (mul_ne_zero hne hne)]
        simp [hp]
      · rename_i hp'
        simp only [Node.arguments, List.mem_cons, List.not_mem_nil, or_false] at hb
        rcases hb with rfl | rfl
        · exact absurd (ptrEq_refl b) hp
        · exact absurd (ptrEq_refl b) hp'

/-- Product of the edge values along a path. -/
def pathVal (σ : Env (Option K)) : List (Node (Option K)) → K
  | a :: b :: rest => pdv σ a b * pathVal σ (b :: rest)
  | _ => 1

/-- Consecutive nodes of a path: the second is an argument of the first, and every node is defined. -/
def DefPath (σ : Env (Option K)) : List (Node (Option K)) → Prop
  | a :: b :: rest => (∃ v, a.evaluate σ = some v) ∧ b ∈ a.arguments ∧ DefPath σ (b :: rest)
  | _ => True

theorem dfs_defPath {σ : Env (Option K)} (e : Node (Option K)) (he : ∃ v, e.evaluate σ = some v) :
    ∀ p ∈ dfs e, DefPath σ p := by
  induction e using Node.ind_args with
  | step e ih =>
    intro p hp
    rw [dfs_eq] at hp
    split at hp
    · simp at hp; subst hp; trivial
    · simp only [List.mem_map, mem_dfsL] at hp
      obtain ⟨t, ⟨a, ha, ht⟩, rfl⟩ := hp
      have := ih a ha (eval_args he a ha) t ht
      obtain ⟨t', rfl⟩ := dfs_head ht
      exact ⟨he, ha, this⟩

theorem pathProd_val {σ : Env (Option K)} {path : List (Node (Option K))} (hp : DefPath σ path) :
    ∀ {prod e : Node (Option K)} {n m : Nat} {x : K}, prod.evaluate σ = some x →
      pathProd prod path n = .ok (e, m) → e.evaluate σ = some (x * pathVal σ path) := by
  induction path with
  | nil => intro prod e n m x hx h; simp only [pathProd, M.pure_ok] at h; simp [h.1, pathVal, hx]
  | cons a path ih =>
    intro prod e n m x hx h
    cases path with
    | nil => simp only [pathProd, M.pure_ok] at h; simp [h.1, pathVal, hx]
    | cons b path =>
      simp only [pathProd, M.bind_ok] at h
      obtain ⟨p, k1, h1, q, k2, h2, h3⟩ := h
      obtain ⟨ha, hb, hrest⟩ := hp
      have hq := mulN_some h2 hx (partialN_pdv ha hb h1)
      rw [ih hrest hq h3]
      simp [pathVal, mul_assoc]

theorem pathSum_val {σ : Env (Option K)} {ps : List (List (Node (Option K)))} (hp : ∀ p ∈ ps, DefPath σ p) :
    ∀ {d e : Node (Option K)} {n m : Nat} {x : K}, d.evaluate σ = some x →
      pathSum d ps n = .ok (e, m) → e.evaluate σ = some (x + (ps.map (pathVal σ)).sum) := by
  induction ps with
  | nil => intro d e n m x hx h; simp only [pathSum, M.pure_ok] at h; simp [h.1, hx]
  | cons p ps ih =>
    intro d e n m x hx h
    simp only [pathSum, M.bind_ok, newConst_ok] at h
    obtain ⟨k, k0, ⟨rfl, rfl⟩, q, k1, h1, d', k2, h2, h3⟩ := h
    have hq := pathProd_val (hp p (by simp)) (x := 1) rfl h1
    have hd' : d'.evaluate σ = some (x + pathVal σ p) := by rw [addN_val h2, hx, hq]; simp
    rw [ih (fun p' h' => hp p' (by simp [h'])) hd' h3]
    simp [add_assoc]

/-! ### The sum over paths satisfies the rules of differentiation -/

/-- Numeric derivative by the rules of calculus. -/
def numD (σ : Env (Option K)) (x : Node (Option K)) : Node (Option K) → K
  | .const .. => 0
  | .var i s k => if (Node.var i s k).ptrEq x then 1 else 0
  | .add _ args => numDs σ x args
  | .cos _ a => - Trig.sin (val σ a) * numD σ x a
  | .sin _ a => Trig.cos (val σ a) * numD σ x a
  | .mul _ a b => val σ b * numD σ x a + val σ a * numD σ x b
  | .div _ a b => 1 / val σ b * numD σ x a + - val σ a / (val σ b * val σ b) * numD σ x b
where
  /-- sum of the derivatives of a list of terms -/
  numDs (σ : Env (Option K)) (x : Node (Option K)) : List (Node (Option K)) → K
    | [] => 0
    | a :: as => numD σ x a + numDs σ x as

/-- Sum over the paths to `x`. -/
def pathsVal (σ : Env (Option K)) (x : Node (Option K)) (ps : List (List (Node (Option K)))) : K :=
  ((ps.filter (endsAt x)).map (pathVal σ)).sum

theorem pathsVal_append (σ : Env (Option K)) (x : Node (Option K)) (ps qs : List (List (Node (Option K)))) :
    pathsVal σ x (ps ++ qs) = pathsVal σ x ps + pathsVal σ x qs := by
  simp [pathsVal]

/-- Extending all paths that start at `a` by an edge from `e`. -/
theorem pathsVal_edge (σ : Env (Option K)) (x e a : Node (Option K)) :
    pathsVal σ x ((dfs a).map (e :: ·)) = pdv σ e a * pathsVal σ x (dfs a) := by
  unfold pathsVal
  have : ∀ ps : List (List (Node (Option K))), (∀ p ∈ ps, ∃ t, p = a :: t) →
      (((ps.map (e :: ·)).filter (endsAt x)).map (pathVal σ)).sum = pdv σ e a * ((ps.filter (endsAt x)).map (pathVal σ)).sum := by
    intro ps
    induction ps with
    | nil => simp
    | cons p ps ih =>
      intro h
      obtain ⟨t, rfl⟩ := h p (by simp)
      have ih' := ih fun p' h' => h p' (by simp [h'])
      simp only [List.map_cons, List.filter_cons]
      rw [endsAt_cons (by simp)]
      cases endsAt x (a :: t)
      · simpa using ih'
      · simp [pathVal, mul_add, ih']
  exact this _ fun p hp => dfs_head hp

theorem pathsVal_args (σ : Env (Option K)) (x e : Node (Option K)) (as : List (Node (Option K))) :
    pathsVal σ x ((dfs.dfsL as).map (e :: ·)) = (as.map fun a => pdv σ e a * pathsVal σ x (dfs a)).sum := by
  induction as with
  | nil => simp [dfs.dfsL, pathsVal]
  | cons a as ih => simp [dfs.dfsL, pathsVal_append, ih, pathsVal_edge, add_comm]

theorem numDs_eq (σ : Env (Option K)) (x : Node (Option K)) (as : List (Node (Option K))) :
    numD.numDs σ x as = (as.map (numD σ x)).sum := by
  induction as with
  | nil => rfl
  | cons a as ih => simp [numD.numDs, ih]

/-- The sum over all paths is the derivative by the rules of calculus. -/
theorem pathsVal_eq_numD {h : Heap (Option K)} (σ : Env (Option K)) (x : Node (Option K)) (e : Node (Option K))
    (hg : Good .noSelf h e) : pathsVal σ x (dfs e) = numD σ x e := by
  induction e using Node.ind_args with
  | step e ih =>
    have ih' : ∀ a ∈ e.arguments, pathsVal σ x (dfs a) = numD σ x a := fun a ha => ih a ha (hg.arg ha)
    clear ih
    rw [dfs_eq]
    cases e
    case const i v => simp [Node.isVar, Node.arguments, dfs.dfsL, pathsVal, numD]
    case var i s k =>
      simp only [Node.isVar, if_true, pathsVal, numD]
      rw [List.filter_cons]
      simp only [endsAt, List.getLast?_singleton]
      by_cases hx : (Node.var i s k).ptrEq x = true <;> simp [pathVal, hx]
    case add i args =>
      simp only [Node.isVar, Bool.false_eq_true, if_false]
      rw [pathsVal_args]
      simp only [Node.arguments] at ih' ⊢
      simp only [numD, numDs_eq]
      congr 1
      apply List.map_congr_left
      intro a ha
      simp [pdv, ih' a ha]
    case cos i a =>
      simp only [Node.isVar, Bool.false_eq_true, if_false]
      rw [pathsVal_args]
      simp [Node.arguments] at ih' ⊢
      simp [numD, ih', pdv]
    case sin i a =>
      simp only [Node.isVar, Bool.false_eq_true, if_false]
      rw [pathsVal_args]
      simp [Node.arguments] at ih' ⊢
      simp [numD, ih', pdv]
    case mul i a b =>
      simp only [Node.isVar, Bool.false_eq_true, if_false]
      rw [pathsVal_args]
      have hga : Good .noSelf h a := hg.arg (by simp [Node.arguments])
      have hgb : Good .noSelf h b := hg.arg (by simp [Node.arguments])
      simp [Node.arguments] at ih' ⊢
      simp only [numD, ih', pdv, ptrEq_refl, if_true]
      by_cases hab : a.ptrEq b = true
      · have := (hga.ptrEq_iff hgb).1 hab
        subst this
        simp [ptrEq_refl]
      · simp [hab]
    case div i a b =>
      simp only [Node.isVar, Bool.false_eq_true, if_false]
      rw [pathsVal_args]
      have hab : a.ptrEq b = false := hg.shape.2 rfl
      simp [Node.arguments] at ih' ⊢
      simp [numD, ih', pdv, ptrEq_refl, hab]

theorem ruleDs_eq (σ : Env (Option K)) (x : Node (Option K)) (as : List (Node (Option K))) :
    ruleD.ruleDs σ x as = (as.map (ruleD σ x)).sum := by
  induction as with
  | nil => rfl
  | cons a as ih => simp [ruleD.ruleDs, ih]

/-- The sum over all paths is the derivative by the rules the code follows, for every expression. -/
theorem pathsVal_eq_ruleD {l : Level} {h : Heap (Option K)} {σ : Env (Option K)} (x : Node (Option K)) (e : Node (Option K))
    (hg : Good l h e) (hd : ∃ v, e.evaluate σ = some v) : pathsVal σ x (dfs e) = ruleD σ x e := by
  induction e using Node.ind_args with
  | step e ih =>
    have ih' : ∀ a ∈ e.arguments, pathsVal σ x (dfs a) = ruleD σ x a := fun a ha => ih a ha (hg.arg ha) (eval_args hd a ha)
    clear ih
    rw [dfs_eq]
    cases e
    case const i v => simp [Node.isVar, Node.arguments, dfs.dfsL, pathsVal, ruleD]
    case var i s k =>
      simp only [Node.isVar, if_true, pathsVal, ruleD]
      rw [List.filter_cons]
      simp only [endsAt, List.getLast?_singleton]
      by_cases hx : (Node.var i s k).ptrEq x = true <;> simp [pathVal, hx]
    case add i args =>
      simp only [Node.isVar, Bool.false_eq_true, if_false]
      rw [pathsVal_args]
      simp only [Node.arguments] at ih' ⊢
      simp only [ruleD, ruleDs_eq]
      congr 1
      apply List.map_congr_left
      intro a ha
      simp [pdv, ih' a ha]
    case cos i a =>
      simp only [Node.isVar, Bool.false_eq_true, if_false]
      rw [pathsVal_args]
      simp [Node.arguments] at ih' ⊢
      simp [ruleD, ih', pdv, val]
    case sin i a =>
      simp only [Node.isVar, Bool.false_eq_true, if_false]
      rw [pathsVal_args]
      simp [Node.arguments] at ih' ⊢
      simp [ruleD, ih', pdv, val]
    case mul i a b =>
      simp only [Node.isVar, Bool.false_eq_true, if_false]
      rw [pathsVal_args]
      have hga : Good l h a := hg.arg (by simp [Node.arguments])
      have hgb : Good l h b := hg.arg (by simp [Node.arguments])
      simp [Node.arguments] at ih' ⊢
      simp only [ruleD, ih', pdv, ptrEq_refl, if_true, val]
      by_cases hab : a.ptrEq b = true
      · have := (hga.ptrEq_iff hgb).1 hab
        subst this
        simp only [ptrEq_refl, if_true]; ring
      · simp only [hab, Bool.false_eq_true, if_false]; ring
    case div i a b =>
      have hne := eval_div_ne hd
      simp only [Node.isVar, Bool.false_eq_true, if_false]
      rw [pathsVal_args]
      have hga : Good l h a := hg.arg (by simp [Node.arguments])
      have hgb : Good l h b := hg.arg (by simp [Node.arguments])
      simp [Node.arguments] at ih' ⊢
      simp only [ruleD, ih', pdv, ptrEq_refl, if_true, val] at hne ⊢
      by_cases hab : a.ptrEq b = true
      · have := (hga.ptrEq_iff hgb).1 hab
        subst this
        simp only [ptrEq_refl, if_true]; ring
      · simp only [hab, Bool.false_eq_true, if_false]; field_simp; ring

/-! ### What `derivatives` returns -/

theorem derivatives_val {H : HashOrder} {e : Node (Option K)} {vars : List (Node (Option K))} {n m : Nat}
    {r : List (Node (Option K) × Node (Option K))} (h : derivatives H e vars n = .ok (r, m)) {hp : Heap (Option K)}
    (hg : Good .noSelf hp e) {σ : Env (Option K)} (hd : ∃ v, e.evaluate σ = some v) :
    ∀ p ∈ r, p.2.evaluate σ = some (numD σ p.1 e) := by
  obtain ⟨-, vs, -, h⟩ := derivatives_ok h
  have hf := M.mapL_ok_forall (P := fun v p => p.1 = v ∧ p.2.evaluate σ = some (numD σ v e)) h ?_
  · intro p hp
    obtain ⟨v, _, hv1, hv2⟩ := (forall₂_mem_right hf) p hp
    rw [hv1]; exact hv2
  · intro v _ p n m hv
    simp only [M.bind_ok, newConst_ok, M.pure_ok] at hv
    obtain ⟨d0, k, ⟨rfl, rfl⟩, d, k2, h1, rfl, rfl⟩ := hv
    refine ⟨rfl, ?_⟩
    rw [pathSum_val (fun p hp => dfs_defPath e hd p (List.mem_filter.1 hp).1) (x := 0) rfl h1, zero_add]
    rw [← pathsVal_eq_numD σ v e hg]
    rfl
where
  forall₂_mem_right {α β : Type} {P : α → β → Prop} {as : List α} {bs : List β} (h : List.Forall₂ P as bs) :
      ∀ b ∈ bs, ∃ a ∈ as, P a b := by
    induction h with
    | nil => simp
    | cons h _ ih =>
      intro b hb
      simp only [List.mem_cons] at hb
      rcases hb with rfl | hb
      · exact ⟨_, by simp, h⟩
      · obtain ⟨a, ha, hp⟩ := ih b hb
        exact ⟨a, by simp [ha], hp⟩

end Verif
