import Verif.Code.Node
import Verif.Proofs.Arith

/-! # Lemmas about expression nodes and the operators -/

set_option linter.unusedSectionVars false
set_option linter.unusedSimpArgs false

namespace Verif

variable {F : Type}

/-- Induction on expressions. -/
theorem Node.ind {P : Node F → Prop}
    (const : ∀ i v, P (.const i v)) (var : ∀ i s k, P (.var i s k))
    (add : ∀ i args, (∀ a ∈ args, P a) → P (.add i args))
    (cos : ∀ i a, P a → P (.cos i a)) (div : ∀ i a b, P a → P b → P (.div i a b))
    (mul : ∀ i a b, P a → P b → P (.mul i a b)) (sin : ∀ i a, P a → P (.sin i a)) : ∀ n, P n := by
  intro n
  induction n using Node.rec (motive_2 := fun l => ∀ a ∈ l, P a) with
  | const i v => exact const i v
  | var i s k => exact var i s k
  | add i args ih => exact add i args ih
  | cos i a ih => exact cos i a ih
  | div i a b iha ihb => exact div i a b iha ihb
  | mul i a b iha ihb => exact mul i a b iha ihb
  | sin i a ih => exact sin i a ih
  | nil => rename_i hx; cases hx
  | cons a as iha ihas =>
    rename_i x hx
    rcases List.mem_cons.1 hx with rfl | h
    · exact iha
    · exact ihas x h

/-- Simple induction: by arguments. -/
theorem Node.ind_args {P : Node F → Prop} (step : ∀ n, (∀ a ∈ n.arguments, P a) → P n) : ∀ n, P n := by
  apply Node.ind
  · intro i v; exact step _ (by simp [Node.arguments])
  · intro i s k; exact step _ (by simp [Node.arguments])
  · intro i args h; exact step _ (by simpa [Node.arguments] using h)
  · intro i a h; exact step _ (by simpa [Node.arguments] using h)
  · intro i a b ha hb; exact step _ (by simp [Node.arguments, ha, hb])
  · intro i a b ha hb; exact step _ (by simp [Node.arguments, ha, hb])
  · intro i a h; exact step _ (by simpa [Node.arguments] using h)

section Ops
variable [FloatOps F]

@[simp] theorem newConst_eq (v : F) (n : Nat) : newConst v n = .ok (.const n v, n + 1) := rfl
@[simp] theorem newVar_eq (s : String) (k : VarKind) (n : Nat) : (newVar s k : M (Node F)) n = .ok (.var n s k, n + 1) := rfl
@[simp] theorem newMul_eq (a b : Node F) (n : Nat) : newMul a b n = .ok (.mul n a b, n + 1) := rfl
@[simp] theorem newDiv_eq (a b : Node F) (n : Nat) : newDiv a b n = .ok (.div n a b, n + 1) := rfl
@[simp] theorem newCos_eq (a : Node F) (n : Nat) : newCos a n = .ok (.cos n a, n + 1) := rfl
@[simp] theorem newSin_eq (a : Node F) (n : Nat) : newSin a n = .ok (.sin n a, n + 1) := rfl

theorem newAdd_eq (args : List (Node F)) (n : Nat) :
    newAdd args n = if 2 ≤ args.length then .ok (.add n args, n + 1) else .error .addArgs := by
  unfold newAdd; split <;> rfl

theorem newAdd_ok {args : List (Node F)} {n m : Nat} {e : Node F} :
    newAdd args n = .ok (e, m) ↔ 2 ≤ args.length ∧ e = .add n args ∧ m = n + 1 := by
  rw [newAdd_eq]; split <;> simp_all [eq_comm]

theorem newAdd_error {args : List (Node F)} {n : Nat} {p : Panic} :
    newAdd args n = .error p ↔ args.length < 2 ∧ p = .addArgs := by
  rw [newAdd_eq]; split <;> simp_all [eq_comm]; omega

theorem newConst_ok {v : F} {n m : Nat} {e : Node F} : newConst v n = .ok (e, m) ↔ e = .const n v ∧ m = n + 1 := by
  simp [eq_comm]

/-! ### The operators satisfy the text of the code -/

theorem sMulL_eq_mapL (c : F) (l : List (Node F)) : sMul.sMulL c l = M.mapL (sMul c) l := by
  induction l with
  | nil => rfl
  | cons a as ih => simp only [sMul.sMulL, M.mapL, ih]

theorem mulSL_eq_mapL (c : F) (l : List (Node F)) : mulS.mulSL c l = M.mapL (mulS c) l := by
  induction l with
  | nil => rfl
  | cons a as ih => simp only [mulS.mulSL, M.mapL, ih]

theorem mulCLL_eq_mapL (i : Nat) (c : F) (l : List (Node F)) : mulCL.mulCLL i c l = M.mapL (mulCL i c) l := by
  induction l with
  | nil => rfl
  | cons a as ih => simp only [mulCL.mulCLL, M.mapL, ih]

theorem mulCRL_eq_mapL (i : Nat) (c : F) (l : List (Node F)) : mulCR.mulCRL i c l = M.mapL (mulCR i c) l := by
  induction l with
  | nil => rfl
  | cons a as ih => simp only [mulCR.mulCRL, M.mapL, ih]

/-- The text of src/model/node.rs:268-317 holds of the modelled product. -/
theorem mulN_unfold (s r : Node F) :
    mulN s r =
      if s.isConstVal zero || r.isConstVal zero then newConst zero
      else if s.isConstVal one then M.pure r
      else if r.isConstVal one then M.pure s
      else if s.isConstant && r.isConstant then
        newConst (s.evaluate (fun _ => none) *. r.evaluate (fun _ => none))
      else match s, r with
        | .const i a, .add _ args => M.bind (M.mapL (fun x => mulN (.const i a) x) args) newAdd
        | .add _ args, .const j b => M.bind (M.mapL (fun x => mulN x (.const j b)) args) newAdd
        | s, r => newMul s r := by
  have hl : ∀ i (a : F) x, mulN (.const i a) x = mulCL i a x := fun i a x => by cases x <;> rfl
  have hr : ∀ j (b : F) x, mulN x (Node.const j b) = mulCR j b x := fun j b x => by
    cases x <;> simp [mulN, mulCL, mulCR]
  simp only [hl, hr, ← mulCLL_eq_mapL, ← mulCRL_eq_mapL]
  cases s <;> cases r <;>
    simp [mulN, mulCL, mulCR, Node.isConstVal, Node.isConstant, Node.evaluate]

/-- The text of src/model/node.rs:364-404 holds of the modelled product. -/
theorem sMul_unfold (c : F) (r : Node F) :
    sMul c r =
      if c ==. zero || r.isConstant then
        match r with
        | .const _ v => newConst (c *. v)
        | _ => newConst zero
      else if c ==. one then M.pure r
      else if r.isConstVal one then newConst c
      else match r with
        | .add _ args => M.bind (M.mapL (sMul c) args) newAdd
        | r => M.bind (newConst c) fun k => newMul k r := by
  rw [← funext (sMulL_eq_mapL c)]
  cases r <;> simp [sMul, Node.isConstVal, Node.isConstant]

/-- The text of src/model/node.rs:320-363 holds of the modelled product. -/
theorem mulS_unfold (c : F) (s : Node F) :
    mulS c s =
      if s.isConstant || c ==. zero then
        match s with
        | .const _ v => newConst (v *. c)
        | _ => newConst zero
      else if s.isConstVal one then newConst c
      else if c ==. one then M.pure s
      else match s with
        | .add _ args => M.bind (M.mapL (mulS c) args) newAdd
        | s => M.bind (newConst c) fun k => newMul s k := by
  rw [← funext (mulSL_eq_mapL c)]
  cases s <;> simp [mulS, Node.isConstVal, Node.isConstant]

theorem sumFrom_eq_foldl (σ : Env F) (acc : F) (l : List (Node F)) :
    Node.evaluate.sumFrom σ acc l = l.foldl (fun s a => s +. a.evaluate σ) acc := by
  induction l generalizing acc with
  | nil => rfl
  | cons a as ih => simp [Node.evaluate.sumFrom, ih]

end Ops

/-! ### Values of the results (exact scalars) -/

section Exact
variable {K : Type} [Field K] [LinearOrder K] [Trig K]

open Exact

/-- Sum of a list of exact scalars. -/
def osum : List (Option K) → Option K
  | [] => some 0
  | a :: l => a +. osum l

@[simp] theorem osum_nil : osum ([] : List (Option K)) = some 0 := rfl
@[simp] theorem osum_cons (a : Option K) (l : List (Option K)) : osum (a :: l) = (a +. osum l) := rfl

theorem osum_append (l1 l2 : List (Option K)) : osum (l1 ++ l2) = (osum l1 +. osum l2) := by
  induction l1 with
  | nil => simp
  | cons a l1 ih => simp [ih, oadd_assoc]

theorem osum_mul_left (c : Option K) (l : List (Option K)) (h : l ≠ []) :
    osum (l.map (c *. ·)) = (c *. osum l) := by
  induction l with
  | nil => exact absurd rfl h
  | cons a l ih =>
    cases l with
    | nil => simp
    | cons b l =>
      rw [List.map_cons, osum_cons, ih (by simp), osum_cons (l := b :: l), omul_add]

theorem sumFrom_eq (σ : Env (Option K)) (acc : Option K) (l : List (Node (Option K))) :
    Node.evaluate.sumFrom σ acc l = (acc +. osum (l.map (Node.evaluate σ))) := by
  induction l generalizing acc with
  | nil => simp [Node.evaluate.sumFrom]
  | cons a as ih => simp [Node.evaluate.sumFrom, ih, oadd_assoc]

theorem evaluate_add (σ : Env (Option K)) (i : Nat) (l : List (Node (Option K))) :
    (Node.add i l).evaluate σ = osum (l.map (Node.evaluate σ)) := by
  simp [Node.evaluate, sumFrom_eq]

theorem gatherArgs_val (σ : Env (Option K)) (c : Option K) (args xs : List (Node (Option K))) :
    ((gatherArgs (c, args) xs).1 +. osum ((gatherArgs (c, args) xs).2.map (Node.evaluate σ))) =
      (c +. osum (args.map (Node.evaluate σ)) +. osum (xs.map (Node.evaluate σ))) := by
  induction xs generalizing c args with
  | nil => simp [gatherArgs]
  | cons x xs ih =>
    have hx : gatherArgs (c, args) (x :: xs) = gatherArgs (c, args ++ [x]) xs ∨
        ∃ i v, x = .const i v ∧ gatherArgs (c, args) (x :: xs) = gatherArgs (c +. v, args) xs := by
      cases x <;> simp [gatherArgs]
    rcases hx with h | ⟨i, v, rfl, h⟩
    · rw [h, ih]
      simp [osum_append, oadd_assoc]
    · rw [h, ih]
      simp only [List.map_cons, osum_cons, Node.evaluate, oadd_assoc]
      rw [oadd_left_comm v]

theorem gather_val (σ : Env (Option K)) (acc : Option K × List (Node (Option K))) (a : Node (Option K)) :
    ((gather acc a).1 +. osum ((gather acc a).2.map (Node.evaluate σ))) =
      (acc.1 +. osum (acc.2.map (Node.evaluate σ)) +. a.evaluate σ) := by
  obtain ⟨c, args⟩ := acc
  cases a
  case const i v => simp only [gather, Node.evaluate, oadd_assoc]; rw [oadd_comm v]
  case add i xs => simp only [gather, evaluate_add]; exact gatherArgs_val ..
  all_goals simp [gather, osum_append, oadd_assoc]

theorem finishAdd_val {acc : Option K × List (Node (Option K))} {e : Node (Option K)} {n m : Nat}
    (h : finishAdd acc n = .ok (e, m)) (σ : Env (Option K)) :
    e.evaluate σ = (acc.1 +. osum (acc.2.map (Node.evaluate σ))) := by
  unfold finishAdd at h
  split at h
  · rename_i he
    rw [newConst_ok] at h
    simp only [List.isEmpty_iff] at he
    simp [h.1, he, Node.evaluate]
  · split at h
    · simp only [M.bind_ok, newConst_eq] at h
      obtain ⟨k, n', hk, h⟩ := h
      simp only [Except.ok.injEq, Prod.mk.injEq] at hk
      rw [newAdd_ok] at h
      rw [h.2.1, evaluate_add, ← hk.1]
      simp [osum_append, Node.evaluate, oadd_comm]
    · rename_i hz
      rw [newAdd_ok] at h
      rw [h.2.1, evaluate_add]
      have : acc.1 = some 0 := by
        rw [zero_def] at hz
        cases hh : (acc.1 ==. some 0)
        · simp [hh] at hz
        · exact eq_zero_iff.1 hh
      simp [this]

theorem isConstVal_eval {a : Node (Option K)} {v : K} (h : a.isConstVal (some v) = true) :
    ∃ i, a = .const i (some v) := by
  cases a <;> simp [Node.isConstVal] at h
  rename_i i w
  rw [eq_iff] at h
  obtain ⟨x, rfl, h⟩ := h
  exact ⟨i, by rw [h]⟩

theorem addN_val {a b e : Node (Option K)} {n m : Nat} (h : addN a b n = .ok (e, m)) (σ : Env (Option K)) :
    e.evaluate σ = (a.evaluate σ +. b.evaluate σ) := by
  unfold addN at h
  split at h
  · rename_i hz
    obtain ⟨i, rfl⟩ := isConstVal_eval hz
    rw [M.pure_ok] at h
    simp [h.1, Node.evaluate]
  · split at h
    · rename_i hz
      obtain ⟨i, rfl⟩ := isConstVal_eval hz
      rw [M.pure_ok] at h
      simp [h.1, Node.evaluate]
    · rw [finishAdd_val h σ, gather_val, gather_val]
      simp

theorem addS_val {a e : Node (Option K)} {c : Option K} {n m : Nat} (h : addS a c n = .ok (e, m)) (σ : Env (Option K)) :
    e.evaluate σ = (a.evaluate σ +. c) := by
  unfold addS at h
  split at h
  · rename_i hz
    rw [zero_def, eq_zero_iff] at hz
    rw [M.pure_ok] at h
    simp [h.1, hz]
  · simp only [M.bind_ok, newConst_eq] at h
    obtain ⟨k, n', hk, h⟩ := h
    simp only [Except.ok.injEq, Prod.mk.injEq] at hk
    rw [finishAdd_val h σ, gather_val, gather_val, ← hk.1]
    simp [Node.evaluate]

theorem sAdd_val {a e : Node (Option K)} {c : Option K} {n m : Nat} (h : sAdd c a n = .ok (e, m)) (σ : Env (Option K)) :
    e.evaluate σ = (c +. a.evaluate σ) := by
  unfold sAdd at h
  split at h
  · rename_i hz
    rw [zero_def, eq_zero_iff] at hz
    rw [M.pure_ok] at h
    simp [h.1, hz]
  · simp only [M.bind_ok, newConst_eq] at h
    obtain ⟨k, n', hk, h⟩ := h
    simp only [Except.ok.injEq, Prod.mk.injEq] at hk
    rw [finishAdd_val h σ, gather_val, gather_val, ← hk.1]
    simp [Node.evaluate]

/-- Mapping an operator whose value is `g` of the value over the arguments of a sum. -/
theorem mapL_val {f : Node (Option K) → M (Node (Option K))} {g : Option K → Option K}
    {as bs : List (Node (Option K))} {n m : Nat} (σ : Env (Option K)) (h : M.mapL f as n = .ok (bs, m))
    (hf : ∀ a ∈ as, ∀ b n m, f a n = .ok (b, m) → b.evaluate σ = g (a.evaluate σ)) :
    bs.map (Node.evaluate σ) = (as.map (Node.evaluate σ)).map g := by
  have := M.mapL_ok_forall (P := fun a b => b.evaluate σ = g (a.evaluate σ)) h hf
  clear h hf
  induction this with
  | nil => rfl
  | cons h _ ih => simp_all

theorem mapL_length {α β : Type} {f : α → M β} {as : List α} {bs : List β} {n m : Nat} (h : M.mapL f as n = .ok (bs, m)) :
    bs.length = as.length :=
  (M.mapL_ok_forall (P := fun _ _ => True) h (fun _ _ _ _ _ _ => trivial)).length_eq.symm

/-- Distribution of a factor over the arguments of a sum. -/
theorem distribute_val {f : Node (Option K) → M (Node (Option K))} {c : Option K} {i : Nat}
    {as : List (Node (Option K))} {e : Node (Option K)} {n m : Nat} (σ : Env (Option K))
    (h : M.bind (M.mapL f as) newAdd n = .ok (e, m))
    (hf : ∀ a ∈ as, ∀ b n m, f a n = .ok (b, m) → b.evaluate σ = (c *. a.evaluate σ)) :
    e.evaluate σ = (c *. (Node.add i as).evaluate σ) := by
  rw [M.bind_ok] at h
  obtain ⟨bs, k, hbs, h⟩ := h
  rw [newAdd_ok] at h
  rw [h.2.1, evaluate_add, evaluate_add, mapL_val (g := fun x => c *. x) σ hbs hf, osum_mul_left]
  have := mapL_length hbs
  have h2 := h.1
  rintro h0
  rw [List.map_eq_nil_iff] at h0
  subst h0
  simp at this
  simp [this] at h2

theorem sMul_val {c : Option K} (hc : c ≠ some 0) (a : Node (Option K)) (σ : Env (Option K)) :
    ∀ {e n m}, sMul c a n = .ok (e, m) → e.evaluate σ = (c *. a.evaluate σ) := by
  have hz : (c ==. zero) = false := by
    cases h : (c ==. zero)
    · rfl
    · rw [zero_def, eq_zero_iff] at h; exact absurd h hc
  have gen : ∀ {a e : Node (Option K)} {n m}, 
      (if c ==. zero then newConst zero else if c ==. one then M.pure a
        else M.bind (newConst c) fun k => newMul k a) n = .ok (e, m) → e.evaluate σ = (c *. a.evaluate σ) := by
    intro a e n m h
    simp only [hz, Bool.false_eq_true, if_false] at h
    split at h
    · rename_i h1
      rw [one_def, eq_one_iff] at h1
      rw [M.pure_ok] at h
      simp [h.1, h1]
    · simp only [M.bind_ok, newConst_ok, newMul_eq] at h
      obtain ⟨k, n', hk, h⟩ := h
      simp only [Except.ok.injEq, Prod.mk.injEq] at h
      rw [← h.1, hk.1]
      simp [Node.evaluate]
  induction a using Node.ind with
  | const i v => intro e n m h; simp only [sMul, newConst_ok] at h; simp [h.1, Node.evaluate]
  | add i args ih =>
    intro e n m h
    simp only [sMul, hz, Bool.false_eq_true, if_false] at h
    split at h
    · rename_i h1
      rw [one_def, eq_one_iff] at h1
      rw [M.pure_ok] at h
      simp [h.1, h1]
    · rw [sMulL_eq_mapL] at h
      exact distribute_val σ h fun a ha b n m => ih a ha
  | var i s k => exact gen
  | cos i a ih => exact gen
  | div i a b iha ihb => exact gen
  | mul i a b iha ihb => exact gen
  | sin i a ih => exact gen

theorem mulS_val {c : Option K} (hc : c ≠ some 0) (a : Node (Option K)) (σ : Env (Option K)) :
    ∀ {e n m}, mulS c a n = .ok (e, m) → e.evaluate σ = (a.evaluate σ *. c) := by
  have hz : (c ==. zero) = false := by
    cases h : (c ==. zero)
    · rfl
    · rw [zero_def, eq_zero_iff] at h; exact absurd h hc
  simp only [omul_comm _ c]
  have gen : ∀ {a e : Node (Option K)} {n m}, 
      (if c ==. zero then newConst zero else if c ==. one then M.pure a
        else M.bind (newConst c) fun k => newMul a k) n = .ok (e, m) → e.evaluate σ = (c *. a.evaluate σ) := by
    intro a e n m h
    simp only [hz, Bool.false_eq_true, if_false] at h
    split at h
    · rename_i h1
      rw [one_def, eq_one_iff] at h1
      rw [M.pure_ok] at h
      simp [h.1, h1]
    · simp only [M.bind_ok, newConst_ok, newMul_eq] at h
      obtain ⟨k, n', hk, h⟩ := h
      simp only [Except.ok.injEq, Prod.mk.injEq] at h
      rw [← h.1, hk.1]
      simp [Node.evaluate, omul_comm]
  induction a using Node.ind with
  | const i v => intro e n m h; simp only [mulS, newConst_ok] at h; simp [h.1, Node.evaluate, omul_comm]
  | add i args ih =>
    intro e n m h
    simp only [mulS, hz, Bool.false_eq_true, if_false] at h
    split at h
    · rename_i h1
      rw [one_def, eq_one_iff] at h1
      rw [M.pure_ok] at h
      simp [h.1, h1]
    · rw [mulSL_eq_mapL] at h
      exact distribute_val σ h fun a ha b n m => ih a ha
  | var i s k => exact gen
  | cos i a ih => exact gen
  | div i a b iha ihb => exact gen
  | mul i a b iha ihb => exact gen
  | sin i a ih => exact gen

theorem mulCL_val {i : Nat} {c : K} (hc : c ≠ 0) (a : Node (Option K)) (σ : Env (Option K)) :
    ∀ {e n m}, mulCL i (some c) a n = .ok (e, m) → e.evaluate σ = (some c *. a.evaluate σ) := by
  have hz : ((some c : Option K) ==. zero) = false := by simpa using hc
  have gen : ∀ {a e : Node (Option K)} {n m}, 
      (if some c ==. zero then newConst zero else if some c ==. one then M.pure a
        else newMul (.const i (some c)) a) n = .ok (e, m) → e.evaluate σ = (some c *. a.evaluate σ) := by
    intro a e n m h
    simp only [hz, Bool.false_eq_true, if_false] at h
    split at h
    · rename_i h1
      rw [one_def, eq_one_iff] at h1
      rw [M.pure_ok] at h
      simp [h.1, h1]
    · simp only [newMul_eq, Except.ok.injEq, Prod.mk.injEq] at h
      rw [← h.1]
      simp [Node.evaluate]
  induction a using Node.ind with
  | const j v =>
    intro e n m h
    simp only [mulCL, hz, Bool.false_or] at h
    split at h
    · rename_i h1
      rw [zero_def, eq_zero_iff] at h1
      simp [newConst_ok] at h
      simp [← h.1, Node.evaluate, h1]
    · split at h
      · rename_i h1
        rw [one_def, eq_one_iff] at h1
        rw [M.pure_ok] at h
        simp [h.1, h1]
      · split at h
        · rename_i h1
          rw [one_def, eq_one_iff] at h1
          rw [M.pure_ok] at h
          simp [h.1, h1, Node.evaluate]
        · rw [newConst_ok] at h
          simp [h.1, Node.evaluate]
  | add j args ih =>
    intro e n m h
    simp only [mulCL, hz, Bool.false_eq_true, if_false] at h
    split at h
    · rename_i h1
      rw [one_def, eq_one_iff] at h1
      rw [M.pure_ok] at h
      simp [h.1, h1]
    · rw [mulCLL_eq_mapL] at h
      exact distribute_val σ h fun a ha b n m => ih a ha
  | var i s k => exact gen
  | cos i a ih => exact gen
  | div i a b iha ihb => exact gen
  | mul i a b iha ihb => exact gen
  | sin i a ih => exact gen

theorem mulCR_val {i : Nat} {c : K} (hc : c ≠ 0) (a : Node (Option K)) (σ : Env (Option K)) :
    ∀ {e n m}, mulCR i (some c) a n = .ok (e, m) → e.evaluate σ = (a.evaluate σ *. some c) := by
  have hz : ((some c : Option K) ==. zero) = false := by simpa using hc
  simp only [omul_comm _ (some c)]
  have gen : ∀ {a e : Node (Option K)} {n m}, 
      (if some c ==. zero then newConst zero else if some c ==. one then M.pure a
        else newMul a (.const i (some c))) n = .ok (e, m) → e.evaluate σ = (some c *. a.evaluate σ) := by
    intro a e n m h
    simp only [hz, Bool.false_eq_true, if_false] at h
    split at h
    · rename_i h1
      rw [one_def, eq_one_iff] at h1
      rw [M.pure_ok] at h
      simp [h.1, h1]
    · simp only [newMul_eq, Except.ok.injEq, Prod.mk.injEq] at h
      rw [← h.1]
      simp [Node.evaluate, omul_comm]
  induction a using Node.ind with
  | const j v =>
    intro e n m h
    simp only [mulCR, hz, Bool.or_false] at h
    split at h
    · rename_i h1
      rw [zero_def, eq_zero_iff] at h1
      simp [newConst_ok] at h
      simp [← h.1, Node.evaluate, h1]
    · split at h
      · rename_i h1
        rw [one_def, eq_one_iff] at h1
        rw [M.pure_ok] at h
        simp [h.1, h1, Node.evaluate]
      · split at h
        · rename_i h1
          rw [one_def, eq_one_iff] at h1
          rw [M.pure_ok] at h
          simp [h.1, h1, Node.evaluate]
        · rw [newConst_ok] at h
          simp [h.1, Node.evaluate, omul_comm]
  | add j args ih =>
    intro e n m h
    simp only [mulCR, hz, Bool.false_eq_true, if_false] at h
    split at h
    · rename_i h1
      rw [one_def, eq_one_iff] at h1
      rw [M.pure_ok] at h
      simp [h.1, h1]
    · rw [mulCRL_eq_mapL] at h
      exact distribute_val σ h fun a ha b n m => ih a ha
  | var i s k => exact gen
  | cos i a ih => exact gen
  | div i a b iha ihb => exact gen
  | mul i a b iha ihb => exact gen
  | sin i a ih => exact gen

theorem mulN_const_left (i : Nat) (c : Option K) (b : Node (Option K)) : mulN (.const i c) b = mulCL i c b := by
  cases b <;> rfl

theorem mulN_const_right (j : Nat) (c : Option K) (a : Node (Option K)) : mulN a (.const j c) = mulCR j c a := by
  cases a <;> simp [mulN, mulCL, mulCR]

theorem mulN_nonconst {a b : Node (Option K)} (ha : a.isConstant = false) (hb : b.isConstant = false) :
    mulN a b = newMul a b := by
  cases a <;> cases b <;> simp_all [mulN, Node.isConstant]

theorem mulN_zero_left {i : Nat} {b e : Node (Option K)} {n m : Nat}
    (h : mulN (.const i (some 0)) b n = .ok (e, m)) : e.isConstVal (some 0) = true := by
  rw [mulN_unfold] at h
  simp [Node.isConstVal, newConst_ok] at h
  simp [← h.1, Node.isConstVal]

theorem mulN_zero_right {j : Nat} {a e : Node (Option K)} {n m : Nat}
    (h : mulN a (.const j (some 0)) n = .ok (e, m)) : e.isConstVal (some 0) = true := by
  rw [mulN_unfold] at h
  simp [Node.isConstVal, newConst_ok] at h
  simp [← h.1, Node.isConstVal]

/-- Value of a product: the product of the values, when neither operand is the constant zero or a NaN constant. -/
theorem mulN_val {a b e : Node (Option K)} {n m : Nat} (h : mulN a b n = .ok (e, m))
    (ha : ∀ i c, a = .const i c → c ≠ some 0 ∧ c ≠ none) (hb : ∀ i c, b = .const i c → c ≠ some 0 ∧ c ≠ none)
    (σ : Env (Option K)) : e.evaluate σ = (a.evaluate σ *. b.evaluate σ) := by
  by_cases hac : ∃ i c, a = .const i c
  · obtain ⟨i, c, rfl⟩ := hac
    obtain ⟨h1, h2⟩ := ha i c rfl
    obtain ⟨c', rfl⟩ := Option.ne_none_iff_exists'.1 h2
    rw [mulN_const_left] at h
    exact mulCL_val (by simpa using h1) b σ h
  · by_cases hbc : ∃ i c, b = .const i c
    · obtain ⟨i, c, rfl⟩ := hbc
      obtain ⟨h1, h2⟩ := hb i c rfl
      obtain ⟨c', rfl⟩ := Option.ne_none_iff_exists'.1 h2
      rw [mulN_const_right] at h
      exact mulCR_val (by simpa using h1) a σ h
    · rw [mulN_nonconst] at h
      · simp only [newMul_eq, Except.ok.injEq, Prod.mk.injEq] at h
        rw [← h.1]; rfl
      · cases a <;> simp_all [Node.isConstant]
      · cases b <;> simp_all [Node.isConstant]

/-- Value of a product of defined operands. -/
theorem mulN_some {a b e : Node (Option K)} {n m : Nat} (h : mulN a b n = .ok (e, m)) {σ : Env (Option K)} {x y : K}
    (ha : a.evaluate σ = some x) (hb : b.evaluate σ = some y) : e.evaluate σ = some (x * y) := by
  by_cases ha0 : ∃ i, a = .const i (some 0)
  · obtain ⟨i, rfl⟩ := ha0
    obtain ⟨j, rfl⟩ := isConstVal_eval (mulN_zero_left h)
    simp [Node.evaluate] at ha ⊢
    exact Or.inl ha.symm
  · by_cases hb0 : ∃ i, b = .const i (some 0)
    · obtain ⟨i, rfl⟩ := hb0
      obtain ⟨j, rfl⟩ := isConstVal_eval (mulN_zero_right h)
      simp [Node.evaluate] at hb ⊢
      exact Or.inr hb.symm
    · rw [mulN_val h _ _ σ, ha, hb]; rfl
      · rintro i c rfl
        simp [Node.evaluate] at ha
        subst ha
        simp at ha0 ⊢
        exact ha0
      · rintro i c rfl
        simp [Node.evaluate] at hb
        subst hb
        simp at hb0 ⊢
        exact hb0

theorem sMul_some {c x : K} {a e : Node (Option K)} {n m : Nat} (h : sMul (some c) a n = .ok (e, m))
    {σ : Env (Option K)} (ha : a.evaluate σ = some x) : e.evaluate σ = some (c * x) := by
  by_cases hc : c = 0
  · subst hc
    rw [sMul_unfold] at h
    simp at h
    cases a <;> simp only [newConst_ok] at h <;> simp [h.1, Node.evaluate]
    simp [Node.evaluate] at ha
    subst ha
    simp
  · rw [sMul_val (by simpa using hc) a σ h, ha]; rfl

theorem mulS_some {c x : K} {a e : Node (Option K)} {n m : Nat} (h : mulS (some c) a n = .ok (e, m))
    {σ : Env (Option K)} (ha : a.evaluate σ = some x) : e.evaluate σ = some (x * c) := by
  by_cases hc : c = 0
  · subst hc
    rw [mulS_unfold] at h
    simp at h
    cases a <;> simp only [newConst_ok] at h <;> simp [h.1, Node.evaluate]
    simp [Node.evaluate] at ha
    subst ha
    simp
  · rw [mulS_val (by simpa using hc) a σ h, ha]; rfl

theorem negN_val {a e : Node (Option K)} {n m : Nat} (h : negN a n = .ok (e, m)) (σ : Env (Option K)) :
    e.evaluate σ = FloatOps.neg (a.evaluate σ) := by
  have key : ∀ v : Option K, (some (-1) *. v) = FloatOps.neg v := by intro v; cases v <;> simp
  have hs : ∀ {a e : Node (Option K)} {n m}, sMul negOne a n = .ok (e, m) → e.evaluate σ = FloatOps.neg (a.evaluate σ) := by
    intro a e n m h
    rw [sMul_val (by simp) a σ h, negOne_def, key]
  cases a
  case const i v => simp only [negN, newConst_ok] at h; simp [h.1, Node.evaluate, key]
  all_goals exact hs h

theorem subN_val {a b e : Node (Option K)} {n m : Nat} (h : subN a b n = .ok (e, m)) (σ : Env (Option K)) :
    e.evaluate σ = (a.evaluate σ -. b.evaluate σ) := by
  simp only [subN, M.bind_ok] at h
  obtain ⟨nb, k, h1, h2⟩ := h
  rw [addN_val h2, sMul_val (by simp) b σ h1, osub_eq]; rfl

theorem subS_val {a e : Node (Option K)} {c : Option K} {n m : Nat} (h : subS a c n = .ok (e, m)) (σ : Env (Option K)) :
    e.evaluate σ = (a.evaluate σ -. c) := by
  simp only [subS, M.bind_ok, newConst_ok] at h
  obtain ⟨k, n1, ⟨rfl, rfl⟩, nb, n2, h1, h2⟩ := h
  rw [addN_val h2, sMul_val (by simp) _ σ h1, osub_eq]; rfl

theorem sSub_val {b e : Node (Option K)} {c : Option K} {n m : Nat} (h : sSub c b n = .ok (e, m)) (σ : Env (Option K)) :
    e.evaluate σ = (c -. b.evaluate σ) := by
  simp only [sSub, M.bind_ok, newConst_ok] at h
  obtain ⟨k, n1, ⟨rfl, rfl⟩, nb, n2, h1, h2⟩ := h
  rw [addN_val h2, sMul_val (by simp) _ σ h1, osub_eq]; rfl

theorem odiv_one (a : Option K) : (a /. some 1) = a := by
  cases a <;> simp [div_some]

theorem isConstant_iff {a : Node (Option K)} : a.isConstant = true ↔ ∃ i c, a = .const i c := by
  cases a <;> simp [Node.isConstant]

/-- Value of a quotient: the quotient of the values, unless the numerator is the constant zero. -/
theorem divN_val {a b e : Node (Option K)} {n m : Nat} (h : divN a b n = .ok (e, m)) (ha : a.isConstVal (some 0) = false)
    (σ : Env (Option K)) : e.evaluate σ = (a.evaluate σ /. b.evaluate σ) := by
  unfold divN at h
  split at h
  · simp [M.panic_ok] at h
  · split at h
    · rename_i h1
      obtain ⟨j, rfl⟩ := isConstVal_eval h1
      rw [M.pure_ok] at h
      simp [h.1, Node.evaluate, odiv_one]
    · simp only [zero_def, ha, Bool.false_eq_true, if_false] at h
      split at h
      · rename_i hc
        simp only [Bool.and_eq_true, isConstant_iff] at hc
        obtain ⟨⟨i, c, rfl⟩, ⟨j, d, rfl⟩⟩ := hc
        rw [newConst_ok] at h
        simp [h.1, Node.evaluate]
      · simp only [newDiv_eq, Except.ok.injEq, Prod.mk.injEq] at h
        rw [← h.1]; rfl

theorem divN_some {a b e : Node (Option K)} {n m : Nat} (h : divN a b n = .ok (e, m)) {σ : Env (Option K)} {x y : K}
    (ha : a.evaluate σ = some x) (hb : b.evaluate σ = some y) (hy : y ≠ 0) : e.evaluate σ = some (x / y) := by
  by_cases h0 : a.isConstVal (some 0) = true
  · obtain ⟨i, rfl⟩ := isConstVal_eval h0
    simp [Node.evaluate] at ha
    subst ha
    unfold divN at h
    split at h
    · simp [M.panic_ok] at h
    · split at h
      · rw [M.pure_ok] at h
        simp [h.1, Node.evaluate]
      · simp [Node.isConstVal, newConst_ok] at h
        simp [← h.1, Node.evaluate]
  · rw [divN_val h (by simpa using h0) σ, ha, hb, div_some_ne _ hy]

theorem divS_val {a e : Node (Option K)} {c : Option K} {n m : Nat} (h : divS a c n = .ok (e, m))
    (ha : a.isConstVal (some 0) = false) (σ : Env (Option K)) : e.evaluate σ = (a.evaluate σ /. c) := by
  unfold divS at h
  split at h
  · simp [M.panic_ok] at h
  · split at h
    · rename_i h1
      rw [one_def, eq_one_iff] at h1
      rw [M.pure_ok] at h
      simp [h.1, h1, odiv_one]
    · simp only [zero_def, ha, Bool.false_eq_true, if_false] at h
      split at h
      · rename_i hc
        rw [isConstant_iff] at hc
        obtain ⟨i, c, rfl⟩ := hc
        rw [newConst_ok] at h
        simp [h.1, Node.evaluate]
      · simp only [M.bind_ok, newConst_ok, newDiv_eq, Except.ok.injEq, Prod.mk.injEq] at h
        obtain ⟨k, n1, ⟨rfl, rfl⟩, h, _⟩ := h
        rw [← h]; rfl

theorem divS_some {a e : Node (Option K)} {c : K} {n m : Nat} (h : divS a (some c) n = .ok (e, m)) {σ : Env (Option K)}
    {x : K} (ha : a.evaluate σ = some x) : c ≠ 0 ∧ e.evaluate σ = some (x / c) := by
  have hc : c ≠ 0 := by
    rintro rfl
    simp [divS, M.panic_ok] at h
  refine ⟨hc, ?_⟩
  by_cases h0 : a.isConstVal (some 0) = true
  · obtain ⟨i, rfl⟩ := isConstVal_eval h0
    simp [Node.evaluate] at ha
    subst ha
    unfold divS at h
    split at h
    · simp [M.panic_ok] at h
    · split at h
      · rw [M.pure_ok] at h
        simp [h.1, Node.evaluate]
      · simp [Node.isConstVal, newConst_ok] at h
        simp [← h.1, Node.evaluate]
  · rw [divS_val h (by simpa using h0) σ, ha, div_some_ne _ hc]

theorem sDiv_val {b e : Node (Option K)} {c : Option K} {n m : Nat} (h : sDiv c b n = .ok (e, m))
    (hc : c ≠ some 0) (σ : Env (Option K)) : e.evaluate σ = (c /. b.evaluate σ) := by
  unfold sDiv at h
  split at h
  · simp [M.panic_ok] at h
  · split at h
    · rename_i h1
      obtain ⟨j, rfl⟩ := isConstVal_eval h1
      rw [newConst_ok] at h
      simp [h.1, Node.evaluate, odiv_one]
    · split at h
      · rename_i h1
        rw [zero_def, eq_zero_iff] at h1
        exact absurd h1 hc
      · split at h
        · rename_i hc
          rw [isConstant_iff] at hc
          obtain ⟨i, c, rfl⟩ := hc
          rw [newConst_ok] at h
          simp [h.1, Node.evaluate]
        · simp only [M.bind_ok, newConst_ok, newDiv_eq, Except.ok.injEq, Prod.mk.injEq] at h
          obtain ⟨k, n1, ⟨rfl, rfl⟩, h, _⟩ := h
          rw [← h]; rfl

theorem sDiv_some {b e : Node (Option K)} {c y : K} {n m : Nat} (h : sDiv (some c) b n = .ok (e, m)) {σ : Env (Option K)}
    (hb : b.evaluate σ = some y) (hy : y ≠ 0) : e.evaluate σ = some (c / y) := by
  by_cases hc : c = 0
  · subst hc
    unfold sDiv at h
    split at h
    · simp [M.panic_ok] at h
    · split at h
      · rw [newConst_ok] at h
        simp [h.1, Node.evaluate]
      · simp [newConst_ok] at h
        simp [← h.1, Node.evaluate]
  · rw [sDiv_val h (by simpa using hc) σ, hb, div_some_ne _ hy]

theorem cosN_val {a e : Node (Option K)} {n m : Nat} (h : cosN a n = .ok (e, m)) (σ : Env (Option K)) :
    e.evaluate σ = FloatOps.cos (a.evaluate σ) := by
  cases a <;> simp only [cosN, newConst_ok, newCos_eq, Except.ok.injEq, Prod.mk.injEq] at h <;>
    first
      | (rw [h.1]; rfl)
      | (rw [← h.1]; rfl)

theorem sinN_val {a e : Node (Option K)} {n m : Nat} (h : sinN a n = .ok (e, m)) (σ : Env (Option K)) :
    e.evaluate σ = FloatOps.sin (a.evaluate σ) := by
  cases a <;> simp only [sinN, newConst_ok, newSin_eq, Except.ok.injEq, Prod.mk.injEq] at h <;>
    first
      | (rw [h.1]; rfl)
      | (rw [← h.1]; rfl)

end Exact

end Verif
