import Verif.Proofs.Reach

/-! # Which operations can panic -/

set_option linter.unusedSectionVars false
set_option linter.unusedSimpArgs false

namespace Verif

variable {F : Type} [FloatOps F]

/-- The computation returns normally from every state. -/
def Total {α : Type} (x : M α) : Prop := ∀ n, ∃ a m, x n = .ok (a, m)

/-- The only panic is the assertion of `FunctionAdd::new`. -/
def OnlyAdd {α : Type} (x : M α) : Prop := ∀ n p, x n = .error p → p = .addArgs

theorem Total.onlyAdd {α : Type} {x : M α} (h : Total x) : OnlyAdd x := by
  intro n p hp
  obtain ⟨a, m, ha⟩ := h n
  rw [hp] at ha; cases ha

theorem Total.pure {α : Type} (a : α) : Total (M.pure a) := fun n => ⟨a, n, rfl⟩

theorem Total.bind {α β : Type} {x : M α} {f : α → M β} (hx : Total x)
    (hf : ∀ a n m, x n = .ok (a, m) → Total (f a)) : Total (M.bind x f) := by
  intro n
  obtain ⟨a, m, ha⟩ := hx n
  obtain ⟨b, k, hb⟩ := hf a n m ha m
  exact ⟨b, k, by rw [M.bind_ok_eq ha, hb]⟩

theorem OnlyAdd.bind {α β : Type} {x : M α} {f : α → M β} (hx : OnlyAdd x)
    (hf : ∀ a n m, x n = .ok (a, m) → OnlyAdd (f a)) : OnlyAdd (M.bind x f) := by
  intro n p hp
  rw [M.bind_error] at hp
  rcases hp with hp | ⟨a, k, ha, hp⟩
  · exact hx n p hp
  · exact hf a n k ha k p hp

theorem total_newConst (v : F) : Total (newConst v) := fun n => ⟨_, _, newConst_eq v n⟩
theorem total_newMul (a b : Node F) : Total (newMul a b) := fun n => ⟨_, _, newMul_eq a b n⟩
theorem total_newDiv (a b : Node F) : Total (newDiv a b) := fun n => ⟨_, _, newDiv_eq a b n⟩
theorem total_newCos (a : Node F) : Total (newCos a) := fun n => ⟨_, _, newCos_eq a n⟩
theorem total_newSin (a : Node F) : Total (newSin a) := fun n => ⟨_, _, newSin_eq a n⟩
theorem total_newAdd {args : List (Node F)} (h : 2 ≤ args.length) : Total (newAdd args) :=
  fun n => ⟨_, _, by rw [newAdd_eq, if_pos h]⟩
theorem onlyAdd_newAdd (args : List (Node F)) : OnlyAdd (newAdd args) := fun _ _ h => (newAdd_error.1 h).2

theorem total_mapL {α β : Type} {f : α → M β} {as : List α} (h : ∀ a ∈ as, Total (f a)) : Total (M.mapL f as) := by
  induction as with
  | nil => exact Total.pure _
  | cons a as ih =>
    exact (h a (by simp)).bind fun b _ _ _ => (ih fun a ha => h a (by simp [ha])).bind fun bs _ _ _ => Total.pure _

theorem onlyAdd_mapL {α β : Type} {f : α → M β} {as : List α} (h : ∀ a ∈ as, OnlyAdd (f a)) : OnlyAdd (M.mapL f as) := by
  induction as with
  | nil => exact (Total.pure _).onlyAdd
  | cons a as ih =>
    exact (h a (by simp)).bind fun b _ _ _ => (ih fun a ha => h a (by simp [ha])).bind fun bs _ _ _ => (Total.pure _).onlyAdd

/-- Every sum inside the expression has at least two arguments (always true of nodes the program can hold). -/
def SumsOk (e : Node F) : Prop := ∀ i args, Occurs (.add i args) e → 2 ≤ args.length

theorem SumsOk.arg {e a : Node F} (h : SumsOk e) (ha : a ∈ e.arguments) : SumsOk a :=
  fun i args ho => h i args (.arg ha ho)

theorem Good.sumsOk {l : Level} {h : Heap F} {e : Node F} (hg : Good l h e) : SumsOk e :=
  fun i args ho => ((hg _ ho).2).1

theorem total_distribute {f : Node F → M (Node F)} {i : Nat} {args : List (Node F)} (h : SumsOk (.add i args))
    (hf : ∀ a ∈ args, Total (f a)) : Total (M.bind (M.mapL f args) newAdd) := by
  refine (total_mapL hf).bind fun bs n m hbs => total_newAdd ?_
  rw [mapL_length hbs]
  exact h i args (.refl _)

theorem total_sMul (c : F) (a : Node F) (h : SumsOk a) : Total (sMul c a) := by
  have gen : ∀ a : Node F, Total (if c ==. zero then newConst zero else if c ==. one then M.pure a
        else M.bind (newConst c) fun k => newMul k a) := by
    intro a; split
    · exact total_newConst _
    · split
      · exact Total.pure _
      · exact (total_newConst _).bind fun _ _ _ _ => total_newMul _ _
  induction a using Node.ind with
  | const i v => exact total_newConst _
  | add i args ih =>
    simp only [sMul]
    split
    · exact total_newConst _
    · split
      · exact Total.pure _
      · rw [sMulL_eq_mapL]
        exact total_distribute h fun a ha => ih a ha (h.arg (by simpa [Node.arguments] using ha))
  | var i s k => exact gen _
  | cos i a ih => exact gen _
  | div i a b iha ihb => exact gen _
  | mul i a b iha ihb => exact gen _
  | sin i a ih => exact gen _

theorem total_mulS (c : F) (a : Node F) (h : SumsOk a) : Total (mulS c a) := by
  have gen : ∀ a : Node F, Total (if c ==. zero then newConst zero else if c ==. one then M.pure a
        else M.bind (newConst c) fun k => newMul a k) := by
    intro a; split
    · exact total_newConst _
    · split
      · exact Total.pure _
      · exact (total_newConst _).bind fun _ _ _ _ => total_newMul _ _
  induction a using Node.ind with
  | const i v => exact total_newConst _
  | add i args ih =>
    simp only [mulS]
    split
    · exact total_newConst _
    · split
      · exact Total.pure _
      · rw [mulSL_eq_mapL]
        exact total_distribute h fun a ha => ih a ha (h.arg (by simpa [Node.arguments] using ha))
  | var i s k => exact gen _
  | cos i a ih => exact gen _
  | div i a b iha ihb => exact gen _
  | mul i a b iha ihb => exact gen _
  | sin i a ih => exact gen _

theorem total_mulCL (i : Nat) (c : F) (a : Node F) (h : SumsOk a) : Total (mulCL i c a) := by
  have gen : ∀ a : Node F, Total (if c ==. zero then newConst zero else if c ==. one then M.pure a
        else newMul (.const i c) a) := by
    intro a; split
    · exact total_newConst _
    · split
      · exact Total.pure _
      · exact total_newMul _ _
  induction a using Node.ind with
  | const j v =>
    simp only [mulCL]
    split
    · exact total_newConst _
    · split
      · exact Total.pure _
      · split
        · exact Total.pure _
        · exact total_newConst _
  | add i args ih =>
    simp only [mulCL]
    split
    · exact total_newConst _
    · split
      · exact Total.pure _
      · rw [mulCLL_eq_mapL]
        exact total_distribute h fun a ha => ih a ha (h.arg (by simpa [Node.arguments] using ha))
  | var i s k => exact gen _
  | cos i a ih => exact gen _
  | div i a b iha ihb => exact gen _
  | mul i a b iha ihb => exact gen _
  | sin i a ih => exact gen _

theorem total_mulCR (i : Nat) (c : F) (a : Node F) (h : SumsOk a) : Total (mulCR i c a) := by
  have gen : ∀ a : Node F, Total (if c ==. zero then newConst zero else if c ==. one then M.pure a
        else newMul a (.const i c)) := by
    intro a; split
    · exact total_newConst _
    · split
      · exact Total.pure _
      · exact total_newMul _ _
  induction a using Node.ind with
  | const j v =>
    simp only [mulCR]
    split
    · exact total_newConst _
    · split
      · exact Total.pure _
      · split
        · exact Total.pure _
        · exact total_newConst _
  | add i args ih =>
    simp only [mulCR]
    split
    · exact total_newConst _
    · split
      · exact Total.pure _
      · rw [mulCRL_eq_mapL]
        exact total_distribute h fun a ha => ih a ha (h.arg (by simpa [Node.arguments] using ha))
  | var i s k => exact gen _
  | cos i a ih => exact gen _
  | div i a b iha ihb => exact gen _
  | mul i a b iha ihb => exact gen _
  | sin i a ih => exact gen _

theorem total_mulN (a b : Node F) (ha : SumsOk a) (hb : SumsOk b) : Total (mulN a b) := by
  rcases mulN_cases a b with ⟨i, c, rfl, he⟩ | ⟨j, c, rfl, he⟩ | ⟨_, _, he⟩ <;> rw [he]
  · exact total_mulCL _ _ _ hb
  · exact total_mulCR _ _ _ ha
  · exact total_newMul _ _

theorem total_negN (a : Node F) (ha : SumsOk a) : Total (negN a) := by
  rcases negN_cases a with ⟨i, v, rfl, he⟩ | ⟨_, he⟩ <;> rw [he]
  · exact total_newConst _
  · exact total_sMul _ _ ha

theorem total_cosN (a : Node F) : Total (cosN a) := by
  cases a
  case const => exact total_newConst _
  all_goals exact total_newCos _

theorem total_sinN (a : Node F) : Total (sinN a) := by
  cases a
  case const => exact total_newConst _
  all_goals exact total_newSin _

theorem total_divN {a b : Node F} (hb : b.isConstVal zero = false) : Total (divN a b) := by
  unfold divN
  rw [hb]
  simp only [Bool.false_eq_true, if_false]
  split
  · exact Total.pure _
  · split
    · exact total_newConst _
    · split
      · exact total_newConst _
      · exact total_newDiv _ _

theorem total_divS {a : Node F} {c : F} (hc : (c ==. zero) = false) : Total (divS a c) := by
  unfold divS
  rw [hc]
  simp only [Bool.false_eq_true, if_false]
  split
  · exact Total.pure _
  · split
    · exact total_newConst _
    · split
      · exact total_newConst _
      · exact (total_newConst _).bind fun _ _ _ _ => total_newDiv _ _

theorem total_sDiv {b : Node F} {c : F} (hb : b.isConstVal zero = false) : Total (sDiv c b) := by
  unfold sDiv
  rw [hb]
  simp only [Bool.false_eq_true, if_false]
  split
  · exact total_newConst _
  · split
    · exact total_newConst _
    · split
      · exact total_newConst _
      · exact (total_newConst _).bind fun _ _ _ _ => total_newDiv _ _

/-! ### Addition: the exact condition -/

/-- Non-constant terms of an operand: the non-constant arguments of a sum, the operand itself, nothing for a constant. -/
def terms : Node F → List (Node F)
  | .const .. => []
  | .add _ args => args.filter fun a => !a.isConstant
  | a => [a]

/-- Running sum of the constant terms of an operand, as the operators accumulate it. -/
def addConsts (c : F) : Node F → F
  | .const _ v => c +. v
  | .add _ args => args.foldl (fun c a => match a with | .const _ v => c +. v | _ => c) c
  | _ => c

theorem gatherArgs_terms (acc : F × List (Node F)) (xs : List (Node F)) :
    gatherArgs acc xs = (xs.foldl (fun c a => match a with | .const _ v => c +. v | _ => c) acc.1,
      acc.2 ++ xs.filter fun a => !a.isConstant) := by
  induction xs generalizing acc with
  | nil => simp [gatherArgs]
  | cons x xs ih => cases x <;> simp [gatherArgs, ih, Node.isConstant]

theorem gather_terms (acc : F × List (Node F)) (a : Node F) :
    gather acc a = (addConsts acc.1 a, acc.2 ++ terms a) := by
  cases a <;> simp [gather, addConsts, terms, gatherArgs_terms]

theorem finishAdd_error {acc : F × List (Node F)} {n : Nat} {p : Panic} :
    finishAdd acc n = .error p ↔ acc.2.length = 1 ∧ (acc.1 ==. zero) = true ∧ p = .addArgs := by
  obtain ⟨c, args⟩ := acc
  unfold finishAdd
  cases args with
  | nil => simp
  | cons x xs =>
    simp only [List.isEmpty_cons, Bool.false_eq_true, if_false]
    cases hc : (c ==. zero)
    · simp only [Bool.not_false, if_true, M.bind_error, newConst_eq, reduceCtorEq, false_or, newAdd_error]
      simp
    · simp [newAdd_error]

theorem addN_error {a b : Node F} {n : Nat} {p : Panic} :
    addN a b n = .error p ↔ a.isConstVal zero = false ∧ b.isConstVal zero = false ∧
      (terms a ++ terms b).length = 1 ∧ (addConsts (addConsts zero a) b ==. zero) = true ∧ p = .addArgs := by
  unfold addN
  cases ha : a.isConstVal zero
  · cases hb : b.isConstVal zero
    · simp only [Bool.false_eq_true, if_false, finishAdd_error, gather_terms, List.nil_append, true_and]
    · simp [M.pure]
  · simp [M.pure]

theorem onlyAdd_addN (a b : Node F) : OnlyAdd (addN a b) := fun _ _ h => (addN_error.1 h).2.2.2.2

/-! ### Derivatives -/

/-- No divisor inside the expression is the constant zero, and sums have two arguments. -/
def DivOk (e : Node F) : Prop := SumsOk e ∧ ∀ i a b, Occurs (.div i a b) e → b.isConstVal zero = false

theorem Good.divOk {h : Heap F} {l : Level} (hl : l ≠ .raw) {e : Node F} (hg : Good l h e) : DivOk e :=
  ⟨hg.sumsOk, fun _ _ _ ho => (((hg _ ho).2).1 hl).2⟩

theorem DivOk.sub {e a : Node F} (h : DivOk e) (ha : Occurs a e) : DivOk a :=
  ⟨fun i args ho => h.1 i args (ho.trans ha), fun i x y ho => h.2 i x y (ho.trans ha)⟩

/-- Partial derivatives along an edge to a non-constant argument never panic. -/
theorem total_partialN {a b : Node F} (h : DivOk a) (hb : b ∈ a.arguments) (hc : b.isConstant = false) :
    Total (partialN a b) := by
  have hz : ∀ v : F, Total (newConst v) := total_newConst
  have hso : ∀ x ∈ a.arguments, SumsOk x := fun x hx => h.1.arg hx
  cases a
  case const => exact hz _
  case var => exact hz _
  case add => exact hz _
  case cos i a =>
    simp only [partialN]; split
    · refine (total_sinN _).bind fun s n m hs => total_negN _ ?_
      have : SumsOk a := hso a (by simp [Node.arguments])
      intro j args ho
      rw [occurs_iff] at ho
      cases a
      case const => simp [sinN] at hs; rw [← hs.1] at ho; simp [Node.arguments] at ho
      all_goals
        simp [sinN] at hs
        rw [← hs.1] at ho
        simp [Node.arguments] at ho
        exact this j args ho
    · exact hz _
  case sin i a =>
    simp only [partialN]; split
    · exact total_cosN _
    · exact hz _
  case mul i a c =>
    simp only [partialN]; split
    · exact Total.pure _
    · split
      · exact Total.pure _
      · exact hz _
  case div i a c =>
    have hcz : c.isConstVal zero = false := h.2 i a c (.refl _)
    simp only [partialN]; split
    · exact total_sDiv hcz
    · rename_i hab
      split
      · rename_i hcb
        have hcc : c.isConstant = false := by
          simp only [Node.arguments, List.mem_cons, List.not_mem_nil, or_false] at hb
          rcases hb with rfl | rfl
          · exact absurd (ptrEq_refl b) hab
          · exact hc
        refine (total_negN _ (hso a (by simp [Node.arguments]))).bind fun na _ _ _ => ?_
        have hmul : mulN c c = newMul c c := by
          rcases mulN_cases c c with ⟨i, v, rfl, he⟩ | ⟨j, v, rfl, he⟩ | ⟨_, _, he⟩
          · simp [Node.isConstant] at hcc
          · simp [Node.isConstant] at hcc
          · exact he
        rw [hmul]
        refine (total_newMul _ _).bind fun cc n m hm => total_divN ?_
        rw [newMul_eq] at hm
        cases hm
        rfl
      · exact hz _

/-- A path as the search finds it: every node is an argument of the previous one. -/
def ArgPath : List (Node F) → Prop
  | a :: b :: rest => b ∈ a.arguments ∧ b.isConstant = false ∧ ArgPath (b :: rest)
  | _ => True

theorem dfs_argPath (e : Node F) : ∀ p ∈ dfs e, ArgPath p := by
  induction e using Node.ind_args with
  | step e ih =>
    intro p hp
    rw [dfs_eq] at hp
    split at hp
    · simp at hp; subst hp; trivial
    · simp only [List.mem_map, mem_dfsL] at hp
      obtain ⟨t, ⟨a, ha, ht⟩, rfl⟩ := hp
      have := ih a ha t ht
      have hc : a.isConstant = false := by
        cases a <;> simp_all [Node.isConstant, dfs]
      obtain ⟨t', rfl⟩ := dfs_head ht
      exact ⟨ha, hc, this⟩

theorem onlyAdd_pathProd {l : Level} (hl : l ≠ .raw) {path : List (Node F)} (hp : ArgPath path) :
    ∀ {h : Heap F} {n : Nat} {prod : Node F}, HInv h n → Good l h prod → (∀ y ∈ path, Good l h y) →
      ∃ r, pathProd prod path n = .ok r := by
  induction path with
  | nil => intro h n prod _ _ _; exact ⟨_, rfl⟩
  | cons a path ih =>
    intro h n prod hn hg hpath
    cases path with
    | nil => exact ⟨_, rfl⟩
    | cons b path =>
      obtain ⟨hb, hc, hrest⟩ := hp
      have hga := hpath a (by simp)
      obtain ⟨p, k1, h1⟩ := total_partialN (hga.divOk hl) hb hc n
      obtain ⟨hp1, hle1, hn1, _, hg1⟩ := spec_partialN (b := b) hn hga p k1 h1
      obtain ⟨q, k2, h2⟩ := total_mulN prod p (hg.mono hle1).sumsOk hg1.sumsOk k1
      obtain ⟨hp2, hle2, hn2, _, hg2⟩ := spec_mulN hn1 (hg.mono hle1) hg1 q k2 h2
      obtain ⟨r, hr⟩ := ih hrest hn2 hg2 fun y hy =>
        ((hpath y (by simp only [List.mem_cons] at hy ⊢; exact .inr hy)).mono hle1).mono hle2
      refine ⟨r, ?_⟩
      simp only [pathProd]
      rw [M.bind_ok_eq h1, M.bind_ok_eq h2, hr]

theorem onlyAdd_pathSum {l : Level} (hl : l ≠ .raw) {ps : List (List (Node F))} (hp : ∀ p ∈ ps, ArgPath p) :
    ∀ {h : Heap F} {n : Nat} {d : Node F}, HInv h n → Good l h d → (∀ p ∈ ps, ∀ y ∈ p, Good l h y) →
      ∀ e, pathSum d ps n = .error e → e = .addArgs := by
  induction ps with
  | nil => intro h n d _ _ _ e he; simp [pathSum, M.pure] at he
  | cons p ps ih =>
    intro h n d hn hd hps e he
    simp only [pathSum] at he
    obtain ⟨hp1, hle1, hn1, _, hg1, -, -⟩ := spec_newConst (l := l) (v := (one : F)) hn _ _ (newConst_eq one n)
    rw [M.bind_ok_eq (newConst_eq one n)] at he
    obtain ⟨⟨q, k2⟩, h2⟩ := onlyAdd_pathProd hl (hp p (by simp)) hn1 hg1 fun y hy => (hps p (by simp) y hy).mono hle1
    obtain ⟨hp2, hle2, hn2, _, hg2⟩ := spec_pathProd hn1 hg1 (fun y hy => (hps p (by simp) y hy).mono hle1) q k2 h2
    rw [M.bind_ok_eq h2, M.bind_error] at he
    rcases he with he | ⟨d', k3, h3, he⟩
    · exact onlyAdd_addN _ _ _ _ he
    · obtain ⟨hp3, hle3, hn3, _, hg3⟩ := spec_addN hn2 ((hd.mono hle1).mono hle2) hg2 d' k3 h3
      exact ih (fun p hp' => hp p (by simp [hp'])) hn3 hg3
        (fun p' hp' y hy => (((hps p' (by simp [hp']) y hy).mono hle1).mono hle2).mono hle3) e he

/-- `derivatives` of an expression built with the operators, with respect to variables, can only fail in the assertion of
`FunctionAdd::new`. -/
theorem derivatives_error {H : HashOrder} {e : Node F} {vars : List (Node F)} {n : Nat} {p : Panic} {l : Level}
    (hl : l ≠ .raw) {h : Heap F} (hn : HInv h n) (hg : Good l h e) (hv : ∀ v ∈ vars, v.isVar = true)
    (he : derivatives H e vars n = .error p) : p = .addArgs := by
  have hc : checkVars vars = M.pure () := by
    have : vars.all Node.isVar = true := by simpa using hv
    simp [checkVars, this]
  simp only [derivatives, hc] at he
  rw [M.bind_ok_eq (x := M.pure ()) rfl] at he
  obtain ⟨vs, k2, h2⟩ : ∃ vs k2, H.iter (setOf vars) n = .ok (vs, k2) := ⟨_, _, HashOrder.iter_ok.2 ⟨rfl, rfl⟩⟩
  rw [M.bind_ok_eq h2] at he
  obtain ⟨ps, k3, h3⟩ : ∃ ps k3, allSimplePaths H e vars k2 = .ok (ps, k3) := by
    simp only [allSimplePaths, hc]
    rw [M.bind_ok_eq (x := M.pure ()) rfl, M.bind_ok_eq (HashOrder.iter_ok.2 ⟨rfl, rfl⟩)]
    exact ⟨_, _, rfl⟩
  rw [M.bind_ok_eq h3] at he
  have hpm := HashOrder.iter_perm h2
  rw [HashOrder.iter_ok] at h2
  obtain ⟨-, vs', hp', hk3, rfl⟩ := allSimplePaths_ok h3
  have hnd : NodupP vs' := (setOf_nodup vars).perm hp'.symm
  have hmem : ∀ v ∈ vs, getN (vs'.map fun v => (v, (dfs e).filter (endsAt v))) v = some ((dfs e).filter (endsAt v)) :=
    fun v hv => getN_map hnd (hp'.mem_iff.2 (hpm.mem_iff.1 hv))
  have hn3 : HInv h k3 := fun i hi => hn i (by omega)
  clear h2 h3 hk3 hpm hn
  induction vs generalizing h k3 with
  | nil => simp [M.mapL, M.pure] at he
  | cons v vs ih =>
    simp only [M.mapL] at he
    rw [M.bind_error] at he
    have body : ∀ q, (M.bind (newConst zero) fun d0 =>
        M.bind (unwrapM (getN (vs'.map fun v => (v, (dfs e).filter (endsAt v))) v)) fun ps =>
        M.bind (pathSum d0 ps) fun d => M.pure (v, d)) k3 = q →
        (∀ p, q = .error p → p = .addArgs) ∧ (∀ a m, q = .ok (a, m) → ∃ h' : Heap F, h.le h' ∧ HInv h' m) := by
      intro q hq
      obtain ⟨hp1, hle1, hn1, _, hg1, -, -⟩ := spec_newConst (l := l) (v := (zero : F)) hn3 _ _ (newConst_eq zero k3)
      rw [M.bind_ok_eq (newConst_eq zero k3), hmem v (by simp)] at hq
      rw [M.bind_ok_eq (x := unwrapM (some _)) rfl] at hq
      have hgp : ∀ p ∈ (dfs e).filter (endsAt v), ∀ y ∈ p, Good l hp1 y := fun p hp y hy =>
        (hg.mono hle1).sub (dfs_occurs e p (List.mem_filter.1 hp).1 y hy)
      subst hq
      constructor
      · intro p hp
        rw [M.bind_error] at hp
        rcases hp with hp | ⟨_, _, _, hp⟩
        · exact onlyAdd_pathSum hl (fun p hp => dfs_argPath e p (List.mem_filter.1 hp).1) hn1 hg1 hgp p hp
        · simp [M.pure] at hp
      · intro a m ha
        rw [M.bind_ok] at ha
        obtain ⟨d, k, hd, ha⟩ := ha
        obtain ⟨h', hle', hn', _⟩ := spec_pathSum hn1 hg1 hgp d k hd
        rw [M.pure_ok] at ha
        exact ⟨h', Heap.le_trans hle1 hle', by rw [ha.2]; exact hn'⟩
    rcases he with he | ⟨a, k, ha, he⟩
    · exact (body _ he).1 p rfl
    · obtain ⟨h', hle', hn'⟩ := (body _ ha).2 a k rfl
      rw [M.bind_error] at he
      rcases he with he | ⟨_, _, _, he⟩
      · exact ih (h := h') (hg.mono hle') k he (fun v hv => hmem v (by simp [hv])) hn'
      · simp [M.pure] at he

end Verif
