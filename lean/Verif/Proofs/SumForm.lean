import Verif.Spec.SumForm
import Verif.Proofs.Affine
import Verif.Proofs.Reach

/-! # The form of sums -/

set_option linter.unusedSectionVars false
set_option linter.unusedSimpArgs false

namespace Verif

variable {F : Type}

/-- The node is a sum. -/
def sumB : Node F → Bool
  | .add .. => true
  | _ => false

theorem sumB_false {a : Node F} : sumB a = false ↔ ∀ j bs, a ≠ .add j bs := by
  cases a <;> simp [sumB]

/-- The list of terms of a sum. -/
def FlatArgs (args : List (Node F)) : Prop := (∀ a ∈ args, sumB a = false) ∧ ∀ a ∈ args.dropLast, a.isConstant = false

theorem flat_iff (e : Node F) : FlatSums e ↔ (∀ i args, e = .add i args → FlatArgs args) ∧ ∀ a ∈ e.arguments, FlatSums a := by
  constructor
  · intro h
    refine ⟨?_, fun a ha i args ho => h i args (.arg ha ho)⟩
    rintro i args rfl
    obtain ⟨h1, h2⟩ := h i args (.refl _)
    exact ⟨fun a ha => sumB_false.2 (h1 a ha), h2⟩
  · rintro ⟨h1, h2⟩ i args ho
    cases ho with
    | refl =>
      obtain ⟨h3, h4⟩ := h1 i args rfl
      exact ⟨fun a ha => sumB_false.1 (h3 a ha), h4⟩
    | arg ha ho => exact h2 _ ha i args ho

theorem flat_const (i : ℕ) (v : F) : FlatSums (.const i v) := (flat_iff _).2 ⟨by simp, by simp [Node.arguments]⟩
theorem flat_var (i : ℕ) (s : String) (k : VarKind) : FlatSums (.var i s k : Node F) := (flat_iff _).2 ⟨by simp, by simp [Node.arguments]⟩
theorem flat_add {i : ℕ} {args : List (Node F)} : FlatSums (.add i args) ↔ FlatArgs args ∧ ∀ a ∈ args, FlatSums a := by
  rw [flat_iff]; simp [Node.arguments]
theorem flat_mul {i : ℕ} {a b : Node F} : FlatSums (.mul i a b) ↔ FlatSums a ∧ FlatSums b := by rw [flat_iff]; simp [Node.arguments]
theorem flat_div {i : ℕ} {a b : Node F} : FlatSums (.div i a b) ↔ FlatSums a ∧ FlatSums b := by rw [flat_iff]; simp [Node.arguments]
theorem flat_cos {i : ℕ} {a : Node F} : FlatSums (.cos i a) ↔ FlatSums a := by rw [flat_iff]; simp [Node.arguments]
theorem flat_sin {i : ℕ} {a : Node F} : FlatSums (.sin i a) ↔ FlatSums a := by rw [flat_iff]; simp [Node.arguments]

theorem forall₂_dropLast {α β : Type} {P : α → β → Prop} {as : List α} {bs : List β} (h : List.Forall₂ P as bs) : List.Forall₂ P as.dropLast bs.dropLast := by
  induction h with
  | nil => exact .nil
  | cons h t ih =>
    cases t with
    | nil => exact .nil
    | cons h' t' => exact .cons h ih

theorem forall₂_right {α β : Type} {P : α → β → Prop} {as : List α} {bs : List β} (h : List.Forall₂ P as bs) : ∀ b ∈ bs, ∃ a ∈ as, P a b := by
  induction h with
  | nil => simp
  | cons h _ ih =>
    intro b hb
    simp only [List.mem_cons] at hb
    rcases hb with rfl | hb
    · exact ⟨_, by simp, h⟩
    · obtain ⟨a, ha, hp⟩ := ih b hb
      exact ⟨a, by simp [ha], hp⟩

variable [FloatOps F]

theorem post_flatConst (v : F) : Post (newConst v) fun e => FlatSums e ∧ ∃ i, e = .const i v := by
  intro n a m h; rw [newConst_ok] at h; rw [h.1]; exact ⟨flat_const _ _, n, rfl⟩
theorem post_fconst (v : F) : Post (newConst v) FlatSums := fun n a m h => (post_flatConst v n a m h).1
theorem post_fmul {a b : Node F} (ha : FlatSums a) (hb : FlatSums b) : Post (newMul a b) FlatSums := by
  intro n e m h; rw [newMul_eq] at h; cases h; exact flat_mul.2 ⟨ha, hb⟩
theorem post_fdiv {a b : Node F} (ha : FlatSums a) (hb : FlatSums b) : Post (newDiv a b) FlatSums := by
  intro n e m h; rw [newDiv_eq] at h; cases h; exact flat_div.2 ⟨ha, hb⟩

/-- What multiplying `a` by a number other than zero may give. -/
def Scaled (nz : Prop) (a e : Node F) : Prop := FlatSums e ∧ (sumB a = false → sumB e = false) ∧ (nz → a.isConstant = false → e.isConstant = false)

theorem scaled_add {nz : Prop} (hnz : nz) {j : ℕ} {args bs : List (Node F)} (h : FlatSums (.add j args)) (hb : List.Forall₂ (Scaled nz) args bs) {n n' : ℕ} {e : Node F}
    (he : newAdd bs n = .ok (e, n')) : Scaled nz (.add j args) e := by
  rw [newAdd_ok] at he
  rw [he.2.1]
  obtain ⟨⟨h1, h2⟩, h3⟩ := flat_add.1 h
  refine ⟨flat_add.2 ⟨⟨?_, ?_⟩, ?_⟩, fun h => h, fun _ _ => rfl⟩
  · intro b hb'
    obtain ⟨a, ha, hs⟩ := forall₂_right hb b hb'
    exact hs.2.1 (h1 a ha)
  · intro b hb'
    obtain ⟨a, ha, hs⟩ := forall₂_right (forall₂_dropLast hb) b hb'
    exact hs.2.2 hnz (h2 a ha)
  · intro b hb'
    obtain ⟨a, ha, hs⟩ := forall₂_right hb b hb'
    exact hs.1

theorem scaled_distribute {nz : Prop} (hnz : nz) {j : ℕ} {args : List (Node F)} {f : Node F → M (Node F)} (h : FlatSums (.add j args))
    (hf : ∀ a ∈ args, Post (f a) (Scaled nz a)) : Post (M.bind (M.mapL f args) newAdd) (Scaled nz (.add j args)) := by
  intro n e m he
  rw [M.bind_ok] at he
  obtain ⟨bs, k, h1, h2⟩ := he
  exact scaled_add hnz h (M.mapL_ok_forall h1 fun a ha b n m hb => hf a ha n b m hb) h2

theorem flat_sMul (c : F) (a : Node F) : FlatSums a → Post (sMul c a) (Scaled ((c ==. zero) = false) a) := by
  induction a using Node.ind_args with
  | step a ih =>
    intro h
    rw [sMul_unfold]
    refine .ite (fun h0 => ?_) fun h0 => .ite (fun _ => .pure ⟨h, fun h => h, fun _ h => h⟩) fun _ => .ite (fun h1 => ?_) fun _ => ?_
    · intro n e m he
      have : ∃ v, newConst v n = .ok (e, m) := by
        split at he <;> exact ⟨_, he⟩
      obtain ⟨v, hv⟩ := this
      obtain ⟨h1, i, rfl⟩ := post_flatConst v _ _ _ hv
      refine ⟨h1, fun _ => rfl, fun hz ha => ?_⟩
      rw [hz, ha] at h0; cases h0
    · intro n e m he
      obtain ⟨h2, i, rfl⟩ := post_flatConst c _ _ _ he
      refine ⟨h2, fun _ => rfl, fun _ ha => ?_⟩
      cases a <;> simp [Node.isConstVal, Node.isConstant] at h1 ha
    · have hz : (c ==. zero) = false := by
        cases hc : (c ==. zero) <;> simp [hc] at h0 ⊢
      split
      · exact scaled_distribute hz h fun x hx => ih x (by simpa [Node.arguments] using hx) ((flat_add.1 h).2 x hx)
      · refine (post_flatConst c).bind ?_
        rintro k ⟨hk, i, rfl⟩ n e m he
        rw [newMul_eq] at he
        cases he
        exact ⟨flat_mul.2 ⟨hk, h⟩, fun _ => rfl, fun _ _ => rfl⟩

theorem flat_mulS (c : F) (a : Node F) : FlatSums a → Post (mulS c a) (Scaled ((c ==. zero) = false) a) := by
  induction a using Node.ind_args with
  | step a ih =>
    intro h
    rw [mulS_unfold]
    refine .ite (fun h0 => ?_) fun h0 => .ite (fun h1 => ?_) fun _ => .ite (fun _ => .pure ⟨h, fun h => h, fun _ h => h⟩) fun _ => ?_
    · intro n e m he
      have : ∃ v, newConst v n = .ok (e, m) := by
        split at he <;> exact ⟨_, he⟩
      obtain ⟨v, hv⟩ := this
      obtain ⟨h1, i, rfl⟩ := post_flatConst v _ _ _ hv
      refine ⟨h1, fun _ => rfl, fun hz ha => ?_⟩
      rw [hz, ha] at h0; cases h0
    · intro n e m he
      obtain ⟨h2, i, rfl⟩ := post_flatConst c _ _ _ he
      refine ⟨h2, fun _ => rfl, fun _ ha => ?_⟩
      cases a <;> simp [Node.isConstVal, Node.isConstant] at h1 ha
    · have hz : (c ==. zero) = false := by
        cases hc : (c ==. zero) <;> simp [hc] at h0 ⊢
      split
      · exact scaled_distribute hz h fun x hx => ih x (by simpa [Node.arguments] using hx) ((flat_add.1 h).2 x hx)
      · refine (post_flatConst c).bind ?_
        rintro k ⟨hk, i, rfl⟩ n e m he
        rw [newMul_eq] at he
        cases he
        exact ⟨flat_mul.2 ⟨h, hk⟩, fun _ => rfl, fun _ _ => rfl⟩

theorem flat_constMul (i : ℕ) (c : F) (a : Node F) : FlatSums a → Post (mulN (.const i c) a) (Scaled ((c ==. zero) = false) a) := by
  induction a using Node.ind_args with
  | step a ih =>
    intro h
    rw [mulN_unfold]
    have hconst : ∀ v : F, ((Node.const i c).isConstVal zero || a.isConstVal zero) = true ∨ a.isConstant = true →
        Post (newConst v) (Scaled ((c ==. zero) = false) a) := by
      intro v h0 n e m he
      obtain ⟨h1, i, rfl⟩ := post_flatConst v _ _ _ he
      refine ⟨h1, fun _ => rfl, fun hz ha => ?_⟩
      rcases h0 with h0 | h0
      · simp only [Node.isConstVal, hz, Bool.false_or] at h0
        cases a <;> simp [Node.isConstVal, Node.isConstant] at h0 ha
      · rw [h0] at ha; cases ha
    refine .ite (fun h0 => hconst _ (.inl h0)) fun h0 => .ite (fun _ => .pure ⟨h, fun h => h, fun _ h => h⟩) fun _ => .ite (fun h1 => .pure ?_) fun _ =>
      .ite (fun h1 => hconst _ (.inr (by simpa [Node.isConstant] using h1))) fun _ => ?_
    · refine ⟨flat_const _ _, fun _ => rfl, fun _ ha => ?_⟩
      cases a <;> simp [Node.isConstVal, Node.isConstant] at h1 ha
    · have hz : (c ==. zero) = false := by
        cases hc : (c ==. zero) <;> simp [Node.isConstVal, hc] at h0 ⊢
      cases a
      case add j args =>
        exact scaled_distribute hz h fun x hx => ih x (by simpa [Node.arguments] using hx) ((flat_add.1 h).2 x hx)
      all_goals
        intro n e m he
        simp only [newMul_eq, Except.ok.injEq, Prod.mk.injEq] at he
        rw [← he.1]
        exact ⟨flat_mul.2 ⟨flat_const _ _, h⟩, fun _ => rfl, fun _ _ => rfl⟩

theorem flat_mulConst (i : ℕ) (c : F) (a : Node F) : FlatSums a → Post (mulN a (.const i c)) (Scaled ((c ==. zero) = false) a) := by
  induction a using Node.ind_args with
  | step a ih =>
    intro h
    rw [mulN_unfold]
    have hconst : ∀ v : F, (a.isConstVal zero || (Node.const i c).isConstVal zero) = true ∨ a.isConstant = true →
        Post (newConst v) (Scaled ((c ==. zero) = false) a) := by
      intro v h0 n e m he
      obtain ⟨h1, i, rfl⟩ := post_flatConst v _ _ _ he
      refine ⟨h1, fun _ => rfl, fun hz ha => ?_⟩
      rcases h0 with h0 | h0
      · simp only [Node.isConstVal, hz, Bool.or_false] at h0
        cases a <;> simp [Node.isConstVal, Node.isConstant] at h0 ha
      · rw [h0] at ha; cases ha
    refine .ite (fun h0 => hconst _ (.inl h0)) fun h0 => .ite (fun h1 => .pure ?_) fun _ => .ite (fun _ => .pure ⟨h, fun h => h, fun _ h => h⟩) fun _ =>
      .ite (fun h1 => hconst _ (.inr (by simpa [Node.isConstant] using h1))) fun _ => ?_
    · refine ⟨flat_const _ _, fun _ => rfl, fun _ ha => ?_⟩
      cases a <;> simp [Node.isConstVal, Node.isConstant] at h1 ha
    · have hz : (c ==. zero) = false := by
        cases hc : (c ==. zero) <;> simp [Node.isConstVal, hc] at h0 ⊢
      cases a
      case add j args =>
        exact scaled_distribute hz h fun x hx => ih x (by simpa [Node.arguments] using hx) ((flat_add.1 h).2 x hx)
      all_goals
        intro n e m he
        simp only [newMul_eq, Except.ok.injEq, Prod.mk.injEq] at he
        rw [← he.1]
        exact ⟨flat_mul.2 ⟨h, flat_const _ _⟩, fun _ => rfl, fun _ _ => rfl⟩

theorem flat_mulN {a b : Node F} (ha : FlatSums a) (hb : FlatSums b) : Post (mulN a b) FlatSums := by
  by_cases h1 : ∃ i c, a = .const i c
  · obtain ⟨i, c, rfl⟩ := h1
    exact fun n e m he => (flat_constMul i c b hb n e m he).1
  by_cases h2 : ∃ i c, b = .const i c
  · obtain ⟨i, c, rfl⟩ := h2
    exact fun n e m he => (flat_mulConst i c a ha n e m he).1
  have : mulN a b = newMul a b := by
    cases a <;> first | (cases b <;> first | rfl | exact absurd ⟨_, _, rfl⟩ h2) | exact absurd ⟨_, _, rfl⟩ h1
  rw [this]
  exact post_fmul ha hb

/-- Terms collected by an addition. -/
def Terms (l : List (Node F)) : Prop := ∀ a ∈ l, FlatSums a ∧ sumB a = false ∧ a.isConstant = false

theorem terms_gather {acc : F × List (Node F)} {x : Node F} (h : Terms acc.2) (hx : FlatSums x) : Terms (gather acc x).2 := by
  cases x
  case const => exact h
  case add i xs =>
    simp only [gather]
    rw [gatherArgs_terms]
    intro a ha
    simp only [List.mem_append, List.mem_filter] at ha
    rcases ha with ha | ha
    · exact h a ha
    · exact ⟨(flat_add.1 hx).2 a ha.1, (flat_add.1 hx).1.1 a ha.1, by simpa using ha.2⟩
  all_goals
    intro a ha
    simp only [gather, List.mem_append, List.mem_singleton] at ha
    rcases ha with ha | rfl
    · exact h a ha
    · exact ⟨hx, rfl, rfl⟩

theorem flat_finishAdd {acc : F × List (Node F)} (h : Terms acc.2) : Post (finishAdd acc) FlatSums := by
  unfold finishAdd
  refine .ite (fun _ => post_fconst _) fun _ => .ite (fun _ => ?_) fun _ => ?_
  · refine (post_flatConst _).bind ?_
    rintro k ⟨hk, i, rfl⟩ n e m he
    rw [newAdd_ok] at he
    rw [he.2.1]
    refine flat_add.2 ⟨⟨?_, ?_⟩, ?_⟩
    · intro a ha
      simp only [List.mem_append, List.mem_singleton] at ha
      rcases ha with ha | rfl
      · exact (h a ha).2.1
      · rfl
    · intro a ha
      rw [List.dropLast_concat] at ha
      exact (h a ha).2.2
    · intro a ha
      simp only [List.mem_append, List.mem_singleton] at ha
      rcases ha with ha | rfl
      · exact (h a ha).1
      · exact hk
  · intro n e m he
    rw [newAdd_ok] at he
    rw [he.2.1]
    exact flat_add.2 ⟨⟨fun a ha => (h a ha).2.1, fun a ha => (h a (List.mem_of_mem_dropLast ha)).2.2⟩, fun a ha => (h a ha).1⟩

theorem flat_addN {a b : Node F} (ha : FlatSums a) (hb : FlatSums b) : Post (addN a b) FlatSums :=
  .ite (fun _ => .pure hb) fun _ => .ite (fun _ => .pure ha) fun _ => flat_finishAdd (terms_gather (terms_gather (fun _ h => by cases h) ha) hb)
theorem flat_addS {a : Node F} {c : F} (ha : FlatSums a) : Post (addS a c) FlatSums :=
  .ite (fun _ => .pure ha) fun _ => (post_fconst c).bind fun _ hk => flat_finishAdd (terms_gather (terms_gather (fun _ h => by cases h) ha) hk)
theorem flat_sAdd {a : Node F} {c : F} (ha : FlatSums a) : Post (sAdd c a) FlatSums :=
  .ite (fun _ => .pure ha) fun _ => (post_fconst c).bind fun _ hk => flat_finishAdd (terms_gather (terms_gather (fun _ h => by cases h) hk) ha)
theorem flat_scale {c : F} {a : Node F} (ha : FlatSums a) : Post (sMul c a) FlatSums := fun n e m h => (flat_sMul c a ha n e m h).1
theorem flat_subN {a b : Node F} (ha : FlatSums a) (hb : FlatSums b) : Post (subN a b) FlatSums :=
  (flat_scale hb).bind fun _ h => flat_addN ha h
theorem flat_subS {a : Node F} {c : F} (ha : FlatSums a) : Post (subS a c) FlatSums :=
  (post_fconst c).bind fun _ hk => (flat_scale hk).bind fun _ h => flat_addN ha h
theorem flat_sSub {a : Node F} {c : F} (ha : FlatSums a) : Post (sSub c a) FlatSums :=
  (post_fconst c).bind fun _ hk => (flat_scale ha).bind fun _ h => flat_addN hk h
theorem flat_negN {a : Node F} (ha : FlatSums a) : Post (negN a) FlatSums := by
  cases a <;> first | exact post_fconst _ | exact flat_scale ha
theorem flat_divN {a b : Node F} (ha : FlatSums a) (hb : FlatSums b) : Post (divN a b) FlatSums :=
  .ite (fun _ => .panic) fun _ => .ite (fun _ => .pure ha) fun _ => .ite (fun _ => post_fconst _) fun _ => .ite (fun _ => post_fconst _) fun _ => post_fdiv ha hb
theorem flat_divS {a : Node F} {c : F} (ha : FlatSums a) : Post (divS a c) FlatSums :=
  .ite (fun _ => .panic) fun _ => .ite (fun _ => .pure ha) fun _ => .ite (fun _ => post_fconst _) fun _ => .ite (fun _ => post_fconst _) fun _ =>
    (post_fconst c).bind fun _ hk => post_fdiv ha hk
theorem flat_sDiv {a : Node F} {c : F} (ha : FlatSums a) : Post (sDiv c a) FlatSums :=
  .ite (fun _ => .panic) fun _ => .ite (fun _ => post_fconst _) fun _ => .ite (fun _ => post_fconst _) fun _ => .ite (fun _ => post_fconst _) fun _ =>
    (post_fconst c).bind fun _ hk => post_fdiv hk ha
theorem flat_cosN {a : Node F} (ha : FlatSums a) : Post (cosN a) FlatSums := by
  cases a <;> first | exact post_fconst _ | (intro n e m h; simp only [cosN, newCos_eq] at h; cases h; exact flat_cos.2 ha)
theorem flat_sinN {a : Node F} (ha : FlatSums a) : Post (sinN a) FlatSums := by
  cases a <;> first | exact post_fconst _ | (intro n e m h; simp only [sinN, newSin_eq] at h; cases h; exact flat_sin.2 ha)

theorem flat_arg {e a : Node F} (he : FlatSums e) (ha : a ∈ e.arguments) : FlatSums a := ((flat_iff e).1 he).2 a ha

theorem flat_partialN {e a : Node F} (he : FlatSums e) : Post (partialN e a) FlatSums := by
  cases e
  case const => exact post_fconst _
  case var => exact post_fconst _
  case add => exact post_fconst _
  case cos i b =>
    exact .ite (fun _ => (flat_sinN (flat_arg he (by simp [Node.arguments]))).bind fun _ h => flat_negN h) fun _ => post_fconst _
  case sin i b => exact .ite (fun _ => flat_cosN (flat_arg he (by simp [Node.arguments]))) fun _ => post_fconst _
  case mul i b c =>
    exact .ite (fun _ => .pure (flat_arg he (by simp [Node.arguments]))) fun _ => .ite (fun _ => .pure (flat_arg he (by simp [Node.arguments]))) fun _ => post_fconst _
  case div i b c =>
    have hb : FlatSums b := flat_arg he (by simp [Node.arguments])
    have hc : FlatSums c := flat_arg he (by simp [Node.arguments])
    exact .ite (fun _ => flat_sDiv hc) fun _ => .ite (fun _ => (flat_negN hb).bind fun _ h => (flat_mulN hc hc).bind fun _ h' => flat_divN h h') fun _ => post_fconst _

theorem flat_pathProd {p : List (Node F)} (hp : ∀ a ∈ p, FlatSums a) : ∀ {d : Node F}, FlatSums d → Post (pathProd d p) FlatSums := by
  induction p with
  | nil => intro d hd; exact .pure hd
  | cons a p ih =>
    intro d hd
    cases p with
    | nil => exact .pure hd
    | cons b p =>
      exact (flat_partialN (hp a (by simp))).bind fun q hq => (flat_mulN hd hq).bind fun r hr => ih (fun a ha => hp a (by simp [ha])) hr

theorem flat_pathSum {ps : List (List (Node F))} (hp : ∀ p ∈ ps, ∀ a ∈ p, FlatSums a) : ∀ {d : Node F}, FlatSums d → Post (pathSum d ps) FlatSums := by
  induction ps with
  | nil => intro d hd; exact .pure hd
  | cons p ps ih =>
    intro d hd
    exact (post_fconst _).bind fun k hk => (flat_pathProd (hp p (by simp)) hk).bind fun q hq => (flat_addN hd hq).bind fun d' hd' =>
      ih (fun p' h' => hp p' (by simp [h'])) hd'

theorem flat_occurs {e y : Node F} (he : FlatSums e) (ho : Occurs y e) : FlatSums y := by
  induction ho with
  | refl => exact he
  | arg ha _ ih => exact ih (flat_arg he ha)

theorem flat_derivatives {H : HashOrder} {e : Node F} {vars : List (Node F)} (he : FlatSums e) :
    Post (derivatives H e vars) fun r => ∀ p ∈ r, FlatSums p.2 := by
  intro n r m h
  obtain ⟨-, vs, -, h⟩ := derivatives_ok h
  have hf := M.mapL_ok_forall (P := fun _ p => FlatSums p.2) h ?_
  · intro p hp
    obtain ⟨v, _, hv⟩ := forall₂_right hf p hp
    exact hv
  · intro v _ p n m hv
    simp only [M.bind_ok, newConst_ok, M.pure_ok] at hv
    obtain ⟨d0, k, ⟨rfl, rfl⟩, d, k2, h1, rfl, rfl⟩ := hv
    exact flat_pathSum (fun p hp a ha => flat_occurs he (dfs_occurs e p (List.mem_filter.1 hp).1 a ha)) (flat_const _ _) _ _ _ h1

theorem flat_derivative {H : HashOrder} {e x : Node F} (he : FlatSums e) : Post (derivative H e x) FlatSums := by
  intro n d m h
  unfold derivative at h
  rw [M.bind_ok] at h
  obtain ⟨ds, k, h1, h2⟩ := h
  cases hg : getN ds x with
  | none => rw [hg] at h2; simp [unwrapM, M.panic_ok] at h2
  | some d' =>
    rw [hg] at h2
    simp only [unwrapM, M.pure_ok] at h2
    rw [h2.1]
    obtain ⟨y, hy⟩ : ∃ y, (y, d') ∈ ds := by
      clear h1 h2
      induction ds with
      | nil => cases hg
      | cons p ds ih =>
        simp only [getN] at hg
        split at hg
        · cases hg; exact ⟨p.1, by simp⟩
        · obtain ⟨y, hy⟩ := ih hg; exact ⟨y, by simp [hy]⟩
    exact flat_derivatives he _ _ _ h1 _ hy

theorem flat_exec {H : HashOrder} {regs : List (Node F)} (hr : ∀ x ∈ regs, FlatSums x) {op : Op F} (ho : op.isRaw = false) :
    Post (op.exec H regs) fun rs => ∀ x ∈ rs, FlatSums x := by
  have hmem : ∀ {i : ℕ} {a : Node F}, regs[i]? = some a → FlatSums a := fun h => hr _ (List.mem_of_getElem? h)
  have with1 : ∀ {i : ℕ} {f : Node F → M (Node F)}, (∀ a, FlatSums a → Post (f a) FlatSums) →
      Post (match regs[i]? with | some a => M.bind (f a) fun e => M.pure [e] | none => M.pure []) fun rs => ∀ x ∈ rs, FlatSums x := by
    intro i f hf
    split
    · rename_i a ha
      exact (hf a (hmem ha)).bind fun e he => .pure (by simpa using he)
    · exact .pure (by simp)
  have with2 : ∀ {i j : ℕ} {f : Node F → Node F → M (Node F)}, (∀ a b, FlatSums a → FlatSums b → Post (f a b) FlatSums) →
      Post (match regs[i]?, regs[j]? with | some a, some b => M.bind (f a b) fun e => M.pure [e] | _, _ => M.pure []) fun rs => ∀ x ∈ rs, FlatSums x := by
    intro i j f hf
    split
    · rename_i a b ha hb
      exact (hf a b (hmem ha) (hmem hb)).bind fun e he => .pure (by simpa using he)
    · exact .pure (by simp)
  cases op
  case const v =>
    show Post (M.bind (newConst v) fun e => M.pure [e]) _
    exact (post_fconst v).bind fun e he => .pure (by simpa using he)
  case var s k =>
    show Post (M.bind (newVar s k) fun e => M.pure [e]) _
    refine Post.bind (P := FlatSums) ?_ fun e he => .pure (by simpa using he)
    intro n e m h
    rw [newVar_eq] at h
    cases h
    exact flat_var _ _ _
  case add i j => exact with2 fun a b => flat_addN
  case addScalar i c => exact with1 fun a => flat_addS
  case scalarAdd c i => exact with1 fun a => flat_sAdd
  case sub i j => exact with2 fun a b => flat_subN
  case subScalar i c => exact with1 fun a => flat_subS
  case scalarSub c i => exact with1 fun a => flat_sSub
  case mul i j => exact with2 fun a b => flat_mulN
  case mulScalar i c => exact with1 fun a ha n e m h => (flat_mulS c a ha n e m h).1
  case scalarMul c i => exact with1 fun a => flat_scale
  case div i j => exact with2 fun a b => flat_divN
  case divScalar i c => exact with1 fun a => flat_divS
  case scalarDiv c i => exact with1 fun a => flat_sDiv
  case neg i => exact with1 fun a => flat_negN
  case cos i => exact with1 fun a => flat_cosN
  case sin i => exact with1 fun a => flat_sinN
  case partialD i j => exact with2 fun a b ha _ => flat_partialN ha
  case derivative i j => exact with2 fun a b ha _ => flat_derivative ha
  case derivatives i js =>
    simp only [Op.exec]
    split
    · rename_i a ha
      refine (flat_derivatives (hmem ha)).bind fun r hrr => .pure ?_
      intro x hx
      simp only [List.mem_map] at hx
      obtain ⟨p, hp, rfl⟩ := hx
      exact hrr p hp
    · exact .pure (by simp)
  all_goals cases ho

theorem flat_runOps {H : HashOrder} {ops : List (Op F)} : ∀ {regs : List (Node F)}, (∀ x ∈ regs, FlatSums x) → (∀ op ∈ ops, op.isRaw = false) →
    Post (runOps H regs ops) fun rs => ∀ x ∈ rs, FlatSums x := by
  induction ops with
  | nil => intro regs hr _; exact .pure hr
  | cons op ops ih =>
    intro regs hr ho
    refine (flat_exec hr (ho op (by simp))).bind fun rs hrs => ih ?_ fun o h => ho o (by simp [h])
    intro x hx
    simp only [List.mem_append] at hx
    rcases hx with hx | hx
    exacts [hr x hx, hrs x hx]

theorem ReachableApi.flat {H : HashOrder} {regs : List (Node F)} {n : Nat} (h : ReachableApi H regs n) : ∀ e ∈ regs, FlatSums e := by
  obtain ⟨ops, ho, h⟩ := h
  exact flat_runOps (by simp) ho _ _ _ h

end Verif
