import Verif.Spec.Depth
import Verif.Code.Stack
import Verif.Proofs.Affine
import Verif.Proofs.Panics

/-! # Depth of the expressions that the library builds -/

set_option linter.unusedSectionVars false
set_option linter.unusedSimpArgs false

namespace Verif

variable {F : Type}

theorem deepest_le {as : List (Node F)} {d : Nat} : Node.depth.deepest as ≤ d ↔ ∀ a ∈ as, a.depth ≤ d := by
  induction as with
  | nil => simp [Node.depth.deepest]
  | cons a as ih => simp [Node.depth.deepest, ih]

theorem depth_pos (e : Node F) : 1 ≤ e.depth := by cases e <;> simp [Node.depth]

theorem depth_arg {e a : Node F} (h : a ∈ e.arguments) : a.depth + 1 ≤ e.depth := by
  cases e with
  | const i v => simp [Node.arguments] at h
  | var i s k => simp [Node.arguments] at h
  | add i args =>
    have := (deepest_le (d := Node.depth.deepest args)).1 (Nat.le_refl _) a h
    simp only [Node.depth]; omega
  | cos i b => simp [Node.arguments] at h; subst h; simp only [Node.depth]; omega
  | sin i b => simp [Node.arguments] at h; subst h; simp only [Node.depth]; omega
  | mul i b c => simp [Node.arguments] at h; rcases h with rfl | rfl <;> simp only [Node.depth] <;> omega
  | div i b c => simp [Node.arguments] at h; rcases h with rfl | rfl <;> simp only [Node.depth] <;> omega

theorem termDepth_of {e : Node F} {d : Nat} (h : e.depth ≤ d) : e.TermDepth d := by
  cases e with
  | add i args => intro t ht; have := depth_arg (e := .add i args) ht; omega
  | _ => exact h

theorem termDepth_le {e : Node F} {d : Nat} (h : e.TermDepth d) : e.depth ≤ d + 1 := by
  cases e with
  | add i args => simp only [Node.depth]; have := deepest_le.2 h; omega
  | _ => exact Nat.le_succ_of_le h

theorem termDepth_mono {e : Node F} {d d' : Nat} (h : e.TermDepth d) (hd : d ≤ d') : e.TermDepth d' := by
  cases e with
  | add i args => intro t ht; exact (h t ht).trans hd
  | _ => exact Nat.le_trans h hd

theorem termDepth_pos {e : Node F} {d : Nat} (h : e.TermDepth d) (hs : ∀ i args, e = .add i args → args ≠ []) : 1 ≤ d := by
  cases e with
  | add i args =>
    obtain ⟨t, ht⟩ := List.exists_mem_of_ne_nil _ (hs i args rfl)
    exact (depth_pos t).trans (h t ht)
  | _ => exact (depth_pos _).trans h

section
variable [FloatOps F]

theorem depth_newConst (v : F) : Post (newConst v) (fun r => r.depth = 1) := by
  intro n r m h
  rw [newConst_ok] at h
  rw [h.1]; rfl

theorem depth_newConst_le (v : F) {d : Nat} (hd : 1 ≤ d) : Post (newConst v) (fun r => r.depth ≤ d) := by
  intro n r m h
  rw [depth_newConst v n r m h]; exact hd

theorem depth_newVar (s : String) (k : VarKind) : Post (newVar (F := F) s k) (fun r => r.depth = 1) := by
  intro n r m h
  rw [newVar_eq] at h
  cases h; rfl

theorem depth_newMul (a b : Node F) : Post (newMul a b) (fun r => r.depth = 1 + max a.depth b.depth) := by
  intro n r m h
  rw [newMul_eq] at h
  cases h; rfl

theorem depth_newDiv (a b : Node F) : Post (newDiv a b) (fun r => r.depth = 1 + max a.depth b.depth) := by
  intro n r m h
  simp only [newDiv, M.bind_ok, M.fresh_ok, M.pure_ok] at h
  obtain ⟨i, k, -, rfl, -⟩ := h
  rfl

theorem depth_newCos (a : Node F) : Post (newCos a) (fun r => r.depth = 1 + a.depth) := by
  intro n r m h
  simp only [newCos, M.bind_ok, M.fresh_ok, M.pure_ok] at h
  obtain ⟨i, k, -, rfl, -⟩ := h
  rfl

theorem depth_newSin (a : Node F) : Post (newSin a) (fun r => r.depth = 1 + a.depth) := by
  intro n r m h
  simp only [newSin, M.bind_ok, M.fresh_ok, M.pure_ok] at h
  obtain ⟨i, k, -, rfl, -⟩ := h
  rfl

theorem depth_newAddT {args : List (Node F)} {d : Nat} (h : ∀ a ∈ args, a.depth ≤ d) : Post (newAdd args) (fun r => r.TermDepth d) := by
  intro n r m hr
  obtain ⟨-, rfl, -⟩ := newAdd_ok.1 hr
  exact h

theorem gatherArgs_depth (d : Nat) (xs : List (Node F)) : ∀ acc : F × List (Node F), (∀ a ∈ acc.2, a.depth ≤ d) → (∀ a ∈ xs, a.depth ≤ d) →
    ∀ a ∈ (gatherArgs acc xs).2, a.depth ≤ d := by
  induction xs with
  | nil => intro acc h _; exact h
  | cons x xs ih =>
    intro acc h hx
    have hxs : ∀ a ∈ xs, a.depth ≤ d := fun a ha => hx a (by simp [ha])
    have hsn : ∀ a ∈ acc.2 ++ [x], a.depth ≤ d := by
      intro a ha
      rcases List.mem_append.1 ha with ha | ha
      · exact h a ha
      · rw [List.mem_singleton.1 ha]; exact hx x (by simp)
    cases x <;> simp only [gatherArgs]
    case const i v => exact ih _ h hxs
    all_goals exact ih _ hsn hxs

theorem gather_depth {d : Nat} {acc : F × List (Node F)} (h : ∀ a ∈ acc.2, a.depth ≤ d) {x : Node F} (hx : x.TermDepth d) :
    ∀ a ∈ (gather acc x).2, a.depth ≤ d := by
  have hsn : x.depth ≤ d → ∀ a ∈ acc.2 ++ [x], a.depth ≤ d := by
    intro hx a ha
    rcases List.mem_append.1 ha with ha | ha
    · exact h a ha
    · rw [List.mem_singleton.1 ha]; exact hx
  cases x with
  | const i v => exact h
  | add i args => exact gatherArgs_depth d args acc h hx
  | _ => exact hsn hx

theorem dpost_finishAdd {d : Nat} (hd : 1 ≤ d) {acc : F × List (Node F)} (h : ∀ a ∈ acc.2, a.depth ≤ d) : Post (finishAdd acc) (fun r => r.TermDepth d) := by
  unfold finishAdd
  refine .ite (fun _ n r m hr => termDepth_of (depth_newConst_le _ hd n r m hr)) fun _ => .ite (fun _ => (depth_newConst_le _ hd).bind fun k hk => depth_newAddT fun a ha => ?_) fun _ => depth_newAddT h
  rcases List.mem_append.1 ha with ha | ha
  · exact h a ha
  · rw [List.mem_singleton.1 ha]; exact hk

theorem dpost_addN {a b : Node F} {d : Nat} (hd : 1 ≤ d) (ha : a.TermDepth d) (hb : b.TermDepth d) : Post (addN a b) (fun r => r.TermDepth d) := by
  unfold addN
  exact .ite (fun _ => .pure hb) fun _ => .ite (fun _ => .pure ha) fun _ => dpost_finishAdd hd (gather_depth (gather_depth (by simp) ha) hb)

theorem dpost_addS {a : Node F} {d : Nat} (hd : 1 ≤ d) (ha : a.TermDepth d) (c : F) : Post (addS a c) (fun r => r.TermDepth d) := by
  unfold addS
  exact .ite (fun _ => .pure ha) fun _ => (depth_newConst_le _ hd).bind fun k hk => dpost_finishAdd hd (gather_depth (gather_depth (by simp) ha) (termDepth_of hk))

theorem dpost_sAdd {a : Node F} {d : Nat} (hd : 1 ≤ d) (ha : a.TermDepth d) (c : F) : Post (sAdd c a) (fun r => r.TermDepth d) := by
  unfold sAdd
  exact .ite (fun _ => .pure ha) fun _ => (depth_newConst_le _ hd).bind fun k hk => dpost_finishAdd hd (gather_depth (gather_depth (by simp) (termDepth_of hk)) ha)

theorem sMulL_eqD (c : F) (as : List (Node F)) : sMul.sMulL c as = M.mapL (sMul c) as := by
  induction as with
  | nil => rfl
  | cons a as ih => simp [sMul.sMulL, M.mapL, ih]

theorem mulSL_eqD (c : F) (as : List (Node F)) : mulS.mulSL c as = M.mapL (mulS c) as := by
  induction as with
  | nil => rfl
  | cons a as ih => simp [mulS.mulSL, M.mapL, ih]

theorem mulCLL_eqD (i : Nat) (c : F) (as : List (Node F)) : mulCL.mulCLL i c as = M.mapL (mulCL i c) as := by
  induction as with
  | nil => rfl
  | cons a as ih => simp [mulCL.mulCLL, M.mapL, ih]

theorem mulCRL_eqD (i : Nat) (c : F) (as : List (Node F)) : mulCR.mulCRL i c as = M.mapL (mulCR i c) as := by
  induction as with
  | nil => rfl
  | cons a as ih => simp [mulCR.mulCRL, M.mapL, ih]

theorem dpost_mapAdd {k : Node F → M (Node F)} {i : Nat} {args : List (Node F)} (ih : ∀ a ∈ args, Post (k a) (fun r => r.depth ≤ a.depth + 1)) :
    Post (M.bind (M.mapL k args) newAdd) (fun r => r.depth ≤ (Node.add i args).depth + 1) := by
  refine (Post.mapL (P := fun r => r.depth ≤ (Node.add i args).depth) fun a ha n r m hr => ?_).bind fun bs hbs n r m hr => ?_
  · have h1 := ih a ha n r m hr
    have h2 := depth_arg (e := .add i args) ha
    omega
  · exact termDepth_le (depth_newAddT hbs n r m hr)

theorem dpost_constMul (c : F) (r : Node F) : Post (M.bind (newConst c) fun k => newMul k r) (fun x => x.depth ≤ r.depth + 1) :=
  (depth_newConst c).bind fun k hk n x m hx => by
    show x.depth ≤ _
    rw [depth_newMul k r n x m hx, hk]; have := depth_pos r; omega

theorem dpost_mulConst (c : F) (r : Node F) : Post (M.bind (newConst c) fun k => newMul r k) (fun x => x.depth ≤ r.depth + 1) :=
  (depth_newConst c).bind fun k hk n x m hx => by
    show x.depth ≤ _
    rw [depth_newMul r k n x m hx, hk]; have := depth_pos r; omega

theorem dpost_sMul (c : F) (a : Node F) : Post (sMul c a) (fun r => r.depth ≤ a.depth + 1) := by
  induction a using Node.ind with
  | const i v => exact depth_newConst_le _ (by omega)
  | add i args ih =>
    simp only [sMul, sMulL_eqD]
    exact .ite (fun _ => depth_newConst_le _ (by omega)) fun _ => .ite (fun _ => .pure (by omega)) fun _ => dpost_mapAdd ih
  | var i s k =>
    simp only [sMul]
    exact .ite (fun _ => depth_newConst_le _ (by omega)) fun _ => .ite (fun _ => .pure (by omega)) fun _ => dpost_constMul _ _
  | _ =>
    simp only [sMul]
    exact .ite (fun _ => depth_newConst_le _ (by omega)) fun _ => .ite (fun _ => .pure (by omega)) fun _ => dpost_constMul _ _

theorem dpost_mulS (c : F) (a : Node F) : Post (mulS c a) (fun r => r.depth ≤ a.depth + 1) := by
  induction a using Node.ind with
  | const i v => exact depth_newConst_le _ (by omega)
  | add i args ih =>
    simp only [mulS, mulSL_eqD]
    exact .ite (fun _ => depth_newConst_le _ (by omega)) fun _ => .ite (fun _ => .pure (by omega)) fun _ => dpost_mapAdd ih
  | _ =>
    simp only [mulS]
    exact .ite (fun _ => depth_newConst_le _ (by omega)) fun _ => .ite (fun _ => .pure (by omega)) fun _ => dpost_mulConst _ _

theorem dpost_mulCL (i : Nat) (c : F) (a : Node F) : Post (mulCL i c a) (fun r => r.depth ≤ a.depth + 1) := by
  have hm : ∀ r : Node F, Post (newMul (.const i c) r) (fun x => x.depth ≤ r.depth + 1) := fun r n x m hx => by
    show x.depth ≤ _
    rw [depth_newMul _ r n x m hx]; have := depth_pos r; simp only [Node.depth]; omega
  induction a using Node.ind with
  | const j v =>
    simp only [mulCL]
    exact .ite (fun _ => depth_newConst_le _ (by omega)) fun _ => .ite (fun _ => .pure (by omega)) fun _ => .ite (fun _ => .pure (by simp [Node.depth])) fun _ =>
      depth_newConst_le _ (by omega)
  | add j args ih =>
    simp only [mulCL, mulCLL_eqD]
    exact .ite (fun _ => depth_newConst_le _ (by omega)) fun _ => .ite (fun _ => .pure (by omega)) fun _ => dpost_mapAdd ih
  | _ =>
    simp only [mulCL]
    exact .ite (fun _ => depth_newConst_le _ (by omega)) fun _ => .ite (fun _ => .pure (by omega)) fun _ => hm _

theorem dpost_mulCR (i : Nat) (c : F) (a : Node F) : Post (mulCR i c a) (fun r => r.depth ≤ a.depth + 1) := by
  have hm : ∀ r : Node F, Post (newMul r (.const i c)) (fun x => x.depth ≤ r.depth + 1) := fun r n x m hx => by
    show x.depth ≤ _
    rw [depth_newMul r _ n x m hx]; have := depth_pos r; simp only [Node.depth]; omega
  induction a using Node.ind with
  | const j v =>
    simp only [mulCR]
    exact .ite (fun _ => depth_newConst_le _ (by omega)) fun _ => .ite (fun _ => .pure (by simp [Node.depth])) fun _ => .ite (fun _ => .pure (by simp [Node.depth])) fun _ =>
      depth_newConst_le _ (by omega)
  | add j args ih =>
    simp only [mulCR, mulCRL_eqD]
    exact .ite (fun _ => depth_newConst_le _ (by omega)) fun _ => .ite (fun _ => .pure (by omega)) fun _ => dpost_mapAdd ih
  | _ =>
    simp only [mulCR]
    exact .ite (fun _ => depth_newConst_le _ (by omega)) fun _ => .ite (fun _ => .pure (by omega)) fun _ => hm _

theorem Post.weaken {α : Type} {x : M α} {P Q : α → Prop} (h : Post x P) (hi : ∀ a, P a → Q a) : Post x Q := fun n a m ha => hi a (h n a m ha)

theorem dpost_mulN (a b : Node F) : Post (mulN a b) (fun r => r.depth ≤ max a.depth b.depth + 1) := by
  have h0 : Post (newMul a b) (fun r => r.depth ≤ max a.depth b.depth + 1) := (depth_newMul a b).weaken fun r hr => by omega
  have h1 : ∀ i v, Post (mulCL i v b) (fun r => r.depth ≤ max a.depth b.depth + 1) := fun i v => (dpost_mulCL i v b).weaken fun r hr => by omega
  have h2 : ∀ i v, Post (mulCR i v a) (fun r => r.depth ≤ max a.depth b.depth + 1) := fun i v => (dpost_mulCR i v a).weaken fun r hr => by omega
  cases a <;> cases b <;> simp only [mulN] <;> first | exact h0 | exact h1 _ _ | exact h2 _ _

theorem dpost_negN (a : Node F) : Post (negN a) (fun r => r.depth ≤ a.depth + 1) := by
  cases a with
  | const i v => exact depth_newConst_le _ (by omega)
  | _ => exact dpost_sMul _ _

theorem dpost_divN (a b : Node F) : Post (divN a b) (fun r => r.depth ≤ max a.depth b.depth + 1) := by
  unfold divN
  exact .ite (fun _ => .panic) fun _ => .ite (fun _ => .pure (by omega)) fun _ => .ite (fun _ => depth_newConst_le _ (by omega)) fun _ =>
    .ite (fun _ => depth_newConst_le _ (by omega)) fun _ => (depth_newDiv a b).weaken fun r hr => by omega

theorem dpost_divS (a : Node F) (c : F) : Post (divS a c) (fun r => r.depth ≤ a.depth + 1) := by
  unfold divS
  exact .ite (fun _ => .panic) fun _ => .ite (fun _ => .pure (by omega)) fun _ => .ite (fun _ => depth_newConst_le _ (by omega)) fun _ =>
    .ite (fun _ => depth_newConst_le _ (by omega)) fun _ => (depth_newConst c).bind fun k hk => (depth_newDiv a k).weaken fun r hr => by
      have := depth_pos a; omega

theorem dpost_sDiv (c : F) (b : Node F) : Post (sDiv c b) (fun r => r.depth ≤ b.depth + 1) := by
  unfold sDiv
  exact .ite (fun _ => .panic) fun _ => .ite (fun _ => depth_newConst_le _ (by omega)) fun _ => .ite (fun _ => depth_newConst_le _ (by omega)) fun _ =>
    .ite (fun _ => depth_newConst_le _ (by omega)) fun _ => (depth_newConst c).bind fun k hk => (depth_newDiv k b).weaken fun r hr => by
      have := depth_pos b; omega

theorem dpost_cosN (a : Node F) : Post (cosN a) (fun r => r.depth ≤ a.depth + 1) := by
  cases a with
  | const i v => exact depth_newConst_le _ (by omega)
  | _ => exact (depth_newCos _).weaken fun r hr => by omega

theorem dpost_sinN (a : Node F) : Post (sinN a) (fun r => r.depth ≤ a.depth + 1) := by
  cases a with
  | const i v => exact depth_newConst_le _ (by omega)
  | _ => exact (depth_newSin _).weaken fun r hr => by omega

theorem dpost_subN {a b : Node F} {d : Nat} (ha : a.depth ≤ d) (hb : b.depth ≤ d) : Post (subN a b) (fun r => r.depth ≤ d + 2) := by
  unfold subN
  have := depth_pos a
  exact (dpost_sMul negOne b).bind fun nb hnb => (dpost_addN (d := d + 1) (by omega) (termDepth_of (by omega)) (termDepth_of (by omega))).weaken fun r hr => termDepth_le hr

theorem dpost_partialN (n arg : Node F) : Post (partialN n arg) (fun r => r.depth ≤ n.depth + 1) := by
  cases n with
  | const i v => exact depth_newConst_le _ (by omega)
  | var i s k => exact depth_newConst_le _ (by omega)
  | add i args => exact depth_newConst_le _ (by omega)
  | cos i a =>
    simp only [partialN]
    refine .ite (fun _ => (dpost_sinN a).bind fun s hs => (dpost_negN s).weaken fun r hr => ?_) fun _ => depth_newConst_le _ (by omega)
    simp only [Node.depth]; omega
  | sin i a =>
    simp only [partialN]
    exact .ite (fun _ => (dpost_cosN a).weaken fun r hr => by simp only [Node.depth]; omega) fun _ => depth_newConst_le _ (by omega)
  | mul i a b =>
    simp only [partialN]
    exact .ite (fun _ => .pure (by simp only [Node.depth]; omega)) fun _ => .ite (fun _ => .pure (by simp only [Node.depth]; omega)) fun _ => depth_newConst_le _ (by omega)
  | div i a b =>
    simp only [partialN]
    refine .ite (fun _ => (dpost_sDiv one b).weaken fun r hr => by simp only [Node.depth]; omega) fun _ => .ite (fun _ => ?_) fun _ => depth_newConst_le _ (by omega)
    refine (dpost_negN a).bind fun na hna => (dpost_mulN b b).bind fun bb hbb => (dpost_divN na bb).weaken fun r hr => ?_
    simp only [Node.depth]; omega

theorem dpost_pathProd {path : List (Node F)} (hp : ArgPath path) : ∀ {prod e : Node F} {rest : List (Node F)} {d : Nat}, path = e :: rest → prod.depth ≤ d → e.depth + 1 ≤ d →
    Post (pathProd prod path) (fun r => r.depth + 1 ≤ d + e.depth) := by
  induction path with
  | nil => intro _ _ _ _ h; cases h
  | cons a path ih =>
    intro prod e rest d he hprod hd
    obtain ⟨rfl, rfl⟩ := List.cons.inj he
    cases path with
    | nil =>
      have := depth_pos a
      exact .pure (by omega)
    | cons b path =>
      obtain ⟨hab, -, hp'⟩ := hp
      have hb := depth_arg hab
      simp only [pathProd]
      exact (dpost_partialN a b).bind fun p hpd => (dpost_mulN prod p).bind fun q hq =>
        (ih hp' (d := d + 1) rfl (by omega) (by omega)).weaken fun r hr => by omega

theorem dpost_pathSum {e : Node F} {ps : List (List (Node F))} (hp : ∀ p ∈ ps, ArgPath p ∧ ∃ t, p = e :: t) : ∀ {d : Node F}, d.TermDepth (2 * e.depth) →
    Post (pathSum d ps) (fun r => r.TermDepth (2 * e.depth)) := by
  have hpos := depth_pos e
  induction ps with
  | nil => intro d hd; exact .pure hd
  | cons p ps ih =>
    intro d hd
    obtain ⟨h1, t, ht⟩ := hp p (by simp)
    simp only [pathSum]
    exact (depth_newConst one).bind fun k hk => (dpost_pathProd h1 (prod := k) (d := e.depth + 1) ht (by omega) (by omega)).bind fun q hq =>
      (dpost_addN (by omega) hd (termDepth_of (by omega))).bind fun d' hd' => ih (fun p hp' => hp p (by simp [hp'])) hd'

theorem dpost_derivatives {H : HashOrder} (e : Node F) (vars : List (Node F)) : Post (derivatives H e vars) (fun ds => ∀ p ∈ ds, p.2.depth ≤ 2 * e.depth + 1) := by
  intro n r m h
  obtain ⟨-, vs, -, h1⟩ := derivatives_ok h
  refine Post.mapL (P := fun p : Node F × Node F => p.2.depth ≤ 2 * e.depth + 1) (fun v _ => ?_) _ _ _ h1
  have hpos := depth_pos e
  refine (depth_newConst zero).bind fun d0 hd0 => (dpost_pathSum (e := e) (fun p hp => ?_) (termDepth_of (by omega))).bind fun d hd => .pure (termDepth_le hd)
  have hm := (List.mem_filter.1 hp).1
  exact ⟨dfs_argPath e p hm, dfs_head hm⟩

theorem dpost_unwrapM {α : Type} {o : Option α} {P : α → Prop} (h : ∀ a, o = some a → P a) : Post (unwrapM o) P := by
  cases o with
  | none => exact .panic
  | some a => exact .pure (h a rfl)

theorem getN_depth {ds : List (Node F × Node F)} {d : Nat} (h : ∀ p ∈ ds, p.2.depth ≤ d) {x y : Node F} (hy : getN ds x = some y) : y.depth ≤ d := by
  induction ds with
  | nil => cases hy
  | cons p ds ih =>
    simp only [getN] at hy
    split at hy
    · cases hy; exact h p (by simp)
    · exact ih (fun q hq => h q (by simp [hq])) hy

theorem dpost_derivative {H : HashOrder} (e x : Node F) : Post (derivative H e x) (fun r => r.depth ≤ 2 * e.depth + 1) := by
  unfold derivative
  exact (dpost_derivatives e [x]).bind fun ds hds => dpost_unwrapM fun a ha => getN_depth hds ha

theorem dpost_hessRow {v : Node F} {dd : List (Node F × Node F)} {d : Nat} (h : ∀ p ∈ dd, p.2.depth ≤ d) (vs : List (Node F)) :
    Post (hessRow v dd vs) (fun row => ∀ e ∈ row, e.2.2.depth ≤ d) := by
  induction vs with
  | nil => exact .pure (by simp)
  | cons w vs ih =>
    simp only [hessRow]
    refine (dpost_unwrapM (P := fun e => e.depth ≤ d) fun a ha => getN_depth h ha).bind fun e he => ih.bind fun rest hr => .pure ?_
    split
    · exact hr
    · intro x hx
      rcases List.mem_cons.1 hx with rfl | hx
      · exact he
      · exact hr x hx

theorem dpost_hessLoop {H : HashOrder} {ds : List (Node F × Node F)} {d : Nat} (h : ∀ p ∈ ds, p.2.depth ≤ d) (vs : List (Node F)) :
    Post (hessLoop H ds vs) (fun r => (∀ e ∈ r.1, e.2.depth ≤ d) ∧ ∀ e ∈ r.2, e.2.2.depth ≤ 2 * d + 1) := by
  induction vs with
  | nil => exact .pure (by simp)
  | cons v vs ih =>
    simp only [hessLoop]
    refine (dpost_unwrapM (P := fun e => e.depth ≤ d) fun a ha => getN_depth h ha).bind fun e he => (dpost_derivatives e _).bind fun dd hdd =>
      (dpost_hessRow (d := 2 * d + 1) (fun p hp => (hdd p hp).trans (by omega)) _).bind fun row hrow => ih.bind fun rest hrest => .pure ⟨?_, ?_⟩
    · intro x hx
      rcases List.mem_cons.1 hx with rfl | hx
      · exact he
      · exact hrest.1 x hx
    · intro x hx
      rcases List.mem_append.1 hx with hx | hx
      · exact hrow x hx
      · exact hrest.2 x hx

theorem dpost_nodeComponents {H : HashOrder} (e : Node F) : Post (e.stdComponents H) (fun c => c.phi = e ∧ (∀ p ∈ c.gphi, p.2.depth ≤ 2 * e.depth + 1) ∧
    ∀ p ∈ c.hphi, p.2.2.depth ≤ 4 * e.depth + 3) := by
  unfold Node.stdComponents
  have hit : ∀ {α : Type} (l : List α), Post (H.iter l) (fun _ => True) := fun l n a m _ => trivial
  refine .ite (fun _ => (hit _).bind fun es _ => (Post.mapL (P := fun p : Node F × Node F => p.2.depth ≤ 2 * e.depth + 1) fun kv _ => ?_).bind fun g hg => .pure ⟨rfl, hg, by simp⟩)
    fun _ => (hit _).bind fun vs _ => (dpost_derivatives e vs).bind fun ds hds => (dpost_hessLoop hds vs).bind fun gh hgh => .pure ⟨rfl, hgh.1, fun p hp => (hgh.2 p hp).trans (by omega)⟩
  exact (depth_newConst _).bind fun k hk => .pure (by simp only; omega)

/-- The functions of a constraint. -/
def ConstrComp.DepthIn (d : Nat) (c : ConstrComp F) : Prop :=
  (∀ e ∈ c.f, e.depth ≤ d) ∧ (∀ e ∈ c.j, e.2.2.depth ≤ d) ∧ ∀ h ∈ c.h, ∀ e ∈ h, e.2.2.depth ≤ d

theorem ConstrComp.DepthIn.append {p q : ConstrComp F} {d : Nat} (hp : p.DepthIn d) (hq : q.DepthIn d) : (p.append q).DepthIn d := by
  obtain ⟨a1, a2, a3⟩ := hp
  obtain ⟨b1, b2, b3⟩ := hq
  refine ⟨fun e he => ?_, fun e he => ?_, fun e he => ?_⟩ <;> rcases List.mem_append.1 he with he | he
  · exact a1 e he
  · exact b1 e he
  · exact a2 e he
  · exact b2 e he
  · exact a3 e he
  · exact b3 e he

theorem dpost_constrComponents {H : HashOrder} {c : Constraint F} {d : Nat} (h1 : c.lhs.depth ≤ d) (h2 : c.rhs.depth ≤ d) (arow jrow : Nat) :
    Post (c.stdComponents H arow jrow) (fun r => r.1.DepthIn (4 * d + 11)) := by
  have hit : ∀ {α : Type} (l : List α), Post (H.iter l) (fun _ => True) := fun l n a m _ => trivial
  have h0 : ∀ cc : ConstrComp F, cc.f = [] → cc.j = [] → cc.h = [] → cc.DepthIn (4 * d + 11) := by
    intro cc e1 e2 e3
    unfold ConstrComp.DepthIn
    rw [e1, e2, e3]; simp
  unfold Constraint.stdComponents
  refine (dpost_subN h1 h2).bind fun exp hexp => (dpost_nodeComponents exp).bind fun comp hc => ?_
  obtain ⟨hphi, hg, hh⟩ := hc
  simp only
  split
  · split <;> exact .pure (h0 _ rfl rfl rfl)
  · refine .ite (fun _ => ?_) fun _ => ?_
    · split
      · exact (hit _).bind fun es _ => .pure (h0 _ rfl rfl rfl)
      · exact (depth_newVar _ _).bind fun s _ => (hit _).bind fun es _ => .pure (h0 _ rfl rfl rfl)
    · split
      · refine .pure ⟨?_, ?_, ?_⟩
        · simp only [List.mem_singleton, forall_eq, hphi]; omega
        · simp only [List.mem_map]
          rintro _ ⟨e, he, rfl⟩
          exact (hg e he).trans (by omega)
        · simp only [List.mem_singleton, forall_eq]
          exact fun e he => (hh e he).trans (by omega)
      · refine (depth_newVar _ _).bind fun s hs => (dpost_subN (d := d + 2) (by rw [hphi]; omega) (by omega)).bind fun f hf => (depth_newConst _).bind fun m1 hm1 => .pure ⟨?_, ?_, ?_⟩
        · simp only [List.mem_singleton, forall_eq]; omega
        · intro e he
          rcases List.mem_append.1 he with he | he
          · obtain ⟨e0, he0, rfl⟩ := List.mem_map.1 he
            exact (hg e0 he0).trans (by omega)
          · rw [List.mem_singleton.1 he]; simp only; omega
        · simp only [List.mem_singleton, forall_eq]
          exact fun e he => (hh e he).trans (by omega)

theorem dpost_constrLoop {H : HashOrder} {d : Nat} (cs : List (Constraint F)) : ∀ {s : ConstrComp F × Nat × Nat}, (∀ c ∈ cs, c.lhs.depth ≤ d ∧ c.rhs.depth ≤ d) →
    s.1.DepthIn (4 * d + 11) → Post (constrLoop H s cs) (fun r => r.1.DepthIn (4 * d + 11)) := by
  induction cs with
  | nil => intro s _ hs; exact .pure hs
  | cons c cs ih =>
    intro s hc hs
    simp only [constrLoop]
    exact (dpost_constrComponents (hc c (by simp)).1 (hc c (by simp)).2 _ _).bind fun r hr => ih (fun c hc' => hc c (by simp [hc'])) (hs.append hr)

theorem dpost_modelComponents {H : HashOrder} {m : Model F} {d : Nat} (hm : m.DepthIn d) : Post (m.stdComponents H) (fun c => c.DepthIn (4 * d + 11)) := by
  unfold Model.stdComponents
  have hobj : Post (m.objComponents H) (fun c => c.phi.depth ≤ 4 * d + 11 ∧ (∀ e ∈ c.gphi, e.2.depth ≤ 4 * d + 11) ∧ ∀ e ∈ c.hphi, e.2.2.depth ≤ 4 * d + 11) := by
    have key : ∀ {e : Node F}, e.depth ≤ d + 1 → Post (e.stdComponents H) (fun c => c.phi.depth ≤ 4 * d + 11 ∧ (∀ e ∈ c.gphi, e.2.depth ≤ 4 * d + 11) ∧ ∀ e ∈ c.hphi, e.2.2.depth ≤ 4 * d + 11) :=
      fun {e} he => (dpost_nodeComponents e).weaken fun c hc => ⟨by rw [hc.1]; omega, fun p hp => (hc.2.1 p hp).trans (by omega), fun p hp => (hc.2.2 p hp).trans (by omega)⟩
    unfold Model.objComponents
    cases ho : m.objective with
    | empty => exact (depth_newConst _).bind fun e he => key (by omega)
    | minimize f => exact key (by have := hm.1 f (.inl ho); omega)
    | maximize f => exact (dpost_negN f).bind fun e he => key (by have := hm.1 f (.inr ho); omega)
  refine hobj.bind fun obj ho => (dpost_constrLoop m.constraints (d := d) hm.2 ?_).bind fun r hr => .pure ⟨ho.1, ho.2.1, ho.2.2, hr⟩
  exact ⟨by simp [ConstrComp.empty], by simp [ConstrComp.empty], by simp [ConstrComp.empty]⟩

end

end Verif
