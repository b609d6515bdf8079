import Verif.Spec.Size
import Verif.Proofs.Depth
import Verif.Proofs.PathCount

/-! # Size of the expressions that the library builds -/

set_option linter.unusedSectionVars false
set_option linter.unusedSimpArgs false

namespace Verif

variable {F : Type}

/-- The number of terms that a factor is distributed over. -/
def Node.width : Node F → Nat
  | .add _ args => max 1 (total args)
  | _ => 1
where
  total : List (Node F) → Nat
    | [] => 0
    | a :: as => a.width + total as

theorem width_pos (e : Node F) : 1 ≤ e.width := by
  cases e with
  | add i args => simp only [Node.width]; omega
  | _ => exact Nat.le_refl 1

theorem size_pos (e : Node F) : 1 ≤ e.size := by
  cases e <;> simp only [Node.size] <;> omega

theorem width_size (e : Node F) : e.width ≤ e.size := by
  induction e using Node.ind with
  | add i args ih =>
    have : Node.width.total args ≤ Node.size.total args := by
      induction args with
      | nil => exact Nat.le_refl _
      | cons a as ih2 =>
        simp only [Node.width.total, Node.size.total]
        have := ih a (by simp)
        have := ih2 fun b hb => ih b (by simp [hb])
        omega
    simp only [Node.width, Node.size]; omega
  | _ => simp only [Node.width, Node.size]; omega

theorem size_total_mem {a : Node F} {as : List (Node F)} (h : a ∈ as) : a.size ≤ Node.size.total as := by
  induction as with
  | nil => cases h
  | cons b as ih =>
    simp only [Node.size.total]
    rcases List.mem_cons.1 h with rfl | h
    · omega
    · have := ih h; omega

theorem size_arg {e a : Node F} (h : a ∈ e.arguments) : a.size + 1 ≤ e.size := by
  cases e with
  | const i v => simp [Node.arguments] at h
  | var i s k => simp [Node.arguments] at h
  | add i args => have : a.size ≤ Node.size.total args := size_total_mem h; simp only [Node.size]; omega
  | cos i b => simp [Node.arguments] at h; subst h; simp only [Node.size]; omega
  | sin i b => simp [Node.arguments] at h; subst h; simp only [Node.size]; omega
  | mul i b c => simp [Node.arguments] at h; rcases h with rfl | rfl <;> simp only [Node.size] <;> omega
  | div i b c => simp [Node.arguments] at h; rcases h with rfl | rfl <;> simp only [Node.size] <;> omega

theorem depth_size (e : Node F) : e.depth ≤ e.size := by
  induction e using Node.ind with
  | add i args ih =>
    have : Node.depth.deepest args ≤ Node.size.total args := deepest_le.2 fun a ha => (ih a ha).trans (size_total_mem ha)
    simp only [Node.depth, Node.size]; omega
  | _ => simp only [Node.depth, Node.size] at *; omega

theorem occurrences_size (x e : Node F) : occurrences x e ≤ e.size := by
  induction e using Node.ind with
  | var i s k => simp only [occurrences, Node.size]; split <;> omega
  | add i args ih =>
    have : occurrences.occs x args ≤ Node.size.total args := by
      induction args with
      | nil => exact Nat.le_refl _
      | cons a as ih2 =>
        simp only [occurrences.occs, Node.size.total]
        have := ih a (by simp)
        have := ih2 fun b hb => ih b (by simp [hb])
        omega
    simp only [occurrences, Node.size]; omega
  | _ => simp only [occurrences, Node.size] at *; omega

theorem size_total_append (as bs : List (Node F)) : Node.size.total (as ++ bs) = Node.size.total as + Node.size.total bs := by
  induction as with
  | nil => simp [Node.size.total]
  | cons a as ih => simp only [List.cons_append, Node.size.total, ih]; omega

/-- Length and number of terms are within bounds. -/
def Grown (s w : Nat) (r : Node F) : Prop := r.size ≤ s ∧ r.width ≤ w

theorem Grown.mono {s w s' w' : Nat} {r : Node F} (h : Grown s w r) (hs : s ≤ s') (hw : w ≤ w') : Grown s' w' r := ⟨h.1.trans hs, h.2.trans hw⟩

section
variable [FloatOps F]

theorem size_newConst (v : F) {s w : Nat} (hs : 1 ≤ s) (hw : 1 ≤ w) : Post (newConst v) (Grown s w) := by
  intro n r m h
  rw [newConst_ok] at h
  rw [h.1]; exact ⟨hs, hw⟩

theorem size_newVar (s : String) (k : VarKind) : Post (newVar (F := F) s k) (fun r => r.size = 1) := by
  intro n r m h
  rw [newVar_eq] at h
  cases h; rfl

theorem size_newMul (a b : Node F) {s w : Nat} (hs : 1 + a.size + b.size ≤ s) (hw : 1 ≤ w) : Post (newMul a b) (Grown s w) := by
  intro n r m h
  rw [newMul_eq] at h
  cases h; exact ⟨hs, hw⟩

theorem size_newDiv (a b : Node F) {s w : Nat} (hs : 1 + a.size + b.size ≤ s) (hw : 1 ≤ w) : Post (newDiv a b) (Grown s w) := by
  intro n r m h
  simp only [newDiv, M.bind_ok, M.fresh_ok, M.pure_ok] at h
  obtain ⟨i, k, -, rfl, -⟩ := h
  exact ⟨hs, hw⟩

theorem size_newCos (a : Node F) {s w : Nat} (hs : 1 + a.size ≤ s) (hw : 1 ≤ w) : Post (newCos a) (Grown s w) := by
  intro n r m h
  simp only [newCos, M.bind_ok, M.fresh_ok, M.pure_ok] at h
  obtain ⟨i, k, -, rfl, -⟩ := h
  exact ⟨hs, hw⟩

theorem size_newSin (a : Node F) {s w : Nat} (hs : 1 + a.size ≤ s) (hw : 1 ≤ w) : Post (newSin a) (Grown s w) := by
  intro n r m h
  simp only [newSin, M.bind_ok, M.fresh_ok, M.pure_ok] at h
  obtain ⟨i, k, -, rfl, -⟩ := h
  exact ⟨hs, hw⟩

theorem size_newAdd (args : List (Node F)) {s w : Nat} (hs : 1 + Node.size.total args ≤ s) (hw : Node.width.total args ≤ w) (hw1 : 1 ≤ w) : Post (newAdd args) (Grown s w) := by
  intro n r m hr
  obtain ⟨-, rfl, -⟩ := newAdd_ok.1 hr
  exact ⟨hs, Nat.max_le.2 ⟨hw1, hw⟩⟩

theorem gatherArgs_size (xs : List (Node F)) : ∀ acc : F × List (Node F), Node.size.total (gatherArgs acc xs).2 ≤ Node.size.total acc.2 + Node.size.total xs := by
  induction xs with
  | nil => intro acc; simp [gatherArgs]
  | cons x xs ih =>
    intro acc
    have hsn := ih (acc.1, acc.2 ++ [x])
    rw [size_total_append] at hsn
    simp only [Node.size.total] at hsn ⊢
    cases x <;> simp only [gatherArgs]
    case const i v => have := ih (acc.1 +. v, acc.2); simp only at this; omega
    all_goals omega

theorem gather_size (acc : F × List (Node F)) (x : Node F) : Node.size.total (gather acc x).2 ≤ Node.size.total acc.2 + x.size := by
  have hsn : Node.size.total (acc.2 ++ [x]) ≤ Node.size.total acc.2 + x.size := by
    rw [size_total_append]; simp [Node.size.total]
  cases x with
  | const i v => simp only [gather]; omega
  | add i args => have := gatherArgs_size args acc; simp only [gather, Node.size]; omega
  | _ => exact hsn

theorem size_finishAdd {s : Nat} {acc : F × List (Node F)} (h : Node.size.total acc.2 ≤ s) : Post (finishAdd acc) (fun r => r.size ≤ s + 2) := by
  have go : ∀ args : List (Node F), Node.size.total args ≤ s + 1 → Post (newAdd args) (fun r => r.size ≤ s + 2) := fun args ha n r m hr =>
    (size_newAdd args (s := s + 2) (w := 1 + Node.width.total args) (by omega) (by omega) (by omega) n r m hr).1
  unfold finishAdd
  refine .ite (fun _ n r m hr => (size_newConst _ (s := s + 2) (w := 1) (by omega) (by omega) n r m hr).1) fun _ => .ite (fun _ => (size_newConst _ (s := 1) (w := 1) (by omega) (by omega)).bind fun k hk => go _ ?_)
    fun _ => go _ (by omega)
  rw [size_total_append]
  have := hk.1
  simp only [Node.size.total]; omega

theorem size_addN (a b : Node F) : Post (addN a b) (fun r => r.size ≤ a.size + b.size + 2) := by
  unfold addN
  refine .ite (fun _ => .pure (by omega)) fun _ => .ite (fun _ => .pure (by omega)) fun _ => size_finishAdd ?_
  have h1 := gather_size (gather (zero, []) a) b
  have h2 := gather_size ((zero : F), []) a
  simp only [Node.size.total] at h2
  omega

theorem size_addS (a : Node F) (c : F) : Post (addS a c) (fun r => r.size ≤ a.size + 3) := by
  unfold addS
  refine .ite (fun _ => .pure (by omega)) fun _ => (size_newConst c (s := 1) (w := 1) (by omega) (by omega)).bind fun k hk => (size_finishAdd (s := a.size + 1) ?_)
  have h1 := gather_size (gather (zero, []) a) k
  have h2 := gather_size ((zero : F), []) a
  have := hk.1
  simp only [Node.size.total] at h2
  omega

theorem post_mapL_grown {k : Node F → M (Node F)} {as : List (Node F)} (h : ∀ a ∈ as, Post (k a) (Grown (a.size + 2 * a.width) a.width)) :
    Post (M.mapL k as) (fun bs => Node.size.total bs ≤ Node.size.total as + 2 * Node.width.total as ∧ Node.width.total bs ≤ Node.width.total as) := by
  induction as with
  | nil => exact .pure (by simp [Node.size.total, Node.width.total])
  | cons a as ih =>
    simp only [M.mapL]
    refine (h a (by simp)).bind fun b hb => (ih fun x hx => h x (by simp [hx])).bind fun bs hbs => .pure ?_
    have := hb.1; have := hb.2
    simp only [Node.size.total, Node.width.total]
    omega

theorem size_mapAdd {k : Node F → M (Node F)} {i : Nat} {args : List (Node F)} (h : ∀ a ∈ args, Post (k a) (Grown (a.size + 2 * a.width) a.width)) :
    Post (M.bind (M.mapL k args) newAdd) (Grown ((Node.add i args).size + 2 * (Node.add i args).width) (Node.add i args).width) :=
  (post_mapL_grown h).bind fun bs hbs => size_newAdd bs (by simp only [Node.size, Node.width]; omega) (by simp only [Node.width]; omega) (by simp only [Node.width]; omega)

/-- A product with a number. -/
theorem size_sMul (c : F) (a : Node F) : Post (sMul c a) (Grown (a.size + 2 * a.width) a.width) := by
  have hsz := size_pos a
  have hw := width_pos a
  induction a using Node.ind with
  | const i v => exact size_newConst _ (by omega) (by omega)
  | add i args ih =>
    simp only [sMul, sMulL_eqD]
    exact .ite (fun _ => size_newConst _ (by omega) (by omega)) fun _ => .ite (fun _ => .pure ⟨by omega, by omega⟩) fun _ => size_mapAdd fun a ha => ih a ha (size_pos a) (width_pos a)
  | _ =>
    simp only [sMul]
    exact .ite (fun _ => size_newConst _ (by omega) (by omega)) fun _ => .ite (fun _ => .pure ⟨by omega, by omega⟩) fun _ => (size_newConst c (s := 1) (w := 1) (by omega) (by omega)).bind fun k hk =>
      size_newMul _ _ (by have := hk.1; simp only [Node.width]; omega) (by omega)

theorem size_mulS (c : F) (a : Node F) : Post (mulS c a) (Grown (a.size + 2 * a.width) a.width) := by
  have hsz := size_pos a
  have hw := width_pos a
  induction a using Node.ind with
  | const i v => exact size_newConst _ (by omega) (by omega)
  | add i args ih =>
    simp only [mulS, mulSL_eqD]
    exact .ite (fun _ => size_newConst _ (by omega) (by omega)) fun _ => .ite (fun _ => .pure ⟨by omega, by omega⟩) fun _ => size_mapAdd fun a ha => ih a ha (size_pos a) (width_pos a)
  | _ =>
    simp only [mulS]
    exact .ite (fun _ => size_newConst _ (by omega) (by omega)) fun _ => .ite (fun _ => .pure ⟨by omega, by omega⟩) fun _ => (size_newConst c (s := 1) (w := 1) (by omega) (by omega)).bind fun k hk =>
      size_newMul _ _ (by have := hk.1; simp only [Node.width]; omega) (by omega)

theorem size_mulCL (j : Nat) (c : F) (a : Node F) : Post (mulCL j c a) (Grown (a.size + 2 * a.width) a.width) := by
  have hsz := size_pos a
  have hw := width_pos a
  induction a using Node.ind with
  | const i v =>
    simp only [mulCL]
    exact .ite (fun _ => size_newConst _ (by omega) (by omega)) fun _ => .ite (fun _ => .pure ⟨by omega, by omega⟩) fun _ =>
      .ite (fun _ => .pure ⟨by simp only [Node.size]; omega, by simp only [Node.width]; omega⟩) fun _ => size_newConst _ (by omega) (by omega)
  | add i args ih =>
    simp only [mulCL, mulCLL_eqD]
    exact .ite (fun _ => size_newConst _ (by omega) (by omega)) fun _ => .ite (fun _ => .pure ⟨by omega, by omega⟩) fun _ => size_mapAdd fun a ha => ih a ha (size_pos a) (width_pos a)
  | _ =>
    simp only [mulCL]
    exact .ite (fun _ => size_newConst _ (by omega) (by omega)) fun _ => .ite (fun _ => .pure ⟨by omega, by omega⟩) fun _ =>
      size_newMul _ _ (by simp only [Node.size, Node.width]; omega) (by omega)

theorem size_mulCR (j : Nat) (c : F) (a : Node F) : Post (mulCR j c a) (Grown (a.size + 2 * a.width) a.width) := by
  have hsz := size_pos a
  have hw := width_pos a
  induction a using Node.ind with
  | const i v =>
    simp only [mulCR]
    exact .ite (fun _ => size_newConst _ (by omega) (by omega)) fun _ => .ite (fun _ => .pure ⟨by simp only [Node.size]; omega, by simp only [Node.width]; omega⟩) fun _ =>
      .ite (fun _ => .pure ⟨by simp only [Node.size]; omega, by simp only [Node.width]; omega⟩) fun _ => size_newConst _ (by omega) (by omega)
  | add i args ih =>
    simp only [mulCR, mulCRL_eqD]
    exact .ite (fun _ => size_newConst _ (by omega) (by omega)) fun _ => .ite (fun _ => .pure ⟨by omega, by omega⟩) fun _ => size_mapAdd fun a ha => ih a ha (size_pos a) (width_pos a)
  | _ =>
    simp only [mulCR]
    exact .ite (fun _ => size_newConst _ (by omega) (by omega)) fun _ => .ite (fun _ => .pure ⟨by omega, by omega⟩) fun _ =>
      size_newMul _ _ (by simp only [Node.size, Node.width]; omega) (by omega)

theorem size_mulN (a b : Node F) {w : Nat} (ha : a.width ≤ w) (hb : b.width ≤ w) : Post (mulN a b) (Grown (a.size + b.size + 2 * w) w) := by
  have hwa := width_pos a
  have h0 : Post (newMul a b) (Grown (a.size + b.size + 2 * w) w) := size_newMul a b (by omega) (by omega)
  have h1 : ∀ i v, Post (mulCL i v b) (Grown (a.size + b.size + 2 * w) w) := fun i v => (size_mulCL i v b).weaken fun r hr => hr.mono (by omega) (by omega)
  have h2 : ∀ i v, Post (mulCR i v a) (Grown (a.size + b.size + 2 * w) w) := fun i v => (size_mulCR i v a).weaken fun r hr => hr.mono (by omega) (by omega)
  cases a <;> cases b <;> simp only [mulN] <;> first | exact h0 | exact h1 _ _ | exact h2 _ _

theorem size_negN (a : Node F) : Post (negN a) (Grown (a.size + 2 * a.width) a.width) := by
  have hw := width_pos a
  have hs := size_pos a
  cases a with
  | const i v => exact size_newConst _ (by omega) (by omega)
  | _ => exact size_sMul _ _

theorem size_divN (a b : Node F) : Post (divN a b) (Grown (1 + a.size + b.size) a.width) := by
  have hw := width_pos a
  unfold divN
  exact .ite (fun _ => .panic) fun _ => .ite (fun _ => .pure ⟨by omega, by omega⟩) fun _ => .ite (fun _ => size_newConst _ (by omega) (by omega)) fun _ =>
    .ite (fun _ => size_newConst _ (by omega) (by omega)) fun _ => size_newDiv a b (by omega) (by omega)

theorem size_divS (a : Node F) (c : F) : Post (divS a c) (fun r => r.size ≤ a.size + 2) := by
  have hw := width_pos a
  have h1 : ∀ v : F, Post (newConst v) (fun r => r.size ≤ a.size + 2) := fun v => (size_newConst v (s := 1) (w := 1) (by omega) (by omega)).weaken fun r hr => by have := hr.1; omega
  unfold divS
  exact .ite (fun _ => .panic) fun _ => .ite (fun _ => .pure (by omega)) fun _ => .ite (fun _ => h1 _) fun _ =>
    .ite (fun _ => h1 _) fun _ => (size_newConst c (s := 1) (w := 1) (by omega) (by omega)).bind fun k hk =>
      (size_newDiv a k (s := a.size + 2) (w := 1) (by have := hk.1; omega) (by omega)).weaken fun r hr => hr.1

theorem size_sDiv (c : F) (b : Node F) : Post (sDiv c b) (Grown (b.size + 2) 1) := by
  unfold sDiv
  exact .ite (fun _ => .panic) fun _ => .ite (fun _ => size_newConst _ (by omega) (by omega)) fun _ => .ite (fun _ => size_newConst _ (by omega) (by omega)) fun _ =>
    .ite (fun _ => size_newConst _ (by omega) (by omega)) fun _ => (size_newConst c (s := 1) (w := 1) (by omega) (by omega)).bind fun k hk =>
      size_newDiv k b (by have := hk.1; omega) (by omega)

theorem size_cosN (a : Node F) : Post (cosN a) (Grown (a.size + 1) 1) := by
  cases a with
  | const i v => exact size_newConst _ (by omega) (by omega)
  | _ => exact size_newCos _ (by omega) (by omega)

theorem size_sinN (a : Node F) : Post (sinN a) (Grown (a.size + 1) 1) := by
  cases a with
  | const i v => exact size_newConst _ (by omega) (by omega)
  | _ => exact size_newSin _ (by omega) (by omega)

theorem size_subN (a b : Node F) : Post (subN a b) (fun r => r.size ≤ a.size + 3 * b.size + 2) := by
  unfold subN
  have := width_size b
  exact (size_sMul negOne b).bind fun nb hnb => (size_addN a nb).weaken fun r hr => by have := hnb.1; omega

theorem size_partialN (n arg : Node F) : Post (partialN n arg) (Grown (4 * n.size) n.size) := by
  have hn := size_pos n
  cases n with
  | const i v => exact size_newConst _ (by omega) (by omega)
  | var i s k => exact size_newConst _ (by omega) (by omega)
  | add i args => exact size_newConst _ (by omega) (by omega)
  | cos i a =>
    have ha := size_pos a
    simp only [partialN]
    refine .ite (fun _ => (size_sinN a).bind fun s hs => (size_negN s).weaken fun r hr => ?_) fun _ => size_newConst _ (by omega) (by omega)
    have h1 := hs.1; have h2 := hs.2
    exact hr.mono (by simp only [Node.size]; omega) (by simp only [Node.size]; omega)
  | sin i a =>
    simp only [partialN]
    exact .ite (fun _ => (size_cosN a).weaken fun r hr => hr.mono (by simp only [Node.size]; omega) (by simp only [Node.size]; omega)) fun _ => size_newConst _ (by omega) (by omega)
  | mul i a b =>
    have ha := width_size a
    have hb := width_size b
    simp only [partialN]
    exact .ite (fun _ => .pure ⟨by simp only [Node.size]; omega, by simp only [Node.size]; omega⟩) fun _ =>
      .ite (fun _ => .pure ⟨by simp only [Node.size]; omega, by simp only [Node.size]; omega⟩) fun _ => size_newConst _ (by omega) (by omega)
  | div i a b =>
    have ha := width_size a
    have hb := width_size b
    simp only [partialN]
    refine .ite (fun _ => (size_sDiv one b).weaken fun r hr => hr.mono (by simp only [Node.size]; omega) (by simp only [Node.size]; omega)) fun _ => .ite (fun _ => ?_)
      fun _ => size_newConst _ (by omega) (by omega)
    refine (size_negN a).bind fun na hna => (size_mulN b b (Nat.le_refl _) (Nat.le_refl _)).bind fun bb hbb => (size_divN na bb).weaken fun r hr => hr.mono ?_ ?_
    · have := hna.1; have := hbb.1; simp only [Node.size]; omega
    · have := hna.2; simp only [Node.size]; omega

theorem size_pathProd {s : Nat} {path : List (Node F)} (hp : ArgPath path) : ∀ {prod e : Node F} {rest : List (Node F)}, path = e :: rest → e.size ≤ s → prod.width ≤ s →
    Post (pathProd prod path) (fun r => r.size ≤ prod.size + 6 * s * (e.depth - 1)) := by
  induction path with
  | nil => intro _ _ _ h; cases h
  | cons a path ih =>
    intro prod e rest he hs hw
    obtain ⟨rfl, rfl⟩ := List.cons.inj he
    cases path with
    | nil => exact .pure (by omega)
    | cons b path =>
      obtain ⟨hab, -, hp'⟩ := hp
      have hb := depth_arg hab
      have hbs := size_arg hab
      have hbp := depth_pos b
      simp only [pathProd]
      refine (size_partialN a b).bind fun p hpd => (size_mulN prod p (w := s) hw (hpd.2.trans hs)).bind fun q hq => (ih hp' rfl (by omega) hq.2).weaken fun r hr => ?_
      have h1 := hpd.1; have h2 := hq.1
      have h3 : 6 * s * (b.depth - 1) + 6 * s ≤ 6 * s * (a.depth - 1) := by
        rw [← Nat.mul_succ]; exact Nat.mul_le_mul_left _ (by omega)
      omega

theorem size_pathSum {e : Node F} (ps : List (List (Node F))) (hp : ∀ p ∈ ps, ArgPath p ∧ ∃ t, p = e :: t) : ∀ d : Node F,
    Post (pathSum d ps) (fun r => r.size ≤ d.size + ps.length * (3 + 6 * e.size * (e.depth - 1))) := by
  have hpos := size_pos e
  induction ps with
  | nil => intro d; exact .pure (by simp)
  | cons p ps ih =>
    intro d
    obtain ⟨h1, t, ht⟩ := hp p (by simp)
    simp only [pathSum]
    refine (size_newConst one (s := 1) (w := 1) (by omega) (by omega)).bind fun k hk => (size_pathProd h1 (prod := k) ht (Nat.le_refl _) (by have := hk.2; omega)).bind fun q hq =>
      (size_addN d q).bind fun d' hd' => (ih (fun p hp' => hp p (by simp [hp'])) d').weaken fun r hr => ?_
    have := hk.1
    rw [List.length_cons, Nat.succ_mul]
    omega

theorem size_derivatives {H : HashOrder} (e : Node F) (vars : List (Node F)) :
    Post (derivatives H e vars) (fun ds => ∀ p ∈ ds, p.2.size ≤ 1 + occurrences p.1 e * (3 + 6 * e.size * (e.depth - 1))) := by
  intro n r m h
  obtain ⟨-, vs, -, h1⟩ := derivatives_ok h
  refine Post.mapL (P := fun p : Node F × Node F => p.2.size ≤ 1 + occurrences p.1 e * (3 + 6 * e.size * (e.depth - 1))) (fun v _ => ?_) _ _ _ h1
  refine (size_newConst zero (s := 1) (w := 1) (by omega) (by omega)).bind fun d0 hd0 => (size_pathSum (e := e) _ (fun p hp => ?_) d0).bind fun d hd => .pure ?_
  · have hm := (List.mem_filter.1 hp).1
    exact ⟨dfs_argPath e p hm, dfs_head hm⟩
  · rw [dfs_count] at hd
    have := hd0.1
    simp only; omega

theorem derivBound_mono {s t : Nat} (h : s ≤ t) : derivBound s ≤ derivBound t := by
  unfold derivBound
  have := Nat.mul_le_mul h (Nat.add_le_add_left (Nat.mul_le_mul_left 6 (Nat.mul_le_mul h h)) 3)
  omega

theorem deriv_le_bound (x e : Node F) : 1 + occurrences x e * (3 + 6 * e.size * (e.depth - 1)) ≤ derivBound e.size := by
  unfold derivBound
  have h1 := occurrences_size x e
  have h2 := depth_size e
  have h3 : 6 * e.size * (e.depth - 1) ≤ 6 * (e.size * e.size) := by
    rw [Nat.mul_assoc]
    exact Nat.mul_le_mul_left _ (Nat.mul_le_mul_left _ (by omega))
  exact Nat.add_le_add_left (Nat.mul_le_mul h1 (Nat.add_le_add_left h3 3)) 1

theorem le_derivBound (s : Nat) : s ≤ derivBound s := by
  unfold derivBound
  have : s * 1 ≤ s * (3 + 6 * (s * s)) := Nat.mul_le_mul_left _ (by omega)
  omega

theorem getN_size {ds : List (Node F × Node F)} {d : Nat} (h : ∀ p ∈ ds, p.2.size ≤ d) {x y : Node F} (hy : getN ds x = some y) : y.size ≤ d := by
  induction ds with
  | nil => cases hy
  | cons p ds ih =>
    simp only [getN] at hy
    split at hy
    · cases hy; exact h p (by simp)
    · exact ih (fun q hq => h q (by simp [hq])) hy

theorem size_hessRow {v : Node F} {dd : List (Node F × Node F)} {d : Nat} (h : ∀ p ∈ dd, p.2.size ≤ d) (vs : List (Node F)) :
    Post (hessRow v dd vs) (fun row => ∀ e ∈ row, e.2.2.size ≤ d) := by
  induction vs with
  | nil => exact .pure (by simp)
  | cons w vs ih =>
    simp only [hessRow]
    refine (dpost_unwrapM (P := fun e => e.size ≤ d) fun a ha => getN_size h ha).bind fun e he => ih.bind fun rest hr => .pure ?_
    split
    · exact hr
    · intro x hx
      rcases List.mem_cons.1 hx with rfl | hx
      · exact he
      · exact hr x hx

theorem size_hessLoop {H : HashOrder} {ds : List (Node F × Node F)} {d : Nat} (h : ∀ p ∈ ds, p.2.size ≤ d) (vs : List (Node F)) :
    Post (hessLoop H ds vs) (fun r => (∀ e ∈ r.1, e.2.size ≤ d) ∧ ∀ e ∈ r.2, e.2.2.size ≤ derivBound d) := by
  induction vs with
  | nil => exact .pure (by simp)
  | cons v vs ih =>
    simp only [hessLoop]
    refine (dpost_unwrapM (P := fun e => e.size ≤ d) fun a ha => getN_size h ha).bind fun e he => (size_derivatives e _).bind fun dd hdd =>
      (size_hessRow (d := derivBound d) (fun p hp => ((hdd p hp).trans (deriv_le_bound p.1 e)).trans (derivBound_mono he)) _).bind fun row hrow => ih.bind fun rest hrest => .pure ⟨?_, ?_⟩
    · intro x hx
      rcases List.mem_cons.1 hx with rfl | hx
      · exact he
      · exact hrest.1 x hx
    · intro x hx
      rcases List.mem_append.1 hx with hx | hx
      · exact hrow x hx
      · exact hrest.2 x hx

theorem size_nodeComponents {H : HashOrder} (e : Node F) : Post (e.stdComponents H) (fun c => c.phi = e ∧ (∀ p ∈ c.gphi, p.2.size ≤ derivBound e.size) ∧
    ∀ p ∈ c.hphi, p.2.2.size ≤ derivBound (derivBound e.size)) := by
  unfold Node.stdComponents
  have hit : ∀ {α : Type} (l : List α), Post (H.iter l) (fun _ => True) := fun l n a m _ => trivial
  have hb : 1 ≤ derivBound e.size := by unfold derivBound; omega
  refine .ite (fun _ => (hit _).bind fun es _ => (Post.mapL (P := fun p : Node F × Node F => p.2.size ≤ derivBound e.size) fun kv _ => ?_).bind fun g hg => .pure ⟨rfl, hg, by simp⟩)
    fun _ => (hit _).bind fun vs _ => (size_derivatives e vs).bind fun ds hds => (size_hessLoop (fun p hp => (hds p hp).trans (deriv_le_bound p.1 e)) vs).bind fun gh hgh => .pure ⟨rfl, hgh.1, hgh.2⟩
  exact (size_newConst _ (s := 1) (w := 1) (by omega) (by omega)).bind fun k hk => .pure (hk.1.trans hb)

/-- The functions of a constraint are at most that long. -/
def ConstrComp.SizeIn (d : Nat) (c : ConstrComp F) : Prop :=
  (∀ e ∈ c.f, e.size ≤ d) ∧ (∀ e ∈ c.j, e.2.2.size ≤ d) ∧ ∀ h ∈ c.h, ∀ e ∈ h, e.2.2.size ≤ d

theorem ConstrComp.SizeIn.append {p q : ConstrComp F} {d : Nat} (hp : p.SizeIn d) (hq : q.SizeIn d) : (p.append q).SizeIn d := by
  obtain ⟨a1, a2, a3⟩ := hp
  obtain ⟨b1, b2, b3⟩ := hq
  refine ⟨fun e he => ?_, fun e he => ?_, fun e he => ?_⟩ <;> rcases List.mem_append.1 he with he | he
  · exact a1 e he
  · exact b1 e he
  · exact a2 e he
  · exact b2 e he
  · exact a3 e he
  · exact b3 e he

theorem size_constrComponents {H : HashOrder} {c : Constraint F} {s : Nat} (h1 : c.lhs.size ≤ s) (h2 : c.rhs.size ≤ s) (arow jrow : Nat) :
    Post (c.stdComponents H arow jrow) (fun r => r.1.SizeIn (derivBound (derivBound (4 * s + 7)))) := by
  have hit : ∀ {α : Type} (l : List α), Post (H.iter l) (fun _ => True) := fun l n a m _ => trivial
  have h0 : ∀ cc : ConstrComp F, cc.f = [] → cc.j = [] → cc.h = [] → cc.SizeIn (derivBound (derivBound (4 * s + 7))) := by
    intro cc e1 e2 e3
    unfold ConstrComp.SizeIn
    rw [e1, e2, e3]; simp
  have b1 := le_derivBound (derivBound (4 * s + 7))
  have b2 := le_derivBound (4 * s + 7)
  unfold Constraint.stdComponents
  refine (size_subN c.lhs c.rhs).bind fun exp hexp => (size_nodeComponents exp).bind fun comp hc => ?_
  obtain ⟨hphi, hg, hh⟩ := hc
  have b3 : derivBound exp.size ≤ derivBound (4 * s + 7) := derivBound_mono (by omega)
  have b4 := derivBound_mono b3
  simp only
  split
  · split <;> exact .pure (h0 _ rfl rfl rfl)
  · refine .ite (fun _ => ?_) fun _ => ?_
    · split
      · exact (hit _).bind fun es _ => .pure (h0 _ rfl rfl rfl)
      · exact (size_newVar _ _).bind fun s _ => (hit _).bind fun es _ => .pure (h0 _ rfl rfl rfl)
    · split
      · refine .pure ⟨?_, ?_, ?_⟩
        · simp only [List.mem_singleton, forall_eq, hphi]; omega
        · simp only [List.mem_map]
          rintro _ ⟨e, he, rfl⟩
          exact (hg e he).trans (by omega)
        · simp only [List.mem_singleton, forall_eq]
          exact fun e he => (hh e he).trans (by omega)
      · refine (size_newVar _ _).bind fun sl hs => (size_subN comp.phi sl).bind fun f hf => (size_newConst _ (s := 1) (w := 1) (by omega) (by omega)).bind fun m1 hm1 => .pure ⟨?_, ?_, ?_⟩
        · rw [hphi] at hf
          simp only [List.mem_singleton, forall_eq]; omega
        · intro e he
          rcases List.mem_append.1 he with he | he
          · obtain ⟨e0, he0, rfl⟩ := List.mem_map.1 he
            exact (hg e0 he0).trans (by omega)
          · rw [List.mem_singleton.1 he]; have := hm1.1; simp only; omega
        · simp only [List.mem_singleton, forall_eq]
          exact fun e he => (hh e he).trans (by omega)

theorem size_constrLoop {H : HashOrder} {s : Nat} (cs : List (Constraint F)) : ∀ {st : ConstrComp F × Nat × Nat}, (∀ c ∈ cs, c.lhs.size ≤ s ∧ c.rhs.size ≤ s) →
    st.1.SizeIn (derivBound (derivBound (4 * s + 7))) → Post (constrLoop H st cs) (fun r => r.1.SizeIn (derivBound (derivBound (4 * s + 7)))) := by
  induction cs with
  | nil => intro st _ hs; exact .pure hs
  | cons c cs ih =>
    intro st hc hs
    simp only [constrLoop]
    exact (size_constrComponents (hc c (by simp)).1 (hc c (by simp)).2 _ _).bind fun r hr => ih (fun c hc' => hc c (by simp [hc'])) (hs.append hr)

theorem size_modelComponents {H : HashOrder} {m : Model F} {s : Nat} (hm : m.SizeIn s) : Post (m.stdComponents H) (fun c => c.SizeIn (derivBound (derivBound (4 * s + 7)))) := by
  unfold Model.stdComponents
  have b1 := le_derivBound (derivBound (4 * s + 7))
  have b2 := le_derivBound (4 * s + 7)
  have hobj : Post (m.objComponents H) (fun c => c.phi.size ≤ derivBound (derivBound (4 * s + 7)) ∧ (∀ e ∈ c.gphi, e.2.size ≤ derivBound (derivBound (4 * s + 7))) ∧
      ∀ e ∈ c.hphi, e.2.2.size ≤ derivBound (derivBound (4 * s + 7))) := by
    have key : ∀ {e : Node F}, e.size ≤ 4 * s + 7 → Post (e.stdComponents H) (fun c => c.phi.size ≤ derivBound (derivBound (4 * s + 7)) ∧
        (∀ e ∈ c.gphi, e.2.size ≤ derivBound (derivBound (4 * s + 7))) ∧ ∀ e ∈ c.hphi, e.2.2.size ≤ derivBound (derivBound (4 * s + 7))) :=
      fun {e} he => (size_nodeComponents e).weaken fun c hc => ⟨by rw [hc.1]; omega, fun p hp => (hc.2.1 p hp).trans ((derivBound_mono he).trans b1),
        fun p hp => (hc.2.2 p hp).trans (derivBound_mono (derivBound_mono he))⟩
    unfold Model.objComponents
    cases ho : m.objective with
    | empty => exact (size_newConst _ (s := 1) (w := 1) (by omega) (by omega)).bind fun e he => key (by have := he.1; omega)
    | minimize f => exact key (by have := hm.1 f (.inl ho); omega)
    | maximize f => exact (size_negN f).bind fun e he => key (by have := hm.1 f (.inr ho); have := he.1; have := width_size f; omega)
  refine hobj.bind fun obj ho => (size_constrLoop m.constraints (s := s) hm.2 ?_).bind fun r hr => .pure ⟨ho.1, ho.2.1, ho.2.2, hr⟩
  exact ⟨by simp [ConstrComp.empty], by simp [ConstrComp.empty], by simp [ConstrComp.empty]⟩

end

end Verif
