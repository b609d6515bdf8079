import Verif.Proofs.RoundingGradLin64
import Verif.Props.ModelStd3
import Verif.Proofs.SumFormW

/-! # Gradients and Jacobians of the standard problem, in double precision -/

set_option linter.unusedSectionVars false
set_option linter.unusedSimpArgs false

namespace Verif

theorem ReachableApiW.factsNoSelfG {F : Type} [FloatOps F] {H : HashOrder} {W : World F} {n m : ℕ} {sp : StdProb F} (hr : ReachableApiW H W n)
    (hs : W.m.NoSelfDiv) (h : W.m.stdProblem H n = .ok (sp, m)) :
    ∃ hp k comp e ps cols xes ves, SpFacts H .noSelf hp n k W.m comp e ps cols xes ves sp := by
  obtain ⟨h0, hw⟩ := hr.inv
  have hm : ModelGood .noSelf h0 W.m := ⟨fun f hf => (hw.model.min f hf).strengthen (hs.1 f (.inl hf)),
    fun f hf => (hw.model.max f hf).strengthen (hs.1 f (.inr hf)),
    fun c hc => ⟨(hw.model.cs c hc).1.strengthen (hs.2 c hc).1, (hw.model.cs c hc).2.strengthen (hs.2 c hc).2⟩⟩
  obtain ⟨h1, -, -, -, k, comp, e, ps, cols, xes, ves, hf, -⟩ := spec_stdProblem (H := H) hw.heap hm hw.initNd sp m h
  exact ⟨h1, k, comp, e, ps, cols, xes, ves, hf⟩

namespace R64

variable [Libm] {σ : Env F64} {t : ℕ → ℝ} {κ : ℕ}

/-- The error bound of a derivative. -/
noncomputable def dErr (ops : ℕ) (size : ℝ) : ℝ := ((1 + uD) ^ (2 * (ops + 1)) - 1) * size

theorem dErr_mono {a b : ℕ} {s : ℝ} (h : a ≤ b) (hs : 0 ≤ s) : dErr a s ≤ dErr b s := by
  refine mul_le_mul_of_nonneg_right ?_ hs
  have := pow_le_pow_right₀ (show (1 : ℝ) ≤ 1 + uD by linarith [uD_nonneg]) (show 2 * (a + 1) ≤ 2 * (b + 1) by omega)
  linarith

theorem gradV_absent {x : ℕ} (e : Node F64) (h : ∀ y, y.isVar = true → Occurs y e → y.id ≠ x) : gradV t x e = 0 ∧ (e.gradSize t κ x).terms = 0 := by
  induction e using Node.ind_args with
  | step e ih =>
    have ih' : ∀ a ∈ e.arguments, gradV t x a = 0 ∧ (a.gradSize t κ x).terms = 0 := fun a ha =>
      ih a ha fun y hy ho => h y hy (.arg ha ho)
    cases e with
    | const => exact ⟨rfl, rfl⟩
    | var i s k =>
      have := h _ rfl (.refl _)
      simp only [Node.id] at this
      simp [gradV, Node.gradSize, this, GradSize.none]
    | add i args =>
      simp only [Node.arguments] at ih'
      simp only [gradV, Node.gradSize]
      clear h ih
      induction args with
      | nil => exact ⟨rfl, rfl⟩
      | cons a as ih2 =>
        obtain ⟨h1, h2⟩ := ih' a (by simp)
        obtain ⟨h3, h4⟩ := ih2 fun b hb => ih' b (by simp [hb])
        simp only [gradV.gradVs, Node.gradSize.sumL, GradSize.add, GradSize.times, h1, h2, h3, h4]
        simp
    | cos i a => obtain ⟨h1, h2⟩ := ih' a (by simp [Node.arguments]); simp [gradV, Node.gradSize, GradSize.times, h1, h2]
    | sin i a => obtain ⟨h1, h2⟩ := ih' a (by simp [Node.arguments]); simp [gradV, Node.gradSize, GradSize.times, h1, h2]
    | mul i a b =>
      obtain ⟨h1, h2⟩ := ih' a (by simp [Node.arguments])
      obtain ⟨h3, h4⟩ := ih' b (by simp [Node.arguments])
      simp [gradV, Node.gradSize, GradSize.times, GradSize.add, h1, h2, h3, h4]
    | div i a b =>
      obtain ⟨h1, h2⟩ := ih' a (by simp [Node.arguments])
      obtain ⟨h3, h4⟩ := ih' b (by simp [Node.arguments])
      simp [gradV, Node.gradSize, GradSize.times, GradSize.add, h1, h2, h3, h4]

/-- Each first derivative of the components. -/
theorem gphi_rep {H : HashOrder} {hp : Heap F64} {e : Node F64} (hg : Good .noSelf hp e) (hfl : FlatSums e) (ht : e.Tame σ t κ) {n m : ℕ} {c : NodeComp F64}
    (h : e.stdComponents H n = .ok (c, m)) {p : Node F64 × Node F64} (hp' : p ∈ c.gphi)
    (hs : 2 * (e.gradSize t κ p.1.id).size ≤ maxSize) (hk : (e.gradSize t κ p.1.id).ops < 2 ^ 52) :
    ∃ z, (p.2.evaluate σ).Is z ∧ |z - gradV t p.1.id e| ≤ dErr (e.gradSize t κ p.1.id).ops (e.gradSize t κ p.1.id).size := by
  have hkeys := stdProperties_keys e
  have hperm := stdComponents_gphi h
  have hmem : p.1 ∈ keysN e.stdProperties.a := hperm.mem_iff.1 (List.mem_map.2 ⟨p, hp', rfl⟩)
  obtain ⟨hv, ho⟩ := hkeys.2.1 p.1 hmem
  by_cases ha : Aff e
  · obtain ⟨-, -, -, es, hpe, hf⟩ := stdComponents_affine h ha
    obtain ⟨kv, hkv, h1, i, h2⟩ := derivatives_val.forall₂_mem_right hf p hp'
    have hin := hpe.mem_iff.1 hkv
    obtain ⟨z, hz, hap⟩ := aff_coef hv e hg (hg.sub ho) ha ht hs hk.le
    refine ⟨z, ?_, hap.1.trans ?_⟩
    · rw [h2]
      have : getN e.stdProperties.a p.1 = some kv.2 := getN_mem hkeys.1 (by rw [h1]; exact hin)
      have hc : coefIn p.1 e = kv.2 := by
        unfold coefIn Prop'.coefD
        rw [this]; rfl
      rw [hc] at hz
      exact hz
    · refine mul_le_mul_of_nonneg_right ?_ (gok _ _).nonneg
      have := pow_le_pow_right₀ (show (1 : ℝ) ≤ 1 + uD by linarith [uD_nonneg]) (show (e.gradSize t κ p.1.id).ops ≤ 2 * ((e.gradSize t κ p.1.id).ops + 1) by omega)
      linarith
  · obtain ⟨-, -, vars, derivs, k1, k2, hpe, hdv, h3⟩ := stdComponents_nonaffine h ha
    have hget := (hessLoop_ok h3).2.1 p hp'
    obtain ⟨x, hx, hxp⟩ := getN_some_iff hget
    obtain ⟨hvars, vs, hvs, hmap⟩ := derivatives_ok hdv
    have hid : x.id = p.1.id := by
      simp only [Node.ptrEq, Bool.and_eq_true, beq_iff_eq] at hxp
      exact hxp.2
    have hall := M.mapL_ok_forall hmap (P := fun v q => q.1 = v ∧ ∃ n0 k k', pathSum (.const n0 zero) ((dfs e).filter (endsAt v)) k = .ok (q.2, k')) (by
      intro v _ q n m hq
      simp only [M.bind_ok, newConst_ok, M.pure_ok] at hq
      obtain ⟨d0, k, ⟨rfl, rfl⟩, d, k', hd, rfl, rfl⟩ := hq
      exact ⟨rfl, _, _, _, hd⟩)
    obtain ⟨v, hvv, h1, n0, k, k', hd⟩ := derivatives_val.forall₂_mem_right hall _ hx
    simp only at h1 hd
    subst h1
    have hxv : x.isVar = true := hvars x (setOf_mem (hvs.mem_iff.1 hvv))
    rw [← hid] at hs hk ⊢
    exact derivative_rep hxv hg hfl ht hs hk rfl hd

end R64

section
variable [Libm] {H : HashOrder} {h : Heap F64} {n m : ℕ} {cols : List (Node F64)} {comp : ModelComp F64}
  {mod : Model F64} {e : Node F64} {ps : List (Piece F64)} {xes : List (Node F64 × F64)} {ves : List (Node F64 × ℕ)} {sp : StdProb F64}
  {σ : Env F64} {t : ℕ → ℝ} {κ : ℕ}

open R64

/-- A variable without a first derivative in the components does not occur. -/
theorem no_gphi {e : Node F64} {k k' : ℕ} {c : NodeComp F64} (hk : e.stdComponents H k = .ok (c, k')) (hg : Good .noSelf h e) {x : Node F64} (hgx : Good .noSelf h x)
    (hno : ∀ q ∈ c.gphi, q.1 ≠ x) (hgk : ∀ q ∈ c.gphi, Good .noSelf h q.1) : gradV t x.id e = 0 ∧ (e.gradSize t κ x.id).terms = 0 := by
  refine gradV_absent e fun y hy ho hid => ?_
  have : y = x := Good.eq_of_id (hg.sub ho) hgx hid
  subst this
  obtain ⟨z, hz, hzy⟩ := (stdProperties_keys e).2.2 y hy ho
  have hz' := (stdComponents_gphi hk).mem_iff.2 hz
  obtain ⟨q, hq, rfl⟩ := List.mem_map.1 hz'
  exact hno q hq (((hgk q hq).ptrEq_iff hgx).1 hzy)

/-- The objective gradient. -/
theorem SpFacts.grad64 (hf : SpFacts H .noSelf h n m mod comp e ps cols xes ves sp) (hfl : FlatSums e) (ht : e.Tame σ t κ) {x : Node F64} (hx : x ∈ cols)
    (hs : 2 * (e.gradSize t κ x.id).size ≤ maxSize) (hk : (e.gradSize t κ x.id).ops < 2 ^ 52) :
    ∃ z, F64.Is (valAt (comp.obj.gphi.map fun e => (e.1, e.2.evaluate σ)) zero x) z ∧
      |z - gradV t x.id e| ≤ dErr (e.gradSize t κ x.id).ops (e.gradSize t κ x.id).size := by
  obtain ⟨k, k', hko⟩ := hf.mf.objComp
  unfold valAt
  cases hg : getN (comp.obj.gphi.map fun e => (e.1, e.2.evaluate σ)) x with
  | some v =>
    obtain ⟨y, hy, hyx⟩ := getN_some_iff hg
    obtain ⟨p, hp, he⟩ := List.mem_map.1 hy
    simp only [Prod.mk.injEq] at he
    obtain ⟨rfl, rfl⟩ := he
    have := ((hf.cok.good _ (hf.cmpOk.gphi p hp)).ptrEq_iff (hf.cok.good _ hx)).1 hyx
    subst this
    exact gphi_rep hf.mf.goodE hfl ht hko hp hs hk
  | none =>
    refine ⟨0, F64.is_zero, ?_⟩
    have := (no_gphi (t := t) (κ := κ) hko hf.mf.goodE (hf.cok.good _ hx) ?_ fun q hq => hf.cok.good _ (hf.cmpOk.gphi q hq)).1
    · rw [this, sub_zero, abs_zero]
      refine mul_nonneg ?_ (gok _ _).nonneg
      have := one_le_pow₀ (n := 2 * ((e.gradSize t κ x.id).ops + 1)) (show (1 : ℝ) ≤ 1 + uD by linarith [uD_nonneg])
      linarith
    · rintro p hp rfl
      have := getN_none_iff.1 hg p.1 (List.mem_map.2 ⟨_, List.mem_map.2 ⟨p, hp, rfl⟩, rfl⟩)
      rw [ptrEq_refl] at this; cases this

/-- The slack's part of a derivative. -/
noncomputable def slackD64 (x : ℕ) : Option (Node F64) → ℝ
  | some s => if s.id = x then 1 else 0
  | none => 0

/-- The Jacobian of a nonlinear row: at most one entry for each column. -/
theorem SpFacts.jac64 (hf : SpFacts H .noSelf h n m mod comp e ps cols xes ves sp) {p : Piece F64} (hp : p ∈ ps) (hnl : p.isNl = true)
    (hfl : FlatSums p.exp) (ht : p.exp.Tame σ t κ) {x : Node F64} {i : ℕ} (hx : cols[i]? = some x)
    (hs : 2 * (p.exp.gradSize t κ x.id).size ≤ maxSize) (hk : (p.exp.gradSize t κ x.id).ops < 2 ^ 52) (r c : ℕ) :
    ((valMat r c (jacP cols comp.constr.j) σ).triplets.filter (fun e => e.1 == p.jrow && e.2.1 == i) = [] ∧
      gradV t x.id p.exp - slackD64 x.id p.slack = 0) ∨
    ∃ y z, (valMat r c (jacP cols comp.constr.j) σ).triplets.filter (fun e => e.1 == p.jrow && e.2.1 == i) = [(p.jrow, i, y)] ∧ F64.Is y z ∧
      |z - (gradV t x.id p.exp - slackD64 x.id p.slack)| ≤ dErr (p.exp.gradSize t κ x.id).ops (p.exp.gradSize t κ x.id).size := by
  obtain ⟨n', m', hn', -, hok⟩ := hf.mf.piece hp
  obtain ⟨k, k', hko⟩ := hok.comp
  obtain ⟨kc, hkc, hch⟩ := hf.mf.chain
  have hxm := List.mem_of_getElem? hx
  have hpc : ∀ {y : Node F64}, y.isVar = true → Occurs y p.exp → y ∈ cols := fun hv ho => (hf.mem _).2 (.inl ⟨hv, .inr ⟨p, hp, ho⟩⟩)
  have hsc : ∀ {s : Node F64}, p.slack = some s → s ∈ cols := fun hs => (hf.mem _).2 (.inr (List.mem_filterMap.2 ⟨p, hp, hs⟩))
  have hgk : ∀ q ∈ p.comp.gphi, q.1 ∈ cols := fun q hq => hpc (hok.gphiKeys hq).1 (hok.gphiKeys hq).2
  have hjk : ∀ q ∈ p.jac, q.1 ∈ cols := fun q hq => by
    rcases hok.jacKeys hq with ⟨a, b⟩ | a
    · exact hpc a b
    · exact hsc a
  have hgn : NodupP (keysN p.comp.gphi) := (stdProperties_keys p.exp).1.perm (stdComponents_gphi hko).symm
  have hgv : ∀ q ∈ p.comp.gphi, mod.HasVar q.1 := fun q hq => hf.mf.pieceVar hp (hok.gphiKeys hq).1 (hok.gphiKeys hq).2
  have hsn : ∀ {s : Node F64}, p.slack = some s → ∀ {y : Node F64}, y.isVar = true → Occurs y p.exp → y.id ≠ s.id := fun {s} hs {y} hy ho hid => by
    have : y = s := Good.eq_of_id (hok.goodExp.sub ho) (hf.cok.good _ (hsc hs)) hid
    subst this
    exact (hf.mf.slack_new (List.mem_filterMap.2 ⟨p, hp, hs⟩) (hf.mf.pieceVar hp hy ho)).2.2 rfl
  have hjn : NodupP (keysN p.jac) := by
    unfold Piece.jac
    split
    · exact hgn
    · rename_i s f m1 hkd
      have hs : p.slack = some s := by simp [Piece.slack, hkd]
      unfold keysN NodupP
      rw [List.map_append, List.pairwise_append]
      refine ⟨hgn, by simp, ?_⟩
      intro a ha b hb
      obtain ⟨q, hq, rfl⟩ := List.mem_map.1 ha
      simp only [List.map_cons, List.map_nil, List.mem_singleton] at hb
      subst hb
      exact (hf.mf.slack_new (List.mem_filterMap.2 ⟨p, hp, hs⟩) (hgv q hq)).1
    · simp [keysN, NodupP]
  obtain ⟨hi, hxi⟩ := List.getElem?_eq_some_iff.1 hx
  have hcol : colOf cols x = i := by rw [← hxi]; exact hf.cok.col_get hi
  have hiff : ∀ q ∈ p.jac, ((colOf cols q.1 == i) = true ↔ q.1 = x) := fun q hq => by
    rw [beq_iff_eq]
    exact ⟨fun h' => hf.cok.col_inj (hjk q hq) hxm (by rw [h', hcol]), fun h' => by rw [h', hcol]⟩
  have e1 : (valMat r c (jacP cols comp.constr.j) σ).triplets.filter (fun e => e.1 == p.jrow && e.2.1 == i) =
      (p.jac.filter fun q => colOf cols q.1 == i).map fun q => (p.jrow, colOf cols q.1, q.2.evaluate σ) := by
    rw [valMat_triplets, List.filter_map]
    simp only [Function.comp_def]
    have e2 : (jacP cols comp.constr.j).filter (fun e => e.1 == p.jrow && e.2.1 == i) =
        ((comp.constr.j.filter fun e => e.1 == p.jrow).filter fun e => colOf cols e.2.1 == i).map fun e => (e.1, colOf cols e.2.1, e.2.2) := by
      unfold jacP
      rw [List.filter_map, List.filter_filter]
      simp only [Function.comp_def]
      congr 1
      exact List.filter_congr fun e _ => by rw [Bool.and_comm]
    rw [e2, hf.mf.j_eq, hch.jrow_entries hp hnl, List.filter_map, List.map_map, List.map_map]
    simp only [Function.comp_def]
  rcases filter_unique (l := p.jac) (P := fun p => colOf cols p.1 == i) (by
    have hn' : p.jac.Pairwise fun a b => a.1.ptrEq b.1 = false := by
      unfold keysN NodupP at hjn
      rwa [List.pairwise_map] at hjn
    refine hn'.imp_of_mem ?_
    rintro a b ha hb hab ⟨h1, h2⟩
    rw [(hiff a ha).1 h1, (hiff b hb).1 h2, ptrEq_refl] at hab
    cases hab) with he | ⟨q, hq, h1, he⟩
  · left
    rw [e1, he]
    refine ⟨rfl, ?_⟩
    have hno : ∀ q ∈ p.jac, q.1 ≠ x := fun q hq hqx => List.filter_eq_nil_iff.1 he q hq ((hiff q hq).2 hqx)
    have hsl : slackD64 x.id p.slack = 0 := by
      cases hs : p.slack with
      | none => rfl
      | some s =>
        simp only [slackD64]
        rw [if_neg]
        intro hid
        have hsx : s = x := Good.eq_of_id (hf.cok.good _ (hsc hs)) (hf.cok.good _ hxm) hid
        cases hkd : p.kind with
        | nlIneq s' f m1 =>
          simp only [Piece.slack, hkd, Option.some.injEq] at hs
          refine hno (s', m1) ?_ (by rw [hs, hsx])
          simp [Piece.jac, hkd]
        | _ => simp [Piece.isNl, Piece.slack, hkd] at hnl hs
    rw [hsl, sub_zero]
    refine (no_gphi (t := t) (κ := κ) hko hok.goodExp (hf.cok.good _ hxm) (fun q hq => ?_) fun q hq => hf.cok.good _ (hgk q hq)).1
    refine hno q ?_
    cases hkd : p.kind with
    | nlEq => simp [Piece.jac, hkd, hq]
    | nlIneq s' f m1 => simp [Piece.jac, hkd, hq]
    | _ => simp [Piece.isNl, hkd] at hnl
  · right
    have hqx := (hiff q hq).1 h1
    rw [e1, he, List.map_singleton]
    subst hqx
    rw [hcol]
    have hcase : (q ∈ p.comp.gphi ∧ slackD64 q.1.id p.slack = 0) ∨ (p.slack = some q.1 ∧ ∃ i', q.2 = .const i' negOne) := by
      unfold Piece.jac at hq
      split at hq
      · rename_i hkd
        exact .inl ⟨hq, by simp [Piece.slack, hkd, slackD64]⟩
      · rename_i s f m1 hkd
        have hs2 : p.slack = some s := by simp [Piece.slack, hkd]
        rcases List.mem_append.1 hq with hq | hq
        · refine .inl ⟨hq, ?_⟩
          rw [hs2]
          simp only [slackD64]
          rw [if_neg (fun hid => hsn hs2 (hok.gphiKeys hq).1 (hok.gphiKeys hq).2 hid.symm)]
        · simp only [List.mem_singleton] at hq
          subst hq
          obtain ⟨-, -, i', rfl⟩ := hok.nlIneq s f m1 hkd
          exact .inr ⟨hs2, i', rfl⟩
      · simp at hq
    rcases hcase with ⟨hq', h0⟩ | ⟨hs', i', h0⟩
    · obtain ⟨z, hz, hb⟩ := gphi_rep hok.goodExp hfl ht hko hq' hs hk
      refine ⟨_, z, rfl, hz, ?_⟩
      rw [h0, sub_zero]; exact hb
    · obtain ⟨h2, h3⟩ := gradV_absent (t := t) (κ := κ) (x := q.1.id) p.exp fun y hy ho => hsn hs' hy ho
      refine ⟨_, -1, rfl, ?_, ?_⟩
      · rw [h0]; exact F64.is_negOne
      · rw [h2, hs']
        simp only [slackD64, if_true]
        simp only [zero_sub, sub_self, abs_zero]
        refine mul_nonneg ?_ (gok _ _).nonneg
        have := one_le_pow₀ (n := 2 * ((p.exp.gradSize t κ q.1.id).ops + 1)) (show (1 : ℝ) ≤ 1 + uD by linarith [uD_nonneg])
        linarith

end

end Verif
