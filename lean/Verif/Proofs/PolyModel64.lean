import Verif.Spec.PolyModel64
import Verif.Proofs.PolyStd64

/-! # Integer polynomials in nonlinear models: entries of the standard problem -/

set_option linter.unusedSectionVars false
set_option linter.unusedSimpArgs false

namespace Verif

open MvPolynomial P64

section
variable [Libm] {l : Level} {h : Heap F64} {cols : List (Node F64)} {σ : Env F64}

theorem grad_entryD (hc : ColsOk l h cols) {gs : List (Node F64 × Node F64)} (hk : ∀ p ∈ gs, p.1 ∈ cols) {v : ℚ} {x : Node F64} (hx : x ∈ cols)
    (hv : ∀ p ∈ gs, p.1 = x → (p.2.evaluate σ).HasValue v) (h0 : (∀ p ∈ gs, p.1 ≠ x) → v = 0) :
    F64.HasValue (valAt (gs.map fun e => (e.1, e.2.evaluate σ)) zero x) v := by
  unfold valAt
  cases hg : getN (gs.map fun e => (e.1, e.2.evaluate σ)) x with
  | some v =>
    obtain ⟨y, hy, hyx⟩ := getN_some_iff hg
    obtain ⟨p, hp, he⟩ := List.mem_map.1 hy
    simp only [Prod.mk.injEq] at he
    obtain ⟨rfl, rfl⟩ := he
    exact hv p hp (((hc.good _ (hk p hp)).ptrEq_iff (hc.good _ hx)).1 hyx)
  | none =>
    rw [h0]
    · exact F64.zero_value
    · rintro p hp rfl
      have := getN_none_iff.1 hg p.1 (List.mem_map.2 ⟨_, List.mem_map.2 ⟨p, hp, rfl⟩, rfl⟩)
      rw [ptrEq_refl] at this; cases this

theorem jac_entryD (hc : ColsOk l h cols) {gs : List (Node F64 × Node F64)} (hk : ∀ p ∈ gs, p.1 ∈ cols) (hn : NodupP (keysN gs)) {v : ℚ}
    {x : Node F64} {i : ℕ} (hx : cols[i]? = some x) (hv : ∀ p ∈ gs, p.1 = x → (p.2.evaluate σ).HasValue v) (h0 : (∀ p ∈ gs, p.1 ≠ x) → v = 0) :
    F64.HasValue (total ((gs.filter fun p => colOf cols p.1 == i).map fun p => p.2.evaluate σ)) v := by
  obtain ⟨hi, hxi⟩ := List.getElem?_eq_some_iff.1 hx
  have hcol : colOf cols x = i := by rw [← hxi]; exact hc.col_get hi
  have hxm := List.mem_of_getElem? hx
  have hiff : ∀ p ∈ gs, ((colOf cols p.1 == i) = true ↔ p.1 = x) := fun p hp => by
    rw [beq_iff_eq]
    exact ⟨fun h' => hc.col_inj (hk p hp) hxm (by rw [h', hcol]), fun h' => by rw [h', hcol]⟩
  rcases filter_unique (l := gs) (P := fun p => colOf cols p.1 == i) (by
    have hn' : gs.Pairwise fun a b => a.1.ptrEq b.1 = false := by
      unfold keysN NodupP at hn
      rwa [List.pairwise_map] at hn
    refine hn'.imp_of_mem ?_
    rintro a b ha hb hab ⟨h1, h2⟩
    rw [(hiff a ha).1 h1, (hiff b hb).1 h2, ptrEq_refl] at hab
    cases hab) with he | ⟨p, hp, h1, he⟩
  · rw [he, h0]
    · exact F64.zero_value
    · intro p hp hpx
      exact List.filter_eq_nil_iff.1 he p hp ((hiff p hp).2 hpx)
  · rw [he, List.map_singleton, total_single]
    exact hv p hp ((hiff p hp).1 h1)

theorem hess_entryD (hc : ColsOk l h cols) {es : List (Node F64 × Node F64 × Node F64)} (hk : ∀ p ∈ es, p.1 ∈ cols ∧ p.2.1 ∈ cols)
    (hn : es.Pairwise fun p q => ¬ samePair p.1 p.2.1 q.1 q.2.1) {v : ℚ} {x y : Node F64} {i j : ℕ} (hx : cols[i]? = some x) (hy : cols[j]? = some y)
    (hij : j ≤ i) (hv : ∀ p ∈ es, (p.1 = x ∧ p.2.1 = y) ∨ (p.1 = y ∧ p.2.1 = x) → (p.2.2.evaluate σ).HasValue v)
    (h0 : (∀ p ∈ es, ¬ ((p.1 = x ∧ p.2.1 = y) ∨ (p.1 = y ∧ p.2.1 = x))) → v = 0) (r c : ℕ) :
    F64.HasValue ((valMat r c (hessP cols es) σ).dense i j) v := by
  obtain ⟨hi, hxi⟩ := List.getElem?_eq_some_iff.1 hx
  obtain ⟨hj, hyj⟩ := List.getElem?_eq_some_iff.1 hy
  have hcx : colOf cols x = i := by rw [← hxi]; exact hc.col_get hi
  have hcy : colOf cols y = j := by rw [← hyj]; exact hc.col_get hj
  have hxm := List.mem_of_getElem? hx
  have hym := List.mem_of_getElem? hy
  let g := fun e : Node F64 × Node F64 × Node F64 =>
    if colOf cols e.1 ≥ colOf cols e.2.1 then (colOf cols e.1, colOf cols e.2.1, e.2.2) else (colOf cols e.2.1, colOf cols e.1, e.2.2)
  have hg2 : ∀ e, (g e).2.2 = e.2.2 := by intro e; simp only [g]; split <;> rfl
  have hiff : ∀ p ∈ es, (((g p).1 == i && (g p).2.1 == j) = true ↔ (p.1 = x ∧ p.2.1 = y) ∨ (p.1 = y ∧ p.2.1 = x)) := fun p hp => by
    obtain ⟨k1, k2⟩ := hk p hp
    have e1 : ∀ {a b}, a ∈ cols → b ∈ cols → (colOf cols a = colOf cols b ↔ a = b) := fun ha hb =>
      ⟨hc.col_inj ha hb, fun h' => by rw [h']⟩
    rw [← e1 k1 hxm, ← e1 k1 hym, ← e1 k2 hxm, ← e1 k2 hym, hcx, hcy]
    simp only [g, Bool.and_eq_true, beq_iff_eq]
    split <;> simp only <;> omega
  have hsame : ∀ p q : Node F64 × Node F64 × Node F64, (p.1 = x ∧ p.2.1 = y) ∨ (p.1 = y ∧ p.2.1 = x) →
      (q.1 = x ∧ q.2.1 = y) ∨ (q.1 = y ∧ q.2.1 = x) → samePair p.1 p.2.1 q.1 q.2.1 := by
    rintro p q (⟨a, b⟩ | ⟨a, b⟩) (⟨c, d⟩ | ⟨c, d⟩) <;> rw [a, b, c, d] <;> simp [samePair, ptrEq_refl]
  rw [valMat_dense]
  have : hessP cols es = es.map g := rfl
  rw [this, List.filter_map, List.map_map]
  rcases filter_unique (l := es) (P := fun p => (g p).1 == i && (g p).2.1 == j) (by
    refine hn.imp_of_mem ?_
    rintro a b ha hb hab ⟨h1, h2⟩
    exact hab (hsame a b ((hiff a ha).1 h1) ((hiff b hb).1 h2))) with he | ⟨p, hp, h1, he⟩
  · simp only [Function.comp_def]
    rw [he, h0]
    · exact F64.zero_value
    · intro p hp hs
      exact List.filter_eq_nil_iff.1 he p hp ((hiff p hp).2 hs)
  · simp only [Function.comp_def]
    rw [he, List.map_singleton, total_single, hg2]
    exact hv p hp ((hiff p hp).1 h1)

theorem hess_lowerD {es : List (Node F64 × Node F64 × Node F64)} {r c : ℕ} : ∀ t ∈ (valMat r c (hessP cols es) σ).triplets, t.2.1 ≤ t.1 := by
  intro t ht
  rw [valMat_triplets] at ht
  obtain ⟨e, he, rfl⟩ := List.mem_map.1 ht
  obtain ⟨p, -, rfl⟩ := List.mem_map.1 he
  simp only
  split <;> simp only <;> omega

end

section
variable [Libm] {H : HashOrder} {l : Level} {h : Heap F64} {n m : ℕ} {cols : List (Node F64)} {comp : ModelComp F64}
  {mod : Model F64} {e : Node F64} {ps : List (Piece F64)} {xes : List (Node F64 × F64)} {ves : List (Node F64 × ℕ)} {sp : StdProb F64}
  {σ : Env F64} {z : ℕ → ℤ} {P : MvPolynomial ℕ ℤ} {A : MvPolynomial ℕ ℕ}

/-- The second components: at most one entry for each pair. -/
theorem hphi_pairs {e : Node F64} {k k' : ℕ} {c : NodeComp F64} (h : e.stdComponents H k = .ok (c, k')) :
    c.hphi.Pairwise fun p q => ¬ samePair p.1 p.2.1 q.1 q.2.1 := by
  by_cases ha : Aff e
  · rw [(stdComponents_affine h ha).2.2.1]; exact .nil
  · obtain ⟨-, -, vars, derivs, k1, k2, hpe, hdv, h3⟩ := stdComponents_nonaffine h ha
    exact (hessLoop_ok h3).2.2.2.2 ((stdProperties_keys e).1.perm hpe.symm)

/-- Columns have the values `z`. -/
def ColVals (cols : List (Node F64)) (σ : Env F64) (z : ℕ → ℤ) : Prop := ∀ x ∈ cols, ∃ a, σ x.id = some a ∧ a.HasValue ((z x.id : ℤ) : ℚ)

theorem small_sum_of {A : MvPolynomial ℕ ℕ} (h : SmallAt z A) : SmallSum A := by
  refine le_trans ?_ h
  rw [eval_eq, eval_eq]
  refine Finset.sum_le_sum fun d _ => Nat.mul_le_mul_left _ ?_
  refine Finset.prod_le_prod (fun _ _ => by simp) fun i _ => ?_
  exact Nat.pow_le_pow_left (le_max_left _ _) _

theorem dom_smallAt {A B : MvPolynomial ℕ ℕ} (h : Dom A B) (hs : SmallAt z B) : SmallAt z A := (h.eval _).trans hs

/-- Everything that is known about one function of the problem: its columns, its components and its polynomial. -/
structure FnFacts (H : HashOrder) (l : Level) (h : Heap F64) (cols : List (Node F64)) (c : NodeComp F64) (e : Node F64) (P : MvPolynomial ℕ ℤ)
    (A B : MvPolynomial ℕ ℕ) : Prop where
  cok : ColsOk l h cols
  good : Good l h e
  goodG : ∀ q ∈ c.gphi, Good l h q.2
  comp : ∃ k k', e.stdComponents H k = .ok (c, k')
  gk : ∀ q ∈ c.gphi, q.1 ∈ cols
  hk : ∀ q ∈ c.hphi, q.1 ∈ cols ∧ q.2.1 ∈ cols
  occ : ∀ x, x.isVar = true → Occurs x e → x ∈ cols
  dom : Dom B A
  rep : P64.Rep e P B
  vars : ∀ i ∈ B.vars, ∃ y ∈ cols, y.id = i

theorem FnFacts.of {c : NodeComp F64} (hc : ColsOk l h cols) (hg : Good l h e) (hgg : ∀ q ∈ c.gphi, Good l h q.2) (hcomp : ∃ k k', e.stdComponents H k = .ok (c, k'))
    (gk : ∀ q ∈ c.gphi, q.1 ∈ cols) (hk : ∀ q ∈ c.hphi, q.1 ∈ cols ∧ q.2.1 ∈ cols) (occ : ∀ x, x.isVar = true → Occurs x e → x ∈ cols) (hr : P64.Rep e P A) :
    ∃ B, FnFacts H l h cols c e P A B := by
  obtain ⟨B, h1, h2, h3⟩ := hr.tight
  refine ⟨B, hc, hg, hgg, hcomp, gk, hk, occ, h1, h2, fun i hi => ?_⟩
  obtain ⟨y, hy1, hy2, hy3⟩ := h3 i hi
  exact ⟨y, occ y hy1 hy2, hy3⟩

section
variable {c : NodeComp F64} {B : MvPolynomial ℕ ℕ} (ff : FnFacts H l h cols c e P A B) (hσ : ColVals cols σ z)
include ff hσ

theorem FnFacts.env : ∀ i ∈ B.vars, ∃ a, σ i = some a ∧ a.HasValue ((z i : ℤ) : ℚ) := by
  intro i hi
  obtain ⟨y, hy, rfl⟩ := ff.vars i hi
  exact hσ y hy

theorem FnFacts.value (hs : SmallAt z A) : (c.phi.evaluate σ).HasValue ((eval z P : ℤ) : ℚ) := by
  obtain ⟨k, k', hk⟩ := ff.comp
  rw [(stdComponents_prop hk).1]
  exact ff.rep.eval (ff.env hσ) (dom_smallAt ff.dom hs)

theorem FnFacts.grad (hl : l ≠ .raw) {q : Node F64 × Node F64} (hq : q ∈ c.gphi) (hs : SmallAt z (pderiv q.1.id A)) :
    (q.2.evaluate σ).HasValue ((eval z (pderiv q.1.id P) : ℤ) : ℚ) := by
  obtain ⟨k, k', hk⟩ := ff.comp
  have hd := dom_smallAt (ff.dom.pderiv q.1.id) hs
  exact (gphi_exact hl ff.good ff.rep hk hq (small_sum_of hd)).eval (fun i hi => ff.env hσ i (mem_vars_pderiv hi)) hd

omit hσ in
theorem FnFacts.noGrad {x : Node F64} (hx : x ∈ cols) (hno : ∀ q ∈ c.gphi, q.1 ≠ x) : pderiv x.id P = 0 := by
  obtain ⟨k, k', hk⟩ := ff.comp
  exact gphi_absent ff.good ff.rep hk (ff.cok.good _ hx) hno fun q hq => ff.cok.good _ (ff.gk q hq)

theorem FnFacts.hess (hl : l ≠ .raw) {x y : Node F64} {i j : ℕ} (hx : cols[i]? = some x) (hy : cols[j]? = some y) (hij : j ≤ i)
    (hsx : SmallSum (pderiv x.id A)) (hsy : SmallSum (pderiv y.id A)) (hs : SmallAt z (pderiv y.id (pderiv x.id A))) (r cc : ℕ) :
    F64.HasValue ((valMat r cc (hessP cols c.hphi) σ).dense i j) ((eval z (pderiv y.id (pderiv x.id P)) : ℤ) : ℚ) := by
  obtain ⟨k, k', hk⟩ := ff.comp
  have hsx' := (ff.dom.pderiv x.id).small hsx
  have hsy' := (ff.dom.pderiv y.id).small hsy
  have hs' := dom_smallAt ((ff.dom.pderiv x.id).pderiv y.id) hs
  refine hess_entryD ff.cok ff.hk (hphi_pairs hk) hx hy hij ?_ ?_ r cc
  · rintro q hq (⟨rfl, rfl⟩ | ⟨rfl, rfl⟩)
    · exact (hphi_exact ff.good ff.rep hk ff.goodG hq hsx' (small_sum_of hs')).eval (fun i hi => ff.env hσ i (mem_vars_pderiv (mem_vars_pderiv hi))) hs'
    · rw [pderiv_swap] at hs' ⊢
      exact (hphi_exact ff.good ff.rep hk ff.goodG hq hsy' (small_sum_of hs')).eval (fun i hi => ff.env hσ i (mem_vars_pderiv (mem_vars_pderiv hi))) hs'
  · intro hno
    rw [hphi_absent hl ff.good ff.rep hk ff.goodG (ff.cok.good _ (List.mem_of_getElem? hx)) (ff.cok.good _ (List.mem_of_getElem? hy)) hno
      (fun q hq => ff.cok.good _ (ff.gk q hq)) hsx' hsy' (small_sum_of hs')]
    simp

end

/-- The objective. -/
theorem SpFacts.objFn (hf : SpFacts H l h n m mod comp e ps cols xes ves sp) (hm : mod.MinimisesPoly H P A) : ∃ B, FnFacts H l h cols comp.obj e P A B := by
  refine FnFacts.of hf.cok hf.mf.goodE hf.mf.goodG hf.mf.objComp hf.cmpOk.gphi hf.cmpOk.hphi (fun x hv ho => (hf.mem x).2 (.inl ⟨hv, .inl ho⟩)) ?_
  cases hm with
  | minimize ho hw =>
    rw [hf.mf.objMin _ ho]
    exact P64.writes_rep hw
  | maximize ho hw hs =>
    obtain ⟨j, j', hj⟩ := hf.mf.objMax _ ho
    exact P64.writes_rep (.neg hw hs hj)
  | empty ho =>
    obtain ⟨i, rfl⟩ := hf.mf.objEmpty ho
    exact .inl ⟨isZero_zero _, rfl⟩

/-- The constraint of a nonlinear row, without the slack. -/
theorem SpFacts.rowFn (hf : SpFacts H l h n m mod comp e ps cols xes ves sp) {p : Piece F64} (hp : p ∈ ps) {Q : MvPolynomial ℕ ℤ} {B : MvPolynomial ℕ ℕ}
    (hl' : WritesPoly H p.c.lhs P A) (hr : WritesPoly H p.c.rhs Q B) (hs : SmallSum (A + B)) : ∃ D, FnFacts H l h cols p.comp p.exp (P - Q) (A + B) D := by
  obtain ⟨n', m', hn', -, hok⟩ := hf.mf.piece hp
  have hpc : ∀ {y : Node F64}, y.isVar = true → Occurs y p.exp → y ∈ cols := fun hv ho => (hf.mem _).2 (.inl ⟨hv, .inr ⟨p, hp, ho⟩⟩)
  refine FnFacts.of hf.cok hok.goodExp hok.goodG hok.comp (fun q hq => hpc (hok.gphiKeys hq).1 (hok.gphiKeys hq).2)
    (fun q hq => ⟨hpc (hok.hphiKeys hq).1.1 (hok.hphiKeys hq).1.2, hpc (hok.hphiKeys hq).2.1 (hok.hphiKeys hq).2.2⟩) (fun x hv ho => hpc hv ho) ?_
  obtain ⟨k1, hk1⟩ := hok.exp
  exact P64.writes_rep (.sub hl' hr hs hk1)

/-- The slack of a row, as in the specification. -/
theorem SpFacts.slackOf_eq (hf : SpFacts H l h n m mod comp e ps cols xes ves sp) {p : Piece F64} (hp' : p ∈ ps) (hnl : p.isNl = true) :
    sp.slackOf n p.jrow = p.slack := by
  obtain ⟨n1, m1, -, -, hok⟩ := hf.mf.piece hp'
  unfold StdProb.slackOf
  cases hfd : sp.var2index.find? (fun e => decide (n ≤ e.1.id) && e.1.name == slackNameJ p.jrow) with
  | some en =>
    have h1 := List.find?_some hfd
    have h2 := List.mem_of_find?_eq_some hfd
    simp only [Bool.and_eq_true, decide_eq_true_eq, beq_iff_eq] at h1
    have h3 := hf.mem_v2i.1 (show (en.1, en.2) ∈ sp.var2index from h2)
    rw [hf.slackJ hp' hnl (List.mem_of_getElem? h3) h1.1 h1.2]
    rfl
  | none =>
    cases hs' : p.slack with
    | some s =>
      obtain ⟨hsc, hsn⟩ := hf.newCol.2 ⟨p, hp', hs'⟩
      obtain ⟨i, hi⟩ := List.mem_iff_getElem?.1 hsc
      have hm : (s, i) ∈ sp.var2index := hf.mem_v2i.2 hi
      rw [List.find?_eq_none] at hfd
      have := hfd _ hm
      simp only [Bool.and_eq_true, decide_eq_true_eq, beq_iff_eq, not_and] at this
      exact absurd ((hok.slack_nl hnl).2 s hs').2 (this hsn)
    | none => rfl

/-- The slack as a polynomial. -/
noncomputable def slackP (R : Type) [CommSemiring R] : Option (Node F64) → MvPolynomial ℕ R
  | some s => X s.id
  | none => 0

theorem SpFacts.slackPoly_eq (hf : SpFacts H l h n m mod comp e ps cols xes ves sp) {p : Piece F64} (hp' : p ∈ ps) (hnl : p.isNl = true) (R : Type) [CommSemiring R] :
    sp.slackPoly R n p.jrow = slackP R p.slack := by
  unfold StdProb.slackPoly
  rw [hf.slackOf_eq hp' hnl]
  cases p.slack <;> rfl

/-- The value of a nonlinear row. -/
theorem SpFacts.rowValue (hf : SpFacts H l h n m mod comp e ps cols xes ves sp) {p : Piece F64} (hp : p ∈ ps) (hnl : p.isNl = true) {D : MvPolynomial ℕ ℕ}
    (ff : FnFacts H l h cols p.comp p.exp P A D) (hσ : ColVals cols σ z) (hs : SmallAt z (A + slackP ℕ p.slack)) :
    (p.fn.evaluate σ).HasValue ((eval z (P - slackP ℤ p.slack) : ℤ) : ℚ) := by
  obtain ⟨n', m', hn', -, hok⟩ := hf.mf.piece hp
  have hsc : ∀ {s : Node F64}, p.slack = some s → s ∈ cols := fun hs => (hf.mem _).2 (.inr (List.mem_filterMap.2 ⟨p, hp, hs⟩))
  obtain ⟨k, k', hk⟩ := ff.comp
  cases hkd : p.kind with
  | nlEq =>
    have h1 : p.slack = none := by simp [Piece.slack, hkd]
    have h2 : p.fn = p.comp.phi := by simp [Piece.fn, hkd]
    rw [h1] at hs ⊢
    rw [h2]
    simp only [slackP, add_zero, sub_zero] at hs ⊢
    exact ff.value hσ hs
  | nlIneq s f m1 =>
    have h1 : p.slack = some s := by simp [Piece.slack, hkd]
    have h2 : p.fn = f := by simp [Piece.fn, hkd]
    obtain ⟨-, ⟨j, j', hj⟩, -⟩ := hok.nlIneq s f m1 hkd
    rw [h1] at hs ⊢
    rw [h2]
    simp only [slackP] at hs ⊢
    have hsv := hf.cok.var _ (hsc h1)
    have hD : Dom (D + X s.id) (A + X s.id) := ff.dom.add (.refl _)
    have hs' := dom_smallAt hD hs
    have hrs : P64.Rep s (X s.id) (X s.id) := by
      cases s <;> simp [Node.isVar] at hsv
      exact .inr ⟨trivial, rfl, .refl _⟩
    rw [(stdComponents_prop hk).1] at hj
    unfold subN at hj
    rw [M.bind_ok] at hj
    obtain ⟨nb, n1, hnb, hj⟩ := hj
    have hrep := P64.rep_addN ff.rep (rep_neg hrs ((show Dom (X s.id) (D + X s.id) from ⟨D, add_comm _ _⟩).small (small_sum_of hs')) hnb) (small_sum_of hs') hj
    rw [sub_eq_add_neg]
    refine hrep.eval (fun i hi => ?_) hs'
    rcases Finset.mem_union.1 (vars_add_subset _ _ hi) with hi | hi
    · exact ff.env hσ i hi
    · rw [vars_X, Finset.mem_singleton] at hi
      subst hi
      exact hσ s (hsc h1)
  | _ => simp [Piece.isNl, hkd] at hnl

/-- The Jacobian of a nonlinear row. -/
theorem SpFacts.rowJac (hf : SpFacts H l h n m mod comp e ps cols xes ves sp) (hl : l ≠ .raw) {p : Piece F64} (hp : p ∈ ps) (hnl : p.isNl = true) {D : MvPolynomial ℕ ℕ}
    (ff : FnFacts H l h cols p.comp p.exp P A D) (hσ : ColVals cols σ z) {x : Node F64} {i : ℕ} (hx : cols[i]? = some x) (hs : SmallAt z (pderiv x.id A))
    (r c : ℕ) : F64.HasValue ((valMat r c (jacP cols comp.constr.j) σ).dense p.jrow i) ((eval z (pderiv x.id (P - slackP ℤ p.slack)) : ℤ) : ℚ) := by
  obtain ⟨n', m', hn', -, hok⟩ := hf.mf.piece hp
  obtain ⟨k, k', hk⟩ := ff.comp
  obtain ⟨kc, hkc, hch⟩ := hf.mf.chain
  have hxm := List.mem_of_getElem? hx
  have hpc : ∀ {y : Node F64}, y.isVar = true → Occurs y p.exp → y ∈ cols := fun hv ho => (hf.mem _).2 (.inl ⟨hv, .inr ⟨p, hp, ho⟩⟩)
  have hsc : ∀ {s : Node F64}, p.slack = some s → s ∈ cols := fun hs => (hf.mem _).2 (.inr (List.mem_filterMap.2 ⟨p, hp, hs⟩))
  have hjk : ∀ q ∈ p.jac, q.1 ∈ cols := fun q hq => by
    rcases hok.jacKeys hq with ⟨a, b⟩ | a
    · exact hpc a b
    · exact hsc a
  have hgn : NodupP (keysN p.comp.gphi) := (stdProperties_keys p.exp).1.perm (stdComponents_gphi hk).symm
  have hgk : ∀ q ∈ p.comp.gphi, mod.HasVar q.1 := fun q hq => hf.mf.pieceVar hp (hok.gphiKeys hq).1 (hok.gphiKeys hq).2
  have hgs : ∀ q ∈ p.comp.gphi, ∀ s, p.slack = some s → s.id ≠ q.1.id := fun q hq s hs => by
    have := (hf.mf.slack_new (List.mem_filterMap.2 ⟨p, hp, hs⟩) (hgk q hq)).2.2
    intro hid
    refine this (Good.eq_of_id (hf.cok.good _ ?_) (hf.cok.good _ ?_) hid.symm)
    · exact hpc (hok.gphiKeys hq).1 (hok.gphiKeys hq).2
    · exact hsc hs
  have habs : ∀ s, p.slack = some s → pderiv s.id P = 0 := fun s hs => by
    refine ff.noGrad (hsc hs) fun q hq hqs => ?_
    exact hgs q hq s hs (by rw [hqs])
  have hjn : NodupP (keysN p.jac) := by
    unfold Piece.jac
    split
    · exact hgn
    · rename_i s f m1 hkd
      have hs : p.slack = some s := by simp [Piece.slack, hkd]
      unfold keysN NodupP
      rw [List.map_append, List.pairwise_append]
      refine ⟨hgn, by simp, ?_⟩
      intro a ha b hb
      obtain ⟨q, hq, rfl⟩ := List.mem_map.1 ha
      simp only [List.map_cons, List.map_nil, List.mem_singleton] at hb
      subst hb
      exact (hf.mf.slack_new (List.mem_filterMap.2 ⟨p, hp, hs⟩) (hgk q hq)).1
    · simp [keysN, NodupP]
  rw [valMat_dense]
  have e1 : (jacP cols comp.constr.j).filter (fun e => e.1 == p.jrow && e.2.1 == i) =
      (p.jac.filter fun q => colOf cols q.1 == i).map fun q => (p.jrow, colOf cols q.1, q.2) := by
    have e2 : (jacP cols comp.constr.j).filter (fun e => e.1 == p.jrow && e.2.1 == i) =
        ((comp.constr.j.filter fun e => e.1 == p.jrow).filter fun e => colOf cols e.2.1 == i).map fun e => (e.1, colOf cols e.2.1, e.2.2) := by
      unfold jacP
      rw [List.filter_map, List.filter_filter]
      simp only [Function.comp_def]
      congr 1
      exact List.filter_congr fun e _ => by rw [Bool.and_comm]
    rw [e2, hf.mf.j_eq, hch.jrow_entries hp hnl, List.filter_map, List.map_map]
    simp only [Function.comp_def]
  rw [e1, List.map_map]
  refine jac_entryD hf.cok hjk hjn hx ?_ fun hno => ?_
  · rintro q hq rfl
    unfold Piece.jac at hq
    split at hq
    · rename_i hkd
      have hs' : p.slack = none := by simp [Piece.slack, hkd]
      rw [hs']
      simp only [slackP, sub_zero]
      exact ff.grad hσ hl hq hs
    · rename_i s f m1 hkd
      have hs' : p.slack = some s := by simp [Piece.slack, hkd]
      rw [hs']
      simp only [slackP, map_sub]
      rcases List.mem_append.1 hq with hq | hq
      · rw [pderiv_X_of_ne (hgs q hq s hs')]
        simp only [map_zero, sub_zero]
        exact ff.grad hσ hl hq hs
      · simp only [List.mem_singleton] at hq
        subst hq
        obtain ⟨-, -, i', rfl⟩ := hok.nlIneq s f m1 hkd
        rw [habs s hs', pderiv_X_self]
        simp only [map_zero, map_one, zero_sub, Int.cast_neg, Int.cast_one]
        exact F64.negOne_value
    · simp at hq
  · have hsl : pderiv x.id (slackP ℤ p.slack) = 0 := by
      cases hs : p.slack with
      | none => simp [slackP]
      | some s =>
        simp only [slackP]
        refine pderiv_X_of_ne fun hid => ?_
        have hsx : s = x := Good.eq_of_id (hf.cok.good _ (hsc hs)) (hf.cok.good _ hxm) hid
        cases hkd : p.kind with
        | nlIneq s' f m1 =>
          simp only [Piece.slack, hkd, Option.some.injEq] at hs
          refine hno (s', m1) ?_ (by rw [hs, hsx])
          simp [Piece.jac, hkd]
        | _ => simp [Piece.isNl, Piece.slack, hkd] at hnl hs
    rw [map_sub, hsl, sub_zero, ff.noGrad hxm fun q hq => ?_]
    · simp
    · refine hno q ?_
      cases hkd : p.kind with
      | nlEq => simp [Piece.jac, hkd, hq]
      | nlIneq s' f m1 => simp [Piece.jac, hkd, hq]
      | _ => simp [Piece.isNl, hkd] at hnl

end

end Verif
