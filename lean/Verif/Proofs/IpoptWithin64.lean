import Verif.Spec.IpoptWithin64
import Verif.Proofs.LinearValues64
import Verif.Props.RoundingSolve64

/-! # Rows that Ipopt is told, in double precision -/

namespace Verif

set_option linter.unusedSectionVars false

variable [Libm] {H : HashOrder} {l : Level} {h : Heap F64} {n m : ℕ} {mod : Model F64} {comp : ModelComp F64} {e : Node F64} {ps : List (Piece F64)}
  {cols : List (Node F64)} {xes : List (Node F64 × F64)} {ves : List (Node F64 × Nat)} {sp : StdProb F64}

/-- The products of the extracted coefficients and a point, in absolute value. -/
theorem coefs_abs {e : Node F64} {α μ : ℕ → ℝ} {β ν : ℝ} {k : ℕ} (h : WritesLinear64 e α β μ ν k) (hk : k ≤ 2 ^ 52) {S : Finset ℕ}
    (hS : ∀ i ∉ S, μ i = 0) (t : ℕ → ℝ) :
    (e.stdProperties.a.map fun q => |q.2.toReal * t q.1.id|).sum ≤ 2 * ∑ i ∈ S, μ i * |t i| := by
  obtain ⟨hn, hv, -⟩ := stdProperties_keys e
  have hvar : ∀ q ∈ e.stdProperties.a, q.1.isVar = true := fun q hq => (hv q.1 (List.mem_map_of_mem hq)).1
  have hcoef : ∀ i, |((getN e.stdProperties.a (.var i "" .continuous)).getD zero).toReal| ≤ 2 * μ i := by
    intro i
    obtain ⟨z, h3, h4⟩ := R64.writesLinear64_coef h (x := .var i "" .continuous) rfl
    unfold Prop'.coefD at h3
    rw [h3.toReal]
    have h5 := h4.nonneg
    have h6 := uD_pow_le hk
    have h7 : |z| ≤ |z - α i| + |α i| := by
      have := abs_add_le (z - α i) (α i)
      rwa [sub_add_cancel] at this
    have h8 := h4.1
    have h9 := h4.2
    change |z - α i| ≤ _ * μ i at h8
    change |α i| ≤ μ i at h9
    change 0 ≤ μ i at h5
    have h10 : ((1 + uD) ^ k - 1) * μ i ≤ 1 * μ i := mul_le_mul_of_nonneg_right (by linarith) h5
    linarith
  have hget : ∀ q ∈ e.stdProperties.a, getN e.stdProperties.a (.var q.1.id "" .continuous) = some q.2 := by
    intro q hq
    have h1 := getN_mem hn hq
    rw [← h1]
    have hall : ∀ L : List (Node F64 × F64), (∀ r ∈ L, r.1.isVar = true) → getN L (.var q.1.id "" .continuous) = getN L q.1 := by
      intro L
      induction L with
      | nil => intro _; rfl
      | cons r L ih =>
        intro hL
        have h2 : r.1.ptrEq (.var q.1.id "" .continuous) = r.1.ptrEq q.1 := by
          rw [Bool.eq_iff_iff, R64.ptrEq_var_iff (hL r (by simp)) rfl, R64.ptrEq_var_iff (hL r (by simp)) (hvar q hq)]
          rfl
        simp only [getN, h2, ih fun r hr => hL r (by simp [hr])]
    exact hall _ hvar
  have hzero : ∀ q ∈ e.stdProperties.a, q.1.id ∉ S → q.2.toReal = 0 := by
    intro q hq hqS
    have := hcoef q.1.id
    rw [hget q hq, hS _ hqS, mul_zero] at this
    exact abs_eq_zero.1 (le_antisymm this (abs_nonneg _))
  have key := R64.list_sum S (fun i => if 0 ≤ ((getN e.stdProperties.a (.var i "" .continuous)).getD zero).toReal then |t i| else -|t i|)
    e.stdProperties.a hn hvar hzero
  have e1 : (e.stdProperties.a.map fun q => |q.2.toReal * t q.1.id|) = e.stdProperties.a.map fun q => q.2.toReal *
      (if 0 ≤ ((getN e.stdProperties.a (.var q.1.id "" .continuous)).getD zero).toReal then |t q.1.id| else -|t q.1.id|) := by
    refine List.map_congr_left fun q hq => ?_
    rw [hget q hq, Option.getD_some, abs_mul]
    split
    · rw [abs_of_nonneg ‹_›]
    · rw [abs_of_neg (not_le.1 ‹_›)]; ring
  rw [e1, key, Finset.mul_sum]
  refine Finset.sum_le_sum fun i _ => ?_
  have h1 := hcoef i
  have h2 := abs_nonneg (t i)
  rw [← mul_assoc]
  refine le_trans ?_ (mul_le_mul_of_nonneg_right h1 h2)
  split
  · exact mul_le_mul_of_nonneg_right (le_abs_self _) h2
  · rw [mul_neg, ← neg_mul]
    exact mul_le_mul_of_nonneg_right (neg_le_abs _) h2

theorem says64_mag_nonneg {e : Node F64} {f : LinForm} (h : e.Says64 f) (t : ℕ → ℝ) : 0 ≤ f.mag t := by
  refine add_nonneg (Finset.sum_nonneg fun i _ => mul_nonneg ?_ (abs_nonneg _)) ?_
  · obtain ⟨z, -, h2⟩ := R64.writesLinear64_coef h.1 (x := .var i "" .continuous) rfl
    exact h2.nonneg
  · obtain ⟨z, -, h2⟩ := R64.writesLinear64_const h.1
    exact h2.nonneg

/-- The number of variables of an expression that are listed with a coefficient. -/
theorem keys_count (e : Node F64) {S : Finset ℕ} (hS : ∀ x, x.isVar = true → Occurs x e → x.id ∈ S) : e.stdProperties.a.length ≤ S.card := by
  obtain ⟨hn, hv, -⟩ := stdProperties_keys e
  have hnd : (e.stdProperties.a.map fun q => q.1.id).Nodup := by
    have := hn
    unfold NodupP keysN at this
    rw [List.pairwise_map] at this
    rw [List.Nodup, List.pairwise_map]
    refine this.imp_of_mem fun {a b} ha hb hab heq => ?_
    rw [(R64.ptrEq_var_iff (hv a.1 (List.mem_map_of_mem ha)).1 (hv b.1 (List.mem_map_of_mem hb)).1).2 heq] at hab
    cases hab
  have hsub : (e.stdProperties.a.map fun q => q.1.id).toFinset ⊆ S := by
    intro i hi
    obtain ⟨q, hq, rfl⟩ := List.mem_map.1 (List.mem_toFinset.1 hi)
    obtain ⟨h1, h2⟩ := hv q.1 (List.mem_map_of_mem hq)
    exact hS _ h1 h2
  have := Finset.card_le_card hsub
  rwa [List.toFinset_card_of_nodup hnd, List.length_map] at this

/-- The rows of the problem, one for each piece that is a linear row. -/
theorem SpFacts.rowVals64 (hf : SpFacts H l h n m mod comp e ps cols xes ves sp) {q : Minlp F64} (hq : q ∈ sp.prob.views) {δ : ℝ} {x : List F64}
    (hrow : ∀ (i : ℕ) b, q.b[i]? = some b →
      ∃ z, ((rowOf q.a.triplets i).foldl (fun (s : F64) (t : ℕ × F64) => s +. ((x[t.1]?).getD zero *. t.2)) zero -. b).Is z ∧ |z| ≤ δ) :
    ∀ p ∈ ps, p.isLin = true → ∃ z, ((p.coefs.map fun e => (colOf cols e.1, e.2)).foldl (fun (s : F64) (t : ℕ × F64) => s +. ((x[t.1]?).getD zero *. t.2)) zero -.
      FloatOps.neg p.comp.prop.b).Is z ∧ |z| ≤ δ := by
  have hv := hf.view hq
  obtain ⟨k, -, hch⟩ := hf.mf.chain
  have hrows := hch.rows fun v es => ∃ z, ((es.map fun e => (colOf cols e.1, e.2)).foldl (fun (s : F64) (t : ℕ × F64) => s +. ((x[t.1]?).getD zero *. t.2)) zero -. v).Is z ∧ |z| ≤ δ
  refine hrows.1 fun i v hi => ?_
  have := hrow i v (by rw [hv.b]; simpa only [hf.mf.constr, ConstrComp.concat, List.flatMap_map] using hi)
  rw [hv.a, rowOf_stdA] at this
  simpa only [Nat.zero_add, hf.mf.constr, ConstrComp.concat, List.flatMap_map] using this

theorem prodSize_le (L : List (ℝ × ℝ)) : prodSize L ≤ (L.map fun r => |r.1 * r.2|).sum + L.length * 2 ^ (-1022 : ℤ) := by
  unfold prodSize
  generalize hτ : (2 : ℝ) ^ (-1022 : ℤ) = τ
  have hpos : 0 ≤ τ := by rw [← hτ]; positivity
  induction L with
  | nil => simp
  | cons r L ih =>
    simp only [List.map_cons, List.sum_cons, List.length_cons, Nat.cast_add, Nat.cast_one]
    have : max |r.1 * r.2| τ ≤ |r.1 * r.2| + τ := max_le (by linarith) (by linarith [abs_nonneg (r.1 * r.2)])
    linarith

theorem Approx.weaken {x v m m' : ℝ} {j k : ℕ} (h : Approx uD x v m j) (hm : m ≤ m') (hk : j ≤ k) : |x - v| ≤ ((1 + 2 ^ (-53 : ℤ)) ^ k - 1) * m' := by
  have h1 := (h.mono uD_nonneg hk).1
  exact h1.trans (mul_le_mul_of_nonneg_left hm (eps_nonneg uD_nonneg k))

/-- A row that was told to be small is small, up to the rounding errors of computing it. -/
theorem SpFacts.rowTrue64 (hf : SpFacts H l h n m mod comp e ps cols xes ves sp) {p : Piece F64} (hpm : p ∈ ps) (hlin : p.isLin = true) {f g : LinForm}
    (hfs : p.c.lhs.Says64 f) (hgs : p.c.rhs.Says64 g) (hR : PairInRange f g) {t : ℕ → ℝ} {x : List F64} {xs : List ℝ} (hx : List.Forall₂ F64.Is x xs)
    (hv : ∀ x, mod.HasVar x → colVal64 cols xs x = t x.id) {S : Finset ℕ}
    (hS : ∀ x, x.isVar = true → Occurs x p.c.lhs ∨ Occurs x p.c.rhs → x.id ∈ S) {δ B : ℝ} (hδ : 0 ≤ δ) (hB : 0 ≤ B)
    (hs : ∀ s, p.slack = some s → |colVal64 cols xs s| ≤ B) (hM : rowSize f g S.card t + B ≤ 2 ^ (1022 : ℤ)) (hN : S.card + 2 ≤ 2 ^ 51)
    (hz : ∃ z, ((p.coefs.map fun e => (colOf cols e.1, e.2)).foldl (fun (s : F64) (t : ℕ × F64) => s +. ((x[t.1]?).getD zero *. t.2)) zero -.
      FloatOps.neg p.comp.prop.b).Is z ∧ |z| ≤ δ) {b : ℝ} (hb : p.comp.prop.b.Is b) (hnum : ∀ q ∈ p.coefs, ∃ w, q.2.Is w) :
    |(p.coefs.map fun q => q.2.toReal * colVal64 cols xs q.1).sum + b| ≤ δ + rowErr f g S.card δ t := by
  obtain ⟨n1, m1, -, -, hok⟩ := hf.mf.piece hpm
  obtain ⟨k, hk⟩ := hok.exp
  have hw : WritesLinear64 p.exp (f.coef - g.coef) (f.const - g.const) (f.size + g.size) (f.sizeConst + g.sizeConst) (f.ops + g.ops + 2) :=
    .sub hfs.1 hgs.1 hR hk
  have hops : f.ops + g.ops + 2 ≤ 2 ^ 52 := hR.2.2
  have hSz : ∀ i ∉ f.vars ∪ g.vars, (f.size + g.size) i = 0 := by
    intro i hi
    rw [Finset.mem_union, not_or] at hi
    rw [Pi.add_apply, hfs.2 i hi.1, hgs.2 i hi.2, add_zero]
  have hA := coefs_abs hw hops hSz t
  have hcnt : p.comp.prop.a.length ≤ S.card := by
    rw [hok.prop.2]
    exact keys_count _ fun x hx ho => hS x hx ((hok.vars hx).1 ho)
  have hbabs : |b| ≤ 2 * (f.sizeConst + g.sizeConst) := by
    obtain ⟨y, h1, h2⟩ := R64.writesLinear64_const hw
    rw [← hok.prop.2] at h1
    rw [hb.unique h1]
    have h3 := h2.nonneg
    have h4 := uD_pow_le hops
    have h5 : |y| ≤ |y - (f.const - g.const)| + |f.const - g.const| := by
      have := abs_add_le (y - (f.const - g.const)) (f.const - g.const)
      rwa [sub_add_cancel] at this
    have h6 : ((1 + uD) ^ (f.ops + g.ops + 2) - 1) * (f.sizeConst + g.sizeConst) ≤ 1 * (f.sizeConst + g.sizeConst) :=
      mul_le_mul_of_nonneg_right (by linarith) h3
    have h7 := h2.1
    have h8 := h2.2
    linarith
  have e2 : ∑ i ∈ f.vars ∪ g.vars, (f.size + g.size) i * |t i| + (f.sizeConst + g.sizeConst) = f.mag t + g.mag t := by
    rw [LinForm.mag_eq64 hfs (S := f.vars ∪ g.vars) Finset.subset_union_left, LinForm.mag_eq64 hgs (S := f.vars ∪ g.vars) Finset.subset_union_right]
    have : ∀ i, (f.size + g.size) i * |t i| = f.size i * |t i| + g.size i * |t i| := fun i => by rw [Pi.add_apply, add_mul]
    simp only [this, Finset.sum_add_distrib]
    ring
  rw [← hok.prop.2] at hA
  have hcv : ∀ q ∈ p.comp.prop.a, t q.1.id = colVal64 cols xs q.1 := by
    intro q hq
    obtain ⟨h1, h2⟩ := hok.propKeys hq
    exact (hv _ (hf.mf.pieceVar hpm h1 h2)).symm
  have hA' : (p.comp.prop.a.map fun q => |q.2.toReal * colVal64 cols xs q.1|).sum + |b| ≤ 2 * (f.mag t + g.mag t) := by
    have e3 : (p.comp.prop.a.map fun q => |q.2.toReal * colVal64 cols xs q.1|) = p.comp.prop.a.map fun q => |q.2.toReal * t q.1.id| :=
      List.map_congr_left fun q hq => by rw [hcv q hq]
    rw [e3, ← e2]
    linarith
  set A := (p.comp.prop.a.map fun q => |q.2.toReal * colVal64 cols xs q.1|).sum with hAdef
  have habs : ∀ L : List (Node F64 × F64), |(L.map fun q => q.2.toReal * colVal64 cols xs q.1).sum| ≤ (L.map fun q => |q.2.toReal * colVal64 cols xs q.1|).sum := by
    intro L
    induction L with
    | nil => simp
    | cons q L ih =>
      simp only [List.map_cons, List.sum_cons]
      exact (abs_add_le _ _).trans (by linarith)
  obtain ⟨sv, hsv, hlen, hsum, hback⟩ : ∃ sv, |sv| ≤ B ∧ p.coefs.length ≤ S.card + 1 ∧
      (p.coefs.map fun q => |q.2.toReal * colVal64 cols xs q.1|).sum ≤ A + |sv| ∧
      |sv| ≤ |(p.coefs.map fun q => q.2.toReal * colVal64 cols xs q.1).sum + b| + (A + |b|) := by
    have hA0 : 0 ≤ A := le_trans (abs_nonneg _) (habs _)
    cases hkd : p.kind with
    | bound y => simp [Piece.isLin, hkd] at hlin
    | nlEq => simp [Piece.isLin, hkd] at hlin
    | nlIneq => simp [Piece.isLin, hkd] at hlin
    | linEq es =>
      have hperm := hok.linEq es hkd
      refine ⟨0, by simpa using hB, ?_, ?_, ?_⟩
      · simp only [Piece.coefs, hkd]; rw [hperm.length_eq]; omega
      · simp only [Piece.coefs, hkd]; rw [(hperm.map _).sum_eq]; simp [hAdef]
      · rw [abs_zero]; positivity
    | linIneq es s =>
      have hperm := (hok.linIneq es s hkd).1
      have e1 : (negOne : F64).toReal = -1 := F64.is_negOne.toReal
      refine ⟨colVal64 cols xs s, hs s (by simp [Piece.slack, hkd]), ?_, ?_, ?_⟩
      · simp only [Piece.coefs, hkd]; rw [List.length_append, hperm.length_eq]; simpa using hcnt
      · simp only [Piece.coefs, hkd]; rw [List.map_append, List.sum_append, (hperm.map _).sum_eq]; simp [hAdef, e1]
      · simp only [Piece.coefs, hkd]; rw [List.map_append, List.sum_append, (hperm.map _).sum_eq]
        simp only [List.map_cons, List.map_nil, List.sum_cons, List.sum_nil, e1, add_zero]
        have h1 := habs p.comp.prop.a
        rw [← hAdef] at h1
        generalize (p.comp.prop.a.map fun q => q.2.toReal * colVal64 cols xs q.1).sum = T at h1 ⊢
        generalize colVal64 cols xs s = r
        have h2 : r = -(T + -1 * r + b) + (T + b) := by ring
        calc |r| = |-(T + -1 * r + b) + (T + b)| := by rw [← h2]
          _ ≤ |-(T + -1 * r + b)| + |T + b| := abs_add_le _ _
          _ ≤ _ := by rw [abs_neg]; exact add_le_add le_rfl ((abs_add_le _ _).trans (by linarith))
  generalize hτ : (2 : ℝ) ^ (-1022 : ℤ) = τ at *
  have hτ0 : 0 ≤ τ := by rw [← hτ]; positivity
  have hLmap : ((p.coefs.map fun e => (colOf cols e.1, e.2)).map fun e => (xs.getD e.1 0, e.2.toReal)) =
      p.coefs.map fun q => (colVal64 cols xs q.1, q.2.toReal) := by rw [List.map_map]; rfl
  have hps : prodSize (p.coefs.map fun q => (colVal64 cols xs q.1, q.2.toReal)) ≤ A + |sv| + (S.card + 1) * τ := by
    refine (prodSize_le _).trans ?_
    rw [List.map_map, List.length_map, hτ]
    have e4 : ((fun r : ℝ × ℝ => |r.1 * r.2|) ∘ fun q : Node F64 × F64 => (colVal64 cols xs q.1, q.2.toReal)) =
        fun q : Node F64 × F64 => |q.2.toReal * colVal64 cols xs q.1| := by
      funext q; simp [mul_comm]
    rw [e4]
    have h1 : (p.coefs.length : ℝ) ≤ S.card + 1 := by exact_mod_cast hlen
    have h2 := mul_le_mul_of_nonneg_right h1 hτ0
    linarith
  have hrs : prodSize (p.coefs.map fun q => (colVal64 cols xs q.1, q.2.toReal)) + |b| ≤ rowSize f g S.card t + |sv| := by
    unfold rowSize
    rw [hτ]
    linarith
  have hmax : prodSize (p.coefs.map fun q => (colVal64 cols xs q.1, q.2.toReal)) + |b| ≤ maxSize := by
    refine hrs.trans (le_trans ?_ hM)
    linarith
  obtain ⟨y, hy, ay⟩ := entries_is (L := p.coefs.map fun e => (colOf cols e.1, e.2)) (by
      intro e he
      obtain ⟨q, hq, rfl⟩ := List.mem_map.1 he
      obtain ⟨w, hw⟩ := hnum q hq
      simpa [hw.toReal] using hw) hx (by
      rw [hLmap, List.length_map]
      exact ⟨le_trans (by linarith [abs_nonneg b]) hmax, by omega⟩)
  rw [hLmap, List.length_map] at ay
  have a' := ay.sub (Approx.exactIn uD_nonneg (le_of_eq (abs_neg b)) p.coefs.length)
  obtain ⟨w, hw', ew⟩ := F64.is_sub hy (F64.is_neg hb) (a'.bound ⟨hmax, by omega⟩)
  obtain ⟨z, hz1, hz2⟩ := hz
  have hzw := hz1.unique hw'
  subst hzw
  have a2 := a'.round uD_nonneg ew
  have hfin := a2.weaken hrs (show p.coefs.length + 1 ≤ S.card + 2 by omega)
  have e5 : ((p.coefs.map fun q => (colVal64 cols xs q.1, q.2.toReal)).map fun r => r.1 * r.2).sum =
      (p.coefs.map fun q => q.2.toReal * colVal64 cols xs q.1).sum := by
    rw [List.map_map]
    congr 1
    refine List.map_congr_left fun q _ => ?_
    simp [mul_comm]
  rw [e5, sub_neg_eq_add] at hfin
  have hγ : (1 + uD) ^ (S.card + 2) - 1 ≤ 1 / 2 := by
    have := uD_pow_le' hN
    linarith
  have hγ0 := eps_nonneg uD_nonneg (S.card + 2)
  have hrs0 : 2 * (f.mag t + g.mag t) ≤ rowSize f g S.card t := by
    unfold rowSize
    rw [hτ]
    have : 0 ≤ ((S.card : ℝ) + 1) * τ := by positivity
    linarith
  have hAb : 0 ≤ A + |b| := add_nonneg (le_trans (abs_nonneg _) (habs _)) (abs_nonneg b)
  unfold rowErr
  change |z - _| ≤ ((1 + uD) ^ (S.card + 2) - 1) * _ at hfin
  change _ ≤ δ + ((1 + uD) ^ (S.card + 2) - 1) * _
  generalize (p.coefs.map fun q => q.2.toReal * colVal64 cols xs q.1).sum + b = X at *
  generalize rowSize f g S.card t = R at *
  generalize (1 + uD) ^ (S.card + 2) - 1 = γ at *
  have hX : |X| ≤ δ + γ * (R + |sv|) := by
    have h1 : X = z - (z - X) := by ring
    rw [h1]
    exact (abs_sub _ _).trans (add_le_add hz2 hfin)
  have hR0 : 0 ≤ R := by linarith
  have hs0 := abs_nonneg sv
  have h3 : γ * (R + |sv|) ≤ 1 / 2 * (R + |sv|) := mul_le_mul_of_nonneg_right hγ (by linarith)
  have h4 : R + |sv| ≤ 4 * R + 2 * δ := by linarith
  have h5 := mul_le_mul_of_nonneg_left h4 hγ0
  linarith

end Verif
