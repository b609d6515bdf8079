import Verif.Spec.KktWithin
import Verif.Proofs.Convex
import Verif.Proofs.Tolerance

/-! # First-order conditions up to tolerances and near-optimality -/

set_option linter.unusedSectionVars false
set_option linter.unusedSimpArgs false

namespace Verif

open Exact

section
variable {H : HashOrder} {h : Heap (Option ℝ)} {n m : Nat} {cols : List (Node (Option ℝ))} {comp : ModelComp (Option ℝ)}
  {mod : Model (Option ℝ)} {e : Node (Option ℝ)} {ps : List (Piece (Option ℝ))} {xes : List (Node (Option ℝ) × Option ℝ)}
  {ves : List (Node (Option ℝ) × Nat)} {sp : StdProb (Option ℝ)} {σ τ : Env (Option ℝ)}

theorem absSum_vec (k : Nat) (f : Nat → ℝ) : absSum (vec k f) = ((List.range k).map fun i => |f i|).sum := by
  unfold absSum vec
  rw [List.map_map]; rfl

theorem sum_le_sum' {α : Type} (l : List α) (f g : α → ℝ) (h : ∀ x ∈ l, f x ≤ g x) : (l.map f).sum ≤ (l.map g).sum := by
  induction l with
  | nil => simp
  | cons a l ih =>
    simp only [List.map_cons, List.sum_cons]
    have h1 := h a (by simp)
    have h2 := ih fun x hx => h x (by simp [hx])
    linarith

theorem sum_const' {α : Type} (l : List α) (c : ℝ) : (l.map fun _ => c).sum = l.length * c := by
  induction l with
  | nil => simp
  | cons a l ih => simp only [List.map_cons, List.sum_cons, ih, List.length_cons]; push_cast; ring

theorem sum_neg' {α : Type} (l : List α) (f : α → ℝ) : (l.map fun x => - f x).sum = - (l.map f).sum := by
  induction l with
  | nil => simp
  | cons a l ih => simp only [List.map_cons, List.sum_cons, ih]; ring

theorem Piece.mult_abs (lam nu : Nat → ℝ) (p : Piece (Option ℝ)) : p.mult (fun k => |lam k|) (fun k => |nu k|) = |p.mult lam nu| := by
  unfold Piece.mult
  split
  · rfl
  · split <;> simp

set_option maxHeartbeats 1600000 in
/-- Weak duality with tolerances: a point with approximate multipliers is nearly optimal. -/
theorem SpFacts.near (hf : SpFacts H .noSelf h n m mod comp e ps cols xes ves sp)
    (hdef : ∀ c ∈ mod.constraints, ∃ σ d, c.residual σ = some d)
    {q : Minlp (Option ℝ)} (hq : q ∈ sp.prob.views) {sol : Sol (Option ℝ)} {δ ε η η' ρ κ R : ℝ} (hk : q.KktWithin δ ε η ρ κ sol)
    {ys : List ℝ} (hy : q.FeasibleWithin 0 0 η' (ys.map some)) (hσ : pointEnv cols sol.x = σ) (hτ : pointEnv cols (ys.map some) = τ)
    (hR : ∀ (i : Nat) x y, sol.x[i]? = some (some x) → ys[i]? = some y → |y - x| ≤ R)
    {a : ℝ} (ha : e.evaluate σ = some a) (hce : ConvexBetween (fun ρ => e.evaluate ρ) σ τ)
    (hcu : ∀ p ∈ ps, p.isNl = true → p.c.kind ≠ .greaterEqual → ConvexBetween (fun ρ => p.c.lhs.evaluate ρ -. p.c.rhs.evaluate ρ) σ τ)
    (hcl : ∀ p ∈ ps, p.isNl = true → p.c.kind ≠ .lessEqual → ConvexBetween (fun ρ => p.c.rhs.evaluate ρ -. p.c.lhs.evaluate ρ) σ τ)
    (hsign : ∀ k c v, (k, c) ∈ sp.jindex2constr → sol.nu[k]? = some (some v) →
      (c.kind = .lessEqual → v ≤ 0) ∧ (c.kind = .greaterEqual → 0 ≤ v)) :
    ∃ b, e.evaluate τ = some b ∧ a ≤ b + (δ * (absSum sol.lam + absSum sol.nu) + cols.length * (ρ * R + 2 * κ)) := by
  obtain ⟨hfeas, r, xv, lam, nu, mu, pi, lo, up, hr, hsx, hsl, hsn, hsm, hsp, hql, hqu, hcol⟩ := hk
  obtain ⟨hlen, hpcσ, -, -⟩ := (hf.within (by simp) hdef hq δ ε η sol.x).1 hfeas
  obtain ⟨hlenτ, hpcτ, -, -⟩ := (hf.within (by simp) hdef hq 0 0 η' (ys.map some)).1 hy
  have hby := hy.bounds
  obtain ⟨hnx, hna, hnf⟩ := hf.na_eq hq
  have hv := hf.view hq
  obtain ⟨kc, hkc, hch⟩ := hf.mf.chain
  rw [hnx] at hsx hsm hsp hql hqu hcol
  rw [hna] at hsl hcol
  rw [hnf] at hsn hcol
  rw [hσ] at hpcσ
  rw [hτ] at hpcτ
  rw [List.length_map] at hlenτ
  -- columns
  have hmemc : ∀ p ∈ ps, p.c ∈ mod.constraints := fun p hp => by rw [← hf.mf.cs]; exact List.mem_map.2 ⟨p, hp, rfl⟩
  have hcolat : ∀ x ∈ cols, colOf cols x < cols.length ∧ cols[colOf cols x]? = some x := fun x hx =>
    ⟨(List.getElem?_eq_some_iff.1 (hf.cok.col hx).2).1, (hf.cok.col hx).2⟩
  have hvalσ : ∀ x ∈ cols, σ x.id = some (some (xv (colOf cols x))) := by
    intro x hx
    rw [← hσ, pointEnv_col hf.cok hx, hsx, vec_get (hcolat x hx).1]
  let yv : Nat → ℝ := fun i => (ys[i]?).getD 0
  have hyv : ∀ i < cols.length, ys[i]? = some (yv i) := fun i hi => by
    simp only [yv]
    rw [List.getElem?_eq_getElem (by omega)]; rfl
  have hvalτ : ∀ x ∈ cols, τ x.id = some (some (yv (colOf cols x))) := by
    intro x hx
    rw [← hτ, pointEnv_col hf.cok hx, List.getElem?_map, hyv _ (hcolat x hx).1]; rfl
  have hnumσ : ∀ x ∈ cols, numAt σ x = xv (colOf cols x) := fun x hx => by simp [numAt, hvalσ x hx]
  have hnumτ : ∀ x ∈ cols, numAt τ x = yv (colOf cols x) := fun x hx => by simp [numAt, hvalτ x hx]
  have hσn : ∀ x ∈ cols, ∃ t, σ x.id = some (some t) := fun x hx => ⟨_, hvalσ x hx⟩
  -- pieces
  have hres : ∀ p ∈ ps, ∀ ω, p.exp.evaluate ω = p.c.residual ω := fun p hp ω => by
    obtain ⟨n', m', -, -, hok⟩ := hf.mf.piece hp
    obtain ⟨k, hk'⟩ := hok.exp
    exact subN_val hk' ω
  have hpd : ∀ p ∈ ps, Defined p.exp σ := fun p hp => by
    obtain ⟨d, hd, -⟩ := hpcσ p hp
    exact ⟨d, by rw [hres p hp, hd]⟩
  have hobj : Defined e σ := ⟨a, ha⟩
  let D := fun (x : Node (Option ℝ)) (p : Piece (Option ℝ)) => numD σ x p.exp - slackD x p.slack
  have hstat : ∀ x ∈ cols, |numD σ x e - (ps.map fun p => D x p * p.mult lam nu).sum + mu (colOf cols x) - pi (colOf cols x)| ≤ ρ := by
    intro x hxm
    obtain ⟨hi, hx⟩ := hcolat x hxm
    generalize colOf cols x = i at *
    obtain ⟨-, -, -, -, g, a, j, hg, ha, hj, hs⟩ := hcol i hi
    have hg' := hf.grad hq hlen hr (by rw [hσ]; exact hobj) (by rw [hσ]; exact hσn) hx
    rw [hσ] at hg'
    rw [hg'] at hg
    injection hg with hg
    injection hg with hg
    rw [← hch.row_sums lam nu (D x) (a := a) (j := j) ?_ ?_]
    · rw [hg]
      rwa [← sub_sub]
    · intro p hp hl
      have h1 : p.arow < (ps.filter Piece.isLin).length := by
        have := hch.lin
        have h2 : p.arow ∈ (ps.filter Piece.isLin).map Piece.arow := List.mem_map.2 ⟨p, List.mem_filter.2 ⟨hp, hl⟩, rfl⟩
        rw [this, List.mem_range'_1] at h2
        omega
      have h3 := ha p.arow h1
      rw [hv.a, hf.lin_entry hp hl (hpd p hp) hσn hx] at h3
      injection h3 with h3
      exact h3.symm
    · intro p hp hl
      have h1 : p.jrow < (ps.filter Piece.isNl).length := by
        have := hch.nl
        have h2 : p.jrow ∈ (ps.filter Piece.isNl).map Piece.jrow := List.mem_map.2 ⟨p, List.mem_filter.2 ⟨hp, hl⟩, rfl⟩
        rw [this, List.mem_range'_1] at h2
        omega
      have h3 := hj p.jrow h1
      have hne : comp.constr.f ≠ [] := by
        rw [hf.mf.f_eq]
        intro hnil
        have : p ∈ ps.filter Piece.isNl := List.mem_filter.2 ⟨hp, hl⟩
        rw [List.map_eq_nil_iff] at hnil
        rw [hnil] at this
        simp at this
      rcases hf.life with ⟨⟨-, hnf'⟩, -⟩ | ⟨-, -, hst⟩
      · exact absurd hnf' hne
      · rw [(hst q hq).evaluate hf.cok hf.cmpOk hf.vesP (by omega)] at hr
        injection hr with hr
        rw [← hr, hσ] at h3
        simp only [evalBuf] at h3
        rw [hf.jac_entry hp hl (hpd p hp) hx] at h3
        injection h3 with h3
        exact h3.symm
  -- directional derivatives
  have hvar : ∀ x ∈ cols, x.isVar = true := fun x hx => hf.cok.var _ hx
  have hnd : (cols.map Node.id).Nodup := by
    rw [List.Nodup, List.pairwise_map]
    refine hf.cok.nodup.imp_of_mem fun {x y} hx hy hxy hid => ?_
    have := (isVar_ptrEq_iff (hvar x hx) (hvar y hy)).2 hid
    rw [this] at hxy; cases hxy
  have hnode : ∀ f, Defined f σ → (∀ x, x.isVar = true → Occurs x f → x ∈ cols) →
      Chain σ τ cols (fun ω => f.evaluate ω) (fun x => numD σ x f) ∧ f.evaluate (σ.mix τ 1) = f.evaluate τ := fun f hd ho => by
    refine ⟨Chain.node hvar hnd hσn hd fun z hz hoz => ⟨⟨z, ho z hz hoz, rfl⟩, _, _, hvalσ z (ho z hz hoz), hvalτ z (ho z hz hoz)⟩,
      evaluate_congr_var f fun x hx hox => ?_⟩
    rw [Env.mix_num (hvalσ x (ho x hx hox)) (hvalτ x (ho x hx hox)), hvalτ x (ho x hx hox)]; simp
  obtain ⟨hE, hE'⟩ := hnode e hobj fun x hx ho => (hf.mem x).2 (.inl ⟨hx, .inl ho⟩)
  obtain ⟨b, hb⟩ := hce.value 1 (by simp)
  have habove := hE.above hce ha hb
  rw [hE'] at hb
  refine ⟨b, hb, ?_⟩
  -- each row
  let S := fun (p : Piece (Option ℝ)) => (cols.map fun x => D x p * (numAt τ x - numAt σ x)).sum
  have hrow : ∀ p ∈ ps, -(|p.mult lam nu| * δ) ≤ p.mult lam nu * S p := by
    intro p hp
    obtain ⟨n', m', -, -, hok⟩ := hf.mf.piece hp
    obtain ⟨dσ, hdσ, heqσ, -, hslσ⟩ := hpcσ p hp
    obtain ⟨dτ, hdτ, heqτ, -, hslτ⟩ := hpcτ p hp
    obtain ⟨hP, hP'⟩ := hnode p.exp (hpd p hp) fun x hx ho => hf.pieceCol hp hx ho
    -- the slack
    have hslack : p.mult lam nu = 0 ∨ ∃ sσ sτ, S p = (cols.map fun x => numD σ x p.exp * (numAt τ x - numAt σ x)).sum - (sτ - sσ) ∧
        |dσ - sσ| ≤ δ ∧ dτ - sτ = 0 := by
      cases hs : p.slack with
      | some s =>
        obtain ⟨sσ, e1, h1, -⟩ := hslσ s hs
        obtain ⟨sτ, e2, h2, -⟩ := hslτ s hs
        have hsc := MFacts.slackCol hf hp hs
        refine .inr ⟨sσ, sτ, ?_, h1, abs_nonpos_iff.1 h2⟩
        have es : numAt σ s = sσ := by simp [numAt, evaluate_var_num (hvar s hsc) e1]
        have et : numAt τ s = sτ := by simp [numAt, evaluate_var_num (hvar s hsc) e2]
        have hsingle : (cols.map fun x => slackD x p.slack * (numAt τ x - numAt σ x)).sum = sτ - sσ := by
          rw [sum_map_single (List.Nodup.of_map _ hnd) hsc]
          · rw [hs, es, et]; simp [slackD]
          · intro y hy hne
            have : slackD y p.slack = 0 := by
              rw [hs]
              simp only [slackD]
              rw [if_neg]
              intro hid
              exact hne (Good.eq_of_id (hf.cok.good _ hy) (hf.cok.good _ hsc) hid.symm)
            rw [this, zero_mul]
        rw [← hsingle]
        simp only [S, D]
        rw [show (fun x => (numD σ x p.exp - slackD x p.slack) * (numAt τ x - numAt σ x)) =
          fun x => 1 * (numD σ x p.exp * (numAt τ x - numAt σ x)) + (-1) * (slackD x p.slack * (numAt τ x - numAt σ x)) by funext x; ring, sum_map_lin]
        ring
      | none =>
        by_cases hkd : p.c.kind = .equal
        · refine .inr ⟨0, 0, ?_, by simpa using heqσ hkd, ?_⟩
          · simp only [S, D, hs, slackD]
            simp
          · have := abs_nonpos_iff.1 (heqτ hkd)
            simpa using this
        · obtain ⟨x, hx⟩ := Piece.bound_of hs fun hb => hkd (hok.equal.2 hb)
          exact .inl (by simp [Piece.mult, Piece.isLin, Piece.isNl, hx])
    rcases hslack with h0 | ⟨sσ, sτ, hsum, hrσ, hrτ⟩
    · rw [h0]; simp
    have hexpσ : p.exp.evaluate σ = some dσ := by rw [hres p hp, hdσ]
    have hexpτ : p.exp.evaluate τ = some dτ := by rw [hres p hp, hdτ]
    have hup : ConvexBetween (fun ω => p.exp.evaluate ω) σ τ →
        (cols.map fun x => numD σ x p.exp * (numAt τ x - numAt σ x)).sum ≤ dτ - dσ := fun hc => by
      have := hP.above hc (a := dσ) (b := dτ) hexpσ (by rw [hP', hexpτ])
      linarith
    have hlo : ConvexBetween (fun ω => some 0 -. p.exp.evaluate ω) σ τ →
        dτ - dσ ≤ (cols.map fun x => numD σ x p.exp * (numAt τ x - numAt σ x)).sum := fun hc => by
      have := (Chain.zero.sub hP).above hc (a := 0 - dσ) (b := 0 - dτ) (by rw [hexpσ]; rfl) (by rw [hP', hexpτ]; rfl)
      have e1 : (cols.map fun x => (0 - numD σ x p.exp) * (numAt τ x - numAt σ x)).sum =
          - (cols.map fun x => numD σ x p.exp * (numAt τ x - numAt σ x)).sum := by
        rw [← sum_neg']
        congr 1
        exact List.map_congr_left fun x _ => by ring
      rw [e1] at this
      linarith
    have hboth : ∀ t : ℝ, |t| ≤ δ → p.mult lam nu * (-t) ≥ -(|p.mult lam nu| * δ) := by
      intro t ht
      have h1 : |p.mult lam nu * t| ≤ |p.mult lam nu| * δ := by
        rw [abs_mul]; exact mul_le_mul_of_nonneg_left ht (abs_nonneg _)
      have := (abs_le.1 h1).2
      linarith
    have hb0 := hboth (dσ - sσ) hrσ
    rw [hsum]
    have hexact : (cols.map fun x => numD σ x p.exp * (numAt τ x - numAt σ x)).sum = dτ - dσ →
        -(|p.mult lam nu| * δ) ≤ p.mult lam nu * ((cols.map fun x => numD σ x p.exp * (numAt τ x - numAt σ x)).sum - (sτ - sσ)) := fun he => by
      rw [he, show dτ - dσ - (sτ - sσ) = -(dσ - sσ) by linarith]
      exact hb0
    by_cases hnl : p.isNl = true
    · -- a nonlinear row
      have hcup : p.c.kind ≠ .greaterEqual → ConvexBetween (fun ω => p.exp.evaluate ω) σ τ := fun hkd => by
        have := hcu p hp hnl hkd
        rwa [show (fun ω => p.exp.evaluate ω) = fun ω => p.c.lhs.evaluate ω -. p.c.rhs.evaluate ω from funext fun ω => hres p hp ω]
      have hclo : p.c.kind ≠ .lessEqual → ConvexBetween (fun ω => some 0 -. p.exp.evaluate ω) σ τ := fun hkd => by
        have := hcl p hp hnl hkd
        rwa [show (fun ω => some 0 -. p.exp.evaluate ω) = fun ω => p.c.rhs.evaluate ω -. p.c.lhs.evaluate ω from funext fun ω => by
          rw [hres p hp ω]
          unfold Constraint.residual
          cases p.c.lhs.evaluate ω <;> cases p.c.rhs.evaluate ω <;> simp]
      have hlf : p.isLin = false := by
        by_contra hh
        have := Piece.lin_not_nl (by simpa using hh)
        rw [hnl] at this; cases this
      have hmul : p.mult lam nu = nu p.jrow := by rw [Piece.mult, hlf, if_neg (by simp), if_pos hnl]
      have hj : p.jrow < (ps.filter Piece.isNl).length := by
        have := hch.nl
        have h2 : p.jrow ∈ (ps.filter Piece.isNl).map Piece.jrow := List.mem_map.2 ⟨p, List.mem_filter.2 ⟨hp, hnl⟩, rfl⟩
        rw [this, List.mem_range'_1] at h2
        omega
      have hsg := hsign p.jrow p.c (nu p.jrow) (by rw [hf.jindex]; exact List.mem_map.2 ⟨p, List.mem_filter.2 ⟨hp, hnl⟩, rfl⟩)
        (by rw [hsn, vec_get hj])
      rw [← hmul] at hsg
      cases hkd : p.c.kind with
      | equal => exact hexact (le_antisymm (hup (hcup (by simp [hkd]))) (hlo (hclo (by simp [hkd]))))
      | lessEqual =>
        have h1 := hup (hcup (by simp [hkd]))
        have h2 := hsg.1 hkd
        have h3 := mul_le_mul_of_nonpos_left h1 h2
        have h4 : p.mult lam nu * (dτ - dσ - (sτ - sσ)) ≥ -(|p.mult lam nu| * δ) := by
          rw [show dτ - dσ - (sτ - sσ) = -(dσ - sσ) by linarith]; exact hb0
        rw [mul_sub] at h4 ⊢
        linarith
      | greaterEqual =>
        have h1 := hlo (hclo (by simp [hkd]))
        have h2 := hsg.2 hkd
        have h3 := mul_le_mul_of_nonneg_left h1 h2
        have h4 : p.mult lam nu * (dτ - dσ - (sτ - sσ)) ≥ -(|p.mult lam nu| * δ) := by
          rw [show dτ - dσ - (sτ - sσ) = -(dσ - sσ) by linarith]; exact hb0
        rw [mul_sub] at h4 ⊢
        linarith
    · -- a linear row
      have haff : Aff p.exp := by
        have h1 := hok.affine
        rw [hok.prop.2] at h1
        unfold Aff
        rw [h1]
        simpa using hnl
      obtain ⟨d, hd⟩ := affine_mix (τ := τ) (by simp) hok.goodExp haff (fun x hx ho => ⟨_, _, hvalσ x (hf.pieceCol hp hx ho), hvalτ x (hf.pieceCol hp hx ho)⟩) hexpσ
      refine hexact (le_antisymm (hup (convexBetween_affine hd)) (hlo (convexBetween_affine (w := - dσ) (d := -d) fun t => ?_)))
      rw [hd, sub_some]
      congr 1; ring
  -- the sum over the columns
  have hswap : (cols.map fun x => (ps.map fun p => D x p * p.mult lam nu).sum * (numAt τ x - numAt σ x)).sum = (ps.map fun p => p.mult lam nu * S p).sum := by
    have e1 : (cols.map fun x => (ps.map fun p => D x p * p.mult lam nu).sum * (numAt τ x - numAt σ x)) =
        cols.map fun x => (ps.map fun p => D x p * p.mult lam nu * (numAt τ x - numAt σ x)).sum :=
      List.map_congr_left fun x _ => by rw [sum_mul_right]
    rw [e1, sum_swap]
    congr 1
    refine List.map_congr_left fun p _ => ?_
    rw [mul_comm, show S p = (cols.map fun x => D x p * (numAt τ x - numAt σ x)).sum from rfl, sum_mul_right]
    congr 1
    exact List.map_congr_left fun x _ => by ring
  have hcolsum : (cols.map fun x => (ps.map fun p => D x p * p.mult lam nu).sum * (numAt τ x - numAt σ x) - (ρ * R + 2 * κ)).sum ≤
      (cols.map fun x => numD σ x e * (numAt τ x - numAt σ x)).sum := by
    refine sum_le_sum' _ _ _ fun x hx => ?_
    obtain ⟨hi, hxi⟩ := hcolat x hx
    have h1 := hstat x hx
    rw [hnumσ x hx, hnumτ x hx]
    obtain ⟨hm0, hp0, hmc, hpc, -⟩ := hcol _ hi
    have hr := hR (colOf cols x) (xv (colOf cols x)) (yv (colOf cols x)) (by rw [hsx, vec_get hi]) (hyv _ hi)
    obtain ⟨t, l0, u0, e1, e2, e3, e4, e5⟩ := hby (colOf cols x) (some (yv (colOf cols x))) (by rw [List.getElem?_map, hyv _ hi]; rfl)
    injection e1 with e1
    rw [hql, vec_get hi] at e2
    rw [hqu, vec_get hi] at e3
    simp only [Option.some.injEq] at e2 e3
    rw [← e2] at e4
    rw [← e3] at e5
    generalize colOf cols x = i at *
    generalize (ps.map fun p => D x p * p.mult lam nu).sum = T at *
    generalize yv i = Y at *
    subst e1
    have hres2 : |(numD σ x e - T + mu i - pi i) * (Y - xv i)| ≤ ρ * R := by
      rw [abs_mul]
      exact mul_le_mul h1 hr (abs_nonneg _) ((abs_nonneg _).trans h1)
    have h2 := (abs_le.1 hres2).1
    have h3 : 0 ≤ mu i * (up i - Y) := mul_nonneg hm0 (by linarith)
    have h4 : 0 ≤ pi i * (Y - lo i) := mul_nonneg hp0 (by linarith)
    nlinarith
  have hsub : (cols.map fun x => (ps.map fun p => D x p * p.mult lam nu).sum * (numAt τ x - numAt σ x) - (ρ * R + 2 * κ)).sum =
      (cols.map fun x => (ps.map fun p => D x p * p.mult lam nu).sum * (numAt τ x - numAt σ x)).sum - cols.length * (ρ * R + 2 * κ) := by
    rw [← sum_const' cols, show (fun x => (ps.map fun p => D x p * p.mult lam nu).sum * (numAt τ x - numAt σ x) - (ρ * R + 2 * κ)) =
      fun x => 1 * ((ps.map fun p => D x p * p.mult lam nu).sum * (numAt τ x - numAt σ x)) + (-1) * (ρ * R + 2 * κ) by funext x; ring, sum_map_lin]
    ring
  have hrows : -(δ * (absSum sol.lam + absSum sol.nu)) ≤ (ps.map fun p => p.mult lam nu * S p).sum := by
    refine le_trans (le_of_eq ?_) (sum_le_sum' ps (fun p => -(|p.mult lam nu| * δ)) _ hrow)
    have h1 := hch.row_sums (fun k => |lam k|) (fun k => |nu k|) (fun _ => 1) (a := fun _ => 1) (j := fun _ => 1) (fun _ _ _ => rfl) (fun _ _ _ => rfl)
    simp only [one_mul, Piece.mult_abs] at h1
    rw [sum_neg', ← sum_mul_right, ← h1, hsl, hsn, absSum_vec, absSum_vec]
    ring
  rw [hsub, hswap] at hcolsum
  linarith

end

end Verif
