import Verif.Proofs.Class
import Verif.Props.Std

/-! # What evaluating the standard problem computes -/

set_option linter.unusedSectionVars false
set_option linter.unusedSimpArgs false

namespace Verif

open Filter Topology

/-! ### Nonlinear rows -/

section
variable {F : Type} [FloatOps F] {H : HashOrder} {l : Level} {h : Heap F} {n m ar jr : Nat} {mod : Model F} {comp : ModelComp F}
  {e : Node F} {ps : List (Piece F)} {cols : List (Node F)} {xes : List (Node F × F)} {ves : List (Node F × Nat)} {sp : StdProb F}

theorem flatMap_if {α β : Type} (l : List α) (P : α → Bool) (f : α → β) :
    (l.flatMap fun a => if P a = true then [f a] else []) = (l.filter P).map f := by
  induction l with
  | nil => rfl
  | cons a l ih =>
    rw [List.flatMap_cons, ih, List.filter_cons]
    split <;> simp

theorem MFacts.f_eq (hf : MFacts H l h n m mod comp e ps) : comp.constr.f = (ps.filter Piece.isNl).map Piece.fn := by
  rw [hf.constr, ← flatMap_if]
  simp [ConstrComp.concat, List.flatMap_map, Piece.out]

theorem MFacts.h_eq (hf : MFacts H l h n m mod comp e ps) : comp.constr.h = (ps.filter Piece.isNl).map fun p => p.comp.hphi := by
  rw [hf.constr, ← flatMap_if]
  simp [ConstrComp.concat, List.flatMap_map, Piece.out]

theorem PChain.at (hc : PChain H l h n ar 0 ps m) {p : Piece F} (hp : p ∈ ps) (hn : p.isNl = true) :
    (ps.filter Piece.isNl)[p.jrow]? = some p := by
  obtain ⟨i, hi⟩ := List.mem_iff_getElem?.1 (List.mem_filter.2 ⟨hp, hn⟩)
  have h1 : ((ps.filter Piece.isNl).map Piece.jrow)[i]? = some p.jrow := by rw [List.getElem?_map, hi]; rfl
  rw [hc.nl, List.getElem?_range'] at h1
  · simp only [Option.some.injEq, Nat.one_mul, Nat.zero_add] at h1
    rw [← h1]; exact hi
  · exact (List.getElem?_eq_some_iff.1 hi).1

theorem PChain.jlow (hc : PChain H l h n ar jr ps m) {i : Nat} (hi : i < jr) :
    (ps.flatMap fun p => p.jac.map fun e => (p.jrow, e.1, e.2)).filter (fun e => e.1 == i) = [] := by
  rw [List.filter_eq_nil_iff]
  intro e he
  obtain ⟨p, hp, he⟩ := List.mem_flatMap.1 he
  obtain ⟨q, hq, rfl⟩ := List.mem_map.1 he
  have hnl : p.isNl = true := by
    by_contra hno
    rw [Piece.jac_nil (by simpa using hno)] at hq; simp at hq
  have : p.jrow ∈ (ps.filter Piece.isNl).map Piece.jrow := List.mem_map.2 ⟨p, List.mem_filter.2 ⟨hp, hnl⟩, rfl⟩
  rw [hc.nl, List.mem_range'_1] at this
  simp only [beq_iff_eq]; omega

theorem PChain.jrow_entries (hc : PChain H l h n ar jr ps m) {p : Piece F} (hp : p ∈ ps) (hnl : p.isNl = true) :
    (ps.flatMap fun p => p.jac.map fun e => (p.jrow, e.1, e.2)).filter (fun e => e.1 == p.jrow) =
      p.jac.map fun e => (p.jrow, e.1, e.2) := by
  have hinj := fun {q} hq hqn => hc.jrow_inj (p' := p) (p := q) hq hp hqn hnl
  have hnd : (ps.filter Piece.isNl).Nodup := by
    refine List.Nodup.of_map Piece.jrow ?_
    rw [hc.nl]; exact List.nodup_range'
  clear hc
  induction ps with
  | nil => simp at hp
  | cons q ps ih =>
    rw [List.flatMap_cons, List.filter_append]
    have hrest : p ∉ ps → (ps.flatMap fun p => p.jac.map fun e => (p.jrow, e.1, e.2)).filter (fun e => e.1 == p.jrow) = [] := by
      intro hnot
      rw [List.filter_eq_nil_iff]
      intro e he
      obtain ⟨r, hr, he⟩ := List.mem_flatMap.1 he
      obtain ⟨s, hs, rfl⟩ := List.mem_map.1 he
      have hnl' : r.isNl = true := by
        by_contra hno
        rw [Piece.jac_nil (by simpa using hno)] at hs; simp at hs
      simp only [beq_iff_eq]
      intro heq
      have := hinj (List.mem_cons_of_mem _ hr) hnl' heq
      exact hnot (this ▸ hr)
    by_cases hq : q = p
    · subst hq
      have hnot : q ∉ ps := by
        intro hm
        rw [List.filter_cons, if_pos hnl, List.nodup_cons] at hnd
        exact hnd.1 (List.mem_filter.2 ⟨hm, hnl⟩)
      rw [hrest hnot, List.append_nil, List.filter_eq_self.2]
      rintro _ he
      obtain ⟨r, -, rfl⟩ := List.mem_map.1 he
      simp
    · have hp' : p ∈ ps := (List.mem_cons.1 hp).resolve_left (Ne.symm hq)
      rw [ih hp' (fun hq hqn => hinj (List.mem_cons_of_mem _ hq) hqn) (by
        rw [List.filter_cons] at hnd
        split at hnd
        · exact (List.nodup_cons.1 hnd).2
        · exact hnd)]
      have : (q.jac.map fun e => (q.jrow, e.1, e.2)).filter (fun e => e.1 == p.jrow) = [] := by
        rw [List.filter_eq_nil_iff]
        intro e he
        obtain ⟨s, hs, rfl⟩ := List.mem_map.1 he
        have hnl' : q.isNl = true := by
          by_contra hno
          rw [Piece.jac_nil (by simpa using hno)] at hs; simp at hs
        simp only [beq_iff_eq]
        intro heq
        exact hq (hinj List.mem_cons_self hnl' heq)
      rw [this, List.nil_append]

theorem MFacts.j_eq (hf : MFacts H l h n m mod comp e ps) :
    comp.constr.j = ps.flatMap fun p => p.jac.map fun e => (p.jrow, e.1, e.2) := by
  rw [hf.constr]; simp [ConstrComp.concat, List.flatMap_map, Piece.out]

/-- At most one element of a list satisfies `P`. -/
theorem filter_unique {α : Type} {l : List α} {P : α → Bool} (hp : l.Pairwise fun a b => ¬ (P a = true ∧ P b = true)) :
    l.filter P = [] ∨ ∃ a ∈ l, P a = true ∧ l.filter P = [a] := by
  induction l with
  | nil => exact .inl rfl
  | cons a l ih =>
    rw [List.pairwise_cons] at hp
    by_cases ha : P a = true
    · refine .inr ⟨a, by simp, ha, ?_⟩
      rw [List.filter_cons, if_pos ha, List.filter_eq_nil_iff.2]
      intro b hb hpb
      exact hp.1 b hb ⟨ha, hpb⟩
    · rw [List.filter_cons, if_neg ha]
      rcases ih hp.2 with h | ⟨b, hb, h1, h2⟩
      · exact .inl h
      · exact .inr ⟨b, by simp [hb], h1, h2⟩

theorem valMat_dense (rows ncols : Nat) (es : List (Nat × Nat × Node F)) (σ : Env F) (i j : Nat) :
    (valMat rows ncols es σ).dense i j = total ((es.filter fun e => e.1 == i && e.2.1 == j).map fun e => e.2.2.evaluate σ) := by
  unfold Coo.dense Coo.triplets valMat valuesAt rowOf
  simp only [List.zip_map', List.filter_map, List.map_map, List.filter_filter, Function.comp_def]
  congr 2
  exact List.filter_congr fun e _ => by rw [Bool.and_comm]

theorem valMat_triplets (rows ncols : Nat) (es : List (Nat × Nat × Node F)) (σ : Env F) :
    (valMat rows ncols es σ).triplets = es.map fun e => (e.1, e.2.1, e.2.2.evaluate σ) := by
  unfold Coo.triplets valMat
  simp only [List.zip_map']

end

/-! ### Functions of rows -/

section
variable {K : Type} [Field K] [LinearOrder K] [IsStrictOrderedRing K] [Trig K]
variable {H : HashOrder} {l : Level} {h : Heap (Option K)} {n m : Nat} {cols : List (Node (Option K))} {comp : ModelComp (Option K)}
  {mod : Model (Option K)} {e : Node (Option K)} {ps : List (Piece (Option K))} {xes : List (Node (Option K) × Option K)}
  {ves : List (Node (Option K) × Nat)} {sp : StdProb (Option K)}

/-- Expression minus slack. -/
def rowVal (e : Node (Option K)) (s : Option (Node (Option K))) (σ : Env (Option K)) : Option K :=
  match s with
  | some s => e.evaluate σ -. s.evaluate σ
  | none => e.evaluate σ

theorem Piece.Ok.fn_val {p : Piece (Option K)} (hp : p.Ok H l h n m) (hn : p.isNl = true) (σ : Env (Option K)) :
    p.fn.evaluate σ = rowVal p.exp p.slack σ := by
  unfold Piece.fn Piece.slack rowVal
  cases hk : p.kind with
  | nlEq => simp only; rw [hp.prop.1]
  | nlIneq s f m1 =>
    obtain ⟨-, ⟨k, k', h2⟩, -⟩ := hp.nlIneq s f m1 hk
    simp only
    rw [subN_val h2, hp.prop.1]
  | bound x => simp [Piece.isNl, hk] at hn
  | linEq x => simp [Piece.isNl, hk] at hn
  | linIneq x => simp [Piece.isNl, hk] at hn

theorem SpFacts.nlRow_eq (hf : SpFacts H l h n m mod comp e ps cols xes ves sp) {p : Piece (Option K)} (hp : p ∈ ps) (hn : p.isNl = true)
    (σ : Env (Option K)) : sp.nlRow n p.jrow p.c σ = p.fn.evaluate σ := by
  obtain ⟨n', m', -, -, hok⟩ := hf.mf.piece hp
  rw [hok.fn_val hn]
  obtain ⟨k, hk⟩ := hok.exp
  unfold StdProb.nlRow rowVal
  cases hfd : sp.var2index.find? (fun e => decide (n ≤ e.1.id) && e.1.name == slackNameJ p.jrow) with
  | some en =>
    have h1 := List.find?_some hfd
    have h2 := List.mem_of_find?_eq_some hfd
    simp only [Bool.and_eq_true, decide_eq_true_eq, beq_iff_eq] at h1
    have h3 := hf.mem_v2i.1 (show (en.1, en.2) ∈ sp.var2index from h2)
    rw [hf.slackJ hp hn (List.mem_of_getElem? h3) h1.1 h1.2]
    simp only
    rw [subN_val hk]
  | none =>
    cases hs : p.slack with
    | some s =>
      obtain ⟨hsc, hsn⟩ := hf.newCol.2 ⟨p, hp, hs⟩
      obtain ⟨i, hi⟩ := List.mem_iff_getElem?.1 hsc
      have hm : (s, i) ∈ sp.var2index := hf.mem_v2i.2 hi
      rw [List.find?_eq_none] at hfd
      have := hfd _ hm
      simp only [Bool.and_eq_true, decide_eq_true_eq, beq_iff_eq, not_and] at this
      exact absurd ((hok.slack_nl hn).2 s hs).2 (this hsn)
    | none =>
      simp only
      rw [subN_val hk]

end

/-! ### Derivatives -/

section
variable {σ : Env (Option ℝ)} {x y e : Node (Option ℝ)} {s : Option (Node (Option ℝ))}

/-- The slack part of the derivative. -/
noncomputable def slackD (x : Node (Option ℝ)) (s : Option (Node (Option ℝ))) : ℝ :=
  match s with
  | some s => if s.id = x.id then 1 else 0
  | none => 0

theorem rowVal_hasDerivAt {t0 : ℝ} (hx : x.isVar = true) (ht : σ x.id = some (some t0)) (hd : Defined e σ)
    (hs : ∀ s', s = some s' → s'.isVar = true ∧ ∃ u, σ s'.id = some (some u)) :
    HasDerivAt (alongVar (rowVal e s) x σ) (numD σ x e - slackD x s) t0 := by
  obtain ⟨h1, h2⟩ := numD_hasDerivAt hx ht e hd
  cases s with
  | none =>
    simp only [slackD, sub_zero]
    exact h2
  | some s =>
    obtain ⟨hv, u, hu⟩ := hs s rfl
    have h3 : HasDerivAt (fun t => (s.evaluate (σ.set x.id (some t))).getD 0) (slackD x (some s)) t0 := by
      simp only [slackD]
      by_cases hsx : s.id = x.id
      · rw [if_pos hsx]
        simp only [eval_set_eq hv hsx, Option.getD_some]
        exact hasDerivAt_id t0
      · rw [if_neg hsx]
        simp only [eval_set_ne hv hsx]
        exact hasDerivAt_const ..
    refine (h2.sub h3).congr_of_eventuallyEq ?_
    filter_upwards [h1] with t ht'
    obtain ⟨v, hv'⟩ := ht'
    have hsv : ∃ w, s.evaluate (σ.set x.id (some t)) = some w := by
      by_cases hsx : s.id = x.id
      · exact ⟨t, eval_set_eq hv hsx _⟩
      · rw [eval_set_ne hv hsx]
        cases s <;> simp [Node.isVar] at hv
        simp only [Node.id] at hu
        exact ⟨u, by simp [Node.evaluate, hu]⟩
    obtain ⟨w, hw⟩ := hsv
    simp [alongVar, rowVal, hv', hw, val]

theorem rowVal_hasDerivAt2 {s0 t0 : ℝ} (hx : x.isVar = true) (hy : y.isVar = true) (hxs : σ x.id = some (some s0))
    (ht : σ y.id = some (some t0)) (hd : Defined e σ)
    (hs : ∀ s', s = some s' → s'.isVar = true ∧ ∃ u, σ s'.id = some (some u)) :
    HasDerivAt (fun t => partialAlong (rowVal e s) x (σ.set y.id (some t))) (numD2 σ x y e) t0 := by
  have h1 := (numD2_hasDerivAt hy ht x e hd).sub_const (slackD x s)
  refine h1.congr_of_eventuallyEq ?_
  filter_upwards [(numD_hasDerivAt hy ht e hd).1] with t hdt
  have hget : ∀ i u, σ i = some (some u) → ∃ u', (σ.set y.id (some t)) i = some (some u') := by
    intro i u hu
    unfold Env.set
    split
    · exact ⟨t, rfl⟩
    · exact ⟨u, hu⟩
  obtain ⟨s1, hs1⟩ := hget _ _ hxs
  have := rowVal_hasDerivAt (s := s) hx hs1 hdt fun s' hs' => ⟨(hs s' hs').1, by
    obtain ⟨u, hu⟩ := (hs s' hs').2
    exact hget _ _ hu⟩
  unfold partialAlong
  rw [hs1]
  exact this.deriv

end

end Verif
