import Verif.Proofs.Class

/-! # The objective of the standard problem -/

set_option linter.unusedSectionVars false
set_option linter.unusedSimpArgs false

namespace Verif

/-! ### The life of a view -/

section
variable {F : Type} [FloatOps F] {H : HashOrder} {l : Level} {h : Heap F} {n m : Nat} {mod : Model F} {comp : ModelComp F}
  {e : Node F} {ps : List (Piece F)} {cols : List (Node F)} {xes : List (Node F × F)} {ves : List (Node F × Nat)} {sp : StdProb F}

theorem SpFacts.life (hf : SpFacts H l h n m mod comp e ps cols xes ves sp) :
    ((comp.obj.prop.affine = true ∧ comp.constr.f = []) ∧ ((∃ q, sp.prob = .lp q) ∨ ∃ q, sp.prob = .milp q) ∧
      ∀ q ∈ sp.prob.views, LinInv (stdC cols comp) (stdA cols comp) comp.constr.b (stdL cols comp) (stdU cols comp) (stdP cols)
        (some (stdX0 cols xes)) q) ∨
    (¬ (comp.obj.prop.affine = true ∧ comp.constr.f = []) ∧ ((∃ q, sp.prob = .nlp q) ∨ ∃ q, sp.prob = .minlp q) ∧
      ∀ q ∈ sp.prob.views, StdInv cols comp xes ves q) := by
  have hlin : LinInv (stdC cols comp) (stdA cols comp) comp.constr.b (stdL cols comp) (stdU cols comp) (stdP cols)
        (some (stdX0 cols xes)) (stdLinear cols comp xes) := LinInv.initial (by simp [stdC, stdA, Coo.cols])
  rw [hf.prob]
  unfold stdProbOf
  split
  · rename_i hc
    left
    refine ⟨hc, ?_⟩
    split
    · refine ⟨.inl ⟨_, rfl⟩, fun q hq => ?_⟩
      simp only [Problem.views, List.mem_cons, List.not_mem_nil, or_false, or_self] at hq
      rw [hq]; exact hlin
    · refine ⟨.inr ⟨_, rfl⟩, fun q hq => ?_⟩
      simp only [Problem.views, List.mem_singleton] at hq
      rw [hq]; exact hlin
  · rename_i hc
    right
    refine ⟨hc, ?_⟩
    split
    · refine ⟨.inl ⟨_, rfl⟩, fun q hq => ?_⟩
      simp only [Problem.views, List.mem_singleton] at hq
      rw [hq]; exact StdInv.initial
    · refine ⟨.inr ⟨_, rfl⟩, fun q hq => ?_⟩
      simp only [Problem.views, List.mem_singleton] at hq
      rw [hq]; exact StdInv.initial

end

variable {K : Type} [Field K] [LinearOrder K] [IsStrictOrderedRing K] [Trig K]

/-! ### Sums over the columns -/

theorem osum_map_add {α : Type} (l : List α) (f g : α → Option K) :
    osum (l.map fun x => (f x +. g x)) = (osum (l.map f) +. osum (l.map g)) := by
  induction l with
  | nil => simp
  | cons a l ih =>
    simp only [List.map_cons, osum_cons, ih]
    rw [Exact.oadd_assoc, Exact.oadd_assoc, Exact.oadd_left_comm (osum (l.map f))]

theorem osum_zero {α : Type} (l : List α) : osum (l.map fun _ => (some 0 : Option K)) = some 0 := by
  induction l with
  | nil => rfl
  | cons a l ih => rw [List.map_cons, osum_cons, ih]; simp

theorem osum_single {α : Type} [DecidableEq α] {l : List α} (hn : l.Nodup) {a : α} (ha : a ∈ l) (v : Option K) :
    osum (l.map fun x => if x = a then v else some 0) = v := by
  induction l with
  | nil => simp at ha
  | cons b l ih =>
    rw [List.nodup_cons] at hn
    simp only [List.map_cons, osum_cons]
    by_cases hb : b = a
    · subst hb
      have : (l.map fun x => if x = b then v else some 0) = l.map fun _ => (some 0 : Option K) :=
        List.map_congr_left fun x hx => if_neg (by rintro rfl; exact hn.1 hx)
      rw [this, osum_zero, if_pos rfl]
      simp
    · rw [if_neg hb, ih hn.2 (by rcases List.mem_cons.1 ha with h | h; exact absurd h.symm hb; exact h)]
      simp

section
variable {H : HashOrder} {l : Level} {h : Heap (Option K)} {n m : Nat} {cols : List (Node (Option K))} {comp : ModelComp (Option K)}
  {mod : Model (Option K)} {e : Node (Option K)} {ps : List (Piece (Option K))} {xes : List (Node (Option K) × Option K)}
  {ves : List (Node (Option K) × Nat)} {sp : StdProb (Option K)}

/-- A linear form as a sum over all columns. -/
theorem lin_cols (hc : ColsOk l h cols) {σ : Env (Option K)} (hσ : ∀ x ∈ cols, ∃ t, x.evaluate σ = some t)
    (es : List (Node (Option K) × Option K)) (hk : NodupP (keysN es)) (he : ∀ q ∈ es, q.1 ∈ cols) :
    osum (cols.map fun x => (valAt es zero x *. x.evaluate σ)) = lin σ es := by
  classical
  induction es with
  | nil =>
    have : (cols.map fun x => (valAt ([] : List (Node (Option K) × Option K)) zero x *. x.evaluate σ)) = cols.map fun _ => some 0 :=
      List.map_congr_left fun x hx => by
        obtain ⟨t, ht⟩ := hσ x hx
        simp [valAt, getN, ht]
    rw [this, osum_zero]; rfl
  | cons q es ih =>
    simp only [keysN, List.map_cons, NodupP, List.pairwise_cons] at hk
    have hq := he q (by simp)
    have : (cols.map fun x => (valAt (q :: es) zero x *. x.evaluate σ)) =
        cols.map fun x => ((if x = q.1 then (q.2 *. q.1.evaluate σ) else some 0) +. (valAt es zero x *. x.evaluate σ)) := by
      refine List.map_congr_left fun x hx => ?_
      obtain ⟨t, ht⟩ := hσ x hx
      obtain ⟨y, v⟩ := q
      by_cases hxy : x = y
      · subst hxy
        have hn : getN es x = none := by
          refine getN_none_of fun z hz => ?_
          rw [ptrEq_symm]; exact hk.1 z hz
        simp [valAt, getN, hn, ptrEq_refl, ht]
      · have : y.ptrEq x = false := by
          rw [← Bool.not_eq_true]
          intro hp
          exact hxy (((hc.good _ hq).ptrEq_iff (hc.good _ hx)).1 hp).symm
        simp [valAt, getN, this, hxy]
    rw [this, osum_map_add, osum_single hc.nodup' hq, ih hk.2 fun r hr => he r (by simp [hr])]
    rfl

/-- The entries of a point are the values of the columns. -/
theorem point_map (hc : ColsOk l h cols) {xs : List (Option K)} (hx : xs.length = cols.length) :
    xs = cols.map fun x => x.evaluate (pointEnv cols xs) := by
  refine List.ext_getElem (by simp [hx]) fun i h1 h2 => ?_
  have h3 : i < cols.length := by omega
  simp only [List.getElem_map]
  rw [evaluate_col hc (List.getElem_mem h3), hc.col_get h3, List.getElem?_eq_getElem h1]
  rfl

theorem linear_objective (hc : ColsOk l h cols) (ho : CompOk cols comp) {xs : List (Option K)} (hx : xs.length = cols.length)
    (hs : ∀ x ∈ xs, ∃ t, x = some t) :
    ((stdC cols comp).zip xs).foldl (fun s e => s +. (e.1 *. e.2)) zero = lin (pointEnv cols xs) comp.obj.prop.a := by
  have hm := point_map hc hx
  have hσ : ∀ x ∈ cols, ∃ t, x.evaluate (pointEnv cols xs) = some t := by
    intro x hxm
    refine hs _ ?_
    rw [hm]
    exact List.mem_map.2 ⟨x, hxm, by rw [← hm]⟩
  rw [← lin_cols hc hσ comp.obj.prop.a ho.paNd ho.pa]
  have e1 : (stdC cols comp).zip xs = cols.map fun x => (valAt comp.obj.prop.a zero x, x.evaluate (pointEnv cols xs)) := by
    conv_lhs => rw [hm]
    unfold stdC
    rw [List.zip_map']
  rw [e1]
  generalize pointEnv cols xs = σ
  have : ∀ (L : List (Node (Option K))) (s : Option K),
      (L.map fun x => (valAt comp.obj.prop.a zero x, x.evaluate σ)).foldl (fun s e => s +. (e.1 *. e.2)) s =
        (s +. osum (L.map fun x => (valAt comp.obj.prop.a zero x *. x.evaluate σ))) := by
    intro L
    induction L with
    | nil => intro s; simp
    | cons x L ih =>
      intro s
      simp only [List.map_cons, List.foldl_cons, ih, osum_cons, Exact.oadd_assoc]
  rw [this]
  simp

/-- The value of the objective expression. -/
theorem MFacts.objVal (hf : MFacts H l h n m mod comp e ps) (σ : Env (Option K)) : e.evaluate σ = mod.minimised σ := by
  unfold Model.minimised
  cases ho : mod.objective with
  | minimize f => rw [hf.objMin f ho]
  | maximize f =>
    obtain ⟨k, k', hk⟩ := hf.objMax f ho
    simp only
    exact negN_val hk σ
  | empty =>
    obtain ⟨i, rfl⟩ := hf.objEmpty ho
    simp [Node.evaluate]

end

end Verif
