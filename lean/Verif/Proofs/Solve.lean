import Verif.Spec.Solve
import Verif.Props.ModelStd2
import Verif.Props.Constr

/-! # What `solve` reports -/

set_option linter.unusedSectionVars false
set_option linter.unusedSimpArgs false

namespace Verif

section
variable {F : Type} [FloatOps F]

theorem getC_insertC {β : Type} (m : List (Constraint F × β)) (k : Constraint F) (v : β) (x : Constraint F) :
    getC (insertC m k v) x = if k.ptrEq x then some v else getC m x := by
  induction m with
  | nil => simp [insertC, getC]
  | cons a m ih =>
    obtain ⟨y, w⟩ := a
    simp only [insertC]
    by_cases h : y.ptrEq k = true
    · rw [if_pos h]
      have e : y.ptrEq x = k.ptrEq x := by
        simp only [Constraint.ptrEq, beq_iff_eq] at h ⊢
        rw [h]
      simp only [getC, e]
      split <;> rfl
    · rw [if_neg h]
      simp only [getC, ih]
      by_cases h' : y.ptrEq x = true
      · rw [if_pos h', if_pos h', if_neg]
        intro hk
        simp only [Constraint.ptrEq, beq_iff_eq] at h h' hk
        exact h (by rw [h', hk])
      · rw [if_neg h', if_neg h']

theorem getN_mem {β : Type} {m : List (Node F × β)} (hn : NodupP (keysN m)) {x : Node F} {v : β} (hm : (x, v) ∈ m) : getN m x = some v := by
  induction m with
  | nil => simp at hm
  | cons e m ih =>
    obtain ⟨y, w⟩ := e
    simp only [keysN, List.map_cons, NodupP, List.pairwise_cons] at hn
    simp only [getN]
    rcases List.mem_cons.1 hm with he | hm
    · cases he
      rw [if_pos (ptrEq_refl x)]
    · rw [if_neg, ih hn.2 hm]
      rw [hn.1 x (List.mem_map.2 ⟨_, hm, rfl⟩)]
      simp

theorem insertDuals_get {v : List F} {es : List (Nat × Constraint F)} {d d' : List (Constraint F × F)} (h : insertDuals v d es = .ok d')
    (c : Constraint F) :
    (∃ e ∈ es, e.2.ptrEq c = true ∧ ∃ w, v[e.1]? = some w ∧ getC d' c = some w) ∨
    ((∀ e ∈ es, e.2.ptrEq c = false) ∧ getC d' c = getC d c) := by
  unfold insertDuals at h
  induction es generalizing d with
  | nil =>
    simp only [foldR, Except.ok.injEq] at h
    exact .inr ⟨by simp, by rw [h]⟩
  | cons e es ih =>
    rw [foldR_cons_ok] at h
    obtain ⟨b, hb, h⟩ := h
    rw [R.bind_ok_iff] at hb
    obtain ⟨w, hw, hb⟩ := hb
    injection hb with hb
    rw [idx_ok] at hw
    rcases ih h with ⟨e', he', h1, h2⟩ | ⟨h1, h2⟩
    · exact .inl ⟨e', by simp [he'], h1, h2⟩
    · rw [← hb, getC_insertC] at h2
      by_cases hc : e.2.ptrEq c = true
      · rw [if_pos hc] at h2
        exact .inl ⟨e, by simp, hc, w, hw, h2⟩
      · rw [if_neg hc] at h2
        refine .inr ⟨?_, h2⟩
        intro e' he'
        rcases List.mem_cons.1 he' with rfl | he'
        · simpa using hc
        · exact h1 e' he'

theorem mapEnv_eq {cols : List (Node F)} {xs : List F} {l : Level} {h : Heap F} (hc : ColsOk l h cols) {primals : List (Node F × F)}
    (h1 : ∀ p ∈ primals, ∃ i : Nat, cols[i]? = some p.1 ∧ xs[i]? = some p.2) (h2 : ∀ x ∈ cols, ∃ v, (x, v) ∈ primals) :
    mapEnv primals = pointEnv cols xs := by
  funext k
  unfold mapEnv
  cases hf : primals.find? (fun e => e.1.id == k) with
  | some p =>
    have hk := List.find?_some hf
    simp only [beq_iff_eq] at hk
    obtain ⟨i, hi, hv⟩ := h1 p (List.mem_of_find?_eq_some hf)
    obtain ⟨hlt, hxi⟩ := List.getElem?_eq_some_iff.1 hi
    rw [← hk, pointEnv_col hc (List.mem_of_getElem? hi), ← hxi, hc.col_get hlt, hv]
    rfl
  | none =>
    rw [List.find?_eq_none] at hf
    rw [pointEnv_other]
    · rfl
    · intro y hy hyk
      obtain ⟨v, hv⟩ := h2 y hy
      have := hf _ hv
      simp only [beq_iff_eq] at this
      exact this hyk

variable {H : HashOrder} {l : Level} {h : Heap F} {n m : Nat} {mod : Model F} {comp : ModelComp F} {e : Node F}
  {ps : List (Piece F)} {cols : List (Node F)} {xes : List (Node F × F)} {ves : List (Node F × Nat)} {sp : StdProb F}

theorem Extract.primals (hf : SpFacts H l h n m mod comp e ps cols xes ves sp) {sol : Sol F} {primals : List (Node F × F)}
    {duals : List (Constraint F × F)} (hx : Extract sp sol primals duals) :
    NodupP (keysN primals) ∧ primals.length = sp.var2index.length ∧
    (∀ p ∈ primals, ∃ i : Nat, (p.1, i) ∈ sp.var2index ∧ sol.x[i]? = some p.2) ∧
    (∀ x i, (x, i) ∈ sp.var2index → ∃ v, sol.x[i]? = some v ∧ (x, v) ∈ primals) := by
  obtain ⟨ves', as, js, us, ls, d1, d2, d3, p1, p2, p3, p4, p5, hp, -⟩ := hx
  have hnd : NodupP (keysN ves') := by
    refine NodupP.perm ?_ (p1.map Prod.fst).symm
    rw [hf.v2i, List.zipIdx_map_fst]
    exact hf.cok.nodup
  have hall := foldR_primals hnd hp
  have hkeys : keysN primals = keysN ves' := by
    unfold keysN
    clear hp hnd p1
    generalize ves' = L at hall
    induction hall with
    | nil => rfl
    | cons hh _ ih => simp only [List.map_cons, ih, hh.1]
  refine ⟨by rw [hkeys]; exact hnd, by rw [← hall.length_eq, p1.length_eq], fun p hp' => ?_, fun x i hxi => ?_⟩
  · obtain ⟨e', he', h1, h2⟩ := forall₂_right hall hp'
    exact ⟨e'.2, p1.mem_iff.1 (by rw [h1]; exact he'), h2⟩
  · obtain ⟨p, hp', h1, h2⟩ := forall₂_left hall (p1.mem_iff.2 hxi)
    exact ⟨p.2, h2, by have := h1; simp only at this; rw [← this]; exact hp'⟩

/-- The assignment of the final primals is the point of the solution. -/
theorem Extract.env (hf : SpFacts H l h n m mod comp e ps cols xes ves sp) {sol : Sol F} {primals : List (Node F × F)}
    {duals : List (Constraint F × F)} (hx : Extract sp sol primals duals) : mapEnv primals = pointEnv cols sol.x := by
  obtain ⟨-, -, h1, h2⟩ := hx.primals hf
  refine mapEnv_eq hf.cok ?_ ?_
  · intro p hp
    obtain ⟨i, hi, hv⟩ := h1 p hp
    exact ⟨i, hf.mem_v2i.1 hi, hv⟩
  · intro x hxm
    obtain ⟨i, hi⟩ := List.mem_iff_getElem?.1 hxm
    obtain ⟨v, -, hv⟩ := h2 x i (hf.mem_v2i.2 hi)
    exact ⟨v, hv⟩

theorem Extract.dual {sol : Sol F} {primals : List (Node F × F)} {duals : List (Constraint F × F)} (hx : Extract sp sol primals duals)
    (c : Constraint F) :
    (∃ e ∈ sp.lindex2constr, e.2.ptrEq c = true ∧ ∃ w, sol.pi[e.1]? = some w ∧ getC duals c = some w) ∨
    (∀ e ∈ sp.lindex2constr, e.2.ptrEq c = false) ∧
    ((∃ e ∈ sp.uindex2constr, e.2.ptrEq c = true ∧ ∃ w, sol.mu[e.1]? = some w ∧ getC duals c = some w) ∨
     (∀ e ∈ sp.uindex2constr, e.2.ptrEq c = false) ∧
     ((∃ e ∈ sp.jindex2constr, e.2.ptrEq c = true ∧ ∃ w, sol.nu[e.1]? = some w ∧ getC duals c = some w) ∨
      (∀ e ∈ sp.jindex2constr, e.2.ptrEq c = false) ∧
      ((∃ e ∈ sp.aindex2constr, e.2.ptrEq c = true ∧ ∃ w, sol.lam[e.1]? = some w ∧ getC duals c = some w) ∨
       (∀ e ∈ sp.aindex2constr, e.2.ptrEq c = false) ∧ getC duals c = none))) := by
  obtain ⟨ves', as, js, us, ls, d1, d2, d3, p1, p2, p3, p4, p5, hp, h1, h2, h3, h4⟩ := hx
  simp only [← p5.mem_iff, ← p4.mem_iff, ← p3.mem_iff, ← p2.mem_iff]
  rcases insertDuals_get h4 c with h | ⟨g4, h⟩
  · exact .inl h
  refine .inr ⟨g4, ?_⟩
  rw [h]
  rcases insertDuals_get h3 c with h | ⟨g3, h⟩
  · exact .inl h
  refine .inr ⟨g3, ?_⟩
  rw [h]
  rcases insertDuals_get h2 c with h | ⟨g2, h⟩
  · exact .inl h
  refine .inr ⟨g2, ?_⟩
  rw [h]
  rcases insertDuals_get h1 c with h | ⟨g1, h⟩
  · exact .inl h
  refine .inr ⟨g1, ?_⟩
  rw [h]; rfl

/-- Every constraint has a linear row, a nonlinear row or bounds a variable. -/
theorem SpFacts.place (hf : SpFacts H l h n m mod comp e ps cols xes ves sp) {c : Constraint F} (hc : c ∈ mod.constraints) :
    (∃ k, (k, c) ∈ sp.aindex2constr) ∨ (∃ k, (k, c) ∈ sp.jindex2constr) ∨ ∃ x v, c.Bounds x v ∧ x.id < n ∧ x ∈ cols := by
  rw [← hf.mf.cs] at hc
  obtain ⟨p, hp, rfl⟩ := List.mem_map.1 hc
  rw [hf.aindex, hf.jindex]
  cases hk : p.kind with
  | bound x =>
    obtain ⟨n', m', -, -, hok⟩ := hf.mf.piece hp
    refine .inr (.inr ⟨x, _, hok.bounds_iff.2 ⟨hk, rfl⟩, ?_⟩)
    have hcol : MFacts.IsCol e ps x := by
      obtain ⟨w, hw, -⟩ := hok.bound x hk
      have hb : p.bnd = some (decide (p.c.kind = .lessEqual), x, FloatOps.neg p.comp.prop.b) := by
        unfold Piece.bnd; rw [hk]
      by_cases hd : p.c.kind = .lessEqual
      · exact (hf.mem x).1 (hf.cmpOk.u (x, _, p.c) (hf.mf.upper.2 ⟨p, hp, by rw [hb, decide_eq_true hd], rfl⟩))
      · exact (hf.mem x).1 (hf.cmpOk.l (x, _, p.c) (hf.mf.lower.2 ⟨p, hp, by rw [hb, decide_eq_false hd], rfl⟩))
    have hx := (hf.mem x).2 hcol
    refine ⟨?_, hx⟩
    by_contra hn
    obtain ⟨p', hp', hs⟩ := hf.newCol.1 ⟨hx, by omega⟩
    have hpe : Occurs x p.exp := by
      obtain ⟨w, hw, -⟩ := hok.bound x hk
      obtain ⟨-, h2, -⟩ := stdProperties_keys p.exp
      rw [hok.prop.2] at hw
      exact (h2 x (by rw [hw]; simp [keysN])).2
    have := (hf.mf.old x (hf.mf.pieceVar hp (hf.cok.var x hx) hpe)).1
    omega
  | linEq es => exact .inl ⟨p.arow, List.mem_map.2 ⟨p, List.mem_filter.2 ⟨hp, by simp [Piece.isLin, hk]⟩, rfl⟩⟩
  | linIneq es s => exact .inl ⟨p.arow, List.mem_map.2 ⟨p, List.mem_filter.2 ⟨hp, by simp [Piece.isLin, hk]⟩, rfl⟩⟩
  | nlEq => exact .inr (.inl ⟨p.jrow, List.mem_map.2 ⟨p, List.mem_filter.2 ⟨hp, by simp [Piece.isNl, hk]⟩, rfl⟩⟩)
  | nlIneq s f m1 => exact .inr (.inl ⟨p.jrow, List.mem_map.2 ⟨p, List.mem_filter.2 ⟨hp, by simp [Piece.isNl, hk]⟩, rfl⟩⟩)

theorem tightest_some (tighter : F → F → Bool) (init : F) (es : List (Node F × F × Constraint F)) (x : Node F) {c : Constraint F}
    (h : (tightest tighter init es x).2 = some c) : ∃ b ∈ es, b.2.2 = c := by
  unfold tightest at h
  have key : ∀ (es : List (Node F × F × Constraint F)) (s : F × Option (Constraint F)),
      (es.foldl (fun s e => if e.1.ptrEq x && tighter e.2.1 s.1 then (e.2.1, some e.2.2) else s) s).2 = some c →
      s.2 = some c ∨ ∃ b ∈ es, b.2.2 = c := by
    intro es
    induction es with
    | nil => intro s h; exact .inl h
    | cons b es ih =>
      intro s h
      rw [List.foldl_cons] at h
      rcases ih _ h with h1 | ⟨b', hb', h1⟩
      · split at h1
        · exact .inr ⟨b, by simp, by simpa using h1⟩
        · exact .inl h1
      · exact .inr ⟨b', by simp [hb'], h1⟩
  rcases key es _ h with h | h
  · simp at h
  · exact h

theorem SpFacts.uidx_mem (hf : SpFacts H l h n m mod comp e ps cols xes ves sp) {i : Nat} {c : Constraint F}
    (hc : (i, c) ∈ sp.uindex2constr) : c ∈ mod.constraints ∧ c.kind = .lessEqual := by
  rw [← getNat_mem hf.uidx.nodup, hf.uidx.get] at hc
  obtain ⟨x, -, hc⟩ := Option.bind_eq_some_iff.1 hc
  obtain ⟨b, hb, rfl⟩ := tightest_some _ _ _ _ hc
  obtain ⟨p, hp, h1, h2⟩ := hf.mf.upper.1 hb
  obtain ⟨n', m', -, -, hok⟩ := hf.mf.piece hp
  rw [h2]
  exact ⟨by rw [← hf.mf.cs]; exact List.mem_map.2 ⟨p, hp, rfl⟩, hok.dir h1⟩

theorem SpFacts.lidx_mem (hf : SpFacts H l h n m mod comp e ps cols xes ves sp) {i : Nat} {c : Constraint F}
    (hc : (i, c) ∈ sp.lindex2constr) : c ∈ mod.constraints ∧ c.kind = .greaterEqual := by
  rw [← getNat_mem hf.lidx.nodup, hf.lidx.get] at hc
  obtain ⟨x, -, hc⟩ := Option.bind_eq_some_iff.1 hc
  obtain ⟨b, hb, rfl⟩ := tightest_some _ _ _ _ hc
  obtain ⟨p, hp, h1, h2⟩ := hf.mf.lower.1 hb
  obtain ⟨n', m', -, -, hok⟩ := hf.mf.piece hp
  rw [h2]
  exact ⟨by rw [← hf.mf.cs]; exact List.mem_map.2 ⟨p, hp, rfl⟩, hok.dir h1⟩

theorem SpFacts.row_mem (hf : SpFacts H l h n m mod comp e ps cols xes ves sp) {i : Nat} {c : Constraint F}
    (hc : (i, c) ∈ sp.aindex2constr ∨ (i, c) ∈ sp.jindex2constr) : c ∈ mod.constraints := by
  rw [hf.aindex, hf.jindex] at hc
  rw [← hf.mf.cs]
  rcases hc with hc | hc <;> obtain ⟨p, hp, he⟩ := List.mem_map.1 hc <;> cases he <;>
    exact List.mem_map.2 ⟨p, (List.mem_filter.1 hp).1, rfl⟩

end

end Verif
