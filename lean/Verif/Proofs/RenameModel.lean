import Verif.Proofs.RenameDiff
import Verif.Proofs.Loop

/-! # Addresses have no influence: standard problem and solve -/

set_option linter.unusedSectionVars false
set_option linter.unusedSimpArgs false

namespace Verif

variable {F : Type} [FloatOps F] {ρ : Nat → Nat} {H H' : HashOrder}

/-! ### Loops -/

section
variable {α β γ δ : Type}

theorem mapR_ren {f : α → R β} {f' : γ → R δ} (g : α → γ) (k : β → δ) (h : ∀ a, f' (g a) = (f a).map k) (l : List α) :
    mapR f' (l.map g) = (mapR f l).map (List.map k) := by
  induction l with
  | nil => rfl
  | cons a l ih =>
    simp only [List.map_cons, mapR, h, ih]
    cases f a with
    | error p => rfl
    | ok b => cases mapR f l <;> rfl

theorem mapR_same {f : α → R β} {f' : γ → R β} (g : α → γ) (h : ∀ a, f' (g a) = f a) (l : List α) : mapR f' (l.map g) = mapR f l := by
  induction l with
  | nil => rfl
  | cons a l ih => simp only [List.map_cons, mapR, h, ih]

theorem foldR_ren {f : β → α → R β} {f' : δ → γ → R δ} (g : α → γ) (k : β → δ) (h : ∀ s a, f' (k s) (g a) = (f s a).map k) (l : List α) (s : β) :
    foldR f' (k s) (l.map g) = (foldR f s l).map k := by
  induction l generalizing s with
  | nil => rfl
  | cons a l ih =>
    simp only [List.map_cons, foldR, h]
    cases f s a with
    | error p => rfl
    | ok b => exact ih b

theorem foldR_same {f : β → α → R β} {f' : β → γ → R β} (g : α → γ) (h : ∀ s a, f' s (g a) = f s a) (l : List α) (s : β) :
    foldR f' s (l.map g) = foldR f s l := by
  induction l generalizing s with
  | nil => rfl
  | cons a l ih =>
    simp only [List.map_cons, foldR, h]
    cases f s a with
    | error p => rfl
    | ok b => exact ih b

end

/-! ### Numbering of the variables -/

theorem ren_indexOf (hρ : Function.Injective ρ) (v2i : List (Node F × Nat)) (x : Node F) : indexOf (renK ρ id v2i) (x.ren ρ) = indexOf v2i x := by
  unfold indexOf
  rw [ren_getN hρ]
  cases getN v2i x <;> rfl

theorem ren_insertByName (x : Node F) (l : List (Node F)) : insertByName (x.ren ρ) (l.map (Node.ren ρ)) = (insertByName x l).map (Node.ren ρ) := by
  induction l with
  | nil => rfl
  | cons y l ih =>
    simp only [List.map_cons, insertByName, ren_name]
    split
    · rfl
    · rw [List.map_cons, ih]

theorem ren_sortByName (l : List (Node F)) : sortByName (l.map (Node.ren ρ)) = (sortByName l).map (Node.ren ρ) := by
  unfold sortByName
  induction l with
  | nil => rfl
  | cons x l ih => rw [List.map_cons, List.foldr_cons, List.foldr_cons, ih, ren_insertByName]

theorem ren_indexMap (hρ : Function.Injective ρ) (l : List (Node F)) : indexMap (l.map (Node.ren ρ)) = renK ρ id (indexMap l) := by
  unfold indexMap
  have := ren_foldl_insertN hρ (fun e : Node F × Nat => e.2) (fun e => e.2) (fun _ => rfl) l.zipIdx []
  rw [← this]
  congr 1
  simp [renK, List.zipIdx_map, Prod.map]

/-! ### Components -/

/-- Components with other addresses. -/
def ModelComp.ren (ρ : Nat → Nat) (c : ModelComp F) : ModelComp F := ⟨c.obj.ren ρ, c.constr.ren ρ⟩

/-- An objective with other addresses. -/
def Objective.ren (ρ : Nat → Nat) : Objective F → Objective F
  | .minimize f => .minimize (f.ren ρ)
  | .maximize f => .maximize (f.ren ρ)
  | .empty => .empty

/-- A map from constraints with other addresses. -/
def renC {β : Type} (ρ : Nat → Nat) (m : List (Constraint F × β)) : List (Constraint F × β) := m.map fun e => (e.1.ren ρ, e.2)

/-- A model with other addresses. -/
def Model.ren (ρ : Nat → Nat) (m : Model F) : Model F :=
  ⟨m.objective.ren ρ, m.constraints.map (Constraint.ren ρ), renK ρ id m.initPrimals, m.solverStatus, renK ρ id m.finalPrimals, renC ρ m.finalDuals⟩

theorem ren_varset (hρ : Function.Injective ρ) (c : ModelComp F) : (c.ren ρ).varset = c.varset.map (Node.ren ρ) := by
  unfold ModelComp.varset
  have h0 : (c.ren ρ).obj.prop.a.map Prod.fst = (c.obj.prop.a.map Prod.fst).map (Node.ren ρ) := by
    simp [ModelComp.ren, NodeComp.ren, Prop'.ren, renK]
  have h1 : (c.ren ρ).constr.prop = c.constr.prop.map (Prop'.ren ρ) := rfl
  rw [h0, h1, ren_setOf hρ]
  generalize setOf (c.obj.prop.a.map Prod.fst) = s
  generalize c.constr.prop = ps
  induction ps generalizing s with
  | nil => rfl
  | cons p ps ih =>
    rw [List.map_cons, List.foldl_cons, List.foldl_cons]
    have h2 : (p.ren ρ).a.map Prod.fst = (p.a.map Prod.fst).map (Node.ren ρ) := by simp [Prop'.ren, renK]
    rw [h2, ren_foldl_setInsert hρ, ih]

theorem ren_objComponents (hρ : Function.Injective ρ) (hN : H.Positional) (m : Model F) :
    RenM ρ H H' (m.objComponents H) ((m.ren ρ).objComponents H') (NodeComp.ren ρ) := by
  obtain ⟨o, cs, ip, st, fp, fd⟩ := m
  cases o with
  | maximize f => exact (ren_negN f).bind fun e => ren_nodeComponents hρ hN e
  | minimize f => exact ren_nodeComponents hρ hN f
  | empty => exact (ren_newConst _).bind fun e => ren_nodeComponents hρ hN e

theorem ren_constrLoop (hρ : Function.Injective ρ) (hN : H.Positional) (cs : List (Constraint F)) : ∀ s : ConstrComp F × Nat × Nat,
    RenM ρ H H' (constrLoop H s cs) (constrLoop H' (s.1.ren ρ, s.2) (cs.map (Constraint.ren ρ))) (fun r => (r.1.ren ρ, r.2)) := by
  induction cs with
  | nil => intro s; exact .pure rfl
  | cons c cs ih =>
    intro s
    simp only [constrLoop, List.map_cons]
    refine (ren_constrComponents hρ hN c s.2.1 s.2.2).bind fun r => ?_
    have := ih (s.1.append r.1, r.2.1, r.2.2)
    rw [ren_append] at this
    exact this

theorem ren_modelComponents (hρ : Function.Injective ρ) (hN : H.Positional) (m : Model F) :
    RenM ρ H H' (m.stdComponents H) ((m.ren ρ).stdComponents H') (ModelComp.ren ρ) := by
  unfold Model.stdComponents
  exact (ren_objComponents hρ hN m).bind fun obj => (ren_constrLoop hρ hN m.constraints (ConstrComp.empty, 0, 0)).bind fun r => .pure rfl

/-! ### The evaluation function -/

theorem ren_evalEnv (hρ : Function.Injective ρ) (v2i : List (Node F × Nat)) (x : List F) : match evalEnv v2i x with
    | .ok σ => ∃ σ', evalEnv (renK ρ id v2i) x = .ok σ' ∧ (fun k => σ' (ρ k)) = σ
    | .error p => evalEnv (renK ρ id v2i) x = .error p := by
  unfold evalEnv
  have : ∀ (v2i : List (Node F × Nat)) (σ σ' : Env F), (fun k => σ' (ρ k)) = σ → match foldR (fun (σ : Env F) (e : Node F × Nat) => do
        let t ← idx x e.2
        .ok (fun k => if k = e.1.id then some t else σ k)) σ v2i with
      | .ok τ => ∃ τ', foldR (fun (σ : Env F) (e : Node F × Nat) => do
          let t ← idx x e.2
          .ok (fun k => if k = e.1.id then some t else σ k)) σ' (renK ρ id v2i) = .ok τ' ∧ (fun k => τ' (ρ k)) = τ
      | .error p => foldR (fun (σ : Env F) (e : Node F × Nat) => do
          let t ← idx x e.2
          .ok (fun k => if k = e.1.id then some t else σ k)) σ' (renK ρ id v2i) = .error p := by
    intro v2i
    induction v2i with
    | nil => intro σ σ' h; exact ⟨σ', rfl, h⟩
    | cons e v2i ih =>
      intro σ σ' h
      have hk : renK ρ id (e :: v2i) = (e.1.ren ρ, e.2) :: renK ρ id v2i := rfl
      simp only [hk, foldR]
      cases ht : idx x e.2 with
      | error p => rfl
      | ok t =>
        simp only [R.ok_bind, ren_id]
        refine ih _ _ ?_
        funext k
        simp only [hρ.eq_iff, ← h]
  exact this v2i _ _ rfl

theorem evaluate_rens (σ' : Env F) (es : List (Node F)) : (es.map (Node.ren ρ)).map (fun e => e.evaluate σ') = es.map (fun e => e.evaluate fun k => σ' (ρ k)) := by
  rw [List.map_map]
  apply List.map_congr_left
  intro e _
  exact ren_evaluate σ' e

theorem ren_stdEval (hρ : Function.Injective ρ) (ves : List (Node F × Nat)) (phi : Node F) (gphi : List (Nat × Node F)) (hphi f j : List (Node F))
    (h : List (List (Node F))) : stdEval (renK ρ id ves) (phi.ren ρ) (gphi.map fun e => (e.1, e.2.ren ρ)) (hphi.map (Node.ren ρ)) (f.map (Node.ren ρ))
      (j.map (Node.ren ρ)) (h.map (List.map (Node.ren ρ))) = stdEval ves phi gphi hphi f j h := by
  funext buf x
  unfold stdEval
  have := ren_evalEnv hρ ves x
  revert this
  cases evalEnv ves x with
  | error p => intro h1; simp only at h1; rw [h1]; rfl
  | ok σ =>
    rintro ⟨σ', h1, rfl⟩
    rw [h1]
    simp only [R.ok_bind, evaluate_rens, ren_evaluate]
    have hg : foldR (fun (g : List F) (e : Nat × Node F) => setIdx g e.1 (e.2.evaluate σ')) buf.gphi (gphi.map fun e => (e.1, e.2.ren ρ)) =
        foldR (fun (g : List F) (e : Nat × Node F) => setIdx g e.1 (e.2.evaluate fun k => σ' (ρ k))) buf.gphi gphi :=
      foldR_same _ (fun s a => by rw [ren_evaluate]) _ _
    rw [hg]
    have hz : List.zipWith (fun (hh : Coo F) (es : List (Node F)) => { hh with data := zipAssign hh.data (es.map (Node.evaluate σ')) }) buf.h
          (h.map (List.map (Node.ren ρ))) =
        List.zipWith (fun (hh : Coo F) (es : List (Node F)) => { hh with data := zipAssign hh.data (es.map (Node.evaluate fun k => σ' (ρ k))) }) buf.h h := by
      rw [List.zipWith_map_right]
      congr 1
      funext hh es
      rw [evaluate_rens]
    rw [hz]

/-! ### The standard problem -/

/-- The standard problem with other addresses: the problem itself is the same. -/
def StdProb.ren (ρ : Nat → Nat) (sp : StdProb F) : StdProb F :=
  ⟨sp.prob, renK ρ id sp.var2index, sp.aindex2constr.map fun e => (e.1, e.2.ren ρ), sp.jindex2constr.map fun e => (e.1, e.2.ren ρ),
    sp.uindex2constr.map fun e => (e.1, e.2.ren ρ), sp.lindex2constr.map fun e => (e.1, e.2.ren ρ)⟩

/-- A matrix entry with other addresses. -/
def renT (ρ : Nat → Nat) (e : Nat × Nat × Node F) : Nat × Nat × Node F := (e.1, e.2.1, e.2.2.ren ρ)

theorem ren_hessEntries (hρ : Function.Injective ρ) (v2i : List (Node F × Nat)) (es : List (Node F × Node F × Node F)) :
    hessEntries (renK ρ id v2i) (es.map (renH ρ)) = (hessEntries v2i es).map (List.map (renT ρ)) := by
  unfold hessEntries
  refine mapR_ren _ _ (fun e => ?_) es
  simp only [renH, ren_indexOf hρ]
  cases indexOf v2i e.1 with
  | error p => rfl
  | ok i =>
    cases indexOf v2i e.2.1 with
    | error p => rfl
    | ok j =>
      simp only [R.ok_bind]
      split <;> rfl

theorem ren_zeroCoo (rows cols : Nat) (es : List (Nat × Nat × Node F)) : zeroCoo rows cols (es.map (renT ρ)) = zeroCoo (F := F) rows cols es := by
  unfold zeroCoo
  simp only [List.map_map, List.length_map]
  rfl

theorem ren_jacEntries (hρ : Function.Injective ρ) (v2i : List (Node F × Nat)) (es : List (Nat × Node F × Node F)) :
    jacEntries (renK ρ id v2i) (es.map fun e => (e.1, e.2.1.ren ρ, e.2.2.ren ρ)) = (jacEntries v2i es).map (List.map (renT ρ)) := by
  unfold jacEntries
  refine mapR_ren _ _ (fun e => ?_) es
  simp only [ren_indexOf hρ]
  cases indexOf v2i e.2.1 <;> rfl

theorem ren_insertNat (m : List (Nat × Constraint F)) (k : Nat) (c : Constraint F) :
    insertNat (m.map fun e => (e.1, e.2.ren ρ)) k (c.ren ρ) = (insertNat m k c).map fun e => (e.1, e.2.ren ρ) := by
  induction m with
  | nil => rfl
  | cons e m ih =>
    simp only [List.map_cons, insertNat]
    split
    · rfl
    · rw [List.map_cons, ih]

theorem ren_upperLoop (hρ : Function.Injective ρ) (v2i : List (Node F × Nat)) (s : List F × List (Nat × Constraint F)) (e : Node F × F × Constraint F) :
    upperLoop (renK ρ id v2i) (s.1, s.2.map fun e => (e.1, e.2.ren ρ)) (renB ρ e) =
      (upperLoop v2i s e).map fun s => (s.1, s.2.map fun e => (e.1, e.2.ren ρ)) := by
  obtain ⟨x, b, c⟩ := e
  show upperLoop (renK ρ id v2i) (s.1, s.2.map fun e => (e.1, e.2.ren ρ)) (x.ren ρ, b, c.ren ρ) = _
  unfold upperLoop
  simp only [ren_indexOf hρ]
  cases indexOf v2i x with
  | error p => rfl
  | ok i =>
    simp only [R.ok_bind]
    cases idx s.1 i with
    | error p => rfl
    | ok cur =>
      simp only [R.ok_bind]
      by_cases hc : (b <=. cur) = true
      · simp only [if_pos hc]
        cases setIdx s.1 i b with
        | error p => rfl
        | ok t => simp only [R.ok_bind, ren_insertNat]; rfl
      · simp only [if_neg hc]; rfl

theorem ren_lowerLoop (hρ : Function.Injective ρ) (v2i : List (Node F × Nat)) (s : List F × List (Nat × Constraint F)) (e : Node F × F × Constraint F) :
    lowerLoop (renK ρ id v2i) (s.1, s.2.map fun e => (e.1, e.2.ren ρ)) (renB ρ e) =
      (lowerLoop v2i s e).map fun s => (s.1, s.2.map fun e => (e.1, e.2.ren ρ)) := by
  obtain ⟨x, b, c⟩ := e
  show lowerLoop (renK ρ id v2i) (s.1, s.2.map fun e => (e.1, e.2.ren ρ)) (x.ren ρ, b, c.ren ρ) = _
  unfold lowerLoop
  simp only [ren_indexOf hρ]
  cases indexOf v2i x with
  | error p => rfl
  | ok i =>
    simp only [R.ok_bind]
    cases idx s.1 i with
    | error p => rfl
    | ok cur =>
      simp only [R.ok_bind]
      by_cases hc : (cur <=. b) = true
      · simp only [if_pos hc]
        cases setIdx s.1 i b with
        | error p => rfl
        | ok t => simp only [R.ok_bind, ren_insertNat]; rfl
      · simp only [if_neg hc]; rfl

/-- A step of a computation that may panic. -/
theorem bindR_ren {α β γ δ : Type} {x : R α} {y : R β} {k : α → R γ} {k' : β → R δ} (f : α → β) (g : γ → δ) (h : y = x.map f)
    (hk : ∀ a, k' (f a) = (k a).map g) : (y >>= k') = (x >>= k).map g := by
  subst h
  cases x with
  | error p => rfl
  | ok a => exact hk a

/-- The same for a step whose result is the same. -/
theorem bindR_same {α γ δ : Type} {x y : R α} {k : α → R γ} {k' : α → R δ} (g : γ → δ) (h : y = x)
    (hk : ∀ a, k' a = (k a).map g) : (y >>= k') = (x >>= k).map g := by
  subst h
  cases y with
  | error p => rfl
  | ok a => exact hk a

theorem ren_assemble (hρ : Function.Injective ρ) (comp : ModelComp F) (n : Nat) (v2i ves ies : List (Node F × Nat)) (pes xes : List (Node F × F)) :
    assemble (comp.ren ρ) n (renK ρ id v2i) (renK ρ id ves) (renK ρ id ies) (renK ρ id pes) (renK ρ id xes) =
      (assemble comp n v2i ves ies pes xes).map (StdProb.ren ρ) := by
  unfold assemble
  refine bindR_ren (List.map fun e : Nat × Node F => (e.1, e.2.ren ρ)) _ ?_ fun gphi => ?_
  · refine mapR_ren (fun e : Node F × Node F => (e.1.ren ρ, e.2.ren ρ)) _ (fun e => ?_) comp.obj.gphi
    simp only [ren_indexOf hρ]
    cases indexOf v2i e.1 <;> rfl
  refine bindR_ren (List.map (renT ρ)) _ (ren_hessEntries hρ v2i comp.obj.hphi) fun hphi => ?_
  refine bindR_same _ (ren_zeroCoo _ _ _) fun hphiMat => ?_
  refine bindR_same _ ?_ fun c => ?_
  · refine foldR_same (fun e : Node F × F => (e.1.ren ρ, e.2)) (fun s e => ?_) pes _
    simp only [ren_indexOf hρ]
  refine bindR_same _ ?_ fun aes => ?_
  · refine mapR_same (fun e : Nat × Node F × F => (e.1, e.2.1.ren ρ, e.2.2)) (fun e => ?_) comp.constr.a
    simp only [ren_indexOf hρ]
  refine bindR_same _ rfl fun aMat => ?_
  refine bindR_ren (List.map (renT ρ)) _ (ren_jacEntries hρ v2i comp.constr.j) fun jes => ?_
  have hf : (comp.ren ρ).constr.f = comp.constr.f.map (Node.ren ρ) := rfl
  refine bindR_same _ ?_ fun jMat => ?_
  · rw [hf, List.length_map, ren_zeroCoo]
  refine bindR_ren (List.map (List.map (renT ρ))) _ ?_ fun hes => ?_
  · exact mapR_ren (List.map (renH ρ)) _ (fun es => ren_hessEntries hρ v2i es) comp.constr.h
  refine bindR_same _ ?_ fun hMats => ?_
  · exact mapR_same (List.map (renT ρ)) (fun es => ren_zeroCoo n n es) hes
  refine bindR_ren (fun s : List F × List (Nat × Constraint F) => (s.1, s.2.map fun e => (e.1, e.2.ren ρ))) _ ?_ fun u => ?_
  · exact foldR_ren (renB ρ) (fun s : List F × List (Nat × Constraint F) => (s.1, s.2.map fun e => (e.1, e.2.ren ρ))) (ren_upperLoop hρ v2i) comp.constr.u (List.replicate n inf, [])
  refine bindR_ren (fun s : List F × List (Nat × Constraint F) => (s.1, s.2.map fun e => (e.1, e.2.ren ρ))) _ ?_ fun l => ?_
  · exact foldR_ren (renB ρ) (fun s : List F × List (Nat × Constraint F) => (s.1, s.2.map fun e => (e.1, e.2.ren ρ))) (ren_lowerLoop hρ v2i) comp.constr.l (List.replicate n (FloatOps.neg inf), [])
  refine bindR_same _ ?_ fun p => ?_
  · refine foldR_same (fun e : Node F × Nat => (e.1.ren ρ, e.2)) (fun s e => ?_) ies _
    simp only [ren_isInteger]
  refine bindR_same _ ?_ fun x0 => ?_
  · refine foldR_same (fun e : Node F × F => (e.1.ren ρ, e.2)) (fun s e => ?_) xes _
    simp only [ren_getN hρ]
    cases getN v2i e.1 <;> rfl
  refine bindR_same _ ?_ fun prob => ?_
  · have he := ren_stdEval hρ ves comp.obj.phi gphi (hphi.map (·.2.2)) comp.constr.f (jes.map (·.2.2)) (hes.map (·.map (·.2.2)))
    have h1 : (hphi.map (renT ρ)).map (·.2.2) = (hphi.map (·.2.2)).map (Node.ren ρ) := by simp [renT, Function.comp_def]
    have h2 : (jes.map (renT ρ)).map (·.2.2) = (jes.map (·.2.2)).map (Node.ren ρ) := by simp [renT, Function.comp_def]
    have h3 : (hes.map (List.map (renT ρ))).map (·.map (·.2.2)) = (hes.map (·.map (·.2.2))).map (List.map (Node.ren ρ)) := by
      simp [renT, Function.comp_def]
    rw [h1, h2, h3]
    have h4 : (comp.ren ρ).obj.phi = comp.obj.phi.ren ρ := rfl
    rw [hf, h4, he, List.length_map]
    rfl
  · have h1 : ∀ cs : List (Constraint F), ((cs.map (Constraint.ren ρ)).zipIdx.map fun e => (e.2, e.1)) =
        (cs.zipIdx.map fun e => (e.2, e.1)).map fun e => (e.1, e.2.ren ρ) := by
      intro cs
      simp [List.zipIdx_map, Function.comp_def, Prod.map]
    show Except.ok _ = Except.ok _
    have h2 : (comp.ren ρ).constr.ca = comp.constr.ca.map (Constraint.ren ρ) := rfl
    have h3 : (comp.ren ρ).constr.cj = comp.constr.cj.map (Constraint.ren ρ) := rfl
    rw [h2, h3, h1, h1]
    rfl

theorem ren_stdProblem (hρ : Function.Injective ρ) (hN : H.Positional) (m : Model F) :
    RenM ρ H H' (m.stdProblem H) ((m.ren ρ).stdProblem H') (StdProb.ren ρ) := by
  unfold Model.stdProblem
  refine (ren_modelComponents hρ hN m).bind fun comp => (RenM.iter hN (ren_varset hρ comp)).bind fun vs => ?_
  rw [ren_sortByName, ren_indexMap hρ]
  refine (RenM.iter (f := fun e : Node F × Nat => (e.1.ren ρ, e.2)) hN rfl).bind fun ves => ?_
  refine (RenM.iter (f := fun e : Node F × F => (e.1.ren ρ, e.2)) hN rfl).bind fun pes => ?_
  refine (RenM.iter (f := fun e : Node F × Nat => (e.1.ren ρ, e.2)) hN rfl).bind fun ies => ?_
  refine (RenM.iter (f := fun e : Node F × F => (e.1.ren ρ, e.2)) hN rfl).bind fun xes => RenM.ofR ?_
  rw [ren_varset hρ, List.length_map]
  exact ren_assemble hρ comp _ _ ves ies pes xes

/-! ### Solving -/

theorem ren_insertC (hρ : Function.Injective ρ) {β : Type} (m : List (Constraint F × β)) (k : Constraint F) (v : β) :
    insertC (renC ρ m) (k.ren ρ) v = renC ρ (insertC m k v) := by
  induction m with
  | nil => rfl
  | cons e m ih =>
    simp only [renC, List.map_cons, insertC, renC_ptrEq hρ]
    split
    · rfl
    · rw [List.map_cons]; exact congrArg _ ih

theorem ren_insertDuals (hρ : Function.Injective ρ) (v : List F) (d : List (Constraint F × F)) (es : List (Nat × Constraint F)) :
    insertDuals v (renC ρ d) (es.map fun e => (e.1, e.2.ren ρ)) = (insertDuals v d es).map (renC ρ) := by
  unfold insertDuals
  refine foldR_ren (fun e : Nat × Constraint F => (e.1, e.2.ren ρ)) (renC ρ) (fun s e => ?_) es d
  simp only
  cases idx v e.1 with
  | error p => rfl
  | ok t => simp only [R.ok_bind, ren_insertC hρ]; rfl

theorem ren_solve (hρ : Function.Injective ρ) (hN : H.Positional) (m : Model F) (solver : SolverFn F) :
    RenM ρ H H' (m.solve H solver) ((m.ren ρ).solve H' solver) (fun r => (r.1, r.2.ren ρ)) := by
  unfold Model.solve
  refine (ren_stdProblem hρ hN { m with finalPrimals := [], finalDuals := [], solverStatus := none }).bind fun sp => ?_
  refine (RenM.ofR (f := id) (r := solver sp.prob) (by show solver sp.prob = _; cases solver sp.prob <;> rfl)).bind fun r => ?_
  cases r with
  | error e => exact .pure rfl
  | ok r =>
    obtain ⟨status, sol⟩ := r
    simp only [id]
    refine (RenM.iter (f := fun e : Node F × Nat => (e.1.ren ρ, e.2)) hN rfl).bind fun ves => ?_
    refine (RenM.ofR (f := renK ρ id) ?_).bind fun primals => ?_
    · refine foldR_ren (fun e : Node F × Nat => (e.1.ren ρ, e.2)) (renK ρ id) (fun s e => ?_) ves []
      simp only
      cases idx sol.x e.2 with
      | error p => rfl
      | ok t =>
        simp only [R.ok_bind]
        have := ren_insertN hρ (id : F → F) s e.1 t
        simp only [id] at this
        rw [this]; rfl
    refine (RenM.iter (f := fun e : Nat × Constraint F => (e.1, e.2.ren ρ)) hN rfl).bind fun as => ?_
    refine (RenM.ofR (ren_insertDuals hρ sol.lam [] as)).bind fun d => ?_
    refine (RenM.iter (f := fun e : Nat × Constraint F => (e.1, e.2.ren ρ)) hN rfl).bind fun js => ?_
    refine (RenM.ofR (ren_insertDuals hρ sol.nu d js)).bind fun d => ?_
    refine (RenM.iter (f := fun e : Nat × Constraint F => (e.1, e.2.ren ρ)) hN rfl).bind fun us => ?_
    refine (RenM.ofR (ren_insertDuals hρ sol.mu d us)).bind fun d => ?_
    refine (RenM.iter (f := fun e : Nat × Constraint F => (e.1, e.2.ren ρ)) hN rfl).bind fun ls => ?_
    exact (RenM.ofR (ren_insertDuals hρ sol.pi d ls)).bind fun d => .pure rfl

end Verif
