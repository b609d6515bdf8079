import Verif.Proofs.Rename
import Verif.Code.Model

/-! # Addresses have no influence: differentiation, standard form of expressions and constraints -/

set_option linter.unusedSectionVars false
set_option linter.unusedSimpArgs false

namespace Verif

variable {F : Type}

section
variable {ρ : Nat → Nat} {β γ : Type}

/-- A map with other addresses of the keys. -/
def renK (ρ : Nat → Nat) (g : β → γ) (m : List (Node F × β)) : List (Node F × γ) := m.map fun e => (e.1.ren ρ, g e.2)

theorem ren_setInsert (hρ : Function.Injective ρ) (s : List (Node F)) (x : Node F) :
    setInsert (s.map (Node.ren ρ)) (x.ren ρ) = (setInsert s x).map (Node.ren ρ) := by
  unfold setInsert
  have : ((s.map (Node.ren ρ)).any fun y => y.ptrEq (x.ren ρ)) = s.any fun y => y.ptrEq x := by
    rw [List.any_map]; congr 1; funext y; exact ren_ptrEq hρ y x
  rw [this]
  split <;> simp

theorem ren_foldl_setInsert (hρ : Function.Injective ρ) (l s : List (Node F)) :
    (l.map (Node.ren ρ)).foldl setInsert (s.map (Node.ren ρ)) = (l.foldl setInsert s).map (Node.ren ρ) := by
  induction l generalizing s with
  | nil => rfl
  | cons x l ih => rw [List.map_cons, List.foldl_cons, List.foldl_cons, ren_setInsert hρ, ih]

theorem ren_setOf (hρ : Function.Injective ρ) (l : List (Node F)) : setOf (l.map (Node.ren ρ)) = (setOf l).map (Node.ren ρ) :=
  ren_foldl_setInsert hρ l []

theorem ren_getN (hρ : Function.Injective ρ) (g : β → γ) (m : List (Node F × β)) (k : Node F) : getN (renK ρ g m) (k.ren ρ) = (getN m k).map g := by
  induction m with
  | nil => rfl
  | cons e m ih =>
    simp only [renK, List.map_cons, getN, ren_ptrEq hρ]
    split
    · rfl
    · exact ih

theorem ren_insertN (hρ : Function.Injective ρ) (g : β → γ) (m : List (Node F × β)) (k : Node F) (v : β) :
    insertN (renK ρ g m) (k.ren ρ) (g v) = renK ρ g (insertN m k v) := by
  induction m with
  | nil => rfl
  | cons e m ih =>
    simp only [renK, List.map_cons, insertN, ren_ptrEq hρ]
    split
    · rfl
    · rw [List.map_cons]; exact congrArg _ ih

theorem ren_foldl_insertN (hρ : Function.Injective ρ) {δ : Type} (w : Node F × δ → β) (w' : Node F × δ → β) (hw : ∀ e : Node F × δ, w' (e.1.ren ρ, e.2) = w e)
    (es : List (Node F × δ)) (m : List (Node F × β)) :
    (renK ρ id es).foldl (fun m e => insertN m e.1 (w' e)) (renK ρ id m) = renK ρ id (es.foldl (fun m e => insertN m e.1 (w e)) m) := by
  induction es generalizing m with
  | nil => rfl
  | cons e es ih =>
    have h1 : renK ρ id (e :: es) = (e.1.ren ρ, e.2) :: renK ρ id es := rfl
    rw [h1, List.foldl_cons, List.foldl_cons]
    simp only [hw]
    have := ren_insertN hρ (id : β → β) m e.1 (w e)
    simp only [id] at this
    rw [this, ih]

variable [FloatOps F]

theorem ren_addToN (hρ : Function.Injective ρ) (m : List (Node F × F)) (k : Node F) (v : F) :
    addToN (renK ρ id m) (k.ren ρ) v = renK ρ id (addToN m k v) := by
  induction m with
  | nil => rfl
  | cons e m ih =>
    simp only [renK, List.map_cons, addToN, ren_ptrEq hρ, id]
    split
    · rfl
    · rw [List.map_cons]; exact congrArg _ ih

/-- The properties with other addresses. -/
def Prop'.ren (ρ : Nat → Nat) (p : Prop' F) : Prop' F := ⟨p.affine, renK ρ id p.a, p.b⟩

theorem ren_foldl_addToN (hρ : Function.Injective ρ) (es m : List (Node F × F)) :
    (renK ρ id es).foldl (fun m e => addToN m e.1 e.2) (renK ρ id m) = renK ρ id (es.foldl (fun m e => addToN m e.1 e.2) m) := by
  induction es generalizing m with
  | nil => rfl
  | cons e es ih =>
    have h1 : renK ρ id (e :: es) = (e.1.ren ρ, e.2) :: renK ρ id es := rfl
    rw [h1, List.foldl_cons, List.foldl_cons, ren_addToN hρ, ih]

theorem renK_isEmpty (m : List (Node F × F)) : (renK ρ id m).isEmpty = m.isEmpty := by simp [renK]

theorem ren_stdProperties (hρ : Function.Injective ρ) (e : Node F) : (e.ren ρ).stdProperties = e.stdProperties.ren ρ := by
  induction e using Node.ind with
  | const i v => rfl
  | var i s k => rfl
  | add i args ih =>
    simp only [Node.ren, rens_eq, Node.stdProperties]
    have : ∀ (as : List (Node F)) (acc : Prop' F), (∀ a ∈ as, (a.ren ρ).stdProperties = a.stdProperties.ren ρ) →
        Node.stdProperties.addProps (acc.ren ρ) (as.map (Node.ren ρ)) = (Node.stdProperties.addProps acc as).ren ρ := by
      intro as
      induction as with
      | nil => intro acc _; rfl
      | cons a as ih2 =>
        intro acc h
        simp only [List.map_cons, Node.stdProperties.addProps]
        rw [h a (by simp)]
        rw [← ih2 _ fun b hb => h b (by simp [hb])]
        congr 1
        simp only [Prop'.ren, ren_foldl_addToN hρ]
    exact this args ⟨true, [], zero⟩ ih
  | cos i a ih => simp only [Node.ren, Node.stdProperties, ih]; rfl
  | sin i a ih => simp only [Node.ren, Node.stdProperties, ih]; rfl
  | mul i a b iha ihb =>
    simp only [Node.ren, Node.stdProperties, iha, ihb]
    simp only [Prop'.ren, renK_isEmpty]
    congr 1
    have h1 := ren_foldl_insertN hρ (fun e : Node F × F => e.2 *. b.stdProperties.b) (fun e => e.2 *. b.stdProperties.b) (fun _ => rfl) a.stdProperties.a []
    have h2 := ren_foldl_insertN hρ (fun e : Node F × F => e.2 *. a.stdProperties.b) (fun e => e.2 *. a.stdProperties.b) (fun _ => rfl) b.stdProperties.a
    rw [← h2, ← h1]; rfl
  | div i a b iha ihb =>
    simp only [Node.ren, Node.stdProperties, iha, ihb]
    simp only [Prop'.ren, renK_isEmpty]
    congr 1
    have h1 := ren_foldl_insertN hρ (fun e : Node F × F => e.2 /. b.stdProperties.b) (fun e => e.2 /. b.stdProperties.b) (fun _ => rfl) a.stdProperties.a []
    have h2 := ren_foldl_insertN hρ (fun _ : Node F × F => (zero : F)) (fun _ => zero) (fun _ => rfl) b.stdProperties.a
    rw [← h2, ← h1]; rfl

/-! ### Paths -/

/-- A path with other addresses. -/
def Path.ren (ρ : Nat → Nat) (p : Path F) : Path F := ⟨p.init.map (Node.ren ρ), p.last.ren ρ⟩

theorem ren_toList (p : Path F) : (p.ren ρ).toList = p.toList.map (Node.ren ρ) := by simp [Path.ren, Path.toList]

theorem ren_pushPaths (p : Path F) (wq : List (Path F)) : pushPaths (p.ren ρ) (wq.map (Path.ren ρ)) = (pushPaths p wq).map (Path.ren ρ) := by
  unfold pushPaths
  have h1 : (p.ren ρ).last.arguments = p.last.arguments.map (Node.ren ρ) := ren_arguments _
  rw [h1, ren_toList]
  generalize p.last.arguments = as
  induction as generalizing wq with
  | nil => rfl
  | cons a as ih =>
    rw [List.map_cons, List.foldl_cons, List.foldl_cons]
    exact ih (⟨p.toList, a⟩ :: wq)

/-- A list of paths with other addresses. -/
def renPs (ρ : Nat → Nat) (ps : List (List (Node F))) : List (List (Node F)) := ps.map fun p => p.map (Node.ren ρ)

theorem ren_recordPath (hρ : Function.Injective ρ) (p : Path F) (paths : List (Node F × List (List (Node F)))) :
    recordPath (p.ren ρ) (renK ρ (renPs ρ) paths) = renK ρ (renPs ρ) (recordPath p paths) := by
  unfold recordPath
  have h1 : (p.ren ρ).last.isVar = p.last.isVar := ren_isVar _
  rw [h1]
  split
  · simp only [renK, List.map_map]
    apply List.map_congr_left
    intro e _
    simp only [Function.comp_apply]
    have h2 : (p.ren ρ).last.ptrEq (e.1.ren ρ) = p.last.ptrEq e.1 := ren_ptrEq hρ _ _
    rw [h2, ren_toList]
    split <;> simp [renPs]
  · rfl

theorem ren_searchPaths (hρ : Function.Injective ρ) (wq : List (Path F)) (paths : List (Node F × List (List (Node F)))) :
    searchPaths (wq.map (Path.ren ρ)) (renK ρ (renPs ρ) paths) = renK ρ (renPs ρ) (searchPaths wq paths) := by
  induction wq, paths using searchPaths.induct with
  | case1 paths => rw [List.map_nil, searchPaths, searchPaths]
  | case2 paths p wq ih => rw [List.map_cons, searchPaths, searchPaths, ren_pushPaths, ren_recordPath hρ, ih]

end

section
variable [FloatOps F] {ρ : Nat → Nat} {H H' : HashOrder}

local notation "RN" => RenM ρ H H'

theorem ren_checkVars (vars : List (Node F)) : RN (checkVars vars) (checkVars (vars.map (Node.ren ρ))) id := by
  unfold checkVars
  have : ((vars.map (Node.ren ρ)).all Node.isVar) = vars.all Node.isVar := by
    rw [List.all_map]; congr 1; funext x; exact ren_isVar x
  rw [this]
  split
  · exact .pure rfl
  · exact .panic

theorem ren_allSimplePaths (hρ : Function.Injective ρ) (hN : H.Positional) (e : Node F) (vars : List (Node F)) :
    RN (allSimplePaths H e vars) (allSimplePaths H' (e.ren ρ) (vars.map (Node.ren ρ))) (renK ρ (renPs ρ)) := by
  unfold allSimplePaths
  refine (ren_checkVars vars).bind fun _ => (RenM.iter hN (ren_setOf hρ vars)).bind fun vs => .pure ?_
  rw [← ren_searchPaths hρ]
  simp [renK, renPs, Path.ren, Function.comp_def]

theorem ren_pathProd (hρ : Function.Injective ρ) (path : List (Node F)) : ∀ p : Node F,
    RN (pathProd p path) (pathProd (p.ren ρ) (path.map (Node.ren ρ))) (Node.ren ρ) := by
  induction path with
  | nil => intro p; exact .pure rfl
  | cons a path ih =>
    intro p
    cases path with
    | nil => exact .pure rfl
    | cons b path =>
      simp only [pathProd, List.map_cons]
      exact (ren_partialN hρ a b).bind fun _ => (ren_mulN _ _).bind fun _ => by
        have := ih
        simp only [List.map_cons] at this
        exact this _

theorem ren_pathSum (hρ : Function.Injective ρ) (ps : List (List (Node F))) : ∀ p : Node F,
    RN (pathSum p ps) (pathSum (p.ren ρ) (renPs ρ ps)) (Node.ren ρ) := by
  induction ps with
  | nil => intro p; exact .pure rfl
  | cons a ps ih =>
    intro p
    simp only [pathSum, renPs, List.map_cons]
    exact (ren_newConst _).bind fun _ => (ren_pathProd hρ a _).bind fun _ => (ren_addN _ _).bind fun _ => ih _

theorem ren_unwrapM {α β : Type} {f : α → β} (o : Option α) : RN (unwrapM o) (unwrapM (o.map f)) f := by
  cases o with
  | none => exact .panic
  | some a => exact .pure rfl

theorem ren_derivatives (hρ : Function.Injective ρ) (hN : H.Positional) (e : Node F) (vars : List (Node F)) :
    RN (derivatives H e vars) (derivatives H' (e.ren ρ) (vars.map (Node.ren ρ))) (renK ρ (Node.ren ρ)) := by
  unfold derivatives
  refine (ren_checkVars vars).bind fun _ => (RenM.iter hN (ren_setOf hρ vars)).bind fun vs => (ren_allSimplePaths hρ hN e vars).bind fun paths => ?_
  refine RenM.mapL fun v _ => (ren_newConst _).bind fun d0 => ?_
  rw [ren_getN hρ]
  exact (ren_unwrapM _).bind fun ps => (ren_pathSum hρ ps d0).bind fun d => .pure rfl

theorem ren_derivative (hρ : Function.Injective ρ) (hN : H.Positional) (e x : Node F) :
    RN (derivative H e x) (derivative H' (e.ren ρ) (x.ren ρ)) (Node.ren ρ) := by
  unfold derivative
  refine (ren_derivatives hρ hN e [x]).bind fun ds => ?_
  rw [ren_getN hρ]
  exact ren_unwrapM _

/-! ### Standard components -/

/-- A Hessian entry with other addresses. -/
def renH (ρ : Nat → Nat) (e : Node F × Node F × Node F) : Node F × Node F × Node F := (e.1.ren ρ, e.2.1.ren ρ, e.2.2.ren ρ)

/-- Components with other addresses. -/
def NodeComp.ren (ρ : Nat → Nat) (c : NodeComp F) : NodeComp F := ⟨c.phi.ren ρ, renK ρ (Node.ren ρ) c.gphi, c.hphi.map (renH ρ), c.prop.ren ρ⟩

theorem ren_hessRow (hρ : Function.Injective ρ) (v1 : Node F) (dd : List (Node F × Node F)) (vs : List (Node F)) :
    RN (hessRow v1 dd vs) (hessRow (v1.ren ρ) (renK ρ (Node.ren ρ) dd) (vs.map (Node.ren ρ))) (List.map (renH ρ)) := by
  induction vs with
  | nil => exact .pure rfl
  | cons v2 vs ih =>
    simp only [hessRow, List.map_cons, ren_getN hρ]
    refine (ren_unwrapM _).bind fun e => ih.bind fun rest => .pure ?_
    rw [ren_isConstVal]
    split <;> rfl

theorem ren_hessLoop (hρ : Function.Injective ρ) (hN : H.Positional) (ds : List (Node F × Node F)) (vs : List (Node F)) :
    RN (hessLoop H ds vs) (hessLoop H' (renK ρ (Node.ren ρ) ds) (vs.map (Node.ren ρ))) (fun r => (renK ρ (Node.ren ρ) r.1, r.2.map (renH ρ))) := by
  induction vs with
  | nil => exact .pure rfl
  | cons v vs ih =>
    simp only [hessLoop, List.map_cons, ren_getN hρ]
    refine (ren_unwrapM _).bind fun d => ?_
    refine (by have := ren_derivatives (H' := H') hρ hN d (v :: vs); simpa using this : RN (derivatives H d (v :: vs)) _ _).bind fun dd => ?_
    refine (by have := ren_hessRow (H := H) (H' := H') hρ v dd (v :: vs); simpa using this : RN (hessRow v dd (v :: vs)) _ _).bind fun row => ?_
    exact ih.bind fun rest => .pure (by simp [renK])

theorem ren_nodeComponents (hρ : Function.Injective ρ) (hN : H.Positional) (e : Node F) :
    RN (e.stdComponents H) ((e.ren ρ).stdComponents H') (NodeComp.ren ρ) := by
  unfold Node.stdComponents
  rw [ren_stdProperties hρ]
  have ha : (e.stdProperties.ren ρ).affine = e.stdProperties.affine := rfl
  simp only [ha]
  split
  · refine (RenM.iter (f := fun e : Node F × F => (e.1.ren ρ, e.2)) hN rfl).bind fun es => ?_
    refine (RenM.mapL (f := fun e : Node F × F => (e.1.ren ρ, e.2)) (g := fun e : Node F × Node F => (e.1.ren ρ, e.2.ren ρ)) fun kv _ => ?_).bind fun g => .pure rfl
    exact (ren_newConst _).bind fun k => .pure rfl
  · refine (RenM.iter (f := Node.ren ρ) hN ?_).bind fun vs => (ren_derivatives hρ hN e vs).bind fun ds => (ren_hessLoop hρ hN ds vs).bind fun gh => .pure rfl
    simp [Prop'.ren, renK]

/-- A constraint with other addresses. -/
def Constraint.ren (ρ : Nat → Nat) (c : Constraint F) : Constraint F := ⟨ρ c.id, c.lhs.ren ρ, c.kind, c.rhs.ren ρ, c.label⟩

theorem renC_ptrEq (hρ : Function.Injective ρ) (c d : Constraint F) : (c.ren ρ).ptrEq (d.ren ρ) = c.ptrEq d := by
  simp only [Constraint.ptrEq, Constraint.ren]
  rw [Bool.eq_iff_iff, beq_iff_eq, beq_iff_eq, hρ.eq_iff]

theorem ren_newConstraint (a : Node F) (k : CKind) (b : Node F) (s : String) :
    RN (newConstraint a k b s) (newConstraint (a.ren ρ) k (b.ren ρ) s) (Constraint.ren ρ) := RenM.fresh.bind fun _ => .pure rfl

theorem ren_cmpNN (k : CKind) (a b : Node F) (s : String) : RN (cmpNN k a b s) (cmpNN k (a.ren ρ) (b.ren ρ) s) (Constraint.ren ρ) := by
  cases k <;> exact ren_newConstraint _ _ _ _
theorem ren_cmpNS (k : CKind) (a : Node F) (v : F) (s : String) : RN (cmpNS k a v s) (cmpNS k (a.ren ρ) v s) (Constraint.ren ρ) := by
  have hx : ∀ a, cmpNS k a v s = M.bind (newConst v) fun b => newConstraint a k b s := by intro a; cases k <;> rfl
  rw [hx, hx]
  exact (ren_newConst v).bind fun c => ren_newConstraint a k c s
theorem ren_cmpSN (k : CKind) (a : Node F) (v : F) (s : String) : RN (cmpSN k v a s) (cmpSN k v (a.ren ρ) s) (Constraint.ren ρ) := by
  have hx : ∀ a, cmpSN k v a s = M.bind (newConst v) fun b => newConstraint b k a s := by intro a; cases k <;> rfl
  rw [hx, hx]
  exact (ren_newConst v).bind fun c => ren_newConstraint c k a s

/-- A bound with other addresses. -/
def renB (ρ : Nat → Nat) (e : Node F × F × Constraint F) : Node F × F × Constraint F := (e.1.ren ρ, e.2.1, e.2.2.ren ρ)

/-- Components with other addresses. -/
def ConstrComp.ren (ρ : Nat → Nat) (c : ConstrComp F) : ConstrComp F :=
  ⟨c.ca.map (Constraint.ren ρ), c.cj.map (Constraint.ren ρ), c.a.map fun e => (e.1, e.2.1.ren ρ, e.2.2), c.b, c.f.map (Node.ren ρ),
    c.j.map fun e => (e.1, e.2.1.ren ρ, e.2.2.ren ρ), c.h.map (List.map (renH ρ)), c.u.map (renB ρ), c.l.map (renB ρ), c.prop.map (Prop'.ren ρ)⟩

theorem ren_append (p q : ConstrComp F) : (p.append q).ren ρ = (p.ren ρ).append (q.ren ρ) := by
  simp [ConstrComp.append, ConstrComp.ren]

theorem ren_boundVar (c : Constraint F) (p : Prop' F) : (c.ren ρ).boundVar (p.ren ρ) = (c.boundVar p).map (Node.ren ρ) := by
  obtain ⟨af, a, b⟩ := p
  rcases a with _ | ⟨⟨x, v⟩, _ | ⟨y, l⟩⟩
  · rfl
  · simp only [Constraint.boundVar, Prop'.ren, renK, List.map_cons, List.map_nil, Constraint.ren, id]
    split <;> rfl
  · rfl

theorem ren_constrComponents (hρ : Function.Injective ρ) (hN : H.Positional) (c : Constraint F) (arow jrow : Nat) :
    RN (c.stdComponents H arow jrow) ((c.ren ρ).stdComponents H' arow jrow) (fun r => (r.1.ren ρ, r.2)) := by
  unfold Constraint.stdComponents
  refine (ren_subN c.lhs c.rhs).bind fun exp => (ren_nodeComponents hρ hN exp).bind fun comp => ?_
  have hp : (comp.ren ρ).prop = comp.prop.ren ρ := rfl
  have hk : (c.ren ρ).kind = c.kind := rfl
  have ha : (comp.prop.ren ρ).affine = comp.prop.affine := rfl
  simp only [hp, ren_boundVar, hk, ha]
  have hins : ∀ s : Node F, insertN (renK ρ id comp.prop.a) (s.ren ρ) (negOne : F) = renK ρ id (insertN comp.prop.a s negOne) := fun s => by
    have := ren_insertN hρ (id : F → F) comp.prop.a s negOne
    simpa using this
  cases hb : c.boundVar comp.prop with
  | some x =>
    cases hkk : c.kind <;> exact .pure (by simp [ConstrComp.ren, ConstrComp.empty, renB, Constraint.ren, Prop'.ren, hkk])
  | none =>
    simp only [Option.map_none]
    split
    · cases hkk : c.kind
      · refine (RenM.iter (f := fun e : Node F × F => (e.1.ren ρ, e.2)) hN rfl).bind fun es => .pure ?_
        simp [ConstrComp.ren, ConstrComp.empty, Constraint.ren, Prop'.ren, hkk]
      all_goals
        refine (ren_newVar _ _).bind fun s => (RenM.iter (f := fun e : Node F × F => (e.1.ren ρ, e.2)) hN rfl).bind fun es => .pure ?_
        simp [ConstrComp.ren, ConstrComp.empty, renB, Constraint.ren, Prop'.ren, hkk, hins]
    · cases hkk : c.kind
      · refine .pure ?_
        simp [ConstrComp.ren, ConstrComp.empty, Constraint.ren, NodeComp.ren, renK, hkk]
      all_goals
        refine (ren_newVar _ _).bind fun s => (ren_subN comp.phi s).bind fun f => (ren_newConst _).bind fun m1 => .pure ?_
        simp [ConstrComp.ren, ConstrComp.empty, renB, Constraint.ren, NodeComp.ren, renK, Prop'.ren, hkk]
        exact (hins s).symm

end

end Verif
