import Verif.Proofs.RenameModel
import Verif.Proofs.WorldInv
import Verif.Code.Print

/-! # Two runs of a program with different addresses -/

set_option linter.unusedSectionVars false
set_option linter.unusedSimpArgs false

namespace Verif

variable {F : Type}

/-- The second list contains the first one (at the places `f`), and what comes later corresponds. -/
structure ListRel {α : Type} (φ : α → α) (f : Nat → Nat) (l l' : List α) : Prop where
  get : ∀ i, l'[f i]? = (l[i]?).map φ
  late : ∀ j, f (l.length + j) = l'.length + j

section
variable {α : Type} {φ ψ : α → α} {f : Nat → Nat} {l l' r : List α}

theorem ListRel.lt (h : ListRel φ f l l') {i : Nat} (hi : i < l.length) : f i < l'.length := by
  have := h.get i
  rw [List.getElem?_eq_getElem hi] at this
  exact (List.getElem?_eq_some_iff.1 this).1

theorem ListRel.append (h : ListRel φ f l l') : ListRel φ f (l ++ r) (l' ++ r.map φ) where
  get i := by
    by_cases hi : i < l.length
    · rw [List.getElem?_append_left (h.lt hi), List.getElem?_append_left hi, h.get]
    · obtain ⟨j, rfl⟩ : ∃ j, i = l.length + j := ⟨i - l.length, by omega⟩
      rw [h.late, List.getElem?_append_right (by omega), List.getElem?_append_right (by omega)]
      simp
  late j := by
    have := h.late (r.length + j)
    simp only [List.length_append, List.length_map] at this ⊢
    rw [Nat.add_assoc, this, Nat.add_assoc]

theorem ListRel.snoc (h : ListRel φ f l l') (a : α) : ListRel φ f (l ++ [a]) (l' ++ [φ a]) := h.append (r := [a])

theorem ListRel.start : ListRel φ (l'.length + ·) [] l' := ⟨fun i => by simp, fun j => by simp⟩

theorem ListRel.other (h : ListRel φ f l l') (he : ∀ a ∈ l, ψ a = φ a) : ListRel ψ (laterAfter f l.length (l' ++ r).length) l (l' ++ r) where
  get i := by
    unfold laterAfter
    by_cases hi : i < l.length
    · rw [if_pos hi, List.getElem?_append_left (h.lt hi), h.get, List.getElem?_eq_getElem hi, Option.map_some, Option.map_some, he _ (List.getElem_mem hi)]
    · rw [if_neg hi, List.getElem?_eq_none (by omega), List.getElem?_eq_none (by omega)]; rfl
  late j := by
    unfold laterAfter
    rw [if_neg (by omega)]; congr 1; omega

theorem ListRel.filterMap (h : ListRel φ f l l') (is : List Nat) : (is.map f).filterMap (l'[·]?) = (is.filterMap (l[·]?)).map φ := by
  induction is with
  | nil => rfl
  | cons i is ih =>
    simp only [List.map_cons, List.filterMap_cons, h.get]
    cases l[i]? with
    | none => simpa using ih
    | some a => simpa using ih

end

/-- As `RenM`, with any relation between the results. -/
def RelM {α β : Type} (ρ : Nat → Nat) (H H' : HashOrder) (x : M α) (y : M β) (P : α → β → Prop) : Prop :=
  ∀ n n', Ag ρ H H' n n' → match x n with
    | .ok (a, m) => ∃ b m', y n' = .ok (b, m') ∧ P a b ∧ Ag ρ H H' m m'
    | .error p => y n' = .error p

section
variable {α β γ δ : Type} {ρ : Nat → Nat} {H H' : HashOrder}

theorem RelM.pure {a : α} {b : β} {P : α → β → Prop} (h : P a b) : RelM ρ H H' (M.pure a) (M.pure b) P :=
  fun n n' hA => ⟨b, n', rfl, h, hA⟩

theorem RenM.rel {x : M α} {y : M β} {f : α → β} {k : α → M γ} {k' : β → M δ} {P : γ → δ → Prop}
    (h : RenM ρ H H' x y f) (hk : ∀ a, RelM ρ H H' (k a) (k' (f a)) P) : RelM ρ H H' (M.bind x k) (M.bind y k') P := by
  intro n n' hA
  have h1 := h n n' hA
  unfold M.bind
  cases hx : x n with
  | error p => rw [hx] at h1; simp only at h1; simp only [h1]
  | ok a =>
    obtain ⟨a, m⟩ := a
    rw [hx] at h1
    obtain ⟨m', h1, h2⟩ := h1
    simp only [h1]
    exact hk a m m' h2

end

/-- The model without the results of the last `solve`. -/
def Model.bare (m : Model F) : Model F := { m with finalPrimals := [], finalDuals := [], solverStatus := none }

/-- The second world contains what the first one holds, with other addresses. -/
structure WRel (ρ : Nat → Nat) (f g : Nat → Nat) (W W' : World F) : Prop where
  regs : ListRel (Node.ren ρ) f W.regs W'.regs
  cs : ListRel (Constraint.ren ρ) g W.cs W'.cs
  m : W'.m.bare = W.m.bare.ren ρ

section
variable [FloatOps F] {ρ : Nat → Nat} {H H' : HashOrder} {f g : Nat → Nat} {W W' : World F}

theorem ren_op (hρ : Function.Injective ρ) (hN : H.Positional) {l l' : List (Node F)} (h : ListRel (Node.ren ρ) f l l') (op : Op F) :
    RenM ρ H H' (op.exec H l) ((op.move f).exec H' l') (List.map (Node.ren ρ)) := by
  have w1 : ∀ (i : Nat) (k k' : Node F → M (Node F)), (∀ a, RenM ρ H H' (k a) (k' (a.ren ρ)) (Node.ren ρ)) →
      RenM ρ H H' (match l[i]? with | some a => M.bind (k a) fun e => M.pure [e] | none => M.pure [])
        (match l'[f i]? with | some a => M.bind (k' a) fun e => M.pure [e] | none => M.pure []) (List.map (Node.ren ρ)) := by
    intro i k k' hk
    rw [h.get]
    cases l[i]? with
    | none => exact .pure rfl
    | some a => exact (hk a).bind fun e => .pure rfl
  have w2 : ∀ (i j : Nat) (k k' : Node F → Node F → M (Node F)), (∀ a b, RenM ρ H H' (k a b) (k' (a.ren ρ) (b.ren ρ)) (Node.ren ρ)) →
      RenM ρ H H' (match l[i]?, l[j]? with | some a, some b => M.bind (k a b) fun e => M.pure [e] | _, _ => M.pure [])
        (match l'[f i]?, l'[f j]? with | some a, some b => M.bind (k' a b) fun e => M.pure [e] | _, _ => M.pure []) (List.map (Node.ren ρ)) := by
    intro i j k k' hk
    rw [h.get, h.get]
    cases l[i]? with
    | none => exact .pure rfl
    | some a =>
      cases l[j]? with
      | none => exact .pure rfl
      | some b => exact (hk a b).bind fun e => .pure rfl
  cases op with
  | const v =>
    show RenM ρ H H' (M.bind (newConst v) fun e => M.pure [e]) (M.bind (newConst v) fun e => M.pure [e]) _
    exact (ren_newConst v).bind fun e => .pure rfl
  | var s k =>
    show RenM ρ H H' (M.bind (newVar s k) fun e => M.pure [e]) (M.bind (newVar s k) fun e => M.pure [e]) _
    exact (ren_newVar s k).bind fun e => .pure rfl
  | add i j => exact w2 i j _ _ ren_addN
  | addScalar i c => exact w1 i (addS · c) (addS · c) fun a => ren_addS a c
  | scalarAdd c i => exact w1 i (sAdd c) (sAdd c) fun a => ren_sAdd a c
  | sub i j => exact w2 i j _ _ ren_subN
  | subScalar i c => exact w1 i (subS · c) (subS · c) fun a => ren_subS a c
  | scalarSub c i => exact w1 i (sSub c) (sSub c) fun a => ren_sSub a c
  | mul i j => exact w2 i j _ _ ren_mulN
  | mulScalar i c => exact w1 i (mulS c) (mulS c) fun a => ren_mulS c a
  | scalarMul c i => exact w1 i (sMul c) (sMul c) fun a => ren_sMul c a
  | div i j => exact w2 i j _ _ ren_divN
  | divScalar i c => exact w1 i (divS · c) (divS · c) fun a => ren_divS a c
  | scalarDiv c i => exact w1 i (sDiv c) (sDiv c) fun a => ren_sDiv a c
  | neg i => exact w1 i _ _ ren_negN
  | cos i => exact w1 i _ _ ren_cosN
  | sin i => exact w1 i _ _ ren_sinN
  | partialD i j => exact w2 i j _ _ (ren_partialN hρ)
  | derivative i j => exact w2 i j _ _ (ren_derivative hρ hN)
  | derivatives i js =>
    simp only [Op.exec, Op.move, h.get, h.filterMap]
    cases l[i]? with
    | none => exact .pure rfl
    | some a => exact (ren_derivatives hρ hN a _).bind fun ds => .pure (by simp [renK])
  | rawAdd is =>
    simp only [Op.exec, Op.move, h.filterMap]
    exact (ren_newAdd _).bind fun e => .pure rfl
  | rawMul i j => exact w2 i j _ _ ren_newMul
  | rawDiv i j => exact w2 i j _ _ ren_newDiv
  | rawCos i => exact w1 i _ _ ren_newCos
  | rawSin i => exact w1 i _ _ ren_newSin

theorem bare_solve (m : Model F) (solver : SolverFn F) : m.solve H solver = m.bare.solve H solver := rfl

theorem bare_stdProblem (m : Model F) : m.stdProblem H = m.bare.stdProblem H := rfl

theorem bare_ren (m : Model F) : (m.ren ρ).bare = m.bare.ren ρ := rfl

/-- The solve of the second world does the same as the one of the first. -/
theorem ren_solve' (hρ : Function.Injective ρ) (hN : H.Positional) {m m' : Model F} (h : m'.bare = m.bare.ren ρ) (solver : SolverFn F) :
    RenM ρ H H' (m.solve H solver) (m'.solve H' solver) (fun r => (r.1, r.2.ren ρ)) := by
  rw [bare_solve m, bare_solve m', h]
  exact ren_solve hρ hN _ solver

theorem ren_stdProblem' (hρ : Function.Injective ρ) (hN : H.Positional) {m m' : Model F} (h : m'.bare = m.bare.ren ρ) :
    RenM ρ H H' (m.stdProblem H) (m'.stdProblem H') (StdProb.ren ρ) := by
  rw [bare_stdProblem m, bare_stdProblem m', h]
  exact ren_stdProblem hρ hN _

theorem WRel.withRegs (h : WRel ρ f g W W') (rs : List (Node F)) {res res' : Option (Except String Unit)} :
    WRel ρ f g ⟨W.regs ++ rs, W.cs, W.m, res⟩ ⟨W'.regs ++ rs.map (Node.ren ρ), W'.cs, W'.m, res'⟩ := ⟨h.regs.append, h.cs, h.m⟩

theorem WRel.withC (h : WRel ρ f g W W') (c : Constraint F) {res res' : Option (Except String Unit)} :
    WRel ρ f g ⟨W.regs, W.cs ++ [c], W.m, res⟩ ⟨W'.regs, W'.cs ++ [c.ren ρ], W'.m, res'⟩ := ⟨h.regs, h.cs.snoc c, h.m⟩

theorem WRel.withM (h : WRel ρ f g W W') {mm mm' : Model F} {res res' : Option (Except String Unit)} (hm : mm'.bare = mm.bare.ren ρ) :
    WRel ρ f g ⟨W.regs, W.cs, mm, res⟩ ⟨W'.regs, W'.cs, mm', res'⟩ := ⟨h.regs, h.cs, hm⟩

theorem bare_parts {m m' : Model F} (h : m'.bare = m.bare.ren ρ) : m'.objective = m.objective.ren ρ ∧
    m'.constraints = m.constraints.map (Constraint.ren ρ) ∧ m'.initPrimals = renK ρ id m.initPrimals :=
  ⟨congrArg Model.objective h, congrArg Model.constraints h, congrArg Model.initPrimals h⟩

theorem bare_of {m m' : Model F} (h1 : m'.objective = m.objective.ren ρ) (h2 : m'.constraints = m.constraints.map (Constraint.ren ρ))
    (h3 : m'.initPrimals = renK ρ id m.initPrimals) : m'.bare = m.bare.ren ρ := by
  cases m; cases m'
  simp only at h1 h2 h3
  subst h1 h2 h3
  rfl

theorem ren_cmd (hρ : Function.Injective ρ) (hN : H.Positional) (h : WRel ρ f g W W') (c : Cmd F) :
    RelM ρ H H' (c.exec H W) ((c.move f g).exec H' W') (WRel ρ f g) := by
  obtain ⟨p1, p2, p3⟩ := bare_parts h.m
  cases c with
  | expr op => exact (ren_op hρ hN h.regs op).rel fun rs => .pure (h.withRegs rs)
  | cmpNodeNode k i j tag =>
    simp only [Cmd.exec, Cmd.move, h.regs.get]
    cases W.regs[i]? with
    | none => exact .pure h
    | some a =>
      cases W.regs[j]? with
      | none => exact .pure h
      | some b => exact (ren_cmpNN k a b tag).rel fun c => .pure (h.withC c)
  | cmpNodeScalar k i v tag =>
    simp only [Cmd.exec, Cmd.move, h.regs.get]
    cases W.regs[i]? with
    | none => exact .pure h
    | some a => exact (ren_cmpNS k a v tag).rel fun c => .pure (h.withC c)
  | cmpScalarNode k v i tag =>
    simp only [Cmd.exec, Cmd.move, h.regs.get]
    cases W.regs[i]? with
    | none => exact .pure h
    | some a => exact (ren_cmpSN k a v tag).rel fun c => .pure (h.withC c)
  | newModel => exact .pure (h.withM rfl)
  | minimize i =>
    simp only [Cmd.exec, Cmd.move, h.regs.get]
    cases W.regs[i]? with
    | none => exact .pure h
    | some a => exact .pure (h.withM (bare_of rfl p2 p3))
  | maximize i =>
    simp only [Cmd.exec, Cmd.move, h.regs.get]
    cases W.regs[i]? with
    | none => exact .pure h
    | some a => exact .pure (h.withM (bare_of rfl p2 p3))
  | noObjective => exact .pure (h.withM (bare_of rfl p2 p3))
  | addConstraint i =>
    simp only [Cmd.exec, Cmd.move, h.cs.get]
    cases W.cs[i]? with
    | none => exact .pure h
    | some c => exact .pure (h.withM (bare_of p1 (by simp [Model.addConstraint, p2]) p3))
  | addConstraints is =>
    simp only [Cmd.exec, Cmd.move, h.cs.filterMap]
    exact .pure (h.withM (bare_of p1 (by simp [Model.addConstraints, p2]) p3))
  | setInitPrimals vals =>
    have hv : ∀ l : List (Nat × F), (l.map fun e => (f e.1, e.2)).filterMap (fun e => (W'.regs[e.1]?).map fun a => (a, e.2)) =
        renK ρ id (l.filterMap fun e => (W.regs[e.1]?).map fun a => (a, e.2)) := by
      intro l
      induction l with
      | nil => rfl
      | cons e l ih =>
        simp only [List.map_cons, List.filterMap_cons, h.regs.get]
        cases W.regs[e.1]? with
        | none => simpa using ih
        | some a => simpa [renK] using ih
    have hi := ren_foldl_insertN (F := F) hρ (δ := F) (β := F) (fun e => e.2) (fun e => e.2) (fun _ => rfl)
    have he : renK ρ (id : F → F) ([] : List (Node F × F)) = [] := rfl
    simp only [Cmd.exec, Cmd.move]
    rw [hv vals]
    have h1 := hi (vals.filterMap fun e => (W.regs[e.1]?).map fun a => (a, e.2)) []
    rw [he] at h1
    rw [h1]
    generalize List.foldl (fun m e => insertN m e.1 e.2) [] (vals.filterMap fun e => (W.regs[e.1]?).map fun a => (a, e.2)) = values
    have h2 : RenM ρ H H' (W.m.bare.setInitPrimals H values) ((W.m.bare.ren ρ).setInitPrimals H' (renK ρ id values)) (Model.ren ρ) := by
      unfold Model.setInitPrimals
      refine (RenM.iter (f := fun e : Node F × F => (e.1.ren ρ, e.2)) hN rfl).bind fun es => .pure ?_
      have h3 := hi es []
      rw [he] at h3
      show Model.mk _ _ _ _ _ _ = Model.mk _ _ _ _ _ _
      congr 1
      exact h3.symm
    have h4 : RelM ρ H H' (W.m.setInitPrimals H values) (W'.m.setInitPrimals H' (renK ρ id values)) (fun a b => b.bare = a.bare.ren ρ) := by
      unfold Model.setInitPrimals
      refine (RenM.iter (f := fun e : Node F × F => (e.1.ren ρ, e.2)) hN rfl).rel fun es => .pure (bare_of p1 p2 ?_)
      have h3 := hi es []
      rw [he] at h3
      exact h3
    intro n n' hA
    have h5 := h4 n n' hA
    unfold M.bind
    cases hx : W.m.setInitPrimals H values n with
    | error p => rw [hx] at h5; simp only at h5; simp only [h5]
    | ok a =>
      obtain ⟨a, k⟩ := a
      rw [hx] at h5
      obtain ⟨b, k', h6, h7, h8⟩ := h5
      simp only [h6]
      exact ⟨_, k', rfl, h.withM h7, h8⟩
  | solve solver =>
    refine (ren_solve' hρ hN h.m solver).rel fun r => .pure ?_
    have h1 : (r.2.ren ρ).finalPrimals.map Prod.fst = (r.2.finalPrimals.map Prod.fst).map (Node.ren ρ) := by simp [Model.ren, renK]
    simp only [h1]
    exact ⟨h.regs.append, h.cs, bare_ren _⟩
  | stdProblem =>
    refine (ren_stdProblem' hρ hN h.m).rel fun sp => .pure ?_
    have h1 : (sp.ren ρ).var2index.map Prod.fst = (sp.var2index.map Prod.fst).map (Node.ren ρ) := by simp [StdProb.ren, renK]
    simp only [h1]
    exact h.withRegs _
  | stdComponents i =>
    simp only [Cmd.exec, Cmd.move, h.regs.get]
    cases W.regs[i]? with
    | none => exact .pure h
    | some a =>
      refine (ren_nodeComponents hρ hN a).rel fun c => .pure ?_
      have h1 : (c.ren ρ).gphi.map Prod.snd ++ ((c.ren ρ).hphi.map fun e => e.2.2) = (c.gphi.map Prod.snd ++ c.hphi.map fun e => e.2.2).map (Node.ren ρ) := by
        simp [NodeComp.ren, renK, renH, Function.comp_def]
      simp only [h1]
      exact h.withRegs _

/-! ### Changing addresses that are not used yet -/

theorem ren_eq_of {ρ ρ' : Nat → Nat} {l : Level} {h : Heap F} {n : Nat} (hn : HInv h n) (he : ∀ i, i < n → ρ' i = ρ i) (a : Node F) (ha : Good l h a) :
    a.ren ρ' = a.ren ρ := by
  induction a using Node.ind with
  | const i v => exact (by
    have h1 : i < n := ha.lt hn
    simp only [Node.ren, he i h1])
  | var i s k => exact (by
    have h1 : i < n := ha.lt hn
    simp only [Node.ren, he i h1])
  | add i args ih =>
    have h1 : i < n := ha.lt hn
    simp only [Node.ren, rens_eq, he i h1]
    congr 1
    exact List.map_congr_left fun b hb => ih b hb (ha.arg hb)
  | cos i a ih =>
    have h1 : i < n := ha.lt hn
    simp only [Node.ren, he i h1, ih (ha.arg (by simp [Node.arguments]))]
  | sin i a ih =>
    have h1 : i < n := ha.lt hn
    simp only [Node.ren, he i h1, ih (ha.arg (by simp [Node.arguments]))]
  | mul i a b iha ihb =>
    have h1 : i < n := ha.lt hn
    simp only [Node.ren, he i h1, iha (ha.arg (by simp [Node.arguments])), ihb (ha.arg (by simp [Node.arguments]))]
  | div i a b iha ihb =>
    have h1 : i < n := ha.lt hn
    simp only [Node.ren, he i h1, iha (ha.arg (by simp [Node.arguments])), ihb (ha.arg (by simp [Node.arguments]))]

/-- What is known about two such runs. -/
structure ReplayInv (W : World F) (n : Nat) (W' : World F) (n' : Nat) (f g : Nat → Nat) (ρ : Nat → Nat) : Prop where
  inj : Function.Injective ρ
  lt : ∀ i, i < n → ρ i < n'
  late : ∀ j, ρ (n + j) = n' + j
  rel : WRel ρ f g W W'
  inv : ∃ h, WInv .raw h W n

theorem ag_of (hl : ∀ j, ρ (n + j) = n' + j) (hO : SameOrders H H' n n') : Ag ρ H H' n n' := fun j => ⟨hl j, fun α l => hO j α l⟩

theorem ReplayInv.step {n n' : Nat} (h : ReplayInv W n W' n' f g ρ) (hN : H.Positional) (hO : SameOrders H H' n n') (c : Cmd F) :
    match c.exec H W n with
    | .ok (W1, n1) => ∃ W1' n1', (c.move f g).exec H' W' n' = .ok (W1', n1') ∧ ReplayInv W1 n1 W1' n1' f g ρ ∧ SameOrders H H' n1 n1'
    | .error p => (c.move f g).exec H' W' n' = .error p := by
  have h1 := ren_cmd h.inj hN h.rel c n n' (ag_of h.late hO)
  cases hx : c.exec H W n with
  | error p => rw [hx] at h1; exact h1
  | ok r =>
    obtain ⟨W1, n1⟩ := r
    rw [hx] at h1
    obtain ⟨W1', n1', h2, h3, h4⟩ := h1
    obtain ⟨hp, hw⟩ := h.inv
    obtain ⟨hp', _, _, hle, hw'⟩ := spec_cmd (H := H) hw (cmd := c) (.inl rfl) _ _ hx
    refine ⟨W1', n1', h2, ⟨h.inj, fun i hi => ?_, fun j => (h4 j).1, h3, hp', hw'⟩, fun j α l => (h4 j).2 α l⟩
    by_cases hi' : i < n
    · have h5 := h.lt i hi'
      have h6 := h.late (n1 - n)
      have h7 := (h4 0).1
      simp only [Nat.add_zero] at h7
      rw [show n + (n1 - n) = n1 by omega, h7] at h6
      omega
    · have h6 := h.late (n1 - n)
      have h7 := (h4 0).1
      simp only [Nat.add_zero] at h7
      rw [show n + (n1 - n) = n1 by omega, h7] at h6
      have h8 := h.late (i - n)
      rw [show n + (i - n) = i by omega] at h8
      omega

theorem Replay.inv {n n' : Nat} (h : Replay W n W' n' f g) : ∃ ρ, ReplayInv W n W' n' f g ρ := by
  induction h with
  | @start W' n' hm =>
    exact ⟨(n' + ·), fun a b hab => by simpa using hab, fun i hi => absurd hi (by omega), fun j => by simp,
      ⟨ListRel.start, ListRel.start, by rw [hm]; rfl⟩, _, WInv.start⟩
  | @other W W' n n' n'' f g rs cs res h hn ih =>
    obtain ⟨ρ, h⟩ := ih
    obtain ⟨hp, hw⟩ := h.inv
    have he : ∀ i, i < n → (fun i => if i < n then ρ i else n'' + (i - n)) i = ρ i := fun i hi => if_pos hi
    have hr := fun a ha => ren_eq_of (l := .raw) hw.heap he a ha
    have hc : ∀ c : Constraint F, Good .raw hp c.lhs → Good .raw hp c.rhs → c.id < n →
        c.ren (fun i => if i < n then ρ i else n'' + (i - n)) = c.ren ρ := by
      intro c h1 h2 h3
      simp only [Constraint.ren, hr _ h1, hr _ h2]
      rw [if_pos h3]
    refine ⟨fun i => if i < n then ρ i else n'' + (i - n), ?_, ?_, ?_, ⟨?_, ?_, ?_⟩, hp, hw⟩
    · intro a b hab
      simp only at hab
      split at hab <;> split at hab
      · exact h.inj hab
      · have := h.lt a ‹_›; omega
      · have := h.lt b ‹_›; omega
      · omega
    · intro i hi
      simp only [hi, if_true]
      have := h.lt i hi
      omega
    · intro j
      simp
    · exact h.rel.regs.other fun a ha => hr a (hw.regs a ha)
    · exact h.rel.cs.other fun c hc' => hc c (hw.cs c hc').1 (hw.cs c hc').2.1 (hw.cs c hc').2.2
    · obtain ⟨p1, p2, p3⟩ := bare_parts h.rel.m
      refine bare_of (p1.trans ?_) (p2.trans ?_) (p3.trans ?_)
      · cases ho : W.m.objective with
        | empty => rfl
        | minimize e => simp only [Objective.ren, hr _ (hw.model.min _ ho)]
        | maximize e => simp only [Objective.ren, hr _ (hw.model.max _ ho)]
      · exact List.map_congr_left fun c hc' => (hc c (hw.model.cs c hc').1 (hw.model.cs c hc').2 (hw.cs c (hw.sub c hc')).2.2).symm
      · exact List.map_congr_left fun e he' => by rw [hr _ (hw.initGood e he')]
  | both h hN hO hx hx' ih =>
    obtain ⟨ρ, h⟩ := ih
    have h1 := h.step hN hO ‹Cmd F›
    rw [hx] at h1
    obtain ⟨W2, n2, h2, h3, _⟩ := h1
    rw [hx'] at h2
    obtain ⟨rfl, rfl⟩ := Prod.mk.inj (Except.ok.inj h2)
    exact ⟨ρ, h3⟩

/-! ### Texts, keys -/

theorem ren_parens0 (a : Node F) : (a.ren ρ).parens0 = a.parens0 := by cases a <;> rfl
theorem ren_parens1 (a : Node F) : (a.ren ρ).parens1 = a.parens1 := by cases a <;> rfl
theorem ren_parensD (a : Node F) : (a.ren ρ).parensD = a.parensD := by cases a <;> rfl

theorem ren_print (fmt : F → List Char) (a : Node F) : (a.ren ρ).print fmt = a.print fmt := by
  induction a using Node.ind with
  | const i v => rfl
  | var i s k => rfl
  | add i args ih =>
    simp only [Node.ren, rens_eq, Node.print]
    induction args with
    | nil => rfl
    | cons a as ih2 =>
      simp only [List.map_cons, Node.print.printArgs]
      rw [ih a (by simp), ih2 (fun b hb => ih b (by simp [hb])), List.isEmpty_map]
  | cos i a ih => simp only [Node.ren, Node.print, ih]
  | sin i a ih => simp only [Node.ren, Node.print, ih]
  | mul i a b iha ihb => simp only [Node.ren, Node.print, iha, ihb, ren_parens0, ren_parens1]
  | div i a b iha ihb => simp only [Node.ren, Node.print, iha, ihb, ren_parens0, ren_parensD]

theorem ren_printC (fmt : F → List Char) (c : Constraint F) : (c.ren ρ).print fmt = c.print fmt := by
  simp only [Constraint.print, Constraint.ren, ren_print]

theorem ren_inj (hρ : Function.Injective ρ) (a : Node F) : ∀ b : Node F, a.ren ρ = b.ren ρ → a = b := by
  induction a using Node.ind with
  | const i v => intro b h; cases b <;> simp_all [Node.ren, hρ.eq_iff]
  | var i s k => intro b h; cases b <;> simp_all [Node.ren, hρ.eq_iff]
  | add i args ih =>
    intro b h
    cases b with
    | add j args' =>
      simp only [Node.ren, rens_eq, Node.add.injEq, hρ.eq_iff] at h ⊢
      refine ⟨h.1, ?_⟩
      have h2 := h.2
      clear h
      induction args generalizing args' with
      | nil => cases args' with
        | nil => rfl
        | cons b bs => simp at h2
      | cons a as ih2 => cases args' with
        | nil => simp at h2
        | cons b bs =>
          simp only [List.map_cons, List.cons.injEq] at h2
          rw [ih a (by simp) b h2.1, ih2 (fun c hc => ih c (by simp [hc])) bs h2.2]
    | _ => simp [Node.ren] at h
  | cos i a ih =>
    intro b h
    cases b with
    | cos j b =>
      simp only [Node.ren, Node.cos.injEq, hρ.eq_iff] at h ⊢
      exact ⟨h.1, ih _ h.2⟩
    | _ => simp [Node.ren] at h
  | sin i a ih =>
    intro b h
    cases b with
    | sin j b =>
      simp only [Node.ren, Node.sin.injEq, hρ.eq_iff] at h ⊢
      exact ⟨h.1, ih _ h.2⟩
    | _ => simp [Node.ren] at h
  | mul i a b iha ihb =>
    intro c h
    cases c with
    | mul j c d =>
      simp only [Node.ren, Node.mul.injEq, hρ.eq_iff] at h ⊢
      exact ⟨h.1, iha _ h.2.1, ihb _ h.2.2⟩
    | _ => simp [Node.ren] at h
  | div i a b iha ihb =>
    intro c h
    cases c with
    | div j c d =>
      simp only [Node.ren, Node.div.injEq, hρ.eq_iff] at h ⊢
      exact ⟨h.1, iha _ h.2.1, ihb _ h.2.2⟩
    | _ => simp [Node.ren] at h

theorem ren_injC (hρ : Function.Injective ρ) {c d : Constraint F} (h : c.ren ρ = d.ren ρ) : c = d := by
  cases c; cases d
  simp only [Constraint.ren, Constraint.mk.injEq, hρ.eq_iff] at h ⊢
  exact ⟨h.1, ren_inj hρ _ _ h.2.1, h.2.2.1, ren_inj hρ _ _ h.2.2.2.1, h.2.2.2.2⟩

theorem ren_getC (hρ : Function.Injective ρ) {β : Type} (m : List (Constraint F × β)) (k : Constraint F) : getC (renC ρ m) (k.ren ρ) = getC m k := by
  induction m with
  | nil => rfl
  | cons e m ih =>
    simp only [renC, List.map_cons, getC, renC_ptrEq hρ]
    split
    · rfl
    · exact ih

end

end Verif
