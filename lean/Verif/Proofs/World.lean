import Verif.Spec.Feasible
import Verif.Proofs.Vars
import Verif.Proofs.Comp
import Verif.Proofs.Reach
import Verif.Proofs.Loop

/-! # Standard components of constraints and models -/

set_option linter.unusedSectionVars false
set_option linter.unusedSimpArgs false

namespace Verif

variable {F : Type} [FloatOps F]

section
variable {l : Level} {h : Heap F} {n : Nat}

theorem spec_hessLoop {H : HashOrder} {derivs : List (Node F × Node F)} {vs : List (Node F)} : ∀ {h : Heap F} {n : Nat},
    HInv h n → (∀ p ∈ derivs, Good l h p.2) →
    Spec h n (hessLoop H derivs vs) (fun h' _ r => (∀ p ∈ r.1, Good l h' p.2) ∧ ∀ p ∈ r.2, Good l h' p.2.2) := by
  induction vs with
  | nil => intro h n hn _; exact Spec.pure hn (by simp)
  | cons v vs ih =>
    intro h n hn hd
    simp only [hessLoop]
    refine Spec.bind (Q := fun h' _ d => Good l h' d) ?_ fun h1 m1 d hle1 hn1 _ hg1 => ?_
    · intro d m hdm
      rw [unwrapM_ok] at hdm
      obtain ⟨y, hy, _⟩ := getN_some_iff hdm.1
      exact ⟨h, h.le_refl, by rw [hdm.2]; exact hn, by omega, hd _ hy⟩
    refine (spec_derivatives hn1 hg1).bind fun h2 m2 dd hle2 hn2 _ hg2 => ?_
    refine Spec.bind (Q := fun h' _ (row : List (Node F × Node F × Node F)) => ∀ p ∈ row, Good l h' p.2.2) ?_
      fun h3 m3 row hle3 hn3 _ hg3 => ?_
    · intro row m hrow
      obtain ⟨rfl, h1', -⟩ := hessRow_ok hrow
      refine ⟨h2, h2.le_refl, hn2, by omega, fun p hp => ?_⟩
      obtain ⟨y, hy, _⟩ := getN_some_iff (h1' p hp).2.2
      exact hg2 (y, p.2.2) hy
    have hd3 : ∀ p ∈ derivs, Good l h3 p.2 := fun p hp => (((hd p hp).mono hle1).mono hle2).mono hle3
    refine (ih hn3 hd3).bind fun h4 m4 rest hle4 hn4 _ hg4 => Spec.pure hn4 ⟨?_, ?_⟩
    · intro p hp
      rcases List.mem_cons.1 hp with rfl | hp
      · exact ((hg1.mono hle2).mono hle3).mono hle4
      · exact hg4.1 p hp
    · intro p hp
      rcases List.mem_append.1 hp with hp | hp
      · exact (hg3 p hp).mono hle4
      · exact hg4.2 p hp

theorem spec_nodeComp {H : HashOrder} {e : Node F} (hn : HInv h n) (he : Good l h e) :
    Spec h n (e.stdComponents H) (fun h' _ c => (∀ p ∈ c.gphi, Good l h' p.2) ∧ ∀ p ∈ c.hphi, Good l h' p.2.2) := by
  simp only [Node.stdComponents]
  split
  · refine (Spec.iter hn).bind fun h1 m1 es _ hn1 _ _ => ?_
    refine Spec.bind (Q := fun h' _ (g : List (Node F × Node F)) => ∀ p ∈ g, Good l h' p.2) ?_
      fun h2 m2 g _ hn2 _ hg2 => Spec.pure hn2 ⟨hg2, by simp⟩
    rename_i hx1 hx2 hx3
    clear hx1 hx2 hx3 hn he
    induction es generalizing h1 m1 with
    | nil => exact Spec.pure hn1 (by simp)
    | cons kv es ih =>
      simp only [M.mapL]
      refine Spec.bind (Q := fun h' _ (p : Node F × Node F) => Good l h' p.2) ?_ fun h2 m2 p _ hn2 _ hg2 => ?_
      · exact (spec_newConst (l := l) hn1).bind fun _ _ _ _ hn2 _ hk => Spec.pure hn2 hk.1
      · refine (ih h2 m2 hn2).bind fun h3 m3 r hle3 hn3 _ hg3 => Spec.pure hn3 ?_
        intro q hq
        rcases List.mem_cons.1 hq with rfl | hq
        · exact hg2.mono hle3
        · exact hg3 q hq
  · refine (Spec.iter hn).bind fun h1 m1 es hle1 hn1 _ _ => ?_
    refine (spec_derivatives hn1 (he.mono hle1)).bind fun h2 m2 ds hle2 hn2 _ hg2 => ?_
    exact (spec_hessLoop hn2 hg2).bind fun h3 m3 gh _ hn3 _ hg3 => Spec.pure hn3 hg3

end

/-! ### What a constraint becomes -/

/-- The five outcomes: a bound on `x`; a linear equality with the coefficients in the order `es`; the same with slack `s`; a
nonlinear equality; the same with slack `s`, function `f` and `m1` the derivative with respect to the slack. -/
inductive PKind (F : Type) where
  | bound (x : Node F)
  | linEq (es : List (Node F × F))
  | linIneq (es : List (Node F × F)) (s : Node F)
  | nlEq
  | nlIneq (s f m1 : Node F)

/-- What became of one constraint. -/
structure Piece (F : Type) where
  c : Constraint F
  exp : Node F
  comp : NodeComp F
  arow : Nat
  jrow : Nat
  kind : PKind F

namespace Piece

def isLin (p : Piece F) : Bool := match p.kind with | .linEq .. | .linIneq .. => true | _ => false
def isNl (p : Piece F) : Bool := match p.kind with | .nlEq | .nlIneq .. => true | _ => false
def slack (p : Piece F) : Option (Node F) := match p.kind with | .linIneq _ s | .nlIneq s _ _ => some s | _ => none

/-- Coefficients of the linear row. -/
def coefs (p : Piece F) : List (Node F × F) :=
  match p.kind with
  | .linEq es => es
  | .linIneq es s => es ++ [(s, negOne)]
  | _ => []

/-- Function of the nonlinear row. -/
def fn (p : Piece F) : Node F :=
  match p.kind with
  | .nlIneq _ f _ => f
  | _ => p.comp.phi

/-- Derivatives of the nonlinear row. -/
def jac (p : Piece F) : List (Node F × Node F) :=
  match p.kind with
  | .nlEq => p.comp.gphi
  | .nlIneq s _ m1 => p.comp.gphi ++ [(s, m1)]
  | _ => []

/-- Bounds, with the flag "upper". -/
def bnd (p : Piece F) : Option (Bool × Node F × F) :=
  match p.kind with
  | .bound x => some (decide (p.c.kind = .lessEqual), x, FloatOps.neg p.comp.prop.b)
  | .linIneq _ s | .nlIneq s _ _ => some (decide (p.c.kind = .lessEqual), s, zero)
  | _ => none

/-- Variables of the piece, slack included. -/
def propOut (p : Piece F) : Prop' F :=
  match p.slack with
  | some s => { p.comp.prop with a := insertN p.comp.prop.a s negOne }
  | none => p.comp.prop

def bounds (p : Piece F) (up : Bool) : List (Node F × F × Constraint F) :=
  match p.bnd with
  | some (d, x, v) => if d = up then [(x, v, p.c)] else []
  | none => []

def out (p : Piece F) : ConstrComp F where
  ca := if p.isLin then [p.c] else []
  cj := if p.isNl then [p.c] else []
  a := p.coefs.map fun e => (p.arow, e.1, e.2)
  b := if p.isLin then [FloatOps.neg p.comp.prop.b] else []
  f := if p.isNl then [p.fn] else []
  j := p.jac.map fun e => (p.jrow, e.1, e.2)
  h := if p.isNl then [p.comp.hphi] else []
  u := p.bounds true
  l := p.bounds false
  prop := [p.propOut]

/-- The facts about a piece created between the counters `n` and `m` with the cells `h` afterwards. -/
structure Ok (H : HashOrder) (l : Level) (h : Heap F) (n m : Nat) (p : Piece F) : Prop where
  exp : ∃ k, subN p.c.lhs p.c.rhs n = .ok (p.exp, k)
  comp : ∃ k k', p.exp.stdComponents H k = .ok (p.comp, k')
  goodExp : Good l h p.exp
  goodG : ∀ q ∈ p.comp.gphi, Good l h q.2
  goodH : ∀ q ∈ p.comp.hphi, Good l h q.2.2
  goodF : Good l h p.fn
  goodJ : ∀ q ∈ p.jac, Good l h q.2
  slack : ∀ s ∈ p.slack, Good l h s ∧ (∃ i str, s = .var i str .continuous ∧ n ≤ i ∧ i < m) 
  affine : p.comp.prop.affine = !p.isNl
  equal : p.c.kind = .equal ↔ p.bnd = none
  bound : ∀ x, p.kind = .bound x → ∃ v, p.comp.prop.a = [(x, v)] ∧ (v ==. one) = true
  notBound : (∀ x, p.kind ≠ .bound x) → p.c.boundVar p.comp.prop = none
  linEq : ∀ es, p.kind = .linEq es → es.Perm p.comp.prop.a
  linIneq : ∀ es s, p.kind = .linIneq es s → es.Perm p.comp.prop.a ∧ s.name = "_s_a" ++ toString p.arow ++ "_"
  nlIneq : ∀ s f m1, p.kind = .nlIneq s f m1 → s.name = "_s_j" ++ toString p.jrow ++ "_" ∧
    (∃ k k', subN p.comp.phi s k = .ok (f, k')) ∧ ∃ i, m1 = .const i negOne

theorem Ok.mono {H : HashOrder} {l : Level} {h h' : Heap F} {n m : Nat} {p : Piece F} (hp : p.Ok H l h n m) (hle : h.le h') :
    p.Ok H l h' n m :=
  { hp with
    goodExp := hp.goodExp.mono hle
    goodG := fun q hq => (hp.goodG q hq).mono hle
    goodH := fun q hq => (hp.goodH q hq).mono hle
    goodF := hp.goodF.mono hle
    goodJ := fun q hq => (hp.goodJ q hq).mono hle
    slack := fun s hs => ⟨((hp.slack s hs).1).mono hle, (hp.slack s hs).2⟩ }

end Piece

theorem spec_constr {H : HashOrder} {l : Level} {h : Heap F} {n : Nat} {c : Constraint F} {arow jrow : Nat} (hn : HInv h n)
    (h1 : Good l h c.lhs) (h2 : Good l h c.rhs) :
    Spec h n (c.stdComponents H arow jrow) (fun h' m r => ∃ p : Piece F, p.Ok H l h' n m ∧ p.c = c ∧ p.arow = arow ∧ p.jrow = jrow ∧
      r = (p.out, arow + p.isLin.toNat, jrow + p.isNl.toNat)) := by
  unfold Constraint.stdComponents
  intro r m hr
  rw [M.bind_ok] at hr
  obtain ⟨exp, k1, hexp, hr⟩ := hr
  obtain ⟨hp1, hle1, hn1, hm1, hg1⟩ := spec_subN hn h1 h2 exp k1 hexp
  rw [M.bind_ok] at hr
  obtain ⟨comp, k2, hcomp, hr⟩ := hr
  obtain ⟨hp2, hle2, hn2, hm2, hg2⟩ := spec_nodeComp hn1 hg1 comp k2 hcomp
  have hphi : comp.phi = exp := (stdComponents_prop hcomp).1
  have hge := hg1.mono hle2
  have hle := Heap.le_trans hle1 hle2
  cases hb : c.boundVar comp.prop with
  | some x =>
    simp only [hb] at hr
    have hb' : ∃ v, comp.prop.a = [(x, v)] ∧ (v ==. one) = true ∧ comp.prop.affine = true ∧ c.kind ≠ .equal := by
      unfold Constraint.boundVar at hb
      split at hb
      · rename_i y v hy
        split at hb
        · rename_i hc
          simp only [Bool.and_eq_true, bne_iff_ne, ne_eq] at hc
          injection hb with hb
          subst hb
          exact ⟨v, hy, hc.1.2, hc.1.1, hc.2⟩
        · cases hb
      · cases hb
    obtain ⟨v, e1, e2, e3, e4⟩ := hb'
    let p : Piece F := ⟨c, exp, comp, arow, jrow, .bound x⟩
    have hok : p.Ok H l hp2 n k2 :=
      { exp := ⟨k1, hexp⟩, comp := ⟨k1, k2, hcomp⟩, goodExp := hge, goodG := hg2.1, goodH := hg2.2
        goodF := by simp only [Piece.fn, p]; rw [hphi]; exact hge
        goodJ := by simp [Piece.jac, p], slack := by simp [Piece.slack, p], affine := by simp [Piece.isNl, p, e3]
        equal := by simp [Piece.bnd, p, e4]
        bound := by
          intro y hy
          simp only [p, PKind.bound.injEq] at hy
          subst hy
          exact ⟨v, e1, e2⟩
        notBound := fun hh => absurd rfl (hh x)
        linEq := by simp [p], linIneq := by simp [p], nlIneq := by simp [p] }
    refine ⟨hp2, hle, ?_, ?_, p, ?_, rfl, rfl, rfl, ?_⟩
    all_goals
      cases hk : c.kind <;> simp only [hk, M.pure_ok] at hr <;> obtain ⟨rfl, rfl⟩ := hr
      · exact absurd hk e4
    any_goals exact hn2
    any_goals omega
    any_goals (first | exact hok | skip)
    all_goals simp [Piece.out, Piece.isLin, Piece.isNl, Piece.coefs, Piece.jac, Piece.bounds, Piece.bnd, Piece.propOut,
      Piece.slack, p, hk, ConstrComp.empty]
  | none =>
    simp only [hb] at hr
    by_cases ha : comp.prop.affine = true
    · rw [if_pos ha] at hr
      by_cases hk : c.kind = .equal
      · simp only [hk, M.bind_ok, M.pure_ok] at hr
        obtain ⟨es, k3, hes, rfl, rfl⟩ := hr
        have hperm := HashOrder.iter_perm hes
        rw [HashOrder.iter_ok] at hes
        let p : Piece F := ⟨c, exp, comp, arow, jrow, .linEq es⟩
        refine ⟨hp2, hle, fun i hi => hn2 i (by omega), by omega, p, ?_, rfl, rfl, rfl, ?_⟩
        · exact
            { exp := ⟨k1, hexp⟩, comp := ⟨k1, k2, hcomp⟩, goodExp := hge, goodG := hg2.1, goodH := hg2.2
              goodF := by simp only [Piece.fn, p]; rw [hphi]; exact hge
              goodJ := by simp [Piece.jac, p], slack := by simp [Piece.slack, p], affine := by simp [Piece.isNl, p, ha]
              equal := by simp [Piece.bnd, p, hk]
              bound := by simp [p]
              notBound := fun _ => hb
              linEq := by
                intro es' he
                simp only [p, PKind.linEq.injEq] at he
                subst he
                exact hperm
              linIneq := by simp [p], nlIneq := by simp [p] }
        · simp [Piece.out, Piece.isLin, Piece.isNl, Piece.coefs, Piece.jac, Piece.bounds, Piece.bnd, Piece.propOut,
            Piece.slack, p, ConstrComp.empty]
      · have hr' : M.bind (newVar ("_s_a" ++ toString arow ++ "_") .continuous) (fun s =>
            M.bind (H.iter comp.prop.a) fun es =>
            M.pure ({ (ConstrComp.empty : ConstrComp F) with
              a := es.map (fun e => (arow, e.1, e.2)) ++ [(arow, s, negOne)]
              b := [FloatOps.neg comp.prop.b]
              ca := [c]
              u := if c.kind = .lessEqual then [(s, zero, c)] else []
              l := if c.kind = .lessEqual then [] else [(s, zero, c)]
              prop := [{ comp.prop with a := insertN comp.prop.a s negOne }] }, arow + 1, jrow)) k2 = .ok (r, m) := by
          cases hk' : c.kind
          · exact absurd hk' hk
          all_goals (simp only [hk'] at hr ⊢; exact hr)
        rw [M.bind_ok] at hr'
        obtain ⟨s, k3, hs, hr'⟩ := hr'
        obtain ⟨hp3, hle3, hn3, hm3, hg3, hs3, hk3⟩ := spec_newVar (l := l) hn2 s k3 hs
        simp only [M.bind_ok, M.pure_ok] at hr'
        obtain ⟨es, k4, hes, rfl, rfl⟩ := hr'
        have hperm := HashOrder.iter_perm hes
        rw [HashOrder.iter_ok] at hes
        let p : Piece F := ⟨c, exp, comp, arow, jrow, .linIneq es s⟩
        refine ⟨hp3, Heap.le_trans hle hle3, fun i hi => hn3 i (by omega), by omega, p, ?_, rfl, rfl, rfl, ?_⟩
        · exact
            { exp := ⟨k1, hexp⟩, comp := ⟨k1, k2, hcomp⟩, goodExp := hge.mono hle3, goodG := fun q hq => (hg2.1 q hq).mono hle3
              goodH := fun q hq => (hg2.2 q hq).mono hle3
              goodF := by simp only [Piece.fn, p]; rw [hphi]; exact hge.mono hle3
              goodJ := by simp [Piece.jac, p]
              slack := by
                intro s' hs'
                simp only [Piece.slack, p, Option.mem_def, Option.some.injEq] at hs'
                subst hs'
                exact ⟨hg3, _, _, hs3, by omega, by omega⟩
              affine := by simp [Piece.isNl, p, ha]
              equal := by simp [Piece.bnd, p, hk]
              bound := by simp [p]
              notBound := fun _ => hb
              linEq := by simp [p]
              linIneq := by
                intro es' s' he
                simp only [p, PKind.linIneq.injEq] at he
                obtain ⟨rfl, rfl⟩ := he
                refine ⟨hperm, ?_⟩
                rw [hs3]; rfl
              nlIneq := by simp [p] }
        · simp [Piece.out, Piece.isLin, Piece.isNl, Piece.coefs, Piece.jac, Piece.bounds, Piece.bnd, Piece.propOut,
            Piece.slack, p, ConstrComp.empty]
    · rw [if_neg ha] at hr
      by_cases hk : c.kind = .equal
      · simp only [hk, M.pure_ok] at hr
        obtain ⟨rfl, rfl⟩ := hr
        let p : Piece F := ⟨c, exp, comp, arow, jrow, .nlEq⟩
        refine ⟨hp2, hle, hn2, by omega, p, ?_, rfl, rfl, rfl, ?_⟩
        · exact
            { exp := ⟨k1, hexp⟩, comp := ⟨k1, m, hcomp⟩, goodExp := hge, goodG := hg2.1, goodH := hg2.2
              goodF := by simp only [Piece.fn, p]; rw [hphi]; exact hge
              goodJ := hg2.1, slack := by simp [Piece.slack, p], affine := by simp [Piece.isNl, p, ha]
              equal := by simp [Piece.bnd, p, hk]
              bound := by simp [p]
              notBound := fun _ => hb
              linEq := by simp [p]
              linIneq := by simp [p], nlIneq := by simp [p] }
        · simp [Piece.out, Piece.isLin, Piece.isNl, Piece.coefs, Piece.jac, Piece.bounds, Piece.bnd, Piece.propOut,
            Piece.slack, Piece.fn, p, ConstrComp.empty]
      · have hr' : M.bind (newVar ("_s_j" ++ toString jrow ++ "_") .continuous) (fun s =>
            M.bind (subN comp.phi s) fun f =>
            M.bind (newConst negOne) fun m1 =>
            M.pure ({ (ConstrComp.empty : ConstrComp F) with
              h := [comp.hphi]
              f := [f]
              cj := [c]
              j := comp.gphi.map (fun e => (jrow, e.1, e.2)) ++ [(jrow, s, m1)]
              u := if c.kind = .lessEqual then [(s, zero, c)] else []
              l := if c.kind = .lessEqual then [] else [(s, zero, c)]
              prop := [{ comp.prop with a := insertN comp.prop.a s negOne }] }, arow, jrow + 1)) k2 = .ok (r, m) := by
          cases hk' : c.kind
          · exact absurd hk' hk
          all_goals (simp only [hk'] at hr ⊢; exact hr)
        rw [M.bind_ok] at hr'
        obtain ⟨s, k3, hs, hr'⟩ := hr'
        obtain ⟨hp3, hle3, hn3, hm3, hg3, hs3, hk3⟩ := spec_newVar (l := l) hn2 s k3 hs
        rw [M.bind_ok] at hr'
        obtain ⟨f, k4, hf, hr'⟩ := hr'
        obtain ⟨hp4, hle4, hn4, hm4, hg4⟩ := spec_subN hn3 (by rw [hphi]; exact hge.mono hle3) hg3 f k4 hf
        rw [M.bind_ok] at hr'
        obtain ⟨m1, k5, hm1', hr'⟩ := hr'
        obtain ⟨hp5, hle5, hn5, hm5, hg5, he5, -⟩ := spec_newConst (l := l) hn4 m1 k5 hm1'
        simp only [M.pure_ok] at hr'
        obtain ⟨rfl, rfl⟩ := hr'
        have hle35 := Heap.le_trans hle3 (Heap.le_trans hle4 hle5)
        let p : Piece F := ⟨c, exp, comp, arow, jrow, .nlIneq s f m1⟩
        refine ⟨hp5, Heap.le_trans hle hle35, hn5, by omega, p, ?_, rfl, rfl, rfl, ?_⟩
        · exact
            { exp := ⟨k1, hexp⟩, comp := ⟨k1, k2, hcomp⟩, goodExp := hge.mono hle35
              goodG := fun q hq => (hg2.1 q hq).mono hle35
              goodH := fun q hq => (hg2.2 q hq).mono hle35
              goodF := hg4.mono hle5
              goodJ := by
                intro q hq
                simp only [Piece.jac, p, List.mem_append, List.mem_singleton] at hq
                rcases hq with hq | rfl
                · exact (hg2.1 q hq).mono hle35
                · exact hg5
              slack := by
                intro s' hs'
                simp only [Piece.slack, p, Option.mem_def, Option.some.injEq] at hs'
                subst hs'
                exact ⟨(hg3.mono hle4).mono hle5, _, _, hs3, by omega, by omega⟩
              affine := by simp [Piece.isNl, p, ha]
              equal := by simp [Piece.bnd, p, hk]
              bound := by simp [p]
              notBound := fun _ => hb
              linEq := by simp [p]
              linIneq := by simp [p]
              nlIneq := by
                intro s' f' m' he
                simp only [p, PKind.nlIneq.injEq] at he
                obtain ⟨rfl, rfl, rfl⟩ := he
                exact ⟨by rw [hs3]; rfl, ⟨_, _, hf⟩, _, he5⟩ }
        · simp [Piece.out, Piece.isLin, Piece.isNl, Piece.coefs, Piece.jac, Piece.bounds, Piece.bnd, Piece.propOut,
            Piece.slack, Piece.fn, p, ConstrComp.empty]

end Verif
