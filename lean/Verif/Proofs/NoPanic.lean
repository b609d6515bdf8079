import Verif.Spec.NoPanic
import Verif.Proofs.Affine
import Verif.Proofs.WorldInv

/-! # When the standard form of a linear model panics -/

set_option linter.unusedSectionVars false
set_option linter.unusedSimpArgs false

namespace Verif

variable {F : Type} [FloatOps F]

theorem post_mapL₂ {α β : Type} {f : α → M β} {P : α → β → Prop} : ∀ {as : List α}, (∀ a ∈ as, Post (f a) (P a)) →
    Post (M.mapL f as) (fun bs => List.Forall₂ P as bs) := by
  intro as
  induction as with
  | nil => intro _; exact .pure .nil
  | cons a as ih =>
    intro h
    exact (h a (by simp)).bind fun b hb => (ih fun a ha => h a (by simp [ha])).bind fun bs hbs => .pure (.cons hb hbs)

theorem isConst_exists {a : Node F} (h : a.isConstant = true) : ∃ i v, a = .const i v := by
  cases a <;> simp_all [Node.isConstant]

/-- What scaling by -1 does to a term of a sum. -/
def NegTerm (a b : Node F) : Prop := b.isConstant = a.isConstant ∧ ∀ i v, a = .const i v → ∃ j, b = .const j (negOne *. v)

section
variable (hneg : ((negOne : F) ==. zero) = false)
include hneg

theorem post_sMul_neg (a : Node F) : Post (sMul negOne a) (fun r => NegTerm a r ∧ (∀ i args, r = .add i args → ∃ j args', a = .add j args') ∧
    ∀ i args, a = .add i args → (((negOne : F) ==. one) = true ∧ r = a) ∨ ∃ j bs, r = .add j bs ∧ List.Forall₂ NegTerm args bs) := by
  induction a using Node.ind with
  | const i v =>
    intro n r m h
    simp only [sMul, newConst_ok] at h
    obtain ⟨rfl, -⟩ := h
    exact ⟨⟨rfl, fun j w hw => by cases hw; exact ⟨_, rfl⟩⟩, fun _ _ h => (by cases h), fun _ _ h => (by cases h)⟩
  | add i args ih =>
    intro n r m h
    simp only [sMul, hneg, Bool.false_eq_true, if_false] at h
    split at h
    · rename_i h1
      rw [M.pure_ok] at h
      obtain ⟨rfl, -⟩ := h
      exact ⟨⟨rfl, fun _ _ h => by cases h⟩, fun i' args' h => ⟨_, _, rfl⟩, fun i' args' h => .inl ⟨h1, rfl⟩⟩
    · rw [sMulL_eq_mapL, M.bind_ok] at h
      obtain ⟨bs, k, hbs, h⟩ := h
      rw [newAdd_ok] at h
      obtain ⟨-, rfl, -⟩ := h
      refine ⟨⟨rfl, fun _ _ h => by cases h⟩, fun i' args' _ => ⟨_, _, rfl⟩, fun i' args' h => .inr ⟨_, _, rfl, ?_⟩⟩
      cases h
      exact post_mapL₂ (P := NegTerm) (fun a ha n b m h => (ih a ha n b m h).1) _ _ _ hbs
  | _ =>
    intro n r m h
    simp only [sMul, hneg, Bool.false_eq_true, if_false] at h
    split at h
    · rw [M.pure_ok] at h
      obtain ⟨rfl, -⟩ := h
      exact ⟨⟨rfl, fun _ _ h => by cases h⟩, fun _ _ h => (by cases h), fun _ _ h => (by cases h)⟩
    · rw [M.bind_ok] at h
      obtain ⟨_, _, _, h⟩ := h
      rw [newMul_eq] at h
      cases h
      exact ⟨⟨rfl, fun _ _ h => by cases h⟩, fun _ _ h => (by cases h), fun _ _ h => (by cases h)⟩

omit hneg in
theorem forall₂_terms {as bs : List (Node F)} (h : List.Forall₂ NegTerm as bs) :
    (bs.filter fun a => !a.isConstant).length = (as.filter fun a => !a.isConstant).length := by
  induction h with
  | nil => rfl
  | cons h1 _ ih =>
    simp only [List.filter_cons, h1.1]
    split <;> simp [ih]

theorem terms_neg {a r : Node F} {n m : Nat} (h : sMul negOne a n = .ok (r, m)) : (terms r).length = (terms a).length := by
  obtain ⟨h1, h2, h3⟩ := post_sMul_neg hneg a n r m h
  cases a
  case const i v =>
    obtain ⟨j, rfl⟩ := h1.2 i v rfl
    rfl
  case add i args =>
    rcases h3 i args rfl with ⟨-, rfl⟩ | ⟨j, bs, rfl, hf⟩
    · rfl
    · exact forall₂_terms hf
  all_goals
    have hc : r.isConstant = false := h1.1
    cases r
    case const => simp [Node.isConstant] at hc
    case add i args => obtain ⟨_, _, h⟩ := h2 _ _ rfl; cases h
    all_goals rfl

omit hneg in
theorem terms_ne {h : Heap F} {a : Node F} (hg : Good .api h a) (ha : a.isConstant = false) : terms a ≠ [] := by
  cases a <;> simp [terms, Node.isConstant] at ha ⊢
  have := hg.shape.2 (by simp)
  simpa [Node.isConstant] using this

omit hneg in
/-- The condition under which `a - b` panics. -/
theorem subN_error_iff {a b nb : Node F} {n k : Nat} {p : Panic} (h : sMul negOne b n = .ok (nb, k)) : subN a b n = .error p ↔
    a.isConstVal zero = false ∧ nb.isConstVal zero = false ∧ (terms a ++ terms nb).length = 1 ∧
      (addConsts (addConsts zero a) nb ==. zero) = true ∧ p = .addArgs := by
  unfold subN
  rw [M.bind_ok_eq h, addN_error]

theorem subN_error {h : Heap F} (hlaw : ∀ v : F, (zero +. v ==. zero) = true → (v ==. zero) = true) {a b : Node F} (hga : Good .api h a)
    (hgb : Good .api h b) {n : Nat} {p : Panic} (he : subN a b n = .error p) :
    p = .addArgs ∧ ((OneTerm a ∧ b.isConstant = true) ∨ (OneTerm b ∧ a.isConstant = true)) := by
  obtain ⟨nb, k, hs⟩ := total_sMul negOne b hgb.sumsOk n
  obtain ⟨h1, h2, h3, h4, rfl⟩ := (subN_error_iff hs).1 he
  refine ⟨rfl, ?_⟩
  have hl := terms_neg hneg hs
  obtain ⟨g1, g2, -⟩ := post_sMul_neg hneg b n nb k hs
  rw [List.length_append] at h3
  have hone : ∀ {e : Node F}, (terms e).length = 1 → (∀ i args, e ≠ .add i args) ∨ OneTerm e := by
    intro e he
    cases e
    case add i args =>
      right
      obtain ⟨t, ht⟩ := List.length_eq_one_iff.1 he
      exact ⟨i, args, t, rfl, ht⟩
    all_goals (left; intro _ _ h; cases h)
  by_cases ha0 : (terms a).length = 0
  · right
    have hac : a.isConstant = true := by
      by_contra hc
      exact terms_ne hga (by simpa using hc) (List.length_eq_zero_iff.1 ha0)
    refine ⟨?_, hac⟩
    have hb1 : (terms b).length = 1 := by omega
    rcases hone hb1 with hna | h
    · exfalso
      have hnb : ∀ i args, nb ≠ .add i args := fun i args h => by
        obtain ⟨j, as, hj⟩ := g2 i args h
        exact hna j as hj
      have hbc : b.isConstant = false := by cases b <;> simp_all [terms, Node.isConstant]
      have hadd : ∀ c : F, addConsts c nb = c := by
        intro c
        have := g1.1
        cases nb
        case add i args => exact absurd rfl (hnb i args)
        case const => rw [hbc] at this; simp [Node.isConstant] at this
        all_goals rfl
      rw [hadd] at h4
      obtain ⟨i, v, rfl⟩ := isConst_exists hac
      simp only [addConsts] at h4
      have := hlaw v h4
      simp only [Node.isConstVal] at h1
      rw [this] at h1; cases h1
    · exact h
  · left
    have hb0 : (terms b).length = 0 := by omega
    have hbc : b.isConstant = true := by
      by_contra hc
      exact terms_ne hgb (by simpa using hc) (List.length_eq_zero_iff.1 hb0)
    refine ⟨?_, hbc⟩
    have ha1 : (terms a).length = 1 := by omega
    rcases hone ha1 with hna | h
    · exfalso
      have hac : a.isConstant = false := by cases a <;> simp_all [terms, Node.isConstant]
      have hadd : ∀ c : F, addConsts c a = c := by
        intro c
        cases a
        case add i args => exact absurd rfl (hna i args)
        case const => simp [Node.isConstant] at hac
        all_goals rfl
      rw [hadd] at h4
      obtain ⟨i, v, rfl⟩ := isConst_exists hbc
      obtain ⟨j, rfl⟩ := g1.2 i v rfl
      simp only [addConsts] at h4
      have := hlaw _ h4
      simp only [Node.isConstVal] at h2
      rw [this] at h2; cases h2
    · exact h

end

/-! ### The loop over the constraints -/

theorem total_iter {α : Type} (H : HashOrder) (l : List α) : Total (H.iter l) := fun n => ⟨_, _, HashOrder.iter_ok.2 ⟨rfl, rfl⟩⟩

theorem total_newVar (s : String) (k : VarKind) : Total (newVar s k : M (Node F)) := fun n => ⟨_, _, newVar_eq s k n⟩

theorem total_affComponents (H : HashOrder) {e : Node F} (he : Aff e) : Total (e.stdComponents H) := by
  unfold Node.stdComponents
  simp only [he, if_true]
  exact (total_iter H _).bind fun es _ _ _ => (total_mapL fun kv _ => (total_newConst _).bind fun _ _ _ _ => .pure _).bind fun _ _ _ _ => .pure _

theorem affComponents_prop {H : HashOrder} {e : Node F} (he : Aff e) {n m : Nat} {comp : NodeComp F} (h : e.stdComponents H n = .ok (comp, m)) :
    comp.prop = e.stdProperties := by
  unfold Node.stdComponents at h
  simp only [he, if_true, M.bind_ok, M.pure_ok] at h
  obtain ⟨_, _, _, _, _, _, rfl, _⟩ := h
  rfl

/-- The rest of the standard form of an affine constraint does not panic. -/
theorem constr_error_iff {H : HashOrder} {c : Constraint F} (hl : Aff c.lhs) (hr : Aff c.rhs) {ar jr n : Nat} {p : Panic} :
    c.stdComponents H ar jr n = .error p ↔ subN c.lhs c.rhs n = .error p := by
  unfold Constraint.stdComponents
  rw [M.bind_error]
  constructor
  · rintro (h | ⟨e, k, hs, h⟩)
    · exact h
    · exfalso
      have hea : Aff e := ((aff_sMul _ _ hr).bind fun x hx => aff_addN hl hx : Post (subN c.lhs c.rhs) Aff) _ _ _ hs
      rw [M.bind_error] at h
      rcases h with h | ⟨comp, k2, hcomp, h⟩
      · obtain ⟨_, _, h'⟩ := total_affComponents H hea k
        rw [h'] at h; cases h
      · have hp := affComponents_prop hea hcomp
        have ha : comp.prop.affine = true := by rw [hp]; exact hea
        have no : ∀ {α : Type} {x : M α} {n : Nat}, Total x → x n ≠ .error p := by
          intro α x n hx h
          obtain ⟨_, _, h'⟩ := hx n
          rw [h'] at h; cases h
        cases hb : c.boundVar comp.prop with
        | some x => cases hk : c.kind <;> simp [hb, hk, M.pure] at h
        | none =>
          cases hk : c.kind <;> simp only [hb, hk, ha, if_true] at h
          · exact no ((total_iter H _).bind fun _ _ _ _ => .pure _) h
          · exact no ((total_newVar _ _).bind fun _ _ _ _ => (total_iter H _).bind fun _ _ _ _ => .pure _) h
          · exact no ((total_newVar _ _).bind fun _ _ _ _ => (total_iter H _).bind fun _ _ _ _ => .pure _) h
  · intro h; exact .inl h

theorem constrLoop_error {H : HashOrder} {cs : List (Constraint F)} (hcs : ∀ c ∈ cs, Aff c.lhs ∧ Aff c.rhs) :
    ∀ {s : ConstrComp F × Nat × Nat} {n : Nat} {p : Panic}, constrLoop H s cs n = .error p → ∃ c ∈ cs, ∃ n', subN c.lhs c.rhs n' = .error p := by
  induction cs with
  | nil => intro s n p h; simp [constrLoop, M.pure] at h
  | cons c cs ih =>
    intro s n p h
    simp only [constrLoop] at h
    rw [M.bind_error] at h
    rcases h with h | ⟨r, k, -, h⟩
    · exact ⟨c, by simp, n, (constr_error_iff (hcs c (by simp)).1 (hcs c (by simp)).2).1 h⟩
    · obtain ⟨c', hc', h'⟩ := ih (fun c hc => hcs c (by simp [hc])) h
      exact ⟨c', by simp [hc'], h'⟩

theorem constrLoop_panics {H : HashOrder} {cs : List (Constraint F)} (hcs : ∀ c ∈ cs, Aff c.lhs ∧ Aff c.rhs) {c : Constraint F} (hc : c ∈ cs)
    (he : ∀ n, ∃ p, subN c.lhs c.rhs n = .error p) : ∀ {s : ConstrComp F × Nat × Nat} {n : Nat}, ∃ p, constrLoop H s cs n = .error p := by
  induction cs with
  | nil => simp at hc
  | cons d cs ih =>
    intro s n
    simp only [constrLoop]
    cases hd : d.stdComponents H s.2.1 s.2.2 n with
    | error p => exact ⟨p, M.bind_error.2 (.inl hd)⟩
    | ok r =>
      obtain ⟨r, k⟩ := r
      rcases List.mem_cons.1 hc with rfl | hc
      · obtain ⟨p, hp⟩ := he n
        rw [(constr_error_iff (hcs c (by simp)).1 (hcs c (by simp)).2).2 hp] at hd; cases hd
      · obtain ⟨p, hp⟩ := ih (fun c hc => hcs c (by simp [hc])) hc (s := (s.1.append r.1, r.2.1, r.2.2)) (n := k)
        exact ⟨p, by rw [M.bind_ok_eq hd]; exact hp⟩

theorem total_objComponents {H : HashOrder} {mod : Model F} {l : Level} {h : Heap F} (hg : ModelGood l h mod) (ha : mod.AllAffine) : Total (mod.objComponents H) := by
  unfold Model.objComponents
  cases ho : mod.objective with
  | maximize f =>
    have hf : Aff f := ha.objective f (.inr ho)
    refine (total_negN f (hg.max f ho).sumsOk).bind fun e n m he => total_affComponents H ?_
    rcases negN_cases f with ⟨i, v, rfl, heq⟩ | ⟨_, heq⟩ <;> rw [heq] at he
    · exact post_const_aff _ _ _ _ he
    · exact aff_sMul _ _ hf _ _ _ he
  | minimize f => exact total_affComponents H (ha.objective f (.inl ho))
  | empty =>
    refine (total_newConst _).bind fun e n m he => total_affComponents H ?_
    exact post_const_aff _ _ _ _ he

/-- The standard components of a linear model panic exactly if some difference of the sides of a constraint does. -/
theorem components_error {H : HashOrder} {mod : Model F} {l : Level} {h : Heap F} (hg : ModelGood l h mod) (ha : mod.AllAffine) {n : Nat} {p : Panic}
    (he : mod.stdComponents H n = .error p) : ∃ c ∈ mod.constraints, ∃ n', subN c.lhs c.rhs n' = .error p := by
  unfold Model.stdComponents at he
  rw [M.bind_error] at he
  rcases he with he | ⟨obj, k, -, he⟩
  · obtain ⟨_, _, h'⟩ := total_objComponents (H := H) hg ha n
    rw [h'] at he; cases he
  · rw [M.bind_error] at he
    rcases he with he | ⟨_, _, _, he⟩
    · exact constrLoop_error ha.constraints he
    · simp [M.pure] at he

theorem components_panics {H : HashOrder} {mod : Model F} (ha : mod.AllAffine) {c : Constraint F} (hc : c ∈ mod.constraints)
    (he : ∀ n, ∃ p, subN c.lhs c.rhs n = .error p) (n : Nat) : ∃ p, mod.stdComponents H n = .error p := by
  unfold Model.stdComponents
  cases ho : mod.objComponents H n with
  | error p => exact ⟨p, M.bind_error.2 (.inl ho)⟩
  | ok r =>
    obtain ⟨obj, k⟩ := r
    obtain ⟨p, hp⟩ := constrLoop_panics (H := H) ha.constraints hc he (s := (ConstrComp.empty, 0, 0)) (n := k)
    exact ⟨p, by rw [M.bind_ok_eq ho, M.bind_error]; exact .inl hp⟩

end Verif
