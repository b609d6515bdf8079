import Verif.Proofs.Affine

/-! # Variables of the results of the operators -/

set_option linter.unusedSectionVars false
set_option linter.unusedSimpArgs false

namespace Verif

variable {F : Type}

theorem not_occurs_const {x : Node F} (hx : x.isVar = true) {i : Nat} {v : F} : ¬ Occurs x (.const i v) := by
  rw [occurs_iff]
  rintro (rfl | ⟨a, ha, -⟩)
  · simp [Node.isVar] at hx
  · simp [Node.arguments] at ha

theorem not_occurs_isConstant {x e : Node F} (hx : x.isVar = true) (he : e.isConstant = true) : ¬ Occurs x e := by
  cases e <;> simp [Node.isConstant] at he
  exact not_occurs_const hx

theorem occurs_var {x : Node F} {i : Nat} {s : String} {k : VarKind} : Occurs x (.var i s k) ↔ x = .var i s k := by
  rw [occurs_iff]; simp [Node.arguments]

theorem occurs_of_isVar {x e : Node F} (he : e.isVar = true) : Occurs x e ↔ x = e := by
  cases e <;> simp [Node.isVar] at he
  exact occurs_var

theorem occurs_add {x : Node F} (hx : x.isVar = true) {i : Nat} {args : List (Node F)} :
    Occurs x (.add i args) ↔ ∃ a ∈ args, Occurs x a := by
  rw [occurs_iff]
  constructor
  · rintro (rfl | h)
    · simp [Node.isVar] at hx
    · exact h
  · exact .inr

theorem occurs_mul {x : Node F} (hx : x.isVar = true) {i : Nat} {a b : Node F} :
    Occurs x (.mul i a b) ↔ Occurs x a ∨ Occurs x b := by
  rw [occurs_iff]
  constructor
  · rintro (rfl | ⟨c, hc, h⟩)
    · simp [Node.isVar] at hx
    · simp only [Node.arguments, List.mem_cons, List.not_mem_nil, or_false] at hc
      rcases hc with rfl | rfl
      · exact .inl h
      · exact .inr h
  · rintro (h | h)
    · exact .inr ⟨a, by simp [Node.arguments], h⟩
    · exact .inr ⟨b, by simp [Node.arguments], h⟩

theorem Post.mapL2 {α β : Type} {f : α → M β} {as : List α} {P : α → β → Prop} (h : ∀ a ∈ as, Post (f a) (P a)) :
    Post (M.mapL f as) (fun bs => List.Forall₂ P as bs) := by
  induction as with
  | nil => exact .pure .nil
  | cons a as ih =>
    exact (h a (by simp)).bind fun b hb => (ih fun a ha => h a (by simp [ha])).bind fun bs hbs => .pure (.cons hb hbs)

theorem forall₂_occ {x : Node F} {as bs : List (Node F)} {Q : Prop}
    (h : List.Forall₂ (fun a b => (Occurs x b → Occurs x a) ∧ (Q → Occurs x a → Occurs x b)) as bs) :
    ((∃ b ∈ bs, Occurs x b) → ∃ a ∈ as, Occurs x a) ∧ (Q → (∃ a ∈ as, Occurs x a) → ∃ b ∈ bs, Occurs x b) := by
  induction h with
  | nil => simp
  | cons h _ ih =>
    constructor
    · rintro ⟨b, hb, ho⟩
      rcases List.mem_cons.1 hb with rfl | hb
      · exact ⟨_, by simp, h.1 ho⟩
      · obtain ⟨a, ha, ho⟩ := ih.1 ⟨b, hb, ho⟩
        exact ⟨a, by simp [ha], ho⟩
    · rintro hq ⟨b, hb, ho⟩
      rcases List.mem_cons.1 hb with rfl | hb
      · exact ⟨_, by simp, h.2 hq ho⟩
      · obtain ⟨a, ha, ho⟩ := ih.2 hq ⟨b, hb, ho⟩
        exact ⟨a, by simp [ha], ho⟩

variable [FloatOps F]

theorem post_const {v : F} : Post (newConst v) (fun e => e.isConstant = true) := by
  intro n e m h; rw [newConst_ok] at h; rw [h.1]; rfl

theorem occ_sMul {x : Node F} (hx : x.isVar = true) (c : F) (a : Node F) :
    Post (sMul c a) (fun e => (Occurs x e → Occurs x a) ∧ ((c ==. zero) = false → Occurs x a → Occurs x e)) := by
  have hconst : ∀ {v : F}, ((c ==. zero) = true ∨ a.isConstant = true) →
      Post (newConst v) (fun e => (Occurs x e → Occurs x a) ∧ ((c ==. zero) = false → Occurs x a → Occurs x e)) := by
    intro v hc n e m h
    have := post_const n e m h
    refine ⟨fun ho => absurd ho (not_occurs_isConstant hx this), fun hz ho => ?_⟩
    rcases hc with hc | hc
    · rw [hc] at hz; cases hz
    · exact absurd ho (not_occurs_isConstant hx hc)
  have hself : Post (M.pure a) (fun e => (Occurs x e → Occurs x a) ∧ ((c ==. zero) = false → Occurs x a → Occurs x e)) :=
    .pure ⟨id, fun _ => id⟩
  have hmul : Post (M.bind (newConst c) fun k => newMul k a)
      (fun e => (Occurs x e → Occurs x a) ∧ ((c ==. zero) = false → Occurs x a → Occurs x e)) := by
    refine post_const.bind fun k hk n e m he => ?_
    simp only [newMul_eq, Except.ok.injEq, Prod.mk.injEq] at he
    rw [← he.1, occurs_mul hx]
    exact ⟨fun h => h.resolve_left (not_occurs_isConstant hx hk), fun _ h => .inr h⟩
  induction a using Node.ind_args with
  | step a ih =>
    cases a
    case const i v => exact hconst (.inr rfl)
    case add i args =>
      rw [sMul_unfold]
      simp only [Node.isConstVal, Node.isConstant, Bool.false_eq_true, if_false]
      refine .ite (fun h => hconst (.inl (by simpa using h))) fun _ => .ite (fun _ => hself) fun _ => ?_
      refine (Post.mapL2 (P := fun a b => (Occurs x b → Occurs x a) ∧ ((c ==. zero) = false → Occurs x a → Occurs x b)) fun y hy => ?_).bind
        fun bs hbs n e m he => ?_
      · refine ih y (by simpa [Node.arguments] using hy) ?_ (.pure ⟨id, fun _ => id⟩) ?_
        · intro v hc n e m h
          have := post_const n e m h
          refine ⟨fun ho => absurd ho (not_occurs_isConstant hx this), fun hz ho => ?_⟩
          rcases hc with hc | hc
          · rw [hc] at hz; cases hz
          · exact absurd ho (not_occurs_isConstant hx hc)
        · refine post_const.bind fun k hk n e m he => ?_
          simp only [newMul_eq, Except.ok.injEq, Prod.mk.injEq] at he
          rw [← he.1, occurs_mul hx]
          exact ⟨fun h => h.resolve_left (not_occurs_isConstant hx hk), fun _ h => .inr h⟩
      · rw [newAdd_ok] at he
        rw [he.2.1, occurs_add hx, occurs_add hx]
        exact forall₂_occ hbs
    all_goals
      simp only [sMul]
      exact .ite (fun h => hconst (.inl h)) fun _ => .ite (fun _ => hself) fun _ => hmul

theorem occ_negN {x : Node F} (hx : x.isVar = true) (a : Node F) :
    Post (negN a) (fun e => (Occurs x e → Occurs x a) ∧ ((negOne ==. (zero : F)) = false → Occurs x a → Occurs x e)) := by
  rcases negN_cases a with ⟨i, v, rfl, he⟩ | ⟨hc, he⟩ <;> rw [he]
  · intro n e m h
    have := post_const n e m h
    exact ⟨fun ho => absurd ho (not_occurs_isConstant hx this), fun _ ho => absurd ho (not_occurs_const hx)⟩
  · exact occ_sMul hx _ a

theorem occ_terms {x : Node F} (hx : x.isVar = true) (a : Node F) : (∃ b ∈ terms a, Occurs x b) ↔ Occurs x a := by
  cases a
  case const => simp [terms, not_occurs_const hx]
  case add i args =>
    rw [occurs_add hx]
    simp only [terms, List.mem_filter]
    constructor
    · rintro ⟨b, hb, ho⟩; exact ⟨b, hb.1, ho⟩
    · rintro ⟨b, hb, ho⟩
      refine ⟨b, ⟨hb, ?_⟩, ho⟩
      cases hc : b.isConstant
      · rfl
      · exact absurd ho (not_occurs_isConstant hx hc)
  all_goals simp [terms]

theorem occ_finishAdd {x : Node F} (hx : x.isVar = true) (acc : F × List (Node F)) :
    Post (finishAdd acc) (fun e => Occurs x e ↔ ∃ b ∈ acc.2, Occurs x b) := by
  unfold finishAdd
  refine .ite (fun h => ?_) fun _ => .ite (fun _ => ?_) fun _ => ?_
  · intro n e m he
    have := post_const n e m he
    simp only [List.isEmpty_iff] at h
    rw [h]
    simp [not_occurs_isConstant hx this]
  · refine post_const.bind fun k hk n e m he => ?_
    rw [newAdd_ok] at he
    rw [he.2.1, occurs_add hx]
    simp only [List.mem_append, List.mem_singleton]
    constructor
    · rintro ⟨b, hb | rfl, ho⟩
      · exact ⟨b, hb, ho⟩
      · exact absurd ho (not_occurs_isConstant hx hk)
    · rintro ⟨b, hb, ho⟩; exact ⟨b, .inl hb, ho⟩
  · intro n e m he
    rw [newAdd_ok] at he
    rw [he.2.1, occurs_add hx]

theorem occ_addN {x : Node F} (hx : x.isVar = true) (a b : Node F) :
    Post (addN a b) (fun e => Occurs x e ↔ Occurs x a ∨ Occurs x b) := by
  have hc : ∀ {d : Node F}, d.isConstVal zero = true → ¬ Occurs x d := by
    intro d hd
    refine not_occurs_isConstant hx ?_
    cases d <;> simp [Node.isConstVal] at hd ⊢
    rfl
  refine .ite (fun h => .pure ?_) fun _ => .ite (fun h => .pure ?_) fun _ => ?_
  · simp [hc h]
  · simp [hc h]
  · intro n e m he
    have h1 : Occurs x e ↔ _ := occ_finishAdd hx _ n e m he
    rw [h1]
    simp only [gather_terms, List.nil_append, List.mem_append]
    rw [← occ_terms hx a, ← occ_terms hx b]
    constructor
    · rintro ⟨b, hb | hb, ho⟩
      · exact .inl ⟨b, hb, ho⟩
      · exact .inr ⟨b, hb, ho⟩
    · rintro (⟨b, hb, ho⟩ | ⟨b, hb, ho⟩)
      · exact ⟨b, .inl hb, ho⟩
      · exact ⟨b, .inr hb, ho⟩

theorem occ_subN {x : Node F} (hx : x.isVar = true) (a b : Node F) :
    Post (subN a b) (fun e => (Occurs x e → Occurs x a ∨ Occurs x b) ∧
      ((negOne ==. (zero : F)) = false → Occurs x a ∨ Occurs x b → Occurs x e)) := by
  refine (occ_sMul hx _ b).bind fun nb hnb n e m he => ?_
  have h1 : Occurs x e ↔ _ := occ_addN hx a nb n e m he
  rw [h1]
  exact ⟨Or.imp id hnb.1, fun hz => Or.imp id (hnb.2 hz)⟩

end Verif
