import Verif.Proofs.Std
import Verif.Proofs.Panics
import Verif.Spec.Affine
import Verif.Proofs.Calc

/-! # Lemmas about affine expressions -/

set_option linter.unusedSectionVars false
set_option linter.unusedSimpArgs false

namespace Verif

/-! ### Results of a computation -/

/-- Every normal result satisfies `P`. -/
def Post {α : Type} (x : M α) (P : α → Prop) : Prop := ∀ n a m, x n = .ok (a, m) → P a

theorem Post.pure {α : Type} {a : α} {P : α → Prop} (h : P a) : Post (M.pure a) P := by
  intro n b m hb; rw [M.pure_ok] at hb; rw [hb.1]; exact h

theorem Post.bind {α β : Type} {x : M α} {f : α → M β} {P : α → Prop} {Q : β → Prop} (hx : Post x P)
    (hf : ∀ a, P a → Post (f a) Q) : Post (M.bind x f) Q := by
  intro n b m hb
  rw [M.bind_ok] at hb
  obtain ⟨a, k, ha, hb⟩ := hb
  exact hf a (hx n a k ha) k b m hb

theorem Post.ite {α : Type} {c : Prop} [Decidable c] {x y : M α} {P : α → Prop} (hx : c → Post x P) (hy : ¬ c → Post y P) :
    Post (if c then x else y) P := by
  split
  · exact hx ‹_›
  · exact hy ‹_›

theorem Post.panic {α : Type} {p : Panic} {P : α → Prop} : Post (M.panic p : M α) P := by
  intro n a m h; simp [M.panic_ok] at h

theorem Post.mapL {α β : Type} {f : α → M β} {as : List α} {P : β → Prop} (h : ∀ a ∈ as, Post (f a) P) :
    Post (M.mapL f as) (fun bs => ∀ b ∈ bs, P b) := by
  induction as with
  | nil => exact .pure (by simp)
  | cons a as ih =>
    refine (h a (by simp)).bind fun b hb => (ih fun a ha => h a (by simp [ha])).bind fun bs hbs => .pure ?_
    intro c hc
    rcases List.mem_cons.1 hc with rfl | hc
    · exact hb
    · exact hbs c hc

section
variable {F : Type} [FloatOps F]

/-- Reported affine. -/
abbrev Aff (e : Node F) : Prop := e.stdProperties.affine = true

theorem addProps_affine (acc : Prop' F) (args : List (Node F)) :
    (Node.stdProperties.addProps acc args).affine = true ↔ acc.affine = true ∧ ∀ a ∈ args, Aff a := by
  induction args generalizing acc with
  | nil => simp [Node.stdProperties.addProps]
  | cons a args ih =>
    simp only [Node.stdProperties.addProps]
    rw [ih]
    simp only [Bool.and_eq_true, List.mem_cons, forall_eq_or_imp]
    tauto

theorem aff_add {i : Nat} {args : List (Node F)} : Aff (.add i args) ↔ ∀ a ∈ args, Aff a := by
  simp only [Aff, Node.stdProperties, addProps_affine, true_and]

theorem aff_const (i : Nat) (v : F) : Aff (.const i v) := rfl
theorem aff_var (i : Nat) (s : String) (k : VarKind) : Aff (.var i s k : Node F) := rfl
theorem aff_const_mul {i j : Nat} {v : F} {a : Node F} (h : Aff a) : Aff (.mul i (.const j v) a) := by
  simp only [Aff, Node.stdProperties]; simp only [Aff] at h; simp [h]
theorem aff_mul_const {i j : Nat} {v : F} {a : Node F} (h : Aff a) : Aff (.mul i a (.const j v)) := by
  simp only [Aff, Node.stdProperties]; simp only [Aff] at h; simp [h]
theorem aff_div_const {i j : Nat} {v : F} {a : Node F} (h : Aff a) : Aff (.div i a (.const j v)) := by
  simp only [Aff, Node.stdProperties]; simp only [Aff] at h; simp [h]

theorem post_newConst (v : F) : Post (newConst v) (fun e => Aff e ∧ ∃ i, e = .const i v) := by
  intro n a m h; rw [newConst_ok] at h; rw [h.1]; exact ⟨rfl, n, rfl⟩
theorem post_const_aff (v : F) : Post (newConst v) Aff := fun n a m h => (post_newConst v n a m h).1
theorem post_newAdd {args : List (Node F)} (h : ∀ a ∈ args, Aff a) : Post (newAdd args) Aff := by
  intro n e m he; rw [newAdd_ok] at he; rw [he.2.1]; exact aff_add.2 h

theorem aff_sMul (c : F) (a : Node F) : Aff a → Post (sMul c a) Aff := by
  induction a using Node.ind_args with
  | step a ih =>
    intro h
    rw [sMul_unfold]
    refine .ite (fun _ => ?_) fun _ => .ite (fun _ => .pure h) fun _ => .ite (fun _ => post_const_aff c) fun _ => ?_
    · split <;> exact post_const_aff _
    · split
      · rename_i i args
        exact (Post.mapL fun x hx => ih x (by simpa [Node.arguments] using hx) (aff_add.1 h x hx)).bind fun bs hbs => post_newAdd hbs
      · refine (post_newConst c).bind ?_
        rintro k ⟨-, i, rfl⟩ n e m he
        simp only [newMul_eq, Except.ok.injEq, Prod.mk.injEq] at he
        rw [← he.1]; exact aff_const_mul h

theorem aff_mulS (c : F) (a : Node F) : Aff a → Post (mulS c a) Aff := by
  induction a using Node.ind_args with
  | step a ih =>
    intro h
    rw [mulS_unfold]
    refine .ite (fun _ => ?_) fun _ => .ite (fun _ => post_const_aff c) fun _ => .ite (fun _ => .pure h) fun _ => ?_
    · split <;> exact post_const_aff _
    · split
      · rename_i i args
        exact (Post.mapL fun x hx => ih x (by simpa [Node.arguments] using hx) (aff_add.1 h x hx)).bind fun bs hbs => post_newAdd hbs
      · refine (post_newConst c).bind ?_
        rintro k ⟨-, i, rfl⟩ n e m he
        simp only [newMul_eq, Except.ok.injEq, Prod.mk.injEq] at he
        rw [← he.1]; exact aff_mul_const h

theorem aff_constMul (i : Nat) (c : F) (a : Node F) : Aff a → Post (mulN (.const i c) a) Aff := by
  induction a using Node.ind_args with
  | step a ih =>
    intro h
    rw [mulN_unfold]
    refine .ite (fun _ => post_const_aff _) fun _ => .ite (fun _ => .pure h) fun _ => .ite (fun _ => .pure rfl) fun _ =>
      .ite (fun _ => post_const_aff _) fun _ => ?_
    cases a
    case add j args =>
      exact (Post.mapL fun x hx => ih x (by simpa [Node.arguments] using hx) (aff_add.1 h x hx)).bind fun bs hbs => post_newAdd hbs
    all_goals
      intro n e m he
      simp only [newMul_eq, Except.ok.injEq, Prod.mk.injEq] at he
      rw [← he.1]; exact aff_const_mul h

theorem aff_mulConst (i : Nat) (c : F) (a : Node F) : Aff a → Post (mulN a (.const i c)) Aff := by
  induction a using Node.ind_args with
  | step a ih =>
    intro h
    rw [mulN_unfold]
    refine .ite (fun _ => post_const_aff _) fun _ => .ite (fun _ => .pure rfl) fun _ => .ite (fun _ => .pure h) fun _ =>
      .ite (fun _ => post_const_aff _) fun _ => ?_
    cases a
    case add j args =>
      exact (Post.mapL fun x hx => ih x (by simpa [Node.arguments] using hx) (aff_add.1 h x hx)).bind fun bs hbs => post_newAdd hbs
    all_goals
      intro n e m he
      simp only [newMul_eq, Except.ok.injEq, Prod.mk.injEq] at he
      rw [← he.1]; exact aff_mul_const h

theorem aff_gatherArgs {acc : F × List (Node F)} {xs : List (Node F)} (h : ∀ a ∈ acc.2, Aff a) (hx : ∀ a ∈ xs, Aff a) :
    ∀ a ∈ (gatherArgs acc xs).2, Aff a := by
  rw [gatherArgs_terms]
  intro a ha
  simp only [List.mem_append, List.mem_filter] at ha
  rcases ha with ha | ha
  · exact h a ha
  · exact hx a ha.1

theorem aff_gather {acc : F × List (Node F)} {x : Node F} (h : ∀ a ∈ acc.2, Aff a) (hx : Aff x) :
    ∀ a ∈ (gather acc x).2, Aff a := by
  cases x
  case const => exact h
  case add i xs => exact aff_gatherArgs h (aff_add.1 hx)
  all_goals
    intro a ha
    simp only [gather, List.mem_append, List.mem_singleton] at ha
    rcases ha with ha | rfl
    · exact h a ha
    · exact hx

theorem aff_finishAdd {acc : F × List (Node F)} (h : ∀ a ∈ acc.2, Aff a) : Post (finishAdd acc) Aff := by
  unfold finishAdd
  refine .ite (fun _ => post_const_aff _) fun _ => .ite (fun _ => ?_) fun _ => post_newAdd h
  refine (post_const_aff _).bind fun k hk => post_newAdd ?_
  intro a ha
  simp only [List.mem_append, List.mem_singleton] at ha
  rcases ha with ha | rfl
  · exact h a ha
  · exact hk

theorem aff_addN {a b : Node F} (ha : Aff a) (hb : Aff b) : Post (addN a b) Aff :=
  .ite (fun _ => .pure hb) fun _ => .ite (fun _ => .pure ha) fun _ => aff_finishAdd (aff_gather (aff_gather (by simp) ha) hb)

theorem LinExpr.aff {e : Node F} (h : LinExpr e) : Aff e := by
  induction h with
  | const i v => rfl
  | var i s k => rfl
  | add _ _ he ih1 ih2 => exact aff_addN ih1 ih2 _ _ _ he
  | @addScalar a e c n m _ he ih =>
    exact (Post.ite (fun _ => .pure ih) fun _ => (post_const_aff _).bind fun k hk =>
      aff_finishAdd (aff_gather (aff_gather (by simp) ih) hk) : Post (addS a c) Aff) _ _ _ he
  | @scalarAdd a e c n m _ he ih =>
    exact (Post.ite (fun _ => .pure ih) fun _ => (post_const_aff _).bind fun k hk =>
      aff_finishAdd (aff_gather (aff_gather (by simp) hk) ih) : Post (sAdd c a) Aff) _ _ _ he
  | @sub a b e n m _ _ he ih1 ih2 =>
    exact ((aff_sMul _ _ ih2).bind fun x hx => aff_addN ih1 hx : Post (subN a b) Aff) _ _ _ he
  | @subScalar a e c n m _ he ih =>
    exact ((post_const_aff _).bind fun k hk => (aff_sMul _ _ hk).bind fun x hx => aff_addN ih hx : Post (subS a c) Aff) _ _ _ he
  | @scalarSub a e c n m _ he ih =>
    exact ((post_const_aff _).bind fun k hk => (aff_sMul _ _ ih).bind fun x hx => aff_addN hk hx : Post (sSub c a) Aff) _ _ _ he
  | @neg a e n m _ he ih =>
    rcases negN_cases a with ⟨i, v, rfl, heq⟩ | ⟨_, heq⟩ <;> rw [heq] at he
    · exact post_const_aff _ _ _ _ he
    · exact aff_sMul _ _ ih _ _ _ he
  | mulScalar _ he ih => exact aff_mulS _ _ ih _ _ _ he
  | scalarMul _ he ih => exact aff_sMul _ _ ih _ _ _ he
  | mulConst _ he ih => exact aff_mulConst _ _ _ ih _ _ _ he
  | constMul _ he ih => exact aff_constMul _ _ _ ih _ _ _ he
  | @divScalar a e c n m _ he ih =>
    refine (Post.ite (fun _ => .panic) fun _ => .ite (fun _ => .pure ih) fun _ => .ite (fun _ => post_const_aff _) fun _ =>
      .ite (fun _ => post_const_aff _) fun _ => (post_newConst _).bind ?_ : Post (divS a c) Aff) _ _ _ he
    rintro k ⟨-, i, rfl⟩ n e m he
    simp only [newDiv_eq, Except.ok.injEq, Prod.mk.injEq] at he
    rw [← he.1]; exact aff_div_const ih
  | @divConst a e i c n m _ he ih =>
    refine (Post.ite (fun _ => .panic) fun _ => .ite (fun _ => .pure ih) fun _ => .ite (fun _ => post_const_aff _) fun _ =>
      .ite (fun _ => post_const_aff _) fun _ => ?_ : Post (divN a (.const i c)) Aff) _ _ _ he
    intro n e m he
    simp only [newDiv_eq, Except.ok.injEq, Prod.mk.injEq] at he
    rw [← he.1]; exact aff_div_const ih

/-- An API-built expression without variables is a constant. -/
theorem Good.const_of_empty {hp : Heap F} {l : Level} (hl : l ≠ .raw) (e : Node F) (hg : Good l hp e)
    (hv : ∀ x, x.isVar = true → ¬ Occurs x e) : e.isConstant = true := by
  induction e using Node.ind_args with
  | step e ih =>
    have ih' : ∀ a ∈ e.arguments, a.isConstant = true := fun a ha => ih a ha (hg.arg ha) fun x hx ho => hv x hx (.arg ha ho)
    have hs := hg.shape
    cases e with
    | const i v => rfl
    | var i s k => exact absurd (.refl _) (hv _ rfl)
    | add i args =>
      obtain ⟨a, ha, hc⟩ := hs.2 hl
      rw [ih' a ha] at hc; cases hc
    | cos i a => have := hs hl; rw [ih' a (by simp [Node.arguments])] at this; cases this
    | sin i a => have := hs hl; rw [ih' a (by simp [Node.arguments])] at this; cases this
    | mul i a b => exact absurd ⟨ih' a (by simp [Node.arguments]), ih' b (by simp [Node.arguments])⟩ (hs hl)
    | div i a b => exact absurd ⟨ih' a (by simp [Node.arguments]), ih' b (by simp [Node.arguments])⟩ (hs.1 hl).1

theorem Good.empty_iff {hp : Heap F} {l : Level} (hl : l ≠ .raw) {e : Node F} (hg : Good l hp e) :
    e.stdProperties.a = [] ↔ e.isConstant = true := by
  constructor
  · intro h
    refine hg.const_of_empty hl e fun x hx ho => ?_
    obtain ⟨k, hk, _⟩ := (stdProperties_keys e).2.2 x hx ho
    simp [h] at hk
  · cases e <;> simp [Node.isConstant, Node.stdProperties]

theorem ptrEq_isVar_evaluate {x y : Node F} (h : x.ptrEq y = true) (hx : x.isVar = true) (σ : Env F) :
    x.evaluate σ = y.evaluate σ := by
  simp only [Node.ptrEq, Bool.and_eq_true, beq_iff_eq] at h
  cases x <;> simp [Node.isVar] at hx
  cases y <;> simp [Node.tag] at h
  rename_i i _ _ j _ _
  simp only [Node.id] at h
  subst h
  rfl

end

/-! ### Value of the affine form -/

section
variable {K : Type} [Field K] [LinearOrder K] [Trig K]

open Exact

/-- `Σ coefficient * value` -/
def lin (σ : Env (Option K)) (m : List (Node (Option K) × Option K)) : Option K :=
  osum (m.map fun p => p.2 *. p.1.evaluate σ)

theorem affineValue_eq (σ : Env (Option K)) (m : List (Node (Option K) × Option K)) (b : Option K) :
    affineValue σ m b = (lin σ m +. b) := by
  induction m with
  | nil => simp [affineValue, lin]
  | cons e m ih =>
    simp only [affineValue, lin, List.foldr_cons, List.map_cons, osum_cons] at ih ⊢
    rw [ih, oadd_assoc]

theorem lin_updAdd (σ : Env (Option K)) (m : List (Node (Option K) × Option K)) (hm : ∀ k ∈ keysN m, k.isVar = true)
    (k : Node (Option K)) (v : Option K) : lin σ (updN (· +. ·) m k v) = (lin σ m +. (v *. k.evaluate σ)) := by
  induction m with
  | nil => simp [updN, lin, oadd_comm]
  | cons e m ih =>
    obtain ⟨x, w⟩ := e
    simp only [updN]
    split
    · rename_i hx
      simp only [lin, List.map_cons, osum_cons]
      rw [oadd_mul, ptrEq_isVar_evaluate hx (hm x (by simp)), oadd_assoc, oadd_assoc]
      congr 1
      exact oadd_comm ..
    · have := ih fun k hk => hm k (by simp only [keysN, List.map_cons, List.mem_cons]; exact .inr hk)
      simp only [lin, List.map_cons, osum_cons] at this ⊢
      rw [this, oadd_assoc]

theorem lin_foldAdd (σ : Env (Option K)) (l : List (Node (Option K) × Option K)) : ∀ (m : List (Node (Option K) × Option K)),
    (∀ k ∈ keysN m, k.isVar = true) → (∀ k ∈ keysN l, k.isVar = true) →
    lin σ (foldUpd (· +. ·) m l) = (lin σ m +. lin σ l) := by
  induction l with
  | nil => intro m _ _; simp [foldUpd, lin]
  | cons e l ih =>
    intro m hm hl
    show lin σ (foldUpd _ (updN _ m e.1 e.2) l) = _
    rw [ih, lin_updAdd σ m hm]
    · simp only [lin, List.map_cons, osum_cons, oadd_assoc]
    · intro k hk
      rw [updN_keys] at hk
      rcases setInsert_mem hk with h | rfl
      · exact hm k h
      · exact hl _ (by simp)
    · exact fun k hk => hl k (by simp only [keysN, List.map_cons, List.mem_cons]; exact .inr hk)

theorem addProps_val (σ : Env (Option K)) (args : List (Node (Option K)))
    (hargs : ∀ a ∈ args, a.evaluate σ = (lin σ a.stdProperties.a +. a.stdProperties.b)) : ∀ (acc : Prop' (Option K)),
    (∀ k ∈ keysN acc.a, k.isVar = true) →
    (lin σ (Node.stdProperties.addProps acc args).a +. (Node.stdProperties.addProps acc args).b) =
      (lin σ acc.a +. acc.b +. osum (args.map (Node.evaluate σ))) := by
  induction args with
  | nil => intro acc _; simp [Node.stdProperties.addProps]
  | cons a args ih =>
    intro acc hacc
    simp only [Node.stdProperties.addProps]
    have ha := (stdProperties_keys a)
    rw [ih (fun b hb => hargs b (by simp [hb]))]
    · simp only [foldl_addToN]
      rw [lin_foldAdd σ _ _ hacc fun k hk => (ha.2.1 k hk).1]
      rw [List.map_cons, osum_cons, hargs a (by simp)]
      simp only [oadd_assoc, oadd_left_comm]
    · intro k hk
      rw [foldl_addToN, foldUpd_keys] at hk
      rcases foldl_setInsert_mem hk with h | h
      · exact hacc k h
      · exact (ha.2.1 k h).1

theorem lin_scale {t : Option K → Option K} (h1 : ∀ a b, t (a +. b) = (t a +. t b)) (h2 : ∀ a v, (t a *. v) = t (a *. v))
    (σ : Env (Option K)) {m : List (Node (Option K) × Option K)} (hm : m ≠ []) :
    lin σ (m.map fun e => (e.1, t e.2)) = t (lin σ m) := by
  induction m with
  | nil => exact absurd rfl hm
  | cons e m ih =>
    by_cases hm' : m = []
    · subst hm'
      simp [lin, h2]
    · have := ih hm'
      simp only [lin, List.map_cons, osum_cons, h1, h2] at this ⊢
      rw [this]

theorem odiv_add (a b c : Option K) : ((a +. b) /. c) = (a /. c +. b /. c) := by
  cases a <;> cases b <;> cases c <;> simp [div_some]
  split <;> simp [add_div]

theorem odiv_mul (a c v : Option K) : ((a /. c) *. v) = ((a *. v) /. c) := by
  cases a <;> cases v <;> cases c <;> simp [div_some]
  split <;> simp
  ring

theorem omul_right_comm (a c v : Option K) : ((a *. c) *. v) = ((a *. v) *. c) := by
  rw [omul_assoc, omul_assoc, omul_comm c v]

theorem const_props {e : Node (Option K)} (h : e.isConstant = true) (σ : Env (Option K)) :
    e.stdProperties.a = [] ∧ e.evaluate σ = e.stdProperties.b := by
  cases e <;> simp [Node.isConstant] at h
  exact ⟨rfl, rfl⟩

/-- An API-built expression that is reported affine has the value of the reported affine form. -/
theorem affine_val {hp : Heap (Option K)} {l : Level} (hl : l ≠ .raw) (σ : Env (Option K)) (e : Node (Option K)) (hg : Good l hp e) (ha : Aff e) :
    e.evaluate σ = (lin σ e.stdProperties.a +. e.stdProperties.b) := by
  induction e using Node.ind with
  | const i v => simp [Node.evaluate, Node.stdProperties, lin]
  | var i s k => simp [Node.stdProperties, lin]
  | add i args ih =>
    rw [evaluate_add]
    have := addProps_val σ args (fun a h => ih a h (hg.arg (by simpa [Node.arguments] using h)) (aff_add.1 ha a h)) ⟨true, [], zero⟩ (by simp)
    simp only [Node.stdProperties]
    rw [this]
    simp [lin]
  | cos i a _ => simp [Aff, Node.stdProperties] at ha
  | sin i a _ => simp [Aff, Node.stdProperties] at ha
  | div i a b iha _ =>
    simp only [Aff, Node.stdProperties, Bool.and_eq_true, List.isEmpty_iff] at ha
    have hga := hg.arg (a := a) (by simp [Node.arguments])
    have hgb := hg.arg (a := b) (by simp [Node.arguments])
    have hcb := (hgb.empty_iff hl).1 ha.2
    have hca : a.stdProperties.a ≠ [] := fun h => (hg.shape.1 hl).1 ⟨(hga.empty_iff hl).1 h, hcb⟩
    have hn := (stdProperties_keys a).1
    simp only [Node.evaluate, Node.stdProperties]
    rw [iha hga ha.1, (const_props hcb σ).2, ha.2, foldl_insertN (fun e => e.2 /. b.stdProperties.b)]
    rw [foldUpd_nil (by rw [keysN_map]; exact hn)]
    simp only [List.foldl_nil]
    rw [lin_scale (t := fun v => v /. b.stdProperties.b) (fun a c => odiv_add ..) (fun a c => odiv_mul ..) σ hca, odiv_add]
  | mul i a b iha ihb =>
    simp only [Aff, Node.stdProperties, Bool.and_eq_true, Bool.or_eq_true, List.isEmpty_iff] at ha
    have hga := hg.arg (a := a) (by simp [Node.arguments])
    have hgb := hg.arg (a := b) (by simp [Node.arguments])
    simp only [Node.evaluate, Node.stdProperties]
    rcases ha with ha | ha
    · have hcb := (hgb.empty_iff hl).1 ha.2
      have hca : a.stdProperties.a ≠ [] := fun h => (hg.shape hl) ⟨(hga.empty_iff hl).1 h, hcb⟩
      have hn := (stdProperties_keys a).1
      rw [iha hga ha.1, (const_props hcb σ).2, ha.2, foldl_insertN (fun e => e.2 *. b.stdProperties.b)]
      rw [foldUpd_nil (by rw [keysN_map]; exact hn)]
      simp only [List.foldl_nil]
      rw [lin_scale (t := fun v => v *. b.stdProperties.b) (fun a c => oadd_mul ..) (fun a c => omul_right_comm ..) σ hca, oadd_mul]
    · have hcb := (hga.empty_iff hl).1 ha.2
      have hca : b.stdProperties.a ≠ [] := fun h => (hg.shape hl) ⟨hcb, (hgb.empty_iff hl).1 h⟩
      have hn := (stdProperties_keys b).1
      rw [ihb hgb ha.1, (const_props hcb σ).2, ha.2]
      simp only [List.foldl_nil]
      rw [foldl_insertN (fun e => e.2 *. a.stdProperties.b), foldUpd_nil (by rw [keysN_map]; exact hn)]
      rw [lin_scale (t := fun v => v *. a.stdProperties.b) (fun a c => oadd_mul ..) (fun a c => omul_right_comm ..) σ hca, omul_add]
      rw [omul_comm a.stdProperties.b, omul_comm a.stdProperties.b]

end

end Verif
