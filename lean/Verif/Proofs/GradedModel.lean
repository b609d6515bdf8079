import Verif.Proofs.Graded
import Verif.Proofs.Pieces

/-! # Standard form of models with degrees -/

set_option linter.unusedSectionVars false
set_option linter.unusedSimpArgs false

namespace Verif

variable {F : Type} [FloatOps F]

theorem termsWith_addN {x : Node F} (hx : x.isVar = true) {P : Node F → Prop} {a b : Node F} (ha : TermsWith x P a) (hb : TermsWith x P b) :
    Post (addN a b) (TermsWith x P) := by
  have hts : ∀ {e : Node F}, ∀ t ∈ terms e, t ∈ summands e := by
    intro e t ht
    cases e <;> simp_all [terms, summands]
  have hall : ∀ t ∈ terms a ++ terms b, Occurs x t → P t := by
    intro t ht
    rcases List.mem_append.1 ht with ht | ht
    · exact ha t (hts t ht)
    · exact hb t (hts t ht)
  have hconst : ∀ {i : Nat} {v : F}, Occurs x (.const i v) → P (.const i v) := fun ho => absurd ho (not_occurs_const hx)
  intro n r m hr
  unfold addN at hr
  split at hr
  · rw [M.pure_ok] at hr; rw [hr.1]; exact hb
  · split at hr
    · rw [M.pure_ok] at hr; rw [hr.1]; exact ha
    · rw [gather_terms, gather_terms] at hr
      unfold finishAdd at hr
      simp only [List.nil_append] at hr
      split at hr
      · rw [newConst_ok] at hr
        rw [hr.1]
        intro t ht
        simp only [summands, List.mem_singleton] at ht
        subst ht; exact hconst
      · split at hr
        · rw [M.bind_ok_eq (newConst_eq _ _), newAdd_ok] at hr
          rw [hr.2.1]
          intro t ht
          rcases List.mem_append.1 ht with ht | ht
          · exact hall t ht
          · rw [List.mem_singleton.1 ht]; exact hconst
        · rw [newAdd_ok] at hr
          rw [hr.2.1]
          exact hall

section
variable {D : Type} [AddCommGroup D] {num : F → D → Prop} {var ng : D} {Valid Pos : D → Prop} (L : GradeLaws num var ng Valid Pos)
include L

theorem termsWith_sMul {x : Node F} (hx : x.isVar = true) {d : D} {a : Node F} (ha : TermsWith x (Graded num var d) a) :
    Post (sMul negOne a) (TermsWith x (Graded num var (ng + d))) := by
  have hone : ∀ t : Node F, (Occurs x t → Graded num var d t) → Post (sMul negOne t) (fun r => Occurs x r → Graded num var (ng + d) r) := by
    intro t ht n r m hr ho
    have ho' := (occ_sMul hx negOne t n r m hr).1 ho
    exact graded_sMul L (h := fun _ => none) t (ht ho') n r m hr
  have hsingle : ∀ {r : Node F}, (Occurs x r → Graded num var (ng + d) r) → TermsWith x (Graded num var (ng + d)) r := by
    intro r hr t ht ho
    have hor : Occurs x r := by
      cases r
      case add i args => exact .arg ht ho
      all_goals (simp only [summands, List.mem_singleton] at ht; subst ht; exact ho)
    exact graded_summands (hr hor) t ht
  cases a
  case add i args =>
    intro n r m hr
    simp only [sMul, L.negOne_ne, Bool.false_eq_true, if_false] at hr
    split at hr
    · rename_i h1
      rw [M.pure_ok] at hr
      rw [hr.1, L.unit L.negOne h1, zero_add]
      exact ha
    · rw [sMulL_eq_mapL, M.bind_ok] at hr
      obtain ⟨bs, k, hbs, hr⟩ := hr
      rw [newAdd_ok] at hr
      rw [hr.2.1]
      intro t ht
      exact Post.mapL (P := fun r => Occurs x r → Graded num var (ng + d) r) (fun a hm => hone a (ha a hm)) _ _ _ hbs t ht
  all_goals
    intro n r m hr
    exact hsingle (hone _ (ha _ (by simp [summands])) n r m hr)

end

/-- Each variable has a way to give degrees to both sides, so that the difference has one. -/
def EasyC (c : Constraint F) : Prop := (Aff c.lhs ∧ Aff c.rhs) ∨ ∀ x : Node F, x.isVar = true →
  ∃ (D : Type) (_ : AddCommGroup D) (num : F → D → Prop) (var ng : D) (Valid Pos : D → Prop) (d : D),
    GradeLaws num var ng Valid Pos ∧ TermsWith x (Graded num var (ng + d)) c.lhs ∧ TermsWith x (Graded num var d) c.rhs

theorem easy_negN {a : Node F} {x : Node F} (hx : x.isVar = true) (ha : Easy x a) : Post (negN a) (Easy x) := by
  obtain ⟨D, _, num, var, ng, Valid, Pos, d, L, h⟩ := ha
  have hs : Post (sMul negOne a) (Easy x) := fun n r m hr => ⟨D, _, num, var, ng, Valid, Pos, _, L, termsWith_sMul L hx h n r m hr⟩
  rcases negN_cases a with ⟨i, v, rfl, he⟩ | ⟨_, he⟩ <;> rw [he]
  · simpa only [sMul] using hs
  · exact hs

theorem easy_subN {c : Constraint F} (hc : EasyC c) : Post (subN c.lhs c.rhs) (fun e => Aff e ∨ ∀ x : Node F, x.isVar = true → Easy x e) := by
  rcases hc with ⟨hl, hr⟩ | hc
  · intro n e m he
    exact .inl (((aff_sMul _ _ hr).bind fun x hx => aff_addN hl hx : Post (subN c.lhs c.rhs) Aff) _ _ _ he)
  · intro n e m he
    refine .inr fun x hx => ?_
    obtain ⟨D, _, num, var, ng, Valid, Pos, d, L, h1, h2⟩ := hc x hx
    exact ⟨D, _, num, var, ng, Valid, Pos, _, L,
      ((termsWith_sMul L hx h2).bind fun nb hnb => termsWith_addN hx h1 hnb : Post (subN c.lhs c.rhs) _) n e m he⟩

section
variable (hneg : ((negOne : F) ==. zero) = false) (hlaw : ∀ v : F, (zero +. v ==. zero) = true → (v ==. zero) = true)
include hneg hlaw

theorem easy_constr {H : HashOrder} {c : Constraint F} {ar jr : Nat} {h : Heap F} {n : Nat} (hn : HInv h n) (hgl : Good .api h c.lhs)
    (hgr : Good .api h c.rhs) (hc : EasyC c) (ht : ¬ c.TermAgainstNumber) : ∃ r m, c.stdComponents H ar jr n = .ok (r, m) := by
  unfold Constraint.stdComponents
  cases hs : subN c.lhs c.rhs n with
  | error p => exact absurd (subN_error hneg hlaw hgl hgr hs).2 ht
  | ok r =>
    obtain ⟨e, k1⟩ := r
    obtain ⟨hp1, hle1, hn1, _, hg1⟩ := spec_subN hn hgl hgr e k1 hs
    obtain ⟨comp, k2, hcomp⟩ := easy_components (H := H) hn1 hg1 (easy_subN hc _ _ _ hs)
    obtain ⟨hp2, hle2, hn2, _, -⟩ := spec_nodeComp (l := .api) hn1 hg1 comp k2 hcomp
    rw [M.bind_ok_eq hs, M.bind_ok_eq hcomp]
    have hphi : comp.phi = e := (stdComponents_prop hcomp).1
    cases hb : c.boundVar comp.prop with
    | some x => cases hk : c.kind <;> simp only [hb, hk] <;> exact ⟨_, _, rfl⟩
    | none =>
      cases ha : comp.prop.affine
      · have hnl : ∀ (str : String) {α : Type} (f : Node F → Node F → Node F → α), ∃ r m,
            (M.bind (newVar str .continuous) fun s => M.bind (subN comp.phi s) fun g => M.bind (newConst negOne) fun m1 => M.pure (f s g m1)) k2 = .ok (r, m) := by
          intro str α f
          obtain ⟨hp3, hle3, hn3, _, hg3, -, -⟩ := spec_newVar (l := .api) (s := str) (k := .continuous) hn2 _ _ (newVar_eq str .continuous k2)
          have hge : Good .api hp3 e := (hg1.mono hle2).mono hle3
          rw [M.bind_ok_eq (newVar_eq str .continuous k2), hphi]
          cases hf : subN e (.var k2 str .continuous) (k2 + 1) with
          | error p =>
            rcases (subN_error hneg hlaw hge hg3 hf).2 with h | h
            · simp [Node.isConstant] at h
            · obtain ⟨i, args, t, h', -⟩ := h.1; cases h'
          | ok r =>
            obtain ⟨g, k4⟩ := r
            exact ⟨_, _, by rw [M.bind_ok_eq hf, M.bind_ok_eq (newConst_eq _ _)]; rfl⟩
        cases hk : c.kind <;> simp only [hb, hk, ha, Bool.false_eq_true, if_false]
        · exact ⟨_, _, rfl⟩
        · exact hnl _ _
        · exact hnl _ _
      · cases hk : c.kind <;> simp only [hb, hk, ha, if_true]
        · exact ((total_iter H _).bind fun _ _ _ _ => .pure _) _
        · exact ((total_newVar _ _).bind fun _ _ _ _ => (total_iter H _).bind fun _ _ _ _ => .pure _) _
        · exact ((total_newVar _ _).bind fun _ _ _ _ => (total_iter H _).bind fun _ _ _ _ => .pure _) _

theorem easy_constrLoop {H : HashOrder} {cs : List (Constraint F)} : ∀ {s : ConstrComp F × Nat × Nat} {h : Heap F} {n : Nat}, HInv h n →
    (∀ c ∈ cs, Good .api h c.lhs ∧ Good .api h c.rhs ∧ EasyC c ∧ ¬ c.TermAgainstNumber) → ∃ r m, constrLoop H s cs n = .ok (r, m) := by
  induction cs with
  | nil => intro s h n _ _; exact ⟨_, _, rfl⟩
  | cons c cs ih =>
    intro s h n hn hcs
    obtain ⟨h1, h2, h3, h4⟩ := hcs c (by simp)
    obtain ⟨r, k, hr⟩ := easy_constr hneg hlaw (H := H) (ar := s.2.1) (jr := s.2.2) hn h1 h2 h3 h4
    obtain ⟨hp, hle, hn', _, -⟩ := spec_constr hn h1 h2 r k hr
    simp only [constrLoop]
    rw [M.bind_ok_eq hr]
    exact ih hn' fun d hd => ⟨(hcs d (by simp [hd])).1.mono hle, (hcs d (by simp [hd])).2.1.mono hle, (hcs d (by simp [hd])).2.2⟩

/-- The standard components of a model with degrees. -/
theorem easy_model {H : HashOrder} {mod : Model F} {h : Heap F} {n : Nat} (hn : HInv h n) (hg : ModelGood .api h mod)
    (hobj : ∀ f, mod.objective = .minimize f ∨ mod.objective = .maximize f → Aff f ∨ ∀ x : Node F, x.isVar = true → Easy x f)
    (hcs : ∀ c ∈ mod.constraints, EasyC c ∧ ¬ c.TermAgainstNumber) : ∃ r m, mod.stdComponents H n = .ok (r, m) := by
  have ho : ∃ (obj : NodeComp F) (k : Nat) (h' : Heap F), mod.objComponents H n = .ok (obj, k) ∧ h.le h' ∧ HInv h' k := by
    unfold Model.objComponents
    cases hm : mod.objective with
    | minimize f =>
      obtain ⟨r, k, hr⟩ := easy_components (H := H) hn (hg.min f hm) (hobj f (.inl hm))
      obtain ⟨h', hle, hn', _, -⟩ := spec_nodeComp hn (hg.min f hm) r k hr
      exact ⟨r, k, h', hr, hle, hn'⟩
    | maximize f =>
      obtain ⟨e, k1, he⟩ := total_negN f (hg.max f hm).sumsOk n
      obtain ⟨h1, hle1, hn1, _, hg1⟩ := spec_negN hn (hg.max f hm) e k1 he
      have hee : Aff e ∨ ∀ x : Node F, x.isVar = true → Easy x e := by
        rcases hobj f (.inr hm) with hf | hf
        · left
          rcases negN_cases f with ⟨i, v, rfl, heq⟩ | ⟨_, heq⟩ <;> rw [heq] at he
          · exact post_const_aff _ _ _ _ he
          · exact aff_sMul _ _ hf _ _ _ he
        · exact .inr fun x hx => easy_negN hx (hf x hx) n e k1 he
      obtain ⟨r, k, hr⟩ := easy_components (H := H) hn1 hg1 hee
      obtain ⟨h', hle, hn', _, -⟩ := spec_nodeComp hn1 hg1 r k hr
      exact ⟨r, k, h', by simp only [hm]; rw [M.bind_ok_eq he, hr], Heap.le_trans hle1 hle, hn'⟩
    | empty =>
      obtain ⟨h1, hle1, hn1, _, hg1, -, -⟩ := spec_newConst (l := .api) (v := (zero : F)) hn _ _ (newConst_eq zero n)
      obtain ⟨r, k, hr⟩ := easy_components (H := H) hn1 hg1 (.inl rfl)
      obtain ⟨h', hle, hn', _, -⟩ := spec_nodeComp hn1 hg1 r k hr
      exact ⟨r, k, h', by simp only [hm]; rw [M.bind_ok_eq (newConst_eq zero n), hr], Heap.le_trans hle1 hle, hn'⟩
  obtain ⟨obj, k, h', h1, hle, hn'⟩ := ho
  obtain ⟨r, m, h2⟩ := easy_constrLoop hneg hlaw (H := H) (cs := mod.constraints) (s := (ConstrComp.empty, 0, 0)) hn' fun c hc =>
    ⟨(hg.cs c hc).1.mono hle, (hg.cs c hc).2.mono hle, hcs c hc⟩
  unfold Model.stdComponents
  exact ⟨_, _, by rw [M.bind_ok_eq h1, M.bind_ok_eq h2]; rfl⟩

end

end Verif
