import Verif.Spec.Graded
import Verif.Proofs.NoPanic
import Verif.Proofs.PathCount

/-! # Degrees of derivatives -/

set_option linter.unusedSectionVars false
set_option linter.unusedSimpArgs false

namespace Verif

variable {F : Type} [FloatOps F] {D : Type} [AddCommGroup D]

/-- What the degrees must satisfy: `ng` is the degree of -1, `Valid` are the degrees of expressions and `Pos` those of expressions that are not numbers. -/
structure GradeLaws (num : F → D → Prop) (var ng : D) (Valid Pos : D → Prop) : Prop where
  one : num one 0
  zero : ∀ {d}, Valid d → num zero d
  valid : ∀ {v d}, num v d → Valid d
  valid_add : ∀ {d e}, Valid d → Valid e → Valid (d + e)
  pos_valid : ∀ {d}, Pos d → Valid d
  pos_var : Pos var
  pos_add : ∀ {d e}, Pos d → Valid e → Pos (d + e)
  valid_sub : ∀ {d}, Pos d → Valid (d - var)
  add : ∀ {v w d}, num v d → num w d → num (v +. w) d
  cancel : ∀ {v w d}, Pos d → num v d → num w d → (v +. w ==. FloatOps.zero) = true → (v ==. FloatOps.zero) = true ∧ (w ==. FloatOps.zero) = true
  mul : ∀ {v w d e}, num v d → num w e → (v ==. FloatOps.zero) = false → (w ==. FloatOps.zero) = false → num (v *. w) (d + e)
  neg : ∀ {v d}, num v d → num (Verif.negOne *. v) (ng + d)
  negOne : num Verif.negOne ng
  negOne_ne : ((Verif.negOne : F) ==. FloatOps.zero) = false
  inv : ∀ {k d}, num k d → (k ==. FloatOps.zero) = false → num (FloatOps.one /. k) (-d)
  unit : ∀ {k d}, num k d → (k ==. FloatOps.one) = true → d = 0

section
variable {num : F → D → Prop} {var ng : D} {Valid Pos : D → Prop} (L : GradeLaws num var ng Valid Pos)
include L

theorem graded_valid {h : Heap F} {e : Node F} {d : D} (hd : Graded num var d e) : Good .api h e →
    Valid d ∧ (e.isConstant = false → Pos d) := by
  induction hd with
  | const hv => intro _; exact ⟨L.valid hv, by simp [Node.isConstant]⟩
  | var => intro _; exact ⟨L.pos_valid L.pos_var, fun _ => L.pos_var⟩
  | @add i args d ha ih =>
    intro hg
    have hne := terms_ne hg rfl
    obtain ⟨t, ht⟩ := List.exists_mem_of_ne_nil _ hne
    simp only [terms, List.mem_filter, Bool.not_eq_true'] at ht
    have := (ih t ht.1 (hg.arg ht.1)).2 ht.2
    exact ⟨L.pos_valid this, fun _ => this⟩
  | @mul i a b d e _ _ iha ihb =>
    intro hg
    have hga := iha (hg.arg (by simp [Node.arguments]))
    have hgb := ihb (hg.arg (by simp [Node.arguments]))
    have hs := hg.shape
    simp only [Shape] at hs
    have : Pos (d + e) := by
      cases hc : a.isConstant
      · exact L.pos_add (hga.2 hc) hgb.1
      · cases hc' : b.isConstant
        · rw [add_comm]; exact L.pos_add (hgb.2 hc') hga.1
        · simp_all
    exact ⟨L.pos_valid this, fun _ => this⟩
  | @div i j a k d e _ hk hk0 iha =>
    intro hg
    have hga := iha (hg.arg (by simp [Node.arguments]))
    have hs := hg.shape
    simp only [Shape] at hs
    have hc : a.isConstant = false := by
      cases hc : a.isConstant
      · rfl
      · simp_all [Node.isConstant]
    have : Pos (d - e) := by rw [sub_eq_add_neg]; exact L.pos_add (hga.2 hc) (L.valid (L.inv hk hk0))
    exact ⟨L.pos_valid this, fun _ => this⟩

/-! ### Products -/

theorem graded_sMul {h : Heap F} (a : Node F) : ∀ {d : D}, Graded num var d a → Post (sMul negOne a) (Graded num var (ng + d)) := by
  have gen : ∀ {a : Node F} {d : D}, Graded num var d a → Post (if (negOne : F) ==. zero then newConst zero else if (negOne : F) ==. one then M.pure a
      else M.bind (newConst negOne) fun k => newMul k a) (Graded num var (ng + d)) := by
    intro a d hd
    simp only [L.negOne_ne, Bool.false_eq_true, if_false]
    refine .ite (fun h1 => .pure ?_) fun _ => ?_
    · rw [L.unit L.negOne h1, zero_add]; exact hd
    · intro n r m hr
      rw [M.bind_ok_eq (newConst_eq _ _), newMul_eq] at hr
      cases hr
      exact .mul (.const L.negOne) hd
  induction a using Node.ind with
  | const i v =>
    intro d hd n r m hr
    rw [sMul, newConst_ok] at hr
    cases hd with
    | const hv => rw [hr.1]; exact .const (L.neg hv)
  | add i args ih =>
    intro d hd
    cases hd with
    | add ha =>
      simp only [sMul, L.negOne_ne, Bool.false_eq_true, if_false]
      refine .ite (fun h1 => .pure ?_) fun _ => ?_
      · rw [L.unit L.negOne h1, zero_add]; exact .add ha
      · rw [sMulL_eq_mapL]
        refine (Post.mapL fun a hm => ih a hm (ha a hm)).bind fun bs hbs n r m hr => ?_
        rw [newAdd_ok] at hr
        rw [hr.2.1]
        exact .add hbs
  | _ => intro d hd; simp only [sMul]; exact gen hd

theorem graded_negN {h : Heap F} {a : Node F} {d : D} (hd : Graded num var d a) : Post (negN a) (Graded num var (ng + d)) := by
  rcases negN_cases a with ⟨i, v, rfl, he⟩ | ⟨_, he⟩ <;> rw [he]
  · have := graded_sMul L (h := h) _ hd
    simpa only [sMul] using this
  · exact graded_sMul L (h := h) _ hd

theorem graded_mulCL {h : Heap F} {i : Nat} {c : F} {d : D} (hc : num c d) (b : Node F) : ∀ {e : D}, Good .api h b → Graded num var e b →
    Post (mulCL i c b) (Graded num var (d + e)) := by
  have hz : ∀ {b : Node F} {e : D}, Good .api h b → Graded num var e b → Post (newConst (zero : F)) (Graded num var (d + e)) := by
    intro b e hg hb n r m hr
    rw [newConst_ok] at hr
    rw [hr.1]
    exact .const (L.zero (L.valid_add (L.valid hc) (graded_valid L hb hg).1))
  induction b using Node.ind with
  | const j v =>
    intro e hg hb
    simp only [mulCL]
    refine .ite (fun _ => hz hg hb) fun h0 => .ite (fun h1 => .pure ?_) fun _ => .ite (fun h1 => .pure ?_) fun _ => ?_
    · rw [L.unit hc h1, zero_add]; exact hb
    · cases hb with
      | const hv => rw [L.unit hv h1, add_zero]; exact .const hc
    · cases hb with
      | const hv =>
        intro n r m hr
        rw [newConst_ok] at hr
        rw [hr.1]
        simp only [Bool.or_eq_true, not_or, Bool.not_eq_true] at h0
        exact .const (L.mul hc hv h0.1 h0.2)
  | add j args ih =>
    intro e hg hb
    simp only [mulCL]
    refine .ite (fun _ => hz hg hb) fun h0 => .ite (fun h1 => .pure ?_) fun _ => ?_
    · rw [L.unit hc h1, zero_add]; exact hb
    · cases hb with
      | add ha =>
        rw [mulCLL_eq_mapL]
        refine (Post.mapL fun a hm => ih a hm (hg.arg hm) (ha a hm)).bind fun bs hbs n r m hr => ?_
        rw [newAdd_ok] at hr
        rw [hr.2.1]
        exact .add hbs
  | _ =>
    intro e hg hb
    simp only [mulCL]
    refine .ite (fun _ => hz hg hb) fun h0 => .ite (fun h1 => .pure ?_) fun _ => ?_
    · rw [L.unit hc h1, zero_add]; exact hb
    · intro n r m hr
      rw [newMul_eq] at hr
      cases hr
      exact .mul (.const hc) hb

theorem graded_mulCR {h : Heap F} {i : Nat} {c : F} {d : D} (hc : num c d) (b : Node F) : ∀ {e : D}, Good .api h b → Graded num var e b →
    Post (mulCR i c b) (Graded num var (e + d)) := by
  have hz : ∀ {b : Node F} {e : D}, Good .api h b → Graded num var e b → Post (newConst (zero : F)) (Graded num var (e + d)) := by
    intro b e hg hb n r m hr
    rw [newConst_ok] at hr
    rw [hr.1]
    exact .const (L.zero (L.valid_add (graded_valid L hb hg).1 (L.valid hc)))
  induction b using Node.ind with
  | const j v =>
    intro e hg hb
    simp only [mulCR]
    refine .ite (fun _ => hz hg hb) fun h0 => .ite (fun h1 => .pure ?_) fun _ => .ite (fun h1 => .pure ?_) fun _ => ?_
    · cases hb with
      | const hv => rw [L.unit hv h1, zero_add]; exact .const hc
    · rw [L.unit hc h1, add_zero]; exact hb
    · cases hb with
      | const hv =>
        intro n r m hr
        rw [newConst_ok] at hr
        rw [hr.1]
        simp only [Bool.or_eq_true, not_or, Bool.not_eq_true] at h0
        exact .const (L.mul hv hc h0.1 h0.2)
  | add j args ih =>
    intro e hg hb
    simp only [mulCR]
    refine .ite (fun _ => hz hg hb) fun h0 => .ite (fun h1 => .pure ?_) fun _ => ?_
    · rw [L.unit hc h1, add_zero]; exact hb
    · cases hb with
      | add ha =>
        rw [mulCRL_eq_mapL]
        refine (Post.mapL fun a hm => ih a hm (hg.arg hm) (ha a hm)).bind fun bs hbs n r m hr => ?_
        rw [newAdd_ok] at hr
        rw [hr.2.1]
        exact .add hbs
  | _ =>
    intro e hg hb
    simp only [mulCR]
    refine .ite (fun _ => hz hg hb) fun h0 => .ite (fun h1 => .pure ?_) fun _ => ?_
    · rw [L.unit hc h1, add_zero]; exact hb
    · intro n r m hr
      rw [newMul_eq] at hr
      cases hr
      exact .mul hb (.const hc)

theorem graded_mulN {h : Heap F} {a b : Node F} {d e : D} (hga : Good .api h a) (hgb : Good .api h b) (ha : Graded num var d a)
    (hb : Graded num var e b) : Post (mulN a b) (Graded num var (d + e)) := by
  rcases mulN_cases a b with ⟨i, c, rfl, he⟩ | ⟨j, c, rfl, he⟩ | ⟨_, _, he⟩ <;> rw [he]
  · cases ha with
    | const hc => exact graded_mulCL L hc b hgb hb
  · cases hb with
    | const hc => exact graded_mulCR L hc a hga ha
  · intro n r m hr
    rw [newMul_eq] at hr
    cases hr
    exact .mul ha hb

/-! ### Sums -/

theorem graded_terms {a : Node F} {d : D} (ha : Graded num var d a) : ∀ t ∈ terms a, Graded num var d t ∧ t.isConstant = false := by
  intro t ht
  cases ha with
  | const => simp [terms] at ht
  | add h =>
    simp only [terms, List.mem_filter, Bool.not_eq_true'] at ht
    exact ⟨h t ht.1, ht.2⟩
  | var => simp only [terms, List.mem_singleton] at ht; subst ht; exact ⟨.var, rfl⟩
  | mul h1 h2 => simp only [terms, List.mem_singleton] at ht; subst ht; exact ⟨.mul h1 h2, rfl⟩
  | div h1 h2 h3 => simp only [terms, List.mem_singleton] at ht; subst ht; exact ⟨.div h1 h2 h3, rfl⟩

theorem graded_addConsts {a : Node F} {d : D} (ha : Graded num var d a) {c : F} (hc : num c d) : num (addConsts c a) d ∧
    (Pos d → (addConsts c a ==. zero) = true → (c ==. zero) = true) := by
  cases ha with
  | const hv => exact ⟨L.add hc hv, fun hp h => (L.cancel hp hc hv h).1⟩
  | @add i args _ h =>
    simp only [addConsts]
    induction args generalizing c with
    | nil => exact ⟨hc, fun _ h => h⟩
    | cons a as ih =>
      simp only [List.foldl_cons]
      have ha := h a (by simp)
      cases a
      case const j v =>
        cases ha with
        | const hv =>
          obtain ⟨h1, h2⟩ := ih (L.add hc hv) fun b hb => h b (by simp [hb])
          exact ⟨h1, fun hp h => (L.cancel hp hc hv (h2 hp h)).1⟩
      all_goals exact ih hc fun b hb => h b (by simp [hb])
  | var => exact ⟨hc, fun _ h => h⟩
  | mul => exact ⟨hc, fun _ h => h⟩
  | div => exact ⟨hc, fun _ h => h⟩

theorem graded_addN {h : Heap F} {a b : Node F} {d : D} (hga : Good .api h a) (hgb : Good .api h b) (ha : Graded num var d a)
    (hb : Graded num var d b) (n : Nat) : ∃ r m, addN a b n = .ok (r, m) ∧ Graded num var d r := by
  have hz : num zero d := L.zero (graded_valid L ha hga).1
  cases hr : addN a b n with
  | error p =>
    exfalso
    obtain ⟨h1, h2, h3, h4, -⟩ := addN_error.1 hr
    rw [List.length_append] at h3
    have hpos : Pos d := by
      have hne : terms a ++ terms b ≠ [] := by intro h; have := congrArg List.length h; rw [List.length_append] at this; simp only [List.length_nil] at this; omega
      obtain ⟨t, ht⟩ := List.exists_mem_of_ne_nil _ hne
      rcases List.mem_append.1 ht with ht' | ht'
      · have hc : a.isConstant = false := by cases a <;> simp_all [terms, Node.isConstant]
        exact (graded_valid L ha hga).2 hc
      · have hc : b.isConstant = false := by cases b <;> simp_all [terms, Node.isConstant]
        exact (graded_valid L hb hgb).2 hc
    obtain ⟨g1, g2⟩ := graded_addConsts L ha hz
    obtain ⟨g3, g4⟩ := graded_addConsts L hb g1
    by_cases hac : a.isConstant = true
    · obtain ⟨i, v, rfl⟩ := isConst_exists hac
      have := g4 hpos h4
      simp only [addConsts] at this
      cases ha with
      | const hv =>
        have := (L.cancel hpos hz hv this).2
        simp only [Node.isConstVal] at h1
        rw [this] at h1; cases h1
    · have hl := List.length_pos_iff.2 (terms_ne hga (by simpa using hac))
      have hbc : b.isConstant = true := by
        by_contra hc
        have := List.length_pos_iff.2 (terms_ne hgb (by simpa using hc))
        omega
      obtain ⟨i, v, rfl⟩ := isConst_exists hbc
      cases hb with
      | const hv =>
        have := (L.cancel hpos g1 hv h4).2
        simp only [Node.isConstVal] at h2
        rw [this] at h2; cases h2
  | ok r =>
    obtain ⟨r, m⟩ := r
    refine ⟨r, m, rfl, ?_⟩
    unfold addN at hr
    split at hr
    · rw [M.pure_ok] at hr; rw [hr.1]; exact hb
    · split at hr
      · rw [M.pure_ok] at hr; rw [hr.1]; exact ha
      · rw [gather_terms, gather_terms] at hr
        have hsum := (graded_addConsts L hb (graded_addConsts L ha hz).1).1
        have hts : ∀ t ∈ terms a ++ terms b, Graded num var d t := by
          intro t ht
          rcases List.mem_append.1 ht with ht | ht
          · exact (graded_terms L ha t ht).1
          · exact (graded_terms L hb t ht).1
        unfold finishAdd at hr
        simp only [List.nil_append] at hr
        split at hr
        · rw [newConst_ok] at hr; rw [hr.1]; exact .const hsum
        · split at hr
          · rw [M.bind_ok_eq (newConst_eq _ _), newAdd_ok] at hr
            rw [hr.2.1]
            refine .add fun t ht => ?_
            rcases List.mem_append.1 ht with ht | ht
            · exact hts t ht
            · rw [List.mem_singleton.1 ht]; exact .const hsum
          · rw [newAdd_ok] at hr
            rw [hr.2.1]
            exact .add hts

/-! ### Derivatives -/

/-- One step of a path: the factor has the degree that the step loses. -/
theorem graded_partialN {h : Heap F} {a b : Node F} {d : D} (hga : Good .api h a) (ha : Graded num var d a) (hb : b ∈ a.arguments)
    (hbc : b.isConstant = false) : ∃ e, Graded num var e b ∧ Post (partialN a b) (Graded num var (d - e)) := by
  cases ha with
  | const => simp [Node.arguments] at hb
  | var => simp [Node.arguments] at hb
  | @add i args _ ha =>
    refine ⟨d, ha b hb, ?_⟩
    intro n r m hr
    have : args.any (fun c => c.ptrEq b) = true := List.any_eq_true.2 ⟨b, hb, ptrEq_refl b⟩
    simp only [partialN, this, if_true, newConst_ok] at hr
    rw [hr.1, sub_self]
    exact .const L.one
  | @mul i a1 a2 d1 d2 h1 h2 =>
    simp only [Node.arguments, List.mem_cons, List.not_mem_nil, or_false] at hb
    rcases hb with rfl | rfl
    · refine ⟨d1, h1, ?_⟩
      simp only [partialN, ptrEq_refl, if_true]
      refine .pure ?_
      rw [add_sub_cancel_left]; exact h2
    · refine ⟨d2, h2, ?_⟩
      rw [add_sub_cancel_right]
      simp only [partialN, ptrEq_refl, if_true]
      refine .ite (fun he => .pure ?_) fun _ => .pure h1
      have := ((hga.arg (a := a1) (by simp [Node.arguments])).ptrEq_iff (hga.arg (a := b) (by simp [Node.arguments]))).1 he
      rw [← this]; exact h1
  | @div i j a1 k d1 e h1 h2 h3 =>
    simp only [Node.arguments, List.mem_cons, List.not_mem_nil, or_false] at hb
    rcases hb with rfl | rfl
    · refine ⟨d1, h1, ?_⟩
      have he : d1 - e - d1 = -e := by abel
      rw [he]
      intro n r m hr
      simp only [partialN, ptrEq_refl, if_true, sDiv, Node.isConstVal, h3, Bool.false_eq_true, if_false, Node.isConstant] at hr
      split at hr
      · rename_i h1'
        rw [newConst_ok] at hr
        rw [hr.1, L.unit h2 h1', neg_zero]
        exact .const L.one
      · split at hr
        · rw [newConst_ok] at hr
          rw [hr.1]
          exact .const (L.zero (L.valid (L.inv h2 h3)))
        · rw [newConst_ok] at hr
          rw [hr.1]
          exact .const (L.inv h2 h3)
    · simp [Node.isConstant] at hbc

theorem graded_pathProd {path : List (Node F)} {x : Node F} (hx : x.isVar = true) : ∀ {h : Heap F} {n m : Nat} {prod r a : Node F} {d p : D},
    ArgPath (a :: path) → endsAt x (a :: path) = true → HInv h n → Good .api h prod → (∀ y ∈ a :: path, Good .api h y) →
    Graded num var d a → Graded num var p prod → pathProd prod (a :: path) n = .ok (r, m) → Graded num var (p + (d - var)) r := by
  induction path with
  | nil =>
    intro h n m prod r a d p _ hend _ _ _ ha hp hr
    simp only [pathProd, M.pure_ok] at hr
    simp only [endsAt, List.getLast?_singleton] at hend
    have hav : a.isVar = true := by
      cases a <;> cases x <;> simp_all [Node.ptrEq, Node.tag, Node.isVar]
    cases ha <;> simp [Node.isVar] at hav
    rw [hr.1, sub_self, add_zero]
    exact hp
  | cons b path ih =>
    intro h n m prod r a d p hap hend hn hgp hpath ha hp hr
    obtain ⟨hb, hbc, hrest⟩ := hap
    simp only [pathProd, M.bind_ok] at hr
    obtain ⟨f, k1, h1, q, k2, h2, h3⟩ := hr
    obtain ⟨e, he, hpost⟩ := graded_partialN L (hpath a (by simp)) ha hb hbc
    obtain ⟨hp1, hle1, hn1, _, hg1⟩ := spec_partialN hn (hpath a (by simp)) f k1 h1
    obtain ⟨hp2, hle2, hn2, _, hg2⟩ := spec_mulN hn1 (hgp.mono hle1) hg1 q k2 h2
    have hq := graded_mulN L (hgp.mono hle1) hg1 hp (hpost _ _ _ h1) _ _ _ h2
    rw [endsAt_cons (by simp)] at hend
    have := ih hrest hend hn2 hg2 (fun y hy => ((hpath y (by simp [hy])).mono hle1).mono hle2) he hq h3
    have e1 : p + (d - e) + (e - var) = p + (d - var) := by abel
    rwa [e1] at this

theorem graded_pathSum {D0 : D} {ps : List (List (Node F))} (hp : ∀ p ∈ ps, ArgPath p)
    (hgr : ∀ p ∈ ps, ∀ {h : Heap F} {n m : Nat} {k r : Node F}, HInv h n → Good .api h k → (∀ y ∈ p, Good .api h y) → Graded num var 0 k →
      pathProd k p n = .ok (r, m) → Graded num var D0 r) :
    ∀ {h : Heap F} {n : Nat} {d : Node F}, HInv h n → Good .api h d → Graded num var D0 d → (∀ p ∈ ps, ∀ y ∈ p, Good .api h y) →
      ∃ r m, pathSum d ps n = .ok (r, m) ∧ Graded num var D0 r := by
  induction ps with
  | nil => intro h n d _ _ hc _; exact ⟨_, _, rfl, hc⟩
  | cons p ps ih =>
    intro h n d hn hd hc hps
    obtain ⟨hp1, hle1, hn1, _, hg1, -, -⟩ := spec_newConst (l := .api) (v := (one : F)) hn _ _ (newConst_eq one n)
    obtain ⟨⟨q, k2⟩, h2⟩ := onlyAdd_pathProd (l := .api) (by simp) (hp p (by simp)) hn1 hg1 fun y hy => (hps p (by simp) y hy).mono hle1
    obtain ⟨hp2, hle2, hn2, _, hg2⟩ := spec_pathProd hn1 hg1 (fun y hy => (hps p (by simp) y hy).mono hle1) q k2 h2
    have hq := hgr p (by simp) hn1 hg1 (fun y hy => (hps p (by simp) y hy).mono hle1) (.const L.one) h2
    obtain ⟨d', k3, h3, hd'⟩ := graded_addN L ((hd.mono hle1).mono hle2) hg2 hc hq k2
    obtain ⟨hp3, hle3, hn3, _, hg3⟩ := spec_addN hn2 ((hd.mono hle1).mono hle2) hg2 d' k3 h3
    obtain ⟨r, m, h4, hr⟩ := ih (fun p hp' => hp p (by simp [hp'])) (fun p hp' => hgr p (by simp [hp'])) hn3 hg3 hd'
        (fun p' hp' y hy => (((hps p' (by simp [hp']) y hy).mono hle1).mono hle2).mono hle3)
    refine ⟨r, m, ?_, hr⟩
    simp only [pathSum]
    rw [M.bind_ok_eq (newConst_eq one n), M.bind_ok_eq h2, M.bind_ok_eq h3, h4]

omit L in
theorem graded_summands {e : Node F} {d : D} (h : Graded num var d e) : ∀ t ∈ summands e, Graded num var d t := by
  intro t ht
  cases h with
  | add h => exact h t ht
  | const h => simp only [summands, List.mem_singleton] at ht; subst ht; exact .const h
  | var => simp only [summands, List.mem_singleton] at ht; subst ht; exact .var
  | mul h1 h2 => simp only [summands, List.mem_singleton] at ht; subst ht; exact .mul h1 h2
  | div h1 h2 h3 => simp only [summands, List.mem_singleton] at ht; subst ht; exact .div h1 h2 h3

omit [FloatOps F] [AddCommGroup D] L in
theorem endsAt_last {x : Node F} {p : List (Node F)} (h : endsAt x p = true) : ∃ y ∈ p, y.ptrEq x = true := by
  unfold endsAt at h
  cases hl : p.getLast? with
  | none => simp [hl] at h
  | some y => rw [hl] at h; exact ⟨y, List.mem_of_getLast? hl, h⟩

/-- The product along a path to `x`, if the terms with `x` have the degree `d`. -/
theorem graded_path {x e : Node F} (hx : x.isVar = true) {d : D} (hd : TermsWith x (Graded num var d) e) {h0 : Heap F}
    (hg : Good .api h0 e) (hgx : Good .api h0 x) {p : List (Node F)} (hp : p ∈ dfs e) (hend : endsAt x p = true) :
    Pos d ∧ ∀ {h : Heap F} {n m : Nat} {k r : Node F}, HInv h n → Good .api h k → (∀ y ∈ p, Good .api h y) → Graded num var 0 k →
      pathProd k p n = .ok (r, m) → Graded num var (d - var) r := by
  have hocc : ∀ {t : Node F} {q : List (Node F)}, Good .api h0 t → q ∈ dfs t → endsAt x q = true → Occurs x t := by
    intro t q hgt hq hqx
    obtain ⟨y, hy, hyx⟩ := endsAt_last hqx
    have ho := dfs_occurs t q hq y hy
    rw [← ((hgt.sub ho).ptrEq_iff hgx).1 hyx]
    exact ho
  have hnc : ∀ {t : Node F} {q : List (Node F)}, q ∈ dfs t → t.isConstant = false := by
    intro t q hq; cases t <;> simp_all [dfs, Node.isConstant]
  have hmain : ∀ {t : Node F} {q : List (Node F)}, Good .api h0 t → Graded num var d t → q ∈ dfs t → endsAt x q = true →
      Pos d ∧ ∀ {h : Heap F} {n m : Nat} {k r : Node F}, HInv h n → Good .api h k → (∀ y ∈ q, Good .api h y) → Graded num var 0 k →
      pathProd k q n = .ok (r, m) → Graded num var (d - var) r := by
    intro t q hgt ht hq hqx
    refine ⟨(graded_valid L ht hgt).2 (hnc hq), ?_⟩
    intro h n m k r hn hk hgq hk0 hr
    have hap := dfs_argPath t q hq
    obtain ⟨q', rfl⟩ := dfs_head hq
    have := graded_pathProd L hx hap hqx hn hk hgq ht hk0 hr
    rwa [zero_add] at this
  cases e
  case add i args =>
    have hap := dfs_argPath _ p hp
    simp only [dfs, List.mem_map, mem_dfsL] at hp
    obtain ⟨q, ⟨t, ht, hq⟩, rfl⟩ := hp
    rw [endsAt_cons (dfs_ne_nil hq)] at hend
    have hgt := hg.arg (a := t) ht
    obtain ⟨h1, h2⟩ := hmain hgt (hd t ht (hocc hgt hq hend)) hq hend
    refine ⟨h1, ?_⟩
    intro h n m k r hn hk hgq hk0 hr
    obtain ⟨q', rfl⟩ := dfs_head hq
    simp only [pathProd, M.bind_ok] at hr
    obtain ⟨f, k1, g1, w, k2, g2, g3⟩ := hr
    obtain ⟨hp1, hle1, hn1, _, hg1⟩ := spec_partialN hn (hgq (.add i args) (by simp)) f k1 g1
    obtain ⟨hp2, hle2, hn2, _, hg2⟩ := spec_mulN hn1 (hk.mono hle1) hg1 w k2 g2
    have hf : Graded num var 0 f := by
      have : args.any (fun c => c.ptrEq t) = true := List.any_eq_true.2 ⟨t, ht, ptrEq_refl t⟩
      simp only [partialN, this, if_true, newConst_ok] at g1
      rw [g1.1]
      exact .const L.one
    have hw := graded_mulN L (hk.mono hle1) hg1 hk0 hf _ _ _ g2
    rw [add_zero] at hw
    exact h2 hn2 hg2 (fun y hy => ((hgq y (List.mem_cons_of_mem _ hy)).mono hle1).mono hle2) hw g3
  all_goals exact hmain hg (hd _ (by simp [summands]) (hocc hg hp hend)) hp hend

end

/-- Each variable has a way to give degrees. -/
def Easy (x e : Node F) : Prop := ∃ (D : Type) (_ : AddCommGroup D) (num : F → D → Prop) (var ng : D) (Valid Pos : D → Prop) (d : D),
  GradeLaws num var ng Valid Pos ∧ TermsWith x (Graded num var d) e

/-- The derivative, as the sum over the paths. -/
theorem easy_deriv {x e : Node F} (hx : x.isVar = true) (he : Easy x e) {h : Heap F} {n : Nat} (hn : HInv h n)
    (hg : Good .api h e) (hgx : Good .api h x) {i : Nat} (hz : Good .api h (.const i zero)) :
    ∃ r m, pathSum (.const i zero) ((dfs e).filter (endsAt x)) n = .ok (r, m) ∧ ∀ y, Easy y r := by
  obtain ⟨D, _, num, var, ng, Valid, Pos, d, L, hd⟩ := he
  have hes : ∀ {r : Node F} {d : D}, Graded num var d r → ∀ y, Easy y r := fun hr y =>
    ⟨D, _, num, var, ng, Valid, Pos, _, L, fun t ht _ => graded_summands hr t ht⟩
  cases hps : (dfs e).filter (endsAt x) with
  | nil => exact ⟨_, _, rfl, hes (.const (L.zero (L.valid L.one)))⟩
  | cons p0 ps0 =>
    have hmem : ∀ p ∈ (dfs e).filter (endsAt x), p ∈ dfs e ∧ endsAt x p = true := fun p hp => List.mem_filter.1 hp
    rw [← hps]
    have hpos : Pos d := (graded_path L hx hd hg hgx (hmem p0 (by simp [hps])).1 (hmem p0 (by simp [hps])).2).1
    obtain ⟨r, m, h1, h2⟩ := graded_pathSum L (D0 := d - var) (fun p hp => dfs_argPath e p (hmem p hp).1)
      (fun p hp => (graded_path L hx hd hg hgx (hmem p hp).1 (hmem p hp).2).2) hn hz (.const (L.zero (L.valid_sub hpos)))
      (fun p hp y hy => hg.sub (dfs_occurs e p (hmem p hp).1 y hy))
    exact ⟨r, m, h1, hes h2⟩

/-! ### Standard components -/

theorem derivatives_unfold {H : HashOrder} {e : Node F} {vars : List (Node F)} (hv : ∀ v ∈ vars, v.isVar = true) (n : Nat) :
    ∃ vs : List (Node F), vs.Perm (setOf vars) ∧ derivatives H e vars n =
      M.mapL (fun v => M.bind (newConst zero) fun d0 => M.bind (pathSum d0 ((dfs e).filter (endsAt v))) fun d =>
        M.pure (v, d)) vs (n + 2) := by
  have hc : ∀ n, checkVars vars n = .ok ((), n) := by
    intro n; unfold checkVars; rw [if_pos (by simpa using hv)]; rfl
  obtain ⟨vs, k2, h2⟩ := total_iter H (setOf vars) n
  have hp := HashOrder.iter_perm h2
  have hk := (HashOrder.iter_ok.1 h2).2
  have htot : Total (allSimplePaths H e vars) := by
    intro n
    unfold allSimplePaths
    rw [M.bind_ok_eq (hc n)]
    exact ((total_iter H _).bind fun _ _ _ _ => .pure _) n
  obtain ⟨ps, k3, h3⟩ := htot k2
  refine ⟨vs, hp, ?_⟩
  unfold derivatives
  rw [M.bind_ok_eq (hc n), M.bind_ok_eq h2, M.bind_ok_eq h3]
  obtain ⟨-, vs', hp', rfl, rfl⟩ := allSimplePaths_ok h3
  subst hk
  have hnd : NodupP vs' := (setOf_nodup vars).perm hp'.symm
  have hmem : ∀ v ∈ vs, getN (vs'.map fun v => (v, (dfs e).filter (endsAt v))) v = some ((dfs e).filter (endsAt v)) :=
    fun v hv => getN_map hnd (hp'.mem_iff.2 (hp.mem_iff.1 hv))
  clear h2 h3 hp hv hc htot
  have hgen : ∀ n, M.mapL (fun v => M.bind (newConst zero) fun d0 =>
          M.bind (unwrapM (getN (vs'.map fun v => (v, (dfs e).filter (endsAt v))) v)) fun ps =>
          M.bind (pathSum d0 ps) fun d => M.pure (v, d)) vs n = M.mapL (fun v => M.bind (newConst zero) fun d0 => M.bind (pathSum d0 ((dfs e).filter (endsAt v))) fun d =>
        M.pure (v, d)) vs n := by
    induction vs with
    | nil => intro n; rfl
    | cons a vs ih =>
      intro n
      have ih' := funext (ih fun v hv => hmem v (by simp [hv]))
      simp only [M.mapL, hmem a (by simp), ih']
      rfl
  exact hgen _

theorem getN_exists {β : Type} {m : List (Node F × β)} {k : Node F} (h : ∃ x ∈ m.map Prod.fst, x.ptrEq k = true) : ∃ b, getN m k = some b := by
  induction m with
  | nil => simp at h
  | cons e m ih =>
    obtain ⟨x, c⟩ := e
    simp only [getN]
    split
    · exact ⟨_, rfl⟩
    · rename_i hx
      apply ih
      obtain ⟨y, hy, hyk⟩ := h
      simp only [List.map_cons, List.mem_cons] at hy
      rcases hy with rfl | hy
      · exact absurd hyk hx
      · exact ⟨y, hy, hyk⟩

theorem easy_derivLoop {e : Node F} {vs : List (Node F)} : ∀ {h : Heap F} {n : Nat}, HInv h n → Good .api h e →
    (∀ v ∈ vs, v.isVar = true ∧ Good .api h v ∧ Easy v e) →
    ∃ r m, M.mapL (fun v => M.bind (newConst zero) fun d0 => M.bind (pathSum d0 ((dfs e).filter (endsAt v))) fun d => M.pure (v, d)) vs n = .ok (r, m) ∧
      r.map Prod.fst = vs ∧ ∀ p ∈ r, ∀ y, Easy y p.2 := by
  induction vs with
  | nil => intro h n _ _ _; exact ⟨_, _, rfl, rfl, by simp⟩
  | cons v vs ih =>
    intro h n hn hg hv
    obtain ⟨hx, hgx, hex⟩ := hv v (by simp)
    obtain ⟨hp1, hle1, hn1, _, hg1, -, -⟩ := spec_newConst (l := .api) (v := (zero : F)) hn _ _ (newConst_eq zero n)
    obtain ⟨d, k2, h2, hd⟩ := easy_deriv hx hex hn1 (hg.mono hle1) (hgx.mono hle1) hg1
    obtain ⟨hp2, hle2, hn2, _, hg2⟩ := spec_pathSum hn1 hg1 (fun p hp y hy => (hg.mono hle1).sub (dfs_occurs e p (List.mem_filter.1 hp).1 y hy)) d k2 h2
    obtain ⟨r, m, h3, h4, h5⟩ := ih hn2 ((hg.mono hle1).mono hle2) fun w hw => by
      obtain ⟨a, b, c⟩ := hv w (by simp [hw])
      exact ⟨a, (b.mono hle1).mono hle2, c⟩
    refine ⟨(v, d) :: r, m, ?_, by simp [h4], ?_⟩
    · have hstep : (M.bind (newConst zero) fun d0 => M.bind (pathSum d0 ((dfs e).filter (endsAt v))) fun d => M.pure (v, d)) n = .ok ((v, d), k2) := by
        rw [M.bind_ok_eq (newConst_eq zero n), M.bind_ok_eq h2]; rfl
      simp only [M.mapL]
      rw [M.bind_ok_eq hstep, M.bind_ok_eq h3]; rfl
    · intro p hp
      rcases List.mem_cons.1 hp with rfl | hp
      · exact hd
      · exact h5 p hp

theorem easy_derivatives {H : HashOrder} {e : Node F} {vars : List (Node F)} {h : Heap F} {n : Nat} (hn : HInv h n) (hg : Good .api h e)
    (hv : ∀ v ∈ vars, v.isVar = true ∧ Good .api h v ∧ Easy v e) :
    ∃ r m, derivatives H e vars n = .ok (r, m) ∧ (∀ v ∈ vars, ∃ d, getN r v = some d) ∧ ∀ p ∈ r, ∀ y, Easy y p.2 := by
  obtain ⟨vs, hp, he⟩ := derivatives_unfold (H := H) (e := e) (fun v hm => (hv v hm).1) n
  have hn2 : HInv h (n + 2) := fun i hi => hn i (by omega)
  obtain ⟨r, m, h1, h2, h3⟩ := easy_derivLoop hn2 hg fun v hm => hv v (setOf_mem (hp.mem_iff.1 hm))
  refine ⟨r, m, by rw [he, h1], ?_, h3⟩
  intro v hm
  obtain ⟨y, hy, hyv⟩ := setOf_has hm
  exact getN_exists ⟨y, by rw [h2]; exact hp.mem_iff.2 hy, hyv⟩

theorem total_hessRow {v1 : Node F} {dd : List (Node F × Node F)} {vs : List (Node F)} (h : ∀ v ∈ vs, ∃ d, getN dd v = some d) : Total (hessRow v1 dd vs) := by
  induction vs with
  | nil => exact .pure _
  | cons v vs ih =>
    simp only [hessRow]
    obtain ⟨d, hd⟩ := h v (by simp)
    rw [hd]
    exact (Total.pure d).bind fun _ _ _ _ => (ih fun w hw => h w (by simp [hw])).bind fun _ _ _ _ => .pure _

theorem total_hessLoop {H : HashOrder} {derivs : List (Node F × Node F)} {vs : List (Node F)} : ∀ {h : Heap F} {n : Nat}, HInv h n →
    (∀ p ∈ derivs, Good .api h p.2 ∧ ∀ y, Easy y p.2) → (∀ v ∈ vs, v.isVar = true ∧ Good .api h v ∧ ∃ d, getN derivs v = some d) →
    ∃ r m, hessLoop H derivs vs n = .ok (r, m) := by
  induction vs with
  | nil => intro h n _ _ _; exact ⟨_, _, rfl⟩
  | cons v vs ih =>
    intro h n hn hd hv
    obtain ⟨d, hgd⟩ := (hv v (by simp)).2.2
    obtain ⟨y, hy, -⟩ := getN_some_iff hgd
    obtain ⟨hg, hes⟩ := hd _ hy
    obtain ⟨dd, k1, h1, h2, -⟩ := easy_derivatives (H := H) (vars := v :: vs) hn hg fun w hw => ⟨(hv w hw).1, (hv w hw).2.1, hes w⟩
    obtain ⟨hp1, hle1, hn1, _, -⟩ := spec_derivatives (l := .api) hn hg dd k1 h1
    obtain ⟨row, k2, h3⟩ := total_hessRow (v1 := v) h2 k1
    obtain ⟨rfl, -⟩ := hessRow_ok h3
    obtain ⟨r, m, h4⟩ := ih hn1 (fun p hp => ⟨(hd p hp).1.mono hle1, (hd p hp).2⟩) fun w hw =>
      ⟨(hv w (by simp [hw])).1, (hv w (by simp [hw])).2.1.mono hle1, (hv w (by simp [hw])).2.2⟩
    simp only [hessLoop]
    rw [hgd]
    exact ⟨_, _, by rw [M.bind_ok_eq (show unwrapM (some d) n = .ok (d, n) from rfl), M.bind_ok_eq h1, M.bind_ok_eq h3, M.bind_ok_eq h4]; rfl⟩

/-- The standard components of a function: affine, or with degrees for each variable. -/
theorem easy_components {H : HashOrder} {e : Node F} {h : Heap F} {n : Nat} (hn : HInv h n) (hg : Good .api h e)
    (he : Aff e ∨ ∀ x : Node F, x.isVar = true → Easy x e) : ∃ r m, e.stdComponents H n = .ok (r, m) := by
  by_cases ha : Aff e
  · exact total_affComponents H ha n
  have he := he.resolve_left ha
  unfold Node.stdComponents
  simp only [Aff, Bool.not_eq_true] at ha
  simp only [ha, Bool.false_eq_true, if_false]
  obtain ⟨vars, k1, h1⟩ := total_iter H (e.stdProperties.a.map Prod.fst) n
  have hk := (HashOrder.iter_ok.1 h1).2
  have hvars : ∀ v ∈ vars, v.isVar = true ∧ Good .api h v ∧ Easy v e := by
    intro v hv
    have := (stdProperties_keys e).2.1 v ((HashOrder.iter_perm h1).mem_iff.1 hv)
    exact ⟨this.1, hg.sub this.2, he v this.1⟩
  have hn1 : HInv h k1 := by subst hk; exact fun i hi => hn i (by omega)
  obtain ⟨ds, k2, h2, h3, h4⟩ := easy_derivatives (H := H) hn1 hg hvars
  obtain ⟨hp2, hle2, hn2, _, hg2⟩ := spec_derivatives (l := .api) hn1 hg ds k2 h2
  obtain ⟨r, m, h5⟩ := total_hessLoop (H := H) hn2 (fun p hp => ⟨hg2 p hp, h4 p hp⟩) fun v hv =>
    ⟨(hvars v hv).1, (hvars v hv).2.1.mono hle2, h3 v hv⟩
  exact ⟨_, _, by rw [M.bind_ok_eq h1, M.bind_ok_eq h2, M.bind_ok_eq h5]; rfl⟩

end Verif
