import Std.Data.String.ToNat
import Verif.Proofs.Feas2

/-! # Which standard problem; slack columns -/

set_option linter.unusedSectionVars false
set_option linter.unusedSimpArgs false

namespace Verif

variable {F : Type} [FloatOps F] {l : Level} {h : Heap F}

theorem forall₂_imp_right {α β : Type} {R : α → β → Prop} {P : α → Prop} {Q : β → Prop} {as : List α} {bs : List β}
    (h : List.Forall₂ R as bs) (hi : ∀ a b, a ∈ as → R a b → Q b → P a) (hq : ∀ b ∈ bs, Q b) : ∀ a ∈ as, P a := by
  intro a ha
  induction h with
  | nil => simp at ha
  | @cons x y as bs hr _ ih =>
    rcases List.mem_cons.1 ha with rfl | ha
    · exact hi a y (by simp) hr (hq y (by simp))
    · exact ih (fun a b ha => hi a b (by simp [ha])) (fun b hb => hq b (by simp [hb])) ha

theorem aff_mul_inv (hl : l ≠ .raw) {i : Nat} {k a : Node F} (hg : Good l h a) (hk : k.isConstant = true) (ha : Aff (.mul i k a)) :
    Aff a := by
  unfold Aff at ha ⊢
  simp only [Node.stdProperties, Bool.or_eq_true, Bool.and_eq_true, List.isEmpty_iff] at ha
  rcases ha with ⟨-, he⟩ | ⟨ha, -⟩
  · have := (hg.empty_iff hl).1 he
    cases a <;> simp [Node.isConstant] at this
    rfl
  · exact ha

theorem aff_sMul_inv (hl : l ≠ .raw) (c : F) (hc : (c ==. zero) = false) (a : Node F) (hg : Good l h a) :
    Post (sMul c a) (fun e => Aff e → Aff a) := by
  induction a using Node.ind_args with
  | step a ih =>
    cases a
    case const i v => exact fun _ _ _ _ _ => rfl
    case add i args =>
      rw [sMul_unfold]
      simp only [Node.isConstVal, Node.isConstant, Bool.false_eq_true, if_false, hc, Bool.or_false]
      refine .ite (fun _ => .pure id) fun _ => ?_
      refine (Post.mapL2 (P := fun a b => Aff b → Aff a) fun y hy => ?_).bind fun bs hbs n e m he => ?_
      · exact ih y (by simpa [Node.arguments] using hy) (hg.arg (by simpa [Node.arguments] using hy))
      · rw [newAdd_ok] at he
        rw [he.2.1, aff_add, aff_add]
        intro hb
        exact forall₂_imp_right hbs (fun a b _ hr => hr) hb
    all_goals
      simp only [sMul, hc, Bool.false_eq_true, if_false]
      refine .ite (fun _ => .pure id) fun _ => post_const.bind fun k hk n e m he => ?_
      simp only [newMul_eq, Except.ok.injEq, Prod.mk.injEq] at he
      rw [← he.1]
      exact aff_mul_inv hl hg hk

theorem aff_terms (a : Node F) : (∀ b ∈ terms a, Aff b) ↔ Aff a := by
  cases a
  case const => simp [terms]; rfl
  case add i args =>
    rw [aff_add]
    simp only [terms, List.mem_filter]
    refine ⟨fun h b hb => ?_, fun h b hb => h b hb.1⟩
    cases hc : b.isConstant
    · exact h b ⟨hb, by simp [hc]⟩
    · cases b <;> simp [Node.isConstant] at hc
      rfl
  all_goals simp [terms]

theorem aff_addN_inv (a b : Node F) : Post (addN a b) (fun e => Aff e → Aff a ∧ Aff b) := by
  have hc : ∀ {d : Node F}, d.isConstVal zero = true → Aff d := by
    intro d hd
    cases d <;> simp [Node.isConstVal] at hd ⊢
    rfl
  refine .ite (fun h => .pure fun hb => ⟨hc h, hb⟩) fun _ => .ite (fun h => .pure fun ha => ⟨ha, hc h⟩) fun _ => ?_
  have key : ∀ acc : F × List (Node F), Post (finishAdd acc) (fun e => Aff e → ∀ x ∈ acc.2, Aff x) := by
    intro acc
    unfold finishAdd
    refine .ite (fun h => ?_) fun _ => .ite (fun _ => ?_) fun _ => ?_
    · intro n e m he _ x hx
      simp only [List.isEmpty_iff] at h
      simp [h] at hx
    · refine post_const.bind fun k hk n e m he => ?_
      rw [newAdd_ok] at he
      rw [he.2.1, aff_add]
      exact fun hh x hx => hh x (by simp [hx])
    · intro n e m he
      rw [newAdd_ok] at he
      rw [he.2.1, aff_add]
      exact id
  intro n e m he ha
  have := key _ n e m he ha
  simp only [gather_terms, List.nil_append, List.mem_append] at this
  exact ⟨(aff_terms a).1 fun b hb => this b (.inl hb), (aff_terms b).1 fun b hb => this b (.inr hb)⟩

/-- `lhs - rhs` is affine exactly when both sides are. -/
theorem aff_subN (hl : l ≠ .raw) (hc : (negOne ==. (zero : F)) = false) {a b e : Node F} (hb : Good l h b) {n m : Nat}
    (he : subN a b n = .ok (e, m)) : Aff e ↔ Aff a ∧ Aff b := by
  constructor
  · intro ha
    have := (((aff_sMul_inv hl negOne hc b hb).bind fun nb hnb => fun n e m he ha => by
      obtain ⟨h1, h2⟩ := aff_addN_inv a nb n e m he ha
      exact ⟨h1, hnb h2⟩) : Post (subN a b) (fun e => Aff e → Aff a ∧ Aff b))
    exact this n e m he ha
  · rintro ⟨ha, hb⟩
    exact ((aff_sMul _ _ hb).bind fun x hx => aff_addN ha hx : Post (subN a b) Aff) _ _ _ he

theorem aff_negN (hl : l ≠ .raw) (hc : (negOne ==. (zero : F)) = false) {a e : Node F} (ha : Good l h a) {n m : Nat}
    (he : negN a n = .ok (e, m)) : Aff e ↔ Aff a := by
  rcases negN_cases a with ⟨i, v, rfl, heq⟩ | ⟨_, heq⟩ <;> rw [heq] at he
  · have := post_const_aff _ _ _ _ he
    exact ⟨fun _ => rfl, fun _ => this⟩
  · exact ⟨aff_sMul_inv hl negOne hc a ha _ _ _ he, fun h => aff_sMul _ _ h _ _ _ he⟩

variable {H : HashOrder} {n m ar jr : Nat} {mod : Model F} {comp : ModelComp F} {e : Node F} {ps : List (Piece F)}
  {cols : List (Node F)} {xes : List (Node F × F)} {ves : List (Node F × Nat)} {sp : StdProb F}

theorem MFacts.objAff (hf : MFacts H l h n m mod comp e ps) (hl : l ≠ .raw) (hc : (negOne ==. (zero : F)) = false)
    (hg : ∀ f, mod.objective = .maximize f → Good l h f) :
    comp.obj.prop.affine = true ↔ ∀ f, mod.objective = .minimize f ∨ mod.objective = .maximize f → f.stdProperties.affine = true := by
  rw [hf.objProp.2]
  cases ho : mod.objective with
  | minimize f => rw [hf.objMin f ho]; simp
  | maximize f =>
    obtain ⟨k, k', hk⟩ := hf.objMax f ho
    have := aff_negN hl hc (hg f ho) hk
    unfold Aff at this
    rw [this]; simp
  | empty =>
    obtain ⟨i, rfl⟩ := hf.objEmpty ho
    simp [Node.stdProperties]

theorem MFacts.constrAff (hf : MFacts H l h n m mod comp e ps) (hl : l ≠ .raw) (hc : (negOne ==. (zero : F)) = false)
    (hg : ∀ c ∈ mod.constraints, Good l h c.rhs) :
    comp.constr.f = [] ↔ ∀ c ∈ mod.constraints, c.lhs.stdProperties.affine = true ∧ c.rhs.stdProperties.affine = true := by
  rw [hf.constr, ← hf.cs]
  simp only [ConstrComp.concat, List.flatMap_map, List.flatMap_eq_nil_iff, List.forall_mem_map]
  refine forall₂_congr fun p hp => ?_
  obtain ⟨n', m', -, -, hok⟩ := hf.piece hp
  obtain ⟨k, hk⟩ := hok.exp
  have := aff_subN hl hc (hg p.c (by rw [← hf.cs]; exact List.mem_map.2 ⟨p, hp, rfl⟩)) hk
  unfold Aff at this
  rw [← this, ← hok.prop.2, hok.affine]
  cases hn : p.isNl <;> simp [Piece.out, hn]

/-! ### Rows and constraints -/

theorem PChain.aindex (hc : PChain H l h n ar jr ps m) :
    ((ps.flatMap fun p => p.out.ca).zipIdx ar).map (fun e => (e.2, e.1)) = (ps.filter Piece.isLin).map fun p => (p.arow, p.c) := by
  induction ps generalizing n ar jr with
  | nil => rfl
  | cons p ps ih =>
    obtain ⟨h1, h2, k, h3, h4, h5⟩ := hc
    have := ih h5
    cases hl : p.isLin
    · simp only [hl, Bool.toNat_false, Nat.add_zero] at this
      simp [hl, Piece.out] at this ⊢
      exact this
    · simp only [hl, Bool.toNat_true] at this
      simp [hl, Piece.out, h1] at this ⊢
      exact this

theorem PChain.jindex (hc : PChain H l h n ar jr ps m) :
    ((ps.flatMap fun p => p.out.cj).zipIdx jr).map (fun e => (e.2, e.1)) = (ps.filter Piece.isNl).map fun p => (p.jrow, p.c) := by
  induction ps generalizing n ar jr with
  | nil => rfl
  | cons p ps ih =>
    obtain ⟨h1, h2, k, h3, h4, h5⟩ := hc
    have := ih h5
    cases hl : p.isNl
    · simp only [hl, Bool.toNat_false, Nat.add_zero] at this
      simp [hl, Piece.out] at this ⊢
      exact this
    · simp only [hl, Bool.toNat_true] at this
      simp [hl, Piece.out, h2] at this ⊢
      exact this

theorem SpFacts.aindex (hf : SpFacts H l h n m mod comp e ps cols xes ves sp) :
    sp.aindex2constr = (ps.filter Piece.isLin).map fun p => (p.arow, p.c) := by
  obtain ⟨k, -, hch⟩ := hf.mf.chain
  rw [hf.aidx, hf.mf.constr, ← hch.aindex]
  simp [ConstrComp.concat, List.flatMap_map]

theorem SpFacts.jindex (hf : SpFacts H l h n m mod comp e ps cols xes ves sp) :
    sp.jindex2constr = (ps.filter Piece.isNl).map fun p => (p.jrow, p.c) := by
  obtain ⟨k, -, hch⟩ := hf.mf.chain
  rw [hf.jidx, hf.mf.constr, ← hch.jindex]
  simp [ConstrComp.concat, List.flatMap_map]

/-- A slack belongs to exactly the inequality rows. -/
theorem Piece.Ok.slack_lin {p : Piece F} (hp : p.Ok H l h n m) (hl : p.isLin = true) :
    (p.c.kind ≠ .equal → ∃ s, p.slack = some s) ∧ ∀ s, p.slack = some s → p.c.kind ≠ .equal ∧ s.name = "_s_a" ++ toString p.arow ++ "_" := by
  constructor
  · intro hk
    rw [Ne, hp.equal] at hk
    unfold Piece.isLin at hl; unfold Piece.bnd at hk; unfold Piece.slack
    split at hl <;> simp_all
  · intro s hs
    cases hk : p.kind with
    | linIneq es s' =>
      simp only [Piece.slack, hk, Option.some.injEq] at hs
      subst hs
      refine ⟨?_, (hp.linIneq es s' hk).2⟩
      rw [Ne, hp.equal]; simp [Piece.bnd, hk]
    | _ => simp [Piece.isLin, Piece.slack, hk] at hl hs

theorem Piece.Ok.slack_nl {p : Piece F} (hp : p.Ok H l h n m) (hl : p.isNl = true) :
    (p.c.kind ≠ .equal → ∃ s, p.slack = some s) ∧ ∀ s, p.slack = some s → p.c.kind ≠ .equal ∧ s.name = "_s_j" ++ toString p.jrow ++ "_" := by
  constructor
  · intro hk
    rw [Ne, hp.equal] at hk
    unfold Piece.isNl at hl; unfold Piece.bnd at hk; unfold Piece.slack
    split at hl <;> simp_all
  · intro s hs
    cases hk : p.kind with
    | nlIneq s' f m1 =>
      simp only [Piece.slack, hk, Option.some.injEq] at hs
      subst hs
      refine ⟨?_, (hp.nlIneq s' f m1 hk).1⟩
      rw [Ne, hp.equal]; simp [Piece.bnd, hk]
    | _ => simp [Piece.isNl, Piece.slack, hk] at hl hs

theorem Piece.slack_row {p : Piece F} {s : Node F} (hs : p.slack = some s) : p.isLin = true ∨ p.isNl = true := by
  unfold Piece.slack at hs; unfold Piece.isLin Piece.isNl
  split at hs <;> simp_all

theorem slackName_inj {k k' : Nat} : (slackNameA k = slackNameA k' → k = k') ∧ (slackNameJ k = slackNameJ k' → k = k') ∧
    slackNameA k ≠ slackNameJ k' := by
  have key : ∀ (p q : String), p.toList.length = q.toList.length → p ++ toString k ++ "_" = q ++ toString k' ++ "_" → p.toList = q.toList ∧ k = k' := by
    intro p q hpq he
    have h1 := congrArg String.toList he
    simp only [String.toList_append] at h1
    have h2 := List.append_inj_left' h1 rfl
    have h3 := List.append_inj h2 hpq
    exact ⟨h3.1, Nat.repr_injective (String.toList_inj.1 h3.2)⟩
  refine ⟨fun h => (key _ _ rfl h).2, fun h => (key _ _ rfl h).2, fun h => ?_⟩
  have := (key "_s_a" "_s_j" rfl h).1
  revert this; decide

theorem PChain.arow_inj (hc : PChain H l h n ar jr ps m) {p p' : Piece F} (hp : p ∈ ps) (hp' : p' ∈ ps) (hl : p.isLin = true)
    (hl' : p'.isLin = true) (he : p.arow = p'.arow) : p = p' := by
  refine List.inj_on_of_nodup_map (f := Piece.arow) (l := ps.filter Piece.isLin) ?_ (List.mem_filter.2 ⟨hp, hl⟩) (List.mem_filter.2 ⟨hp', hl'⟩) he
  rw [hc.lin]; exact List.nodup_range'

theorem PChain.jrow_inj (hc : PChain H l h n ar jr ps m) {p p' : Piece F} (hp : p ∈ ps) (hp' : p' ∈ ps) (hl : p.isNl = true)
    (hl' : p'.isNl = true) (he : p.jrow = p'.jrow) : p = p' := by
  refine List.inj_on_of_nodup_map (f := Piece.jrow) (l := ps.filter Piece.isNl) ?_ (List.mem_filter.2 ⟨hp, hl⟩) (List.mem_filter.2 ⟨hp', hl'⟩) he
  rw [hc.nl]; exact List.nodup_range'

/-- New columns are slacks. -/
theorem SpFacts.newCol (hf : SpFacts H l h n m mod comp e ps cols xes ves sp) {s : Node F} :
    (s ∈ cols ∧ n ≤ s.id) ↔ ∃ p ∈ ps, p.slack = some s := by
  constructor
  · rintro ⟨hs, hn⟩
    rcases (hf.mem s).1 hs with ⟨hv, ho⟩ | hsl
    · exfalso
      have : mod.HasVar s := by
        rcases ho with ho | ⟨p, hp, ho⟩
        · exact hf.mf.objVar hv ho
        · exact hf.mf.pieceVar hp hv ho
      have := (hf.mf.old s this).1
      omega
    · exact List.mem_filterMap.1 hsl
  · rintro ⟨p, hp, hs⟩
    have hsl := List.mem_filterMap.2 ⟨p, hp, hs⟩
    obtain ⟨k, hk, hch⟩ := hf.mf.chain
    have := (hch.slacks.1 s hsl).1
    exact ⟨(hf.mem s).2 (.inr hsl), by omega⟩

theorem SpFacts.slackA (hf : SpFacts H l h n m mod comp e ps cols xes ves sp) {p : Piece F} (hp : p ∈ ps) (hl : p.isLin = true) {s : Node F}
    (hs : s ∈ cols) (hn : n ≤ s.id) (hname : s.name = slackNameA p.arow) : p.slack = some s := by
  obtain ⟨p', hp', hs'⟩ := hf.newCol.1 ⟨hs, hn⟩
  obtain ⟨k, -, hch⟩ := hf.mf.chain
  obtain ⟨n', m', -, -, hok⟩ := hf.mf.piece hp'
  rcases Piece.slack_row hs' with hl' | hl'
  · have h1 := ((hok.slack_lin hl').2 s hs').2
    rw [hname] at h1
    rw [hch.arow_inj hp hp' hl hl' (slackName_inj.1 h1)]; exact hs'
  · have h1 := ((hok.slack_nl hl').2 s hs').2
    rw [hname] at h1
    exact absurd h1 slackName_inj.2.2

theorem SpFacts.slackJ (hf : SpFacts H l h n m mod comp e ps cols xes ves sp) {p : Piece F} (hp : p ∈ ps) (hl : p.isNl = true) {s : Node F}
    (hs : s ∈ cols) (hn : n ≤ s.id) (hname : s.name = slackNameJ p.jrow) : p.slack = some s := by
  obtain ⟨p', hp', hs'⟩ := hf.newCol.1 ⟨hs, hn⟩
  obtain ⟨k, -, hch⟩ := hf.mf.chain
  obtain ⟨n', m', -, -, hok⟩ := hf.mf.piece hp'
  rcases Piece.slack_row hs' with hl' | hl'
  · have h1 := ((hok.slack_lin hl').2 s hs').2
    rw [hname] at h1
    exact absurd h1.symm slackName_inj.2.2
  · have h1 := ((hok.slack_nl hl').2 s hs').2
    rw [hname] at h1
    rw [hch.jrow_inj hp hp' hl hl' (slackName_inj.2.1 h1)]; exact hs'

theorem SpFacts.hasVar (hf : SpFacts H l h n m mod comp e ps cols xes ves sp) {x : Node F} (hx : x ∈ cols) (hn : x.id < n) : mod.HasVar x := by
  rcases (hf.mem x).1 hx with ⟨hv, ho | ⟨p, hp, ho⟩⟩ | hsl
  · exact hf.mf.objVar hv ho
  · exact hf.mf.pieceVar hp hv ho
  · have := (hf.newCol.2 (List.mem_filterMap.1 hsl)).2
    omega

theorem MFacts.col_of_hasVar (hf : MFacts H l h n m mod comp e ps) (hc : (negOne ==. (zero : F)) = false) {x : Node F}
    (hx : mod.HasVar x) : MFacts.IsCol e ps x := by
  obtain ⟨hv, ho⟩ := hx
  refine .inl ⟨hv, ?_⟩
  rcases ho with ⟨f, hof, ho⟩ | ⟨c, hcm, ho⟩
  · left
    rcases hof with hof | hof
    · rw [hf.objMin f hof]; exact ho
    · obtain ⟨k, k', hk⟩ := hf.objMax f hof
      exact (occ_negN hv f _ _ _ hk).2 hc ho
  · right
    rw [← hf.cs] at hcm
    obtain ⟨p, hp, rfl⟩ := List.mem_map.1 hcm
    obtain ⟨n', m', -, -, hok⟩ := hf.piece hp
    exact ⟨p, hp, (hok.vars hv).2 hc ho⟩

theorem SpFacts.mem_v2i (hf : SpFacts H l h n m mod comp e ps cols xes ves sp) {x : Node F} {i : Nat} :
    (x, i) ∈ sp.var2index ↔ cols[i]? = some x := by
  rw [hf.v2i, List.mem_zipIdx_iff_getElem?]

end Verif
