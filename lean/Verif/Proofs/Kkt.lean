import Verif.Spec.Kkt
import Verif.Proofs.EvalDeriv
import Verif.Proofs.Solve

/-! # First-order conditions of the standard problem and of the model -/

set_option linter.unusedSectionVars false
set_option linter.unusedSimpArgs false

namespace Verif

/-! ### Sums -/

theorem sum_map_zero {α : Type} (l : List α) (f : α → ℝ) (h : ∀ p ∈ l, f p = 0) : (l.map f).sum = 0 := by
  induction l with
  | nil => rfl
  | cons a l ih => rw [List.map_cons, List.sum_cons, h a (by simp), ih fun p hp => h p (by simp [hp]), add_zero]

theorem sum_map_single {α : Type} {l : List α} (hn : l.Nodup) {p0 : α} (hp : p0 ∈ l) (f : α → ℝ) (h : ∀ p ∈ l, p ≠ p0 → f p = 0) :
    (l.map f).sum = f p0 := by
  induction l with
  | nil => simp at hp
  | cons a l ih =>
    rw [List.nodup_cons] at hn
    rw [List.map_cons, List.sum_cons]
    rcases List.mem_cons.1 hp with rfl | hp
    · rw [sum_map_zero l f fun p hp' => h p (by simp [hp']) fun he => hn.1 (he ▸ hp'), add_zero]
    · rw [h a (by simp) fun he => hn.1 (he ▸ hp), zero_add, ih hn.2 hp fun p hp' => h p (by simp [hp'])]

theorem sum_map_add' {α : Type} (l : List α) (f g : α → ℝ) : (l.map fun p => f p + g p).sum = (l.map f).sum + (l.map g).sum := by
  induction l with
  | nil => simp
  | cons a l ih => simp only [List.map_cons, List.sum_cons, ih]; ring

theorem sum_filter_add {α : Type} (l : List α) (P : α → Bool) (f : α → ℝ) :
    (l.map fun p => if P p = true then f p else 0).sum = ((l.filter P).map f).sum := by
  induction l with
  | nil => rfl
  | cons a l ih =>
    simp only [List.map_cons, List.sum_cons, ih, List.filter_cons]
    split <;> simp

theorem vec_get {n : Nat} {f : Nat → ℝ} {i : Nat} (hi : i < n) : (vec n f)[i]? = some (some (f i)) := by
  simp [vec, hi]

theorem vec_get_some {n : Nat} {f : Nat → ℝ} {i : Nat} {w : Option ℝ} (h : (vec n f)[i]? = some w) : i < n ∧ w = some (f i) := by
  unfold vec at h
  rw [List.getElem?_map] at h
  by_cases hi : i < n
  · rw [List.getElem?_range hi] at h
    simp at h
    exact ⟨hi, h.symm⟩
  · simp [hi] at h

@[simp] theorem vec_length (n : Nat) (f : Nat → ℝ) : (vec n f).length = n := by simp [vec]

/-! ### Rows of the linear part -/

section
variable {F : Type} [FloatOps F] {H : HashOrder} {l : Level} {h : Heap F} {n m ar jr : Nat} {mod : Model F} {comp : ModelComp F}
  {e : Node F} {ps : List (Piece F)} {cols : List (Node F)} {xes : List (Node F × F)} {ves : List (Node F × Nat)} {sp : StdProb F}

theorem entriesOf_nil (ps : List (Piece F)) {i : Nat} (h : ∀ p ∈ ps, p.isLin = true → p.arow ≠ i) :
    entriesOf (ps.flatMap fun p => p.coefs.map fun e => (p.arow, e.1, e.2)) i = [] := by
  unfold entriesOf
  rw [List.filter_eq_nil_iff.2, List.map_nil]
  intro e he
  obtain ⟨p, hp, he⟩ := List.mem_flatMap.1 he
  obtain ⟨q, hq, rfl⟩ := List.mem_map.1 he
  have hl : p.isLin = true := by
    by_contra hno
    rw [Piece.coefs_nil (by simpa using hno)] at hq; simp at hq
  simpa using h p hp hl

theorem PChain.arow_entries (hc : PChain H l h n ar jr ps m) {p : Piece F} (hp : p ∈ ps) (hl : p.isLin = true) :
    entriesOf (ps.flatMap fun p => p.coefs.map fun e => (p.arow, e.1, e.2)) p.arow = p.coefs := by
  have hinj := fun {q} hq hqn => hc.arow_inj (p' := p) (p := q) hq hp hqn hl
  have hnd : (ps.filter Piece.isLin).Nodup := by
    refine List.Nodup.of_map Piece.arow ?_
    rw [hc.lin]; exact List.nodup_range'
  clear hc
  induction ps with
  | nil => simp at hp
  | cons q ps ih =>
    rw [List.flatMap_cons, entriesOf_append]
    by_cases hq : q = p
    · subst hq
      have hnot : q ∉ ps := by
        intro hm
        rw [List.filter_cons, if_pos hl, List.nodup_cons] at hnd
        exact hnd.1 (List.mem_filter.2 ⟨hm, hl⟩)
      rw [entriesOf_same, entriesOf_nil ps, List.append_nil]
      intro r hr hrl heq
      exact hnot (hinj (List.mem_cons_of_mem _ hr) hrl heq ▸ hr)
    · have hp' : p ∈ ps := (List.mem_cons.1 hp).resolve_left (Ne.symm hq)
      rw [ih hp' (fun hq hqn => hinj (List.mem_cons_of_mem _ hq) hqn) (by
        rw [List.filter_cons] at hnd
        split at hnd
        · exact (List.nodup_cons.1 hnd).2
        · exact hnd)]
      have := entriesOf_nil [q] (i := p.arow) fun r hr hrl heq => by
        simp only [List.mem_singleton] at hr
        subst hr
        exact hq (hinj List.mem_cons_self hrl heq)
      simp only [List.flatMap_cons, List.flatMap_nil, List.append_nil] at this
      rw [this, List.nil_append]

theorem MFacts.a_eq (hf : MFacts H l h n m mod comp e ps) :
    comp.constr.a = ps.flatMap fun p => p.coefs.map fun e => (p.arow, e.1, e.2) := by
  rw [hf.constr]; simp [ConstrComp.concat, List.flatMap_map, Piece.out]

theorem MFacts.b_len (hf : MFacts H l h n m mod comp e ps) : comp.constr.b.length = (ps.filter Piece.isLin).length := by
  have : comp.constr.b = (ps.filter Piece.isLin).map fun p => FloatOps.neg p.comp.prop.b := by
    rw [hf.constr, ← flatMap_if]
    simp [ConstrComp.concat, List.flatMap_map, Piece.out]
  rw [this, List.length_map]

end

section
variable {H : HashOrder} {h : Heap (Option ℝ)} {n m : Nat} {cols : List (Node (Option ℝ))} {comp : ModelComp (Option ℝ)}
  {mod : Model (Option ℝ)} {e : Node (Option ℝ)} {ps : List (Piece (Option ℝ))} {xes : List (Node (Option ℝ) × Option ℝ)}
  {ves : List (Node (Option ℝ) × Nat)} {sp : StdProb (Option ℝ)} {σ : Env (Option ℝ)}

/-- A slack does not occur in the expressions of the model. -/
theorem SpFacts.slackAbsent (hf : SpFacts H .noSelf h n m mod comp e ps cols xes ves sp) {p0 : Piece (Option ℝ)} (hp0 : p0 ∈ ps)
    {s : Node (Option ℝ)} (hs : p0.slack = some s) : numD σ s e = 0 ∧ ∀ p ∈ ps, numD σ s p.exp = 0 := by
  have hsc := MFacts.slackCol hf hp0 hs
  have hsm := List.mem_filterMap.2 ⟨p0, hp0, hs⟩
  constructor
  · refine numD_absent fun y hy => ?_
    rw [← Bool.not_eq_true]
    intro hys
    have : y = s := ((hf.mf.goodE.sub hy).ptrEq_iff (hf.cok.good _ hsc)).1 hys
    subst this
    exact (hf.mf.slack_new hsm (hf.mf.objVar (hf.cok.var _ hsc) hy)).2.2 rfl
  · intro p hp
    obtain ⟨n', m', hn', -, hok⟩ := hf.mf.piece hp
    refine numD_absent fun y hy => ?_
    rw [← Bool.not_eq_true]
    intro hys
    have : y = s := ((hok.goodExp.sub hy).ptrEq_iff (hf.cok.good _ hsc)).1 hys
    subst this
    exact (hf.mf.slack_new hsm (hf.mf.pieceVar hp (hf.cok.var _ hsc) hy)).2.2 rfl

/-- An affine expression: the reported coefficient is the derivative. -/
theorem coef_numD {l : Level} (hl : l ≠ .raw) {e x : Node (Option ℝ)} (hg : Good l h e) (ha : Aff e) (hd : Defined e σ)
    (hx : x.isVar = true) {t : ℝ} (ht : σ x.id = some (some t)) :
    (∀ c, (x, c) ∈ e.stdProperties.a → c = some (numD σ x e)) := by
  intro c hc
  rw [affine_numD hl hg ha hd hx ht, coefSum_mem (stdProperties_keys e).1 hc]
  obtain ⟨w, hw⟩ := hd
  rw [affine_val hl σ e hg ha] at hw
  obtain ⟨w1, b, h1, h2, -⟩ := Exact.add_eq_some.1 hw
  obtain ⟨c', hc'⟩ := lin_coef_some h1 hc
  simp only at hc'
  rw [hc']; rfl

/-- The entries of a linear row. -/
theorem SpFacts.lin_entry (hf : SpFacts H .noSelf h n m mod comp e ps cols xes ves sp) {p : Piece (Option ℝ)} (hp : p ∈ ps)
    (hl : p.isLin = true) (hd : Defined p.exp σ) (hσ : ∀ x ∈ cols, ∃ t, σ x.id = some (some t)) {x : Node (Option ℝ)} {i : Nat}
    (hx : cols[i]? = some x) :
    (stdA cols comp).dense p.arow i = some (numD σ x p.exp - slackD x p.slack) := by
  obtain ⟨n', m', hn', -, hok⟩ := hf.mf.piece hp
  obtain ⟨kc, hkc, hch⟩ := hf.mf.chain
  have hxm := List.mem_of_getElem? hx
  have haff : Aff p.exp := by
    have := hok.affine
    rw [hok.prop.2] at this
    unfold Aff
    rw [this]
    cases hk : p.kind <;> simp [Piece.isLin, Piece.isNl, hk] at hl ⊢
  have hck : ∀ q ∈ p.coefs, q.1 ∈ cols := fun q hq => by
    rcases hok.coefKeys hq with ⟨a, b⟩ | a
    · exact hf.pieceCol hp a b
    · exact MFacts.slackCol hf hp a
  have hpn : NodupP (keysN p.comp.prop.a) := by rw [hok.prop.2]; exact (stdProperties_keys p.exp).1
  have hpk : ∀ q ∈ p.comp.prop.a, mod.HasVar q.1 := fun q hq => hf.mf.pieceVar hp (hok.propKeys hq).1 (hok.propKeys hq).2
  have hps : ∀ q ∈ p.comp.prop.a, ∀ s, p.slack = some s → s.id ≠ q.1.id := fun q hq s hs => by
    have := (hf.mf.slack_new (List.mem_filterMap.2 ⟨p, hp, hs⟩) (hpk q hq)).2.2
    intro hid
    refine this (Good.eq_of_id (hf.cok.good _ ?_) (hf.cok.good _ ?_) hid.symm)
    · exact hf.pieceCol hp (hok.propKeys hq).1 (hok.propKeys hq).2
    · exact MFacts.slackCol hf hp hs
  have hcases : ∃ es, es.Perm p.comp.prop.a ∧ p.coefs = es ++ (match p.slack with | some s => [(s, negOne)] | none => []) := by
    cases hk : p.kind with
    | linEq es => exact ⟨es, hok.linEq es hk, by simp [Piece.coefs, Piece.slack, hk]⟩
    | linIneq es s => exact ⟨es, (hok.linIneq es s hk).1, by simp [Piece.coefs, Piece.slack, hk]⟩
    | _ => simp [Piece.isLin, hk] at hl
  obtain ⟨es, hes, hco⟩ := hcases
  have hcn : NodupP (keysN p.coefs) := by
    rw [hco]
    have hen : NodupP (keysN es) := hpn.perm (hes.map _).symm
    cases hs : p.slack with
    | none => simpa using hen
    | some s =>
      simp only
      unfold keysN NodupP
      rw [List.map_append, List.pairwise_append]
      refine ⟨hen, by simp, ?_⟩
      intro a ha b hb
      obtain ⟨q, hq, rfl⟩ := List.mem_map.1 ha
      simp only [List.map_cons, List.map_nil, List.mem_singleton] at hb
      subst hb
      exact (hf.mf.slack_new (List.mem_filterMap.2 ⟨p, hp, hs⟩) (hpk q (hes.mem_iff.1 hq))).1
  have hval : ∀ q ∈ p.coefs, q.2 = some (numD σ q.1 p.exp - slackD q.1 p.slack) := by
    intro q hq
    rw [hco] at hq
    rcases List.mem_append.1 hq with hq | hq
    · have hq' := hes.mem_iff.1 hq
      have hk := hok.propKeys hq'
      have hqc := hf.pieceCol hp hk.1 hk.2
      obtain ⟨t, ht⟩ := hσ _ hqc
      rw [hok.prop.2] at hq'
      have := coef_numD (by simp) hok.goodExp haff hd hk.1 ht q.2 hq'
      rw [this]
      congr 1
      have : slackD q.1 p.slack = 0 := by
        cases hs : p.slack with
        | none => rfl
        | some s => simp only [slackD]; rw [if_neg (hps q (hes.mem_iff.1 hq) s hs)]
      rw [this, sub_zero]
    · cases hs : p.slack with
      | none => simp [hs] at hq
      | some s =>
        simp only [hs, List.mem_singleton] at hq
        subst hq
        simp only [slackD, if_true, (hf.slackAbsent hp hs).2 p hp]
        change (some (-1 : ℝ)) = _
        norm_num
  have key := Verif.jac_entry (σ := σ) hf.cok (gs := p.coefs.map fun q => (q.1, Node.const 0 q.2))
    (by
      intro q hq
      obtain ⟨q', hq', rfl⟩ := List.mem_map.1 hq
      exact hck q' hq')
    (by rw [keysN_mapSnd]; exact hcn) (D := fun x => numD σ x p.exp - slackD x p.slack)
    (by
      intro q hq
      obtain ⟨q', hq', rfl⟩ := List.mem_map.1 hq
      simp only [Node.evaluate]
      exact hval q' hq') hx
    (by
      intro hno
      have hno' : ∀ q ∈ p.coefs, q.1 ≠ x := fun q hq => hno _ (List.mem_map.2 ⟨q, hq, rfl⟩)
      have hsl : slackD x p.slack = 0 := by
        cases hs : p.slack with
        | none => rfl
        | some s =>
          simp only [slackD]
          rw [if_neg]
          intro hid
          have hsx : s = x := Good.eq_of_id (hf.cok.good _ (MFacts.slackCol hf hp hs)) (hf.cok.good _ hxm) hid
          refine hno' (s, negOne) ?_ hsx
          rw [hco, hs]; simp
      simp only [hsl, sub_zero]
      refine numD_absent fun y hy => ?_
      rw [← Bool.not_eq_true]
      intro hyx
      have : y = x := ((hok.goodExp.sub hy).ptrEq_iff (hf.cok.good _ hxm)).1 hyx
      subst this
      have hk := (keys_iff hok.goodExp).2 ⟨hf.cok.var _ hxm, hy⟩
      rw [← hok.prop.2] at hk
      obtain ⟨q, hq, rfl⟩ := List.mem_map.1 hk
      exact hno' q (by rw [hco]; exact List.mem_append_left _ (hes.mem_iff.2 hq)) rfl)
  rw [← key]
  unfold Coo.dense
  rw [rowOf_stdA, hf.mf.a_eq, hch.arow_entries hp hl]
  simp only [valuesAt, List.filter_map, List.map_map, Function.comp_def, Node.evaluate]


/-- The gradient that evaluating delivers. -/
theorem SpFacts.grad (hf : SpFacts H .noSelf h n m mod comp e ps cols xes ves sp) {q r : Minlp (Option ℝ)} (hq : q ∈ sp.prob.views)
    {xs : List (Option ℝ)} (hx : xs.length = cols.length) (hr : q.evaluate xs = .ok r) (hd : Defined e (pointEnv cols xs))
    (hσ : ∀ x ∈ cols, ∃ t, pointEnv cols xs x.id = some (some t)) {i : Nat} {x : Node (Option ℝ)} (hi : cols[i]? = some x) :
    r.buf.gphi[i]? = some (some (numD (pointEnv cols xs) x e)) := by
  have hxm := List.mem_of_getElem? hi
  rcases hf.life with ⟨⟨haf, -⟩, -, hl⟩ | ⟨-, -, hl⟩
  · rw [(hl q hq).evaluate (by simp [stdC, hx])] at hr
    injection hr with hr
    subst hr
    simp only [stdC]
    rw [List.getElem?_map, hi, Option.map_some]
    congr 1
    obtain ⟨t, ht⟩ := hσ x hxm
    have hpr := hf.mf.objProp.2
    rw [hpr] at haf ⊢
    unfold valAt
    cases hg : getN e.stdProperties.a x with
    | some v =>
      obtain ⟨y, hy, hyx⟩ := getN_some_iff hg
      have hyc : y ∈ cols := (hf.mem y).2 (.inl ⟨((stdProperties_keys e).2.1 y (List.mem_map.2 ⟨_, hy, rfl⟩)).1,
        .inl ((stdProperties_keys e).2.1 y (List.mem_map.2 ⟨_, hy, rfl⟩)).2⟩)
      have : y = x := ((hf.cok.good _ hyc).ptrEq_iff (hf.cok.good _ hxm)).1 hyx
      subst this
      exact coef_numD (by simp) hf.mf.goodE haf hd (hf.cok.var _ hxm) ht v hy
    | none =>
      rw [affine_numD (by simp) hf.mf.goodE haf hd (hf.cok.var _ hxm) ht]
      have : coefSum e.stdProperties.a x = 0 := by
        unfold coefSum
        rw [List.filter_eq_nil_iff.2, List.map_nil, List.sum_nil]
        intro a ha
        rw [getN_none_iff.1 hg a.1 (List.mem_map.2 ⟨a, ha, rfl⟩)]
        simp
      rw [this]; rfl
  · rw [(hl q hq).evaluate hf.cok hf.cmpOk hf.vesP (by omega)] at hr
    injection hr with hr
    subst hr
    simp only [evalBuf]
    rw [List.getElem?_map, hi, Option.map_some, hf.gphi_entry hd hxm]


/-- The multiplier of the row of a piece. -/
def Piece.mult (lam nu : Nat → ℝ) (p : Piece (Option ℝ)) : ℝ :=
  if p.isLin = true then lam p.arow else if p.isNl = true then nu p.jrow else 0

theorem Piece.lin_not_nl {p : Piece (Option ℝ)} (hl : p.isLin = true) : p.isNl = false := by
  unfold Piece.isLin at hl; unfold Piece.isNl
  cases hk : p.kind <;> simp [hk] at hl ⊢

theorem PChain.row_sums {ar jr : Nat} {H : HashOrder} {l : Level} (hc : PChain H l h ar 0 0 ps jr) (lam nu : Nat → ℝ) (D : Piece (Option ℝ) → ℝ)
    {a j : Nat → ℝ} (ha : ∀ p ∈ ps, p.isLin = true → a p.arow = D p) (hj : ∀ p ∈ ps, p.isNl = true → j p.jrow = D p) :
    ((List.range (ps.filter Piece.isLin).length).map fun k => a k * lam k).sum +
      ((List.range (ps.filter Piece.isNl).length).map fun k => j k * nu k).sum = (ps.map fun p => D p * p.mult lam nu).sum := by
  have h1 : (ps.map fun p => D p * p.mult lam nu) = ps.map fun p =>
      (if p.isLin = true then D p * lam p.arow else 0) + if p.isNl = true then D p * nu p.jrow else 0 := by
    refine List.map_congr_left fun p hp => ?_
    unfold Piece.mult
    by_cases hl : p.isLin = true
    · simp [hl, Piece.lin_not_nl hl]
    · by_cases hn : p.isNl = true <;> simp [hl, hn]
  rw [h1, sum_map_add', sum_filter_add, sum_filter_add]
  congr 1
  · have := hc.lin
    rw [List.range_eq_range', ← this, List.map_map]
    congr 1
    refine List.map_congr_left fun p hp => ?_
    obtain ⟨hp, hl⟩ := List.mem_filter.1 hp
    simp only [Function.comp_apply, ha p hp hl]
  · have := hc.nl
    rw [List.range_eq_range', ← this, List.map_map]
    congr 1
    refine List.map_congr_left fun p hp => ?_
    obtain ⟨hp, hl⟩ := List.mem_filter.1 hp
    simp only [Function.comp_apply, hj p hp hl]

theorem SpFacts.na_eq (hf : SpFacts H .noSelf h n m mod comp e ps cols xes ves sp) {q : Minlp (Option ℝ)} (hq : q ∈ sp.prob.views) :
    q.nx = cols.length ∧ q.na = (ps.filter Piece.isLin).length ∧ q.nf = (ps.filter Piece.isNl).length := by
  have hv := hf.view hq
  refine ⟨by simp [Minlp.nx, hv.a, stdA, Coo.cols], by simp [Minlp.na, hv.b, hf.mf.b_len], ?_⟩
  have hfl : comp.constr.f.length = (ps.filter Piece.isNl).length := by rw [hf.mf.f_eq, List.length_map]
  rw [← hfl]
  rcases hf.life with ⟨⟨-, hnf⟩, -, hl⟩ | ⟨-, -, hl⟩
  · rw [hnf]
    have := (hl q hq).f
    simp [Minlp.nf, this]
  · have := (hl q hq).buf
    simp [Minlp.nf, this.f]


theorem SpFacts.uidx_iff (hf : SpFacts H .noSelf h n m mod comp e ps cols xes ves sp) {i : Nat} {c : Constraint (Option ℝ)}
    {x : Node (Option ℝ)} (hx : cols[i]? = some x) : (i, c) ∈ sp.uindex2constr ↔ (upT comp x).2 = some c := by
  rw [← getNat_mem hf.uidx.nodup, hf.uidx.get, hx]; rfl

theorem SpFacts.lidx_iff (hf : SpFacts H .noSelf h n m mod comp e ps cols xes ves sp) {i : Nat} {c : Constraint (Option ℝ)}
    {x : Node (Option ℝ)} (hx : cols[i]? = some x) : (i, c) ∈ sp.lindex2constr ↔ (loT comp x).2 = some c := by
  rw [← getNat_mem hf.lidx.nodup, hf.lidx.get, hx]; rfl

theorem SpFacts.uidx_col (hf : SpFacts H .noSelf h n m mod comp e ps cols xes ves sp) {i : Nat} {c : Constraint (Option ℝ)}
    (hc : (i, c) ∈ sp.uindex2constr) : ∃ x, cols[i]? = some x ∧ (upT comp x).2 = some c := by
  rw [← getNat_mem hf.uidx.nodup, hf.uidx.get] at hc
  exact Option.bind_eq_some_iff.1 hc

theorem SpFacts.lidx_col (hf : SpFacts H .noSelf h n m mod comp e ps cols xes ves sp) {i : Nat} {c : Constraint (Option ℝ)}
    (hc : (i, c) ∈ sp.lindex2constr) : ∃ x, cols[i]? = some x ∧ (loT comp x).2 = some c := by
  rw [← getNat_mem hf.lidx.nodup, hf.lidx.get] at hc
  exact Option.bind_eq_some_iff.1 hc

/-- A constraint recorded for an upper bound gave it. -/
theorem SpFacts.up_some (hf : SpFacts H .noSelf h n m mod comp e ps cols xes ves sp) {c : Constraint (Option ℝ)} {x : Node (Option ℝ)}
    (hx : x ∈ cols) (hc : (upT comp x).2 = some c) :
    ∃ up, (upT comp x).1 = some up ∧ ∃ p ∈ ps, p.c = c ∧ p.bnd = some (true, x, some up) := by
  obtain ⟨up, h1, -, h3, -⟩ := tightest_up (10 ^ 8 : ℝ) comp.constr.u x
  obtain ⟨b, hb, hbx, he⟩ := h3 c hc
  obtain ⟨p, hp, hp1, hp2⟩ := hf.mf.upper.1 hb
  have : b.1 = x := ((hf.cok.good _ (hf.cmpOk.u b hb)).ptrEq_iff (hf.cok.good _ hx)).1 hbx
  rw [this, he] at hp1
  rw [he] at hp2
  exact ⟨up, h1, p, hp, hp2.symm, hp1⟩

theorem SpFacts.lo_some (hf : SpFacts H .noSelf h n m mod comp e ps cols xes ves sp) {c : Constraint (Option ℝ)} {x : Node (Option ℝ)}
    (hx : x ∈ cols) (hc : (loT comp x).2 = some c) :
    ∃ lo, (loT comp x).1 = some lo ∧ ∃ p ∈ ps, p.c = c ∧ p.bnd = some (false, x, some lo) := by
  obtain ⟨lo, h1, -, h3, -⟩ := tightest_lo (-(10 ^ 8) : ℝ) comp.constr.l x
  obtain ⟨b, hb, hbx, he⟩ := h3 c hc
  obtain ⟨p, hp, hp1, hp2⟩ := hf.mf.lower.1 hb
  have : b.1 = x := ((hf.cok.good _ (hf.cmpOk.l b hb)).ptrEq_iff (hf.cok.good _ hx)).1 hbx
  rw [this, he] at hp1
  rw [he] at hp2
  exact ⟨lo, h1, p, hp, hp2.symm, hp1⟩

theorem up_none {x : Node (Option ℝ)} (hc : (upT comp x).2 = none) : (upT comp x).1 = some (10 ^ 8) := by
  obtain ⟨up, h1, -, -, h4⟩ := tightest_up (10 ^ 8 : ℝ) comp.constr.u x
  rw [← (h4 hc).1]; exact h1

theorem lo_none {x : Node (Option ℝ)} (hc : (loT comp x).2 = none) : (loT comp x).1 = some (-(10 ^ 8)) := by
  obtain ⟨up, h1, -, -, h4⟩ := tightest_lo (-(10 ^ 8) : ℝ) comp.constr.l x
  rw [← (h4 hc).1]; exact h1

end

end Verif
