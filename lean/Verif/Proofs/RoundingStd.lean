import Verif.Spec.RoundingStd
import Verif.Proofs.Rounding
import Verif.Proofs.StdEval
import Verif.Proofs.Affine

/-! # Rounding errors of the coefficients of linear expressions -/

namespace Verif

set_option linter.unusedSectionVars false

section
variable {F : Type} [FloatOps F] {β : Type} {g : β → β → β}

/-- Values of two maps, merged. -/
def optMerge (g : β → β → β) : Option β → Option β → Option β
  | none, o => o
  | some a, none => some a
  | some a, some b => some (g a b)

theorem getN_updN (m : List (Node F × β)) (k x : Node F) (v : β) :
    getN (updN g m k v) x = if k.ptrEq x then optMerge g (getN m x) (some v) else getN m x := by
  induction m with
  | nil => simp only [updN, getN]; split <;> rfl
  | cons e m ih =>
    obtain ⟨y, w⟩ := e
    simp only [updN]
    by_cases hy : y.ptrEq k = true
    · simp only [hy, if_true, getN]
      by_cases hk : k.ptrEq x = true
      · simp [hk, ptrEq_trans hy hk, optMerge]
      · have : y.ptrEq x = false := by
          cases hyx : y.ptrEq x with
          | false => rfl
          | true => exact absurd (ptrEq_trans (by rw [ptrEq_symm]; exact hy) hyx) hk
        simp [hk, this]
    · simp only [hy, Bool.false_eq_true, if_false, getN, ih]
      by_cases hyx : y.ptrEq x = true
      · have : k.ptrEq x = false := by
          cases hk : k.ptrEq x with
          | false => rfl
          | true => exact absurd (ptrEq_trans hyx (by rw [ptrEq_symm]; exact hk)) hy
        simp [hyx, this]
      · simp [hyx]

theorem getN_foldUpd {l : List (Node F × β)} (hl : NodupP (keysN l)) (x : Node F) :
    ∀ m : List (Node F × β), getN (foldUpd g m l) x = optMerge g (getN m x) (getN l x) := by
  induction l with
  | nil => intro m; cases h : getN m x <;> simp [foldUpd, getN, optMerge, h]
  | cons e l ih =>
    intro m
    obtain ⟨k, v⟩ := e
    show getN (foldUpd g (updN g m k v) l) x = _
    rw [ih (List.pairwise_cons.1 hl).2, getN_updN]
    simp only [getN]
    by_cases hk : k.ptrEq x = true
    · have hn : getN l x = none := getN_none_of fun y hy => by
        have h1 := (List.pairwise_cons.1 hl).1 y hy
        cases hyx : y.ptrEq x with
        | false => rfl
        | true => rw [ptrEq_trans hk (by rw [ptrEq_symm]; exact hyx)] at h1; cases h1
      rw [hn]
      simp only [hk, if_true]
      cases getN m x <;> rfl
    · simp [hk]

end

variable {u : ℝ} {A : FlArith u}

/-- The coefficient of `x` in an expression. -/
noncomputable def coefIn (x : Node (Fl A)) (e : Node (Fl A)) : Fl A := e.stdProperties.coef x

theorem merge_err (hu : 0 ≤ u) {o p : Option (Fl A)} {y z : ℝ} (ho : o.getD (Fl.num A 0) = Fl.num A y) (hp : p.getD (Fl.num A 0) = Fl.num A z) :
    ∃ w, (optMerge (fun a b : Fl A => a +. b) o p).getD (Fl.num A 0) = Fl.num A w ∧ |w - (y + z)| ≤ u * |y + z| := by
  cases o with
  | none =>
    have hy : 0 = y := Fl.num_inj.1 ho
    subst hy
    exact ⟨z, hp, by simp; positivity⟩
  | some a =>
    cases p with
    | none =>
      have hz : 0 = z := Fl.num_inj.1 hp
      subst hz
      exact ⟨y, ho, by simp; positivity⟩
    | some b =>
      have ha : a = Fl.num A y := ho
      have hb : b = Fl.num A z := hp
      subst ha hb
      exact ⟨A.add y z, rfl, A.add_err _ _⟩

theorem coef_sum (hu : 0 ≤ u) {x : Node (Fl A)} {k : ℕ} {as : List (Node (Fl A))} {ts : List (ℝ × ℝ)}
    (h : List.Forall₂ (fun a t => ∃ y, coefIn x a = Fl.num A y ∧ Approx u y t.1 t.2 k) as ts) :
    ∀ {acc : Prop' (Fl A)} {y va ma : ℝ} {j : ℕ}, k ≤ j → acc.coef x = Fl.num A y → Approx u y va ma j →
    ∃ z, (Node.stdProperties.addProps acc as).coef x = Fl.num A z ∧
      Approx u z (va + (ts.map Prod.fst).sum) (ma + (ts.map Prod.snd).sum) (j + as.length) := by
  induction h with
  | nil =>
    intro acc y va ma j _ hy ha
    exact ⟨y, hy, by simpa using ha⟩
  | @cons a t as ts ht _ ih =>
    intro acc y va ma j hj hy ha
    obtain ⟨z, hz, haz⟩ := ht
    obtain ⟨w, hw, hw'⟩ := merge_err hu hy hz
    have hnew : Prop'.coef ⟨acc.affine && a.stdProperties.affine, a.stdProperties.a.foldl (fun m e => addToN m e.1 e.2) acc.a, acc.b +. a.stdProperties.b⟩ x
        = Fl.num A w := by
      unfold Prop'.coef
      simp only
      rw [foldl_addToN, getN_foldUpd (stdProperties_keys a).1]
      exact hw
    obtain ⟨r, hr, har⟩ := ih (j := j + 1) (by omega) hnew ((ha.add (haz.mono hu hj)).round hu hw')
    refine ⟨r, ?_, ?_⟩
    · simp only [Node.stdProperties.addProps]; exact hr
    · simp only [List.map_cons, List.sum_cons, List.length_cons]
      rw [← add_assoc, ← add_assoc, show j + (as.length + 1) = j + 1 + as.length by omega]
      exact har

theorem scaled_map (e : Node (Fl A)) (f : Fl A → Fl A) (x : Node (Fl A)) :
    getN (e.stdProperties.a.foldl (fun m q => insertN m q.1 (f q.2)) []) x = (getN e.stdProperties.a x).map f := by
  rw [foldl_insertN (fun q => f q.2), foldUpd_nil (by rw [keysN_mapSnd]; exact (stdProperties_keys e).1), getN_mapSnd]

theorem scaled_coef (hf : ∀ y, ∃ z, f (Fl.num A y) = Fl.num A z ∧ |z - r * y| ≤ u * |r * y|) {o : Option (Fl A)} {y : ℝ}
    (hy : o.getD (Fl.num A 0) = Fl.num A y) : ∃ z, (o.map f).getD (Fl.num A 0) = Fl.num A z ∧ |z - r * y| ≤ u * |r * y| := by
  cases o with
  | none =>
    have hy : 0 = y := Fl.num_inj.1 hy
    subst hy
    exact ⟨0, rfl, by simp⟩
  | some a =>
    have ha : a = Fl.num A y := hy
    subst ha
    exact hf y

noncomputable instance coefLin (x : Node (Fl A)) : LinEv (coefIn x) where
  K _ := Fl.num A 0
  κ _ := 0
  const _ _ := rfl
  K_num _ := rfl
  κ_lin _ := by simp
  K_add {a b y z} ha hb := by
    rw [Fl.num_inj] at ha hb
    subst ha hb
    exact ⟨0, rfl, by simp⟩
  K_mulL c {a y} ha := by
    rw [Fl.num_inj] at ha
    subst ha
    exact ⟨0, rfl, by simp⟩
  K_mulR c {a y} ha := by
    rw [Fl.num_inj] at ha
    subst ha
    exact ⟨0, rfl, by simp⟩
  K_div {c a y} hc ha := by
    rw [Fl.num_inj] at ha
    subst ha
    exact ⟨0, rfl, by simp⟩
  sum hu i {k as ts v0 m0} h h0 := coef_sum hu h (acc := ⟨true, [], zero⟩) le_rfl rfl h0
  mulL i j c {a y} ha := by
    have := scaled_coef (f := fun v : Fl A => v *. Fl.num A c) (r := c) (fun y => ⟨_, rfl, by rw [mul_comm c y]; exact A.mul_err _ _⟩) ha
    obtain ⟨z, hz, hz'⟩ := this
    refine ⟨z, ?_, hz'⟩
    rw [← hz, ← scaled_map a (fun v => v *. Fl.num A c)]
    rfl
  mulR i j c {a y} ha := by
    have := scaled_coef (f := fun v : Fl A => v *. Fl.num A c) (r := c) (fun y => ⟨_, rfl, by rw [mul_comm c y]; exact A.mul_err _ _⟩) ha
    obtain ⟨z, hz, hz'⟩ := this
    refine ⟨z, ?_, hz'⟩
    rw [← hz, ← scaled_map a (fun v => v *. Fl.num A c)]
    rfl
  divR i j {c a y} hc ha := by
    have := scaled_coef (f := fun v : Fl A => v /. Fl.num A c) (r := c⁻¹)
      (fun y => ⟨_, Fl.div_num hc, by rw [mul_comm, ← div_eq_mul_inv]; exact A.div_err _ _ hc⟩) ha
    obtain ⟨z, hz, hz'⟩ := this
    rw [mul_comm, ← div_eq_mul_inv] at hz'
    refine ⟨z, ?_, hz'⟩
    rw [← hz, ← scaled_map a (fun v => v /. Fl.num A c)]
    rfl

/-- The constant of an expression. -/
noncomputable def constIn (e : Node (Fl A)) : Fl A := e.stdProperties.b

theorem const_sum (hu : 0 ≤ u) {k : ℕ} {as : List (Node (Fl A))} {ts : List (ℝ × ℝ)}
    (h : List.Forall₂ (fun a t => ∃ y, constIn a = Fl.num A y ∧ Approx u y t.1 t.2 k) as ts) :
    ∀ {acc : Prop' (Fl A)} {y va ma : ℝ} {j : ℕ}, k ≤ j → acc.b = Fl.num A y → Approx u y va ma j →
    ∃ z, (Node.stdProperties.addProps acc as).b = Fl.num A z ∧
      Approx u z (va + (ts.map Prod.fst).sum) (ma + (ts.map Prod.snd).sum) (j + as.length) := by
  induction h with
  | nil =>
    intro acc y va ma j _ hy ha
    exact ⟨y, hy, by simpa using ha⟩
  | @cons a t as ts ht _ ih =>
    intro acc y va ma j hj hy ha
    obtain ⟨z, hz, haz⟩ := ht
    have hz : a.stdProperties.b = Fl.num A z := hz
    obtain ⟨r, hr, har⟩ := ih (acc := ⟨acc.affine && a.stdProperties.affine, a.stdProperties.a.foldl (fun m e => addToN m e.1 e.2) acc.a, acc.b +. a.stdProperties.b⟩)
      (j := j + 1) (by omega) (by simp only; rw [hy, hz, Fl.add_num]) ((ha.add (haz.mono hu hj)).round hu (A.add_err _ _))
    refine ⟨r, ?_, ?_⟩
    · simp only [Node.stdProperties.addProps]; exact hr
    · simp only [List.map_cons, List.sum_cons, List.length_cons]
      rw [← add_assoc, ← add_assoc, show j + (as.length + 1) = j + 1 + as.length by omega]
      exact har

noncomputable instance constLin : LinEv (constIn (A := A)) where
  K a := a
  κ c := c
  const _ _ := rfl
  K_num _ := rfl
  κ_lin c := (mul_one c).symm
  K_add ha hb := by
    subst ha hb
    exact ⟨_, rfl, A.add_err _ _⟩
  K_mulL c {a x} ha := by
    subst ha
    exact ⟨_, rfl, A.mul_err _ _⟩
  K_mulR c {a x} ha := by
    subst ha
    exact ⟨_, rfl, by rw [mul_comm c x]; exact A.mul_err _ _⟩
  K_div {c a x} hc ha := by
    subst ha
    exact ⟨_, Fl.div_num hc, A.div_err _ _ hc⟩
  sum hu i {k as ts v0 m0} h h0 := const_sum hu h (acc := ⟨true, [], zero⟩) le_rfl rfl h0
  mulL i j c {a x} ha := by
    have ha : a.stdProperties.b = Fl.num A x := ha
    exact ⟨A.mul c x, by simp only [constIn, Node.stdProperties, ha, Fl.mul_num], A.mul_err _ _⟩
  mulR i j c {a x} ha := by
    have ha : a.stdProperties.b = Fl.num A x := ha
    exact ⟨A.mul x c, by simp only [constIn, Node.stdProperties, ha, Fl.mul_num], by rw [mul_comm c x]; exact A.mul_err _ _⟩
  divR i j {c a x} hc ha := by
    have ha : a.stdProperties.b = Fl.num A x := ha
    exact ⟨_, by simp only [constIn, Node.stdProperties, ha]; exact Fl.div_num hc, A.div_err _ _ hc⟩

theorem divC_ne {a e : Node (Fl A)} {c : ℝ} {i n n' : ℕ} (h : divN a (.const i (Fl.num A c)) n = .ok (e, n')) : c ≠ 0 := by
  intro h0
  subst h0
  unfold divN at h
  rw [Fl.zero_def, if_pos (show (Node.const i (Fl.num A 0)).isConstVal (Fl.num A 0) = true from Fl.eq_num.2 rfl)] at h
  exact absurd h (by simp [M.panic])

theorem writesLinear_rep (hu : 0 ≤ u) {e : Node (Fl A)} {α μ : ℕ → ℝ} {β ν : ℝ} {k : ℕ} (h : WritesLinear e α β μ ν k) :
    LinExpr e ∧ (∀ x, x.isVar = true → Rep (coefIn x) e (α x.id) (μ x.id) k) ∧ Rep constIn e β ν k := by
  induction h with
  | const c h =>
    refine ⟨?_, fun x _ => ?_, rep_const hu h⟩
    · rw [newConst_ok] at h
      obtain ⟨rfl, -⟩ := h
      exact .const _ _
    · have := rep_const (ev := coefIn x) hu h
      simpa [LinEv.κ] using this
  | @var e n n' s kind h =>
    rw [newVar_eq] at h
    cases h
    refine ⟨.var _ _ _, fun x hx => ?_, Rep.single hu (x := 0) rfl rfl (by simpa using Approx.exact (u := u) 0)⟩
    cases x <;> simp [Node.isVar] at hx
    rename_i i s' k'
    refine Rep.single hu (x := (Pi.single n 1 : ℕ → ℝ) i) rfl ?_ ?_
    · by_cases hi : n = i
      · subst hi
        simp [coefIn, Prop'.coef, Node.stdProperties, getN, Node.ptrEq, Node.tag, Node.id]
      · simp [coefIn, Prop'.coef, Node.stdProperties, getN, Node.ptrEq, Node.tag, Node.id, hi]
    · by_cases hi : n = i
      · subst hi
        simpa [Node.id] using Approx.exact (u := u) 1
      · simpa [Node.id, Pi.single_eq_of_ne (Ne.symm hi)] using Approx.exact (u := u) 0
  | add _ _ h iha ihb => exact ⟨.add iha.1 ihb.1 h, fun x hx => rep_addN hu (iha.2.1 x hx) (ihb.2.1 x hx) h, rep_addN hu iha.2.2 ihb.2.2 h⟩
  | addScalar c _ h ih =>
    exact ⟨.addScalar ih.1 h, fun x hx => by simpa [LinEv.κ] using rep_addS hu (ih.2.1 x hx) h, rep_addS hu ih.2.2 h⟩
  | scalarAdd c _ h ih =>
    exact ⟨.scalarAdd ih.1 h, fun x hx => by simpa [LinEv.κ] using rep_sAdd hu (ih.2.1 x hx) h, rep_sAdd hu ih.2.2 h⟩
  | sub _ _ h iha ihb => exact ⟨.sub iha.1 ihb.1 h, fun x hx => rep_subN hu (iha.2.1 x hx) (ihb.2.1 x hx) h, rep_subN hu iha.2.2 ihb.2.2 h⟩
  | subScalar c _ h ih =>
    exact ⟨.subScalar ih.1 h, fun x hx => by simpa [LinEv.κ] using rep_subS hu (ih.2.1 x hx) h, rep_subS hu ih.2.2 h⟩
  | scalarSub c _ h ih =>
    exact ⟨.scalarSub ih.1 h, fun x hx => by simpa [LinEv.κ] using rep_sSub hu (ih.2.1 x hx) h, rep_sSub hu ih.2.2 h⟩
  | neg _ h ih => exact ⟨.neg ih.1 h, fun x hx => rep_negN hu (ih.2.1 x hx) h, rep_negN hu ih.2.2 h⟩
  | mulScalar c _ h ih =>
    refine ⟨.mulScalar ih.1 h, fun x hx => ?_, ?_⟩
    · have := rep_mulS hu (ih.2.1 x hx) h
      rwa [mul_comm, mul_comm _ |c|] at this
    · have := rep_mulS hu ih.2.2 h
      rwa [mul_comm, mul_comm _ |c|] at this
  | scalarMul c _ h ih => exact ⟨.scalarMul ih.1 h, fun x hx => rep_sMul hu (ih.2.1 x hx) h, rep_sMul hu ih.2.2 h⟩
  | mulConst c _ hb h ih =>
    rw [newConst_ok] at hb
    obtain ⟨rfl, -⟩ := hb
    refine ⟨.mulConst ih.1 h, fun x hx => ?_, ?_⟩
    · exact (rep_mulC hu (ih.2.1 x hx) (.exact c) (.inl h)).mono (by omega)
    · exact (rep_mulC hu ih.2.2 (.exact c) (.inl h)).mono (by omega)
  | constMul c _ hb h ih =>
    rw [newConst_ok] at hb
    obtain ⟨rfl, -⟩ := hb
    refine ⟨.constMul ih.1 h, fun x hx => ?_, ?_⟩
    · exact (rep_mulC hu (ih.2.1 x hx) (.exact c) (.inr h)).mono (by omega)
    · exact (rep_mulC hu ih.2.2 (.exact c) (.inr h)).mono (by omega)
  | divScalar c _ h ih =>
    refine ⟨.divScalar ih.1 h, fun x hx => ?_, rep_divS hu ih.2.2 h⟩
    have := rep_divS hu (ih.2.1 x hx) h
    rwa [div_eq_inv_mul, div_eq_inv_mul] at this
  | divConst c _ hb h ih =>
    rw [newConst_ok] at hb
    obtain ⟨rfl, -⟩ := hb
    have hc := divC_ne h
    have hinv : Approx u c⁻¹ c⁻¹ |c|⁻¹ 0 := by rw [← abs_inv]; exact .exact _
    refine ⟨.divConst ih.1 h, fun x hx => ?_, ?_⟩
    · have := rep_divC hu (ih.2.1 x hx) hc hinv h
      rwa [mul_comm _ c⁻¹, mul_comm _ |c|⁻¹] at this
    · have := rep_divC hu ih.2.2 hc hinv h
      rwa [← div_eq_mul_inv, ← div_eq_mul_inv] at this

/-- The coefficients of a linear formula. -/
theorem writesLinear_coef (hu : 0 ≤ u) {e : Node (Fl A)} {α μ : ℕ → ℝ} {β ν : ℝ} {k : ℕ} (h : WritesLinear e α β μ ν k) {x : Node (Fl A)}
    (hx : x.isVar = true) : ∃ y, e.stdProperties.coef x = Fl.num A y ∧ Approx u y (α x.id) (μ x.id) k := by
  obtain ⟨y, h1, h2, -⟩ := ((writesLinear_rep hu h).2.1 x hx).eval hu
  exact ⟨y, h1, h2⟩

/-- The constant of a linear formula. -/
theorem writesLinear_const (hu : 0 ≤ u) {e : Node (Fl A)} {α μ : ℕ → ℝ} {β ν : ℝ} {k : ℕ} (h : WritesLinear e α β μ ν k) :
    ∃ y, e.stdProperties.b = Fl.num A y ∧ Approx u y β ν k := by
  obtain ⟨y, h1, h2, -⟩ := (writesLinear_rep hu h).2.2.eval hu
  exact ⟨y, h1, h2⟩

theorem ptrEq_var_iff {x : Node (Fl A)} (hx : x.isVar = true) {y : Node (Fl A)} (hy : y.isVar = true) : x.ptrEq y = true ↔ x.id = y.id := by
  cases x <;> simp [Node.isVar] at hx
  cases y <;> simp [Node.isVar] at hy
  simp [Node.ptrEq, Node.tag, Node.id]

@[simp] theorem Fl.val_num (x : ℝ) : (Fl.num A x).val = x := rfl

/-- The value of a list of coefficients at a point. -/
theorem list_sum (S : Finset ℕ) (t : ℕ → ℝ) : ∀ (m : List (Node (Fl A) × Fl A)), NodupP (keysN m) → (∀ q ∈ m, q.1.isVar = true) →
    (∀ q ∈ m, q.1.id ∉ S → q.2 = Fl.num A 0) →
    (m.map fun q => q.2.val * t q.1.id).sum = ∑ i ∈ S, ((getN m (.var i "" .continuous)).getD (Fl.num A 0)).val * t i := by
  intro m
  induction m with
  | nil => intro _ _ _; simp [getN]
  | cons q m ih =>
    intro hn hv hS
    obtain ⟨x, c⟩ := q
    have hxv : x.isVar = true := hv (x, c) (by simp)
    rw [List.map_cons, List.sum_cons, ih (List.pairwise_cons.1 hn).2 (fun q hq => hv q (by simp [hq])) fun q hq => hS q (by simp [hq])]
    have hself : getN m (.var x.id "" .continuous) = none := getN_none_of fun y hy => by
      have h1 := (List.pairwise_cons.1 hn).1 y hy
      obtain ⟨q, hq, rfl⟩ := List.mem_map.1 hy
      have hyv : q.1.isVar = true := hv q (by simp [hq])
      by_contra hne
      rw [Bool.not_eq_false, ptrEq_var_iff hyv rfl] at hne
      rw [(ptrEq_var_iff hxv hyv).2 hne.symm] at h1
      cases h1
    have hget : ∀ i : ℕ, getN ((x, c) :: m) (.var i "" .continuous) = if x.id = i then some c else getN m (.var i "" .continuous) := by
      intro i
      simp only [getN]
      by_cases hi : x.id = i
      · rw [if_pos hi, if_pos ((ptrEq_var_iff hxv (y := .var i "" .continuous) rfl).2 hi)]
      · rw [if_neg hi, if_neg (fun h => hi ((ptrEq_var_iff hxv (y := .var i "" .continuous) rfl).1 h))]
    have hsplit : ∀ i ∈ S, ((getN ((x, c) :: m) (.var i "" .continuous)).getD (Fl.num A 0)).val * t i =
        (if i = x.id then c.val * t x.id else 0) + ((getN m (.var i "" .continuous)).getD (Fl.num A 0)).val * t i := by
      intro i _
      rw [hget]
      by_cases hi : x.id = i
      · subst hi
        simp [hself]
      · simp [hi, Ne.symm hi]
    rw [Finset.sum_congr rfl hsplit, Finset.sum_add_distrib, Finset.sum_ite_eq']
    by_cases hxS : x.id ∈ S
    · simp [hxS]
    · have hc0 : c = Fl.num A 0 := hS (x, c) (by simp) hxS
      simp [hxS, hc0]

end Verif
