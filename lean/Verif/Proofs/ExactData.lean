import Verif.Spec.ExactData
import Verif.Proofs.ExactRep
import Verif.Proofs.RoundingStd

/-! # The coefficients of linear formulas that are written without rounding -/

set_option linter.unusedSectionVars false

namespace Verif

variable [Libm]

/-- The coefficient of `x` in an expression. -/
def coefInD (x : Node F64) (e : Node F64) : F64 := e.stdProperties.coefD x

/-- The constant of an expression. -/
def constInD (e : Node F64) : F64 := e.stdProperties.b

theorem merge_exact {o p : Option F64} {y z : ℚ} (ho : (o.getD zero).HasValue y) (hp : (p.getD zero).HasValue z) (h : IsDouble (y + z)) :
    ((optMerge (fun a b : F64 => a +. b) o p).getD zero).HasValue (y + z) := by
  cases o with
  | none =>
    have hy := F64.value_unique ho F64.zero_value
    rw [hy, zero_add]
    exact hp
  | some a =>
    cases p with
    | none =>
      have hz := F64.value_unique hp F64.zero_value
      rw [hz, add_zero]
      exact ho
    | some b => exact F64.add_exact ho hp h

theorem coefD_sum {x : Node F64} {as : List (Node F64)} {ts : List ℚ} (h : List.Forall₂ (fun a t => (coefInD x a).HasValue t) as ts) :
    ∀ {acc : Prop' F64} {y : ℚ}, (acc.coefD x).HasValue y → (∀ l, l <+: ts → IsDouble (y + l.sum)) →
    ((Node.stdProperties.addProps acc as).coefD x).HasValue (y + ts.sum) := by
  induction h with
  | nil =>
    intro acc y hy _
    simpa [Node.stdProperties.addProps] using hy
  | @cons a t as ts ht _ ih =>
    intro acc y hy hp
    have h1 : IsDouble (y + t) := by simpa using hp [t] ⟨ts, rfl⟩
    have hnew : Prop'.coefD ⟨acc.affine && a.stdProperties.affine, a.stdProperties.a.foldl (fun m e => addToN m e.1 e.2) acc.a, acc.b +. a.stdProperties.b⟩ x
        |>.HasValue (y + t) := by
      unfold Prop'.coefD
      simp only
      rw [foldl_addToN, getN_foldUpd (stdProperties_keys a).1]
      exact merge_exact hy ht h1
    have := ih hnew fun l hl => by
      obtain ⟨r, rfl⟩ := hl
      have := hp (t :: l) ⟨r, rfl⟩
      rwa [List.sum_cons, ← add_assoc] at this
    simp only [Node.stdProperties.addProps, List.sum_cons]
    rw [← add_assoc]
    exact this

theorem scaled_mapD (e : Node F64) (f : F64 → F64) (x : Node F64) :
    getN (e.stdProperties.a.foldl (fun m q => insertN m q.1 (f q.2)) []) x = (getN e.stdProperties.a x).map f := by
  rw [foldl_insertN (fun q => f q.2), foldUpd_nil (by rw [keysN_mapSnd]; exact (stdProperties_keys e).1), getN_mapSnd]

theorem scaled_coefD {f : F64 → F64} {y z : ℚ} (hf : ∀ a, F64.HasValue a y → (f a).HasValue z) (h0 : y = 0 → z = 0) {o : Option F64}
    (hy : (o.getD zero).HasValue y) : ((o.map f).getD zero).HasValue z := by
  cases o with
  | none => rw [h0 (F64.value_unique hy F64.zero_value)]; exact F64.zero_value
  | some a => exact hf a hy

instance coefEx (x : Node F64) : ExEv (coefInD x) where
  κ _ := 0
  κ_zero := rfl
  κ_mul _ _ := by simp
  const _ {_ _} _ := F64.zero_value
  sum i {as ts} h hp := by
    have := coefD_sum h (acc := ⟨true, [], zero⟩) (y := 0) F64.zero_value (by simpa using hp)
    rw [zero_add] at this
    exact this
  mulL i j {c a k x'} hc ha hd := by
    have := scaled_coefD (f := fun v => v *. c) (y := x') (z := k * x') (fun b hb => by rw [mul_comm]; exact F64.mul_exact hb hc (by rwa [mul_comm]))
      (by rintro rfl; simp) ha
    rw [← scaled_mapD] at this
    exact this
  mulR i j {c a k x'} hc ha hd := by
    have := scaled_coefD (f := fun v => v *. c) (y := x') (z := k * x') (fun b hb => by rw [mul_comm]; exact F64.mul_exact hb hc (by rwa [mul_comm]))
      (by rintro rfl; simp) ha
    rw [← scaled_mapD] at this
    exact this
  divR i j {c a k x'} hc hk ha hd := by
    have := scaled_coefD (f := fun v => v /. c) (y := x') (z := x' / k) (fun b hb => F64.div_exact hb hc hk hd) (by rintro rfl; simp) ha
    rw [← scaled_mapD] at this
    exact this

theorem constD_sum {as : List (Node F64)} {ts : List ℚ} (h : List.Forall₂ (fun a t => (constInD a).HasValue t) as ts) :
    ∀ {acc : Prop' F64} {y : ℚ}, acc.b.HasValue y → (∀ l, l <+: ts → IsDouble (y + l.sum)) →
    (Node.stdProperties.addProps acc as).b.HasValue (y + ts.sum) := by
  induction h with
  | nil =>
    intro acc y hy _
    simpa [Node.stdProperties.addProps] using hy
  | @cons a t as ts ht _ ih =>
    intro acc y hy hp
    have h1 : IsDouble (y + t) := by simpa using hp [t] ⟨ts, rfl⟩
    have := ih (acc := ⟨acc.affine && a.stdProperties.affine, a.stdProperties.a.foldl (fun m e => addToN m e.1 e.2) acc.a, acc.b +. a.stdProperties.b⟩)
      (y := y + t) (F64.add_exact hy ht h1) fun l hl => by
        obtain ⟨r, rfl⟩ := hl
        have := hp (t :: l) ⟨r, rfl⟩
        rwa [List.sum_cons, ← add_assoc] at this
    simp only [Node.stdProperties.addProps, List.sum_cons]
    rw [← add_assoc]
    exact this

instance constEx : ExEv constInD where
  κ q := q
  κ_zero := rfl
  κ_mul _ _ := rfl
  const _ {_ _} h := h
  sum i {as ts} h hp := by
    have := constD_sum h (acc := ⟨true, [], zero⟩) (y := 0) F64.zero_value (by simpa using hp)
    rw [zero_add] at this
    exact this
  mulL i j {c a k x} hc ha hd := F64.mul_exact hc ha hd
  mulR i j {c a k x} hc ha hd := by rw [mul_comm]; exact F64.mul_exact ha hc (by rwa [mul_comm])
  divR i j {c a k x} hc hk ha hd := F64.div_exact ha hc hk hd

/-- Without the zeros. -/
def nz (T : List ℚ) : List ℚ := T.filter (· ≠ 0)

theorem nz_append (T S : List ℚ) : nz (T ++ S) = nz T ++ nz S := List.filter_append ..

theorem nz_sum : ∀ T : List ℚ, (nz T).sum = T.sum
  | [] => rfl
  | t :: T => by
    have := nz_sum T
    unfold nz at this ⊢
    rw [List.filter_cons]
    split
    · rw [List.sum_cons, List.sum_cons, this]
    · rename_i h
      have h0 : t = 0 := by simpa using h
      rw [List.sum_cons, this, h0, zero_add]

theorem nz_scale {k : ℚ} (hk : k ≠ 0) (T : List ℚ) : nz (T.map (k * ·)) = (nz T).map (k * ·) := by
  unfold nz
  rw [List.filter_map]
  congr 1
  apply List.filter_congr
  intro t _
  simp [hk]

theorem nz_zeros {T : List ℚ} (h : ∀ t ∈ T, t = 0) : nz T = [] := by
  unfold nz
  rw [List.filter_eq_nil_iff]
  intro t ht
  simp [h t ht]

/-- The prefixes of lists that agree up to zeros. -/
theorem nz_prefix {T S : List ℚ} (h : nz T = nz S) (hS : ∀ l, l <+: S → IsDouble l.sum) : ∀ l, l <+: T → IsDouble l.sum := by
  intro l hl
  rw [← nz_sum l]
  have h1 : nz l <+: nz S := by rw [← h]; exact hl.filter _
  have h2 : ∀ (S : List ℚ) (m : List ℚ), m <+: nz S → ∃ p, p <+: S ∧ nz p = m := by
    intro S
    induction S with
    | nil =>
      intro m hm
      exact ⟨[], List.prefix_rfl, (List.prefix_nil.1 hm).symm⟩
    | cons s S ih =>
      intro m hm
      by_cases hs : s = 0
      · have : nz (s :: S) = nz S := by simp [nz, hs]
        rw [this] at hm
        obtain ⟨p, hp, rfl⟩ := ih m hm
        exact ⟨s :: p, by simpa using hp, by simp [nz, hs]⟩
      · have : nz (s :: S) = s :: nz S := by simp [nz, hs]
        rw [this] at hm
        cases m with
        | nil => exact ⟨[], List.nil_prefix, rfl⟩
        | cons t m =>
          rw [List.cons_prefix_cons] at hm
          obtain ⟨rfl, hm⟩ := hm
          obtain ⟨p, hp, rfl⟩ := ih m hm
          exact ⟨t :: p, by simpa using hp, by simp [nz, hs]⟩
  obtain ⟨p, hp, hpl⟩ := h2 S _ h1
  rw [← hpl, nz_sum]
  exact hS p hp

/-- The coefficients of variable `i` in the order of the terms. -/
def coefsOf (i : ℕ) (L : List (ℕ × ℚ)) : List ℚ := (L.filter fun t => t.1 = i).map fun t => t.2

theorem coefsOf_append (i : ℕ) (L L' : List (ℕ × ℚ)) : coefsOf i (L ++ L') = coefsOf i L ++ coefsOf i L' := by simp [coefsOf]

theorem coefsOf_scale (i : ℕ) (k : ℚ) (L : List (ℕ × ℚ)) : coefsOf i (scaleTerms k L) = (coefsOf i L).map (k * ·) := by
  unfold coefsOf scaleTerms
  rw [List.filter_map, List.map_map, List.map_map]
  rfl

theorem mem_coefsOf {i : ℕ} {L : List (ℕ × ℚ)} {t : ℚ} (h : t ∈ coefsOf i L) : (i, t) ∈ L := by
  simp only [coefsOf, List.mem_map, List.mem_filter, decide_eq_true_eq] at h
  obtain ⟨⟨j, s⟩, ⟨h1, rfl⟩, rfl⟩ := h
  exact h1

theorem termCoef_scale (i : ℕ) (k : ℚ) (L : List (ℕ × ℚ)) : termCoef i (scaleTerms k L) = k * termCoef i L := by
  show (coefsOf i (scaleTerms k L)).sum = k * (coefsOf i L).sum
  rw [coefsOf_scale, List.sum_map_mul_left]
  simp

theorem termCoef_append (i : ℕ) (L L' : List (ℕ × ℚ)) : termCoef i (L ++ L') = termCoef i L + termCoef i L' := by
  show (coefsOf i (L ++ L')).sum = _
  rw [coefsOf_append, List.sum_append]
  rfl

/-- The number of terms with a variable. -/
theorem coefsOf_nodup {L : List (ℕ × ℚ)} (hn : (L.map Prod.fst).Nodup) (i : ℕ) : coefsOf i L = [] ∨ ∃ t, (i, t) ∈ L ∧ coefsOf i L = [t] := by
  induction L with
  | nil => exact .inl rfl
  | cons p L ih =>
    obtain ⟨j, s⟩ := p
    simp only [List.map_cons, List.nodup_cons] at hn
    by_cases hj : j = i
    · subst hj
      refine .inr ⟨s, by simp, ?_⟩
      have : coefsOf j L = [] := by
        simp only [coefsOf, List.map_eq_nil_iff, List.filter_eq_nil_iff, decide_eq_true_eq]
        intro t ht h
        exact hn.1 (h ▸ List.mem_map_of_mem ht)
      unfold coefsOf at this ⊢
      simp [this]
    · have : coefsOf i ((j, s) :: L) = coefsOf i L := by simp [coefsOf, hj]
      rw [this]
      rcases ih hn.2 with h | ⟨t, h1, h2⟩
      · exact .inl h
      · exact .inr ⟨t, by simp [h1], h2⟩

theorem coefs_prefix {i : ℕ} {L : List (ℕ × ℚ)} (h : SumsExact L i) : ∀ l, l <+: coefsOf i L → IsDouble l.sum := by
  intro l hl
  have key : ∀ (L : List (ℕ × ℚ)) (l : List ℚ), l <+: coefsOf i L → ∃ p, p <+: L ∧ coefsOf i p = l := by
    intro L
    induction L with
    | nil =>
      intro l hl
      exact ⟨[], List.prefix_rfl, (List.prefix_nil.1 hl).symm⟩
    | cons s S ih =>
      intro l hl
      by_cases hs : s.1 = i
      · have : coefsOf i (s :: S) = s.2 :: coefsOf i S := by simp [coefsOf, hs]
        rw [this] at hl
        cases l with
        | nil => exact ⟨[], List.nil_prefix, rfl⟩
        | cons t m =>
          rw [List.cons_prefix_cons] at hl
          obtain ⟨rfl, hm⟩ := hl
          obtain ⟨p, hp, rfl⟩ := ih m hm
          exact ⟨s :: p, by simpa using hp, by simp [coefsOf, hs]⟩
      · have : coefsOf i (s :: S) = coefsOf i S := by simp [coefsOf, hs]
        rw [this] at hl
        obtain ⟨p, hp, rfl⟩ := ih l hl
        exact ⟨s :: p, by simpa using hp, by simp [coefsOf, hs]⟩
  obtain ⟨p, hp, rfl⟩ := key L l hl
  exact h p hp

/-- What a handle that writes down terms and a constant looks like. -/
structure TermsRep (e : Node F64) (L : List (ℕ × ℚ)) (q : ℚ) : Prop where
  lin : LinExpr e
  dbl : ∀ t ∈ L, IsDouble t.2
  coef : ∀ x, x.isVar = true → ∃ T, ExRep (coefInD x) e T q ∧ nz T = nz (coefsOf x.id L)
  const : ∃ T, ExRep constInD e T q ∧ ∀ t ∈ T, t = 0

theorem TermsRep.double {e L q} (h : TermsRep e L q) : IsDouble q := by
  obtain ⟨T, h1, -⟩ := h.const
  exact h1.isDouble

theorem TermsRep.coef_value {e L q} (h : TermsRep e L q) {x : Node F64} (hx : x.isVar = true) (hs : SumsExact L x.id) :
    (coefInD x e).HasValue (termCoef x.id L) := by
  obtain ⟨T, h1, h2⟩ := h.coef x hx
  have hpre := nz_prefix h2 (coefs_prefix hs)
  have := h1.eval (by
    intro l hl
    rcases List.prefix_concat_iff.1 hl with rfl | hl
    · rw [List.sum_append]
      simpa [ExEv.κ] using hpre T List.prefix_rfl
    · exact hpre l hl)
  have e1 : T.sum + ExEv.κ (coefInD x) q = termCoef x.id L := by
    show T.sum + 0 = (coefsOf x.id L).sum
    rw [add_zero, ← nz_sum T, h2, nz_sum]
  rwa [e1] at this

theorem TermsRep.const_value {e L q} (h : TermsRep e L q) : (constInD e).HasValue q := by
  obtain ⟨T, h1, h2⟩ := h.const
  have hs : ∀ l : List ℚ, l <+: T → l.sum = 0 := by
    intro l hl
    exact List.sum_eq_zero fun t ht => h2 t (hl.subset ht)
  have := h1.eval (by
    intro l hl
    rcases List.prefix_concat_iff.1 hl with rfl | hl
    · rw [List.sum_append, hs T List.prefix_rfl]
      simpa [ExEv.κ] using h1.isDouble
    · rw [hs l hl]
      exact isDouble_zero)
  rw [hs T List.prefix_rfl, zero_add] at this
  exact this

theorem isDouble_scaled_zero {k : ℚ} (h : t = 0) : IsDouble (k * t) := by rw [h, mul_zero]; exact isDouble_zero

theorem nz_double {k : ℚ} {T S : List ℚ} (h : nz T = nz S) (hS : ∀ t ∈ S, IsDouble (k * t)) : ∀ t ∈ T, IsDouble (k * t) := by
  intro t ht
  by_cases h0 : t = 0
  · exact isDouble_scaled_zero h0
  · have : t ∈ nz T := by simp [nz, ht, h0]
    rw [h] at this
    exact hS t (List.mem_filter.1 this).1

theorem TermsRep.scale {a e : Node F64} {L q} {f : Node F64 → M (Node F64)} {k : ℚ} (h : TermsRep a L q) (hf : ∀ ev [ExEv ev], ScalesD ev f k)
    (hL : ∀ t ∈ L, IsDouble (k * t.2)) (hq : IsDouble (k * q)) {n n' : ℕ} (he : f a n = .ok (e, n')) (hlin : LinExpr e) :
    TermsRep e (scaleTerms k L) (k * q) := by
  refine ⟨hlin, ?_, fun x hx => ?_, ?_⟩
  · intro t ht
    simp only [scaleTerms, List.mem_map] at ht
    obtain ⟨s, hs, rfl⟩ := ht
    exact hL s hs
  · obtain ⟨T, h1, h2⟩ := h.coef x hx
    have hT : ∀ t ∈ T, IsDouble (k * t) := nz_double h2 fun t ht => hL (x.id, t) (mem_coefsOf ht)
    refine ⟨_, exrep_scale (hf _) h1 hT hq he, ?_⟩
    rw [coefsOf_scale]
    split
    · rename_i h0
      rw [h0]
      symm
      apply nz_zeros
      intro t ht
      simp only [List.mem_map, zero_mul] at ht
      obtain ⟨_, _, rfl⟩ := ht
      rfl
    · rename_i h0
      rw [nz_scale h0, nz_scale h0, h2]
  · obtain ⟨T, h1, h2⟩ := h.const
    refine ⟨_, exrep_scale (hf _) h1 (fun t ht => isDouble_scaled_zero (h2 t ht)) hq he, ?_⟩
    intro t ht
    split at ht
    · simp at ht
    · simp only [List.mem_map] at ht
      obtain ⟨s, hs, rfl⟩ := ht
      rw [h2 s hs, mul_zero]

theorem TermsRep.add {a b e : Node F64} {L L' q q'} (ha : TermsRep a L q) (hb : TermsRep b L' q')
    (hadd : ∀ (ev : Node F64 → F64) {T T' : List ℚ}, ExRep ev a T q → ExRep ev b T' q' → ExRep ev e (T ++ T') (q + q')) (hlin : LinExpr e) :
    TermsRep e (L ++ L') (q + q') := by
  refine ⟨hlin, ?_, fun x hx => ?_, ?_⟩
  · intro t ht
    rcases List.mem_append.1 ht with ht | ht
    · exact ha.dbl t ht
    · exact hb.dbl t ht
  · obtain ⟨T, h1, h2⟩ := ha.coef x hx
    obtain ⟨T', h1', h2'⟩ := hb.coef x hx
    exact ⟨_, hadd _ h1 h1', by rw [nz_append, coefsOf_append, nz_append, h2, h2']⟩
  · obtain ⟨T, h1, h2⟩ := ha.const
    obtain ⟨T', h1', h2'⟩ := hb.const
    refine ⟨_, hadd _ h1 h1', ?_⟩
    intro t ht
    rcases List.mem_append.1 ht with ht | ht
    · exact h2 t ht
    · exact h2' t ht

theorem TermsRep.ofConst {i : ℕ} {c : F64} {q : ℚ} (h : c.HasValue q) : TermsRep (.const i c) [] q :=
  ⟨.const _ _, by simp, fun x _ => ⟨[], .const h, rfl⟩, [], .const h, by simp⟩

theorem TermsRep.ofVar (i : ℕ) (s : String) (k : VarKind) : TermsRep (.var i s k) [(i, 1)] 0 := by
  refine ⟨.var _ _ _, ?_, fun x hx => ?_, [0], .atom rfl F64.zero_value, by simp⟩
  · simp only [List.mem_singleton, forall_eq]
    exact double_one.2
  · cases x <;> simp [Node.isVar] at hx
    rename_i j s' k'
    by_cases hi : i = j
    · subst hi
      refine ⟨[1], .atom rfl ?_, by simp [coefsOf, Node.id]⟩
      have : coefInD (.var i s' k') (.var i s k) = one := by
        simp [coefInD, Prop'.coefD, Node.stdProperties, getN, Node.ptrEq, Node.tag, Node.id]
      rw [this]
      exact F64.one_value
    · refine ⟨[0], .atom rfl ?_, by simp [coefsOf, Node.id, hi, nz]⟩
      have : coefInD (.var j s' k') (.var i s k) = zero := by
        simp [coefInD, Prop'.coefD, Node.stdProperties, getN, Node.ptrEq, Node.tag, Node.id, hi]
      rw [this]
      exact F64.zero_value

theorem scaleTerms_scaleTerms_nil (k : ℚ) : scaleTerms k [] = [] := rfl

theorem isConst_eval {a : Node F64} (h : a.isConstant = true) (σ : Env F64) : ∃ i c, a = .const i c ∧ a.evaluate σ = c := by
  cases a <;> simp [Node.isConstant] at h
  exact ⟨_, _, rfl, rfl⟩

theorem TermsRep.zeros {e : Node F64} {L} (h : TermsRep e L 0) {i : ℕ} {c : F64} (he : e = .const i c) (k : ℚ) {j : ℕ} {d : F64} (hd : d.HasValue 0) :
    TermsRep (.const j d) (scaleTerms k L) 0 := by
  subst he
  have h0 : ∀ i, ∀ t ∈ coefsOf i L, t = 0 := by
    intro i t ht
    obtain ⟨T, h1, h2⟩ := h.coef (.var i "" .continuous) rfl
    obtain ⟨rfl, -⟩ := h1.of_const
    by_contra hne
    have : t ∈ nz (coefsOf i L) := by simp [nz, ht, hne]
    rw [show coefsOf i L = coefsOf (Node.var (F := F64) i "" .continuous).id L from rfl, ← h2] at this
    simp [nz] at this
  have hL : ∀ t ∈ L, t.2 = 0 := by
    intro t ht
    refine h0 t.1 t.2 ?_
    simp only [coefsOf, List.mem_map, List.mem_filter, decide_eq_true_eq]
    exact ⟨t, ⟨ht, rfl⟩, rfl⟩
  refine ⟨.const _ _, ?_, fun x _ => ⟨[], .const hd, ?_⟩, [], .const hd, by simp⟩
  · intro t ht
    simp only [scaleTerms, List.mem_map] at ht
    obtain ⟨s, hs, rfl⟩ := ht
    exact isDouble_scaled_zero (hL s hs)
  · symm
    rw [coefsOf_scale]
    apply nz_zeros
    intro t ht
    simp only [List.mem_map] at ht
    obtain ⟨s, hs, rfl⟩ := ht
    rw [h0 _ s hs, mul_zero]

theorem TermsRep.div {a : Node F64} {L} (h : TermsRep a L 0) {k : ℚ} {c : F64} (hc : c.HasValue k) (hk : k ≠ 0)
    (hL : ∀ t ∈ L, IsDouble (k⁻¹ * t.2)) (hn : (L.map Prod.fst).Nodup) {i j : ℕ} (hlin : LinExpr (.div i a (.const j c))) :
    TermsRep (.div i a (.const j c)) (scaleTerms k⁻¹ L) 0 := by
  refine ⟨hlin, ?_, fun x hx => ?_, [0], .atom rfl ?_, by simp⟩
  · intro t ht
    simp only [scaleTerms, List.mem_map] at ht
    obtain ⟨s, hs, rfl⟩ := ht
    exact hL s hs
  · have key : ∃ t, coefsOf x.id L = [] ∧ t = 0 ∨ (x.id, t) ∈ L ∧ coefsOf x.id L = [t] := by
      rcases coefsOf_nodup hn x.id with h | ⟨t, h1, h2⟩
      · exact ⟨0, .inl ⟨h, rfl⟩⟩
      · exact ⟨t, .inr ⟨h1, h2⟩⟩
    obtain ⟨t, ht⟩ := key
    have hs : SumsExact L x.id := by
      intro l hl
      have : coefsOf x.id l <+: coefsOf x.id L := (hl.filter _).map _
      show IsDouble (coefsOf x.id l).sum
      rcases ht with ⟨h0, -⟩ | ⟨h1, h2⟩
      · rw [h0] at this
        rw [List.prefix_nil.1 this]
        exact isDouble_zero
      · rw [h2] at this
        rcases hcase : coefsOf x.id l with _ | ⟨u, r⟩
        · exact isDouble_zero
        · rw [hcase, List.cons_prefix_cons] at this
          obtain ⟨rfl, hr⟩ := this
          rw [List.prefix_nil.1 hr]
          simpa using h.dbl (x.id, u) h1
    have hv := h.coef_value hx hs
    have hsum : termCoef x.id L = t := by
      show (coefsOf x.id L).sum = t
      rcases ht with ⟨h0, rfl⟩ | ⟨h1, h2⟩
      · rw [h0]; rfl
      · rw [h2]; simp
    rw [hsum] at hv
    have hd : IsDouble (t / k) := by
      rw [div_eq_inv_mul]
      rcases ht with ⟨h0, rfl⟩ | ⟨h1, h2⟩
      · exact isDouble_scaled_zero rfl
      · exact hL (x.id, t) h1
    refine ⟨[t / k], .atom rfl (ExEv.divR i j hc hk hv hd), ?_⟩
    rw [coefsOf_scale]
    rcases ht with ⟨h0, rfl⟩ | ⟨h1, h2⟩
    · rw [h0]; simp [nz]
    · rw [h2, div_eq_inv_mul]; rfl
  · have := ExEv.divR (ev := constInD) i j hc hk h.const_value (by rw [zero_div]; exact isDouble_zero)
    rwa [zero_div] at this

theorem writesTerms_rep {e : Node F64} {L : List (ℕ × ℚ)} {q : ℚ} (h : WritesTerms e L q) : TermsRep e L q := by
  induction h with
  | const hc h =>
    rw [newConst_ok] at h
    obtain ⟨rfl, -⟩ := h
    exact .ofConst hc
  | var h =>
    rw [newVar_eq] at h
    cases h
    exact .ofVar _ _ _
  | add _ _ hq h iha ihb => exact iha.add ihb (fun ev _ _ h1 h2 => exrep_addN h1 h2 hq h) (.add iha.lin ihb.lin h)
  | @addScalar a e L q c k n n' _ hc hq h ih =>
    have := ih.add (.ofConst (i := 0) hc) (fun ev T T' h1 h2 => by
      obtain ⟨rfl, -⟩ := h2.of_const
      rw [List.append_nil]
      exact exrep_addS h1 hc hq h) (.addScalar ih.lin h)
    rwa [List.append_nil] at this
  | @scalarAdd a e L q c k n n' _ hc hq h ih =>
    have := TermsRep.add (.ofConst (i := 0) hc) ih (fun ev T T' h2 h1 => by
      obtain ⟨rfl, -⟩ := h2.of_const
      exact exrep_sAdd h1 hc hq h) (.scalarAdd ih.lin h)
    exact this
  | @sub a b e L L' q q' n n' _ _ hq h iha ihb =>
    have hlin := LinExpr.sub iha.lin ihb.lin h
    unfold subN at h
    rw [M.bind_ok] at h
    obtain ⟨nb, n1, hnb, h⟩ := h
    have hb : TermsRep nb (scaleTerms (-1) L') (-1 * q') :=
      ihb.scale (fun ev _ => sMul_scalesD ev F64.negOne_value) (fun t ht => by rw [neg_one_mul]; exact (ihb.dbl t ht).neg)
        (by rw [neg_one_mul]; exact ihb.double.neg) hnb (.scalarMul ihb.lin hnb)
    rw [sub_eq_add_neg, ← neg_one_mul q'] at hq ⊢
    exact iha.add hb (fun ev _ _ h1 h2 => exrep_addN h1 h2 hq h) hlin
  | @subScalar a e L q c k n n' _ hc hq h ih =>
    have hlin := LinExpr.subScalar ih.lin h
    unfold subS at h
    rw [M.bind_ok] at h
    obtain ⟨kn, n1, hk, h⟩ := h
    rw [newConst_ok] at hk
    obtain ⟨rfl, -⟩ := hk
    rw [M.bind_ok] at h
    obtain ⟨nb, n2, hnb, h⟩ := h
    have hd := F64.double_of_value hc
    have hb : TermsRep nb [] (-1 * k) :=
      (TermsRep.ofConst (i := n) hc).scale (fun ev _ => sMul_scalesD ev F64.negOne_value) (by simp)
        (by rw [neg_one_mul]; exact hd.neg) hnb (.scalarMul (.const _ _) hnb)
    rw [sub_eq_add_neg, ← neg_one_mul k] at hq ⊢
    have := ih.add hb (fun ev _ _ h1 h2 => exrep_addN h1 h2 hq h) hlin
    rwa [List.append_nil] at this
  | @scalarSub a e L q c k n n' _ hc hq h ih =>
    have hlin := LinExpr.scalarSub ih.lin h
    unfold sSub at h
    rw [M.bind_ok] at h
    obtain ⟨kn, n1, hk, h⟩ := h
    rw [newConst_ok] at hk
    obtain ⟨rfl, -⟩ := hk
    rw [M.bind_ok] at h
    obtain ⟨nb, n2, hnb, h⟩ := h
    have hb : TermsRep nb (scaleTerms (-1) L) (-1 * q) :=
      ih.scale (fun ev _ => sMul_scalesD ev F64.negOne_value) (fun t ht => by rw [neg_one_mul]; exact (ih.dbl t ht).neg)
        (by rw [neg_one_mul]; exact ih.double.neg) hnb (.scalarMul ih.lin hnb)
    rw [sub_eq_add_neg, ← neg_one_mul q] at hq ⊢
    exact TermsRep.add (.ofConst (i := n) hc) hb (fun ev _ _ h1 h2 => exrep_addN h1 h2 hq h) hlin
  | @neg a e L q n n' _ h ih =>
    have hlin := LinExpr.neg ih.lin h
    rw [negN_sMul] at h
    rw [← neg_one_mul q]
    exact ih.scale (fun ev _ => sMul_scalesD ev F64.negOne_value) (fun t ht => by rw [neg_one_mul]; exact (ih.dbl t ht).neg)
        (by rw [neg_one_mul]; exact ih.double.neg) h hlin
  | mulScalar _ hc hL hq h ih => exact ih.scale (fun ev _ => mulS_scalesD ev hc) hL hq h (.mulScalar ih.lin h)
  | scalarMul _ hc hL hq h ih => exact ih.scale (fun ev _ => sMul_scalesD ev hc) hL hq h (.scalarMul ih.lin h)
  | @mulConst a b e L q c k n n' i i' _ hc hL hq hb h ih =>
    rw [newConst_ok] at hb
    obtain ⟨rfl, -⟩ := hb
    have hlin := LinExpr.mulConst ih.lin h
    by_cases hcon : ∃ j d, a = .const j d
    · obtain ⟨j, d, rfl⟩ := hcon
      rw [mulN_const_leftD] at h
      obtain ⟨T, h1, -⟩ := ih.const
      have hd := h1.of_const.2
      have hres := (mulCL_scalesD constInD j hd).const (i := i) hc (by rw [mul_comm]; exact hq) h
      obtain ⟨j', c', rfl, hc'⟩ := hres
      have h0 := ih
      rw [mul_comm] at hc'
      obtain ⟨j2, n2, h2⟩ : ∃ (e : Node F64) (n' : ℕ), mulS c (.const j d) 0 = .ok (e, n') := ⟨_, _, rfl⟩
      have h3 := ih.scale (fun ev _ => mulS_scalesD ev hc) hL hq h2 (.mulScalar ih.lin h2)
      obtain ⟨j3, c3, rfl, hc3⟩ := (mulS_scalesD constInD hc).const hd hq h2
      refine ⟨.const _ _, h3.dbl, fun x hx => ?_, [], .const hc', by simp⟩
      obtain ⟨T3, g1, g2⟩ := h3.coef x hx
      obtain ⟨rfl, -⟩ := g1.of_const
      exact ⟨[], .const hc', g2⟩
    · have : mulN a (.const i c) = mulCR i c a := by
        cases a <;> first | rfl | exact absurd ⟨_, _, rfl⟩ hcon
      rw [this] at h
      exact ih.scale (fun ev _ => mulCR_scalesD ev i hc) hL hq h hlin
  | @constMul a b e L q c k n n' i i' _ hc hL hq hb h ih =>
    rw [newConst_ok] at hb
    obtain ⟨rfl, -⟩ := hb
    have hlin := LinExpr.constMul ih.lin h
    rw [mulN_const_leftD] at h
    exact ih.scale (fun ev _ => mulCL_scalesD ev i hc) hL hq h hlin
  | @divScalar a e L c k n n' _ hc hL hn h ih =>
    have hlin := LinExpr.divScalar ih.lin h
    unfold divS at h
    split at h
    · exact absurd h (by simp [M.panic])
    rename_i hz
    have hk : k ≠ 0 := fun h0 => hz ((F64.eqz hc).2 h0)
    split at h
    · rename_i h1
      rw [M.pure_ok] at h
      obtain ⟨rfl, -⟩ := h
      rw [(F64.eqo hc).1 h1, inv_one]
      have : scaleTerms 1 L = L := by simp [scaleTerms]
      rw [this]
      exact ih
    split at h
    · rename_i h1
      obtain ⟨i, v, rfl, hv⟩ := isConstVal_invD h1
      rw [newConst_ok] at h
      obtain ⟨rfl, -⟩ := h
      exact ih.zeros rfl _ F64.zero_value
    split at h
    · rename_i h1
      obtain ⟨i, v, rfl, hv⟩ := isConst_eval h1 fun _ => none
      rw [newConst_ok, hv] at h
      obtain ⟨rfl, -⟩ := h
      obtain ⟨T, g1, -⟩ := ih.const
      have := F64.div_exact g1.of_const.2 hc hk (by rw [zero_div]; exact isDouble_zero)
      rw [zero_div] at this
      exact ih.zeros rfl _ this
    · rw [M.bind_ok] at h
      obtain ⟨kn, n1, hk', h⟩ := h
      rw [newConst_ok] at hk'
      obtain ⟨rfl, -⟩ := hk'
      rw [newDiv_eq] at h
      cases h
      exact ih.div hc hk hL hn hlin
  | @divConst a b e L c k n n' i i' _ hc hL hn hb h ih =>
    rw [newConst_ok] at hb
    obtain ⟨rfl, -⟩ := hb
    have hlin := LinExpr.divConst ih.lin h
    unfold divN at h
    split at h
    · exact absurd h (by simp [M.panic])
    rename_i hz
    have hk : k ≠ 0 := fun h0 => hz ((F64.eqz hc).2 h0)
    split at h
    · rename_i h1
      rw [M.pure_ok] at h
      obtain ⟨rfl, -⟩ := h
      rw [(F64.eqo hc).1 h1, inv_one]
      have : scaleTerms 1 L = L := by simp [scaleTerms]
      rw [this]
      exact ih
    split at h
    · rename_i h1
      obtain ⟨i, v, rfl, hv⟩ := isConstVal_invD h1
      rw [newConst_ok] at h
      obtain ⟨rfl, -⟩ := h
      exact ih.zeros rfl _ F64.zero_value
    split at h
    · rename_i h1
      rw [Bool.and_eq_true] at h1
      obtain ⟨i', v, rfl, hv⟩ := isConst_eval h1.1 fun _ => none
      rw [newConst_ok, hv] at h
      obtain ⟨rfl, -⟩ := h
      obtain ⟨T, g1, -⟩ := ih.const
      have := F64.div_exact g1.of_const.2 hc hk (by rw [zero_div]; exact isDouble_zero)
      rw [zero_div] at this
      exact ih.zeros rfl _ this
    · rw [newDiv_eq] at h
      cases h
      exact ih.div hc hk hL hn hlin

/-- A variable that occurs in at most one term: nothing is added, whatever its coefficient is. -/
theorem sumsExact_of_once {e : Node F64} {L : List (ℕ × ℚ)} {q : ℚ} (h : WritesTerms e L q) {i : ℕ} (hi : (coefsOf i L).length ≤ 1) : SumsExact L i := by
  intro l hl
  have hp : coefsOf i l <+: coefsOf i L := (hl.filter _).map _
  show IsDouble (coefsOf i l).sum
  match hc : coefsOf i l with
  | [] => exact isDouble_zero
  | [t] =>
    rw [List.sum_singleton]
    exact (writesTerms_rep h).dbl (i, t) (mem_coefsOf (hp.subset (by rw [hc]; simp)))
  | _ :: _ :: _ =>
    have := hp.length_le
    rw [hc] at this
    simp only [List.length_cons] at this
    omega

/-- Multiples of a power of two with at most 53 bits are doubles. -/
theorem isDouble_fixed {g : ℤ} (h1 : -1074 ≤ g) (h2 : g ≤ 970) {m : ℤ} (hm : |m| ≤ 2 ^ 53) : IsDouble (m * 2 ^ g) := by
  rcases lt_or_eq_of_le hm with hm | hm
  · refine ⟨?_, m, g, hm, h1, rfl⟩
    rw [abs_mul, abs_of_pos (two_zpow_pos g)]
    have e1 : |(m : ℚ)| < 2 ^ (53 : ℤ) := by exact_mod_cast hm
    have e2 : (2 : ℚ) ^ g ≤ 2 ^ (970 : ℤ) := zpow_le_zpow_right₀ (by norm_num) h2
    calc |(m : ℚ)| * 2 ^ g < 2 ^ (53 : ℤ) * 2 ^ g := mul_lt_mul_of_pos_right e1 (two_zpow_pos g)
      _ ≤ 2 ^ (53 : ℤ) * 2 ^ (970 : ℤ) := mul_le_mul_of_nonneg_left e2 (two_zpow_pos _).le
      _ ≤ 2 ^ (1024 : ℤ) := by rw [← zpow_add₀ (by norm_num)]; exact zpow_le_zpow_right₀ (by norm_num) (by norm_num)
  · have hs : m = m.sign * 2 ^ 53 := by rw [← hm, Int.sign_mul_abs]
    have hsgn : |m.sign| ≤ 1 := by rcases Int.sign_trichotomy m with h | h | h <;> rw [h] <;> decide
    refine ⟨?_, m.sign * 2 ^ 52, g + 1, ?_, by omega, ?_⟩
    · rw [abs_mul, abs_of_pos (two_zpow_pos g)]
      have e1 : |(m : ℚ)| = 2 ^ (53 : ℤ) := by exact_mod_cast hm
      rw [e1, ← zpow_add₀ (by norm_num)]
      exact zpow_lt_zpow_right₀ (by norm_num) (by omega)
    · rw [abs_mul]
      calc _ ≤ 1 * |(2 : ℤ) ^ 52| := mul_le_mul_of_nonneg_right hsgn (abs_nonneg _)
        _ < _ := by norm_num
    · rw [zpow_add₀ (by norm_num)]
      have : (m : ℚ) = m.sign * 2 ^ 53 := by exact_mod_cast hs
      rw [this]
      push_cast
      ring

end Verif
