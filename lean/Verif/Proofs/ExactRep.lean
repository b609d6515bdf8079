import Verif.Proofs.Binary64Ops
import Verif.Proofs.Node
import Verif.Proofs.StdEval
import Verif.Proofs.Affine

/-! # Sums and products of doubles without rounding -/

set_option linter.unusedSectionVars false

namespace Verif

variable [Libm]

theorem F64.exact_lt {x : ℚ} (h : IsDouble x) : |x| < 2 ^ (1024 : ℤ) - 2 ^ (970 : ℤ) := by
  have hx : |x| ≤ 2 ^ (1024 : ℤ) - 2 ^ (971 : ℤ) := by
    rw [abs_le]
    exact ⟨neg_le.1 (form53_below h.form.neg (lt_of_le_of_lt (neg_le_abs x) h.1)), form53_below h.form (lt_of_le_of_lt (le_abs_self x) h.1)⟩
  exact lt_of_le_of_lt hx (by decide +kernel)

theorem F64.add_exact {a b : F64} {x y : ℚ} (ha : a.HasValue x) (hb : b.HasValue y) (h : IsDouble (x + y)) : (a +. b).HasValue (x + y) := by
  rcases F64.add_value ha hb with ⟨-, h'⟩ | ⟨h', -⟩
  · rwa [round53_exact h.form] at h'
  · exact absurd (F64.exact_lt h) (not_lt.2 h')

theorem F64.mul_exact {a b : F64} {x y : ℚ} (ha : a.HasValue x) (hb : b.HasValue y) (h : IsDouble (x * y)) : (a *. b).HasValue (x * y) := by
  rcases F64.mul_value ha hb with ⟨-, h'⟩ | ⟨h', -⟩
  · rwa [round53_exact h.form] at h'
  · exact absurd (F64.exact_lt h) (not_lt.2 h')

theorem F64.div_exact {a b : F64} {x y : ℚ} (ha : a.HasValue x) (hb : b.HasValue y) (hy : y ≠ 0) (h : IsDouble (x / y)) :
    (a /. b).HasValue (x / y) := by
  rcases F64.div_value ha hb hy with ⟨-, h'⟩ | ⟨h', -⟩
  · rwa [round53_exact h.form] at h'
  · exact absurd (F64.exact_lt h) (not_lt.2 h')

theorem isDouble_zero : IsDouble 0 := double_zero.2

theorem IsDouble.neg {x : ℚ} (h : IsDouble x) : IsDouble (-x) := ⟨by rw [abs_neg]; exact h.1, h.form.neg⟩

theorem F64.one_value : (one : F64).HasValue 1 := by show signedQ false 1 = 1; simp [signedQ]

theorem F64.negOne_value : (negOne : F64).HasValue (-1) := F64.neg_value F64.one_value

theorem F64.eqz {c : F64} {q : ℚ} (h : c.HasValue q) : (c ==. zero) = true ↔ q = 0 := F64.eq_iff h F64.zero_value

theorem F64.eqo {c : F64} {q : ℚ} (h : c.HasValue q) : (c ==. one) = true ↔ q = 1 := F64.eq_iff h F64.one_value

/-- Neither a sum nor a constant. -/
def isAtom : Node F64 → Bool
  | .add .. => false
  | .const .. => false
  | _ => true

/-- The terms of a sum; an expression that is no sum is its only term. -/
def addendsD : Node F64 → List (Node F64)
  | .add _ args => args
  | e => [e]

/-- A number `ev e` that is computed from an expression without rounding, if all results on the way are doubles: constants give their value or nothing. -/
class ExEv (ev : Node F64 → F64) where
  κ : ℚ → ℚ
  κ_zero : κ 0 = 0
  κ_mul : ∀ k q, κ (k * q) = k * κ q
  const : ∀ i {c q}, F64.HasValue c q → (ev (.const i c)).HasValue (κ q)
  sum : ∀ i {as : List (Node F64)} {ts : List ℚ}, List.Forall₂ (fun a t => (ev a).HasValue t) as ts →
    (∀ l, l <+: ts → IsDouble l.sum) → (ev (.add i as)).HasValue ts.sum
  mulL : ∀ i j {c a k x}, F64.HasValue c k → (ev a).HasValue x → IsDouble (k * x) → (ev (.mul i (.const j c) a)).HasValue (k * x)
  mulR : ∀ i j {c a k x}, F64.HasValue c k → (ev a).HasValue x → IsDouble (k * x) → (ev (.mul i a (.const j c))).HasValue (k * x)
  divR : ∀ i j {c a k x}, F64.HasValue c k → k ≠ 0 → (ev a).HasValue x → IsDouble (x / k) → (ev (.div i a (.const j c))).HasValue (x / k)

/-- The expression is a sum of terms with the values `T` and a constant `q`. -/
def ExRep (ev : Node F64 → F64) (e : Node F64) (T : List ℚ) (q : ℚ) : Prop :=
  ∃ as cs, addendsD e = as ++ cs ∧ (∀ a ∈ as, isAtom a = true) ∧ List.Forall₂ (fun a t => (ev a).HasValue t) as T ∧
    (cs = [] ∧ q = 0 ∨ ∃ i c, cs = [Node.const i c] ∧ c.HasValue q)

theorem ExRep.const {ev : Node F64 → F64} {i : ℕ} {c : F64} {q : ℚ} (h : c.HasValue q) : ExRep ev (.const i c) [] q :=
  ⟨[], [.const i c], rfl, by simp, .nil, .inr ⟨i, c, rfl, h⟩⟩

theorem ExRep.atom {ev : Node F64 → F64} {e : Node F64} {t : ℚ} (ha : isAtom e = true) (h : (ev e).HasValue t) : ExRep ev e [t] 0 := by
  refine ⟨[e], [], ?_, by simpa using ha, .cons h .nil, .inl ⟨rfl, rfl⟩⟩
  cases e <;> simp_all [isAtom, addendsD]

/-- What is known of the value of the constant. -/
theorem ExRep.isDouble {ev : Node F64 → F64} {e : Node F64} {T : List ℚ} {q : ℚ} (h : ExRep ev e T q) : IsDouble q := by
  obtain ⟨as, cs, -, -, -, ⟨-, rfl⟩ | ⟨i, c, -, h⟩⟩ := h
  · exact isDouble_zero
  · exact F64.double_of_value h

theorem ExRep.of_const {ev : Node F64 → F64} {i : ℕ} {c : F64} {T : List ℚ} {q : ℚ} (h : ExRep ev (.const i c) T q) : T = [] ∧ c.HasValue q := by
  obtain ⟨as, cs, h1, h2, h3, h4⟩ := h
  rcases h4 with ⟨rfl, rfl⟩ | ⟨j, c', rfl, h4⟩
  · simp only [addendsD, List.append_nil] at h1
    subst h1
    have := h2 (.const i c) (by simp)
    simp [isAtom] at this
  · simp only [addendsD] at h1
    cases as with
    | nil =>
      cases h3
      simp only [List.nil_append, List.cons.injEq, Node.const.injEq, and_true] at h1
      rw [h1.2]
      exact ⟨rfl, h4⟩
    | cons a as => simp at h1

theorem ExRep.eval {ev : Node F64 → F64} [ExEv ev] {e : Node F64} {T : List ℚ} {q : ℚ} (h : ExRep ev e T q)
    (hp : ∀ l, l <+: T ++ [ExEv.κ ev q] → IsDouble l.sum) : (ev e).HasValue (T.sum + ExEv.κ ev q) := by
  obtain ⟨as, cs, h1, h2, h3, h4⟩ := h
  have hall : List.Forall₂ (fun a t => (ev a).HasValue t) (as ++ cs) (if cs = [] then T else T ++ [ExEv.κ ev q]) := by
    rcases h4 with ⟨rfl, rfl⟩ | ⟨i, c, rfl, h4⟩
    · simpa using h3
    · rw [if_neg (by simp)]
      exact List.rel_append h3 (.cons (ExEv.const i h4) .nil)
  have hsum : (if cs = [] then T else T ++ [ExEv.κ ev q]).sum = T.sum + ExEv.κ ev q := by
    rcases h4 with ⟨rfl, rfl⟩ | ⟨i, c, rfl, h4⟩
    · simp [ExEv.κ_zero]
    · simp
  have hpre : ∀ l, l <+: (if cs = [] then T else T ++ [ExEv.κ ev q]) → IsDouble l.sum := by
    intro l hl
    split at hl
    · exact hp l (hl.trans (List.prefix_append _ _))
    · exact hp l hl
  rw [← h1] at hall
  rw [← hsum]
  generalize (if cs = [] then T else T ++ [ExEv.κ ev q]) = ts at *
  by_cases he : ∃ i args, e = .add i args
  · obtain ⟨i, args, rfl⟩ := he
    exact ExEv.sum i hall hpre
  · have : addendsD e = [e] := by cases e <;> simp_all [addendsD]
    rw [this] at hall
    cases hall with
    | cons h hn =>
      cases hn
      simpa using h

/-! ## Sums -/

/-- The state of the loop that collects terms. -/
def ExGath (ev : Node F64 → F64) (acc : F64 × List (Node F64)) (T : List ℚ) (q : ℚ) : Prop :=
  acc.1.HasValue q ∧ (∀ a ∈ acc.2, isAtom a = true) ∧ List.Forall₂ (fun a t => (ev a).HasValue t) acc.2 T

theorem gatherArgs_atoms : ∀ (as xs : List (Node F64)) (acc : F64 × List (Node F64)), (∀ a ∈ as, isAtom a = true) →
    gatherArgs acc (as ++ xs) = gatherArgs (acc.1, acc.2 ++ as) xs := by
  intro as
  induction as with
  | nil => intro xs acc _; simp
  | cons a as ih =>
    intro xs acc h
    obtain ⟨c, args⟩ := acc
    have ha := h a (by simp)
    cases a <;> simp [isAtom] at ha <;>
      (rw [List.cons_append, gatherArgs, ih xs _ (fun a h' => h a (by simp [h']))] <;> simp)

theorem exGath_gather {ev : Node F64 → F64} {acc : F64 × List (Node F64)} {T T' : List ℚ} {q q' : ℚ} {e : Node F64} (h : ExGath ev acc T q)
    (he : ExRep ev e T' q') (hq : IsDouble (q + q')) : ExGath ev (gather acc e) (T ++ T') (q + q') := by
  obtain ⟨as, cs, h1, h2, h3, h4⟩ := he
  have key : gather acc e = (match cs with | [.const _ c] => (acc.1 +. c, acc.2 ++ as) | _ => (acc.1, acc.2 ++ as)) := by
    have hlist : gatherArgs acc (as ++ cs) = (match cs with | [.const _ c] => (acc.1 +. c, acc.2 ++ as) | _ => (acc.1, acc.2 ++ as)) := by
      rw [gatherArgs_atoms as cs acc h2]
      rcases h4 with ⟨rfl, -⟩ | ⟨i, c, rfl, -⟩ <;> rfl
    by_cases hadd : ∃ i args, e = .add i args
    · obtain ⟨i, args, rfl⟩ := hadd
      simp only [addendsD] at h1
      rw [← hlist, ← h1]
      rfl
    · have hs : addendsD e = [e] := by cases e <;> simp_all [addendsD]
      rw [hs] at h1
      rw [← hlist, ← h1]
      obtain ⟨c, args⟩ := acc
      cases e <;> first | rfl | (exfalso; exact hadd ⟨_, _, rfl⟩)
  rw [key]
  rcases h4 with ⟨rfl, rfl⟩ | ⟨i, c, rfl, h4⟩
  · rw [add_zero]
    refine ⟨h.1, ?_, List.rel_append h.2.2 h3⟩
    intro a ha
    rcases List.mem_append.1 ha with ha | ha
    · exact h.2.1 a ha
    · exact h2 a ha
  · refine ⟨F64.add_exact h.1 h4 hq, ?_, List.rel_append h.2.2 h3⟩
    intro a ha
    rcases List.mem_append.1 ha with ha | ha
    · exact h.2.1 a ha
    · exact h2 a ha

theorem ExGath.finish {ev : Node F64 → F64} {acc : F64 × List (Node F64)} {T : List ℚ} {q : ℚ} (h : ExGath ev acc T q) {e : Node F64} {n n' : ℕ}
    (he : finishAdd acc n = .ok (e, n')) : ExRep ev e T q := by
  obtain ⟨h1, h2, h3⟩ := h
  unfold finishAdd at he
  split at he
  · rename_i hempty
    rw [newConst_ok] at he
    obtain ⟨rfl, -⟩ := he
    have hl : acc.2 = [] := by simpa using hempty
    rw [hl] at h3
    cases h3
    exact .const h1
  · split at he
    · rw [M.bind_ok] at he
      obtain ⟨kn, n1, hk, he⟩ := he
      rw [newConst_ok] at hk
      obtain ⟨rfl, -⟩ := hk
      rw [newAdd_ok] at he
      obtain ⟨-, rfl, -⟩ := he
      exact ⟨acc.2, [.const n acc.1], rfl, h2, h3, .inr ⟨n, acc.1, rfl, h1⟩⟩
    · rename_i hz
      rw [newAdd_ok] at he
      obtain ⟨-, rfl, -⟩ := he
      simp only [Bool.not_eq_true', Bool.not_eq_false] at hz
      have hq : q = 0 := (F64.eqz h1).1 hz
      exact ⟨acc.2, [], by simp [addendsD], h2, h3, .inl ⟨rfl, hq⟩⟩

theorem exrep_sum {ev : Node F64 → F64} {a b e : Node F64} {T T' : List ℚ} {q q' : ℚ} {n n' : ℕ} (ha : ExRep ev a T q) (hb : ExRep ev b T' q')
    (hq : IsDouble (q + q')) (h : finishAdd (gather (gather (zero, []) a) b) n = .ok (e, n')) : ExRep ev e (T ++ T') (q + q') := by
  have g0 : ExGath ev (zero, []) [] 0 := ⟨F64.zero_value, by simp, .nil⟩
  have g1 := exGath_gather g0 ha (by rw [zero_add]; exact ha.isDouble)
  rw [List.nil_append, zero_add] at g1
  exact (exGath_gather g1 hb hq).finish h

theorem isConstVal_invD {e : Node F64} {c : F64} (h : e.isConstVal c = true) : ∃ i v, e = .const i v ∧ (v ==. c) = true := by
  cases e <;> simp [Node.isConstVal] at h
  exact ⟨_, _, rfl, h⟩

theorem exrep_addN {ev : Node F64 → F64} {a b e : Node F64} {T T' : List ℚ} {q q' : ℚ} {n n' : ℕ} (ha : ExRep ev a T q) (hb : ExRep ev b T' q')
    (hq : IsDouble (q + q')) (h : addN a b n = .ok (e, n')) : ExRep ev e (T ++ T') (q + q') := by
  unfold addN at h
  split at h
  · rename_i h0
    obtain ⟨i, v, rfl, hv⟩ := isConstVal_invD h0
    rw [M.pure_ok] at h
    obtain ⟨rfl, -⟩ := h
    obtain ⟨rfl, hv'⟩ := ha.of_const
    rw [(F64.eqz hv').1 hv, zero_add]
    exact hb
  split at h
  · rename_i h0
    obtain ⟨i, v, rfl, hv⟩ := isConstVal_invD h0
    rw [M.pure_ok] at h
    obtain ⟨rfl, -⟩ := h
    obtain ⟨rfl, hv'⟩ := hb.of_const
    rw [(F64.eqz hv').1 hv, add_zero, List.append_nil]
    exact ha
  · exact exrep_sum ha hb hq h

theorem exrep_addS {ev : Node F64 → F64} {a e : Node F64} {c : F64} {T : List ℚ} {q k : ℚ} {n n' : ℕ} (ha : ExRep ev a T q) (hc : c.HasValue k)
    (hq : IsDouble (q + k)) (h : addS a c n = .ok (e, n')) : ExRep ev e T (q + k) := by
  unfold addS at h
  split at h
  · rename_i h0
    rw [M.pure_ok] at h
    obtain ⟨rfl, -⟩ := h
    rw [(F64.eqz hc).1 h0, add_zero]
    exact ha
  · rw [M.bind_ok] at h
    obtain ⟨kn, n1, hk, h⟩ := h
    rw [newConst_ok] at hk
    obtain ⟨rfl, -⟩ := hk
    simpa using exrep_sum ha (.const hc) hq h

theorem exrep_sAdd {ev : Node F64 → F64} {b e : Node F64} {c : F64} {T : List ℚ} {q k : ℚ} {n n' : ℕ} (hb : ExRep ev b T q) (hc : c.HasValue k)
    (hq : IsDouble (k + q)) (h : sAdd c b n = .ok (e, n')) : ExRep ev e T (k + q) := by
  unfold sAdd at h
  split at h
  · rename_i h0
    rw [M.pure_ok] at h
    obtain ⟨rfl, -⟩ := h
    rw [(F64.eqz hc).1 h0, zero_add]
    exact hb
  · rw [M.bind_ok] at h
    obtain ⟨kn, n1, hk, h⟩ := h
    rw [newConst_ok] at hk
    obtain ⟨rfl, -⟩ := hk
    simpa using exrep_sum (.const hc) hb hq h

/-! ## Products with a number -/

/-- `f` multiplies constants, terms and sums with `k`. -/
structure ScalesD (ev : Node F64 → F64) (f : Node F64 → M (Node F64)) (k : ℚ) : Prop where
  atom : ∀ {a x n b n'}, isAtom a = true → (ev a).HasValue x → IsDouble (k * x) → f a n = .ok (b, n') →
    (k = 0 ∧ ∃ j c, b = .const j c ∧ c.HasValue 0) ∨ (k ≠ 0 ∧ isAtom b = true ∧ (ev b).HasValue (k * x))
  const : ∀ {i c q n b n'}, c.HasValue q → IsDouble (k * q) → f (.const i c) n = .ok (b, n') → ∃ j c', b = .const j c' ∧ c'.HasValue (k * q)
  sum : ∀ {i args n e n'}, f (.add i args) n = .ok (e, n') →
    (k = 0 ∧ ∃ j c, e = .const j c ∧ c.HasValue 0) ∨ (k = 1 ∧ e = .add i args) ∨ (k ≠ 0 ∧ ∃ bs n1 j, M.mapL f args n = .ok (bs, n1) ∧ e = .add j bs)

theorem exrep_scale {ev : Node F64 → F64} {f : Node F64 → M (Node F64)} {k : ℚ} (hf : ScalesD ev f k) {a e : Node F64} {T : List ℚ} {q : ℚ} {n n' : ℕ}
    (ha : ExRep ev a T q) (hT : ∀ t ∈ T, IsDouble (k * t)) (hq : IsDouble (k * q)) (h : f a n = .ok (e, n')) :
    ExRep ev e (if k = 0 then [] else T.map (k * ·)) (k * q) := by
  by_cases hadd : ∃ i args, a = .add i args
  · obtain ⟨i, args, rfl⟩ := hadd
    rcases hf.sum h with ⟨rfl, j, c, rfl, hc⟩ | ⟨rfl, rfl⟩ | ⟨hk, bs, n1, j, hm, rfl⟩
    · rw [if_pos rfl, zero_mul]
      exact .const hc
    · simpa using ha
    · rw [if_neg hk]
      obtain ⟨as, cs, h1, h2, h3, h4⟩ := ha
      simp only [addendsD] at h1
      subst h1
      have hF := M.mapL_ok_forall (P := fun a b => ∃ n n', f a n = .ok (b, n')) hm fun a _ b n m h => ⟨n, m, h⟩
      clear hm h
      have hsplit : ∀ {as : List (Node F64)} {T : List ℚ} {cs bs : List (Node F64)},
          List.Forall₂ (fun a t => (ev a).HasValue t) as T → (∀ a ∈ as, isAtom a = true) → (∀ t ∈ T, IsDouble (k * t)) →
          List.Forall₂ (fun a b => ∃ n n', f a n = .ok (b, n')) (as ++ cs) bs →
          ∃ bs' ds, bs = bs' ++ ds ∧ (∀ b ∈ bs', isAtom b = true) ∧ List.Forall₂ (fun a t => (ev a).HasValue t) bs' (T.map (k * ·)) ∧
            List.Forall₂ (fun a b => ∃ n n', f a n = .ok (b, n')) cs ds := by
        intro as T cs bs h3
        induction h3 generalizing bs with
        | nil => intro _ _ hF; exact ⟨[], bs, rfl, by simp, .nil, hF⟩
        | @cons a t as T ht _ ih =>
          intro h2 hT hF
          rw [List.cons_append] at hF
          cases hF with
          | @cons _ b _ bs hb hF =>
            obtain ⟨bs', ds, rfl, g1, g2, g3⟩ := ih (fun a h => h2 a (by simp [h])) (fun t h => hT t (by simp [h])) hF
            obtain ⟨m, m', hb⟩ := hb
            rcases hf.atom (h2 a (by simp)) ht (hT t (by simp)) hb with ⟨h0, -⟩ | ⟨-, b1, b2⟩
            · exact absurd h0 hk
            · refine ⟨b :: bs', ds, rfl, ?_, .cons b2 g2, g3⟩
              intro b' hb'
              rcases List.mem_cons.1 hb' with rfl | hb'
              · exact b1
              · exact g1 b' hb'
      obtain ⟨bs', ds, rfl, g1, g2, g3⟩ := hsplit h3 h2 hT hF
      refine ⟨bs', ds, rfl, g1, g2, ?_⟩
      rcases h4 with ⟨rfl, rfl⟩ | ⟨i, c, rfl, h4⟩
      · cases g3
        exact .inl ⟨rfl, mul_zero k⟩
      · cases g3 with
        | @cons _ d _ ds hd hn =>
          cases hn
          obtain ⟨m, m', hd⟩ := hd
          obtain ⟨j', c', rfl, hc'⟩ := hf.const h4 hq hd
          exact .inr ⟨j', c', rfl, hc'⟩
  by_cases hcon : ∃ i c, a = .const i c
  · obtain ⟨i, c, rfl⟩ := hcon
    obtain ⟨rfl, hc⟩ := ha.of_const
    obtain ⟨j, c', rfl, hc'⟩ := hf.const hc hq h
    have : (if k = 0 then [] else ([] : List ℚ).map (k * ·)) = [] := by simp
    rw [this]
    exact .const hc'
  · have hat : isAtom a = true := by cases a <;> simp_all [isAtom]
    obtain ⟨as, cs, h1, h2, h3, h4⟩ := ha
    have hs : addendsD a = [a] := by cases a <;> simp_all [addendsD]
    rw [hs] at h1
    rcases h4 with ⟨rfl, rfl⟩ | ⟨i, c, rfl, h4⟩
    · rw [List.append_nil] at h1
      subst h1
      cases h3 with
      | @cons _ t _ T ht hn =>
        cases hn
        rw [mul_zero]
        rcases hf.atom hat ht (hT t (by simp)) h with ⟨h0, j, c, rfl, hc⟩ | ⟨h0, b1, b2⟩
        · rw [if_pos h0]; exact .const hc
        · rw [if_neg h0]; exact .atom b1 b2
    · exfalso
      cases as with
      | nil =>
        simp only [List.nil_append, List.cons.injEq, and_true] at h1
        exact hcon ⟨i, c, h1⟩
      | cons b as => simp at h1

theorem sMulL_mapLD (c : F64) : ∀ as : List (Node F64), sMul.sMulL c as = M.mapL (sMul c) as
  | [] => rfl
  | a :: as => by simp only [sMul.sMulL, M.mapL, sMulL_mapLD c as]

theorem mulSL_mapLD (c : F64) : ∀ as : List (Node F64), mulS.mulSL c as = M.mapL (mulS c) as
  | [] => rfl
  | a :: as => by simp only [mulS.mulSL, M.mapL, mulSL_mapLD c as]

theorem mulCLL_mapLD (i : ℕ) (c : F64) : ∀ as : List (Node F64), mulCL.mulCLL i c as = M.mapL (mulCL i c) as
  | [] => rfl
  | a :: as => by simp only [mulCL.mulCLL, M.mapL, mulCLL_mapLD i c as]

theorem mulCRL_mapLD (i : ℕ) (c : F64) : ∀ as : List (Node F64), mulCR.mulCRL i c as = M.mapL (mulCR i c) as
  | [] => rfl
  | a :: as => by simp only [mulCR.mulCRL, M.mapL, mulCRL_mapLD i c as]

theorem sMul_scalesD (ev : Node F64 → F64) [ExEv ev] {c : F64} {k : ℚ} (hc : c.HasValue k) : ScalesD ev (sMul c) k := by
  constructor
  · intro a x n b n' ha hx hd hf
    have key : ∀ r : Node F64, isAtom r = true → (ev r).HasValue x →
        (if c ==. zero then newConst zero else if c ==. one then M.pure r else M.bind (newConst c) fun k => newMul k r) n = .ok (b, n') →
        (k = 0 ∧ ∃ j c, b = .const j c ∧ c.HasValue 0) ∨ (k ≠ 0 ∧ isAtom b = true ∧ (ev b).HasValue (k * x)) := by
      intro r hr hx h
      split at h
      · rename_i h0
        rw [newConst_ok] at h
        exact .inl ⟨(F64.eqz hc).1 h0, _, _, h.1, F64.zero_value⟩
      have hk0 : k ≠ 0 := by rename_i h0; intro h1; exact h0 ((F64.eqz hc).2 h1)
      split at h
      · rename_i h0
        rw [M.pure_ok] at h
        obtain ⟨rfl, -⟩ := h
        have h1 := (F64.eqo hc).1 h0
        subst h1
        exact .inr ⟨hk0, hr, by rwa [one_mul]⟩
      · rw [M.bind_ok] at h
        obtain ⟨kn, n1, hk, h⟩ := h
        rw [newConst_ok] at hk
        obtain ⟨rfl, -⟩ := hk
        rw [newMul_eq] at h
        cases h
        exact .inr ⟨hk0, rfl, ExEv.mulL _ _ hc hx hd⟩
    cases a <;> simp [isAtom] at ha
    all_goals exact key _ rfl hx hf
  · intro i c' q n b n' hc' hd h
    simp only [sMul, newConst_ok] at h
    exact ⟨_, _, h.1, F64.mul_exact hc hc' hd⟩
  · intro i args n e n' h
    simp only [sMul, sMulL_mapLD] at h
    split at h
    · rename_i h0
      rw [newConst_ok] at h
      exact .inl ⟨(F64.eqz hc).1 h0, n, _, h.1, F64.zero_value⟩
    have hk0 : k ≠ 0 := by rename_i h0; intro h1; exact h0 ((F64.eqz hc).2 h1)
    split at h
    · rename_i h0
      rw [M.pure_ok] at h
      exact .inr (.inl ⟨(F64.eqo hc).1 h0, h.1⟩)
    · rw [M.bind_ok] at h
      obtain ⟨bs, n1, hm, h⟩ := h
      rw [newAdd_ok] at h
      exact .inr (.inr ⟨hk0, bs, n1, n1, hm, h.2.1⟩)

theorem mulS_scalesD (ev : Node F64 → F64) [ExEv ev] {c : F64} {k : ℚ} (hc : c.HasValue k) : ScalesD ev (mulS c) k := by
  constructor
  · intro a x n b n' ha hx hd hf
    have key : ∀ r : Node F64, isAtom r = true → (ev r).HasValue x →
        (if c ==. zero then newConst zero else if c ==. one then M.pure r else M.bind (newConst c) fun k => newMul r k) n = .ok (b, n') →
        (k = 0 ∧ ∃ j c, b = .const j c ∧ c.HasValue 0) ∨ (k ≠ 0 ∧ isAtom b = true ∧ (ev b).HasValue (k * x)) := by
      intro r hr hx h
      split at h
      · rename_i h0
        rw [newConst_ok] at h
        exact .inl ⟨(F64.eqz hc).1 h0, _, _, h.1, F64.zero_value⟩
      have hk0 : k ≠ 0 := by rename_i h0; intro h1; exact h0 ((F64.eqz hc).2 h1)
      split at h
      · rename_i h0
        rw [M.pure_ok] at h
        obtain ⟨rfl, -⟩ := h
        have h1 := (F64.eqo hc).1 h0
        subst h1
        exact .inr ⟨hk0, hr, by rwa [one_mul]⟩
      · rw [M.bind_ok] at h
        obtain ⟨kn, n1, hk, h⟩ := h
        rw [newConst_ok] at hk
        obtain ⟨rfl, -⟩ := hk
        rw [newMul_eq] at h
        cases h
        exact .inr ⟨hk0, rfl, ExEv.mulR _ _ hc hx hd⟩
    cases a <;> simp [isAtom] at ha
    all_goals exact key _ rfl hx hf
  · intro i c' q n b n' hc' hd h
    simp only [mulS, newConst_ok] at h
    exact ⟨_, _, h.1, by rw [mul_comm]; exact F64.mul_exact hc' hc (by rwa [mul_comm])⟩
  · intro i args n e n' h
    simp only [mulS, mulSL_mapLD] at h
    split at h
    · rename_i h0
      rw [newConst_ok] at h
      exact .inl ⟨(F64.eqz hc).1 h0, n, _, h.1, F64.zero_value⟩
    have hk0 : k ≠ 0 := by rename_i h0; intro h1; exact h0 ((F64.eqz hc).2 h1)
    split at h
    · rename_i h0
      rw [M.pure_ok] at h
      exact .inr (.inl ⟨(F64.eqo hc).1 h0, h.1⟩)
    · rw [M.bind_ok] at h
      obtain ⟨bs, n1, hm, h⟩ := h
      rw [newAdd_ok] at h
      exact .inr (.inr ⟨hk0, bs, n1, n1, hm, h.2.1⟩)

theorem mulCL_scalesD (ev : Node F64 → F64) [ExEv ev] (i : ℕ) {c : F64} {k : ℚ} (hc : c.HasValue k) : ScalesD ev (mulCL i c) k := by
  constructor
  · intro a x n b n' ha hx hd hf
    have key : ∀ r : Node F64, isAtom r = true → (ev r).HasValue x →
        (if c ==. zero then newConst zero else if c ==. one then M.pure r else newMul (.const i c) r) n = .ok (b, n') →
        (k = 0 ∧ ∃ j c, b = .const j c ∧ c.HasValue 0) ∨ (k ≠ 0 ∧ isAtom b = true ∧ (ev b).HasValue (k * x)) := by
      intro r hr hx h
      split at h
      · rename_i h0
        rw [newConst_ok] at h
        exact .inl ⟨(F64.eqz hc).1 h0, _, _, h.1, F64.zero_value⟩
      have hk0 : k ≠ 0 := by rename_i h0; intro h1; exact h0 ((F64.eqz hc).2 h1)
      split at h
      · rename_i h0
        rw [M.pure_ok] at h
        obtain ⟨rfl, -⟩ := h
        have h1 := (F64.eqo hc).1 h0
        subst h1
        exact .inr ⟨hk0, hr, by rwa [one_mul]⟩
      · rw [newMul_eq] at h
        cases h
        exact .inr ⟨hk0, rfl, ExEv.mulL _ _ hc hx hd⟩
    cases a <;> simp [isAtom] at ha
    all_goals exact key _ rfl hx hf
  · intro j c' q n b n' hc' hd h
    simp only [mulCL] at h
    split at h
    · rename_i h0
      rw [newConst_ok] at h
      refine ⟨_, _, h.1, ?_⟩
      have : k * q = 0 := by
        rw [Bool.or_eq_true] at h0
        rcases h0 with h0 | h0
        · rw [(F64.eqz hc).1 h0, zero_mul]
        · rw [(F64.eqz hc').1 h0, mul_zero]
      rw [this]
      exact F64.zero_value
    split at h
    · rename_i h0
      rw [M.pure_ok] at h
      exact ⟨_, _, h.1, by rw [(F64.eqo hc).1 h0, one_mul]; exact hc'⟩
    split at h
    · rename_i h0
      rw [M.pure_ok] at h
      exact ⟨_, _, h.1, by rw [(F64.eqo hc').1 h0, mul_one]; exact hc⟩
    · rw [newConst_ok] at h
      exact ⟨_, _, h.1, F64.mul_exact hc hc' hd⟩
  · intro j args n e n' h
    simp only [mulCL, mulCLL_mapLD] at h
    split at h
    · rename_i h0
      rw [newConst_ok] at h
      exact .inl ⟨(F64.eqz hc).1 h0, n, _, h.1, F64.zero_value⟩
    have hk0 : k ≠ 0 := by rename_i h0; intro h1; exact h0 ((F64.eqz hc).2 h1)
    split at h
    · rename_i h0
      rw [M.pure_ok] at h
      exact .inr (.inl ⟨(F64.eqo hc).1 h0, h.1⟩)
    · rw [M.bind_ok] at h
      obtain ⟨bs, n1, hm, h⟩ := h
      rw [newAdd_ok] at h
      exact .inr (.inr ⟨hk0, bs, n1, n1, hm, h.2.1⟩)

theorem mulCR_scalesD (ev : Node F64 → F64) [ExEv ev] (i : ℕ) {c : F64} {k : ℚ} (hc : c.HasValue k) : ScalesD ev (mulCR i c) k := by
  constructor
  · intro a x n b n' ha hx hd hf
    have key : ∀ r : Node F64, isAtom r = true → (ev r).HasValue x →
        (if c ==. zero then newConst zero else if c ==. one then M.pure r else newMul r (.const i c)) n = .ok (b, n') →
        (k = 0 ∧ ∃ j c, b = .const j c ∧ c.HasValue 0) ∨ (k ≠ 0 ∧ isAtom b = true ∧ (ev b).HasValue (k * x)) := by
      intro r hr hx h
      split at h
      · rename_i h0
        rw [newConst_ok] at h
        exact .inl ⟨(F64.eqz hc).1 h0, _, _, h.1, F64.zero_value⟩
      have hk0 : k ≠ 0 := by rename_i h0; intro h1; exact h0 ((F64.eqz hc).2 h1)
      split at h
      · rename_i h0
        rw [M.pure_ok] at h
        obtain ⟨rfl, -⟩ := h
        have h1 := (F64.eqo hc).1 h0
        subst h1
        exact .inr ⟨hk0, hr, by rwa [one_mul]⟩
      · rw [newMul_eq] at h
        cases h
        exact .inr ⟨hk0, rfl, ExEv.mulR _ _ hc hx hd⟩
    cases a <;> simp [isAtom] at ha
    all_goals exact key _ rfl hx hf
  · intro j c' q n b n' hc' hd h
    simp only [mulCR] at h
    split at h
    · rename_i h0
      rw [newConst_ok] at h
      refine ⟨_, _, h.1, ?_⟩
      have : k * q = 0 := by
        rw [Bool.or_eq_true] at h0
        rcases h0 with h0 | h0
        · rw [(F64.eqz hc').1 h0, mul_zero]
        · rw [(F64.eqz hc).1 h0, zero_mul]
      rw [this]
      exact F64.zero_value
    split at h
    · rename_i h0
      rw [M.pure_ok] at h
      exact ⟨_, _, h.1, by rw [(F64.eqo hc').1 h0, mul_one]; exact hc⟩
    split at h
    · rename_i h0
      rw [M.pure_ok] at h
      exact ⟨_, _, h.1, by rw [(F64.eqo hc).1 h0, one_mul]; exact hc'⟩
    · rw [newConst_ok] at h
      exact ⟨_, _, h.1, by rw [mul_comm]; exact F64.mul_exact hc' hc (by rwa [mul_comm])⟩
  · intro j args n e n' h
    simp only [mulCR, mulCRL_mapLD] at h
    split at h
    · rename_i h0
      rw [newConst_ok] at h
      exact .inl ⟨(F64.eqz hc).1 h0, n, _, h.1, F64.zero_value⟩
    have hk0 : k ≠ 0 := by rename_i h0; intro h1; exact h0 ((F64.eqz hc).2 h1)
    split at h
    · rename_i h0
      rw [M.pure_ok] at h
      exact .inr (.inl ⟨(F64.eqo hc).1 h0, h.1⟩)
    · rw [M.bind_ok] at h
      obtain ⟨bs, n1, hm, h⟩ := h
      rw [newAdd_ok] at h
      exact .inr (.inr ⟨hk0, bs, n1, n1, hm, h.2.1⟩)

theorem negN_sMul (a : Node F64) : negN a = sMul negOne a := by cases a <;> rfl

theorem mulN_const_leftD (i : ℕ) (c : F64) (b : Node F64) : mulN (.const i c) b = mulCL i c b := by
  cases b <;> rfl

end Verif
