import Mathlib.Tactic.Linarith
import Verif.Proofs.Feas
import Verif.Proofs.WorldInv

/-! # Feasible points of the standard problem -/

set_option linter.unusedSectionVars false
set_option linter.unusedSimpArgs false

namespace Verif

/-! ### Rows -/

section
variable {F : Type} [FloatOps F] {H : HashOrder} {l : Level} {h : Heap F} {n m ar jr : Nat} {ps : List (Piece F)}

theorem entriesOf_append (a b : List (Nat × Node F × F)) (i : Nat) : entriesOf (a ++ b) i = entriesOf a i ++ entriesOf b i := by
  simp [entriesOf]

theorem entriesOf_other (a : List (Node F × F)) {r i : Nat} (hne : r ≠ i) : entriesOf (a.map fun e => (r, e.1, e.2)) i = [] := by
  unfold entriesOf
  rw [List.filter_eq_nil_iff.2 (by rintro _ he; obtain ⟨e, _, rfl⟩ := List.mem_map.1 he; simpa using hne)]
  rfl

theorem entriesOf_same (a : List (Node F × F)) (r : Nat) : entriesOf (a.map fun e => (r, e.1, e.2)) r = a := by
  unfold entriesOf
  rw [List.filter_eq_self.2 (by rintro _ he; obtain ⟨e, _, rfl⟩ := List.mem_map.1 he; simp)]
  simp [Function.comp_def]

theorem Piece.coefs_nil {p : Piece F} (hp : p.isLin = false) : p.coefs = [] := by
  unfold Piece.coefs; unfold Piece.isLin at hp; split <;> simp_all

theorem Piece.jac_nil {p : Piece F} (hp : p.isNl = false) : p.jac = [] := by
  unfold Piece.jac; unfold Piece.isNl at hp; split <;> simp_all

theorem PChain.low (hc : PChain H l h n ar jr ps m) {i : Nat} (hi : i < ar) : entriesOf (ps.flatMap fun p => p.out.a) i = [] := by
  induction ps generalizing n ar jr with
  | nil => rfl
  | cons p ps ih =>
    obtain ⟨h1, h2, k, h3, h4, h5⟩ := hc
    rw [List.flatMap_cons, entriesOf_append, ih h5 (by omega)]
    simp only [Piece.out, List.append_nil]
    exact entriesOf_other _ (by omega)

/-- The linear rows, one by one. -/
theorem PChain.rows (hc : PChain H l h n ar jr ps m) (P : F → List (Node F × F) → Prop) :
    (∀ k v, (ps.flatMap fun p => p.out.b)[k]? = some v → P v (entriesOf (ps.flatMap fun p => p.out.a) (ar + k))) ↔
      ∀ p ∈ ps, p.isLin = true → P (FloatOps.neg p.comp.prop.b) p.coefs := by
  induction ps generalizing n ar jr with
  | nil => simp
  | cons p ps ih =>
    obtain ⟨h1, h2, k, h3, h4, h5⟩ := hc
    have hi := ih h5
    simp only [List.forall_mem_cons, ← hi]
    cases hl : p.isLin
    · have ha : p.out.a = [] := by simp [Piece.out, Piece.coefs_nil hl]
      have hb : p.out.b = [] := by simp [Piece.out, hl]
      simp [ha, hb]
    · have hb : p.out.b = [FloatOps.neg p.comp.prop.b] := by simp [Piece.out, hl]
      have ha : p.out.a = p.coefs.map fun e => (ar, e.1, e.2) := by simp [Piece.out, h1]
      simp only [hl, Bool.toNat_true] at h5 ⊢
      simp only [List.flatMap_cons, hb, ha, entriesOf_append, List.singleton_append]
      constructor
      · intro hh
        refine ⟨fun _ => ?_, fun k v hk => ?_⟩
        · have := hh 0 _ rfl
          rw [Nat.add_zero, entriesOf_same, h5.low (by omega), List.append_nil] at this
          exact this
        · have := hh (k + 1) v (by simpa using hk)
          rw [entriesOf_other _ (by omega), List.nil_append] at this
          rwa [Nat.add_assoc, Nat.add_comm 1]
      · rintro ⟨h1, h2⟩ k v hk
        cases k with
        | zero =>
          simp only [List.getElem?_cons_zero, Option.some.injEq] at hk
          subst hk
          rw [Nat.add_zero, entriesOf_same, h5.low (by omega), List.append_nil]
          exact h1 trivial
        | succ k =>
          rw [entriesOf_other _ (by omega), List.nil_append]
          have := h2 k v (by simpa using hk)
          rwa [Nat.add_assoc, Nat.add_comm 1] at this

end

variable {K : Type} [Field K] [LinearOrder K] [IsStrictOrderedRing K] [Trig K]

/-- The components of a chain hold iff those of each piece do. -/
theorem PChain.holds {H : HashOrder} {l : Level} {h : Heap (Option K)} {n m ar jr : Nat} {ps : List (Piece (Option K))}
    (hc : PChain H l h n ar jr ps m) (τ : Env (Option K)) :
    (ConstrComp.concat (ps.map Piece.out)).HoldsAt ar τ ↔ ∀ p ∈ ps, p.out.HoldsAt p.arow τ := by
  have e := hc.rows fun v es => ∃ t, v = some t ∧ affineValue τ es (some 0) = some t
  constructor
  · rintro ⟨h1, h2, h3, h4⟩ p hp
    simp only [ConstrComp.concat, List.flatMap_map, List.mem_flatMap] at h1 h2 h3 h4
    rw [e] at h1
    refine ⟨fun k v hk => ?_, fun f hf => h2 f ⟨p, hp, hf⟩, fun q hq => h3 q ⟨p, hp, hq⟩, fun q hq => h4 q ⟨p, hp, hq⟩⟩
    cases hl : p.isLin
    · simp [Piece.out, hl] at hk
    · cases k with
      | succ k => simp [Piece.out, hl] at hk
      | zero =>
        simp only [Piece.out, hl, if_true, List.getElem?_cons_zero, Option.some.injEq] at hk
        subst hk
        rw [Nat.add_zero]
        simp only [Piece.out]
        rw [entriesOf_same]
        exact h1 p hp hl
  · intro hh
    constructor
    · simp only [ConstrComp.concat, List.flatMap_map]
      rw [e]
      intro p hp hl
      have := (hh p hp).linear 0 (FloatOps.neg p.comp.prop.b) (by simp [Piece.out, hl])
      rw [Nat.add_zero] at this
      simp only [Piece.out] at this
      rwa [entriesOf_same] at this
    · intro f hf
      simp only [ConstrComp.concat, List.flatMap_map, List.mem_flatMap] at hf
      obtain ⟨p, hp, hf⟩ := hf
      exact (hh p hp).nonlinear f hf
    · intro f hf
      simp only [ConstrComp.concat, List.flatMap_map, List.mem_flatMap] at hf
      obtain ⟨p, hp, hf⟩ := hf
      exact (hh p hp).upper f hf
    · intro f hf
      simp only [ConstrComp.concat, List.flatMap_map, List.mem_flatMap] at hf
      obtain ⟨p, hp, hf⟩ := hf
      exact (hh p hp).lower f hf

/-! ### Bounds -/

/-- The upper bound of a column: the least of 1e8 and the numbers given; the constraint recorded gave it. -/
theorem tightest_up (init : K) (es : List (Node (Option K) × Option K × Constraint (Option K))) (x : Node (Option K)) :
    ∃ up, (tightest (fun v c => v <=. c) (some init) es x).1 = some up ∧
      (∀ t : K, t ≤ up ↔ t ≤ init ∧ ∀ e ∈ es, e.1.ptrEq x = true → ∀ v, e.2.1 = some v → t ≤ v) ∧
      (∀ c, (tightest (fun v c => v <=. c) (some init) es x).2 = some c → ∃ e ∈ es, e.1.ptrEq x = true ∧ e.2 = (some up, c)) ∧
      ((tightest (fun v c => v <=. c) (some init) es x).2 = none → up = init ∧
        ∀ e ∈ es, e.1.ptrEq x = true → ∀ v, e.2.1 = some v → init < v) := by
  induction es using List.reverseRecOn with
  | nil => exact ⟨init, rfl, by simp, by simp [tightest], by simp⟩
  | append_singleton es e ih =>
    obtain ⟨up, h1, h2, h3, h4⟩ := ih
    have hs : tightest (fun v c => v <=. c) (some init) (es ++ [e]) x =
        if e.1.ptrEq x && (e.2.1 <=. (tightest (fun v c => v <=. c) (some init) es x).1) then (e.2.1, some e.2.2)
        else tightest (fun v c => v <=. c) (some init) es x := by simp [tightest, List.foldl_append]
    obtain ⟨y, ev, c⟩ := e
    simp only at hs
    by_cases hb : (y.ptrEq x && (ev <=. (tightest (fun v c => v <=. c) (some init) es x).1)) = true
    · rw [hs, if_pos hb]
      simp only [Bool.and_eq_true] at hb
      obtain ⟨hy, hv⟩ := hb
      rw [h1] at hv
      cases ev with
      | none => simp at hv
      | some w =>
        simp only [Exact.le_some, decide_eq_true_eq] at hv
        refine ⟨w, rfl, fun t => ?_, ?_, by simp⟩
        · constructor
          · intro ht
            obtain ⟨a, b⟩ := (h2 t).1 (le_trans ht hv)
            refine ⟨a, fun e he hex v hev => ?_⟩
            rcases List.mem_append.1 he with he | he
            · exact b e he hex v hev
            · simp only [List.mem_singleton] at he
              subst he
              simp only [Option.some.injEq] at hev
              subst hev; exact ht
          · rintro ⟨_, b⟩
            exact b (y, some w, c) (by simp) hy w rfl
        · intro c' hc'
          simp only [Option.some.injEq] at hc'
          subst hc'
          exact ⟨(y, some w, c), by simp, hy, rfl⟩
    · rw [hs, if_neg hb]
      have hnew : y.ptrEq x = true → ∀ v, ev = some v → up < v := by
        intro hy v hv
        subst hv
        simp only [hy, h1, Exact.le_some, Bool.true_and, decide_eq_true_eq, not_le] at hb
        exact hb
      refine ⟨up, h1, fun t => ?_, ?_, ?_⟩
      · constructor
        · intro ht
          obtain ⟨a, b⟩ := (h2 t).1 ht
          refine ⟨a, fun e he hex v hev => ?_⟩
          rcases List.mem_append.1 he with he | he
          · exact b e he hex v hev
          · simp only [List.mem_singleton] at he
            subst he
            exact le_of_lt (lt_of_le_of_lt ht (hnew hex v hev))
        · rintro ⟨a, b⟩
          exact (h2 t).2 ⟨a, fun e he => b e (by simp [he])⟩
      · intro c' hc'
        obtain ⟨e, he, hh⟩ := h3 c' hc'
        exact ⟨e, by simp [he], hh⟩
      · intro hn
        obtain ⟨a, b⟩ := h4 hn
        refine ⟨a, fun e he hex v hev => ?_⟩
        rcases List.mem_append.1 he with he | he
        · exact b e he hex v hev
        · simp only [List.mem_singleton] at he
          subst he
          rw [← a]
          exact hnew hex v hev

/-- The lower bound of a column. -/
theorem tightest_lo (init : K) (es : List (Node (Option K) × Option K × Constraint (Option K))) (x : Node (Option K)) :
    ∃ lo, (tightest (fun v c => c <=. v) (some init) es x).1 = some lo ∧
      (∀ t : K, lo ≤ t ↔ init ≤ t ∧ ∀ e ∈ es, e.1.ptrEq x = true → ∀ v, e.2.1 = some v → v ≤ t) ∧
      (∀ c, (tightest (fun v c => c <=. v) (some init) es x).2 = some c → ∃ e ∈ es, e.1.ptrEq x = true ∧ e.2 = (some lo, c)) ∧
      ((tightest (fun v c => c <=. v) (some init) es x).2 = none → lo = init ∧
        ∀ e ∈ es, e.1.ptrEq x = true → ∀ v, e.2.1 = some v → v < init) := by
  induction es using List.reverseRecOn with
  | nil => exact ⟨init, rfl, by simp, by simp [tightest], by simp⟩
  | append_singleton es e ih =>
    obtain ⟨lo, h1, h2, h3, h4⟩ := ih
    have hs : tightest (fun v c => c <=. v) (some init) (es ++ [e]) x =
        if e.1.ptrEq x && ((tightest (fun v c => c <=. v) (some init) es x).1 <=. e.2.1) then (e.2.1, some e.2.2)
        else tightest (fun v c => c <=. v) (some init) es x := by simp [tightest, List.foldl_append]
    obtain ⟨y, ev, c⟩ := e
    simp only at hs
    by_cases hb : (y.ptrEq x && ((tightest (fun v c => c <=. v) (some init) es x).1 <=. ev)) = true
    · rw [hs, if_pos hb]
      simp only [Bool.and_eq_true] at hb
      obtain ⟨hy, hv⟩ := hb
      rw [h1] at hv
      cases ev with
      | none => simp at hv
      | some w =>
        simp only [Exact.le_some, decide_eq_true_eq] at hv
        refine ⟨w, rfl, fun t => ?_, ?_, by simp⟩
        · constructor
          · intro ht
            obtain ⟨a, b⟩ := (h2 t).1 (le_trans hv ht)
            refine ⟨a, fun e he hex v hev => ?_⟩
            rcases List.mem_append.1 he with he | he
            · exact b e he hex v hev
            · simp only [List.mem_singleton] at he
              subst he
              simp only [Option.some.injEq] at hev
              subst hev; exact ht
          · rintro ⟨_, b⟩
            exact b (y, some w, c) (by simp) hy w rfl
        · intro c' hc'
          simp only [Option.some.injEq] at hc'
          subst hc'
          exact ⟨(y, some w, c), by simp, hy, rfl⟩
    · rw [hs, if_neg hb]
      have hnew : y.ptrEq x = true → ∀ v, ev = some v → v < lo := by
        intro hy v hv
        subst hv
        simp only [hy, h1, Exact.le_some, Bool.true_and, decide_eq_true_eq, not_le] at hb
        exact hb
      refine ⟨lo, h1, fun t => ?_, ?_, ?_⟩
      · constructor
        · intro ht
          obtain ⟨a, b⟩ := (h2 t).1 ht
          refine ⟨a, fun e he hex v hev => ?_⟩
          rcases List.mem_append.1 he with he | he
          · exact b e he hex v hev
          · simp only [List.mem_singleton] at he
            subst he
            exact le_of_lt (lt_of_lt_of_le (hnew hex v hev) ht)
        · rintro ⟨a, b⟩
          exact (h2 t).2 ⟨a, fun e he => b e (by simp [he])⟩
      · intro c' hc'
        obtain ⟨e, he, hh⟩ := h3 c' hc'
        exact ⟨e, by simp [he], hh⟩
      · intro hn
        obtain ⟨a, b⟩ := h4 hn
        refine ⟨a, fun e he hex v hev => ?_⟩
        rcases List.mem_append.1 he with he | he
        · exact b e he hex v hev
        · simp only [List.mem_singleton] at he
          subst he
          rw [← a]
          exact hnew hex v hev

/-! ### Points -/

section
variable {F : Type} [FloatOps F] {H : HashOrder} {l : Level} {h : Heap F} {n m : Nat} {cols : List (Node F)} {comp : ModelComp F}

theorem pointOf_eq (cols : List (Node F)) (xs : List F) : pointOf cols.zipIdx xs = pointEnv cols xs := by
  funext k
  unfold pointOf pointEnv
  have : ∀ j, (cols.zipIdx j).find? (fun e => e.1.id == k) =
      if cols.any (fun y => y.id == k) then (cols[cols.findIdx fun y => y.id == k]?).map fun y => (y, j + cols.findIdx fun y => y.id == k) else none := by
    induction cols with
    | nil => intro j; rfl
    | cons y cols ih =>
      intro j
      simp only [List.zipIdx_cons, List.find?_cons, List.any_cons, List.findIdx_cons]
      cases hy : (y.id == k)
      · simp only [ih, Bool.false_or, cond_false]
        split
        · simp only [List.getElem?_cons_succ]
          congr 1; funext z; congr 1; omega
        · rfl
      · simp
  rw [this 0]
  split
  · rename_i ha
    have hlt : cols.findIdx (fun y => y.id == k) < cols.length := by
      rw [List.findIdx_lt_length]
      simpa using List.any_eq_true.1 ha
    rw [List.getElem?_eq_getElem hlt]
    simp
  · rfl

/-- A matrix view of the standard problem. -/
structure View (cols : List (Node F)) (comp : ModelComp F) (init : List (Node F × F)) (q : Minlp F) : Prop where
  a : q.a = stdA cols comp
  b : q.b = comp.constr.b
  l : q.l = stdL cols comp
  u : q.u = stdU cols comp
  p : q.p = stdP cols
  x0 : q.x0 = some (stdX0 cols init)
  eval : ∀ xs, xs.length = cols.length → ∃ q', q.evaluate xs = .ok q' ∧ q'.buf.f = comp.constr.f.map (·.evaluate (pointEnv cols xs))

theorem SpFacts.view {mod : Model F} {e : Node F} {ps : List (Piece F)} {xes : List (Node F × F)} {ves : List (Node F × Nat)}
    {sp : StdProb F} (hf : SpFacts H l h n m mod comp e ps cols xes ves sp) {q : Minlp F} (hq : q ∈ sp.prob.views) :
    View cols comp xes q := by
  have hlin : comp.constr.f = [] → View cols comp xes (stdLinear cols comp xes) := by
    intro hnf
    refine ⟨rfl, rfl, rfl, rfl, rfl, rfl, fun xs hx => ?_⟩
    have hi : LinInv (stdC cols comp) (stdA cols comp) comp.constr.b (stdL cols comp) (stdU cols comp) (stdP cols)
        (some (stdX0 cols xes)) (stdLinear cols comp xes) := LinInv.initial (by simp [stdC, stdA, Coo.cols])
    refine ⟨_, hi.evaluate (by simpa [stdC] using hx), ?_⟩
    simp [hi.f, hnf]
  have hmin : View cols comp xes (stdMinlp cols comp xes ves) := by
    refine ⟨rfl, rfl, rfl, rfl, rfl, rfl, fun xs hx => ?_⟩
    refine ⟨_, StdInv.initial.evaluate hf.cok hf.cmpOk hf.vesP (by omega), rfl⟩
  rw [hf.prob] at hq
  unfold stdProbOf at hq
  split at hq
  · rename_i hc
    have := hlin hc.2
    split at hq
    · simp only [Problem.views, List.mem_cons, List.not_mem_nil, or_false, or_self] at hq
      rw [hq]; exact this
    · simp only [Problem.views, List.mem_singleton] at hq
      rw [hq]; exact this
  · split at hq
    · simp only [Problem.views, List.mem_singleton] at hq
      rw [hq]; exact hmin
    · simp only [Problem.views, List.mem_singleton] at hq
      rw [hq]; exact hmin

theorem rowOf_stdA (cols : List (Node F)) (comp : ModelComp F) (i : Nat) :
    rowOf (stdA cols comp).triplets i = (entriesOf comp.constr.a i).map fun e => (colOf cols e.1, e.2) := by
  unfold rowOf stdA Coo.triplets entriesOf linP
  simp only [List.map_map, Function.comp_def]
  generalize comp.constr.a = es
  induction es with
  | nil => rfl
  | cons e es ih =>
    simp only [List.map_cons, List.zip_cons_cons, List.filter_cons]
    split <;> simp [ih]

end

theorem total_osum (l : List (Option K)) : total l = osum l := by
  induction l with
  | nil => rfl
  | cons a l ih => rw [total_cons, ih]; rfl

section
variable {H : HashOrder} {l : Level} {h : Heap (Option K)} {n m : Nat} {cols : List (Node (Option K))} {comp : ModelComp (Option K)}
  {mod : Model (Option K)} {e : Node (Option K)} {ps : List (Piece (Option K))} {xes : List (Node (Option K) × Option K)}
  {ves : List (Node (Option K) × Nat)} {sp : StdProb (Option K)}

theorem evaluate_col (hc : ColsOk l h cols) {x : Node (Option K)} (hx : x ∈ cols) (xs : List (Option K)) :
    x.evaluate (pointEnv cols xs) = (xs[colOf cols x]?).getD none := by
  have hv := hc.var x hx
  have hp := pointEnv_col hc hx xs
  cases x <;> simp [Node.isVar] at hv
  simp only [Node.id] at hp
  simp only [Node.evaluate, hp]
  rfl

/-- Row `i` of the standard matrix at a point. -/
theorem row_value (hc : ColsOk l h cols) (ho : CompOk cols comp) (xs : List (Option K)) (i : Nat) :
    total ((rowOf (stdA cols comp).triplets i).map fun e => e.2 *. (xs[e.1]?).getD none) =
      affineValue (pointEnv cols xs) (entriesOf comp.constr.a i) (some 0) := by
  rw [affineValue_eq, Exact.oadd_zero, total_osum, rowOf_stdA, List.map_map]
  unfold lin
  congr 1
  refine List.map_congr_left fun e he => ?_
  have hx : e.1 ∈ cols := by
    unfold entriesOf at he
    obtain ⟨q, hq, rfl⟩ := List.mem_map.1 he
    exact ho.a q (List.mem_filter.1 hq).1
  simp only [Function.comp, evaluate_col hc hx]

/-- The bounds of the standard problem at a point. -/
theorem bounds_value (hc : ColsOk l h cols) (ho : CompOk cols comp) (hbd : ∀ e ∈ comp.constr.u ++ comp.constr.l, ∃ v, e.2.1 = some v)
    {xs : List (Option K)} (hx : xs.length = cols.length) :
    (∀ (i : Nat) (x : Option K), xs[i]? = some x → ∃ t lo up, x = some t ∧ (stdL cols comp)[i]? = some (some lo) ∧
        (stdU cols comp)[i]? = some (some up) ∧ lo ≤ t ∧ t ≤ up) ↔
      (∀ x ∈ xs, ∃ t : K, x = some t ∧ -(10 ^ 8) ≤ t ∧ t ≤ 10 ^ 8) ∧
      (∀ e ∈ comp.constr.u, ∃ x v, e.1.evaluate (pointEnv cols xs) = some x ∧ e.2.1 = some v ∧ x ≤ v) ∧
      (∀ e ∈ comp.constr.l, ∃ x v, e.1.evaluate (pointEnv cols xs) = some x ∧ e.2.1 = some v ∧ v ≤ x) := by
  have hu : ∀ (i : Nat) (y : Node (Option K)), cols[i]? = some y → (stdU cols comp)[i]? = some (upT comp y).1 := by
    intro i y hy; simp [stdU, hy]
  have hlo : ∀ (i : Nat) (y : Node (Option K)), cols[i]? = some y → (stdL cols comp)[i]? = some (loT comp y).1 := by
    intro i y hy; simp [stdL, hy]
  have hinf : (FloatOps.neg inf : Option K) = some (-(10 ^ 8)) := rfl
  have hcol : ∀ (i : Nat) (x : Option K), xs[i]? = some x → ∃ y, cols[i]? = some y ∧ y ∈ cols ∧ y.evaluate (pointEnv cols xs) = x := by
    intro i x hi
    obtain ⟨hlt, hg⟩ := List.getElem?_eq_some_iff.1 hi
    have hlt' : i < cols.length := by omega
    refine ⟨cols[i], List.getElem?_eq_getElem hlt', List.getElem_mem hlt', ?_⟩
    rw [evaluate_col hc (List.getElem_mem hlt'), hc.col_get hlt', hi]; rfl
  have hbu : ∀ e ∈ comp.constr.u, ∃ x, xs[colOf cols e.1]? = some x ∧ cols[colOf cols e.1]? = some e.1 ∧
      e.1.evaluate (pointEnv cols xs) = x := by
    intro e he
    have h1 := hc.col (ho.u e he)
    have hlt : colOf cols e.1 < xs.length := by omega
    refine ⟨_, List.getElem?_eq_getElem hlt, h1.2, ?_⟩
    rw [evaluate_col hc (ho.u e he), List.getElem?_eq_getElem hlt]; rfl
  have hbl : ∀ e ∈ comp.constr.l, ∃ x, xs[colOf cols e.1]? = some x ∧ cols[colOf cols e.1]? = some e.1 ∧
      e.1.evaluate (pointEnv cols xs) = x := by
    intro e he
    have h1 := hc.col (ho.l e he)
    have hlt : colOf cols e.1 < xs.length := by omega
    refine ⟨_, List.getElem?_eq_getElem hlt, h1.2, ?_⟩
    rw [evaluate_col hc (ho.l e he), List.getElem?_eq_getElem hlt]; rfl
  constructor
  · intro hb
    refine ⟨fun x hx' => ?_, fun e he => ?_, fun e he => ?_⟩
    · obtain ⟨i, hi, hix⟩ := List.getElem_of_mem hx'
      have hi' : xs[i]? = some x := by rw [List.getElem?_eq_getElem hi, hix]
      obtain ⟨t, lo, up, h1, h2, h3, h4, h5⟩ := hb i x hi'
      obtain ⟨y, hy, -, -⟩ := hcol i x hi'
      rw [hlo i y hy] at h2
      rw [hu i y hy] at h3
      obtain ⟨up', a1, a2, -⟩ := tightest_up (10 ^ 8) comp.constr.u y
      obtain ⟨lo', b1, b2, -⟩ := tightest_lo (-(10 ^ 8)) comp.constr.l y
      injection h2 with h2; injection h3 with h3
      unfold upT at h3; unfold loT at h2
      rw [Exact.inf_def, a1] at h3
      rw [hinf, b1] at h2
      injection h2 with h2; injection h3 with h3
      subst h2 h3
      exact ⟨t, h1, ((b2 t).1 h4).1, ((a2 t).1 h5).1⟩
    · obtain ⟨x, hx', hy, hev⟩ := hbu e he
      obtain ⟨t, lo, up, h1, h2, h3, h4, h5⟩ := hb _ x hx'
      obtain ⟨v, hv⟩ := hbd e (by simp [he])
      rw [hu _ _ hy] at h3
      obtain ⟨up', a1, a2, -⟩ := tightest_up (10 ^ 8) comp.constr.u e.1
      injection h3 with h3
      unfold upT at h3
      rw [Exact.inf_def, a1] at h3
      injection h3 with h3
      subst h3
      exact ⟨t, v, by rw [hev, h1], hv, ((a2 t).1 h5).2 e he (ptrEq_refl _) v hv⟩
    · obtain ⟨x, hx', hy, hev⟩ := hbl e he
      obtain ⟨t, lo, up, h1, h2, h3, h4, h5⟩ := hb _ x hx'
      obtain ⟨v, hv⟩ := hbd e (by simp [he])
      rw [hlo _ _ hy] at h2
      obtain ⟨lo', b1, b2, -⟩ := tightest_lo (-(10 ^ 8)) comp.constr.l e.1
      injection h2 with h2
      unfold loT at h2
      rw [hinf, b1] at h2
      injection h2 with h2
      subst h2
      exact ⟨t, v, by rw [hev, h1], hv, ((b2 t).1 h4).2 e he (ptrEq_refl _) v hv⟩
  · rintro ⟨h1, h2, h3⟩ i x hi
    obtain ⟨y, hy, hym, hev⟩ := hcol i x hi
    obtain ⟨t, rfl, ht1, ht2⟩ := h1 x (List.mem_of_getElem? hi)
    obtain ⟨up', a1, a2, -⟩ := tightest_up (10 ^ 8) comp.constr.u y
    obtain ⟨lo', b1, b2, -⟩ := tightest_lo (-(10 ^ 8)) comp.constr.l y
    refine ⟨t, lo', up', rfl, by rw [hlo i y hy]; unfold loT; rw [hinf, b1], by rw [hu i y hy]; unfold upT; rw [Exact.inf_def, a1],
      (b2 t).2 ⟨ht1, fun e he hey v hv => ?_⟩, (a2 t).2 ⟨ht2, fun e he hey v hv => ?_⟩⟩
    · have heq := ((hc.good _ (ho.l e he)).ptrEq_iff (hc.good y hym)).1 hey
      obtain ⟨x', v', c1, c2, c3⟩ := h3 e he
      rw [heq, hev] at c1
      rw [hv] at c2
      injection c1 with c1; injection c2 with c2
      subst c1 c2
      exact c3
    · have heq := ((hc.good _ (ho.u e he)).ptrEq_iff (hc.good y hym)).1 hey
      obtain ⟨x', v', c1, c2, c3⟩ := h2 e he
      rw [heq, hev] at c1
      rw [hv] at c2
      injection c1 with c1; injection c2 with c2
      subst c1 c2
      exact c3

/-- The integrality conditions at a point. -/
theorem integral_value (hc : ColsOk l h cols) {xs : List (Option K)} (hx : xs.length = cols.length) :
    (∀ i : Nat, (stdP cols)[i]? = some true → ∃ z : ℤ, xs[i]? = some (some (z : K))) ↔
      ∀ x ∈ cols, x.isInteger = true → ∃ z : ℤ, x.evaluate (pointEnv cols xs) = some (z : K) := by
  constructor
  · intro hh x hxm hi
    have h1 := hc.col hxm
    obtain ⟨z, hz⟩ := hh (colOf cols x) (by simp [stdP, h1.2, hi])
    exact ⟨z, by rw [evaluate_col hc hxm, hz]; rfl⟩
  · intro hh i hi
    simp only [stdP, List.getElem?_map, Option.map_eq_some_iff] at hi
    obtain ⟨y, hy, hyi⟩ := hi
    obtain ⟨hlt, hg⟩ := List.getElem?_eq_some_iff.1 hy
    have hym := List.mem_of_getElem? hy
    obtain ⟨z, hz⟩ := hh y hym hyi
    have hlt' : i < xs.length := by omega
    rw [evaluate_col hc hym, ← hg, hc.col_get hlt, List.getElem?_eq_getElem hlt'] at hz
    exact ⟨z, by rw [List.getElem?_eq_getElem hlt']; simpa using hz⟩

/-- Every constraint of the model has a value somewhere, so the bounds are numbers. -/
theorem MFacts.bdef (hf : MFacts H l h n m mod comp e ps) (hl : l ≠ .raw)
    (hd : ∀ c ∈ mod.constraints, ∃ σ d, c.residual σ = some d) : ∀ e ∈ comp.constr.u ++ comp.constr.l, ∃ v, e.2.1 = some v := by
  intro e he
  have : ∃ p ∈ ps, ∃ d, p.bnd = some (d, e.1, e.2.1) := by
    rw [hf.constr] at he
    simp only [ConstrComp.concat, List.flatMap_map, List.mem_append, List.mem_flatMap] at he
    rcases he with ⟨p, hp, he⟩ | ⟨p, hp, he⟩
    all_goals
      refine ⟨p, hp, ?_⟩
      simp only [Piece.out, Piece.bounds] at he
      cases hb : p.bnd with
      | none => simp [hb] at he
      | some b =>
        obtain ⟨d, x, v⟩ := b
        simp only [hb] at he
        split at he
        · simp only [List.mem_singleton] at he
          subst he
          exact ⟨d, rfl⟩
        · simp at he
  obtain ⟨p, hp, d, hb⟩ := this
  obtain ⟨n', m', -, -, hok⟩ := hf.piece hp
  unfold Piece.bnd at hb
  split at hb
  · rename_i x hk
    simp only [Option.some.injEq, Prod.mk.injEq] at hb
    obtain ⟨σ, r, hr⟩ := hd p.c (by rw [← hf.cs]; exact List.mem_map.2 ⟨p, hp, rfl⟩)
    obtain ⟨k, hk'⟩ := hok.exp
    have hexp : p.exp.evaluate σ = p.c.residual σ := subN_val hk' σ
    have haff : p.comp.prop.affine = true := by rw [hok.affine]; simp [Piece.isNl, hk]
    have := affine_val hl σ p.exp hok.goodExp (by rw [hok.prop.2] at haff; exact haff)
    rw [← hok.prop.2, hexp, hr] at this
    obtain ⟨a, b, -, h2, -⟩ := Exact.add_eq_some.1 this.symm
    exact ⟨-b, by rw [← hb.2.2, h2]; rfl⟩
  · simp only [Option.some.injEq, Prod.mk.injEq] at hb
    exact ⟨0, hb.2.2.symm⟩
  · simp only [Option.some.injEq, Prod.mk.injEq] at hb
    exact ⟨0, hb.2.2.symm⟩
  · cases hb

/-- Feasible points. -/
theorem SpFacts.feasible (hf : SpFacts H l h n m mod comp e ps cols xes ves sp) (hl : l ≠ .raw)
    (hd : ∀ c ∈ mod.constraints, ∃ σ d, c.residual σ = some d) {q : Minlp (Option K)} (hq : q ∈ sp.prob.views) (xs : List (Option K)) :
    q.Feasible xs ↔ xs.length = cols.length ∧ (∀ c ∈ mod.constraints, c.Holds (pointEnv cols xs)) ∧
      (∀ p ∈ ps, ∀ s, p.slack = some s → s.evaluate (pointEnv cols xs) = p.c.residual (pointEnv cols xs)) ∧
      (∀ x ∈ xs, ∃ t : K, x = some t ∧ -(10 ^ 8) ≤ t ∧ t ≤ 10 ^ 8) ∧
      ∀ x ∈ cols, x.isInteger = true → ∃ z : ℤ, x.evaluate (pointEnv cols xs) = some (z : K) := by
  have hv := hf.view hq
  have hnx : q.nx = cols.length := by simp [Minlp.nx, hv.a, stdA, Coo.cols]
  obtain ⟨k, -, hch⟩ := hf.mf.chain
  have hpieces : (∀ p ∈ ps, p.out.HoldsAt p.arow (pointEnv cols xs)) ↔ (∀ c ∈ mod.constraints, c.Holds (pointEnv cols xs)) ∧
      (∀ p ∈ ps, ∀ s, p.slack = some s → s.evaluate (pointEnv cols xs) = p.c.residual (pointEnv cols xs)) := by
    rw [← hf.mf.cs]
    simp only [List.forall_mem_map]
    rw [← forall₂_and]
    refine forall₂_congr fun p hp => ?_
    obtain ⟨n', m', -, -, hok⟩ := hf.mf.piece hp
    exact hok.holds_iff hl _
  rw [← and_assoc (a := ∀ c ∈ mod.constraints, _), ← hpieces, ← hch.holds, ← hf.mf.constr]
  have hbd := hf.mf.bdef hl hd
  constructor
  · rintro ⟨h1, h2, h3, h4, h5⟩
    rw [hnx] at h1
    rw [hv.l, hv.u, bounds_value hf.cok hf.cmpOk hbd h1] at h4
    rw [hv.p, integral_value hf.cok h1] at h5
    refine ⟨h1, ⟨fun i v hi => ?_, fun f hff => ?_, h4.2.1, h4.2.2⟩, h4.1, h5⟩
    · rw [Nat.zero_add]
      obtain ⟨t, ht, hr⟩ := h2 i v (by rw [hv.b]; exact hi)
      rw [hv.a, row_value hf.cok hf.cmpOk] at hr
      exact ⟨t, ht, hr⟩
    · obtain ⟨q', hq', hz⟩ := h3
      obtain ⟨q'', hq'', hff'⟩ := hv.eval xs h1
      rw [hq'] at hq''
      injection hq'' with hq''
      subst hq''
      exact hz _ (by rw [hff']; exact List.mem_map.2 ⟨f, hff, rfl⟩)
  · rintro ⟨h1, ⟨g1, g2, g3, g4⟩, h4, h5⟩
    refine ⟨by rw [hnx, h1], fun i v hi => ?_, ?_, ?_, ?_⟩
    · rw [hv.b] at hi
      obtain ⟨t, ht, hr⟩ := g1 i v hi
      rw [Nat.zero_add] at hr
      exact ⟨t, ht, by rw [hv.a, row_value hf.cok hf.cmpOk, hr]⟩
    · obtain ⟨q', hq', hff'⟩ := hv.eval xs h1
      refine ⟨q', hq', fun v hvm => ?_⟩
      rw [hff'] at hvm
      obtain ⟨f, hff, rfl⟩ := List.mem_map.1 hvm
      exact g2 f hff
    · rw [hv.l, hv.u, bounds_value hf.cok hf.cmpOk hbd h1]
      exact ⟨h4, g3, g4⟩
    · rw [hv.p, integral_value hf.cok h1]
      exact h5

end

end Verif
