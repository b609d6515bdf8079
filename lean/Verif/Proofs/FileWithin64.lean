import Verif.Proofs.FileData64

/-! # Answers of a command that are read as doubles -/

namespace Verif

set_option linter.unusedSectionVars false
set_option linter.unusedSimpArgs false

/-- A listed value in the file, and the same value as a double. -/
def Listed.As (e : Listed (Option ℚ)) (e' : Listed F64) : Prop :=
  match e, e' with
  | .col j a _, .col j' a' _ => j' = j ∧ ∀ v, a = some v → ∃ s, a' = F64.ofRat s v
  | .row i _ _, .row i' _ _ => i' = i
  | _, _ => False

theorem Listed.As.name_eq {e : Listed (Option ℚ)} {e' : Listed F64} (h : e.As e') : e'.name = e.name := by
  cases e <;> cases e' <;> simp only [Listed.As] at h
  · rw [h.1]; rfl
  · rw [h]; rfl

theorem listed64 {lines : List (List Char)} {es : List (Listed (Option ℚ))} (h : List.Forall₂ (Listed.Line readDecimal) lines es) :
    ∃ es' : List (Listed F64), List.Forall₂ (Listed.Line parse64) lines es' ∧ List.Forall₂ Listed.As es es' := by
  induction h with
  | nil => exact ⟨[], .nil, .nil⟩
  | @cons line e lines es h1 h2 ih =>
    obtain ⟨es', i1, i2⟩ := ih
    obtain ⟨w, value, mul, rest, hw, hv, hm⟩ := h1
    obtain ⟨a, ha, hav⟩ := parse64_of_read hv
    obtain ⟨b, hb, -⟩ := parse64_of_read hm
    cases e with
    | col j x y => exact ⟨.col j a b :: es', .cons ⟨w, value, mul, rest, hw, ha, hb⟩ i1, .cons ⟨rfl, hav⟩ i2⟩
    | row i x y => exact ⟨.row i a b :: es', .cons ⟨w, value, mul, rest, hw, ha, hb⟩ i1, .cons rfl i2⟩

theorem forall₂_mem_right {α β : Type} {r : α → β → Prop} {l : List α} {l' : List β} (h : List.Forall₂ r l l') : ∀ b ∈ l', ∃ a ∈ l, r a b := by
  induction h with
  | nil => simp
  | cons h1 _ ih =>
    intro b hb
    rcases List.mem_cons.1 hb with rfl | hb
    · exact ⟨_, List.mem_cons_self, h1⟩
    · obtain ⟨a, ha, hr⟩ := ih b hb
      exact ⟨a, List.mem_cons_of_mem _ ha, hr⟩

theorem forall₂_mem_left {α β : Type} {r : α → β → Prop} {l : List α} {l' : List β} (h : List.Forall₂ r l l') : ∀ a ∈ l, ∃ b ∈ l', r a b := by
  induction h with
  | nil => simp
  | cons h1 _ ih =>
    intro b hb
    rcases List.mem_cons.1 hb with rfl | hb
    · exact ⟨_, List.mem_cons_self, h1⟩
    · obtain ⟨a, ha, hr⟩ := ih b hb
      exact ⟨a, List.mem_cons_of_mem _ ha, hr⟩

theorem names64 {es : List (Listed (Option ℚ))} {es' : List (Listed F64)} (h : List.Forall₂ Listed.As es es') :
    es'.map Listed.name = es.map Listed.name := by
  induction h with
  | nil => rfl
  | cons h1 _ ih => rw [List.map_cons, List.map_cons, ih, h1.name_eq]

/-- The change of a row when its coefficients are printed and the values are rounded. -/
theorem row_change (es : List (ℕ × F64)) (v : ℕ → ℚ) (x : ℕ → ℝ) (h : ∀ e ∈ es, |x e.1 - v e.1| ≤ 2 ^ (-52 : ℤ) * max |x e.1| tauD) :
    |(es.map fun e => e.2.toReal * x e.1).sum - ((es.map fun e => sciRound (e.2.value.getD 0) * v e.1).sum : ℚ)| ≤
      51 / 10 ^ 12 * (es.map fun e => |e.2.toReal| * max |x e.1| tauD).sum := by
  induction es with
  | nil => simp
  | cons e es ih =>
    have ih := ih fun e' he' => h e' (List.mem_cons_of_mem _ he')
    simp only [List.map_cons, List.sum_cons]
    rw [Rat.cast_add, mul_add]
    have hone : |e.2.toReal * x e.1 - ((sciRound (e.2.value.getD 0) * v e.1 : ℚ) : ℝ)| ≤ 51 / 10 ^ 12 * (|e.2.toReal| * max |x e.1| tauD) := by
      have h1 := h e List.mem_cons_self
      have h2 := (Rat.cast_le (K := ℝ)).2 (sciRound_rel (e.2.value.getD 0))
      rw [Rat.cast_abs, Rat.cast_sub, Rat.cast_mul, Rat.cast_abs] at h2
      have h2' : |((sciRound (e.2.value.getD 0) : ℚ) : ℝ) - e.2.toReal| ≤ 5 / 10 ^ 11 * |e.2.toReal| := by
        refine h2.trans (le_of_eq ?_)
        unfold F64.toReal
        push_cast
        ring
      rw [Rat.cast_mul]
      have h0 : |x e.1| ≤ max |x e.1| tauD := le_max_left _ _
      generalize max |x e.1| tauD = mx at h1 h0
      generalize ((sciRound (e.2.value.getD 0) : ℚ) : ℝ) = r at h2'
      generalize e.2.toReal = a at h2'
      generalize (v e.1 : ℝ) = y at h1
      generalize x e.1 = z at h1 h0
      have hmx : 0 ≤ mx := (abs_nonneg _).trans h0
      have h52 : (2 : ℝ) ^ (-52 : ℤ) ≤ 1 / 10 ^ 14 := by norm_num
      have h3 : |z - y| ≤ 1 / 10 ^ 14 * mx := h1.trans (mul_le_mul_of_nonneg_right h52 hmx)
      have h4 : |y| ≤ mx + 1 / 10 ^ 14 * mx := by
        have := abs_sub_abs_le_abs_sub y z
        rw [abs_sub_comm] at this
        linarith
      have e1 : a * z - r * y = a * (z - y) - (r - a) * y := by ring
      rw [e1]
      refine (abs_sub _ _).trans ?_
      rw [abs_mul, abs_mul]
      have h5 := mul_le_mul_of_nonneg_left h3 (abs_nonneg a)
      have h6 : |r - a| * |y| ≤ 5 / 10 ^ 11 * |a| * (mx + 1 / 10 ^ 14 * mx) :=
        mul_le_mul h2' h4 (abs_nonneg _) (by positivity)
      have h7 : 0 ≤ |a| * mx := mul_nonneg (abs_nonneg _) hmx
      nlinarith
    have := abs_add_le (e.2.toReal * x e.1 - ((sciRound (e.2.value.getD 0) * v e.1 : ℚ) : ℝ))
      ((es.map fun e => e.2.toReal * x e.1).sum - ((es.map fun e => sciRound (e.2.value.getD 0) * v e.1).sum : ℚ))
    refine le_trans (le_of_eq ?_) (this.trans (add_le_add hone ih))
    congr 1
    ring

variable [Libm] {H : HashOrder} {W : World F64} {n : ℕ}

/-- The point that is read back satisfies the standard problem up to tolerances. -/
theorem cmd_within64 (hr : ReachableW H W n) {cbc : Bool} {ps : Params F64} {env : CmdEnv F64} {d : Dir}
    {sp : StdProb F64} {sol : Sol F64} (hs : W.m.SolvedBy H n (cmdFn cbc ps env d) sp .solved sol)
    (hfmt : env.fmtE = sci64) (hparse : env.parseF = parse64) {δ ε η : ℚ} (hε : ε ≤ 10 ^ 8) (hcmd : CommandWithin64 env.command cbc δ ε η)
    {F G : Constraint F64 → LinForm} (hc : ∀ c ∈ W.m.constraints, c.lhs.Says64 (F c) ∧ c.rhs.Says64 (G c))
    (hRg : ∀ c ∈ W.m.constraints, PairInRange (F c) (G c)) {o : LinForm} (ho : W.m.ObjectiveSays64 o)
    {S B R : ℝ} (hB : 0 ≤ B) (hR : tauD ≤ R)
    (hnum : ∀ q, sp.prob.IsMilp q → (q.nx ≤ 2 ^ 64 ∧ q.na ≤ 2 ^ 64) ∧ q.base.Sizes64 S B R sol.x)
    (hnames : env.tempIn ≠ env.tempOut) :
    ∃ q ∈ sp.prob.views, ∃ xs : List ℝ, List.Forall₂ F64.Is sol.x xs ∧
      q.LinearWithin64 (δ + 51 / 10 ^ 12 * S) (ε + 5 / 10 ^ 11 * B + 2 ^ (-52 : ℤ) * R) (η + 2 ^ (-52 : ℤ) * R) xs := by
  classical
  obtain ⟨q, k, input, output, text, level, hsp, hq, htext, hread⟩ := cmd_run hs hnames
  obtain ⟨⟨hnx64, hna64⟩, hsize⟩ := hnum q hq
  obtain ⟨hp, k', comp, e, ps', cols, xes, ves, hf, -⟩ := hr.facts hsp
  have hfin := hf.finite64 hc hRg ho
  have hqe := hf.milp_eq hq
  have hqv : q.base ∈ sp.prob.views := by
    rcases hq with hq | ⟨q', hq, rfl⟩ <;> rw [hq] <;> simp [Problem.views]
  have hview := hf.view hqv
  have hA : (stdA cols comp).WF := by simp [Coo.WF, stdA]
  have hrange := stdA_range hf
  have hcl : (stdC cols comp).length = (stdA cols comp).cols := by simp [stdC, stdA, Coo.cols]
  have hcols : (stdA cols comp).cols = cols.length := rfl
  have hnxb : q.base.nx = cols.length := by rw [Minlp.nx, hview.a]; rfl
  have hqnx : q.nx = cols.length := by rw [hqe]; simp [Milp.nx, stdC, stdLinear, Minlp.initial, Minlp.nx, stdA, Coo.cols]
  have hqna : q.na = comp.constr.b.length := by rw [hqe]; simp [Milp.na, stdLinear, Minlp.initial, stdA, Coo.rows]
  have hrowsn : (stdA cols comp).rows = comp.constr.b.length := rfl
  have hnew : Milp.new (stdC cols comp) (stdA cols comp) comp.constr.b (stdL cols comp) (stdU cols comp) (stdP cols)
      (some (stdX0 cols xes)) = .ok q := by
    have : DimsOk (Coo.fromNnz ((stdA cols comp).cols, (stdA cols comp).cols) 0) (stdA cols comp) comp.constr.b
        (Coo.fromNnz (0, (stdA cols comp).cols) 0) [] (stdL cols comp) (stdU cols comp) (stdP cols) :=
      dims_linear.2 ⟨rfl, rfl, by simp [stdL, stdA, Coo.cols], by simp [stdU, stdA, Coo.cols], by simp [stdP, stdA, Coo.cols]⟩
    simp only [Milp.new, Minlp.new_ok (by simp) this, Verif.R.ok_bind, Except.ok.injEq]
    rw [hqe]
    rfl
  obtain ⟨text', htext', hlp⟩ := C44_text sci64_fmt hnew hA
    (fun i hi => by
      rw [← triplets_rows hA] at hi
      obtain ⟨t, ht, rfl⟩ := List.mem_map.1 hi
      exact (hrange t ht).1)
    (fun j hj => by
      rw [← triplets_cols hA] at hj
      obtain ⟨t, ht, rfl⟩ := List.mem_map.1 hj
      exact (hrange t ht).2) hcl
  rw [hfmt, htext'] at htext
  injection htext with htext
  subst htext
  rw [hcl, hcols, hrowsn] at hlp
  -- the numbers of the file
  have hval : ∀ {a : F64} {y : ℝ}, a.Is y → a.HasValue (a.value.getD 0) ∧ a.toReal = y := by
    intro a y hy
    obtain ⟨x, hx, rfl⟩ := id hy
    rw [F64.value_iff.2 hx]
    exact ⟨hx, hy.toReal⟩
  have hlv : ∀ {a : F64} {y : ℝ}, a.Is y → lpValue a = some (sciRound (a.value.getD 0)) := by
    intro a y hy
    unfold lpValue
    rw [F64.value_iff.2 (hval hy).1]
    rfl
  have hbget : ∀ {i : ℕ}, i < comp.constr.b.length → ∃ b, comp.constr.b[i]? = some b := fun h => ⟨_, List.getElem?_eq_getElem h⟩
  have hrowv : ∀ {i : ℕ} {b : F64}, comp.constr.b[i]? = some b →
      ∀ e ∈ sumRow (rowOf (stdA cols comp).triplets i), ∃ x, e.2.HasValue x := by
    intro i b hb e he
    rw [sumRow_of_nodup (hfin.row i b hb).2.2] at he
    obtain ⟨y, hy⟩ := (hfin.row i b hb).2.1 e he
    exact ⟨_, (hval hy).1⟩
  have hlget : ∀ {j : ℕ}, j < cols.length → ∃ w, (stdL cols comp)[j]? = some w := fun h => ⟨_, List.getElem?_eq_getElem (by simpa [stdL] using h)⟩
  have huget : ∀ {j : ℕ}, j < cols.length → ∃ w, (stdU cols comp)[j]? = some w := fun h => ⟨_, List.getElem?_eq_getElem (by simpa [stdU] using h)⟩
  generalize hfile : LpContent.mk _ _ _ _ = file at hlp
  have hallfin : file.AllFinite := by
    subst hfile
    refine ⟨(terms_value (fun e he => ?_) fun _ => 0).1, ?_, ?_⟩
    · obtain ⟨y, hy⟩ := hfin.c e.2 (List.of_mem_zip he).2
      exact ⟨_, (hval hy).1⟩
    · intro r hr
      obtain ⟨i, hi, rfl⟩ := List.mem_map.1 hr
      obtain ⟨b, hb⟩ := hbget (List.mem_range.1 hi)
      refine ⟨?_, (terms_value (hrowv hb) fun _ => 0).1⟩
      obtain ⟨y, hy⟩ := (hfin.row i b hb).1
      simp only [hb, Option.getD_some, hlv hy, ne_eq, reduceCtorEq, not_false_iff]
    · intro b hb
      obtain ⟨j, hj, rfl⟩ := List.mem_map.1 hb
      obtain ⟨lo, hlo⟩ := hlget (List.mem_range.1 hj)
      obtain ⟨up, hup⟩ := huget (List.mem_range.1 hj)
      obtain ⟨y, hy, -⟩ := hfin.lower lo (List.mem_of_getElem? hlo)
      obtain ⟨z, hz, -⟩ := hfin.upper up (List.mem_of_getElem? hup)
      simp only [hlo, hup, Option.getD_some, hlv hy, hlv hz, ne_eq, reduceCtorEq, not_false_iff, and_self]
  -- the answer
  obtain ⟨hst1, -, -, -⟩ := C49_status hread
  have hfw := hst1.1 rfl
  rw [Option.bind_eq_some_iff] at hfw
  obtain ⟨out, ho', hfw⟩ := hfw
  obtain ⟨first, objective, lines, es, v, hout_eq, hlines, hnd, hin', hvals, hzero, hsat⟩ :=
    hcmd input output (toString level) (d.write input (fileOf text')) text' file out (by simp [Dir.write]) hlp hallfin ho' hfw
  obtain ⟨es', hlines', has⟩ := listed64 hlines
  have hfirst : (words first).head? = some (optimalWord cbc) := by
    rw [hout_eq] at hfw
    simpa [firstWord] using hfw
  have hbnames : ∀ b ∈ file.bounds, ∃ j < cols.length, b.2.1 = xName j := by
    subst hfile
    intro b hb
    obtain ⟨j, hj, rfl⟩ := List.mem_map.1 hb
    exact ⟨j, List.mem_range.1 hj, rfl⟩
  have hrnames : ∀ r ∈ file.rows, ∃ i < comp.constr.b.length, r.1 = cName i := by
    subst hfile
    intro b hb
    obtain ⟨j, hj, rfl⟩ := List.mem_map.1 hb
    exact ⟨j, List.mem_range.1 hj, rfl⟩
  have hrng : ∀ e' ∈ es', e'.inRange q.nx q.na := by
    intro e' he'
    obtain ⟨e, he, hea⟩ := forall₂_mem_right has e' he'
    have := hin' e he
    have hnm := hea.name_eq
    cases e with
    | col j a b =>
      cases e' with
      | row => exact absurd hea (by simp [Listed.As])
      | col j' a' b' =>
        obtain ⟨b, hb, hn⟩ := this
        obtain ⟨j1, hj1, hn1⟩ := hbnames b hb
        rw [hn, ← hnm] at hn1
        have : j' = j1 := xName_inj.1 hn1
        subst this
        show j' < q.nx
        rw [hqnx]; exact hj1
    | row i a b =>
      cases e' with
      | col => exact absurd hea (by simp [Listed.As])
      | row i' a' b' =>
        obtain ⟨b, hb, hn⟩ := this
        obtain ⟨j1, hj1, hn1⟩ := hrnames b hb
        rw [hn, ← hnm] at hn1
        have : i' = j1 := cName_inj.1 hn1
        subst this
        show i' < q.na
        rw [hqna]; exact hj1
  obtain ⟨sol', hread', hl1, -, -, -, -, hcol, hnocol, -, -⟩ :=
    C47_solution (parseF := parse64) (objective := objective) (q := q) hfirst hlines' (by rw [names64 has]; exact hnd) hrng hnx64 hna64
  rw [ho', hout_eq, hparse, hread'] at hread
  simp only [Except.ok.injEq, Option.some.injEq, Prod.mk.injEq] at hread
  obtain ⟨-, rfl⟩ := hread
  -- the bounds in the file
  have hd8 : sciRound (10 ^ 8 : ℚ) = 10 ^ 8 := sciRound_exact ⟨1, 8, by norm_num, by norm_num⟩
  have hbnd : ∀ (j : ℕ) lo up, (stdL cols comp)[j]? = some lo → (stdU cols comp)[j]? = some up →
      sciRound (lo.value.getD 0) - ε ≤ v (xName j) ∧ v (xName j) ≤ sciRound (up.value.getD 0) + ε := by
    intro j lo up hlo hup
    have hj : j < cols.length := by
      have := (List.getElem?_eq_some_iff.1 hlo).1
      simpa [stdL] using this
    obtain ⟨y, hy, -⟩ := hfin.lower lo (List.mem_of_getElem? hlo)
    obtain ⟨z, hz, -⟩ := hfin.upper up (List.mem_of_getElem? hup)
    obtain ⟨a, b, h1, h2, h3, h4⟩ := hsat.bounds (lpValue lo, xName j, lpValue up) (by
      subst hfile
      exact List.mem_map.2 ⟨j, List.mem_range.2 hj, by simp [hlo, hup]⟩)
    simp only [hlv hy, hlv hz, Option.some.injEq] at h1 h2
    rw [h1, h2]
    exact ⟨h3, h4⟩
  have hbox : ∀ j < cols.length, |v (xName j)| ≤ 10 ^ 9 := by
    intro j hj
    obtain ⟨lo, hlo⟩ := hlget hj
    obtain ⟨up, hup⟩ := huget hj
    obtain ⟨y, hy, hy8⟩ := hfin.lower lo (List.mem_of_getElem? hlo)
    obtain ⟨z, hz, hz8⟩ := hfin.upper up (List.mem_of_getElem? hup)
    obtain ⟨h1, h2⟩ := hbnd j lo up hlo hup
    rw [← (hval hy).2] at hy8
    rw [← (hval hz).2] at hz8
    have h3 : -(10 ^ 8 : ℚ) ≤ lo.value.getD 0 := by
      unfold F64.toReal at hy8
      exact_mod_cast hy8
    have h4 : up.value.getD 0 ≤ (10 ^ 8 : ℚ) := by
      unfold F64.toReal at hz8
      exact_mod_cast hz8
    have h5 := sciRound_mono h3
    have h6 := sciRound_mono h4
    rw [sciRound_neg, hd8] at h5
    rw [hd8] at h6
    rw [abs_le]
    constructor <;> linarith
  have hx : ∀ j < cols.length, ∃ a x, sol'.x[j]? = some a ∧ a.Is x ∧ |x - v (xName j)| ≤ 2 ^ (-52 : ℤ) * max |x| tauD := by
    intro j hj
    by_cases hm : ∃ a b, Listed.col j a b ∈ es
    · obtain ⟨a, b, hm⟩ := hm
      obtain ⟨e', he', hea⟩ := forall₂_mem_left has _ hm
      cases e' with
      | row => exact absurd hea (by simp [Listed.As])
      | col j' a' b' =>
        obtain ⟨rfl, hs'⟩ := hea
        have h1 := hvals _ hm
        simp only [Listed.value] at h1
        obtain ⟨s, rfl⟩ := hs' _ h1
        obtain ⟨x, hx1, hx2⟩ := read_err s (hbox j' hj)
        exact ⟨_, x, (hcol _ _ _ he').1, hx1, hx2⟩
    · refine ⟨_, 0, (hnocol j (by rw [hqnx]; exact hj) ?_).1, F64.is_zero, ?_⟩
      · intro a b hm'
        obtain ⟨e, he, hea⟩ := forall₂_mem_right has _ hm'
        cases e with
        | row => exact absurd hea (by simp [Listed.As])
        | col j' a' b' =>
          obtain ⟨rfl, -⟩ := hea
          exact hm ⟨_, _, he⟩
      · have hb : (lpValue (((stdL cols comp)[j]?).getD zero), xName j, lpValue (((stdU cols comp)[j]?).getD zero)) ∈ file.bounds := by
          subst hfile
          exact List.mem_map.2 ⟨j, List.mem_range.2 hj, rfl⟩
        have h0 := hzero _ hb (fun e he hne => by
          cases e with
          | col j' a b =>
            have : j' = j := xName_inj.1 hne
            subst this
            exact hm ⟨_, _, he⟩
          | row i a b => simp [Listed.name, xName] at hne)
        simp only at h0
        rw [h0, Rat.cast_zero, sub_zero, abs_zero]
        exact mul_nonneg (by positivity) (le_max_left _ _)
  have hxlen : sol'.x.length = cols.length := by rw [hl1, hqnx]
  have hxget : ∀ j < cols.length, ∃ a x, sol'.x[j]? = some a ∧ a.Is x ∧ a.toReal = x ∧ (sol'.x.map F64.toReal)[j]? = some x ∧
      |x - v (xName j)| ≤ 2 ^ (-52 : ℤ) * max |x| tauD ∧ |x - v (xName j)| ≤ 2 ^ (-52 : ℤ) * R := by
    intro j hj
    obtain ⟨a, x, h1, h2, h3⟩ := hx j hj
    have h4 := hsize.value a (List.mem_of_getElem? h1)
    rw [h2.toReal] at h4
    refine ⟨a, x, h1, h2, h2.toReal, by rw [List.getElem?_map, h1, Option.map_some, h2.toReal], h3, h3.trans ?_⟩
    exact mul_le_mul_of_nonneg_left (max_le h4 hR) (by positivity)
  refine ⟨q.base, hqv, sol'.x.map F64.toReal, ?_, ?_⟩
  · rw [List.forall₂_map_right_iff, List.forall₂_same]
    intro a ha
    obtain ⟨j, hj⟩ := List.mem_iff_getElem?.1 ha
    have hjl : j < cols.length := by rw [← hxlen]; exact (List.getElem?_eq_some_iff.1 hj).1
    obtain ⟨a', x, h1, h2, h3, -⟩ := hxget j hjl
    rw [hj] at h1
    injection h1 with h1
    subst h1
    rw [h3]
    exact h2
  have hround : ∀ {w : F64} {y : ℝ}, w.Is y → (w ∈ q.base.l ∨ w ∈ q.base.u) →
      |((sciRound (w.value.getD 0) : ℚ) : ℝ) - y| ≤ 5 / 10 ^ 11 * B := by
    intro w y hy hw
    have hwy := (hval hy).2
    rcases hsize.bound w hw with ⟨k, ex, hk, he⟩ | hle
    · have : HasDigits 11 (w.value.getD 0) := by
        refine ⟨k, ex, hk, ?_⟩
        have : ((w.value.getD 0 : ℚ) : ℝ) = ((k * 10 ^ ex : ℚ) : ℝ) := by
          push_cast
          exact he
        exact_mod_cast this
      rw [sciRound_exact this, ← hwy]
      unfold F64.toReal
      rw [sub_self, abs_zero]
      positivity
    · have h2 := (Rat.cast_le (K := ℝ)).2 (sciRound_rel (w.value.getD 0))
      rw [Rat.cast_abs, Rat.cast_sub, Rat.cast_mul, Rat.cast_abs] at h2
      rw [← hwy]
      refine (show |((sciRound (w.value.getD 0) : ℚ) : ℝ) - w.toReal| ≤ _ from h2).trans ?_
      refine le_trans (le_of_eq ?_) (mul_le_mul_of_nonneg_left hle (by positivity))
      unfold F64.toReal
      push_cast
      ring
  refine ⟨by rw [List.length_map, hxlen, hnxb], ?_, ?_, ?_, ?_⟩
  · intro i b y hb hy _
    rw [hview.b] at hb
    rw [hview.a]
    have hil : i < comp.constr.b.length := (List.getElem?_eq_some_iff.1 hb).1
    obtain ⟨-, -, hnd'⟩ := hfin.row i b hb
    have hsz := hsize.row i b (by rw [hview.b]; exact hb)
    rw [hview.a, (hval hy).2] at hsz
    obtain ⟨t, z, h1, h2, h3⟩ := hsat.rows (cName i, (sumRow (rowOf (stdA cols comp).triplets i)).filterMap (termVal lpValue), lpValue b) (by
      subst hfile
      exact List.mem_map.2 ⟨i, List.mem_range.2 hil, by simp [hb]⟩)
    simp only [hlv hy, Option.some.injEq] at h1
    have htv := (terms_value (hrowv hb) v).2
    rw [sumRow_of_nodup hnd'] at htv
    simp only [sumRow_of_nodup hnd', htv, Option.some.injEq] at h2
    have hcolr : ∀ e ∈ rowOf (stdA cols comp).triplets i, e.1 < cols.length := by
      intro e he
      simp only [rowOf, List.mem_map, List.mem_filter] at he
      obtain ⟨t, ⟨ht, -⟩, rfl⟩ := he
      exact (hrange t ht).2
    have hch := row_change (rowOf (stdA cols comp).triplets i) (fun j => v (xName j)) (fun j => (sol'.x.map F64.toReal).getD j 0) (fun e he => by
      obtain ⟨a, x, -, -, -, h4, h5, -⟩ := hxget e.1 (hcolr e he)
      simp only [List.getD_eq_getElem?_getD, h4, Option.getD_some]
      exact h5)
    rw [h2] at hch
    have hsum : ((rowOf (stdA cols comp).triplets i).map fun e => |e.2.toReal| * max |(sol'.x.getD e.1 .nan).toReal| tauD) =
        (rowOf (stdA cols comp).triplets i).map fun e => |e.2.toReal| * max |(sol'.x.map F64.toReal).getD e.1 0| tauD := by
      refine List.map_congr_left fun e he => ?_
      obtain ⟨a, x, h4, -, h5, h6, -⟩ := hxget e.1 (hcolr e he)
      simp only [List.getD_eq_getElem?_getD, h4, h6, Option.getD_some, h5]
    rw [hsum] at hsz
    have hby := (Rat.cast_le (K := ℝ)).2 (sciRound_rel (b.value.getD 0))
    rw [Rat.cast_abs, Rat.cast_sub, Rat.cast_mul, Rat.cast_abs, h1] at hby
    have hby' : |(t : ℝ) - y| ≤ 5 / 10 ^ 11 * |y| := by
      rw [← (hval hy).2]
      refine hby.trans (le_of_eq ?_)
      unfold F64.toReal
      push_cast
      ring
    have h3' : |(z : ℝ) - t| ≤ δ := by exact_mod_cast (Rat.cast_le (K := ℝ)).2 h3
    have hy0 := abs_nonneg y
    have hfin' : ∀ a c : ℝ, |a - z| ≤ 51 / 10 ^ 12 * c → c + |y| ≤ S → |a - y| ≤ δ + 51 / 10 ^ 12 * S := by
      intro a c g1 g2
      rw [abs_le] at g1 h3' hby' ⊢
      constructor <;> linarith [g1.1, g1.2, h3'.1, h3'.2, hby'.1, hby'.2]
    exact hfin' _ _ hch hsz
  · intro j x lo hj hlo
    rw [hview.l] at hlo
    have hjl : j < cols.length := by
      have := (List.getElem?_eq_some_iff.1 hlo).1
      simpa [stdL] using this
    obtain ⟨up, hup⟩ := huget hjl
    obtain ⟨h1, -⟩ := hbnd j lo up hlo hup
    obtain ⟨y, hy, -⟩ := hfin.lower lo (List.mem_of_getElem? hlo)
    obtain ⟨a, x', -, -, -, h4, -, h5⟩ := hxget j hjl
    rw [h4] at hj
    injection hj with hj
    subst hj
    rw [F64.below_is hy]
    have h2 := hround hy (.inl (by rw [hview.l]; exact List.mem_of_getElem? hlo))
    have h1' : ((sciRound (lo.value.getD 0) : ℚ) : ℝ) - ε ≤ v (xName j) := by exact_mod_cast (Rat.cast_le (K := ℝ)).2 h1
    generalize (2 : ℝ) ^ (-52 : ℤ) = u at h5 ⊢
    rw [abs_le] at h2 h5
    linarith [h2.1, h2.2, h5.1, h5.2]
  · intro j x up hj hup
    rw [hview.u] at hup
    have hjl : j < cols.length := by
      have := (List.getElem?_eq_some_iff.1 hup).1
      simpa [stdU] using this
    obtain ⟨lo, hlo⟩ := hlget hjl
    obtain ⟨-, h1⟩ := hbnd j lo up hlo hup
    obtain ⟨y, hy, -⟩ := hfin.upper up (List.mem_of_getElem? hup)
    obtain ⟨a, x', -, -, -, h4, -, h5⟩ := hxget j hjl
    rw [h4] at hj
    injection hj with hj
    subst hj
    rw [F64.above_is hy]
    have h2 := hround hy (.inr (by rw [hview.u]; exact List.mem_of_getElem? hup))
    have h1' : (v (xName j) : ℝ) ≤ ((sciRound (up.value.getD 0) : ℚ) : ℝ) + ε := by exact_mod_cast (Rat.cast_le (K := ℝ)).2 h1
    generalize (2 : ℝ) ^ (-52 : ℤ) = u at h5 ⊢
    rw [abs_le] at h2 h5
    linarith [h2.1, h2.2, h5.1, h5.2]
  · intro j x hj hpj
    rw [hview.p] at hpj
    have hjl : j < cols.length := by
      have := (List.getElem?_eq_some_iff.1 hpj).1
      simpa [stdP] using this
    obtain ⟨a, x', -, -, -, h4, -, h5⟩ := hxget j hjl
    rw [h4] at hj
    injection hj with hj
    subst hj
    obtain ⟨z, hz⟩ := hsat.general (xName j) (by
      subst hfile
      refine List.mem_map.2 ⟨(j, true), List.mem_filter.2 ⟨?_, rfl⟩, rfl⟩
      rw [List.mem_iff_getElem?]
      exact ⟨j, by rw [List.getElem?_zip_eq_some]; exact ⟨by rw [List.getElem?_range (by simpa [stdP] using hjl)], hpj⟩⟩)
    refine ⟨z, ?_⟩
    have hz' : |(v (xName j) : ℝ) - z| ≤ η := by exact_mod_cast (Rat.cast_le (K := ℝ)).2 hz
    have := abs_sub_le x' (v (xName j) : ℝ) z
    generalize (2 : ℝ) ^ (-52 : ℤ) = u at h5 ⊢
    linarith

end Verif
