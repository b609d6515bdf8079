import Verif.Spec.SolFile
import Verif.Proofs.Text
import Verif.Proofs.Loop

/-! # Reading the solution file -/

namespace Verif

set_option linter.unusedSectionVars false
set_option linter.unusedSimpArgs false

theorem parseUsize_digits {n : Nat} (h : n < 2 ^ 64) : parseUsize (natText n) = some n := by
  have hd : natText n ≠ [] := natText_ne_nil n
  have h1 : ∀ d, natText n ≠ '+' :: d := by
    intro d hd
    have : ('+' : Char).isDigit = true := natText_digits (n := n) (by rw [hd]; simp)
    exact absurd this (by decide)
  have h2 : (natText n).all Char.isDigit = true := List.all_eq_true.2 fun c hc => natText_digits hc
  have h3 : (natText n).isEmpty = false := by simpa using hd
  unfold parseUsize
  split
  · rename_i d heq; exact absurd heq (h1 d)
  · simp only [h3, h2, Bool.not_true, Bool.or_self, Bool.false_eq_true, if_false]
    rw [natText, Nat.ofDigitChars_ten_toDigits, if_pos h]

theorem natText_no_underscore (n : Nat) : ∀ c ∈ natText n, (c != '_') = true := by
  intro c hc
  rw [bne_iff_ne]
  rintro rfl
  exact absurd (natText_digits hc) (by decide)

theorem splitName_mk (c : Char) (hc : (c != '_') = true) (n : Nat) : splitName (c :: '_' :: natText n) = ([c], some (natText n)) := by
  unfold splitName
  have h1 : (natText n).takeWhile (· != '_') = natText n := by
    simpa using List.takeWhile_append_of_pos (l₂ := []) (natText_no_underscore n)
  simp [List.takeWhile_cons, List.dropWhile_cons, hc, h1]

variable {F : Type} [FloatOps F]

theorem parse_listed {parseF : List Char → Option F} {line : List Char} {e : Listed F} (h : e.Line parseF line)
    {nx na : Nat} (hr : e.inRange nx na) (hx : nx ≤ 2 ^ 64) (ha : na ≤ 2 ^ 64) :
    parseSolLine parseF line = some (match e with
      | .col j v m => (['x'], j, v, m)
      | .row i v m => (['c'], i, v, m)) := by
  obtain ⟨w, tv, tm, rest, h1, h2, h3⟩ := h
  unfold parseSolLine
  cases e with
  | col j v m =>
    simp only [Listed.inRange] at hr
    simp only [Listed.value] at h2
    simp only [Listed.mul] at h3
    simp only [Listed.name, List.cons_append, List.nil_append] at h1
    have e1 := splitName_mk 'x' (by decide) j
    have e2 := parseUsize_digits (n := j) (by omega)
    rw [natText] at e1 e2
    simp [h1, h2, h3, e1, e2]
  | row j v m =>
    simp only [Listed.inRange] at hr
    simp only [Listed.value] at h2
    simp only [Listed.mul] at h3
    simp only [Listed.name, List.cons_append, List.nil_append] at h1
    have e1 := splitName_mk 'c' (by decide) j
    have e2 := parseUsize_digits (n := j) (by omega)
    rw [natText] at e1 e2
    simp [h1, h2, h3, e1, e2]

/-- The solution after a line. -/
def Listed.apply (sol : Sol F) : Listed F → Sol F
  | .col j v m =>
    if zero <. m then { sol with x := sol.x.set j v, pi := sol.pi.set j m }
    else { sol with x := sol.x.set j v, mu := sol.mu.set j (FloatOps.neg m) }
  | .row i _ m => { sol with lam := sol.lam.set i m }

/-- The vectors have the dimensions of the problem. -/
structure SolDims (nx na : Nat) (sol : Sol F) : Prop where
  x : sol.x.length = nx
  lam : sol.lam.length = na
  nu : sol.nu = []
  mu : sol.mu.length = nx
  pi : sol.pi.length = nx

theorem SolDims.new (nx na : Nat) : SolDims nx na (Sol.new nx na 0 : Sol F) := by
  constructor <;> simp [Sol.new]

theorem SolDims.apply {nx na : Nat} {sol : Sol F} (h : SolDims nx na sol) (e : Listed F) : SolDims nx na (e.apply sol) := by
  obtain ⟨h1, h2, h3, h4, h5⟩ := h
  unfold Listed.apply
  cases e with
  | col j v m => dsimp only; split <;> constructor <;> simp [*]
  | row i v m => constructor <;> simp [*]

theorem readSolLine_listed {parseF : List Char → Option F} {line : List Char} {e : Listed F} (h : e.Line parseF line)
    {nx na : Nat} (hr : e.inRange nx na) (hx : nx ≤ 2 ^ 64) (ha : na ≤ 2 ^ 64) {sol : Sol F} (hd : SolDims nx na sol) :
    readSolLine parseF sol (some line) = .ok (some (e.apply sol)) := by
  unfold readSolLine
  simp only [Option.bind_some, parse_listed h hr hx ha]
  cases e with
  | col j v m =>
    simp only [Listed.inRange] at hr
    have e1 : j < sol.x.length := by rw [hd.x]; exact hr
    have e2 : j < sol.pi.length := by rw [hd.pi]; exact hr
    have e3 : j < sol.mu.length := by rw [hd.mu]; exact hr
    by_cases hm : (zero <. m) = true
    · simp [setIdx_of_lt e1, setIdx_of_lt e2, hm, Listed.apply]
    · simp [setIdx_of_lt e1, setIdx_of_lt e3, hm, Listed.apply]
  | row i v m =>
    simp only [Listed.inRange] at hr
    have e1 : i < sol.lam.length := by rw [hd.lam]; exact hr
    simp [setIdx_of_lt e1, Listed.apply]

theorem readSolLines_listed {parseF : List Char → Option F} {lines : List (List Char)} {es : List (Listed F)}
    (h : List.Forall₂ (Listed.Line parseF) lines es) {nx na : Nat} (hr : ∀ e ∈ es, e.inRange nx na) (hx : nx ≤ 2 ^ 64)
    (ha : na ≤ 2 ^ 64) {sol : Sol F} (hd : SolDims nx na sol) :
    readSolLines parseF sol (lines.map some) = .ok (some (es.foldl Listed.apply sol)) := by
  induction h generalizing sol with
  | nil => rfl
  | cons he _ ih =>
    rename_i l e ls es' _
    simp only [List.map_cons, readSolLines, readSolLine_listed he (hr e (by simp)) hx ha hd, R.ok_bind, List.foldl_cons]
    exact ih (fun e' he' => hr e' (by simp [he'])) (hd.apply e)

theorem SolDims.foldl {nx na : Nat} {sol : Sol F} (h : SolDims nx na sol) (es : List (Listed F)) :
    SolDims nx na (es.foldl Listed.apply sol) := by
  induction es generalizing sol with
  | nil => exact h
  | cons e es ih => exact ih (h.apply e)

theorem apply_other_col {j : Nat} {e : Listed F} (h : ∀ v m, e ≠ .col j v m) (sol : Sol F) :
    (e.apply sol).x[j]? = sol.x[j]? ∧ (e.apply sol).pi[j]? = sol.pi[j]? ∧ (e.apply sol).mu[j]? = sol.mu[j]? := by
  unfold Listed.apply
  cases e with
  | row i v m => exact ⟨rfl, rfl, rfl⟩
  | col k v m =>
    have hk : k ≠ j := fun hk => h v m (by rw [hk])
    dsimp only
    split <;> simp [List.getElem?_set, hk]

theorem apply_other_row {i : Nat} {e : Listed F} (h : ∀ v m, e ≠ .row i v m) (sol : Sol F) : (e.apply sol).lam[i]? = sol.lam[i]? := by
  unfold Listed.apply
  cases e with
  | row k v m =>
    have hk : k ≠ i := fun hk => h v m (by rw [hk])
    simp [List.getElem?_set, hk]
  | col k v m => dsimp only; split <;> rfl

theorem foldl_other_col {j : Nat} {es : List (Listed F)} (h : ∀ v m, .col j v m ∉ es) (sol : Sol F) :
    (es.foldl Listed.apply sol).x[j]? = sol.x[j]? ∧ (es.foldl Listed.apply sol).pi[j]? = sol.pi[j]? ∧
      (es.foldl Listed.apply sol).mu[j]? = sol.mu[j]? := by
  induction es generalizing sol with
  | nil => exact ⟨rfl, rfl, rfl⟩
  | cons e es ih =>
    obtain ⟨h1, h2, h3⟩ := apply_other_col (j := j) (e := e) (fun v m he => h v m (by simp [he])) sol
    obtain ⟨i1, i2, i3⟩ := ih (fun v m he => h v m (by simp [he])) (e.apply sol)
    exact ⟨i1.trans h1, i2.trans h2, i3.trans h3⟩

theorem foldl_other_row {i : Nat} {es : List (Listed F)} (h : ∀ v m, .row i v m ∉ es) (sol : Sol F) :
    (es.foldl Listed.apply sol).lam[i]? = sol.lam[i]? := by
  induction es generalizing sol with
  | nil => rfl
  | cons e es ih =>
    exact (ih (fun v m he => h v m (by simp [he])) (e.apply sol)).trans
      (apply_other_row (fun v m he => h v m (by simp [he])) sol)

theorem foldl_col {nx na j : Nat} {v m : F} {es : List (Listed F)} (hn : (es.map Listed.name).Nodup) (hm : .col j v m ∈ es) (hj : j < nx)
    {sol : Sol F} (hd : SolDims nx na sol) :
    (es.foldl Listed.apply sol).x[j]? = some v ∧
    (es.foldl Listed.apply sol).pi[j]? = (if zero <. m then some m else sol.pi[j]?) ∧
    (es.foldl Listed.apply sol).mu[j]? = (if zero <. m then sol.mu[j]? else some (FloatOps.neg m)) := by
  induction es generalizing sol with
  | nil => cases hm
  | cons e es ih =>
    rw [List.map_cons, List.nodup_cons] at hn
    rcases List.mem_cons.1 hm with rfl | hm2
    · have hno : ∀ v' m', .col j v' m' ∉ es := fun v' m' he => hn.1 (List.mem_map.2 ⟨_, he, rfl⟩)
      obtain ⟨h1, h2, h3⟩ := foldl_other_col hno ((Listed.col j v m).apply sol)
      rw [List.foldl_cons, h1, h2, h3]
      have e1 : j < sol.x.length := by rw [hd.x]; exact hj
      have e2 : j < sol.pi.length := by rw [hd.pi]; exact hj
      have e3 : j < sol.mu.length := by rw [hd.mu]; exact hj
      unfold Listed.apply
      dsimp only
      split <;> simp [e1, e2, e3]
    · have hno : ∀ v' m', e ≠ .col j v' m' := by
        rintro v' m' rfl
        exact hn.1 (List.mem_map.2 ⟨.col j v m, hm2, rfl⟩)
      obtain ⟨h1, h2, h3⟩ := apply_other_col hno sol
      obtain ⟨i1, i2, i3⟩ := ih hn.2 hm2 (hd.apply e)
      rw [h2] at i2
      rw [h3] at i3
      exact ⟨i1, i2, i3⟩

theorem foldl_row {nx na i : Nat} {v m : F} {es : List (Listed F)} (hn : (es.map Listed.name).Nodup) (hm : .row i v m ∈ es) (hi : i < na)
    {sol : Sol F} (hd : SolDims nx na sol) : (es.foldl Listed.apply sol).lam[i]? = some m := by
  induction es generalizing sol with
  | nil => cases hm
  | cons e es ih =>
    rw [List.map_cons, List.nodup_cons] at hn
    rcases List.mem_cons.1 hm with rfl | hm
    · have hno : ∀ v' m', .row i v' m' ∉ es := fun v' m' he => hn.1 (List.mem_map.2 ⟨_, he, rfl⟩)
      rw [List.foldl_cons, foldl_other_row hno]
      have e1 : i < sol.lam.length := by rw [hd.lam]; exact hi
      simp [Listed.apply, e1]
    · exact ih hn.2 hm (hd.apply e)

theorem parseUsize_iff {s : List Char} {n : Nat} : parseUsize s = some n ↔ UsizeText s n := by
  have key : ∀ ds : List Char, (if ds.isEmpty || !ds.all Char.isDigit then none
      else if Nat.ofDigitChars 10 ds 0 < 2 ^ 64 then some (Nat.ofDigitChars 10 ds 0) else none) = some n ↔
      ds ≠ [] ∧ (∀ c ∈ ds, c.isDigit = true) ∧ Nat.ofDigitChars 10 ds 0 = n ∧ n < 2 ^ 64 := by
    intro ds
    by_cases h1 : ds = []
    · simp [h1]
    by_cases h2 : ds.all Char.isDigit = true
    · have h2' := List.all_eq_true.1 h2
      have h1' : ds.isEmpty = false := by simpa using h1
      simp only [h1', h2, Bool.not_true, Bool.or_self, Bool.false_eq_true, if_false]
      constructor
      · intro h
        split at h
        · rename_i hl
          simp only [Option.some.injEq] at h
          exact ⟨h1, h2', h, h ▸ hl⟩
        · cases h
      · rintro ⟨-, -, rfl, hl⟩
        rw [if_pos hl]
    · have : (ds.isEmpty || !ds.all Char.isDigit) = true := by simp only [Bool.or_eq_true, Bool.not_eq_true']; right; simpa using h2
      rw [if_pos this]
      constructor
      · intro h; cases h
      · rintro ⟨-, h, -⟩
        exact absurd (List.all_eq_true.2 h) h2
  unfold parseUsize UsizeText
  have plus : ('+' : Char).isDigit = false := by decide
  split
  · rename_i d
    rw [key]
    constructor
    · rintro ⟨a, b⟩; exact ⟨d, .inr rfl, a, b⟩
    · rintro ⟨ds, rfl | h, a, b, c⟩
      · exact absurd (b '+' (by simp)) (by simp [plus])
      · simp only [List.cons.injEq, true_and] at h
        subst h
        exact ⟨a, b, c⟩
  · rename_i hnot
    rw [key]
    constructor
    · rintro ⟨a, b⟩; exact ⟨s, .inl rfl, a, b⟩
    · rintro ⟨ds, rfl | h, a, b, c⟩
      · exact ⟨a, b, c⟩
      · exact absurd h (hnot ds)

theorem takeWhile_pre {p : Char → Bool} {k r : List Char} (hk : ∀ c ∈ k, p c = true) (hr : ∀ c, r.head? = some c → p c = false) :
    (k ++ r).takeWhile p = k ∧ (k ++ r).dropWhile p = r := by
  induction k with
  | nil =>
    cases r with
    | nil => simp
    | cons c r => simp [List.takeWhile_cons, List.dropWhile_cons, hr c rfl]
  | cons c k ih =>
    have := ih fun c' hc' => hk c' (by simp [hc'])
    simp [List.takeWhile_cons, List.dropWhile_cons, hk c (by simp), this.1, this.2]

theorem splitName_iff {name kind number : List Char} : splitName name = (kind, some number) ↔
    ∃ tail, name = kind ++ '_' :: (number ++ tail) ∧ '_' ∉ kind ∧ '_' ∉ number ∧ (tail = [] ∨ ∃ t, tail = '_' :: t) := by
  have hp : ∀ {l : List Char}, '_' ∉ l → ∀ c ∈ l, (c != '_') = true := by
    intro l h c hc
    rw [bne_iff_ne]
    rintro rfl
    exact h hc
  have hmem : ∀ l : List Char, '_' ∉ l.takeWhile (· != '_') := by
    intro l
    induction l with
    | nil => simp
    | cons c l ih =>
      rw [List.takeWhile_cons]
      split
      · rename_i hc
        simp only [List.mem_cons, not_or]
        refine ⟨fun h => ?_, ih⟩
        rw [← h] at hc
        simp at hc
      · simp
  have hdrop : ∀ l : List Char, l.dropWhile (· != '_') = [] ∨ ∃ t, l.dropWhile (· != '_') = '_' :: t := by
    intro l
    induction l with
    | nil => simp
    | cons c l ih =>
      rw [List.dropWhile_cons]
      split
      · exact ih
      · rename_i h
        right
        have : c = '_' := by simpa using h
        exact ⟨l, by rw [this]⟩
  constructor
  · intro h
    unfold splitName at h
    simp only [Prod.mk.injEq] at h
    obtain ⟨h1, h2⟩ := h
    have hname := List.takeWhile_append_dropWhile (p := (· != '_')) (l := name)
    rcases hdrop name with h3 | ⟨r, h3⟩
    · rw [h3] at h2; cases h2
    · rw [h3] at h2 hname
      simp only [Option.some.injEq] at h2
      refine ⟨r.dropWhile (· != '_'), ?_, h1 ▸ hmem _, h2 ▸ hmem _, hdrop r⟩
      rw [← hname, h1, ← h2, List.takeWhile_append_dropWhile]
  · rintro ⟨tail, rfl, h1, h2, h3⟩
    have a := takeWhile_pre (p := (· != '_')) (r := '_' :: (number ++ tail)) (hp h1) (by simp)
    have b := takeWhile_pre (p := (· != '_')) (r := tail) (hp h2) (by
      rcases h3 with rfl | ⟨t, rfl⟩ <;> simp)
    unfold splitName
    rw [a.1, a.2]
    simp only [b.1]

theorem parseSolLine_iff {parseF : List Char → Option F} {line kind : List Char} {j : Nat} {v m : F} :
    parseSolLine parseF line = some (kind, j, v, m) ↔ SolLine parseF line kind j v m := by
  unfold parseSolLine SolLine
  constructor
  · intro h
    simp only [Option.bind_eq_bind, Option.bind_eq_some_iff, Option.some.injEq, Prod.mk.injEq] at h
    obtain ⟨name, h1, tv, h2, value, h2', tm, h3, mul, h3', number, h4, i, h4', e1, e2, e3, e4⟩ := h
    subst e2 e3 e4
    obtain ⟨tail, h5, h6, h7, h8⟩ := splitName_iff.1 (Prod.ext e1 h4 : splitName name = (kind, some number))
    generalize words line = ws at h1 h2 h3
    match ws, h1, h2, h3 with
    | w :: a :: b :: c :: rest, h1, h2, h3 =>
      simp only [List.getElem?_cons_succ, List.getElem?_cons_zero, Option.some.injEq] at h1 h2 h3
      subst h1 h2 h3
      refine ⟨w, number, tail, b, c, rest, ?_, h6, h7, h8, parseUsize_iff.1 h4', h2', h3'⟩
      rw [← h5]
  · rintro ⟨w, number, tail, tv, tm, rest, h1, h2, h3, h4, h5, h6, h7⟩
    have := splitName_iff.2 ⟨tail, rfl, h2, h3, h4⟩
    simp [h1, this, h6, h7, parseUsize_iff.2 h5]

/-- What a line does, in general. -/
theorem readSolLine_good {parseF : List Char → Option F} {nx na : Nat} {sol : Sol F} (hd : SolDims nx na sol)
    {l : Option (List Char)} (h : GoodLine parseF nx na l) : ∃ sol', readSolLine parseF sol l = .ok (some sol') ∧ SolDims nx na sol' := by
  obtain ⟨line, kind, i, v, m, rfl, hp, hc⟩ := h
  rw [← parseSolLine_iff] at hp
  unfold readSolLine
  simp only [Option.bind_some, hp]
  rcases hc with ⟨rfl, hi⟩ | ⟨rfl, hi⟩
  · have e1 : i < sol.x.length := by rw [hd.x]; exact hi
    have e2 : i < sol.pi.length := by rw [hd.pi]; exact hi
    have e3 : i < sol.mu.length := by rw [hd.mu]; exact hi
    refine ⟨(Listed.col i v m).apply sol, ?_, hd.apply _⟩
    by_cases hm : (zero <. m) = true
    · simp [setIdx_of_lt e1, setIdx_of_lt e2, hm, Listed.apply]
    · simp [setIdx_of_lt e1, setIdx_of_lt e3, hm, Listed.apply]
  · have e1 : i < sol.lam.length := by rw [hd.lam]; exact hi
    refine ⟨(Listed.row i v m).apply sol, ?_, hd.apply _⟩
    simp [setIdx_of_lt e1, Listed.apply]

theorem readSolLine_beyond {parseF : List Char → Option F} {nx na : Nat} {sol : Sol F} (hd : SolDims nx na sol)
    {l : Option (List Char)} (h : BeyondLine parseF nx na l) : readSolLine parseF sol l = .error .index := by
  obtain ⟨line, kind, i, v, m, rfl, hp, hc⟩ := h
  rw [← parseSolLine_iff] at hp
  unfold readSolLine
  simp only [Option.bind_some, hp]
  rcases hc with ⟨rfl, hi⟩ | ⟨rfl, hi⟩
  · simp [setIdx_of_ge (v := sol.x) (i := i) (a := v) (by rw [hd.x]; exact hi)]
  · simp [setIdx_of_ge (v := sol.lam) (i := i) (a := m) (by rw [hd.lam]; exact hi)]

theorem readSolLine_other {parseF : List Char → Option F} {nx na : Nat} {sol : Sol F}
    {l : Option (List Char)} (h1 : ¬ GoodLine parseF nx na l) (h2 : ¬ BeyondLine parseF nx na l) :
    readSolLine parseF sol l = .ok none := by
  unfold readSolLine
  cases l with
  | none => rfl
  | some line =>
    cases hp : parseSolLine parseF line with
    | none => simp [hp]
    | some t =>
      obtain ⟨kind, i, v, m⟩ := t
      simp only [Option.bind_some, hp]
      have hs := parseSolLine_iff.1 hp
      have hx : kind ≠ ['x'] := fun hk => by
        rcases Nat.lt_or_ge i nx with hi | hi
        · exact h1 ⟨line, kind, i, v, m, rfl, hs, .inl ⟨hk, hi⟩⟩
        · exact h2 ⟨line, kind, i, v, m, rfl, hs, .inl ⟨hk, hi⟩⟩
      have hc : kind ≠ ['c'] := fun hk => by
        rcases Nat.lt_or_ge i na with hi | hi
        · exact h1 ⟨line, kind, i, v, m, rfl, hs, .inr ⟨hk, hi⟩⟩
        · exact h2 ⟨line, kind, i, v, m, rfl, hs, .inr ⟨hk, hi⟩⟩
      simp [hx, hc]

theorem GoodLine.not_beyond {parseF : List Char → Option F} {nx na : Nat} {l : Option (List Char)} (h : GoodLine parseF nx na l) :
    ¬ BeyondLine parseF nx na l := by
  rintro ⟨line, kind, i, v, m, rfl, hp, hc⟩
  obtain ⟨line', kind', i', v', m', he, hp', hc'⟩ := h
  simp only [Option.some.injEq] at he
  subst he
  have := (parseSolLine_iff.2 hp).symm.trans (parseSolLine_iff.2 hp')
  simp only [Option.some.injEq, Prod.mk.injEq] at this
  obtain ⟨rfl, rfl, -, -⟩ := this
  rcases hc with ⟨rfl, hi⟩ | ⟨rfl, hi⟩ <;> rcases hc' with ⟨h, hi'⟩ | ⟨h, hi'⟩
  · omega
  · simp at h
  · simp at h
  · omega

/-- What the lines do, in general. -/
theorem readSolLines_cases {parseF : List Char → Option F} {nx na : Nat} {sol : Sol F} (hd : SolDims nx na sol) (lines : FileData) :
    ((∀ l ∈ lines, GoodLine parseF nx na l) ∧ ∃ sol', readSolLines parseF sol lines = .ok (some sol') ∧ SolDims nx na sol') ∨
    (∃ l, FirstNotGood parseF nx na lines l ∧ BeyondLine parseF nx na l ∧ readSolLines parseF sol lines = .error .index) ∨
    (∃ l, FirstNotGood parseF nx na lines l ∧ ¬ BeyondLine parseF nx na l ∧ readSolLines parseF sol lines = .ok none) := by
  induction lines generalizing sol with
  | nil => exact .inl ⟨by simp, sol, rfl, hd⟩
  | cons l ls ih =>
    simp only [readSolLines]
    by_cases hg : GoodLine parseF nx na l
    · obtain ⟨sol', h, hd'⟩ := readSolLine_good hd hg
      rw [h]
      simp only [R.ok_bind]
      have hfirst : ∀ l', FirstNotGood parseF nx na ls l' → FirstNotGood parseF nx na (l :: ls) l' := by
        rintro l' ⟨before, after, rfl, h1, h2⟩
        refine ⟨l :: before, after, rfl, fun l'' hl'' => ?_, h2⟩
        rcases List.mem_cons.1 hl'' with rfl | hl''
        · exact hg
        · exact h1 _ hl''
      rcases ih hd' with ⟨h1, h2⟩ | ⟨l', h1, h2⟩ | ⟨l', h1, h2⟩
      · refine .inl ⟨fun l'' hl'' => ?_, h2⟩
        rcases List.mem_cons.1 hl'' with rfl | hl''
        · exact hg
        · exact h1 _ hl''
      · exact .inr (.inl ⟨l', hfirst _ h1, h2⟩)
      · exact .inr (.inr ⟨l', hfirst _ h1, h2⟩)
    · have hf : FirstNotGood parseF nx na (l :: ls) l := ⟨[], ls, rfl, by simp, hg⟩
      by_cases hb : BeyondLine parseF nx na l
      · refine .inr (.inl ⟨l, hf, hb, ?_⟩)
        rw [readSolLine_beyond hd hb]; rfl
      · refine .inr (.inr ⟨l, hf, hb, ?_⟩)
        rw [readSolLine_other hg hb]; rfl

theorem FirstNotGood.unique {parseF : List Char → Option F} {nx na : Nat} {ls : FileData} {l l' : Option (List Char)}
    (h : FirstNotGood parseF nx na ls l) (h' : FirstNotGood parseF nx na ls l') : l = l' := by
  obtain ⟨b, a, rfl, h1, h2⟩ := h
  obtain ⟨b', a', he, h1', h2'⟩ := h'
  induction b generalizing b' with
  | nil =>
    cases b' with
    | nil => simp only [List.nil_append, List.cons.injEq] at he; exact he.1
    | cons c b' =>
      simp only [List.nil_append, List.cons_append, List.cons.injEq] at he
      exact absurd (h1' c (by simp)) (he.1 ▸ h2)
  | cons c b ih =>
    cases b' with
    | nil =>
      simp only [List.nil_append, List.cons_append, List.cons.injEq] at he
      exact absurd (h1 c (by simp)) (he.1 ▸ h2')
    | cons c' b' =>
      simp only [List.cons_append, List.cons.injEq] at he
      exact ih (fun x hx => h1 x (by simp [hx])) b' he.2 (fun x hx => h1' x (by simp [hx]))

theorem linesFrom_line {l : List Char} (hl : '\n' ∉ l) (cur rest : List Char) :
    linesFrom cur (l ++ '\n' :: rest) = (cur ++ l) :: linesFrom [] rest := by
  induction l generalizing cur with
  | nil => simp [linesFrom]
  | cons c l ih =>
    have hc : (c == '\n') = false := by
      rw [beq_eq_false_iff_ne]
      rintro rfl
      exact hl (by simp)
    simp only [List.cons_append, linesFrom, hc, Bool.false_eq_true, if_false]
    rw [ih (fun h => hl (by simp [h]))]
    simp

/-- The lines of a text that is made of lines. -/
theorem fileOf_lines {ls : List (List Char)} (h : ∀ l ∈ ls, '\n' ∉ l) : fileOf (ls.flatMap fun l => l ++ ['\n']) = ls.map some := by
  have : linesFrom [] (ls.flatMap fun l => l ++ ['\n']) = ls := by
    induction ls with
    | nil => rfl
    | cons l ls ih =>
      rw [List.flatMap_cons, List.append_assoc, List.singleton_append, linesFrom_line (h l (by simp)), ih fun l' hl' => h l' (by simp [hl'])]
      simp
  rw [fileOf, this]

end Verif
