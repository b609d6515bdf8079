import Verif.Code.Print
import Verif.Spec.Reader
import Verif.Proofs.Arith
import Verif.Proofs.Node
import Verif.Proofs.Heap

/-! # The reader undoes the printer -/

set_option linter.unusedSectionVars false
set_option linter.unusedSimpArgs false

namespace Verif

/-! ## Words -/

theorem lexFrom_sep (cur a b : List Char) {c : Char} (hc : isSep c = true) :
    lexFrom cur (a ++ c :: b) = lexFrom cur a ++ sepWord c ++ lexFrom [] b := by
  induction a generalizing cur with
  | nil => simp [lexFrom, hc]
  | cons d a ih =>
    simp only [List.cons_append, lexFrom]
    split
    · rw [ih]; simp
    · rw [ih]

theorem lexFrom_plain (cur w : List Char) (hw : w.any isSep = false) : lexFrom cur w = flush (cur ++ w) := by
  induction w generalizing cur with
  | nil => simp [lexFrom]
  | cons c w ih =>
    simp only [List.any_cons, Bool.or_eq_false_iff] at hw
    simp [lexFrom, hw.1, ih _ hw.2]

theorem lex_word {w : Word} (hw : IsWord w) : lex w = [w] := by
  unfold lex
  rw [lexFrom_plain _ _ hw.2]
  simp [flush, hw.1]

theorem lex_sep (a b : List Char) {c : Char} (hc : isSep c = true) : lex (a ++ c :: b) = lex a ++ sepWord c ++ lex b :=
  lexFrom_sep [] a b hc

theorem lex_cons (b : List Char) {c : Char} (hc : isSep c = true) : lex (c :: b) = sepWord c ++ lex b := by
  have := lex_sep [] b hc
  simpa [lex, lexFrom, flush] using this

theorem lex_parens (a : List Char) : lex (inParens a) = ['('] :: lex a ++ [[')']] := by
  unfold inParens
  rw [List.cons_append, lex_cons _ (by decide), lex_sep a [] (by decide)]
  simp [sepWord, lex, lexFrom, flush]

section
variable {F : Type} [FloatOps F] (readNum : Word → Option F) (ρ : Word → F)

/-! ## The result does not depend on the number of steps -/

theorem p_mono (n : Nat) :
    (∀ ws x, pSum readNum ρ n ws = some x → ∀ m, n ≤ m → pSum readNum ρ m ws = some x) ∧
    (∀ acc ws x, pSumLoop readNum ρ n acc ws = some x → ∀ m, n ≤ m → pSumLoop readNum ρ m acc ws = some x) ∧
    (∀ ws x, pTerm readNum ρ n ws = some x → ∀ m, n ≤ m → pTerm readNum ρ m ws = some x) ∧
    (∀ acc ws x, pTermLoop readNum ρ n acc ws = some x → ∀ m, n ≤ m → pTermLoop readNum ρ m acc ws = some x) ∧
    (∀ ws x, pFactor readNum ρ n ws = some x → ∀ m, n ≤ m → pFactor readNum ρ m ws = some x) := by
  induction n with
  | zero => simp [pSum, pSumLoop, pTerm, pTermLoop, pFactor]
  | succ n ih =>
    obtain ⟨h1, h2, h3, h4, h5⟩ := ih
    refine ⟨?_, ?_, ?_, ?_, ?_⟩
    · intro ws x h m hm
      obtain ⟨m, rfl⟩ : ∃ k, m = k + 1 := ⟨m - 1, by omega⟩
      simp only [pSum, Option.bind_eq_some_iff] at h ⊢
      obtain ⟨r, hr, h⟩ := h
      exact ⟨r, h3 _ _ hr m (by omega), h2 _ _ _ h m (by omega)⟩
    · intro acc ws x h m hm
      obtain ⟨m, rfl⟩ : ∃ k, m = k + 1 := ⟨m - 1, by omega⟩
      simp only [pSumLoop] at h ⊢
      split at h
      · simp only [Option.bind_eq_some_iff] at h ⊢
        obtain ⟨r, hr, h⟩ := h
        exact ⟨r, h3 _ _ hr m (by omega), h2 _ _ _ h m (by omega)⟩
      · exact h
    · intro ws x h m hm
      obtain ⟨m, rfl⟩ : ∃ k, m = k + 1 := ⟨m - 1, by omega⟩
      simp only [pTerm, Option.bind_eq_some_iff] at h ⊢
      obtain ⟨r, hr, h⟩ := h
      exact ⟨r, h5 _ _ hr m (by omega), h4 _ _ _ h m (by omega)⟩
    · intro acc ws x h m hm
      obtain ⟨m, rfl⟩ : ∃ k, m = k + 1 := ⟨m - 1, by omega⟩
      simp only [pTermLoop] at h ⊢
      split at h
      · simp only [Option.bind_eq_some_iff] at h ⊢
        obtain ⟨r, hr, h⟩ := h
        exact ⟨r, h5 _ _ hr m (by omega), h4 _ _ _ h m (by omega)⟩
      · simp only [Option.bind_eq_some_iff] at h ⊢
        obtain ⟨r, hr, h⟩ := h
        exact ⟨r, h5 _ _ hr m (by omega), h4 _ _ _ h m (by omega)⟩
      · exact h
    · intro ws x h m hm
      obtain ⟨m, rfl⟩ : ∃ k, m = k + 1 := ⟨m - 1, by omega⟩
      simp only [pFactor] at h ⊢
      split at h
      · cases h
      · simp only [Option.bind_eq_some_iff] at h ⊢
        obtain ⟨r, hr, h⟩ := h
        exact ⟨r, h1 _ _ hr m (by omega), h⟩
      · simp only [Option.bind_eq_some_iff] at h ⊢
        obtain ⟨r, hr, h⟩ := h
        exact ⟨r, h1 _ _ hr m (by omega), h⟩
      · simp only [Option.bind_eq_some_iff] at h ⊢
        obtain ⟨r, hr, h⟩ := h
        exact ⟨r, h1 _ _ hr m (by omega), h⟩
      · split <;> simp_all

/-- Parsing succeeds with this result for every large enough number of steps. -/
def Ev {α : Type} (f : Nat → Option α) (a : α) : Prop := ∃ N, ∀ n, N ≤ n → f n = some a

/-- What may come after an expression: not an opening parenthesis. -/
def NoOpen (ws : List Word) : Prop := ws.head? ≠ some ['(']

/-- What may come after a sum: no opening parenthesis and no operator of a higher level. -/
def NoTerm (ws : List Word) : Prop := NoOpen ws ∧ ws.head? ≠ some ['*'] ∧ ws.head? ≠ some ['/']

variable {readNum ρ}

theorem termLoop_stop {acc : F} {ws : List Word} (h : NoTerm ws) : Ev (fun n => pTermLoop readNum ρ n acc ws) (acc, ws) := by
  refine ⟨1, fun n hn => ?_⟩
  obtain ⟨n, rfl⟩ : ∃ k, n = k + 1 := ⟨n - 1, by omega⟩
  simp only [pTermLoop]
  split
  · exact absurd rfl h.2.1
  · exact absurd rfl h.2.2
  · rfl

theorem sumLoop_stop {acc : F} {ws : List Word} (h : ws.head? ≠ some ['+']) : Ev (fun n => pSumLoop readNum ρ n acc ws) (acc, ws) := by
  refine ⟨1, fun n hn => ?_⟩
  obtain ⟨n, rfl⟩ : ∃ k, n = k + 1 := ⟨n - 1, by omega⟩
  simp only [pSumLoop]
  split
  · exact absurd rfl h
  · rfl

theorem factor_atom {w : Word} {ws : List Word} (hw : IsWord w) (hn : NoOpen ws) :
    Ev (fun n => pFactor readNum ρ n (w :: ws)) ((readNum w).getD (ρ w), ws) := by
  refine ⟨1, fun n h1 => ?_⟩
  obtain ⟨n, rfl⟩ : ∃ k, n = k + 1 := ⟨n - 1, by omega⟩
  simp only [pFactor]
  split
  · rename_i h; cases h
  · rename_i h; cases h
    exact absurd hw.2 (by decide)
  · rename_i h; cases h
    exact absurd rfl hn
  · rename_i h; cases h
    exact absurd rfl hn
  · rename_i h; cases h
    rw [if_neg]
    intro hc
    simp only [List.contains_cons, List.contains_nil, Bool.or_false, Bool.or_eq_true, beq_iff_eq] at hc
    rcases hc with rfl | rfl | rfl | rfl <;> exact absurd hw.2 (by decide)

theorem factor_parens {ts ws : List Word} {v : F} (h : Ev (fun n => pSum readNum ρ n (ts ++ [')'] :: ws)) (v, [')'] :: ws)) :
    Ev (fun n => pFactor readNum ρ n (['('] :: ts ++ [')'] :: ws)) (v, ws) := by
  obtain ⟨N, h⟩ := h
  refine ⟨N + 1, fun n hn => ?_⟩
  obtain ⟨n, rfl⟩ : ∃ k, n = k + 1 := ⟨n - 1, by omega⟩
  simp only [pFactor, List.cons_append, h n (by omega), Option.bind_some, closing]

theorem factor_cos {ts ws : List Word} {v : F} (h : Ev (fun n => pSum readNum ρ n (ts ++ [')'] :: ws)) (v, [')'] :: ws)) :
    Ev (fun n => pFactor readNum ρ n (['c', 'o', 's'] :: ['('] :: ts ++ [')'] :: ws)) (FloatOps.cos v, ws) := by
  obtain ⟨N, h⟩ := h
  refine ⟨N + 1, fun n hn => ?_⟩
  obtain ⟨n, rfl⟩ : ∃ k, n = k + 1 := ⟨n - 1, by omega⟩
  simp only [pFactor, List.cons_append, h n (by omega), Option.bind_some, closing]

theorem factor_sin {ts ws : List Word} {v : F} (h : Ev (fun n => pSum readNum ρ n (ts ++ [')'] :: ws)) (v, [')'] :: ws)) :
    Ev (fun n => pFactor readNum ρ n (['s', 'i', 'n'] :: ['('] :: ts ++ [')'] :: ws)) (FloatOps.sin v, ws) := by
  obtain ⟨N, h⟩ := h
  refine ⟨N + 1, fun n hn => ?_⟩
  obtain ⟨n, rfl⟩ : ∃ k, n = k + 1 := ⟨n - 1, by omega⟩
  simp only [pFactor, List.cons_append, h n (by omega), Option.bind_some, closing]

end

section
variable {K : Type} [Field K] [DecidableEq K] [LinearOrder K] [Trig K]
variable (readNum : Word → Option (Option K)) (ρ : Word → Option K)

/-- The words are a factor with this value. -/
def IsFactor (ts : List Word) (v : Option K) : Prop :=
  ∀ ws, NoOpen ws → Ev (fun n => pFactor readNum ρ n (ts ++ ws)) (v, ws)

/-- The words are a chain of factors with this value, which may also be appended to a chain. -/
def IsTerm (ts : List Word) (v : Option K) : Prop :=
  (∀ ws x, NoOpen ws → Ev (fun n => pTermLoop readNum ρ n v ws) x → Ev (fun n => pTerm readNum ρ n (ts ++ ws)) x) ∧
  (∀ acc ws x, NoOpen ws → Ev (fun n => pTermLoop readNum ρ n (acc *. v) ws) x →
    Ev (fun n => pTermLoop readNum ρ n acc (['*'] :: ts ++ ws)) x)

/-- The words are a sum with this value, which may also be appended to a sum. -/
def IsSum (ts : List Word) (v : Option K) : Prop :=
  (∀ ws x, NoTerm ws → Ev (fun n => pSumLoop readNum ρ n v ws) x → Ev (fun n => pSum readNum ρ n (ts ++ ws)) x) ∧
  (∀ acc ws x, NoTerm ws → Ev (fun n => pSumLoop readNum ρ n (acc +. v) ws) x →
    Ev (fun n => pSumLoop readNum ρ n acc (['+'] :: ts ++ ws)) x)

variable {readNum ρ}

theorem IsFactor.term {ts : List Word} {v : Option K} (h : IsFactor readNum ρ ts v) : IsTerm readNum ρ ts v := by
  constructor
  · intro ws x hws ⟨N, hx⟩
    obtain ⟨N', h⟩ := h ws hws
    refine ⟨N + N' + 1, fun n hn => ?_⟩
    obtain ⟨n, rfl⟩ : ∃ k, n = k + 1 := ⟨n - 1, by omega⟩
    simp only [pTerm, h n (by omega), Option.bind_some, hx n (by omega)]
  · intro acc ws x hws ⟨N, hx⟩
    obtain ⟨N', h⟩ := h ws hws
    refine ⟨N + N' + 1, fun n hn => ?_⟩
    obtain ⟨n, rfl⟩ : ∃ k, n = k + 1 := ⟨n - 1, by omega⟩
    simp only [pTermLoop, List.cons_append, h n (by omega), Option.bind_some, hx n (by omega)]

theorem IsFactor.div {ts : List Word} {v : Option K} (h : IsFactor readNum ρ ts v) {acc : Option K} {ws : List Word}
    {x : Option K × List Word} (hws : NoOpen ws) (hx : Ev (fun n => pTermLoop readNum ρ n (acc /. v) ws) x) :
    Ev (fun n => pTermLoop readNum ρ n acc (['/'] :: ts ++ ws)) x := by
  obtain ⟨N, hx⟩ := hx
  obtain ⟨N', h⟩ := h ws hws
  refine ⟨N + N' + 1, fun n hn => ?_⟩
  obtain ⟨n, rfl⟩ : ∃ k, n = k + 1 := ⟨n - 1, by omega⟩
  simp only [pTermLoop, List.cons_append, h n (by omega), Option.bind_some, hx n (by omega)]

theorem IsTerm.sum {ts : List Word} {v : Option K} (h : IsTerm readNum ρ ts v) : IsSum readNum ρ ts v := by
  constructor
  · intro ws x hws ⟨N, hx⟩
    obtain ⟨N', h⟩ := h.1 ws _ hws.1 (termLoop_stop hws)
    refine ⟨N + N' + 1, fun n hn => ?_⟩
    obtain ⟨n, rfl⟩ : ∃ k, n = k + 1 := ⟨n - 1, by omega⟩
    simp only [pSum, h n (by omega), Option.bind_some, hx n (by omega)]
  · intro acc ws x hws ⟨N, hx⟩
    obtain ⟨N', h⟩ := h.1 ws _ hws.1 (termLoop_stop hws)
    refine ⟨N + N' + 1, fun n hn => ?_⟩
    obtain ⟨n, rfl⟩ : ∃ k, n = k + 1 := ⟨n - 1, by omega⟩
    simp only [pSumLoop, List.cons_append, h n (by omega), Option.bind_some, hx n (by omega)]

theorem IsSum.closed {ts : List Word} {v : Option K} (h : IsSum readNum ρ ts v) (ws : List Word) :
    Ev (fun n => pSum readNum ρ n (ts ++ [')'] :: ws)) (v, [')'] :: ws) :=
  h.1 _ _ (by simp [NoTerm, NoOpen]) (sumLoop_stop (by simp))

theorem IsSum.parens {ts : List Word} {v : Option K} (h : IsSum readNum ρ ts v) : IsFactor readNum ρ (['('] :: ts ++ [[')']]) v := by
  intro ws _
  have := factor_parens (h.closed ws)
  simpa using this

theorem mul_div_assoc' (a b c : Option K) : ((a *. b) /. c) = (a *. (b /. c)) := by
  cases a <;> cases b <;> cases c <;> simp [Exact.div_some]
  split <;> simp [mul_div_assoc]

/-- The words of the printed form. -/
abbrev Node.words (fmt : Option K → List Char) (e : Node (Option K)) : List Word := lex (e.print fmt)

theorem lex_mul (a b : List Char) : lex (a ++ '*' :: b) = lex a ++ ['*'] :: lex b := by
  rw [lex_sep a b (by decide)]; simp [sepWord]

theorem lex_div (a b : List Char) : lex (a ++ '/' :: b) = lex a ++ ['/'] :: lex b := by
  rw [lex_sep a b (by decide)]; simp [sepWord]

theorem lex_plus (a b : List Char) : lex (a ++ ' ' :: '+' :: ' ' :: b) = lex a ++ ['+'] :: lex b := by
  rw [lex_sep a _ (by decide), lex_cons _ (by decide), lex_cons _ (by decide)]; simp [sepWord]

theorem lex_fn (w a : List Char) (hw : IsWord w) : lex (w ++ inParens a) = w :: ['('] :: lex a ++ [[')']] := by
  unfold inParens
  rw [List.cons_append, lex_sep w _ (by decide), lex_word hw, lex_sep a [] (by decide)]
  simp [sepWord, lex, lexFrom, flush]

variable {fmt : Option K → List Char} {σ : Env (Option K)}

theorem Readable.arg {e a : Node (Option K)} (h : Readable readNum ρ fmt σ e) (ha : a ∈ e.arguments) : Readable readNum ρ fmt σ a where
  num := fun i v ho => h.num i v (.arg ha ho)
  name := fun x hx ho => h.name x hx (.arg ha ho)

theorem sumFrom_acc (acc : Option K) (as : List (Node (Option K))) :
    Node.evaluate.sumFrom σ acc as = (acc +. Node.evaluate.sumFrom σ (some 0) as) := by
  induction as generalizing acc with
  | nil => simp [Node.evaluate.sumFrom]
  | cons a as ih =>
    simp only [Node.evaluate.sumFrom]
    rw [ih, ih (some 0 +. a.evaluate σ), Exact.ozero_add, Exact.oadd_assoc]

/-- Kinds of printed expressions. -/
structure PrintsOk (readNum : Word → Option (Option K)) (ρ : Word → Option K) (fmt : Option K → List Char) (σ : Env (Option K))
    (e : Node (Option K)) : Prop where
  factor : e.parensD = false → IsFactor readNum ρ (lex (e.print fmt)) (e.evaluate σ)
  term : e.parens1 = false → IsTerm readNum ρ (lex (e.print fmt)) (e.evaluate σ)
  sum : IsSum readNum ρ (lex (e.print fmt)) (e.evaluate σ)

theorem PrintsOk.ofFactor {e : Node (Option K)} (h : IsFactor readNum ρ (lex (e.print fmt)) (e.evaluate σ)) :
    PrintsOk readNum ρ fmt σ e := ⟨fun _ => h, fun _ => h.term, h.term.sum⟩

theorem PrintsOk.ofTerm {e : Node (Option K)} (hp : e.parensD = true) (h : IsTerm readNum ρ (lex (e.print fmt)) (e.evaluate σ)) :
    PrintsOk readNum ρ fmt σ e := ⟨fun h' => (by rw [hp] at h'; cases h'), fun _ => h, h.sum⟩

/-- In parentheses if `b`, and a term otherwise. -/
theorem PrintsOk.optTerm {e : Node (Option K)} (h : PrintsOk readNum ρ fmt σ e) {b : Bool} (hb : b = false → e.parens1 = false) :
    IsTerm readNum ρ (lex (if b = true then inParens (e.print fmt) else e.print fmt)) (e.evaluate σ) := by
  cases b with
  | true => simp only [if_true, lex_parens]; exact h.sum.parens.term
  | false => simpa using h.term (hb rfl)

theorem PrintsOk.optFactor {e : Node (Option K)} (h : PrintsOk readNum ρ fmt σ e) :
    IsFactor readNum ρ (lex (if e.parensD = true then inParens (e.print fmt) else e.print fmt)) (e.evaluate σ) := by
  cases hb : e.parensD with
  | true => simp only [if_true, lex_parens]; exact h.sum.parens
  | false => simpa using h.factor hb

theorem isSum_args (as : List (Node (Option K))) (hne : as ≠ []) (h : ∀ a ∈ as, PrintsOk readNum ρ fmt σ a) :
    IsSum readNum ρ (lex (Node.print.printArgs fmt as)) (Node.evaluate.sumFrom σ (some 0) as) := by
  induction as with
  | nil => exact absurd rfl hne
  | cons a as ih =>
    have ha := (h a (by simp)).sum
    cases as with
    | nil => simpa [Node.print.printArgs, Node.evaluate.sumFrom] using ha
    | cons b as =>
      have ih := ih (by simp) fun x hx => h x (by simp [hx])
      have hv : Node.evaluate.sumFrom σ (some 0) (a :: b :: as) = (a.evaluate σ +. Node.evaluate.sumFrom σ (some 0) (b :: as)) := by
        rw [Node.evaluate.sumFrom, Exact.ozero_add, sumFrom_acc]
      rw [Node.print.printArgs, if_neg (by simp), lex_plus, hv]
      constructor
      · intro ws x hws hx
        rw [List.append_assoc]
        refine ha.1 _ _ (by simp [NoTerm, NoOpen]) ?_
        exact ih.2 _ _ _ hws hx
      · intro acc ws x hws hx
        rw [← List.cons_append, List.append_assoc]
        refine ha.2 _ _ _ (by simp [NoTerm, NoOpen]) ?_
        refine ih.2 _ _ _ hws ?_
        rw [Exact.oadd_assoc]; exact hx

theorem print_ok {l : Level} {h : Heap (Option K)} (e : Node (Option K)) (hg : Good l h e) (hr : Readable readNum ρ fmt σ e) :
    PrintsOk readNum ρ fmt σ e := by
  induction e using Node.ind with
  | const i v =>
    obtain ⟨h1, h2⟩ := hr.num i v (.refl _)
    refine .ofFactor fun ws hws => ?_
    have := factor_atom (readNum := readNum) (ρ := ρ) h1 hws
    rw [h2] at this
    simpa [Node.print, lex_word h1, Node.evaluate] using this
  | var i s k =>
    obtain ⟨h1, h2, h3⟩ := hr.name _ rfl (.refl _)
    refine .ofFactor fun ws hws => ?_
    have := factor_atom (readNum := readNum) (ρ := ρ) h1 hws
    rw [h2] at this
    simp only [Option.getD_none, h3] at this
    simp only [Node.print]
    rw [show s.toList = (Node.var i s k : Node (Option K)).name.toList from rfl, lex_word h1]
    exact this
  | add i args ih =>
    have hlen : 2 ≤ args.length := (hg _ (.refl _)).2.1
    have := isSum_args (readNum := readNum) (ρ := ρ) (fmt := fmt) (σ := σ) args (by rintro rfl; simp at hlen)
      fun a ha => ih a ha (hg.arg ha) (hr.arg ha)
    exact ⟨by simp [Node.parensD], by simp [Node.parens1], this⟩
  | cos i a ih =>
    have ih := ih (hg.arg (by simp [Node.arguments])) (hr.arg (by simp [Node.arguments]))
    refine .ofFactor fun ws hws => ?_
    have := factor_cos (ih.sum.closed ws)
    simp only [Node.print, lex_fn _ _ (show IsWord ['c', 'o', 's'] from by constructor <;> decide)]
    simpa [Node.evaluate] using this
  | sin i a ih =>
    have ih := ih (hg.arg (by simp [Node.arguments])) (hr.arg (by simp [Node.arguments]))
    refine .ofFactor fun ws hws => ?_
    have := factor_sin (ih.sum.closed ws)
    simp only [Node.print, lex_fn _ _ (show IsWord ['s', 'i', 'n'] from by constructor <;> decide)]
    simpa [Node.evaluate] using this
  | mul i a b iha ihb =>
    have iha := (iha (hg.arg (by simp [Node.arguments])) (hr.arg (by simp [Node.arguments]))).optTerm (b := a.parens0)
      (by cases a <;> simp [Node.parens0, Node.parens1])
    have ihb := (ihb (hg.arg (by simp [Node.arguments])) (hr.arg (by simp [Node.arguments]))).optTerm (b := b.parens1) id
    refine .ofTerm rfl ?_
    simp only [Node.print, lex_mul, Node.evaluate]
    constructor
    · intro ws x hws hx
      rw [List.append_assoc]
      exact iha.1 _ _ (by simp [NoOpen]) (ihb.2 _ _ _ hws hx)
    · intro acc ws x hws hx
      rw [← List.cons_append, List.append_assoc]
      refine iha.2 _ _ _ (by simp [NoOpen]) (ihb.2 _ _ _ hws ?_)
      rw [Exact.omul_assoc]; exact hx
  | div i a b iha ihb =>
    have iha := (iha (hg.arg (by simp [Node.arguments])) (hr.arg (by simp [Node.arguments]))).optTerm (b := a.parens0)
      (by cases a <;> simp [Node.parens0, Node.parens1])
    have ihb := (ihb (hg.arg (by simp [Node.arguments])) (hr.arg (by simp [Node.arguments]))).optFactor
    refine .ofTerm rfl ?_
    simp only [Node.print, lex_div, Node.evaluate]
    constructor
    · intro ws x hws hx
      rw [List.append_assoc]
      exact iha.1 _ _ (by simp [NoOpen]) (ihb.div hws hx)
    · intro acc ws x hws hx
      rw [← List.cons_append, List.append_assoc]
      refine iha.2 _ _ _ (by simp [NoOpen]) (ihb.div hws ?_)
      rw [mul_div_assoc']; exact hx

end

end Verif
