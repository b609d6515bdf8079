import Verif.Code.LpFile
import Verif.Spec.LpFormat
import Verif.Proofs.Text
import Verif.Proofs.SumDup
import Verif.Proofs.Arith

/-! # The LP file and its reader -/

namespace Verif

set_option linter.unusedSectionVars false
set_option linter.unusedSimpArgs false

section
variable {F : Type} [FloatOps F]

/-- The words of a term. -/
def termWords (fmtE : F → List Char) (e : Nat × F) : List (List Char) :=
  if zero <. e.2 then (if FloatOps.abs e.2 ==. one then [['+'], xName e.1] else [['+'], fmtE (FloatOps.abs e.2), xName e.1])
  else if e.2 <. zero then (if FloatOps.abs e.2 ==. one then [['-'], xName e.1] else [['-'], fmtE (FloatOps.abs e.2), xName e.1])
  else []

variable {G : Type} [FloatOps G] {readNum : List Char → Option G} {fmtE : F → List Char} {rnd : F → G}

theorem lpTermBody_lines (fmtE : F → List Char) (pre : Char) (d : F) (j : Nat) : Lines (lpTermBody fmtE pre d j) := by
  unfold lpTermBody
  split <;> exact .snoc _

theorem lpTerm_lines (fmtE : F → List Char) (d : F) (j : Nat) : Lines (lpTerm fmtE d j) := by
  unfold lpTerm
  split
  · exact lpTermBody_lines ..
  · split
    · exact lpTermBody_lines ..
    · exact .nil

theorem words_lpTermBody (hf : LpFmt readNum fmtE rnd) {pre : Char} (hp : isBlank pre = false) (d : F) (j : Nat) :
    words (lpTermBody fmtE pre d j) = if FloatOps.abs d ==. one then [[pre], xName j] else [[pre], fmtE (FloatOps.abs d), xName j] := by
  have hpp : Plain [pre] := ⟨by simp, by simpa using hp⟩
  unfold lpTermBody
  split
  · rw [words_snoc_blank (by simp)]
    simp only [List.cons_append, List.nil_append]
    iterate 5 rw [words_cons_blank (by simp)]
    rw [show pre :: ' ' :: xName j = [pre] ++ ' ' :: xName j from rfl, words_plain_blank hpp (by simp), words_plain (xName_plain j)]
  · rw [words_snoc_blank (by simp), List.append_assoc, List.singleton_append]
    rw [words_blank (by simp)]
    simp only [List.cons_append, List.nil_append]
    iterate 5 rw [words_cons_blank (by simp)]
    rw [show pre :: ' ' :: fmtE (FloatOps.abs d) = [pre] ++ ' ' :: fmtE (FloatOps.abs d) from rfl, words_plain_blank hpp (by simp),
      words_plain (xName_plain j), words_plain (hf.plain _)]
    rfl

theorem words_lpTerm (hf : LpFmt readNum fmtE rnd) (d : F) (j : Nat) : words (lpTerm fmtE d j) = termWords fmtE (j, d) := by
  unfold lpTerm termWords
  split
  · exact words_lpTermBody hf (by decide) d j
  · split
    · exact words_lpTermBody hf (by decide) d j
    · rfl

theorem readTerms_stop {w : List Char} {ws : List (List Char)} (h1 : w ≠ ['+']) (h2 : w ≠ ['-']) :
    readTerms readNum (w :: ws) = ([], w :: ws) := by
  cases ws with
  | nil => simp [readTerms]
  | cons v ws => simp [readTerms, signed, h1, h2]

theorem readTerms_one (hf : LpFmt readNum fmtE rnd) (e : Nat × F) (ws : List (List Char)) :
    readTerms readNum (termWords fmtE e ++ ws) =
      ((termVal rnd e).toList ++ (readTerms readNum ws).1, (readTerms readNum ws).2) := by
  unfold termWords termVal
  by_cases h1 : (zero <. e.2) = true
  · by_cases h3 : (FloatOps.abs e.2 ==. one) = true <;>
      simp [h1, h3, readTerms, signed, hf.name, hf.read]
  · by_cases h2 : (e.2 <. zero) = true
    · by_cases h3 : (FloatOps.abs e.2 ==. one) = true <;>
        simp [h1, h2, h3, readTerms, signed, hf.name, hf.read]
    · simp [h1, h2]

theorem readTerms_words (hf : LpFmt readNum fmtE rnd) (es : List (Nat × F)) (ws : List (List Char)) :
    readTerms readNum (es.flatMap (termWords fmtE) ++ ws) =
      (es.filterMap (termVal rnd) ++ (readTerms readNum ws).1, (readTerms readNum ws).2) := by
  induction es with
  | nil => simp
  | cons e es ih =>
    rw [List.flatMap_cons, List.append_assoc, readTerms_one hf, ih]
    cases h : termVal rnd e <;> simp [List.filterMap_cons, h]

/-- The text of a row. -/
def rowText (fmtE : F → List Char) (i : Nat) (es : List (Nat × F)) (b : F) : List Char :=
  [' ', ' '] ++ cName i ++ [':', '\n'] ++ (es.flatMap fun e => lpTerm fmtE e.2 e.1) ++
    ([' ', ' ', ' ', ' ', ' ', '=', ' '] ++ fmtE b ++ ['\n'])

theorem rowText_lines (i : Nat) (es : List (Nat × F)) (b : F) : Lines (rowText fmtE i es b) := by
  unfold rowText
  rw [← List.append_assoc]
  exact .snoc _

theorem words_rowText (hf : LpFmt readNum fmtE rnd) (i : Nat) (es : List (Nat × F)) (b : F) :
    words (rowText fmtE i es b) = (cName i ++ [':']) :: (es.flatMap (termWords fmtE) ++ [['='], fmtE b]) := by
  have hl : Plain (cName i ++ [':']) := by
    refine ⟨by simp, fun c hc => ?_⟩
    rcases List.mem_append.1 hc with hc | hc
    · exact (cName_plain i).2 c hc
    · rw [List.mem_singleton.1 hc]; decide
  have h1 : Lines ([' ', ' '] ++ cName i ++ [':', '\n']) := .inr ⟨[' ', ' '] ++ cName i ++ [':'], by simp⟩
  have h2 : Lines (es.flatMap fun e => lpTerm fmtE e.2 e.1) := .flatMap fun e _ => lpTerm_lines ..
  unfold rowText
  rw [(h1.append h2).words_append, h1.words_append, words_flatMap fun e _ => lpTerm_lines ..]
  rw [show [' ', ' '] ++ cName i ++ [':', '\n'] = ' ' :: ' ' :: ((cName i ++ [':']) ++ ['\n']) by simp, words_cons_blank (by simp),
    words_cons_blank (by simp), words_snoc_blank (by simp), words_plain hl, words_snoc_blank (by simp)]
  simp only [List.cons_append, List.nil_append]
  iterate 5 rw [words_cons_blank (by simp)]
  rw [show '=' :: ' ' :: fmtE b = ['='] ++ ' ' :: fmtE b from rfl, words_plain_blank ⟨by simp, by decide⟩ (by simp),
    words_plain (hf.plain b)]
  simp only [words_lpTerm hf]

/-- The text of a bound. -/
def boundText (fmtE : F → List Char) (i : Nat) (l u : F) : List Char :=
  [' '] ++ fmtE l ++ [' ', '<', '=', ' '] ++ xName i ++ [' ', '<', '=', ' '] ++ fmtE u ++ ['\n']

theorem words_boundText (hf : LpFmt readNum fmtE rnd) (i : Nat) (l u : F) :
    words (boundText fmtE i l u) = [fmtE l, ['<', '='], xName i, ['<', '='], fmtE u] := by
  unfold boundText
  rw [words_snoc_blank (by simp)]
  rw [show [' '] ++ fmtE l ++ [' ', '<', '=', ' '] ++ xName i ++ [' ', '<', '=', ' '] ++ fmtE u =
    ' ' :: (fmtE l ++ ' ' :: (['<', '='] ++ ' ' :: (xName i ++ ' ' :: (['<', '='] ++ ' ' :: fmtE u)))) by simp]
  have hle : Plain ['<', '='] := ⟨by simp, by decide⟩
  rw [words_cons_blank (by simp), words_plain_blank (hf.plain l) (by simp), words_plain_blank hle (by simp),
    words_plain_blank (xName_plain i) (by simp), words_plain_blank hle (by simp), words_plain (hf.plain u)]

theorem boundText_lines (i : Nat) (l u : F) : Lines (boundText fmtE i l u) := .snoc _

/-- The text of an integer variable. -/
def generalText (ip : Nat × Bool) : List Char := if ip.2 then [' '] ++ xName ip.1 ++ ['\n'] else []

theorem generalText_lines (ip : Nat × Bool) : Lines (generalText ip) := by
  unfold generalText
  split
  · exact .snoc _
  · exact .nil

theorem words_generalText (ip : Nat × Bool) : words (generalText ip) = if ip.2 then [xName ip.1] else [] := by
  unfold generalText
  split
  · rw [words_snoc_blank (by simp), List.singleton_append, words_cons_blank (by simp), words_plain (xName_plain _)]
  · rfl

theorem readRows_words (hf : LpFmt readNum fmtE rnd) (rs : List (Nat × List (Nat × F) × F)) (ws : List (List Char)) {n : Nat}
    (hn : rs.length ≤ n) :
    readRows readNum n (rs.flatMap (fun r => (cName r.1 ++ [':']) :: (r.2.1.flatMap (termWords fmtE) ++ [['='], fmtE r.2.2])) ++
        ['B', 'o', 'u', 'n', 'd', 's'] :: ws) =
      some (rs.map (fun r => (cName r.1, r.2.1.filterMap (termVal rnd), rnd r.2.2)), ws) := by
  induction rs generalizing n with
  | nil => simp [readRows]
  | cons r rs ih =>
    obtain ⟨m, rfl⟩ : ∃ m, n = m + 1 := ⟨n - 1, by simp at hn; omega⟩
    rw [List.flatMap_cons, List.cons_append, List.cons_append, readRows]
    · simp only [List.append_assoc, readTerms_words hf, List.cons_append, List.nil_append]
      rw [readTerms_stop (by simp) (by simp)]
      have hl : readLabel (cName r.1 ++ [':']) = some (cName r.1) := by simp [readLabel]
      simp [hl, hf.read, ih (n := m) (by simp at hn; omega)]
    · intro h
      have := congrArg (fun l => l.head?) h
      simp [cName] at this

theorem readBounds_words (hf : LpFmt readNum fmtE rnd) (bs : List (Nat × F × F)) (ws : List (List Char)) :
    readBounds readNum (bs.flatMap (fun b => [fmtE b.2.1, ['<', '='], xName b.1, ['<', '='], fmtE b.2.2]) ++
        ['G', 'e', 'n', 'e', 'r', 'a', 'l'] :: ws) =
      some (bs.map (fun b => (rnd b.2.1, xName b.1, rnd b.2.2)), ws) := by
  induction bs with
  | nil => simp [readBounds]
  | cons b bs ih =>
    simp only [List.flatMap_cons, List.cons_append, List.nil_append]
    rw [readBounds]
    · simp [hf.read, ih]
    · intro h
      have h1 := hf.read b.2.1
      rw [h, hf.keyword] at h1
      cases h1

theorem readGeneral_words (is : List (Nat × Bool)) :
    readGeneral (is.flatMap (fun ip => if ip.2 then [xName ip.1] else []) ++ [['E', 'n', 'd']]) =
      some ((is.filter fun ip => ip.2).map fun ip => xName ip.1) := by
  induction is with
  | nil => simp [readGeneral]
  | cons ip is ih =>
    rw [List.flatMap_cons, List.append_assoc]
    cases h : ip.2 with
    | false => simpa [h] using ih
    | true =>
      simp only [if_true, List.cons_append, List.nil_append]
      rw [readGeneral, ih]
      · simp [h]
      · intro hx; simp [xName] at hx

theorem lpRowTerms_ok {a : Csr F} (h : a.Valid) {i : Nat} (hi : i < a.rows) (w : List Char) :
    lpRowTerms fmtE a w i = .ok (w ++ (a.rowOf i).flatMap fun e => lpTerm fmtE e.2 e.1) := by
  obtain ⟨lo, h1, h2⟩ := h.ptr (Nat.le_of_lt hi)
  obtain ⟨hi', h3, h4⟩ := h.ptr hi
  have hle : lo ≤ hi' := by
    obtain ⟨l1, e1⟩ := List.getElem?_eq_some_iff.1 h1
    obtain ⟨l2, e2⟩ := List.getElem?_eq_some_iff.1 h3
    have := (List.pairwise_iff_getElem.1 h.mono) i (i + 1) l1 l2 (by omega)
    rw [e1, e2] at this
    exact this
  unfold lpRowTerms
  simp only [idx, h1, h3, R.ok_bind, Csr.rowOf, Option.getD_some]
  have hs := forall₂_slice h hle h4
  generalize ((a.indices.zip a.data).drop lo).take (hi' - lo) = es at hs
  generalize List.range' lo (hi' - lo) = ks at hs
  induction hs generalizing w with
  | nil => simp [foldR]
  | cons he _ ih =>
    obtain ⟨e1, e2, -⟩ := he
    simp only [idx] at e1 e2
    simp only [foldR, e1, e2, R.ok_bind]
    rw [ih]
    simp

theorem foldR_text {α : Type} {f : List Char → α → R (List Char)} {g : α → List Char} {l : List α}
    (h : ∀ a ∈ l, ∀ w, f w a = .ok (w ++ g a)) (w : List Char) : foldR f w l = .ok (w ++ l.flatMap g) := by
  induction l generalizing w with
  | nil => simp [foldR]
  | cons a l ih =>
    simp only [foldR, h a (by simp) w]
    rw [ih (fun b hb => h b (by simp [hb]))]
    simp

theorem flatMap_map' {α β γ : Type} (f : α → β) (g : β → List γ) (l : List α) : (l.map f).flatMap g = l.flatMap fun a => g (f a) := by
  induction l <;> simp_all

/-- The text that is written, for a problem with valid dimensions. -/
theorem lpText_ok {q : Milp F} {a : Csr F} (ha : ∃ m, q.base.a.toCsr = .ok m ∧ m.sumDuplicates = .ok a) (hv : a.Valid)
    (hb : q.base.b.length = a.rows) (hl : q.base.l.length = q.c.length) (hu : q.base.u.length = q.c.length) :
    q.lpText fmtE = .ok (lpObjective fmtE q.c ++ ['S', 'u', 'b', 'j', 'e', 'c', 't', ' ', 't', 'o', '\n'] ++
      ((List.range a.rows).flatMap fun i => rowText fmtE i (a.rowOf i) ((q.base.b[i]?).getD zero)) ++
      ['B', 'o', 'u', 'n', 'd', 's', '\n'] ++
      ((List.range q.c.length).flatMap fun i => boundText fmtE i ((q.base.l[i]?).getD zero) ((q.base.u[i]?).getD zero)) ++
      ['G', 'e', 'n', 'e', 'r', 'a', 'l', '\n'] ++ (((List.range q.base.p.length).zip q.base.p).flatMap generalText) ++
      ['E', 'n', 'd', '\n']) := by
  obtain ⟨m, h1, h2⟩ := ha
  unfold Milp.lpText
  simp only [h1, h2, R.ok_bind]
  rw [foldR_text (g := fun i => rowText fmtE i (a.rowOf i) ((q.base.b[i]?).getD zero))]
  · simp only [R.ok_bind, Milp.nx]
    rw [foldR_text (g := fun i => boundText fmtE i ((q.base.l[i]?).getD zero) ((q.base.u[i]?).getD zero))]
    · simp only [R.ok_bind]
      rfl
    · intro i hi w
      rw [List.mem_range] at hi
      unfold lpBound
      have e1 : i < q.base.l.length := by omega
      have e2 : i < q.base.u.length := by omega
      simp [idx_of_lt e1, idx_of_lt e2, e1, e2, boundText]
  · intro i hi w
    rw [List.mem_range] at hi
    unfold lpRow
    have e1 : i < q.base.b.length := by omega
    simp [idx_of_lt e1, lpRowTerms_ok hv hi, e1, rowText]

/-- What a reader of the format reads in it. -/
theorem readLp_lpText (hf : LpFmt readNum fmtE rnd) (c l u : List F) (p : List Bool) (rs : List (Nat × List (Nat × F) × F))
    (bs : List (Nat × F × F)) :
    readLp readNum (lpObjective fmtE c ++ ['S', 'u', 'b', 'j', 'e', 'c', 't', ' ', 't', 'o', '\n'] ++
      (rs.flatMap fun r => rowText fmtE r.1 r.2.1 r.2.2) ++ ['B', 'o', 'u', 'n', 'd', 's', '\n'] ++
      (bs.flatMap fun b => boundText fmtE b.1 b.2.1 b.2.2) ++
      ['G', 'e', 'n', 'e', 'r', 'a', 'l', '\n'] ++ (((List.range p.length).zip p).flatMap generalText) ++
      ['E', 'n', 'd', '\n']) = some ⟨((List.range c.length).zip c).filterMap (termVal rnd),
        rs.map (fun r => (cName r.1, r.2.1.filterMap (termVal rnd), rnd r.2.2)),
        bs.map (fun b => (rnd b.2.1, xName b.1, rnd b.2.2)),
        (((List.range p.length).zip p).filter fun ip => ip.2).map fun ip => xName ip.1⟩ := by
  have hobj : Lines (lpObjective fmtE c) := by
    unfold lpObjective
    exact .append (.inr ⟨['M', 'i', 'n', 'i', 'm', 'i', 'z', 'e', '\n', ' ', 'o', 'b', 'j', ':'], rfl⟩)
      (.flatMap fun e _ => lpTerm_lines ..)
  have hobjw : words (lpObjective fmtE c) = ['M', 'i', 'n', 'i', 'm', 'i', 'z', 'e'] :: ['o', 'b', 'j', ':'] ::
      ((List.range c.length).zip c).flatMap (termWords fmtE) := by
    unfold lpObjective
    rw [Lines.words_append (a := ['M', 'i', 'n', 'i', 'm', 'i', 'z', 'e', '\n'] ++ [' ', 'o', 'b', 'j', ':', '\n'])
      (.inr ⟨['M', 'i', 'n', 'i', 'm', 'i', 'z', 'e', '\n', ' ', 'o', 'b', 'j', ':'], rfl⟩),
      words_flatMap fun e _ => lpTerm_lines ..]
    simp only [words_lpTerm hf]
    rfl
  have hsub : Lines ['S', 'u', 'b', 'j', 'e', 'c', 't', ' ', 't', 'o', '\n'] := .inr ⟨['S', 'u', 'b', 'j', 'e', 'c', 't', ' ', 't', 'o'], rfl⟩
  have hbnd : Lines ['B', 'o', 'u', 'n', 'd', 's', '\n'] := .inr ⟨['B', 'o', 'u', 'n', 'd', 's'], rfl⟩
  have hgen : Lines ['G', 'e', 'n', 'e', 'r', 'a', 'l', '\n'] := .inr ⟨['G', 'e', 'n', 'e', 'r', 'a', 'l'], rfl⟩
  have h1 := hobj.append hsub
  have h2 : Lines (rs.flatMap fun r => rowText fmtE r.1 r.2.1 r.2.2) := .flatMap fun r _ => rowText_lines ..
  have h3 := (h1.append h2).append hbnd
  have h4 : Lines (bs.flatMap fun b => boundText fmtE b.1 b.2.1 b.2.2) := .flatMap fun r _ => boundText_lines ..
  have h5 := (h3.append h4).append hgen
  have h6 : Lines (((List.range p.length).zip p).flatMap generalText) := .flatMap fun r _ => generalText_lines _
  unfold readLp
  rw [(h5.append h6).words_append, h5.words_append, (h3.append h4).words_append, h3.words_append, (h1.append h2).words_append,
    h1.words_append, hobj.words_append, hobjw, words_flatMap fun r _ => rowText_lines .., words_flatMap fun r _ => boundText_lines ..,
    words_flatMap fun r _ => generalText_lines _]
  simp only [words_rowText hf, words_boundText hf, words_generalText]
  rw [show words ['S', 'u', 'b', 'j', 'e', 'c', 't', ' ', 't', 'o', '\n'] = [['S', 'u', 'b', 'j', 'e', 'c', 't'], ['t', 'o']] from rfl,
    show words ['B', 'o', 'u', 'n', 'd', 's', '\n'] = [['B', 'o', 'u', 'n', 'd', 's']] from rfl,
    show words ['G', 'e', 'n', 'e', 'r', 'a', 'l', '\n'] = [['G', 'e', 'n', 'e', 'r', 'a', 'l']] from rfl,
    show words ['E', 'n', 'd', '\n'] = [['E', 'n', 'd']] from rfl]
  simp only [List.cons_append, List.append_assoc, List.nil_append]
  rw [show readLabel ['o', 'b', 'j', ':'] = some ['o', 'b', 'j'] from rfl, readTerms_words hf, readTerms_stop (by simp) (by simp)]
  simp only [List.append_nil]
  rw [readRows_words hf]
  · simp only [Option.bind_eq_bind, Option.bind_some, readBounds_words hf, readGeneral_words]
  · rw [List.length_append, List.length_flatMap]
    refine Nat.le_trans ?_ (Nat.le_add_right _ _)
    clear h1 h2 h3 h4 h5
    induction rs with
    | nil => simp
    | cons r rs ih =>
      simp only [List.map_cons, List.length_cons, List.sum_cons] at ih ⊢
      omega

end

end Verif
