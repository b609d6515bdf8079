import Verif.Spec.LpFormat

/-! # Words of texts -/

namespace Verif

/-- Empty or ended by a line feed. -/
def Lines (s : List Char) : Prop := s = [] ∨ ∃ t, s = t ++ ['\n']

theorem wordsFrom_blank {c : Char} (hc : isBlank c = true) (a b cur : List Char) :
    wordsFrom cur (a ++ c :: b) = wordsFrom cur a ++ words b := by
  induction a generalizing cur with
  | nil => simp [wordsFrom, hc, words]
  | cons d a ih =>
    simp only [List.cons_append, wordsFrom]
    split
    · simp [ih, List.append_assoc]
    · exact ih _

theorem words_blank {c : Char} (hc : isBlank c = true) (a b : List Char) : words (a ++ c :: b) = words a ++ words b :=
  wordsFrom_blank hc a b []

@[simp] theorem words_nil : words [] = [] := rfl

theorem words_cons_blank {c : Char} (hc : isBlank c = true) (b : List Char) : words (c :: b) = words b := by
  simpa using words_blank hc [] b

theorem words_snoc_blank {c : Char} (hc : isBlank c = true) (a : List Char) : words (a ++ [c]) = words a := by
  simpa using words_blank hc a []

theorem wordsFrom_plain (cur w : List Char) (h : ∀ c ∈ w, isBlank c = false) (hne : cur ++ w ≠ []) :
    wordsFrom cur w = [cur ++ w] := by
  induction w generalizing cur with
  | nil =>
    simp only [List.append_nil] at hne
    simp [wordsFrom, hne]
  | cons c w ih =>
    have hc := h c (by simp)
    simp only [wordsFrom, hc, Bool.false_eq_true, if_false]
    rw [ih _ (fun d hd => h d (by simp [hd])) (by simp)]
    simp

theorem words_plain {w : List Char} (h : Plain w) : words w = [w] := by
  simpa [words] using wordsFrom_plain [] w h.2 (by simpa using h.1)

theorem words_plain_blank {w : List Char} (h : Plain w) {c : Char} (hc : isBlank c = true) (b : List Char) :
    words (w ++ c :: b) = w :: words b := by
  rw [words_blank hc, words_plain h]; rfl

@[simp] theorem isBlank_space : isBlank ' ' = true := by decide
@[simp] theorem isBlank_nl : isBlank '\n' = true := by decide

theorem Lines.words_append {a : List Char} (h : Lines a) (b : List Char) : words (a ++ b) = words a ++ words b := by
  rcases h with rfl | ⟨t, rfl⟩
  · simp
  · rw [List.append_assoc, List.singleton_append, words_blank (by simp), words_snoc_blank (by simp)]

theorem Lines.nil : Lines [] := .inl rfl

theorem Lines.append {a b : List Char} (ha : Lines a) (hb : Lines b) : Lines (a ++ b) := by
  rcases hb with rfl | ⟨t, rfl⟩
  · simpa using ha
  · exact .inr ⟨a ++ t, by simp⟩

theorem Lines.snoc (t : List Char) : Lines (t ++ ['\n']) := .inr ⟨t, rfl⟩

theorem Lines.flatMap {α : Type} {f : α → List Char} {l : List α} (h : ∀ a ∈ l, Lines (f a)) : Lines (l.flatMap f) := by
  induction l with
  | nil => exact .inl rfl
  | cons a l ih =>
    rw [List.flatMap_cons]
    exact (h a (by simp)).append (ih fun b hb => h b (by simp [hb]))

theorem words_flatMap {α : Type} {f : α → List Char} {l : List α} (h : ∀ a ∈ l, Lines (f a)) :
    words (l.flatMap f) = l.flatMap fun a => words (f a) := by
  induction l with
  | nil => rfl
  | cons a l ih =>
    rw [List.flatMap_cons, List.flatMap_cons, (h a (by simp)).words_append, ih fun b hb => h b (by simp [hb])]

theorem isBlank_of_isDigit {c : Char} (h : c.isDigit = true) : isBlank c = false := by
  unfold isBlank
  rw [List.contains_eq_mem, decide_eq_false_iff_not]
  intro hm
  simp only [List.mem_cons, List.not_mem_nil, or_false] at hm
  rcases hm with rfl | rfl | rfl | rfl | rfl <;> exact absurd h (by decide)

theorem natText_digits {n : Nat} {c : Char} (h : c ∈ natText n) : c.isDigit = true :=
  Nat.isDigit_of_mem_toDigits (by decide) (by decide) h

theorem natText_ne_nil (n : Nat) : natText n ≠ [] := Nat.toDigits_ne_nil

theorem natText_plain (n : Nat) : Plain (natText n) :=
  ⟨natText_ne_nil n, fun _ h => isBlank_of_isDigit (natText_digits h)⟩

theorem natText_inj {n m : Nat} (h : natText n = natText m) : n = m := by
  have := congrArg (fun s => Nat.ofDigitChars 10 s 0) h
  simpa [natText, Nat.ofDigitChars_ten_toDigits] using this

theorem xName_plain (n : Nat) : Plain (xName n) := by
  refine ⟨by simp [xName], fun c h => ?_⟩
  simp only [xName, List.mem_cons] at h
  rcases h with rfl | rfl | h
  · decide
  · decide
  · exact (natText_plain n).2 c h

theorem cName_plain (n : Nat) : Plain (cName n) := by
  refine ⟨by simp [cName], fun c h => ?_⟩
  simp only [cName, List.mem_cons] at h
  rcases h with rfl | rfl | h
  · decide
  · decide
  · exact (natText_plain n).2 c h

theorem xName_inj {n m : Nat} : xName n = xName m ↔ n = m :=
  ⟨fun h => natText_inj (by simpa [xName] using h), fun h => h ▸ rfl⟩

theorem cName_inj {n m : Nat} : cName n = cName m ↔ n = m :=
  ⟨fun h => natText_inj (by simpa [cName] using h), fun h => h ▸ rfl⟩

end Verif
