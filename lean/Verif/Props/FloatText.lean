import Verif.Spec.FloatText
import Verif.Props.File64

/-! # C82: which texts are read as numbers -/

namespace Verif

theorem DigitText.digits {w : List Char} {k : ℕ} (h : DigitText w k) : ∀ c ∈ w, c.isDigit = true := by
  induction h with
  | nil => simp
  | snoc _ hd ih =>
    intro c hc
    rcases List.mem_append.1 hc with hc | hc
    · exact ih c hc
    · rw [List.mem_singleton.1 hc]; exact hd

theorem DigitText.val {w : List Char} {k : ℕ} (h : DigitText w k) : Nat.ofDigitChars 10 w 0 = k := by
  induction h with
  | nil => rfl
  | snoc _ hd ih =>
    rw [Nat.ofDigitChars_append, ih]
    simp [Nat.ofDigitChars_cons]

theorem digitText_of {w : List Char} (h : ∀ c ∈ w, c.isDigit = true) : DigitText w (Nat.ofDigitChars 10 w 0) := by
  induction w using List.reverseRecOn with
  | nil => exact .nil
  | append_singleton w d ih =>
    have h1 := ih fun c hc => h c (by simp [hc])
    have h2 := DigitText.snoc h1 (h d (by simp))
    rw [h2.val]
    exact h2

theorem takeWhile_digits {w u : List Char} (h : ∀ c ∈ w, c.isDigit = true) (hu : ∀ c ∈ u.head?, c.isDigit = false) :
    (w ++ u).takeWhile Char.isDigit = w ∧ (w ++ u).dropWhile Char.isDigit = u := by
  induction w with
  | nil =>
    cases u with
    | nil => simp
    | cons c u => simp [hu c (by simp)]
  | cons c w ih =>
    have := ih fun c hc => h c (by simp [hc])
    simp [h c (by simp), this]

theorem readExp_iff {w : List Char} {e : ℤ} : readExp w = some e ↔
    (∃ k : ℕ, DigitText w k ∧ w ≠ [] ∧ e = k) ∨ (∃ u, ∃ k : ℕ, w = '+' :: u ∧ DigitText u k ∧ u ≠ [] ∧ e = k) ∨
      ∃ u, ∃ k : ℕ, w = '-' :: u ∧ DigitText u k ∧ u ≠ [] ∧ e = -k := by
  have key : ∀ {u : List Char}, (u ≠ [] ∧ u.all Char.isDigit = true) ↔ u ≠ [] ∧ DigitText u (Nat.ofDigitChars 10 u 0) := fun {u} =>
    and_congr_right fun _ => ⟨fun h => digitText_of (by simpa using h), fun h => by simpa using h.digits⟩
  have ndig : ∀ {c : Char} {u : List Char} {k : ℕ}, c.isDigit = false → ¬ DigitText (c :: u) k := fun hc h => by
    have := h.digits _ (List.mem_cons_self ..)
    rw [hc] at this
    cases this
  unfold readExp
  split
  · rename_i u
    constructor
    · intro h
      split at h
      · rename_i hu
        injection h with h
        exact .inr (.inr ⟨u, _, rfl, (key.1 hu).2, hu.1, h.symm⟩)
      · cases h
    · rintro (⟨k, h, -⟩ | ⟨u', k, h, -⟩ | ⟨u', k, h, hd, hn, rfl⟩)
      · exact absurd h (ndig rfl)
      · cases h
      · injection h with _ h
        subst h
        rw [if_pos ⟨hn, by simpa using hd.digits⟩, hd.val]
  · rename_i u
    constructor
    · intro h
      split at h
      · rename_i hu
        injection h with h
        exact .inr (.inl ⟨u, _, rfl, (key.1 hu).2, hu.1, h.symm⟩)
      · cases h
    · rintro (⟨k, h, -⟩ | ⟨u', k, h, hd, hn, rfl⟩ | ⟨u', k, h, -⟩)
      · exact absurd h (ndig rfl)
      · injection h with _ h
        subst h
        rw [if_pos ⟨hn, by simpa using hd.digits⟩, hd.val]
      · cases h
  · rename_i hm hp
    constructor
    · intro h
      split at h
      · rename_i hu
        injection h with h
        exact .inl ⟨_, (key.1 hu).2, hu.1, h.symm⟩
      · cases h
    · rintro (⟨k, hd, hn, rfl⟩ | ⟨u', k, h, -⟩ | ⟨u', k, h, -⟩)
      · rw [if_pos ⟨hn, by simpa using hd.digits⟩, hd.val]
      · exact absurd h (hp u')
      · exact absurd h (hm u')

theorem splitExp_iff {u : List Char} {e : ℤ} : splitExp u = some e ↔ ExponentText u e := by
  have key : ∀ {c : Char} {w : List Char} {e : ℤ}, c = 'e' ∨ c = 'E' → (readExp w = some e ↔ ExponentText (c :: w) e) := by
    intro c w e hc
    rw [readExp_iff]
    constructor
    · rintro (⟨k, hd, hn, rfl⟩ | ⟨u, k, rfl, hd, hn, rfl⟩ | ⟨u, k, rfl, hd, hn, rfl⟩)
      · exact .plain hc hd hn
      · exact .plus hc hd hn
      · exact .minus hc hd hn
    · intro h
      cases h with
      | plain _ hd hn => exact .inl ⟨_, hd, hn, rfl⟩
      | plus _ hd hn => exact .inr (.inl ⟨_, _, rfl, hd, hn, rfl⟩)
      | minus _ hd hn => exact .inr (.inr ⟨_, _, rfl, hd, hn, rfl⟩)
  unfold splitExp
  split
  · constructor
    · intro h; injection h with h; subst h; exact .none
    · intro h; cases h; rfl
  · exact key (.inl rfl)
  · exact key (.inr rfl)
  · rename_i h1 h2 h3
    constructor
    · intro h; cases h
    · intro h
      cases h with
      | none => exact absurd rfl h1
      | plain hc _ _ => rcases hc with rfl | rfl <;> [exact absurd rfl (h2 _); exact absurd rfl (h3 _)]
      | plus hc _ _ => rcases hc with rfl | rfl <;> [exact absurd rfl (h2 _); exact absurd rfl (h3 _)]
      | minus hc _ _ => rcases hc with rfl | rfl <;> [exact absurd rfl (h2 _); exact absurd rfl (h3 _)]

theorem ExponentText.head {u : List Char} {e : ℤ} (h : ExponentText u e) : ∀ c ∈ u.head?, c = 'e' ∨ c = 'E' := by
  cases h with
  | none => simp
  | plain hc _ _ => simpa using hc
  | plus hc _ _ => simpa using hc
  | minus hc _ _ => simpa using hc

theorem ExponentText.head_digit {u : List Char} {e : ℤ} (h : ExponentText u e) : ∀ c ∈ u.head?, c.isDigit = false := by
  intro c hc
  rcases h.head c hc with rfl | rfl <;> rfl

theorem ten_shift (k : ℕ) (n : ℕ) (e : ℤ) : (k : ℚ) / 10 ^ n * 10 ^ e = k * 10 ^ (e - (n : ℤ)) := by
  rw [zpow_sub₀ (by norm_num), zpow_natCast]
  ring

theorem parseUnsigned_iff {w : List Char} {v : ℚ} : parseUnsigned w = some v ↔ NumberText w v := by
  have hall : ∀ (w : List Char), ∀ c ∈ w.takeWhile Char.isDigit, c.isDigit = true := fun w c hc => List.all_eq_true.1 List.all_takeWhile c hc
  constructor
  · intro h
    unfold parseUnsigned at h
    split at h
    · cases h
    · rename_i hn
      obtain ⟨e, he, rfl⟩ := Option.map_eq_some_iff.1 h
      rw [splitExp_iff] at he
      have hw : w = w.takeWhile Char.isDigit ++ w.dropWhile Char.isDigit := (List.takeWhile_append_dropWhile ..).symm
      revert he hn
      generalize hr : w.dropWhile Char.isDigit = r at hw
      generalize hd : w.takeWhile Char.isDigit = d at hw
      have hdd : ∀ c ∈ d, c.isDigit = true := by rw [← hd]; exact hall w
      intro hn he
      subst hw
      unfold splitFrac at *
      split at he
      · rename_i u
        have hf : ∀ c ∈ d ++ u.takeWhile Char.isDigit, c.isDigit = true := fun c hc => (List.mem_append.1 hc).elim (hdd c) (hall u c)
        have := NumberText.frac (w := d) (f := u.takeWhile Char.isDigit) (u := u.dropWhile Char.isDigit) (digitText_of hf)
          (fun hc => hn (List.append_eq_nil_iff.1 hc)) he
        rw [List.takeWhile_append_dropWhile, ten_shift] at this
        exact this
      · have := NumberText.int (digitText_of hdd) (fun hc => hn ⟨hc, by simp⟩) he
        simpa using this
  · intro h
    cases h with
    | @int w u k e hd hn he =>
      have h1 := takeWhile_digits hd.digits he.head_digit
      unfold parseUnsigned
      rw [h1.1, h1.2]
      have h2 : splitFrac u = ([], u) := by
        unfold splitFrac
        split
        · rcases he.head '.' rfl with h | h <;> cases h
        · rfl
      rw [h2, if_neg fun hc => hn hc.1]
      simp only [splitExp_iff.2 he, Option.map_some, List.append_nil, hd.val, List.length_nil, Nat.cast_zero, sub_zero]
    | @frac w f u k e hd hn he =>
      have h1 := takeWhile_digits (w := w) (u := '.' :: (f ++ u)) (fun c hc => hd.digits c (by simp [hc])) (by simp)
      have h2 := takeWhile_digits (w := f) (fun c hc => hd.digits c (by simp [hc])) he.head_digit
      unfold parseUnsigned
      rw [h1.1, h1.2]
      have h3 : splitFrac ('.' :: (f ++ u)) = (f, u) := by
        show ((f ++ u).takeWhile Char.isDigit, (f ++ u).dropWhile Char.isDigit) = _
        rw [h2.1, h2.2]
      rw [h3, if_neg fun hc => hn (List.append_eq_nil_iff.2 hc)]
      simp only [splitExp_iff.2 he, Option.map_some, hd.val, ten_shift]

theorem NumberText.head {w : List Char} {v : ℚ} (h : NumberText w v) : ∃ c u, w = c :: u ∧ (c.isDigit = true ∨ c = '.') := by
  cases h with
  | @int w u k e hd hn he =>
    cases w with
    | nil => exact absurd rfl hn
    | cons c w => exact ⟨c, _, rfl, .inl (hd.digits c (by simp))⟩
  | @frac w f u k e hd hn he =>
    cases w with
    | nil => exact ⟨'.', _, rfl, .inr rfl⟩
    | cons c w => exact ⟨c, _, rfl, .inl (hd.digits c (by simp))⟩

theorem NumberText.head_lower {w : List Char} {v : ℚ} (h : NumberText w v) : ∃ c u, w = c :: u ∧ (c.toLower.isDigit = true ∨ c.toLower = '.') := by
  obtain ⟨c, u, rfl, hc | rfl⟩ := h.head
  · exact ⟨c, u, rfl, .inl (by rw [toLower_digit hc]; exact hc)⟩
  · exact ⟨'.', u, rfl, .inr rfl⟩

theorem parseMagnitude_iff {neg : Bool} {w : List Char} {a : F64} : parseMagnitude neg w = some a ↔ MagnitudeText neg w a := by
  have clash : ∀ {v : ℚ} {c : Char} {u : List Char}, NumberText w v → w.map Char.toLower = c :: u → c.isDigit = false → c ≠ '.' → False := by
    intro v c u h hw h1 h2
    obtain ⟨d, r, rfl, hd⟩ := h.head_lower
    simp only [List.map_cons, List.cons.injEq] at hw
    rw [hw.1, h1] at hd
    simp [h2] at hd
  unfold parseMagnitude
  split
  · rename_i h
    constructor
    · intro ha
      injection ha with ha
      subst ha
      exact h.elim .inf .infinity
    · intro ha
      cases ha with
      | number hn => exact (h.elim (fun h => clash hn h rfl (by decide)) fun h => clash hn h rfl (by decide)).elim
      | inf _ => rfl
      | infinity _ => rfl
      | nan h' => rw [h'] at h; exact absurd h (by decide)
  · rename_i h
    split
    · rename_i h2
      constructor
      · intro ha
        injection ha with ha
        subst ha
        exact .nan h2
      · intro ha
        cases ha with
        | number hn => exact (clash hn h2 rfl (by decide)).elim
        | inf h' => exact absurd (.inl h') h
        | infinity h' => exact absurd (.inr h') h
        | nan _ => rfl
    · rename_i h2
      constructor
      · intro ha
        obtain ⟨v, hv, rfl⟩ := Option.map_eq_some_iff.1 ha
        exact .number (parseUnsigned_iff.1 hv)
      · intro ha
        cases ha with
        | number hn => rw [parseUnsigned_iff.2 hn]; rfl
        | inf h' => exact absurd (.inl h') h
        | infinity h' => exact absurd (.inr h') h
        | nan h' => exact absurd h' h2

theorem MagnitudeText.head_sign {neg : Bool} {c : Char} {w : List Char} {a : F64} (h : MagnitudeText neg (c :: w) a) : c ≠ '+' ∧ c ≠ '-' := by
  rw [← not_or]
  rintro hc
  cases h with
  | number hn =>
    obtain ⟨d, u, hw, hd⟩ := hn.head
    injection hw with hw
    subst hw
    rcases hc with rfl | rfl <;> exact absurd hd (by decide)
  | inf h => rcases hc with rfl | rfl <;> · injection h with h; exact absurd h (by decide)
  | infinity h => rcases hc with rfl | rfl <;> · injection h with h; exact absurd h (by decide)
  | nan h => rcases hc with rfl | rfl <;> · injection h with h; exact absurd h (by decide)

/-- **C82** Which texts are read as numbers, and as which: those of the grammar of floating-point texts (`FloatText`), as the doubles that they denote; no
other text. -/
theorem C82_grammar (w : List Char) (a : F64) : parse64 w = some a ↔ FloatText w a := by
  unfold parse64
  split
  · rename_i u
    rw [parseMagnitude_iff]
    constructor
    · exact .minus
    · intro h
      cases h with
      | plain h => exact absurd rfl h.head_sign.2
      | minus h => exact h
  · rename_i u
    rw [parseMagnitude_iff]
    constructor
    · exact .plus
    · intro h
      cases h with
      | plain h => exact absurd rfl h.head_sign.1
      | plus h => exact h
  · rename_i h1 h2
    rw [parseMagnitude_iff]
    constructor
    · exact .plain
    · intro h
      cases h with
      | plain h => exact h
      | plus h => exact absurd rfl (h2 _)
      | minus h => exact absurd rfl (h1 _)

/-- **C82** A text outside the grammar is refused. -/
theorem C82_refuses (w : List Char) : parse64 w = none ↔ ¬ ∃ a, FloatText w a := by
  rw [Option.eq_none_iff_forall_ne_some]
  simp only [ne_eq, C82_grammar, not_exists]

/-- Concrete cases: `-1.5e+3` is in the grammar, and is read as -1500; a lone point or exponent is not. -/
example : FloatText "-1.5e+3".toList (dbl (-1500)) ∧ parse64 "-1.5e+3".toList = some (dbl (-1500)) ∧ FloatText "InFiNiTy".toList (.inf false) ∧
    (¬ ∃ a, FloatText ".".toList a) ∧ (¬ ∃ a, FloatText "".toList a) ∧ (¬ ∃ a, FloatText "e5".toList a) ∧ ¬ ∃ a, FloatText "1 2".toList a := by
  refine ⟨(C82_grammar ..).1 (by decide +kernel), by decide +kernel, .plain (.infinity (by decide +kernel)), ?_, ?_, ?_, ?_⟩ <;>
    exact (C82_refuses _).1 (by decide +kernel)

end Verif
