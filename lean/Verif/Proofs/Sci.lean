import Mathlib.Tactic.Linarith
import Mathlib.Tactic.NormNum
import Mathlib.Tactic.Ring
import Mathlib.Tactic.FieldSimp
import Mathlib.Tactic.Positivity
import Verif.Code.Sci
import Verif.Spec.Decimal
import Verif.Proofs.Text

/-! # The format `{:.10e}` -/

namespace Verif

set_option linter.unusedSectionVars false

section
variable {K : Type} [Field K] [LinearOrder K] [IsStrictOrderedRing K] [FloorSemiring K]

theorem halfEven_near {a : K} (h : 0 ≤ a) : |(halfEven a : K) - a| ≤ 1 / 2 := by
  have h1 := Nat.floor_le h
  have h2 := Nat.lt_floor_add_one a
  unfold halfEven
  split
  · rw [abs_le]; constructor <;> linarith
  · split
    · push_cast; rw [abs_le]; constructor <;> linarith
    · split
      · rw [abs_le]; constructor <;> linarith
      · push_cast; rw [abs_le]; constructor <;> linarith

theorem halfEven_nat (n : Nat) : halfEven (n : K) = n := by
  unfold halfEven
  rw [Nat.floor_natCast, sub_self, if_pos (by norm_num)]

theorem halfEven_between {a : K} (h : 0 ≤ a) {k : Nat} : ((k : K) ≤ a → k ≤ halfEven a) ∧ (a < k → halfEven a ≤ k) := by
  have h1 := Nat.floor_le h
  have h2 := Nat.lt_floor_add_one a
  have hge : ⌊a⌋₊ ≤ halfEven a := by unfold halfEven; split <;> [skip; (split <;> [skip; split])] <;> omega
  have hle : halfEven a ≤ ⌊a⌋₊ + 1 := by unfold halfEven; split <;> [skip; (split <;> [skip; split])] <;> omega
  refine ⟨fun hk => (Nat.le_floor hk).trans hge, fun hk => hle.trans ?_⟩
  exact (Nat.floor_lt h).2 hk

/-- What the digits and the exponent are. -/
theorem sciParts_spec {a : K} (h : 0 < a) :
    10 ^ 10 ≤ (sciParts a).1 ∧ (sciParts a).1 < 10 ^ 11 ∧
    |((sciParts a).1 : K) * 10 ^ ((sciParts a).2 - 10) - a| ≤ 1 / 2 * 10 ^ (Int.log 10 a - 10) ∧ (10 : K) ^ Int.log 10 a ≤ a := by
  have hlo : ((10 : Nat) : K) ^ Int.log 10 a ≤ a := Int.zpow_log_le_self (by norm_num) h
  have hhi : a < ((10 : Nat) : K) ^ (Int.log 10 a + 1) := Int.lt_zpow_succ_log_self (by norm_num) a
  push_cast at hlo hhi
  set e := Int.log 10 a with he
  have hp : (0 : K) < 10 ^ (e - 10) := zpow_pos (by norm_num) _
  have e1 : (10 : K) ^ e = 10 ^ 10 * 10 ^ (e - 10) := by
    rw [← zpow_natCast, ← zpow_add₀ (by norm_num : (10 : K) ≠ 0)]; congr 1; push_cast; ring
  have e2 : (10 : K) ^ (e + 1) = 10 ^ 11 * 10 ^ (e - 10) := by
    rw [← zpow_natCast, ← zpow_add₀ (by norm_num : (10 : K) ≠ 0)]; congr 1; push_cast; ring
  have hb0 : 0 ≤ a / 10 ^ (e - 10) := by positivity
  have hb1 : ((10 ^ 10 : Nat) : K) ≤ a / 10 ^ (e - 10) := by
    rw [le_div_iff₀ hp]; push_cast; linarith
  have hb2 : a / 10 ^ (e - 10) < ((10 ^ 11 : Nat) : K) := by
    rw [div_lt_iff₀ hp]; push_cast; linarith
  have hm1 := (halfEven_between hb0).1 hb1
  have hm2 := (halfEven_between hb0).2 hb2
  have hn : |(halfEven (a / 10 ^ (e - 10)) : K) * 10 ^ (e - 10) - a| ≤ 1 / 2 * 10 ^ (e - 10) := by
    have := mul_le_mul_of_nonneg_right (halfEven_near hb0) hp.le
    rw [← abs_of_pos hp, ← abs_mul, abs_of_pos hp, sub_mul, div_mul_cancel₀ _ hp.ne'] at this
    exact this
  unfold sciParts
  rw [← he]
  split
  · rename_i heq
    refine ⟨le_rfl, by norm_num, ?_, hlo⟩
    rw [heq] at hn
    have : ((10 ^ 10 : Nat) : K) * 10 ^ (e + 1 - 10) = ((10 ^ 11 : Nat) : K) * 10 ^ (e - 10) := by
      have : (10 : K) ^ (e + 1 - 10) = 10 * 10 ^ (e - 10) := by
        rw [show e + 1 - 10 = (e - 10) + 1 by ring, zpow_add_one₀ (by norm_num)]; ring
      rw [this]; push_cast; ring
    simp only
    rw [this]
    exact hn
  · rename_i hne
    exact ⟨hm1, lt_of_le_of_ne hm2 hne, hn, hlo⟩

/-- Eleven digits. -/
theorem natText_length {m : Nat} (h1 : 10 ^ 10 ≤ m) (h2 : m < 10 ^ 11) : (natText m).length = 11 := by
  have a := (Nat.length_toDigits_le_iff (b := 10) (n := m) (k := 11) (by norm_num) (by norm_num)).2 h2
  have b := mt (Nat.length_toDigits_le_iff (b := 10) (n := m) (k := 10) (by norm_num) (by norm_num)).1 (by omega)
  unfold natText
  omega

theorem takeWhile_all {α : Type} {p : α → Bool} {l r : List α} (h : ∀ x ∈ l, p x = true) (hr : ∀ x, r.head? = some x → p x = false) :
    (l ++ r).takeWhile p = l ∧ (l ++ r).dropWhile p = r := by
  induction l with
  | nil =>
    cases r with
    | nil => simp
    | cons x r => simp [hr x rfl]
  | cons y l ih =>
    obtain ⟨i1, i2⟩ := ih fun x hx => h x (by simp [hx])
    simp [h y (by simp), i1, i2]

theorem readExp_intText (e : Int) : readExp (intText e) = some e := by
  unfold intText
  have hd : ∀ n : Nat, natText n ≠ [] ∧ (natText n).all Char.isDigit = true := fun n =>
    ⟨natText_ne_nil n, List.all_eq_true.2 fun c hc => natText_digits hc⟩
  split
  · rw [readExp, if_pos (hd _), natText, Nat.ofDigitChars_ten_toDigits]
    congr 1
    omega
  · have key : readExp (natText e.natAbs) = some (Nat.ofDigitChars 10 (natText e.natAbs) 0 : Int) := by
      have h1 := hd e.natAbs
      have h2 : ∀ c ∈ natText e.natAbs, c.isDigit = true := fun c hc => natText_digits hc
      revert h1 h2
      generalize natText e.natAbs = w
      intro h1 h2
      unfold readExp
      split
      · exact absurd (h2 '-' (by simp)) (by decide)
      · exact absurd (h2 '+' (by simp)) (by decide)
      · rw [if_pos h1]
    rw [key, natText, Nat.ofDigitChars_ten_toDigits]
    congr 1
    omega

/-- The text of a positive number is read as the rounded number. -/
theorem readUnsigned_sciPos {a : K} (h : 0 < a) : readUnsigned (sciPos a) = some (((sciParts a).1 : K) * 10 ^ ((sciParts a).2 - 10)) := by
  obtain ⟨h1, h2, -, -⟩ := sciParts_spec h
  have hlen := natText_length h1 h2
  have hdig : ∀ c ∈ natText (sciParts a).1, c.isDigit = true := fun c hc => natText_digits hc
  have hval : Nat.ofDigitChars 10 (natText (sciParts a).1) 0 = (sciParts a).1 := by rw [natText, Nat.ofDigitChars_ten_toDigits]
  unfold sciPos
  revert hlen hdig hval
  generalize natText (sciParts a).1 = w
  intro hlen hdig hval
  match w, hlen with
  | d :: ds, hlen =>
    have t1 := takeWhile_all (p := Char.isDigit) (l := [d]) (r := '.' :: (ds ++ 'e' :: intText (sciParts a).2))
      (fun x hx => hdig x (by simp_all)) (fun x hx => by simp at hx; subst hx; decide)
    have t2 := takeWhile_all (p := Char.isDigit) (l := ds) (r := 'e' :: intText (sciParts a).2)
      (fun x hx => hdig x (by simp [hx])) (fun x hx => by simp at hx; subst hx; decide)
    have hw : mantText (d :: ds) ++ 'e' :: intText (sciParts a).2 = [d] ++ '.' :: (ds ++ 'e' :: intText (sciParts a).2) := by simp [mantText]
    unfold readUnsigned
    rw [hw, t1.1, t1.2]
    simp only [splitFrac, t2.1, t2.2, splitExp, readExp_intText, Option.map_some]
    rw [if_neg (by simp)]
    have hl : ds.length = 10 := by simpa using hlen
    rw [hl, List.singleton_append, hval]
    rfl

/-- The number that `{:.10e}` prints. -/
def sciRound (q : K) : K :=
  if q = 0 then 0 else if q < 0 then -(((sciParts (-q)).1 : K) * 10 ^ ((sciParts (-q)).2 - 10)) else ((sciParts q).1 : K) * 10 ^ ((sciParts q).2 - 10)

theorem sciRound_neg (q : K) : sciRound (-q) = -sciRound q := by
  unfold sciRound
  rcases lt_trichotomy q 0 with h | h | h
  · rw [if_neg (by simpa using h.ne), if_neg (by simpa using h.le), if_neg h.ne, if_pos h, neg_neg]
  · simp [h]
  · rw [if_neg (by simpa using h.ne'), if_pos (by simpa using h), if_neg h.ne', if_neg (not_lt.2 h.le), neg_neg]

theorem sciRound_zero : sciRound (0 : K) = 0 := by simp [sciRound]

theorem sciRound_pos {q : K} (h : 0 < q) : sciRound q = ((sciParts q).1 : K) * 10 ^ ((sciParts q).2 - 10) := by
  rw [sciRound, if_neg h.ne', if_neg (not_lt.2 h.le)]

/-- Nothing is nearer than the nearest integer. -/
theorem halfEven_nearest {b : K} (h : 0 ≤ b) (z : ℤ) : |(halfEven b : K) - b| ≤ |(z : K) - b| := by
  by_cases hz : z = halfEven b
  · rw [hz]; simp
  · have h1 := halfEven_near h
    have h2 : (1 : K) ≤ |(z : K) - (halfEven b : K)| := by
      have : (1 : ℤ) ≤ |z - (halfEven b : ℤ)| := Int.one_le_abs (sub_ne_zero.2 hz)
      have := (Int.cast_le (R := K)).2 this
      push_cast at this
      exact this
    have h3 : |(z : K) - (halfEven b : K)| ≤ |(z : K) - b| + |(halfEven b : K) - b| := by
      rw [abs_sub_comm (halfEven b : K) b]
      exact abs_sub_le _ _ _
    linarith

theorem sciParts_value {a : K} (h : 0 < a) :
    ((sciParts a).1 : K) * 10 ^ ((sciParts a).2 - 10) = (halfEven (a / 10 ^ (Int.log 10 a - 10)) : K) * 10 ^ (Int.log 10 a - 10) := by
  unfold sciParts
  split
  · rename_i heq
    rw [heq]
    have : (10 : K) ^ (Int.log 10 a + 1 - 10) = 10 * 10 ^ (Int.log 10 a - 10) := by
      rw [show Int.log 10 a + 1 - 10 = (Int.log 10 a - 10) + 1 by ring, zpow_add_one₀ (by norm_num)]; ring
    simp only
    rw [this]; push_cast; ring
  · rfl

/-- No number with eleven digits is nearer, for positive numbers. -/
theorem sciRound_nearest_pos {a : K} (h : 0 < a) {v : K} (hv : HasDigits 11 v) : |sciRound a - a| ≤ |v - a| := by
  obtain ⟨-, -, -, hlo⟩ := sciParts_spec h
  rw [sciRound_pos h, sciParts_value h]
  set e := Int.log 10 a
  have hp : (0 : K) < 10 ^ (e - 10) := zpow_pos (by norm_num) _
  have e1 : (10 : K) ^ e = 10 ^ 10 * 10 ^ (e - 10) := by
    rw [← zpow_natCast, ← zpow_add₀ (by norm_num : (10 : K) ≠ 0)]; congr 1; push_cast; ring
  have hb0 : 0 ≤ a / 10 ^ (e - 10) := by positivity
  have key : ∀ z : ℤ, |(halfEven (a / 10 ^ (e - 10)) : K) * 10 ^ (e - 10) - a| ≤ |(z : K) * 10 ^ (e - 10) - a| := by
    intro z
    have := mul_le_mul_of_nonneg_right (halfEven_nearest hb0 z) hp.le
    rw [← abs_of_pos hp, ← abs_mul, ← abs_mul, abs_of_pos hp, sub_mul, sub_mul, div_mul_cancel₀ _ hp.ne'] at this
    exact this
  by_cases hlt : v < 10 ^ e
  · refine (key (10 ^ 10)).trans ?_
    have e3 : ((10 ^ 10 : ℤ) : K) * 10 ^ (e - 10) = 10 ^ e := by rw [e1]; push_cast; norm_num
    rw [e3, abs_of_nonpos (by linarith), abs_of_nonpos (by linarith)]
    linarith
  · push Not at hlt
    obtain ⟨k, j, hk, rfl⟩ := hv
    have hpj : (0 : K) < 10 ^ j := zpow_pos (by norm_num) _
    have hk' : (k : K) < 10 ^ 11 := by
      have : (k : ℤ) < 10 ^ 11 := by
        have := Int.le_natAbs (a := k)
        omega
      exact_mod_cast this
    have hj : e - 10 ≤ j := by
      by_contra hcon
      push Not at hcon
      have h1 : (10 : K) ^ j ≤ 10 ^ (e - 11) := zpow_le_zpow_right₀ (by norm_num) (by omega)
      have h2 : (10 : K) ^ e = 10 ^ 11 * 10 ^ (e - 11) := by
        rw [← zpow_natCast, ← zpow_add₀ (by norm_num : (10 : K) ≠ 0)]; congr 1; push_cast; ring
      have h3 : (k : K) * 10 ^ j < 10 ^ 11 * 10 ^ j := mul_lt_mul_of_pos_right hk' hpj
      have h4 : (10 : K) ^ 11 * 10 ^ j ≤ 10 ^ 11 * 10 ^ (e - 11) := mul_le_mul_of_nonneg_left h1 (by positivity)
      linarith
    obtain ⟨n, hn⟩ := Int.eq_ofNat_of_zero_le (sub_nonneg.2 hj)
    have : (k : K) * 10 ^ j = ((k * 10 ^ n : ℤ) : K) * 10 ^ (e - 10) := by
      push_cast
      rw [show j = (n : ℤ) + (e - 10) by omega, zpow_add₀ (by norm_num), zpow_natCast]
      ring
    rw [this]
    exact key _

theorem HasDigits.neg {d : Nat} {q : K} (h : HasDigits d q) : HasDigits d (-q) := by
  obtain ⟨k, e, hk, rfl⟩ := h
  exact ⟨-k, e, by simpa using hk, by push_cast; ring⟩

theorem sciRound_nearest (w : K) {v : K} (hv : HasDigits 11 v) : |sciRound w - w| ≤ |v - w| := by
  rcases lt_trichotomy w 0 with h | h | h
  · have := sciRound_nearest_pos (neg_pos.2 h) hv.neg
    rw [sciRound_neg, ← neg_add', abs_neg, ← neg_add', abs_neg] at this
    simpa [sub_eq_add_neg] using this
  · rw [h, sciRound_zero]; simp
  · exact sciRound_nearest_pos h hv

theorem sciRound_rel_pos {a : K} (h : 0 < a) : |sciRound a - a| ≤ 5 / 10 ^ 11 * |a| := by
  obtain ⟨-, -, hn, hlo⟩ := sciParts_spec h
  rw [sciRound_pos h]
  refine hn.trans ?_
  have e1 : (10 : K) ^ Int.log 10 a = 10 ^ 10 * 10 ^ (Int.log 10 a - 10) := by
    rw [← zpow_natCast, ← zpow_add₀ (by norm_num : (10 : K) ≠ 0)]; congr 1; push_cast; ring
  rw [abs_of_pos h]
  have : (5 : K) / 10 ^ 11 * 10 ^ Int.log 10 a ≤ 5 / 10 ^ 11 * a := mul_le_mul_of_nonneg_left hlo (by positivity)
  refine le_trans (le_of_eq ?_) this
  rw [e1]
  ring

theorem sciRound_rel (w : K) : |sciRound w - w| ≤ 5 / 10 ^ 11 * |w| := by
  rcases lt_trichotomy w 0 with h | h | h
  · have := sciRound_rel_pos (neg_pos.2 h)
    rw [sciRound_neg, abs_neg, ← neg_add', abs_neg] at this
    simpa [sub_eq_add_neg] using this
  · rw [h, sciRound_zero]; simp
  · exact sciRound_rel_pos h

theorem sciRound_digits (w : K) : HasDigits 11 (sciRound w) := by
  have hpos : ∀ a : K, 0 < a → HasDigits 11 (sciRound a) := by
    intro a h
    obtain ⟨-, h2, -, -⟩ := sciParts_spec h
    exact ⟨((sciParts a).1 : ℤ), (sciParts a).2 - 10, by simpa using h2, by rw [sciRound_pos h]; push_cast; rfl⟩
  rcases lt_trichotomy w 0 with h | h | h
  · have := (hpos _ (neg_pos.2 h)).neg
    rwa [sciRound_neg, neg_neg] at this
  · rw [h, sciRound_zero]; exact ⟨0, 0, by norm_num, by simp⟩
  · exact hpos w h

theorem sciRound_exact {w : K} (h : HasDigits 11 w) : sciRound w = w := by
  have := sciRound_nearest w h
  rw [sub_self, abs_zero] at this
  exact sub_eq_zero.1 (abs_eq_zero.1 (le_antisymm this (abs_nonneg _)))

theorem sciPos_head (a : K) (h : 0 < a) : ∃ d w, sciPos a = d :: w ∧ d.isDigit = true := by
  obtain ⟨h1, h2, -, -⟩ := sciParts_spec h
  have hlen := natText_length h1 h2
  have hdig : ∀ c ∈ natText (sciParts a).1, c.isDigit = true := fun c hc => natText_digits hc
  unfold sciPos
  revert hlen hdig
  generalize natText (sciParts a).1 = w
  intro hlen hdig
  match w, hlen with
  | d :: ds, _ => exact ⟨d, _, rfl, hdig d (by simp)⟩

theorem readDecimal_digit {d : Char} {w : List Char} (h : d.isDigit = true) : (readDecimal (d :: w) : Option (Option K)) = (readUnsigned (d :: w)).map some := by
  unfold readDecimal
  split
  · rename_i heq; injection heq with h1; subst h1; exact absurd h (by decide)
  · rename_i heq; injection heq with h1; subst h1; exact absurd h (by decide)
  · rename_i heq; injection heq with h1; subst h1; exact absurd h (by decide)
  · rfl

theorem readDecimal_sciText (v : Option K) : readDecimal (sciText v) = some (v.map sciRound) := by
  cases v with
  | none => rfl
  | some q =>
    rcases lt_trichotomy q 0 with h | h | h
    · simp only [sciText, if_neg h.ne, if_pos h, readDecimal, readUnsigned_sciPos (neg_pos.2 h), Option.map_some]
      rw [sciRound, if_neg h.ne, if_pos h]
    · subst h
      simp only [sciText, if_true, Option.map_some, sciRound_zero]
      rw [readDecimal_digit (by decide)]
      have : Nat.ofDigitChars 10 ['0', '0', '0', '0', '0', '0', '0', '0', '0', '0', '0'] 0 = 0 := by decide
      simp [readUnsigned, splitFrac, splitExp, readExp, Char.isDigit, this]
    · simp only [sciText, if_neg h.ne', if_neg (not_lt.2 h.le)]
      obtain ⟨d, w, hw, hd⟩ := sciPos_head q h
      rw [hw, readDecimal_digit hd, ← hw, readUnsigned_sciPos h, Option.map_some, Option.map_some, sciRound_pos h]

theorem sciText_plain (v : Option K) : Plain (sciText v) := by
  have hpos : ∀ a : K, Plain (sciPos a) := by
    intro a
    have hm : ∀ l : List Char, (∀ c ∈ l, isBlank c = false) → ∀ c ∈ mantText l, isBlank c = false := by
      intro l hl c hc
      cases l with
      | nil => simp [mantText] at hc
      | cons d ds =>
        simp only [mantText, List.mem_cons] at hc
        rcases hc with rfl | rfl | hc
        · exact hl _ (by simp)
        · decide
        · exact hl _ (by simp [hc])
    have hi : ∀ e : ℤ, ∀ c ∈ intText e, isBlank c = false := by
      intro e c hc
      unfold intText at hc
      split at hc
      · simp only [List.mem_cons] at hc
        rcases hc with rfl | hc
        · decide
        · exact (natText_plain _).2 c hc
      · exact (natText_plain _).2 c hc
    refine ⟨by simp [sciPos], fun c hc => ?_⟩
    simp only [sciPos, List.mem_append, List.mem_cons] at hc
    rcases hc with hc | rfl | hc
    · exact hm _ (natText_plain _).2 c hc
    · decide
    · exact hi _ c hc
  cases v with
  | none => exact (⟨by decide, by decide⟩ : Plain ['N', 'a', 'N'])
  | some q =>
    simp only [sciText]
    split
    · exact ⟨by decide, by decide⟩
    · split
      · refine ⟨by simp, fun c hc => ?_⟩
        simp only [List.mem_cons] at hc
        rcases hc with rfl | hc
        · decide
        · exact (hpos _).2 c hc
      · exact hpos q

end

end Verif
