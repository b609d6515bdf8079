import Mathlib.Data.List.Basic
import Mathlib.Logic.Function.Basic
import Verif.Code.Matrix
import Verif.Proofs.Monad

/-! # Loops over vectors -/

namespace Verif

variable {α β : Type}

@[simp] theorem R.ok_bind (a : α) (f : α → R β) : ((Except.ok a : R α) >>= f) = f a := rfl

@[simp] theorem R.error_bind (e : Panic) (f : α → R β) : ((Except.error e : R α) >>= f) = .error e := rfl

theorem R.bind_ok_iff {x : R α} {f : α → R β} {b : β} : (x >>= f) = .ok b ↔ ∃ a, x = .ok a ∧ f a = .ok b := by
  cases x <;> simp

@[simp] theorem assertR_true : assertR true = .ok () := rfl

@[simp] theorem assertR_false : assertR false = .error .assert := rfl

theorem assertR_eq_ok {b : Bool} : assertR b = .ok () ↔ b = true := by cases b <;> simp

theorem idx_of_lt {v : List α} {i : Nat} (h : i < v.length) : idx v i = .ok v[i] := by
  simp [idx, h]

theorem idx_of_ge {v : List α} {i : Nat} (h : v.length ≤ i) : idx v i = .error .index := by
  have : v[i]? = none := by simp [h]
  simp [idx, this]

theorem setIdx_of_lt {v : List α} {i : Nat} {a : α} (h : i < v.length) : setIdx v i a = .ok (v.set i a) := by
  simp [setIdx, h]

theorem setIdx_of_ge {v : List α} {i : Nat} {a : α} (h : v.length ≤ i) : setIdx v i a = .error .index := by
  simp [setIdx, Nat.not_lt.2 h]

/-- The vector `[f 0, ..., f (n-1)]`. -/
def tab (n : Nat) (f : Nat → α) : List α := (List.range n).map f

@[simp] theorem tab_length (n : Nat) (f : Nat → α) : (tab n f).length = n := by simp [tab]

theorem replicate_tab (n : Nat) (a : α) : List.replicate n a = tab n fun _ => a := by
  apply List.ext_getElem <;> simp [tab]

theorem idx_tab {n i : Nat} {f : Nat → α} (h : i < n) : idx (tab n f) i = .ok (f i) := by
  rw [idx_of_lt (by simpa using h)]
  simp [tab]

theorem idx_tab_ge {n i : Nat} {f : Nat → α} (h : n ≤ i) : idx (tab n f) i = .error .index := by
  rw [idx_of_ge (by simpa using h)]

theorem setIdx_tab {n i : Nat} {f : Nat → α} {a : α} (h : i < n) :
    setIdx (tab n f) i a = .ok (tab n (Function.update f i a)) := by
  rw [setIdx_of_lt (by simpa using h)]
  congr 1
  apply List.ext_getElem
  · simp
  · intro k h1 h2
    simp only [List.getElem_set, tab, List.getElem_map, List.getElem_range, Function.update_apply]
    simp [eq_comm]

theorem tab_congr {n : Nat} {f g : Nat → α} (h : ∀ i < n, f i = g i) : tab n f = tab n g := by
  unfold tab
  exact List.map_congr_left fun i hi => h i (List.mem_range.1 hi)

theorem eq_tab [Inhabited α] (l : List α) : l = tab l.length fun i => l[i]! := by
  apply List.ext_getElem
  · simp
  · intro i h1 h2
    simp [tab, h1]

theorem tab_getElem {n i : Nat} {f : Nat → α} (h : i < (tab n f).length) : (tab n f)[i] = f i := by simp [tab]

/-- Loop invariant rule. -/
theorem foldR_inv {f : β → α → R β} {l : List α} {b : β} (I : List α → β → Prop) (h0 : I [] b)
    (hs : ∀ pre a post s, l = pre ++ a :: post → I pre s → ∃ s', f s a = .ok s' ∧ I (pre ++ [a]) s') :
    ∃ s, foldR f b l = .ok s ∧ I l s := by
  suffices H : ∀ post pre b, l = pre ++ post → I pre b → ∃ s, foldR f b post = .ok s ∧ I l s from H l [] b rfl h0
  intro post
  induction post with
  | nil => intro pre b hl hb; subst hl; exact ⟨b, rfl, by simpa using hb⟩
  | cons a post ih =>
    intro pre b hl hb
    obtain ⟨s', h1, h2⟩ := hs pre a post b hl hb
    obtain ⟨s, h3, h4⟩ := ih (pre ++ [a]) s' (by simp [hl]) h2
    exact ⟨s, by simp [foldR, h1, h3], h4⟩

/-- Loop invariant rule for counted loops. -/
theorem foldR_range {f : β → Nat → R β} {n : Nat} {b : β} (I : Nat → β → Prop) (h0 : I 0 b)
    (hs : ∀ t s, t < n → I t s → ∃ s', f s t = .ok s' ∧ I (t + 1) s') :
    ∃ s, foldR f b (List.range n) = .ok s ∧ I n s := by
  obtain ⟨s, h1, h2⟩ := foldR_inv (f := f) (l := List.range n) (b := b) (fun pre s => I pre.length s) h0 (by
    intro pre a post s hl hi
    have hlen : pre.length < n := by
      have := congrArg List.length hl
      simp at this
      omega
    have ha : a = pre.length := by
      have h1 : (List.range n)[pre.length]'(by simpa using hlen) = pre.length := by simp
      simp only [hl] at h1
      simpa using h1
    subst ha
    obtain ⟨s', h1, h2⟩ := hs pre.length s hlen hi
    exact ⟨s', h1, by simpa using h2⟩)
  exact ⟨s, h1, by simpa using h2⟩

theorem foldR_map {γ : Type} {f : β → α → R β} {g : γ → α} {b : β} (l : List γ) :
    foldR f b (l.map g) = foldR (fun s c => f s (g c)) b l := by
  induction l generalizing b with
  | nil => rfl
  | cons c l ih => simp only [List.map_cons, foldR]; cases f b (g c) <;> simp [ih]

theorem foldR_congr {f g : β → α → R β} {b : β} {l : List α} (h : ∀ a ∈ l, ∀ s, f s a = g s a) :
    foldR f b l = foldR g b l := by
  induction l generalizing b with
  | nil => rfl
  | cons c l ih =>
    simp only [foldR]
    rw [h c (by simp)]
    cases g b c with
    | error e => rfl
    | ok s => exact ih fun a ha => h a (by simp [ha])

/-- A loop whose body panics on some element, and never with another panic, panics. -/
theorem foldR_error {f : β → α → R β} {l : List α} {b : β} {e : Panic} (I : β → Prop) (P : α → Prop) (h0 : I b)
    (hs : ∀ s a, I s → ¬ P a → ∃ s', f s a = .ok s' ∧ I s') (he : ∀ s a, I s → P a → f s a = .error e)
    (hx : ∃ a ∈ l, P a) : foldR f b l = .error e := by
  induction l generalizing b with
  | nil => simp at hx
  | cons a l ih =>
    by_cases ha : P a
    · simp [foldR, he b a h0 ha]
    · obtain ⟨s', h1, h2⟩ := hs b a h0 ha
      simp only [foldR, h1]
      apply ih h2
      obtain ⟨c, hc, hp⟩ := hx
      rcases List.mem_cons.1 hc with rfl | hc
      · exact absurd hp ha
      · exact ⟨c, hc, hp⟩

theorem incIdx_tab {n i : Nat} {f : Nat → Nat} (h : i < n) :
    incIdx (tab n f) i = .ok (tab n (Function.update f i (f i + 1))) := by
  simp [incIdx, idx_tab h, setIdx_tab h]

/-- Counting loop. -/
theorem foldR_incIdx {n : Nat} {f : Nat → Nat} {rs : List Nat} (h : ∀ r ∈ rs, r < n) :
    foldR incIdx (tab n f) rs = .ok (tab n fun i => f i + rs.count i) := by
  induction rs generalizing f with
  | nil => simp [foldR]
  | cons r rs ih =>
    simp only [foldR, incIdx_tab (h r (by simp))]
    rw [ih fun r' hr' => h r' (by simp [hr'])]
    congr 1
    apply tab_congr
    intro i _
    simp only [Function.update_apply, List.count_cons]
    by_cases hi : i = r
    · subst hi; simp; omega
    · have : (r == i) = false := by simpa using Ne.symm hi
      simp [hi, this]

theorem foldR_incIdx_error {n : Nat} {f : Nat → Nat} {rs : List Nat} (h : ∃ r ∈ rs, n ≤ r) :
    foldR incIdx (tab n f) rs = .error .index := by
  refine foldR_error (fun s => s.length = n) (fun r => n ≤ r) (by simp) ?_ ?_ h
  · intro s a hs ha
    have : a < s.length := by omega
    exact ⟨s.set a (s[a] + 1), by simp only [incIdx, idx_of_lt this, R.ok_bind, setIdx_of_lt this], by simp [hs]⟩
  · intro s a hs ha
    simp [incIdx, idx_of_ge (show s.length ≤ a by omega)]

/-- `c 0 + ... + c (i-1)` -/
def psum (c : Nat → Nat) (i : Nat) : Nat := ((List.range i).map c).sum

theorem psum_zero (c : Nat → Nat) : psum c 0 = 0 := rfl

theorem psum_succ (c : Nat → Nat) (i : Nat) : psum c (i + 1) = psum c i + c i := by
  simp [psum, List.range_succ]

theorem psum_mono (c : Nat → Nat) {i j : Nat} (h : i ≤ j) : psum c i ≤ psum c j := by
  induction j with
  | zero => simp at h; subst h; exact Nat.le_refl _
  | succ j ih =>
    rcases Nat.lt_or_ge i (j + 1) with h' | h'
    · rw [psum_succ]; have := ih (by omega); omega
    · have : i = j + 1 := by omega
      subst this; exact Nat.le_refl _

theorem psum_congr {c d : Nat → Nat} {i : Nat} (h : ∀ j < i, c j = d j) : psum c i = psum d i := by
  unfold psum
  rw [List.map_congr_left fun j hj => h j (List.mem_range.1 hj)]

theorem zip_range_tab (n : Nat) (c : Nat → α) : (List.range n).zip (tab n c) = (List.range n).map fun i => (i, c i) := by
  apply List.ext_getElem <;> simp [tab]

theorem fillPtr_tab {n : Nat} {g c : Nat → Nat} (h0 : g 0 = 0) :
    fillPtr (tab (n + 1) g) (tab n c) = .ok (tab (n + 1) (psum c)) := by
  unfold fillPtr
  rw [tab_length, zip_range_tab, foldR_map]
  obtain ⟨s, h1, h2⟩ := foldR_range (n := n) (b := (tab (n + 1) g, 0))
    (f := fun (s : List Nat × Nat) i => (do
      let p ← setIdx s.1 (i + 1) (s.2 + c i)
      .ok (p, s.2 + c i) : R (List Nat × Nat)))
    (fun t s => s = (tab (n + 1) (fun i => if i ≤ t then psum c i else g i), psum c t))
    (by
      simp only [psum_zero, Prod.mk.injEq, and_true]
      apply tab_congr
      intro i _
      split
      · rename_i h; have : i = 0 := by omega
        subst this; exact h0
      · rfl)
    (by
      rintro t s ht rfl
      simp only [setIdx_tab (show t + 1 < n + 1 by omega), R.ok_bind]
      refine ⟨_, rfl, ?_⟩
      rw [psum_succ]
      congr 1
      apply tab_congr
      intro i _
      simp only [Function.update_apply]
      by_cases h1 : i = t + 1
      · subst h1; simp [psum_succ]
      · by_cases h2 : i ≤ t
        · simp [h1, h2, Nat.le_succ_of_le h2]
        · have : ¬ i ≤ t + 1 := by omega
          simp [h1, h2, this])
  simp only [h1, R.ok_bind, h2]
  congr 1
  apply tab_congr
  intro i hi
  simp [show i ≤ n by omega]

end Verif
